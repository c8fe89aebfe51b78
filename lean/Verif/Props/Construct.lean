import Verif.Model.Construct
import Verif.Props.Problem
import Verif.Props.ProblemTerms
import Mathlib.Tactic.Linarith
import Mathlib.Tactic.Ring
import Mathlib.Tactic.FieldSimp
import Mathlib.Algebra.Order.Field.Basic
import Mathlib.Algebra.Order.Field.Rat

set_option linter.unusedSectionVars false
set_option linter.unusedVariables false

/-!
# C112-C113: what ConstructProblem builds and accepts
-/

namespace Verif.Construct

open Verif.Problem Verif.BasicArray Verif.Sco Verif.KinTerms Verif.Traj

/-! ### C113: types of the terms -/

theorem supported_both (k : TermKind) : k.supported.cost = true ∧ k.supported.cnt = true := by cases k <;> exact ⟨rfl, rfl⟩

theorem checkInfos_iff (asCost : Bool) (l : List Info) : ∀ s b, checkInfos asCost l s = some b ↔
    (∀ i ∈ l, i.type.useTime = true → i.kind.supported.useTime = true) ∧ b = (s || l.any fun i => i.type.useTime) := by
  induction l with
  | nil =>
    intro s b
    show (some s = some b) ↔ _
    rw [Option.some.injEq]
    simp only [List.not_mem_nil, false_imp_iff, implies_true, true_and, List.any_nil, Bool.or_false]
    exact eq_comm
  | cons i l ih =>
    intro s b
    have hs := supported_both i.kind
    have hstep : checkInfos asCost (i :: l) s = ((if i.type.useTime then (if !i.kind.supported.useTime then none else some true)
        else some s : Option Bool)).bind fun u => checkInfos asCost l u := by
      unfold checkInfos
      rw [List.foldlM_cons, if_neg (by cases asCost <;> simp [hs.1, hs.2])]
      rfl
    rw [hstep]
    cases ht : i.type.useTime with
    | false => simp [ih, ht]
    | true => cases hk : i.kind.supported.useTime <;> simp [ih, ht, hk]

/-- C113: the types are accepted exactly if every term that asks for time supports it and `basic_info.use_time` says whether there
is such a term. -/
theorem C113_accepts (costs cnts : List Info) (flag : Bool) :
    checkTypes costs cnts flag = true ↔ (∀ i ∈ costs ++ cnts, i.type.useTime = true → i.kind.supported.useTime = true) ∧
      (flag = true ↔ ∃ i ∈ costs ++ cnts, i.type.useTime = true) := by
  have key : ∀ i : Info, i.type.useTime = true ∧ i.kind.supported.useTime ≠ true → ∀ (b : Bool) l s, i ∈ l → checkInfos b l s = none := by
    intro i hi b l s hm
    cases h : checkInfos b l s with
    | none => rfl
    | some a => exact absurd (((checkInfos_iff b l s a).1 h).1 i hm hi.1) hi.2
  by_cases hall : ∀ i ∈ costs ++ cnts, i.type.useTime = true → i.kind.supported.useTime = true
  · have h1 := (checkInfos_iff true costs false _).2 ⟨fun i hi => hall i (by simp [hi]), rfl⟩
    have h2 := (checkInfos_iff false cnts (false || costs.any fun i => i.type.useTime) _).2
      ⟨fun i hi => hall i (by simp [hi]), rfl⟩
    have h3 : (∃ i ∈ costs ++ cnts, i.type.useTime = true) ↔
        ((false || costs.any fun i => i.type.useTime) || cnts.any fun i => i.type.useTime) = true := by
      rw [Bool.false_or, ← List.any_append, List.any_eq_true]
    unfold checkTypes
    rw [h1]
    dsimp only
    rw [h2]
    dsimp only
    rw [h3]
    generalize ((false || costs.any fun i => i.type.useTime) || cnts.any fun i => i.type.useTime) = b
    cases b <;> cases flag <;> simp
    all_goals exact fun i hi => hall i (List.mem_append.2 hi)
  · refine ⟨fun h => absurd ?_ hall, fun h => absurd h.1 hall⟩
    push Not at hall
    obtain ⟨i, hi, h1, h2⟩ := hall
    exfalso
    unfold checkTypes at h
    rcases List.mem_append.1 hi with hi | hi
    · rw [key i ⟨h1, by simp [h2]⟩ true costs false hi] at h
      simp at h
    · cases hc : checkInfos true costs false with
      | none => rw [hc] at h; simp at h
      | some a =>
        rw [hc] at h
        dsimp only at h
        rw [key i ⟨h1, by simp [h2]⟩ false cnts a hi] at h
        simp at h

/-- C113: in an accepted problem a term of the cost list declared as a cost adds costs.  (Partial: see the violations for other
declarations.) -/
theorem C113_costs_partial (costs cnts : List Info) (flag : Bool) (h : checkTypes costs cnts flag = true) (i : Info)
    (hi : i ∈ costs) (h1 : i.type.cost = true) (h2 : i.type.cnt = false) : i.kind.made i.type = .costs := by
  have ht := ((C113_accepts costs cnts flag).1 h).1 i (by simp [hi])
  obtain ⟨k, ⟨a, b, c⟩⟩ := i
  simp only at h1 h2 ht ⊢
  subst h1 h2
  cases k <;> cases c <;> simp_all [TermKind.made, TermKind.supported, madeAny]

/-- C113: a term of the constraint list declared as a constraint adds constraints. -/
theorem C113_cnts_partial (costs cnts : List Info) (flag : Bool) (h : checkTypes costs cnts flag = true) (i : Info)
    (hi : i ∈ cnts) (h1 : i.type.cost = false) (h2 : i.type.cnt = true) : i.kind.made i.type = .cnts := by
  have ht := ((C113_accepts costs cnts flag).1 h).1 i (by simp [hi])
  obtain ⟨k, ⟨a, b, c⟩⟩ := i
  simp only at h1 h2 ht ⊢
  subst h1 h2
  cases k <;> cases c <;> simp_all [TermKind.made, TermKind.supported, madeAny]

/-- C113 fails for a term in the wrong list: it is accepted, and made what it is declared to be, not what its list says. -/
theorem C113_violated_list (k : TermKind) :
    checkTypes [⟨k, ⟨false, true, false⟩⟩] [] false = true ∧ k.made ⟨false, true, false⟩ = .cnts ∧
    checkTypes [] [⟨k, ⟨true, false, false⟩⟩] false = true ∧ k.made ⟨true, false, false⟩ = .costs := by
  cases k <;> decide

/-- C113 fails for a term without a declared type: it is accepted in either list and silently adds nothing; a collision term adds
constraints, also in the cost list. -/
theorem C113_violated_undeclared (k : TermKind) :
    checkTypes [⟨k, ⟨false, false, false⟩⟩] [] false = true ∧ checkTypes [] [⟨k, ⟨false, false, false⟩⟩] false = true ∧
    k.made ⟨false, false, false⟩ = if k = .collision then .cnts else if k = .totalTime then .exc else .nothing := by
  cases k <;> decide

/-- C113 fails for a term declared as both: a collision term adds constraints, all others costs; a velocity term that also uses
time adds nothing. -/
theorem C113_violated_both (k : TermKind) :
    checkTypes [⟨k, ⟨true, true, false⟩⟩] [] false = true ∧
    k.made ⟨true, true, false⟩ = (if k = .collision then .cnts else .costs) ∧
    checkTypes [⟨.jointVel, ⟨true, true, true⟩⟩] [] true = true ∧ TermKind.jointVel.made ⟨true, true, true⟩ = .nothing := by
  cases k <;> decide

/-- non-vacuity for C113: a problem with four terms, two of them with time, is accepted. -/
example : checkTypes [⟨.jointVel, ⟨true, false, true⟩⟩, ⟨.collision, ⟨true, false, false⟩⟩]
    [⟨.totalTime, ⟨false, true, true⟩⟩, ⟨.cartPose, ⟨false, true, false⟩⟩] true = true := by decide

/-- and one with a pose term that asks for time is not. -/
example : checkTypes [⟨.cartPose, ⟨true, false, true⟩⟩] [] true = false := by decide

/-! ### C112: variables, bounds and starting point -/

section init
variable {K : Type} [Field K]

/-- Specification: columns of the trajectory. -/
def Pci.cols (p : Pci K) : Nat := p.nDof + if p.useTime then 1 else 0

/-- Sizes fit in an `int`. -/
def Pci.Small (p : Pci K) : Prop := p.nSteps < 2 ^ 31 ∧ p.cols < 2 ^ 31

theorem each_spec {α : Type} (p : Pci K) (f : Nat → Nat → α) (g : Nat → α) :
    (p.each f g).length = p.nSteps * p.cols ∧
    ∀ i j, i < p.nSteps → j < p.cols → (p.each f g)[i * p.cols + j]? = some (if j < p.nDof then f i j else g i) := by
  have hl : ∀ i, ((List.range p.nDof).map (f i) ++ if p.useTime then [g i] else []).length = p.cols := by
    intro i
    unfold Pci.cols
    cases p.useTime <;> simp
  refine ⟨?_, fun i j hi hj => ?_⟩
  · simp only [Pci.each, List.length_flatMap, hl, List.map_const', List.sum_replicate, List.length_range, smul_eq_mul]
  · have h := getElem?_blocks (fun i => (List.range p.nDof).map (f i) ++ if p.useTime then [g i] else []) p.nSteps i j hi
      (by rw [hl]; exact hj)
    simp only [hl, List.map_const', List.sum_replicate, List.length_range, smul_eq_mul] at h
    unfold Pci.each
    rw [h]
    by_cases hjn : j < p.nDof
    · rw [if_pos hjn]
      rw [List.getElem?_append_left (by simpa using hjn), List.getElem?_map, List.getElem?_range hjn]
      rfl
    · rw [if_neg hjn, List.getElem?_append_right (by simpa using hjn)]
      unfold Pci.cols at hj
      cases ht : p.useTime with
      | false => simp [ht] at hj; omega
      | true =>
        simp only [ht, if_true] at hj
        have : j - p.nDof = 0 := by omega
        simp [this]

/-- What a successful construction says about the result. -/
theorem construct_ok (p : Pci K) (q : Prob K) (h : construct p = .ok q) :
    checkTypes p.costs p.cnts p.useTime = true ∧ ∃ m, generateInitTraj p = some m ∧ m.rows = p.nSteps ∧ m.cols = p.cols ∧
      q.setup = ⟨p.nSteps, p.nDof, p.useTime, m.get⟩ ∧ q.names = p.each VarName.joint VarName.dt ∧
      q.lower = p.each (fun _ j => p.lower j) (fun _ => p.dtLower) ∧ q.upper = p.each (fun _ j => p.upper j) (fun _ => p.dtUpper) ∧
      q.hasTime = p.useTime ∧ q.setup.fixed p.fixedSteps p.fixedDofs = .ok q.fixed := by
  unfold construct at h
  split at h
  · simp at h
  · rename_i hc
    refine ⟨by simpa using hc, ?_⟩
    split at h
    · simp at h
    · rename_i m hm
      refine ⟨m, hm, ?_⟩
      split at h
      · rename_i ht
        split at h
        · simp at h
        · rename_i hd
          push Not at hd
          obtain ⟨l, h1, h2⟩ := bind_eq_ok.1 h
          injection h2 with h2
          subst h2
          exact ⟨hd.1, by rw [hd.2]; simp [Pci.cols, ht], by simp [ht], rfl, rfl, rfl, by simp [ht], h1⟩
      · rename_i ht
        split at h
        · simp at h
        · rename_i hd
          push Not at hd
          obtain ⟨l, h1, h2⟩ := bind_eq_ok.1 h
          injection h2 with h2
          subst h2
          simp only [Bool.not_eq_true] at ht
          exact ⟨hd.1, by rw [hd.2]; simp [Pci.cols, ht], by simp [ht], rfl, rfl, rfl, by simp [ht], h1⟩

/-- Specification: what the problem says about the variable at step `i`, column `j`: it exists, and has this name and these bounds. -/
def VarIs (q : Prob K) (i j : Nat) (name : VarName) (lo hi : K) : Prop :=
  ∃ v, q.setup.vars.at i j = some v ∧ q.names[v]? = some name ∧ q.lower[v]? = some lo ∧ q.upper[v]? = some hi

/-- C112: a constructed problem has a variable for every step and joint, bounded by the limits of the joint, and with time one more
per step, bounded by the limits of basic_info; there are no other variables. -/
theorem C112_variables (p : Pci K) (hs : p.Small) (q : Prob K) (h : construct p = .ok q) :
    (∀ i j, i < p.nSteps → j < p.nDof → VarIs q i j (.joint i j) (p.lower j) (p.upper j)) ∧
    (p.useTime = true → ∀ i, i < p.nSteps → VarIs q i p.nDof (.dt i) p.dtLower p.dtUpper) ∧
    q.names.length = p.nSteps * (p.nDof + if p.useTime then 1 else 0) ∧ q.names.Nodup ∧ q.hasTime = p.useTime := by
  obtain ⟨-, m, -, -, -, e1, e2, e3, e4, e5, -⟩ := construct_ok p q h
  have hc : q.setup.cols = p.cols := by rw [e1]; rfl
  have hv := vars_holds q.setup (by unfold Setup.Small; rw [hc, e1]; exact hs)
  have hstep : q.setup.nSteps = p.nSteps := by rw [e1]
  have main : ∀ i j, i < p.nSteps → j < p.cols → VarIs q i j (if j < p.nDof then .joint i j else .dt i)
      (if j < p.nDof then p.lower j else p.dtLower) (if j < p.nDof then p.upper j else p.dtUpper) := by
    intro i j hi hj
    refine ⟨_, hv.2.2.2 i j (by rw [hstep]; exact hi) (by rw [hc]; exact hj), ?_⟩
    dsimp only
    rw [hc, e2, e3, e4]
    exact ⟨(each_spec p _ _).2 i j hi hj, (each_spec p _ _).2 i j hi hj, (each_spec p _ _).2 i j hi hj⟩
  refine ⟨fun i j hi hj => ?_, fun ht i hi => ?_, ?_, ?_, e5⟩
  · have := main i j hi (by unfold Pci.cols; omega)
    simpa only [if_pos hj] using this
  · have := main i p.nDof hi (by unfold Pci.cols; simp [ht])
    simpa using this
  · rw [e2]; exact (each_spec p _ _).1
  · rw [e2]
    unfold Pci.each
    rw [List.nodup_flatMap]
    refine ⟨fun i _ => ?_, ?_⟩
    · refine List.Nodup.append (List.nodup_range.map fun a b hab => by injection hab) ?_ ?_
      · cases p.useTime <;> simp
      · intro a ha hb
        obtain ⟨j, -, rfl⟩ := List.mem_map.1 ha
        cases hu : p.useTime <;> simp [hu] at hb
    · refine List.nodup_range.imp ?_
      intro a b hab x hx hy
      simp only [List.mem_append, List.mem_map] at hx hy
      have name : ∀ c, ((∃ j ∈ List.range p.nDof, VarName.joint c j = x) ∨ x ∈ (if p.useTime then [VarName.dt c] else [])) →
          (∃ j, x = .joint c j) ∨ x = .dt c := by
        rintro c (⟨j, -, rfl⟩ | hc)
        · exact Or.inl ⟨j, rfl⟩
        · cases hu : p.useTime <;> simp [hu] at hc
          exact Or.inr hc
      rcases name a hx with ⟨j, rfl⟩ | rfl <;> rcases name b hy with ⟨j', e⟩ | e <;> simp_all

/-- C112: initialised as stationary, every step starts at the current state of the joints. -/
theorem C112_stationary (p : Pci K) (q : Prob K) (h : construct p = .ok q) (hi : p.init = .stationary) (i j : Nat)
    (hj : j < p.nDof) : q.setup.init i j = p.current j := by
  obtain ⟨-, m, hm, -, -, e1, -⟩ := construct_ok p q h
  rw [e1]
  simp only [generateInitTraj, jointTraj, hi] at hm
  cases ht : p.useTime <;> simp only [ht, if_true, if_false, Bool.false_eq_true] at hm <;> injection hm with hm <;> subst hm
  · rfl
  · exact if_neg (by omega)

/-- C112: a given trajectory is the starting point. -/
theorem C112_given (p : Pci K) (q : Prob K) (h : construct p = .ok q) (d : Mat K) (hi : p.init = .given d) :
    d.rows = p.nSteps ∧ d.cols = p.nDof ∧ ∀ i j, j < p.nDof → q.setup.init i j = d.get i j := by
  obtain ⟨-, m, hm, h1, h2, e1, -⟩ := construct_ok p q h
  rw [e1]
  simp only [generateInitTraj, jointTraj, hi] at hm
  cases ht : p.useTime <;> simp only [ht, if_true, if_false, Bool.false_eq_true] at hm <;> injection hm with hm <;> subst hm
  · exact ⟨h1, by simpa [Pci.cols, ht] using h2, fun i j hj => rfl⟩
  · have h2' : d.cols = p.nDof := by simpa [Pci.cols, ht] using h2
    exact ⟨h1, h2', fun i j hj => if_neg (by rw [h2']; omega)⟩

/-- C112: with time, every step starts with the duration entry of init_info. -/
theorem C112_time (p : Pci K) (q : Prob K) (h : construct p = .ok q) (ht : p.useTime = true) (i : Nat) :
    q.setup.init i p.nDof = p.dt := by
  obtain ⟨-, m, hm, h1, h2, e1, -⟩ := construct_ok p q h
  rw [e1]
  unfold generateInitTraj at hm
  split at hm
  · simp at hm
  · rename_i m' hm'
    rw [if_pos ht] at hm
    injection hm with hm
    subst hm
    have : m'.cols = p.nDof := by simpa [Pci.cols, ht] using h2
    simp only [this, if_true]

/-- Specification: the end of the interpolation, given as a row or as a column. -/
def EndIs (p : Pci K) (d : Mat K) (e : Nat → K) : Prop :=
  (d.rows = 1 ∧ d.cols = p.nDof ∧ ∀ j, j < p.nDof → e j = d.get 0 j) ∨
  (d.rows = p.nDof ∧ d.cols = 1 ∧ ∀ j, j < p.nDof → e j = d.get j 0)

theorem interpolated_init (p : Pci K) (q : Prob K) (h : construct p = .ok q) (d : Mat K) (hi : p.init = .interpolated d)
    (e : Nat → K) (he : EndIs p d e) (i j : Nat) (hj : j < p.nDof) :
    q.setup.init i j = linSpaced p.nSteps (p.current j) (e j) i := by
  obtain ⟨-, m, hm, -, -, e1, -⟩ := construct_ok p q h
  rw [e1]
  simp only [generateInitTraj, jointTraj, hi] at hm
  by_cases hr : d.rows = 1 ∧ d.cols = p.nDof
  · rw [if_pos hr] at hm
    have hej : e j = d.get 0 j := by
      rcases he with he | he
      · exact he.2.2 j hj
      · have : j = 0 := by have := he.1; omega
        subst this
        exact he.2.2 0 hj
    rw [hej]
    cases ht : p.useTime <;> simp only [ht, if_true, if_false, Bool.false_eq_true] at hm <;> injection hm with hm <;> subst hm
    · rfl
    · exact if_neg (by omega)
  · rw [if_neg hr] at hm
    have he' := he.resolve_left fun he => hr ⟨he.1, he.2.1⟩
    rw [if_pos ⟨he'.1, he'.2.1⟩] at hm
    rw [he'.2.2 j hj]
    cases ht : p.useTime <;> simp only [ht, if_true, if_false, Bool.false_eq_true] at hm <;> injection hm with hm <;> subst hm
    · rfl
    · exact if_neg (by omega)

/-- C112: an interpolated start of at least two steps begins at the current state, ends at the given position and advances by the
same amount in every step.  (Partial: for a single step see below.) -/
theorem C112_interpolated_partial [CharZero K] (p : Pci K) (q : Prob K) (h : construct p = .ok q) (d : Mat K)
    (hi : p.init = .interpolated d) (e : Nat → K) (he : EndIs p d e) (hn : 2 ≤ p.nSteps) (j : Nat) (hj : j < p.nDof) :
    q.setup.init 0 j = p.current j ∧ q.setup.init (p.nSteps - 1) j = e j ∧
    ∀ i, q.setup.init (i + 2) j - q.setup.init (i + 1) j = q.setup.init (i + 1) j - q.setup.init i j := by
  simp only [interpolated_init p q h d hi e he _ j hj, linSpaced, if_neg (show ¬ p.nSteps = 1 by omega)]
  have h1 : ((p.nSteps : K) - 1) ≠ 0 := by
    rw [sub_ne_zero]
    exact_mod_cast (show p.nSteps ≠ 1 by omega)
  refine ⟨by simp, ?_, fun i => by push_cast; ring⟩
  rw [Nat.cast_sub (by omega)]
  field_simp
  push_cast
  ring

/-- C112 fails for a single step: the interpolation consists of the end, wherever the robot is. -/
theorem C112_violated_single (p : Pci K) (q : Prob K) (h : construct p = .ok q) (d : Mat K) (hi : p.init = .interpolated d)
    (e : Nat → K) (he : EndIs p d e) (hn : p.nSteps = 1) (j : Nat) (hj : j < p.nDof) : q.setup.init 0 j = e j := by
  rw [interpolated_init p q h d hi e he 0 j hj, linSpaced, if_pos hn]

/-- C112: unsuitable input is rejected: types that C113 rejects, a given trajectory of another size (also one that brings its own
time column), an end of another size. -/
theorem C112_rejects (p : Pci K) (h : checkTypes p.costs p.cnts p.useTime = false ∨
    (∃ d, p.init = .given d ∧ (d.rows ≠ p.nSteps ∨ d.cols ≠ p.nDof)) ∨
    (∃ d, p.init = .interpolated d ∧ ¬ (d.rows = 1 ∧ d.cols = p.nDof) ∧ ¬ (d.rows = p.nDof ∧ d.cols = 1))) :
    construct p = .exc := by
  unfold construct
  rcases h with h | ⟨d, h1, h2⟩ | ⟨d, h1, h2, h3⟩
  · rw [h]; rfl
  · split
    · rfl
    · simp only [generateInitTraj, jointTraj, h1]
      cases ht : p.useTime <;> simp only [if_true, if_false, Bool.false_eq_true]
      · rw [if_pos h2]
      · rw [if_pos]
        rcases h2 with h2 | h2
        · exact Or.inl h2
        · exact Or.inr (by omega)
  · split
    · rfl
    · simp only [generateInitTraj, jointTraj, h1, if_neg h2, if_neg h3]

/-- C112: suitable input is accepted. -/
theorem C112_accepts (p : Pci K) (hs : p.Small) (ht : checkTypes p.costs p.cnts p.useTime = true)
    (hi : match p.init with
      | .stationary => True
      | .interpolated d => (d.rows = 1 ∧ d.cols = p.nDof) ∨ (d.rows = p.nDof ∧ d.cols = 1)
      | .given d => d.rows = p.nSteps ∧ d.cols = p.nDof)
    (hf : (∀ t ∈ p.fixedSteps, 0 ≤ t ∧ t < p.nSteps) ∧ ∀ d ∈ p.fixedDofs, 0 ≤ d ∧ d < p.nDof) :
    ∃ q, construct p = .ok q := by
  have hm : ∃ m, generateInitTraj p = some m ∧ m.rows = p.nSteps ∧ m.cols = p.cols := by
    unfold generateInitTraj Pci.cols
    have : ∃ m, jointTraj p = some m ∧ m.rows = p.nSteps ∧ m.cols = p.nDof := by
      unfold jointTraj
      split
      · exact ⟨_, rfl, rfl, rfl⟩
      · rename_i d hd
        rw [hd] at hi
        dsimp only at hi
        split
        · exact ⟨_, rfl, rfl, rfl⟩
        · rename_i hn
          rw [if_pos (hi.resolve_left hn)]
          exact ⟨_, rfl, rfl, rfl⟩
      · rename_i d hd
        rw [hd] at hi
        exact ⟨_, rfl, hi.1, hi.2⟩
    obtain ⟨m, h1, h2, h3⟩ := this
    rw [h1]
    cases p.useTime
    · exact ⟨m, rfl, h2, h3⟩
    · exact ⟨_, rfl, h2, by simp [h3]⟩
  obtain ⟨m, h1, h2, h3⟩ := hm
  have hfix : ∀ ut : Bool, p.useTime = ut → ∃ l, Setup.fixed ⟨p.nSteps, p.nDof, ut, m.get⟩ p.fixedSteps p.fixedDofs = .ok l := by
    intro ut hut
    refine ⟨_, fixed_eq (⟨p.nSteps, p.nDof, ut, m.get⟩ : Setup K) ?_ _ _ hf.1 fun d hd => ⟨(hf.2 d hd).1, ?_, (hf.2 d hd).2.le⟩⟩
    · subst hut; exact hs
    · have := (hf.2 d hd).2
      unfold Setup.cols
      push_cast
      split <;> omega
  unfold construct
  rw [ht]
  simp only [Bool.not_true, Bool.false_eq_true, if_false, h1]
  unfold Pci.cols at h3
  cases hu : p.useTime <;> simp only [hu, if_true, if_false, Bool.false_eq_true] at h3 ⊢
  · obtain ⟨l, hl⟩ := hfix false hu
    rw [if_neg (by simp [h2, h3]), hl]
    exact ⟨_, rfl⟩
  · obtain ⟨l, hl⟩ := hfix true hu
    rw [if_neg (by simp [h2, h3]), hl]
    exact ⟨_, rfl⟩

end init

section order
variable {K : Type} [Field K] [LinearOrder K] [IsStrictOrderedRing K]

/-- C112 does not extend to the bounds: nothing keeps the starting point inside the bounds of the variables.  A current state outside
the joint limits, or a duration entry outside its limits, is accepted as it is. -/
theorem C112_violated_bounds (p : Pci K) (hs : p.Small) (q : Prob K) (h : construct p = .ok q) (hn : 0 < p.nSteps) :
    (p.init = .stationary → ∀ j, j < p.nDof → p.upper j < p.current j →
      ∃ name lo hi, VarIs q 0 j name lo hi ∧ hi < q.setup.init 0 j) ∧
    (p.useTime = true → p.dt < p.dtLower → ∃ name lo hi, VarIs q 0 p.nDof name lo hi ∧ q.setup.init 0 p.nDof < lo) := by
  obtain ⟨h1, h2, -⟩ := C112_variables p hs q h
  refine ⟨fun hi j hj hu => ⟨_, _, _, h1 0 j hn hj, ?_⟩, fun ht hd => ⟨_, _, _, h2 ht 0 hn, ?_⟩⟩
  · rw [C112_stationary p q h hi 0 j hj]; exact hu
  · rw [C112_time p q h ht]; exact hd

end order

/-! ### Non-vacuity for C112 -/

/-- Two joints, three steps, with time; the robot is outside the limits of its first joint, and the duration entry outside its own;
the first step and the second joint are fixed. -/
def demoPci (init : Init ℚ) (n : Nat) : Pci ℚ :=
  ⟨n, 2, fun _ => -1, fun _ => 1, 2, 3, true, [0], [1], fun j => if j = 0 then 5 else 0, init, 1,
    [⟨.jointVel, ⟨true, false, true⟩⟩], [⟨.cartPose, ⟨false, true, false⟩⟩]⟩

example : ∃ q, construct (demoPci .stationary 3) = .ok q :=
  C112_accepts _ ⟨by decide, by decide⟩ (by decide) trivial ⟨by decide, by decide⟩

example : ∃ q, construct (demoPci (.given ⟨3, 2, fun i j => i + j⟩) 3) = .ok q :=
  C112_accepts _ ⟨by decide, by decide⟩ (by decide) ⟨rfl, rfl⟩ ⟨by decide, by decide⟩

example : (∃ q, construct (demoPci (.interpolated ⟨1, 2, fun _ j => j⟩) 3) = .ok q) ∧
    (∃ q, construct (demoPci (.interpolated ⟨2, 1, fun j _ => j⟩) 1) = .ok q) ∧
    EndIs (demoPci (.interpolated ⟨2, 1, fun j _ => j⟩) 1) ⟨2, 1, fun j _ => j⟩ (fun j => (j : ℚ)) :=
  ⟨C112_accepts _ ⟨by decide, by decide⟩ (by decide) (Or.inl ⟨rfl, rfl⟩) ⟨by decide, by decide⟩,
    C112_accepts _ ⟨by decide, by decide⟩ (by decide) (Or.inr ⟨rfl, rfl⟩) ⟨by decide, by decide⟩, Or.inr ⟨rfl, rfl, fun _ _ => rfl⟩⟩

/-- the hypotheses of C112_violated_bounds. -/
example : (demoPci .stationary 3).upper 0 < (demoPci .stationary 3).current 0 ∧
    (demoPci .stationary 3).dt < (demoPci .stationary 3).dtLower := by decide +kernel

/-- a given trajectory with its own time column is rejected. -/
example : construct (demoPci (.given ⟨3, 3, fun i j => i + j⟩) 3) = .exc :=
  C112_rejects _ (Or.inr (Or.inl ⟨_, rfl, Or.inr (by decide)⟩))

end Verif.Construct
