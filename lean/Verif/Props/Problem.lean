import Verif.Model.Problem
import Verif.Props.Expr
import Verif.Props.BasicArray
import Mathlib.Tactic.Linarith
import Mathlib.Tactic.Ring
import Mathlib.Data.List.Nodup
import Mathlib.Algebra.BigOperators.Group.List.Basic
import Mathlib.Algebra.Field.Rat

set_option linter.unusedSectionVars false
set_option linter.unusedVariables false

/-!
# C56-C60: problem construction of the legacy package
-/

namespace Verif.Problem

open Verif.BasicArray Verif.Sco

@[simp] theorem pure_eq {α : Type} (a : α) : (pure a : Res α) = .ok a := rfl
@[simp] theorem bind_ok {α β : Type} (a : α) (f : α → Res β) : ((Res.ok a : Res α) >>= f) = f a := rfl
@[simp] theorem bind_exc {α β : Type} (f : α → Res β) : ((Res.exc : Res α) >>= f) = .exc := rfl
@[simp] theorem bind_ub {α β : Type} (f : α → Res β) : ((Res.ub : Res α) >>= f) = .ub := rfl

theorem bind_eq_ok {α β : Type} {r : Res α} {f : α → Res β} {b : β} : (r >>= f) = .ok b ↔ ∃ a, r = .ok a ∧ f a = .ok b := by
  cases r <;> simp

/-- A loop that appends the elements `f a` for each `a` that is not skipped. -/
theorem foldlM_append {α β : Type} (g : List β → α → Res (List β)) (f : α → List β) (l : List α)
    (h : ∀ acc, ∀ a ∈ l, g acc a = .ok (acc ++ f a)) : ∀ acc, l.foldlM g acc = .ok (acc ++ l.flatMap f) := by
  induction l with
  | nil => intro acc; simp
  | cons a l ih =>
    intro acc
    rw [List.foldlM_cons, h acc a (by simp), bind_ok, ih (fun acc b hb => h acc b (by simp [hb]))]
    simp

/-- A loop that ended normally passed through every element. -/
theorem foldlM_ok_mem {α β : Type} (g : β → α → Res β) (l : List α) : ∀ acc out, l.foldlM g acc = .ok out →
    ∀ a ∈ l, ∃ s s', g s a = .ok s' := by
  induction l with
  | nil => simp
  | cons b l ih =>
    intro acc out h a ha
    rw [List.foldlM_cons] at h
    obtain ⟨s', h1, h2⟩ := bind_eq_ok.1 h
    rcases List.mem_cons.1 ha with rfl | ha
    · exact ⟨acc, s', h1⟩
    · exact ih s' out h2 a ha

section fixed
variable {K : Type} [Field K]

/-- Sizes fit in an `int`. -/
def Setup.Small (s : Setup K) : Prop := s.nSteps < 2 ^ 31 ∧ s.cols < 2 ^ 31

theorem vars_holds (s : Setup K) (h : s.Small) : Holds s.vars s.nSteps s.cols fun i j => i * s.cols + j := by
  have hw : WF s.vars := by
    refine ⟨?_, h.1, h.2⟩
    simp [Setup.vars, BArr.ofData]
  refine ⟨rfl, rfl, hw, fun i j hi hj => ?_⟩
  obtain ⟨e, hl⟩ := flat_nat s.vars hw hi hj
  rw [BArr.at, e]
  have hc : s.vars.nCol = s.cols := rfl
  rw [hc] at hl ⊢
  have hlen : i * s.cols + j < s.nSteps * s.cols := by
    have : s.vars.data.length = s.nSteps * s.cols := by simp [Setup.vars, BArr.ofData]
    omega
  simp [Setup.vars, BArr.ofData, List.getElem?_take, List.getElem?_range, hlen]

/-- The constraint `var(i, j) = init(i, j)` as the code writes it. -/
def Setup.pinned (s : Setup K) (c : Nat × Nat) : AffExpr K Nat := (AffExpr.ofVar (c.1 * s.cols + c.2)).decConst (s.init c.1 c.2)

theorem pin_ok (s : Setup K) (h : s.Small) {i j : Nat} (hi : i < s.nSteps) (hj : j < s.cols) :
    s.pin i j = .ok (s.pinned (i, j)) := by
  have hv := (vars_holds s h).2.2.2 i j hi hj
  have : s.initAt i j = .ok (s.init i j) := by
    rw [Setup.initAt, if_pos ⟨by positivity, by exact_mod_cast hi, by positivity, by exact_mod_cast hj⟩]
    simp
  simp only [Setup.pin, this, bind_ok, Setup.varAt, hv, pure_eq, Setup.pinned]

theorem pinned_value (s : Setup K) (c : Nat × Nat) (x : Nat → K) :
    affDen (s.pinned c) x = x (c.1 * s.cols + c.2) - s.init c.1 c.2 := by
  simp [Setup.pinned, AffExpr.decConst, AffExpr.ofVar, affDen, linDen]
  ring

/-- Cells pinned by the two loops. -/
def Setup.stepCells (s : Setup K) (steps : List Int) : List (Nat × Nat) :=
  steps.flatMap fun t => (List.range s.nDof).map fun j => (t.toNat, j)
def Setup.dofCells (s : Setup K) (steps dofs : List Int) : List (Nat × Nat) :=
  dofs.flatMap fun d => ((List.range s.nSteps).filter fun (i : Nat) => decide ((i : Int) ∉ steps)).map fun i => (i, d.toNat)

theorem fixed_eq (s : Setup K) (h : s.Small) (steps dofs : List Int) (hs : ∀ t ∈ steps, 0 ≤ t ∧ t < s.nSteps)
    (hd : ∀ d ∈ dofs, 0 ≤ d ∧ d < s.cols ∧ d ≤ s.nDof) :
    s.fixed steps dofs = .ok ((s.stepCells steps ++ s.dofCells steps dofs).map s.pinned) := by
  have h1 : s.fixSteps steps = .ok ((s.stepCells steps).map s.pinned) := by
    unfold Setup.fixSteps
    rw [foldlM_append _ (fun t => (List.range s.nDof).map fun j => s.pinned (t.toNat, j))]
    · simp [Setup.stepCells, List.map_flatMap, Function.comp_def]
    · intro acc t ht
      obtain ⟨a, b⟩ := hs t ht
      rw [if_neg (by omega), foldlM_append _ (fun j => [s.pinned (t.toNat, j)])]
      · rw [← List.map_eq_flatMap]
      · intro acc j hj
        have := pin_ok s h (i := t.toNat) (j := j) (by omega) (by have := List.mem_range.1 hj; unfold Setup.cols; omega)
        rw [Int.toNat_of_nonneg a] at this
        rw [this]; rfl
  rw [Setup.fixed, h1, bind_ok, Setup.fixDofs]
  rw [foldlM_append _ (fun d => ((List.range s.nSteps).filter fun (i : Nat) => decide ((i : Int) ∉ steps)).map fun i => s.pinned (i, d.toNat))]
  · simp [Setup.dofCells, List.map_flatMap, Function.comp_def]
  · intro acc d hdm
    obtain ⟨a, b, c⟩ := hd d hdm
    rw [if_neg (by omega), foldlM_append _ (fun (i : Nat) => if (i : Int) ∈ steps then [] else [s.pinned (i, d.toNat)])]
    · congr 2
      induction List.range s.nSteps with
      | nil => rfl
      | cons i l ih =>
        rw [List.flatMap_cons, ih, List.filter_cons]
        by_cases hi : (i : Int) ∈ steps <;> simp [hi]
    · intro acc i hi
      by_cases him : (i : Int) ∈ steps
      · simp [him]
      · have := pin_ok s h (i := i) (j := d.toNat) (List.mem_range.1 hi) (by omega)
        rw [Int.toNat_of_nonneg a] at this
        simp [him, this]

/-- Specification: the trajectory given by the variables (row-major) agrees with the initial one at the fixed timesteps
and joints. -/
def Agrees (s : Setup K) (steps dofs : List Int) (x : Nat → K) : Prop :=
  (∀ t : Nat, (t : Int) ∈ steps → ∀ j, j < s.nDof → x (t * s.cols + j) = s.init t j) ∧
  (∀ d : Nat, (d : Int) ∈ dofs → ∀ i, i < s.nSteps → x (i * s.cols + d) = s.init i d)

/-- The indices exist. -/
def Exist (s : Setup K) (steps dofs : List Int) : Prop :=
  (∀ t ∈ steps, 0 ≤ t ∧ t < s.nSteps) ∧ (∀ d ∈ dofs, 0 ≤ d ∧ d < s.nDof)

/-- C56: for existing indices the constraints added hold exactly for the trajectories that agree with the initial one.
(Partial: for indices that do not exist see below.) -/
theorem C56_pins_partial (s : Setup K) (h : s.Small) (steps dofs : List Int) (he : Exist s steps dofs) :
    ∃ cs, s.fixed steps dofs = .ok cs ∧ ∀ x, (∀ e ∈ cs, affDen e x = 0) ↔ Agrees s steps dofs x := by
  refine ⟨_, fixed_eq s h steps dofs he.1 (fun d hd => ⟨(he.2 d hd).1, ?_, (he.2 d hd).2.le⟩), fun x => ?_⟩
  · have := (he.2 d hd).2; unfold Setup.cols; push_cast; split <;> omega
  rw [List.forall_mem_map]
  simp only [pinned_value, sub_eq_zero, List.mem_append, Setup.stepCells, Setup.dofCells,
    List.mem_flatMap, List.mem_map, List.mem_range, List.mem_filter, decide_eq_true_eq]
  constructor
  · intro hx
    have hstep : ∀ t : Nat, (t : Int) ∈ steps → ∀ j, j < s.nDof → x (t * s.cols + j) = s.init t j := fun t ht j hj =>
      hx (t, j) (Or.inl ⟨t, ht, j, hj, by simp⟩)
    refine ⟨hstep, fun d hd i hi => ?_⟩
    by_cases hi' : (i : Int) ∈ steps
    · exact hstep i hi' d (by have := (he.2 d hd).2; omega)
    · exact hx (i, d) (Or.inr ⟨d, hd, i, ⟨hi, hi'⟩, by simp⟩)
  · rintro ⟨h1, h2⟩ c (⟨t, ht, j, hj, rfl⟩ | ⟨d, hd, i, ⟨hi, _⟩, rfl⟩)
    · have := he.1 t ht
      exact h1 t.toNat (by rwa [Int.toNat_of_nonneg this.1]) j hj
    · have := he.2 d hd
      exact h2 d.toNat (by rwa [Int.toNat_of_nonneg this.1]) i hi

/-- C56: with duplicate-free index lists no variable is constrained twice. -/
theorem C56_once_partial (s : Setup K) (h : s.Small) (steps dofs : List Int) (he : Exist s steps dofs) (hs : steps.Nodup)
    (hd : dofs.Nodup) : ∃ cs, s.fixed steps dofs = .ok cs ∧ (cs.flatMap fun e => e.terms.map Prod.snd).Nodup := by
  have hcol : s.nDof ≤ s.cols := by unfold Setup.cols; omega
  refine ⟨_, fixed_eq s h steps dofs he.1 (fun d hd => ⟨(he.2 d hd).1, ?_, (he.2 d hd).2.le⟩), ?_⟩
  · have := (he.2 d hd).2; omega
  have e : ((s.stepCells steps ++ s.dofCells steps dofs).map s.pinned).flatMap (fun e => e.terms.map Prod.snd) =
      (s.stepCells steps ++ s.dofCells steps dofs).map fun c => c.1 * s.cols + c.2 := by
    rw [List.flatMap_map]
    induction s.stepCells steps ++ s.dofCells steps dofs with
    | nil => rfl
    | cons a l ih => simp [Setup.pinned, AffExpr.decConst, AffExpr.ofVar] at ih ⊢; exact ih
  rw [e]
  have hmem1 : ∀ c ∈ s.stepCells steps, ((c.1 : Int) ∈ steps) ∧ c.2 < s.nDof := by
    intro c hc
    simp only [Setup.stepCells, List.mem_flatMap, List.mem_map, List.mem_range] at hc
    obtain ⟨t, ht, j, hj, rfl⟩ := hc
    exact ⟨by rw [Int.toNat_of_nonneg (he.1 t ht).1]; exact ht, hj⟩
  have hmem2 : ∀ c ∈ s.dofCells steps dofs, ((c.1 : Int) ∉ steps) ∧ c.2 < s.nDof := by
    intro c hc
    simp only [Setup.dofCells, List.mem_flatMap, List.mem_map, List.mem_range, List.mem_filter, decide_eq_true_eq] at hc
    obtain ⟨d, hd', i, hi, rfl⟩ := hc
    refine ⟨hi.2, ?_⟩
    have := he.2 d hd'
    simp only; omega
  apply List.Nodup.map_on
  · intro a ha b hb hab
    have hlt : ∀ c ∈ s.stepCells steps ++ s.dofCells steps dofs, c.2 < s.cols := by
      intro c hc
      rcases List.mem_append.1 hc with hc | hc
      · exact lt_of_lt_of_le (hmem1 c hc).2 hcol
      · exact lt_of_lt_of_le (hmem2 c hc).2 hcol
    obtain ⟨h1, h2⟩ := flat_inj s.cols (hlt a ha) (hlt b hb) hab
    exact Prod.ext h1 h2
  · rw [List.nodup_append']
    refine ⟨?_, ?_, ?_⟩
    · unfold Setup.stepCells
      rw [List.nodup_flatMap]
      refine ⟨fun t ht => List.Nodup.map (fun a b hab => by simpa using hab) List.nodup_range, ?_⟩
      refine hs.imp_of_mem ?_
      intro a b ha hb hne
      simp only [Function.onFun, List.disjoint_left, List.mem_map, List.mem_range]
      rintro c ⟨j, hj, rfl⟩ ⟨j', hj', hc⟩
      have h1 : b.toNat = a.toNat := by simpa using congrArg Prod.fst hc
      have := (he.1 a ha).1; have := (he.1 b hb).1
      exact hne (by omega)
    · unfold Setup.dofCells
      rw [List.nodup_flatMap]
      refine ⟨fun t ht => List.Nodup.map (fun a b hab => by simpa using hab) (List.nodup_range.filter _), ?_⟩
      refine hd.imp_of_mem ?_
      intro a b ha hb hne
      simp only [Function.onFun, List.disjoint_left, List.mem_map]
      rintro c ⟨j, hj, rfl⟩ ⟨j', hj', hc⟩
      have h1 : b.toNat = a.toNat := by simpa using congrArg Prod.snd hc
      have := (he.2 a ha).1; have := (he.2 b hb).1
      exact hne (by omega)
    · intro c h1 h2
      exact (hmem2 c h2).1 (hmem1 c h1).1

/-- C56, what acceptance guarantees: if the call ends normally every fixed timestep exists, and every fixed "joint" is a
column of the trajectory matrix (unless all timesteps are fixed).  Partial: the column may be the time column. -/
theorem C56_accepted_partial (s : Setup K) (steps dofs : List Int) (cs : List (AffExpr K Nat)) (hn : 0 < s.nDof)
    (h : s.fixed steps dofs = .ok cs) :
    (∀ t ∈ steps, 0 ≤ t ∧ t < s.nSteps) ∧
    (∀ d ∈ dofs, d ≤ s.nDof ∧ ((∃ i, i < s.nSteps ∧ (i : Int) ∉ steps) → 0 ≤ d ∧ d < s.cols)) := by
  have hpin : ∀ (i j : Int) e, s.pin i j = .ok e → 0 ≤ i ∧ i < s.nSteps ∧ 0 ≤ j ∧ j < s.cols := by
    intro i j e he
    obtain ⟨c, hc, _⟩ := bind_eq_ok.1 he
    unfold Setup.initAt at hc
    split at hc
    · assumption
    · exact absurd hc (by simp)
  obtain ⟨l, h1, h2⟩ := bind_eq_ok.1 h
  refine ⟨fun t ht => ?_, fun d hd => ?_⟩
  · obtain ⟨a, b, hab⟩ := foldlM_ok_mem _ _ _ _ h1 t ht
    split at hab
    · exact absurd hab (by simp)
    · obtain ⟨a', b', hab'⟩ := foldlM_ok_mem _ _ _ _ hab 0 (List.mem_range.2 hn)
      obtain ⟨e, he, _⟩ := bind_eq_ok.1 hab'
      have := hpin _ _ _ he
      exact ⟨this.1, this.2.1⟩
  · obtain ⟨a, b, hab⟩ := foldlM_ok_mem _ _ _ _ h2 d hd
    split at hab
    · exact absurd hab (by simp)
    · rename_i hle
      refine ⟨by omega, ?_⟩
      rintro ⟨i, hi, his⟩
      obtain ⟨a', b', hab'⟩ := foldlM_ok_mem _ _ _ _ hab i (List.mem_range.2 hi)
      rw [if_neg his] at hab'
      obtain ⟨e, he, _⟩ := bind_eq_ok.1 hab'
      have := hpin _ _ _ he
      exact this.2.2

/-- C56 is violated: with a time column, joint index `n_dof` does not exist but is accepted and pins every time step
length to its initial value. -/
theorem C56_violated_time (s : Setup K) (h : s.Small) (ht : s.useTime = true) :
    ∃ cs, s.fixed [] [(s.nDof : Int)] = .ok cs ∧
      ∀ x, (∀ e ∈ cs, affDen e x = 0) ↔ ∀ i, i < s.nSteps → x (i * (s.nDof + 1) + s.nDof) = s.init i s.nDof := by
  have hc : s.cols = s.nDof + 1 := by simp [Setup.cols, ht]
  refine ⟨_, fixed_eq s h [] _ (by simp) (by simp [hc]), fun x => ?_⟩
  simp only [List.forall_mem_map, pinned_value, sub_eq_zero, Setup.stepCells, Setup.dofCells, hc]
  simp

/-- C56 is violated: index `n_steps` (and joint `n_dof` without a time column) passes the range check and ends in an
access outside the initial trajectory instead of the documented error. -/
theorem C56_violated_boundary (s : Setup K) (hd : 0 < s.nDof) (hs : 0 < s.nSteps) :
    s.fixed [(s.nSteps : Int)] [] = .ub ∧ (s.useTime = false → s.fixed [] [(s.nDof : Int)] = .ub) := by
  constructor
  · obtain ⟨m, hm⟩ : ∃ m, s.nDof = m + 1 := ⟨s.nDof - 1, by omega⟩
    simp [Setup.fixed, Setup.fixSteps, hm, List.range_succ_eq_map, Setup.pin, Setup.initAt]
  · intro ht
    obtain ⟨m, hm⟩ : ∃ m, s.nSteps = m + 1 := ⟨s.nSteps - 1, by omega⟩
    have hc : s.cols = s.nDof := by simp [Setup.cols, ht]
    simp [Setup.fixed, Setup.fixSteps, Setup.fixDofs, hm, List.range_succ_eq_map, Setup.pin, Setup.initAt, hc]

/-- C56 is violated: a timestep listed twice is constrained twice. -/
theorem C56_violated_duplicates (s : Setup K) (h : s.Small) (t : Nat) (ht : t < s.nSteps) (hd : 0 < s.nDof) :
    ∃ cs, s.fixed [(t : Int), (t : Int)] [] = .ok cs ∧ cs.length = 2 * s.nDof ∧ ¬ cs.Nodup := by
  have he : Exist s [(t : Int), (t : Int)] [] := by
    refine ⟨?_, by simp⟩
    intro a ha
    simp at ha; subst ha; exact ⟨by positivity, by exact_mod_cast ht⟩
  refine ⟨_, fixed_eq s h _ [] he.1 (by simp), ?_, ?_⟩
  · simp [Setup.stepCells, Setup.dofCells]; ring
  · obtain ⟨m, hm⟩ : ∃ m, s.nDof = m + 1 := ⟨s.nDof - 1, by omega⟩
    simp [Setup.stepCells, Setup.dofCells, hm, List.range_succ_eq_map]

/-- non-vacuity: a setup with four steps, two joints and a time column, with existing, duplicate-free indices. -/
example : ∃ s : Setup ℚ, s.Small ∧ s.useTime = true ∧ Exist s [0, 3] [1] ∧ 0 < s.nDof ∧ 0 < s.nSteps :=
  ⟨⟨4, 2, true, fun i j => i + j⟩, ⟨by decide, by decide⟩, rfl, ⟨by decide, by decide⟩, by decide, by decide⟩

end fixed

section ranges

/-- Specification: the finite difference of order `k` can be formed and the range lies inside the trajectory. -/
def Usable (k n : Int) (r : Int × Int) : Prop := 0 ≤ r.1 ∧ r.1 + k ≤ r.2 ∧ r.2 ≤ n - 1

/-- C57 for position terms: any `last_step`, any non-negative `first_step`. -/
theorem C57_pos_partial (n first last : Int) (hn : 1 ≤ n) (hf : 0 ≤ first) : Usable 0 n (posRange n first last) := by
  unfold Usable posRange
  dsimp only
  split_ifs <;> refine ⟨?_, ?_, ?_⟩ <;> dsimp only at * <;> omega

/-- C57 for velocity terms: any `last_step`, any non-negative `first_step`. -/
theorem C57_vel_partial (n first last : Int) (hn : 2 ≤ n) (hf : 0 ≤ first) : Usable 1 n (velRange n first last) := by
  unfold Usable velRange diffRange
  dsimp only
  split_ifs <;> refine ⟨?_, ?_, ?_⟩ <;> dsimp only at * <;> omega

/-- The range meant by the user: open end and values past the end are cut off. -/
def clampFirst (k n first : Int) : Int := min first (n - 1 - k)
def clampLast (n last : Int) : Int := if last ≤ -1 then n - 1 else min last (n - 1)

/-- C57 for acceleration terms, exactly: usable iff the cut range is a single step or spans at least two intervals. -/
theorem C57_acc_partial (n first last : Int) (hn : 3 ≤ n) (hf : 0 ≤ first) :
    Usable 2 n (accRange n first last) ↔ |clampLast n last - clampFirst 2 n first| ≠ 1 := by
  unfold Usable accRange diffRange clampLast clampFirst
  dsimp only
  rw [Int.abs_eq_natAbs]
  split_ifs <;> dsimp only at * <;> omega

/-- C57 for jerk terms, exactly: usable iff the cut range spans at least three intervals, or is a single step with four
more steps after it. -/
theorem C57_jerk_partial (n first last : Int) (hn : 4 ≤ n) (hf : 0 ≤ first) :
    Usable 3 n (jerkRange n first last) ↔
      3 ≤ |clampLast n last - clampFirst 3 n first| ∨
        (clampLast n last = clampFirst 3 n first ∧ clampFirst 3 n first + 4 ≤ n - 1) := by
  unfold Usable jerkRange diffRange clampLast clampFirst
  dsimp only
  rw [Int.abs_eq_natAbs]
  split_ifs <;> dsimp only at * <;> omega

/-- C57 is violated by a negative `first_step`, for every kind of term and every trajectory. -/
theorem C57_violated_negative (n last : Int) (hn : 4 ≤ n) (hl : 0 ≤ last) :
    ¬ Usable 0 n (posRange n (-1) last) ∧ ¬ Usable 1 n (velRange n (-1) last) ∧ ¬ Usable 2 n (accRange n (-1) last) ∧
    ¬ Usable 3 n (jerkRange n (-1) last) := by
  unfold Usable posRange velRange accRange jerkRange diffRange
  dsimp only
  refine ⟨?_, ?_, ?_, ?_⟩ <;> split_ifs <;> dsimp only at * <;> omega

/-- C57 is violated by acceleration terms: `first_step = last_step = n - 2` becomes the two-step range `[n-3, n-2]`. -/
theorem C57_violated_acc (n : Int) (hn : 3 ≤ n) : accRange n (n - 2) (n - 2) = (n - 3, n - 2) ∧
    ¬ Usable 2 n (accRange n (n - 2) (n - 2)) := by
  have : accRange n (n - 2) (n - 2) = (n - 3, n - 2) := by
    unfold accRange diffRange; dsimp only
    split_ifs <;> first | omega | (ext <;> dsimp only <;> omega)
  refine ⟨this, ?_⟩
  rw [this]; unfold Usable; dsimp only; omega

/-- C57 is violated by jerk terms: `first_step = last_step = n - 4` becomes `[n-4, n]`, one step past the end. -/
theorem C57_violated_jerk (n : Int) (hn : 4 ≤ n) : jerkRange n (n - 4) (n - 4) = (n - 4, n) ∧
    ¬ Usable 3 n (jerkRange n (n - 4) (n - 4)) := by
  have : jerkRange n (n - 4) (n - 4) = (n - 4, n) := by
    unfold jerkRange diffRange; dsimp only
    split_ifs <;> first | omega | (ext <;> dsimp only <;> omega)
  refine ⟨this, ?_⟩
  rw [this]; unfold Usable; dsimp only; omega

/-- non-vacuity: a whole trajectory of ten steps is usable for every kind of term. -/
example : Usable 0 10 (posRange 10 0 (-1)) ∧ Usable 1 10 (velRange 10 0 (-1)) ∧ Usable 2 10 (accRange 10 0 (-1)) ∧
    Usable 3 10 (jerkRange 10 0 (-1)) := by
  unfold Usable posRange velRange accRange jerkRange diffRange; decide

end ranges

end Verif.Problem
