import Verif.Model.IfoptScene
import Verif.Props.IfoptPlan

/-!
C139: joint trajectory problems with further constraint sets of any kind, for whole runs of the SQP solver.
-/

set_option linter.unusedSectionVars false
set_option linter.unusedVariables false

namespace Verif.IfoptPlan

open Verif.Bounds Verif.JointConstraints
open Verif.VarSets (Var VarSpec NodesVariables)
open Verif.QpProblem (Snap Comp Penalty State sides Proper CntFine ObjFine Sized CntOk ObjOk infoOf Described)
open Verif.OsqpEigen (Solver)
open Verif.SqpRun (Reusable reusable_new Setting Usable Desc World Run Sane run vars ext at' violationOf descOf)
open Verif.Sqp (Params)

universe u
variable {K : Type u} [Field K] [LinearOrder K] [IsStrictOrderedRing K]

/-! ### Specification -/

/-- Specification: the bounds a penalty type accepts. -/
def Accepted (p : Option Penalty) (b : Bounds K) : Prop :=
  match p with
  | some .squared => b.type = .equality
  | some .absolute => b.type = .equality
  | some .hinge => b.type = .lowerBound ∨ b.type = .upperBound
  | none => True

/-- Specification: a constraint set over `n` variables that conforms to its interface and suits the penalty type it is added with.  Squared
costs and constraint sets of fixed size have rows; points with the same hash are the same to the set. -/
structure SetOk (hash : (Nat → K) → Nat) (n : Nat) (c : Comp K) (p : Option Penalty) : Prop where
  fine : if p = some .squared then ObjFine n c else CntFine n c
  suits : ∀ x u, ∀ b ∈ (c.ask x u).bounds, Accepted p b
  faithful : ∀ x u, hash u = hash x → c.ask x u = c.ask x x
  rows : p = some .squared ∨ p = none ∧ c.dynamic = false → ∀ u, 0 < c.rowsAt u

/-- Specification: the further sets added with the penalty type `p`, of fixed or of varying size, in order. -/
def Scene.sets (S : Scene K) (nv : NodesVariables K) (p : Option Penalty) (dynamic : Bool) : List (Comp K) :=
  S.others.filterMap fun a => if a.2 = p then (a.1 nv).filter fun c => c.dynamic == dynamic else none

/-- Specification: a scene that fits together.  There are no more constraints of varying size than variables. -/
structure Scene.Ok (hash : (Nat → K) → Nat) (dof : Nat) (S : Scene K) : Prop where
  plan : S.plan.Ok dof
  sets : ∀ nv, VarSets.build S.plan.nodes = some nv → ∀ a ∈ S.others, ∃ c, a.1 nv = some c ∧ SetOk hash nv.nDim c a.2
  few : ∀ nv, VarSets.build S.plan.nodes = some nv → (S.sets nv none true).length ≤ nv.nDim

/-- Specification: weighted sum of the squared distances of a set to its bounds at `x`. -/
def squaresOf (c : Comp K) (x : List K) : K :=
  (List.zipWith (fun e w => e * e * w) (calcBoundsViolations (at' c x).values ((at' c x).bounds.map sides)) (at' c x).coeffs).sum

/-- Specification: the costs of a scene: squared, hinge, absolute; for each kind the joint terms, further sets of fixed size, further sets of
varying size. -/
def Scene.costs (S : Scene K) (nv : NodesVariables K) (q : Nat → Nat → K) (x : List K) : List K :=
  (S.plan.terms (some .squared)).map (·.squares S.plan.pos.length q) ++
    (S.sets nv (some .squared) false ++ S.sets nv (some .squared) true).map (squaresOf · x) ++
  ((S.plan.terms (some .hinge)).map (·.error S.plan.pos.length q) ++
    (S.sets nv (some .hinge) false ++ S.sets nv (some .hinge) true).map (violationOf · x)) ++
  ((S.plan.terms (some .absolute)).map (·.error S.plan.pos.length q) ++
    (S.sets nv (some .absolute) false ++ S.sets nv (some .absolute) true).map (violationOf · x))

/-- Specification: a scene handed to the optimizer: the problem on the variables `nv` was built from `S`, `w` is a finished run, and `nv'` are
the variables afterwards. -/
def Solved (sqrt : K → K) (hash : (Nat → K) → Nat) (junk : Nat → Ext K) (p : Params K) (o : World K) (qs : Solver K) (fuel : Nat) (S : Scene K)
    (nv : NodesVariables K) (w : Run K (State K)) (nv' : NodesVariables K) : Prop :=
  ∃ s, S.problem = some (nv, s) ∧ run sqrt hash junk p o qs fuel (s.setup junk) = .ok w ∧ nv.setVariables (vars w.prob) = some nv' ∧
    Reusable qs 0 0

/-! ### The problem object -/

section
variable {dof : Nat} {S : Scene K} {nv : NodesVariables K} {hash : (Nat → K) → Nat}

theorem sets_mem {p : Option Penalty} {d : Bool} {c : Comp K} : c ∈ S.sets nv p d ↔ ∃ m, (m, p) ∈ S.others ∧ m nv = some c ∧ c.dynamic = d := by
  simp only [Scene.sets, List.mem_filterMap]
  constructor
  · rintro ⟨⟨m, q⟩, h1, h2⟩
    split at h2
    · rename_i h3
      simp only at h3
      subst h3
      rw [Option.filter_eq_some_iff] at h2
      exact ⟨m, h1, h2.1, by simpa using h2.2⟩
    · cases h2
  · rintro ⟨m, h1, h2, h3⟩
    refine ⟨(m, p), h1, ?_⟩
    rw [if_pos rfl, Option.filter_eq_some_iff]
    exact ⟨h2, by simpa using h3⟩

/-- The problem with all costs and constraints. -/
def sceneState (S : Scene K) (nv : NodesVariables K) : State K :=
  { empty nv with
    squared := comps S.plan nv (some .squared) ++ S.sets nv (some .squared) false, dynSquared := S.sets nv (some .squared) true
    hinge := comps S.plan nv (some .hinge) ++ S.sets nv (some .hinge) false, dynHinge := S.sets nv (some .hinge) true
    absolute := comps S.plan nv (some .absolute) ++ S.sets nv (some .absolute) false, dynAbsolute := S.sets nv (some .absolute) true
    cnts := comps S.plan nv none ++ S.sets nv none false, dynCnts := S.sets nv none true }

/-- Adding one suitable set. -/
theorem addOther_ok {a : Maker K × Option Penalty} {c : Comp K} (hc : a.1 nv = some c) (h : SetOk hash nv.nDim c a.2) (s : State K) :
    addOther nv s a = some (match a.2, c.dynamic with
      | some .squared, false => { s with squared := s.squared ++ [c], initialized := false }
      | some .squared, true => { s with dynSquared := s.dynSquared ++ [c], initialized := false }
      | some .absolute, false => { s with absolute := s.absolute ++ [c], initialized := false }
      | some .absolute, true => { s with dynAbsolute := s.dynAbsolute ++ [c], initialized := false }
      | some .hinge, false => { s with hinge := s.hinge ++ [c], initialized := false }
      | some .hinge, true => { s with dynHinge := s.dynHinge ++ [c], initialized := false }
      | none, false => { s with cnts := s.cnts ++ [c], initialized := false }
      | none, true => { s with dynCnts := s.dynCnts ++ [c], initialized := false }) := by
  obtain ⟨m, p⟩ := a
  have hs := h.suits s.x s.upd
  unfold addOther
  simp only at hc hs ⊢
  rw [hc]
  cases p with
  | none => cases hd : c.dynamic <;> simp [State.addConstraintSet, hd]
  | some p =>
    cases p with
    | squared =>
      have : ∀ b ∈ (s.ask c).bounds, b.type = .equality := hs
      simp only [State.addCostSet, if_pos this]
      cases hd : c.dynamic <;> simp
    | absolute =>
      have : ∀ b ∈ (s.ask c).bounds, b.type = .equality := hs
      simp only [State.addCostSet, if_pos this]
      cases hd : c.dynamic <;> simp
    | hinge =>
      have : ∀ b ∈ (s.ask c).bounds, b.type = .lowerBound ∨ b.type = .upperBound := hs
      simp only [State.addCostSet, if_pos this]
      cases hd : c.dynamic <;> simp

theorem scene_ok (h : S.Ok hash dof) : ∃ nv, VarSets.build S.plan.nodes = some nv ∧ S.problem = some (nv, sceneState S nv) := by
  obtain ⟨nv, hb, hp⟩ := problem_ok h.plan
  refine ⟨nv, hb, ?_⟩
  have hsets := h.sets nv hb
  let pick (l : List (Maker K × Option Penalty)) (p : Option Penalty) (d : Bool) : List (Comp K) :=
    l.filterMap fun a => if a.2 = p then (a.1 nv).filter fun c => c.dynamic == d else none
  have key : ∀ (l : List (Maker K × Option Penalty)) (s : State K), s.initialized = false → (∀ a ∈ l, a ∈ S.others) →
      l.foldlM (addOther nv) s = some { s with
        squared := s.squared ++ pick l (some .squared) false, dynSquared := s.dynSquared ++ pick l (some .squared) true
        hinge := s.hinge ++ pick l (some .hinge) false, dynHinge := s.dynHinge ++ pick l (some .hinge) true
        absolute := s.absolute ++ pick l (some .absolute) false, dynAbsolute := s.dynAbsolute ++ pick l (some .absolute) true
        cnts := s.cnts ++ pick l none false, dynCnts := s.dynCnts ++ pick l none true } := by
    intro l
    induction l with
    | nil => intro s hs _; simp [pick]
    | cons a l ih =>
      intro s hs hl
      obtain ⟨c, hc, hok⟩ := hsets a (hl a (by simp))
      rw [List.foldlM_cons, addOther_ok hc hok s]
      simp only [Option.bind_eq_bind, Option.bind_some]
      obtain ⟨m, p⟩ := a
      simp only at hc hok
      rw [ih _ (by
        cases p with
        | none => cases c.dynamic <;> rfl
        | some p => cases p <;> cases c.dynamic <;> rfl) fun b hb => hl b (by simp [hb])]
      cases p with
      | none => cases hd : c.dynamic <;> simp [pick, List.filterMap_cons, hc, hd, hs, Option.filter]
      | some p => cases p <;> cases hd : c.dynamic <;> simp [pick, List.filterMap_cons, hc, hd, hs, Option.filter]
  unfold Scene.problem
  rw [hp]
  simp only
  rw [key S.others (filled S.plan nv) rfl fun a ha => ha]
  simp [filled, empty, sceneState, Scene.sets, pick]

theorem set_ok (h : S.Ok hash dof) (hb : VarSets.build S.plan.nodes = some nv) {p : Option Penalty} {d : Bool} {c : Comp K}
    (hc : c ∈ S.sets nv p d) : SetOk hash nv.nDim c p ∧ c.dynamic = d := by
  obtain ⟨m, h1, h2, h3⟩ := sets_mem.1 hc
  obtain ⟨c', h4, h5⟩ := h.sets nv hb _ h1
  have h4 : m nv = some c' := h4
  rw [h2] at h4; injection h4 with h4; subst h4
  exact ⟨h5, h3⟩

theorem set_cnt (h : S.Ok hash dof) (hb : VarSets.build S.plan.nodes = some nv) {p : Option Penalty} (hp : p ≠ some .squared) {d : Bool} {c : Comp K}
    (hc : c ∈ S.sets nv p d) : CntFine nv.nDim c := by
  have := (set_ok h hb hc).1.fine
  rwa [if_neg hp] at this

theorem scene_described (h : S.Ok hash dof) (hb : VarSets.build S.plan.nodes = some nv) : Described (sceneState S nv) := by
  have hD := filled_described h.plan hb
  refine ⟨?_, ?_, ?_, hD.varBounds, hD.valid⟩
  · intro c hc
    simp only [sceneState, List.mem_append] at hc
    rcases hc with (hc | hc) | hc
    · exact hD.obj c (by simp [filled, hc])
    · have := (set_ok h hb hc).1.fine; rwa [if_pos rfl] at this
    · have := (set_ok h hb hc).1.fine; rwa [if_pos rfl] at this
  · intro c hc
    simp only [sceneState, List.mem_append] at hc
    rcases hc with (((hc | hc) | hc) | (hc | hc)) | hc
    · exact hD.pen c (by simp [filled, hc])
    · exact set_cnt h hb (by simp) hc
    · exact set_cnt h hb (by simp) hc
    · exact hD.pen c (by simp [filled, hc])
    · exact set_cnt h hb (by simp) hc
    · exact set_cnt h hb (by simp) hc
  · intro c hc
    simp only [sceneState, List.mem_append] at hc
    rcases hc with (hc | hc) | hc
    · exact hD.merit c (by simp [filled, hc])
    · exact set_cnt h hb (by simp) hc
    · exact set_cnt h hb (by simp) hc

theorem scene_setting {sqrt : K → K} (hsqrt : ∀ a : K, 0 ≤ a → sqrt a * sqrt a = a) (junk : Nat → Ext K) {p : Params K}
    (hp : Sane p) {o : World K} (ho : o.Sized) (h : S.Ok hash dof) (hb : VarSets.build S.plan.nodes = some nv) {qs : Solver K} (hqs : Reusable qs 0 0) :
    Setting sqrt hash (descOf (sceneState S nv)) p o ((sceneState S nv).setup junk) qs := by
  have hP := plan_setting hsqrt hash junk hp ho h.plan hb hqs
  have hcs : ∀ p, ∀ c ∈ comps S.plan nv p, ∀ u, 0 < c.rowsAt u := by
    intro p c hc u
    obtain ⟨t, ht, rfl⟩ := comps_mem hc
    rw [comp_rows h.plan hb (terms_mem h.plan ht).1]
    exact rows_pos h.plan.hdof _ (terms_mem h.plan ht).1
  refine ⟨hsqrt, ⟨nDim_pos h.plan hb, ?_, ?_, ?_⟩, SqpRun.setup_usable hash (scene_described h hb) rfl ?_ junk, hp, ho, hqs⟩
  · intro c hc x u hu
    have key : (∃ q, c ∈ comps S.plan nv q) ∨ ∃ q d, c ∈ S.sets nv q d := by
      simp only [descOf, sceneState, List.mem_append] at hc
      rcases hc with ((((hc | hc) | hc) | ((((hc | hc) | hc) | (hc | hc)) | hc))) | ((hc | hc) | hc)
      all_goals first | exact .inl ⟨_, hc⟩ | exact .inr ⟨_, _, hc⟩
    rcases key with ⟨q, hc⟩ | ⟨q, d, hc⟩
    · obtain ⟨t, ht, rfl⟩ := comps_mem hc; rfl
    · exact (set_ok h hb hc).1.faithful x u hu
  · have hpos : ∀ c ∈ (descOf (sceneState S nv)).objective, ∀ u, 0 < c.rowsAt u := by
      intro c hc u
      simp only [descOf, sceneState, List.mem_append] at hc
      rcases hc with (hc | hc) | hc
      · exact hcs _ c hc u
      · exact (set_ok h hb hc).1.rows (.inl rfl) u
      · exact (set_ok h hb hc).1.rows (.inl rfl) u
    cases hl : (descOf (sceneState S nv)).objective with
    | nil => exact .inl rfl
    | cons c l =>
      right
      intro u
      have := hpos c (by rw [hl]; simp) u
      rw [List.map_cons, List.sum_cons]; omega
  · intro u
    have key : ∀ l : List (Comp K), (∀ c ∈ l, 0 < c.rowsAt u) → l.length ≤ (l.map (·.rowsAt u)).sum := by
      intro l
      induction l with
      | nil => intro _; exact Nat.le_refl _
      | cons c l ih =>
        intro hl
        have h1 := ih fun c hc => hl c (by simp [hc])
        have h2 := hl c (by simp)
        rw [List.map_cons, List.sum_cons, List.length_cons]; omega
    have h1 := key (comps S.plan nv none ++ S.sets nv none false) (by
      intro c hc
      rcases List.mem_append.1 hc with hc | hc
      · exact hcs _ c hc u
      · obtain ⟨h1, h2⟩ := set_ok h hb hc
        exact h1.rows (.inr ⟨rfl, h2⟩) u)
    have h2 := h.few nv hb
    show (comps S.plan nv none ++ S.sets nv none false ++ S.sets nv none true).length ≤
      ((comps S.plan nv none ++ S.sets nv none false ++ S.sets nv none true).map (·.rowsAt u)).sum + nv.nDim
    rw [List.length_append, List.map_append, List.sum_append]
    omega
  · intro i hi
    have hi : nv.nDim ≤ i := hi
    show nv.values.getD i 0 = 0
    rw [List.getD_eq_getElem?_getD, List.getElem?_eq_none (by rw [values_length hb]; exact hi)]; rfl

end

/-! ### Sets given by rows -/

/-- A set whose answers are lists of rows with proper bounds. -/
theorem SetOk.of_shape {hash : (Nat → K) → Nat} {n : Nat} {c : Comp K} {p : Option Penalty} (N : (Nat → K) → Nat)
    (h : ∀ x u, ∃ L : List (Row K), Shape n (c.ask x u) L ∧ L.length = N u ∧ ∀ r ∈ L, 0 ≤ r.2.1 ∧ Proper r.2.2 ∧ Accepted p r.2.2)
    (hs : c.dynamic = false → ∀ u u', N u = N u') (hf : ∀ x u, hash u = hash x → c.ask x u = c.ask x x)
    (hN : p = some .squared ∨ p = none ∧ c.dynamic = false → ∀ u, 0 < N u) : SetOk hash n c p := by
  have hrow : ∀ u, c.rowsAt u = N u := by
    intro u
    obtain ⟨L, h1, h2, -⟩ := h u u
    rw [Comp.rowsAt, h1.values, List.length_map, h2]
  have hsz : Sized c := by
    refine ⟨fun x u => ?_, fun x u => ?_, fun hd u u' => ?_⟩
    · obtain ⟨L, h1, h2, -⟩ := h x u
      rw [h1.count, h2, hrow]
    · obtain ⟨L, h1, h2, -⟩ := h x u
      rw [h1.values, List.length_map, h2, hrow]
    · rw [hrow, hrow, hs hd u u']
  refine ⟨?_, ?_, hf, fun hp u => by rw [hrow]; exact hN hp u⟩
  · split
    · rename_i hp
      refine ⟨hsz, fun x u => ?_⟩
      obtain ⟨L, hL, -, h3⟩ := h x u
      refine ⟨rfl, by rw [hL.jac, hL.values, List.length_map], ?_, ?_, hL.cols, hL.range, ?_, ?_⟩
      · rw [hL.coeffs, hL.values, List.length_map, List.length_map]
      · simp only [infoOf, QpProblem.Snap.rows, hL.bounds, hL.values, List.length_map]
      · intro k hk
        rw [hL.coeffs, List.mem_map] at hk
        obtain ⟨r, hr, rfl⟩ := hk
        exact (h3 r hr).1
      · intro b hb
        simp only [infoOf, hL.bounds, List.mem_map] at hb
        obtain ⟨r, hr, rfl⟩ := hb
        obtain ⟨-, h4, h5⟩ := h3 r hr
        subst hp
        rcases h4 with ⟨l, u, e, -⟩ | ⟨l, e⟩ | ⟨u, e⟩
        · exact ⟨l, u, e⟩
        · rw [e] at h5; cases h5
        · rw [e] at h5; cases h5
    · refine ⟨hsz, fun x u => ?_⟩
      obtain ⟨L, hL, -, h3⟩ := h x u
      refine ⟨rfl, by rw [hL.jac, hL.values, List.length_map], ?_, ?_, hL.range, ?_, ?_⟩
      · simp only [infoOf, QpProblem.Snap.rows, hL.coeffs, hL.values, List.length_map]
      · simp only [infoOf, QpProblem.Snap.rows, hL.bounds, hL.values, List.length_map]
      · intro k hk
        simp only [infoOf, hL.coeffs, List.mem_map] at hk
        obtain ⟨r, hr, rfl⟩ := hk
        exact (h3 r hr).1
      · intro b hb
        simp only [infoOf, hL.bounds, List.mem_map] at hb
        obtain ⟨r, hr, rfl⟩ := hb
        exact (h3 r hr).2.1
  · intro x u b hb
    obtain ⟨L, hL, -, h3⟩ := h x u
    rw [hL.bounds, List.mem_map] at hb
    obtain ⟨r, hr, rfl⟩ := hb
    exact (h3 r hr).2.2

/-- What a set reads as the position of a step is what the user reads. -/
theorem position_joint {dof : Nat} {P : Plan K} {nv : NodesVariables K} (h : P.Ok dof) (hb : VarSets.build P.nodes = some nv) {s : Nat} (hs : s < P.pos.length)
    (x : Nat → K) : ∃ nv', nv.setVariables ((List.range nv.nDim).map x) = some nv' ∧
      position (n := dof) P.pos nv s x = some fun j => joint P.pos nv' s j.val := by
  obtain ⟨nv', h1, -, h3, h4⟩ := set_same h hb ((List.range nv.nDim).map x) (by simp)
  refine ⟨nv', h1, ?_⟩
  have hp : P.pos[s]? = some P.pos[s] := List.getElem?_eq_getElem hs
  obtain ⟨p1, p2⟩ := pos_var h hb (List.getElem_mem hs)
  obtain ⟨v', v1, v2⟩ := h4 _ _ p1
  have hlen : v'.values.length = dof := by
    rw [v2, VarSets.slice, List.length_take, List.length_drop, p2]
    have := (starts_ordered h hb).2 (var nv P.pos[s]).index (List.mem_map_of_mem (List.getElem_mem hs))
    simp only [List.length_map, List.length_range]
    omega
  have hj : ∀ j : Fin dof, joint P.pos nv' s j.val = v'.values.getD j.val 0 := by
    intro j
    simp only [joint, hp, Option.bind_some, v1]
  unfold position stepVar
  simp only [h1, hp, Option.bind_some, v1, if_pos hlen, hj]

theorem range_ext {x : List K} {m : Nat} (hx : x.length = m) : (List.range m).map (ext x) = x := by
  apply List.ext_getElem?
  intro i
  rw [List.getElem?_map]
  by_cases hi : i < m
  · rw [List.getElem?_range hi, List.getElem?_eq_getElem (by omega)]
    simp [ext, List.getD_eq_getElem?_getD, List.getElem?_eq_getElem (show i < x.length by omega)]
  · rw [List.getElem?_eq_none (by simpa using hi), List.getElem?_eq_none (by omega)]; rfl

/-- The variable of a step. -/
theorem stepVar_eq {dof : Nat} {P : Plan K} {nv : NodesVariables K} (h : P.Ok dof) (hb : VarSets.build P.nodes = some nv) {s : Nat} (hs : s < P.pos.length) :
    ∃ v, stepVar P.pos nv s = some v ∧ v.values.length = dof ∧ v.index + dof ≤ nv.nDim := by
  obtain ⟨p1, p2⟩ := pos_var h hb (List.getElem_mem hs)
  refine ⟨var nv P.pos[s], ?_, p2, (starts_ordered h hb).2 _ (List.mem_map_of_mem (List.getElem_mem hs))⟩
  simp only [stepVar, List.getElem?_eq_getElem hs, Option.bind_some, p1]

/-! ### Theorems -/

section
variable {dof : Nat} {S : Scene K} {sqrt : K → K} {hash : (Nat → K) → Nat} {junk : Nat → Ext K} {p : Params K} {o : World K}

/-- C139: every scene that fits together is accepted and solved, and the variables can be read afterwards. -/
theorem C139_solved [Archimedean K] (hsqrt : ∀ a : K, 0 ≤ a → sqrt a * sqrt a = a) (hp : Sane p) (ho : o.Sized) (h : S.Ok hash dof)
    {qs : Solver K} (hqs : Reusable qs 0 0) (hmin : 0 < p.minTrustBoxSize) (hs1 : p.trustShrinkRatio < 1) :
    ∃ F nv w nv', ∀ fuel, F ≤ fuel → Solved sqrt hash junk p o qs fuel S nv w nv' := by
  obtain ⟨nv, hb, hpr⟩ := scene_ok h
  have St := scene_setting hsqrt junk hp ho h hb hqs
  obtain ⟨F, w, hw⟩ := SqpRun.C130_returns St junk hmin hs1
  have hg := SqpRun.run_good St (.inl (hw F (le_refl _)))
  have hl : (vars w.prob).length = nv.nDim := by
    have hU : Usable hash (descOf (sceneState S nv)) w.prob := hg.inv
    have : w.prob.nVars = nv.nDim := hU.nVars
    simp [vars, this]
  obtain ⟨nv', h1, -⟩ := set_same h.plan hb _ hl
  exact ⟨F, nv, w, nv', fun fuel hf => ⟨_, hpr, hw fuel hf, h1, hqs⟩⟩

/-- Facts about a solved scene. -/
theorem solved_facts (hsqrt : ∀ a : K, 0 ≤ a → sqrt a * sqrt a = a) (hp : Sane p) (ho : o.Sized) (h : S.Ok hash dof) {qs : Solver K} {fuel : Nat}
    {nv : NodesVariables K} {w : Run K (State K)} {nv' : NodesVariables K} (hw : Solved sqrt hash junk p o qs fuel S nv w nv') :
    VarSets.build S.plan.nodes = some nv ∧ Setting sqrt hash (descOf (sceneState S nv)) p o ((sceneState S nv).setup junk) qs ∧
      run sqrt hash junk p o qs fuel ((sceneState S nv).setup junk) = .ok w ∧ nv.setVariables (vars w.prob) = some nv' ∧
      (vars w.prob).length = nv.nDim := by
  obtain ⟨nv1, hb, hpr⟩ := scene_ok h
  obtain ⟨s1, h1, h2, h3, h4⟩ := hw
  rw [hpr] at h1
  injection h1 with h1
  injection h1 with e1 e2
  subst e1; subst e2
  have St := scene_setting hsqrt junk hp ho h hb h4
  have hg := SqpRun.run_good St (.inl h2)
  have hl : (vars w.prob).length = nv1.nDim := by
    have hU : Usable hash (descOf (sceneState S nv1)) w.prob := hg.inv
    have : w.prob.nVars = nv1.nDim := hU.nVars
    simp [vars, this]
  exact ⟨hb, St, h2, h3, hl⟩

/-- C139: the status is `kConverged` exactly when, at the returned variables, every joint constraint is met and the violation of every further
constraint set is below `cnt_tolerance`. -/
theorem C139_converged (hsqrt : ∀ a : K, 0 ≤ a → sqrt a * sqrt a = a) (hp : Sane p) (ho : o.Sized) (h : S.Ok hash dof) {qs : Solver K} {fuel : Nat}
    {nv : NodesVariables K} {w : Run K (State K)} {nv' : NodesVariables K} (hw : Solved sqrt hash junk p o qs fuel S nv w nv')
    (hr : 0 < p.maxMeritCoeffIncreases) :
    w.status = .converged ↔ (∀ t, (t, none) ∈ S.plan.adds → t.error S.plan.pos.length (joint S.plan.pos nv') < p.cntTolerance) ∧
      ∀ m c, (m, none) ∈ S.others → m nv = some c → violationOf c (vars w.prob) < p.cntTolerance := by
  obtain ⟨hb, St, h2, h3, hl⟩ := solved_facts hsqrt hp ho h hw
  rw [SqpRun.C131_converged_iff St h2 hr]
  have hmer : (descOf (sceneState S nv)).merit = comps S.plan nv none ++ S.sets nv none false ++ S.sets nv none true := rfl
  rw [hmer]
  have hmem : ∀ t, t ∈ S.plan.terms none ↔ (t, none) ∈ S.plan.adds := by
    intro t
    simp only [Plan.terms, List.mem_map, List.mem_filter, decide_eq_true_eq]
    constructor
    · rintro ⟨⟨t', p'⟩, ⟨h1, rfl⟩, rfl⟩; exact h1
    · intro h1; exact ⟨(t, none), ⟨h1, rfl⟩, rfl⟩
  constructor
  · intro hc
    constructor
    · intro t ht
      rw [← (term_reads h.plan hb hl h3 (terms_mem h.plan ((hmem t).2 ht)).1).1]
      refine hc _ (List.mem_append_left _ (List.mem_append_left _ ?_))
      simp only [comps, List.mem_map]; exact ⟨t, (hmem t).2 ht, rfl⟩
    · intro m c hm hmc
      refine hc c ?_
      cases hd : c.dynamic with
      | false => exact List.mem_append_left _ (List.mem_append_right _ (sets_mem.2 ⟨m, hm, hmc, hd⟩))
      | true => exact List.mem_append_right _ (sets_mem.2 ⟨m, hm, hmc, hd⟩)
  · rintro ⟨ha, hc⟩ c hcm
    rcases List.mem_append.1 hcm with hcm | hcm
    · rcases List.mem_append.1 hcm with hcm | hcm
      · obtain ⟨t, ht, rfl⟩ := comps_mem hcm
        rw [(term_reads h.plan hb hl h3 (terms_mem h.plan ht).1).1]
        exact ha t ((hmem t).1 ht)
      · obtain ⟨m, h5, h6, -⟩ := sets_mem.1 hcm; exact hc m c h5 h6
    · obtain ⟨m, h5, h6, -⟩ := sets_mem.1 hcm; exact hc m c h5 h6

/-- C139: when the solver converges, every row of every further constraint is within its bounds up to `cnt_tolerance`. -/
theorem C139_rows (hsqrt : ∀ a : K, 0 ≤ a → sqrt a * sqrt a = a) (hp : Sane p) (ho : o.Sized) (h : S.Ok hash dof) {qs : Solver K} {fuel : Nat}
    {nv : NodesVariables K} {w : Run K (State K)} {nv' : NodesVariables K} (hw : Solved sqrt hash junk p o qs fuel S nv w nv')
    (hc : w.status = .converged) {m : Maker K} {c : Comp K} (hm : (m, none) ∈ S.others) (hmc : m nv = some c) (i : Nat) (v : K) (b : Bounds K)
    (hi : (at' c (vars w.prob)).values[i]? = some v) (hbi : (at' c (vars w.prob)).bounds[i]? = some b) :
    (∀ l, b.lower = .fin l → l - p.cntTolerance < v) ∧ ∀ u, b.upper = .fin u → v < u + p.cntTolerance := by
  obtain ⟨hb, St, h2, h3, hl⟩ := solved_facts hsqrt hp ho h hw
  refine SqpRun.C131_converged_rows St h2 hc c ?_ i v b hi hbi
  show c ∈ comps S.plan nv none ++ S.sets nv none false ++ S.sets nv none true
  cases hd : c.dynamic with
  | false => exact List.mem_append_left _ (List.mem_append_right _ (sets_mem.2 ⟨m, hm, hmc, hd⟩))
  | true => exact List.mem_append_right _ (sets_mem.2 ⟨m, hm, hmc, hd⟩)

/-- C139: the costs and constraint violations in the results are those of the returned variables. -/
theorem C139_costs (hsqrt : ∀ a : K, 0 ≤ a → sqrt a * sqrt a = a) (hp : Sane p) (ho : o.Sized) (h : S.Ok hash dof) {qs : Solver K} {fuel : Nat}
    {nv : NodesVariables K} {w : Run K (State K)} {nv' : NodesVariables K} (hw : Solved sqrt hash junk p o qs fuel S nv w nv') :
    w.res.bestCosts = S.costs nv (joint S.plan.pos nv') (vars w.prob) ∧
    w.res.bestViols = (S.plan.terms none).map (·.error S.plan.pos.length (joint S.plan.pos nv')) ++
      (S.sets nv none false ++ S.sets nv none true).map (violationOf · (vars w.prob)) := by
  obtain ⟨hb, St, h2, h3, hl⟩ := solved_facts hsqrt hp ho h hw
  obtain ⟨-, r1, r2, -⟩ := SqpRun.C131_results St h2
  have hmer : (descOf (sceneState S nv)).merit = comps S.plan nv none ++ S.sets nv none false ++ S.sets nv none true := rfl
  have hobj : (descOf (sceneState S nv)).objective =
    comps S.plan nv (some .squared) ++ S.sets nv (some .squared) false ++ S.sets nv (some .squared) true := rfl
  have hpen : (descOf (sceneState S nv)).penalty = (comps S.plan nv (some .hinge) ++ S.sets nv (some .hinge) false) ++ S.sets nv (some .hinge) true ++
    (comps S.plan nv (some .absolute) ++ S.sets nv (some .absolute) false) ++ S.sets nv (some .absolute) true := rfl
  have herr : ∀ q, (comps S.plan nv q).map (fun c => violationOf c (vars w.prob)) =
      (S.plan.terms q).map (·.error S.plan.pos.length (joint S.plan.pos nv')) := by
    intro q
    rw [comps, List.map_map]
    refine List.map_congr_left fun t ht => ?_
    exact (term_reads h.plan hb hl h3 (terms_mem h.plan ht).1).1
  have hsq : (comps S.plan nv (some .squared)).map (fun c => (List.zipWith (fun e w => e * e * w)
      (calcBoundsViolations (at' c (vars w.prob)).values ((at' c (vars w.prob)).bounds.map sides)) (at' c (vars w.prob)).coeffs).sum) =
      (S.plan.terms (some .squared)).map (·.squares S.plan.pos.length (joint S.plan.pos nv')) := by
    rw [comps, List.map_map]
    refine List.map_congr_left fun t ht => ?_
    exact (term_reads h.plan hb hl h3 (terms_mem h.plan ht).1).2 (single_of (by simp) (terms_mem h.plan ht).2)
  constructor
  · rw [r1, Desc.costs, hobj, hpen, Scene.costs]
    simp only [List.map_append, herr, hsq, List.append_assoc]
    rfl
  · rw [r2, Desc.viols, hmer]
    simp only [List.map_append, herr, List.append_assoc]

/-- C139: whatever the status, if the bounds of all programs are inside OSQP's range, every coordinate the user reads afterwards is within the
bounds given for it, up to the accuracy of OSQP. -/
theorem C139_limits (hsqrt : ∀ a : K, 0 ≤ a → sqrt a * sqrt a = a) (hp : Sane p) (ho : o.Sized) (h : S.Ok hash dof) {qs : Solver K} {fuel : Nat}
    {nv : NodesVariables K} {w : Run K (State K)} {nv' : NodesVariables K} (hw : Solved sqrt hash junk p o qs fuel S nv w nv') (hm : w.Moderate)
    {ε : K} (hε : 0 ≤ ε) (ha : o.Accurate ε) (i : Nat) (v : VarSpec K) (hv : S.plan.nodes.flatten[i]? = some v) :
    ∃ u, nv'.vars[i]? = some u ∧ u.values.length = v.nNames ∧ ∀ (k : Nat) lb ub x, v.bounds[k]? = some (lb, ub) → u.values[k]? = some x →
      (∀ l, lb = some l → l - ε ≤ x) ∧ ∀ u, ub = some u → x ≤ u + ε := by
  obtain ⟨hb, St, h2, h3, hl⟩ := solved_facts hsqrt hp ho h hw
  refine limits_read h.plan hb hl h3 hε ?_ hv
  rcases SqpRun.C132_within_bounds St h2 hm ha with h5 | h5
  · left
    have hx0 : ((sceneState S nv).setup junk).x = fun i => nv.values.getD i 0 := by
      unfold State.setup State.update
      rw [show (sceneState S nv).setupLists.initialized = false from rfl, Bool.false_and, if_neg (by simp)]
      rfl
    have hn : ((sceneState S nv).setup junk).nVars = nv.nDim := St.usable.nVars
    rw [h5, vars, hn, hx0]
    exact vars_initial hb
  · exact .inr h5

end
end Verif.IfoptPlan
