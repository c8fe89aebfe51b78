import Verif.Props.IfoptScene
import Verif.Props.Cartesian

/-!
C140: Cartesian pose constraints and costs in whole runs of the SQP solver.
-/

set_option linter.unusedSectionVars false
set_option linter.unusedVariables false

namespace Verif.IfoptPlan

open Verif.Bounds Verif.JointConstraints
open Verif.VarSets (Var VarSpec NodesVariables)
open Verif.QpProblem (Snap Comp Penalty State sides Proper)
open Verif.SqpRun (World Run Sane run vars ext at' violationOf)
open Verif.Sqp (Params)
open Verif.OsqpEigen (Solver)
open Verif.Cartesian (Arm Poses CartPos poseError)

universe u v w
variable {K : Type u} [Field K] [LinearOrder K] [IsStrictOrderedRing K]
variable {Name : Type v} {T : Type w} [Mul T] {n : Nat}

/-! ### Specification -/

/-- Specification: bounds of a pose component that suit the penalty type. -/
def PoseBound (split : Bool) (p : Option Penalty) (b : Bounds K) : Prop :=
  Fair b ∧ (split = false → b.type ≠ .rangeBound) ∧
    match p with
    | some .squared => b.type = .equality
    | some .absolute => b.type = .equality
    | some .hinge => b.type ≠ .equality
    | none => True

/-- Specification: the arguments of a pose constraint fit together. -/
structure PoseOk (isZero : K → Bool) (arm : Arm Name T K n) (coeffs : List K) (bounds : List (Bounds K)) (source target : Name) (split : Bool)
    (p : Option Penalty) : Prop where
  joints : 0 < n
  links : arm.has source = true ∧ arm.has target = true
  moves : arm.active source = true ∨ arm.active target = true
  six : coeffs.length = 6 ∧ bounds.length = 6
  nonneg : ∀ k ∈ coeffs, isZero k = false → 0 ≤ k
  used : ∃ k ∈ coeffs, isZero k = false
  bound : ∀ (i : Nat) k b, coeffs[i]? = some k → bounds[i]? = some b → isZero k = false → PoseBound split p b

/-- Specification: sum over the components with a coefficient of a function of coefficient, bounds and pose error. -/
def poseSum (isZero : K → Bool) (coeffs : List K) (bounds : List (Bounds K)) (e : Fin 6 → K) (f : K → Bounds K → K → K) : K :=
  ∑ i : Fin 6, if isZero (coeffs.getD i.val 0) then 0 else f (coeffs.getD i.val 0) (bounds.getD i.val default0) (e i)

/-! ### The rows -/

/-- The rows of a component. -/
def poseRow (isZero : K → Bool) (split : Bool) (k : K) (b : Bounds K) (e : K) : List (Row K) :=
  if isZero k then [] else if split then splitB e k b else [(e, k, b)]

/-- The rows of a pose constraint. -/
def poseRows (isZero : K → Bool) (split : Bool) (coeffs : List K) (bounds : List (Bounds K)) (e : Fin 6 → K) : List (Row K) :=
  (List.finRange 6).flatMap fun i => poseRow isZero split (coeffs.getD i.val 0) (bounds.getD i.val default0) (e i)

theorem poseRow_eq (isZero : K → Bool) (split : Bool) (k : K) (b : Bounds K) (i : Fin 6) (e : Fin 6 → K) :
    (Cartesian.rowsOf isZero split k b i).map (fun t => ((e t.1, t.2.1, t.2.2) : Row K)) = poseRow isZero split k b (e i) := by
  unfold Cartesian.rowsOf poseRow splitB
  cases isZero k <;> cases split <;> by_cases h : b.type = .rangeBound <;> simp [h]

variable {isZero : K → Bool} {arm : Arm Name T K n} {coeffs : List K} {bounds : List (Bounds K)} {source target : Name} {so dst : T} {split : Bool}

theorem new_rows {index : Nat} {c : CartPos Name T K n} (h : CartPos.new isZero arm index coeffs bounds source target so dst split = some c)
    (A : Poses T K) {m : Nat} (hi : index + n ≤ m) (q : Fin n → K) :
    ∃ J, c.jacobian A m q = some J ∧ Shape m ⟨c.values A q, ⟨m, J⟩, c.coeffs, c.bounds, (c.values A q).length⟩
      (poseRows isZero split coeffs bounds (poseError A arm source target so dst q)) := by
  have hv := Cartesian.values_eq h A q
  obtain ⟨-, -, kind, hk, rows, hr, rfl⟩ := Cartesian.new_some h
  have hrows : poseRows isZero split coeffs bounds (poseError A arm source target so dst q) =
      rows.map fun t => ((poseError A arm source target so dst q t.1, t.2.1, t.2.2) : Row K) := by
    rw [hr, List.map_flatMap]
    unfold poseRows
    apply List.flatMap_congr
    intro i _
    rw [poseRow_eq]
  obtain ⟨J, hJ, hlen, hJr⟩ : ∃ J, (⟨arm, index, source, target, so, dst, kind, rows.map (·.1), rows.map (·.2.1), rows.map (·.2.2), true⟩ :
      CartPos Name T K n).jacobian A m q = some J ∧ J.length = rows.length ∧ ∀ r ∈ J, ∀ e ∈ r, e.1 < m := by
    unfold CartPos.jacobian
    simp only [Bool.true_or, if_true]
    rw [mapM_some _ _ _ fun r _ => Cartesian.insertRow_block m index _ hi]
    refine ⟨_, rfl, by simp, ?_⟩
    intro r hr e he
    obtain ⟨r', _, rfl⟩ := List.mem_map.1 hr
    obtain ⟨j, _, rfl⟩ := List.mem_map.1 he
    simp only
    omega
  refine ⟨J, hJ, ?_⟩
  rw [hrows]
  constructor
  · simp only [hv, List.map_map]; rfl
  · simp only [List.map_map]; rfl
  · simp only [List.map_map]; rfl
  · simp only [hv, List.length_map]
  · rfl
  · simp only [hlen, List.length_map]
  · exact hJr

theorem half_lower {b : Bounds K} (h : Fair b) (hr : b.type = .rangeBound) : (Bounds.mk' b.lower .posInf).type = .lowerBound := by
  rcases h with ⟨l, u, rfl, hlu, h1, h2⟩ | ⟨l, rfl, h1⟩ | ⟨u, rfl, h1⟩
  · show (Bounds.mk' (.fin l) .posInf).type = _; rw [lower_eq h1]
  · rw [lower_eq h1] at hr; cases hr
  · rw [upper_eq h1] at hr; cases hr

theorem half_upper {b : Bounds K} (h : Fair b) (hr : b.type = .rangeBound) : (Bounds.mk' .negInf b.upper).type = .upperBound := by
  rcases h with ⟨l, u, rfl, hlu, h1, h2⟩ | ⟨l, rfl, h1⟩ | ⟨u, rfl, h1⟩
  · show (Bounds.mk' .negInf (.fin u)).type = _; rw [upper_eq h2]
  · rw [lower_eq h1] at hr; cases hr
  · rw [upper_eq h1] at hr; cases hr

theorem poseRow_split {p : Option Penalty} {k e : K} {b : Bounds K} (hz : isZero k = false) (hb : PoseBound split p b) :
    poseRow isZero split k b e = splitB e k b := by
  unfold poseRow
  rw [hz]
  cases split with
  | true => simp
  | false => simp [splitB, hb.2.1 rfl]

theorem poseRow_good {p : Option Penalty} {k e : K} {b : Bounds K} (hz : isZero k = false) (hb : PoseBound split p b) (hk : 0 ≤ k) :
    ∀ r ∈ poseRow isZero split k b e, 0 ≤ r.2.1 ∧ Proper r.2.2 ∧ Accepted p r.2.2 := by
  rw [poseRow_split hz hb]
  obtain ⟨h1, h2, h3⟩ := hb
  intro r hr
  have hp := split_proper e k h1 r hr
  refine ⟨?_, hp, ?_⟩
  · unfold splitB at hr
    split at hr
    · simp only [List.mem_cons, List.not_mem_nil, or_false] at hr
      rcases hr with rfl | rfl <;> exact hk
    · simp only [List.mem_singleton] at hr; subst hr; exact hk
  · unfold splitB at hr
    split at hr
    · rename_i hrt
      simp only [List.mem_cons, List.not_mem_nil, or_false] at hr
      cases p with
      | none => exact trivial
      | some p =>
        cases p with
        | squared => rw [h3] at hrt; cases hrt
        | absolute => rw [h3] at hrt; cases hrt
        | hinge =>
          rcases hr with rfl | rfl
          · exact .inl (half_lower h1 hrt)
          · exact .inr (half_upper h1 hrt)
    · simp only [List.mem_singleton] at hr; subst hr
      cases p with
      | none => exact trivial
      | some p =>
        cases p with
        | squared => exact h3
        | absolute => exact h3
        | hinge =>
          rcases hp with ⟨l, u, e, -⟩ | ⟨l, e⟩ | ⟨u, e⟩
          · exact absurd (by simp only at e; rw [e]) h3
          · exact .inl (by rw [e])
          · exact .inr (by rw [e])

theorem poseRows_length (e e' : Fin 6 → K) :
    (poseRows isZero split coeffs bounds e).length = (poseRows isZero split coeffs bounds e').length := by
  unfold poseRows
  simp only [List.length_flatMap]
  congr 1
  refine List.map_congr_left fun i _ => ?_
  unfold poseRow splitB
  split
  · rfl
  · split
    · split <;> rfl
    · rfl

section
variable {p : Option Penalty}

theorem entries (h : PoseOk isZero arm coeffs bounds source target split p) (i : Fin 6) :
    coeffs[i.val]? = some (coeffs.getD i.val 0) ∧ bounds[i.val]? = some (bounds.getD i.val default0) := by
  have h1 : coeffs[i.val]? = some (coeffs[i.val]'(by have := h.six.1; omega)) := List.getElem?_eq_getElem _
  have h2 : bounds[i.val]? = some (bounds[i.val]'(by have := h.six.2; omega)) := List.getElem?_eq_getElem _
  rw [List.getD_eq_getElem?_getD, List.getD_eq_getElem?_getD, h1, h2]
  exact ⟨rfl, rfl⟩

theorem poseRows_good (h : PoseOk isZero arm coeffs bounds source target split p) (e : Fin 6 → K) :
    ∀ r ∈ poseRows isZero split coeffs bounds e, 0 ≤ r.2.1 ∧ Proper r.2.2 ∧ Accepted p r.2.2 := by
  intro r hr
  obtain ⟨i, -, hr⟩ := List.mem_flatMap.1 hr
  obtain ⟨h1, h2⟩ := entries h i
  cases hz : isZero (coeffs.getD i.val 0) with
  | true => rw [poseRow, hz] at hr; simp at hr
  | false => exact poseRow_good hz (h.bound _ _ _ h1 h2 hz) (h.nonneg _ (List.mem_of_getElem? h1) hz) r hr

theorem poseRows_pos (h : PoseOk isZero arm coeffs bounds source target split p) (e : Fin 6 → K) :
    0 < (poseRows isZero split coeffs bounds e).length := by
  obtain ⟨k, hk, hz⟩ := h.used
  obtain ⟨i, hi⟩ := List.mem_iff_getElem?.1 hk
  have hi6 : i < 6 := by have := (List.getElem?_eq_some_iff.1 hi).1; have := h.six.1; omega
  obtain ⟨h1, h2⟩ := entries h ⟨i, hi6⟩
  simp only [hi, Option.some.injEq] at h1
  refine List.length_pos_of_mem (a := (splitB (e ⟨i, hi6⟩) k (bounds.getD i default0)).head (by unfold splitB; split <;> simp)) ?_
  refine List.mem_flatMap.2 ⟨⟨i, hi6⟩, List.mem_finRange _, ?_⟩
  rw [← h1]
  rw [poseRow_split hz (h.bound i k _ hi h2 hz)]
  exact List.head_mem _

/-- Sums over the rows. -/
theorem poseRows_sum (e : Fin 6 → K) (g : Row K → K) (f : K → Bounds K → K → K)
    (hg : ∀ i : Fin 6, isZero (coeffs.getD i.val 0) = false →
      ((poseRow isZero split (coeffs.getD i.val 0) (bounds.getD i.val default0) (e i)).map g).sum =
        f (coeffs.getD i.val 0) (bounds.getD i.val default0) (e i)) :
    ((poseRows isZero split coeffs bounds e).map g).sum = poseSum isZero coeffs bounds e f := by
  unfold poseRows poseSum
  rw [List.map_flatMap, sum_flatMap, ← List.sum_ofFn, List.ofFn_eq_map]
  congr 1
  refine List.map_congr_left fun i _ => ?_
  cases hz : isZero (coeffs.getD i.val 0) with
  | true => simp only [poseRow, hz, if_true, List.map_nil, List.sum_nil]
  | false => rw [hg i hz]; simp

end

/-! ### The set -/

section
variable {P : Plan K} {nv : NodesVariables K} {p : Option Penalty}

/-- C140: a pose constraint whose arguments fit together, on the variable of a step of the trajectory, can be part of a scene. -/
theorem C140_fits (hash : (Nat → K) → Nat) (hP : P.Ok n) (hb : VarSets.build P.nodes = some nv)
    (h : PoseOk isZero arm coeffs bounds source target split p) {s : Nat} (hs : s < P.pos.length) (A : Poses T K) (so dst : T) :
    ∃ c, cartesian isZero A arm P.pos s coeffs bounds source target so dst split nv = some c ∧ SetOk hash nv.nDim c p := by
  obtain ⟨v, v1, v2, v3⟩ := stepVar_eq hP hb hs
  have hne : CartPos.new isZero arm v.index coeffs bounds source target so dst split ≠ none := by
    rw [Ne, Cartesian.C105_rejects]
    rintro (e | e | e | e | e | ⟨e1, e2⟩)
    · exact absurd e (by have := h.joints; omega)
    · rw [h.links.1] at e; cases e
    · rw [h.links.2] at e; cases e
    · exact e h.six.2
    · exact e h.six.1
    · rcases h.moves with e | e
      · rw [e1] at e; cases e
      · rw [e2] at e; cases e
  obtain ⟨c, hc⟩ := Option.ne_none_iff_exists'.1 hne
  unfold cartesian
  simp only [v1, v2, hc, ne_eq, not_true_eq_false, if_false]
  refine ⟨_, rfl, ?_⟩
  refine SetOk.of_shape (fun _ => (poseRows isZero split coeffs bounds fun _ => 0).length) ?_ (fun _ _ _ => rfl) (fun _ _ _ => rfl)
    fun _ _ => poseRows_pos h _
  intro x u
  obtain ⟨nv', -, hq⟩ := position_joint hP hb hs x
  obtain ⟨J, hJ, hL⟩ := new_rows hc A v3 fun j => joint P.pos nv' s j.val
  refine ⟨poseRows isZero split coeffs bounds (poseError A arm source target so dst fun j => joint P.pos nv' s j.val), ?_, poseRows_length _ _,
    poseRows_good h _⟩
  simp only [hq, hJ]
  exact hL

/-- What a pose constraint answers. -/
theorem pose_shape (hP : P.Ok n) (hb : VarSets.build P.nodes = some nv) {A : Poses T K} {s : Nat} {c : Comp K}
    (hc : cartesian isZero A arm P.pos s coeffs bounds source target so dst split nv = some c) {x : List K} (hx : x.length = nv.nDim)
    {nv' : NodesVariables K} (hset : nv.setVariables x = some nv') :
    Shape nv.nDim (at' c x) (poseRows isZero split coeffs bounds (poseError A arm source target so dst fun j => joint P.pos nv' s j.val)) := by
  have hs : s < P.pos.length := by
    by_contra hs
    rw [cartesian, stepVar, List.getElem?_eq_none (by omega)] at hc
    cases hc
  obtain ⟨v, v1, v2, v3⟩ := stepVar_eq hP hb hs
  unfold cartesian at hc
  simp only [v1, v2, ne_eq, not_true_eq_false, if_false] at hc
  split at hc
  · cases hc
  rename_i c' hc'
  injection hc with hc
  subst hc
  obtain ⟨nv2, hq1, hq⟩ := position_joint hP hb hs (ext x)
  rw [range_ext hx, hset] at hq1
  injection hq1 with hq1; subst hq1
  obtain ⟨J, hJ, hL⟩ := new_rows hc' A v3 fun j => joint P.pos nv' s j.val
  unfold at'
  simp only [hq, hJ]
  exact hL

end

/-! ### Theorems -/

section
variable {S : Scene K} {sqrt : K → K} {hash : (Nat → K) → Nat} {junk : Nat → Ext K} {p : Params K} {o : World K}

/-- C140: when the solver converges, every component of the pose error that has a coefficient is within the bounds given for it, up to
`cnt_tolerance`, at the joint values the user reads. -/
theorem C140_reached (hsqrt : ∀ a : K, 0 ≤ a → sqrt a * sqrt a = a) (hp : Sane p) (ho : o.Sized) (h : S.Ok hash n) {qs : Solver K} {fuel : Nat}
    {nv : NodesVariables K} {w : Run K (State K)} {nv' : NodesVariables K} (hw : Solved sqrt hash junk p o qs fuel S nv w nv')
    (hc : w.status = .converged) {A : Poses T K} {s : Nat}
    (hm : (cartesian isZero A arm S.plan.pos s coeffs bounds source target so dst split, none) ∈ S.others)
    (i : Fin 6) (k : K) (b : Bounds K) (hk : coeffs[i.val]? = some k) (hbi : bounds[i.val]? = some b) (hz : isZero k = false) :
    let e := poseError A arm source target so dst (fun j => joint S.plan.pos nv' s j.val) i
    (∀ l, b.lower = .fin l → l - p.cntTolerance < e) ∧ ∀ u, b.upper = .fin u → e < u + p.cntTolerance := by
  intro e
  obtain ⟨hb, St, h2, h3, hl⟩ := solved_facts hsqrt hp ho h hw
  obtain ⟨c, hc', hok⟩ := h.sets nv hb _ hm
  have hc' : cartesian isZero A arm S.plan.pos s coeffs bounds source target so dst split nv = some c := hc'
  have hsh := pose_shape h.plan hb hc' hl h3
  have row : ∀ r ∈ poseRow isZero split k b e, (∀ l, r.2.2.lower = .fin l → l - p.cntTolerance < r.1) ∧ ∀ u, r.2.2.upper = .fin u → r.1 < u + p.cntTolerance := by
    intro r hr
    have hmem : r ∈ poseRows isZero split coeffs bounds (poseError A arm source target so dst fun j => joint S.plan.pos nv' s j.val) := by
      refine List.mem_flatMap.2 ⟨i, List.mem_finRange _, ?_⟩
      rw [List.getD_eq_getElem?_getD, List.getD_eq_getElem?_getD, hk, hbi]
      exact hr
    obtain ⟨t, ht⟩ := List.mem_iff_getElem?.1 hmem
    exact C139_rows hsqrt hp ho h hw hc hm hc' t r.1 r.2.2 (by rw [hsh.values, List.getElem?_map, ht]; rfl) (by rw [hsh.bounds, List.getElem?_map, ht]; rfl)
  unfold poseRow splitB at row
  rw [hz] at row
  simp only [Bool.false_eq_true, if_false] at row
  have one : (∀ r ∈ [((e, k, b) : Row K)], (∀ l, r.2.2.lower = .fin l → l - p.cntTolerance < r.1) ∧ ∀ u, r.2.2.upper = .fin u → r.1 < u + p.cntTolerance) →
      (∀ l, b.lower = .fin l → l - p.cntTolerance < e) ∧ ∀ u, b.upper = .fin u → e < u + p.cntTolerance := fun hr => hr (e, k, b) (List.mem_cons_self ..)
  split at row
  · split at row
    · exact ⟨(row _ (List.mem_cons_self ..)).1, (row _ (List.mem_cons_of_mem _ (List.mem_cons_self ..))).2⟩
    · exact one row
  · exact one row

/-- C140: the violation (or hinge or absolute cost) that is reported for a pose constraint is the total distance of the pose error to the
bounds, over the components that have a coefficient, at the joint values the user reads. -/
theorem C140_violation (hsqrt : ∀ a : K, 0 ≤ a → sqrt a * sqrt a = a) (hp : Sane p) (ho : o.Sized) (h : S.Ok hash n) {qs : Solver K} {fuel : Nat}
    {nv : NodesVariables K} {w : Run K (State K)} {nv' : NodesVariables K} (hw : Solved sqrt hash junk p o qs fuel S nv w nv')
    {A : Poses T K} {s : Nat} {q : Option Penalty}
    (hok : PoseOk isZero arm coeffs bounds source target split q) (c : Comp K)
    (hc : cartesian isZero A arm S.plan.pos s coeffs bounds source target so dst split nv = some c) :
    violationOf c (vars w.prob) = poseSum isZero coeffs bounds (poseError A arm source target so dst fun j => joint S.plan.pos nv' s j.val)
      fun _ b e => miss b e := by
  obtain ⟨hb, St, h2, h3, hl⟩ := solved_facts hsqrt hp ho h hw
  have hsh := pose_shape h.plan hb hc hl h3
  rw [violationOf, shape_violations hsh, List.map_map]
  refine poseRows_sum _ _ _ fun i hz => ?_
  obtain ⟨e1, e2⟩ := entries hok i
  have hpb := hok.bound _ _ _ e1 e2 hz
  rw [poseRow_split hz hpb, ← List.map_map]
  exact split_sum _ _ hpb.1

/-- C140: the squared cost that is reported for a pose cost is the sum of the coefficients times the squared distances. -/
theorem C140_squares (hsqrt : ∀ a : K, 0 ≤ a → sqrt a * sqrt a = a) (hp : Sane p) (ho : o.Sized) (h : S.Ok hash n) {qs : Solver K} {fuel : Nat}
    {nv : NodesVariables K} {w : Run K (State K)} {nv' : NodesVariables K} (hw : Solved sqrt hash junk p o qs fuel S nv w nv')
    {A : Poses T K} {s : Nat}
    (hok : PoseOk isZero arm coeffs bounds source target split (some .squared)) (c : Comp K)
    (hc : cartesian isZero A arm S.plan.pos s coeffs bounds source target so dst split nv = some c) :
    squaresOf c (vars w.prob) = poseSum isZero coeffs bounds (poseError A arm source target so dst fun j => joint S.plan.pos nv' s j.val)
      fun k b e => k * miss b e ^ 2 := by
  obtain ⟨hb, St, h2, h3, hl⟩ := solved_facts hsqrt hp ho h hw
  have hsh := pose_shape h.plan hb hc hl h3
  rw [squaresOf, shape_squares hsh, List.map_map]
  refine poseRows_sum _ _ _ fun i hz => ?_
  obtain ⟨e1, e2⟩ := entries hok i
  have hpb := hok.bound _ _ _ e1 e2 hz
  have hne : (bounds.getD i.val default0).type ≠ .rangeBound := by have : _ = BType.equality := hpb.2.2; rw [this]; simp
  have key := split_sum (poseError A arm source target so dst (fun j => joint S.plan.pos nv' s j.val) i) (coeffs.getD i.val 0) hpb.1
  rw [poseRow_split hz hpb]
  simp only [splitB, if_neg hne, List.map_cons, List.map_nil, List.sum_cons, List.sum_nil, add_zero, Function.comp, wv] at key ⊢
  rw [key]

end

/-! ### Example -/

/-- A planar arm with two sliding joints on one axis; link 0 is fixed, link 1 moves. -/
noncomputable def slider : Arm Nat (Multiplicative ℝ) ℝ 2 := ⟨fun l => decide (l ≤ 1), fun l => decide (l = 1), fun q l => if l = 1 then .ofAdd (q 0 + q 1) else .ofAdd 0⟩

/-- The error is the distance along the axis. -/
noncomputable def axisPoses : Poses (Multiplicative ℝ) ℝ :=
  ⟨fun a b i => if i = 0 then b.toAdd - a.toAdd else 0, fun a b b' i => if i = 0 then b'.toAdd - b.toAdd else 0,
    fun a a' b b' i => if i = 0 then (b'.toAdd - a'.toAdd) - (b.toAdd - a.toAdd) else 0, fun _ _ _ _ _ _ => 0, fun _ _ _ _ _ _ _ => 0⟩

/-- At the last step the moving link has to be between 1 and 2 in front of the fixed one. -/
noncomputable def poseMaker : Maker ℝ :=
  cartesian (fun k => decide (k = 0)) axisPoses slider demo.pos 2 [1, 0, 0, 0, 0, 0] [Bounds.mk' (.fin 1) (.fin 2), default0, default0, default0, default0, default0]
    0 1 (.ofAdd 0) (.ofAdd 0) true

/-- The plan of the example for C136 with a pose constraint. -/
noncomputable def poseDemo : Scene ℝ := ⟨demo, [(poseMaker, none)]⟩

theorem pose_ok : PoseOk (fun k : ℝ => decide (k = 0)) slider [1, 0, 0, 0, 0, 0]
    [Bounds.mk' (.fin 1) (.fin 2), default0, default0, default0, default0, default0] 0 1 true none := by
  refine ⟨by norm_num, ⟨by simp [slider], by simp [slider]⟩, .inr (by simp [slider]), ⟨rfl, rfl⟩, ?_, ⟨1, by simp, by simp⟩, ?_⟩
  · intro k hk _
    simp only [List.mem_cons, List.not_mem_nil, or_false] at hk
    rcases hk with rfl | rfl | rfl | rfl | rfl | rfl <;> norm_num
  · intro i k b hk hb hz
    match i with
    | 0 =>
      simp only [List.getElem?_cons_zero, Option.some.injEq] at hb
      subst hb
      exact ⟨.inl ⟨1, 2, rfl, by norm_num, by norm_num [Fin20], by norm_num [Fin20]⟩, by simp, trivial⟩
    | 1 | 2 | 3 | 4 | 5 => simp at hk; subst hk; simp at hz
    | i + 6 => simp at hk

theorem poseDemo_ok (hash : (Nat → ℝ) → Nat) : poseDemo.Ok hash 2 := by
  refine ⟨demo_ok, ?_, ?_⟩
  · intro nv hb a ha
    simp only [poseDemo, List.mem_singleton] at ha
    subst ha
    exact C140_fits hash demo_ok hb pose_ok (by simp [demo]) axisPoses _ _
  · intro nv hb
    have : poseDemo.sets nv none true = [] := by
      rw [List.eq_nil_iff_forall_not_mem]
      intro c hc
      obtain ⟨m, h1, h2, h3⟩ := sets_mem.1 hc
      simp only [poseDemo, List.mem_singleton, Prod.mk.injEq, and_true] at h1
      subst h1
      unfold poseMaker cartesian at h2
      split at h2
      · cases h2
      · split at h2
        · cases h2
        · split at h2
          · cases h2
          · injection h2 with h2; subst h2; cases h3
    rw [this]; simp

/-- C139 and C140 apply to the example: it is solved, and when the solver converges the link is where it has to be. -/
example : ∃ fuel nv w nv', Solved Real.sqrt (fun _ => 0) (fun _ => .negInf) SqpRun.niceParams SqpRun.niceWorld { warmStarting := true } fuel poseDemo nv w nv' ∧
    (w.status = .converged → 1 - 1 / 10000 < joint [0, 2, 3] nv' 2 0 + joint [0, 2, 3] nv' 2 1 ∧
      joint [0, 2, 3] nv' 2 0 + joint [0, 2, 3] nv' 2 1 < 2 + 1 / 10000) := by
  obtain ⟨F, nv, w, nv', h⟩ := C139_solved (hash := fun _ => 0) (junk := fun _ => .negInf) (fun _ h => Real.mul_self_sqrt h) SqpRun.nice_sane
    SqpRun.niceWorld_sized (poseDemo_ok _) (SqpRun.reusable_new true 0 0) (by norm_num [SqpRun.niceParams]) (by norm_num [SqpRun.niceParams])
  refine ⟨F, nv, w, nv', h F (le_refl _), fun hc => ?_⟩
  have key := C140_reached (fun _ h => Real.mul_self_sqrt h) SqpRun.nice_sane SqpRun.niceWorld_sized (poseDemo_ok _) (h F (le_refl _)) hc
    (isZero := fun k : ℝ => decide (k = 0)) (A := axisPoses) (arm := slider) (s := 2) (coeffs := [1, 0, 0, 0, 0, 0])
    (bounds := [Bounds.mk' (.fin 1) (.fin 2), default0, default0, default0, default0, default0]) (source := 0) (target := 1)
    (so := .ofAdd 0) (dst := .ofAdd 0) (split := true) (by simp [poseDemo, poseMaker]) 0 1 _ rfl rfl (by simp)
  have e : poseError axisPoses slider 0 1 (.ofAdd 0) (.ofAdd 0) (fun j => joint poseDemo.plan.pos nv' 2 j.val) 0 =
      joint [0, 2, 3] nv' 2 0 + joint [0, 2, 3] nv' 2 1 := by
    simp [poseError, slider, axisPoses, Cartesian.frame, poseDemo, demo]
  simp only [e] at key
  have ht : SqpRun.niceParams.cntTolerance = (1 / 10000 : ℝ) := by norm_num [SqpRun.niceParams]
  rw [ht] at key
  exact ⟨key.1 1 rfl, key.2 2 rfl⟩

end Verif.IfoptPlan
