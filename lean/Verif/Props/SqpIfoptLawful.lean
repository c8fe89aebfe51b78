import Verif.Model.SqpRunIfopt
import Verif.Props.SqpRunLawful
import Verif.Props.IfoptQpProps

/-!
`IfoptQPProblem` with conforming cost and constraint sets is a conforming problem object for the optimizer.
-/

set_option linter.unusedSectionVars false
set_option linter.unusedVariables false

namespace Verif.SqpIfopt

open Verif.Bounds Verif.Sco Verif.IfoptQp Verif.SqpRun
open Verif.QpProblem (sides writeSeg Proper)
open Verif.OsqpEigen (Problem Fine)

universe u
variable {K : Type u} [Field K] [LinearOrder K] [IsStrictOrderedRing K]

/-! ### Specification -/

/-- Specification: an optimization problem: number of variables, their bounds, costs (squared or absolute), the sets of the costs as
stored for the QP, constraint sets. -/
structure Desc (K : Type u) where
  n : Nat
  varBounds : List (Lo K × Hi K)
  costs : List (Bool × CSet K)
  sets : List (CSet K)
  cnts : List (CSet K)

/-- Specification: the distances of the rows of a set from their bounds at `x`. -/
def rowViols (c : CSet K) (x : List K) : List K := calcBoundsViolations (c.ask (ext x)).values ((c.ask (ext x)).bounds.map sides)

/-- Specification: the costs at `x`. -/
def Desc.costsAt (D : Desc K) (x : List K) : List K :=
  D.costs.map fun c => ((rowViols c.2 x).map fun v => if c.1 then v * v else v).sum

/-- Specification: the constraint violations at `x`, one per row. -/
def Desc.viols (D : Desc K) (x : List K) : List K := D.cnts.flatMap fun c => rowViols c x

/-- Number of rows of the constraints. -/
def Desc.m (D : Desc K) : Nat := (D.cnts.flatMap fun c => (c.ask fun _ => 0).bounds).length

/-- An `IfoptQPProblem` for `D` that has been set up and used since. -/
structure Usable (D : Desc K) (s : State K) : Prop where
  live : Live s
  nVars : s.nVars = D.n
  varBounds : s.varBounds = D.varBounds
  costs : s.costs = D.costs
  sets : s.costSets = D.sets
  cnts : s.cnts = D.cnts
  merit : ∀ a ∈ s.meritCoeff, 0 ≤ a
  tail : ∀ i, D.n ≤ i → s.x i = 0

/-- The fields the QP and the convex functions are made of, without the bounds. -/
structure Like (r s : State K) : Prop where
  nQpVars : s.nQpVars = r.nQpVars
  nQpCnts : s.nQpCnts = r.nQpCnts
  hessian : s.hessian = r.hessian
  gradient : s.gradient = r.gradient
  matrix : s.matrix = r.matrix
  costConstant : s.costConstant = r.costConstant
  cntConstant : s.cntConstant = r.cntConstant

/-- Lower bounds of the QP of `t` with the trust box `d` around `y`. -/
def low (t : State K) (y : Nat → K) (d : List K) : List (Ext K) :=
  (problemRows t).map (fun r => addScalar r.bound.lower (-r.constant)) ++
    ((List.range t.nVars).map fun i => Ext.fin (boxOf (d.getD i 0) (y i) (t.varBounds.getD i (none, none))).1) ++
    List.replicate (t.nQpVars - t.nVars) (.fin 0)

/-- Upper bounds of the QP of `t` with the trust box `d` around `y`. -/
def upp (t : State K) (y : Nat → K) (d : List K) : List (Ext K) :=
  (problemRows t).map (fun r => addScalar r.bound.upper (-r.constant)) ++
    ((List.range t.nVars).map fun i => Ext.fin (boxOf (d.getD i 0) (y i) (t.varBounds.getD i (none, none))).2) ++
    List.replicate (t.nQpVars - t.nVars) .posInf

/-- The QP of `s` is the one `convexify` builds at `c` in the box `b` with the coefficients `μ`. -/
def ConvexAt (sqrt : K → K) (D : Desc K) (s : State K) (c b μ : List K) : Prop :=
  (∀ a ∈ b, 0 ≤ a) ∧ ∃ t r, Usable D t ∧ t.x = ext c ∧ t.box = b ∧ t.meritCoeff = μ ∧ t.convexify sqrt = some r ∧ Like r s ∧
    s.lower = r.lower ∧ s.upper = r.upper

/-- The QP of `s` was built by `convexify`, up to the variable bounds. -/
def Built (sqrt : K → K) (D : Desc K) (s : State K) : Prop :=
  ∃ t r y d, Usable D t ∧ t.convexify sqrt = some r ∧ Like r s ∧ d.length = D.n ∧ (∀ a ∈ d, 0 ≤ a) ∧ s.lower = low t y d ∧ s.upper = upp t y d

/-- What an `IfoptQPProblem` stands for. -/
def meaning (sqrt : K → K) (D : Desc K) : Meaning K (State K) where
  n := D.n
  m := D.m
  costs := D.costsAt
  viols := D.viols
  mu s := s.meritCoeff
  Inv := Usable D
  Cvx := ConvexAt sqrt D
  Asm := Built sqrt D

/-! ### Lemmas -/

theorem ext_values {D : Desc K} {s : State K} (h : Usable D s) : ext ((List.range s.nVars).map s.x) = s.x := by
  funext i
  unfold ext
  rw [List.getD_eq_getElem?_getD, List.getElem?_map]
  by_cases hi : i < s.nVars
  · rw [List.getElem?_range hi]; rfl
  · rw [List.getElem?_eq_none (by simpa using hi)]
    simp only [Option.map_none, Option.getD_none]
    exact (h.tail i (by rw [← h.nVars]; omega)).symm

theorem errB_sq (x : K) (b : Lo K × Hi K) : errB x b * errB x b = violB x b * violB x b := by
  obtain ⟨l, u⟩ := b
  cases l <;> cases u <;> simp only [errB, violB] <;> split_ifs <;> simp [abs_mul_abs_self]

theorem costValue_eq {D : Desc K} {s : State K} (h : Usable D s) {c : Bool × CSet K} (hc : c ∈ s.costs) :
    s.costValue c = some ((rowViols c.2 ((List.range s.nVars).map s.x)).map fun v => if c.1 then v * v else v).sum := by
  have hf := h.live.described.costs c hc
  have e4 : (c.2.ask s.x).values.length = (c.2.ask s.x).bounds.length := by rw [hf.values, hf.bounds]
  have hones : (IfoptCosts.Cost.newOnes (c.2.ask s.x).values.length : IfoptCosts.Cost K).weights =
      List.replicate (c.2.ask s.x).values.length 1 := by
    simp [IfoptCosts.Cost.newOnes, IfoptCosts.Cost.new]
  have hz : ∀ (f : K → K) (l : List K), List.zipWith (fun w e => w * f e) (List.replicate l.length (1 : K)) l = l.map f := by
    intro f l
    induction l with
    | nil => rfl
    | cons a l ih => simp [List.replicate_succ, ih]
  rw [rowViols, ext_values h]
  obtain ⟨b, d⟩ := c
  cases b
  · simp only [State.costValue, IfoptCosts.Cost.absolute, Bool.false_eq_true, if_false]
    rw [if_pos ⟨by simp [e4], by rw [hones]; simp⟩, hones]
    have hl : (d.ask s.x).values.length = (calcBoundsViolations (d.ask s.x).values ((d.ask s.x).bounds.map sides)).length := by
      simp [calcBoundsViolations, e4]
    simp only at hl ⊢
    rw [hl, hz fun e => e]
  · simp only [State.costValue, IfoptCosts.Cost.squared, if_true]
    rw [if_pos ⟨by simp [e4], by rw [hones]; simp⟩, hones]
    have hl : (d.ask s.x).values.length = (calcBoundsErrors (d.ask s.x).values ((d.ask s.x).bounds.map sides)).length := by
      simp [calcBoundsErrors, e4]
    simp only at hl ⊢
    rw [hl, hz fun e => e * e]
    congr 2
    simp only [calcBoundsErrors, calcBoundsViolations, List.map_zipWith, errB_sq]

theorem exact_costs {D : Desc K} {s : State K} (h : Usable D s) : s.getExactCosts = some (D.costsAt ((List.range s.nVars).map s.x)) := by
  unfold State.getExactCosts Desc.costsAt
  rw [← h.costs]
  have : ∀ l : List (Bool × CSet K), (∀ c ∈ l, c ∈ s.costs) → l.mapM s.costValue =
      some (l.map fun c => ((rowViols c.2 ((List.range s.nVars).map s.x)).map fun v => if c.1 then v * v else v).sum) := by
    intro l
    induction l with
    | nil => intro _; rfl
    | cons c l ih =>
      intro hl
      rw [List.mapM_cons, costValue_eq h (hl c (by simp)), ih fun c' hc' => hl c' (by simp [hc'])]
      rfl
  exact this _ fun _ hc => hc

theorem viols_stack (l : List (CSet K)) (x : Nat → K) (h : ∀ c ∈ l, (c.ask x).values.length = (c.ask x).bounds.length) :
    calcBoundsViolations (l.flatMap fun c => (c.ask x).values) ((l.flatMap fun c => (c.ask x).bounds).map sides) =
      l.flatMap fun c => calcBoundsViolations (c.ask x).values ((c.ask x).bounds.map sides) := by
  induction l with
  | nil => rfl
  | cons c l ih =>
    simp only [List.flatMap_cons, List.map_append]
    rw [← ih fun c' hc' => h c' (by simp [hc'])]
    unfold calcBoundsViolations
    rw [List.zipWith_append (by simp [h c (by simp)])]

theorem exact_viols {D : Desc K} {s : State K} (h : Usable D s) :
    s.getExactConstraintViolations = D.viols ((List.range s.nVars).map s.x) := by
  unfold State.getExactConstraintViolations Desc.viols rowViols
  rw [ext_values h, ← h.cnts]
  exact viols_stack s.cnts s.x fun c hc => by rw [(h.live.described.cnts c hc).values, (h.live.described.cnts c hc).bounds]

theorem nCnts_eq {D : Desc K} {s : State K} (h : Usable D s) : s.nCnts = D.m := by
  rw [h.live.nCnts, h.live.types, List.length_map, Desc.m, ← h.cnts, ← h.live.described.bounds_fixed fun _ => 0]
  rfl

theorem viols_length {D : Desc K} {s : State K} (h : Usable D s) (x : List K) : (D.viols x).length = D.m := by
  unfold Desc.viols Desc.m
  have hc := h.live.described.cnts
  rw [h.cnts] at hc
  revert hc
  generalize D.cnts = l
  intro hc
  induction l with
  | nil => rfl
  | cons c l ih =>
    have f := hc c (by simp)
    simp only [List.flatMap_cons, List.length_append]
    rw [ih fun c' hc' => hc c' (by simp [hc']), f.fixed (fun _ => 0) (ext x)]
    simp [rowViols, calcBoundsViolations, f.values, f.bounds]

theorem nQp_eq {D : Desc K} {s t : State K} (h : Usable D s) (g : Usable D t) : s.nQpVars = t.nQpVars ∧ s.nQpCnts = t.nQpCnts := by
  obtain ⟨k, k1, k2, k3⟩ := h.live.slacks
  obtain ⟨k', l1, l2, l3⟩ := g.live.slacks
  have e : s.types = t.types := by
    rw [h.live.types, g.live.types, ← h.live.described.bounds_fixed t.x]
    unfold State.cntBounds State.setVariables
    rw [show ({ s with x := t.x } : State K).cnts = s.cnts from rfl, h.cnts, g.cnts]
  rw [e, l1] at k1
  injection k1 with k1
  have := h.nVars; have := g.nVars; have := nCnts_eq h; have := nCnts_eq g
  omega

theorem rows_length {D : Desc K} {t : State K} (h : Usable D t) : (problemRows t).length = D.m := by
  rw [(problemRows_facts h.live).1, nCnts_eq h]

/-- Writing another trust box over the bounds. -/
theorem rebox {D : Desc K} {s t : State K} (h : Usable D s) (g : Usable D t) {y : Nat → K} {d b : List K} (hl : s.lower = low t y d)
    (hu : s.upper = upp t y d) (hb : b.length = D.n) :
    ({ s with box := b } : State K).varBoundsOf s.lower s.upper = some (low t s.x b, upp t s.x b) := by
  unfold State.varBoundsOf
  rw [if_pos ⟨by rw [hb]; exact h.nVars.symm, h.live.described.varBounds⟩]
  have w1 := QpProblem.writeSeg_mid ((problemRows t).map (fun r => addScalar r.bound.lower (-r.constant)))
    ((List.range t.nVars).map fun i => Ext.fin (boxOf (d.getD i 0) (y i) (t.varBounds.getD i (none, none))).1)
    ((List.range t.nVars).map fun i => Ext.fin (boxOf (b.getD i 0) (s.x i) (t.varBounds.getD i (none, none))).1)
    (List.replicate (t.nQpVars - t.nVars) (.fin 0)) (by simp)
  have w2 := QpProblem.writeSeg_mid ((problemRows t).map (fun r => addScalar r.bound.upper (-r.constant)))
    ((List.range t.nVars).map fun i => Ext.fin (boxOf (d.getD i 0) (y i) (t.varBounds.getD i (none, none))).2)
    ((List.range t.nVars).map fun i => Ext.fin (boxOf (b.getD i 0) (s.x i) (t.varBounds.getD i (none, none))).2)
    (List.replicate (t.nQpVars - t.nVars) .posInf) (by simp)
  rw [List.length_map, rows_length g, ← nCnts_eq h] at w1 w2
  have e1 : s.nVars = t.nVars := by rw [h.nVars, g.nVars]
  have e2 : s.varBounds = t.varBounds := by rw [h.varBounds, g.varBounds]
  rw [hl, hu]
  simp only [e1, e2, List.map_map, Function.comp_def, low, upp, w1, w2]

theorem withBox_usable {D : Desc K} {t : State K} (g : Usable D t) {b : List K} (hb : b.length = D.n) : Usable D { t with box := b } :=
  ⟨⟨⟨g.live.described.cnts, g.live.described.costSets, g.live.described.costs, g.live.described.varBounds, g.live.described.valid⟩,
    g.live.types, g.live.nCnts, g.live.nCosts, g.live.slacks, g.live.lower, g.live.upper, by rw [hb]; exact g.nVars.symm, g.live.merit⟩,
    g.nVars, g.varBounds, g.costs, g.sets, g.cnts, g.merit, g.tail⟩

/-- `convexify` in another box. -/
theorem convexify_box {sqrt : K → K} (hsqrt : ∀ a : K, 0 ≤ a → sqrt a * sqrt a = a) {D : Desc K} {t r : State K} (g : Usable D t)
    (hc : t.convexify sqrt = some r) {b : List K} (hb : b.length = D.n) :
    ∃ r', ({ t with box := b } : State K).convexify sqrt = some r' ∧ Like r r' ∧ r'.lower = low t t.x b ∧ r'.upper = upp t t.x b := by
  have g' := withBox_usable g hb
  obtain ⟨outs, iv, head, a⟩ := convexified sqrt hsqrt g.live hc
  obtain ⟨r', outs2, iv2, head2, c2, a2⟩ := convexify_ok sqrt hsqrt g'.live
  obtain ⟨p1, p2, p3, p4, p5⟩ := convexify_parts sqrt hc
  obtain ⟨q1, q2, q3, q4, q5⟩ := convexify_parts sqrt c2
  have r1 : r'.hessian = r.hessian := Option.some.inj (q1.symm.trans p1)
  have r2 : r'.gradient = r.gradient := by
    rw [r1] at q2; exact Option.some.inj (q2.symm.trans p2)
  have r3 : r'.matrix = r.matrix := Option.some.inj (q3.symm.trans p3)
  have r4 : r'.costConstant = r.costConstant := by
    rw [r1, r2] at q4; exact Option.some.inj (q4.symm.trans p4)
  have r5 : r'.cntConstant = r.cntConstant := by
    rw [r3] at q5; exact Option.some.inj (q5.symm.trans p5)
  obtain ⟨b3, b4⟩ := convexify_bounds sqrt hsqrt g'.live c2
  refine ⟨r', c2, ⟨?_, ?_, r1, r2, r3, r4, r5⟩, b3, b4⟩
  · rw [a2.frame, a.frame]
  · rw [a2.frame, a.frame]

theorem convexified_usable {sqrt : K → K} (hsqrt : ∀ a : K, 0 ≤ a → sqrt a * sqrt a = a) {D : Desc K} {t r : State K} (g : Usable D t)
    (hc : t.convexify sqrt = some r) : Usable D r ∧ r.x = t.x ∧ r.box = t.box ∧ r.meritCoeff = t.meritCoeff ∧ r.nQpVars = t.nQpVars ∧
      r.nQpCnts = t.nQpCnts ∧ r.lower = low t t.x t.box ∧ r.upper = upp t t.x t.box := by
  obtain ⟨outs, iv, head, a⟩ := convexified sqrt hsqrt g.live hc
  obtain ⟨b1, b2⟩ := convexify_bounds sqrt hsqrt g.live hc
  have hl := a.live g.live
  have hx := a.x
  have hf := a.frame
  have e1 : r.box = t.box := by rw [hf]
  have e2 : r.meritCoeff = t.meritCoeff := by rw [hf]
  refine ⟨⟨hl, a.nVars.trans g.nVars, ?_, ?_, ?_, ?_, by rw [e2]; exact g.merit, by rw [hx]; exact g.tail⟩, hx, e1, e2, by rw [hf], by rw [hf], b1, b2⟩
  · rw [hf]; exact g.varBounds
  · rw [hf]; exact g.costs
  · rw [hf]; exact g.sets
  · rw [hf]; exact g.cnts

/-- Changing the box of a usable problem. -/
theorem box_lawful {sqrt : K → K} (hsqrt : ∀ a : K, 0 ≤ a → sqrt a * sqrt a = a) {D : Desc K} {s : State K} (h : Usable D s) {b : List K}
    (hb : b.length = D.n) (h0 : ∀ a ∈ b, 0 ≤ a) :
    ∃ s', s.setBoxSize b = some s' ∧ Boxed (ifopt sqrt) (meaning sqrt D) s s' b := by
  obtain ⟨l, u, a1, a2⟩ := h.live.newBox b (by rw [hb, h.nVars])
  refine ⟨{ s with box := b, lower := l, upper := u }, ?_, ⟨⟨a2, h.nVars, h.varBounds, h.costs, h.sets, h.cnts, h.merit, h.tail⟩, rfl, rfl, rfl,
    ⟨rfl, rfl, rfl, rfl, rfl⟩, ?_, ?_⟩⟩
  · simp only [State.setBoxSize]; rw [if_pos (by rw [hb, h.nVars]), a1]; rfl
  · rintro c b0 μ ⟨-, t, r, t1, t2, t3, t4, t5, t6, t7, t8⟩ hv
    have hx : s.x = t.x := by
      have : (List.range s.nVars).map s.x = c := hv
      rw [t2, ← this, ext_values h]
    obtain ⟨-, -, -, -, -, -, c1, c2⟩ := convexified_usable hsqrt t1 t5
    have k := rebox h t1 (t7.trans c1) (t8.trans c2) hb
    rw [a1] at k
    injection k with k; injection k with k1 k2
    obtain ⟨r', d1, d2, d3, d4⟩ := convexify_box hsqrt t1 t5 hb
    refine ⟨h0, _, r', withBox_usable t1 hb, t2, rfl, t4, d1, ?_, ?_, ?_⟩
    · exact ⟨t6.nQpVars.trans d2.nQpVars.symm, t6.nQpCnts.trans d2.nQpCnts.symm, t6.hessian.trans d2.hessian.symm, t6.gradient.trans d2.gradient.symm,
        t6.matrix.trans d2.matrix.symm, t6.costConstant.trans d2.costConstant.symm, t6.cntConstant.trans d2.cntConstant.symm⟩
    · show l = _; rw [k1, hx, d3]
    · show u = _; rw [k2, hx, d4]
  · rintro ⟨t, r, y, d, t1, t2, t3, t4, t5, t6, t7⟩
    have k := rebox h t1 t6 t7 hb
    rw [a1] at k
    injection k with k; injection k with k1 k2
    exact ⟨t, r, s.x, b, t1, t2, ⟨t3.nQpVars, t3.nQpCnts, t3.hessian, t3.gradient, t3.matrix, t3.costConstant, t3.cntConstant⟩, hb, h0, k1, k2⟩

theorem setFromTriplets_rows (r c : Nat) (ts : List (Nat × Nat × K)) (M : SMat K) (h : setFromTriplets r c ts = some M) : M.rows = r := by
  have key : ∀ (ts : List (Nat × Nat × K)) (A M : SMat K), ts.foldlM SMat.addTriplet A = some M → M.rows = A.rows := by
    intro ts
    induction ts with
    | nil => intro A M h; simp at h; rw [h]
    | cons t ts ih =>
      intro A M h
      rw [List.foldlM_cons] at h
      cases ha : A.addTriplet t with
      | none => rw [ha] at h; cases h
      | some B =>
        rw [ha] at h
        rw [ih B M h]
        unfold SMat.addTriplet at ha
        split_ifs at ha
        cases ha; rfl
  exact key ts _ M h

theorem hessian_rows {sqrt : K → K} {s : State K} {H : SMat K} (h : s.hessianOf sqrt = some H) : H.rows = s.nQpVars := by
  unfold State.hessianOf at h
  split_ifs at h
  · exact setFromTriplets_rows _ _ _ _ h
  · split at h
    · cases h
    · split at h
      · cases h
      · exact setFromTriplets_rows _ _ _ _ h

theorem convex_viols_length {D : Desc K} {s : State K} (h : Usable D s) (z : Nat → K) : (s.evaluateConvexConstraintViolations z).length = D.m := by
  have hb : s.cntBounds.length = s.nCnts := by rw [h.live.nCnts, h.live.types, List.length_map]
  simp [State.evaluateConvexConstraintViolations, calcBoundsViolations, hb, nCnts_eq h]

/-- `IfoptQPProblem` conforms. -/
theorem ifopt_lawful {sqrt : K → K} (hsqrt : ∀ a : K, 0 ≤ a → sqrt a * sqrt a = a) {D : Desc K} (hn : 0 < D.n) (hu : ∃ s, Usable D s) :
    Lawful (ifopt sqrt) (meaning sqrt D) where
  pos := hn
  sizes s h := ⟨h.nVars, nCnts_eq h, by
    show ((List.range s.nVars).map s.x).length = D.n
    simp [h.nVars]⟩
  exact s h := ⟨by show s.getExactCosts.getD [] = _; rw [exact_costs h]; rfl, exact_viols h⟩
  viols x _ := by obtain ⟨s, hs⟩ := hu; exact viols_length hs x
  setVars s x h hx := by
    have hx' : D.n ≤ x.length := hx
    refine ⟨s.setVariables fun i => if i < s.nVars then x.getD i 0 else 0, ?_, ?_, ?_, rfl, rfl, ⟨rfl, rfl, rfl, rfl, rfl⟩, rfl, rfl, ?_, ?_, ?_⟩
    · exact if_pos (by rw [h.nVars]; exact hx')
    · refine ⟨h.live.setVariables _, h.nVars, h.varBounds, h.costs, h.sets, h.cnts, h.merit, ?_⟩
      intro i hi
      simp only [State.setVariables]
      rw [if_neg (by rw [h.nVars]; omega)]
    · show (List.range s.nVars).map (fun i => if i < s.nVars then x.getD i 0 else 0) = x.take D.n
      rw [h.nVars]
      apply List.ext_getElem
      · simp [hx']
      · intro i h1 h2
        have hi : i < D.n := by simpa using h1
        have hi2 : i < x.length := by omega
        simp [hi, hi2]
    · rintro c b μ ⟨p0, t, r, t1, t2, t3, t4, t5, t6, t7, t8⟩
      exact ⟨p0, t, r, t1, t2, t3, t4, t5, ⟨t6.nQpVars, t6.nQpCnts, t6.hessian, t6.gradient, t6.matrix, t6.costConstant, t6.cntConstant⟩, t7, t8⟩
    · rintro ⟨t, r, y, d, t1, t2, t3, t4, t5, t6, t7⟩
      exact ⟨t, r, y, d, t1, t2, ⟨t3.nQpVars, t3.nQpCnts, t3.hessian, t3.gradient, t3.matrix, t3.costConstant, t3.cntConstant⟩, t4, t5, t6, t7⟩
    · intro y
      refine ⟨rfl, ?_⟩
      show State.evaluateConvexConstraintViolations _ _ = State.evaluateConvexConstraintViolations _ _
      unfold State.evaluateConvexConstraintViolations
      rw [h.live.described.bounds_fixed]
      rfl
  setBox s b h hb h0 := box_lawful hsqrt h hb h0
  scaleBox s a h hb h0 ha := by
    have hb' : s.box.length = D.n := hb
    have h0' : ∀ b ∈ s.box, 0 ≤ b := h0
    obtain ⟨s', k1, k2⟩ := box_lawful (sqrt := sqrt) hsqrt h (b := s.box.map (· * a)) (by rw [List.length_map]; exact hb') fun b hb => by
      obtain ⟨c, hc, rfl⟩ := List.mem_map.1 hb
      exact mul_nonneg (h0' c hc) ha
    exact ⟨s', by show s.scaleBoxSize a = _; rw [scale_eq h.live]; exact k1, k2⟩
  setMerit s c h hc h0 := by
    have hc' : c.length = s.nCnts := by rw [nCnts_eq h]; exact hc
    refine ⟨{ s with meritCoeff := c }, if_pos hc', ⟨⟨⟨h.live.described.cnts, h.live.described.costSets, h.live.described.costs, h.live.described.varBounds,
      h.live.described.valid⟩, h.live.types, h.live.nCnts, h.live.nCosts, h.live.slacks, h.live.lower, h.live.upper, h.live.box, hc'⟩,
      h.nVars, h.varBounds, h.costs, h.sets, h.cnts, h0, h.tail⟩, rfl, rfl, rfl, ⟨rfl, rfl, rfl, rfl, rfl⟩⟩
  convexify s h h0 := by
    obtain ⟨r, outs, iv, head, c1, c2⟩ := convexify_ok sqrt hsqrt h.live
    obtain ⟨u1, u2, u3, u4, u5, u6, u7, u8⟩ := convexified_usable hsqrt h c1
    refine ⟨r, c1, u1, ?_, u3, u4, ?_, ?_⟩
    · show (List.range r.nVars).map r.x = (List.range s.nVars).map s.x
      rw [u2, u1.nVars, h.nVars]
    · exact ⟨h0, s, r, h, (ext_values h).symm, rfl, rfl, c1, ⟨rfl, rfl, rfl, rfl, rfl, rfl, rfl⟩, rfl, rfl⟩
    · exact ⟨s, r, s.x, s.box, h, c1, ⟨rfl, rfl, rfl, rfl, rfl, rfl, rfl⟩, h.live.box.trans h.nVars, h0, u7, u8⟩
  shaped s h := by
    rintro ⟨t, r, y, d, t1, t2, t3, t4, t5, t6, t7⟩
    obtain ⟨outs, iv, head, a⟩ := convexified sqrt hsqrt t1.live t2
    obtain ⟨u1, u2, u3, u4, u5, u6, u7, u8⟩ := convexified_usable hsqrt t1 t2
    obtain ⟨p1, -⟩ := convexify_parts sqrt t2
    obtain ⟨k, k1, k2, k3⟩ := t1.live.slacks
    obtain ⟨n1, n2⟩ := nQp_eq h t1
    have hm := nCnts_eq t1
    have hN := t1.nVars
    have hg := a.nQpVars
    have hr := rows_length t1
    refine ⟨⟨?_, ?_, ?_, ?_, ?_, ?_, ?_, ?_, ?_⟩, ?_, ?_⟩
    · show 0 < s.nQpVars
      omega
    · show s.hessian.rows = s.nQpVars ∧ s.hessian.cols.length = s.nQpVars
      rw [t3.hessian, n1]; exact ⟨hessian_rows p1, a.hessCols⟩
    · show s.gradient.length = s.nQpVars
      rw [t3.gradient, n1, a.gradient, List.length_append, a.headLen]; omega
    · show s.matrix.rows = s.nQpCnts ∧ s.matrix.cols.length = s.nQpVars
      have := a.layout.matrixRows
      have := a.layout.matrixCols
      rw [t3.matrix]; omega
    · show s.lower.length = s.nQpCnts
      rw [t6]; simp only [low, List.length_append, List.length_map, List.length_replicate, List.length_range]; omega
    · show s.upper.length = s.nQpCnts
      rw [t7]; simp only [upp, List.length_append, List.length_map, List.length_replicate, List.length_range]; omega
    · show ((List.range s.nVars).map s.x).length = s.nVars
      simp
    · show s.nVars ≤ s.nQpVars
      rw [h.nVars]; omega
    · intro _
      show (s.evaluateConvexConstraintViolations s.x).length ≤ s.nQpCnts
      rw [convex_viols_length h]; omega
    · show D.n ≤ s.nQpVars
      omega
    · intro y hy
      have hy' : y.length = s.nQpVars := hy
      refine ⟨⟨_, if_pos ?_⟩, convex_viols_length h _⟩
      rw [h.nVars]; omega

/-- A built QP with finite bounds inside OSQP's range is fine for the QP solver. -/
theorem built_fine {sqrt : K → K} (hsqrt : ∀ a : K, 0 ≤ a → sqrt a * sqrt a = a) {D : Desc K} (hn : 0 < D.n) {s : State K} (h : Usable D s)
    (hb : Built sqrt D s) (hm : (ofIfopt s).Moderate) : Fine (ofIfopt s) := by
  obtain ⟨sh, -, -⟩ := (ifopt_lawful hsqrt hn ⟨s, h⟩).shaped s h hb
  obtain ⟨t, r, y, d, t1, t2, t3, t4, t5, t6, t7⟩ := hb
  refine ⟨sh.pos, sh.hessian, sh.gradient, sh.matrix, sh.lower, sh.upper, ?_, sh.vars, sh.nlp, sh.violations⟩
  intro i l v h1 h2
  refine order_of hm h1 h2 ?_
  have h1' : s.lower[i]? = some l := h1
  have h2' : s.upper[i]? = some v := h2
  rw [t6, low] at h1'
  rw [t7, upp] at h2'
  by_cases hi : i < (problemRows t).length
  · rw [List.append_assoc, List.getElem?_append_left (by simpa using hi), List.getElem?_map, List.getElem?_eq_getElem hi] at h1' h2'
    simp only [Option.map_some, Option.some.injEq] at h1' h2'
    obtain ⟨pr, -⟩ := rows_proper t1.live t1.merit _ (List.getElem_mem hi)
    rw [← h1', ← h2']
    generalize (problemRows t)[i] = row at pr
    rcases pr with ⟨a, b, hb, hab⟩ | ⟨a, hb⟩ | ⟨b, hb⟩ <;> rw [hb] <;> simp only [addScalar]
    · exact ⟨a + -row.constant, le_refl _, by linarith⟩
    · exact ⟨a + -row.constant, le_refl _, trivial⟩
    · exact ⟨b + -row.constant, trivial, le_refl _⟩
  · by_cases hi2 : i < (problemRows t).length + t.nVars
    · have hi3 : i - (problemRows t).length < t.nVars := by omega
      rw [List.append_assoc, List.getElem?_append_right (by simpa using hi), List.getElem?_append_left (by simp; omega), List.getElem?_map, List.length_map,
        List.getElem?_range hi3] at h1' h2'
      simp only [Option.map_some, Option.some.injEq] at h1' h2'
      rw [← h1', ← h2']
      generalize i - (problemRows t).length = j at hi3
      have hvl := t1.live.described.varBounds
      have hv : Valid (t.varBounds.getD j (none, none)) := t1.live.described.valid _ (by
        rw [List.getD_eq_getElem?_getD, List.getElem?_eq_getElem (by omega)]; exact List.getElem_mem _)
      have hd : 0 ≤ d.getD j 0 := t5 _ (by
        have := t1.nVars
        rw [List.getD_eq_getElem?_getD, List.getElem?_eq_getElem (by omega)]; exact List.getElem_mem _)
      obtain ⟨xc, x1, x2⟩ : ∃ xc, Inside xc (t.varBounds.getD j (none, none)) ∧ ∀ z, Inside z (t.varBounds.getD j (none, none)) → |xc - y j| ≤ |z - y j| := by
        have : ∃ z, (boxOf |y j - y j| (y j) (t.varBounds.getD j (none, none))).1 ≤ z ∧ z ≤ (boxOf |y j - y j| (y j) (t.varBounds.getD j (none, none))).2 := by
          generalize t.varBounds.getD j (none, none) = v at hv
          obtain ⟨lb, ub⟩ := v
          simp only [sub_self, abs_zero, boxOf, sub_zero, add_zero]
          refine ⟨maxLo (minHi (y j) ub) lb, ?_, ?_⟩
          · cases lb <;> simp [maxLo]
          · cases ub with
            | none => simp [minHi]
            | some u =>
              cases lb with
              | none => simp [minHi, maxLo]
              | some l => simp only [minHi, maxLo]; exact le_min (le_refl _) (max_le (min_le_right _ _) (hv l u rfl rfl))
        obtain ⟨z, hz⟩ := this
        obtain ⟨-, xc, x1, x2, -⟩ := (boxOf_iff _ _ _ hv z).1 hz
        exact ⟨xc, x1, x2⟩
      have := (boxOf_iff (d.getD j 0) (y j) _ hv xc).2 ⟨x1, xc, x1, x2, by rw [sub_self, abs_zero]; exact hd⟩
      exact ⟨xc, this.1, this.2⟩
    · rw [List.getElem?_append_right (by simp; omega), List.getElem?_replicate] at h1' h2'
      split_ifs at h1' h2'
      cases h1'; cases h2'
      exact ⟨0, le_refl _, trivial⟩

end Verif.SqpIfopt
