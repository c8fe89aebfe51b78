import Verif.Props.IfoptQpCost
import Mathlib.Analysis.Real.Sqrt

/-!
C30 (convex cost model), C79 (slack columns), C80 (the QP predicts the exact costs), C81 (rejected costs), C82 (call
histories) and C83 (convex constraint violations) for `IfoptQPProblem`.
-/

set_option linter.unusedSectionVars false
set_option linter.unusedVariables false

namespace Verif.IfoptQp

open Verif.Bounds Verif.Sco Verif.SqpExprs Finset
open Verif.QpProblem (thr sides writeSeg rowMul Penalty Row Proper gap keep penaltyOf linCost tripForm RowsHold Layout
  Laid RowOut)

universe u
variable {K : Type u} [Field K] [LinearOrder K] [IsStrictOrderedRing K]

/-! ### `convexify` -/

theorem writeSeg_three {α : Type u} (l A B C : List α) (h : l.length = A.length + B.length + C.length) :
    ∃ l1 l2, writeSeg l 0 A = some l1 ∧ writeSeg l1 A.length B = some l2 ∧
      writeSeg l2 (A.length + B.length) C = some (A ++ B ++ C) ∧ (A = [] → l1 = l) := by
  have h1 : (l.take A.length).length = A.length := by rw [List.length_take]; omega
  obtain ⟨a0, r, rfl, ha⟩ : ∃ a r, l = a ++ r ∧ a.length = A.length :=
    ⟨l.take A.length, l.drop A.length, (List.take_append_drop _ _).symm, h1⟩
  have h2 : r.length = B.length + C.length := by simp at h; omega
  obtain ⟨b0, c0, rfl, hb⟩ : ∃ a c, r = a ++ c ∧ a.length = B.length :=
    ⟨r.take B.length, r.drop B.length, (List.take_append_drop _ _).symm, by rw [List.length_take]; omega⟩
  have h3 : c0.length = C.length := by simp at h2; omega
  refine ⟨A ++ (b0 ++ c0), A ++ B ++ c0, ?_, ?_, ?_, ?_⟩
  · have := QpProblem.writeSeg_mid [] a0 A (b0 ++ c0) ha.symm
    simpa using this
  · have := QpProblem.writeSeg_mid A b0 B c0 hb.symm
    rw [List.append_assoc] at this
    exact this
  · have := QpProblem.writeSeg_mid (A ++ B) c0 C [] h3.symm
    simpa using this
  · rintro rfl
    have : a0 = [] := List.length_eq_zero_iff.1 (by simpa using ha)
    simp [this]

/-- What `convexify` stores. -/
structure Assembled (s s' : State K) (outs : List (RowOut K)) (iv : List (K × K)) (head : List K) : Prop where
  layout : Layout s.nVars s.nCnts s'.matrix s'.lower s'.upper (problemRows s) outs iv
  ivs : ∀ (i : Nat) b v, s.box[i]? = some b → s.varBounds[i]? = some v → iv[i]? = some (boxOf b (s.x i) v)
  gradient : s'.gradient = head ++ outs.flatMap (·.grad)
  headLen : head.length = s.nVars
  head : ∀ col, col < s.nVars → head.getD col 0 = (s.terms.map fun t => 2 * (t.weight * t.error) * at' t.jac col).sum -
    2 * ∑ c ∈ range s.nVars, s'.hessian.entry col c * s.x c
  hessCols : s'.hessian.cols.length = s.nQpVars
  hess : ∀ r c, s'.hessian.entry r c = thr (gaussNewton s.terms r c)
  nQpVars : s.nQpVars = s.nVars + (outs.flatMap (·.grad)).length
  costConstant : s.nCosts ≠ 0 → ∃ vs, s.getExactCosts = some vs ∧ vs.length = s.nCosts ∧
    s'.costConstant = vs.map fun v => v - s.quadTerm s'.hessian s.x - s.linTerm s'.gradient s.x
  cntConstant : s.nCnts ≠ 0 → s'.cntConstant = (problemRows s).map (·.constant)
  frame : s' =
    { s with
      hessian := s'.hessian, gradient := s'.gradient, matrix := s'.matrix, costConstant := s'.costConstant
      cntConstant := s'.cntConstant, lower := s'.lower, upper := s'.upper }

theorem convexify_ok (sqrt : K → K) (hsqrt : ∀ a : K, 0 ≤ a → sqrt a * sqrt a = a) {s : State K} (h : Live s) :
    ∃ s' outs iv head, s.convexify sqrt = some s' ∧ Assembled s s' outs iv head := by
  have hd := h.described
  obtain ⟨p1, p2, p3, p4, p5⟩ := problemRows_facts h
  obtain ⟨ml, vl, bl, nl⟩ := h.rowLengths
  have hproper : ∀ r ∈ problemRows s, Proper r.bound := by
    intro r hr
    exact hd.proper _ (by rw [← p2]; exact List.mem_map_of_mem hr)
  have hjac : ∀ r ∈ problemRows s, ∀ q ∈ r.jac, q.1 < s.nVars := by
    intro r hr
    exact hd.range _ (by rw [← p3]; exact List.mem_map_of_mem (f := fun r : Row K => r.jac) hr)
  obtain ⟨outs, laid⟩ := QpProblem.laid_exists (problemRows s) 0 s.nVars hproper
  have htypes : s.types = (problemRows s).map (·.bound.type) := by
    rw [h.types, ← p2, List.map_map]; rfl
  obtain ⟨sc, sg⟩ := slack_count laid
  rw [← htypes] at sc sg
  rw [p4] at sg
  set k := (outs.flatMap (·.grad)).length with hk
  obtain ⟨k', k1, k2, k3⟩ := h.slacks
  rw [sc] at k1; injection k1 with k1; subst k1
  -- Hessian and gradient
  obtain ⟨H, H1, H2, H3⟩ := hessian_ok sqrt hsqrt hd (by omega)
  obtain ⟨head, g1, g2, g3⟩ := gradient_ok hd H (by omega) _ sg
  -- matrix
  obtain ⟨sl, s1, s2, s3⟩ := slack_trips laid
  rw [← htypes] at s1
  rw [p3] at s2
  have hrange : ∀ t ∈ jacTriplets 0 s.cntJac ++ sl ++ (List.range s.nQpVars).map (fun i => (i + s.cntJac.length, i, (1 : K))),
      t.1 < s.nQpCnts ∧ t.2.1 < s.nQpVars := by
    intro t ht
    rcases List.mem_append.1 ht with ht | ht
    · rcases List.mem_append.1 ht with ht | ht
      · obtain ⟨a, b, r, hr, q, hq, e⟩ := jacTriplets_row _ _ t ht
        have := hd.range r hr q hq
        omega
      · obtain ⟨a, b, c⟩ := s3 t ht
        rw [p1] at b
        omega
    · obtain ⟨i, hi, rfl⟩ := List.mem_map.1 ht
      have := List.mem_range.1 hi
      simp only; omega
  obtain ⟨M, M1, -, -, -, -, -⟩ := setFromTriplets_spec _ _ _ hrange
  obtain ⟨M2, M3, M5, M4⟩ := QpProblem.rowForm_triplets _ _ _ hrange M M1
  have hM : s.matrixOf = some M := by unfold State.matrixOf; rw [s1]; exact M1
  have hform : ∀ r z, M.rowForm r z = tripForm (outs.flatMap (·.trips)) r z +
      if s.nCnts ≤ r ∧ r < s.nCnts + (s.nVars + k) then z (r - s.nCnts) else 0 := by
    intro r z
    rw [M4, QpProblem.tripForm_append, s2, ← k2]
    congr 1
    have := QpProblem.tripForm_diag s.nCnts s.nQpVars r z
    rw [← this, nl]
    congr 1
    apply List.map_congr_left; intro i _; rw [Nat.add_comm]
  -- costs
  obtain ⟨vs, v1, v2⟩ := costs_ok hd
  have hcc : ∃ cc, s.costConstantOf H (head ++ outs.flatMap (·.grad)) = some cc ∧ (s.nCosts ≠ 0 →
      cc = vs.map fun v => v - s.quadTerm H s.x - s.linTerm (head ++ outs.flatMap (·.grad)) s.x) := by
    unfold State.costConstantOf
    by_cases h0 : s.nCosts = 0
    · exact ⟨_, by rw [if_pos h0], fun hn => absurd h0 hn⟩
    · exact ⟨_, by rw [if_neg h0, v1]; rfl, fun _ => rfl⟩
  obtain ⟨cc, c1, c2⟩ := hcc
  -- the box
  set iv := (List.range s.nVars).map fun i => boxOf (s.box.getD i 0) (s.x i) (s.varBounds.getD i (none, none)) with hiv
  have hivs : ∀ (i : Nat) b v, s.box[i]? = some b → s.varBounds[i]? = some v → iv[i]? = some (boxOf b (s.x i) v) := by
    intro i b v e1 e2
    have hi : i < s.nVars := by rw [← h.box]; exact (List.getElem?_eq_some_iff.1 e1).1
    rw [hiv, List.getElem?_map, List.getElem?_range hi]
    simp [List.getD_eq_getElem?_getD, e1, e2]
  -- constants, via a layout of the final bounds
  obtain ⟨bl1, bl2⟩ := laid.rowBounds (le_refl _) hjac
  have hol : outs.length = s.nCnts := by rw [laid.length, p1]
  have hlay : Layout s.nVars s.nCnts M
      (outs.map (·.lower) ++ iv.map (fun i => .fin i.1) ++ List.replicate k (.fin 0))
      (outs.map (·.upper) ++ iv.map (fun i => .fin i.2) ++ List.replicate k .posInf) (problemRows s) outs iv :=
    ⟨laid, p1, hjac, rfl, rfl, by simp [hiv], by rw [M2, k3]; omega, by rw [M3, k2], hform⟩
  have hcnt : ∃ kc, s.cntConstantOf M = some kc ∧ (s.nCnts ≠ 0 → kc = (problemRows s).map (·.constant)) := by
    unfold State.cntConstantOf
    by_cases h0 : s.nCnts = 0
    · exact ⟨_, by rw [if_pos h0], fun hn => absurd h0 hn⟩
    · refine ⟨_, by rw [if_neg h0, if_pos (by rw [vl, nl])], fun _ => ?_⟩
      rw [p5]
      apply List.ext_getElem
      · simp [vl]
      · intro i i1 i2
        have hi : i < (problemRows s).length := by rw [p1, nl, ← vl]; simpa using i1
        have hv := hlay.varPart i _ (List.getElem?_eq_getElem hi) s.x
        have hj : ((problemRows s)[i]).jac = s.cntJac[i]'(by rw [← nl, ← p1]; exact hi) := by simp [problemRows]
        simp only [List.getElem_map, List.getElem_zipIdx, List.getElem_zipWith, Nat.zero_add]
        rw [QpProblem.rowMul_eq _ _ _ _ (by omega), hv, hj]
  obtain ⟨kc, kc1, kc2⟩ := hcnt
  -- bounds
  obtain ⟨L1, L2, l1, l2, l3, l4⟩ := writeSeg_three s.lower (outs.map (·.lower)) (iv.map fun i => .fin i.1)
    (List.replicate k (.fin 0)) (by simp [hol, hiv, h.lower, k3])
  obtain ⟨U1, U2, u1, u2, u3, u4⟩ := writeSeg_three s.upper (outs.map (·.upper)) (iv.map fun i => .fin i.2)
    (List.replicate k .posInf) (by simp [hol, hiv, h.upper, k3])
  have hb1 : s.cntBoundsOf kc s.lower s.upper = some (L1, U1) := by
    unfold State.cntBoundsOf
    by_cases h0 : s.nCnts = 0
    · have hz : outs = [] := List.length_eq_zero_iff.1 (by omega)
      rw [if_pos h0, l4 (by simp [hz]), u4 (by simp [hz])]
    · have e := kc2 h0
      rw [if_neg h0, if_pos ⟨by rw [bl, nl], by rw [e, List.length_map, p1]⟩]
      have e1 : List.zipWith (fun b c => addScalar b.lower (-c)) s.cntBounds kc = outs.map (·.lower) := by
        rw [bl1, e, ← p2, List.zipWith_map, List.zipWith_self]
      have e2 : List.zipWith (fun b c => addScalar b.upper (-c)) s.cntBounds kc = outs.map (·.upper) := by
        rw [bl2, e, ← p2, List.zipWith_map, List.zipWith_self]
      rw [e1, e2, l1, u1]
  have hb2 : s.varBoundsOf L1 U1 = some (L2, U2) := by
    unfold State.varBoundsOf
    rw [if_pos ⟨h.box, hd.varBounds⟩]
    simp only [List.length_map, hol] at l2 u2
    simp only [← hiv, l2, u2]
  have hb3 : s.slackBoundsOf L2 U2 = some (outs.map (·.lower) ++ iv.map (fun i => .fin i.1) ++ List.replicate k (.fin 0),
      outs.map (·.upper) ++ iv.map (fun i => .fin i.2) ++ List.replicate k .posInf) := by
    unfold State.slackBoundsOf
    have : iv.length = s.nVars := by simp [hiv]
    simp only [List.length_map, hol, this] at l3 u3
    simp only [sc, l3, u3]
  refine ⟨
    { s with
      hessian := H, gradient := head ++ outs.flatMap (·.grad), matrix := M, costConstant := cc, cntConstant := kc
      lower := outs.map (·.lower) ++ iv.map (fun i => .fin i.1) ++ List.replicate k (.fin 0)
      upper := outs.map (·.upper) ++ iv.map (fun i => .fin i.2) ++ List.replicate k .posInf }, outs, iv, head, ?_, ?_⟩
  · unfold State.convexify
    simp only [H1, g1, hM, c1, kc1, hb1, hb2, hb3, Option.bind_eq_bind, Option.bind_some]
  · exact ⟨hlay, hivs, rfl, g2, g3, H2, H3, k2, fun h0 => ⟨vs, v1, by rw [v2, h.nCosts], c2 h0⟩, kc2, rfl⟩

/-! ### Specification of the QP -/

/-- Specification: the objective of the QP (the solver receives twice the Hessian and halves it). -/
def objective (s : State K) (z : Nat → K) : K :=
  ∑ r ∈ range s.nQpVars, ∑ c ∈ range s.nQpVars, z r * s.hessian.entry r c * z c +
    ∑ c ∈ range s.nQpVars, s.gradient.getD c 0 * z c

/-- Specification: the part of the objective in the variables of the problem. -/
def smooth (s : State K) (x : Nat → K) : K :=
  ∑ r ∈ range s.nVars, ∑ c ∈ range s.nVars, x r * s.hessian.entry r c * x c +
    ∑ c ∈ range s.nVars, s.gradient.getD c 0 * x c

/-- Specification: the cost of the slack variables. -/
def slackPart (s : State K) (z : Nat → K) : K :=
  ∑ i ∈ range (s.nQpVars - s.nVars), s.gradient.getD (s.nVars + i) 0 * z (s.nVars + i)

/-- Specification: a point satisfies the rows of the QP. -/
def Feasible (s : State K) (z : Nat → K) : Prop := RowsHold s.matrix s.lower s.upper z

/-! ### Frame -/

theorem Assembled.nVars {s s' : State K} {outs : List (RowOut K)} {iv : List (K × K)} {head : List K}
    (h : Assembled s s' outs iv head) : s'.nVars = s.nVars := by rw [h.frame]
theorem Assembled.x {s s' : State K} {outs : List (RowOut K)} {iv : List (K × K)} {head : List K}
    (h : Assembled s s' outs iv head) : s'.x = s.x := by rw [h.frame]

theorem Assembled.terms {s s' : State K} {outs : List (RowOut K)} {iv : List (K × K)} {head : List K}
    (h : Assembled s s' outs iv head) : s'.terms = s.terms := by rw [h.frame]; rfl
theorem Assembled.rows {s s' : State K} {outs : List (RowOut K)} {iv : List (K × K)} {head : List K}
    (h : Assembled s s' outs iv head) : problemRows s' = problemRows s := by rw [h.frame]; rfl
theorem Assembled.exact {s s' : State K} {outs : List (RowOut K)} {iv : List (K × K)} {head : List K}
    (h : Assembled s s' outs iv head) (x : Nat → K) :
    (s'.setVariables x).getExactCosts = (s.setVariables x).getExactCosts := by rw [h.frame]; rfl

theorem Assembled.live {s s' : State K} {outs : List (RowOut K)} {iv : List (K × K)} {head : List K}
    (h : Assembled s s' outs iv head) (hl : Live s) : Live s' := by
  have e := h.frame
  have h1 : s'.lower.length = s.nQpCnts := by
    obtain ⟨k, k1, k2, k3⟩ := hl.slacks
    have := h.nQpVars
    rw [h.layout.lower]
    simp only [List.length_append, List.length_map, List.length_replicate, h.layout.ivLen, h.layout.laid.length,
      h.layout.rowsLen]
    omega
  have h2 : s'.upper.length = s.nQpCnts := by
    obtain ⟨k, k1, k2, k3⟩ := hl.slacks
    have := h.nQpVars
    rw [h.layout.upper]
    simp only [List.length_append, List.length_map, List.length_replicate, h.layout.ivLen, h.layout.laid.length,
      h.layout.rowsLen]
    omega
  rw [e]
  exact ⟨⟨hl.described.cnts, hl.described.costSets, hl.described.costs, hl.described.varBounds, hl.described.valid⟩,
    hl.types, hl.nCnts, hl.nCosts, hl.slacks, h1, h2, hl.box, hl.merit⟩

/-- The problem after `convexify`, in terms of itself. -/
theorem convexified (sqrt : K → K) (hsqrt : ∀ a : K, 0 ≤ a → sqrt a * sqrt a = a) {s s' : State K} (h : Live s)
    (hc : s.convexify sqrt = some s') : ∃ outs iv head, Assembled s s' outs iv head := by
  obtain ⟨s'', outs, iv, head, a1, a2⟩ := convexify_ok sqrt hsqrt h
  rw [hc] at a1; injection a1 with a1; subst a1
  exact ⟨outs, iv, head, a2⟩

theorem hess_out {s s' : State K} {outs : List (RowOut K)} {iv : List (K × K)} {head : List K} (hl : Live s)
    (h : Assembled s s' outs iv head) (r c : Nat) (hrc : s'.nVars ≤ r ∨ s'.nVars ≤ c) : s'.hessian.entry r c = 0 := by
  rw [h.nVars] at hrc
  rw [h.hess, gaussNewton_out s.terms s.nVars (terms_range hl.described) r c hrc, QpProblem.thr_zero]

theorem objective_split {s s' : State K} {outs : List (RowOut K)} {iv : List (K × K)} {head : List K} (hl : Live s)
    (h : Assembled s s' outs iv head) (z : Nat → K) : objective s' z = smooth s' z + slackPart s' z := by
  have ho := hess_out hl h
  have hq : s'.nQpVars = s.nQpVars := by rw [h.frame]
  obtain ⟨k, k1, k2, k3⟩ := hl.slacks
  have hn : s'.nQpVars = s'.nVars + (s'.nQpVars - s'.nVars) := by rw [h.nVars, hq]; omega
  generalize hm : s'.nQpVars - s'.nVars = m at hn
  have e : ∑ r ∈ range (s'.nVars + m), ∑ c ∈ range (s'.nVars + m), z r * s'.hessian.entry r c * z c =
      ∑ r ∈ range s'.nVars, ∑ c ∈ range s'.nVars, z r * s'.hessian.entry r c * z c := by
    rw [sum_range_add]
    have h2 : ∀ r ∈ range m, ∑ c ∈ range (s'.nVars + m),
        z (s'.nVars + r) * s'.hessian.entry (s'.nVars + r) c * z c = 0 := by
      intro r _
      exact sum_eq_zero fun c _ => by rw [ho _ _ (Or.inl (Nat.le_add_right _ _))]; ring
    rw [sum_eq_zero h2, add_zero]
    refine sum_congr rfl fun r _ => ?_
    rw [sum_range_add]
    have h3 : ∀ c ∈ range m, z r * s'.hessian.entry r (s'.nVars + c) * z (s'.nVars + c) = 0 :=
      fun c _ => by rw [ho _ _ (Or.inr (Nat.le_add_right _ _))]; ring
    rw [sum_eq_zero h3, add_zero]
  rw [objective, smooth, slackPart, hm, hn, e, sum_range_add, add_assoc]

theorem slackPart_eq {s s' : State K} {outs : List (RowOut K)} {iv : List (K × K)} {head : List K}
    (h : Assembled s s' outs iv head) (z : Nat → K) : slackPart s' z = linCost s.nVars (outs.flatMap (·.grad)) z := by
  have hq : s'.nQpVars = s.nQpVars := by rw [h.frame]
  rw [slackPart, QpProblem.linCost_sum, h.nVars, hq, h.nQpVars, Nat.add_sub_cancel_left]
  refine sum_congr rfl fun i hi => ?_
  rw [h.gradient, List.getD_eq_getElem?_getD, List.getElem?_append_right (by rw [h.headLen]; omega), h.headLen,
    Nat.add_sub_cancel_left, List.getD_eq_getElem?_getD]

theorem inTrust_iff {s s' : State K} {outs : List (RowOut K)} {iv : List (K × K)} {head : List K} (hl : Live s)
    (h : Assembled s s' outs iv head) (z : Nat → K) :
    InTrust s z ↔ ∀ (i : Nat) lo hi, iv[i]? = some (lo, hi) → lo ≤ z i ∧ z i ≤ hi := by
  have hv := hl.described.valid
  constructor
  · intro hb i lo hi hi'
    have hlt : i < s.nVars := by rw [← h.layout.ivLen]; exact (List.getElem?_eq_some_iff.1 hi').1
    have e1 := List.getElem?_eq_getElem (l := s.box) (i := i) (by rw [hl.box]; exact hlt)
    have e2 := List.getElem?_eq_getElem (l := s.varBounds) (i := i) (by rw [hl.described.varBounds]; exact hlt)
    have e3 := h.ivs i _ _ e1 e2
    rw [hi'] at e3
    have e4 := (boxOf_iff _ (s.x i) _ (hv _ (List.mem_of_getElem? e2)) (z i)).2 (hb i _ _ e1 e2)
    rw [← Option.some.inj e3] at e4
    exact e4
  · intro hb i b v e1 e2
    exact (boxOf_iff b (s.x i) v (hv _ (List.mem_of_getElem? e2)) (z i)).1 (hb i _ _ (h.ivs i b v e1 e2))

theorem inTrust_frame {s s' : State K} {outs : List (RowOut K)} {iv : List (K × K)} {head : List K}
    (h : Assembled s s' outs iv head) (z : Nat → K) : InTrust s' z ↔ InTrust s z := by rw [h.frame]; exact Iff.rfl

theorem rows_proper {s : State K} (hl : Live s) (hm : ∀ m ∈ s.meritCoeff, 0 ≤ m) :
    ∀ r ∈ problemRows s, Proper r.bound ∧ 0 ≤ r.weight := by
  obtain ⟨p1, p2, p3, p4, p5⟩ := problemRows_facts hl
  intro r hr
  exact ⟨hl.described.proper _ (by rw [← p2]; exact List.mem_map_of_mem hr),
    hm _ (by rw [← p4]; exact List.mem_map_of_mem (f := fun r : Row K => r.weight) hr)⟩

/-! ### C79 -/

/-- C79: after `convexify`, feasible points of the QP are in the trust box and their slacks cost at least the violation
of the linearised rows, every row weighted with its merit coefficient; and every point of the trust box can be completed
to a feasible point whose slacks cost exactly that. -/
theorem C79_slack_exact (sqrt : K → K) (hsqrt : ∀ a : K, 0 ≤ a → sqrt a * sqrt a = a) {s s' : State K} (h : Live s)
    (hm : ∀ m ∈ s.meritCoeff, 0 ≤ m) (hc : s.convexify sqrt = some s') :
    (∀ z, objective s' z = smooth s' z + slackPart s' z) ∧
    (∀ z, Feasible s' z → InTrust s' z ∧ penaltyOf (problemRows s') z ≤ slackPart s' z) ∧
    ∀ x, InTrust s' x → ∃ z, (∀ i < s'.nVars, z i = x i) ∧ Feasible s' z ∧
      slackPart s' z = penaltyOf (problemRows s') x := by
  obtain ⟨outs, iv, head, a⟩ := convexified sqrt hsqrt h hc
  have hp := rows_proper h hm
  refine ⟨objective_split h a, fun z hz => ?_, fun x hx => ?_⟩
  · obtain ⟨b1, b2⟩ := a.layout.lower_bound hp z hz
    rw [inTrust_frame a, a.rows, slackPart_eq a]
    exact ⟨(inTrust_iff h a z).2 b1, b2⟩
  · rw [inTrust_frame a] at hx
    obtain ⟨z, z1, z2, z3⟩ := a.layout.attain (fun r hr => (hp r hr).1) x ((inTrust_iff h a x).1 hx)
    exact ⟨z, by rw [a.nVars]; exact z1, z2, by rw [slackPart_eq a, z3, a.rows]⟩

theorem smooth_congr (s : State K) (x y : Nat → K) (hxy : ∀ i < s.nVars, y i = x i) : smooth s y = smooth s x := by
  unfold smooth
  congr 1
  · exact sum_congr rfl fun r hr => sum_congr rfl fun c hc => by rw [hxy r (mem_range.1 hr), hxy c (mem_range.1 hc)]
  · exact sum_congr rfl fun c hc => by rw [hxy c (mem_range.1 hc)]

/-- C79, minimisers: a minimiser of the QP minimises smooth cost plus weighted violation over the trust box. -/
theorem C79_minimiser (sqrt : K → K) (hsqrt : ∀ a : K, 0 ≤ a → sqrt a * sqrt a = a) {s s' : State K} (h : Live s)
    (hm : ∀ m ∈ s.meritCoeff, 0 ≤ m) (hc : s.convexify sqrt = some s') (z : Nat → K) (hz : Feasible s' z)
    (hmin : ∀ y, Feasible s' y → objective s' z ≤ objective s' y) :
    InTrust s' z ∧ slackPart s' z = penaltyOf (problemRows s') z ∧
    ∀ x, InTrust s' x → smooth s' z + penaltyOf (problemRows s') z ≤ smooth s' x + penaltyOf (problemRows s') x := by
  obtain ⟨b1, b2, b3⟩ := C79_slack_exact sqrt hsqrt h hm hc
  have key : ∀ x, InTrust s' x → smooth s' z + slackPart s' z ≤ smooth s' x + penaltyOf (problemRows s') x := by
    intro x hx
    obtain ⟨y, y1, y2, y3⟩ := b3 x hx
    have := hmin y y2
    rw [b1 z, b1 y, smooth_congr s' x y y1, y3] at this
    exact this
  obtain ⟨c1, c2⟩ := b2 z hz
  refine ⟨c1, le_antisymm ?_ c2, fun x hx => ?_⟩
  · have := key z c1; linarith
  · have := key x hx; linarith

/-! ### C30 -/

theorem quadTerm_eq (s : State K) (H : SMat K) (hH : s.nVars ≤ H.cols.length) (z : Nat → K) :
    s.quadTerm H z = ∑ r ∈ range s.nVars, ∑ c ∈ range s.nVars, z r * H.entry r c * z c := by
  rw [State.quadTerm, ← List.sum_toFinset _ List.nodup_range, List.toFinset_range]
  refine sum_congr rfl fun r _ => ?_
  rw [QpProblem.rowMul_eq _ _ _ _ hH, mul_sum]
  exact sum_congr rfl fun c _ => by ring

theorem linTerm_eq (s : State K) (g : List K) (z : Nat → K) :
    s.linTerm g z = ∑ c ∈ range s.nVars, g.getD c 0 * z c := by
  rw [State.linTerm, ← List.sum_toFinset _ List.nodup_range, List.toFinset_range]
  exact sum_congr rfl fun r _ => by ring

theorem smooth_eq {s s' : State K} {outs : List (RowOut K)} {iv : List (K × K)} {head : List K} (hl : Live s)
    (h : Assembled s s' outs iv head) (z : Nat → K) :
    s'.quadTerm s'.hessian z + s'.linTerm s'.gradient z = smooth s' z := by
  obtain ⟨k, k1, k2, k3⟩ := hl.slacks
  rw [smooth, linTerm_eq, quadTerm_eq _ _ (by rw [h.hessCols, h.nVars]; omega)]

theorem convexCosts_eq {s s' : State K} {outs : List (RowOut K)} {iv : List (K × K)} {head : List K} (hl : Live s)
    (h : Assembled s s' outs iv head) (h0 : s.costs ≠ []) : ∃ vs, s.getExactCosts = some vs ∧ vs.length = s.costs.length ∧
      ∀ z, s'.evaluateConvexCosts z = vs.map fun v => v + (smooth s' z - smooth s' s.x) := by
  have hn : s.nCosts ≠ 0 := by rw [hl.nCosts]; exact fun e => h0 (List.length_eq_zero_iff.1 e)
  obtain ⟨vs, v1, v2, v3⟩ := h.costConstant hn
  refine ⟨vs, v1, by rw [v2, hl.nCosts], fun z => ?_⟩
  have e : s'.nCosts = s.nCosts := by rw [h.frame]
  rw [State.evaluateConvexCosts, e, if_neg hn, v3, List.map_map]
  apply List.map_congr_left
  intro v _
  have e1 : s.quadTerm s'.hessian s.x + s.linTerm s'.gradient s.x = smooth s' s.x := by
    rw [← smooth_eq hl h, State.quadTerm, State.quadTerm, State.linTerm, State.linTerm, h.nVars]
  simp only [Function.comp]
  rw [← smooth_eq hl h z, ← e1]; ring

/-- C30, at the point of convexification: the convex costs are the exact costs. -/
theorem C30_current (sqrt : K → K) (hsqrt : ∀ a : K, 0 ≤ a → sqrt a * sqrt a = a) {s s' : State K} (h : Live s)
    (h0 : s.costs ≠ []) (hc : s.convexify sqrt = some s') :
    s'.getExactCosts = some (s'.evaluateConvexCosts s'.x) := by
  obtain ⟨outs, iv, head, a⟩ := convexified sqrt hsqrt h hc
  obtain ⟨vs, v1, v2, v3⟩ := convexCosts_eq h a h0
  have := a.exact s.x
  have e : s'.getExactCosts = s.getExactCosts := by rw [a.frame]; rfl
  rw [e, v1, a.x, v3]
  simp

/-- C30 as the code does it: the change of the total convex cost is the change of the QP objective (without slacks)
multiplied by the number of costs. -/
theorem C30_multiplied (sqrt : K → K) (hsqrt : ∀ a : K, 0 ≤ a → sqrt a * sqrt a = a) {s s' : State K} (h : Live s)
    (h0 : s.costs ≠ []) (hc : s.convexify sqrt = some s') (y z : Nat → K) :
    s'.evaluateTotalConvexCost z - s'.evaluateTotalConvexCost y =
      (s'.costs.length : K) * ((objective s' z - slackPart s' z) - (objective s' y - slackPart s' y)) := by
  obtain ⟨outs, iv, head, a⟩ := convexified sqrt hsqrt h hc
  obtain ⟨vs, v1, v2, v3⟩ := convexCosts_eq h a h0
  have e : s'.costs = s.costs := by rw [a.frame]
  have hs : ∀ (l : List K) (d : K), (l.map fun v => v + d).sum = l.sum + l.length * d := by
    intro l d
    induction l with
    | nil => simp
    | cons v l ih => simp only [List.map_cons, List.sum_cons, ih, List.length_cons]; push_cast; ring
  rw [State.evaluateTotalConvexCost, State.evaluateTotalConvexCost, v3, v3, hs, hs, objective_split h a, objective_split h a,
    v2, e]
  ring

/-- C30, the part that holds: with a single cost, predicted improvements are improvements of the QP objective.  Missing:
two or more costs, see `C30_violated_many_costs`. -/
theorem C30_single_cost_partial (sqrt : K → K) (hsqrt : ∀ a : K, 0 ≤ a → sqrt a * sqrt a = a) {s s' : State K} (h : Live s)
    (h0 : s.costs.length = 1) (hc : s.convexify sqrt = some s') (y z : Nat → K) :
    s'.evaluateTotalConvexCost z - s'.evaluateTotalConvexCost y =
      (objective s' z - slackPart s' z) - (objective s' y - slackPart s' y) := by
  obtain ⟨outs, iv, head, a⟩ := convexified sqrt hsqrt h hc
  have e : s'.costs = s.costs := by rw [a.frame]
  rw [C30_multiplied sqrt hsqrt h (by intro e; simp [e] at h0) hc, e, h0]
  simp

/-- C30 is violated by every problem with two or more costs: whenever the QP objective differs, so does the predicted
improvement from it. -/
theorem C30_violated_many_costs (sqrt : K → K) (hsqrt : ∀ a : K, 0 ≤ a → sqrt a * sqrt a = a) {s s' : State K} (h : Live s)
    (h0 : 2 ≤ s.costs.length) (hc : s.convexify sqrt = some s') (y z : Nat → K)
    (hne : objective s' z - slackPart s' z ≠ objective s' y - slackPart s' y) :
    s'.evaluateTotalConvexCost z - s'.evaluateTotalConvexCost y ≠
      (objective s' z - slackPart s' z) - (objective s' y - slackPart s' y) := by
  obtain ⟨outs, iv, head, a⟩ := convexified sqrt hsqrt h hc
  have e : s'.costs = s.costs := by rw [a.frame]
  rw [C30_multiplied sqrt hsqrt h (by intro e; simp [e] at h0) hc, e]
  intro he
  have h1 : ((s.costs.length : K) - 1) * ((objective s' z - slackPart s' z) - (objective s' y - slackPart s' y)) = 0 := by
    linear_combination he
  rcases mul_eq_zero.1 h1 with h2 | h2
  · have h3 : (2 : K) ≤ s.costs.length := by exact_mod_cast h0
    linarith
  · exact hne (by linarith)

end Verif.IfoptQp
