import Verif.Props.IfoptQpRows

/-!
The Hessian and gradient that `IfoptQPProblem::convexify` stores, and that it succeeds (used by C30, C79-C83).
-/

set_option linter.unusedSectionVars false
set_option linter.unusedVariables false

namespace Verif.IfoptQp

open Verif.Bounds Verif.Sco Verif.SqpExprs Finset
open Verif.QpProblem (thr sides writeSeg rowMul Penalty Row Proper gap keep penaltyOf linCost tripForm RowsHold Layout
  Laid RowOut)

universe u
variable {K : Type u} [Field K] [LinearOrder K] [IsStrictOrderedRing K]

/-! ### Specification -/

/-- Specification: one row of a cost set: weight, error and Jacobian row. -/
structure Term (K : Type u) where
  weight : K
  error : K
  jac : List (Nat × K)

/-- Specification: the rows of a cost set at the current point. -/
def termsOf (c : Snap K) : List (Term K) :=
  List.zipWith (fun we j => ⟨we.1, we.2, j⟩) (c.coeffs.zip (List.zipWith errB c.values (c.bounds.map sides))) c.jac.rows

/-- Specification: the rows of all cost sets at the current point. -/
def State.terms (s : State K) : List (Term K) := s.costSets.flatMap fun c => termsOf (c.ask s.x)

/-- Specification: the Gauss-Newton matrix. -/
def gaussNewton (ts : List (Term K)) (r c : Nat) : K := (ts.map fun t => |t.weight| * (at' t.jac r * at' t.jac c)).sum

/-- Specification: the linear part in a direction. -/
def slope (ts : List (Term K)) (d : Nat → K) : K := (ts.map fun t => 2 * (t.weight * t.error) * dot t.jac d).sum

/-- Specification: the linearised weighted sum of squares at a distance `d` from the current point. -/
def squares (ts : List (Term K)) (d : Nat → K) : K := (ts.map fun t => t.weight * (t.error + dot t.jac d) ^ 2).sum

/-! ### Sums -/

theorem gram_tsum (rows : List (List (Nat × K))) (r c : Nat) :
    tsum (gramTriplets rows) r c = (rows.map fun j => at' j r * at' j c).sum := by
  induction rows with
  | nil => rfl
  | cons j rows ih =>
    have e : gramTriplets (j :: rows) = (j.flatMap fun a => j.map fun b => (a.1, b.1, a.2 * b.2)) ++ gramTriplets rows := rfl
    rw [e, tsum_append, ih, List.map_cons, List.sum_cons]
    congr 1
    have inner : ∀ (a : Nat × K) (m : List (Nat × K)), tsum (m.map fun b => (a.1, b.1, a.2 * b.2)) r c =
        (if a.1 = r then a.2 else 0) * at' m c := by
      intro a m
      induction m with
      | nil => simp [Sco.tsum, at']
      | cons b m ihm =>
        have e1 : at' (b :: m) c = (if b.1 = c then b.2 else 0) + at' m c := by simp [at']
        have e2 : tsum ((b :: m).map fun b => (a.1, b.1, a.2 * b.2)) r c =
            (if a.1 = r ∧ b.1 = c then a.2 * b.2 else 0) + tsum (m.map fun b => (a.1, b.1, a.2 * b.2)) r c := by
          simp [Sco.tsum]
        rw [e1, e2, ihm, mul_add]
        congr 1
        by_cases h1 : a.1 = r <;> by_cases h2 : b.1 = c <;> simp [h1, h2]
    have outer : ∀ l : List (Nat × K), tsum (l.flatMap fun a => j.map fun b => (a.1, b.1, a.2 * b.2)) r c =
        at' l r * at' j c := by
      intro l
      induction l with
      | nil => simp [Sco.tsum, at']
      | cons a l ihl =>
        have e1 : at' (a :: l) r = (if a.1 = r then a.2 else 0) + at' l r := by simp [at']
        rw [List.flatMap_cons, tsum_append, ihl, inner, e1, add_mul]
    exact outer j

theorem at_scale (a : K) (j : List (Nat × K)) (c : Nat) : at' (scaleRow a j) c = a * at' j c := by
  induction j with
  | nil => simp [scaleRow, at']
  | cons q j ih =>
    have e1 : at' (scaleRow a (q :: j)) c = (if q.1 = c then q.2 * a else 0) + at' (scaleRow a j) c := by
      simp [scaleRow, at']
    have e2 : at' (q :: j) c = (if q.1 = c then q.2 else 0) + at' j c := by simp [at']
    rw [e1, e2, ih]; split_ifs <;> ring

theorem at_out (j : List (Nat × K)) (n c : Nat) (h : ∀ q ∈ j, q.1 < n) (hc : n ≤ c) : at' j c = 0 := by
  apply List.sum_eq_zero
  intro a ha
  obtain ⟨q, hq, rfl⟩ := List.mem_map.1 ha
  have := h q hq
  rw [if_neg (by omega)]

theorem gaussNewton_symm (ts : List (Term K)) (r c : Nat) : gaussNewton ts r c = gaussNewton ts c r := by
  unfold gaussNewton
  congr 1; apply List.map_congr_left; intro t _; ring

theorem gaussNewton_out (ts : List (Term K)) (n : Nat) (h : ∀ t ∈ ts, ∀ q ∈ t.jac, q.1 < n) (r c : Nat)
    (hrc : n ≤ r ∨ n ≤ c) : gaussNewton ts r c = 0 := by
  apply List.sum_eq_zero
  intro a ha
  obtain ⟨t, ht, rfl⟩ := List.mem_map.1 ha
  rcases hrc with h1 | h1
  · rw [at_out _ n _ (h t ht) h1]; ring
  · rw [at_out _ n _ (h t ht) h1]; ring

/-- The Gauss-Newton form is the weighted sum of squared directional derivatives. -/
theorem gaussNewton_form (ts : List (Term K)) (n : Nat) (h : ∀ t ∈ ts, ∀ q ∈ t.jac, q.1 < n) (d : Nat → K) :
    ∑ r ∈ range n, ∑ c ∈ range n, d r * gaussNewton ts r c * d c = (ts.map fun t => |t.weight| * dot t.jac d ^ 2).sum := by
  induction ts with
  | nil => simp [gaussNewton]
  | cons t ts ih =>
    have e : ∀ r c, gaussNewton (t :: ts) r c = |t.weight| * (at' t.jac r * at' t.jac c) + gaussNewton ts r c := by
      intro r c; simp [gaussNewton]
    simp only [e, mul_add, add_mul, sum_add_distrib, List.map_cons, List.sum_cons]
    rw [ih fun t' ht' => h t' (by simp [ht'])]
    congr 1
    rw [dot_entries n _ (h t (by simp)), pow_two, sum_mul_sum, mul_sum]
    refine sum_congr rfl fun r _ => ?_
    rw [mul_sum]
    exact sum_congr rfl fun c _ => by ring

theorem squares_expand (ts : List (Term K)) (hw : ∀ t ∈ ts, 0 ≤ t.weight) (n : Nat)
    (h : ∀ t ∈ ts, ∀ q ∈ t.jac, q.1 < n) (d : Nat → K) :
    squares ts d = squares ts 0 + slope ts d + ∑ r ∈ range n, ∑ c ∈ range n, d r * gaussNewton ts r c * d c := by
  rw [gaussNewton_form ts n h]
  clear h
  have hz : ∀ j : List (Nat × K), dot j 0 = 0 := by intro j; induction j <;> simp_all
  induction ts with
  | nil => simp [squares, slope]
  | cons t ts ih =>
    have ih := ih fun t' ht' => hw t' (by simp [ht'])
    simp only [squares, slope, List.map_cons, List.sum_cons] at ih ⊢
    rw [ih, abs_of_nonneg (hw t (by simp)), hz]
    ring

/-! ### The Hessian -/

theorem active_none {c : Snap K} (h : ¬ c.jac.nonZeros ≠ 0) : ∀ j ∈ c.jac.rows, j = [] := by
  intro j hj
  push Not at h
  have : j.length ≤ (c.jac.rows.map List.length).sum := List.single_le_sum (by simp) _ (List.mem_map_of_mem hj)
  rw [Mat.nonZeros] at h
  apply List.length_eq_zero_iff.1; omega

theorem termsOf_jac (c : Snap K) : ∀ t ∈ termsOf c, t.jac ∈ c.jac.rows := by
  intro t ht
  obtain ⟨i, hi, rfl⟩ := List.mem_iff_getElem.1 ht
  simp [termsOf]

theorem terms_range {s : State K} (h : Described s) : ∀ t ∈ s.terms, ∀ q ∈ t.jac, q.1 < s.nVars := by
  intro t ht
  obtain ⟨c, hc, ht⟩ := List.mem_flatMap.1 ht
  exact (h.costSets c hc).range _ _ (termsOf_jac _ t ht)

/-- Sums over the rows of the sets with stored entries are sums over all rows. -/
theorem active_sum (s : State K) (f : Term K → K) (hf : ∀ t, t.jac = [] → f t = 0) :
    (s.active.map fun c => ((termsOf c).map f).sum).sum = (s.terms.map f).sum := by
  unfold State.active State.terms
  induction s.costSets with
  | nil => rfl
  | cons c l ih =>
    rw [List.map_cons, List.filter_cons, List.flatMap_cons, List.map_append, List.sum_append, ← ih]
    by_cases h : (c.ask s.x).jac.nonZeros ≠ 0
    · rw [if_pos (by simpa using h), List.map_cons, List.sum_cons]
    · rw [if_neg (by simpa using h)]
      have : ((termsOf (c.ask s.x)).map f).sum = 0 := by
        apply List.sum_eq_zero
        intro a ha
        obtain ⟨t, ht, rfl⟩ := List.mem_map.1 ha
        exact hf t (active_none h _ (termsOf_jac _ t ht))
      rw [this, zero_add]

theorem active_fine {s : State K} (h : Described s) : ∀ c ∈ s.active, ∃ d ∈ s.costSets, c = d.ask s.x := by
  intro c hc
  obtain ⟨hc, -⟩ := List.mem_filter.1 hc
  obtain ⟨d, hd, rfl⟩ := List.mem_map.1 hc
  exact ⟨d, hd, rfl⟩

theorem weightedRows_ok (sqrt : K → K) (hsqrt : ∀ a : K, 0 ≤ a → sqrt a * sqrt a = a) (n : Nat) (d : CSet K)
    (x : Nat → K) (h : CostFine n d) : ∃ rows, weightedRows sqrt (d.ask x) = some rows ∧ (∀ r ∈ rows, ∀ q ∈ r, q.1 < n) ∧
      ∀ r c, tsum (gramTriplets rows) r c = gaussNewton (termsOf (d.ask x)) r c := by
  have key : ∀ w a b : K, sqrt |w| * a * (sqrt |w| * b) = |w| * (a * b) := fun w a b => by
    linear_combination a * b * hsqrt _ (abs_nonneg w)
  refine ⟨_, by rw [weightedRows, if_pos (h.coeffs x)], ?_, ?_⟩
  · intro r hr
    obtain ⟨i, hi, rfl⟩ := List.mem_iff_getElem.1 hr
    simp only [List.getElem_zipWith]
    intro q hq
    obtain ⟨p, hp, rfl⟩ := List.mem_map.1 hq
    exact h.range x _ (List.getElem_mem _) p hp
  · intro r c
    rw [gram_tsum, gaussNewton, termsOf]
    congr 1
    have h1 := h.coeffs x
    have h2 := h.values x
    have h3 := h.bounds x
    apply List.ext_getElem
    · simp [h1, h2, h3]
    · intro i i1 i2
      simp only [List.getElem_map, List.getElem_zipWith, at_scale, List.getElem_zip]
      exact key _ _ _

theorem stored_zero {M : SMat K} (h : ¬ 0 < stored M) (r c : Nat) : M.entry r c = 0 := by
  rw [SMat.entry]
  cases hc : M.cols[c]? with
  | none => simp [colEntry]
  | some col =>
    have h1 : col.length ≤ (M.cols.map List.length).sum :=
      List.single_le_sum (by simp) _ (List.mem_map_of_mem (List.mem_of_getElem? hc))
    rw [stored] at h
    have : col = [] := List.length_eq_zero_iff.1 (by omega)
    simp [this, colEntry]

/-- The stored Hessian is the Gauss-Newton matrix without its small entries. -/
theorem hessian_ok (sqrt : K → K) (hsqrt : ∀ a : K, 0 ≤ a → sqrt a * sqrt a = a) {s : State K} (h : Described s)
    (hn : s.nVars ≤ s.nQpVars) : ∃ H, s.hessianOf sqrt = some H ∧ H.cols.length = s.nQpVars ∧
      ∀ r c, H.entry r c = thr (gaussNewton s.terms r c) := by
  have hsum : ∀ r c, (s.active.map fun c' => gaussNewton (termsOf c') r c).sum = gaussNewton s.terms r c := by
    intro r c
    exact active_sum s (fun t => |t.weight| * (at' t.jac r * at' t.jac c)) fun t ht => by simp [ht, at']
  unfold State.hessianOf
  by_cases h0 : s.active = []
  · rw [if_pos h0]
    obtain ⟨M, a1, a2, a3, a4, a5, -⟩ := setFromTriplets_spec (K := K) s.nQpVars s.nQpVars [] (by simp)
    refine ⟨M, a1, a4, fun r c => ?_⟩
    rw [a5, ← hsum, h0]
    simp [Sco.tsum, QpProblem.thr_zero]
  · rw [if_neg h0]
    have hex : ∀ l : List (Snap K), (∀ c ∈ l, ∃ d ∈ s.costSets, c = d.ask s.x) → ∃ rows, l.mapM (weightedRows sqrt) = some rows ∧
        (∀ t ∈ rows.flatMap gramTriplets, t.1 < s.nVars ∧ t.2.1 < s.nVars) ∧
        ∀ r c, tsum (rows.flatMap gramTriplets) r c = (l.map fun c' => gaussNewton (termsOf c') r c).sum := by
      intro l
      induction l with
      | nil => intro _; exact ⟨[], rfl, by simp, by simp [Sco.tsum]⟩
      | cons c l ih =>
        intro hl
        obtain ⟨rows, b1, b2, b3⟩ := ih fun c' hc' => hl c' (by simp [hc'])
        obtain ⟨d, hd, rfl⟩ := hl c (by simp)
        obtain ⟨rw', c1, c2, c3⟩ := weightedRows_ok sqrt hsqrt s.nVars d s.x (h.costSets d hd)
        refine ⟨rw' :: rows, by simp [List.mapM_cons, c1, b1], ?_, ?_⟩
        · intro t ht
          rw [List.flatMap_cons] at ht
          rcases List.mem_append.1 ht with ht | ht
          · simp only [gramTriplets, List.mem_flatMap, List.mem_map] at ht
            obtain ⟨r, hr, a, ha, b, hb, rfl⟩ := ht
            exact ⟨c2 r hr a ha, c2 r hr b hb⟩
          · exact b2 t ht
        · intro r c
          rw [List.flatMap_cons, tsum_append, b3, c3]; simp
    obtain ⟨rows, b1, b2, b3⟩ := hex s.active (active_fine h)
    simp only [b1]
    obtain ⟨M, a1, a2, a3, a4, a5, -⟩ := setFromTriplets_spec s.nVars s.nVars _ b2
    simp only [a1]
    have hr : ∀ t ∈ M.triplets.map (fun t => (t.1, t.2.1, thr t.2.2)), t.1 < s.nQpVars ∧ t.2.1 < s.nQpVars := by
      intro t ht
      obtain ⟨t', h1, rfl⟩ := List.mem_map.1 ht
      have := triplets_range a2 t' h1
      simp only; omega
    obtain ⟨H, d1, d2, d3, d4, d5, -⟩ := setFromTriplets_spec s.nQpVars s.nQpVars _ hr
    refine ⟨H, d1, d4, fun r c => ?_⟩
    have e : (M.triplets.map fun t => (t.1, t.2.1, thr t.2.2)) =
        (⟨M.rows, M.cols.map fun col => col.map fun q => (q.1, thr q.2)⟩ : SMat K).triplets := by
      simp only [SMat.triplets, List.map_flatMap, List.map_map, List.zipIdx_map, List.flatMap_map, Prod.map]
      rfl
    rw [d5, e, tsum_triplets, ← hsum, ← b3, ← a5, SMat.entry, SMat.entry, List.getElem?_map]
    cases hc : M.cols[c]? with
    | none => simp [colEntry, QpProblem.thr_zero]
    | some col => exact QpProblem.colEntry_thr col (a2.inc col (List.mem_of_getElem? hc)) r

/-! ### The gradient -/

theorem gradPart_eq (n : Nat) (d : CSet K) (x : Nat → K) (h : CostFine n d) (col : Nat) :
    gradPart (d.ask x) col = ((termsOf (d.ask x)).map fun t => 2 * (t.weight * t.error) * at' t.jac col).sum := by
  have h1 := h.coeffs x
  have h2 := h.values x
  have h3 := h.bounds x
  have key : ∀ l : List K, 2 * l.sum = (l.map fun a => 2 * a).sum := by
    intro l; induction l <;> simp_all [mul_add]
  rw [gradPart, key]
  congr 1
  apply List.ext_getElem
  · simp [termsOf, calcBoundsErrors, h1, h2, h3]
  · intro i i1 i2
    simp only [termsOf, calcBoundsErrors, List.getElem_map, List.getElem_zipWith, List.getElem_zip]
    ring

/-- The stored gradient: the slope of the weighted squares, moved by the Hessian, then the slack costs. -/
theorem gradient_ok {s : State K} (h : Described s) (H : SMat K) (hH : s.nVars ≤ H.cols.length) (l : List K)
    (hl : slackGrad s.types s.meritCoeff = some l) : ∃ head, s.gradientOf H = some (head ++ l) ∧ head.length = s.nVars ∧
      ∀ col, col < s.nVars → head.getD col 0 = (s.terms.map fun t => 2 * (t.weight * t.error) * at' t.jac col).sum -
        2 * ∑ c ∈ range s.nVars, H.entry col c * s.x c := by
  have hall : s.active.all gradSized = true := by
    rw [List.all_eq_true]
    intro c hc
    obtain ⟨d, hd, rfl⟩ := active_fine h c hc
    have hf := h.costSets d hd
    simp [gradSized, hf.values, hf.bounds, hf.coeffs]
  have hg : ∀ col, (s.active.map fun c => gradPart c col).sum =
      (s.terms.map fun t => 2 * (t.weight * t.error) * at' t.jac col).sum := by
    intro col
    rw [← active_sum s (fun t => 2 * (t.weight * t.error) * at' t.jac col) fun t ht => by simp [ht, at']]
    congr 1
    apply List.map_congr_left
    intro c hc
    obtain ⟨d, hd, rfl⟩ := active_fine h c hc
    exact gradPart_eq s.nVars d s.x (h.costSets d hd) col
  unfold State.gradientOf
  rw [if_pos hall]
  simp only [hl]
  by_cases h0 : 0 < stored H
  · rw [if_pos h0]
    refine ⟨_, rfl, by simp, fun col hcol => ?_⟩
    rw [List.getD_eq_getElem?_getD, List.getElem?_map, List.getElem?_range hcol]
    simp only [Option.map_some, Option.getD_some]
    rw [List.getD_eq_getElem?_getD, List.getElem?_map, List.getElem?_range hcol, QpProblem.rowMul_eq _ _ _ _ hH]
    simp only [Option.map_some, Option.getD_some, hg]
  · rw [if_neg h0]
    refine ⟨_, rfl, by simp, fun col hcol => ?_⟩
    rw [List.getD_eq_getElem?_getD, List.getElem?_map, List.getElem?_range hcol]
    simp only [Option.map_some, Option.getD_some, hg, stored_zero h0, zero_mul, sum_const_zero, mul_zero, sub_zero]

/-! ### Exact costs -/

theorem costs_ok {s : State K} (h : Described s) : ∃ vs, s.getExactCosts = some vs ∧ vs.length = s.costs.length := by
  unfold State.getExactCosts
  have hc := h.costs
  revert hc
  generalize s.costs = l
  intro hc
  induction l with
  | nil => exact ⟨[], rfl, rfl⟩
  | cons c l ih =>
    obtain ⟨vs, a, b⟩ := ih fun c' hc' => hc c' (by simp [hc'])
    have hf := hc c (by simp)
    have : ∃ v, s.costValue c = some v := by
      have e1 := hf.values s.x
      have e2 := hf.bounds s.x
      cases h1 : c.1 <;>
        simp [State.costValue, h1, IfoptCosts.Cost.newOnes, IfoptCosts.Cost.new, IfoptCosts.Cost.squared,
          IfoptCosts.Cost.absolute, e1, e2]
    obtain ⟨v, hv⟩ := this
    exact ⟨v :: vs, by simp [List.mapM_cons, a, hv], by simp [b]⟩

end Verif.IfoptQp
