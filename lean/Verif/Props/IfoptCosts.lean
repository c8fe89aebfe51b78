import Verif.Model.IfoptCosts
import Verif.Props.Bounds
import Mathlib.Algebra.Order.BigOperators.Group.Finset
import Mathlib.Analysis.Calculus.Deriv.Add
import Mathlib.Analysis.Calculus.Deriv.Mul
import Mathlib.Analysis.Calculus.Deriv.Comp
import Mathlib.Tactic.IntervalCases
import Mathlib.Tactic.Linarith
import Mathlib.Tactic.Positivity

/-!
C36: squared and absolute costs of a constraint, and their gradients.
-/

set_option linter.unusedSectionVars false
set_option linter.unusedVariables false

namespace Verif.IfoptCosts

open Verif.Bounds

universe u
variable {K : Type u} [Field K] [LinearOrder K] [IsStrictOrderedRing K]

/-! ### Specification -/

/-- `δ` is the distance of `v` from the interval described by the bounds. -/
def IsDist (v : K) (b : Lo K × Hi K) (δ : K) : Prop :=
  (∃ y, Inside y b ∧ δ = |v - y|) ∧ ∀ y, Inside y b → δ ≤ |v - y|

/-- Product of a sparse row with a dense vector. -/
def rowDot (row : List (Nat × K)) (d : Nat → K) : K := (row.map fun q => q.2 * d q.1).sum

/-! ### Values -/

theorem zipWith_sum {α β : Type*} (f : α → β → K) (a : List α) (b : List β) (x : α) (y : β) (m : Nat)
    (ha : a.length = m) (hb : b.length = m) :
    (List.zipWith f a b).sum = ∑ i ∈ Finset.range m, f (a.getD i x) (b.getD i y) := by
  induction a generalizing b m with
  | nil => simp at ha; subst ha; simp
  | cons p a ih =>
    cases b with
    | nil => simp at hb ha; omega
    | cons q b =>
      cases m with
      | zero => simp at ha
      | succ m =>
        rw [List.zipWith_cons_cons, List.sum_cons, ih b m (by simpa using ha) (by simpa using hb),
          Finset.sum_range_succ']
        simp [add_comm]

theorem getD_map_abs (w : List K) (i : Nat) : (w.map fun w => |w|).getD i 0 = |w.getD i 0| := by
  simp only [List.getD_eq_getElem?_getD, List.getElem?_map]
  cases w[i]? <;> simp

theorem getD_zipWith {α β γ : Type*} (f : α → β → γ) (a : List α) (b : List β) (x : α) (y : β) (z : γ) (i : Nat)
    (ha : i < a.length) (hb : i < b.length) :
    (List.zipWith f a b).getD i z = f (a.getD i x) (b.getD i y) := by
  simp [List.getD_eq_getElem?_getD, List.getElem?_zipWith, List.getElem?_eq_getElem ha, List.getElem?_eq_getElem hb]

theorem squared_eq (n : Nat) (w : List K) (s : CState K) (m : Nat) (h1 : s.values.length = m)
    (h2 : s.bounds.length = m) (h3 : w.length = m) :
    (Cost.new n w).squared s = some (∑ i ∈ Finset.range m,
      |w.getD i 0| * (errB (s.values.getD i 0) (s.bounds.getD i (none, none)) *
        errB (s.values.getD i 0) (s.bounds.getD i (none, none)))) := by
  unfold Cost.squared Cost.new
  simp only
  rw [if_pos ⟨h1.trans h2.symm, by simp [h3, h1]⟩]
  rw [zipWith_sum _ _ _ 0 0 m (by simp [h3]) (by simp [calcBoundsErrors, h1, h2])]
  congr 1
  apply Finset.sum_congr rfl
  intro i hi
  rw [Finset.mem_range] at hi
  rw [getD_map_abs, calcBoundsErrors, getD_zipWith errB _ _ 0 (none, none) 0 i (by omega) (by omega)]

theorem absolute_eq (n : Nat) (w : List K) (s : CState K) (m : Nat) (h1 : s.values.length = m)
    (h2 : s.bounds.length = m) (h3 : w.length = m) :
    (Cost.new n w).absolute s = some (∑ i ∈ Finset.range m,
      |w.getD i 0| * violB (s.values.getD i 0) (s.bounds.getD i (none, none))) := by
  unfold Cost.absolute Cost.new
  simp only
  rw [if_pos ⟨h1.trans h2.symm, by simp [h3, h1]⟩]
  rw [zipWith_sum _ _ _ 0 0 m (by simp [h3]) (by simp [calcBoundsViolations, h1, h2])]
  congr 1
  apply Finset.sum_congr rfl
  intro i hi
  rw [Finset.mem_range] at hi
  rw [getD_map_abs, calcBoundsViolations, getD_zipWith violB _ _ 0 (none, none) 0 i (by omega) (by omega)]

theorem getD_mem_of_lt {α : Type*} (l : List α) (i : Nat) (d : α) (h : i < l.length) : l.getD i d ∈ l := by
  rw [List.getD_eq_getElem?_getD, List.getElem?_eq_getElem h]; exact List.getElem_mem h

/-- C36: `SquaredCost` and `AbsoluteCost` are the sums of the squared / plain distances of the constraint values from
their bounds, weighted by the magnitudes of the weights; both are nonnegative, and with weights other than zero they
vanish exactly when every row is within its bounds. -/
theorem C36_value (n : Nat) (w : List K) (s : CState K) (m : Nat) (h1 : s.values.length = m)
    (h2 : s.bounds.length = m) (h3 : w.length = m) (hv : ∀ b ∈ s.bounds, Valid b) :
    ∃ (δ : Nat → K) (sq ab : K), (Cost.new n w).squared s = some sq ∧ (Cost.new n w).absolute s = some ab ∧
      (∀ i, i < m → IsDist (s.values.getD i 0) (s.bounds.getD i (none, none)) (δ i)) ∧
      sq = ∑ i ∈ Finset.range m, |w.getD i 0| * δ i ^ 2 ∧ ab = ∑ i ∈ Finset.range m, |w.getD i 0| * δ i ∧
      0 ≤ sq ∧ 0 ≤ ab ∧
      ((∀ a ∈ w, a ≠ 0) →
        ((sq = 0 ↔ ∀ i, i < m → Inside (s.values.getD i 0) (s.bounds.getD i (none, none))) ∧
         (ab = 0 ↔ ∀ i, i < m → Inside (s.values.getD i 0) (s.bounds.getD i (none, none))))) := by
  set v := fun i => s.values.getD i 0 with hvdef
  set b := fun i => s.bounds.getD i (none, none) with hbdef
  have hval : ∀ i, i < m → Valid (b i) := fun i hi => hv _ (getD_mem_of_lt _ _ _ (by omega))
  have hw : ∀ i, i < m → (∀ a ∈ w, a ≠ 0) → 0 < |w.getD i 0| := fun i hi h =>
    abs_pos.2 (h _ (getD_mem_of_lt _ _ _ (by omega)))
  have hq : ∀ i, i < m → errB (v i) (b i) * errB (v i) (b i) = violB (v i) (b i) ^ 2 := by
    intro i hi
    obtain ⟨_, _, c3, c4, _⟩ := comp_spec (v i) (b i) (hval i hi)
    rw [c3, c4, sq_abs, sq]
  have hd : ∀ i, i < m → 0 ≤ violB (v i) (b i) := fun i hi => (comp_spec (v i) (b i) (hval i hi)).2.2.2.2.2.2
  have hz : ∀ i, i < m → (violB (v i) (b i) = 0 ↔ Inside (v i) (b i)) :=
    fun i hi => (comp_spec (v i) (b i) (hval i hi)).2.2.2.2.2.1
  refine ⟨fun i => violB (v i) (b i), _, _, squared_eq n w s m h1 h2 h3, absolute_eq n w s m h1 h2 h3, ?_, ?_, rfl,
    ?_, ?_, ?_⟩
  · intro i hi
    obtain ⟨c1, c2, c3, c4, _⟩ := comp_spec (v i) (b i) (hval i hi)
    exact ⟨⟨_, c1, c4⟩, fun y hy => c4.trans_le (c2 y hy)⟩
  · apply Finset.sum_congr rfl
    intro i hi
    rw [hq i (Finset.mem_range.1 hi)]
  · exact Finset.sum_nonneg fun i _ => mul_nonneg (abs_nonneg _) (mul_self_nonneg _)
  · exact Finset.sum_nonneg fun i hi => mul_nonneg (abs_nonneg _) (hd i (Finset.mem_range.1 hi))
  · intro hne
    constructor
    · rw [Finset.sum_eq_zero_iff_of_nonneg fun i _ => mul_nonneg (abs_nonneg _) (mul_self_nonneg _)]
      constructor
      · intro h i hi
        have := h i (Finset.mem_range.2 hi)
        rw [hq i hi] at this
        rcases mul_eq_zero.1 this with h | h
        · exact absurd h (hw i hi hne).ne'
        · exact (hz i hi).1 (by simpa using h)
      · intro h i hi
        rw [Finset.mem_range] at hi
        rw [hq i hi, (hz i hi).2 (h i hi)]; simp
    · rw [Finset.sum_eq_zero_iff_of_nonneg fun i hi => mul_nonneg (abs_nonneg _) (hd i (Finset.mem_range.1 hi))]
      constructor
      · intro h i hi
        rcases mul_eq_zero.1 (h i (Finset.mem_range.2 hi)) with h | h
        · exact absurd h (hw i hi hne).ne'
        · exact (hz i hi).1 h
      · intro h i hi
        rw [Finset.mem_range] at hi
        rw [(hz i hi).2 (h i hi)]; simp

/-- The weights must have one entry per row of the constraint *at the time of the call*; nothing checks it. -/
theorem C36_weight_count (n : Nat) (w : List K) (s : CState K) (h : w.length ≠ s.values.length) :
    (Cost.new n w).squared s = none ∧ (Cost.new n w).absolute s = none := by
  unfold Cost.squared Cost.absolute Cost.new
  simp [h]

/-- Without weights every row has weight one. -/
theorem C36_default_weights (n : Nat) (s : CState K) (h1 : s.values.length = n) (h2 : s.bounds.length = n)
    (hv : ∀ b ∈ s.bounds, Valid b) :
    ∃ δ : Nat → K, (∀ i, i < n → IsDist (s.values.getD i 0) (s.bounds.getD i (none, none)) (δ i)) ∧
      (Cost.newOnes n).squared s = some (∑ i ∈ Finset.range n, δ i ^ 2) ∧
      (Cost.newOnes n).absolute s = some (∑ i ∈ Finset.range n, δ i) := by
  obtain ⟨δ, sq, ab, a1, a2, a3, a4, a5, _⟩ := C36_value n (List.replicate n (1 : K)) s n h1 h2 (by simp) hv
  refine ⟨δ, a3, ?_, ?_⟩
  · rw [Cost.newOnes, a1, a4]
    congr 1
    apply Finset.sum_congr rfl
    intro i hi
    rw [Finset.mem_range] at hi
    simp [List.getD_eq_getElem?_getD, List.getElem?_replicate, hi]
  · rw [Cost.newOnes, a2, a5]
    congr 1
    apply Finset.sum_congr rfl
    intro i hi
    rw [Finset.mem_range] at hi
    simp [List.getD_eq_getElem?_getD, List.getElem?_replicate, hi]

/-! ### Gradients -/

def dense (k : Nat) (l : List K) (d : Nat → K) : K := ((l.zipIdx k).map fun q => q.1 * d q.2).sum

theorem dense_cons (k : Nat) (a : K) (l : List K) (d : Nat → K) : dense k (a :: l) d = a * d k + dense (k + 1) l d := by
  simp [dense, List.zipIdx_cons]

theorem dense_replicate (k n : Nat) (d : Nat → K) : dense k (List.replicate n 0) d = 0 := by
  induction n generalizing k with
  | zero => rfl
  | succ n ih => rw [List.replicate_succ, dense_cons, ih]; simp

theorem dense_modify (k : Nat) (l : List K) (i : Nat) (v : K) (d : Nat → K) (h : i < l.length) :
    dense k (l.modify i (· + v)) d = dense k l d + v * d (k + i) := by
  induction l generalizing k i with
  | nil => simp at h
  | cons a l ih =>
    cases i with
    | zero => simp only [List.modify_zero_cons, dense_cons, Nat.add_zero]; ring
    | succ i =>
      simp only [List.modify_succ_cons, dense_cons]
      rw [ih (k + 1) i (by simpa using h), show k + 1 + i = k + (i + 1) by omega]; ring

theorem nonZeros_dot (l : List K) (d : Nat → K) : rowDot (nonZeros l) d = dense 0 l d := by
  unfold rowDot nonZeros dense
  rw [List.map_map]
  generalize l.zipIdx = z
  induction z with
  | nil => simp
  | cons q z ih =>
    by_cases h : q.1 = 0
    · simp [h] at ih ⊢; exact ih
    · simp [h] at ih ⊢; exact ih

theorem nonZeros_range (l : List K) : ∀ q ∈ nonZeros l, q.1 < l.length := by
  intro q hq
  simp only [nonZeros, List.mem_map, List.mem_filter] at hq
  obtain ⟨p, ⟨hp, _⟩, rfl⟩ := hq
  have := List.snd_lt_of_mem_zipIdx hp
  simpa using this

theorem fold_row (row : List (Nat × K)) (acc : List K) (d : Nat → K) (h : ∀ q ∈ row, q.1 < acc.length) :
    dense 0 (row.foldl (fun acc q => acc.modify q.1 (· + q.2)) acc) d = dense 0 acc d + rowDot row d ∧
    (row.foldl (fun acc q => acc.modify q.1 (· + q.2)) acc).length = acc.length := by
  induction row generalizing acc with
  | nil => simp [rowDot]
  | cons q row ih =>
    rw [List.foldl_cons]
    obtain ⟨a, b⟩ := ih (acc.modify q.1 (· + q.2)) (fun p hp => by simpa using h p (by simp [hp]))
    refine ⟨?_, by simpa using b⟩
    rw [a, dense_modify 0 acc q.1 q.2 d (h q (by simp))]
    simp [rowDot, add_assoc]

theorem colSums_dense (n : Nat) (rows : List (List (Nat × K))) (d : Nat → K) (h : ∀ r ∈ rows, ∀ q ∈ r, q.1 < n) :
    dense 0 (colSums n rows) d = (rows.map fun r => rowDot r d).sum ∧ (colSums n rows).length = n := by
  have key : ∀ (rows : List (List (Nat × K))) (acc : List K), acc.length = n → (∀ r ∈ rows, ∀ q ∈ r, q.1 < n) →
      dense 0 (rows.foldl (fun acc row => row.foldl (fun acc q => acc.modify q.1 (· + q.2)) acc) acc) d =
        dense 0 acc d + (rows.map fun r => rowDot r d).sum ∧
      (rows.foldl (fun acc row => row.foldl (fun acc q => acc.modify q.1 (· + q.2)) acc) acc).length = n := by
    intro rows
    induction rows with
    | nil => intro acc hl _; simp [hl]
    | cons r rows ih =>
      intro acc hl hr
      rw [List.foldl_cons]
      obtain ⟨a, b⟩ := fold_row r acc d (fun q hq => by rw [hl]; exact hr r (by simp) q hq)
      obtain ⟨a', b'⟩ := ih _ (b.trans hl) (fun r' h' => hr r' (by simp [h']))
      exact ⟨by rw [a', a]; simp [add_assoc], b'⟩
  obtain ⟨a, b⟩ := key rows (List.replicate n 0) (by simp) h
  exact ⟨by rw [colSums, a, dense_replicate, zero_add], b⟩

theorem rowDot_scale (c : K) (row : List (Nat × K)) (d : Nat → K) : rowDot (scaleRow c row) d = c * rowDot row d := by
  unfold rowDot scaleRow
  rw [List.map_map, ← List.sum_map_mul_left]
  congr 1
  apply List.map_congr_left
  intro q _
  simp; ring

theorem scaleRows_eq (rows : List (List (Nat × K))) (ws es : List K) (h1 : ws.length = rows.length)
    (h2 : es.length = rows.length) :
    scaleRows rows ws es = some (List.zipWith scaleRow (List.zipWith (fun w e => 2 * w * e) ws es) rows) := by
  induction rows generalizing ws es with
  | nil => cases ws <;> cases es <;> simp_all [scaleRows]
  | cons r rows ih =>
    match ws, es with
    | [], _ => simp at h1
    | _ :: _, [] => simp at h2
    | w :: ws, e :: es => rw [scaleRows, ih ws es (by simpa using h1) (by simpa using h2)]; rfl

theorem gradient_dot (n : Nat) (cs : List K) (rows : List (List (Nat × K))) (m : Nat) (hc : cs.length = m)
    (hr : rows.length = m) (d : Nat → K) (h : ∀ r ∈ rows, ∀ q ∈ r, q.1 < n) :
    rowDot (nonZeros (colSums n (List.zipWith scaleRow cs rows))) d =
      ∑ i ∈ Finset.range m, cs.getD i 0 * rowDot (rows.getD i []) d ∧
    ∀ q ∈ nonZeros (colSums n (List.zipWith scaleRow cs rows)), q.1 < n := by
  have hs : ∀ r ∈ List.zipWith scaleRow cs rows, ∀ q ∈ r, q.1 < n := by
    intro r hr' q hq
    obtain ⟨i, hi, rfl⟩ := List.mem_iff_getElem.1 hr'
    rw [List.getElem_zipWith] at hq
    simp only [scaleRow, List.mem_map] at hq
    obtain ⟨p, hp, rfl⟩ := hq
    simp only [List.length_zipWith] at hi
    exact h _ (List.getElem_mem (by omega)) p hp
  obtain ⟨a, b⟩ := colSums_dense n (List.zipWith scaleRow cs rows) d hs
  refine ⟨?_, fun q hq => by have := nonZeros_range _ q hq; rwa [b] at this⟩
  rw [nonZeros_dot, a, List.map_zipWith, zipWith_sum _ _ _ 0 [] m hc hr]
  simp only [rowDot_scale]

theorem clampB_var (b : Lo K × Hi K) (hb : Valid b) (v z : K) (hz : Inside z b) :
    (v - clampB v b) * (z - clampB v b) ≤ 0 := by
  rcases clampB_cases v b hb with ⟨l, hl, hlt, hc, _⟩ | ⟨u, hu, hlt, hc, _⟩ | ⟨hi, hc, _⟩
  · rw [hc]; exact mul_nonpos_of_nonpos_of_nonneg (by linarith) (by have := hz.1 l hl; linarith)
  · rw [hc]; exact mul_nonpos_of_nonneg_of_nonpos (by linarith) (by have := hz.2 u hu; linarith)
  · rw [hc]; simp

/-- The squared error changes like its tangent up to a quadratic term. -/
theorem errB_sq_bound (b : Lo K × Hi K) (hb : Valid b) (v w : K) :
    |errB w b ^ 2 - errB v b ^ 2 - 2 * errB v b * (w - v)| ≤ (w - v) ^ 2 := by
  obtain ⟨v1, v2, v3, _⟩ := comp_spec v b hb
  obtain ⟨w1, w2, w3, _⟩ := comp_spec w b hb
  have h1 := sq_le_sq.2 (w2 _ v1)
  have h2 := clampB_var b hb v _ w1
  rw [abs_le, v3, w3]
  set p := clampB v b
  set q := clampB w b
  constructor
  · nlinarith [sq_nonneg ((w - v) - (q - p)), sq_nonneg (w - v)]
  · nlinarith

theorem hasDerivAt_errB_sq (b : Lo ℝ × Hi ℝ) (hb : Valid b) (v : ℝ) :
    HasDerivAt (fun w => errB w b ^ 2) (2 * errB v b) v := by
  rw [hasDerivAt_iff_isLittleO]
  refine (Asymptotics.IsBigO.of_bound 1 (Filter.Eventually.of_forall fun w => ?_)).trans_isLittleO
    (Asymptotics.isLittleO_pow_sub_sub v (m := 2) (by norm_num))
  simp only [smul_eq_mul, Real.norm_eq_abs, one_mul, sq_abs, abs_pow]
  have := errB_sq_bound b hb v w
  rwa [mul_comm (w - v)]

/-- C36: the gradient of `SquaredCost` is the derivative of the cost, at every point and in every direction, whenever
the constraint's own Jacobian is. -/
theorem C36_squared_derivative (con : (Nat → ℝ) → CState ℝ) (w : List ℝ) (bounds : List (Lo ℝ × Hi ℝ)) (m n : Nat)
    (hb : ∀ x, (con x).bounds = bounds) (hvl : ∀ x, (con x).values.length = m) (hbl : bounds.length = m)
    (hwl : w.length = m) (hval : ∀ b ∈ bounds, Valid b) (x d : Nat → ℝ) (hr : (con x).jac.rows.length = m)
    (hn : (con x).jac.cols = n) (hc : ∀ row ∈ (con x).jac.rows, ∀ q ∈ row, q.1 < n)
    (hder : ∀ r, r < m → HasDerivAt (fun t : ℝ => (con (x + t • d)).values.getD r 0)
      (rowDot ((con x).jac.rows.getD r []) d) 0) :
    ∃ (g : List (Nat × ℝ)) (f : (Nat → ℝ) → ℝ), (Cost.new m w).squaredJac (con x) = some g ∧ (∀ q ∈ g, q.1 < n) ∧
      (∀ y, (Cost.new m w).squared (con y) = some (f y)) ∧
      HasDerivAt (fun t : ℝ => f (x + t • d)) (rowDot g d) 0 := by
  set es := calcBoundsErrors (con x).values (con x).bounds with hes
  have hel : es.length = m := by simp [hes, calcBoundsErrors, hvl, hb, hbl]
  set cs := List.zipWith (fun w e => 2 * w * e) (w.map fun w => |w|) es with hcs
  have hcl : cs.length = m := by simp [hcs, hel, hwl]
  obtain ⟨g1, g2⟩ := gradient_dot n cs (con x).jac.rows m hcl hr d hc
  refine ⟨nonZeros (colSums n (List.zipWith scaleRow cs (con x).jac.rows)), _, ?_, g2,
    fun y => squared_eq m w (con y) m (hvl y) (by rw [hb, hbl]) hwl, ?_⟩
  · unfold Cost.squaredJac Cost.new
    rw [if_pos (by rw [hvl, hb, hbl]), scaleRows_eq _ _ _ (by simp [hwl, hr]) (by rw [← hes, hel, hr]), hn]
    rfl
  · rw [g1]
    apply HasDerivAt.fun_sum
    intro i hi
    rw [Finset.mem_range] at hi
    simp only [hb]
    have hv := hval _ (getD_mem_of_lt bounds i (none, none) (by omega))
    have h0 : (con (x + (0 : ℝ) • d)) = con x := by simp
    have h1 := HasDerivAt.comp (h := fun t : ℝ => (con (x + t • d)).values.getD i 0) (0 : ℝ)
      (hasDerivAt_errB_sq (bounds.getD i (none, none)) hv ((con (x + (0 : ℝ) • d)).values.getD i 0)) (hder i hi)
    have h2 := h1.const_mul |w.getD i 0|
    have e1 : (fun t : ℝ => |w.getD i 0| * (errB ((con (x + t • d)).values.getD i 0) (bounds.getD i (none, none)) *
        errB ((con (x + t • d)).values.getD i 0) (bounds.getD i (none, none)))) =
        fun t : ℝ => |w.getD i 0| * ((fun v => errB v (bounds.getD i (none, none)) ^ 2) ∘
          fun t : ℝ => (con (x + t • d)).values.getD i 0) t := by
      funext t; simp [sq]
    rw [e1]
    refine h2.congr_deriv ?_
    rw [h0, hcs, getD_zipWith _ _ _ 0 0 0 i (by simp; omega) (by omega), getD_map_abs, hes, calcBoundsErrors,
      getD_zipWith errB _ _ 0 (none, none) 0 i (by rw [hvl]; omega) (by rw [hb]; omega), hb]
    ring

/-- Strictly between the bounds. -/
def StrictlyInside (v : K) (b : Lo K × Hi K) : Prop := (∀ l, b.1 = some l → l < v) ∧ ∀ u, b.2 = some u → v < u

theorem absCoeffs_eq (ws es : List K) (h : ws.length = es.length) :
    absCoeffs ws es = some (List.zipWith (fun w e => if |e| < 1 / 10 ^ 12 then 0 else if 0 < e then w else -w) ws es) := by
  induction es generalizing ws with
  | nil => simp [absCoeffs]
  | cons e es ih =>
    match ws with
    | [] => simp at h
    | w :: ws =>
      rw [absCoeffs, List.tail_cons, ih ws (by simpa using h)]
      have : absCoeff (w :: ws).head? e = some (if |e| < 1 / 10 ^ 12 then 0 else if 0 < e then w else -w) := by
        unfold absCoeff
        split_ifs <;> rfl
      rw [this]
      rfl

theorem hasDerivAt_violB (b : Lo ℝ × Hi ℝ) (hb : Valid b) (v : ℝ) (h : StrictlyInside v b ∨ errB v b ≠ 0) :
    HasDerivAt (fun w => violB w b) (if errB v b = 0 then 0 else if 0 < errB v b then 1 else -1) v := by
  rcases clampB_cases v b hb with ⟨l, hl, hlt, hc, he, _⟩ | ⟨u, hu, hlt, hc, he, _⟩ | ⟨hi, hc, he, _⟩
  · have e : errB v b < 0 := by rw [he]; linarith
    rw [if_neg e.ne, if_neg (not_lt.2 e.le)]
    have : (fun w => violB w b) =ᶠ[nhds v] fun w => l - w := by
      filter_upwards [gt_mem_nhds hlt] with w hw
      rcases clampB_cases w b hb with ⟨l', hl', _, _, _, h6⟩ | ⟨u, hu, hlt', _⟩ | ⟨hi, _⟩
      · rw [hl] at hl'; injection hl' with hl'; subst hl'
        rw [h6, abs_of_neg (by linarith)]; ring
      · exact absurd (hb l u hl hu) (by push Not; linarith)
      · exact absurd (hi.1 l hl) (by push Not; linarith)
    refine HasDerivAt.congr_of_eventuallyEq ?_ this
    simpa using (hasDerivAt_id v).const_sub l
  · have e : 0 < errB v b := by rw [he]; linarith
    rw [if_neg e.ne', if_pos e]
    have : (fun w => violB w b) =ᶠ[nhds v] fun w => w - u := by
      filter_upwards [lt_mem_nhds hlt] with w hw
      rcases clampB_cases w b hb with ⟨l, hl, hlt', _⟩ | ⟨u', hu', _, _, _, h6⟩ | ⟨hi, _⟩
      · exact absurd (hb l u hl hu) (by push Not; linarith)
      · rw [hu] at hu'; injection hu' with hu'; subst hu'
        rw [h6, abs_of_pos (by linarith)]
      · exact absurd (hi.2 u hu) (by push Not; linarith)
    refine HasDerivAt.congr_of_eventuallyEq ?_ this
    simpa using (hasDerivAt_id v).sub_const u
  · rw [if_pos he]
    rcases h with h | h
    swap
    · exact absurd he h
    have e1 : ∀ᶠ w in nhds v, ∀ l, b.1 = some l → l < w := by
      cases hl : b.1 with
      | none => exact Filter.Eventually.of_forall fun w l h => by simp at h
      | some l =>
        filter_upwards [lt_mem_nhds (h.1 l hl)] with w hw l' hl'
        injection hl' with hl'; subst hl'; exact hw
    have e2 : ∀ᶠ w in nhds v, ∀ u, b.2 = some u → w < u := by
      cases hu : b.2 with
      | none => exact Filter.Eventually.of_forall fun w l h => by simp at h
      | some u =>
        filter_upwards [gt_mem_nhds (h.2 u hu)] with w hw u' hu'
        injection hu' with hu'; subst hu'; exact hw
    have : (fun w => violB w b) =ᶠ[nhds v] fun w => 0 := by
      filter_upwards [e1, e2] with w h1 h2
      exact ((comp_spec w b hb).2.2.2.2.2.1).2 ⟨fun l hl => (h1 l hl).le, fun u hu => (h2 u hu).le⟩
    exact HasDerivAt.congr_of_eventuallyEq (hasDerivAt_const v 0) this

/-- C36, absolute cost: its gradient is the derivative of the cost wherever every row is strictly inside its bounds or
at least 1e-12 outside (in between the code returns a zero coefficient, see `C36_violated_near_zero`; exactly on a
bound the cost has no derivative in general). -/
theorem C36_absolute_derivative_partial (con : (Nat → ℝ) → CState ℝ) (w : List ℝ) (bounds : List (Lo ℝ × Hi ℝ))
    (m n : Nat) (hb : ∀ x, (con x).bounds = bounds) (hvl : ∀ x, (con x).values.length = m) (hbl : bounds.length = m)
    (hwl : w.length = m) (hval : ∀ b ∈ bounds, Valid b) (x d : Nat → ℝ) (hr : (con x).jac.rows.length = m)
    (hn : (con x).jac.cols = n) (hc : ∀ row ∈ (con x).jac.rows, ∀ q ∈ row, q.1 < n)
    (hder : ∀ r, r < m → HasDerivAt (fun t : ℝ => (con (x + t • d)).values.getD r 0)
      (rowDot ((con x).jac.rows.getD r []) d) 0)
    (hoff : ∀ r, r < m → StrictlyInside ((con x).values.getD r 0) (bounds.getD r (none, none)) ∨
      ∀ δ, IsDist ((con x).values.getD r 0) (bounds.getD r (none, none)) δ → 1 / 10 ^ 12 ≤ δ) :
    ∃ (g : List (Nat × ℝ)) (f : (Nat → ℝ) → ℝ), (Cost.new m w).absoluteJac (con x) = some g ∧ (∀ q ∈ g, q.1 < n) ∧
      (∀ y, (Cost.new m w).absolute (con y) = some (f y)) ∧
      HasDerivAt (fun t : ℝ => f (x + t • d)) (rowDot g d) 0 := by
  set es := calcBoundsErrors (con x).values (con x).bounds with hes
  have hel : es.length = m := by simp [hes, calcBoundsErrors, hvl, hb, hbl]
  set cs := List.zipWith (fun w e => if |e| < 1 / 10 ^ 12 then 0 else if 0 < e then w else -w) (w.map fun w => |w|) es
    with hcs
  have hcl : cs.length = m := by simp [hcs, hel, hwl]
  obtain ⟨g1, g2⟩ := gradient_dot n cs (con x).jac.rows m hcl hr d hc
  refine ⟨nonZeros (colSums n (List.zipWith scaleRow cs (con x).jac.rows)), _, ?_, g2,
    fun y => absolute_eq m w (con y) m (hvl y) (by rw [hb, hbl]) hwl, ?_⟩
  · unfold Cost.absoluteJac Cost.new
    rw [if_pos (by rw [hvl, hb, hbl]; exact ⟨rfl, rfl, hr⟩), ← hes, absCoeffs_eq _ _ (by simp [hwl, hel]), hn]
    rfl
  · rw [g1]
    apply HasDerivAt.fun_sum
    intro i hi
    rw [Finset.mem_range] at hi
    simp only [hb]
    have hv := hval _ (getD_mem_of_lt bounds i (none, none) (by omega))
    have h0 : (con (x + (0 : ℝ) • d)) = con x := by simp
    set v := (con x).values.getD i 0 with hvd
    set b := bounds.getD i (none, none) with hbd
    obtain ⟨c1, c2, c3, c4, c5, c6, _⟩ := comp_spec v b hv
    have hviol : violB v b = |errB v b| := by rw [c4, c3]
    have hoff' : StrictlyInside v b ∨ 1 / 10 ^ 12 ≤ |errB v b| := by
      rcases hoff i hi with h | h
      · exact Or.inl h
      · refine Or.inr (hviol ▸ h _ ⟨⟨_, c1, c4⟩, fun y hy => c4.trans_le (c2 y hy)⟩)
    have hpos : (0 : ℝ) < 1 / 10 ^ 12 := by positivity
    have hne : StrictlyInside v b ∨ errB v b ≠ 0 := by
      rcases hoff' with h | h
      · exact Or.inl h
      · right; intro e; rw [e, abs_zero] at h; linarith
    have h1 := HasDerivAt.comp (h := fun t : ℝ => (con (x + t • d)).values.getD i 0) (0 : ℝ)
      (h₂ := fun v => violB v b) (h₂' := if errB v b = 0 then 0 else if 0 < errB v b then 1 else -1)
      (by simp only [h0]; exact hasDerivAt_violB b hv v hne) (hder i hi)
    have h2 := h1.const_mul |w.getD i 0|
    refine h2.congr_deriv ?_
    have hin : StrictlyInside v b → errB v b = 0 := fun h =>
      c5.2 ⟨fun l hl => (h.1 l hl).le, fun u hu => (h.2 u hu).le⟩
    rw [hcs, getD_zipWith _ _ _ 0 0 0 i (by simp; omega) (by omega), getD_map_abs, hes, calcBoundsErrors,
      getD_zipWith errB _ _ 0 (none, none) 0 i (by rw [hvl]; omega) (by rw [hb]; omega), hb, ← hvd, ← hbd]
    by_cases he : errB v b = 0
    · simp [he]
    · have hge : ¬ |errB v b| < 1 / 10 ^ 12 := by
        rcases hoff' with h | h
        · exact absurd (hin h) he
        · exact not_lt.2 h
      rw [if_neg he, if_neg hge]
      split_ifs <;> ring

/-- C36 is violated by `AbsoluteCost` for rows less than 1e-12 outside their bounds: the gradient is reported as zero
although the cost `w * (x - u)` has derivative `w` there. -/
theorem C36_violated_near_zero (u w v : ℝ) (hw : 0 < w) (h1 : u < v) (h2 : v < u + 1 / 10 ^ 12) :
    ∃ con : ℝ → CState ℝ, (∀ t, (con t).values = [t]) ∧ (∀ t, (con t).jac = ⟨1, [[(0, 1)]]⟩) ∧
      (Cost.new 1 [w]).absoluteJac (con v) = some [] ∧
      ∃ f : ℝ → ℝ, (∀ t, (Cost.new 1 [w]).absolute (con t) = some (f t)) ∧ HasDerivAt f w v := by
  refine ⟨fun t => ⟨[t], [(none, some u)], ⟨1, [[(0, 1)]]⟩⟩, fun _ => rfl, fun _ => rfl, ?_,
    fun t => ∑ i ∈ Finset.range 1, |[w].getD i 0| * violB ([t].getD i 0) ([((none : Lo ℝ), (some u : Hi ℝ))].getD i (none, none)),
    fun t => absolute_eq 1 [w] _ 1 rfl rfl rfl, ?_⟩
  · have he : errB v (none, some u) = v - u := by simp [errB, h1]
    have hab : |v - u| < 1 / 10 ^ 12 := by rw [abs_of_pos (by linarith)]; linarith
    simp only [Cost.absoluteJac, Cost.new, calcBoundsErrors, List.zipWith_cons_cons, List.zipWith_nil_right, he]
    simp only [List.length_singleton, and_self, if_true, List.map_cons, List.map_nil, absCoeffs, absCoeff, hab]
    simp [scaleRow, colSums, nonZeros]
  · have h := hasDerivAt_violB ((none : Lo ℝ), (some u : Hi ℝ)) (by intro l u hl; simp at hl) v
      (Or.inr (by simp [errB, h1]; intro e; linarith))
    have he : errB v ((none : Lo ℝ), (some u : Hi ℝ)) = v - u := by simp [errB, h1]
    have h' := h.const_mul |w|
    rw [he, if_neg (by intro e; linarith), if_pos (by linarith), mul_one, abs_of_pos hw] at h'
    simpa [abs_of_pos hw] using h'

def demoState : CState ℚ :=
  ⟨[5, 1, -3], [(some 0, some 2), (none, none), (some (-1), none)], ⟨2, [[(0, 1)], [(1, 7)], [(0, 2), (1, 1)]]⟩⟩

/-- errors 3, 0, -2 with weights 1, 1, 2 -/
example : ((Cost.new 3 [1, 1, -2]).squared demoState, (Cost.new 3 [1, 1, -2]).absolute demoState) =
    (some (9 + 8), some (3 + 4)) := by decide +kernel
example : (Cost.new 3 [1, 1, -2]).squaredJac demoState = some [(0, 6 * 1 - 8 * 2), (1, -8)] := by decide +kernel
example : (Cost.new 3 [1, 1, -2]).absoluteJac demoState = some [(0, 1 - 4), (1, -2)] := by decide +kernel
example : ∀ b ∈ demoState.bounds, Valid b := by
  intro b hb
  simp only [demoState, List.mem_cons, List.not_mem_nil, or_false] at hb
  rcases hb with rfl | rfl | rfl <;> intro l u h1 h2 <;> simp at h1 h2
  subst h1; subst h2; norm_num
/-- the derivative theorems apply to a constraint with values x0 + 2 x1 and x1 -/
example (x d : Nat → ℝ) : ∀ r, r < 2 → HasDerivAt
    (fun t : ℝ => [(x + t • d) 0 + 2 * (x + t • d) 1, (x + t • d) 1].getD r 0)
    (rowDot ([[(0, (1 : ℝ)), (1, 2)], [(1, 1)]].getD r []) d) 0 := by
  have hl : ∀ k : Nat, HasDerivAt (fun s : ℝ => (x + s • d) k) (d k) 0 := by
    intro k
    simpa using ((hasDerivAt_id (0 : ℝ)).mul_const (d k)).const_add (x k)
  intro r hr
  interval_cases r
  · refine ((hl 0).fun_add ((hl 1).const_mul 2)).congr_deriv ?_
    simp [rowDot]
  · simpa [rowDot] using hl 1

end Verif.IfoptCosts
