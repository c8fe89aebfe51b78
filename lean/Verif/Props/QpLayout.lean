import Verif.Props.QpProblem

/-!
The rows, trust box and slack columns of a QP, independently of the problem class that built it: what its feasible points
are.  Used for `IfoptQPProblem`.
-/

set_option linter.unusedSectionVars false
set_option linter.unusedVariables false

namespace Verif.QpProblem

open Verif.Bounds Verif.Sco Verif.SqpExprs Finset

universe u
variable {K : Type u} [Field K] [LinearOrder K] [IsStrictOrderedRing K]

/-- Specification: a point satisfies the rows of a QP. -/
def RowsHold (M : SMat K) (lower upper : List (Ext K)) (z : Nat → K) : Prop :=
  ∀ r < M.rows, ∃ l u, lower[r]? = some l ∧ upper[r]? = some u ∧ Within (l, u) (M.rowForm r z)

/-- `m` rows over `n` variables with their slacks, the box of the variables and the bounds of the slacks. -/
structure Layout (n m : Nat) (M : SMat K) (lower upper : List (Ext K)) (rows : List (Row K)) (outs : List (RowOut K))
    (iv : List (K × K)) : Prop where
  laid : Laid 0 n rows outs
  rowsLen : rows.length = m
  jac : ∀ r ∈ rows, ∀ q ∈ r.jac, q.1 < n
  lower : lower = outs.map (·.lower) ++ iv.map (fun i => .fin i.1) ++
    List.replicate (outs.flatMap (·.grad)).length (.fin 0)
  upper : upper = outs.map (·.upper) ++ iv.map (fun i => .fin i.2) ++
    List.replicate (outs.flatMap (·.grad)).length .posInf
  ivLen : iv.length = n
  matrixRows : M.rows = m + (n + (outs.flatMap (·.grad)).length)
  matrixCols : M.cols.length = n + (outs.flatMap (·.grad)).length
  matrix : ∀ r z, M.rowForm r z = tripForm (outs.flatMap (·.trips)) r z +
    if m ≤ r ∧ r < m + (n + (outs.flatMap (·.grad)).length) then z (r - m) else 0

theorem Layout.feasible_iff {n m : Nat} {M : SMat K} {lower upper : List (Ext K)} {rows : List (Row K)}
    {outs : List (RowOut K)} {iv : List (K × K)} (h : Layout n m M lower upper rows outs iv) (z : Nat → K) :
    RowsHold M lower upper z ↔ AllWithin 0 (outs.flatMap (·.trips)) outs z ∧
      (∀ (i : Nat) lo hi, iv[i]? = some (lo, hi) → lo ≤ z i ∧ z i ≤ hi) ∧
      ∀ i, n ≤ i → i < n + (outs.flatMap (·.grad)).length → 0 ≤ z i := by
  have hol : outs.length = m := by rw [h.laid.length, h.rowsLen]
  have hz : ∀ r, m ≤ r → tripForm (outs.flatMap (·.trips)) r z = 0 := by
    intro r hr
    apply tripForm_zero
    intro t ht
    have := (h.laid.range (n := n) (le_refl _) h.jac t ht).2.1
    rw [h.rowsLen] at this
    omega
  have f1 : ∀ r, r < m → M.rowForm r z = tripForm (outs.flatMap (·.trips)) r z := by
    intro r hr; rw [h.matrix, if_neg (by omega), add_zero]
  have f2 : ∀ i, i < n + (outs.flatMap (·.grad)).length → M.rowForm (m + i) z = z i := by
    intro i hi
    rw [h.matrix, hz _ (by omega), if_pos (by omega), zero_add, Nat.add_sub_cancel_left]
  have l1 : ∀ k, k < m → lower[k]? = (outs[k]?).map (·.lower) ∧ upper[k]? = (outs[k]?).map (·.upper) := by
    intro k hk
    rw [h.lower, h.upper, List.append_assoc, List.append_assoc, List.getElem?_append_left (by simp [hol, hk]),
      List.getElem?_append_left (by simp [hol, hk]), List.getElem?_map, List.getElem?_map]
    exact ⟨rfl, rfl⟩
  have l2 : ∀ i, i < n → lower[m + i]? = (iv[i]?).map (fun p => Ext.fin p.1) ∧
      upper[m + i]? = (iv[i]?).map (fun p => Ext.fin p.2) := by
    intro i hi
    have e1 : lower[m + i]? = (iv[i]?).map (fun p => Ext.fin p.1) := by
      rw [h.lower, List.getElem?_append_left (by simp [hol, h.ivLen, hi]), List.getElem?_append_right (by simp [hol]),
        List.length_map, hol, Nat.add_sub_cancel_left, List.getElem?_map]
    have e2 : upper[m + i]? = (iv[i]?).map (fun p => Ext.fin p.2) := by
      rw [h.upper, List.getElem?_append_left (by simp [hol, h.ivLen, hi]), List.getElem?_append_right (by simp [hol]),
        List.length_map, hol, Nat.add_sub_cancel_left, List.getElem?_map]
    exact ⟨e1, e2⟩
  have l3 : ∀ i, n ≤ i → i < n + (outs.flatMap (·.grad)).length →
      lower[m + i]? = some (.fin 0) ∧ upper[m + i]? = some .posInf := by
    intro i hi hi2
    rw [h.lower, h.upper, List.getElem?_append_right (by simp [hol, h.ivLen, hi]),
      List.getElem?_append_right (by simp [hol, h.ivLen, hi]), List.getElem?_replicate, List.getElem?_replicate]
    have : m + i - (outs.map (·.lower) ++ iv.map fun p => Ext.fin p.1).length <
        (outs.flatMap (·.grad)).length := by simp only [List.length_append, List.length_map, hol, h.ivLen]; omega
    have h2 : m + i - (outs.map (·.upper) ++ iv.map fun p => Ext.fin p.2).length <
        (outs.flatMap (·.grad)).length := by simp only [List.length_append, List.length_map, hol, h.ivLen]; omega
    rw [if_pos this, if_pos h2]; exact ⟨rfl, rfl⟩
  constructor
  · intro hf
    refine ⟨?_, ?_, ?_⟩
    · intro k o ho
      have hk : k < m := by rw [← hol]; exact (List.getElem?_eq_some_iff.1 ho).1
      obtain ⟨l, u, a, b, c⟩ := hf k (by rw [h.matrixRows]; omega)
      rw [(l1 k hk).1, ho] at a
      rw [(l1 k hk).2, ho] at b
      rw [f1 k hk, ← Option.some.inj a, ← Option.some.inj b] at c
      rw [Nat.zero_add]; exact c
    · intro i lo hi hi'
      have hk : i < n := by rw [← h.ivLen]; exact (List.getElem?_eq_some_iff.1 hi').1
      obtain ⟨l, u, a, b, c⟩ := hf (m + i) (by rw [h.matrixRows]; omega)
      rw [(l2 i hk).1, hi'] at a
      rw [(l2 i hk).2, hi'] at b
      rw [f2 i (by omega), ← Option.some.inj a, ← Option.some.inj b] at c
      exact c
    · intro i hi hi2
      obtain ⟨l, u, a, b, c⟩ := hf (m + i) (by rw [h.matrixRows]; omega)
      rw [(l3 i hi hi2).1] at a
      rw [f2 i (by omega), ← Option.some.inj a] at c
      exact c.1
  · rintro ⟨g1, g2, g3⟩ r hr
    rw [h.matrixRows] at hr
    by_cases c1 : r < m
    · have ho := List.getElem?_eq_getElem (l := outs) (i := r) (by rw [hol]; exact c1)
      refine ⟨_, _, (l1 r c1).1.trans (by rw [ho]; rfl), (l1 r c1).2.trans (by rw [ho]; rfl), ?_⟩
      rw [f1 r c1]
      have := g1 r _ ho
      rw [Nat.zero_add] at this; exact this
    · obtain ⟨i, rfl⟩ : ∃ i, r = m + i := ⟨r - (m), by omega⟩
      rw [f2 i (by omega)]
      by_cases c2 : i < n
      · have ho := List.getElem?_eq_getElem (l := iv) (i := i) (by rw [h.ivLen]; exact c2)
        refine ⟨_, _, (l2 i c2).1.trans (by rw [ho]; rfl), (l2 i c2).2.trans (by rw [ho]; rfl), ?_⟩
        exact g2 i _ _ ho
      · obtain ⟨e1, e2⟩ := l3 i (by omega) (by omega)
        exact ⟨_, _, e1, e2, g3 i (by omega) (by omega), trivial⟩

theorem Layout.lower_bound {n m : Nat} {M : SMat K} {lower upper : List (Ext K)} {rows : List (Row K)}
    {outs : List (RowOut K)} {iv : List (K × K)} (h : Layout n m M lower upper rows outs iv)
    (hp : ∀ r ∈ rows, Proper r.bound ∧ 0 ≤ r.weight) (z : Nat → K) (hz : RowsHold M lower upper z) :
    (∀ (i : Nat) lo hi, iv[i]? = some (lo, hi) → lo ≤ z i ∧ z i ≤ hi) ∧
      penaltyOf rows z ≤ linCost n (outs.flatMap (·.grad)) z := by
  obtain ⟨a1, a2, a3⟩ := (h.feasible_iff z).1 hz
  exact ⟨a2, h.laid.lower (le_refl _) h.jac hp z a3 a1⟩

theorem Layout.attain {n m : Nat} {M : SMat K} {lower upper : List (Ext K)} {rows : List (Row K)}
    {outs : List (RowOut K)} {iv : List (K × K)} (h : Layout n m M lower upper rows outs iv)
    (hp : ∀ r ∈ rows, Proper r.bound) (x : Nat → K)
    (hx : ∀ (i : Nat) lo hi, iv[i]? = some (lo, hi) → lo ≤ x i ∧ x i ≤ hi) :
    ∃ z, (∀ i < n, z i = x i) ∧ RowsHold M lower upper z ∧ linCost n (outs.flatMap (·.grad)) z = penaltyOf rows x := by
  obtain ⟨z, z1, z2, z3, z4⟩ := h.laid.attain (le_refl _) h.jac hp x
  refine ⟨z, z1, (h.feasible_iff z).2 ⟨z3, ?_, z2⟩, z4⟩
  intro i lo hi hi'
  have hlt : i < n := by rw [← h.ivLen]; exact (List.getElem?_eq_some_iff.1 hi').1
  rw [z1 i hlt]
  exact hx i lo hi hi'

/-- The part of a row in the variables of the problem. -/
theorem Layout.varPart {n m : Nat} {M : SMat K} {lower upper : List (Ext K)} {rows : List (Row K)}
    {outs : List (RowOut K)} {iv : List (K × K)} (h : Layout n m M lower upper rows outs iv) (k : Nat) (r : Row K)
    (hk : rows[k]? = some r) (x : Nat → K) : ∑ c ∈ range n, M.entry k c * x c = dot (keep r.jac) x := by
  have hlt : k < m := by rw [← h.rowsLen]; exact (List.getElem?_eq_some_iff.1 hk).1
  have hjr : ∀ q ∈ r.jac, q.1 < n := h.jac r (List.mem_of_getElem? hk)
  set z : Nat → K := fun i => if i < n then x i else 0 with hz
  have e1 : ∑ c ∈ range n, M.entry k c * x c = M.rowForm k z := by
    rw [SMat.rowForm, h.matrixCols, sum_range_add]
    have : ∀ c ∈ range (outs.flatMap (·.grad)).length, M.entry k (n + c) * z (n + c) = 0 :=
      fun c _ => by simp [hz]
    rw [sum_eq_zero this, add_zero]
    refine sum_congr rfl fun c hc => ?_
    simp [hz, mem_range.1 hc]
  rw [e1, h.matrix, if_neg (by omega), add_zero]
  have := h.laid.rowValue (le_refl _) h.jac z (fun i hi => by simp [hz]; omega) k r hk
  rw [Nat.zero_add] at this
  rw [this]
  exact dot_congr n _ (keep_lt _ _ hjr) _ _ fun i hi => by simp [hz, hi]

/-- Rows with proper bounds can be laid out. -/
theorem laid_exists (rows : List (Row K)) (row var : Nat) (h : ∀ r ∈ rows, Proper r.bound) :
    ∃ outs, Laid row var rows outs := by
  induction rows generalizing row var with
  | nil => exact ⟨[], .nil _ _⟩
  | cons r rows ih =>
    obtain ⟨o, ho⟩ := rowOut_ok r.weight row var r.jac r.bound r.constant (h r (by simp))
    obtain ⟨outs, h2⟩ := ih (row + 1) (var + o.grad.length) fun r' hr' => h r' (by simp [hr'])
    exact ⟨o :: outs, .cons ho h2⟩

theorem Laid.rowBounds {row var n : Nat} {rs : List (Row K)} {os : List (RowOut K)} (h : Laid row var rs os) (hn : n ≤ var)
    (hj : ∀ r ∈ rs, ∀ q ∈ r.jac, q.1 < n) :
    os.map (·.lower) = rs.map (fun r => addScalar r.bound.lower (-r.constant)) ∧
      os.map (·.upper) = rs.map (fun r => addScalar r.bound.upper (-r.constant)) := by
  induction h with
  | nil => exact ⟨rfl, rfl⟩
  | @cons row var r o rs os h1 h2 ih =>
    obtain ⟨a, b⟩ := ih (by omega) fun r' hr' => hj r' (by simp [hr'])
    obtain ⟨-, c, d⟩ := rowOut_shape h1 fun q hq => lt_of_lt_of_le (hj r (by simp) q hq) hn
    simp [a, b, c, d]

end Verif.QpProblem
