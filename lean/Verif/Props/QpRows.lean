import Verif.Model.QpProblem
import Verif.Props.SqpExprs
import Verif.Props.Bounds

/-!
Rows and slack columns of the QP built by `TrajOptQPProblem::convexify` (used by C26-C29).
-/

set_option linter.unusedSectionVars false
set_option linter.unusedVariables false

namespace Verif.QpProblem

open Verif.Bounds Verif.Sco Verif.SqpExprs Finset

universe u
variable {K : Type u} [Field K] [LinearOrder K] [IsStrictOrderedRing K]

/-! ### Specification -/

/-- Specification: a weighted linear row with its bounds. -/
structure Row (K : Type u) where
  weight : K
  constant : K
  jac : List (Nat × K)
  bound : Bounds K

/-- Specification: how far a number is below a lower limit. -/
def below : Ext K → K → K
  | .fin l, a => max 0 (l - a)
  | _, _ => 0
/-- Specification: how far a number is above an upper limit. -/
def above : Ext K → K → K
  | .fin u, a => max 0 (a - u)
  | _, _ => 0
/-- Specification: distance to the interval between the bounds. -/
def gap (b : Bounds K) (a : K) : K := below b.lower a + above b.upper a

/-- Specification: a non-empty narrow interval or a half-line, classified as such. -/
def Proper (b : Bounds K) : Prop :=
  (∃ l u, b = ⟨.fin l, .fin u, .equality⟩ ∧ l ≤ u) ∨ (∃ l, b = ⟨.fin l, .posInf, .lowerBound⟩) ∨
    ∃ u, b = ⟨.negInf, .fin u, .upperBound⟩

/-- Specification: entries below `1e-7` are dropped. -/
def keep (j : List (Nat × K)) : List (Nat × K) := j.map fun q => (q.1, if |q.2| < 1 / 10 ^ 7 then 0 else q.2)

/-- Specification: weighted distance of all rows to their bounds at a point. -/
def penaltyOf (rows : List (Row K)) (x : Nat → K) : K :=
  (rows.map fun r => r.weight * gap r.bound (r.constant + dot (keep r.jac) x)).sum

/-- Specification: linear cost of consecutive variables. -/
def linCost (var : Nat) : List K → (Nat → K) → K
  | [], _ => 0
  | g :: gs, z => g * z var + linCost (var + 1) gs z

/-- Specification: the row of a triplet list times a vector. -/
def tripForm (ts : List (Nat × Nat × K)) (r : Nat) (z : Nat → K) : K :=
  (ts.map fun t => if t.1 = r then t.2.2 * z t.2.1 else 0).sum

theorem linCost_append (var : Nat) (a b : List K) (z : Nat → K) :
    linCost var (a ++ b) z = linCost var a z + linCost (var + a.length) b z := by
  induction a generalizing var with
  | nil => simp [linCost]
  | cons g a ih =>
    simp only [List.cons_append, linCost, ih, List.length_cons]
    rw [show var + 1 + a.length = var + (a.length + 1) by omega]; ring

theorem linCost_sum (var : Nat) (g : List K) (z : Nat → K) :
    linCost var g z = ∑ k ∈ range g.length, g.getD k 0 * z (var + k) := by
  induction g generalizing var with
  | nil => simp [linCost]
  | cons a g ih =>
    rw [linCost, ih, List.length_cons, sum_range_succ']
    simp only [List.getD_cons_zero, List.getD_cons_succ, Nat.add_zero]
    rw [add_comm]
    congr 1
    apply sum_congr rfl; intro k _
    rw [show var + 1 + k = var + (k + 1) by omega]

theorem tripForm_append (a b : List (Nat × Nat × K)) (r : Nat) (z : Nat → K) :
    tripForm (a ++ b) r z = tripForm a r z + tripForm b r z := by simp [tripForm]

theorem tripForm_zero (ts : List (Nat × Nat × K)) (r : Nat) (z : Nat → K) (h : ∀ t ∈ ts, t.1 ≠ r) :
    tripForm ts r z = 0 := by
  apply List.sum_eq_zero
  intro a ha
  obtain ⟨t, ht, rfl⟩ := List.mem_map.1 ha
  simp [h t ht]

theorem tripForm_sum (n : Nat) (ts : List (Nat × Nat × K)) (h : ∀ t ∈ ts, t.2.1 < n) (r : Nat) (z : Nat → K) :
    ∑ c ∈ range n, tsum ts r c * z c = tripForm ts r z := by
  induction ts with
  | nil => simp [tsum, tripForm]
  | cons t ts ih =>
    rw [row_tsum_cons n t ts (h t (by simp)), ih fun t' ht' => h t' (by simp [ht'])]
    simp [tripForm]

/-- The rows of the assembled matrix. -/
theorem rowForm_triplets (r c : Nat) (ts : List (Nat × Nat × K)) (h : ∀ t ∈ ts, t.1 < r ∧ t.2.1 < c) (M : SMat K)
    (hM : setFromTriplets r c ts = some M) : M.rows = r ∧ M.cols.length = c ∧
      (∀ i j, M.entry i j = tsum ts i j) ∧ ∀ i z, M.rowForm i z = tripForm ts i z := by
  obtain ⟨M', a1, a2, a3, a4, a5, a6⟩ := setFromTriplets_spec r c ts h
  rw [hM] at a1; injection a1 with a1; subst a1
  refine ⟨a3, a4, a5, fun i z => ?_⟩
  rw [SMat.rowForm, a4, ← tripForm_sum c ts (fun t ht => (h t ht).2)]
  simp only [a5]

/-! ### One row -/

theorem dot_congr (n : Nat) (j : List (Nat × K)) (h : ∀ q ∈ j, q.1 < n) (x y : Nat → K) (hxy : ∀ i < n, y i = x i) :
    dot j y = dot j x := by
  induction j with
  | nil => simp
  | cons q j ih => rw [dot_cons, dot_cons, ih fun p hp => h p (by simp [hp]), hxy _ (h q (by simp))]

theorem keep_lt (n : Nat) (j : List (Nat × K)) (h : ∀ q ∈ j, q.1 < n) : ∀ q ∈ keep j, q.1 < n := by
  intro q hq
  obtain ⟨p, hp, rfl⟩ := List.mem_map.1 hq
  exact h p hp

theorem tripForm_keep (row : Nat) (j : List (Nat × K)) (z : Nat → K) :
    tripForm (j.map fun q => (row, q.1, thr q.2)) row z = dot (keep j) z := by
  induction j with
  | nil => simp [tripForm, keep]
  | cons q j ih =>
    have e : keep (q :: j) = (q.1, if |q.2| < 1 / 10 ^ 7 then 0 else q.2) :: keep j := rfl
    rw [e, dot_cons, ← ih]
    simp [tripForm, thr]

/-- Shape of what a row contributes. -/
theorem rowOut_shape {w : K} {row var : Nat} {j : List (Nat × K)} {b : Bounds K} {k : K} {o : RowOut K}
    (h : rowOut w row var j b k = some o) (hj : ∀ q ∈ j, q.1 < var) :
    (∀ t ∈ o.trips, t.1 = row ∧ t.2.1 < var + o.grad.length) ∧ o.lower = addScalar b.lower (-k) ∧
      o.upper = addScalar b.upper (-k) := by
  have hm : ∀ t ∈ (j.map fun q => (row, q.1, thr q.2)), t.1 = row ∧ t.2.1 < var := by
    intro t ht
    obtain ⟨q, hq, rfl⟩ := List.mem_map.1 ht
    exact ⟨rfl, hj q hq⟩
  unfold rowOut at h
  cases hb : b.type <;> simp only [hb] at h <;> first | (simp at h; done) | skip
  all_goals
    injection h with h; subst h
    refine ⟨?_, rfl, rfl⟩
    intro t ht
    rcases List.mem_append.1 ht with ht | ht
    · obtain ⟨a, b⟩ := hm t ht; exact ⟨a, by simp; omega⟩
    · simp at ht
      try rcases ht with rfl | rfl
      all_goals first | (subst ht; simp) | simp

/-- The slack cost of a feasible row is at least its weighted distance. -/
theorem rowOut_lower {w : K} {row var : Nat} {j : List (Nat × K)} {b : Bounds K} {k : K} {o : RowOut K}
    (h : rowOut w row var j b k = some o) (hb : Proper b) (hw : 0 ≤ w) (z : Nat → K)
    (hz : ∀ i, var ≤ i → i < var + o.grad.length → 0 ≤ z i)
    (hin : Within (o.lower, o.upper) (tripForm o.trips row z)) :
    w * gap b (k + dot (keep j) z) ≤ linCost var o.grad z := by
  rcases hb with ⟨l, u, rfl, hlu⟩ | ⟨l, rfl⟩ | ⟨u, rfl⟩
  all_goals
    simp only [rowOut, Option.some.injEq] at h
    subst h
    simp only [Within, addScalar, tripForm_append, tripForm_keep] at hin
    simp only [tripForm, List.map_cons, List.map_nil, List.sum_cons, List.sum_nil, if_true] at hin
    simp only [linCost, gap, below, above]
  · have h1 := hz var (le_refl _) (by simp)
    have h2 := hz (var + 1) (by omega) (by simp)
    have : max 0 (l - (k + dot (keep j) z)) + max 0 (k + dot (keep j) z - u) ≤ z var + z (var + 1) := by
      rcases le_total 0 (l - (k + dot (keep j) z)) with a | a <;>
      rcases le_total 0 (k + dot (keep j) z - u) with b | b <;>
      simp only [max_eq_right, max_eq_left, a, b] <;> linarith [hin.1, hin.2]
    calc w * _ ≤ w * (z var + z (var + 1)) := mul_le_mul_of_nonneg_left this hw
      _ = _ := by ring
  · have h1 := hz var (le_refl _) (by simp)
    have : max 0 (l - (k + dot (keep j) z)) ≤ z var := max_le h1 (by linarith [hin.1])
    calc w * _ ≤ w * (z var) := mul_le_mul_of_nonneg_left (by simpa using this) hw
      _ = _ := by ring
  · have h1 := hz var (le_refl _) (by simp)
    have : max 0 ((k + dot (keep j) z) - u) ≤ z var := max_le h1 (by linarith [hin.2])
    calc w * _ ≤ w * (z var) := mul_le_mul_of_nonneg_left (by simpa using this) hw
      _ = _ := by ring

/-- Slack values exist with exactly the weighted distance as cost. -/
theorem rowOut_attain {w : K} {row var : Nat} {j : List (Nat × K)} {b : Bounds K} {k : K} {o : RowOut K}
    (h : rowOut w row var j b k = some o) (hb : Proper b) (hj : ∀ q ∈ j, q.1 < var) (x : Nat → K) :
    ∃ y : Nat → K, (∀ i < var, y i = x i) ∧ (∀ i, var ≤ i → i < var + o.grad.length → 0 ≤ y i) ∧
      ∀ z : Nat → K, (∀ i < var + o.grad.length, z i = y i) →
        Within (o.lower, o.upper) (tripForm o.trips row z) ∧
        linCost var o.grad z = w * gap b (k + dot (keep j) x) := by
  have hd : ∀ z : Nat → K, (∀ i < var, z i = x i) → dot (keep j) z = dot (keep j) x := fun z hz =>
    dot_congr var _ (keep_lt var j hj) x z hz
  rcases hb with ⟨l, u, rfl, hlu⟩ | ⟨l, rfl⟩ | ⟨u, rfl⟩
  all_goals
    simp only [rowOut, Option.some.injEq] at h
    subst h
    simp only [Within, addScalar, tripForm_append, tripForm_keep, gap, below, above]
    simp only [tripForm, List.map_cons, List.map_nil, List.sum_cons, List.sum_nil, if_true, linCost,
      List.length_cons, List.length_nil]
  · refine ⟨fun i => if i < var then x i else if i = var then max 0 (l - (k + dot (keep j) x)) else
      max 0 (k + dot (keep j) x - u), fun i hi => by simp [hi], fun i h1 h2 => ?_, fun z hz => ?_⟩
    · simp only [not_lt.2 h1, if_false]; split_ifs <;> exact le_max_left _ _
    · have e1 : z var = max 0 (l - (k + dot (keep j) x)) := by rw [hz var (by omega)]; simp
      have e2 : z (var + 1) = max 0 (k + dot (keep j) x - u) := by
        rw [hz (var + 1) (by omega)]; simp
      rw [hd z fun i hi => by rw [hz i (by omega)]; simp [hi], e1, e2]
      refine ⟨?_, by ring⟩
      rcases le_total 0 (l - (k + dot (keep j) x)) with a | a <;>
      rcases le_total 0 (k + dot (keep j) x - u) with b | b <;>
      simp only [max_eq_right, max_eq_left, a, b] <;> constructor <;> linarith
  · refine ⟨fun i => if i < var then x i else max 0 (l - (k + dot (keep j) x)), fun i hi => by simp [hi],
      fun i h1 h2 => ?_, fun z hz => ?_⟩
    · simp only [not_lt.2 h1, if_false]; exact le_max_left _ _
    · have e1 : z var = max 0 (l - (k + dot (keep j) x)) := by rw [hz var (by omega)]; simp
      rw [hd z fun i hi => by rw [hz i (by omega)]; simp [hi], e1]
      refine ⟨⟨?_, trivial⟩, by ring⟩
      linarith [le_max_right 0 (l - (k + dot (keep j) x))]
  · refine ⟨fun i => if i < var then x i else max 0 ((k + dot (keep j) x) - u), fun i hi => by simp [hi],
      fun i h1 h2 => ?_, fun z hz => ?_⟩
    · simp only [not_lt.2 h1, if_false]; exact le_max_left _ _
    · have e1 : z var = max 0 ((k + dot (keep j) x) - u) := by rw [hz var (by omega)]; simp
      rw [hd z fun i hi => by rw [hz i (by omega)]; simp [hi], e1]
      refine ⟨⟨trivial, ?_⟩, by ring⟩
      linarith [le_max_right 0 ((k + dot (keep j) x) - u)]

/-! ### All rows -/

/-- Consecutive rows with consecutive slack columns. -/
inductive Laid : Nat → Nat → List (Row K) → List (RowOut K) → Prop
  | nil (row var : Nat) : Laid row var [] []
  | cons {row var : Nat} {r : Row K} {o : RowOut K} {rs : List (Row K)} {os : List (RowOut K)} :
      rowOut r.weight row var r.jac r.bound r.constant = some o → Laid (row + 1) (var + o.grad.length) rs os →
      Laid row var (r :: rs) (o :: os)

theorem Laid.length {row var : Nat} {rs : List (Row K)} {os : List (RowOut K)} (h : Laid row var rs os) :
    os.length = rs.length := by
  induction h with
  | nil => rfl
  | cons _ _ ih => simp [ih]

theorem Laid.range {row var n : Nat} {rs : List (Row K)} {os : List (RowOut K)} (h : Laid row var rs os) (hn : n ≤ var)
    (hj : ∀ r ∈ rs, ∀ q ∈ r.jac, q.1 < n) :
    ∀ t ∈ os.flatMap (·.trips), row ≤ t.1 ∧ t.1 < row + rs.length ∧ t.2.1 < var + (os.flatMap (·.grad)).length := by
  induction h with
  | nil => simp
  | @cons row var r o rs os h1 h2 ih =>
    intro t ht
    simp only [List.flatMap_cons, List.length_append, List.length_cons] at ht ⊢
    rcases List.mem_append.1 ht with ht | ht
    · obtain ⟨a, b⟩ := (rowOut_shape h1 fun q hq => lt_of_lt_of_le (hj r (by simp) q hq) hn).1 t ht
      exact ⟨by omega, by omega, by omega⟩
    · obtain ⟨a, b, c⟩ := ih (by omega) (fun r' hr' => hj r' (by simp [hr'])) t ht
      exact ⟨by omega, by omega, by omega⟩

theorem Laid.append {row var : Nat} {rs rs' : List (Row K)} {os os' : List (RowOut K)} (h : Laid row var rs os)
    (h' : Laid (row + rs.length) (var + (os.flatMap (·.grad)).length) rs' os') :
    Laid row var (rs ++ rs') (os ++ os') := by
  induction h with
  | nil => simpa using h'
  | @cons row var r o rs os h1 h2 ih =>
    refine .cons h1 (ih ?_)
    simp only [List.flatMap_cons, List.length_append, List.length_cons] at h'
    rw [show row + 1 + rs.length = row + (rs.length + 1) by omega,
      show var + o.grad.length + (os.flatMap (·.grad)).length = var + (o.grad.length + (os.flatMap (·.grad)).length) by
        omega]
    exact h'

/-- All rows hold, counted from `row`. -/
def AllWithin (row : Nat) (ts : List (Nat × Nat × K)) (os : List (RowOut K)) (z : Nat → K) : Prop :=
  ∀ (k : Nat) o, os[k]? = some o → Within (o.lower, o.upper) (tripForm ts (row + k) z)

theorem allWithin_cons {row var n : Nat} {r : Row K} {o : RowOut K} {rs : List (Row K)} {os : List (RowOut K)}
    (h1 : rowOut r.weight row var r.jac r.bound r.constant = some o) (h2 : Laid (row + 1) (var + o.grad.length) rs os)
    (hn : n ≤ var) (hj : ∀ r' ∈ r :: rs, ∀ q ∈ r'.jac, q.1 < n) (z : Nat → K) :
    AllWithin row ((o :: os).flatMap (·.trips)) (o :: os) z ↔
      Within (o.lower, o.upper) (tripForm o.trips row z) ∧ AllWithin (row + 1) (os.flatMap (·.trips)) os z := by
  have hr := h2.range (n := n) (by omega) fun r' hr' => hj r' (by simp [hr'])
  have hs := (rowOut_shape h1 fun q hq => lt_of_lt_of_le (hj r (by simp) q hq) hn).1
  have e0 : tripForm ((o :: os).flatMap (·.trips)) row z = tripForm o.trips row z := by
    rw [List.flatMap_cons, tripForm_append, tripForm_zero (os.flatMap (·.trips)), add_zero]
    intro t ht; have := (hr t ht).1; omega
  have e1 : ∀ k, tripForm ((o :: os).flatMap (·.trips)) (row + (k + 1)) z =
      tripForm (os.flatMap (·.trips)) (row + 1 + k) z := by
    intro k
    rw [List.flatMap_cons, tripForm_append, tripForm_zero o.trips, zero_add, show row + (k + 1) = row + 1 + k by omega]
    intro t ht; have := (hs t ht).1; omega
  constructor
  · intro h
    refine ⟨by have := h 0 o rfl; rwa [Nat.add_zero, e0] at this, fun k o' hk => ?_⟩
    rw [← e1]; exact h (k + 1) o' (by simpa using hk)
  · rintro ⟨a, b⟩ k o' hk
    cases k with
    | zero => simp at hk; subst hk; rw [Nat.add_zero, e0]; exact a
    | succ k => rw [e1]; exact b k o' (by simpa using hk)

theorem Laid.lower {row var n : Nat} {rs : List (Row K)} {os : List (RowOut K)} (h : Laid row var rs os) (hn : n ≤ var)
    (hj : ∀ r ∈ rs, ∀ q ∈ r.jac, q.1 < n) (hb : ∀ r ∈ rs, Proper r.bound ∧ 0 ≤ r.weight) (z : Nat → K)
    (hz : ∀ i, var ≤ i → i < var + (os.flatMap (·.grad)).length → 0 ≤ z i)
    (hin : AllWithin row (os.flatMap (·.trips)) os z) : penaltyOf rs z ≤ linCost var (os.flatMap (·.grad)) z := by
  induction h with
  | nil => simp [penaltyOf, linCost]
  | @cons row var r o rs os h1 h2 ih =>
    rw [allWithin_cons h1 h2 hn hj] at hin
    simp only [List.flatMap_cons, List.length_append] at hz ⊢
    rw [linCost_append]
    have a := rowOut_lower h1 (hb r (by simp)).1 (hb r (by simp)).2 z (fun i h1 h2 => hz i h1 (by omega)) hin.1
    have b := ih (by omega) (fun r' hr' => hj r' (by simp [hr'])) (fun r' hr' => hb r' (by simp [hr']))
      (fun i h1 h2 => hz i (by omega) (by omega)) hin.2
    simp only [penaltyOf, List.map_cons, List.sum_cons] at b ⊢
    exact add_le_add a b

theorem penaltyOf_congr (n : Nat) (rs : List (Row K)) (hj : ∀ r ∈ rs, ∀ q ∈ r.jac, q.1 < n) (x y : Nat → K)
    (h : ∀ i < n, y i = x i) : penaltyOf rs y = penaltyOf rs x := by
  unfold penaltyOf
  congr 1
  apply List.map_congr_left
  intro r hr
  rw [dot_congr n _ (keep_lt n _ (hj r hr)) x y h]

theorem Laid.attain {row var n : Nat} {rs : List (Row K)} {os : List (RowOut K)} (h : Laid row var rs os) (hn : n ≤ var)
    (hj : ∀ r ∈ rs, ∀ q ∈ r.jac, q.1 < n) (hb : ∀ r ∈ rs, Proper r.bound) (x : Nat → K) :
    ∃ z : Nat → K, (∀ i < var, z i = x i) ∧ (∀ i, var ≤ i → i < var + (os.flatMap (·.grad)).length → 0 ≤ z i) ∧
      AllWithin row (os.flatMap (·.trips)) os z ∧ linCost var (os.flatMap (·.grad)) z = penaltyOf rs x := by
  induction h generalizing x with
  | nil => exact ⟨x, fun _ _ => rfl, by simp; omega, by simp [AllWithin], by simp [linCost, penaltyOf]⟩
  | @cons row var r o rs os h1 h2 ih =>
    obtain ⟨y, y1, y2, y3⟩ := rowOut_attain h1 (hb r (by simp))
      (fun q hq => lt_of_lt_of_le (hj r (by simp) q hq) hn) x
    obtain ⟨z, z1, z2, z3, z4⟩ := ih (by omega) (fun r' hr' => hj r' (by simp [hr'])) (fun r' hr' => hb r' (by simp [hr'])) y
    obtain ⟨w1, w2⟩ := y3 z z1
    refine ⟨z, fun i hi => by rw [z1 i (by omega), y1 i hi], fun i i1 i2 => ?_, ?_, ?_⟩
    · simp only [List.flatMap_cons, List.length_append] at i2
      by_cases hi : i < var + o.grad.length
      · rw [z1 i hi]; exact y2 i i1 hi
      · exact z2 i (by omega) (by omega)
    · rw [allWithin_cons h1 h2 hn hj]; exact ⟨w1, z3⟩
    · rw [List.flatMap_cons, linCost_append, w2, z4,
        penaltyOf_congr n rs (fun r' hr' => hj r' (by simp [hr'])) x y fun i hi => y1 i (by omega)]
      simp [penaltyOf]

end Verif.QpProblem
