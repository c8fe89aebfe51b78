import Verif.Model.Interp
import Mathlib.Tactic.Linarith
import Mathlib.Tactic.Ring
import Mathlib.Tactic.FieldSimp
import Mathlib.Tactic.NormNum
import Mathlib.Data.List.Forall2
import Mathlib.Data.Rat.Cast.Order
import Mathlib.Algebra.Order.Field.Rat

set_option linter.unusedSectionVars false
set_option linter.unusedVariables false

/-!
# C51: piecewise linear interpolation
-/

namespace Verif.Interp

variable {K : Type} [Field K] [LinearOrder K] [IsStrictOrderedRing K]

/-- Knots are strictly increasing. -/
def Increasing (x : Nat → K) (n : Nat) : Prop := ∀ i j, i < j → j < n → x i < x j

/-- Specification: `v` is the value at `p` of the polygon through the knots, constant outside of them. -/
def OnPolygon {J : Type} (x : Nat → K) (n : Nat) (y : Nat → J → K) (p : K) (v : J → K) : Prop :=
  (p ≤ x 0 ∧ v = y 0) ∨ (x (n - 1) ≤ p ∧ v = y (n - 1)) ∨
  ∃ k, k + 1 < n ∧ x k ≤ p ∧ p ≤ x (k + 1) ∧
    ∀ j, (v j - y k j) * (x (k + 1) - x k) = (y (k + 1) j - y k j) * (p - x k)

/-- The position found is the first knot not below `x`. -/
def IsFirst (y : Nat → K) (n : Nat) (x : K) (k : Nat) : Prop := k ≤ n ∧ (∀ i, i < k → y i < x) ∧ (k < n → x ≤ y k)

theorem advance_spec (y : Nat → K) (x : K) (m : Nat) : ∀ i, (∀ j, j < i → y j < x) →
    IsFirst y (i + m) x (advance y x m i) := by
  induction m with
  | zero => intro i h; exact ⟨le_rfl, h, fun hc => by simp [advance] at hc⟩
  | succ m ih =>
    intro i h
    unfold advance
    split
    · rename_i hx
      have := ih (i + 1) (fun j hj => by
        rcases Nat.lt_succ_iff_lt_or_eq.1 hj with h' | rfl
        · exact h j h'
        · exact hx)
      rwa [show i + 1 + m = i + (m + 1) by omega] at this
    · rename_i hx
      exact ⟨by omega, h, fun _ => not_lt.1 hx⟩

theorem searchLoop_spec (y : Nat → K) (n : Nat) (xs : List K) : ∀ i, i ≤ n → xs.Pairwise (· ≤ ·) →
    (∀ x ∈ xs, ∀ j, j < i → y j < x) → List.Forall₂ (IsFirst y n) xs (searchLoop y n xs i) := by
  induction xs with
  | nil => intro i _ _ _; exact List.Forall₂.nil
  | cons x xs ih =>
    intro i hi hs hb
    have h := advance_spec y x (n - i) i (hb x (by simp))
    rw [show i + (n - i) = n by omega] at h
    refine List.Forall₂.cons h (ih _ h.1 (List.pairwise_cons.1 hs).2 fun x' hx' j hj => ?_)
    exact lt_of_lt_of_le (h.2.1 j hj) ((List.pairwise_cons.1 hs).1 x' hx')

/-- `searchsorted` returns, for every new point, the index of the first knot not below it. -/
theorem C51_searchsorted (y : Nat → K) (n : Nat) (xs : List K) (hs : xs.Pairwise (· ≤ ·)) :
    List.Forall₂ (fun x k => k ≤ n ∧ (∀ i, i < k → y i < x) ∧ (k < n → x ≤ y k)) xs (searchsorted xs y n) :=
  searchLoop_spec y n xs 0 (by omega) hs (by simp)

theorem interpRow_spec {J : Type} (x : Nat → K) (n : Nat) (hn : 0 < n) (hx : Increasing x n) (y : Nat → J → K) (p : K)
    (k : Nat) (h : IsFirst x n p k) : ∃ v, interpRow p x n y k = some v ∧ OnPolygon x n y p v := by
  obtain ⟨h1, h2, h3⟩ := h
  unfold interpRow
  by_cases hk : k = 0
  · subst hk
    refine ⟨y 0, by simp [show n ≠ 0 by omega], Or.inl ⟨h3 hn, rfl⟩⟩
  · by_cases hkn : k = n
    · refine ⟨y (n - 1), by simp [hk, hkn, show n ≠ 0 by omega], Or.inr (Or.inl ⟨(h2 (n - 1) (by omega)).le, rfl⟩)⟩
    · obtain ⟨m, rfl⟩ : ∃ m, k = m + 1 := ⟨k - 1, by omega⟩
      refine ⟨_, by rw [if_neg hk, if_neg hkn], Or.inr (Or.inr ⟨m, by omega, (h2 m (by omega)).le, h3 (by omega), fun j => ?_⟩)⟩
      have hne : x (m + 1) - x m ≠ 0 := sub_ne_zero.2 (hx m (m + 1) (by omega) (by omega)).ne'
      simp only [Nat.add_sub_cancel]
      field_simp
      ring

theorem forall₂_zip_mapM {α β γ : Type} (f : α → β → Option γ) (R : α → γ → Prop) (P : α → β → Prop)
    (h : ∀ a b, P a b → ∃ c, f a b = some c ∧ R a c) :
    ∀ (l : List α) (m : List β), List.Forall₂ P l m →
      ∃ o, (l.zip m).mapM (fun p => f p.1 p.2) = some o ∧ List.Forall₂ R l o := by
  intro l m hp
  induction hp with
  | nil => exact ⟨[], rfl, List.Forall₂.nil⟩
  | cons hab _ ih =>
    obtain ⟨c, hc, hr⟩ := h _ _ hab
    obtain ⟨o, ho, hro⟩ := ih
    refine ⟨c :: o, ?_, List.Forall₂.cons hr hro⟩
    rw [List.zip_cons_cons, List.mapM_cons]
    simp [hc, ho]

/-- C51: with strictly increasing knots and non-decreasing new points, `interp2d` returns one row per new point and
every row lies on the polygon through the old rows. -/
theorem C51_polygon {J : Type} (xNew : List K) (xOld : Nat → K) (nOld : Nat) (yOld : Nat → J → K) (hn : 0 < nOld)
    (hx : Increasing xOld nOld) (hs : xNew.Pairwise (· ≤ ·)) :
    ∃ rows, interp2d xNew xOld nOld yOld = some rows ∧ List.Forall₂ (OnPolygon xOld nOld yOld) xNew rows :=
  forall₂_zip_mapM (fun p k => interpRow p xOld nOld yOld k) _ (IsFirst xOld nOld)
    (fun p k h => interpRow_spec xOld nOld hn hx yOld p k h) _ _ (C51_searchsorted xOld nOld xNew hs)

theorem le_of_inc (x : Nat → K) (n : Nat) (hx : Increasing x n) {i j : Nat} (h : x i ≤ x j) (hi : i < n) (hj : j < n) : i ≤ j := by
  by_contra hc
  exact absurd (hx j i (by omega) hi) (not_lt.2 h)

/-- The polygon passes through the knots: at `xOld k` the only possible value is `yOld k`. -/
theorem C51_knot {J : Type} (x : Nat → K) (n : Nat) (hx : Increasing x n) (y : Nat → J → K) (k : Nat)
    (hk : k < n) (v : J → K) (h : OnPolygon x n y (x k) v) : v = y k := by
  rcases h with ⟨h, rfl⟩ | ⟨h, rfl⟩ | ⟨m, hm, h1, h2, h3⟩
  · have := le_of_inc x n hx h hk (by omega)
    obtain rfl : k = 0 := by omega
    rfl
  · have := le_of_inc x n hx h (by omega) hk
    obtain rfl : k = n - 1 := by omega
    rfl
  · have a1 := le_of_inc x n hx h1 (by omega) hk
    have a2 := le_of_inc x n hx h2 hk hm
    have hne : x (m + 1) - x m ≠ 0 := sub_ne_zero.2 (hx m (m + 1) (by omega) hm).ne'
    funext j
    have h3 := h3 j
    rcases (show k = m ∨ k = m + 1 by omega) with rfl | rfl
    · rw [sub_self, mul_zero] at h3
      exact sub_eq_zero.1 ((mul_eq_zero.1 h3).resolve_right hne)
    · have : (v j - y m j) = (y (m + 1) j - y m j) := mul_right_cancel₀ hne h3
      linarith

/-- The polygon stays within the range of the neighbouring rows. -/
theorem C51_range {J : Type} (x : Nat → K) (n : Nat) (hn : 0 < n) (hx : Increasing x n) (y : Nat → J → K) (p : K) (v : J → K)
    (h : OnPolygon x n y p v) :
    ∃ k l, k < n ∧ l < n ∧ (l = k ∨ l = k + 1) ∧ (l = k + 1 → x k ≤ p ∧ p ≤ x l) ∧
      ∀ j, min (y k j) (y l j) ≤ v j ∧ v j ≤ max (y k j) (y l j) := by
  rcases h with ⟨h, rfl⟩ | ⟨h, rfl⟩ | ⟨m, hm, h1, h2, h3⟩
  · exact ⟨0, 0, hn, hn, Or.inl rfl, by simp, by simp⟩
  · exact ⟨n - 1, n - 1, by omega, by omega, Or.inl rfl, by simp, by simp⟩
  · refine ⟨m, m + 1, by omega, hm, Or.inr rfl, fun _ => ⟨h1, h2⟩, fun j => ?_⟩
    have hd : 0 < x (m + 1) - x m := sub_pos.2 (hx m (m + 1) (by omega) hm)
    have h3 := h3 j
    rcases le_total (y m j) (y (m + 1) j) with hy | hy
    · rw [min_eq_left hy, max_eq_right hy]
      constructor
      · by_contra hc
        push Not at hc
        nlinarith [mul_nonneg (sub_nonneg.2 hy) (sub_nonneg.2 h1), mul_pos (sub_pos.2 hc) hd]
      · by_contra hc
        push Not at hc
        nlinarith [mul_nonneg (sub_nonneg.2 hy) (sub_nonneg.2 h2), mul_pos (sub_pos.2 hc) hd]
    · rw [min_eq_right hy, max_eq_left hy]
      constructor
      · by_contra hc
        push Not at hc
        nlinarith [mul_nonneg (sub_nonneg.2 hy) (sub_nonneg.2 h2), mul_pos (sub_pos.2 hc) hd]
      · by_contra hc
        push Not at hc
        nlinarith [mul_nonneg (sub_nonneg.2 hy) (sub_nonneg.2 h1), mul_pos (sub_pos.2 hc) hd]

/-- The polygon determines the value, so `C51_polygon` pins the result down completely. -/
theorem C51_unique {J : Type} (x : Nat → K) (n : Nat) (hn : 0 < n) (hx : Increasing x n) (y : Nat → J → K) (p : K) (v w : J → K)
    (hv : OnPolygon x n y p v) (hw : OnPolygon x n y p w) : v = w := by
  -- a point that is a knot is settled by C51_knot
  have knot : ∀ k, k < n → p = x k → v = w := by
    rintro k hk rfl
    rw [C51_knot x n hx y k hk v hv, C51_knot x n hx y k hk w hw]
  have mono : ∀ i j, i ≤ j → j < n → x i ≤ x j := fun i j hij hj => by
    rcases Nat.eq_or_lt_of_le hij with rfl | h
    · exact le_rfl
    · exact (hx i j h hj).le
  rcases hv with ⟨a, rfl⟩ | ⟨a, rfl⟩ | ⟨m, hm, a1, a2, a3⟩ <;> rcases hw with ⟨b, rfl⟩ | ⟨b, rfl⟩ | ⟨k, hk, b1, b2, b3⟩
  · rfl
  · exact knot 0 hn (le_antisymm a ((mono 0 (n - 1) (by omega) (by omega)).trans b))
  · exact knot 0 hn (le_antisymm a ((mono 0 k (by omega) (by omega)).trans b1))
  · exact knot 0 hn (le_antisymm b ((mono 0 (n - 1) (by omega) (by omega)).trans a))
  · rfl
  · exact knot (n - 1) (by omega) (le_antisymm (b2.trans (mono (k + 1) (n - 1) (by omega) (by omega))) a)
  · exact knot 0 hn (le_antisymm b ((mono 0 m (by omega) (by omega)).trans a1))
  · exact knot (n - 1) (by omega) (le_antisymm (a2.trans (mono (m + 1) (n - 1) (by omega) (by omega))) b)
  · rcases lt_trichotomy m k with h | rfl | h
    · exact knot (m + 1) hm (le_antisymm a2 ((mono (m + 1) k (by omega) (by omega)).trans b1))
    · have hne : x (m + 1) - x m ≠ 0 := sub_ne_zero.2 (hx m (m + 1) (by omega) hm).ne'
      funext j
      have := mul_right_cancel₀ hne ((a3 j).trans (b3 j).symm)
      linarith
    · exact knot (k + 1) hk (le_antisymm b2 ((mono (k + 1) m (by omega) (by omega)).trans a1))

/-- Sorted new points are needed: on decreasing points the running index is never reset and the second point gets the
value of the last knot although it is below the first one. -/
theorem C51_unsorted_wrong : ∃ v, interp2d [(5 : ℚ), 0] (fun i => (i : ℚ)) 3 (fun i (_ : Unit) => (i : ℚ)) = some v ∧
    v.map (fun r => r ()) = [2, 2] := by
  refine ⟨_, rfl, ?_⟩
  decide +kernel

/-- non-vacuity: three knots, points before, on, between and after them. -/
example : (interp2d [(-1 : ℚ), 0, 1/2, 3/2, 2, 7] (fun i => (i : ℚ)) 3 (fun i (_ : Unit) => (i : ℚ) ^ 2)).map
    (fun v => v.map fun r => r ()) = some [0, 0, 1/2, 5/2, 4, 4] := by
  decide +kernel

example : Increasing (fun i => (i : ℚ)) 3 := fun i j h _ => by
  show (i : ℚ) < (j : ℚ)
  exact_mod_cast h

end Verif.Interp
