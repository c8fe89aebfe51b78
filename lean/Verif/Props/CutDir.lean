import Verif.Props.TetAxes
import Verif.Model.CutDir
import Mathlib.Data.Rat.Floor

set_option linter.unusedSectionVars false
set_option linter.unusedVariables false

/-!
# C178: the preferred cutting direction

Specification: the three axes `unit k`; how far the spreads along the two other axes are apart, `gap`; the spread of points
along a direction, about their mean.
-/

namespace Verif.CutDir

open Verif.Voxel (V3 short)
open Verif.Decompose (VSet)
open Verif.MeshVol (plus)
open Verif.Diag
open Verif.TetAxes (coord IsMean cov_foldl foldl_plus)

variable {K : Type} [Field K] [LinearOrder K] [IsStrictOrderedRing K] [FloorRing K]

/-! ### Specification -/

/-- The unit vectors of the three axes. -/
def unit : Fin 3 → V3 K
  | 0 => ⟨1, 0, 0⟩
  | 1 => ⟨0, 1, 0⟩
  | 2 => ⟨0, 0, 1⟩

/-- How far the values of the two other axes are apart. -/
def gap (e : Fin 3 → K) (k : Fin 3) : K := |e (k + 1) - e (k + 2)|

/-- The covariance of two coordinates of points about `m`, times the number of points. -/
def scatter (ps : List (V3 K)) (m : V3 K) (i j : Fin 3) : K :=
  (ps.map fun p => (coord p i - coord m i) * (coord p j - coord m j)).sum

/-- The spread of points along the direction `d` about `m`: the mean square of their distances. -/
def spread (ps : List (V3 K)) (m : V3 K) (d : Fin 3 → K) : K :=
  (ps.map fun p => (∑ k, d k * (coord p k - coord m k)) ^ 2).sum / (ps.length : K)

/-- Coordinates as `Volume::Convert` makes them. -/
def Grid (s : VSet K) : Prop :=
  ∀ v ∈ s.voxels, (0 ≤ v.x ∧ v.x ≤ 32767) ∧ (0 ≤ v.y ∧ v.y ≤ 32767) ∧ (0 ≤ v.z ∧ v.z ≤ 32767)

/-! ### The choice -/

theorem weight_eq (a b : K) : (if a * a + b * b = 0 then 0 else 1 - (a - b) * (a - b) / (a * a + b * b)) = 2 * a * b / (a * a + b * b) := by
  by_cases h : a * a + b * b = 0
  · rw [if_pos h, h, div_zero]
  · rw [if_neg h, eq_div_iff h, sub_mul, div_mul_cancel₀ _ h]; ring

theorem sq_lt (a b : K) : a * a < b * b ↔ |a| < |b| := by
  rw [← abs_mul_abs_self a, ← abs_mul_abs_self b]
  exact (mul_self_lt_mul_self_iff (abs_nonneg a) (abs_nonneg b)).symm

/-- **C178** The direction is one of the axes; its weight is `2ab / (a² + b²)` for the values `a`, `b` of the two other
axes.  An axis whose other values are closer to each other than those of both other axes is the one chosen. -/
theorem C178_direction (e : Fin 3 → K) : ∃ k, (preferred (e 0) (e 1) (e 2)).1 = unit k
    ∧ (preferred (e 0) (e 1) (e 2)).2 = 2 * e (k + 1) * e (k + 2) / (e (k + 1) * e (k + 1) + e (k + 2) * e (k + 2))
    ∧ ∀ j, (∀ i, i ≠ j → gap e j < gap e i) → k = j := by
  have g0 : gap e 0 = |e 1 - e 2| := rfl
  have g1 : gap e 1 = |e 0 - e 2| := abs_sub_comm _ _
  have g2 : gap e 2 = |e 0 - e 1| := rfl
  unfold preferred
  simp only [sq_lt]
  rw [← g0, ← g1, ← g2]
  by_cases h0 : gap e 0 < gap e 1 ∧ gap e 0 < gap e 2
  · rw [if_pos h0]
    refine ⟨0, rfl, weight_eq _ _, fun j hj => ?_⟩
    by_contra hne
    have := hj 0 hne
    fin_cases j
    · exact hne rfl
    · exact lt_asymm this h0.1
    · exact lt_asymm this h0.2
  · rw [if_neg h0]
    by_cases h1 : gap e 1 < gap e 0 ∧ gap e 1 < gap e 2
    · rw [if_pos h1]
      refine ⟨1, rfl, ?_, fun j hj => ?_⟩
      · show (if e 0 * e 0 + e 2 * e 2 = 0 then 0 else 1 - (e 0 - e 2) * (e 0 - e 2) / (e 0 * e 0 + e 2 * e 2)) = 2 * e 2 * e 0 / (e 2 * e 2 + e 0 * e 0)
        rw [weight_eq, add_comm (e 2 * e 2)]
        congr 1; ring
      · by_contra hne
        have := hj 1 hne
        fin_cases j
        · exact lt_asymm this h1.1
        · exact hne rfl
        · exact lt_asymm this h1.2
    · rw [if_neg h1]
      refine ⟨2, rfl, weight_eq _ _, fun j hj => ?_⟩
      fin_cases j
      · exact absurd ⟨hj 1 (by decide), hj 2 (by decide)⟩ h0
      · exact absurd ⟨hj 0 (by decide), hj 2 (by decide)⟩ h1
      · rfl

/-- **C178** For values that are not negative the weight lies between zero and one.  It is one just if the spreads along
the other two axes are equal, so that the part may be a body of revolution, and not zero; it is zero just if the part is
flat along one of them. -/
theorem C178_weight {e : Fin 3 → K} (he : ∀ i, 0 ≤ e i) {k : Fin 3} (hk : (preferred (e 0) (e 1) (e 2)).1 = unit k) :
    (0 ≤ (preferred (e 0) (e 1) (e 2)).2 ∧ (preferred (e 0) (e 1) (e 2)).2 ≤ 1)
    ∧ ((preferred (e 0) (e 1) (e 2)).2 = 1 ↔ e (k + 1) = e (k + 2) ∧ e (k + 1) ≠ 0)
    ∧ ((preferred (e 0) (e 1) (e 2)).2 = 0 ↔ e (k + 1) = 0 ∨ e (k + 2) = 0) := by
  obtain ⟨k', h1, h2, -⟩ := C178_direction e
  have hkk : k' = k := by
    have h := h1.symm.trans hk
    fin_cases k <;> fin_cases k' <;> first | rfl | (simp [unit] at h)
  subst hkk
  rw [h2]
  have ha := he (k' + 1)
  have hb := he (k' + 2)
  generalize e (k' + 1) = a at *
  generalize e (k' + 2) = b at *
  have hab : 0 ≤ a * b := mul_nonneg ha hb
  have hz : a * a + b * b = 0 ↔ a = 0 ∧ b = 0 := by
    constructor
    · intro h
      have h3 : a * a = 0 := le_antisymm (by nlinarith [mul_self_nonneg b]) (mul_self_nonneg a)
      have h4 : b * b = 0 := le_antisymm (by nlinarith [mul_self_nonneg a]) (mul_self_nonneg b)
      exact ⟨mul_self_eq_zero.1 h3, mul_self_eq_zero.1 h4⟩
    · rintro ⟨rfl, rfl⟩; ring
  by_cases h0 : a * a + b * b = 0
  · obtain ⟨rfl, rfl⟩ := hz.1 h0
    simp
  · have hpos : 0 < a * a + b * b := lt_of_le_of_ne (by nlinarith [mul_self_nonneg a, mul_self_nonneg b]) (Ne.symm h0)
    refine ⟨⟨div_nonneg (by nlinarith) hpos.le, (div_le_one hpos).2 (by nlinarith [mul_self_nonneg (a - b)])⟩, ?_, ?_⟩
    · rw [div_eq_one_iff_eq h0]
      constructor
      · intro h
        have h3 : (a - b) * (a - b) = 0 := by linear_combination -h
        have h4 : a = b := sub_eq_zero.1 (mul_self_eq_zero.1 h3)
        exact ⟨h4, fun h5 => h0 (hz.2 ⟨h5, h4 ▸ h5⟩)⟩
      · rintro ⟨rfl, -⟩; ring
    · rw [div_eq_zero_iff]
      constructor
      · rintro (h | h)
        · have h3 : a * b = 0 := by linear_combination h / 2
          exact mul_eq_zero.1 h3
        · exact absurd h h0
      · rintro (rfl | rfl) <;> left <;> ring

/-- **C178** A plane through the direction costs nothing more on account of it, a plane across it costs the weight times
`beta`; so of two planes across axes that are otherwise equally good, one through the direction is never the dearer. -/
theorem C178_planes {e : Fin 3 → K} (he : ∀ i, 0 ≤ e i) {beta : K} (hb : 0 ≤ beta) {k : Fin 3}
    (hk : (preferred (e 0) (e 1) (e 2)).1 = unit k) (j : Fin 3) :
    symmetry beta (preferred (e 0) (e 1) (e 2)) (unit j) = (if j = k then beta * (preferred (e 0) (e 1) (e 2)).2 else 0)
    ∧ (j ≠ k → symmetry beta (preferred (e 0) (e 1) (e 2)) (unit j) ≤ symmetry beta (preferred (e 0) (e 1) (e 2)) (unit k)) := by
  have hf : ∀ j, symmetry beta (preferred (e 0) (e 1) (e 2)) (unit j) = (if j = k then beta * (preferred (e 0) (e 1) (e 2)).2 else 0) := by
    intro j
    unfold symmetry
    rw [hk]
    fin_cases j <;> fin_cases k <;> simp [unit]
  refine ⟨hf j, fun hj => ?_⟩
  rw [hf j, hf k, if_neg hj, if_pos rfl]
  exact mul_nonneg hb (C178_weight he hk).1.1

/-- **C178, violated** If two axes have equal gaps the third is taken, even if its gap is larger: with the spreads one,
three and two the other axes of the direction are those furthest apart. -/
theorem C178_violated_tie : ∃ e : Fin 3 → ℚ, (∀ i, 0 < e i) ∧ (preferred (e 0) (e 1) (e 2)).1 = unit 2
    ∧ ∀ i, i ≠ 2 → gap e i < gap e 2 := by
  refine ⟨![1, 3, 2], by decide +kernel, ?_, by decide +kernel⟩
  show (preferred (1 : ℚ) 3 2).1 = _
  norm_num [preferred, unit]

/-! ### The axes of sets of voxels -/

theorem length_points (s : VSet K) : (points s).length = s.voxels.length := by simp [points]

theorem card_ne {s : VSet K} (hs : s.voxels ≠ []) : (s.voxels.length : K) ≠ 0 := by
  rw [Nat.cast_ne_zero]; exact fun h => hs (List.length_eq_zero_iff.1 h)

theorem mean_spec {s : VSet K} (hs : s.voxels ≠ []) : IsMean (points s) (mean s) := by
  have hn := card_ne (K := K) hs
  unfold IsMean mean
  rw [foldl_plus, length_points]
  simp only [zero_add]
  exact ⟨mul_div_cancel₀ _ hn, mul_div_cancel₀ _ hn, mul_div_cancel₀ _ hn⟩

theorem moments_eq (b : V3 K) (s : VSet K) (i j : Fin 3) : moments b s i j = scatter (points s) b i j / (s.voxels.length : K) := by
  have hc : ∀ a b' : Fin 3, scatter (points s) b a b' = scatter (points s) b b' a := by
    intro a b'; unfold scatter; congr 1; apply List.map_congr_left; intro p _; ring
  unfold moments
  rw [cov_foldl]
  fin_cases i <;> fin_cases j <;> simp only [zero_add, Fin.zero_eta, Fin.mk_one, Fin.reduceFinMk, Matrix.of_apply, Matrix.cons_val]
  · rfl
  · rfl
  · rfl
  · rw [hc 1 0]; rfl
  · rfl
  · rfl
  · rw [hc 2 0]; rfl
  · rw [hc 2 1]; rfl
  · rfl

theorem moments_sym (b : V3 K) (s : VSet K) : Sym (moments b s) := by
  intro i j
  fin_cases i <;> fin_cases j <;> rfl

theorem mean_coord {ps : List (V3 K)} {m : V3 K} (h : IsMean ps m) (i : Fin 3) : (ps.map fun p => coord p i).sum = (ps.length : K) * TetAxes.coord m i := by
  fin_cases i
  · exact h.1.symm
  · exact h.2.1.symm
  · exact h.2.2.symm

theorem sum_shift (ps : List (V3 K)) (f g : V3 K → K) (a b a' b' : K) :
    (ps.map fun p => (f p - a) * (g p - b)).sum = (ps.map fun p => (f p - a') * (g p - b')).sum
      + (a' - a) * ((ps.map g).sum - (ps.length : K) * b') + (b' - b) * ((ps.map f).sum - (ps.length : K) * a') + (ps.length : K) * ((a' - a) * (b' - b)) := by
  induction ps with
  | nil => simp
  | cons p ps ih =>
    simp only [List.map_cons, List.sum_cons, List.length_cons, Nat.cast_add, Nat.cast_one]
    rw [ih]; ring

/-- Moments about another point exceed those about the mean by the product of its distances. -/
theorem scatter_shift {ps : List (V3 K)} {m : V3 K} (h : IsMean ps m) (b : V3 K) (i j : Fin 3) :
    scatter ps b i j = scatter ps m i j + (ps.length : K) * ((coord b i - coord m i) * (coord b j - coord m j)) := by
  unfold scatter
  rw [sum_shift ps (fun p => coord p i) (fun p => coord p j) (coord b i) (coord b j) (coord m i) (coord m j), mean_coord h i, mean_coord h j]
  ring

/-- **C178** The matrix diagonalized has the covariances of the voxels, each with the product of the distances of the
rounded centre from the mean added. -/
theorem C178_moments {s : VSet K} (hs : s.voxels ≠ []) {m : V3 K} (hm : IsMean (points s) m) (i j : Fin 3) :
    moments (centre s) s i j = scatter (points s) m i j / (s.voxels.length : K) + (coord (centre s) i - coord m i) * (coord (centre s) j - coord m j) := by
  rw [moments_eq, scatter_shift hm, length_points, add_div, mul_div_cancel_left₀ _ (card_ne hs)]

theorem mean_range (zs : List ℤ) (hz : zs ≠ []) (h : ∀ z ∈ zs, 0 ≤ z ∧ z ≤ 32767) :
    0 ≤ (zs.map fun z : ℤ => (z : K)).sum ∧ (zs.map fun z : ℤ => (z : K)).sum ≤ (zs.length : K) * 32767 := by
  clear hz
  induction zs with
  | nil => simp
  | cons z zs ih =>
    obtain ⟨i1, i2⟩ := ih fun y hy => h y (List.mem_cons_of_mem _ hy)
    obtain ⟨z1, z2⟩ := h z List.mem_cons_self
    have z1' : (0 : K) ≤ (z : K) := by exact_mod_cast z1
    have z2' : (z : K) ≤ 32767 := by exact_mod_cast z2
    simp only [List.map_cons, List.sum_cons, List.length_cons, Nat.cast_add, Nat.cast_one]
    constructor
    · linarith
    · linarith

theorem toShort_near {x : K} (h0 : 0 ≤ x) (h1 : x ≤ 32767) : |((toShort x : ℤ) : K) - x| ≤ 1 / 2 := by
  have ht : JsonRead.truncate (x + 1 / 2) = ⌊x + 1 / 2⌋ := by
    unfold JsonRead.truncate
    rw [if_pos (by linarith)]
  have hl := Int.floor_le (x + 1 / 2)
  have hu := Int.lt_floor_add_one (x + 1 / 2)
  have f0 : 0 ≤ ⌊x + 1 / 2⌋ := Int.floor_nonneg.2 (by linarith)
  have f1 : ⌊x + 1 / 2⌋ < 32768 := by
    rw [Int.floor_lt]; push_cast; linarith
  unfold toShort
  rw [ht]
  have hs : short ⌊x + 1 / 2⌋ = ⌊x + 1 / 2⌋ := by unfold short; omega
  rw [hs, abs_le]
  constructor <;> linarith

/-- **C178** The centre is within half a voxel of the mean, along every axis. -/
theorem C178_centre {s : VSet K} (hs : s.voxels ≠ []) (hg : Grid s) {m : V3 K} (hm : IsMean (points s) m) (i : Fin 3) :
    |coord (centre s) i - coord m i| ≤ 1 / 2 := by
  have hn := card_ne (K := K) hs
  have hp : (0 : K) < (s.voxels.length : K) := lt_of_le_of_ne (Nat.cast_nonneg _) (Ne.symm hn)
  have key : ∀ (f : Decompose.Voxel → ℤ) (x y : K), (∀ v ∈ s.voxels, 0 ≤ f v ∧ f v ≤ 32767) →
      (s.voxels.length : K) * x = (s.voxels.map fun v => (f v : K)).sum → (s.voxels.length : K) * y = (s.voxels.map fun v => (f v : K)).sum →
      |((toShort y : ℤ) : K) - x| ≤ 1 / 2 := by
    intro f x y hf hx hy
    have hxy : y = x := mul_left_cancel₀ hn (hy.trans hx.symm)
    subst hxy
    have hr := mean_range (K := K) (s.voxels.map f) (by simpa using hs) (by intro z hz; obtain ⟨v, hv, rfl⟩ := List.mem_map.1 hz; exact hf v hv)
    rw [List.map_map, List.length_map] at hr
    change 0 ≤ (s.voxels.map fun v => (f v : K)).sum ∧ (s.voxels.map fun v => (f v : K)).sum ≤ _ at hr
    rw [← hx] at hr
    exact toShort_near (nonneg_of_mul_nonneg_right hr.1 hp) (le_of_mul_le_mul_left hr.2 hp)
  have h1 := mean_spec (K := K) hs
  unfold IsMean at h1 hm
  rw [length_points] at h1 hm
  simp only [points, List.map_map] at h1 hm
  fin_cases i
  · exact key (fun v => v.x) _ _ (fun v hv => (hg v hv).1) hm.1 h1.1
  · exact key (fun v => v.y) _ _ (fun v hv => (hg v hv).2.1) hm.2.1 h1.2.1
  · exact key (fun v => v.z) _ _ (fun v hv => (hg v hv).2.2) hm.2.2 h1.2.2

theorem spread_eq (ps : List (V3 K)) (m : V3 K) (d : Fin 3 → K) :
    (ps.map fun p => (∑ k, d k * (coord p k - coord m k)) ^ 2).sum = ∑ k, ∑ l, d k * scatter ps m k l * d l := by
  unfold scatter
  induction ps with
  | nil => simp
  | cons p ps ih =>
    simp only [List.map_cons, List.sum_cons]
    rw [ih]
    simp only [Fin.sum_univ_three]
    ring

/-- **C178** The value compared for an axis is the spread of the voxels along that axis about their mean, plus at most three
quarters of a voxel's square for the centre being rounded.  So the values are never negative, and for parts that are not
small they are the spreads.  The full claim, that they are the spreads, fails (`C178_violated_centre`). -/
theorem C178_spread_partial {sqrt : K → K} (hq : IsSqrt sqrt) {s : VSet K} (hs : s.voxels ≠ []) (hg : Grid s) {m : V3 K}
    (hm : IsMean (points s) m) (i : Fin 3) :
    0 ≤ spread (points s) m (fun k => (axes sqrt s).1 k i)
    ∧ spread (points s) m (fun k => (axes sqrt s).1 k i) ≤ (axes sqrt s).2 i i
    ∧ (axes sqrt s).2 i i ≤ spread (points s) m (fun k => (axes sqrt s).1 k i) + 3 / 4 := by
  have hn := card_ne (K := K) hs
  have ha : axes sqrt s = ((diagonalize sqrt (moments (centre s) s)).1, (diagonalize sqrt (moments (centre s) s)).2.1) := by
    unfold axes; rw [if_neg hs]
  have hF := C174_frame hq (moments (centre s) s)
  have hD := (C174_product hq (moments_sym (centre s) s)).1 i i
  rw [ha]
  set Q := (diagonalize sqrt (moments (centre s) s)).1 with hQ
  simp only
  have hnn : 0 ≤ spread (points s) m (fun k => Q k i) := by
    unfold spread
    apply div_nonneg _ (Nat.cast_nonneg _)
    apply List.sum_nonneg
    intro x hx
    obtain ⟨p, -, rfl⟩ := List.mem_map.1 hx
    exact sq_nonneg _
  have hval : (diagonalize sqrt (moments (centre s) s)).2.1 i i = spread (points s) m (fun k => Q k i)
      + (∑ k, Q k i * (coord (centre s) k - coord m k)) ^ 2 := by
    rw [hD]
    unfold spread
    rw [spread_eq, length_points]
    simp only [C178_moments hs hm, Fin.sum_univ_three]
    field_simp
    ring
  have hc := fun k => abs_le.1 (C178_centre hs hg hm k)
  have hcol := hF.cols i i
  rw [if_pos rfl] at hcol
  rw [hval]
  refine ⟨hnn, by nlinarith [sq_nonneg (∑ k, Q k i * (coord (centre s) k - coord m k))], ?_⟩
  have hcs : (∑ k, Q k i * (coord (centre s) k - coord m k)) ^ 2 ≤ 3 / 4 := by
    simp only [Fin.sum_univ_three] at hcol ⊢
    have c0 := hc 0
    have c1 := hc 1
    have c2 := hc 2
    generalize coord (centre s) 0 - coord m 0 = d0 at *
    generalize coord (centre s) 1 - coord m 1 = d1 at *
    generalize coord (centre s) 2 - coord m 2 = d2 at *
    generalize Q 0 i = a at *
    generalize Q 1 i = b at *
    generalize Q 2 i = c at *
    have e0 : d0 * d0 ≤ 1 / 4 := by nlinarith
    have e1 : d1 * d1 ≤ 1 / 4 := by nlinarith
    have e2 : d2 * d2 ≤ 1 / 4 := by nlinarith
    have hid : (a * d0 + b * d1 + c * d2) ^ 2 = (a * a + b * b + c * c) * (d0 * d0 + d1 * d1 + d2 * d2)
        - ((a * d1 - b * d0) ^ 2 + (a * d2 - c * d0) ^ 2 + (b * d2 - c * d1) ^ 2) := by ring
    rw [hid, hcol]
    nlinarith [sq_nonneg (a * d1 - b * d0), sq_nonneg (a * d2 - c * d0), sq_nonneg (b * d2 - c * d1)]
  linarith

/-- **C178** For sets of voxels as V-HACD makes them the weight lies between zero and one, and planes across an axis that go
through the direction cost nothing on account of it. -/
theorem C178_voxels {sqrt : K → K} (hq : IsSqrt sqrt) {s : VSet K} (hs : s.voxels ≠ []) (hg : Grid s) :
    ∃ k, (preferredOf sqrt s).1 = unit k ∧ 0 ≤ (preferredOf sqrt s).2 ∧ (preferredOf sqrt s).2 ≤ 1
      ∧ ∀ beta j, j ≠ k → symmetry beta (preferredOf sqrt s) (unit j) = 0 := by
  have he : ∀ i, 0 ≤ (fun i => (axes sqrt s).2 i i) i := fun i =>
    have h := C178_spread_partial hq hs hg (mean_spec hs) i
    h.1.trans h.2.1
  obtain ⟨k, hk, -, -⟩ := C178_direction fun i => (axes sqrt s).2 i i
  have hw := (C178_weight he hk).1
  refine ⟨k, hk, hw.1, hw.2, fun beta j hj => ?_⟩
  have hk' : (preferredOf sqrt s).1 = unit k := hk
  unfold symmetry
  rw [hk']
  fin_cases j <;> fin_cases k <;> first | exact absurd rfl hj | simp [unit]

/-- **C178** The axis chosen is the one whose two other axes have the most similar spreads, if the similarity differs by
more than one and a half squares of a voxel; the weight is that of the values for the two other axes. -/
theorem C178_margin {sqrt : K → K} (hq : IsSqrt sqrt) {s : VSet K} (hs : s.voxels ≠ []) (hg : Grid s) {m : V3 K}
    (hm : IsMean (points s) m) {j : Fin 3}
    (hj : ∀ i, i ≠ j → gap (fun l => spread (points s) m fun k => (axes sqrt s).1 k l) j + 3 / 2 < gap (fun l => spread (points s) m fun k => (axes sqrt s).1 k l) i) :
    (preferredOf sqrt s).1 = unit j
    ∧ (preferredOf sqrt s).2 = 2 * (axes sqrt s).2 (j + 1) (j + 1) * (axes sqrt s).2 (j + 2) (j + 2)
        / ((axes sqrt s).2 (j + 1) (j + 1) * (axes sqrt s).2 (j + 1) (j + 1) + (axes sqrt s).2 (j + 2) (j + 2) * (axes sqrt s).2 (j + 2) (j + 2)) := by
  obtain ⟨k, hk, hw, hu⟩ := C178_direction fun i => (axes sqrt s).2 i i
  have hb := fun l => (C178_spread_partial hq hs hg hm l).2
  have near : ∀ i, |gap (fun l => (axes sqrt s).2 l l) i - gap (fun l => spread (points s) m fun k => (axes sqrt s).1 k l) i| ≤ 3 / 4 := by
    intro i
    unfold gap
    refine (abs_abs_sub_abs_le_abs_sub _ _).trans ?_
    have h1 := hb (i + 1)
    have h2 := hb (i + 2)
    rw [abs_le]
    constructor <;> linarith [h1.1, h1.2, h2.1, h2.2]
  have hkj : k = j := hu j fun i hi => by
    have h1 := abs_le.1 (near i)
    have h2 := abs_le.1 (near j)
    have h3 := hj i hi
    linarith [h1.1, h2.2]
  subst hkj
  exact ⟨hk, hw⟩

/-- **C178** If the voxels are not correlated about the centre, the axes are those of the grid and the values the moments
along them. -/
theorem C178_aligned (sqrt : K → K) {s : VSet K} (hs : s.voxels ≠ []) (h : ∀ i j, i ≠ j → scatter (points s) (centre s) i j = 0) (i : Fin 3) :
    (∀ j, (axes sqrt s).1 i j = if i = j then 1 else 0)
    ∧ (axes sqrt s).2 i i = scatter (points s) (centre s) i i / (s.voxels.length : K) := by
  have hz : ∀ i j, i ≠ j → moments (centre s) s i j = 0 := fun i j hij => by rw [moments_eq, h i j hij, zero_div]
  have hd := C174_diagonal sqrt (hz 0 1 (by decide)) (hz 0 2 (by decide)) (hz 1 2 (by decide))
  unfold axes
  rw [if_neg hs]
  exact ⟨fun j => hd.2.1 i j, (hd.2.2 i).trans (moments_eq _ _ _ _)⟩

/-- **C178** If they are correlated and the matrix was made diagonal, some axis of the part lies along no axis of the grid.
The direction is an axis of the grid in any case (`C178_voxels`), that with the same number as the axis of the part. -/
theorem C178_turned {sqrt : K → K} (hq : IsSqrt sqrt) {s : VSet K} (hs : s.voxels ≠ [])
    (hd : ∀ k l, k ≠ l → (axes sqrt s).2 k l = 0) {i j : Fin 3} (hij : i ≠ j) (h : scatter (points s) (centre s) i j ≠ 0) :
    ∃ k, (axes sqrt s).1 i k ≠ 0 ∧ (axes sqrt s).1 j k ≠ 0 := by
  have hA := (C174_product hq (moments_sym (centre s) s)).2.1 i j
  have ha : axes sqrt s = ((diagonalize sqrt (moments (centre s) s)).1, (diagonalize sqrt (moments (centre s) s)).2.1) := by
    unfold axes; rw [if_neg hs]
  rw [ha] at hd ⊢
  simp only at hd ⊢
  by_contra hno
  push Not at hno
  have hz : moments (centre s) s i j = 0 := by
    rw [hA]
    apply Finset.sum_eq_zero
    intro k _
    apply Finset.sum_eq_zero
    intro l _
    by_cases hkl : k = l
    · subst hkl
      by_cases h0 : (diagonalize sqrt (moments (centre s) s)).1 i k = 0
      · rw [h0]; ring
      · rw [hno k h0]; ring
    · rw [hd k l hkl]; ring
  rw [moments_eq, div_eq_zero_iff] at hz
  exact hz.elim h (card_ne hs)

/-! ### Examples -/

/-- Two by three voxels. -/
def plate : VSet ℚ :=
  ⟨[⟨0, 0, 0, true⟩, ⟨0, 1, 0, true⟩, ⟨0, 2, 0, true⟩, ⟨1, 0, 0, true⟩, ⟨1, 1, 0, true⟩, ⟨1, 2, 0, true⟩], 0, 0, 0, 1, 1, 6, 0⟩

/-- **C178, violated** The rounded centre changes the choice: for a plate of two by three voxels, whose axes are those of
the grid, the spread along the first axis comes out twice as large and another direction is taken than for the spreads. -/
theorem C178_violated_centre : ∃ (s : VSet ℚ) (m : V3 ℚ), s.voxels ≠ [] ∧ Grid s ∧ IsMean (points s) m
    ∧ (∀ i j, i ≠ j → scatter (points s) m i j = 0)
    ∧ ∀ sqrt, (∀ i j, (axes sqrt s).1 i j = if i = j then 1 else 0)
      ∧ (axes sqrt s).2 0 0 = 2 * spread (points s) m (fun k => if k = 0 then 1 else 0)
      ∧ (preferredOf sqrt s).1 = unit 2
      ∧ (preferred (spread (points s) m fun k => if k = 0 then 1 else 0) (spread (points s) m fun k => if k = 1 then 1 else 0)
          (spread (points s) m fun k => if k = 2 then 1 else 0)).1 = unit 1 := by
  have hne : plate.voxels ≠ [] := by decide
  have hc : ∀ i j, i ≠ j → scatter (points plate) (centre plate) i j = 0 := by decide +kernel
  have hv : ∀ i : Fin 3, scatter (points plate) (centre plate) i i / (plate.voxels.length : ℚ) = ![1 / 2, 2 / 3, 0] i := by decide +kernel
  have h0 : spread (points plate) ⟨1 / 2, 1, 0⟩ (fun k => if k = 0 then 1 else 0) = 1 / 4 := by decide +kernel
  have h1 : spread (points plate) ⟨1 / 2, 1, 0⟩ (fun k => if k = 1 then 1 else 0) = 2 / 3 := by decide +kernel
  have h2 : spread (points plate) ⟨1 / 2, 1, 0⟩ (fun k => if k = 2 then 1 else 0) = 0 := by decide +kernel
  refine ⟨plate, ⟨1 / 2, 1, 0⟩, hne, by unfold Grid; decide +kernel, by unfold IsMean; decide +kernel, by decide +kernel, fun sqrt => ?_⟩
  have ha := C178_aligned sqrt hne hc
  refine ⟨fun i => (ha i).1, ?_, ?_, ?_⟩
  · rw [(ha 0).2, hv, h0]; norm_num
  · unfold preferredOf
    rw [(ha 0).2, (ha 1).2, (ha 2).2, hv, hv, hv]
    show (preferred (1 / 2 : ℚ) (2 / 3) 0).1 = _
    norm_num [preferred, unit]
  · rw [h0, h1, h2]
    norm_num [preferred, unit]

/-- A square bar: the direction is its length, with the full weight, and planes along it cost nothing. -/
example : (preferred (10 : ℚ) 2 2).1 = unit 0 ∧ (preferred (10 : ℚ) 2 2).2 = 1 ∧ symmetry 5 (preferred (10 : ℚ) 2 2) (unit 0) = 5
    ∧ symmetry 5 (preferred (10 : ℚ) 2 2) (unit 1) = 0 := by
  norm_num [preferred, unit, symmetry]

/-- Three voxels in a corner, over the real numbers. -/
noncomputable def corner : VSet ℝ := ⟨[⟨0, 0, 0, true⟩, ⟨1, 0, 0, true⟩, ⟨0, 1, 0, true⟩], 0, 0, 0, 1, 1, 3, 0⟩

/-- They meet the hypotheses, with a mean that is no voxel and correlated coordinates. -/
example : IsSqrt Real.sqrt ∧ corner.voxels ≠ [] ∧ Grid corner ∧ IsMean (points corner) ⟨1 / 3, 1 / 3, 0⟩
    ∧ scatter (points corner) ⟨1 / 3, 1 / 3, 0⟩ 0 1 ≠ 0 := by
  refine ⟨fun x hx => ⟨Real.sqrt_nonneg _, Real.mul_self_sqrt hx⟩, by simp [corner], ?_, ?_, ?_⟩
  · intro v hv
    simp only [corner, List.mem_cons, List.not_mem_nil, or_false] at hv
    rcases hv with rfl | rfl | rfl <;> simp
  · norm_num [IsMean, points, corner]
  · norm_num [scatter, points, corner, coord]

/-- Two voxels far apart along the first axis. -/
noncomputable def pair : VSet ℝ := ⟨[⟨0, 0, 0, true⟩, ⟨8, 0, 0, true⟩], 0, 0, 0, 1, 1, 2, 0⟩

/-- Their first axis is far enough ahead. -/
example : pair.voxels ≠ [] ∧ Grid pair ∧ IsMean (points pair) ⟨4, 0, 0⟩ ∧ ∀ i : Fin 3, i ≠ 0 →
    gap (fun l => spread (points pair) ⟨4, 0, 0⟩ fun k => (axes Real.sqrt pair).1 k l) 0 + 3 / 2
      < gap (fun l => spread (points pair) ⟨4, 0, 0⟩ fun k => (axes Real.sqrt pair).1 k l) i := by
  have hne : pair.voxels ≠ [] := by simp [pair]
  have hg : Grid pair := by
    intro v hv
    simp only [pair, List.mem_cons, List.not_mem_nil, or_false] at hv
    rcases hv with rfl | rfl <;> simp
  have hm : IsMean (points pair) ⟨4, 0, 0⟩ := by norm_num [IsMean, points, pair]
  have hc : ∀ i j, i ≠ j → scatter (points pair) (centre pair) i j = 0 := by
    intro i j hij
    have h0 : (centre pair).y = 0 := by
      norm_num [centre, mean, points, pair, plus, toShort, JsonRead.truncate, short]
    have h1 : (centre pair).z = 0 := by
      norm_num [centre, mean, points, pair, plus, toShort, JsonRead.truncate, short]
    generalize centre pair = c at h0 h1 ⊢
    fin_cases i <;> fin_cases j <;> first | exact absurd rfl hij | simp [scatter, points, pair, coord, h0, h1]
  have ha := fun i => (C178_aligned Real.sqrt hne hc i).1
  refine ⟨hne, hg, hm, fun i hi => ?_⟩
  have hsp : ∀ l : Fin 3, (spread (points pair) ⟨4, 0, 0⟩ fun k => if k = l then 1 else 0) = if l = 0 then 16 else 0 := by
    intro l
    fin_cases l <;> norm_num [spread, points, pair, coord, Fin.sum_univ_three]
  simp only [ha, hsp, gap]
  have h01 : (0 : Fin 3) + 1 ≠ 0 := by decide
  have h02 : (0 : Fin 3) + 2 ≠ 0 := by decide
  rw [if_neg h01, if_neg h02]
  have hcase : (i + 1 ≠ 0 ∧ i + 2 = 0) ∨ (i + 1 = 0 ∧ i + 2 ≠ 0) := by revert hi; revert i; decide
  rcases hcase with ⟨h1, h2⟩ | ⟨h1, h2⟩
  · rw [if_neg h1, if_pos h2]; norm_num
  · rw [if_pos h1, if_neg h2]; norm_num

end Verif.CutDir
