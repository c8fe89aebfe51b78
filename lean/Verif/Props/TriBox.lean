import Verif.Props.Voxelize
import Verif.Props.Separating

set_option linter.unusedSectionVars false
set_option linter.unusedVariables false

/-!
# C167, continued: the triangle and box test of V-HACD is exact

`TriBoxOverlap` answers true exactly for the triangles that have a point in common with the box, so the
voxels on the surface are exactly those that meet the mesh.
-/

namespace Verif.Voxel

open Separating

variable {K : Type*} [Field K] [LinearOrder K] [IsStrictOrderedRing K] [FloorRing K]

theorem apart_iff {p q rad : K} : apart p q rad = false ↔ (p ≤ rad ∨ q ≤ rad) ∧ (-rad ≤ p ∨ -rad ≤ q) := by
  unfold apart
  simp only [Bool.or_eq_false_iff, decide_eq_false_iff_not, not_lt]
  apply and_congr
  · split_ifs <;> constructor <;> intro H <;> first | grind | skip
  · split_ifs <;> constructor <;> intro H <;> first | grind | skip

/-- The axis given by two coordinates and an edge does not separate. -/
def EdgeOk (x y : Fin 3 → K) (hx hy : K) (j k : Fin 3) : Prop :=
  ∃ l, (y k - y j) * x l - (x k - x j) * y l ≤ |y k - y j| * hx + |x k - x j| * hy

theorem edge_both {x y : Fin 3 → K} {hx hy : K} {j k : Fin 3} (m l : Fin 3)
    (h : apart ((y k - y j) * x m - (x k - x j) * y m) ((y k - y j) * x l - (x k - x j) * y l)
      (|y k - y j| * hx + |x k - x j| * hy) = false) : EdgeOk x y hx hy j k ∧ EdgeOk x y hx hy k j := by
  obtain ⟨h1, h2⟩ := apart_iff.1 h
  constructor
  · rcases h1 with h1 | h1
    · exact ⟨m, h1⟩
    · exact ⟨l, h1⟩
  · unfold EdgeOk
    rw [abs_sub_comm (y j), abs_sub_comm (x j)]
    rcases h2 with h2 | h2
    · exact ⟨m, by linarith⟩
    · exact ⟨l, by linarith⟩

theorem edge_both' {x y : Fin 3 → K} {hx hy : K} {j k : Fin 3} (m l : Fin 3)
    (h : apart (-(y k - y j) * x m + (x k - x j) * y m) (-(y k - y j) * x l + (x k - x j) * y l)
      (|y k - y j| * hx + |x k - x j| * hy) = false) : EdgeOk x y hx hy j k ∧ EdgeOk x y hx hy k j := by
  obtain ⟨h1, h2⟩ := apart_iff.1 h
  constructor
  · rcases h2 with h2 | h2
    · exact ⟨m, by linarith⟩
    · exact ⟨l, by linarith⟩
  · unfold EdgeOk
    rw [abs_sub_comm (y j), abs_sub_comm (x j)]
    rcases h1 with h1 | h1
    · exact ⟨m, by linarith⟩
    · exact ⟨l, by linarith⟩

theorem edge_all {x y : Fin 3 → K} {hx hy : K} (h0 : EdgeOk x y hx hy 0 1 ∧ EdgeOk x y hx hy 1 0)
    (h1 : EdgeOk x y hx hy 1 2 ∧ EdgeOk x y hx hy 2 1) (h2 : EdgeOk x y hx hy 2 0 ∧ EdgeOk x y hx hy 0 2) :
    ∀ j k, EdgeOk x y hx hy j k := by
  have self : ∀ j, EdgeOk x y hx hy j j := fun j => ⟨0, by simp⟩
  intro j k
  fin_cases j <;> fin_cases k
  · exact self 0
  · exact h0.1
  · exact h2.2
  · exact h0.2
  · exact self 1
  · exact h1.1
  · exact h2.1
  · exact h1.2
  · exact self 2

theorem edge_swap {x y : Fin 3 → K} {hx hy : K} (h : ∀ j k, EdgeOk x y hx hy j k) : ∀ j k, EdgeOk y x hy hx j k := by
  intro j k
  obtain ⟨l, hl⟩ := h k j
  refine ⟨l, ?_⟩
  rw [abs_sub_comm (x k), abs_sub_comm (y k)]
  linarith

/-- The coordinates of a triangle. -/
def coords (v0 v1 v2 : V3 K) : Fin 3 → Fin 3 → K := ![![v0.x, v1.x, v2.x], ![v0.y, v1.y, v2.y], ![v0.z, v1.z, v2.z]]

/-- The coordinates of a point. -/
def vec (h : V3 K) : Fin 3 → K := ![h.x, h.y, h.z]

theorem box_ex {x : Fin 3 → K} {h : K} (hb : boxApart (x 0) (x 1) (x 2) h = false) :
    (∃ j, x j ≤ h) ∧ ∃ j, -h ≤ x j := by
  obtain ⟨h1, h2⟩ := boxApart_iff.1 hb
  constructor
  · rcases h1 with h1 | h1 | h1
    exacts [⟨0, h1⟩, ⟨1, h1⟩, ⟨2, h1⟩]
  · rcases h2 with h1 | h1 | h1
    exacts [⟨0, h1⟩, ⟨1, h1⟩, ⟨2, h1⟩]

theorem tests_touch {h v0 v1 v2 : V3 K} (p0 : 0 ≤ h.x) (p1 : 0 ≤ h.y) (p2 : 0 ≤ h.z) (T : Tests h v0 v1 v2) :
    Touch (coords v0 v1 v2) (vec h) := by
  have exy : ∀ j k, EdgeOk (coords v0 v1 v2 0) (coords v0 v1 v2 1) h.x h.y j k :=
    edge_all (edge_both 2 1 T.z0) (edge_both 0 1 T.z1) (edge_both 2 1 T.z2)
  have eyz : ∀ j k, EdgeOk (coords v0 v1 v2 1) (coords v0 v1 v2 2) h.y h.z j k :=
    edge_all (edge_both 0 2 T.x0) (edge_both 0 2 T.x1) (edge_both 0 1 T.x2)
  have exz : ∀ j k, EdgeOk (coords v0 v1 v2 0) (coords v0 v1 v2 2) h.x h.z j k :=
    edge_all (edge_both' 0 2 T.y0) (edge_both' 0 2 T.y1) (edge_both' 0 1 T.y2)
  have bx := box_ex (x := coords v0 v1 v2 0) T.bx
  have by' := box_ex (x := coords v0 v1 v2 1) T.by'
  have bz := box_ex (x := coords v0 v1 v2 2) T.bz
  refine ⟨?_, ?_, ?_, ?_⟩
  · intro i; fin_cases i
    exacts [p0, p1, p2]
  · intro i; fin_cases i
    exacts [bx.1, by'.1, bz.1]
  · intro i; fin_cases i
    exacts [bx.2, by'.2, bz.2]
  · intro i i' hi
    fin_cases i <;> fin_cases i'
    · exact absurd rfl hi
    · exact exy
    · exact exz
    · exact edge_swap exy
    · exact absurd rfl hi
    · exact eyz
    · exact edge_swap exz
    · exact edge_swap eyz
    · exact absurd rfl hi

/-- Between two points on different sides of zero there is a zero. -/
theorem between {a b : K} (ha : a ≤ 0) (hb : 0 ≤ b) : ∃ r, 0 ≤ r ∧ r ≤ 1 ∧ (1 - r) * a + r * b = 0 := by
  by_cases h : a = 0
  · exact ⟨0, le_refl _, zero_le_one, by rw [h]; ring⟩
  · have hd : 0 < b - a := by
      have := lt_of_le_of_ne ha h
      linarith
    refine ⟨-a / (b - a), div_nonneg (by linarith) hd.le, ?_, ?_⟩
    · rw [div_le_one hd]; linarith
    · field_simp; ring

theorem plane_point {n v b : V3 K} (p0 : 0 ≤ b.x) (p1 : 0 ≤ b.y) (p2 : 0 ≤ b.z) (h : planeBox n v b = true) :
    ∃ w : V3 K, n.dot w = 0 ∧ |v.x + w.x| ≤ b.x ∧ |v.y + w.y| ≤ b.y ∧ |v.z + w.z| ≤ b.z := by
  unfold planeBox at h
  simp only at h
  by_cases h1 : 0 < n.dot ⟨vminOf n.x v.x b.x, vminOf n.y v.y b.y, vminOf n.z v.z b.z⟩
  · rw [if_pos h1] at h; exact absurd h (by simp)
  rw [if_neg h1] at h
  by_cases h2 : 0 ≤ n.dot ⟨vmaxOf n.x v.x b.x, vmaxOf n.y v.y b.y, vmaxOf n.z v.z b.z⟩
  swap
  · rw [if_neg h2] at h; exact absurd h (by simp)
  push Not at h1
  obtain ⟨r, r0, r1, hr⟩ := between h1 h2
  have one : ∀ n v b : K, 0 ≤ b → |v + ((1 - r) * vminOf n v b + r * vmaxOf n v b)| ≤ b := by
    intro n v b hb
    unfold vminOf vmaxOf
    have e1 := mul_nonneg r0 hb
    have e2 := mul_nonneg (sub_nonneg.2 r1) hb
    by_cases hn : 0 < n
    · simp only [if_pos hn]; rw [abs_le]; constructor <;> linarith
    · simp only [if_neg hn]; rw [abs_le]; constructor <;> linarith
  refine ⟨⟨(1 - r) * vminOf n.x v.x b.x + r * vmaxOf n.x v.x b.x, (1 - r) * vminOf n.y v.y b.y + r * vmaxOf n.y v.y b.y,
    (1 - r) * vminOf n.z v.z b.z + r * vmaxOf n.z v.z b.z⟩, ?_, one _ _ _ p0, one _ _ _ p1, one _ _ _ p2⟩
  unfold V3.dot at hr ⊢
  simp only at hr ⊢
  linear_combination hr

theorem mem_H {c : Fin 3 → Fin 3 → K} {h : Fin 3 → K} {t : K × K} (hl : ∀ i, |L (c i) t| ≤ h i) : ∀ p, t ∈ H c h p := by
  rintro ⟨i, s⟩
  obtain ⟨h1, h2⟩ := abs_le.1 (hl i)
  cases s
  · exact h1
  · exact h2

theorem H_abs {c : Fin 3 → Fin 3 → K} {h : Fin 3 → K} {t : K × K} (hm : ∀ p, t ∈ H c h p) (i : Fin 3) : |L (c i) t| ≤ h i :=
  abs_le.2 ⟨hm (i, false), hm (i, true)⟩

theorem tests_plane {h v0 v1 v2 : V3 K} (p0 : 0 ≤ h.x) (p1 : 0 ≤ h.y) (p2 : 0 ≤ h.z)
    (hpl : planeBox ((v1.sub v0).cross (v2.sub v1)) v0 h = true)
    (hn : ¬ (((v1.sub v0).cross (v2.sub v1)).x = 0 ∧ ((v1.sub v0).cross (v2.sub v1)).y = 0 ∧
      ((v1.sub v0).cross (v2.sub v1)).z = 0)) :
    ∃ t : K × K, ∀ p, t ∈ H (coords v0 v1 v2) (vec h) p := by
  obtain ⟨w, hw, w0, w1, w2⟩ := plane_point p0 p1 p2 hpl
  generalize hN : (v1.sub v0).cross (v2.sub v1) = n at *
  have nx : n.x = (v1.y - v0.y) * (v2.z - v0.z) - (v1.z - v0.z) * (v2.y - v0.y) := by
    rw [← hN]; simp only [V3.cross, V3.sub]; ring
  have ny : n.y = (v1.z - v0.z) * (v2.x - v0.x) - (v1.x - v0.x) * (v2.z - v0.z) := by
    rw [← hN]; simp only [V3.cross, V3.sub]; ring
  have nz : n.z = (v1.x - v0.x) * (v2.y - v0.y) - (v1.y - v0.y) * (v2.x - v0.x) := by
    rw [← hN]; simp only [V3.cross, V3.sub]; ring
  have hpos : n.x * n.x + n.y * n.y + n.z * n.z ≠ 0 := by
    intro h0
    have a1 := mul_self_nonneg n.x
    have a2 := mul_self_nonneg n.y
    have a3 := mul_self_nonneg n.z
    exact hn ⟨mul_self_eq_zero.1 (by linarith), mul_self_eq_zero.1 (by linarith), mul_self_eq_zero.1 (by linarith)⟩
  generalize hM : n.x * n.x + n.y * n.y + n.z * n.z = M at *
  unfold V3.dot at hw
  -- the point in the coordinates of the triangle
  let t1 := (w.y * (v2.z - v0.z) - w.z * (v2.y - v0.y)) * n.x + (w.z * (v2.x - v0.x) - w.x * (v2.z - v0.z)) * n.y +
    (w.x * (v2.y - v0.y) - w.y * (v2.x - v0.x)) * n.z
  let t2 := ((v1.y - v0.y) * w.z - (v1.z - v0.z) * w.y) * n.x + ((v1.z - v0.z) * w.x - (v1.x - v0.x) * w.z) * n.y +
    ((v1.x - v0.x) * w.y - (v1.y - v0.y) * w.x) * n.z
  have ex : M * w.x = t1 * (v1.x - v0.x) + t2 * (v2.x - v0.x) := by
    rw [← hM]
    have : (n.x * n.x + n.y * n.y + n.z * n.z) * w.x =
        t1 * (v1.x - v0.x) + t2 * (v2.x - v0.x) + (n.x * w.x + n.y * w.y + n.z * w.z) * n.x := by
      simp only [t1, t2, nx, ny, nz]; ring
    rw [this, hw]; ring
  have ey : M * w.y = t1 * (v1.y - v0.y) + t2 * (v2.y - v0.y) := by
    rw [← hM]
    have : (n.x * n.x + n.y * n.y + n.z * n.z) * w.y =
        t1 * (v1.y - v0.y) + t2 * (v2.y - v0.y) + (n.x * w.x + n.y * w.y + n.z * w.z) * n.y := by
      simp only [t1, t2, nx, ny, nz]; ring
    rw [this, hw]; ring
  have ez : M * w.z = t1 * (v1.z - v0.z) + t2 * (v2.z - v0.z) := by
    rw [← hM]
    have : (n.x * n.x + n.y * n.y + n.z * n.z) * w.z =
        t1 * (v1.z - v0.z) + t2 * (v2.z - v0.z) + (n.x * w.x + n.y * w.y + n.z * w.z) * n.z := by
      simp only [t1, t2, nx, ny, nz]; ring
    rw [this, hw]; ring
  clear_value t1 t2
  have fin : ∀ a b c w : K, M * w = t1 * (b - a) + t2 * (c - a) → a + t1 / M * (b - a) + t2 / M * (c - a) = a + w := by
    intro a b c w e
    field_simp
    linear_combination -e
  refine ⟨(t1 / M, t2 / M), mem_H ?_⟩
  intro i
  fin_cases i
  · show |v0.x + t1 / M * (v1.x - v0.x) + t2 / M * (v2.x - v0.x)| ≤ h.x
    rw [fin _ _ _ _ ex]; exact w0
  · show |v0.y + t1 / M * (v1.y - v0.y) + t2 / M * (v2.y - v0.y)| ≤ h.y
    rw [fin _ _ _ _ ey]; exact w1
  · show |v0.z + t1 / M * (v1.z - v0.z) + t2 / M * (v2.z - v0.z)| ≤ h.z
    rw [fin _ _ _ _ ez]; exact w2

/-- The corners of a degenerate triangle lie on a line. -/
theorem on_line {v0 v1 v2 : V3 K} (hn : ((v1.sub v0).cross (v2.sub v1)).x = 0 ∧ ((v1.sub v0).cross (v2.sub v1)).y = 0 ∧
      ((v1.sub v0).cross (v2.sub v1)).z = 0) :
    ∃ (u : Fin 3 → K) (s : Fin 3 → K), ∀ i j, coords v0 v1 v2 i j = coords v0 v1 v2 i 0 + s j * u i := by
  obtain ⟨nx, ny, nz⟩ := hn
  simp only [V3.cross, V3.sub] at nx ny nz
  -- a direction and the place of the third corner
  suffices hk : (∃ s : K, v2.x - v0.x = s * (v1.x - v0.x) ∧ v2.y - v0.y = s * (v1.y - v0.y) ∧ v2.z - v0.z = s * (v1.z - v0.z)) ∨
      (v1.x = v0.x ∧ v1.y = v0.y ∧ v1.z = v0.z) by
    rcases hk with ⟨s, s1, s2, s3⟩ | ⟨s1, s2, s3⟩
    · refine ⟨![v1.x - v0.x, v1.y - v0.y, v1.z - v0.z], ![0, 1, s], ?_⟩
      intro i j
      fin_cases i <;> fin_cases j <;> simp [coords] <;> linarith
    · refine ⟨![v2.x - v0.x, v2.y - v0.y, v2.z - v0.z], ![0, 0, 1], ?_⟩
      intro i j
      fin_cases i <;> fin_cases j <;> simp [coords] <;> linarith
  by_cases hx : v1.x - v0.x = 0
  · by_cases hy : v1.y - v0.y = 0
    · by_cases hz : v1.z - v0.z = 0
      · exact Or.inr ⟨by linarith, by linarith, by linarith⟩
      · refine Or.inl ⟨(v2.z - v0.z) / (v1.z - v0.z), ?_, ?_, ?_⟩
        · field_simp; linear_combination ny
        · field_simp; linear_combination -nx
        · field_simp
    · refine Or.inl ⟨(v2.y - v0.y) / (v1.y - v0.y), ?_, ?_, ?_⟩
      · field_simp; linear_combination -nz
      · field_simp
      · field_simp; linear_combination nx
  · refine Or.inl ⟨(v2.x - v0.x) / (v1.x - v0.x), ?_, ?_, ?_⟩
    · field_simp
    · field_simp; linear_combination nz
    · field_simp; linear_combination -ny

/-- The thirteen tests leave only triangles that meet the box. -/
theorem tests_exact {h v0 v1 v2 : V3 K} (p0 : 0 ≤ h.x) (p1 : 0 ≤ h.y) (p2 : 0 ≤ h.z) (T : Tests h v0 v1 v2) :
    ∃ α β γ : K, 0 ≤ α ∧ 0 ≤ β ∧ 0 ≤ γ ∧ α + β + γ = 1 ∧ |(comb α β γ v0 v1 v2).x| ≤ h.x ∧
      |(comb α β γ v0 v1 v2).y| ≤ h.y ∧ |(comb α β γ v0 v1 v2).z| ≤ h.z := by
  have T' := tests_touch p0 p1 p2 T
  have key : ∃ t ∈ (S : Set (K × K)), ∀ p, t ∈ H (coords v0 v1 v2) (vec h) p := by
    by_cases hn : ((v1.sub v0).cross (v2.sub v1)).x = 0 ∧ ((v1.sub v0).cross (v2.sub v1)).y = 0 ∧
      ((v1.sub v0).cross (v2.sub v1)).z = 0
    · exact T'.meet_line (on_line hn)
    · exact T'.meet_plane (tests_plane p0 p1 p2 T.pl hn)
  obtain ⟨t, ⟨t1, t2, t3⟩, ht⟩ := key
  refine ⟨1 - t.1 - t.2, t.1, t.2, by linarith, t1, t2, by ring, ?_, ?_, ?_⟩
  · refine le_trans (le_of_eq ?_) (H_abs ht 0)
    congr 1
    show (1 - t.1 - t.2) * v0.x + t.1 * v1.x + t.2 * v2.x = v0.x + t.1 * (v1.x - v0.x) + t.2 * (v2.x - v0.x)
    ring
  · refine le_trans (le_of_eq ?_) (H_abs ht 1)
    congr 1
    show (1 - t.1 - t.2) * v0.y + t.1 * v1.y + t.2 * v2.y = v0.y + t.1 * (v1.y - v0.y) + t.2 * (v2.y - v0.y)
    ring
  · refine le_trans (le_of_eq ?_) (H_abs ht 2)
    congr 1
    show (1 - t.1 - t.2) * v0.z + t.1 * v1.z + t.2 * v2.z = v0.z + t.1 * (v1.z - v0.z) + t.2 * (v2.z - v0.z)
    ring

/-- C167, part 6.  The test whether a triangle meets a box answers true exactly if some point of the
triangle lies in the box (boundaries included), for every triangle, degenerate or not, and every box. -/
theorem C167_test (ctr h a b c : V3 K) (p0 : 0 ≤ h.x) (p1 : 0 ≤ h.y) (p2 : 0 ≤ h.z) :
    triBox ctr h a b c = true ↔
      ∃ y, OnTriangle a b c y ∧ |y.x - ctr.x| ≤ h.x ∧ |y.y - ctr.y| ≤ h.y ∧ |y.z - ctr.z| ≤ h.z := by
  constructor
  · intro ht
    obtain ⟨α, β, γ, ha, hb, hc, hs, c1, c2, c3⟩ := tests_exact p0 p1 p2 (triBox_iff.1 ht)
    refine ⟨_, ⟨α, β, γ, ha, hb, hc, hs, rfl⟩, ?_, ?_, ?_⟩
    · refine le_trans (le_of_eq ?_) c1
      congr 1; simp only [comb, V3.sub]; linear_combination ctr.x * hs
    · refine le_trans (le_of_eq ?_) c2
      congr 1; simp only [comb, V3.sub]; linear_combination ctr.y * hs
    · refine le_trans (le_of_eq ?_) c3
      congr 1; simp only [comb, V3.sub]; linear_combination ctr.z * hs
  · rintro ⟨y, ⟨α, β, γ, ha, hb, hc, hs, rfl⟩, c1, c2, c3⟩
    exact triBox_meets ha hb hc hs c1 c2 c3

/-- C167, part 7.  A voxel of the grid is on the surface exactly if its box contains a point of a
triangle of the mesh. -/
theorem C167_exact (dbg : Bool) (ps : List (V3 K)) (tris : List (ℕ × ℕ × ℕ)) (dim : ℕ) (g : Grid K)
    (hv : Valid ps tris) (h : voxelize dbg ps tris dim = some (some g)) (hs0 : g.vol.d0 ≤ 32767)
    (hs1 : g.vol.d1 ≤ 32767) (hs2 : g.vol.d2 ≤ 32767) (q : Cell)
    (hq : Inside3 g.vol.d0 g.vol.d1 g.vol.d2 q) :
    get false g.vol q = some Val.on ↔
      ∃ a b c y, IsTriangle ps tris a b c ∧ OnTriangle a b c y ∧ Covers g q y := by
  constructor
  · intro hon
    have R := voxelize_some hv h hs0 hs1 hs2
    rw [get_false hq, Option.some.injEq] at hon
    obtain ⟨t, htm, a, b, c, ea, eb, ec, hh⟩ := (R.on q hq).1 hon
    obtain ⟨y, ⟨α, β, γ, ha, hb, hc, hs, rfl⟩, c1, c2, c3⟩ := (C167_test _ _ _ _ _ (by norm_num) (by norm_num) (by norm_num)).1 hh
    refine ⟨a, b, c, comb α β γ a b c, ⟨t, htm, ea, eb, ec⟩, ⟨α, β, γ, ha, hb, hc, hs, rfl⟩, ?_⟩
    rw [unit_covers R.sc, ← unit_comb hs]
    exact ⟨c1, c2, c3⟩
  · rintro ⟨a, b, c, y, ht, hy, hc⟩
    exact (C167_surface dbg ps tris dim g hv h hs0 hs1 hs2 a b c y ht hy).2 q hq hc

/-! ### The hypotheses are met -/

/-- A large triangle that crosses the box in its middle, with no corner inside. -/
example : triBox (⟨0, 0, 0⟩ : V3 ℚ) ⟨1 / 2, 1 / 2, 1 / 2⟩ ⟨3, 0, 0⟩ ⟨-3, 3, 1⟩ ⟨-3, -3, -1⟩ = true := by decide +kernel

/-- A triangle whose bounding box contains the box but which passes by one of its corners. -/
example : triBox (⟨0, 0, 0⟩ : V3 ℚ) ⟨1 / 2, 1 / 2, 1 / 2⟩ ⟨4, -1, -1⟩ ⟨-1, 4, -1⟩ ⟨-1, -1, 4⟩ = false := by decide +kernel

/-- So no point of it lies in the box. -/
example : ¬ ∃ y, OnTriangle (⟨4, -1, -1⟩ : V3 ℚ) ⟨-1, 4, -1⟩ ⟨-1, -1, 4⟩ y ∧ |y.x - 0| ≤ 1 / 2 ∧ |y.y - 0| ≤ 1 / 2 ∧ |y.z - 0| ≤ 1 / 2 := by
  have h := C167_test (⟨0, 0, 0⟩ : V3 ℚ) ⟨1 / 2, 1 / 2, 1 / 2⟩ ⟨4, -1, -1⟩ ⟨-1, 4, -1⟩ ⟨-1, -1, 4⟩ (by norm_num) (by norm_num) (by norm_num)
  intro hy
  have := h.2 hy
  revert this
  decide +kernel

/-- Degenerate triangles are decided too: a segment and a point. -/
example : triBox (⟨0, 0, 0⟩ : V3 ℚ) ⟨1 / 2, 1 / 2, 1 / 2⟩ ⟨1, 1, 1⟩ ⟨-1, -1, -1⟩ ⟨1, 1, 1⟩ = true ∧
    triBox (⟨0, 0, 0⟩ : V3 ℚ) ⟨1 / 2, 1 / 2, 1 / 2⟩ ⟨1, 1, 1⟩ ⟨1, 1, 1⟩ ⟨1, 1, 1⟩ = false := by decide +kernel

/-- The hypotheses of part 7 are met. -/
example : ∃ g, voxelize true tetra tetraTris 5 = some (some g) ∧
    (get false g.vol (0, 0, 0) = some Val.on ↔
      ∃ a b c y, IsTriangle tetra tetraTris a b c ∧ OnTriangle a b c y ∧ Covers g (0, 0, 0) y) := by
  obtain ⟨g, h, g0, g1, g2, -⟩ := voxelize_run (dbg := true) (p := (⟨0, 0, 0⟩ : V3 ℚ))
    (rest := [⟨4, 0, 0⟩, ⟨0, 3, 0⟩, ⟨0, 0, 2⟩]) (tris := tetraTris) (dim := 5) (r := 4) (x := 5) (y := 5)
    (z := 4) (by norm_num) (by decide +kernel) (by norm_num) (by norm_num) (by norm_num) (by norm_num)
    (by decide +kernel)
  refine ⟨g, h, C167_exact true tetra tetraTris 5 g (by unfold Valid tetra tetraTris; decide) h (by omega) (by omega) (by omega) _ ?_⟩
  unfold Inside3
  rw [g0, g1, g2]
  norm_num

end Verif.Voxel
