import Verif.Props.Diagonalize
import Verif.Model.Raycast
import Mathlib.Data.Rat.Floor
import Mathlib.Tactic.NormNum

set_option linter.unusedSectionVars false
set_option linter.unusedVariables false

/-!
# C179: projecting the points of hulls onto the model

Specification: points of triangles and of rays, how steeply a direction meets a triangle, squares of distances.
-/

namespace Verif.Raycast

open Verif.Voxel (V3)
open Verif.TetAxes (low high)
open Verif.Diag (IsSqrt)

variable {K : Type} [Field K] [LinearOrder K] [IsStrictOrderedRing K]

/-! ### Specification -/

/-- The points of a triangle. -/
def OnTri (tri : Tri K) (q : V3 K) : Prop :=
  ∃ u v : K, 0 ≤ u ∧ 0 ≤ v ∧ u + v ≤ 1
    ∧ q = ⟨tri.1.x + u * (tri.2.1.x - tri.1.x) + v * (tri.2.2.x - tri.1.x), tri.1.y + u * (tri.2.1.y - tri.1.y) + v * (tri.2.2.y - tri.1.y),
        tri.1.z + u * (tri.2.1.z - tri.1.z) + v * (tri.2.2.z - tri.1.z)⟩

/-- The points of the ray from `a` through `b`, without its beginning: `r` times the way. -/
def OnRay (a b : V3 K) (r : K) (q : V3 K) : Prop :=
  0 < r ∧ q = ⟨a.x + r * (b.x - a.x), a.y + r * (b.y - a.y), a.z + r * (b.z - a.z)⟩

/-- The determinant of the direction and two edges: the length of the direction, twice the area of the triangle and the
cosine of the angle with its normal, multiplied. -/
def steep (d : V3 K) (tri : Tri K) : K :=
  (tri.2.1.x - tri.1.x) * (d.y * (tri.2.2.z - tri.1.z) - d.z * (tri.2.2.y - tri.1.y))
  + (tri.2.1.y - tri.1.y) * (d.z * (tri.2.2.x - tri.1.x) - d.x * (tri.2.2.z - tri.1.z))
  + (tri.2.1.z - tri.1.z) * (d.x * (tri.2.2.y - tri.1.y) - d.y * (tri.2.2.x - tri.1.x))

/-- The square of the distance of two points. -/
def sqd (a b : V3 K) : K := (a.x - b.x) ^ 2 + (a.y - b.y) ^ 2 + (a.z - b.z) ^ 2

/-- The numbers `0.00001` and `0.0000000001f`, up to rounding, satisfy what is assumed of the constants. -/
example : (0 : ℚ) < 1 / 100000 ∧ (0 : ℚ) < 1 / 10000000000 := by norm_num

/-! ### One triangle -/

theorem sqd_eq (a b : V3 K) : dist2 a b = sqd a b := by unfold dist2 sqd; ring

theorem sqd_nonneg (a b : V3 K) : 0 ≤ sqd a b := by unfold sqd; positivity

theorem steep_eq (d : V3 K) (tri : Tri K) : (tri.2.1.sub tri.1).dot (d.cross (tri.2.2.sub tri.1)) = steep d tri := by
  unfold steep V3.dot V3.cross V3.sub; rfl

theorem not_small {tol a : K} : ¬ (-tol < a ∧ a < tol) ↔ tol ≤ |a| := by
  rw [← abs_lt, not_lt]

/-- **C179** A hit is a point of the triangle on the ray. -/
theorem C179_hit {tol : K} (ht : 0 < tol) {p d : V3 K} {tri : Tri K} {t : K} (h : rayTri tol p d tri = some t) :
    0 < t ∧ OnTri tri (along p d t) ∧ tol ≤ |steep d tri| := by
  unfold rayTri at h
  simp only [steep_eq] at h
  by_cases h1 : -tol < steep d tri ∧ steep d tri < tol
  · rw [if_pos h1] at h; cases h
  rw [if_neg h1] at h
  have hb := not_small.1 h1
  have ha : steep d tri ≠ 0 := by
    intro h0; rw [h0, abs_zero] at hb; exact absurd hb (not_le.2 ht)
  by_cases h2 : 1 / steep d tri * (p.sub tri.1).dot (d.cross (tri.2.2.sub tri.1)) < 0 ∨ 1 < 1 / steep d tri * (p.sub tri.1).dot (d.cross (tri.2.2.sub tri.1))
  · rw [if_pos h2] at h; cases h
  rw [if_neg h2] at h
  push Not at h2
  by_cases h3 : 1 / steep d tri * d.dot ((p.sub tri.1).cross (tri.2.1.sub tri.1)) < 0 ∨ 1 < 1 / steep d tri * (p.sub tri.1).dot (d.cross (tri.2.2.sub tri.1)) + 1 / steep d tri * d.dot ((p.sub tri.1).cross (tri.2.1.sub tri.1))
  · rw [if_pos h3] at h; cases h
  rw [if_neg h3] at h
  push Not at h3
  by_cases h4 : 0 < 1 / steep d tri * (tri.2.2.sub tri.1).dot ((p.sub tri.1).cross (tri.2.1.sub tri.1))
  · rw [if_pos h4] at h
    obtain rfl := Option.some.inj h
    refine ⟨h4, ⟨_, _, h2.1, h3.1, h3.2, ?_⟩, hb⟩
    unfold along
    ext
    · simp only
      field_simp
      unfold steep V3.dot V3.cross V3.sub; ring
    · simp only
      field_simp
      unfold steep V3.dot V3.cross V3.sub; ring
    · simp only
      field_simp
      unfold steep V3.dot V3.cross V3.sub; ring
  · rw [if_neg h4] at h; cases h

/-- **C179** Every point at which the ray meets a triangle steeply enough is found. -/
theorem C179_found {tol : K} (ht : 0 < tol) {p d : V3 K} {tri : Tri K} {t : K} (h0 : 0 < t) (ho : OnTri tri (along p d t))
    (hs : tol ≤ |steep d tri|) : rayTri tol p d tri = some t := by
  obtain ⟨u, v, hu, hv, huv, he⟩ := ho
  have ha : steep d tri ≠ 0 := by
    intro h0; rw [h0, abs_zero] at hs; exact absurd hs (not_le.2 ht)
  have hx := congrArg V3.x he
  have hy := congrArg V3.y he
  have hz := congrArg V3.z he
  simp only [along] at hx hy hz
  have k1 : (p.sub tri.1).dot (d.cross (tri.2.2.sub tri.1)) = u * steep d tri := by
    unfold steep V3.dot V3.cross V3.sub
    simp only
    linear_combination (d.y * (tri.2.2.z - tri.1.z) - d.z * (tri.2.2.y - tri.1.y)) * hx + (d.z * (tri.2.2.x - tri.1.x) - d.x * (tri.2.2.z - tri.1.z)) * hy
      + (d.x * (tri.2.2.y - tri.1.y) - d.y * (tri.2.2.x - tri.1.x)) * hz
  have k2 : d.dot ((p.sub tri.1).cross (tri.2.1.sub tri.1)) = v * steep d tri := by
    unfold steep V3.dot V3.cross V3.sub
    simp only
    linear_combination ((tri.2.1.y - tri.1.y) * d.z - (tri.2.1.z - tri.1.z) * d.y) * hx + ((tri.2.1.z - tri.1.z) * d.x - (tri.2.1.x - tri.1.x) * d.z) * hy
      + ((tri.2.1.x - tri.1.x) * d.y - (tri.2.1.y - tri.1.y) * d.x) * hz
  have k3 : (tri.2.2.sub tri.1).dot ((p.sub tri.1).cross (tri.2.1.sub tri.1)) = t * steep d tri := by
    unfold steep V3.dot V3.cross V3.sub
    simp only
    linear_combination ((tri.2.1.y - tri.1.y) * (tri.2.2.z - tri.1.z) - (tri.2.1.z - tri.1.z) * (tri.2.2.y - tri.1.y)) * hx
      + ((tri.2.1.z - tri.1.z) * (tri.2.2.x - tri.1.x) - (tri.2.1.x - tri.1.x) * (tri.2.2.z - tri.1.z)) * hy
      + ((tri.2.1.x - tri.1.x) * (tri.2.2.y - tri.1.y) - (tri.2.1.y - tri.1.y) * (tri.2.2.x - tri.1.x)) * hz
  have kk : ∀ w : K, 1 / steep d tri * (w * steep d tri) = w := fun w => by field_simp
  unfold rayTri
  simp only [steep_eq, k1, k2, k3, kk]
  rw [if_neg (not_small.2 hs), if_neg (by push Not; exact ⟨hu, by linarith⟩), if_neg (by push Not; exact ⟨hv, huv⟩), if_pos h0]

/-- **C179, violated** Small triangles are never hit, at any angle: whenever the lengths of two edges multiplied are below
the constant, as for triangles with edges of three millimetres in a model in metres. -/
theorem C179_violated_small {tol : K} (ht : 0 < tol) {p d : V3 K} {tri : Tri K} (hd : d.x ^ 2 + d.y ^ 2 + d.z ^ 2 = 1)
    (hs : sqd tri.2.1 tri.1 * sqd tri.2.2 tri.1 < tol ^ 2) : rayTri tol p d tri = none := by
  have hsq : steep d tri ^ 2 ≤ sqd tri.2.1 tri.1 * sqd tri.2.2 tri.1 := by
    unfold steep sqd
    generalize tri.2.1.x - tri.1.x = a1
    generalize tri.2.1.y - tri.1.y = a2
    generalize tri.2.1.z - tri.1.z = a3
    generalize tri.2.2.x - tri.1.x = b1
    generalize tri.2.2.y - tri.1.y = b2
    generalize tri.2.2.z - tri.1.z = b3
    have hA : (a1 * (d.y * b3 - d.z * b2) + a2 * (d.z * b1 - d.x * b3) + a3 * (d.x * b2 - d.y * b1)) ^ 2
        ≤ (a1 ^ 2 + a2 ^ 2 + a3 ^ 2) * ((d.y * b3 - d.z * b2) ^ 2 + (d.z * b1 - d.x * b3) ^ 2 + (d.x * b2 - d.y * b1) ^ 2) := by
      generalize d.y * b3 - d.z * b2 = c1
      generalize d.z * b1 - d.x * b3 = c2
      generalize d.x * b2 - d.y * b1 = c3
      have hid : (a1 ^ 2 + a2 ^ 2 + a3 ^ 2) * (c1 ^ 2 + c2 ^ 2 + c3 ^ 2) - (a1 * c1 + a2 * c2 + a3 * c3) ^ 2
          = (a1 * c2 - a2 * c1) ^ 2 + (a1 * c3 - a3 * c1) ^ 2 + (a2 * c3 - a3 * c2) ^ 2 := by ring
      have : 0 ≤ (a1 * c2 - a2 * c1) ^ 2 + (a1 * c3 - a3 * c1) ^ 2 + (a2 * c3 - a3 * c2) ^ 2 := by positivity
      linarith
    have hB : (d.y * b3 - d.z * b2) ^ 2 + (d.z * b1 - d.x * b3) ^ 2 + (d.x * b2 - d.y * b1) ^ 2 ≤ b1 ^ 2 + b2 ^ 2 + b3 ^ 2 := by
      have hid : (d.x ^ 2 + d.y ^ 2 + d.z ^ 2) * (b1 ^ 2 + b2 ^ 2 + b3 ^ 2) - ((d.y * b3 - d.z * b2) ^ 2 + (d.z * b1 - d.x * b3) ^ 2 + (d.x * b2 - d.y * b1) ^ 2)
          = (d.x * b1 + d.y * b2 + d.z * b3) ^ 2 := by ring
      rw [hd, one_mul] at hid
      have : 0 ≤ (d.x * b1 + d.y * b2 + d.z * b3) ^ 2 := sq_nonneg _
      linarith
    exact hA.trans (mul_le_mul_of_nonneg_left hB (by positivity))
  have hlt : |steep d tri| < tol := abs_lt_of_sq_lt_sq (lt_of_le_of_lt hsq hs) ht.le
  unfold rayTri
  simp only [steep_eq]
  rw [if_pos (abs_lt.1 hlt)]

/-! ### All triangles -/

theorem cast_spec (sqrt : K → K) (tol : K) (frm dir close : V3 K) (tris : List (Tri K)) : ∀ st : K × Option (V3 K × K),
    let r := tris.foldl (castStep sqrt tol frm dir close) st
    r.1 ≤ st.1
    ∧ (∀ tri ∈ tris, ∀ t, rayTri tol frm dir tri = some t → r.1 ≤ sqrt (dist2 (along frm dir t) close))
    ∧ ((r = st) ∨ ∃ tri ∈ tris, ∃ t, rayTri tol frm dir tri = some t ∧ r.2 = some (along frm dir t, r.1)
        ∧ r.1 = sqrt (dist2 (along frm dir t) close) ∧ r.1 < st.1) := by
  induction tris with
  | nil => intro st; exact ⟨le_refl _, fun _ h => (List.not_mem_nil h).elim, Or.inl rfl⟩
  | cons tri tris ih =>
    intro st
    rw [List.foldl_cons]
    obtain ⟨i1, i2, i3⟩ := ih (castStep sqrt tol frm dir close st tri)
    have hstep : (castStep sqrt tol frm dir close st tri).1 ≤ st.1
        ∧ (∀ t, rayTri tol frm dir tri = some t → (castStep sqrt tol frm dir close st tri).1 ≤ sqrt (dist2 (along frm dir t) close))
        ∧ (castStep sqrt tol frm dir close st tri = st ∨ ∃ t, rayTri tol frm dir tri = some t
            ∧ castStep sqrt tol frm dir close st tri = (sqrt (dist2 (along frm dir t) close), some (along frm dir t, sqrt (dist2 (along frm dir t) close)))
            ∧ sqrt (dist2 (along frm dir t) close) < st.1) := by
      unfold castStep
      cases hr : rayTri tol frm dir tri with
      | none => exact ⟨le_refl _, fun t h => (Option.some_ne_none _ h.symm).elim, Or.inl rfl⟩
      | some t =>
        simp only
        by_cases hlt : sqrt (dist2 (along frm dir t) close) < st.1
        · rw [if_pos hlt]
          exact ⟨hlt.le, fun t' h => by rw [Option.some.inj h], Or.inr ⟨t, rfl, rfl, hlt⟩⟩
        · rw [if_neg hlt]
          exact ⟨le_refl _, fun t' h => by rw [← Option.some.inj h]; exact not_lt.1 hlt, Or.inl rfl⟩
    obtain ⟨s1, s2, s3⟩ := hstep
    refine ⟨i1.trans s1, ?_, ?_⟩
    · intro tri' hm t ht
      rcases List.mem_cons.1 hm with rfl | hm
      · exact i1.trans (s2 t ht)
      · exact i2 tri' hm t ht
    · rcases i3 with h | ⟨tri', hm, t, ht, e1, e2, e3⟩
      · rcases s3 with h' | ⟨t, ht, e, hlt⟩
        · left; exact h.trans h'
        · right
          refine ⟨tri, List.mem_cons_self, t, ht, ?_, ?_, ?_⟩
          · rw [h, e]
          · rw [h, e]
          · rw [h, e]; exact hlt
      · right
        exact ⟨tri', List.mem_cons_of_mem _ hm, t, ht, e1, e2, lt_of_lt_of_le e3 s1⟩

theorem sqrt_lt_iff {sqrt : K → K} (hq : IsSqrt sqrt) {a b : K} (ha : 0 ≤ a) (hb : 0 ≤ b) : sqrt a < sqrt b ↔ a < b := by
  obtain ⟨a1, a2⟩ := hq a ha
  obtain ⟨b1, b2⟩ := hq b hb
  rw [mul_self_lt_mul_self_iff a1 b1, a2, b2]

theorem sqrt_le_iff {sqrt : K → K} (hq : IsSqrt sqrt) {a b : K} (ha : 0 ≤ a) (hb : 0 ≤ b) : sqrt a ≤ sqrt b ↔ a ≤ b := by
  rw [← not_lt, ← not_lt, sqrt_lt_iff hq hb ha]

theorem way_eq (a b : V3 K) : (b.sub a).x * (b.sub a).x + (b.sub a).y * (b.sub a).y + (b.sub a).z * (b.sub a).z = sqd b a := by
  unfold V3.sub sqd; simp only; ring

/-- **C179** What a cast returns: a point of a triangle on the ray, nearer to the given point than the ray is long, with its
distance to that point; no triangle met steeply enough is met nearer to it. -/
theorem C179_nearest {sqrt : K → K} (hq : IsSqrt sqrt) {tol tiny : K} (ht : 0 < tol) (hy : 0 < tiny) {tris : List (Tri K)} {a b c q : V3 K} {l : K}
    (h : raycast sqrt tol tiny tris a b c = some (q, l)) :
    (∃ tri ∈ tris, OnTri tri q) ∧ (∃ r, OnRay a b r q) ∧ 0 ≤ l ∧ l ^ 2 = sqd q c ∧ sqd q c < sqd b a
    ∧ ∀ tri ∈ tris, ∀ r q', OnRay a b r q' → OnTri tri q' → tol * sqrt (sqd b a) ≤ |steep (b.sub a) tri| → sqd q c ≤ sqd q' c := by
  unfold raycast at h
  simp only [way_eq] at h
  by_cases hd : sqrt (sqd b a) < tiny
  · rw [if_pos hd] at h; cases h
  rw [if_neg hd] at h
  have hpos : 0 < sqrt (sqd b a) := lt_of_lt_of_le hy (not_lt.1 hd)
  set n := sqrt (sqd b a) with hn
  obtain ⟨-, i2, i3⟩ := cast_spec sqrt tol a ⟨(b.sub a).x * (1 / n), (b.sub a).y * (1 / n), (b.sub a).z * (1 / n)⟩ c tris (n, none)
  set dir : V3 K := ⟨(b.sub a).x * (1 / n), (b.sub a).y * (1 / n), (b.sub a).z * (1 / n)⟩ with hdir
  rcases i3 with i3 | ⟨tri, hm, t, htri, e1, e2, e3⟩
  · rw [i3] at h; cases h
  rw [e1] at h
  have h' := Option.some.inj h
  have hq1 : along a dir t = q := congrArg Prod.fst h'
  have hl1 := congrArg Prod.snd h'
  simp only at hl1
  rw [hl1] at e2 e3
  rw [hq1, sqd_eq] at e2
  obtain ⟨t0, ton, tsteep⟩ := C179_hit ht htri
  have hroot := hq (sqd q c) (sqd_nonneg q c)
  refine ⟨⟨tri, hm, hq1 ▸ ton⟩, ⟨t * (1 / n), mul_pos t0 (one_div_pos.2 hpos), ?_⟩, e2 ▸ hroot.1, ?_, ?_, ?_⟩
  · rw [← hq1]
    unfold along
    simp only [hdir, V3.sub]
    ext <;> simp only <;> ring
  · rw [e2, sq, hroot.2]
  · rw [e2] at e3
    exact (sqrt_lt_iff hq (sqd_nonneg q c) (sqd_nonneg b a)).1 e3
  · intro tri' hm' r q' hray hon hst
    have hal : along a dir (r * n) = q' := by
      rw [hray.2]
      unfold along
      simp only [hdir, V3.sub]
      have hn0 : n ≠ 0 := ne_of_gt hpos
      ext <;> simp only <;> field_simp
    have hsd : steep dir tri' = steep (b.sub a) tri' * (1 / n) := by
      simp only [hdir, steep]; ring
    have hfound := C179_found ht (p := a) (d := dir) (tri := tri') (t := r * n) (mul_pos hray.1 hpos) (hal ▸ hon) (by
      rw [hsd, abs_mul, abs_of_pos (one_div_pos.2 hpos), mul_one_div, le_div_iff₀ hpos]; exact hst)
    have hle := i2 tri' hm' _ hfound
    rw [hal, sqd_eq, hl1, e2] at hle
    exact (sqrt_le_iff hq (sqd_nonneg q c) (sqd_nonneg q' c)).1 hle

/-- **C179** If nothing is returned, the ray is shorter than the least length or meets no triangle steeply enough that near
to the given point. -/
theorem C179_none {sqrt : K → K} (hq : IsSqrt sqrt) {tol tiny : K} (ht : 0 < tol) (hy : 0 < tiny) {tris : List (Tri K)} {a b c : V3 K}
    (h : raycast sqrt tol tiny tris a b c = none) :
    sqrt (sqd b a) < tiny
    ∨ ∀ tri ∈ tris, ∀ r q', OnRay a b r q' → OnTri tri q' → tol * sqrt (sqd b a) ≤ |steep (b.sub a) tri| → sqd b a ≤ sqd q' c := by
  unfold raycast at h
  simp only [way_eq] at h
  by_cases hd : sqrt (sqd b a) < tiny
  · exact Or.inl hd
  right
  rw [if_neg hd] at h
  have hpos : 0 < sqrt (sqd b a) := lt_of_lt_of_le hy (not_lt.1 hd)
  set n := sqrt (sqd b a) with hn
  obtain ⟨-, i2, i3⟩ := cast_spec sqrt tol a ⟨(b.sub a).x * (1 / n), (b.sub a).y * (1 / n), (b.sub a).z * (1 / n)⟩ c tris (n, none)
  set dir : V3 K := ⟨(b.sub a).x * (1 / n), (b.sub a).y * (1 / n), (b.sub a).z * (1 / n)⟩ with hdir
  rcases i3 with i3 | ⟨tri, hm, t, htri, e1, e2, e3⟩
  · rw [i3] at i2
    intro tri' hm' r q' hray hon hst
    have hal : along a dir (r * n) = q' := by
      rw [hray.2]
      unfold along
      simp only [hdir, V3.sub]
      have hn0 : n ≠ 0 := ne_of_gt hpos
      ext <;> simp only <;> field_simp
    have hsd : steep dir tri' = steep (b.sub a) tri' * (1 / n) := by
      simp only [hdir, steep]; ring
    have hfound := C179_found ht (p := a) (d := dir) (tri := tri') (t := r * n) (mul_pos hray.1 hpos) (hal ▸ hon) (by
      rw [hsd, abs_mul, abs_of_pos (one_div_pos.2 hpos), mul_one_div, le_div_iff₀ hpos]; exact hst)
    have hle := i2 tri' hm' _ hfound
    rw [hal, sqd_eq] at hle
    exact (sqrt_le_iff hq (sqd_nonneg b a) (sqd_nonneg q' c)).1 hle
  · rw [e1] at h; cases h

/-- A triangle across the first axis at `x`. -/
def wall (x : ℝ) : Tri ℝ := (⟨x, -1, -1⟩, ⟨x, 3, -1⟩, ⟨x, -1, 3⟩)

/-- **C179, violated** The ray does not end at the point given as its end, and the distance returned is not the distance the
ray travelled: cast from the origin to one, a wall at two is hit at the distance zero. -/
theorem C179_violated_end : ∃ (tris : List (Tri ℝ)) (a b c q : V3 ℝ) (l : ℝ),
    raycast Real.sqrt (1 / 100000) (1 / 10000000000) tris a b c = some (q, l) ∧ OnRay a b 2 q ∧ l = 0 := by
  refine ⟨[wall 2], ⟨0, 0, 0⟩, ⟨1, 0, 0⟩, ⟨2, 0, 0⟩, ⟨2, 0, 0⟩, 0, ?_, ?_, rfl⟩
  · norm_num [raycast, castStep, rayTri, wall, V3.sub, V3.cross, V3.dot, along, dist2]
  · norm_num [OnRay]

/-- **C179, violated** A wall half way is not found if the given point is further from it than the ray is long. -/
theorem C179_violated_far : ∃ (tris : List (Tri ℝ)) (tri : Tri ℝ) (a b c q : V3 ℝ),
    tri ∈ tris ∧ OnRay a b (1 / 2) q ∧ OnTri tri q ∧ |steep (b.sub a) tri| = 16
    ∧ raycast Real.sqrt (1 / 100000) (1 / 10000000000) tris a b c = none := by
  refine ⟨[wall (1 / 2)], wall (1 / 2), ⟨0, 0, 0⟩, ⟨1, 0, 0⟩, ⟨5, 0, 0⟩, ⟨1 / 2, 0, 0⟩, List.mem_cons_self, ?_, ?_, ?_, ?_⟩
  · norm_num [OnRay]
  · exact ⟨1 / 4, 1 / 4, by norm_num, by norm_num, by norm_num, by norm_num [wall]⟩
  · norm_num [steep, wall, V3.sub]
  · have h9 : Real.sqrt 81 = 9 := by rw [show (81 : ℝ) = 9 ^ 2 by norm_num, Real.sqrt_sq (by norm_num)]
    have h2 : Real.sqrt 4 = 2 := by rw [show (4 : ℝ) = 2 ^ 2 by norm_num, Real.sqrt_sq (by norm_num)]
    norm_num [raycast, castStep, rayTri, wall, V3.sub, V3.cross, V3.dot, along, dist2, h9, h2]

/-! ### The box -/

/-- Below in all three coordinates. -/
def Le3 (a b : V3 K) : Prop := a.x ≤ b.x ∧ a.y ≤ b.y ∧ a.z ≤ b.z

theorem Le3.trans {a b c : V3 K} (h : Le3 a b) (h' : Le3 b c) : Le3 a c :=
  ⟨h.1.trans h'.1, h.2.1.trans h'.2.1, h.2.2.trans h'.2.2⟩

theorem low_spec (m p : V3 K) : Le3 (low m p) m ∧ Le3 (low m p) p ∧ ∀ l, Le3 l m → Le3 l p → Le3 l (low m p) := by
  unfold low Le3
  refine ⟨⟨?_, ?_, ?_⟩, ⟨?_, ?_, ?_⟩, fun l h1 h2 => ⟨?_, ?_, ?_⟩⟩ <;> simp only <;> split_ifs with h <;> first | exact h.le | exact not_lt.1 h | exact le_refl _ | exact h1.1 | exact h1.2.1 | exact h1.2.2 | exact h2.1 | exact h2.2.1 | exact h2.2.2

theorem high_spec (m p : V3 K) : Le3 m (high m p) ∧ Le3 p (high m p) ∧ ∀ l, Le3 m l → Le3 p l → Le3 (high m p) l := by
  unfold high Le3
  refine ⟨⟨?_, ?_, ?_⟩, ⟨?_, ?_, ?_⟩, fun l h1 h2 => ⟨?_, ?_, ?_⟩⟩ <;> simp only <;> split_ifs with h <;> first | exact h.le | exact not_lt.1 h | exact le_refl _ | exact h1.1 | exact h1.2.1 | exact h1.2.2 | exact h2.1 | exact h2.2.1 | exact h2.2.2

theorem box_foldl (ps : List (V3 K)) : ∀ b : V3 K × V3 K,
    let r := ps.foldl (fun b p => (low b.1 p, high b.2 p)) b
    (Le3 r.1 b.1 ∧ Le3 b.2 r.2) ∧ (∀ p ∈ ps, Le3 r.1 p ∧ Le3 p r.2)
    ∧ (∀ l, Le3 l b.1 → (∀ p ∈ ps, Le3 l p) → Le3 l r.1) ∧ (∀ l, Le3 b.2 l → (∀ p ∈ ps, Le3 p l) → Le3 r.2 l) := by
  induction ps with
  | nil => intro b; exact ⟨⟨⟨le_refl _, le_refl _, le_refl _⟩, ⟨le_refl _, le_refl _, le_refl _⟩⟩, fun _ h => (List.not_mem_nil h).elim, fun l h _ => h, fun l h _ => h⟩
  | cons p ps ih =>
    intro b
    rw [List.foldl_cons]
    obtain ⟨⟨i1, i2⟩, i3, i4, i5⟩ := ih (low b.1 p, high b.2 p)
    obtain ⟨l1, l2, l3⟩ := low_spec b.1 p
    obtain ⟨h1, h2, h3⟩ := high_spec b.2 p
    refine ⟨⟨i1.trans l1, h1.trans i2⟩, ?_, ?_, ?_⟩
    · intro q hq
      rcases List.mem_cons.1 hq with rfl | hq
      · exact ⟨i1.trans l2, h2.trans i2⟩
      · exact i3 q hq
    · intro l hl hp
      exact i4 l (l3 l hl (hp p List.mem_cons_self)) fun q hq => hp q (List.mem_cons_of_mem _ hq)
    · intro l hl hp
      exact i5 l (h3 l hl (hp p List.mem_cons_self)) fun q hq => hp q (List.mem_cons_of_mem _ hq)

/-- **C179** The box lies within every box around the points; it has all points in it except perhaps the first.  The full
claim, that it has the first point in it, fails (`C179_violated_box`). -/
theorem C179_box_partial {pts : List (V3 K)} {b : V3 K × V3 K} (h : box pts = some b) :
    (∀ p ∈ pts, Le3 b.1 p) ∧ (∀ p ∈ pts.tail, Le3 p b.2) ∧ Le3 b.1 b.2
    ∧ ∀ l u, (∀ p ∈ pts, Le3 l p ∧ Le3 p u) → Le3 l b.1 ∧ Le3 b.2 u := by
  match pts, h with
  | p0 :: p1 :: ps, h =>
    obtain ⟨⟨i1, i2⟩, i3, i4, i5⟩ := box_foldl (p1 :: ps) (p0, p1)
    have hb := Option.some.inj h
    simp only [hb] at i1 i2 i3 i4 i5
    refine ⟨?_, fun p hp => (i3 p hp).2, (i3 p1 List.mem_cons_self).1.trans i2, ?_⟩
    · intro p hp
      rcases List.mem_cons.1 hp with rfl | hp
      · exact i1
      · exact (i3 p hp).1
    · intro l u hlu
      exact ⟨i4 l (hlu p0 List.mem_cons_self).1 fun p hp => (hlu p (List.mem_cons_of_mem _ hp)).1,
        i5 u (hlu p1 (List.mem_cons_of_mem _ List.mem_cons_self)).2 fun p hp => (hlu p (List.mem_cons_of_mem _ hp)).2⟩

/-- **C179, violated** The first point is left out of the upper end of the box: the box of two points can be one point, with
no diagonal. -/
theorem C179_violated_box : ∃ (pts : List (V3 ℚ)) (b : V3 ℚ × V3 ℚ), box pts = some b ∧ (∃ p ∈ pts, ¬ Le3 p b.2) ∧ sqd b.2 b.1 = 0 := by
  refine ⟨[⟨1, 0, 0⟩, ⟨0, 0, 0⟩], (⟨0, 0, 0⟩, ⟨0, 0, 0⟩), by decide +kernel, ⟨⟨1, 0, 0⟩, by simp, ?_⟩, by norm_num [sqd]⟩
  norm_num [Le3]

/-- **C179, violated** With a single point the second is read, outside of the array. -/
theorem C179_violated_single (sqrt : K → K) (tol tiny : K) (tris : List (Tri K)) (p : V3 K) : project sqrt tol tiny tris [p] = none := rfl

/-! ### The points -/

/-- A place for a point: the point itself, or a point of the model not further than `far` from it. -/
def Near (tris : List (Tri K)) (far : K) (p y : V3 K) : Prop := y = p ∨ (∃ tri ∈ tris, OnTri tri y) ∧ sqd y p ≤ far ^ 2

theorem moved_near {sqrt : K → K} (hq : IsSqrt sqrt) {tol tiny : K} (ht : 0 < tol) (hy : 0 < tiny) (tris : List (Tri K)) (c : V3 K) {diag : K}
    (hd : 0 ≤ diag) (p : V3 K) : Near tris (diag * (5 / 100)) p (moved sqrt tol tiny tris c diag p) := by
  unfold moved
  cases h : raycast sqrt tol tiny tris c (target sqrt c diag p) p with
  | none => exact Or.inl rfl
  | some r =>
    obtain ⟨q, l⟩ := r
    simp only
    by_cases hf : diag * (5 / 100) < l
    · rw [if_pos hf]; exact Or.inl rfl
    · rw [if_neg hf]
      obtain ⟨h1, -, h3, h4, -, -⟩ := C179_nearest hq ht hy h
      exact Or.inr ⟨h1, h4 ▸ pow_le_pow_left₀ h3 (not_lt.1 hf) 2⟩

theorem snap_spec (diag : K) (ys : List (V3 K)) : ∀ out : List (V3 K), out.Pairwise (fun o y => (diag * (1 / 100)) ^ 2 ≤ sqd o y) →
    let r := ys.foldl (snapStep diag) out
    r.Pairwise (fun o y => (diag * (1 / 100)) ^ 2 ≤ sqd o y) ∧ (∀ y ∈ r, y ∈ out ∨ y ∈ ys) ∧ (∀ o ∈ out, o ∈ r)
    ∧ ∀ y ∈ ys, y ∈ r ∨ ∃ o ∈ r, sqd o y < (diag * (1 / 100)) ^ 2 := by
  induction ys with
  | nil => intro out hp; exact ⟨hp, fun y h => Or.inl h, fun o h => h, fun _ h => (List.not_mem_nil h).elim⟩
  | cons y ys ih =>
    intro out hp
    rw [List.foldl_cons]
    unfold snapStep
    by_cases hc : (out.any fun o => decide (dist2 o y < diag * (1 / 100) * (diag * (1 / 100)))) = true
    · rw [if_pos hc]
      obtain ⟨i1, i2, i3, i4⟩ := ih out hp
      refine ⟨i1, fun z hz => (i2 z hz).imp id (List.mem_cons_of_mem _), i3, ?_⟩
      intro z hz
      rcases List.mem_cons.1 hz with rfl | hz
      · right
        obtain ⟨o, ho, hlt⟩ := List.any_eq_true.1 hc
        rw [decide_eq_true_iff, sqd_eq, ← sq] at hlt
        exact ⟨o, i3 o ho, hlt⟩
      · exact i4 z hz
    · rw [if_neg hc]
      have hfar : ∀ o ∈ out, (diag * (1 / 100)) ^ 2 ≤ sqd o y := by
        intro o ho
        by_contra hlt
        apply hc
        rw [List.any_eq_true]
        refine ⟨o, ho, ?_⟩
        rw [decide_eq_true_iff, sqd_eq, ← sq]
        exact not_le.1 hlt
      obtain ⟨i1, i2, i3, i4⟩ := ih (out ++ [y]) (by
        rw [List.pairwise_append]
        refine ⟨hp, List.pairwise_singleton _ _, fun o ho z hz => ?_⟩
        rw [List.mem_singleton.1 hz]; exact hfar o ho)
      refine ⟨i1, ?_, fun o ho => i3 o (List.mem_append_left _ ho), ?_⟩
      · intro z hz
        rcases i2 z hz with h | h
        · rcases List.mem_append.1 h with h | h
          · exact Or.inl h
          · exact Or.inr (by rw [List.mem_singleton.1 h]; exact List.mem_cons_self)
        · exact Or.inr (List.mem_cons_of_mem _ h)
      · intro z hz
        rcases List.mem_cons.1 hz with rfl | hz
        · exact Or.inl (i3 z (List.mem_append_right _ (List.mem_singleton.2 rfl)))
        · exact i4 z hz

/-- **C179** The points handed on are points of the hull, or points of the model at most five hundredths of the diagonal
from one; any two are a hundredth of the diagonal apart; and every point of the hull was kept, moved, or dropped for
another point less than a hundredth of the diagonal from its place.  The diagonal is at most that of any box around the
points. -/
theorem C179_points {sqrt : K → K} (hq : IsSqrt sqrt) {tol tiny : K} (ht : 0 < tol) (hy : 0 < tiny) {tris : List (Tri K)} {pts out : List (V3 K)}
    (h : project sqrt tol tiny tris pts = some out) :
    ∃ diag, 0 ≤ diag ∧ (∀ l u, (∀ p ∈ pts, Le3 l p ∧ Le3 p u) → diag ^ 2 ≤ sqd u l)
      ∧ (∀ y ∈ out, ∃ p ∈ pts, Near tris (diag * (5 / 100)) p y)
      ∧ out.Pairwise (fun o y => (diag * (1 / 100)) ^ 2 ≤ sqd o y)
      ∧ ∀ p ∈ pts, ∃ y, Near tris (diag * (5 / 100)) p y ∧ (y ∈ out ∨ ∃ o ∈ out, sqd o y < (diag * (1 / 100)) ^ 2) := by
  unfold project at h
  cases hb : box pts with
  | none => rw [hb] at h; cases h
  | some b =>
    rw [hb] at h
    have ho := Option.some.inj h
    simp only at ho
    obtain ⟨-, -, b3, b4⟩ := C179_box_partial hb
    have hroot := hq (sqd b.2 b.1) (sqd_nonneg _ _)
    have hdiag : (centre sqrt b).2 = sqrt (sqd b.2 b.1) := by unfold centre; simp only [sqd_eq]
    have hd : 0 ≤ (centre sqrt b).2 := hdiag ▸ hroot.1
    obtain ⟨s1, s2, -, s4⟩ := snap_spec (centre sqrt b).2 (pts.map (moved sqrt tol tiny tris (centre sqrt b).1 (centre sqrt b).2)) [] List.Pairwise.nil
    rw [ho] at s1 s2 s4
    refine ⟨(centre sqrt b).2, hd, ?_, ?_, s1, ?_⟩
    · intro l u hlu
      obtain ⟨hl, hu⟩ := b4 l u hlu
      rw [hdiag, sq, hroot.2]
      unfold sqd
      have hx : (b.2.x - b.1.x) ^ 2 ≤ (u.x - l.x) ^ 2 := pow_le_pow_left₀ (by linarith [b3.1]) (by linarith [hl.1, hu.1]) 2
      have hy : (b.2.y - b.1.y) ^ 2 ≤ (u.y - l.y) ^ 2 := pow_le_pow_left₀ (by linarith [b3.2.1]) (by linarith [hl.2.1, hu.2.1]) 2
      have hz : (b.2.z - b.1.z) ^ 2 ≤ (u.z - l.z) ^ 2 := pow_le_pow_left₀ (by linarith [b3.2.2]) (by linarith [hl.2.2, hu.2.2]) 2
      linarith
    · intro y hy'
      rcases s2 y hy' with h | h
      · exact (List.not_mem_nil h).elim
      · obtain ⟨p, hp, rfl⟩ := List.mem_map.1 h
        exact ⟨p, hp, moved_near hq ht hy tris _ hd p⟩
    · intro p hp
      exact ⟨_, moved_near hq ht hy tris _ hd p, s4 _ (List.mem_map_of_mem hp)⟩

theorem sqd_zero {a b : V3 K} (h : sqd a b ≤ 0) : a = b := by
  unfold sqd at h
  have hx := sq_nonneg (a.x - b.x)
  have hy := sq_nonneg (a.y - b.y)
  have hz := sq_nonneg (a.z - b.z)
  have k : ∀ w : K, w ^ 2 ≤ 0 → w = 0 := fun w hw => pow_eq_zero_iff (two_ne_zero) |>.1 (le_antisymm hw (sq_nonneg w))
  ext
  · exact sub_eq_zero.1 (k _ (by linarith))
  · exact sub_eq_zero.1 (k _ (by linarith))
  · exact sub_eq_zero.1 (k _ (by linarith))

/-- **C179** A point that lies on the model already stays where it is, if the ray meets the model there steeply enough. -/
theorem C179_stays {sqrt : K → K} (hq : IsSqrt sqrt) {tol tiny : K} (ht : 0 < tol) (hy : 0 < tiny) {tris : List (Tri K)} {c p : V3 K} {diag : K}
    (hp : p ≠ c) (hd : 0 < diag) {tri : Tri K} (hm : tri ∈ tris) (hon : OnTri tri p)
    (hs : tol * sqrt (sqd (target sqrt c diag p) c) ≤ |steep ((target sqrt c diag p).sub c) tri|) :
    moved sqrt tol tiny tris c diag p = p := by
  have hpos : 0 < sqd p c := lt_of_le_of_ne (sqd_nonneg _ _) fun h => hp (sqd_zero h.symm.le)
  have hroot := hq (sqd p c) hpos.le
  have hn : 0 < sqrt (sqd p c) := lt_of_le_of_ne hroot.1 fun h => by
    rw [← h, mul_zero] at hroot; exact absurd hroot.2 (ne_of_lt hpos)
  have htar : target sqrt c diag p = ⟨(p.x - c.x) / sqrt (sqd p c) * diag + c.x, (p.y - c.y) / sqrt (sqd p c) * diag + c.y, (p.z - c.z) / sqrt (sqd p c) * diag + c.z⟩ := by
    unfold target
    simp only [way_eq]
    rw [if_pos (ne_of_gt hn)]
    rfl
  have hray : OnRay c (target sqrt c diag p) (sqrt (sqd p c) / diag) p := by
    refine ⟨div_pos hn hd, ?_⟩
    rw [htar]
    have h1 := ne_of_gt hn
    have h2 := ne_of_gt hd
    ext <;> simp only <;> field_simp <;> ring
  have h0 : sqd p p = 0 := by unfold sqd; ring
  unfold moved
  cases h : raycast sqrt tol tiny tris c (target sqrt c diag p) p with
  | none => rfl
  | some r =>
    obtain ⟨q, l⟩ := r
    simp only
    by_cases hf : diag * (5 / 100) < l
    · rw [if_pos hf]
    · rw [if_neg hf]
      have := (C179_nearest hq ht hy h).2.2.2.2.2 tri hm _ p hray hon hs
      rw [h0] at this
      exact sqd_zero this

/-- In models of small triangles nothing is hit at all, and no point moves. -/
theorem raycast_small {sqrt : K → K} (hq : IsSqrt sqrt) {tol tiny : K} (ht : 0 < tol) (hy : 0 < tiny) {tris : List (Tri K)}
    (hs : ∀ tri ∈ tris, sqd tri.2.1 tri.1 * sqd tri.2.2 tri.1 < tol ^ 2) (a b c : V3 K) : raycast sqrt tol tiny tris a b c = none := by
  unfold raycast
  simp only [way_eq]
  by_cases hd : sqrt (sqd b a) < tiny
  · rw [if_pos hd]
  rw [if_neg hd]
  have hpos : 0 < sqrt (sqd b a) := lt_of_lt_of_le hy (not_lt.1 hd)
  have hn := ne_of_gt hpos
  have hroot := (hq (sqd b a) (sqd_nonneg b a)).2
  have hunit : ((b.sub a).x * (1 / sqrt (sqd b a))) ^ 2 + ((b.sub a).y * (1 / sqrt (sqd b a))) ^ 2 + ((b.sub a).z * (1 / sqrt (sqd b a))) ^ 2 = 1 := by
    have he : (b.sub a).x ^ 2 + (b.sub a).y ^ 2 + (b.sub a).z ^ 2 = sqrt (sqd b a) * sqrt (sqd b a) := by
      rw [hroot]; rfl
    generalize sqrt (sqd b a) = n at *
    field_simp
    linear_combination he
  obtain ⟨-, -, h3⟩ := cast_spec sqrt tol a ⟨(b.sub a).x * (1 / sqrt (sqd b a)), (b.sub a).y * (1 / sqrt (sqd b a)), (b.sub a).z * (1 / sqrt (sqd b a))⟩ c tris (sqrt (sqd b a), none)
  rcases h3 with h3 | ⟨tri, hm, t, hr, -⟩
  · rw [h3]
  · rw [C179_violated_small ht hunit (hs tri hm)] at hr; cases hr

/-- A needle: four points that are not in a plane. -/
noncomputable def needle : List (V3 ℝ) := [⟨0, 0, 0⟩, ⟨0, 1 / 200, 0⟩, ⟨1, 0, 0⟩, ⟨1, 0, 1 / 200⟩]

/-- **C179, violated** A thin hull is lost: of the four corners of a tetrahedron two are handed on, in every finely meshed
model.  `ICHull::Process` returns an error for fewer than three points, which is not looked at (vhacdICHull.cpp 211-215,
VHACD.cpp 1708-1714), and the hull is left without triangles. -/
theorem C179_violated_needle (tris : List (Tri ℝ)) (hs : ∀ tri ∈ tris, sqd tri.2.1 tri.1 * sqd tri.2.2 tri.1 < (1 / 100000) ^ 2) :
    steep (⟨1, 0, 0⟩ : V3 ℝ) (⟨0, 0, 0⟩, ⟨0, 1 / 200, 0⟩, ⟨1, 0, 1 / 200⟩) ≠ 0
    ∧ project Real.sqrt (1 / 100000) (1 / 10000000000) tris needle = some [⟨0, 0, 0⟩, ⟨1, 0, 0⟩] := by
  have hq : IsSqrt Real.sqrt := fun x hx => ⟨Real.sqrt_nonneg x, Real.mul_self_sqrt hx⟩
  refine ⟨by norm_num [steep], ?_⟩
  have hmoved : ∀ c diag p, moved Real.sqrt (1 / 100000) (1 / 10000000000) tris c diag p = p := by
    intro c diag p
    unfold moved
    rw [raycast_small hq (by norm_num) (by norm_num) hs]
  have hbox : box needle = some (⟨0, 0, 0⟩, ⟨1, 1 / 200, 1 / 200⟩) := by
    norm_num [box, needle, low, high]
  have hdd : (centre Real.sqrt ((⟨0, 0, 0⟩, ⟨1, 1 / 200, 1 / 200⟩) : V3 ℝ × V3 ℝ)).2 * (1 / 100) * ((centre Real.sqrt ((⟨0, 0, 0⟩, ⟨1, 1 / 200, 1 / 200⟩) : V3 ℝ × V3 ℝ)).2 * (1 / 100))
      = (1 + 1 / 20000) / 10000 := by
    have := (hq (dist2 (⟨1, 1 / 200, 1 / 200⟩ : V3 ℝ) ⟨0, 0, 0⟩) (by norm_num [dist2])).2
    unfold centre
    simp only
    generalize Real.sqrt (dist2 (⟨1, 1 / 200, 1 / 200⟩ : V3 ℝ) ⟨0, 0, 0⟩) = n at *
    have h2 : n * n = 1 + 1 / 20000 := by rw [this]; norm_num [dist2]
    linear_combination h2 / 10000
  unfold project
  rw [hbox]
  simp only [Option.map_some, Option.some.injEq]
  rw [show needle.map (moved Real.sqrt (1 / 100000) (1 / 10000000000) tris (centre Real.sqrt (⟨0, 0, 0⟩, ⟨1, 1 / 200, 1 / 200⟩)).1 (centre Real.sqrt (⟨0, 0, 0⟩, ⟨1, 1 / 200, 1 / 200⟩)).2) = needle by
    rw [List.map_congr_left (fun p _ => hmoved _ _ p), List.map_id']]
  unfold needle
  simp only [List.foldl_cons, List.foldl_nil, snapStep, hdd]
  norm_num [dist2]

/-! ### Examples -/

theorem isSqrt_real : IsSqrt Real.sqrt := fun x hx => ⟨Real.sqrt_nonneg x, Real.mul_self_sqrt hx⟩

/-- A point at one is moved to a wall near it; the hypotheses of `C179_hit`, `C179_found` and `C179_nearest` are met. -/
example : rayTri (1 / 100000) ⟨0, 0, 0⟩ ⟨1, 0, 0⟩ (wall 2) = some 2 ∧ OnTri (wall 2) (along ⟨0, 0, 0⟩ ⟨1, 0, 0⟩ 2)
    ∧ raycast Real.sqrt (1 / 100000) (1 / 10000000000) [wall 3, wall 2] ⟨0, 0, 0⟩ ⟨4, 0, 0⟩ ⟨2, 0, 0⟩ = some (⟨2, 0, 0⟩, 0) := by
  have h4 : Real.sqrt 16 = 4 := by rw [show (16 : ℝ) = 4 ^ 2 by norm_num, Real.sqrt_sq (by norm_num)]
  refine ⟨?_, ⟨1 / 4, 1 / 4, by norm_num, by norm_num, by norm_num, by norm_num [wall, along]⟩, ?_⟩
  · norm_num [rayTri, wall, V3.sub, V3.cross, V3.dot]
  · norm_num [raycast, castStep, rayTri, wall, V3.sub, V3.cross, V3.dot, along, dist2, h4]

/-- A point on a wall across its ray meets the hypotheses of `C179_stays`. -/
example : (⟨1, 0, 0⟩ : V3 ℝ) ≠ ⟨0, 0, 0⟩ ∧ OnTri (wall 1) ⟨1, 0, 0⟩
    ∧ 1 / 100000 * Real.sqrt (sqd (target Real.sqrt ⟨0, 0, 0⟩ 2 ⟨1, 0, 0⟩) ⟨0, 0, 0⟩) ≤ |steep ((target Real.sqrt ⟨0, 0, 0⟩ 2 ⟨1, 0, 0⟩).sub ⟨0, 0, 0⟩) (wall 1)| := by
  have h2 : Real.sqrt 4 = 2 := by rw [show (4 : ℝ) = 2 ^ 2 by norm_num, Real.sqrt_sq (by norm_num)]
  refine ⟨by simp, ⟨1 / 4, 1 / 4, by norm_num, by norm_num, by norm_num, by norm_num [wall]⟩, ?_⟩
  have ht : target Real.sqrt ⟨0, 0, 0⟩ 2 ⟨1, 0, 0⟩ = (⟨2, 0, 0⟩ : V3 ℝ) := by norm_num [target, V3.sub]
  rw [ht]
  norm_num [sqd, steep, wall, V3.sub, h2]

/-- A triangle with edges of three millimetres. -/
example : sqd (⟨0, 3 / 1000, 0⟩ : V3 ℚ) ⟨0, 0, 0⟩ * sqd (⟨0, 0, 3 / 1000⟩ : V3 ℚ) ⟨0, 0, 0⟩ < (1 / 100000) ^ 2 := by norm_num [sqd]

/-- Without triangles near, the points of a hull are handed on. -/
example : (project Real.sqrt (1 / 100000) (1 / 10000000000) [] [⟨0, 0, 0⟩, ⟨1, 0, 0⟩, ⟨0, 1, 0⟩, ⟨0, 0, 1⟩]).isSome = true := rfl

end Verif.Raycast
