import Verif.Model.PlaneCost
import Verif.Props.PartHull
import Verif.Props.ClipPlane

set_option linter.unusedSectionVars false
set_option linter.unusedVariables false

/-!
# C177: the cost of a clipping plane
-/

namespace Verif.PlaneCost

open Verif.Voxel (V3)
open Verif.Decompose (VSet Plane Cand clip side half onGrid height Counted axisPlane coarsePlanes finePlanes volume clippedVolumes)
open Verif.PartHull (corners8 partHull IsHull InBox surfs pick)
open Verif.MeshVol (InHull)

variable {K : Type} [Field K] [LinearOrder K] [IsStrictOrderedRing K]

/-! ### Specification -/

/-- The height of a point over the plane of an axis between the layers `i` and `i + 1` of voxels. -/
def over (s : VSet K) (axis : Fin 3) (i : ℤ) (y : V3 K) : K :=
  match axis with
  | 0 => y.x - (s.ox + s.scale * ((i : K) + 1 / 2))
  | 1 => y.y - (s.oy + s.scale * ((i : K) + 1 / 2))
  | 2 => y.z - (s.oz + s.scale * ((i : K) + 1 / 2))

/-- The voxels of a list far above (`up`) or far below a plane: by more than the side of a voxel. -/
def farOff (p : Plane K) (s : VSet K) (up : Bool) (l : List Decompose.Voxel) : List Decompose.Voxel :=
  l.filter fun v => decide (s.scale < if up then height p s v else -height p s v)

/-! ### Planes -/

theorem eqn_axis (s : VSet K) (axis : Fin 3) (i : ℤ) (y : V3 K) : eqn (axisPlane s axis i).plane y = over s axis i y := by
  fin_cases axis <;> simp [axisPlane, eqn, over] <;> ring

theorem over_mix (s : VSet K) (axis : Fin 3) (i : ℤ) (p q : V3 K) (t : K) :
    over s axis i ⟨(1 - t) * p.x + t * q.x, (1 - t) * p.y + t * q.y, (1 - t) * p.z + t * q.z⟩ =
      (1 - t) * over s axis i p + t * over s axis i q := by
  fin_cases axis <;> simp only [over] <;> ring

theorem above {s : VSet K} {axis : Fin 3} {i : ℤ} {ps : List (V3 K)} (h : ∀ p ∈ ps, 0 ≤ over s axis i p) {y : V3 K}
    (hy : InHull ps y) : 0 ≤ over s axis i y := by
  induction hy with
  | point hp => exact h _ hp
  | between t _ _ h0 h1 a b =>
    rw [over_mix]
    exact add_nonneg (mul_nonneg (sub_nonneg.2 h1) a) (mul_nonneg h0 b)

theorem below {s : VSet K} {axis : Fin 3} {i : ℤ} {ps : List (V3 K)} (h : ∀ p ∈ ps, over s axis i p ≤ 0) {y : V3 K}
    (hy : InHull ps y) : over s axis i y ≤ 0 := by
  induction hy with
  | point hp => exact h _ hp
  | between t _ _ h0 h1 a b =>
    rw [over_mix]
    exact add_nonpos (mul_nonpos_of_nonneg_of_nonpos (sub_nonneg.2 h1) a) (mul_nonpos_of_nonneg_of_nonpos h0 b)

theorem box_over {s : VSet K} {v : Decompose.Voxel} {y : V3 K} (axis : Fin 3) (i : ℤ) (h : InBox s v y) :
    |over s axis i y - ((v.at axis : K) - i - 1 / 2) * s.scale| ≤ s.scale / 2 := by
  obtain ⟨h1, h2, h3⟩ := h
  match axis with
  | 0 =>
    have : over s 0 i y - ((v.at 0 : K) - i - 1 / 2) * s.scale = y.x - (s.ox + s.scale * v.x) := by
      simp only [over, Decompose.Voxel.at]; ring
    rw [this]; exact h1
  | 1 =>
    have : over s 1 i y - ((v.at 1 : K) - i - 1 / 2) * s.scale = y.y - (s.oy + s.scale * v.y) := by
      simp only [over, Decompose.Voxel.at]; ring
    rw [this]; exact h2
  | 2 =>
    have : over s 2 i y - ((v.at 2 : K) - i - 1 / 2) * s.scale = y.z - (s.oz + s.scale * v.z) := by
      simp only [over, Decompose.Voxel.at]; ring
    rw [this]; exact h3

theorem box_above {s : VSet K} (hs : 0 < s.scale) {v : Decompose.Voxel} {y : V3 K} {axis : Fin 3} {i : ℤ} (h : InBox s v y)
    (hv : i < v.at axis) : 0 ≤ over s axis i y := by
  have := abs_le.1 (box_over axis i h)
  have c : (i : K) + 1 ≤ v.at axis := by exact_mod_cast hv
  have : (1 / 2 : K) * s.scale ≤ ((v.at axis : K) - i - 1 / 2) * s.scale := mul_le_mul_of_nonneg_right (by linarith) hs.le
  linarith

theorem box_below {s : VSet K} (hs : 0 < s.scale) {v : Decompose.Voxel} {y : V3 K} {axis : Fin 3} {i : ℤ} (h : InBox s v y)
    (hv : v.at axis ≤ i) : over s axis i y ≤ 0 := by
  have := abs_le.1 (box_over axis i h)
  have c : (v.at axis : K) ≤ i := by exact_mod_cast hv
  have : ((v.at axis : K) - i - 1 / 2) * s.scale ≤ (-(1 / 2) : K) * s.scale := mul_le_mul_of_nonneg_right (by linarith) hs.le
  linarith

theorem height_above {s : VSet K} (hs : 0 < s.scale) (axis : Fin 3) (i : ℤ) (v : Decompose.Voxel) :
    0 ≤ height (axisPlane s axis i).plane s v ↔ i < v.at axis := by
  rw [Decompose.height_axis, mul_nonneg_iff_of_pos_right hs]
  constructor
  · intro h
    by_contra hc
    have : (v.at axis : K) ≤ i := by exact_mod_cast not_lt.mp hc
    linarith
  · intro h
    have : (i : K) + 1 ≤ v.at axis := by exact_mod_cast h
    linarith

/-- C177, part 1.  All planes that are considered, in the first search and in the refinement, are planes across an axis, half
a voxel from the middle of a layer. -/
theorem C177_planes (fuel : ℕ) (s : VSet K) (D : ℕ) (best : Cand K) (l : List (Cand K))
    (h : coarsePlanes fuel s D = some l ∨ finePlanes fuel s best D = some l) (c : Cand K) (hc : c ∈ l) :
    ∃ axis i, ∀ y, eqn c.plane y = over s axis i y := by
  have : ∃ axis i, c = axisPlane s axis i := by
    rcases h with h | h
    · unfold coarsePlanes at h
      simp only [Option.bind_eq_bind, Option.bind_eq_some_iff, Option.pure_def, Option.some.injEq] at h
      obtain ⟨xs, _, ys, _, zs, _, rfl⟩ := h
      simp only [List.mem_append, List.mem_map] at hc
      rcases hc with (⟨i, _, rfl⟩ | ⟨i, _, rfl⟩) | ⟨i, _, rfl⟩
      · exact ⟨_, _, rfl⟩
      · exact ⟨_, _, rfl⟩
      · exact ⟨_, _, rfl⟩
    · unfold finePlanes at h
      simp only [Option.bind_eq_bind, Option.bind_eq_some_iff, Option.pure_def, Option.some.injEq] at h
      obtain ⟨is, _, rfl⟩ := h
      obtain ⟨i, _, rfl⟩ := List.mem_map.1 hc
      exact ⟨_, _, rfl⟩
  obtain ⟨axis, i, rfl⟩ := this
  exact ⟨axis, i, eqn_axis s axis i⟩

/-! ### The points taken -/

theorem foldl_select : ∀ (l : List Decompose.Voxel) (t : VSet K), l.foldl selectStep t =
    { t with voxels := t.voxels ++ l.filter (·.surf), nSurf := t.nSurf + l.countP (·.surf) } := by
  intro l
  induction l with
  | nil => intro t; simp
  | cons v l ih =>
    intro t
    rw [List.foldl_cons, ih]
    unfold selectStep
    by_cases h : v.surf = true
    · simp [h]; omega
    · simp [h]

theorem select_eq (s old : VSet K) (hne : s.voxels ≠ []) : selectOnSurface s old = onGrid s (surfs s) := by
  have hf : (s.voxels.filter (·.surf)).countP (fun v => !v.surf) = 0 := by
    rw [List.countP_eq_zero]
    intro v hv
    simp [(List.mem_filter.1 hv).2]
  have hg : (s.voxels.filter (·.surf)).countP (·.surf) = s.voxels.countP (·.surf) := by
    rw [List.countP_filter]
    simp
  unfold selectOnSurface
  rw [if_neg hne, foldl_select]
  simp only [Decompose.emptyLike, onGrid, surfs, List.nil_append, Nat.zero_add, hf, hg]

/-- C177, part 2.  The set compared has exactly the voxels on the surface, in order, on the same grid, with right counters. -/
theorem C177_surface (s old : VSet K) (hne : s.voxels ≠ []) : let t := selectOnSurface s old
    t.voxels = s.voxels.filter (·.surf) ∧ Counted t ∧ t.nIn = 0 ∧ t.ox = s.ox ∧ t.oy = s.oy ∧ t.oz = s.oz ∧
      t.scale = s.scale ∧ t.unit = s.unit := by
  intro t
  have e : t = onGrid s (surfs s) := select_eq s old hne
  rw [e]
  refine ⟨rfl, ⟨rfl, rfl⟩, ?_, rfl, rfl, rfl, rfl, rfl⟩
  simp only [onGrid]
  rw [List.countP_eq_zero]
  intro v hv
  simp [(List.mem_filter.1 hv).2]

theorem inter_pos (p : Plane K) (m : ℕ) (s : VSet K) (hs : 0 < s.scale) (q : V3 K) :
    ∀ (l : List Decompose.Voxel) (a : Inter K), q ∈ (l.foldl (interStep p m s) a).pos ↔
      q ∈ a.pos ∨ ∃ v, q ∈ corners8 s v ∧
        ((v ∈ l ∧ 0 ≤ height p s v ∧ height p s v ≤ s.scale) ∨ v ∈ pick m a.sp (farOff p s true l)) := by
  intro l
  induction l with
  | nil => intro a; simp [farOff, pick]
  | cons w l ih =>
    intro a
    rw [List.foldl_cons, ih]
    unfold interStep
    rw [Decompose.side_eq]
    by_cases h1 : 0 ≤ height p s w
    · rw [if_pos h1]
      by_cases h2 : height p s w ≤ s.scale
      · rw [if_pos h2]
        have : farOff p s true (w :: l) = farOff p s true l := by
          unfold farOff; rw [List.filter_cons_of_neg]; simpa using h2
        rw [this]
        simp only [List.mem_append, List.mem_cons]
        constructor
        · rintro ((h | h) | ⟨v, e, h | h⟩)
          · exact .inl h
          · exact .inr ⟨w, h, .inl ⟨.inl rfl, h1, h2⟩⟩
          · exact .inr ⟨v, e, .inl ⟨.inr h.1, h.2⟩⟩
          · exact .inr ⟨v, e, .inr h⟩
        · rintro (h | ⟨v, e, ⟨rfl | h, h'⟩ | h⟩)
          · exact .inl (.inl h)
          · exact .inl (.inr e)
          · exact .inr ⟨v, e, .inl ⟨h, h'⟩⟩
          · exact .inr ⟨v, e, .inr h⟩
      · rw [if_neg h2]
        have : farOff p s true (w :: l) = w :: farOff p s true l := by
          unfold farOff; rw [List.filter_cons_of_pos]; simpa using h2
        rw [this, PartHull.pick_cons]
        by_cases h3 : a.sp + 1 = m
        · rw [if_pos h3, if_pos h3]
          simp only [List.mem_append, List.mem_cons]
          constructor
          · rintro ((h | h) | ⟨v, e, h | h⟩)
            · exact .inl h
            · exact .inr ⟨w, h, .inr (.inl rfl)⟩
            · exact .inr ⟨v, e, .inl ⟨.inr h.1, h.2⟩⟩
            · exact .inr ⟨v, e, .inr (.inr h)⟩
          · rintro (h | ⟨v, e, ⟨rfl | h, h'⟩ | rfl | h⟩)
            · exact .inl (.inl h)
            · exact absurd h'.2 h2
            · exact .inr ⟨v, e, .inl ⟨h, h'⟩⟩
            · exact .inl (.inr e)
            · exact .inr ⟨v, e, .inr h⟩
        · rw [if_neg h3, if_neg h3]
          simp only [List.mem_cons]
          constructor
          · rintro (h | ⟨v, e, h | h⟩)
            · exact .inl h
            · exact .inr ⟨v, e, .inl ⟨.inr h.1, h.2⟩⟩
            · exact .inr ⟨v, e, .inr h⟩
          · rintro (h | ⟨v, e, ⟨rfl | h, h'⟩ | h⟩)
            · exact .inl h
            · exact absurd h'.2 h2
            · exact .inr ⟨v, e, .inl ⟨h, h'⟩⟩
            · exact .inr ⟨v, e, .inr h⟩
    · rw [if_neg h1]
      have : farOff p s true (w :: l) = farOff p s true l := by
        unfold farOff; rw [List.filter_cons_of_neg]
        simp only [if_true, decide_eq_true_eq, not_lt]
        linarith [not_le.1 h1]
      rw [this]
      have go : ∀ b : Inter K, b.pos = a.pos → b.sp = a.sp → ((q ∈ b.pos ∨ ∃ v, q ∈ corners8 s v ∧
          ((v ∈ l ∧ 0 ≤ height p s v ∧ height p s v ≤ s.scale) ∨ v ∈ pick m b.sp (farOff p s true l))) ↔
          (q ∈ a.pos ∨ ∃ v, q ∈ corners8 s v ∧
          ((v ∈ w :: l ∧ 0 ≤ height p s v ∧ height p s v ≤ s.scale) ∨ v ∈ pick m a.sp (farOff p s true l)))) := by
        intro b e1 e2
        rw [e1, e2]
        simp only [List.mem_cons]
        constructor
        · rintro (h | ⟨v, e, h | h⟩)
          · exact .inl h
          · exact .inr ⟨v, e, .inl ⟨.inr h.1, h.2⟩⟩
          · exact .inr ⟨v, e, .inr h⟩
        · rintro (h | ⟨v, e, ⟨rfl | h, h'⟩ | h⟩)
          · exact .inl h
          · exact absurd h'.1 h1
          · exact .inr ⟨v, e, .inl ⟨h, h'⟩⟩
          · exact .inr ⟨v, e, .inr h⟩
      by_cases h2 : -height p s w ≤ s.scale
      · rw [if_pos h2]; exact go _ rfl rfl
      · rw [if_neg h2]
        by_cases h3 : a.sn + 1 = m
        · rw [if_pos h3]; exact go _ rfl rfl
        · rw [if_neg h3]; exact go _ rfl rfl

theorem inter_neg (p : Plane K) (m : ℕ) (s : VSet K) (hs : 0 < s.scale) (q : V3 K) :
    ∀ (l : List Decompose.Voxel) (a : Inter K), q ∈ (l.foldl (interStep p m s) a).neg ↔
      q ∈ a.neg ∨ ∃ v, q ∈ corners8 s v ∧
        ((v ∈ l ∧ height p s v < 0 ∧ -height p s v ≤ s.scale) ∨ v ∈ pick m a.sn (farOff p s false l)) := by
  intro l
  induction l with
  | nil => intro a; simp [farOff, pick]
  | cons w l ih =>
    intro a
    rw [List.foldl_cons, ih]
    unfold interStep
    rw [Decompose.side_eq]
    by_cases h1 : 0 ≤ height p s w
    · rw [if_pos h1]
      have : farOff p s false (w :: l) = farOff p s false l := by
        unfold farOff; rw [List.filter_cons_of_neg]
        simp only [Bool.false_eq_true, if_false, decide_eq_true_eq, not_lt]
        linarith
      rw [this]
      have go : ∀ b : Inter K, b.neg = a.neg → b.sn = a.sn → ((q ∈ b.neg ∨ ∃ v, q ∈ corners8 s v ∧
          ((v ∈ l ∧ height p s v < 0 ∧ -height p s v ≤ s.scale) ∨ v ∈ pick m b.sn (farOff p s false l))) ↔
          (q ∈ a.neg ∨ ∃ v, q ∈ corners8 s v ∧
          ((v ∈ w :: l ∧ height p s v < 0 ∧ -height p s v ≤ s.scale) ∨ v ∈ pick m a.sn (farOff p s false l)))) := by
        intro b e1 e2
        rw [e1, e2]
        simp only [List.mem_cons]
        constructor
        · rintro (h | ⟨v, e, h | h⟩)
          · exact .inl h
          · exact .inr ⟨v, e, .inl ⟨.inr h.1, h.2⟩⟩
          · exact .inr ⟨v, e, .inr h⟩
        · rintro (h | ⟨v, e, ⟨rfl | h, h'⟩ | h⟩)
          · exact .inl h
          · exact absurd h'.1 (not_lt.2 h1)
          · exact .inr ⟨v, e, .inl ⟨h, h'⟩⟩
          · exact .inr ⟨v, e, .inr h⟩
      by_cases h2 : height p s w ≤ s.scale
      · rw [if_pos h2]; exact go _ rfl rfl
      · rw [if_neg h2]
        by_cases h3 : a.sp + 1 = m
        · rw [if_pos h3]; exact go _ rfl rfl
        · rw [if_neg h3]; exact go _ rfl rfl
    · rw [if_neg h1]
      by_cases h2 : -height p s w ≤ s.scale
      · rw [if_pos h2]
        have : farOff p s false (w :: l) = farOff p s false l := by
          unfold farOff; rw [List.filter_cons_of_neg]; simpa using h2
        rw [this]
        simp only [List.mem_append, List.mem_cons]
        constructor
        · rintro ((h | h) | ⟨v, e, h | h⟩)
          · exact .inl h
          · exact .inr ⟨w, h, .inl ⟨.inl rfl, not_le.1 h1, h2⟩⟩
          · exact .inr ⟨v, e, .inl ⟨.inr h.1, h.2⟩⟩
          · exact .inr ⟨v, e, .inr h⟩
        · rintro (h | ⟨v, e, ⟨rfl | h, h'⟩ | h⟩)
          · exact .inl (.inl h)
          · exact .inl (.inr e)
          · exact .inr ⟨v, e, .inl ⟨h, h'⟩⟩
          · exact .inr ⟨v, e, .inr h⟩
      · rw [if_neg h2]
        have : farOff p s false (w :: l) = w :: farOff p s false l := by
          unfold farOff; rw [List.filter_cons_of_pos]; simpa using h2
        rw [this, PartHull.pick_cons]
        by_cases h3 : a.sn + 1 = m
        · rw [if_pos h3, if_pos h3]
          simp only [List.mem_append, List.mem_cons]
          constructor
          · rintro ((h | h) | ⟨v, e, h | h⟩)
            · exact .inl h
            · exact .inr ⟨w, h, .inr (.inl rfl)⟩
            · exact .inr ⟨v, e, .inl ⟨.inr h.1, h.2⟩⟩
            · exact .inr ⟨v, e, .inr (.inr h)⟩
          · rintro (h | ⟨v, e, ⟨rfl | h, h'⟩ | rfl | h⟩)
            · exact .inl (.inl h)
            · exact absurd h'.2 h2
            · exact .inr ⟨v, e, .inl ⟨h, h'⟩⟩
            · exact .inl (.inr e)
            · exact .inr ⟨v, e, .inr h⟩
        · rw [if_neg h3, if_neg h3]
          simp only [List.mem_cons]
          constructor
          · rintro (h | ⟨v, e, h | h⟩)
            · exact .inl h
            · exact .inr ⟨v, e, .inl ⟨.inr h.1, h.2⟩⟩
            · exact .inr ⟨v, e, .inr h⟩
          · rintro (h | ⟨v, e, ⟨rfl | h, h'⟩ | h⟩)
            · exact .inl h
            · exact absurd h'.2 h2
            · exact .inr ⟨v, e, .inl ⟨h, h'⟩⟩
            · exact .inr ⟨v, e, .inr h⟩

/-- C177, part 3.  The points taken from a set for the approximate hulls of its two sides are the corners of the voxels within
one voxel of the plane and of every `m`-th other voxel of that side. -/
theorem C177_points (p : Plane K) (m : ℕ) (s : VSet K) (hs : 0 < s.scale) (q : V3 K) :
    (q ∈ (intersect p m s).1 ↔ ∃ v ∈ s.voxels, q ∈ corners8 s v ∧ 0 ≤ height p s v ∧
      (height p s v ≤ s.scale ∨ ∃ i, (farOff p s true s.voxels)[i]? = some v ∧ m ∣ i + 1)) ∧
    (q ∈ (intersect p m s).2 ↔ ∃ v ∈ s.voxels, q ∈ corners8 s v ∧ height p s v < 0 ∧
      (-height p s v ≤ s.scale ∨ ∃ i, (farOff p s false s.voxels)[i]? = some v ∧ m ∣ i + 1)) := by
  have mp : ∀ up v, v ∈ pick m 0 (farOff p s up s.voxels) ↔ ∃ i, (farOff p s up s.voxels)[i]? = some v ∧ m ∣ i + 1 := by
    intro up v
    rw [PartHull.mem_pick m _ 0 (by omega)]
    simp
  constructor
  · unfold intersect
    simp only
    rw [inter_pos p m s hs]
    simp only [List.not_mem_nil, false_or]
    constructor
    · rintro ⟨v, e, ⟨h, h1, h2⟩ | h⟩
      · exact ⟨v, h, e, h1, .inl h2⟩
      · obtain ⟨i, hi, hm⟩ := (mp _ _).1 h
        have hv := List.mem_filter.1 (List.mem_of_getElem? hi)
        simp only [if_true, decide_eq_true_eq] at hv
        exact ⟨v, hv.1, e, (hs.trans hv.2).le, .inr ⟨i, hi, hm⟩⟩
    · rintro ⟨v, h, e, h1, h2 | h2⟩
      · exact ⟨v, e, .inl ⟨h, h1, h2⟩⟩
      · exact ⟨v, e, .inr ((mp _ _).2 h2)⟩
  · unfold intersect
    simp only
    rw [inter_neg p m s hs]
    simp only [List.not_mem_nil, false_or]
    constructor
    · rintro ⟨v, e, ⟨h, h1, h2⟩ | h⟩
      · exact ⟨v, h, e, h1, .inl h2⟩
      · obtain ⟨i, hi, hm⟩ := (mp _ _).1 h
        have hv := List.mem_filter.1 (List.mem_of_getElem? hi)
        simp only [Bool.false_eq_true, if_false, decide_eq_true_eq] at hv
        exact ⟨v, hv.1, e, by linarith [hv.2], .inr ⟨i, hi, hm⟩⟩
    · rintro ⟨v, h, e, h1, h2 | h2⟩
      · exact ⟨v, e, .inl ⟨h, h1, h2⟩⟩
      · exact ⟨v, e, .inr ((mp _ _).2 h2)⟩

theorem mem_meshClip (p : Plane K) (q : V3 K) (pts : List (V3 K)) :
    (q ∈ (meshClip p pts).1 ↔ q ∈ pts ∧ 0 ≤ eqn p q) ∧ (q ∈ (meshClip p pts).2 ↔ q ∈ pts ∧ eqn p q ≤ 0) := by
  have go : ∀ (l : List (V3 K)) (r : List (V3 K) × List (V3 K)),
      let o := l.foldl (fun r y => if 0 < eqn p y then (r.1 ++ [y], r.2) else if eqn p y < 0 then (r.1, r.2 ++ [y])
        else (r.1 ++ [y], r.2 ++ [y])) r
      (q ∈ o.1 ↔ q ∈ r.1 ∨ (q ∈ l ∧ 0 ≤ eqn p q)) ∧ (q ∈ o.2 ↔ q ∈ r.2 ∨ (q ∈ l ∧ eqn p q ≤ 0)) := by
    intro l
    induction l with
    | nil => intro r; simp
    | cons y l ih =>
      intro r
      simp only [List.foldl_cons]
      obtain ⟨i1, i2⟩ := ih (if 0 < eqn p y then (r.1 ++ [y], r.2) else if eqn p y < 0 then (r.1, r.2 ++ [y])
        else (r.1 ++ [y], r.2 ++ [y]))
      rw [i1, i2]
      by_cases h1 : 0 < eqn p y
      · rw [if_pos h1]
        simp only [List.mem_append, List.mem_cons, List.not_mem_nil, or_false]
        constructor
        · constructor
          · rintro ((h | rfl) | h)
            · exact .inl h
            · exact .inr ⟨.inl rfl, h1.le⟩
            · exact .inr ⟨.inr h.1, h.2⟩
          · rintro (h | ⟨rfl | h, h'⟩)
            · exact .inl (.inl h)
            · exact .inl (.inr rfl)
            · exact .inr ⟨h, h'⟩
        · constructor
          · rintro (h | h)
            · exact .inl h
            · exact .inr ⟨.inr h.1, h.2⟩
          · rintro (h | ⟨rfl | h, h'⟩)
            · exact .inl h
            · exact absurd h' (not_le.2 h1)
            · exact .inr ⟨h, h'⟩
      · rw [if_neg h1]
        by_cases h2 : eqn p y < 0
        · rw [if_pos h2]
          simp only [List.mem_append, List.mem_cons, List.not_mem_nil, or_false]
          constructor
          · constructor
            · rintro (h | h)
              · exact .inl h
              · exact .inr ⟨.inr h.1, h.2⟩
            · rintro (h | ⟨rfl | h, h'⟩)
              · exact .inl h
              · exact absurd h' (not_le.2 h2)
              · exact .inr ⟨h, h'⟩
          · constructor
            · rintro ((h | rfl) | h)
              · exact .inl h
              · exact .inr ⟨.inl rfl, h2.le⟩
              · exact .inr ⟨.inr h.1, h.2⟩
            · rintro (h | ⟨rfl | h, h'⟩)
              · exact .inl (.inl h)
              · exact .inl (.inr rfl)
              · exact .inr ⟨h, h'⟩
        · rw [if_neg h2]
          have e : eqn p y = 0 := le_antisymm (not_lt.1 h1) (not_lt.1 h2)
          simp only [List.mem_append, List.mem_cons, List.not_mem_nil, or_false]
          constructor
          · constructor
            · rintro ((h | rfl) | h)
              · exact .inl h
              · exact .inr ⟨.inl rfl, e.ge⟩
              · exact .inr ⟨.inr h.1, h.2⟩
            · rintro (h | ⟨rfl | h, h'⟩)
              · exact .inl (.inl h)
              · exact .inl (.inr rfl)
              · exact .inr ⟨h, h'⟩
          · constructor
            · rintro ((h | rfl) | h)
              · exact .inl h
              · exact .inr ⟨.inl rfl, e.le⟩
              · exact .inr ⟨.inr h.1, h.2⟩
            · rintro (h | ⟨rfl | h, h'⟩)
              · exact .inl (.inl h)
              · exact .inl (.inr rfl)
              · exact .inr ⟨h, h'⟩
  simpa [meshClip] using go pts ([], [])

/-! ### The hulls of the sides -/

theorem partHull_total {ch : List (V3 K) → List (V3 K)} (hch : IsHull ch) (m : ℕ) (s : VSet K) (hs : 0 < s.scale) :
    ∃ ps, partHull ch m s [] = some ps ∧ (∀ p ∈ ps, InHull ((surfs s).flatMap (corners8 s)) p) ∧
      (m = 1 → ∀ v ∈ surfs s, ∀ y, InBox s v y → InHull ps y) := by
  by_cases hne : s.voxels = []
  · refine ⟨[], by unfold partHull; rw [if_pos hne], by simp, ?_⟩
    intro _ v hv
    simp [surfs, hne] at hv
  · obtain ⟨ps, e, e1, e2⟩ := PartHull.C176_hull ch hch m s [] hs hne
    refine ⟨ps, e, ?_, ?_⟩
    · intro p hp
      refine e2 _ ?_ p (.point hp)
      intro i v hi _ y hy
      refine PartHull.InHull.mono (fun r hr => ?_) (PartHull.box_in_corners hs hy)
      exact List.mem_flatMap.2 ⟨v, List.mem_of_getElem? hi, hr⟩
    · intro hm v hv
      obtain ⟨i, hi⟩ := List.mem_iff_getElem?.1 hv
      exact e1 i v hi (by rw [hm]; exact one_dvd _)

theorem side_points {s : VSet K} (hs : 0 < s.scale) (hS : surfs s ≠ []) (axis : Fin 3) (i : ℤ) (up : Bool)
    {v : Decompose.Voxel} : v ∈ surfs (onGrid s (half (axisPlane s axis i).plane (onGrid s (surfs s)) up)) ↔
      v ∈ surfs s ∧ decide (i < v.at axis) = up := by
  have hh : ∀ w, height (axisPlane s axis i).plane (onGrid s (surfs s)) w = height (axisPlane s axis i).plane s w := fun _ => rfl
  have hd : ∀ w, decide (0 ≤ height (axisPlane s axis i).plane s w) = decide (i < w.at axis) := fun w =>
    decide_eq_decide.2 (height_above hs axis i w)
  unfold surfs half onGrid
  simp only [List.mem_filter, List.mem_map]
  constructor
  · rintro ⟨⟨w, ⟨⟨h1, h2⟩, h3⟩, rfl⟩, h4⟩
    have : (⟨w.x, w.y, w.z, w.surf || decide (|height (axisPlane s axis i).plane (onGrid s (surfs s)) w| ≤ s.scale)⟩ :
        Decompose.Voxel) = w := by
      cases w; simp_all
    have h3' := h3
    rw [beq_iff_eq] at h3'
    have h5 := (hd w).symm.trans h3'
    exact ⟨⟨(congrArg (· ∈ s.voxels) this).mpr h1, by simp [h2]⟩, h5⟩
  · rintro ⟨⟨h1, h2⟩, h3⟩
    refine ⟨⟨v, ⟨⟨h1, h2⟩, ?_⟩, ?_⟩, h2⟩
    · rw [beq_iff_eq]; exact (hd v).trans h3
    · cases v; simp_all

/-- C177, part 4.  Whichever way the hulls are computed, the two hulls whose volumes are compared exist, lie on their side of
the plane, and lie within any hull that has the surface voxels and the points of the hull of the part in it. -/
theorem C177_sides (ch : List (V3 K) → List (V3 K)) (hch : IsHull ch) (approx : Bool) (D : ℕ) (s : VSet K)
    (hull : List (V3 K)) (axis : Fin 3) (i : ℤ) (a b : VSet K) (hs : 0 < s.scale) (hS : surfs s ≠ []) :
    ∃ r l, sideHulls ch approx D s hull (axisPlane s axis i).plane a b = some (r, l) ∧
      (∀ y, InHull r y → 0 ≤ over s axis i y) ∧ (∀ y, InHull l y → over s axis i y ≤ 0) ∧
      ∀ qs, (∀ v ∈ surfs s, ∀ y, InBox s v y → InHull qs y) → (∀ q ∈ hull, InHull qs q) →
        ∀ y, InHull r y ∨ InHull l y → InHull qs y := by
  have hne : s.voxels ≠ [] := by
    intro h; exact hS (by simp [surfs, h])
  have key : ∀ r l R L : List (V3 K), (∀ q ∈ r, InHull R q) → (∀ q ∈ l, InHull L q) →
      (∀ q ∈ R, (q ∈ hull ∧ 0 ≤ over s axis i q) ∨ ∃ v ∈ surfs s, q ∈ corners8 s v ∧ i < v.at axis) →
      (∀ q ∈ L, (q ∈ hull ∧ over s axis i q ≤ 0) ∨ ∃ v ∈ surfs s, q ∈ corners8 s v ∧ v.at axis ≤ i) →
      (∀ y, InHull r y → 0 ≤ over s axis i y) ∧ (∀ y, InHull l y → over s axis i y ≤ 0) ∧
      ∀ qs, (∀ v ∈ surfs s, ∀ y, InBox s v y → InHull qs y) → (∀ q ∈ hull, InHull qs q) →
        ∀ y, InHull r y ∨ InHull l y → InHull qs y := by
    intro r l R L h1 h2 h3 h4
    refine ⟨?_, ?_, ?_⟩
    · intro y hy
      refine above (fun q hq => ?_) (PartHull.InHull.trans h1 hy)
      rcases h3 q hq with h | ⟨v, _, hc, hv⟩
      · exact h.2
      · exact box_above hs (PartHull.corner_in_box hs hc) hv
    · intro y hy
      refine below (fun q hq => ?_) (PartHull.InHull.trans h2 hy)
      rcases h4 q hq with h | ⟨v, _, hc, hv⟩
      · exact h.2
      · exact box_below hs (PartHull.corner_in_box hs hc) hv
    · rintro qs hb hh y (hy | hy)
      · refine PartHull.InHull.trans (fun q hq => ?_) (PartHull.InHull.trans h1 hy)
        rcases h3 q hq with h | ⟨v, hv, hc, _⟩
        · exact hh q h.1
        · exact hb v hv q (PartHull.corner_in_box hs hc)
      · refine PartHull.InHull.trans (fun q hq => ?_) (PartHull.InHull.trans h2 hy)
        rcases h4 q hq with h | ⟨v, hv, hc, _⟩
        · exact hh q h.1
        · exact hb v hv q (PartHull.corner_in_box hs hc)
  have hsel := select_eq s Decompose.fresh hne
  have hh : ∀ w, height (axisPlane s axis i).plane (onGrid s (surfs s)) w = height (axisPlane s axis i).plane s w := fun _ => rfl
  unfold sideHulls
  simp only [hsel]
  cases approx with
  | true =>
    simp only [if_true]
    refine ⟨_, _, rfl, key _ _ _ _ (hch _).2 (hch _).2 ?_ ?_⟩
    · intro q hq
      rcases List.mem_append.1 hq with hq | hq
      · obtain ⟨v, h1, h2, h3, _⟩ := ((C177_points _ _ _ (by exact hs) q).1).1 hq
        exact .inr ⟨v, h1, h2, (height_above hs axis i v).1 h3⟩
      · obtain ⟨h1, h2⟩ := ((mem_meshClip _ q hull).1).1 hq
        exact .inl ⟨h1, by rwa [eqn_axis] at h2⟩
    · intro q hq
      rcases List.mem_append.1 hq with hq | hq
      · obtain ⟨v, h1, h2, h3, _⟩ := ((C177_points _ _ _ (by exact hs) q).2).1 hq
        exact .inr ⟨v, h1, h2, not_lt.1 fun h => absurd ((height_above hs axis i v).2 h) (not_le.2 h3)⟩
      · obtain ⟨h1, h2⟩ := ((mem_meshClip _ q hull).2).1 hq
        exact .inl ⟨h1, by rwa [eqn_axis] at h2⟩
  | false =>
    simp only [Bool.false_eq_true, if_false]
    rw [Decompose.clip_eq _ _ _ _ (by exact hS)]
    obtain ⟨r, r1, r2, _⟩ := partHull_total hch D
      (onGrid (onGrid s (surfs s)) (half (axisPlane s axis i).plane (onGrid s (surfs s)) true)) (by exact hs)
    obtain ⟨l, l1, l2, _⟩ := partHull_total hch D
      (onGrid (onGrid s (surfs s)) (half (axisPlane s axis i).plane (onGrid s (surfs s)) false)) (by exact hs)
    refine ⟨r, l, by simp only [r1, l1, Option.bind_some, Option.map_some], key _ _ _ _ r2 l2 ?_ ?_⟩
    · intro q hq
      obtain ⟨v, hv, hc⟩ := List.mem_flatMap.1 hq
      obtain ⟨h1, h2⟩ := (side_points hs hS axis i true).1 hv
      exact .inr ⟨v, h1, hc, by simpa using h2⟩
    · intro q hq
      obtain ⟨v, hv, hc⟩ := List.mem_flatMap.1 hq
      obtain ⟨h1, h2⟩ := (side_points hs hS axis i false).1 hv
      exact .inr ⟨v, h1, hc, by simpa using h2⟩

/-- C177, part 5.  What the hulls have in them.  Computed exactly and with a downsampling of one, as in the refinement: the
boxes of all surface voxels of the side.  Computed approximately: the boxes of the surface voxels in the layer next to the
plane, and the points of the hull of the part on the side. -/
theorem C177_contents (ch : List (V3 K) → List (V3 K)) (hch : IsHull ch) (approx : Bool) (D : ℕ) (s : VSet K)
    (hull : List (V3 K)) (axis : Fin 3) (i : ℤ) (a b : VSet K) (hs : 0 < s.scale) (hS : surfs s ≠ []) (r l : List (V3 K))
    (h : sideHulls ch approx D s hull (axisPlane s axis i).plane a b = some (r, l)) :
    (approx = false → D = 1 → ∀ v ∈ surfs s, ∀ y, InBox s v y →
      (i < v.at axis → InHull r y) ∧ (v.at axis ≤ i → InHull l y)) ∧
    (approx = true → (∀ v ∈ surfs s, ∀ y, InBox s v y →
        (v.at axis = i + 1 → InHull r y) ∧ (v.at axis = i → InHull l y)) ∧
      ∀ q ∈ hull, (0 ≤ over s axis i q → InHull r q) ∧ (over s axis i q ≤ 0 → InHull l q)) := by
  have hne : s.voxels ≠ [] := by
    intro h; exact hS (by simp [surfs, h])
  have hsel := select_eq s Decompose.fresh hne
  unfold sideHulls at h
  simp only [hsel] at h
  constructor
  · rintro rfl rfl v hv y hy
    simp only [Bool.false_eq_true, if_false] at h
    rw [Decompose.clip_eq _ _ _ _ (by exact hS)] at h
    obtain ⟨r', r1, _, r2⟩ := partHull_total hch 1
      (onGrid (onGrid s (surfs s)) (half (axisPlane s axis i).plane (onGrid s (surfs s)) true)) (by exact hs)
    obtain ⟨l', l1, _, l2⟩ := partHull_total hch 1
      (onGrid (onGrid s (surfs s)) (half (axisPlane s axis i).plane (onGrid s (surfs s)) false)) (by exact hs)
    simp only [r1, l1, Option.bind_some, Option.map_some, Option.some.injEq, Prod.mk.injEq] at h
    obtain ⟨rfl, rfl⟩ := h
    constructor
    · intro hi
      exact r2 rfl v ((side_points hs hS axis i true).2 ⟨hv, by simpa using hi⟩) y hy
    · intro hi
      exact l2 rfl v ((side_points hs hS axis i false).2 ⟨hv, by simpa using hi⟩) y hy
  · rintro rfl
    simp only [if_true, Option.some.injEq, Prod.mk.injEq] at h
    obtain ⟨rfl, rfl⟩ := h
    have box : ∀ (v : Decompose.Voxel) (y : V3 K) (ps : List (V3 K)), InBox s v y → (∀ q ∈ corners8 s v, q ∈ ps) →
        InHull (ch ps) y := by
      intro v y ps hy hq
      exact PartHull.InHull.trans (hch ps).1 (PartHull.InHull.mono hq (PartHull.box_in_corners hs hy))
    refine ⟨fun v hv y hy => ⟨fun hi => box v y _ hy fun q hq => ?_, fun hi => box v y _ hy fun q hq => ?_⟩, fun q hq => ⟨fun ho => ?_, fun ho => ?_⟩⟩
    · refine List.mem_append_left _ (((C177_points _ _ _ (by exact hs) q).1).2 ⟨v, hv, hq, ?_, .inl ?_⟩)
      · exact (height_above hs axis i v).2 (by omega)
      · refine le_trans (le_of_eq (Decompose.height_axis s axis i v)) ?_
        rw [hi]
        push_cast
        show _ ≤ s.scale
        linarith
    · refine List.mem_append_left _ (((C177_points _ _ _ (by exact hs) q).2).2 ⟨v, hv, hq, ?_, .inl ?_⟩)
      · exact not_le.1 fun h => by have := (height_above hs axis i v).1 h; omega
      · refine le_trans (le_of_eq (congrArg Neg.neg (Decompose.height_axis s axis i v))) ?_
        rw [hi]
        show _ ≤ s.scale
        linarith
    · exact (hch _).1 q (List.mem_append_right _ (((mem_meshClip _ q hull).1).2 ⟨hq, by rwa [eqn_axis]⟩))
    · exact (hch _).1 q (List.mem_append_right _ (((mem_meshClip _ q hull).2).2 ⟨hq, by rwa [eqn_axis]⟩))

/-! ### The cost -/

/-- C177, part 6.  With voxels, if the hulls of the sides are not smaller than the sides, the concavity of a plane is the
volume that the hulls of its sides have beyond the part, so of two planes the one with the smaller hulls has the smaller
concavity; of two planes with equal hulls and no preferred direction, the one that divides the part more evenly is cheaper. -/
theorem C177_voxels (s : VSet K) (p q : Plane K) (Hp Hq : K × K) (V0 α β d : K) (hV : 0 < V0) (hne : s.voxels ≠ [])
    (hp : (clippedVolumes p s).1 ≤ Hp.1 ∧ (clippedVolumes p s).2 ≤ Hp.2)
    (hq : (clippedVolumes q s).1 ≤ Hq.1 ∧ (clippedVolumes q s).2 ≤ Hq.2) :
    (voxelCost s p Hp V0 α β d).1 * V0 = Hp.1 + Hp.2 - s.unit * s.voxels.length ∧
    ((voxelCost s p Hp V0 α β d).1 ≤ (voxelCost s q Hq V0 α β d).1 ↔ Hp.1 + Hp.2 ≤ Hq.1 + Hq.2) ∧
    (Hp.1 + Hp.2 = Hq.1 + Hq.2 → 0 < α →
      ((voxelCost s p Hp V0 α 0 d).2 < (voxelCost s q Hq V0 α 0 d).2 ↔
        |volume (clip p s s s).1 - volume (clip p s s s).2| < |volume (clip q s s s).1 - volume (clip q s s s).2|)) := by
  have key : ∀ (p : Plane K) (H : K × K) (β : K), (clippedVolumes p s).1 ≤ H.1 ∧ (clippedVolumes p s).2 ≤ H.2 →
      (voxelCost s p H V0 α β d).1 = (H.1 + H.2 - s.unit * s.voxels.length) / V0 ∧
      (voxelCost s p H V0 α β d).2 = (H.1 + H.2 - s.unit * s.voxels.length) / V0 +
        α * |volume (clip p s s s).1 - volume (clip p s s s).2| / V0 + β * d := by
    intro p H β h
    obtain ⟨_, _, _, _, _, e1, e2⟩ := Decompose.C168_clip p s s s hne
    have c : (voxelCost s p H V0 α β d).1 = (H.1 + H.2 - s.unit * s.voxels.length) / V0 := by
      unfold voxelCost cost concavity
      simp only
      rw [abs_of_nonneg (sub_nonneg.2 h.1), abs_of_nonneg (sub_nonneg.2 h.2), ← add_div]
      congr 1
      unfold volume at e2
      linarith
    refine ⟨c, ?_⟩
    have : (voxelCost s p H V0 α β d).2 = (voxelCost s p H V0 α β d).1 +
        α * |(clippedVolumes p s).2 - (clippedVolumes p s).1| / V0 + β * d := rfl
    rw [this, c, e1, abs_sub_comm]
  obtain ⟨a1, _⟩ := key p Hp β hp
  obtain ⟨b1, _⟩ := key q Hq β hq
  refine ⟨?_, ?_, ?_⟩
  · rw [a1, div_mul_cancel₀ _ hV.ne']
  · rw [a1, b1, div_le_div_iff_of_pos_right hV]
    constructor <;> intro h <;> linarith
  · intro e hα
    rw [(key p Hp 0 hp).2, (key q Hq 0 hq).2, e]
    constructor
    · intro h
      have h' : α * |volume (clip p s s s).1 - volume (clip p s s s).2| / V0 <
        α * |volume (clip q s s s).1 - volume (clip q s s s).2| / V0 := by linarith
      rw [div_lt_div_iff_of_pos_right hV] at h'
      exact lt_of_mul_lt_mul_left h' hα.le
    · intro h
      have h' := (div_lt_div_iff_of_pos_right hV).2 (mul_lt_mul_of_pos_left h hα)
      linarith

/-- C177, part 7, proved part: with tetrahedra, too, planes with smaller hulls have the smaller concavity.  The concavity
itself is not that of the sides, because their volumes are taken as zero. -/
theorem C177_tetrahedra_partial (Hp Hq : K × K) (V0 α β d : K) (hV : 0 < V0) (hp : 0 ≤ Hp.1 ∧ 0 ≤ Hp.2)
    (hq : 0 ≤ Hq.1 ∧ 0 ≤ Hq.2) :
    (tetCost Hp V0 α β d).1 * V0 = Hp.1 + Hp.2 ∧
    ((tetCost Hp V0 α β d).1 ≤ (tetCost Hq V0 α β d).1 ↔ Hp.1 + Hp.2 ≤ Hq.1 + Hq.2) := by
  have key : ∀ H : K × K, 0 ≤ H.1 ∧ 0 ≤ H.2 → (tetCost H V0 α β d).1 = (H.1 + H.2) / V0 := by
    intro H h
    unfold tetCost tetVolumes cost concavity
    simp only [sub_zero]
    rw [abs_of_nonneg h.1, abs_of_nonneg h.2, ← add_div, add_comm]
  rw [key Hp hp, key Hq hq, div_mul_cancel₀ _ hV.ne', div_le_div_iff_of_pos_right hV]
  exact ⟨rfl, Iff.rfl⟩

/-- C177, part 7, fails: with tetrahedra the weight `α`, which is to make the search prefer even divisions, has no effect at
all, whatever the sides are. -/
theorem C177_violated_balance (H : K × K) (V0 α α' β d : K) : tetCost H V0 α β d = tetCost H V0 α' β d := by
  unfold tetCost tetVolumes cost
  simp

/-! ### Examples -/

example : (0 : ℚ) < PartHull.bar.scale ∧ surfs PartHull.bar ≠ [] ∧ PartHull.bar.voxels ≠ [] := by
  refine ⟨?_, ?_, ?_⟩ <;> decide +kernel

/-- the hulls of the two sides of the bar, cut in the middle -/
example : (sideHulls id true 1 PartHull.bar [] (axisPlane PartHull.bar 0 1).plane PartHull.bar PartHull.bar).isSome = true ∧
    (sideHulls id false 1 PartHull.bar [] (axisPlane PartHull.bar 0 1).plane PartHull.bar PartHull.bar).map
      (fun r => (r.1.length, r.2.length)) = some (8, 8) := by
  constructor <;> decide +kernel

/-- two planes with equal hulls, one of which divides more evenly -/
example : let p := (axisPlane PartHull.bar 0 1).plane
    let q := (axisPlane PartHull.bar 0 0).plane
    (clippedVolumes p PartHull.bar = (16, 16)) ∧ (clippedVolumes q PartHull.bar = (24, 8)) ∧
      (voxelCost PartHull.bar p (16, 16) 32 (1 / 20) 0 0).2 < (voxelCost PartHull.bar q (24, 8) 32 (1 / 20) 0 0).2 := by
  refine ⟨?_, ?_, ?_⟩ <;> decide +kernel

example : (coarsePlanes 10 PartHull.bar 1).isSome = true ∧ (finePlanes 10 PartHull.bar (axisPlane PartHull.bar 0 1) 1).isSome = true := by
  constructor <;> decide +kernel

end Verif.PlaneCost
