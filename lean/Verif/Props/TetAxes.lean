import Verif.Props.TetGeneral
import Verif.Props.Diagonalize
import Verif.Model.TetAxes

set_option linter.unusedSectionVars false
set_option linter.unusedVariables false

/-!
# C175: parts are turned to their axes and back around a cut
-/

namespace Verif.TetAxes

open Verif.Voxel Verif.MeshVol Verif.TetClip Verif.Diag

variable {K : Type*} [Field K] [LinearOrder K] [IsStrictOrderedRing K] [FloorRing K]

/-- The square of the distance. -/
def dist2 (a b : V3 K) : K := (a.x - b.x) * (a.x - b.x) + (a.y - b.y) * (a.y - b.y) + (a.z - b.z) * (a.z - b.z)

/-- The box between `lo` and `hi` is the smallest that contains the points. -/
def TightBox (ps : List (V3 K)) (lo hi : V3 K) : Prop :=
  (∀ p ∈ ps, (lo.x ≤ p.x ∧ p.x ≤ hi.x) ∧ (lo.y ≤ p.y ∧ p.y ≤ hi.y) ∧ (lo.z ≤ p.z ∧ p.z ≤ hi.z)) ∧
  ((∃ p ∈ ps, p.x = lo.x) ∧ (∃ p ∈ ps, p.y = lo.y) ∧ (∃ p ∈ ps, p.z = lo.z)) ∧
  ((∃ p ∈ ps, p.x = hi.x) ∧ (∃ p ∈ ps, p.y = hi.y) ∧ (∃ p ∈ ps, p.z = hi.z))

/-- `b` is the mean of the points. -/
def IsMean (ps : List (V3 K)) (b : V3 K) : Prop :=
  (ps.length : K) * b.x = (ps.map V3.x).sum ∧ (ps.length : K) * b.y = (ps.map V3.y).sum ∧ (ps.length : K) * b.z = (ps.map V3.z).sum

/-! ### The box and the mean -/

theorem foldl_plus (ps : List (V3 K)) : ∀ b : V3 K, ps.foldl plus b = ⟨b.x + (ps.map V3.x).sum, b.y + (ps.map V3.y).sum, b.z + (ps.map V3.z).sum⟩ := by
  induction ps with
  | nil => intro b; simp
  | cons p ps ih =>
    intro b
    rw [List.foldl_cons, ih]
    simp only [plus, List.map_cons, List.sum_cons]
    ext <;> ring

/-- A minimum kept through a loop. -/
theorem min_loop (f : V3 K → K) (ps : List (V3 K)) : ∀ (m : V3 K) (st : V3 K → V3 K → V3 K),
    (∀ m p, f (st m p) = if f p < f m then f p else f m) →
    f (ps.foldl st m) ≤ f m ∧ (∀ p ∈ ps, f (ps.foldl st m) ≤ f p) ∧ (f (ps.foldl st m) = f m ∨ ∃ p ∈ ps, f p = f (ps.foldl st m)) := by
  induction ps with
  | nil => intro m st h; simp
  | cons p ps ih =>
    intro m st h
    obtain ⟨h1, h2, h3⟩ := ih (st m p) st h
    rw [List.foldl_cons]
    have hm := h m p
    have hle : f (st m p) ≤ f m ∧ f (st m p) ≤ f p := by
      rw [hm]; split_ifs with g
      · exact ⟨g.le, le_refl _⟩
      · exact ⟨le_refl _, not_lt.1 g⟩
    refine ⟨h1.trans hle.1, ?_, ?_⟩
    · intro q hq
      rcases List.mem_cons.1 hq with rfl | hq
      · exact h1.trans hle.2
      · exact h2 q hq
    · rcases h3 with h3 | ⟨q, hq, h3⟩
      · rw [h3, hm]
        split_ifs with g
        · exact Or.inr ⟨p, List.mem_cons_self, rfl⟩
        · exact Or.inl rfl
      · exact Or.inr ⟨q, List.mem_cons_of_mem _ hq, h3⟩

theorem max_loop (f : V3 K → K) (ps : List (V3 K)) (m : V3 K) (st : V3 K → V3 K → V3 K)
    (h : ∀ m p, f (st m p) = if f m < f p then f p else f m) :
    f m ≤ f (ps.foldl st m) ∧ (∀ p ∈ ps, f p ≤ f (ps.foldl st m)) ∧ (f (ps.foldl st m) = f m ∨ ∃ p ∈ ps, f p = f (ps.foldl st m)) := by
  obtain ⟨h1, h2, h3⟩ := min_loop (fun v => -f v) ps m st (by
    intro m p
    simp only [h, neg_lt_neg_iff]
    split_ifs <;> rfl)
  refine ⟨by linarith, fun p hp => by have := h2 p hp; linarith, ?_⟩
  rcases h3 with h3 | ⟨p, hp, h3⟩
  · exact Or.inl (by linarith)
  · exact Or.inr ⟨p, hp, by linarith⟩

theorem length_all (ts : List (Tet K)) : (allCorners ts).length = 4 * ts.length := by
  induction ts with
  | nil => rfl
  | cons t ts ih =>
    simp only [allCorners, List.flatMap_cons, List.length_append, List.length_cons] at ih ⊢
    rw [ih]; simp [TetClip.corners]; ring

theorem computeBB_spec (s : ASet K) (hs : s.tets ≠ []) :
    TightBox (allCorners s.tets) (computeBB s).lo (computeBB s).hi ∧ IsMean (allCorners s.tets) (computeBB s).bary
    ∧ (computeBB s).tets = s.tets ∧ (computeBB s).Q = s.Q ∧ (computeBB s).D = s.D := by
  obtain ⟨ts, lo, hi, b, Q, D⟩ := s
  match ts, hs with
  | t :: ts, _ =>
    have hmem : t.p0 ∈ allCorners (t :: ts) := by simp [allCorners, TetClip.corners]
    have hlen := length_all (t :: ts)
    have hn : ((4 * (t :: ts).length : ℕ) : K) ≠ 0 := by
      rw [Nat.cast_ne_zero]; simp
    refine ⟨⟨?_, ⟨?_, ?_, ?_⟩, ?_, ?_, ?_⟩, ?_, rfl, rfl, rfl⟩
    · intro p hp
      refine ⟨⟨?_, ?_⟩, ⟨?_, ?_⟩, ?_, ?_⟩
      · exact (min_loop V3.x _ t.p0 low fun _ _ => rfl).2.1 p hp
      · exact (max_loop V3.x _ t.p0 high fun _ _ => rfl).2.1 p hp
      · exact (min_loop V3.y _ t.p0 low fun _ _ => rfl).2.1 p hp
      · exact (max_loop V3.y _ t.p0 high fun _ _ => rfl).2.1 p hp
      · exact (min_loop V3.z _ t.p0 low fun _ _ => rfl).2.1 p hp
      · exact (max_loop V3.z _ t.p0 high fun _ _ => rfl).2.1 p hp
    · rcases (min_loop V3.x (allCorners (t :: ts)) t.p0 low fun _ _ => rfl).2.2 with h | h
      · exact ⟨t.p0, hmem, h.symm⟩
      · exact h
    · rcases (min_loop V3.y (allCorners (t :: ts)) t.p0 low fun _ _ => rfl).2.2 with h | h
      · exact ⟨t.p0, hmem, h.symm⟩
      · exact h
    · rcases (min_loop V3.z (allCorners (t :: ts)) t.p0 low fun _ _ => rfl).2.2 with h | h
      · exact ⟨t.p0, hmem, h.symm⟩
      · exact h
    · rcases (max_loop V3.x (allCorners (t :: ts)) t.p0 high fun _ _ => rfl).2.2 with h | h
      · exact ⟨t.p0, hmem, h.symm⟩
      · exact h
    · rcases (max_loop V3.y (allCorners (t :: ts)) t.p0 high fun _ _ => rfl).2.2 with h | h
      · exact ⟨t.p0, hmem, h.symm⟩
      · exact h
    · rcases (max_loop V3.z (allCorners (t :: ts)) t.p0 high fun _ _ => rfl).2.2 with h | h
      · exact ⟨t.p0, hmem, h.symm⟩
      · exact h
    · simp only [IsMean, computeBB, foldl_plus, hlen, zero_add]
      exact ⟨mul_div_cancel₀ _ hn, mul_div_cancel₀ _ hn, mul_div_cancel₀ _ hn⟩

/-! ### Turning points -/

theorem from_to {Q : M3 K} (h : Frame Q) (b p : V3 K) : fromAxes Q b (toAxes Q b p) = p := by
  have r := h.rows
  simp only [Fin.sum_univ_three] at r
  have r00 := r 0 0; have r01 := r 0 1; have r02 := r 0 2
  have r11 := r 1 1; have r12 := r 1 2; have r22 := r 2 2
  simp at r00 r01 r02 r11 r12 r22
  simp only [fromAxes, toAxes]
  ext
  · simp only; linear_combination (p.x - b.x) * r00 + (p.y - b.y) * r01 + (p.z - b.z) * r02
  · simp only; linear_combination (p.x - b.x) * r01 + (p.y - b.y) * r11 + (p.z - b.z) * r12
  · simp only; linear_combination (p.x - b.x) * r02 + (p.y - b.y) * r12 + (p.z - b.z) * r22

theorem to_from {Q : M3 K} (h : Frame Q) (b p : V3 K) : toAxes Q b (fromAxes Q b p) = p := by
  have r := h.cols
  simp only [Fin.sum_univ_three] at r
  have r00 := r 0 0; have r01 := r 0 1; have r02 := r 0 2
  have r11 := r 1 1; have r12 := r 1 2; have r22 := r 2 2
  simp at r00 r01 r02 r11 r12 r22
  simp only [fromAxes, toAxes]
  ext
  · simp only; linear_combination (p.x - b.x) * r00 + (p.y - b.y) * r01 + (p.z - b.z) * r02
  · simp only; linear_combination (p.x - b.x) * r01 + (p.y - b.y) * r11 + (p.z - b.z) * r12
  · simp only; linear_combination (p.x - b.x) * r02 + (p.y - b.y) * r12 + (p.z - b.z) * r22

theorem dist_to {Q : M3 K} (h : Frame Q) (b p q : V3 K) : dist2 (toAxes Q b p) (toAxes Q b q) = dist2 p q := by
  have r := h.rows
  simp only [Fin.sum_univ_three] at r
  have r00 := r 0 0; have r01 := r 0 1; have r02 := r 0 2
  have r11 := r 1 1; have r12 := r 1 2; have r22 := r 2 2
  simp at r00 r01 r02 r11 r12 r22
  simp only [dist2, toAxes]
  linear_combination (p.x - q.x) * (p.x - q.x) * r00 + (p.y - q.y) * (p.y - q.y) * r11 + (p.z - q.z) * (p.z - q.z) * r22
    + 2 * (p.x - q.x) * (p.y - q.y) * r01 + 2 * (p.x - q.x) * (p.z - q.z) * r02 + 2 * (p.y - q.y) * (p.z - q.z) * r12

theorem det_to {Q : M3 K} (h : Frame Q) (b p q r o : V3 K) :
    det (toAxes Q b p) (toAxes Q b q) (toAxes Q b r) (toAxes Q b o) = det p q r o := by
  have hd := h.det
  rw [Matrix.det_fin_three] at hd
  simp only [det, toAxes]
  linear_combination ((p.x - o.x) * ((q.y - o.y) * (r.z - o.z) - (q.z - o.z) * (r.y - o.y)) +
    (p.y - o.y) * ((q.z - o.z) * (r.x - o.x) - (q.x - o.x) * (r.z - o.z)) +
    (p.z - o.z) * ((q.x - o.x) * (r.y - o.y) - (q.y - o.y) * (r.x - o.x))) * hd

theorem det_from {Q : M3 K} (h : Frame Q) (b p q r o : V3 K) :
    det (fromAxes Q b p) (fromAxes Q b q) (fromAxes Q b r) (fromAxes Q b o) = det p q r o := by
  rw [← det_to h b (fromAxes Q b p), to_from h, to_from h, to_from h, to_from h]

theorem hull_from (Q : M3 K) (b : V3 K) {ps : List (V3 K)} {q : V3 K} (h : InHull ps q) : InHull (ps.map (fromAxes Q b)) (fromAxes Q b q) := by
  induction h with
  | point hp => exact .point (List.mem_map.2 ⟨_, hp, rfl⟩)
  | @between p q s _ _ h0 h1 ih1 ih2 =>
    have := InHull.between s ih1 ih2 h0 h1
    convert this using 1
    simp only [fromAxes]
    ext <;> ring

theorem corners_map (f : V3 K → V3 K) (t : Tet K) : corners (mapTet f t) = (corners t).map f := rfl

theorem map_map_id {f g : V3 K → V3 K} (h : ∀ p, g (f p) = p) (ts : List (Tet K)) : (ts.map (mapTet f)).map (mapTet g) = ts := by
  rw [List.map_map]
  conv_rhs => rw [← List.map_id ts]
  refine List.map_congr_left fun t _ => ?_
  simp [mapTet, h]

theorem all_map (f : V3 K → V3 K) (ts : List (Tet K)) : allCorners (ts.map (mapTet f)) = (allCorners ts).map f := by
  induction ts with
  | nil => rfl
  | cons t ts ih =>
    simp only [allCorners, List.map_cons, List.flatMap_cons, List.map_append] at ih ⊢
    rw [ih]; rfl

/-- The plane seen from the coordinates before the turn. -/
def back (Q : M3 K) (b : V3 K) (p : Plane K) : Plane K :=
  let a' := p.a * Q 0 0 + p.b * Q 0 1 + p.c * Q 0 2
  let b' := p.a * Q 1 0 + p.b * Q 1 1 + p.c * Q 1 2
  let c' := p.a * Q 2 0 + p.b * Q 2 1 + p.c * Q 2 2
  ⟨a', b', c', p.eval b - (a' * b.x + b' * b.y + c' * b.z)⟩

theorem back_eval (Q : M3 K) (b : V3 K) (p : Plane K) (v : V3 K) : (back Q b p).eval v = p.eval (toAxes Q b v) := by
  simp only [back, Plane.eval, toAxes]; ring

/-- The length of the normal. -/
def Plane.norm2 (p : Plane K) : K := p.a * p.a + p.b * p.b + p.c * p.c

theorem back_norm {Q : M3 K} (h : Frame Q) (b : V3 K) (p : Plane K) : Plane.norm2 (back Q b p) = Plane.norm2 p := by
  have r := h.cols
  simp only [Fin.sum_univ_three] at r
  have r00 := r 0 0; have r01 := r 0 1; have r02 := r 0 2
  have r11 := r 1 1; have r12 := r 1 2; have r22 := r 2 2
  simp at r00 r01 r02 r11 r12 r22
  simp only [Plane.norm2, back]
  linear_combination p.a * p.a * r00 + p.b * p.b * r11 + p.c * p.c * r22 + 2 * p.a * p.b * r01 + 2 * p.a * p.c * r02 + 2 * p.b * p.c * r12

/-! ### The mean and the spread -/

/-- Sums over an affine change of coordinates. -/
theorem sum_affine (a b c d : K) (ps : List (V3 K)) (f : V3 K → K) (h : ∀ p, f p = a * p.x + b * p.y + c * p.z + d) :
    (ps.map f).sum = a * (ps.map V3.x).sum + b * (ps.map V3.y).sum + c * (ps.map V3.z).sum + (ps.length : K) * d := by
  induction ps with
  | nil => simp
  | cons p ps ih =>
    simp only [List.map_cons, List.sum_cons, List.length_cons, Nat.cast_add, Nat.cast_one, ih, h]
    ring

theorem mean_to {ps : List (V3 K)} {b : V3 K} (h : IsMean ps b) (Q : M3 K) : IsMean (ps.map (toAxes Q b)) b := by
  obtain ⟨h1, h2, h3⟩ := h
  refine ⟨?_, ?_, ?_⟩
  · rw [List.length_map, List.map_map, sum_affine (Q 0 0) (Q 1 0) (Q 2 0) (b.x - Q 0 0 * b.x - Q 1 0 * b.y - Q 2 0 * b.z) ps _
      (fun p => by simp only [Function.comp, toAxes]; ring), ← h1, ← h2, ← h3]
    ring
  · rw [List.length_map, List.map_map, sum_affine (Q 0 1) (Q 1 1) (Q 2 1) (b.y - Q 0 1 * b.x - Q 1 1 * b.y - Q 2 1 * b.z) ps _
      (fun p => by simp only [Function.comp, toAxes]; ring), ← h1, ← h2, ← h3]
    ring
  · rw [List.length_map, List.map_map, sum_affine (Q 0 2) (Q 1 2) (Q 2 2) (b.z - Q 0 2 * b.x - Q 1 2 * b.y - Q 2 2 * b.z) ps _
      (fun p => by simp only [Function.comp, toAxes]; ring), ← h1, ← h2, ← h3]
    ring

theorem mean_unique {ps : List (V3 K)} {b c : V3 K} (hp : ps ≠ []) (h1 : IsMean ps b) (h2 : IsMean ps c) : b = c := by
  have hn : (ps.length : K) ≠ 0 := by
    rw [Nat.cast_ne_zero]; exact fun h => hp (List.length_eq_zero_iff.1 h)
  ext
  · exact mul_left_cancel₀ hn (h1.1.trans h2.1.symm)
  · exact mul_left_cancel₀ hn (h1.2.1.trans h2.2.1.symm)
  · exact mul_left_cancel₀ hn (h1.2.2.trans h2.2.2.symm)

theorem all_ne {ts : List (Tet K)} (h : ts ≠ []) : allCorners ts ≠ [] := by
  intro h0
  have := length_all ts
  rw [h0] at this
  simp at this
  exact h this

/-- What `ComputeBB`, `ComputePrincipalAxes` and `AlignToPrincipalAxes` make of a set. -/
theorem prepare_spec {sqrt : K → K} (hq : IsSqrt sqrt) (pca : Bool) (s : ASet K) (hs : s.tets ≠ []) :
    ∃ b Q, Frame Q ∧ IsMean (allCorners s.tets) b ∧ (prepare sqrt pca s).bary = b ∧ (prepare sqrt pca s).Q = Q
      ∧ (prepare sqrt pca s).tets = (if pca then s.tets.map (mapTet (toAxes Q b)) else s.tets)
      ∧ TightBox (allCorners (prepare sqrt pca s).tets) (prepare sqrt pca s).lo (prepare sqrt pca s).hi
      ∧ Q = (diagonalize sqrt (covMat b s.tets)).1 ∧ (prepare sqrt pca s).D = (diagonalize sqrt (covMat b s.tets)).2.1 := by
  obtain ⟨h1, h2, h3, h4, h5⟩ := computeBB_spec s hs
  have hs' : (computeBB s).tets ≠ [] := by rw [h3]; exact hs
  have hp : principal sqrt (computeBB s) = { computeBB s with
      Q := (diagonalize sqrt (covMat (computeBB s).bary s.tets)).1, D := (diagonalize sqrt (covMat (computeBB s).bary s.tets)).2.1 } := by
    unfold principal
    rw [if_neg hs']
    simp only [h3]
  have hf := C174_frame hq (covMat (computeBB s).bary s.tets)
  refine ⟨(computeBB s).bary, (diagonalize sqrt (covMat (computeBB s).bary s.tets)).1, hf, h2, ?_⟩
  cases pca with
  | false =>
    simp only [prepare, Bool.false_eq_true, if_false, hp, h3]
    exact ⟨trivial, trivial, trivial, h1, trivial, trivial⟩
  | true =>
    simp only [prepare, if_true, hp]
    unfold align
    simp only [h3, if_neg hs]
    generalize (diagonalize sqrt (covMat (computeBB s).bary s.tets)).1 = Q at hf ⊢
    generalize (diagonalize sqrt (covMat (computeBB s).bary s.tets)).2.1 = D
    have hs2 : s.tets.map (mapTet (toAxes Q (computeBB s).bary)) ≠ [] := by simpa using hs
    obtain ⟨g1, g2, g3, g4, g5⟩ := computeBB_spec (⟨s.tets.map (mapTet (toAxes Q (computeBB s).bary)), (computeBB s).lo, (computeBB s).hi, (computeBB s).bary, Q, D⟩ : ASet K) hs2
    refine ⟨?_, g4, g3, ?_, trivial, g5⟩
    · have m1 := mean_to h2 Q
      simp only [all_map] at g2
      exact mean_unique (by simpa using all_ne hs) g2 m1
    · rw [g3]; exact g1

theorem prepare_nil (sqrt : K → K) (pca : Bool) (s : ASet K) (hs : s.tets = []) : prepare sqrt pca s = s := by
  obtain ⟨ts, lo, hi, b, Q, D⟩ := s
  obtain rfl : ts = [] := hs
  cases pca <;> simp [prepare, principal, align, computeBB]

/-! ### The theorems -/

/-- **C175** The box of a set is the smallest around its corners and its barycenter their mean. -/
theorem C175_box (s : ASet K) (hs : s.tets ≠ []) :
    TightBox (allCorners s.tets) (computeBB s).lo (computeBB s).hi ∧ IsMean (allCorners s.tets) (computeBB s).bary
    ∧ (computeBB s).tets = s.tets :=
  let ⟨h1, h2, h3, _, _⟩ := computeBB_spec s hs
  ⟨h1, h2, h3⟩

/-- **C175** Before a cut a set is moved rigidly, all corners by the same motion, about its barycenter, which stays; its
box is that of the tetrahedra moved. -/
theorem C175_rigid {sqrt : K → K} (hq : IsSqrt sqrt) (pca : Bool) (s : ASet K) (hs : s.tets ≠ []) :
    (∃ f : V3 K → V3 K, (∀ p q, dist2 (f p) (f q) = dist2 p q) ∧ (∀ p q r o, det (f p) (f q) (f r) (f o) = det p q r o)
      ∧ f (computeBB s).bary = (computeBB s).bary
      ∧ (prepare sqrt pca s).tets = s.tets.map (fun t => ⟨f t.p0, f t.p1, f t.p2, f t.p3, t.data⟩))
    ∧ IsMean (allCorners s.tets) (prepare sqrt pca s).bary ∧ IsMean (allCorners (prepare sqrt pca s).tets) (prepare sqrt pca s).bary
    ∧ TightBox (allCorners (prepare sqrt pca s).tets) (prepare sqrt pca s).lo (prepare sqrt pca s).hi
    ∧ tetVolume (prepare sqrt pca s).tets = tetVolume s.tets := by
  obtain ⟨b, Q, hf, hm, e1, e2, e3, hb, -, -⟩ := prepare_spec hq pca s hs
  have hbb : (computeBB s).bary = b := mean_unique (all_ne hs) (computeBB_spec s hs).2.1 hm
  rw [e1]
  cases pca with
  | false =>
    simp only [Bool.false_eq_true, if_false] at e3
    refine ⟨⟨id, fun _ _ => rfl, fun _ _ _ _ => rfl, rfl, ?_⟩, hm, by rw [e3]; exact hm, hb, by rw [e3]⟩
    rw [e3]
    exact (List.map_id _).symm
  | true =>
    simp only [if_true] at e3
    refine ⟨⟨toAxes Q b, dist_to hf b, det_to hf b, ?_, e3⟩, hm, ?_, hb, ?_⟩
    · rw [hbb]; simp [toAxes]
    · rw [e3, all_map]; exact mean_to hm Q
    · rw [e3, tetVolume_eq, tetVolume_eq, List.map_map]
      congr 2
      refine List.map_congr_left fun t _ => ?_
      simp only [Function.comp, mapTet, det_to hf]

/-- **C175** A set that is not divided after all gets back its tetrahedra, corner by corner, and its box and barycenter. -/
theorem C175_keep {sqrt : K → K} (hq : IsSqrt sqrt) (pca : Bool) (s : ASet K) :
    (keep pca (prepare sqrt pca s)).tets = s.tets
    ∧ (s.tets ≠ [] → TightBox (allCorners s.tets) (keep pca (prepare sqrt pca s)).lo (keep pca (prepare sqrt pca s)).hi
        ∧ IsMean (allCorners s.tets) (keep pca (prepare sqrt pca s)).bary) := by
  by_cases hs : s.tets = []
  · rw [prepare_nil sqrt pca s hs]
    refine ⟨?_, fun h => absurd hs h⟩
    cases pca <;> simp [keep, revert, hs]
  · obtain ⟨b, Q, hf, hm, e1, e2, e3, hb, -, -⟩ := prepare_spec hq pca s hs
    cases pca with
    | false =>
      simp only [Bool.false_eq_true, if_false] at e3
      simp only [keep, Bool.false_eq_true, if_false]
      rw [e3] at hb
      exact ⟨e3, fun _ => ⟨hb, e1 ▸ hm⟩⟩
    | true =>
      simp only [if_true] at e3
      have hne : (prepare sqrt true s).tets ≠ [] := by rw [e3]; simpa using hs
      have ht : (prepare sqrt true s).tets.map (mapTet (fromAxes (prepare sqrt true s).Q (prepare sqrt true s).bary)) = s.tets := by
        rw [e1, e2, e3]
        exact map_map_id (from_to hf b) s.tets
      simp only [keep, if_true, revert, if_neg hne, ht]
      obtain ⟨g1, g2, g3, -, -⟩ := computeBB_spec ({ prepare sqrt true s with tets := s.tets } : ASet K) hs
      exact ⟨g3, fun _ => ⟨g1, g2⟩⟩

/-- The tetrahedra of a part after the way back. -/
theorem part_tets (pca : Bool) (s : ASet K) (hs : s.tets ≠ []) (ts : List (Tet K)) :
    (if pca then revert (part s ts) else part s ts).tets = if pca then ts.map (mapTet (fromAxes s.Q s.bary)) else ts := by
  have hp : part s ts = { s with tets := ts } := by simp [part, hs]
  cases pca with
  | false => simp [hp]
  | true =>
    simp only [if_true, hp]
    unfold revert
    by_cases h : ts = []
    · simp [h]
    · rw [if_neg (by simpa using h)]
      exact (computeBB_spec _ (by simpa using h)).2.2.1

/-- **C175** Dividing a set never fails, with or without the turn to its axes.  Every tetrahedron of a part lies, in the
coordinates of the model, within a tetrahedron of the set and on its side of one plane, whose normal has the length of that
of the plane given. -/
theorem C175_divide {sqrt : K → K} (hq : IsSqrt sqrt) (pca dbg : Bool) {eps tol : K} (he : 0 < eps) (ht : 0 ≤ tol) (p : Plane K) (s : ASet K) :
    ∃ R L p', divide pca dbg eps tol p (prepare sqrt pca s) = some (R, L)
      ∧ Plane.norm2 p' = Plane.norm2 p
      ∧ (∀ u ∈ R.tets, ∃ t ∈ s.tets, (∀ c ∈ corners u, InHull (corners t) c ∧ 0 ≤ p'.eval c) ∧ eps ≤ det u.p0 u.p1 u.p2 u.p3)
      ∧ (∀ u ∈ L.tets, ∃ t ∈ s.tets, (∀ c ∈ corners u, InHull (corners t) c ∧ p'.eval c ≤ 0) ∧ eps ≤ det u.p0 u.p1 u.p2 u.p3)
      ∧ R.tets.length + L.tets.length ≤ 6 * s.tets.length := by
  by_cases hs : s.tets = []
  · rw [prepare_nil sqrt pca s hs]
    have hpart : ∀ ts, part s ts = ASet.new := fun ts => by simp [part, hs]
    refine ⟨ASet.new, ASet.new, p, ?_, rfl, by simp [ASet.new], by simp [ASet.new], by simp [ASet.new]⟩
    cases pca <;> simp [divide, hs, clip, hpart, revert, ASet.new]
  · obtain ⟨b, Q, hf, hm, e1, e2, e3, hb, -, -⟩ := prepare_spec hq pca s hs
    have hin : ∀ t ∈ (prepare sqrt pca s).tets, ∀ c ∈ corners t, InBB (⟨dbg, eps, tol, (prepare sqrt pca s).lo, (prepare sqrt pca s).hi⟩ : Env K) c := by
      intro t ht c hc
      exact hb.1 c (List.mem_flatMap.2 ⟨t, ht, hc⟩)
    have hne : (prepare sqrt pca s).tets ≠ [] := by
      rw [e3]; cases pca <;> simpa using hs
    obtain ⟨P, N, h1, h2, h3, h4⟩ := C173_parts (e := ⟨dbg, eps, tol, (prepare sqrt pca s).lo, (prepare sqrt pca s).hi⟩) ⟨he, ht⟩ p _ hin
    have hd : divide pca dbg eps tol p (prepare sqrt pca s) = some
        (if pca then revert (part (prepare sqrt pca s) P.tets) else part (prepare sqrt pca s) P.tets,
         if pca then revert (part (prepare sqrt pca s) N.tets) else part (prepare sqrt pca s) N.tets) := by
      unfold divide
      rw [h1]
      cases pca <;> rfl
    have hlen : (prepare sqrt pca s).tets.length = s.tets.length := by
      rw [e3]; cases pca <;> simp
    refine ⟨_, _, if pca then back Q b p else p, hd, ?_, ?_, ?_, ?_⟩
    · cases pca
      · rfl
      · exact back_norm hf b p
    · rw [part_tets _ _ hne, e1, e2]
      cases pca with
      | false =>
        simp only [Bool.false_eq_true, if_false] at e3 ⊢
        rw [e3] at h2
        exact h2
      | true =>
        simp only [if_true] at e3 ⊢
        intro u hu
        obtain ⟨u0, hu0, rfl⟩ := List.mem_map.1 hu
        obtain ⟨t, ht, g1, g2⟩ := h2 u0 hu0
        rw [e3] at ht
        obtain ⟨t0, ht0, rfl⟩ := List.mem_map.1 ht
        refine ⟨t0, ht0, ?_, ?_⟩
        · intro c hc
          rw [corners_map] at hc
          obtain ⟨c0, hc0, rfl⟩ := List.mem_map.1 hc
          obtain ⟨k1, k2⟩ := g1 c0 hc0
          refine ⟨?_, ?_⟩
          · have := hull_from Q b k1
            rw [corners_map, List.map_map] at this
            simpa [Function.comp_def, from_to hf] using this
          · rw [back_eval, to_from hf]; exact k2
        · simp only [mapTet, det_from hf]; exact g2
    · rw [part_tets _ _ hne, e1, e2]
      cases pca with
      | false =>
        simp only [Bool.false_eq_true, if_false] at e3 ⊢
        rw [e3] at h3
        exact h3
      | true =>
        simp only [if_true] at e3 ⊢
        intro u hu
        obtain ⟨u0, hu0, rfl⟩ := List.mem_map.1 hu
        obtain ⟨t, ht, g1, g2⟩ := h3 u0 hu0
        rw [e3] at ht
        obtain ⟨t0, ht0, rfl⟩ := List.mem_map.1 ht
        refine ⟨t0, ht0, ?_, ?_⟩
        · intro c hc
          rw [corners_map] at hc
          obtain ⟨c0, hc0, rfl⟩ := List.mem_map.1 hc
          obtain ⟨k1, k2⟩ := g1 c0 hc0
          refine ⟨?_, ?_⟩
          · have := hull_from Q b k1
            rw [corners_map, List.map_map] at this
            simpa [Function.comp_def, from_to hf] using this
          · rw [back_eval, to_from hf]; exact k2
        · simp only [mapTet, det_from hf]; exact g2
    · rw [part_tets _ _ hne, part_tets _ _ hne]
      rw [hlen] at h4
      cases pca <;> simpa using h4

theorem volume_from {Q : M3 K} (hf : Frame Q) (b : V3 K) (ts : List (Tet K)) : tetVolume (ts.map (mapTet (fromAxes Q b))) = tetVolume ts := by
  rw [tetVolume_eq, tetVolume_eq, List.map_map]
  congr 2
  refine List.map_congr_left fun t _ => ?_
  simp only [Function.comp, mapTet, det_from hf]

/-- **C175** The two parts together have the volume of the set, under the conditions of `C173_volume_partial` on the
tetrahedra as they are cut. -/
theorem C175_volume_partial {sqrt : K → K} (hq : IsSqrt sqrt) (pca dbg : Bool) {eps tol : K} (he : 0 < eps) (ht : 0 ≤ tol) (p : Plane K) (s : ASet K)
    (hs : s.tets ≠ []) {τ : K} (hτ : 0 < τ) (hτ1 : τ ≤ 1) (hc : ∀ t ∈ (prepare sqrt pca s).tets, Clear p τ t)
    (hε : ∀ t ∈ (prepare sqrt pca s).tets, eps ≤ τ * τ * τ * |det t.p0 t.p1 t.p2 t.p3|) :
    ∃ R L, divide pca dbg eps tol p (prepare sqrt pca s) = some (R, L) ∧ tetVolume R.tets + tetVolume L.tets = tetVolume s.tets := by
  have hv := (C175_rigid hq pca s hs).2.2.2.2
  obtain ⟨b, Q, hf, hm, e1, e2, e3, hb, -, -⟩ := prepare_spec hq pca s hs
  have hin : ∀ t ∈ (prepare sqrt pca s).tets, ∀ c ∈ corners t, InBB (⟨dbg, eps, tol, (prepare sqrt pca s).lo, (prepare sqrt pca s).hi⟩ : Env K) c := by
    intro t ht c hc
    exact hb.1 c (List.mem_flatMap.2 ⟨t, ht, hc⟩)
  have hne : (prepare sqrt pca s).tets ≠ [] := by
    rw [e3]; cases pca <;> simpa using hs
  obtain ⟨P, N, h1, h2⟩ := C173_volume_partial (e := ⟨dbg, eps, tol, (prepare sqrt pca s).lo, (prepare sqrt pca s).hi⟩) ⟨he, ht⟩ p hτ hτ1 _ hc hε hin
  have hd : divide pca dbg eps tol p (prepare sqrt pca s) = some
      (if pca then revert (part (prepare sqrt pca s) P.tets) else part (prepare sqrt pca s) P.tets,
       if pca then revert (part (prepare sqrt pca s) N.tets) else part (prepare sqrt pca s) N.tets) := by
    unfold divide
    rw [h1]
    cases pca <;> rfl
  refine ⟨_, _, hd, ?_⟩
  rw [part_tets _ _ hne, part_tets _ _ hne, e1, e2, ← hv, ← h2]
  cases pca
  · rfl
  · simp only [if_true, volume_from hf]

/-! ### The spread -/

/-- The coordinates of a point. -/
def coord (p : V3 K) : Fin 3 → K
  | 0 => p.x
  | 1 => p.y
  | 2 => p.z

theorem cov_foldl (b : V3 K) (ps : List (V3 K)) : ∀ c : K × K × K × K × K × K, ps.foldl (covStep b) c =
    (c.1 + (ps.map fun p => (coord p 0 - coord b 0) * (coord p 0 - coord b 0)).sum,
     c.2.1 + (ps.map fun p => (coord p 1 - coord b 1) * (coord p 1 - coord b 1)).sum,
     c.2.2.1 + (ps.map fun p => (coord p 2 - coord b 2) * (coord p 2 - coord b 2)).sum,
     c.2.2.2.1 + (ps.map fun p => (coord p 0 - coord b 0) * (coord p 1 - coord b 1)).sum,
     c.2.2.2.2.1 + (ps.map fun p => (coord p 0 - coord b 0) * (coord p 2 - coord b 2)).sum,
     c.2.2.2.2.2 + (ps.map fun p => (coord p 1 - coord b 1) * (coord p 2 - coord b 2)).sum) := by
  induction ps with
  | nil => intro c; simp
  | cons p ps ih =>
    intro c
    rw [List.foldl_cons, ih]
    simp only [covStep, List.map_cons, List.sum_cons, coord, add_assoc]

theorem cov_eq (b : V3 K) {ts : List (Tet K)} (hs : ts ≠ []) (i j : Fin 3) :
    ((allCorners ts).map fun p => (coord p i - coord b i) * (coord p j - coord b j)).sum = ((allCorners ts).length : K) * covMat b ts i j := by
  have hn : ((ts.length : K) * 4) ≠ 0 := by
    have : (ts.length : K) ≠ 0 := by
      rw [Nat.cast_ne_zero]; exact fun h => hs (List.length_eq_zero_iff.1 h)
    exact mul_ne_zero this (by norm_num)
  have hl : ((allCorners ts).length : K) = (ts.length : K) * 4 := by rw [length_all]; push_cast; ring
  have hc : ∀ a b' : Fin 3, (fun p : V3 K => (coord p a - coord b a) * (coord p b' - coord b b')) = fun p => (coord p b' - coord b b') * (coord p a - coord b a) := by
    intro a b'; funext p; ring
  rw [hl]
  unfold covMat
  rw [cov_foldl]
  fin_cases i <;> fin_cases j <;> simp only [zero_add, Fin.zero_eta, Fin.mk_one, Fin.reduceFinMk, Matrix.of_apply, Matrix.cons_val]
  · rw [mul_div_cancel₀ _ hn]
  · rw [mul_div_cancel₀ _ hn]
  · rw [mul_div_cancel₀ _ hn]
  · rw [mul_div_cancel₀ _ hn, hc 1 0]
  · rw [mul_div_cancel₀ _ hn]
  · rw [mul_div_cancel₀ _ hn]
  · rw [mul_div_cancel₀ _ hn, hc 2 0]
  · rw [mul_div_cancel₀ _ hn, hc 2 1]
  · rw [mul_div_cancel₀ _ hn]

theorem covMat_sym (b : V3 K) (ts : List (Tet K)) : Sym (covMat b ts) := by
  intro i j
  fin_cases i <;> fin_cases j <;> rfl

theorem coord_to (Q : M3 K) (b p : V3 K) (i : Fin 3) : coord (toAxes Q b p) i - coord b i = ∑ k, Q k i * (coord p k - coord b k) := by
  fin_cases i <;> simp [coord, toAxes, Fin.sum_univ_three]

/-- **C175** The matrix kept with a set is that of the covariances of its corners as they stand after the turn to the axes;
after a turn that made it diagonal, the coordinates are not correlated. -/
theorem C175_spread {sqrt : K → K} (hq : IsSqrt sqrt) (s : ASet K) (hs : s.tets ≠ []) (i j : Fin 3) :
    ((allCorners (prepare sqrt true s).tets).map fun p => (coord p i - coord (prepare sqrt true s).bary i) * (coord p j - coord (prepare sqrt true s).bary j)).sum
      = ((allCorners s.tets).length : K) * (prepare sqrt true s).D i j := by
  obtain ⟨b, Q, hf, hm, e1, e2, e3, hb, eQ, eD⟩ := prepare_spec hq true s hs
  simp only [if_true] at e3
  rw [e1, e3, all_map, eD, (C174_product hq (covMat_sym b s.tets)).1, ← eQ, List.map_map]
  have hsum : ∀ (ps : List (V3 K)), (ps.map ((fun p => (coord p i - coord b i) * (coord p j - coord b j)) ∘ toAxes Q b)).sum
      = ∑ k, ∑ l, Q k i * (ps.map fun p => (coord p k - coord b k) * (coord p l - coord b l)).sum * Q l j := by
    intro ps
    induction ps with
    | nil => simp
    | cons p ps ih =>
      simp only [List.map_cons, List.sum_cons, ih, Function.comp, coord_to, Fin.sum_univ_three]
      ring
  rw [hsum]
  simp only [cov_eq b hs]
  simp only [Fin.sum_univ_three]
  ring

theorem meshRot_frame {sqrt : K → K} (hq : IsSqrt sqrt) (pca : Bool) (vs : List (Cell × Val)) : Frame (meshRot sqrt pca vs) := by
  cases pca with
  | true => exact C174_frame hq _
  | false =>
    refine ⟨?_, ?_, ?_⟩
    · intro i j
      fin_cases i <;> fin_cases j <;> simp [meshRot, Fin.sum_univ_three]
    · intro i j
      fin_cases i <;> fin_cases j <;> simp [meshRot, Fin.sum_univ_three]
    · rw [Matrix.det_fin_three]; simp [meshRot]

/-- **C175** The points of the hulls are returned in the coordinates of the mesh: the motion by which the mesh was put
into voxels is undone exactly, and it keeps distances and volumes. -/
theorem C175_mesh {sqrt : K → K} (hq : IsSqrt sqrt) (pca : Bool) (vs : List (Cell × Val)) (b : V3 K) :
    (∀ p, hullPoint (meshRot sqrt pca vs) b (meshPoint (meshRot sqrt pca vs) b p) = p)
    ∧ (∀ p, meshPoint (meshRot sqrt pca vs) b (hullPoint (meshRot sqrt pca vs) b p) = p)
    ∧ (∀ p q, dist2 (hullPoint (meshRot sqrt pca vs) b p) (hullPoint (meshRot sqrt pca vs) b q) = dist2 p q)
    ∧ (∀ p q r o, det (hullPoint (meshRot sqrt pca vs) b p) (hullPoint (meshRot sqrt pca vs) b q) (hullPoint (meshRot sqrt pca vs) b r)
        (hullPoint (meshRot sqrt pca vs) b o) = det p q r o) := by
  have hf := meshRot_frame hq pca vs
  generalize meshRot sqrt pca vs = Q at hf ⊢
  have e1 : ∀ p, meshPoint Q b p = ⟨(toAxes Q b p).x - b.x, (toAxes Q b p).y - b.y, (toAxes Q b p).z - b.z⟩ := by
    intro p
    simp only [meshPoint, aligned, toAxes]
    ext <;> ring
  have e2 : ∀ p, hullPoint Q b p = fromAxes Q b ⟨p.x + b.x, p.y + b.y, p.z + b.z⟩ := by
    intro p
    simp only [hullPoint, fromAxes]
    ext <;> ring
  refine ⟨?_, ?_, ?_, ?_⟩
  · intro p
    rw [e1, e2]
    simp only [sub_add_cancel]
    exact from_to hf b p
  · intro p
    rw [e2, e1, to_from hf]
    simp
  · intro p q
    rw [e2, e2, ← dist_to hf b, to_from hf, to_from hf]
    simp [dist2]
  · intro p q r o
    rw [e2, e2, e2, e2, det_from hf]
    simp [det]

/-- Two tetrahedra over the real numbers, and a square root: the hypotheses can be met. -/
example : IsSqrt Real.sqrt ∧ (⟨[⟨⟨0, 0, 0⟩, ⟨1, 0, 0⟩, ⟨0, 1, 0⟩, ⟨0, 0, 1⟩, .on⟩, ⟨⟨1, 1, 1⟩, ⟨1, 0, 0⟩, ⟨0, 1, 0⟩, ⟨0, 0, 1⟩, .on⟩], ⟨0, 0, 0⟩, ⟨1, 1, 1⟩, ⟨0, 0, 0⟩, 0, 0⟩ : ASet ℝ).tets ≠ []
    ∧ (0 : ℝ) < 1 / 10 ^ 10 ∧ (0 : ℝ) ≤ 1 / 10 ^ 13 :=
  ⟨fun x hx => ⟨Real.sqrt_nonneg x, Real.mul_self_sqrt hx⟩, by simp, by norm_num, by norm_num⟩

/-- The box and the mean of a tetrahedron. -/
example : (computeBB (⟨[⟨⟨0, 0, 0⟩, ⟨4, 0, 0⟩, ⟨0, 8, 0⟩, ⟨0, 0, -4⟩, .on⟩], ⟨0, 0, 0⟩, ⟨1, 1, 1⟩, ⟨0, 0, 0⟩, 0, 0⟩ : ASet ℚ)).lo = ⟨0, 0, -4⟩ := by
  decide +kernel

/-- The conditions on the volume are met by the unit tetrahedron and a plane that cuts it in the middle, without the turn
to the axes. -/
example : ∃ R L, divide false true (1 / 10 ^ 10) (1 / 10 ^ 13) ⟨1, 0, 0, -1 / 2⟩
      (prepare Real.sqrt false (⟨[⟨⟨0, 0, 0⟩, ⟨0, 0, 1⟩, ⟨0, 1, 0⟩, ⟨1, 0, 0⟩, .ins⟩], ⟨0, 0, 0⟩, ⟨1, 1, 1⟩, ⟨0, 0, 0⟩, 0, 0⟩ : ASet ℝ)) = some (R, L)
    ∧ tetVolume R.tets + tetVolume L.tets = tetVolume [(⟨⟨0, 0, 0⟩, ⟨0, 0, 1⟩, ⟨0, 1, 0⟩, ⟨1, 0, 0⟩, .ins⟩ : Tet ℝ)] := by
  have ht : (prepare Real.sqrt false (⟨[⟨⟨0, 0, 0⟩, ⟨0, 0, 1⟩, ⟨0, 1, 0⟩, ⟨1, 0, 0⟩, .ins⟩], ⟨0, 0, 0⟩, ⟨1, 1, 1⟩, ⟨0, 0, 0⟩, 0, 0⟩ : ASet ℝ)).tets
      = [⟨⟨0, 0, 0⟩, ⟨0, 0, 1⟩, ⟨0, 1, 0⟩, ⟨1, 0, 0⟩, .ins⟩] := by
    simp [prepare, principal, computeBB]
  refine C175_volume_partial (fun x hx => ⟨Real.sqrt_nonneg x, Real.mul_self_sqrt hx⟩) false true (by norm_num) (by norm_num) _ _ (by simp)
    (τ := 1 / 4) (by norm_num) (by norm_num) ?_ ?_
  · rw [ht]
    intro t h
    rw [List.mem_singleton] at h
    subst h
    unfold Clear
    simp [TetClip.corners, Plane.eval]
    norm_num
  · rw [ht]
    intro t h
    rw [List.mem_singleton] at h
    subst h
    norm_num [det]

end Verif.TetAxes
