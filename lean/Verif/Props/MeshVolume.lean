import Verif.Model.MeshVolume
import Mathlib.Algebra.BigOperators.Group.List.Basic
import Mathlib.Data.List.Perm.Basic
import Mathlib.Tactic.Linarith
import Mathlib.Tactic.Ring
import Mathlib.Tactic.LinearCombination
import Mathlib.Tactic.FieldSimp
import Mathlib.Tactic.NormNum
import Mathlib.Tactic.Positivity

set_option linter.unusedSectionVars false
set_option linter.unusedVariables false

/-!
# C172: volumes of meshes, points inside, voxels and tetrahedra in V-HACD
-/

namespace Verif.MeshVol

open Verif.Voxel

variable {K : Type*} [Field K] [LinearOrder K] [IsStrictOrderedRing K] [FloorRing K]

/-! ### Specification -/

/-- Six times the signed volume of the tetrahedron `a b c o`, written out. -/
def det (a b c o : V3 K) : K :=
  (a.x - o.x) * ((b.y - o.y) * (c.z - o.z) - (b.z - o.z) * (c.y - o.y)) +
  (a.y - o.y) * ((b.z - o.z) * (c.x - o.x) - (b.x - o.x) * (c.z - o.z)) +
  (a.z - o.z) * ((b.x - o.x) * (c.y - o.y) - (b.y - o.y) * (c.x - o.x))

/-- All corners of all triangles are points of the mesh. -/
def Valid (m : Mesh K) : Prop := ∀ t ∈ m.tris, t.1 < m.pts.length ∧ t.2.1 < m.pts.length ∧ t.2.2 < m.pts.length

/-- The directed edges of the triangles. -/
def edges (ts : List Tri) : List (ℕ × ℕ) := ts.flatMap fun t => [(t.1, t.2.1), (t.2.1, t.2.2), (t.2.2, t.1)]

/-- A closed, consistently oriented surface: every edge is run through as often in one direction as in
the other. -/
def Closed (m : Mesh K) : Prop := (edges m.tris).Perm ((edges m.tris).map Prod.swap)

/-- The point with the number `i`. -/
def pt (ps : List (V3 K)) (i : ℕ) : V3 K := ps.getD i ⟨0, 0, 0⟩

/-- The signed volume of the surface as seen from `o`. -/
def signed (m : Mesh K) (o : V3 K) : K :=
  (m.tris.map fun t => det (pt m.pts t.1) (pt m.pts t.2.1) (pt m.pts t.2.2) o).sum / 6

/-- The smallest convex set that contains some points. -/
inductive InHull (ps : List (V3 K)) : V3 K → Prop
  | point {p : V3 K} : p ∈ ps → InHull ps p
  | between {p q : V3 K} (s : K) : InHull ps p → InHull ps q → 0 ≤ s → s ≤ 1 →
      InHull ps ⟨(1 - s) * p.x + s * q.x, (1 - s) * p.y + s * q.y, (1 - s) * p.z + s * q.z⟩

/-- The box of a voxel. -/
def InVoxel (mn : V3 K) (s : K) (c : Cell) (y : V3 K) : Prop :=
  |y.x - (mn.x + s * c.1)| ≤ s / 2 ∧ |y.y - (mn.y + s * c.2.1)| ≤ s / 2 ∧ |y.z - (mn.z + s * c.2.2)| ≤ s / 2

/-- A point of a tetrahedron. -/
def InTet (t : Tet K) (y : V3 K) : Prop := ∃ α β γ δ : K, 0 ≤ α ∧ 0 ≤ β ∧ 0 ≤ γ ∧ 0 ≤ δ ∧ α + β + γ + δ = 1 ∧
  y = ⟨α * t.p0.x + β * t.p1.x + γ * t.p2.x + δ * t.p3.x, α * t.p0.y + β * t.p1.y + γ * t.p2.y + δ * t.p3.y,
    α * t.p0.z + β * t.p1.z + γ * t.p2.z + δ * t.p3.z⟩

/-! ### The loops -/

theorem vol4_det (a b c o : V3 K) : vol4 a b c o = det a b c o := by
  simp only [vol4, det, V3.dot, V3.sub, V3.cross]

theorem triVol_eq {ps : List (V3 K)} {t : Tri} (h : t.1 < ps.length ∧ t.2.1 < ps.length ∧ t.2.2 < ps.length) (o : V3 K) :
    triVol ps o t = some (det (pt ps t.1) (pt ps t.2.1) (pt ps t.2.2) o) := by
  obtain ⟨h1, h2, h3⟩ := h
  simp [triVol, pt, h1, h2, h3, List.getElem?_eq_getElem, List.getD_eq_getElem?_getD, vol4_det]

theorem volLoop_eq {ps : List (V3 K)} (o : V3 K) : ∀ (ts : List Tri) (v : K),
    (∀ t ∈ ts, t.1 < ps.length ∧ t.2.1 < ps.length ∧ t.2.2 < ps.length) →
    volLoop ps o ts v = some (v + (ts.map fun t => det (pt ps t.1) (pt ps t.2.1) (pt ps t.2.2) o).sum)
  | [], v, _ => by simp [volLoop]
  | t :: ts, v, h => by
    rw [volLoop, triVol_eq (h t (by simp)) o]
    simp only [Option.bind_eq_bind, Option.bind_some]
    rw [volLoop_eq o ts _ (fun u hu => h u (by simp [hu]))]
    simp only [List.map_cons, List.sum_cons]
    rw [add_assoc]

theorem volume_eq {m : Mesh K} (hv : Valid m) : computeVolume m = some (signed m (bary m.pts)) := by
  unfold computeVolume signed
  by_cases h : m.pts.length = 0 ∨ m.tris.length = 0
  · rw [if_pos h]
    have : m.tris = [] := by
      rcases h with h | h
      · cases ht : m.tris with
        | nil => rfl
        | cons t ts =>
          have := hv t (by rw [ht]; simp)
          omega
      · exact List.length_eq_zero_iff.1 h
    rw [this]; simp
  · rw [if_neg h, volLoop_eq _ _ _ hv]; simp

/-- The cross product of the ends of an edge. -/
def edgeVec (ps : List (V3 K)) (d : V3 K) (e : ℕ × ℕ) : K :=
  d.x * ((pt ps e.1).y * (pt ps e.2).z - (pt ps e.1).z * (pt ps e.2).y) +
  d.y * ((pt ps e.1).z * (pt ps e.2).x - (pt ps e.1).x * (pt ps e.2).z) +
  d.z * ((pt ps e.1).x * (pt ps e.2).y - (pt ps e.1).y * (pt ps e.2).x)

theorem edge_sum (ps : List (V3 K)) (o o' : V3 K) : ∀ ts : List Tri,
    (ts.map fun t => det (pt ps t.1) (pt ps t.2.1) (pt ps t.2.2) o).sum =
    (ts.map fun t => det (pt ps t.1) (pt ps t.2.1) (pt ps t.2.2) o').sum +
      ((edges ts).map (edgeVec ps (o'.sub o))).sum
  | [] => by simp [edges]
  | t :: ts => by
    have ih := edge_sum ps o o' ts
    simp only [edges, List.flatMap_cons, List.map_append, List.map_cons, List.map_nil, List.sum_append, List.sum_cons,
      List.sum_nil] at ih ⊢
    rw [ih]
    simp only [det, edgeVec, V3.sub]
    ring

theorem sum_neg {α : Type*} (f : α → K) : ∀ l : List α, (l.map fun x => -f x).sum = -(l.map f).sum
  | [] => by simp
  | x :: l => by
    simp only [List.map_cons, List.sum_cons, sum_neg f l]
    ring

theorem edges_zero {ps : List (V3 K)} {ts : List Tri} (d : V3 K) (h : (edges ts).Perm ((edges ts).map Prod.swap)) :
    ((edges ts).map (edgeVec ps d)).sum = 0 := by
  have h1 := (h.map (edgeVec ps d)).sum_eq
  rw [List.map_map] at h1
  have h2 : ((edges ts).map (edgeVec ps d ∘ Prod.swap)).sum = -((edges ts).map (edgeVec ps d)).sum := by
    rw [← sum_neg]
    congr 1
    apply List.map_congr_left
    intro e _
    simp only [Function.comp, edgeVec, Prod.swap]
    ring
  rw [h2] at h1
  linarith

theorem signed_indep {m : Mesh K} (hc : Closed m) (o o' : V3 K) : signed m o = signed m o' := by
  unfold signed
  rw [edge_sum m.pts o o', edges_zero _ hc, add_zero]

/-- C172, part 1.  The volume of a closed mesh is the sum of the signed volumes of the tetrahedra over its
triangles, as seen from any point: the choice of the mean of the points makes no difference. -/
theorem C172_volume (m : Mesh K) (hv : Valid m) (hc : Closed m) (o : V3 K) : computeVolume m = some (signed m o) := by
  rw [volume_eq hv, signed_indep hc _ o]

/-! ### Affine maps -/

/-- An affine map with the rows `r0`, `r1`, `r2` and the translation `t`. -/
def affine (r0 r1 r2 t : V3 K) (p : V3 K) : V3 K :=
  ⟨r0.x * p.x + r0.y * p.y + r0.z * p.z + t.x, r1.x * p.x + r1.y * p.y + r1.z * p.z + t.y,
    r2.x * p.x + r2.y * p.y + r2.z * p.z + t.z⟩

theorem det_affine (r0 r1 r2 t a b c o : V3 K) :
    det (affine r0 r1 r2 t a) (affine r0 r1 r2 t b) (affine r0 r1 r2 t c) (affine r0 r1 r2 t o) =
      det r0 r1 r2 ⟨0, 0, 0⟩ * det a b c o := by
  simp only [det, affine]; ring

theorem pt_map {ps : List (V3 K)} {i : ℕ} (h : i < ps.length) (f : V3 K → V3 K) : pt (ps.map f) i = f (pt ps i) := by
  simp [pt, List.getD_eq_getElem?_getD, h]

theorem sum_mul {α : Type*} (k : K) (f : α → K) : ∀ l : List α, (l.map fun x => k * f x).sum = k * (l.map f).sum
  | [] => by simp
  | x :: l => by
    simp only [List.map_cons, List.sum_cons, sum_mul k f l]
    ring

theorem signed_affine {m : Mesh K} (hv : Valid m) (r0 r1 r2 t o : V3 K) :
    signed ⟨m.pts.map (affine r0 r1 r2 t), m.tris⟩ (affine r0 r1 r2 t o) = det r0 r1 r2 ⟨0, 0, 0⟩ * signed m o := by
  unfold signed
  rw [show det r0 r1 r2 ⟨0, 0, 0⟩ * ((m.tris.map fun t => det (pt m.pts t.1) (pt m.pts t.2.1) (pt m.pts t.2.2) o).sum / 6) =
    (det r0 r1 r2 ⟨0, 0, 0⟩ * (m.tris.map fun t => det (pt m.pts t.1) (pt m.pts t.2.1) (pt m.pts t.2.2) o).sum) / 6 by ring,
    ← sum_mul]
  congr 2
  apply List.map_congr_left
  intro u hu
  obtain ⟨h1, h2, h3⟩ := hv u hu
  simp only [pt_map h1, pt_map h2, pt_map h3, det_affine]

/-- C172, part 2.  An affine map of the points multiplies the volume of a closed mesh by its determinant: moving
and turning the mesh changes nothing, scaling by `s` multiplies by `s` three times, mirroring gives the negative. -/
theorem C172_affine (m : Mesh K) (hv : Valid m) (hc : Closed m) (r0 r1 r2 t : V3 K) :
    ∃ v, computeVolume m = some v ∧
      computeVolume ⟨m.pts.map (affine r0 r1 r2 t), m.tris⟩ = some (det r0 r1 r2 ⟨0, 0, 0⟩ * v) := by
  refine ⟨_, C172_volume m hv hc ⟨0, 0, 0⟩, ?_⟩
  have hv' : Valid (⟨m.pts.map (affine r0 r1 r2 t), m.tris⟩ : Mesh K) := by
    intro u hu
    simp only [List.length_map]
    exact hv u hu
  rw [C172_volume ⟨m.pts.map (affine r0 r1 r2 t), m.tris⟩ hv' hc (affine r0 r1 r2 t ⟨0, 0, 0⟩), signed_affine hv]

/-- The corners of a triangle in the other order. -/
def flip (t : Tri) : Tri := (t.1, t.2.2, t.2.1)

/-- C172, part 3.  If all triangles are turned round the volume of the mesh changes its sign (for every mesh). -/
theorem C172_flip (m : Mesh K) (hv : Valid m) :
    ∃ v, computeVolume m = some v ∧ computeVolume ⟨m.pts, m.tris.map flip⟩ = some (-v) := by
  refine ⟨_, volume_eq hv, ?_⟩
  have hv' : Valid (⟨m.pts, m.tris.map flip⟩ : Mesh K) := by
    intro u hu
    obtain ⟨w, hw, rfl⟩ := List.mem_map.1 hu
    obtain ⟨h1, h2, h3⟩ := hv w hw
    exact ⟨h1, h3, h2⟩
  rw [volume_eq hv']
  unfold signed
  rw [List.map_map, ← neg_div, ← sum_neg]
  congr 3
  apply List.map_congr_left
  intro u _
  simp only [Function.comp, flip, det]
  ring

/-! ### Several meshes in one -/

/-- A triangle with the numbers of its corners increased. -/
def shift (s : ℕ) (t : Tri) : Tri := (s + t.1, s + t.2.1, s + t.2.2)

theorem edges_append (a b : List Tri) : edges (a ++ b) = edges a ++ edges b := by simp [edges]

theorem edges_shift (s : ℕ) : ∀ ts : List Tri, edges (ts.map (shift s)) = (edges ts).map fun e => (s + e.1, s + e.2)
  | [] => by simp [edges]
  | t :: ts => by
    have ih := edges_shift s ts
    simp only [edges, List.map_cons, List.flatMap_cons, List.map_append] at ih ⊢
    rw [ih]
    simp [shift]

theorem pt_left {ps qs : List (V3 K)} {i : ℕ} (h : i < ps.length) : pt (ps ++ qs) i = pt ps i := by
  unfold pt
  rw [List.getD_eq_getElem?_getD, List.getD_eq_getElem?_getD, List.getElem?_append_left h]

theorem pt_right (ps qs : List (V3 K)) (i : ℕ) : pt (ps ++ qs) (ps.length + i) = pt qs i := by
  unfold pt
  rw [List.getD_eq_getElem?_getD, List.getD_eq_getElem?_getD, List.getElem?_append_right (by omega), Nat.add_sub_cancel_left]

theorem grow_spec {m b : Mesh K} (hm : Valid m) (hb : Valid b) (cm : Closed m) (cb : Closed b) {f : ℕ → List Tri}
    (hf : ∀ s, f s = b.tris.map (shift s)) :
    Valid (m.grow b.pts f) ∧ Closed (m.grow b.pts f) ∧ ∀ o, signed (m.grow b.pts f) o = signed m o + signed b o := by
  refine ⟨?_, ?_, ?_⟩
  · intro t ht
    simp only [Mesh.grow, hf, List.mem_append, List.mem_map, List.length_append] at ht ⊢
    rcases ht with ht | ⟨u, hu, rfl⟩
    · obtain ⟨h1, h2, h3⟩ := hm t ht
      omega
    · obtain ⟨h1, h2, h3⟩ := hb u hu
      simp only [shift]
      omega
  · unfold Closed
    simp only [Mesh.grow, hf, edges_append, List.map_append, edges_shift]
    apply List.Perm.append cm
    have := cb.map fun e : ℕ × ℕ => (m.pts.length + e.1, m.pts.length + e.2)
    rw [List.map_map] at this ⊢
    exact this
  · intro o
    unfold signed
    simp only [Mesh.grow, hf, List.map_append, List.sum_append, List.map_map]
    rw [add_div]
    congr 3
    · apply List.map_congr_left
      intro t ht
      obtain ⟨h1, h2, h3⟩ := hm t ht
      rw [pt_left h1, pt_left h2, pt_left h3]
    · apply List.map_congr_left
      intro t ht
      simp only [Function.comp, shift, pt_right]

/-- C172, part 4.  The volume of two closed meshes put into one is the sum of their volumes. -/
theorem C172_union (m b : Mesh K) (hm : Valid m) (hb : Valid b) (cm : Closed m) (cb : Closed b) :
    ∃ v w, computeVolume m = some v ∧ computeVolume b = some w ∧
      computeVolume ⟨m.pts ++ b.pts, m.tris ++ b.tris.map (shift m.pts.length)⟩ = some (v + w) := by
  obtain ⟨h1, h2, h3⟩ := grow_spec hm hb cm cb (f := fun s => b.tris.map (shift s)) (fun _ => rfl)
  refine ⟨_, _, C172_volume m hm cm ⟨0, 0, 0⟩, C172_volume b hb cb ⟨0, 0, 0⟩, ?_⟩
  rw [← h3]
  exact C172_volume _ h1 h2 _

/-! ### Voxels and tetrahedra as meshes -/

theorem cube_shift (s : ℕ) : cubeTris s = (cubeTris 0).map (shift s) := by simp [cubeTris, shift]

theorem tet_shift (s : ℕ) : tetTris s = (tetTris 0).map (shift s) := by simp [tetTris, shift]

theorem cube_closed : (edges (cubeTris 0)).Perm ((edges (cubeTris 0)).map Prod.swap) := by decide +kernel

theorem tet_closed : (edges (tetTris 0)).Perm ((edges (tetTris 0)).map Prod.swap) := by decide +kernel

theorem cube_valid (mn : V3 K) (s : K) (c : Cell) : Valid (⟨cubePts mn s c, cubeTris 0⟩ : Mesh K) := by
  have : ∀ t ∈ cubeTris 0, t.1 < 8 ∧ t.2.1 < 8 ∧ t.2.2 < 8 := by decide +kernel
  exact this

theorem tet_valid (t : Tet K) : Valid (⟨[t.p0, t.p1, t.p2, t.p3], tetTris 0⟩ : Mesh K) := by
  have : ∀ t ∈ tetTris 0, t.1 < 4 ∧ t.2.1 < 4 ∧ t.2.2 < 4 := by decide +kernel
  exact this

theorem cube_signed (mn : V3 K) (s : K) (c : Cell) (o : V3 K) :
    signed (⟨cubePts mn s c, cubeTris 0⟩ : Mesh K) o = s * s * s := by
  simp [signed, cubeTris, cubePts, pt, det]
  ring

theorem tet_signed (t : Tet K) (o : V3 K) :
    signed (⟨[t.p0, t.p1, t.p2, t.p3], tetTris 0⟩ : Mesh K) o = det t.p0 t.p1 t.p2 t.p3 / 6 := by
  simp [signed, tetTris, pt, det]
  ring

theorem convertVoxels_spec (mn : V3 K) (s : K) (value : Val) : ∀ (vs : List (Cell × Val)) (m : Mesh K), Valid m → Closed m →
    Valid (convertVoxels mn s value vs m) ∧ Closed (convertVoxels mn s value vs m) ∧
    ∀ o, signed (convertVoxels mn s value vs m) o = signed m o + (vs.countP fun v => v.2 = value : ℕ) * (s * s * s)
  | [], m, hv, hc => ⟨hv, hc, fun o => by simp [convertVoxels]⟩
  | v :: vs, m, hv, hc => by
    unfold convertVoxels
    by_cases h : v.2 = value
    · rw [if_pos h]
      obtain ⟨g1, g2, g3⟩ := grow_spec hv (cube_valid mn s v.1) hc cube_closed cube_shift
      obtain ⟨r1, r2, r3⟩ := convertVoxels_spec mn s value vs _ g1 g2
      refine ⟨r1, r2, fun o => ?_⟩
      rw [r3, g3, cube_signed, List.countP_cons_of_pos (by simpa using h)]
      push_cast
      ring
    · rw [if_neg h]
      obtain ⟨r1, r2, r3⟩ := convertVoxels_spec mn s value vs _ hv hc
      refine ⟨r1, r2, fun o => ?_⟩
      rw [r3, List.countP_cons_of_neg (by simpa using h)]

/-- C172, part 5.  The mesh made from the voxels of one class is a closed surface, and its volume is that of one voxel
times their number, for every set of voxels. -/
theorem C172_voxels (mn : V3 K) (s : K) (value : Val) (vs : List (Cell × Val)) :
    Valid (convertVoxels mn s value vs ⟨[], []⟩) ∧ Closed (convertVoxels mn s value vs ⟨[], []⟩) ∧
    computeVolume (convertVoxels mn s value vs ⟨[], []⟩) = some ((vs.countP fun v => v.2 = value : ℕ) * (s * s * s)) := by
  obtain ⟨h1, h2, h3⟩ := convertVoxels_spec mn s value vs ⟨[], []⟩ (by intro t ht; simp at ht) (by simp [Closed, edges])
  refine ⟨h1, h2, ?_⟩
  rw [C172_volume _ h1 h2 ⟨0, 0, 0⟩, h3]
  simp [signed]

theorem convertTets_spec (value : Val) : ∀ (ts : List (Tet K)) (m : Mesh K), Valid m → Closed m →
    Valid (convertTets value ts m) ∧ Closed (convertTets value ts m) ∧
    ∀ o, signed (convertTets value ts m) o =
      signed m o + ((ts.filter fun t => t.data = value).map fun t => det t.p0 t.p1 t.p2 t.p3).sum / 6
  | [], m, hv, hc => ⟨hv, hc, fun o => by simp [convertTets]⟩
  | t :: ts, m, hv, hc => by
    unfold convertTets
    by_cases h : t.data = value
    · rw [if_pos h]
      obtain ⟨g1, g2, g3⟩ := grow_spec hv (tet_valid t) hc tet_closed tet_shift
      obtain ⟨r1, r2, r3⟩ := convertTets_spec value ts _ g1 g2
      refine ⟨r1, r2, fun o => ?_⟩
      rw [r3, g3, tet_signed, List.filter_cons_of_pos (by simpa using h)]
      simp only [List.map_cons, List.sum_cons]
      ring
    · rw [if_neg h]
      obtain ⟨r1, r2, r3⟩ := convertTets_spec value ts _ hv hc
      refine ⟨r1, r2, fun o => ?_⟩
      rw [r3, List.filter_cons_of_neg (by simpa using h)]

theorem tetVolume_eq (ts : List (Tet K)) : tetVolume ts = (ts.map fun t => |det t.p0 t.p1 t.p2 t.p3|).sum / 6 := by
  have : ∀ (ts : List (Tet K)) (v : K), ts.foldl (fun v t => v + |vol4 t.p0 t.p1 t.p2 t.p3|) v =
      v + (ts.map fun t => |det t.p0 t.p1 t.p2 t.p3|).sum := by
    intro ts
    induction ts with
    | nil => intro v; simp
    | cons t ts ih =>
      intro v
      rw [List.foldl_cons, ih]
      simp only [List.map_cons, List.sum_cons, vol4_det]
      ring
  unfold tetVolume
  rw [this, zero_add]

/-- C172, part 6.  The mesh made from tetrahedra of one class with positive orientation (as `TetrahedronSet` keeps them)
is closed, and its volume is the one the set of these tetrahedra reports. -/
theorem C172_tetrahedra (value : Val) (ts : List (Tet K)) (hp : ∀ t ∈ ts, 0 ≤ det t.p0 t.p1 t.p2 t.p3) :
    Valid (convertTets value ts ⟨[], []⟩) ∧ Closed (convertTets value ts ⟨[], []⟩) ∧
    computeVolume (convertTets value ts ⟨[], []⟩) = some (tetVolume (ts.filter fun t => t.data = value)) := by
  obtain ⟨h1, h2, h3⟩ := convertTets_spec value ts ⟨[], []⟩ (by intro t ht; simp at ht) (by simp [Closed, edges])
  refine ⟨h1, h2, ?_⟩
  rw [C172_volume _ h1 h2 ⟨0, 0, 0⟩, h3, tetVolume_eq]
  simp only [signed, List.map_nil, List.sum_nil, zero_div, zero_add]
  congr 3
  apply List.map_congr_left
  intro t ht
  exact (abs_of_nonneg (hp t (List.mem_filter.1 ht).1)).symm

/-! ### Voxels cut into tetrahedra -/

theorem voxelTets_vol {mn : V3 K} {s : K} (hs : 0 < s) (v : Cell × Val) :
    ((voxelTets mn s v).map fun t => |det t.p0 t.p1 t.p2 t.p3|).sum / 6 = s * s * s := by
  have h3 : 0 < s * s * s := by positivity
  simp only [voxelTets, List.map_cons, List.map_nil, List.sum_cons, List.sum_nil]
  have e : ∀ (a b c d : V3 K) (k : K), 0 ≤ k → (det a b c d = k ∨ det a b c d = -k) → |det a b c d| = k := by
    intro a b c d k hk h
    rcases h with h | h
    · rw [h, abs_of_nonneg hk]
    · rw [h, abs_neg, abs_of_nonneg hk]
  rw [e _ _ _ _ (2 * (s * s * s)) (by positivity) (by simp only [det]; first | (left; ring; done) | (right; ring; done)),
    e _ _ _ _ (s * s * s) h3.le (by simp only [det]; first | (left; ring; done) | (right; ring; done)),
    e _ _ _ _ (s * s * s) h3.le (by simp only [det]; first | (left; ring; done) | (right; ring; done)),
    e _ _ _ _ (s * s * s) h3.le (by simp only [det]; first | (left; ring; done) | (right; ring; done)),
    e _ _ _ _ (s * s * s) h3.le (by simp only [det]; first | (left; ring; done) | (right; ring; done))]
  ring

/-- C172, part 7.  The tetrahedra voxels are cut into have together the volume of the voxels inside and on the surface. -/
theorem C172_cut_volume (mn : V3 K) (s : K) (hs : 0 < s) (vs : List (Cell × Val)) :
    tetVolume (toTets mn s vs) = (vs.countP fun v => v.2 = Val.ins ∨ v.2 = Val.on : ℕ) * (s * s * s) := by
  rw [tetVolume_eq]
  induction vs with
  | nil => simp [toTets]
  | cons v vs ih =>
    unfold toTets
    by_cases h : v.2 = Val.ins ∨ v.2 = Val.on
    · rw [if_pos h, List.map_append, List.sum_append, add_div, ih, voxelTets_vol hs, List.countP_cons_of_pos (by simpa using h)]
      push_cast
      ring
    · rw [if_neg h, ih, List.countP_cons_of_neg (by simpa using h)]

theorem voxel_unit {mn : V3 K} {s : K} (hs : 0 < s) {c : Cell} {y : V3 K} (h : InVoxel mn s c y) :
    ∃ u v w : K, (0 ≤ u ∧ u ≤ 1) ∧ (0 ≤ v ∧ v ≤ 1) ∧ (0 ≤ w ∧ w ≤ 1) ∧
      y = ⟨((c.1 : K) - 1 / 2) * s + mn.x + u * s, ((c.2.1 : K) - 1 / 2) * s + mn.y + v * s, ((c.2.2 : K) - 1 / 2) * s + mn.z + w * s⟩ := by
  obtain ⟨h1, h2, h3⟩ := h
  have one : ∀ (p m : K) (n : ℤ), |p - (m + s * n)| ≤ s / 2 → ∃ u, (0 ≤ u ∧ u ≤ 1) ∧ p = ((n : K) - 1 / 2) * s + m + u * s := by
    intro p m n hp
    obtain ⟨a, b⟩ := abs_le.1 hp
    refine ⟨(p - m - s * n) / s + 1 / 2, ⟨?_, ?_⟩, ?_⟩
    · have : -(1 / 2) ≤ (p - m - s * n) / s := by rw [le_div_iff₀ hs]; linarith
      linarith
    · have : (p - m - s * n) / s ≤ 1 / 2 := by rw [div_le_iff₀ hs]; linarith
      linarith
    · field_simp; ring
  obtain ⟨u, hu, e1⟩ := one _ _ _ h1
  obtain ⟨v, hv, e2⟩ := one _ _ _ h2
  obtain ⟨w, hw, e3⟩ := one _ _ _ h3
  refine ⟨u, v, w, hu, hv, hw, ?_⟩
  ext
  · exact e1
  · exact e2
  · exact e3

/-- C172, part 8.  The five tetrahedra of a voxel fill it: a point is in the voxel exactly if it is in one of them. -/
theorem C172_cut_fills (mn : V3 K) (s : K) (hs : 0 < s) (v : Cell × Val) (y : V3 K) :
    InVoxel mn s v.1 y ↔ ∃ t ∈ voxelTets mn s v, InTet t y := by
  constructor
  · intro h
    obtain ⟨a, b, c, ⟨a0, a1⟩, ⟨b0, b1⟩, ⟨c0, c1⟩, rfl⟩ := voxel_unit hs h
    by_cases h1 : a + b + c ≤ 1
    · refine ⟨_, by simp only [voxelTets]; exact List.mem_cons_of_mem _ (List.mem_cons_of_mem _ (List.mem_cons_of_mem _ List.mem_cons_self)), 1 - a - b - c, b, a, c, by linarith, b0, a0, c0, by ring, ?_⟩
      ext <;> simp only <;> ring
    by_cases h2 : (1 - a) + b + (1 - c) ≤ 1
    · refine ⟨_, by simp only [voxelTets]; exact List.mem_cons_of_mem _ List.mem_cons_self, a - b + c - 1, 1 - c, b, 1 - a, by linarith, by linarith, b0, by linarith, by ring, ?_⟩
      ext <;> simp only <;> ring
    by_cases h3 : (1 - a) + (1 - b) + c ≤ 1
    · refine ⟨_, by simp only [voxelTets]; exact List.mem_cons_of_mem _ (List.mem_cons_of_mem _ List.mem_cons_self), a + b - c - 1, 1 - a, c, 1 - b, by linarith, by linarith, c0, by linarith, by ring, ?_⟩
      ext <;> simp only <;> ring
    by_cases h4 : a + (1 - b) + (1 - c) ≤ 1
    · refine ⟨_, by simp only [voxelTets]; exact List.mem_cons_of_mem _ (List.mem_cons_of_mem _ (List.mem_cons_of_mem _ (List.mem_cons_of_mem _ List.mem_cons_self))), b + c - a - 1, 1 - b, a, 1 - c, by linarith, by linarith, a0, by linarith, by ring, ?_⟩
      ext <;> simp only <;> ring
    push Not at h1 h2 h3 h4
    refine ⟨_, by simp only [voxelTets]; exact List.mem_cons_self, (1 + a - b - c) / 2, (1 - a + b - c) / 2, (a + b + c - 1) / 2, (1 - a - b + c) / 2, by linarith, by linarith, by linarith, by linarith, by ring, ?_⟩
    ext <;> simp only <;> ring
  · rintro ⟨t, ht, α, β, γ, δ, h1, h2, h3, h4, hsum, rfl⟩
    have mid : ∀ {lo hi p q r w : K}, (p = lo ∨ p = hi) → (q = lo ∨ q = hi) → (r = lo ∨ r = hi) → (w = lo ∨ w = hi) → lo ≤ hi →
        lo ≤ α * p + β * q + γ * r + δ * w ∧ α * p + β * q + γ * r + δ * w ≤ hi := by
      intro lo hi p q r w hp hq hr hw hl
      have both : ∀ {p : K}, (p = lo ∨ p = hi) → lo ≤ p ∧ p ≤ hi := by
        rintro p (rfl | rfl)
        · exact ⟨le_refl _, hl⟩
        · exact ⟨hl, le_refl _⟩
      obtain ⟨p1, p2⟩ := both hp
      obtain ⟨q1, q2⟩ := both hq
      obtain ⟨r1, r2⟩ := both hr
      obtain ⟨w1, w2⟩ := both hw
      obtain rfl : δ = 1 - α - β - γ := by linarith
      constructor
      · linarith [mul_le_mul_of_nonneg_left p1 h1, mul_le_mul_of_nonneg_left q1 h2, mul_le_mul_of_nonneg_left r1 h3, mul_le_mul_of_nonneg_left w1 h4]
      · linarith [mul_le_mul_of_nonneg_left p2 h1, mul_le_mul_of_nonneg_left q2 h2, mul_le_mul_of_nonneg_left r2 h3, mul_le_mul_of_nonneg_left w2 h4]
    have fin : ∀ (p m : K) (n : ℤ), (((n : K) - 1 / 2) * s + m ≤ p ∧ p ≤ ((n : K) + 1 / 2) * s + m) → |p - (m + s * n)| ≤ s / 2 := by
      intro p m n hp
      rw [abs_le]; constructor <;> linarith [hp.1, hp.2]
    have lo : ∀ (m : K) (n : ℤ), ((n : K) - 1 / 2) * s + m ≤ ((n : K) + 1 / 2) * s + m := by intro m n; linarith
    simp only [voxelTets, List.mem_cons, List.not_mem_nil, or_false] at ht
    rcases ht with rfl | rfl | rfl | rfl | rfl <;>
      exact ⟨fin _ _ _ (mid (by simp) (by simp) (by simp) (by simp) (lo _ _)), fin _ _ _ (mid (by simp) (by simp) (by simp) (by simp) (lo _ _)),
        fin _ _ _ (mid (by simp) (by simp) (by simp) (by simp) (lo _ _))⟩

/-! ### Points inside -/

theorem insideLoop_eq {ps : List (V3 K)} (o : V3 K) : ∀ ts : List Tri,
    (∀ t ∈ ts, t.1 < ps.length ∧ t.2.1 < ps.length ∧ t.2.2 < ps.length) →
    insideLoop ps o ts = some (decide (∀ t ∈ ts, 0 ≤ det (pt ps t.1) (pt ps t.2.1) (pt ps t.2.2) o))
  | [], _ => by simp [insideLoop]
  | t :: ts, h => by
    rw [insideLoop, triVol_eq (h t (by simp)) o, Option.bind_some]
    by_cases hd : det (pt ps t.1) (pt ps t.2.1) (pt ps t.2.2) o < 0
    · rw [if_pos hd]
      simp only [Option.some.injEq]
      symm
      rw [decide_eq_false_iff_not]
      intro hall
      exact absurd (hall t (by simp)) (not_le.mpr hd)
    · rw [if_neg hd, insideLoop_eq o ts (fun u hu => h u (by simp [hu]))]
      push Not at hd
      simp [hd]

/-- C172, part 9.  A point is inside a mesh with triangles exactly if no triangle sees it from outside. -/
theorem C172_inside (m : Mesh K) (hv : Valid m) (ht : m.tris ≠ []) (o : V3 K) :
    isInside m o = some true ↔ ∀ t ∈ m.tris, 0 ≤ det (pt m.pts t.1) (pt m.pts t.2.1) (pt m.pts t.2.2) o := by
  unfold isInside
  rw [if_neg, insideLoop_eq o _ hv]
  · simp
  · rintro (h | h)
    · cases hm : m.tris with
      | nil => exact ht hm
      | cons t ts =>
        have := hv t (by rw [hm]; simp)
        omega
    · exact ht (List.length_eq_zero_iff.1 h)

theorem det_mix (a b c p q : V3 K) (s : K) :
    det a b c ⟨(1 - s) * p.x + s * q.x, (1 - s) * p.y + s * q.y, (1 - s) * p.z + s * q.z⟩ =
      (1 - s) * det a b c p + s * det a b c q := by
  simp only [det]; ring

/-- C172, part 10.  If all points of a mesh are inside it (as for a convex hull), so is every point of their convex hull:
a point that is said to be outside is outside the hull. -/
theorem C172_hull (m : Mesh K) (hv : Valid m) (ht : m.tris ≠ []) (hp : ∀ p ∈ m.pts, isInside m p = some true) (y : V3 K)
    (hy : InHull m.pts y) : isInside m y = some true := by
  induction hy with
  | point h => exact hp _ h
  | between s _ _ h0 h1 ih1 ih2 =>
    rw [C172_inside m hv ht] at ih1 ih2 ⊢
    intro t htm
    rw [det_mix]
    have := mul_nonneg (sub_nonneg.2 h1) (ih1 t htm)
    have := mul_nonneg h0 (ih2 t htm)
    linarith

/-- C172, part 11.  The points inside the mesh of one voxel are those of its box. -/
theorem C172_cube_inside (mn : V3 K) (s : K) (hs : 0 < s) (c : Cell) (value : Val) (y : V3 K) :
    isInside (convertVoxels mn s value [(c, value)] ⟨[], []⟩) y = some true ↔ InVoxel mn s c y := by
  have e : convertVoxels mn s value [(c, value)] ⟨[], []⟩ = ⟨cubePts mn s c, cubeTris 0⟩ := by
    simp [convertVoxels, Mesh.grow]
  rw [e, C172_inside _ (cube_valid mn s c) (by simp [cubeTris])]
  have h2 : 0 < s * s := by positivity
  have key : ∀ {d l : K}, d = s * s * l → (0 ≤ d ↔ 0 ≤ l) := by
    rintro d l rfl
    exact mul_nonneg_iff_of_pos_left h2
  simp only [cubeTris, cubePts, List.forall_mem_cons, List.not_mem_nil, false_implies, implies_true, and_true]
  simp only [pt, List.getD_cons_zero, List.getD_cons_succ, Nat.zero_add]
  unfold InVoxel
  simp only [abs_le]
  constructor
  · rintro ⟨f1, -, f3, -, f5, -, f7, -, f9, -, f11, -⟩
    rw [key (l := y.z - (((c.2.2 : K) - 1 / 2) * s + mn.z)) (by simp only [det]; ring)] at f1
    rw [key (l := (((c.2.2 : K) + 1 / 2) * s + mn.z) - y.z) (by simp only [det]; ring)] at f3
    rw [key (l := (((c.2.1 : K) + 1 / 2) * s + mn.y) - y.y) (by simp only [det]; ring)] at f5
    rw [key (l := y.y - (((c.2.1 : K) - 1 / 2) * s + mn.y)) (by simp only [det]; ring)] at f7
    rw [key (l := (((c.1 : K) + 1 / 2) * s + mn.x) - y.x) (by simp only [det]; ring)] at f9
    rw [key (l := y.x - (((c.1 : K) - 1 / 2) * s + mn.x)) (by simp only [det]; ring)] at f11
    refine ⟨⟨?_, ?_⟩, ⟨?_, ?_⟩, ?_, ?_⟩ <;> linarith
  · rintro ⟨⟨x0, x1⟩, ⟨y0, y1⟩, z0, z1⟩
    refine ⟨?_, ?_, ?_, ?_, ?_, ?_, ?_, ?_, ?_, ?_, ?_, ?_⟩
    · rw [key (l := y.z - (((c.2.2 : K) - 1 / 2) * s + mn.z)) (by simp only [det]; ring)]; linarith
    · rw [key (l := y.z - (((c.2.2 : K) - 1 / 2) * s + mn.z)) (by simp only [det]; ring)]; linarith
    · rw [key (l := (((c.2.2 : K) + 1 / 2) * s + mn.z) - y.z) (by simp only [det]; ring)]; linarith
    · rw [key (l := (((c.2.2 : K) + 1 / 2) * s + mn.z) - y.z) (by simp only [det]; ring)]; linarith
    · rw [key (l := (((c.2.1 : K) + 1 / 2) * s + mn.y) - y.y) (by simp only [det]; ring)]; linarith
    · rw [key (l := (((c.2.1 : K) + 1 / 2) * s + mn.y) - y.y) (by simp only [det]; ring)]; linarith
    · rw [key (l := y.y - (((c.2.1 : K) - 1 / 2) * s + mn.y)) (by simp only [det]; ring)]; linarith
    · rw [key (l := y.y - (((c.2.1 : K) - 1 / 2) * s + mn.y)) (by simp only [det]; ring)]; linarith
    · rw [key (l := (((c.1 : K) + 1 / 2) * s + mn.x) - y.x) (by simp only [det]; ring)]; linarith
    · rw [key (l := (((c.1 : K) + 1 / 2) * s + mn.x) - y.x) (by simp only [det]; ring)]; linarith
    · rw [key (l := y.x - (((c.1 : K) - 1 / 2) * s + mn.x)) (by simp only [det]; ring)]; linarith
    · rw [key (l := y.x - (((c.1 : K) - 1 / 2) * s + mn.x)) (by simp only [det]; ring)]; linarith

/-- C172, part 12.  Cutting the points of a mesh at a plane: the points not below it, in order, and those not above it;
points in the plane are in both parts. -/
theorem C172_clip (p : Plane K) (vs : List (V3 K)) :
    clipPts p vs = (vs.filter fun v => decide (0 ≤ p.a * v.x + p.b * v.y + p.c * v.z + p.d),
      vs.filter fun v => decide (p.a * v.x + p.b * v.y + p.c * v.z + p.d ≤ 0)) := by
  have key : clipPts p vs = (vs.filter fun v => decide (0 ≤ p.eval v), vs.filter fun v => decide (p.eval v ≤ 0)) := by
    induction vs with
    | nil => rfl
    | cons v vs ih =>
      unfold clipPts
      rw [ih]
      by_cases h1 : 0 < p.eval v
      · rw [if_pos h1, List.filter_cons_of_pos (by simpa using h1.le), List.filter_cons_of_neg (by simpa using h1)]
      rw [if_neg h1]
      by_cases h2 : p.eval v < 0
      · rw [if_pos h2, List.filter_cons_of_neg (by simpa using h2), List.filter_cons_of_pos (by simpa using h2.le)]
      · rw [if_neg h2, List.filter_cons_of_pos (by simpa using h2), List.filter_cons_of_pos (by simpa using h1)]
  exact key

/-! ### The hypotheses are met -/

/-- A tetrahedron of volume four with all corners used. -/
def wedge : Mesh ℚ := ⟨[⟨1, 1, 1⟩, ⟨3, 1, 1⟩, ⟨1, 4, 1⟩, ⟨1, 1, 5⟩], [(0, 2, 1), (0, 1, 3), (1, 2, 3), (0, 3, 2)]⟩

example : (∀ t ∈ wedge.tris, t.1 < wedge.pts.length ∧ t.2.1 < wedge.pts.length ∧ t.2.2 < wedge.pts.length) ∧
    (edges wedge.tris).Perm ((edges wedge.tris).map Prod.swap) ∧ computeVolume wedge = some 4 ∧ wedge.tris ≠ [] ∧
    (∀ p ∈ wedge.pts, isInside wedge p = some true) ∧ isInside wedge ⟨2, 3 / 2, 2⟩ = some true ∧
    isInside wedge ⟨3, 3, 3⟩ = some false := by decide +kernel

/-- Without closedness the volume depends on where it is seen from: part 1 needs it. -/
example : signed (⟨wedge.pts, [(0, 2, 1)]⟩ : Mesh ℚ) ⟨0, 0, 0⟩ ≠ signed (⟨wedge.pts, [(0, 2, 1)]⟩ : Mesh ℚ) ⟨0, 0, 5⟩ := by
  decide +kernel

/-- Voxels of two classes. -/
example : computeVolume (convertVoxels (⟨1, 2, 3⟩ : V3 ℚ) (1 / 2) Val.on [((0, 0, 0), Val.on), ((1, 0, 0), Val.ins), ((2, 0, 0), Val.on)]
    ⟨[], []⟩) = some (1 / 4) := by decide +kernel

/-- The tetrahedra of a voxel are positively oriented, as part 6 asks. -/
example : ((voxelTets (⟨0, 0, 0⟩ : V3 ℚ) 1 ((0, 0, 0), Val.on)).map fun t => det t.p0 t.p1 t.p2 t.p3) = [2, 1, 1, 1, 1] := by
  decide +kernel

end Verif.MeshVol
