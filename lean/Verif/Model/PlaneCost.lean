import Verif.Model.PartHull
import Verif.Model.ClipPlane

/-!
# The cost of a clipping plane in V-HACD

The body of the loop of `VHACD::ComputeBestClippingPlane` (trajopt_ext/vhacd/src/VHACD.cpp 978-1060) up to the critical
section (C169): the hulls of the two sides, their volumes and the cost.  With it `VoxelSet::SelectOnSurface`
(vhacdVolume.cpp 672-698), `VoxelSet::Intersect` (551-620), `VoxelSet::GetPoints` (521-550), `Mesh::Clip` (vhacdMesh.cpp
154-180) and `TetrahedronSet::ComputeClippedVolumes` (vhacdVolume.cpp 1519-1526).

OpenCL is left out.  The hull of an array of points is a parameter, as in C176; so are the volumes of hulls.
-/

namespace Verif.PlaneCost

open Verif.Voxel (V3)
open Verif.Decompose (VSet Plane clip side emptyLike)
open Verif.PartHull (corners8 partHull)

variable {K : Type} [Field K] [LinearOrder K]

/-- One turn of the loop of `SelectOnSurface` (689-697). -/
def selectStep (t : VSet K) (v : Decompose.Voxel) : VSet K :=
  if v.surf then { t with voxels := t.voxels ++ [v], nSurf := t.nSurf + 1 } else t

/-- `VoxelSet::SelectOnSurface` (672-698): the new contents of the set given. -/
def selectOnSurface (s old : VSet K) : VSet K :=
  if s.voxels = [] then old else s.voxels.foldl selectStep (emptyLike s)

/-- The arrays and counters of `Intersect`: `positivePts`, `negativePts`, `sp`, `sn`. -/
structure Inter (K : Type) where
  pos : List (V3 K)
  neg : List (V3 K)
  sp : ℕ
  sn : ℕ

/-- One turn of the loop of `Intersect` (566-619). -/
def interStep (p : Plane K) (m : ℕ) (s : VSet K) (a : Inter K) (v : Decompose.Voxel) : Inter K :=
  if 0 ≤ side p s v then
    if side p s v ≤ s.scale then { a with pos := a.pos ++ corners8 s v }
    else if a.sp + 1 = m then { a with pos := a.pos ++ corners8 s v, sp := 0 }
    else { a with sp := a.sp + 1 }
  else
    if -side p s v ≤ s.scale then { a with neg := a.neg ++ corners8 s v }
    else if a.sn + 1 = m then { a with neg := a.neg ++ corners8 s v, sn := 0 }
    else { a with sn := a.sn + 1 }

/-- `VoxelSet::Intersect` (551-620) on two empty arrays. -/
def intersect (p : Plane K) (m : ℕ) (s : VSet K) : List (V3 K) × List (V3 K) :=
  let r := s.voxels.foldl (interStep p m s) ⟨[], [], 0, 0⟩
  (r.pos, r.neg)

/-- The equation of a plane at a point (vhacdMesh.cpp 165). -/
def eqn (p : Plane K) (y : V3 K) : K := p.a * y.x + p.b * y.y + p.c * y.z + p.d

/-- `Mesh::Clip` (vhacdMesh.cpp 154-180): the points appended to the two arrays. -/
def meshClip (p : Plane K) (pts : List (V3 K)) : List (V3 K) × List (V3 K) :=
  pts.foldl (fun r y => if 0 < eqn p y then (r.1 ++ [y], r.2) else if eqn p y < 0 then (r.1, r.2 ++ [y])
    else (r.1 ++ [y], r.2 ++ [y])) ([], [])

/-- The hulls of the two sides (978-1020), right (positive) first, with the set `s` of voxels, the points `hull` of its
hull and the sets `a` and `b` left in `psets` by another plane. -/
def sideHulls (ch : List (V3 K) → List (V3 K)) (approx : Bool) (downsampling : ℕ) (s : VSet K) (hull : List (V3 K))
    (p : Plane K) (a b : VSet K) : Option (List (V3 K) × List (V3 K)) :=
  let on := selectOnSurface s Decompose.fresh
  if approx then
    let r := intersect p (downsampling * 32) on
    let c := meshClip p hull
    some (ch (r.1 ++ c.1), ch (r.2 ++ c.2))
  else
    let c := clip p on a b
    (partHull ch downsampling c.1 []).bind fun r => (partHull ch downsampling c.2 []).map fun l => (r, l)

/-- `TetrahedronSet::ComputeClippedVolumes` (1519-1526): the two volumes stay as they were. -/
def tetVolumes (right left : K) : K × K := (right, left)

/-- `ComputeConcavity` (VHACD.cpp 767-770). -/
def concavity (volume volumeCH volume0 : K) : K := |volumeCH - volume| / volume0

/-- The concavity and the cost of a plane (1051-1060), from the volumes of the sides and of their hulls, right first, and
the inner product of the preferred direction and the normal, times the weight `w`. -/
def cost (vol hullVol : K × K) (volumeCH0 alpha beta d : K) : K × K :=
  let conc := concavity vol.2 hullVol.2 volumeCH0 + concavity vol.1 hullVol.1 volumeCH0
  let balance := alpha * |vol.2 - vol.1| / volumeCH0
  let symmetry := beta * d
  (conc, conc + balance + symmetry)

/-- The cost with voxels: the volumes are those of `VoxelSet::ComputeClippedVolumes`. -/
def voxelCost (s : VSet K) (p : Plane K) (hullVol : K × K) (volumeCH0 alpha beta d : K) : K × K :=
  cost (Decompose.clippedVolumes p s) hullVol volumeCH0 alpha beta d

/-- The cost with tetrahedra: the volumes were set to zero before the call (1025-1026). -/
def tetCost (hullVol : K × K) (volumeCH0 alpha beta d : K) : K × K :=
  cost (tetVolumes 0 0) hullVol volumeCH0 alpha beta d

end Verif.PlaneCost
