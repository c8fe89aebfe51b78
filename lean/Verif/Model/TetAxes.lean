import Verif.Model.TetClip
import Verif.Model.Diagonalize

/-!
# Turning sets of tetrahedra to their principal axes in V-HACD

`ComputeBB`, `ComputePrincipalAxes`, `AlignToPrincipalAxes` and `RevertAlignToPrincipalAxes` of
`TetrahedronSet` in trajopt_ext/vhacd (src/vhacdVolume.cpp), and how the loop of the decomposition uses them
around a cut (src/VHACD.cpp 1207-1341).
-/

namespace Verif.TetAxes

open Verif.Voxel Verif.MeshVol Verif.TetClip Verif.Diag

variable {K : Type*} [Field K] [LinearOrder K] [IsStrictOrderedRing K] [FloorRing K]

/-- The members of `TetrahedronSet` (include/vhacd/inc/vhacdVolume.h 219-229) without the scale and the counters. -/
structure ASet (K : Type*) where
  tets : List (Tet K)
  lo : V3 K
  hi : V3 K
  bary : V3 K
  Q : M3 K
  D : M3 K

/-- A new set (vhacdVolume.cpp 1159-1169). -/
def ASet.new : ASet K := ⟨[], ⟨0, 0, 0⟩, ⟨1, 1, 1⟩, ⟨0, 0, 0⟩, 0, 0⟩

/-- The corners in the order of the loops. -/
def allCorners (ts : List (Tet K)) : List (V3 K) := ts.flatMap corners

/-- `if (m_minBB[h] > …)` (1188-1189) for the three coordinates. -/
def low (m p : V3 K) : V3 K :=
  ⟨if p.x < m.x then p.x else m.x, if p.y < m.y then p.y else m.y, if p.z < m.z then p.z else m.z⟩

/-- `if (m_maxBB[h] < …)` (1190-1191) for the three coordinates. -/
def high (m p : V3 K) : V3 K :=
  ⟨if m.x < p.x then p.x else m.x, if m.y < p.y then p.y else m.y, if m.z < p.z then p.z else m.z⟩

/-- `TetrahedronSet::ComputeBB` (1171-1197).  The three quantities are computed one after the other here. -/
def computeBB (s : ASet K) : ASet K :=
  match s.tets with
  | [] => s
  | t :: ts =>
    let ps := allCorners (t :: ts)
    let b := ps.foldl plus ⟨0, 0, 0⟩
    let n : K := ((4 * (t :: ts).length : ℕ) : K)
    { s with lo := ps.foldl low t.p0, hi := ps.foldl high t.p0, bary := ⟨b.x / n, b.y / n, b.z / n⟩ }

/-- A point seen from the axes (1795-1800). -/
def toAxes (Q : M3 K) (b p : V3 K) : V3 K :=
  let x := p.x - b.x
  let y := p.y - b.y
  let z := p.z - b.z
  ⟨Q 0 0 * x + Q 1 0 * y + Q 2 0 * z + b.x, Q 0 1 * x + Q 1 1 * y + Q 2 1 * z + b.y, Q 0 2 * x + Q 1 2 * y + Q 2 2 * z + b.z⟩

/-- And back (1739-1744). -/
def fromAxes (Q : M3 K) (b p : V3 K) : V3 K :=
  let x := p.x - b.x
  let y := p.y - b.y
  let z := p.z - b.z
  ⟨Q 0 0 * x + Q 0 1 * y + Q 0 2 * z + b.x, Q 1 0 * x + Q 1 1 * y + Q 1 2 * z + b.y, Q 2 0 * x + Q 2 1 * y + Q 2 2 * z + b.z⟩

/-- A change of all corners of a tetrahedron. -/
def mapTet (f : V3 K → V3 K) (t : Tet K) : Tet K := ⟨f t.p0, f t.p1, f t.p2, f t.p3, t.data⟩

/-- `TetrahedronSet::AlignToPrincipalAxes` (1784-1804). -/
def align (s : ASet K) : ASet K :=
  if s.tets = [] then s else computeBB { s with tets := s.tets.map (mapTet (toAxes s.Q s.bary)) }

/-- `TetrahedronSet::RevertAlignToPrincipalAxes` (1728-1748). -/
def revert (s : ASet K) : ASet K :=
  if s.tets = [] then s else computeBB { s with tets := s.tets.map (mapTet (fromAxes s.Q s.bary)) }

/-- The sums of products (1755-1771): `xx, yy, zz, xy, xz, yz`. -/
def covStep (b : V3 K) (c : K × K × K × K × K × K) (p : V3 K) : K × K × K × K × K × K :=
  let x := p.x - b.x
  let y := p.y - b.y
  let z := p.z - b.z
  (c.1 + x * x, c.2.1 + y * y, c.2.2.1 + z * z, c.2.2.2.1 + x * y, c.2.2.2.2.1 + x * z, c.2.2.2.2.2 + y * z)

/-- The matrix of covariances (1754-1781). -/
def covMat (b : V3 K) (ts : List (Tet K)) : M3 K :=
  let c := (allCorners ts).foldl (covStep b) (0, 0, 0, 0, 0, 0)
  let n : K := (ts.length : K) * 4
  let xy := c.2.2.2.1 / n
  let xz := c.2.2.2.2.1 / n
  let yz := c.2.2.2.2.2 / n
  !![c.1 / n, xy, xz; xy, c.2.1 / n, yz; xz, yz, c.2.2.1 / n]

/-- `TetrahedronSet::ComputePrincipalAxes` (1749-1783). -/
def principal (sqrt : K → K) (s : ASet K) : ASet K :=
  if s.tets = [] then s
  else
    let r := diagonalize sqrt (covMat s.bary s.tets)
    { s with Q := r.1, D := r.2.1 }

/-- A part made by `Clip`: besides the tetrahedra it gets the members of the whole (1577-1590); without tetrahedra nothing
is written (1567-1568). -/
def part (s : ASet K) (ts : List (Tet K)) : ASet K := if s.tets = [] then ASet.new else { s with tets := ts }

/-- How `ComputeACD` prepares a part (src/VHACD.cpp 1209-1214). -/
def prepare (sqrt : K → K) (pca : Bool) (s : ASet K) : ASet K :=
  let s := principal sqrt (computeBB s)
  if pca then align s else s

/-- The end of a turn in which the part is divided (src/VHACD.cpp 1327-1332): the right and the left part. -/
def divide (pca dbg : Bool) (eps tol : K) (p : Plane K) (s : ASet K) : Option (ASet K × ASet K) :=
  (clip ⟨dbg, eps, tol, s.lo, s.hi⟩ p s.tets).map fun r =>
    let right := part s r.1.tets
    let left := part s r.2.tets
    if pca then (revert right, revert left) else (right, left)

/-- The end of a turn in which the part is kept (src/VHACD.cpp 1337-1341). -/
def keep (pca : Bool) (s : ASet K) : ASet K := if pca then revert s else s

/-- `Volume::AlignToPrincipalAxes` (vhacdVolume.cpp 1103-1158): the matrix given to `Diagonalize`, from the voxels of the
grid in the order of the loops.  Without voxels on or within the surface the code divides zero by zero, but uses no result
of it. -/
def gridCov (vs : List (Cell × Val)) : M3 K :=
  let ps : List (V3 K) := (vs.filter fun v => decide (v.2 = .ins ∨ v.2 = .on)).map fun v => ⟨(v.1.1 : K), (v.1.2.1 : K), (v.1.2.2 : K)⟩
  let b := ps.foldl plus ⟨0, 0, 0⟩
  let n : K := (ps.length : K)
  let c := ps.foldl (covStep ⟨b.x / n, b.y / n, b.z / n⟩) (0, 0, 0, 0, 0, 0)
  !![c.1, c.2.2.2.1, c.2.2.2.2.1; c.2.2.2.1, c.2.1, c.2.2.2.2.2; c.2.2.2.2.1, c.2.2.2.2.2, c.2.2.1]

/-- `m_rot` when the mesh is put into voxels: the unit matrix (include/vhacd/inc/vhacdVHACD.h 152, 163), or with the
option `m_pca` what `AlignMesh` (185-242) made of a first grid. -/
def meshRot (sqrt : K → K) (pca : Bool) (vs : List (Cell × Val)) : M3 K :=
  if pca then (diagonalize sqrt (gridCov vs)).1 else !![1, 0, 0; 0, 1, 0; 0, 0, 1]

/-- `ComputeAlignedPoint` (`Voxel.aligned`) with the rows of a matrix. -/
def meshPoint (rot : M3 K) (b p : V3 K) : V3 K :=
  aligned b ⟨rot 0 0, rot 0 1, rot 0 2⟩ ⟨rot 1 0, rot 1 1, rot 1 2⟩ ⟨rot 2 0, rot 2 1, rot 2 2⟩ p

/-- A point of a hull as it is returned (src/VHACD.cpp 1401-1410). -/
def hullPoint (rot : M3 K) (b p : V3 K) : V3 K :=
  ⟨rot 0 0 * p.x + rot 0 1 * p.y + rot 0 2 * p.z + b.x, rot 1 0 * p.x + rot 1 1 * p.y + rot 1 2 * p.z + b.y,
   rot 2 0 * p.x + rot 2 1 * p.y + rot 2 2 * p.z + b.z⟩

end Verif.TetAxes
