import Verif.Model.TetAxes
import Verif.Model.Decompose
import Verif.Model.JsonRead

/-!
# The preferred cutting direction in V-HACD

`ComputePreferredCuttingDirection` (trajopt_ext/vhacd/src/VHACD.cpp 519-551) and the axes of sets of voxels it looks at:
the centre of `VoxelSet::ComputeBB` (src/vhacdVolume.cpp 421-437) and `VoxelSet::ComputePrincipalAxes` (792-832).  The
diagonalization is that of C174.

Numbers are those of an ordered field, so nothing is rounded except where the code does it.
-/

namespace Verif.CutDir

open Verif.Voxel (V3 short)
open Verif.Decompose (VSet)
open Verif.MeshVol (plus)
open Verif.Diag (M3 diagonalize)
open Verif.TetAxes (covStep)

variable {K : Type} [Field K] [LinearOrder K] [IsStrictOrderedRing K] [FloorRing K]

/-- The coordinates of the voxels as numbers. -/
def points (s : VSet K) : List (V3 K) := s.voxels.map fun v => ⟨(v.x : K), (v.y : K), (v.z : K)⟩

/-- `bary` (421-432), which is also `m_barycenterPCA` (797-805). -/
def mean (s : VSet K) : V3 K :=
  let b := (points s).foldl plus ⟨0, 0, 0⟩
  let n : K := (s.voxels.length : K)
  ⟨b.x / n, b.y / n, b.z / n⟩

/-- `(short)(bary[h] + 0.5)` (437): the fraction is dropped. -/
def toShort (x : K) : ℤ := short (JsonRead.truncate (x + 1 / 2))

/-- `m_barycenter` (437), as a point. -/
def centre (s : VSet K) : V3 K :=
  ⟨((toShort (mean s).x : ℤ) : K), ((toShort (mean s).y : ℤ) : K), ((toShort (mean s).z : ℤ) : K)⟩

/-- The matrix `covMat` (807-830), with moments about `b`. -/
def moments (b : V3 K) (s : VSet K) : M3 K :=
  let c := (points s).foldl (covStep b) (0, 0, 0, 0, 0, 0)
  let n : K := (s.voxels.length : K)
  let xy := c.2.2.2.1 / n
  let xz := c.2.2.2.2.1 / n
  let yz := c.2.2.2.2.2 / n
  !![c.1 / n, xy, xz; xy, c.2.1 / n, yz; xz, yz, c.2.2.1 / n]

/-- `VoxelSet::ComputePrincipalAxes` after `ComputeBB` (792-832): `m_Q` and `m_D`; a set without voxels keeps the zeros of
its constructor (405-406). -/
def axes (sqrt : K → K) (s : VSet K) : M3 K × M3 K :=
  if s.voxels = [] then (0, 0)
  else
    let r := diagonalize sqrt (moments (centre s) s)
    (r.1, r.2.1)

/-- `ComputePreferredCuttingDirection` (VHACD.cpp 519-551) with the three values given: the direction and its weight. -/
def preferred (ex ey ez : K) : V3 K × K :=
  let vx := (ey - ez) * (ey - ez)
  let vy := (ex - ez) * (ex - ez)
  let vz := (ex - ey) * (ex - ey)
  if vx < vy ∧ vx < vz then
    let e := ey * ey + ez * ez
    (⟨1, 0, 0⟩, if e = 0 then 0 else 1 - vx / e)
  else if vy < vx ∧ vy < vz then
    let e := ex * ex + ez * ez
    (⟨0, 1, 0⟩, if e = 0 then 0 else 1 - vy / e)
  else
    let e := ex * ex + ey * ey
    (⟨0, 0, 1⟩, if e = 0 then 0 else 1 - vz / e)

/-- The call with a set of voxels (VHACD.cpp 1241-1242): the values are those on the diagonal of `m_D`
(vhacdVolume.h 107). -/
def preferredOf (sqrt : K → K) (s : VSet K) : V3 K × K :=
  preferred ((axes sqrt s).2 0 0) ((axes sqrt s).2 1 1) ((axes sqrt s).2 2 2)

/-- What the direction adds to the cost of a plane with normal `n` (VHACD.cpp 1057-1059): `beta * d`. -/
def symmetry (beta : K) (p : V3 K × K) (n : V3 K) : K :=
  let d := p.2 * (p.1.x * n.x + p.1.y * n.y + p.1.z * n.z)
  beta * d

end Verif.CutDir
