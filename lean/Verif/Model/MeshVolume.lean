import Verif.Model.Voxelize

/-!
# Meshes of V-HACD: volume, points inside, voxels and tetrahedra as meshes

`Mesh` of trajopt_ext/vhacd (src/vhacdMesh.cpp), the meshes `VoxelSet::Convert` and
`TetrahedronSet::Convert` make, and the tetrahedra `Volume::Convert` cuts voxels into
(src/vhacdVolume.cpp).  The concavity and all volumes V-HACD decides by come from here.

Corner numbers of triangles are natural numbers: the conversions to `int32_t` are exact below 2^31
points.  Reading a point that is not there gives no result.  Numbers are those of an ordered field.
-/

namespace Verif.MeshVol

open Verif.Voxel

variable {K : Type*} [Field K] [LinearOrder K] [IsStrictOrderedRing K] [FloorRing K]

/-- A triangle: the numbers of its corners (vhacdMesh.h, `Vec3<int32_t>`). -/
abbrev Tri := ℕ × ℕ × ℕ

/-- `Mesh` (vhacdMesh.h 78-147): points and triangles. -/
structure Mesh (K : Type*) where
  pts : List (V3 K)
  tris : List Tri

/-- `ComputeVolume4` (vhacdVector.inl 172-176). -/
def vol4 (a b c d : V3 K) : K := (a.sub d).dot ((b.sub d).cross (c.sub d))

/-- `operator+=` of `Vec3` (vhacdVector.inl). -/
def plus (a b : V3 K) : V3 K := ⟨a.x + b.x, a.y + b.y, a.z + b.z⟩

/-- The mean of the points (vhacdMesh.cpp 97-102). -/
def bary (ps : List (V3 K)) : V3 K :=
  let s := ps.foldl plus ⟨0, 0, 0⟩
  ⟨s.x / (ps.length : K), s.y / (ps.length : K), s.z / (ps.length : K)⟩

/-- The volume under a triangle (vhacdMesh.cpp 108-112 and 191-195). -/
def triVol (ps : List (V3 K)) (o : V3 K) (t : Tri) : Option K := do
  let a ← ps[t.1]?
  let b ← ps[t.2.1]?
  let c ← ps[t.2.2]?
  return vol4 a b c o

/-- The loop of `ComputeVolume` (vhacdMesh.cpp 106-113). -/
def volLoop (ps : List (V3 K)) (o : V3 K) : List Tri → K → Option K
  | [], v => some v
  | t :: ts, v => do
    let d ← triVol ps o t
    volLoop ps o ts (v + d)

/-- `Mesh::ComputeVolume` (vhacdMesh.cpp 88-115). -/
def computeVolume (m : Mesh K) : Option K :=
  if m.pts.length = 0 ∨ m.tris.length = 0 then some 0
  else (volLoop m.pts (bary m.pts) m.tris 0).map (· / 6)

/-- The loop of `IsInside` (vhacdMesh.cpp 189-201). -/
def insideLoop (ps : List (V3 K)) (o : V3 K) : List Tri → Option Bool
  | [] => some true
  | t :: ts => (triVol ps o t).bind fun d => if d < 0 then some false else insideLoop ps o ts

/-- `Mesh::IsInside` (vhacdMesh.cpp 178-203). -/
def isInside (m : Mesh K) (o : V3 K) : Option Bool :=
  if m.pts.length = 0 ∨ m.tris.length = 0 then some false
  else insideLoop m.pts o m.tris

/-- `Plane` (vhacdMesh.h 41-48). -/
structure Plane (K : Type*) where
  a : K
  b : K
  c : K
  d : K

/-- The signed distance, up to a factor (vhacdMesh.cpp 161). -/
def Plane.eval (p : Plane K) (v : V3 K) : K := p.a * v.x + p.b * v.y + p.c * v.z + p.d

/-- `Mesh::Clip` (vhacdMesh.cpp 150-177): what is appended to the two arrays. -/
def clipPts (p : Plane K) : List (V3 K) → List (V3 K) × List (V3 K)
  | [] => ([], [])
  | v :: vs =>
    let r := clipPts p vs
    if 0 < p.eval v then (v :: r.1, r.2)
    else if p.eval v < 0 then (r.1, v :: r.2)
    else (v :: r.1, v :: r.2)

/-- `VoxelSet::GetPoints` (vhacdVolume.cpp 521-550). -/
def cubePts (mn : V3 K) (s : K) (c : Cell) : List (V3 K) :=
  let x0 := ((c.1 : K) - 1 / 2) * s + mn.x
  let x1 := ((c.1 : K) + 1 / 2) * s + mn.x
  let y0 := ((c.2.1 : K) - 1 / 2) * s + mn.y
  let y1 := ((c.2.1 : K) + 1 / 2) * s + mn.y
  let z0 := ((c.2.2 : K) - 1 / 2) * s + mn.z
  let z1 := ((c.2.2 : K) + 1 / 2) * s + mn.z
  [⟨x0, y0, z0⟩, ⟨x1, y0, z0⟩, ⟨x1, y1, z0⟩, ⟨x0, y1, z0⟩,
   ⟨x0, y0, z1⟩, ⟨x1, y0, z1⟩, ⟨x1, y1, z1⟩, ⟨x0, y1, z1⟩]

/-- The triangles of a cube whose first corner has the number `s` (vhacdVolume.cpp 776-787, and 962-973
in `Volume::Convert`). -/
def cubeTris (s : ℕ) : List Tri :=
  [(s + 0, s + 2, s + 1), (s + 0, s + 3, s + 2), (s + 4, s + 5, s + 6), (s + 4, s + 6, s + 7),
   (s + 7, s + 6, s + 2), (s + 7, s + 2, s + 3), (s + 4, s + 1, s + 5), (s + 4, s + 0, s + 1),
   (s + 6, s + 5, s + 1), (s + 6, s + 1, s + 2), (s + 7, s + 0, s + 4), (s + 7, s + 3, s + 0)]

/-- The triangles of a tetrahedron (vhacdVolume.cpp 1690-1693). -/
def tetTris (s : ℕ) : List Tri :=
  [(s + 0, s + 1, s + 2), (s + 2, s + 1, s + 3), (s + 3, s + 1, s + 0), (s + 3, s + 0, s + 2)]

/-- Points and triangles appended to a mesh: `AddPoint`, `AddTriangle` (vhacdMesh.h 81, 90), with
`s = mesh.GetNPoints()`. -/
def Mesh.grow (m : Mesh K) (ps : List (V3 K)) (ts : ℕ → List Tri) : Mesh K :=
  ⟨m.pts ++ ps, m.tris ++ ts m.pts.length⟩

/-- `VoxelSet::Convert` (vhacdVolume.cpp 759-791), and `Volume::Convert` (930-977) if `vs` are the
voxels of the grid in the order of the loops. -/
def convertVoxels (mn : V3 K) (s : K) (value : Val) : List (Cell × Val) → Mesh K → Mesh K
  | [], m => m
  | v :: vs, m =>
    convertVoxels mn s value vs (if v.2 = value then m.grow (cubePts mn s v.1) cubeTris else m)

/-- `Tetrahedron` (vhacdVolume.h 169-174). -/
structure Tet (K : Type*) where
  p0 : V3 K
  p1 : V3 K
  p2 : V3 K
  p3 : V3 K
  data : Val

/-- `TetrahedronSet::Convert` (vhacdVolume.cpp 1675-1696). -/
def convertTets (value : Val) : List (Tet K) → Mesh K → Mesh K
  | [], m => m
  | t :: ts, m =>
    convertTets value ts (if t.data = value then m.grow [t.p0, t.p1, t.p2, t.p3] tetTris else m)

/-- `TetrahedronSet::ComputeVolume` (vhacdVolume.cpp 1697-1710). -/
def tetVolume (ts : List (Tet K)) : K :=
  ts.foldl (fun v t => v + |vol4 t.p0 t.p1 t.p2 t.p3|) 0 / 6

/-- The five tetrahedra of a voxel (vhacdVolume.cpp 1045-1090). -/
def voxelTets (mn : V3 K) (s : K) (v : Cell × Val) : List (Tet K) :=
  let x0 := ((v.1.1 : K) - 1 / 2) * s + mn.x
  let x1 := ((v.1.1 : K) + 1 / 2) * s + mn.x
  let y0 := ((v.1.2.1 : K) - 1 / 2) * s + mn.y
  let y1 := ((v.1.2.1 : K) + 1 / 2) * s + mn.y
  let z0 := ((v.1.2.2 : K) - 1 / 2) * s + mn.z
  let z1 := ((v.1.2.2 : K) + 1 / 2) * s + mn.z
  let q1 : V3 K := ⟨x0, y0, z0⟩
  let q2 : V3 K := ⟨x1, y0, z0⟩
  let q3 : V3 K := ⟨x1, y1, z0⟩
  let q4 : V3 K := ⟨x0, y1, z0⟩
  let q5 : V3 K := ⟨x0, y0, z1⟩
  let q6 : V3 K := ⟨x1, y0, z1⟩
  let q7 : V3 K := ⟨x1, y1, z1⟩
  let q8 : V3 K := ⟨x0, y1, z1⟩
  [⟨q2, q4, q7, q5, v.2⟩, ⟨q6, q2, q7, q5, v.2⟩, ⟨q3, q4, q7, q2, v.2⟩, ⟨q1, q4, q2, q5, v.2⟩,
   ⟨q8, q5, q7, q4, v.2⟩]

/-- `Volume::Convert` to a `TetrahedronSet` (vhacdVolume.cpp 1023-1102); `vs` are the voxels of the grid
in the order of the loops. -/
def toTets (mn : V3 K) (s : K) : List (Cell × Val) → List (Tet K)
  | [] => []
  | v :: vs => if v.2 = Val.ins ∨ v.2 = Val.on then voxelTets mn s v ++ toTets mn s vs else toTets mn s vs

end Verif.MeshVol
