import Verif.Model.Decompose
import Verif.Model.Voxelize

/-!
# The hulls of the parts of V-HACD

`VoxelSet::ComputeConvexHull` (trajopt_ext/vhacd/src/vhacdVolume.cpp 439-520) up to the points of the hull, and
`Volume::Convert` into a `VoxelSet` (978-1021).

The computation of the hull of an array of points (`btConvexHullComputer`) is a parameter; that it goes through integers
and so moves points a little is not modelled.  The counter `s` is a `size_t` in the code and a natural number here.
-/

namespace Verif.PartHull

open Verif.Voxel (V3 Grid Val cells get)
open Verif.Decompose (VSet)

variable {K : Type} [Field K] [LinearOrder K]

/-- The corners of a voxel (466-481). -/
def corners8 (s : VSet K) (v : Decompose.Voxel) : List (V3 K) :=
  let x0 := ((v.x : K) - 1 / 2) * s.scale + s.ox
  let x1 := ((v.x : K) + 1 / 2) * s.scale + s.ox
  let y0 := ((v.y : K) - 1 / 2) * s.scale + s.oy
  let y1 := ((v.y : K) + 1 / 2) * s.scale + s.oy
  let z0 := ((v.z : K) - 1 / 2) * s.scale + s.oz
  let z1 := ((v.z : K) + 1 / 2) * s.scale + s.oz
  [⟨x0, y0, z0⟩, ⟨x1, y0, z0⟩, ⟨x1, y1, z0⟩, ⟨x0, y1, z0⟩, ⟨x0, y0, z1⟩, ⟨x1, y0, z1⟩, ⟨x1, y1, z1⟩, ⟨x0, y1, z1⟩]

/-- The inner loop (454-485): the points written so far, the counter `s`, and the voxels that are left.  Writing behind the
end of the array gives no result. -/
def gather (cap sampling : ℕ) (s : VSet K) : List Decompose.Voxel → ℕ → List (V3 K) → Option (List (V3 K) × ℕ × List Decompose.Voxel)
  | [], n, pts => some (pts, n, [])
  | v :: vs, n, pts =>
    if pts.length < cap then
      if v.surf then
        if n + 1 = sampling then
          if pts.length + 8 ≤ cap then gather cap sampling s vs 0 (pts ++ corners8 s v) else none
        else gather cap sampling s vs (n + 1) pts
      else gather cap sampling s vs n pts
    else some (pts, n, v :: vs)

/-- The outer loop (450-492): the corners of the hulls of the clusters. -/
def clusters (ch : List (V3 K) → List (V3 K)) (cap sampling : ℕ) (s : VSet K) :
    ℕ → List Decompose.Voxel → ℕ → List (V3 K) → Option (List (V3 K))
  | fuel, vs, n, cp =>
    match vs with
    | [] => some cp
    | v :: vs =>
      match fuel with
      | 0 => none
      | fuel + 1 => (gather cap sampling s (v :: vs) n []).bind fun r => clusters ch cap sampling s fuel r.2.2 r.2.1 (cp ++ ch r.1)

/-- `CLUSTER_SIZE` (441). -/
def clusterSize : ℕ := 65536

/-- `VoxelSet::ComputeConvexHull` (439-520): the points of the mesh.  An empty set leaves the mesh as it was (443-444). -/
def partHull (ch : List (V3 K) → List (V3 K)) (sampling : ℕ) (s : VSet K) (old : List (V3 K)) : Option (List (V3 K)) :=
  if s.voxels = [] then some old
  else (clusters ch clusterSize sampling s s.voxels.length s.voxels 0 []).map ch

/-- `Volume::Convert` (978-1021), in a build without assertions and for dimensions that fit into `short`.  The counters are
counted afterwards. -/
def convert (g : Grid K) : VSet K :=
  let l : List Decompose.Voxel := (cells 0 0 0 g.vol.d0 g.vol.d1 g.vol.d2).filterMap fun c =>
    match get false g.vol c with
    | some Val.ins => some ⟨c.1, c.2.1, c.2.2, false⟩
    | some Val.on => some ⟨c.1, c.2.1, c.2.2, true⟩
    | _ => none
  ⟨l, g.minBB.x, g.minBB.y, g.minBB.z, g.scale, g.scale * g.scale * g.scale, l.countP (·.surf), l.countP fun v => !v.surf⟩

end Verif.PartHull
