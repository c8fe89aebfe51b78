import Verif.Model.TetAxes

/-!
# Projecting the points of hulls onto the model in V-HACD

`rayIntersectsTriangle` and `MyRaycastMesh::raycast` (trajopt_ext/vhacd/src/vhacdRaycastMesh.cpp 19-161), and the first part
of `VHACD::SimplifyConvexHull` (src/VHACD.cpp 1627-1702), which moves the points of a hull onto the model and drops points
close to others before the hull is simplified.

Numbers are those of an ordered field with a square root; the two small constants are parameters.  The indices of triangles
are taken to be valid, so that a triangle is given by its corners.
-/

namespace Verif.Raycast

open Verif.Voxel (V3)
open Verif.TetAxes (low high)

variable {K : Type} [Field K] [LinearOrder K]

/-- Three corners. -/
abbrev Tri (K : Type) := V3 K × V3 K × V3 K

/-- A point on a ray (vhacdRaycastMesh.cpp 137-139). -/
def along (p d : V3 K) (t : K) : V3 K := ⟨p.x + d.x * t, p.y + d.y * t, p.z + d.z * t⟩

/-- `rayIntersectsTriangle` (19-53): `t` if it returns true.  `tol` is `0.00001`. -/
def rayTri (tol : K) (p d : V3 K) (tri : Tri K) : Option K :=
  let e1 := tri.2.1.sub tri.1
  let e2 := tri.2.2.sub tri.1
  let h := d.cross e2
  let a := e1.dot h
  if -tol < a ∧ a < tol then none
  else
    let f := 1 / a
    let s := p.sub tri.1
    let u := f * s.dot h
    if u < 0 ∨ 1 < u then none
    else
      let q := s.cross e1
      let v := f * d.dot q
      if v < 0 ∨ 1 < u + v then none
      else
        let t := f * e2.dot q
        if 0 < t then some t else none

/-- `GetDistanceSquared` (vhacdVector.h 117-123); `getPointDistance` (vhacdRaycastMesh.cpp 55-61) is its root. -/
def dist2 (a b : V3 K) : K := (a.x - b.x) * (a.x - b.x) + (a.y - b.y) * (a.y - b.y) + (a.z - b.z) * (a.z - b.z)

/-- One turn of the loop of `raycast` (122-159): `nearestDistance` and what was written last. -/
def castStep (sqrt : K → K) (tol : K) (frm dir close : V3 K) (st : K × Option (V3 K × K)) (tri : Tri K) : K × Option (V3 K × K) :=
  match rayTri tol frm dir tri with
  | none => st
  | some t =>
    let hit := along frm dir t
    let pd := sqrt (dist2 hit close)
    if pd < st.1 then (pd, some (hit, pd)) else st

/-- `MyRaycastMesh::raycast` (96-161): `hitLocation` and `hitDistance` if it returns true.  `tiny` is `0.0000000001f`. -/
def raycast (sqrt : K → K) (tol tiny : K) (tris : List (Tri K)) (frm til close : V3 K) : Option (V3 K × K) :=
  let d := til.sub frm
  let distance := sqrt (d.x * d.x + d.y * d.y + d.z * d.z)
  if distance < tiny then none
  else
    let r := 1 / distance
    let dir : V3 K := ⟨d.x * r, d.y * r, d.z * r⟩
    (tris.foldl (castStep sqrt tol frm dir close) (distance, none)).2

/-- The box of the points (VHACD.cpp 1635-1642): it begins with the first two; without a second point the read is outside
of the array, `none`. -/
def box : List (V3 K) → Option (V3 K × V3 K)
  | p0 :: p1 :: ps => some ((p1 :: ps).foldl (fun b p => (low b.1 p, high b.2 p)) (p0, p1))
  | _ => none

/-- `GetCenter` (vhacdVector.h 71-81): the centre and the diagonal. -/
def centre (sqrt : K → K) (b : V3 K × V3 K) : V3 K × K :=
  (⟨(b.1.x + b.2.x) * (1 / 2), (b.1.y + b.2.y) * (1 / 2), (b.1.z + b.2.z) * (1 / 2)⟩, sqrt (dist2 b.2 b.1))

/-- The end of the ray for a point (1661-1667), with `Normalize` (vhacdVector.inl 42-46). -/
def target (sqrt : K → K) (c : V3 K) (diag : K) (p : V3 K) : V3 K :=
  let d := p.sub c
  let n := sqrt (d.x * d.x + d.y * d.y + d.z * d.z)
  let u : V3 K := if n ≠ 0 then ⟨d.x / n, d.y / n, d.z / n⟩ else d
  ⟨u.x * diag + c.x, u.y * diag + c.y, u.z * diag + c.z⟩

/-- Where a point is moved (1668-1682). -/
def moved (sqrt : K → K) (tol tiny : K) (tris : List (Tri K)) (c : V3 K) (diag : K) (p : V3 K) : V3 K :=
  match raycast sqrt tol tiny tris c (target sqrt c diag p) p with
  | none => p
  | some (q, pd) => if diag * (5 / 100) < pd then p else q

/-- The point is added to those kept unless it is close to one of them (1683-1701). -/
def snapStep (diag : K) (out : List (V3 K)) (y : V3 K) : List (V3 K) :=
  if out.any fun o => dist2 o y < diag * (1 / 100) * (diag * (1 / 100)) then out else out ++ [y]

/-- The points given to the simplification (1627-1703). -/
def project (sqrt : K → K) (tol tiny : K) (tris : List (Tri K)) (pts : List (V3 K)) : Option (List (V3 K)) :=
  (box pts).map fun b =>
    let c := centre sqrt b
    (pts.map (moved sqrt tol tiny tris c.1 c.2)).foldl (snapStep c.2) []

end Verif.Raycast
