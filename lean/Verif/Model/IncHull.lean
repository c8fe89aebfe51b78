import Verif.Model.MeshVolume
import Mathlib.Data.List.Dedup

/-!
# Adding points to the incremental hull of V-HACD

With this hull the hulls of V-HACD are simplified: `ICHull::ComputePointVolume`, `ProcessPoint`, `MakeConeFace`, `MakeCCW`,
`CleanEdges`, `CleanTriangles` and `FindMaxVolumePoint` (trajopt_ext/vhacd/src/vhacdICHull.cpp 360-396 and 505-723).

The surface is a list of triangles with numbers of points.  The lists of edges and the links between edges and triangles are
left out: the triangle on the other side of an edge is the one that has the edge in the other direction.  The order of the
triangles is not kept, nor are the marks of vertices.  The exchange of the chosen point with the first of the waiting ones
(386-394) is left out: the number of the chosen point is returned instead.
-/

namespace Verif.IncHull

open Verif.Voxel (V3)
open Verif.MeshVol (Tri vol4)

variable {K : Type} [Field K] [LinearOrder K]

/-- The position of a vertex (`m_pos`, read at vhacdICHull.cpp 546-562). -/
def pos (pts : List (V3 K)) (i : ℕ) : V3 K := pts.getD i ⟨0, 0, 0⟩

/-- `ComputeVolume4(ver0, ver1, ver2, pos0)` (vhacdICHull.cpp 554-563). -/
def vol (pts : List (V3 K)) (p : V3 K) (t : Tri) : K := vol4 (pos pts t.1) (pos pts t.2.1) (pos pts t.2.2) p

/-- `vol < -sc_eps` (vhacdICHull.cpp 564): the point sees the triangle from outside. -/
def visible (eps : K) (pts : List (V3 K)) (p : V3 K) (t : Tri) : Bool := decide (vol pts p t < -eps)

/-- `totalVolume` of `ComputePointVolume` (vhacdICHull.cpp 539-594), without the marks. -/
def pointVolume (eps : K) (pts : List (V3 K)) (p : V3 K) (ts : List Tri) : K :=
  ts.foldl (fun s t => if visible eps pts p t then s + |vol pts p t| else s) 0

/-- The edges of a triangle in the order of its corners (`m_edges`, vhacdICHull.cpp 465-504). -/
def triEdges (t : Tri) : List (ℕ × ℕ) := [(t.1, t.2.1), (t.2.1, t.2.2), (t.2.2, t.1)]

/-- The edges between a visible triangle and one that is not (`nvisible == 1`, vhacdICHull.cpp 608-632), in the direction of the visible one,
as `MakeCCW` needs it (635-673). -/
def border (vis : List Tri) : List (ℕ × ℕ) :=
  (vis.flatMap triEdges).filter fun e => !decide ((e.2, e.1) ∈ vis.flatMap triEdges)

/-- `ProcessPoint` and `CleanUp` (vhacdICHull.cpp 595-723) for the vertex `p`: `none` if the point is dropped, because it sees no triangle or
all of them (578-592). -/
def processPoint (eps : K) (pts : List (V3 K)) (p : ℕ) (ts : List Tri) : Option (List Tri) :=
  let vis := ts.filter (visible eps pts (pos pts p))
  if vis = [] ∨ vis.length = ts.length then none
  else some (ts.filter (fun t => !visible eps pts (pos pts p) t) ++ (border vis).map fun e => (e.1, e.2, p))

/-- The loop of `FindMaxVolumePoint` (vhacdICHull.cpp 366-380): the best volume and the best vertex so far. -/
def findStep (eps : K) (pts : List (V3 K)) (ts : List Tri) (best : K × Option ℕ) (v : ℕ) : K × Option ℕ :=
  let volume := pointVolume eps pts (pos pts v) ts
  if best.1 < volume then (volume, some v) else best

/-- `FindMaxVolumePoint` (vhacdICHull.cpp 360-396) with the vertices that were not processed. -/
def findMax (eps : K) (pts : List (V3 K)) (ts : List Tri) (minVolume : K) (waiting : List ℕ) : Option ℕ :=
  (waiting.foldl (findStep eps pts ts) (minVolume, none)).2

/-- The first surface of `DoubleTriangle` (vhacdICHull.cpp 414-416): both sides of a triangle.  The choice of the three points
and the extra point for flat sets are left out. -/
def start (a b c : ℕ) : List Tri := [(a, b, c), (c, b, a)]

/-- The vertices of a surface (`m_onHull`, vhacdICHull.cpp 726-735). -/
def corners (ts : List Tri) : List ℕ := (ts.flatMap fun t => [t.1, t.2.1, t.2.2]).dedup

/-- The loop of `Process` (vhacdICHull.cpp 258-284) with the number of points added and the vertices that were not processed;
`none` if the surface is found inconsistent.  Of `CheckConsistancy` it is kept that no edge has two triangles on the same
side.  `CleanVertices` (724-757) takes the vertices that are no longer on the surface from the number. -/
def loop (eps : K) (pts : List (V3 K)) (minVolume : K) (n : ℕ) : ℕ → ℕ → List Tri → List ℕ → Option (List Tri)
  | 0, _, ts, _ => some ts
  | fuel + 1, added, ts, ws =>
    if n ≤ added then some ts
    else match findMax eps pts ts (if 4 < added then minVolume else 0) ws with
      | none => some ts
      | some v => match processPoint eps pts v ts with
        | none => loop eps pts minVolume n fuel added ts (ws.erase v)
        | some new =>
          if (new.flatMap triEdges).Nodup then
            loop eps pts minVolume n fuel (added + 1 - ((corners ts).filter fun x => !decide (x ∈ corners new)).length) new (ws.erase v)
          else none

end Verif.IncHull
