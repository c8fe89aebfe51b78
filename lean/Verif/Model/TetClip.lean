import Verif.Model.MeshVolume

/-!
# Cutting sets of tetrahedra in V-HACD

`TetrahedronSet::Clip`, `AddClippedTetrahedra` and `Add` of trajopt_ext/vhacd (src/vhacdVolume.cpp), by
which V-HACD divides a part at a plane in its second mode (`m_mode == 1`).

A set is its list of tetrahedra and its two counters.  The array of at most ten points that
`AddClippedTetrahedra` gets is a list; only elements that were written are read, except for
`tetrahedron1` with five points (1378), where what was never written is read, which gives no result.
Assertions give no result if `dbg` is set.  `eps` is the bound in `Add` (1e-10, line 1273) and `tol` the
one of the assertions in `Clip` (1e-13, line 391).  What `Clip` copies besides (scale, barycenter, box,
axes) is not modelled.
-/

namespace Verif.TetClip

open Verif.Voxel Verif.MeshVol

variable {K : Type*} [Field K] [LinearOrder K] [IsStrictOrderedRing K] [FloorRing K]

/-- The members of `TetrahedronSet` (include/vhacd/inc/vhacdVolume.h 219-229) that are modelled. -/
structure TSet (K : Type*) where
  tets : List (Tet K)
  nOn : ℕ
  nIn : ℕ

/-- What stays the same during a cut: whether assertions are on, the bounds and the box. -/
structure Env (K : Type*) where
  dbg : Bool
  eps : K
  tol : K
  lo : V3 K
  hi : V3 K

/-- The two assertions about a point (1289-1290 with `b = eps`, 1662-1663 with `b = tol`). -/
def Env.inBox (e : Env K) (b : K) (p : V3 K) : Prop :=
  (e.lo.x ≤ p.x + b ∧ p.x ≤ e.hi.x + b) ∧ (e.lo.y ≤ p.y + b ∧ p.y ≤ e.hi.y + b) ∧
    (e.lo.z ≤ p.z + b ∧ p.z ≤ e.hi.z + b)

instance (e : Env K) (b : K) (p : V3 K) : Decidable (e.inBox b p) := by unfold Env.inBox; infer_instance

/-- The corners of a tetrahedron. -/
def corners (t : Tet K) : List (V3 K) := [t.p0, t.p1, t.p2, t.p3]

/-- `ComputeVolume4` of the corners. -/
def vol (t : Tet K) : K := vol4 t.p0 t.p1 t.p2 t.p3

/-- The swap of the first two corners (1278-1283). -/
def orient (t : Tet K) : Tet K := if vol t < 0 then ⟨t.p1, t.p0, t.p2, t.p3, t.data⟩ else t

/-- `TetrahedronSet::Add` (1269-1295): the set, the argument as it is left behind, and the value. -/
def add (e : Env K) (T : TSet K) (t : Tet K) : Option (TSet K × Tet K × Bool) :=
  if |vol t| < e.eps then some (T, t, false)
  else
    let t := orient t
    if e.dbg ∧ ¬ ∀ p ∈ corners t, e.inBox e.eps p then none
    else some ({ T with tets := T.tets ++ [t] }, t, true)

/-- `++m_numTetrahedraOnSurface` if `Add` returned true. -/
def bump (r : TSet K × Tet K × Bool) : TSet K := if r.2.2 then { r.1 with nOn := r.1.nOn + 1 } else r.1

/-- `tetF` (1299). -/
def face (t : Tet K) : ℕ → V3 K × V3 K × V3 K
  | 0 => (t.p0, t.p1, t.p2)
  | 1 => (t.p2, t.p1, t.p3)
  | 2 => (t.p3, t.p1, t.p0)
  | _ => (t.p3, t.p0, t.p2)

/-- One turn of the loops over the faces (1364-1377, 1433-1446, 1459-1474, 1477-1492): the largest
volume so far, and the tetrahedron and face it came from.  The volume is that under `score`, the
tetrahedron made has the corner `apex`. -/
def faceStep (score apex : V3 K) (t : Tet K) (skip : ℕ → Bool) (st : K × Option (ℕ × Tet K)) (h : ℕ) :
    K × Option (ℕ × Tet K) :=
  if skip h then st
  else
    let f := face t h
    let v := vol4 score f.1 f.2.1 f.2.2
    if st.1 < v then (v, some (h, ⟨apex, f.1, f.2.1, f.2.2, Val.on⟩)) else st

/-- The loop over the four faces. -/
def faceLoop (score apex : V3 K) (t : Tet K) (skip : ℕ → Bool) (st : K × Option (ℕ × Tet K)) :
    K × Option (ℕ × Tet K) := [0, 1, 2, 3].foldl (faceStep score apex t skip) st

/-- One turn of the loops over the tables (1327-1348, 1394-1415). -/
def tableStep (ps : List (V3 K)) (st : K × Option (ℕ × Tet K)) (h : ℕ × ℕ × ℕ × ℕ × ℕ) :
    K × Option (ℕ × Tet K) :=
  let a := pt ps h.2.1
  let b := pt ps h.2.2.1
  let c := pt ps h.2.2.2.1
  let d := pt ps h.2.2.2.2
  let v := vol4 a b c d
  if st.1 < v then (v, some (h.1, ⟨a, b, c, d, Val.on⟩))
  else if st.1 < -v then (-v, some (h.1, ⟨b, a, c, d, Val.on⟩))
  else st
where
  /-- Element of the array. -/
  pt (ps : List (V3 K)) (i : ℕ) : V3 K := ps.getD i ⟨0, 0, 0⟩

/-- The table 1319-1321 with the row numbers. -/
def table5 : List (ℕ × ℕ × ℕ × ℕ × ℕ) := [(0, 0, 1, 2, 3), (1, 1, 2, 3, 4), (2, 0, 2, 3, 4), (3, 0, 1, 3, 4), (4, 0, 1, 2, 4)]

/-- The table 1385-1387 with the row numbers. -/
def table6 : List (ℕ × ℕ × ℕ × ℕ × ℕ) :=
  [(0, 2, 3, 4, 5), (1, 1, 3, 4, 5), (2, 1, 2, 4, 5), (3, 1, 2, 3, 5), (4, 1, 2, 3, 4),
   (5, 0, 3, 4, 5), (6, 0, 2, 4, 5), (7, 0, 2, 3, 5), (8, 0, 2, 3, 4), (9, 0, 1, 4, 5),
   (10, 0, 1, 3, 5), (11, 0, 1, 3, 4), (12, 0, 1, 2, 5), (13, 0, 1, 2, 4), (14, 0, 1, 2, 3)]

/-- `rem` for five points (1322). -/
def rem5 : List ℕ := [4, 0, 1, 2, 3]

/-- `rem` for six points (1388-1389). -/
def rem6 : List (ℕ × ℕ) :=
  [(0, 1), (0, 2), (0, 3), (0, 4), (0, 5), (1, 2), (1, 3), (1, 4), (1, 5), (2, 3), (2, 4), (2, 5), (3, 4), (3, 5), (4, 5)]

/-- `AddClippedTetrahedra` for five points (1317-1382): the second tetrahedron is added only if none was
found (1378), that is, never written. -/
def add5 (e : Env K) (T : TSet K) (ps : List (V3 K)) : Option (TSet K) :=
  match (table5.foldl (tableStep ps) (0, none)).2 with
  | none => some T
  | some (h0, t0) =>
    (add e T t0).bind fun r =>
      if r.2.2 then
        match (faceLoop (tableStep.pt ps (rem5.getD h0 0)) (tableStep.pt ps (rem5.getD h0 0)) r.2.1 (fun _ => false) (0, none)).2 with
        | none => none
        | some _ => some (bump r)
      else some (bump r)

/-- The third tetrahedron of six points (1455-1493).  In the first loop the volumes are those under the
point `a0`, not under the corner `a1` of the tetrahedron made (1461-1468). -/
def third (a0 a1 : V3 K) (t0 : Tet K) (t1 : Option (ℕ × Tet K)) : Option (ℕ × Tet K) :=
  let st := faceLoop a0 a1 t0 (fun h => decide (t1.map (·.1) = some h)) (0, none)
  match t1 with
  | none => st.2
  | some (_, u) => (faceLoop a1 a1 u (fun h => decide (h = 1)) st).2

/-- `AddClippedTetrahedra` for six points (1383-1498). -/
def add6 (e : Env K) (T : TSet K) (ps : List (V3 K)) : Option (TSet K) :=
  match (table6.foldl (tableStep ps) (0, none)).2 with
  | none => some T
  | some (h0, t0) =>
    (add e T t0).bind fun r =>
      if r.2.2 then
        let a := rem6.getD h0 (0, 0)
        let a0 := tableStep.pt ps a.1
        let a1 := tableStep.pt ps a.2
        match (faceLoop a0 a0 r.2.1 (fun _ => false) (0, none)).2 with
        | none => last e (bump r) (third a0 a1 r.2.1 none)
        | some (h1, t1) =>
          (add e (bump r) t1).bind fun q =>
            last e (bump q) (third a0 a1 r.2.1 (if q.2.2 then some (h1, q.2.1) else none))
      else some (bump r)
where
  /-- Adding the third tetrahedron, if there is one (1494-1497). -/
  last (e : Env K) (T : TSet K) : Option (ℕ × Tet K) → Option (TSet K)
    | none => some T
    | some (_, t) => (add e T t).map bump

/-- `TetrahedronSet::AddClippedTetrahedra` (1297-1503). -/
def addClipped (e : Env K) (T : TSet K) (ps : List (V3 K)) : Option (TSet K) :=
  if ps.length < 4 then some T
  else if ps.length = 4 then
    (add e T ⟨tableStep.pt ps 0, tableStep.pt ps 1, tableStep.pt ps 2, tableStep.pt ps 3, Val.on⟩).map bump
  else if ps.length = 5 then add5 e T ps
  else if ps.length = 6 then add6 e T ps
  else if e.dbg then none else some T

/-- The point where an edge meets the plane (1654-1664); dividing by zero gives no result. -/
def cross (e : Env K) (p : Plane K) (a b : V3 K) : Option (V3 K) :=
  let delta := p.a * (a.x - b.x) + p.b * (a.y - b.y) + p.c * (a.z - b.z)
  let alpha := -(p.d + (p.a * b.x + p.b * b.y + p.c * b.z)) / delta
  let m : V3 K := ⟨alpha * a.x + (1 - alpha) * b.x, alpha * a.y + (1 - alpha) * b.y, alpha * a.z + (1 - alpha) * b.z⟩
  if delta = 0 then none
  else if e.dbg ∧ ¬ ((0 ≤ alpha ∧ alpha ≤ 1) ∧ e.inBox e.tol m) then none
  else some m

/-- The loop over the edges (1649-1669). -/
def crossings (e : Env K) (p : Plane K) : List (V3 K × V3 K) → Option (List (V3 K))
  | [] => some []
  | (a, b) :: es =>
    if decide (0 < p.eval a) = decide (0 < p.eval b) then crossings e p es
    else (cross e p a b).bind fun m => (crossings e p es).map (m :: ·)

/-- The edges in the order of the table 1599. -/
def tetEdges (t : Tet K) : List (V3 K × V3 K) :=
  [(t.p0, t.p1), (t.p0, t.p2), (t.p0, t.p3), (t.p1, t.p2), (t.p1, t.p3), (t.p2, t.p3)]

/-- The counters of a whole tetrahedron (1626-1633, 1638-1645): also if `Add` returned false. -/
def countWhole (T : TSet K) (d : Val) : TSet K :=
  if d = Val.on then { T with nOn := T.nOn + 1 } else { T with nIn := T.nIn + 1 }

/-- The body of the loop of `Clip` (1601-1673) for one tetrahedron: the positive and the negative part. -/
def clipTet (e : Env K) (p : Plane K) (r : TSet K × TSet K) (t : Tet K) : Option (TSet K × TSet K) :=
  let pos := (corners t).filter fun v => decide (0 < p.eval v)
  let neg := (corners t).filter fun v => !decide (0 < p.eval v)
  if pos.length = 4 then (add e r.1 t).map fun q => (countWhole q.1 t.data, r.2)
  else if neg.length = 4 then (add e r.2 t).map fun q => (r.1, countWhole q.1 t.data)
  else
    (crossings e p (tetEdges t)).bind fun ms =>
      (addClipped e r.2 (neg ++ ms)).bind fun n =>
        (addClipped e r.1 (pos ++ ms)).map fun q => (q, n)

/-- `TetrahedronSet::Clip` (1560-1674) into new sets (without tetrahedra nothing is written at all, 1567-1568). -/
def clip (e : Env K) (p : Plane K) (ts : List (Tet K)) : Option (TSet K × TSet K) :=
  ts.foldlM (clipTet e p) (⟨[], 0, 0⟩, ⟨[], 0, 0⟩)

end Verif.TetClip
