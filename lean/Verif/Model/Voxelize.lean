import Mathlib.Algebra.Order.Field.Basic
import Mathlib.Algebra.Order.Floor.Ring
import Mathlib.Data.List.Basic
import Mathlib.Tactic.NormNum

/-!
Model of the voxelization of a mesh in V-HACD: the template `Volume::Voxelize` with
`ComputeAlignedPoint` and `ComputeBB` (trajopt_ext/vhacd/include/vhacd/inc/vhacdVolume.h 305-492),
`TriBoxOverlap` and `PlaneBoxOverlap` (trajopt_ext/vhacd/src/vhacdVolume.cpp 64-288),
`Volume::FillOutsideSurface` and `Volume::FillInsideSurface` (vhacdVolume.cpp 857-929) and
`Volume::GetVoxel` (vhacdVolume.h 252-265).

Doubles are elements of an ordered field with a floor, without rounding.  The result `none` stands
for a failed assertion (debug builds, `dbg = true`), an access outside an allocated array, or a
conversion to `size_t` of a value that does not fit.  Indices are integers, so the conversions
between `size_t` and `short` are explicit (`short`).
-/

namespace Verif.Voxel

/-- `VOXEL_VALUE`, vhacdVolume.h 44-50. -/
inductive Val
  | undef | out | ins | on
deriving DecidableEq, Repr

/-- The index `(i, j, k)` of a voxel. -/
abbrev Cell := ℤ × ℤ × ℤ

/-- The members of `Volume` (vhacdVolume.h 289-297) the voxelization works on: the dimensions, the
array `m_data` and the three counters. -/
structure Vol where
  d0 : ℤ
  d1 : ℤ
  d2 : ℤ
  data : ℤ → Val
  nOn : ℕ
  nIn : ℕ
  nOut : ℕ

/-- The element of `m_data` that `GetVoxel` refers to, vhacdVolume.h 257. -/
def addr (v : Vol) (c : Cell) : ℤ := c.1 + c.2.1 * v.d0 + c.2.2 * v.d0 * v.d1

/-- `GetVoxel` may be called: the three assertions of vhacdVolume.h 254-256 (all three compare with
`m_dim[0]`) hold in a debug build, no argument is negative (as a `size_t` it would be huge) and the
element is inside the array allocated in vhacdVolume.cpp 845-851. -/
def okAt (dbg : Bool) (v : Vol) (c : Cell) : Prop :=
  (dbg = true → c.1 < v.d0 ∧ c.2.1 < v.d0 ∧ c.2.2 < v.d0) ∧
    0 ≤ c.1 ∧ 0 ≤ c.2.1 ∧ 0 ≤ c.2.2 ∧ addr v c < v.d0 * v.d1 * v.d2

instance (dbg : Bool) (v : Vol) (c : Cell) : Decidable (okAt dbg v c) := by
  unfold okAt; infer_instance

/-- Reading through `GetVoxel`, vhacdVolume.h 252-265. -/
def get (dbg : Bool) (v : Vol) (c : Cell) : Option Val :=
  if okAt dbg v c then some (v.data (addr v c)) else none

/-- Writing through the reference `GetVoxel` returned. -/
def set (v : Vol) (c : Cell) (x : Val) : Vol :=
  { v with data := Function.update v.data (addr v c) x }

/-- `for (i = a; i < b; ++i)`: the values of `i`. -/
def ival (a b : ℤ) : List ℤ := (List.range (b - a).toNat).map fun n : ℕ => a + (n : ℤ)

/-- Three nested loops over `[i0, i1) × [j0, j1) × [k0, k1)`: the indices in the order of visit. -/
def cells (i0 j0 k0 i1 j1 k1 : ℤ) : List Cell :=
  (ival i0 i1).flatMap fun i => (ival j0 j1).flatMap fun j => (ival k0 k1).map fun k => (i, j, k)

/-- Conversion to `short` (16 bits, two's complement). -/
def short (z : ℤ) : ℤ := (z + 32768) % 65536 - 32768

/-- The table `neighbours`, vhacdVolume.cpp 864. -/
def neighbours : List Cell :=
  [(1, 0, 0), (0, 1, 0), (0, 0, 1), (-1, 0, 0), (0, -1, 0), (0, 0, -1)]

/-- One pass of the loop over `h`, vhacdVolume.cpp 886-901: the neighbour of `cur` in direction `h`. -/
def visit (dbg : Bool) (cur : Cell) (s : Vol × List Cell) (h : Cell) : Option (Vol × List Cell) :=
  let a := short (cur.1 + h.1)
  let b := short (cur.2.1 + h.2.1)
  let c := short (cur.2.2 + h.2.2)
  if a < 0 ∨ s.1.d0 ≤ a ∨ b < 0 ∨ s.1.d1 ≤ b ∨ c < 0 ∨ s.1.d2 ≤ c then some s
  else (get dbg s.1 (a, b, c)).bind fun x =>
    if x = Val.undef then
      some ({ set s.1 (a, b, c) Val.out with nOut := s.1.nOut + 1 }, s.2 ++ [(a, b, c)])
    else some s

/-- The loop `while (fifo.size() > 0)`, vhacdVolume.cpp 882-902.  The first argument bounds the number
of passes (`none` when it is used up; C167 shows that the bound `fillCell` gives is never used up). -/
def bfs (dbg : Bool) : ℕ → Vol → List Cell → Option Vol
  | _, v, [] => some v
  | 0, _, _ :: _ => none
  | n + 1, v, c :: q => (neighbours.foldlM (visit dbg c) (v, q)).bind fun s => bfs dbg n s.1 s.2

/-- The body of the three loops of `FillOutsideSurface`, vhacdVolume.cpp 874-903. -/
def fillCell (dbg : Bool) (v : Vol) (c : Cell) : Option Vol :=
  (get dbg v c).bind fun x =>
    if x = Val.undef then
      let cur : Cell := (short c.1, short c.2.1, short c.2.2)
      (get dbg v cur).bind fun _ =>
        bfs dbg ((v.d0 * v.d1 * v.d2).toNat + 1)
          { set v cur Val.out with nOut := v.nOut + 1 } [cur]
    else some v

/-- `Volume::FillOutsideSurface`, vhacdVolume.cpp 857-908. -/
def fillOutside (dbg : Bool) (v : Vol) (i0 j0 k0 i1 j1 k1 : ℤ) : Option Vol :=
  (cells i0 j0 k0 i1 j1 k1).foldlM (fillCell dbg) v

/-- The body of the loops of `FillInsideSurface`, vhacdVolume.cpp 920-925. -/
def insideCell (dbg : Bool) (v : Vol) (c : Cell) : Option Vol :=
  (get dbg v c).bind fun x =>
    if x = Val.undef then some { set v c Val.ins with nIn := v.nIn + 1 } else some v

/-- `Volume::FillInsideSurface`, vhacdVolume.cpp 909-929. -/
def fillInside (dbg : Bool) (v : Vol) : Option Vol :=
  (cells 0 0 0 v.d0 v.d1 v.d2).foldlM (insideCell dbg) v

/-- The seven calls at the end of `Voxelize`, vhacdVolume.h 485-491. -/
def fill (dbg : Bool) (v : Vol) : Option Vol :=
  (fillOutside dbg v 0 0 0 v.d0 v.d1 1).bind fun v =>
  (fillOutside dbg v 0 0 (v.d2 - 1) v.d0 v.d1 v.d2).bind fun v =>
  (fillOutside dbg v 0 0 0 v.d0 1 v.d2).bind fun v =>
  (fillOutside dbg v 0 (v.d1 - 1) 0 v.d0 v.d1 v.d2).bind fun v =>
  (fillOutside dbg v 0 0 0 1 v.d1 v.d2).bind fun v =>
  (fillOutside dbg v (v.d0 - 1) 0 0 v.d0 v.d1 v.d2).bind fun v =>
  fillInside dbg v

section geometry

variable {K : Type*} [Field K] [LinearOrder K] [IsStrictOrderedRing K] [FloorRing K]

/-- `Vec3<double>`. -/
@[ext] structure V3 (K : Type*) where
  x : K
  y : K
  z : K
deriving DecidableEq

/-- `operator-` of `Vec3` (trajopt_ext/vhacd/include/vhacd/inc/vhacdVector.inl). -/
def V3.sub (a b : V3 K) : V3 K := ⟨a.x - b.x, a.y - b.y, a.z - b.z⟩

/-- `operator^` of `Vec3`, the cross product (vhacdVector.inl). -/
def V3.cross (a b : V3 K) : V3 K :=
  ⟨a.y * b.z - a.z * b.y, a.z * b.x - a.x * b.z, a.x * b.y - a.y * b.x⟩

/-- `operator*` of `Vec3`, the inner product (vhacdVector.inl). -/
def V3.dot (a b : V3 K) : K := a.x * b.x + a.y * b.y + a.z * b.z

/-- The comparison at the end of the macros `AXISTEST_…`, vhacdVolume.cpp 75-175: the projections `p`
and `q` of two vertices lie on one side of the interval `[-rad, rad]`. -/
def apart (p q rad : K) : Bool :=
  let mn := if p < q then p else q
  let mx := if p < q then q else p
  decide (rad < mn) || decide (mx < -rad)

/-- `AXISTEST_X01` with `w = v2` and `AXISTEST_X2` with `w = v1`, vhacdVolume.cpp 75-107. -/
def axisX (a b fa fb : K) (h u w : V3 K) : Bool :=
  apart (a * u.y - b * u.z) (a * w.y - b * w.z) (fa * h.y + fb * h.z)

/-- `AXISTEST_Y02` with `w = v2` and `AXISTEST_Y1` with `w = v1`, vhacdVolume.cpp 109-141. -/
def axisY (a b fa fb : K) (h u w : V3 K) : Bool :=
  apart (-a * u.x + b * u.z) (-a * w.x + b * w.z) (fa * h.x + fb * h.z)

/-- `AXISTEST_Z12` with `u = v2`, `w = v1` and `AXISTEST_Z0` with `u = v0`, `w = v1`,
vhacdVolume.cpp 143-175. -/
def axisZ (a b fa fb : K) (h u w : V3 K) : Bool :=
  apart (a * u.x - b * u.y) (a * w.x - b * w.y) (fa * h.x + fb * h.y)

/-- `FINDMINMAX` and the comparison behind it, vhacdVolume.cpp 64-73 and 265-278. -/
def boxApart (x0 x1 x2 h : K) : Bool :=
  let mn := if x1 < x0 then x1 else x0
  let mx := if x0 < x1 then x1 else x0
  let mn := if x2 < mn then x2 else mn
  let mx := if mx < x2 then x2 else mx
  decide (h < mn) || decide (mx < -h)

/-- The loop over `q` in `PlaneBoxOverlap`, vhacdVolume.cpp 182-195, for one coordinate: `vmin`. -/
def vminOf (n v b : K) : K := if 0 < n then -b - v else b - v

/-- As `vminOf`: `vmax`. -/
def vmaxOf (n v b : K) : K := if 0 < n then b - v else -b - v

/-- `PlaneBoxOverlap`, vhacdVolume.cpp 177-201. -/
def planeBox (n v b : V3 K) : Bool :=
  let vmin : V3 K := ⟨vminOf n.x v.x b.x, vminOf n.y v.y b.y, vminOf n.z v.z b.z⟩
  let vmax : V3 K := ⟨vmaxOf n.x v.x b.x, vmaxOf n.y v.y b.y, vmaxOf n.z v.z b.z⟩
  if 0 < n.dot vmin then false
  else if 0 ≤ n.dot vmax then true
  else false

/-- `TriBoxOverlap`, vhacdVolume.cpp 203-288. -/
def triBox (ctr h t0 t1 t2 : V3 K) : Bool :=
  let v0 := t0.sub ctr
  let v1 := t1.sub ctr
  let v2 := t2.sub ctr
  let e0 := v1.sub v0
  let e1 := v2.sub v1
  let e2 := v0.sub v2
  if axisX e0.z e0.y |e0.z| |e0.y| h v0 v2 then false
  else if axisY e0.z e0.x |e0.z| |e0.x| h v0 v2 then false
  else if axisZ e0.y e0.x |e0.y| |e0.x| h v2 v1 then false
  else if axisX e1.z e1.y |e1.z| |e1.y| h v0 v2 then false
  else if axisY e1.z e1.x |e1.z| |e1.x| h v0 v2 then false
  else if axisZ e1.y e1.x |e1.y| |e1.x| h v0 v1 then false
  else if axisX e2.z e2.y |e2.z| |e2.y| h v0 v1 then false
  else if axisY e2.z e2.x |e2.z| |e2.x| h v0 v1 then false
  else if axisZ e2.y e2.x |e2.y| |e2.x| h v2 v1 then false
  else if boxApart v0.x v1.x v2.x h.x then false
  else if boxApart v0.y v1.y v2.y h.y then false
  else if boxApart v0.z v1.z v2.z h.z then false
  else planeBox (e0.cross e1) v0 h

/-- `ComputeAlignedPoint`, vhacdVolume.h 306-337; `r0`, `r1`, `r2` are the rows of `rot`. -/
def aligned (bary r0 r1 r2 p : V3 K) : V3 K :=
  let x := p.x - bary.x
  let y := p.y - bary.y
  let z := p.z - bary.z
  ⟨r0.x * x + r1.x * y + r2.x * z, r0.y * x + r1.y * y + r2.y * z, r0.z * x + r1.z * y + r2.z * z⟩

/-- The bounding box of one coordinate after a further point, vhacdVolume.h 352-357. -/
def grow (b : K × K) (p : K) : K × K :=
  if p < b.1 then (p, b.2) else if b.2 < p then (b.1, p) else b

/-- `Volume::ComputeBB`, vhacdVolume.h 338-360, for one coordinate: minimum and maximum. -/
def bb (p : K) (ps : List K) : K × K := ps.foldl grow (p, p)

/-- `static_cast<size_t>` of a double that is not negative; other values are not converted. -/
def toSize (x : K) : Option ℤ := if 0 ≤ x then some ⌊x⌋ else none

/-- `2 + static_cast<size_t>(dim * d / r)`, vhacdVolume.h 384-399; there is no value for `r = 0`
(the quotient is infinite or not a number and the conversion undefined). -/
def sideCells (dim : ℕ) (d r : K) : Option ℤ :=
  if r = 0 then none else (toSize ((dim : K) * d / r)).map (2 + ·)

/-- The choice of the longest side and of the dimensions, vhacdVolume.h 377-400: `r` and `m_dim`. -/
def dims (dim : ℕ) (a b c : K) : Option (K × ℤ × ℤ × ℤ) :=
  if b < a ∧ c < a then
    (sideCells dim b a).bind fun y => (sideCells dim c a).bind fun z => some (a, (dim : ℤ), y, z)
  else if a < b ∧ c < b then
    (sideCells dim a b).bind fun x => (sideCells dim c b).bind fun z => some (b, x, (dim : ℤ), z)
  else
    (sideCells dim a c).bind fun x => (sideCells dim b c).bind fun y => some (c, x, y, (dim : ℤ))

/-- The index of a vertex in one direction, vhacdVolume.h 426-428. -/
def index (p : K) : Option ℤ := toSize (p + 1 / 2)

/-- The smallest and the largest index of the three vertices, vhacdVolume.h 431-452, for one
direction. -/
def span (i j k : ℤ) : ℤ × ℤ :=
  let s := (i, i)
  let s := (if j < s.1 then j else s.1, if s.2 < j then j else s.2)
  (if k < s.1 then k else s.1, if s.2 < k then k else s.2)

/-- The range widened, vhacdVolume.h 453-464, for one direction. -/
def widen (d : ℤ) (s : ℤ × ℤ) : ℤ × ℤ :=
  (if 0 < s.1 then s.1 - 1 else s.1, if s.2 < d then s.2 + 1 else s.2)

/-- One voxel of the range of a triangle, vhacdVolume.h 473-480 (body of the loops). -/
def markCell (dbg : Bool) (t0 t1 t2 : V3 K) (v : Vol) (c : Cell) : Option Vol :=
  let res := triBox ⟨(c.1 : K), (c.2.1 : K), (c.2.2 : K)⟩ ⟨1 / 2, 1 / 2, 1 / 2⟩ t0 t1 t2
  (get dbg v c).bind fun x =>
    if res = true ∧ x = Val.undef then some { set v c Val.on with nOn := v.nOn + 1 } else some v

/-- The indices of a vertex with the assertion of vhacdVolume.h 429. -/
def vertexCell (dbg : Bool) (v : Vol) (p : V3 K) : Option Cell :=
  (index p.x).bind fun i => (index p.y).bind fun j => (index p.z).bind fun k =>
    if dbg = true ∧ ¬ (i < v.d0 ∧ j < v.d1 ∧ k < v.d2) then none else some (i, j, k)

/-- The loop over the voxels near one triangle, vhacdVolume.h 418-484, for the scaled vertices. -/
def markTri (dbg : Bool) (v : Vol) (t : V3 K × V3 K × V3 K) : Option Vol :=
  (vertexCell dbg v t.1).bind fun a => (vertexCell dbg v t.2.1).bind fun b =>
  (vertexCell dbg v t.2.2).bind fun c =>
    let i := widen v.d0 (span a.1 b.1 c.1)
    let j := widen v.d1 (span a.2.1 b.2.1 c.2.1)
    let k := widen v.d2 (span a.2.2 b.2.2 c.2.2)
    (cells i.1 j.1 k.1 i.2 j.2 k.2).foldlM (markCell dbg t.1 t.2.1 t.2.2) v

/-- What `Voxelize` leaves behind: `m_minBB`, `m_scale` and the voxels. -/
structure Grid (K : Type*) where
  minBB : V3 K
  scale : K
  vol : Vol

/-- A vertex in units of voxels, vhacdVolume.h 423-425. -/
def scaled (minBB : V3 K) (inv : K) (p : V3 K) : V3 K :=
  ⟨(p.x - minBB.x) * inv, (p.y - minBB.y) * inv, (p.z - minBB.z) * inv⟩

/-- A point of the mesh read through an index of a triangle; an index outside the array is undefined
behaviour. -/
def fetch (ps : List (V3 K)) (i : ℕ) : Option (V3 K) := ps[i]?

/-- The three scaled vertices of a triangle, vhacdVolume.h 419-425. -/
def corners (ps : List (V3 K)) (minBB : V3 K) (inv : K) (t : ℕ × ℕ × ℕ) :
    Option (V3 K × V3 K × V3 K) :=
  (fetch ps t.1).bind fun a => (fetch ps t.2.1).bind fun b => (fetch ps t.2.2).bind fun c =>
    some (scaled minBB inv a, scaled minBB inv b, scaled minBB inv c)

/-- `Volume::Voxelize`, vhacdVolume.h 361-492, on the aligned points (`aligned` applied to each of
`pts`, vhacdVolume.h 422) and the triangles as triples of indices.  `dim ≤ 1` (a scale of `r / 0` or
`dim - 1` wrapped around) is not modelled and has no value; an empty mesh leaves the object alone. -/
def voxelize (dbg : Bool) (ps : List (V3 K)) (tris : List (ℕ × ℕ × ℕ)) (dim : ℕ) :
    Option (Option (Grid K)) :=
  match ps with
  | [] => some none
  | p :: rest =>
    if dim ≤ 1 then none else
    let bx := bb p.x (rest.map V3.x)
    let byy := bb p.y (rest.map V3.y)
    let bz := bb p.z (rest.map V3.z)
    let minBB : V3 K := ⟨bx.1, byy.1, bz.1⟩
    (dims dim (bx.2 - bx.1) (byy.2 - byy.1) (bz.2 - bz.1)).bind fun d =>
    let inv := ((dim : K) - 1) / d.1
    let v0 : Vol := ⟨d.2.1, d.2.2.1, d.2.2.2, fun _ => Val.undef, 0, 0, 0⟩
    (tris.foldlM (fun v t => (corners (p :: rest) minBB inv t).bind (markTri dbg v)) v0).bind fun v =>
    (fill dbg v).bind fun v => some (some ⟨minBB, d.1 / ((dim : K) - 1), v⟩)

end geometry

end Verif.Voxel
