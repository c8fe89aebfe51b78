import Mathlib.Algebra.Order.Field.Basic
import Mathlib.Algebra.Order.Group.Abs
import Mathlib.Data.List.Basic
import Mathlib.Data.Multiset.Basic

/-!
# The approximate convex decomposition of V-HACD

Source: `trajopt_ext/vhacd/src/VHACD.cpp`, `VHACD::ComputeACD` (1131-1440),
`trajopt_ext/vhacd/src/vhacdVolume.cpp`, `VoxelSet::ComputeClippedVolumes` (652-671) and
`VoxelSet::Clip` (699-758), `include/vhacd/inc/vhacdVolume.h` (108-125, 146-148).

Modelled for `m_mode == 0` (voxels), for which `AlignToPrincipalAxes` and
`RevertAlignToPrincipalAxes` do nothing.  A read of the flag `m_cancel` (through `GetCancel` or
directly) asks the function `Env.cancel` with the number of reads so far, so every moment at
which another thread or a callback may call `Cancel` is covered.  Objects created with `new` live
on a heap of numbered objects; deleting twice, using a deleted or null object and using the
uninitialised `bestPlane` clear the flag `ok` of the heap.  The volume of the convex hull of a set
(`hullVol`) and the plane which `ComputeBestClippingPlane` finds (`plane`) are parameters.
Doubles are elements of an ordered field.  Logging, progress and timing are left out.
-/

namespace Verif.Decompose

/-- `Voxel` (vhacdVolume.h 52-57): the coordinates, and whether `m_data` is
`PRIMITIVE_ON_SURFACE`. -/
structure Voxel where
  x : ℤ
  y : ℤ
  z : ℤ
  surf : Bool
deriving DecidableEq, Repr

/-- `Plane` (vhacdMesh.h 41-49), without the axis and index, which clipping does not read. -/
structure Plane (K : Type) where
  a : K
  b : K
  c : K
  d : K
deriving DecidableEq, Repr

/-- `VoxelSet` (vhacdVolume.h 153-170): the voxels, `m_minBB`, `m_scale`, `m_unitVolume` and the
two counters.  Bounding box, axes and the hull are recomputed before use and not kept. -/
structure VSet (K : Type) where
  voxels : List Voxel
  ox : K
  oy : K
  oz : K
  scale : K
  unit : K
  nSurf : ℕ
  nIn : ℕ
deriving DecidableEq, Repr

variable {K : Type} [Field K] [LinearOrder K]

/-- `new VoxelSet()` (vhacdVolume.cpp 392-407). -/
def fresh : VSet K := ⟨[], 0, 0, 0, 1, 1, 0, 0⟩

/-- The value of the plane's equation at `GetPoint(voxel)` (vhacdVolume.h 120-125,
vhacdVolume.cpp 664-665 and 729-730). -/
def side (p : Plane K) (s : VSet K) (v : Voxel) : K :=
  p.a * (v.x * s.scale + s.ox) + p.b * (v.y * s.scale + s.oy) + p.c * (v.z * s.scale + s.oz) + p.d

/-- Lines 734-743 and 747-756: `voxel.m_data` is set to on-surface near the plane, the voxel is
pushed and one of the counters goes up. -/
def push (near : Bool) (v : Voxel) (t : VSet K) : VSet K :=
  if v.surf || near then
    { t with voxels := t.voxels ++ [{ v with surf := true }], nSurf := t.nSurf + 1 }
  else { t with voxels := t.voxels ++ [v], nIn := t.nIn + 1 }

/-- One turn of the loop of `Clip` (726-757). -/
def clipStep (p : Plane K) (s : VSet K) (pn : VSet K × VSet K) (v : Voxel) : VSet K × VSet K :=
  if 0 ≤ side p s v then (push (decide (side p s v ≤ s.scale)) v pn.1, pn.2)
  else (pn.1, push (decide (-side p s v ≤ s.scale)) v pn.2)

/-- The assignments before the loop of `Clip` (707-719). -/
def emptyLike (s : VSet K) : VSet K := ⟨[], s.ox, s.oy, s.oz, s.scale, s.unit, 0, 0⟩

/-- `VoxelSet::Clip` (699-758): the new contents of `positivePart` and `negativePart`.  An empty
set leaves both as they were (704-705). -/
def clip (p : Plane K) (s pos neg : VSet K) : VSet K × VSet K :=
  if s.voxels = [] then (pos, neg)
  else s.voxels.foldl (clipStep p s) (emptyLike s, emptyLike s)

/-- `VoxelSet::ComputeClippedVolumes` (652-671): the positive and the negative volume. -/
def clippedVolumes (p : Plane K) (s : VSet K) : K × K :=
  if s.voxels = [] then (0, 0)
  else
    let n := s.voxels.foldl (fun n v => n + if 0 ≤ side p s v then 1 else 0) (0 : ℕ)
    (s.unit * (n : K), s.unit * ((s.voxels.length - n : ℕ) : K))

/-- `VoxelSet::ComputeVolume` (vhacdVolume.h 108). -/
def volume (s : VSet K) : K := s.unit * (s.voxels.length : K)

/-- The parameters and the outside world of one call of `ComputeACD`. -/
structure Env (K : Type) where
  /-- value of `m_cancel` at the n-th read -/
  cancel : ℕ → Bool
  /-- `fabs` of the volume of the convex hull of a set -/
  hullVol : VSet K → K
  /-- what a search started after the n-th read finds, `none` if no plane beats `MAX_DOUBLE` -/
  plane : ℕ → VSet K → Option (Plane K)
  /-- `params.m_concavity` -/
  concavity : K
  /-- `params.m_planeDownsampling > 1 || params.m_convexhullDownsampling > 1` -/
  refine : Bool
  /-- the constant `1.01` of line 1222 -/
  slack : K

/-- Lines 1216-1222 and 1240: whether a part is split further.  With `m_volumeCH0 == 0` the
quotients are NaN or both infinite and the comparison is false. -/
def needSplit (e : Env K) (V0 : K) (s : VSet K) : Bool :=
  let c := |e.hullVol s - volume s| / V0
  let err := e.slack * (s.unit * (s.nSurf : K)) / V0
  decide (V0 ≠ 0) && decide (e.concavity < c) && decide (err < c)

/-- Objects created with `new`. -/
structure Heap (K : Type) where
  next : ℕ
  live : List ℕ
  val : ℕ → VSet K
  ok : Bool

/-- A mistake: double deletion, use of a deleted or null object or of an uninitialised value. -/
def Heap.fail (h : Heap K) : Heap K := { h with ok := false }

/-- `new`, with the contents of the new object. -/
def Heap.new (h : Heap K) (s : VSet K) : Heap K :=
  { h with next := h.next + 1, live := h.next :: h.live
           val := fun i => if i = h.next then s else h.val i }

/-- Access to an object. -/
def Heap.use (h : Heap K) (i : ℕ) : Heap K := if i ∈ h.live then h else h.fail

/-- `delete`; deleting a null pointer has no effect. -/
def Heap.del (h : Heap K) : Option ℕ → Heap K
  | none => h
  | some i => if i ∈ h.live then { h with live := h.live.erase i } else h.fail

/-- Deletion of all elements of an array (1342-1346, 1364-1367, 1408-1412, 1416-1420). -/
def Heap.delAll (h : Heap K) (l : List (Option ℕ)) : Heap K := l.foldl Heap.del h

/-- The local variables of `ComputeACD`: `parts`, `temp`, `m_volumeCH0`, `firstIteration`, the
heap, and the number of reads of `m_cancel`. -/
structure St (K : Type) where
  h : Heap K
  parts : List (Option ℕ)
  temp : List ℕ
  V0 : K
  first : Bool
  t : ℕ

/-- The two searches for a plane (1262-1311): `bestPlane` afterwards, the heap (failed if the
uninitialised `bestPlane` is read by `RefineAxesAlignedClippingPlanes`) and the number of reads.
`ComputeBestClippingPlane` returns at once if cancelled (787-790). -/
def search (e : Env K) (t : ℕ) (s : VSet K) (h : Heap K) : Option (Plane K) × Heap K × ℕ :=
  let p1 := if e.cancel t then none else e.plane (t + 1) s
  if !e.cancel (t + 1) && e.refine then
    let h' := if p1.isNone then h.fail else h
    if e.cancel (t + 2) then (p1, h', t + 3)
    else ((e.plane (t + 3) s).or p1, h', t + 3)
  else (p1, h, t + 2)

/-- Lines 1312-1339: deletion and `break` if cancelled (`true`), otherwise two new sets are
created, filled by `Clip` and pushed to `temp`, and the old set is deleted. -/
def splitPart (e : Env K) (i : ℕ) (st : St K) : Bool × St K :=
  let v := st.h.val i
  let r := search e st.t v st.h
  let st := { st with h := r.2.1, t := r.2.2 + 1 }
  if e.cancel r.2.2 then (true, { st with h := st.h.del (some i) })
  else
    match r.1 with
    | none => (false, { st with h := st.h.fail })
    | some p =>
      let c := clip p v fresh fresh
      let l := st.h.next
      let h1 := (st.h.new c.2).new c.1
      (false, { st with h := h1.del (some i), temp := st.temp ++ [l, l + 1] })

/-- The body of the loop over the parts (1200-1347); `true` after `break`. -/
def body (e : Env K) (q : Option ℕ) (st : St K) : Bool × St K :=
  match q with
  | none => (false, { st with h := st.h.fail })
  | some i =>
    let st := { st with h := st.h.use i }
    let v := st.h.val i
    let V0 := if st.first then e.hullVol v else st.V0
    let st := { st with V0 := V0, first := false }
    if needSplit e V0 v then splitPart e i st
    else (false, { st with parts := st.parts ++ [some i] })

/-- The loop over the parts of one level (1198-1348): the array `inputParts` afterwards, in which
the parts taken are null. -/
def level (e : Env K) : List (Option ℕ) → St K → List (Option ℕ) × St K
  | [], st => ([], st)
  | q :: qs, st =>
    let c := e.cancel st.t
    let st := { st with t := st.t + 1 }
    if c then (q :: qs, st)
    else
      let r := body e q st
      if r.1 then (none :: qs, r.2)
      else
        let r' := level e qs r.2
        (none :: r'.1, r'.2)

/-- The loop over the levels (1180-1364), with the number of levels left. -/
def levels (e : Env K) : ℕ → List (Option ℕ) → St K → List (Option ℕ) × St K
  | 0, ins, st => (ins, st)
  | n + 1, ins, st =>
    if ins = [] then (ins, st)
    else
      let c := e.cancel st.t
      let st := { st with t := st.t + 1 }
      if c then (ins, st)
      else
        let r := level e ins st
        let c' := e.cancel r.2.t
        let st' := { r.2 with t := r.2.t + 1 }
        if c' then
          levels e n r.1 { st' with h := st'.h.delAll (st'.temp.map some), temp := [] }
        else levels e n (st'.temp.map some) { st' with temp := [] }

/-- The loop which creates the hulls (1394-1412): the heap, the hulls and the number of reads.
The contents recorded for a hull is the set of which it is the hull. -/
def hullLoop (e : Env K) : List (Option ℕ) → Heap K → List ℕ → ℕ → Heap K × List ℕ × ℕ
  | [], h, hulls, t => (h, hulls, t)
  | q :: qs, h, hulls, t =>
    if e.cancel t then (h, hulls, t + 1)
    else
      match q with
      | none => hullLoop e qs (h.new fresh).fail (hulls ++ [h.next]) (t + 1)
      | some i => hullLoop e qs ((h.use i).new (h.val i)) (hulls ++ [h.next]) (t + 1)

/-- The loop 1159-1165 for the depth, with 32-bit counters; `none` if it has not ended after
`fuel` turns. -/
def depthLoop (M : ℕ) : ℕ → ℕ → ℕ → Option ℕ
  | 0, _, _ => none
  | fuel + 1, hullCount, depth =>
    if hullCount < M then depthLoop M fuel (hullCount * 2 % 2 ^ 32) ((depth + 1) % 2 ^ 32)
    else some depth

/-- The depth of the decomposition (1157-1179). -/
def depthOf (fuel M : ℕ) : Option ℕ := (depthLoop M fuel 2 1).map (· + 1)

/-- What `ComputeACD` leaves: the heap, `m_convexHulls`, `m_pset`, and whether it ran to its end
(it returned early if cancelled). -/
structure Out (K : Type) where
  h : Heap K
  hulls : List ℕ
  pset : Option ℕ
  ran : Bool

/-- Lines 1365-1432, after the levels. -/
def finish (e : Env K) (old : List ℕ) (r : List (Option ℕ) × St K) : Out K :=
  let parts := r.2.parts ++ r.1
  if e.cancel r.2.t then ⟨r.2.h.delAll parts, old, none, false⟩
  else
    let m := hullLoop e parts r.2.h [] (r.2.t + 1)
    let h := m.1.delAll parts
    if e.cancel m.2.2 then ⟨h.delAll (m.2.1.map some), [], none, false⟩
    else ⟨h, m.2.1, none, true⟩

/-- `VHACD::ComputeACD` (1131-1440) with the contents `old` of `m_convexHulls`, `pset` of `m_pset`
and the depth computed above. -/
def computeACD (e : Env K) (depth : ℕ) (h : Heap K) (old : List ℕ) (pset : Option ℕ) : Out K :=
  if e.cancel 0 then ⟨h, old, pset, false⟩
  else finish e old (levels e depth [pset] ⟨h, [], [], 1, true, 1⟩)

end Verif.Decompose
