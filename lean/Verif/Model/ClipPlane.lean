import Verif.Model.Decompose

/-!
# The clipping planes which V-HACD considers, and the choice among them

Source: `trajopt_ext/vhacd/src/VHACD.cpp`, `ComputeAxesAlignedClippingPlanes` (552-598) and
`RefineAxesAlignedClippingPlanes` (645-703) for voxels, `VHACD::ComputeBestClippingPlane`
(773-1130), `VoxelSet::ComputeBB` (vhacdVolume.cpp 409-437).

The loop over the planes may be run by several threads; the costs of a plane are computed without
shared state and the comparison with the best so far is a critical section, so an execution is
the order in which the planes enter it.  The costs themselves (volumes of hulls) are parameters.
OpenCL, logging and progress are left out.
-/

namespace Verif.Decompose

variable {K : Type} [Field K] [LinearOrder K]

/-- Conversion to `short`. -/
def toShort (x : ℤ) : ℤ := (x + 2 ^ 15) % 2 ^ 16 - 2 ^ 15

/-- The loop `for (short i = i0; i <= i1; i += step)` (565-571): the values of `i`; `none` if it
has not ended after `fuel` turns. -/
def indices : ℕ → ℤ → ℤ → ℤ → Option (List ℤ)
  | 0, _, _, _ => none
  | fuel + 1, i, i1, step =>
    if i ≤ i1 then (indices fuel (toShort (i + step)) i1 step).map (i :: ·) else some []

/-- A plane with its axis and index (vhacdMesh.h 41-49). -/
structure Cand (K : Type) where
  plane : Plane K
  axis : Fin 3
  index : ℤ
deriving DecidableEq, Repr

/-- The plane `index + 0.5` voxels from the origin along an axis (563-571, 577-583, 590-596). -/
def axisPlane (s : VSet K) (axis : Fin 3) (i : ℤ) : Cand K :=
  let at_ (o : K) : K := -(((i : K) + 1 / 2) * s.scale + o)
  match axis with
  | 0 => ⟨⟨1, 0, 0, at_ s.ox⟩, 0, i⟩
  | 1 => ⟨⟨0, 1, 0, at_ s.oy⟩, 1, i⟩
  | 2 => ⟨⟨0, 0, 1, at_ s.oz⟩, 2, i⟩

/-- A coordinate of a voxel. -/
def Voxel.at (v : Voxel) : Fin 3 → ℤ
  | 0 => v.x
  | 1 => v.y
  | 2 => v.z

/-- `ComputeBB` (414-430): least and greatest coordinate along an axis; the defaults of the
constructor for an empty set. -/
def bounds (s : VSet K) (axis : Fin 3) : ℤ × ℤ :=
  match s.voxels with
  | [] => (0, 1)
  | v :: _ =>
    s.voxels.foldl (fun b w => (if w.at axis < b.1 then w.at axis else b.1,
      if b.2 < w.at axis then w.at axis else b.2)) (v.at axis, v.at axis)

/-- `ComputeAxesAlignedClippingPlanes` (552-598), called with the parameter
`m_planeDownsampling`, which is converted to `short`. -/
def coarsePlanes (fuel : ℕ) (s : VSet K) (downsampling : ℕ) : Option (List (Cand K)) := do
  let step := toShort downsampling
  let xs ← indices fuel (bounds s 0).1 (bounds s 0).2 step
  let ys ← indices fuel (bounds s 1).1 (bounds s 1).2 step
  let zs ← indices fuel (bounds s 2).1 (bounds s 2).2 step
  return xs.map (axisPlane s 0) ++ ys.map (axisPlane s 1) ++ zs.map (axisPlane s 2)

/-- `RefineAxesAlignedClippingPlanes` (645-703): all planes of the same axis within
`downsampling` of the best one. -/
def finePlanes (fuel : ℕ) (s : VSet K) (best : Cand K) (downsampling : ℕ) :
    Option (List (Cand K)) := do
  let step := toShort downsampling
  let b := bounds s best.axis
  let i0 := toShort (max b.1 (best.index - step))
  let i1 := toShort (min b.2 (best.index + step))
  let is ← indices fuel i0 i1 1
  return is.map (axisPlane s best.axis)

/-- The variables guarded by the critical section: `minTotal`, `iBest`, `bestPlane`,
`minConcavity` (`none`: not yet initialised). -/
structure Best (K : Type) where
  minTotal : K
  iBest : ℤ
  plane : Option (Cand K)
  concavity : K
deriving DecidableEq, Repr

/-- The critical section (1077-1088) for the plane of index `x`. -/
def enter (planes : List (Cand K)) (total conc : ℕ → K) (b : Best K) (x : ℕ) : Best K :=
  if total x < b.minTotal ∨ (total x = b.minTotal ∧ (x : ℤ) < b.iBest) then
    ⟨total x, x, planes[x]?, conc x⟩
  else b

/-- `ComputeBestClippingPlane` (773-1130), when the planes enter the critical section in the given
order, from the values of `bestPlane` and `minConcavity` at the call. -/
def choose (planes : List (Cand K)) (total conc : ℕ → K) (maxDouble : K) (order : List ℕ)
    (plane0 : Option (Cand K)) (conc0 : K) : Best K :=
  order.foldl (enter planes total conc) ⟨maxDouble, -1, plane0, conc0⟩

end Verif.Decompose
