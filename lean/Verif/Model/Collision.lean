import Mathlib.Algebra.Order.Field.Basic
import Mathlib.Algebra.Order.Floor.Defs
import Mathlib.Algebra.Order.Floor.Semiring

/-!
Model of the collision bookkeeping of `trajopt_common` and `trajopt_ifopt`.

Sources:
* `/repo/trajopt_common/src/collision_types.cpp` 35-75 (`CollisionCoeffData`), 124-167, 169-329
  (`LinkMaxError`, `GradientResultsSet`) and `include/trajopt_common/collision_types.h`
* `/repo/trajopt_common/src/collision_utils.cpp` 64-221 (`cantorHash`, `removeInvalidContactResults`,
  `getGradient`)
* `/repo/trajopt_ifopt/src/constraints/collision/weighted_average_methods.cpp` 31-107
* `/repo/trajopt_ifopt/src/constraints/collision/discrete_collision_evaluators.cpp` 91-148
* `/repo/trajopt_ifopt/src/constraints/collision/continuous_collision_evaluators.cpp` 97-160, 163-260, 333-470

Not modelled: the contact checker and kinematics (contact results, jacobians and `isActiveLinkName` are inputs),
`addInterpolatedCollisionResults` (tesseract).  `numeric_limits<double>::lowest()` is a parameter `lowest`.
-/

namespace Verif.Collision

universe u v w

/-- `tesseract::collision::ContinuousCollisionType`. -/
inductive CCType
  | none | time0 | time1 | between
  deriving DecidableEq

/-! ### Shape hash -/

/-- `cantorHash`, collision_utils.cpp 64-71.  `none`: the asserted precondition fails, or `shape + subshape + 1`
overflows `int`.  The double arithmetic is exact while the result is below 2^53. -/
def cantorHash (shape subshape : Int) : Option Nat :=
  if shape < 0 then none
  else if subshape < 0 then some shape.toNat
  else if shape + subshape + 1 < 2 ^ 31 then
    some (((shape + subshape) * (shape + subshape + 1) / 2 + subshape).toNat)
  else none

/-! ### Coefficients -/

/-- `class CollisionCoeffData`, collision_types.h 46-121: default, map and set of pairs with zero coefficient. -/
structure CoeffData (Name : Type u) (K : Type v) where
  dflt : K
  table : List ((Name × Name) × K)
  zero : List (Name × Name)

/-- `makeOrderedLinkPair` (tesseract): smaller name first. -/
def orderedPair {Name : Type u} [LinearOrder Name] (a b : Name) : Name × Name := if a ≤ b then (a, b) else (b, a)

/-- Lookup in the map. -/
def tableFind {Name : Type u} [DecidableEq Name] {K : Type v} (t : List ((Name × Name) × K)) (k : Name × Name) : Option K :=
  (t.find? fun e => e.1 = k).map Prod.snd

/-- `insert_or_assign`. -/
def tableAssign {Name : Type u} [DecidableEq Name] {K : Type v} (k : Name × Name) (v : K) :
    List ((Name × Name) × K) → List ((Name × Name) × K)
  | [] => [(k, v)]
  | e :: t => if e.1 = k then (k, v) :: t else e :: tableAssign k v t

section coeff
variable {Name : Type u} [LinearOrder Name] {K : Type v}

/-- Constructor, collision_types.cpp 30-33. -/
def CoeffData.new (d : K) : CoeffData Name K := ⟨d, [], []⟩

/-- `setDefaultCollisionCoeff`, 35-38. -/
def CoeffData.setDefault (c : CoeffData Name K) (d : K) : CoeffData Name K := { c with dflt := d }

/-- `setCollisionCoeff`, 42-52; `isZero` is `almostEqualRelativeAndAbs(., 0.0)` (tesseract). -/
def CoeffData.set (isZero : K → Bool) (c : CoeffData Name K) (a b : Name) (v : K) : CoeffData Name K :=
  let k := orderedPair a b
  { c with
    table := tableAssign k v c.table
    zero := if isZero v then (if k ∈ c.zero then c.zero else k :: c.zero) else c.zero.filter fun q => q ≠ k }

/-- `getCollisionCoeff`, 54-64. -/
def CoeffData.get (c : CoeffData Name K) (a b : Name) : K := (tableFind c.table (orderedPair a b)).getD c.dflt

end coeff

/-! ### Contact results -/

/-- The part of `tesseract::collision::ContactResult` that is used here. -/
structure Contact (K : Type v) where
  distance : K
  cc : Fin 2 → CCType
  shape : Fin 2 → Int
  subshape : Fin 2 → Int

/-- The lambda of `removeInvalidContactResults`, collision_utils.cpp 79-110: `true` means remove. -/
def isInvalid {K : Type v} [Add K] [LinearOrder K] (margin buffer : K) (fixed0 fixed1 : Bool) (r : Contact K) : Bool :=
  if margin + buffer < r.distance then true
  else if !fixed0 && !fixed1 then false
  else if fixed0 && (decide (r.cc 0 ≠ .none) && decide (r.cc 0 ≠ .time0)) then false
  else if fixed0 && (decide (r.cc 1 ≠ .none) && decide (r.cc 1 ≠ .time0)) then false
  else if fixed1 && (decide (r.cc 0 ≠ .none) && decide (r.cc 0 ≠ .time1)) then false
  else if fixed1 && (decide (r.cc 1 ≠ .none) && decide (r.cc 1 ≠ .time1)) then false
  else true

/-- `removeInvalidContactResults`, 73-114: `std::remove_if` and `erase`. -/
def removeInvalidContactResults {K : Type v} [Add K] [LinearOrder K] (rs : List (Contact K)) (margin buffer : K)
    (fixed0 fixed1 : Bool) : List (Contact K) := rs.filter fun r => !isInvalid margin buffer fixed0 fixed1 r

/-- `struct LinkGradientResults`, collision_types.h (translation vector and jacobian not modelled). -/
structure LinkGrad (ι : Type u) (K : Type v) where
  has : Bool
  gradient : ι → K
  scale : K
  cc : CCType

/-- `struct GradientResults`. -/
structure GradRes (ι : Type u) (K : Type v) where
  grads : Fin 2 → LinkGrad ι K
  ccGrads : Fin 2 → LinkGrad ι K
  error : K
  errorBuf : K

/-- `struct LinkMaxError`; index 0 excludes values at T1, index 1 values at T0. -/
structure LinkMax (K : Type v) where
  has : Fin 2 → Bool
  err : Fin 2 → K
  buf : Fin 2 → K

/-- `struct GradientResultsSet`. -/
structure GSet (Name : Type w) (ι : Type u) (K : Type v) where
  key : Name × Name
  shapeKey : Nat × Nat
  coeff : K
  maxError : Fin 2 → LinkMax K
  results : List (GradRes ι K)

/-- A fresh `LinkMaxError`. -/
def LinkMax.new {K : Type v} (lowest : K) : LinkMax K := ⟨fun _ => false, fun _ => lowest, fun _ => lowest⟩

/-- A freshly emplaced set. -/
def GSet.new {Name : Type w} {ι : Type u} {K : Type v} (lowest : K) (key : Name × Name) (shapeKey : Nat × Nat) (coeff : K) :
    GSet Name ι K := ⟨key, shapeKey, coeff, fun _ => LinkMax.new lowest, []⟩

section sets
variable {Name : Type w} {ι : Type u} {K : Type v} [LinearOrder K]

/-- Update of one slot: `has_error = true; error = std::max(...)`. -/
def LinkMax.bump (m : LinkMax K) (k : Fin 2) (e b : K) : LinkMax K :=
  { has := Function.update m.has k true
    err := Function.update m.err k (max (m.err k) e)
    buf := Function.update m.buf k (max (m.buf k) b) }

/-- Body of the loop of `GradientResultsSet::add` for link `i`, collision_types.cpp 171-194. -/
def addLink (r : GradRes ι K) (i : Fin 2) (m : LinkMax K) : LinkMax K :=
  if !(r.grads i).has then m
  else
    let m := if (r.grads i).cc ≠ .time1 then m.bump 0 r.error r.errorBuf else m
    if (r.grads i).cc ≠ .time0 then m.bump 1 r.error r.errorBuf else m

/-- `GradientResultsSet::add`, 169-197. -/
def GSet.add (g : GSet Name ι K) (r : GradRes ι K) : GSet Name ι K :=
  { g with maxError := fun i => addLink r i (g.maxError i), results := g.results ++ [r] }

/-- The scan used by every `getMaxError*`: strict comparison starting at `lowest`; `none` is the exception. -/
def scanMax (lowest : K) (cands : List (Bool × K)) : Option K :=
  let s := cands.foldl (fun s c => if c.1 && decide (s.1 < c.2) then (c.2, true) else s) (lowest, false)
  if s.2 then some s.1 else none

/-- `getMaxError`, 199-223. -/
def GSet.getMaxError (lowest : K) (g : GSet Name ι K) : Option K :=
  scanMax lowest [((g.maxError 0).has 0, (g.maxError 0).err 0), ((g.maxError 0).has 1, (g.maxError 0).err 1),
    ((g.maxError 1).has 0, (g.maxError 1).err 0), ((g.maxError 1).has 1, (g.maxError 1).err 1)]
/-- `getMaxErrorT0` (`k = 0`), 225-243; `getMaxErrorT1` (`k = 1`), 245-263. -/
def GSet.getMaxErrorT (lowest : K) (k : Fin 2) (g : GSet Name ι K) : Option K :=
  scanMax lowest [((g.maxError 0).has k, (g.maxError 0).err k), ((g.maxError 1).has k, (g.maxError 1).err k)]
/-- `getMaxErrorWithBuffer`, 265-289. -/
def GSet.getMaxErrorWithBuffer (lowest : K) (g : GSet Name ι K) : Option K :=
  scanMax lowest [((g.maxError 0).has 0, (g.maxError 0).buf 0), ((g.maxError 0).has 1, (g.maxError 0).buf 1),
    ((g.maxError 1).has 0, (g.maxError 1).buf 0), ((g.maxError 1).has 1, (g.maxError 1).buf 1)]
/-- `getMaxErrorWithBufferT0`, 291-309; `getMaxErrorWithBufferT1`, 311-329. -/
def GSet.getMaxErrorWithBufferT (lowest : K) (k : Fin 2) (g : GSet Name ι K) : Option K :=
  scanMax lowest [((g.maxError 0).has k, (g.maxError 0).buf k), ((g.maxError 1).has k, (g.maxError 1).buf k)]

/-- `LinkMaxError::getMaxError`, 124-136. -/
def LinkMax.getMaxError (m : LinkMax K) : Option K :=
  if m.has 0 && m.has 1 then some (max (m.err 0) (m.err 1))
  else if m.has 0 then some (m.err 0)
  else if m.has 1 then some (m.err 1)
  else none

/-- `LinkMaxError::getMaxErrorWithBuffer`, 155-167. -/
def LinkMax.getMaxErrorWithBuffer (m : LinkMax K) : Option K :=
  if m.has 0 && m.has 1 then some (max (m.buf 0) (m.buf 1))
  else if m.has 0 then some (m.buf 0)
  else if m.has 1 then some (m.buf 1)
  else none

end sets

/-! ### Gradients -/

section gradient
variable {ι : Type u} {K : Type v} [Field K]

/-- `calcGradient`, collision_utils.cpp 116-173, with the contracted gradient as input. -/
def calcGradient (c : Contact K) (ccTime : Fin 2 → K) (grad : Fin 2 → Bool → ι → K) (i : Fin 2) (isTimestep1 : Bool) :
    LinkGrad ι K :=
  if c.cc i ≠ .none then ⟨true, grad i isTimestep1, if isTimestep1 then ccTime i else 1 - ccTime i, c.cc i⟩
  else ⟨true, grad i isTimestep1, 1, .none⟩

/-- A cleared `LinkGradientResults`. -/
def LinkGrad.empty : LinkGrad ι K := ⟨false, fun _ => 0, 1, .none⟩

/-- `getGradient` for continuous contacts, 192-221. -/
def getGradient2 (c : Contact K) (ccTime : Fin 2 → K) (grad : Fin 2 → Bool → ι → K) (active : Fin 2 → Bool)
    (margin buffer : K) : GradRes ι K :=
  { grads := fun i => if active i then calcGradient c ccTime grad i false else LinkGrad.empty
    ccGrads := fun i => if active i then calcGradient c ccTime grad i true else LinkGrad.empty
    error := margin - c.distance
    errorBuf := margin + buffer - c.distance }

/-- `getGradient` for discrete contacts, 175-190 (`cc_type` of a discrete contact is `CCType_None`). -/
def getGradient1 (c : Contact K) (ccTime : Fin 2 → K) (grad : Fin 2 → Bool → ι → K) (active : Fin 2 → Bool)
    (margin buffer : K) : GradRes ι K :=
  { grads := fun i => if active i then calcGradient c ccTime grad i false else LinkGrad.empty
    ccGrads := fun _ => LinkGrad.empty
    error := margin - c.distance
    errorBuf := margin + buffer - c.distance }

variable [LinearOrder K] {Name : Type w}

/-- State of the averaging loops: total weight, gradient, count. -/
structure AvgState (ι : Type u) (K : Type v) where
  total : K
  vec : ι → K
  cnt : Nat

/-- Body of the inner loop, weighted_average_methods.cpp 43-61 (T0) / 82-100 (T1), for one link.
`none`: division by zero. -/
def avgLink (g : GSet Name ι K) (k : Fin 2) (maxBuf : K) (r : GradRes ι K) (s : AvgState ι K) (i : Fin 2) :
    Option (AvgState ι K) :=
  let lg := if k = 0 then r.grads i else r.ccGrads i
  if lg.has && decide (lg.cc ≠ if k = 0 then CCType.time1 else CCType.time0) then
    if 0 < (g.maxError i).buf k then
      if maxBuf = 0 then none
      else
        let w := max r.errorBuf 0 / maxBuf
        some ⟨s.total + w, fun j => s.vec j + w * (lg.scale * lg.gradient j), s.cnt + 1⟩
    else some s
  else some s

/-- The two loops. -/
def avgLoop (g : GSet Name ι K) (k : Fin 2) (maxBuf : K) : Option (AvgState ι K) :=
  g.results.foldlM (fun s r => match avgLink g k maxBuf r s 0 with
    | none => none
    | some s => avgLink g k maxBuf r s 1) ⟨0, fun _ => 0, 0⟩

/-- `getWeightedAvgGradientT0` (`k = 0`), 31-68, and `getWeightedAvgGradientT1` (`k = 1`), 70-107. -/
def weightedAvg (g : GSet Name ι K) (k : Fin 2) (maxBuf : K) : Option (ι → K) :=
  if g.results = [] then some fun _ => 0
  else match avgLoop g k maxBuf with
    | none => none
    | some s =>
      if s.cnt = 0 then some s.vec
      else if s.total = 0 then none
      else some fun j => 1 / s.total * s.vec j

end gradient

/-! ### Grouping and sorting -/

section group
variable {Name : Type w} {ι : Type u} {K : Type v} [LinearOrder K]

/-- Order of `std::pair<size_t, size_t>`. -/
def keyLt (a b : Nat × Nat) : Bool := decide (a.1 < b.1) || (decide (a.1 = b.1) && decide (a.2 < b.2))

/-- `shape_grs.try_emplace(shape_key)` followed by `grs.add(...)`, discrete_collision_evaluators.cpp 117-132. -/
def groupInsert (fresh : Nat × Nat → GSet Name ι K) (k : Nat × Nat) (r : GradRes ι K) :
    List (GSet Name ι K) → List (GSet Name ι K)
  | [] => [(fresh k).add r]
  | g :: gs => if g.shapeKey = k then g.add r :: gs
      else if keyLt k g.shapeKey then (fresh k).add r :: g :: gs
      else g :: groupInsert fresh k r gs

/-- One entry of the contact map: link pair and its contacts with their gradients. -/
structure PairContacts (Name : Type w) (ι : Type u) (K : Type v) where
  key : Name × Name
  contacts : List (Contact K × GradRes ι K)

/-- The two hashes of a contact. -/
def shapeKey (c : Contact K) : Option (Nat × Nat) :=
  match cantorHash (c.shape 0) (c.subshape 0), cantorHash (c.shape 1) (c.subshape 1) with
  | some a, some b => some (a, b)
  | _, _ => none

/-- The loop over the contacts of one pair, 103-138. -/
def groupPair (lowest : K) (coeff : Name × Name → K) (p : PairContacts Name ι K) : Option (List (GSet Name ι K)) :=
  p.contacts.foldlM (fun gs c => match shapeKey c.1 with
    | none => none
    | some k => some (groupInsert (fun k => GSet.new lowest p.key k (coeff p.key)) k c.2 gs)) []

/-- All gradient result sets before sorting: discrete 100-138, continuous 115-148. -/
def groupAll (lowest : K) (coeff : Name × Name → K) (ps : List (PairContacts Name ι K)) :
    Option (List (GSet Name ι K)) :=
  match ps.mapM (groupPair lowest coeff) with
  | none => none
  | some gs => some gs.flatten

/-- Comparison of `std::array<double, 2>` with `>`: lexicographic. -/
def arrayGt (a b : Fin 2 → K) : Bool := decide (b 0 < a 0) || (decide (b 0 = a 0) && decide (b 1 < a 1))

/-- The comparator of the discrete evaluator, 143-146. -/
def discreteCmp (a b : GSet Name ι K) : Bool := arrayGt (a.maxError 0).err (b.maxError 0).err

/-- The measure used by the comparator of the LVS evaluators, continuous 152-158. -/
def continuousMeasure (lowest : K) (fixed0 fixed1 : Bool) (g : GSet Name ι K) : Option K :=
  if !fixed0 && !fixed1 then g.getMaxErrorWithBuffer lowest
  else if !fixed0 then g.getMaxErrorWithBufferT lowest 0
  else g.getMaxErrorWithBufferT lowest 1

/-- The constraint uses the first `min(max_allowed, size)` sets; sorting happens only above the limit.
`sort` is `std::sort` with the evaluator's comparator. -/
def keptSets (sort : List (GSet Name ι K) → List (GSet Name ι K)) (maxAllowed : Nat) (gs : List (GSet Name ι K)) :
    List (GSet Name ι K) × List (GSet Name ι K) :=
  let gs := if maxAllowed < gs.length then sort gs else gs
  (gs.take maxAllowed, gs.drop maxAllowed)

/-- `DiscreteCollisionConstraint::getValues`, discrete_collision_constraint.cpp 90-108, for the sets of the
cache entry and a constraint with `rows` rows. -/
def discreteValues [Neg K] (lowest buffer : K) (rows : Nat) (gs : List (GSet Name ι K)) : Option (List K) :=
  match (gs.take rows).mapM (fun g => g.getMaxErrorT lowest 0) with
  | none => none
  | some vs => some (vs ++ List.replicate (rows - vs.length) (-buffer))

end group

/-! ### Longest valid segment -/

section lvs
variable {ι : Type u} {K : Type v} [Field K] [LinearOrder K] [IsStrictOrderedRing K] [FloorSemiring K]

/-- Number of states, continuous_collision_evaluators.cpp 205-213 and 440-445; with `dist <= lvs` (or single
timestep mode) only the two given states are used. -/
def lvsCount (dist lvs : K) : Nat := if lvs < dist then ⌈dist / lvs⌉₊ + 1 else 2

/-- Row `i` of the interpolated trajectory: `LinSpaced(cnt, q0, q1)` for every joint (Eigen makes the last entry
exactly `q1`). -/
def lvsSample (cnt : Nat) (q0 q1 : ι → K) (i : Nat) : ι → K := fun j =>
  if i + 1 = cnt then q1 j else q0 j + i * ((q1 j - q0 j) / (cnt - 1 : Nat))

end lvs

end Verif.Collision
