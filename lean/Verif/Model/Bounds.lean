import Mathlib.Algebra.Order.Field.Basic
import Mathlib.Algebra.Order.Group.Unbundled.Abs

/-!
Model of `trajopt_ifopt::Bounds` (`trajopt_ifopt/src/core/bounds.cpp`), of the bound utilities of
`trajopt_ifopt/src/utils/ifopt_utils.cpp`, and of the bound handling of the legacy optimizer
(`OptProb::getClosestFeasiblePoint`, `BasicTrustRegionSQP::setTrustBoxConstraints`).

`Ext K` is a number or plus/minus infinity.  NaN is not modelled.
-/

namespace Verif.Bounds

universe u

/-- A double that may be infinite. -/
inductive Ext (K : Type u)
  | negInf
  | fin (a : K)
  | posInf
  deriving DecidableEq

/-- Lower bound: a number, or `none` for minus infinity. -/
abbrev Lo (K : Type u) := Option K

/-- Upper bound: a number, or `none` for plus infinity. -/
abbrev Hi (K : Type u) := Option K

section
variable {K : Type u} [Field K] [LinearOrder K]

/-- `isFinite`, bounds.cpp 34. -/
def isFinite : Ext K → Bool
  | .negInf => false
  | .posInf => false
  | .fin a => decide (a < 10 ^ 20) && decide (-(10 ^ 20) < a)

/-- adding a finite scalar to a double that may be infinite -/
def addScalar : Ext K → K → Ext K
  | .negInf, _ => .negInf
  | .posInf, _ => .posInf
  | .fin a, d => .fin (a + d)

/-- `BoundsType`, bounds.h. -/
inductive BType | unbounded | equality | rangeBound | lowerBound | upperBound
  deriving DecidableEq, Repr

/-- `std::abs(upper_ - lower_) < 1e-8`; only evaluated when both are finite (bounds.cpp 82). -/
def narrow : Ext K → Ext K → Bool
  | .fin l, .fin u => decide (|u - l| < 1 / 10 ^ 8)
  | _, _ => false

/-- `Bounds::updateType`, bounds.cpp 77-85. -/
def typeOf (l u : Ext K) : BType :=
  if !isFinite l && !isFinite u then .unbounded
  else if isFinite l && isFinite u then (if narrow l u then .equality else .rangeBound)
  else if isFinite l then .lowerBound else .upperBound

/-- Class `Bounds`, bounds.h 94-194: the two sides and the cached type. -/
structure Bounds (K : Type u) where
  lower : Ext K
  upper : Ext K
  type : BType

/-- Constructor, bounds.cpp 36. -/
def Bounds.mk' (l u : Ext K) : Bounds K := ⟨l, u, typeOf l u⟩

/-- `Bounds::set`, 38-43. -/
def Bounds.set (_ : Bounds K) (l u : Ext K) : Bounds K := ⟨l, u, typeOf l u⟩
/-- `Bounds::setLower`, 45-49. -/
def Bounds.setLower (b : Bounds K) (l : Ext K) : Bounds K := ⟨l, b.upper, typeOf l b.upper⟩
/-- `Bounds::setUpper`, 53-57. -/
def Bounds.setUpper (b : Bounds K) (u : Ext K) : Bounds K := ⟨b.lower, u, typeOf b.lower u⟩
/-- `Bounds::operator+=`, 63-68. -/
def Bounds.add (b : Bounds K) (d : K) : Bounds K :=
  let l := addScalar b.lower d
  let u := addScalar b.upper d
  ⟨l, u, typeOf l u⟩
/-- `Bounds::operator-=`, 70-75. -/
def Bounds.sub (b : Bounds K) (d : K) : Bounds K :=
  let l := addScalar b.lower (-d)
  let u := addScalar b.upper (-d)
  ⟨l, u, typeOf l u⟩

/-- Mutating operations of the class. -/
inductive Op (K : Type u)
  | set (l u : Ext K)
  | setLower (l : Ext K)
  | setUpper (u : Ext K)
  | add (d : K)
  | sub (d : K)

def Bounds.apply (b : Bounds K) : Op K → Bounds K
  | .set l u => b.set l u
  | .setLower l => b.setLower l
  | .setUpper u => b.setUpper u
  | .add d => b.add d
  | .sub d => b.sub d

/-- The five static/default values of bounds.h 106, 197-206. -/
def default0 : Bounds K := Bounds.mk' (.fin 0) (.fin 0)
def noBound : Bounds K := Bounds.mk' .negInf .posInf
def greaterZero : Bounds K := Bounds.mk' (.fin 0) .posInf
def smallerZero : Bounds K := Bounds.mk' .negInf (.fin 0)

/-! ### Bound utilities.  Lower bounds of `+inf` and upper bounds of `-inf` are not modelled. -/

/-- `std::max(x, lower)` with a lower bound that may be minus infinity -/
def maxLo (x : K) : Lo K → K
  | none => x
  | some l => max x l

/-- `std::min(x, upper)` with an upper bound that may be plus infinity -/
def minHi (x : K) : Hi K → K
  | none => x
  | some u => min x u

/-- `x < lb` -/
def ltLo (x : K) : Lo K → Bool
  | none => false
  | some l => decide (x < l)

/-- `x > ub` -/
def gtHi (x : K) : Hi K → Bool
  | none => false
  | some u => decide (u < x)

/-- `input.cwiseMax(lower).cwiseMin(upper)` for one component, ifopt_utils.cpp 94. -/
def clampB (x : K) (b : Lo K × Hi K) : K := minHi (maxLo x b.1) b.2

/-- One component of `calcBoundsErrors`, 105-119. -/
def errB (x : K) (b : Lo K × Hi K) : K :=
  match b.1, b.2 with
  | some l, some u => if x < l then x - l else if u < x then x - u else 0
  | some l, none => if x < l then x - l else 0
  | none, some u => if u < x then x - u else 0
  | none, none => 0

/-- One component of `calcBoundsViolations`, 130-144. -/
def violB (x : K) (b : Lo K × Hi K) : K :=
  match b.1, b.2 with
  | some l, some u => if x < l then |x - l| else if u < x then |x - u| else 0
  | some l, none => if x < l then |x - l| else 0
  | none, some u => if u < x then |x - u| else 0
  | none, none => 0

/-- `getClosestValidPoint`, 81-95 (equal lengths are asserted). -/
def getClosestValidPoint (x : List K) (bs : List (Lo K × Hi K)) : List K := List.zipWith clampB x bs
/-- `calcBoundsErrors`, 97-120. -/
def calcBoundsErrors (x : List K) (bs : List (Lo K × Hi K)) : List K := List.zipWith errB x bs
/-- `calcBoundsViolations`, 122-145. -/
def calcBoundsViolations (x : List K) (bs : List (Lo K × Hi K)) : List K := List.zipWith violB x bs

/-! ### interpolate, ifopt_utils.cpp 59-79 -/

/-- the loop body repeated `n` times: push `running`, then add `delta` -/
def interpLoop (delta : List K) : ℕ → List K → List (List K)
  | 0, _ => []
  | n + 1, running => running :: interpLoop delta n (List.zipWith (· + ·) running delta)

/-- `interpolate`; `none` models the failed asserts on size and step count. -/
def interpolate (start stop : List K) (steps : ℕ) : Option (List (List K)) :=
  if start.length = stop.length ∧ 2 ≤ steps then
    some (interpLoop (List.zipWith (fun e s => (e - s) / ((steps - 1 : ℕ) : K)) stop start) steps start)
  else none

/-! ### Legacy optimizer -/

/-- `std::clamp(x, lb, ub)`; the standard leaves `ub < lb` undefined (`none`). -/
def stdClamp (x : K) (lb : Lo K) (ub : Hi K) : Option K :=
  if (match lb, ub with | some l, some u => decide (u < l) | _, _ => false) then none
  else if ltLo x lb then lb
  else if gtHi x ub then ub
  else some x

/-- One variable of `BasicTrustRegionSQP::setTrustBoxConstraints`, optimizers.cpp 151-170: the interval given to the
QP; `none` for the undefined clamp. -/
def trustInterval (box x : K) (lb : Lo K) (ub : Hi K) : Option (K × K) :=
  (stdClamp x lb ub).map fun xi => (maxLo (xi - box) lb, minHi (xi + box) ub)

/-- One component of `OptProb::getClosestFeasiblePoint`, modeling.cpp 260-271, written as in the code: the first
assignment is overwritten by the second. -/
def closestFeasible (delta x : K) (lb : Lo K) (ub : Hi K) : K :=
  let _y := maxLo x (lb.map (· + delta))
  let y := minHi x (ub.map (· - delta))
  y

/-- `OptProb::getClosestFeasiblePoint` on the whole vector. -/
def getClosestFeasiblePoint (delta : K) (x : List K) (bs : List (Lo K × Hi K)) : List K :=
  List.zipWith (fun x b => closestFeasible delta x b.1 b.2) x bs

/-- `OptProb::getCentralFeasiblePoint`, modeling.cpp 251-258, for finite bounds (with an infinite bound the centre is
infinite or NaN, not modelled). -/
def getCentralFeasiblePoint (delta : K) (bs : List (K × K)) : List K :=
  getClosestFeasiblePoint delta (bs.map fun b => (b.1 + b.2) / 2) (bs.map fun b => (some b.1, some b.2))

end
end Verif.Bounds
