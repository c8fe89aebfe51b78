import Mathlib.Algebra.Field.Basic
import Mathlib.Algebra.BigOperators.Group.Finset.Basic
import Mathlib.Algebra.BigOperators.Intervals

/-!
# Error functions of the legacy terms with time

Model of the calculators in `trajopt/src/kinematic_terms.cpp` 427-584.  The argument vector has `2 * half` entries:
`half` positions of one joint, then the `half` values `1/dt` of the same steps.  Vectors are functions on the indices.
The assertions that the number of entries is even are the shape of the argument here.
-/

namespace Verif.TimeTerms

variable {K : Type} [Field K]

/-- `jac = Zero(...)` followed by the assignments `jac(i, c) = v` of one row, in order. -/
def assignRow (l : List (Nat × K)) : Nat → K := l.foldl (fun r p => Function.update r p.1 p.2) fun _ => 0

/-- Members of `JointVelErrCalculator` (kinematic_terms.hpp 266-280). -/
structure VelParams (K : Type) where
  target : K
  upper : K
  lower : K

/-- Default constructed `JointVelErrCalculator`. -/
def VelParams.default : VelParams K := ⟨0, 0, 0⟩

/-- kinematic_terms.cpp 433-435: `(x1 - x0) * (1/dt)`, the `1/dt` being the one of the second point. -/
def vel (half : Nat) (x : Nat → K) (i : Nat) : K := (x (1 + i) - x (0 + i)) * x (half + 1 + i)

/-- kinematic_terms.cpp 427-442 `JointVelErrCalculator::operator()`, entry `r` of the `2 * (half - 1)` results. -/
def velErr (p : VelParams K) (half : Nat) (x : Nat → K) (r : Nat) : K :=
  if r < half - 1 then -(p.upper - (vel half x r - p.target)) else p.lower - (vel half x (r - (half - 1)) - p.target)

/-- kinematic_terms.cpp 452-465: row `i` of the top half of the Jacobian. -/
def velJacTop (half : Nat) (x : Nat → K) (i : Nat) : Nat → K :=
  assignRow [(i, -1 * x (i + half + 1)), (i + 1, 1 * x (i + half + 1)), (i + half + 1, x (i + 1) - x i)]

/-- kinematic_terms.cpp 444-470 `JointVelJacCalculator::operator()`. -/
def velJac (half : Nat) (x : Nat → K) (r : Nat) : Nat → K :=
  if r < half - 1 then velJacTop half x r else fun c => -velJacTop half x (r - (half - 1)) c

/-- kinematic_terms.cpp 473-489 `JointAccErrCalculator::operator()`, entry `i` of `half - 2`. -/
def accErr (limit : K) (half : Nat) (x : Nat → K) (i : Nat) : K :=
  2 * (velErr .default half x (1 + i) - velErr .default half x (0 + i)) / (x (half + 1 + i) + x (half + 2 + i)) - limit

/-- kinematic_terms.cpp 491-518 `JointAccJacCalculator::operator()`, row `i`. -/
def accJac (half : Nat) (x : Nat → K) (i : Nat) : Nat → K :=
  let dt1 := i + half + 1
  let dt2 := dt1 + 1
  let total := x dt1 + x dt2
  let vj := velJac half x
  let dv := velErr .default half x (i + 1) - velErr .default half x i
  assignRow [(i, 2 * (vj (i + 1) i - vj i i) / total),
    (i + 1, 2 * (vj (i + 1) (i + 1) - vj i (i + 1)) / total),
    (i + 2, 2 * (vj (i + 1) (i + 2) - vj i (i + 2)) / total),
    (dt1, 2 * ((vj (i + 1) dt1 - vj i dt1) / total - dv / (total * total))),
    (dt2, 2 * ((vj (i + 1) dt2 - vj i dt2) / total - dv / (total * total)))]

/-- kinematic_terms.cpp 521-537 `JointJerkErrCalculator::operator()`, entry `i` of `half - 3`; `acc_calc` is default
constructed. -/
def jerkErr (limit : K) (half : Nat) (x : Nat → K) (i : Nat) : K :=
  3 * (accErr 0 half x (1 + i) - accErr 0 half x (0 + i)) / (x (half + 1 + i) + x (half + 2 + i) + x (half + 3 + i)) - limit

/-- kinematic_terms.cpp 539-570 `JointJerkJacCalculator::operator()`, row `i`. -/
def jerkJac (half : Nat) (x : Nat → K) (i : Nat) : Nat → K :=
  let dt1 := i + half + 1
  let dt2 := dt1 + 1
  let dt3 := dt2 + 1
  let total := x dt1 + x dt2 + x dt3
  let aj := accJac half x
  let da := accErr 0 half x (i + 1) - accErr 0 half x i
  assignRow [(i, 3 * (aj (i + 1) i - aj i i) / total),
    (i + 1, 3 * (aj (i + 1) (i + 1) - aj i (i + 1)) / total),
    (i + 2, 3 * (aj (i + 1) (i + 2) - aj i (i + 2)) / total),
    (i + 3, 3 * (aj (i + 1) (i + 3) - aj i (i + 3)) / total),
    (dt1, 3 * ((aj (i + 1) dt1 - aj i dt1) / total - da / (total * total))),
    (dt2, 3 * ((aj (i + 1) dt2 - aj i dt2) / total - da / (total * total))),
    (dt3, 3 * ((aj (i + 1) dt3 - aj i dt3) / total - da / (total * total)))]

/-- kinematic_terms.cpp 572-577 `TimeCostCalculator::operator()` for `n` values. -/
def timeErr (limit : K) (n : Nat) (x : Nat → K) : K := (∑ i ∈ Finset.range n, (x i)⁻¹) - limit

/-- kinematic_terms.cpp 579-584 `TimeCostJacCalculator::operator()`. -/
def timeJac (x : Nat → K) (c : Nat) : K := -1 * (x c * x c)⁻¹

end Verif.TimeTerms
