import Verif.Model.Construct
import Verif.Model.Legacy

/-!
# The constructed problem seen by the optimiser

`evaluateConstraintViols` (optimizers.cpp) asks every constraint for `Constraint::violation` (modeling.cpp 169), the sum of its
violations.  Here that number is defined for what the joint terms add to a problem; the optimiser hands over the whole vector of
variables, `x` below is its reading by variable index.
-/

namespace Verif.EndToEnd

open Verif.Construct Verif.Sco Verif.Traj

variable {K : Type} [Field K] [LinearOrder K]

/-- modeling.cpp 150-169 `Constraint::violation` of a constraint added by a joint term; costs have none.
`none`: the evaluation accesses a matrix outside its size. -/
def violation (k : Kind) (x : Nat → K) : JointAdded K → Option K
  | .eqCnt t => (t.eqCntValue k x).map fun vals => (eqViolations vals).sum
  | .ineqCnt t => (t.ineqCntValue k x).map fun vals => (ineqViolations vals).sum
  | .timeCnt _ eq f => some (f.cntViolation eq x)
  | _ => some 0

/-- `Cost::value` of a cost added by a joint term, as asked for by `evaluateCosts`, optimizers.cpp 176-183 (trajectory_costs.cpp, see
`TrajCosts`; modeling_utils.cpp for terms with time); constraints have none. -/
def cost (k : Kind) (x : Nat → K) : JointAdded K → Option K
  | .eqCost t => t.eqCostValue k x
  | .ineqCost t => t.ineqCostValue k x
  | .timeCost _ pen f => some (f.costValue pen x)
  | _ => some 0

/-- `ConvexConstraints::violation` (modeling.cpp 132-142) of the rows that `convex()` of a joint constraint without time gives to the QP: these
rows are the same at every point. -/
def linear (k : Kind) (x : Nat → K) : JointAdded K → K
  | .eqCnt t => (t.eqCntConvex k).violation x
  | .ineqCnt t => (t.ineqCntConvex k).violation x
  | _ => 0

/-- The variables of the problem as the terms read them. -/
def read (x : List K) (i : Nat) : K := x.getD i 0

end Verif.EndToEnd
