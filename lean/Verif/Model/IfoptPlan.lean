import Verif.Model.JointConstraints
import Verif.Model.SqpRun
import Verif.Model.QpProblem

/-!
A joint trajectory problem as users of `trajopt_ifopt` and `trajopt_sqp` set it up (e.g.
/repo/trajopt_optimizers/trajopt_sqp/test/joint_position_optimization_unit.cpp 60-140): nodes with variables, joint constraint objects
reading these variables, a `TrajOptQPProblem` and `setup`.

Constructing a constraint set and asking it for values, Jacobian, coefficients and bounds is one step here (`Term.snap`): the constructors read
the number and sizes of the variables only, which never change.  Exceptions, failed asserts and out-of-range reads are `none`.
-/

namespace Verif.IfoptPlan

open Verif.Bounds
open Verif.VarSets (Var VarSpec NodesVariables)
open Verif.JointConstraints (Diff JointPos newVel newAcc newJerk)
open Verif.QpProblem (Snap Comp Penalty State)

universe u

/-- A joint constraint object: `JointPosConstraint` from a target or from bounds (split into inequalities, the default), `JointVelConstraint`,
`JointAccelConstraint` and `JointJerkConstraint` over all position variables.  `step` chooses a position variable. -/
inductive Term (K : Type u) where
  | target (step : Nat) (target coeffs : List K)
  | limits (step : Nat) (bounds : List (Bounds K)) (coeffs : List K)
  | vel (targets coeffs : List K)
  | acc (targets coeffs : List K)
  | jerk (targets coeffs : List K)

/-- A problem: the variables of every node, which of the variables are positions, and the costs (with a penalty type) and constraints in the
order in which they are added. -/
structure Plan (K : Type u) where
  nodes : List (List (VarSpec K))
  pos : List Nat
  adds : List (Term K × Option Penalty)

section
variable {K : Type u} [Field K] [LinearOrder K]

/-- `getValues`, `getJacobian`, `getCoefficients`, `getBounds` and `update` (constraint_set.h, which returns the number of rows) of a
difference constraint in a problem with `n` variables. -/
def diffSnap (values : Diff K → Option (List K)) (jac : Diff K → Nat → Option (List (List (Nat × K)))) (n : Nat) (c : Diff K) :
    Option (Snap K) :=
  match values c, jac c n with
  | some v, some J => some ⟨v, ⟨n, J⟩, c.coeffs, c.bounds, v.length⟩
  | _, _ => none

/-- The same for a `JointPosConstraint` on the variable `v`. -/
def posSnap (n : Nat) (v : Var K) (c : JointPos K) : Option (Snap K) :=
  match c.getValues v.values, c.getJacobian v.index n with
  | some w, some J => some ⟨w, ⟨n, J⟩, c.coeffs, c.bounds, w.length⟩
  | _, _ => none

/-- What a joint constraint answers when the position variables are `vs`. -/
def Term.snap (n : Nat) (vs : List (Var K)) : Term K → Option (Snap K)
  | .target s t cs =>
    match vs[s]?, JointPos.newTarget t cs with
    | some v, some c => posSnap n v c
    | _, _ => none
  | .limits s bs cs =>
    match vs[s]?, JointPos.newBounds bs cs true with
    | some v, some c => posSnap n v c
    | _, _ => none
  | .vel t cs => (newVel t vs cs).bind (diffSnap Diff.velValues Diff.velJac n)
  | .acc t cs => (newAcc t vs cs).bind (diffSnap Diff.accValues Diff.accJac n)
  | .jerk t cs => (newJerk t vs cs).bind (diffSnap Diff.jerkValues Diff.jerkJac n)

/-- The position variables the user hands to the constraints. -/
def picked (pos : List Nat) (nv : NodesVariables K) : Option (List (Var K)) := pos.mapM fun p => nv.vars[p]?

/-- What the constraint answers after `setVariables` with the vector `x`. -/
def Term.answer (t : Term K) (pos : List Nat) (nv : NodesVariables K) (x : Nat → K) : Option (Snap K) :=
  match nv.setVariables ((List.range nv.nDim).map x) with
  | none => none
  | some nv' => match picked pos nv' with
    | none => none
    | some vs => t.snap nv.nDim vs

/-- The constraint set object; none of these sets is dynamic.  Failures while it is asked later are excluded in the theorems. -/
def Term.comp (t : Term K) (pos : List Nat) (nv : NodesVariables K) : Comp K :=
  ⟨false, fun x _ => (t.answer pos nv x).getD ⟨[], ⟨0, []⟩, [], [], 0⟩⟩

/-- Adding a cost or a constraint; the constructor may throw and `addCostSet` may throw. -/
def add (pos : List Nat) (nv : NodesVariables K) (s : State K) (a : Term K × Option Penalty) : Option (State K) :=
  match a.1.answer pos nv s.x with
  | none => none
  | some _ => match a.2 with
    | some p => s.addCostSet (a.1.comp pos nv) p
    | none => some (s.addConstraintSet (a.1.comp pos nv))

/-- The problem before `setup`: variables from the nodes, then costs and constraints. -/
def Plan.problem (P : Plan K) : Option (NodesVariables K × State K) :=
  match VarSets.build P.nodes with
  | none => none
  | some nv =>
    let s0 : State K := { nVars := nv.nDim, varBounds := nv.bounds, x := fun i => nv.values.getD i 0, upd := fun i => nv.values.getD i 0 }
    (P.adds.foldlM (add P.pos nv) s0).map fun s => (nv, s)

end
end Verif.IfoptPlan
