import Verif.Model.IfoptPlan
import Verif.Model.Cartesian
import Verif.Model.CollisionCons

/-!
A joint trajectory problem (`Verif.Model.IfoptPlan`) with further constraint sets: `CartPosConstraint`
(trajopt_ifopt/src/constraints/cartesian_position_constraint.cpp) and the collision constraints (`discrete_collision_constraint.cpp`,
`continuous_collision_constraint.cpp`), as set up in /repo/trajopt_optimizers/trajopt_sqp/test/cart_position_optimization_unit.cpp 100-131
and cast_cost_unit.cpp 105-180.

Simplifications: the joint terms are added first.  A collision set answers as a new object does after one `update()`; theorems say when this is
what an object with any history answers.  The contact checker and the kinematics are functions of the joint positions.
-/

namespace Verif.IfoptPlan

open Verif.Bounds
open Verif.VarSets (Var VarSpec NodesVariables)
open Verif.QpProblem (Snap Comp Penalty State)
open Verif.Cartesian (Arm Poses CartPos)
open Verif.Collision (RawMap Evaluator GSet Data Con DynCon Jac calcCollisions calcCollisionData zeros1 zeros2)

universe u v w

/-- Construction of a constraint set on the variables; `none`: the constructor throws. -/
abbrev Maker (K : Type u) := NodesVariables K → Option (Comp K)

/-- A joint trajectory problem with further costs and constraints. -/
structure Scene (K : Type u) where
  plan : Plan K
  others : List (Maker K × Option Penalty)

section
variable {K : Type u} [Field K] [LinearOrder K]

/-- Adding a further cost or constraint. -/
def addOther (nv : NodesVariables K) (s : State K) (a : Maker K × Option Penalty) : Option (State K) :=
  match a.1 nv with
  | none => none
  | some c => match a.2 with
    | some p => s.addCostSet c p
    | none => some (s.addConstraintSet c)

/-- The problem before `setup`. -/
def Scene.problem (S : Scene K) : Option (NodesVariables K × State K) :=
  match S.plan.problem with
  | none => none
  | some (nv, s) => (S.others.foldlM (addOther nv) s).map fun s => (nv, s)

/-- The variable of step `s`. -/
def stepVar (pos : List Nat) (nv : NodesVariables K) (s : Nat) : Option (Var K) := (pos[s]?).bind fun p => nv.vars[p]?

/-- `position_var_->value()` after `setVariables` with the vector `x`, for a group with `n` joints. -/
def position {n : Nat} (pos : List Nat) (nv : NodesVariables K) (s : Nat) (x : Nat → K) : Option (Fin n → K) :=
  match nv.setVariables ((List.range nv.nDim).map x) with
  | none => none
  | some nv' => match stepVar pos nv' s with
    | none => none
    | some v => if v.values.length = n then some fun j => v.values.getD j.val 0 else none

/-- The answer of an object that failed; excluded in the theorems. -/
def failed : Snap K := ⟨[], ⟨0, []⟩, [], [], 0⟩

/-! ### Cartesian poses -/

/-- `CartPosConstraint` on the variable of step `s`: constructor 45-240, `getValues`, `getCoefficients`, `getBounds`, `getJacobian` 275-384. -/
def cartesian {Name : Type v} {T : Type w} [Mul T] {n : Nat} (isZero : K → Bool) (A : Poses T K) (arm : Arm Name T K n) (pos : List Nat)
    (s : Nat) (coeffs : List K) (bounds : List (Bounds K)) (source target : Name) (so dst : T) (split : Bool) : Maker K := fun nv =>
  match stepVar pos nv s with
  | none => none
  | some v =>
    if v.values.length ≠ n then none
    else match CartPos.new isZero arm v.index coeffs bounds source target so dst split with
      | none => none
      | some c => some ⟨false, fun x _ =>
          match position pos nv s x with
          | none => failed
          | some q => match c.jacobian A nv.nDim q with
            | none => failed
            | some J => ⟨c.values A q, ⟨nv.nDim, J⟩, c.coeffs, c.bounds, (c.values A q).length⟩⟩

/-! ### Collisions -/

/-- The compressed rows of a Jacobian under construction. -/
def rowsOf (J : Jac K) : List (List (Nat × K)) :=
  (List.range J.rows).map fun i => ((List.range J.cols).filter fun j => J.stored i j).map fun j => (j, J.val i j)

section
variable {Name : Type} [LinearOrder Name] {n : Nat}

/-- What a fixed-size collision constraint answers: values, Jacobian, coefficients, bounds and number of rows. -/
def conSnap (values : Con Nat Name n K → Option (List K)) (jac : Con Nat Name n K → Option (Jac K)) (t : Con Nat Name n K) : Option (Snap K) :=
  match values t, jac t with
  | some vs, some J => some ⟨vs, ⟨J.cols, rowsOf J⟩, t.coeffs, t.bounds, t.rows⟩
  | _, _ => none

/-- The same for a collision constraint with one row per contact. -/
def dynSnap (jac : DynCon Nat Name n K → Option (Jac K)) (t : DynCon Nat Name n K) : Option (Snap K) :=
  match jac t with
  | some J => some ⟨t.values, ⟨J.cols, rowsOf J⟩, t.coeffs, t.bounds, t.rows⟩
  | none => none

/-- The contact test of step `s` on the variables `x`, with `calcCollisions`. -/
def testAt (ev : Evaluator Name K) (sort : List (GSet Name (Fin n) K) → List (GSet Name (Fin n) K)) (tests : (Fin n → K) → RawMap Name (Fin n) K)
    (pos : List Nat) (nv : NodesVariables K) (s rows : Nat) (x : Nat → K) : Option (Data Name (Fin n) K) :=
  match position pos nv s x with
  | none => none
  | some q => calcCollisions ev sort rows (tests q)

/-- The contact test of the motion from step `s` to step `s'`, with `calcCollisionData`. -/
def testBetween (ev : Evaluator Name K) (sort : List (GSet Name (Fin n) K) → List (GSet Name (Fin n) K))
    (tests : (Fin n → K) → (Fin n → K) → RawMap Name (Fin n) K) (pos : List Nat) (nv : NodesVariables K) (s s' : Nat) (fixed0 fixed1 : Bool)
    (rows : Nat) (x : Nat → K) : Option (Data Name (Fin n) K) :=
  match position pos nv s x, position pos nv s' x with
  | some q, some q' => calcCollisionData ev sort fixed0 fixed1 rows (tests q q')
  | _, _ => none

/-- `DiscreteCollisionConstraint` on the variable of step `s` with at most `m` rows. -/
def discreteSet (hash : (Nat → K) → Nat) (ev : Evaluator Name K) (sort : List (GSet Name (Fin n) K) → List (GSet Name (Fin n) K))
    (tests : (Fin n → K) → RawMap Name (Fin n) K) (pos : List Nat) (s : Nat) (k0 : Nat) (m : Int) (sparsity : Bool) : Maker K := fun nv =>
  match stepVar pos nv s, (Con.new k0 m sparsity : Option (Con Nat Name n K)) with
  | some v, some c => some ⟨false, fun _ u =>
      ((c.update hash (testAt ev sort tests pos nv s m.toNat) (zeros1 m.toNat n v.index) u).bind
        (conSnap (Con.discreteValues ev) (Con.discreteJacobian ev nv.nDim v.index))).getD failed⟩
  | _, _ => none

/-- `ContinuousCollisionConstraint` on the variables of the steps `s` and `s'` with at most `m` rows. -/
def continuousSet (hash : (Nat → K) → Nat) (ev : Evaluator Name K) (sort : List (GSet Name (Fin n) K) → List (GSet Name (Fin n) K))
    (tests : (Fin n → K) → (Fin n → K) → RawMap Name (Fin n) K) (pos : List Nat) (s s' : Nat) (fixed0 fixed1 : Bool) (k0 : Nat) (m : Int)
    (sparsity : Bool) : Maker K := fun nv =>
  match stepVar pos nv s, stepVar pos nv s', (Con.newContinuous k0 m fixed0 fixed1 sparsity : Option (Con Nat Name n K)) with
  | some v, some v', some c => some ⟨false, fun _ u =>
      ((c.update hash (testBetween ev sort tests pos nv s s' fixed0 fixed1 m.toNat) (zeros2 m.toNat n v.index v'.index) u).bind
        (conSnap (Con.continuousValues ev fixed0 fixed1) (Con.continuousJacobian ev fixed0 fixed1 nv.nDim v.index v'.index))).getD failed⟩
  | _, _, _ => none

/-- `DiscreteCollisionConstraintD` on the variable of step `s`: one row per contact. -/
def discreteDyn (hash : (Nat → K) → Nat) (ev : Evaluator Name K) (sort : List (GSet Name (Fin n) K) → List (GSet Name (Fin n) K))
    (tests : (Fin n → K) → RawMap Name (Fin n) K) (pos : List Nat) (s : Nat) (k0 : Nat) : Maker K := fun nv =>
  match stepVar pos nv s with
  | some v => some ⟨true, fun _ u =>
      (((DynCon.new k0 : DynCon Nat Name n K).update ev hash (testAt ev sort tests pos nv s 0) u).bind
        (dynSnap (DynCon.discreteJacobian nv.nDim v.index))).getD failed⟩
  | none => none

/-- `ContinuousCollisionConstraintD` on the variables of the steps `s` and `s'`: one row per contact. -/
def continuousDyn (hash : (Nat → K) → Nat) (ev : Evaluator Name K) (sort : List (GSet Name (Fin n) K) → List (GSet Name (Fin n) K))
    (tests : (Fin n → K) → (Fin n → K) → RawMap Name (Fin n) K) (pos : List Nat) (s s' : Nat) (fixed0 fixed1 : Bool) (k0 : Nat) : Maker K := fun nv =>
  match stepVar pos nv s, stepVar pos nv s' with
  | some v, some v' => some ⟨true, fun _ u =>
      (((DynCon.new k0 : DynCon Nat Name n K).update ev hash (testBetween ev sort tests pos nv s s' fixed0 fixed1 0) u).bind
        (dynSnap (DynCon.continuousJacobian fixed0 fixed1 nv.nDim v.index v'.index))).getD failed⟩
  | _, _ => none

end
end
end Verif.IfoptPlan
