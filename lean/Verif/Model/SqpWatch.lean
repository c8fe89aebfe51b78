import Verif.Model.SqpRun

/-!
What the callbacks of `trajopt_sqp::TrustRegionSQPSolver` are given, and the callbacks that come with the library
(/repo/trajopt_optimizers/trajopt_sqp/src/trust_region_sqp_solver.cpp 373-447, src/callbacks/*.cpp).

Simplifications: a `Var` given to `JointStatePlottingCallback` is the position and size of its values in the variables of the
problem; what is drawn is a list of things handed to the plotter; the text `CollisionPlottingCallback` prints is left out.
-/

namespace Verif.SqpRun

open Verif.Sqp (dot)

universe u v

section
variable {K : Type u} {S : Type v} [Field K] [LinearOrder K]

/-- `solveQPProblem`, 380-418: the problem and the results as they are when the callbacks are called (419), if `y` is the answer to
the QP posed by `prob` and `r` are the results before. -/
def callbackArgs (P : QPProblem K S) (prob : S) (r : Results K) (y : List K) : Option (S × Results K) :=
  match P.setVariables y prob with
  | none => none
  | some t =>
    match P.evaluateConvexCosts y t with
    | none => none
    | some cc =>
      if (P.evaluateConvexConstraintViolations y t).length = r.coeffs.length ∧
          (P.getExactConstraintViolations t).length = r.coeffs.length then
        match P.setVariables r.bestVars t with
        | none => none
        | some s => some (s, scored r y cc (P.evaluateConvexConstraintViolations y t) (P.getExactCosts t)
            (P.getExactConstraintViolations t))
      else none

end

/-- What a plotter is asked to show. -/
inductive Drawing (K : Type u)
  | clear
  | wait
  | trajectory (states : List (List K))
  | poseError (cnt : Nat)
  deriving DecidableEq, Repr

/-- The callbacks of the library: `ClearPlotterCallback`, `WaitForInputCallback`, `CollisionPlottingCallback`,
`CartesianErrorPlottingCallback` (with the constraints added to it) and `JointStatePlottingCallback` (with the variables added to it, as
position and size, and whether it has a state solver); `plotter` tells whether the plotter given to the constructor is not null. -/
inductive Callback
  | clearPlotter (plotter : Bool)
  | waitForInput (plotter : Bool)
  | collision
  | cartesianError (plotter : Bool) (cnts : List Nat)
  | jointState (plotter stateSolver : Bool) (vars : List (Nat × Nat))
  deriving DecidableEq, Repr

/-- `addConstraintSet` for one (67-71) and for several (73-78) constraints of cartesian_error_plotter.cpp, `addVariableSet` (52-62) of
joint_state_plotter.cpp: the new ones come last. -/
def Callback.add (c : Callback) (cnts : List Nat) (vars : List (Nat × Nat)) : Callback :=
  match c with
  | .cartesianError p l => .cartesianError p (l ++ cnts)
  | .jointState p s l => .jointState p s (l ++ vars)
  | c => c

/-- `execute` of the callbacks (clear_plotter.cpp 35-39, wait_for_input.cpp 34-38, collision_plotter.cpp 57-61,
cartesian_error_plotter.cpp 42-65 and 80-84, joint_state_plotter.cpp 44-50 and 63-67) with the variables `x` in the problem: what is
drawn and the value returned; `none`: a null pointer is dereferenced. -/
def Callback.execute {K : Type u} (x : List K) : Callback → Option (List (Drawing K) × Bool)
  | .clearPlotter p => if p then some ([.clear], true) else none
  | .waitForInput p => if p then some ([.wait], true) else none
  | .collision => some ([], true)
  | .cartesianError p cnts => some (if p then cnts.map .poseError else [], true)
  | .jointState p s vars =>
    if p then if s then some ([.trajectory (vars.map fun v => (x.drop v.1).take v.2)], true) else none else some ([], true)

/-- `callCallbacks`, 441-447, for callbacks of the library: every callback is called, whatever the earlier ones returned. -/
def executeAll {K : Type u} (x : List K) : List Callback → Option (List (Drawing K) × Bool)
  | [] => some ([], true)
  | c :: cs =>
    match c.execute x with
    | none => none
    | some d =>
      match executeAll x cs with
      | none => none
      | some r => some (d.1 ++ r.1, d.2 && r.2)

end Verif.SqpRun
