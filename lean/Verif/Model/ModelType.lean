/-!
Model of `sco::ModelType`, `availableSolvers` and `createModel`
(`trajopt_sco/include/trajopt_sco/solver_interface.hpp` 227-262, `trajopt_sco/src/solver_interface.cpp` 14, 214-365).
-/

namespace Verif.ModelType

/-- The enumerators of `ModelType::Value`, solver_interface.hpp 230-237. -/
inductive Solver | gurobi | osqp | qpoases | bpmpd | autoSolver
  deriving DecidableEq, Repr

/-- Their numeric values, in declaration order. -/
def Solver.value : Solver → Nat
  | .gurobi => 0
  | .osqp => 1
  | .qpoases => 2
  | .bpmpd => 3
  | .autoSolver => 4

/-- `ModelType::MODEL_NAMES_`, solver_interface.cpp 14. -/
def modelNames : List String := ["GUROBI", "BPMPD", "OSQP", "QPOASES", "AUTO_SOLVER"]

/-- Outcome of a C++ call. -/
inductive Out (α : Type)
  | ok (a : α)
  | throws
  | undefined
  deriving DecidableEq, Repr

/-- `ModelType::ModelType(const int&)`, 229: the underlying type is `uint8_t`. -/
def ofInt (v : Int) : Nat := (v % 256).toNat

/-- `ModelType::ModelType(const std::string&)`, 230-241: the loop over `MODEL_NAMES_`. -/
def ofStringAux (s : String) : Nat → List String → Out Nat
  | _, [] => .throws
  | i, n :: ns => if s = n then .ok i else ofStringAux s (i + 1) ns

def ofString (s : String) : Out Nat := ofStringAux s 0 modelNames

/-- `operator<<`, 214-225: throws only for values above the number of names; the value equal to it reads past the end. -/
def toStr (v : Nat) : Out String :=
  if v > modelNames.length then .throws
  else match modelNames[v]? with
    | some n => .ok n
    | none => .undefined

/-- `availableSolvers`, 261-287, for a build that has the solvers in `has`. -/
def availableSolvers (has : Solver → Bool) : List Nat :=
  (([.gurobi, .osqp, .qpoases, .bpmpd] : List Solver).filter has).map Solver.value

/-- `createModel`, 289-365: `env` is the environment variable `TRAJOPT_CONVEX_SOLVER`; the result is the solver whose
model is created. -/
def createModel (has : Solver → Bool) (env : Option String) (modelType : Nat) : Out Solver :=
  let solver : Out Nat :=
    if modelType = Solver.autoSolver.value then
      match env with
      | some e =>
        if e ≠ "AUTO_SOLVER" then ofString e
        else match availableSolvers has with
          | s :: _ => .ok s
          | [] => .undefined
      | none => match availableSolvers has with
          | s :: _ => .ok s
          | [] => .undefined
    else .ok modelType
  match solver with
  | .throws => .throws
  | .undefined => .undefined
  | .ok v =>
    if v = Solver.gurobi.value then (if has .gurobi then .ok .gurobi else .throws)
    else if v = Solver.osqp.value then (if has .osqp then .ok .osqp else .throws)
    else if v = Solver.bpmpd.value then (if has .bpmpd then .ok .bpmpd else .throws)
    else if v = Solver.qpoases.value then (if has .qpoases then .ok .qpoases else .throws)
    else .throws

end Verif.ModelType
