import Verif.Model.BasicArray
import Verif.Model.VarSets
import Verif.Model.Composite

/-!
Model of the code that hands results to the outside:

* `trajopt/src/file_write_callback.cpp` (`WriteCallback`, `WriteFile`)
* `trajopt/src/plot_callback.cpp` 22-120 (what `PlotCallback` and `PlotProbCallback` give to the plotter)
* `trajopt_ifopt/src/utils/trajopt_utils.cpp` (`toTrajArray`, `toJointTrajectory`)
* `trajopt_ifopt/src/variable_sets/nodes_observer.cpp` and the observer part of `nodes_variables.cpp`
* `trajopt_ifopt/src/core/component.cpp` 57-84, `composite.cpp` 162-171 and `problem.cpp` 142-166 (the printed table)

Text is a list of characters.  How the stream prints a number, forward kinematics and the plotter are parameters.
Colours and column widths of the printed table are left out: a line is its name and its numbers.  Undefined behaviour
and failed asserts are `none`.  The lifetime of objects captured by reference is not modelled.
-/

namespace Verif.Output

open Verif.BasicArray (BArr)
open Verif.Bounds (Lo Hi)

universe u

abbrev Text := List Char

/-! ### The result file -/

/-- The loop `if (i != 0) *file << ','; *file << ...`, file_write_callback.cpp 45-55 and 105-113; `i` is the loop index. -/
def joinLoop : Nat → List Text → Text
  | _, [] => []
  | i, t :: ts => (if i ≠ 0 then [','] else []) ++ t ++ joinLoop (i + 1) ts

/-- The loops `*file << ',' << ...`: 70-73, 78-81, 85-88, 117-120, 124-127, 131-134. -/
def commaEach (l : List Text) : Text := l.flatMap fun t => ',' :: t

/-- `pose_str`, 116. -/
def poseLabels : List Text := ["x", "y", "z", "q_w", "q_x", "q_y", "q_z"].map String.toList

/-- What `WriteCallback` writes at once, 104-136: the names of the active joints of the environment, the pose labels,
the names of costs and constraints. -/
def headerText (joints costs cnts : List Text) : Text :=
  joinLoop 0 joints ++ commaEach poseLabels ++ commaEach costs ++ commaEach cnts ++ ['\n']

/-- A link pose: its translation and its quaternion in the order w, x, y, z (60-69). -/
structure Pose (K : Type u) where
  x : K
  y : K
  z : K
  qw : K
  qx : K
  qy : K
  qz : K

/-- `concat(translation, rot_vec)`, 69. -/
def Pose.vec {K : Type u} (p : Pose K) : List K := [p.x, p.y, p.z, p.qw, p.qx, p.qy, p.qz]

section
variable {K : Type u}

/-- The loop over the transform map, 58-74: the link name and `": "` directly after what was written before, then
the seven numbers. -/
def linksText (sh : K → Text) (links : List (Text × Pose K)) : Text :=
  links.flatMap fun l => l.1 ++ [':', ' '] ++ commaEach (l.2.vec.map sh)

/-- One time step, 41-91. -/
def rowText (sh : K → Text) (fk : List K → List (Text × Pose K)) (vals costs cnts : List K) : Text :=
  joinLoop 0 (vals.map sh) ++ linksText sh (fk vals) ++ commaEach (costs.map sh) ++ commaEach (cnts.map sh) ++ ['\n']

/-- What a call of the callback receives: the rows of `getTraj(results.x, vars)`, `cost_vals` and `cnt_viols`. -/
structure Call (K : Type u) where
  traj : List (List K)
  costs : List K
  cnts : List K

/-- `WriteFile`, 35-93. -/
def callText (sh : K → Text) (fk : List K → List (Text × Pose K)) (c : Call K) : Text :=
  (c.traj.flatMap fun r => rowText sh fk r c.costs c.cnts) ++ ['\n']

/-- The file after the callback has been made and called for every entry of a list. -/
def fileText (sh : K → Text) (fk : List K → List (Text × Pose K)) (joints costs cnts : List Text)
    (calls : List (Call K)) : Text :=
  headerText joints costs cnts ++ calls.flatMap (callText sh fk)

/-! ### What the plotter receives -/

/-- `getTraj`, utils.cpp 12-23, on the array of variable indices: `none` for an access out of range. -/
def trajRows (x : List K) (a : BArr Nat) : Option (List (List K)) :=
  (List.range a.nRow).mapM fun (i : Nat) => (a.row i).bind fun vs => vs.mapM fun v => x[v]?

/-- `PlotCosts`, plot_callback.cpp 46-52: one state per row, every one with the given joint names. -/
def plotCosts {N : Type} (names : List N) (vars : BArr Nat) (x : List K) : Option (List (List N × List K)) :=
  (trajRows x vars).map fun rows => rows.map fun r => (names, r)

/-- `PlotProb`, 91-107: all variables of the problem, cut into rows of as many entries as there are joint names
(an integer division; by zero without names). -/
def plotProb {N : Type} (names : List N) (vars : List Nat) (x : List K) : Option (List (List N × List K)) :=
  if names.length = 0 then none
  else plotCosts names ⟨vars.length / names.length, names.length, vars⟩ x

/-! ### Trajectories of variable sets -/

/-- A `Var` as the conversions see it: `name()` and `value()`, var.h. -/
structure NamedVar (N : Type) (K : Type u) where
  names : List N
  value : List K

/-- `toTrajArray`, trajopt_utils.cpp 33-41: rows and columns of the array and its rows.  Assigning a row of another
size is `none` (an Eigen assert). -/
def toTrajArray {N : Type} (l : List (NamedVar N K)) : Option (Nat × Nat × List (List K)) :=
  match l with
  | [] => some (0, 0, [])
  | v :: vs =>
    let cols := v.value.length
    ((v :: vs).mapM fun w => if w.value.length = cols then some w.value else none).map fun rows =>
      ((v :: vs).length, cols, rows)

/-- `toJointTrajectory`, 43-55. -/
def toJointTrajectory {N : Type} (l : List (NamedVar N K)) : List (List N × List K) :=
  l.map fun v => (v.names, v.value)

/-! ### Observers -/

/-- How an operation ends. -/
inductive Outcome (α : Type u)
  | ok (a : α)
  | runtimeError
  | badWeakPtr
  | undefined

/-- A `NodesVariables` as far as observers are concerned: the current values and the observers, which may be null
pointers (`none`); every observer remembers how often it was told. -/
structure Subject (K : Type u) where
  values : List K
  observers : List (Option Nat)

/-- The weak self reference of `enable_shared_from_this`: it is set when a `shared_ptr` takes the object over, so it
is empty while a constructor runs (C++17 [util.smartptr.enab]). -/
inductive SelfRef | empty | set
  deriving DecidableEq

/-- `shared_from_this()`: throws `bad_weak_ptr` on an empty self reference. -/
def sharedFromThis (r : SelfRef) : Outcome Unit :=
  match r with
  | .empty => .badWeakPtr
  | .set => .ok ()

/-- `addObserver`, nodes_variables.cpp 100. -/
def Subject.addObserver (s : Subject K) (o : Option Nat) : Subject K := { s with observers := s.observers ++ [o] }

/-- `NodesObserver::NodesObserver`, nodes_observer.cpp 30-37: `none` is an expired weak pointer.  The result is the
subject with the new observer. -/
def newObserver (subject : Option (Subject K)) : Outcome (Subject K) :=
  match subject with
  | none => .runtimeError
  | some s => match sharedFromThis .empty with
    | .ok _ => .ok (s.addObserver (some 0))
    | .runtimeError => .runtimeError
    | .badWeakPtr => .badWeakPtr
    | .undefined => .undefined

/-- `updateObservers`, nodes_variables.cpp 94-98: calling through a null pointer is undefined. -/
def tellAll : List (Option Nat) → Option (List (Option Nat))
  | [] => some []
  | none :: _ => none
  | some n :: os => (tellAll os).map (some (n + 1) :: ·)

/-- `setVariables`, 79-88, as far as observers are concerned. -/
def Subject.setVariables (s : Subject K) (x : List K) : Outcome (Subject K) :=
  match tellAll s.observers with
  | none => .undefined
  | some os => .ok ⟨x, os⟩

/-- What a caller can do with a subject: set the variables, try to make an observer of it (an exception is caught),
register an observer or a null pointer.  An observer to register has to exist. -/
inductive Op (K : Type u)
  | setVariables (x : List K)
  | makeObserver
  | addNull
  | addExisting (n : Nat)

/-- One step; `live` says that some observer object exists. -/
def step (s : Subject K × Bool) : Op K → Option (Subject K × Bool)
  | .setVariables x => match s.1.setVariables x with
    | .ok s' => some (s', s.2)
    | _ => none
  | .makeObserver => match newObserver (some s.1) with
    | .ok s' => some (s', true)
    | _ => some s
  | .addNull => some (s.1.addObserver none, s.2)
  | .addExisting n => if s.2 then some (s.1.addObserver (some n), s.2) else none

/-- A history. -/
def run (s : Subject K × Bool) (ops : List (Op K)) : Option (Subject K × Bool) := ops.foldlM step s

end

/-! ### The printed table -/

section
variable {K : Type u} [Field K] [LinearOrder K]

/-- A component as `print` sees it: name, rows, values, bounds. -/
structure Item (K : Type u) where
  name : Text
  rows : Nat
  values : List K
  bounds : List (Lo K × Hi K)

/-- One printed line: name, number of rows, first and last index (an `int`: the last may be one below the first),
number of violated rows. -/
structure Line where
  name : Text
  rows : Nat
  first : Int
  last : Int
  viol : Nat
  deriving DecidableEq

/-- `val < lower - tolerance || upper + tolerance < val`, component.cpp 68. -/
def outside (tol v : K) (b : Lo K × Hi K) : Bool :=
  (match b.1 with | none => false | some l => decide (v < l - tol)) ||
  (match b.2 with | none => false | some u => decide (u + tol < v))

/-- The loop of 63-70; `x(i)` behind the last value is `none`. -/
def violIdx (tol : K) (x : List K) : List (Nat × (Lo K × Hi K)) → Option (List Nat)
  | [] => some []
  | (i, b) :: rest => match x[i]? with
    | none => none
    | some v => (violIdx tol x rest).map fun t => if outside tol v b then i :: t else t

/-- `Component::print`, 57-84: the line and the advanced index. -/
def Item.print (c : Item K) (tol : K) (index : Int) : Option (Line × Int) :=
  (violIdx tol c.values ((List.range c.bounds.length).zip c.bounds)).map fun l =>
    (⟨c.name, c.rows, index, index + c.rows - 1, l.length⟩, index + c.rows)

/-- `CompositeDifferentiable::print`, composite.cpp 162-171 (components that are not composites themselves). -/
def printAll (tol : K) : Int → List (Item K) → Option (List Line × Int)
  | index, [] => some ([], index)
  | index, c :: cs => match c.print tol index with
    | none => none
    | some (l, index') => (printAll tol index' cs).map fun r => (l :: r.1, r.2)

/-- A printed cost line: name, rows, first and last index, value. -/
structure CostLine (K : Type u) where
  name : Text
  rows : Nat
  first : Int
  last : Int
  cost : K

/-- `CostTerm::print`, cost_term.cpp 51-60: a cost term has one row (36); `index` is left as it is. -/
def printCost (c : Text × K) (index : Int) : CostLine K × Int := (⟨c.1, 1, index, index + 1 - 1, c.2⟩, index)

/-- `CompositeDifferentiable::print` of the costs: `Problem::addCostSet` only takes cost terms (problem.cpp 49-53). -/
def printCosts : Int → List (Text × K) → List (CostLine K)
  | _, [] => []
  | index, c :: cs => (printCost c index).1 :: printCosts (printCost c index).2 cs

/-- `Problem::printCurrent`, problem.cpp 160-165: variables, constraints and costs, each from index zero. -/
def printCurrent (tol : K) (vars : Item K) (cnts : List (Item K)) (costs : List (Text × K)) :
    Option (Line × List Line × List (CostLine K)) :=
  match vars.print tol 0, printAll tol 0 cnts with
  | some (v, _), some (cn, _) => some (v, cn, printCosts 0 costs)
  | _, _ => none

end
end Verif.Output
