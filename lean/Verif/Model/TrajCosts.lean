import Verif.Model.OsqpModel

/-!
Model of the joint costs and constraints of the legacy `trajopt` package.

Sources (under /repo/trajopt):
* `src/trajectory_costs.cpp` 14-1015
* `src/utils.cpp` 12-23 (`getTraj`)
* /repo/trajopt_common/include/trajopt_common/basic_array.hpp 81-96 (`operator()`, `at`: out of range throws)
* /repo/trajopt_sco/src/modeling.cpp 150-167 (`Constraint::violations`)

The sixteen classes (position, velocity, acceleration, jerk × EqCost, IneqCost, EqConstraint, IneqConstraint) are
written out separately in the code; their loops differ only in the stencil, the number of steps and, for position,
in how the upper limit is formed and in `JointPosIneqConstraint::value` not clipping at zero.  The model has one
definition per class shape with the kind as a parameter and reproduces these differences.

Simplifications: `double` is an ordered field; the coefficient, target and tolerance vectors are functions of the
joint index (the code checks their sizes in problem_description.cpp, not here); steps are natural numbers.  `none`
stands for an exception (constructor) or for an assertion/undefined behaviour (matrix blocks outside the matrix).
-/

namespace Verif.Traj

open Verif.Sco

universe u
variable {K : Type u} [Field K]

/-- Which derivative. -/
inductive Kind
  | pos | vel | acc | jerk
deriving DecidableEq

/-- Number of additional rows a difference needs: the `1`, `2`, `3` of `last_step_ - k`. -/
def Kind.order : Kind → Nat
  | .pos => 0
  | .vel => 1
  | .acc => 2
  | .jerk => 3

/-- Coefficients given to `exprMult(vars_(i + s, j), ..)`: 45/152, 277-278/397-398, 523-525/646-648,
777-780/904-907 (and the same in the inequality classes). -/
def Kind.stencil : Kind → List K
  | .pos => [1]
  | .vel => [-1, 1]
  | .acc => [1, -2, 1]
  | .jerk => [-1, 3, -3, 1]

/-- `VarArray`: variables of a trajectory, by step and joint. -/
structure VarArray where
  rows : Nat
  cols : Nat
  var : Nat → Nat → Nat

/-- The data members of the classes. -/
structure Term (K : Type u) where
  vars : VarArray
  coeffs : Nat → K
  targets : Nat → K
  upper : Nat → K
  lower : Nat → K
  first : Nat
  last : Nat

/-- The guard at the start of the constructors ("trajectory is too short!", not in the position classes) and the
bounds check of `vars_(i, j)` in the loops. -/
def Term.ok (t : Term K) (k : Kind) : Bool :=
  (k = .pos || decide (t.first + k.order ≤ t.last)) && (decide (t.last < t.vars.rows) || t.vars.cols = 0 || decide (t.last < t.first))

/-- `for (int i = first_step_; i <= last_step_ - k; ++i)`. -/
def Term.steps (t : Term K) (k : Kind) : List Nat := (List.range (t.last + 1 - k.order - t.first)).map (t.first + ·)

/-- `vel`, `acc`, `jerk` or `pos` minus the target: the first lines of the loop bodies. -/
def Term.diffExpr (t : Term K) (k : Kind) (i j : Nat) : AffExpr K Nat :=
  ((k.stencil (K := K)).zipIdx.foldl (fun e c => e.inc (exprMultVar (t.vars.var (i + c.2) j) c.1)) AffExpr.zero).decConst
    (t.targets j)

/-- All (step, joint) pairs in loop order. -/
def Term.cells (t : Term K) (k : Kind) : List (Nat × Nat) :=
  (t.steps k).flatMap fun i => (List.range t.vars.cols).map fun j => (i, j)

/-- `expr_` of the EqCost classes: 41-51, 272-284, 517-531, 771-786. -/
def Term.eqCostExpr (t : Term K) (k : Kind) : QuadExpr K Nat :=
  (t.cells k).foldl (fun e c => e.inc ((t.diffExpr k c.1 c.2).square.scale (t.coeffs c.2))) QuadExpr.zero

/-- `expr_vec_` of the EqConstraint classes: 147-162, 392-403, 640-654, 898-913. -/
def Term.eqCntExprs (t : Term K) (k : Kind) : List (AffExpr K Nat) :=
  (t.cells k).map fun c => (t.diffExpr k c.1 c.2).scale (t.coeffs c.2)

/-- Upper limit: for position `(pos - upper_tol) * coeff` (94-98, 209-213), otherwise
`-(upper_tol - d) * coeff` (329-334, 584-587, 841-844). -/
def Term.upperExpr (t : Term K) (k : Kind) (i j : Nat) : AffExpr K Nat :=
  if k = .pos then (((AffExpr.zero : AffExpr K Nat).inc (t.diffExpr k i j)).decConst (t.upper j)).scale (t.coeffs j)
  else (((AffExpr.zero : AffExpr K Nat).incConst (t.upper j)).dec (t.diffExpr k i j)).scale (-t.coeffs j)

/-- Lower limit `(lower_tol - d) * coeff`: 100-105, 337-341, 590-593, 847-850. -/
def Term.lowerExpr (t : Term K) (k : Kind) (i j : Nat) : AffExpr K Nat :=
  (((AffExpr.zero : AffExpr K Nat).incConst (t.lower j)).dec (t.diffExpr k i j)).scale (t.coeffs j)

/-- `expr_vec_` of the IneqCost and IneqConstraint classes. -/
def Term.ineqExprs (t : Term K) (k : Kind) : List (AffExpr K Nat) :=
  (t.cells k).flatMap fun c => [t.upperExpr k c.1 c.2, t.lowerExpr k c.1 c.2]

/-! ### Values -/

/-- A dense matrix. -/
structure Mat (K : Type u) where
  rows : Nat
  cols : Nat
  get : Nat → Nat → K

/-- `getTraj`, utils.cpp 12-23. -/
def getTraj (x : Nat → K) (v : VarArray) : Mat K := ⟨v.rows, v.cols, fun i j => x (v.var i j)⟩

/-- `block(first, 0, n, cols)`: `none` outside the matrix. -/
def Mat.rowBlock (m : Mat K) (first n : Nat) : Option (Mat K) :=
  if first + n ≤ m.rows then some ⟨n, m.cols, fun i j => m.get (first + i) j⟩ else none

/-- `diffAxis0`, 17-20: `none` for a matrix without rows. -/
def diffAxis0 (m : Mat K) : Option (Mat K) :=
  if m.rows = 0 then none else some ⟨m.rows - 1, m.cols, fun i j => m.get (i + 1) j - m.get i j⟩

/-- `diffAxis0` applied as often as the kind requires. -/
def diffTimes : Nat → Mat K → Option (Mat K)
  | 0, m => some m
  | n + 1, m => match diffAxis0 m with
    | none => none
    | some m' => diffTimes n m'

/-- `diff` / `diff0` of the `value` functions: block, differences, minus targets (57-58, 291-292, 538-540,
793-796, 117-119, 354-357 and so on). -/
def Term.diffMat (t : Term K) (k : Kind) (x : Nat → K) : Option (Mat K) :=
  if t.last + 1 < t.first then none
  else match (getTraj x t.vars).rowBlock t.first (t.last + 1 - t.first) with
    | none => none
    | some m => match diffTimes k.order m with
      | none => none
      | some d => some ⟨d.rows, d.cols, fun i j => d.get i j - t.targets j⟩

/-- Row-major entries. -/
def Mat.toList (m : Mat K) : List K := (List.range m.rows).flatMap fun i => (List.range m.cols).map fun j => m.get i j

/-- `value` of the EqCost classes: 53-62, 286-295, 533-543, 788-799. -/
def Term.eqCostValue (t : Term K) (k : Kind) (x : Nat → K) : Option K :=
  (t.diffMat k x).map fun d => (Mat.toList ⟨d.rows, d.cols, fun i j => d.get i j ^ 2 * t.coeffs j⟩).sum

/-- `value` of the EqConstraint classes: 165-174, 406-415, 657-667, 916-927. -/
def Term.eqCntValue (t : Term K) (k : Kind) (x : Nat → K) : Option (List K) :=
  (t.diffMat k x).map fun d => Mat.toList ⟨d.rows, d.cols, fun i j => d.get i j ^ 2 * t.coeffs j⟩

/-- `diff1`: 120, 358, 606, 864. -/
def Term.diff1 (t : Term K) (d : Mat K) : Mat K := ⟨d.rows, d.cols, fun i j => (d.get i j - t.upper j) * t.coeffs j⟩
/-- `diff2`: 121, 359, 607, 865. -/
def Term.diff2 (t : Term K) (d : Mat K) : Mat K := ⟨d.rows, d.cols, fun i j => (d.get i j * -1 + t.lower j) * t.coeffs j⟩

section order
variable [LinearOrder K]

/-- `value` of the IneqCost classes: 112-125, 349-362, 598-611, 855-869. -/
def Term.ineqCostValue (t : Term K) (k : Kind) (x : Nat → K) : Option K :=
  (t.diffMat k x).map fun d => ((t.diff1 d).toList.map fun v => max v 0).sum + ((t.diff2 d).toList.map fun v => max v 0).sum

/-- `value` of the IneqConstraint classes: 227-242 (no clipping), 472-487, 726-741, 986-1002. -/
def Term.ineqCntValue (t : Term K) (k : Kind) (x : Nat → K) : Option (List K) :=
  (t.diffMat k x).map fun d =>
    let out := (List.range d.rows).flatMap fun i =>
      ((List.range d.cols).map fun j => (t.diff1 d).get i j) ++ ((List.range d.cols).map fun j => (t.diff2 d).get i j)
    if k = .pos then out else out.map fun v => max v 0

/-- `Constraint::violations`, modeling.cpp 150-167, for an equality constraint. -/
def eqViolations (vals : List K) : List K := vals.map fun v => |v|
/-- The same for an inequality constraint (`pospart`). -/
def ineqViolations (vals : List K) : List K := vals.map fun v => if 0 < v then v else 0

end order

/-! ### convex() -/

/-- `convex` of the EqCost classes: 63-68, 296-301, 544-549, 800-805. -/
def Term.eqCostConvex (t : Term K) (k : Kind) : List (BuildOp K) := [.quad (t.eqCostExpr k)]
/-- `convex` of the IneqCost classes: 127-137, 364-374, 613-623, 871-881: `addHinge(expr, 1)` for each. -/
def Term.ineqCostConvex (t : Term K) (k : Kind) : List (BuildOp K) := (t.ineqExprs k).map fun e => .hinge e 1
/-- `convex` of the EqConstraint classes: 175-183, 416-424, 668-676, 928-936. -/
def Term.eqCntConvex (t : Term K) (k : Kind) : ConvexConstraints K :=
  (t.eqCntExprs k).foldl ConvexConstraints.addEq ConvexConstraints.new
/-- `convex` of the IneqConstraint classes: 244-254, 489-499, 743-753, 1004-1014. -/
def Term.ineqCntConvex (t : Term K) (k : Kind) : ConvexConstraints K :=
  (t.ineqExprs k).foldl ConvexConstraints.addIneq ConvexConstraints.new

end Verif.Traj
