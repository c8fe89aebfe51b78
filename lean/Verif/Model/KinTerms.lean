import Verif.Model.ErrFunc
import Verif.Model.Problem
import Verif.Model.JointConstraints
import Verif.Model.Cartesian
import Mathlib.Analysis.SpecialFunctions.Pow.Real

/-!
Model of `trajopt_ifopt/src/constraints/inverse_kinematics_constraint.cpp` and of the Cartesian velocity and singularity terms of
`trajopt/src/kinematic_terms.cpp` and `trajopt/src/problem_description.cpp`.

Forward and inverse kinematics, the Jacobian of a link and the singular value decomposition are parameters.  Doubles are real
numbers.  A failed assertion, an exception and an out-of-range access are `none`.
-/

namespace Verif.KinTerms

open Verif.Bounds
open Verif.BasicArray
open Verif.JointConstraints (insertRow)
open Verif.Sco (ErrFunc)

universe w
variable {Name : Type} {T : Type w} {n m k : Nat}

/-! ### Inverse kinematics constraint -/

/-- `InverseKinematicsInfo` and the data members of `InverseKinematicsConstraint`; `index` is `constraint_var_->getIndex()`, `n` the
size of that variable and `joints` is `manip->numJoints()`. -/
structure Ik (Name : Type) (T : Type w) (n : Nat) where
  joints : Nat
  working : Name
  tcp : Name
  tcpOffset : T
  target : T
  index : Nat
  bounds : List (Bounds ℝ)

/-- `InverseKinematicsInfo::InverseKinematicsInfo`, 37-48, and `InverseKinematicsConstraint::InverseKinematicsConstraint`, 50-70: a
different number of joints is only logged. -/
noncomputable def Ik.new (n : Nat) (hasLink : Name → Bool) (joints : Nat) (working tcp : Name) (tcpOffset target : T) (index : Nat) :
    Option (Ik Name T n) :=
  if !hasLink tcp then none
  else if n = 0 then none
  else some ⟨joints, working, tcp, tcpOffset, target, index, List.replicate n default0⟩

/-- Eigen's `norm`. -/
noncomputable def norm (v : Fin n → ℝ) : ℝ := Real.sqrt (((List.finRange n).map fun i => v i * v i).sum)

/-- The loop of `getValues`, 85-96: the state is the smallest norm so far (`none` is the largest double) and the error. -/
noncomputable def nearestStep (q : Fin n → ℝ) (s : Option ℝ × (Fin n → ℝ)) (sol : Fin n → ℝ) : Option ℝ × (Fin n → ℝ) :=
  let cur := fun i => sol i - q i
  match s.1 with
  | none => (some (norm cur), cur)
  | some best => if norm cur < best then (some (norm cur), cur) else s

/-- `getValues`, 72-98; `ik target working tcp seed` is `calcInvKin`.  Solutions of another size than the variable are an error
of Eigen. -/
noncomputable def Ik.values (asserts : Bool) (ik : T → Name → Name → (Fin k → ℝ) → List (Fin n → ℝ)) (c : Ik Name T n)
    (q : Fin n → ℝ) (seed : Fin k → ℝ) : Option (Fin n → ℝ) :=
  let sols := ik c.target c.working c.tcp seed
  if asserts && sols.isEmpty then none
  else if !sols.isEmpty && decide (c.joints ≠ n) then none
  else some (sols.foldl (nearestStep q) (none, fun _ => 0)).2

/-- `setBounds`, 105-111: a different size is only logged. -/
def Ik.setBounds (c : Ik Name T n) (bs : List (Bounds ℝ)) : Ik Name T n := { c with bounds := bs }

/-- `getJacobian`, 113-127. -/
noncomputable def Ik.jacobian (c : Ik Name T n) (numVars : Nat) : Option (List (List (Nat × ℝ))) :=
  (List.range n).mapM fun j => insertRow numVars [(c.index + j, -1)]

/-- `setTargetPose`, 129. -/
def Ik.setTargetPose (c : Ik Name T n) (p : T) : Ik Name T n := { c with target := p }

/-! ### Cartesian velocity -/

/-- `topRows(n_dof)` of the values of two consecutive states. -/
def top (x : Fin (n + n) → ℝ) : Fin n → ℝ := fun j => x (Fin.castAdd n j)
/-- `bottomRows(n_dof)`. -/
def bottom (x : Fin (n + n) → ℝ) : Fin n → ℝ := fun j => x (Fin.natAdd n j)

/-- What the calculators use of the kinematics: the translation of `transforms_cache[link_] * tcp_`, the translational rows of the
Jacobian of the link, and the same for a point of the link. -/
structure Tool (n : Nat) where
  pos : (Fin n → ℝ) → Fin 3 → ℝ
  jacLink : (Fin n → ℝ) → Fin 3 → Fin n → ℝ
  jacPoint : (Fin n → ℝ) → Fin 3 → Fin n → ℝ
  tcpZero : Bool

/-- `CartVelErrCalculator::operator()`, 411-425. -/
def velErr (t : Tool n) (limit : ℝ) (x : Fin (n + n) → ℝ) : Fin 6 → ℝ :=
  Fin.addCases (m := 3) (n := 3) (fun a => t.pos (bottom x) a - t.pos (top x) a - limit)
    (fun a => t.pos (top x) a - t.pos (bottom x) a - limit)

/-- `CartVelJacCalculator::operator()`, 376-401. -/
def velJac (t : Tool n) (x : Fin (n + n) → ℝ) : Fin 6 → Fin (n + n) → ℝ :=
  let jac := if t.tcpZero then t.jacLink else t.jacPoint
  Fin.addCases (m := 3) (n := 3)
    (fun a => Fin.addCases (fun j => -jac (top x) a j) (fun j => jac (bottom x) a j))
    (fun a => Fin.addCases (fun j => jac (top x) a j) (fun j => -jac (bottom x) a j))

/-- `TermType` as a set of flags. -/
structure TermType where
  cost : Bool
  cnt : Bool
  useTime : Bool
  deriving DecidableEq

/-- A term added to the problem. -/
inductive Added (n m : Nat) where
  | cost (f : ErrFunc ℝ n m)
  | cnt (f : ErrFunc ℝ n m)

/-- `concat(prob.GetVarRow(i, 0, n_dof), prob.GetVarRow(i + 1, 0, n_dof))`. -/
def pairVars (vars : BArr Nat) (n : Nat) (i : Int) : Option (Fin (n + n) → Nat) :=
  match vars.rblock i 0 n with
  | none => none
  | some a => match vars.rblock (i + 1) 0 n with
    | none => none
    | some b => some (Fin.addCases (fun j : Fin n => a.getD j.val 0) (fun j : Fin n => b.getD j.val 0))

/-- `CartVelTermInfo`. -/
structure CartVel where
  first : Int
  last : Int
  limit : ℝ

/-- The checks of `CartVelTermInfo::fromJson`, 989-1009. -/
def CartVel.accepted (c : CartVel) (nSteps : Nat) (active : List Name) (link : Name) [DecidableEq Name] : Bool :=
  decide (0 ≤ c.first) && decide (c.first ≤ nSteps - 1) && decide (c.first < c.last) &&
    decide (0 < c.last) && decide (c.last ≤ nSteps - 1) && decide (link ∈ active)

/-- The range of the loops `for (int iStep = first_step; iStep <= last_step; ++iStep)`. -/
def stepList (first last : Int) : List Int := (List.range (last + 1 - first).toNat).map fun (i : Nat) => first + (i : Int)

/-- `CartVelTermInfo::hatch`, 1011-1056. -/
noncomputable def CartVel.hatch (c : CartVel) (tt : TermType) (t : Tool n) (vars : BArr Nat) : Option (List (Added (n + n) 6)) :=
  if tt = ⟨true, false, true⟩ then some []
  else if tt = ⟨false, true, true⟩ then some []
  else if tt.cost && !tt.useTime then
    (stepList c.first c.last).mapM fun i => match pairVars vars n i with
      | none => none
      | some vs => some (.cost ⟨velErr t c.limit, some (velJac t), vs, none⟩)
  else if tt.cnt && !tt.useTime then
    (stepList c.first c.last).mapM fun i => match pairVars vars n i with
      | none => none
      | some vs => some (.cnt ⟨velErr t c.limit, some (velJac t), vs, none⟩)
  else some []

/-! ### Singularity avoidance -/

/-- The last columns of `matrixU()` and `matrixV()` and the last of `singularValues()`. -/
structure Triple (m n : Nat) where
  u : Fin m → ℝ
  s : ℝ
  v : Fin n → ℝ

/-- Jacobian of the link and the decomposition of a matrix. -/
structure Arm (m n : Nat) where
  jac : (Fin n → ℝ) → Fin m → Fin n → ℝ
  svd : (Fin m → Fin n → ℝ) → Triple m n

/-- `AvoidSingularityErrCalculator::operator()`, 586-603. -/
noncomputable def singErr (a : Arm m n) (lambda : ℝ) (q : Fin n → ℝ) : ℝ :=
  1 / ((a.svd (a.jac q)).s + lambda) - 1 / (1 / 10 + lambda)

/-- `jacobianPartialDerivative`, 605-616. -/
noncomputable def jacDiff (a : Arm m n) (eps : ℝ) (q : Fin n → ℝ) (j : Fin n) (r : Fin m) (c : Fin n) : ℝ :=
  (a.jac (Cartesian.perturb q j eps) r c - a.jac q r c) / eps

/-- `AvoidSingularityJacCalculator::operator()`, 618-642. -/
noncomputable def singJac (a : Arm m n) (lambda eps : ℝ) (q : Fin n → ℝ) (j : Fin n) : ℝ :=
  let t := a.svd (a.jac q)
  Sco.dot t.u (fun r => Sco.dot (jacDiff a eps q j r) t.v) * (-1 / (t.s + lambda) ^ 2)

section
variable [DecidableEq Name]

/-- `VectorXd` as a function. -/
def ofList (n : Nat) (l : List ℝ) : Fin n → ℝ := fun i => l.getD i.val 0

/-- `AvoidSingularitySubsetErrCalculator::operator()`, 644-653: the call of `getSubset` is inside the assertion; `junk` is the
content of the uninitialised vector. -/
noncomputable def subsetErr (asserts : Bool) (sup sub : List Name) (junk : List ℝ) (a : Arm m k) (lambda : ℝ) (x : Fin n → ℝ) :
    Option ℝ :=
  if asserts then
    let r := Problem.getSubset sup (List.ofFn x) sub junk
    if r.1 then some (singErr a lambda (ofList k r.2)) else none
  else some (singErr a lambda (ofList k junk))

/-- `AvoidSingularitySubsetJacCalculator::operator()`, 655-678; `tmp` is the content of the second uninitialised vector. -/
noncomputable def subsetJac (asserts : Bool) (sup sub : List Name) (junk tmp : List ℝ) (a : Arm m k) (lambda eps : ℝ) (x : Fin n → ℝ) :
    Option (Fin n → ℝ) :=
  if asserts then
    let r := Problem.getSubset sup (List.ofFn x) sub junk
    if r.1 then
      let w := Problem.updateFromSubset sup (List.replicate n 0) sub (List.ofFn (singJac a lambda eps (ofList k r.2)))
      if w.1 then some (ofList n w.2) else none
    else none
  else some (ofList n tmp)

/-- The choice of the calculators in `AvoidSingularityTermInfo::hatch`, 1906-1917: whether the subset is used. -/
def useSubset (sub : Option (List Name)) (sup : List Name) : Bool :=
  match sub with
  | none => false
  | some s => Problem.isSuperset s sup

end

/-- `AvoidSingularityTermInfo::hatch`, 1921-1939, for error and Jacobian functions that do not fail. -/
def singHatch (f : (Fin n → ℝ) → ℝ) (df : (Fin n → ℝ) → Fin n → ℝ) (coeff : Option ℝ) (first last : Int) (tt : TermType)
    (vars : BArr Nat) : Option (List (Added n 1)) :=
  if tt.cost then
    (stepList first last).mapM fun i => match vars.rblock i 0 n with
      | none => none
      | some vs => some (.cost ⟨fun x _ => f x, some fun x _ => df x, fun j => vs.getD j.val 0, coeff.map fun c _ => c⟩)
  else if tt.cnt then
    (stepList first last).mapM fun i => match vars.rblock i 0 n with
      | none => none
      | some vs => some (.cnt ⟨fun x _ => f x, some fun x _ => df x, fun j => vs.getD j.val 0, coeff.map fun c _ => c⟩)
  else
    (stepList first last).foldlM (fun l i => match vars.rblock i 0 n with | none => none | some _ => some l) []

end Verif.KinTerms
