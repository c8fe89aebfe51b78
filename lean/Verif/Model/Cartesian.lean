import Verif.Model.JointConstraints

/-!
Model of the Cartesian pose terms: `trajopt_ifopt/src/constraints/cartesian_position_constraint.cpp`, and of
`DynamicCartPose*Calculator`, `CartPose*Calculator` in `trajopt/src/kinematic_terms.cpp`.

Poses are elements of an abstract type `T` with a product.  Forward kinematics (`Arm.fk`) and the functions of
`tesseract::common` on poses (`Poses`) are parameters; `applyTolerances` is modelled.  The variable a constraint reads is
assumed to have as many entries as the group has joints.  A throwing constructor, a failed assertion and an out-of-range
access are `none`.
-/

namespace Verif.Cartesian

open Verif.Bounds
open Verif.JointConstraints (insertRow)

universe u v w

/-- What the terms read from `tesseract::kinematics::JointGroup`: `hasLinkName`, `isActiveLinkName`, `calcFwdKin`. -/
structure Arm (Name : Type u) (T : Type w) (K : Type v) (n : Nat) where
  has : Name → Bool
  active : Name → Bool
  fk : (Fin n → K) → Name → T

/-- Functions of `tesseract::common`: `calcTransformError(t1, t2)`, and the two forms of `calcJacobianTransformErrorDiff`,
without and with tolerances. -/
structure Poses (T : Type w) (K : Type v) where
  error : T → T → Fin 6 → K
  diff : T → T → T → Fin 6 → K
  diffBoth : T → T → T → T → Fin 6 → K
  diffTol : T → T → T → List K → List K → Fin 6 → K
  diffBothTol : T → T → T → T → List K → List K → Fin 6 → K

variable {Name : Type u} {T : Type w} {K : Type v} {n : Nat}

section
variable [Field K]

/-- `dof_vals_pert(i) = dof_vals(i) + eps`. -/
def perturb (q : Fin n → K) (j : Fin n) (eps : K) : Fin n → K := fun k => if k = j then q k + eps else q k

/-- `constexpr double eps{ 1e-5 }`, cartesian_position_constraint.cpp 289, and `DEFAULT_EPSILON`, kinematic_terms.hpp. -/
def eps : K := 1 / 10 ^ 5

end

/-! ### `CartPosConstraint` -/

/-- `CartPosConstraint::Type`. -/
inductive Kind | targetActive | sourceActive | bothActive
  deriving DecidableEq

/-- Data members of `CartPosConstraint`; `index` is `position_var_->getIndex()`. -/
structure CartPos (Name : Type u) (T : Type w) (K : Type v) (n : Nat) where
  arm : Arm Name T K n
  index : Nat
  source : Name
  target : Name
  sourceOffset : T
  targetOffset : T
  kind : Kind
  indices : List (Fin 6)
  coeffs : List K
  bounds : List (Bounds K)
  numeric : Bool

section
variable [Field K] [LinearOrder K]

/-- `type_`, 80-89. -/
def kindOf (arm : Arm Name T K n) (source target : Name) : Option Kind :=
  if arm.active target && arm.active source then some .bothActive
  else if arm.active target then some .targetActive
  else if arm.active source then some .sourceActive
  else none

/-- The rows contributed by component `i`, 97-119 with splitting and 122-130 without; `isZero` is
`almostEqualRelativeAndAbs(c, 0)`. -/
def rowsOf (isZero : K → Bool) (split : Bool) (c : K) (b : Bounds K) (i : Fin 6) : List (Fin 6 × K × Bounds K) :=
  if !isZero c then
    if split && decide (b.type = .rangeBound) then
      [(i, c, Bounds.mk' b.lower .posInf), (i, c, Bounds.mk' .negInf b.upper)]
    else [(i, c, b)]
  else []

/-- First constructor, 45-240. -/
def CartPos.new (isZero : K → Bool) (arm : Arm Name T K n) (index : Nat) (coeffs : List K) (bounds : List (Bounds K))
    (source target : Name) (sourceOffset targetOffset : T) (split : Bool) : Option (CartPos Name T K n) :=
  if n = 0 then none
  else if !arm.has source then none
  else if !arm.has target then none
  else if bounds.length ≠ 6 then none
  else if coeffs.length ≠ 6 then none
  else match kindOf arm source target with
    | none => none
    | some kind =>
      let rows := (List.finRange 6).flatMap fun (i : Fin 6) =>
        rowsOf isZero split (coeffs.getD i 0) (bounds.getD i default0) i
      some ⟨arm, index, source, target, sourceOffset, targetOffset, kind, rows.map (·.1), rows.map (·.2.1), rows.map (·.2.2), true⟩

/-- Second constructor, 242-261: unit coefficients, zero bounds. -/
def CartPos.newExact (isZero : K → Bool) (arm : Arm Name T K n) (index : Nat) (source target : Name)
    (sourceOffset targetOffset : T) (split : Bool) : Option (CartPos Name T K n) :=
  CartPos.new isZero arm index (List.replicate 6 1) (List.replicate 6 default0) source target sourceOffset targetOffset split

/-- `setTargetPose`, 386-389. -/
def CartPos.setTargetPose (c : CartPos Name T K n) (p : T) : CartPos Name T K n := { c with targetOffset := p }

variable [Mul T]

/-- `transforms_cache_[source_frame_] * source_frame_offset_`. -/
def CartPos.sourceTf (c : CartPos Name T K n) (q : Fin n → K) : T := c.arm.fk q c.source * c.sourceOffset

/-- `transforms_cache_[target_frame_] * target_frame_offset_`. -/
def CartPos.targetTf (c : CartPos Name T K n) (q : Fin n → K) : T := c.arm.fk q c.target * c.targetOffset

/-- `error_function_`, 142-152, 175-185, 207-217. -/
def CartPos.errorFunction (P : Poses T K) (c : CartPos Name T K n) (targetTf sourceTf : T) : List K :=
  match c.kind with
  | .targetActive => c.indices.map (P.error sourceTf targetTf)
  | .sourceActive => c.indices.map (P.error targetTf sourceTf)
  | .bothActive => c.indices.map (P.error targetTf sourceTf)

/-- `error_diff_function_`, 154-169, 187-201, 219-237. -/
def CartPos.errorDiff (P : Poses T K) (c : CartPos Name T K n) (q : Fin n → K) (targetTf sourceTf : T) : List K :=
  match c.kind with
  | .targetActive => c.indices.map (P.diff sourceTf targetTf (c.targetTf q))
  | .sourceActive => c.indices.map (P.diff targetTf sourceTf (c.sourceTf q))
  | .bothActive => c.indices.map (P.diffBoth targetTf (c.targetTf q) sourceTf (c.sourceTf q))

/-- `calcValues`, 263-273. -/
def CartPos.values (P : Poses T K) (c : CartPos Name T K n) (q : Fin n → K) : List K :=
  c.errorFunction P (c.targetTf q) (c.sourceTf q)

/-- `getJacobian` and `calcJacobianBlock`, 281-384, for `numVars` optimization variables.  The branch without numeric
differentiation assigns a vector of six entries to `jac0.col(c).tail(3)` (344, 357), which Eigen does not allow. -/
def CartPos.jacobian (P : Poses T K) (c : CartPos Name T K n) (numVars : Nat) (q : Fin n → K) : Option (List (List (Nat × K))) :=
  if c.numeric || decide (c.kind = .bothActive) then
    (List.range c.indices.length).mapM fun r =>
      insertRow numVars ((List.finRange n).map fun j =>
        (c.index + j.val, (c.errorDiff P (perturb q j eps) (c.targetTf q) (c.sourceTf q)).getD r 0 / eps))
  else none

end

/-! ### Legacy pose terms -/

section
variable [Field K] [LinearOrder K]

/-- `validateTolerances`, kinematic_terms.cpp 41-56. -/
def validTolerances (lower upper : List K) : Bool :=
  decide (lower.length = upper.length) && !(lower.zip upper).any fun p => decide (p.2 < p.1)

/-- One component of `tesseract::common::applyTolerances`. -/
def applyTolerance (e lo hi : K) : K := if e < lo then e - lo else if hi < e then e - hi else 0

/-- Data of the legacy calculators. -/
structure Legacy (Name : Type u) (T : Type w) (K : Type v) (n : Nat) where
  arm : Arm Name T K n
  source : Name
  target : Name
  sourceOffset : T
  targetOffset : T
  indices : List Nat
  lower : List K
  upper : List K

/-- `(lower.size() == 0 && upper.size() == 0) || almostEqualRelativeAndAbs(lower, upper)`, 80-81 and 209-210. -/
def Legacy.plain (close : List K → List K → Bool) (c : Legacy Name T K n) : Bool :=
  (c.lower.isEmpty && c.upper.isEmpty) || close c.lower c.upper

/-- The constructors, 59-96, 134-156, 187-248, 286-346: at most six indices (an assertion), valid tolerances. -/
def Legacy.valid (c : Legacy Name T K n) : Bool := decide (c.indices.length ≤ 6) && validTolerances c.lower c.upper

/-- The error after the tolerances have been applied (89-94, 231-247): tolerances of a size other than six are not modelled. -/
def tolerated (close : List K → List K → Bool) (c : Legacy Name T K n) (e : Fin 6 → K) : Option (Fin 6 → K) :=
  if c.plain close then some e
  else if c.lower.length = 6 ∧ c.upper.length = 6 then
    some fun i => applyTolerance (e i) (c.lower.getD i 0) (c.upper.getD i 0)
  else none

/-- The loop that picks the rows, 106-108 and 258-260. -/
def pick (indices : List Nat) (e : Fin 6 → K) : Option (List K) :=
  indices.mapM fun i => if h : i < 6 then some (e ⟨i, h⟩) else none

variable [Mul T]

def Legacy.sourceTf (c : Legacy Name T K n) (q : Fin n → K) : T := c.arm.fk q c.source * c.sourceOffset
def Legacy.targetTf (c : Legacy Name T K n) (q : Fin n → K) : T := c.arm.fk q c.target * c.targetOffset

/-- `DynamicCartPoseErrCalculator::operator()`, 98-111. -/
def Legacy.dynamicError (close : List K → List K → Bool) (P : Poses T K) (c : Legacy Name T K n) (q : Fin n → K) : Option (List K) :=
  if c.valid then
    match tolerated close c (P.error (c.targetTf q) (c.sourceTf q)) with
    | none => none
    | some e => pick c.indices e
  else none

/-- `CartPoseErrCalculator::operator()`, 250-263, with `error_function_`, 205-247. -/
def Legacy.poseError (close : List K → List K → Bool) (P : Poses T K) (c : Legacy Name T K n) (q : Fin n → K) : Option (List K) :=
  if c.valid then
    match tolerated close c
      (if c.arm.active c.target then P.error (c.sourceTf q) (c.targetTf q) else P.error (c.targetTf q) (c.sourceTf q)) with
    | none => none
    | some e => pick c.indices e
  else none

/-- `DynamicCartPoseJacCalculator::operator()`, 158-185: the columns. -/
def Legacy.dynamicJac (P : Poses T K) (c : Legacy Name T K n) (q : Fin n → K) : Option (List (List K)) :=
  if c.valid then
    (List.finRange n).mapM fun j =>
      let q' := perturb q j eps
      (pick c.indices (P.diffBothTol (c.targetTf q) (c.targetTf q') (c.sourceTf q) (c.sourceTf q') c.lower c.upper)).map
        (·.map (· / eps))
  else none

/-- `CartPoseJacCalculator::operator()`, 348-366, with `error_diff_function_`, 312-345: the columns. -/
def Legacy.poseJac (P : Poses T K) (c : Legacy Name T K n) (q : Fin n → K) : Option (List (List K)) :=
  if c.valid then
    (List.finRange n).mapM fun j =>
      let q' := perturb q j eps
      (pick c.indices (if c.arm.active c.target then P.diffTol (c.sourceTf q) (c.targetTf q) (c.targetTf q') c.lower c.upper
        else P.diffTol (c.targetTf q) (c.sourceTf q) (c.sourceTf q') c.lower c.upper)).map (·.map (· / eps))
  else none

/-- The rows selected by the term infos, problem_description.cpp 754-776 and 900-922: components whose coefficient is not
negligible. -/
def termRows (coeffs : Fin 6 → K) : List (Nat × K) :=
  (List.finRange 6).filterMap fun i => if 1 / 10 ^ 5 < |coeffs i| then some (i.val, coeffs i) else none

end

end Verif.Cartesian
