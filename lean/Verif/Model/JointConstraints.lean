import Verif.Model.VarSets

/-!
Model of the joint constraints of `trajopt_ifopt/src/constraints`: `joint_velocity_constraint.cpp`,
`joint_acceleration_constraint.cpp`, `joint_jerk_constraint.cpp` and `joint_position_constraint.cpp`.

A throwing constructor, a failed assert and an out-of-range access are `none`.  Results that are filled segment by
segment at `i * n_dof` for consecutive `i` are modelled as the concatenation of the segments.  `insertBack` requires
increasing columns within the row (Eigen asserts it; without asserts the matrix is malformed).
-/

namespace Verif.JointConstraints

open Verif.Bounds
open Verif.VarSets (Var)

universe u

/-- The three difference constraints share their data: `n_dof_`, `position_vars_`, `coeffs_`, `bounds_`. -/
structure Diff (K : Type u) where
  nDof : Nat
  vars : List (Var K)
  coeffs : List K
  bounds : List (Bounds K)

section
variable {K : Type u} [Field K] [LinearOrder K]

/-- Coefficient handling of the three constructors (velocity 62-77, acceleration and jerk 62-77): `groups` is the
number of timesteps with rows, `dflt` the value used without coefficients. -/
def expandCoeffs (nDof groups : Nat) (dflt : K) (coeffs : List K) : Option (List K) :=
  if ¬ ∀ c ∈ coeffs, 0 < c then none
  else
    let all := (List.replicate groups coeffs).flatten
    match coeffs with
    | [] => if nDof = 0 then some all else some (List.replicate (nDof * groups) dflt)
    | [c] => if nDof = 1 then some all else some (List.replicate (nDof * groups) c)
    | _ => if coeffs.length = nDof then some all else none

/-- The bounds loops: every timestep is pinned to the targets. -/
def targetBounds (targets : List K) (groups : Nat) : List (Bounds K) :=
  (List.replicate groups (targets.map fun t => Bounds.mk' (.fin t) (.fin t))).flatten

/-- `JointVelConstraint::JointVelConstraint`, joint_velocity_constraint.cpp 36-88. -/
def newVel (targets : List K) (vars : List (Var K)) (coeffs : List K) : Option (Diff K) :=
  if vars.length < 2 then none
  else (expandCoeffs targets.length (vars.length - 1) 5 coeffs).map fun cs =>
    ⟨targets.length, vars, cs, targetBounds targets (vars.length - 1)⟩

/-- `JointAccelConstraint::JointAccelConstraint`, joint_acceleration_constraint.cpp 36-88. -/
def newAcc (targets : List K) (vars : List (Var K)) (coeffs : List K) : Option (Diff K) :=
  if vars.length < 4 then none
  else (expandCoeffs targets.length vars.length 1 coeffs).map fun cs =>
    ⟨targets.length, vars, cs, targetBounds targets vars.length⟩

/-- `JointJerkConstraint::JointJerkConstraint`, joint_jerk_constraint.cpp 36-88. -/
def newJerk (targets : List K) (vars : List (Var K)) (coeffs : List K) : Option (Diff K) :=
  if vars.length < 6 then none
  else (expandCoeffs targets.length vars.length 1 coeffs).map fun cs =>
    ⟨targets.length, vars, cs, targetBounds targets vars.length⟩

/-- The value of variable `i`, assigned to a segment of `n_dof_` entries; other sizes fail. -/
def Diff.q (c : Diff K) (i : Nat) : Option (List K) :=
  match c.vars[i]? with
  | none => none
  | some v => if v.values.length = c.nDof then some v.values else none

/-- `velocity.segment(...) = (q1 - q0)`, 108-112. -/
def Diff.velStep (c : Diff K) (seg : Nat) : Option (List K) :=
  match c.q seg, c.q (seg + 1) with
  | some q0, some q1 => some (List.zipWith (· - ·) q1 q0)
  | _, _ => none

/-- `JointVelConstraint::getValues`, 90-116. -/
def Diff.velValues (c : Diff K) : Option (List K) :=
  ((List.range (c.vars.length - 1)).mapM c.velStep).map List.flatten

/-- `q2 - 2.0 * q1 + q0`, joint_acceleration_constraint.cpp 102 and 113. -/
def acc3 (q0 q1 q2 : List K) : List K :=
  List.zipWith (· + ·) (List.zipWith (· - ·) q2 (q1.map fun v => 2 * v)) q0

/-- One timestep of `JointAccelConstraint::getValues`, 96-115: forward up to `n - 3`, backward afterwards. -/
def Diff.accStep (c : Diff K) (i : Nat) : Option (List K) :=
  if i < c.vars.length - 2 then
    match c.q i, c.q (i + 1), c.q (i + 2) with
    | some q0, some q1, some q2 => some (acc3 q0 q1 q2)
    | _, _, _ => none
  else
    match c.q i, c.q (i - 1), c.q (i - 2) with
    | some q0, some q1, some q2 => some (acc3 q0 q1 q2)
    | _, _, _ => none

/-- `JointAccelConstraint::getValues`, 90-118. -/
def Diff.accValues (c : Diff K) : Option (List K) :=
  ((List.range c.vars.length).mapM c.accStep).map List.flatten

/-- `-q0 + 3.0 * q1 - 3.0 * q2 + q3`, joint_jerk_constraint.cpp 104. -/
def jerkF (q0 q1 q2 q3 : List K) : List K :=
  List.zipWith (· + ·) (List.zipWith (· - ·) (List.zipWith (· + ·) (q0.map fun v => -v) (q1.map fun v => 3 * v))
    (q2.map fun v => 3 * v)) q3

/-- `q0 - 3.0 * q1 + 3.0 * q2 - q3`, 118. -/
def jerkB (q0 q1 q2 q3 : List K) : List K :=
  List.zipWith (· - ·) (List.zipWith (· + ·) (List.zipWith (· - ·) q0 (q1.map fun v => 3 * v))
    (q2.map fun v => 3 * v)) q3

/-- One timestep of `JointJerkConstraint::getValues`, 97-121. -/
def Diff.jerkStep (c : Diff K) (i : Nat) : Option (List K) :=
  if i < c.vars.length - 3 then
    match c.q i, c.q (i + 1), c.q (i + 2), c.q (i + 3) with
    | some q0, some q1, some q2, some q3 => some (jerkF q0 q1 q2 q3)
    | _, _, _, _ => none
  else
    match c.q i, c.q (i - 1), c.q (i - 2), c.q (i - 3) with
    | some q0, some q1, some q2, some q3 => some (jerkB q0 q1 q2 q3)
    | _, _, _, _ => none

/-- `JointJerkConstraint::getValues`, 90-124. -/
def Diff.jerkValues (c : Diff K) : Option (List K) :=
  ((List.range c.vars.length).mapM c.jerkStep).map List.flatten

/-- `startVec(row)` and a series of `insertBack(row, col)`: columns must be in range and increasing. -/
def insertRow (n : Nat) : List (Nat × K) → Option (List (Nat × K))
  | [] => some []
  | [q] => if q.1 < n then some [q] else none
  | q :: q' :: l => if q.1 < q'.1 then (insertRow n (q' :: l)).map fun l => q :: l else none

/-- `position_vars_[i]->getIndex()`. -/
def Diff.col (c : Diff K) (i : Nat) : Option Nat := c.vars[i]?.map Var.index

/-- One segment of `JointVelConstraint::getJacobian`, joint_velocity_constraint.cpp 128-144; `n` is the number of
optimization variables. -/
def Diff.velJacStep (c : Diff K) (n seg : Nat) : Option (List (List (Nat × K))) :=
  match c.col seg, c.col (seg + 1) with
  | some col0, some col1 => (List.range c.nDof).mapM fun k => insertRow n [(col0 + k, -1), (col1 + k, 1)]
  | _, _ => none

/-- `JointVelConstraint::getJacobian`, 123-148. -/
def Diff.velJac (c : Diff K) (n : Nat) : Option (List (List (Nat × K))) :=
  ((List.range (c.vars.length - 1)).mapM (c.velJacStep n)).map List.flatten

/-- One timestep of `JointAccelConstraint::getJacobian`, joint_acceleration_constraint.cpp 131-169. -/
def Diff.accJacStep (c : Diff K) (n i : Nat) : Option (List (List (Nat × K))) :=
  if i < c.vars.length - 2 then
    match c.col i, c.col (i + 1), c.col (i + 2) with
    | some a, some b, some d =>
      (List.range c.nDof).mapM fun k => insertRow n [(a + k, 1), (b + k, -2), (d + k, 1)]
    | _, _, _ => none
  else
    match c.col (i - 2), c.col (i - 1), c.col i with
    | some a, some b, some d =>
      (List.range c.nDof).mapM fun k => insertRow n [(a + k, 1), (b + k, -2), (d + k, 1)]
    | _, _, _ => none

/-- `JointAccelConstraint::getJacobian`, 125-173. -/
def Diff.accJac (c : Diff K) (n : Nat) : Option (List (List (Nat × K))) :=
  ((List.range c.vars.length).mapM (c.accJacStep n)).map List.flatten

/-- One timestep of `JointJerkConstraint::getJacobian`, joint_jerk_constraint.cpp 138-178. -/
def Diff.jerkJacStep (c : Diff K) (n i : Nat) : Option (List (List (Nat × K))) :=
  if i < c.vars.length - 3 then
    match c.col i, c.col (i + 1), c.col (i + 2), c.col (i + 3) with
    | some a, some b, some d, some e =>
      (List.range c.nDof).mapM fun k => insertRow n [(a + k, -1), (b + k, 3), (d + k, -3), (e + k, 1)]
    | _, _, _, _ => none
  else
    match c.col (i - 3), c.col (i - 2), c.col (i - 1), c.col i with
    | some a, some b, some d, some e =>
      (List.range c.nDof).mapM fun k => insertRow n [(a + k, -1), (b + k, 3), (d + k, -3), (e + k, 1)]
    | _, _, _, _ => none

/-- `JointJerkConstraint::getJacobian`, 131-182. -/
def Diff.jerkJac (c : Diff K) (n : Nat) : Option (List (List (Nat × K))) :=
  ((List.range c.vars.length).mapM (c.jerkJacStep n)).map List.flatten

/-! ### `JointPosConstraint` -/

/-- `coeffs_`, `bounds_`, `indices_` of `JointPosConstraint`; `rows_` is the number of indices. -/
structure JointPos (K : Type u) where
  coeffs : List K
  bounds : List (Bounds K)
  indices : List Nat

/-- Constructor from a target, joint_position_constraint.cpp 36-77. -/
def JointPos.newTarget (target coeffs : List K) : Option (JointPos K) :=
  if ¬ ∀ c ∈ coeffs, 0 < c then none
  else
    let cs := match coeffs with
      | [c] => List.replicate target.length c
      | _ => coeffs
    if cs.length ≠ target.length then none
    else some ⟨cs, target.map fun t => Bounds.mk' (.fin t) (.fin t), List.range target.length⟩

/-- The splitting loop, 120-138, from joint `i` on.  It reads `coeffs[i]` of the *argument*, not of the expanded
member; out of range is undefined. -/
def splitLoop (coeffs : List K) : List (Bounds K) → Nat → Option (List (Bounds K × Nat × K))
  | [], _ => some []
  | b :: bs, i =>
    match coeffs[i]?, splitLoop coeffs bs (i + 1) with
    | some c, some l =>
      if b.type = .rangeBound then
        some ((Bounds.mk' b.lower .posInf, i, c) :: (Bounds.mk' .negInf b.upper, i, c) :: l)
      else some ((b, i, c) :: l)
    | _, _ => none

/-- Constructor from bounds, 79-146; `split` is `kSplitToTwoInequalities`. -/
def JointPos.newBounds (bounds : List (Bounds K)) (coeffs : List K) (split : Bool) : Option (JointPos K) :=
  if ¬ ∀ c ∈ coeffs, 0 < c then none
  else
    let cs? := match coeffs with
      | [] => some (List.replicate bounds.length 1)
      | [c] => some (List.replicate bounds.length c)
      | _ => if coeffs.length = bounds.length then some coeffs else none
    match cs? with
    | none => none
    | some cs =>
      if split then
        (splitLoop coeffs bounds 0).map fun l => ⟨l.map (·.2.2), l.map (·.1), l.map (·.2.1)⟩
      else some ⟨cs, bounds, List.range bounds.length⟩

/-- `getValues`, 148-156. -/
def JointPos.getValues (c : JointPos K) (jp : List K) : Option (List K) := c.indices.mapM fun i => jp[i]?

/-- `getJacobian`, 163-177, with the variable's index and the number of optimization variables. -/
def JointPos.getJacobian (c : JointPos K) (index n : Nat) : Option (List (List (Nat × K))) :=
  c.indices.mapM fun i => insertRow n [(index + i, 1)]

end
end Verif.JointConstraints
