import Verif.Model.Cartesian
import Mathlib.Analysis.SpecialFunctions.Pow.Real

/-!
Model of `trajopt_ifopt/src/constraints/cartesian_line_constraint.cpp`.

A pose is a translation and a rotation of an abstract type `R`; the product of poses, forward kinematics, quaternion
interpolation (`slerp`) and the pose error functions are parameters.  Doubles are real numbers.  A throwing constructor, a
failed assertion and an out-of-range access are `none`.
-/

namespace Verif.CartLine

open Verif.Bounds
open Verif.Cartesian (Arm Poses perturb eps)
open Verif.JointConstraints (insertRow)

universe u v

/-- `Eigen::Isometry3d`. -/
structure Pose (R : Type v) where
  t : Fin 3 → ℝ
  r : R

/-- Eigen's `dot`. -/
noncomputable def dot3 (a b : Fin 3 → ℝ) : ℝ := a 0 * b 0 + a 1 * b 1 + a 2 * b 2

/-- Eigen's `norm`. -/
noncomputable def norm3 (a : Fin 3 → ℝ) : ℝ := Real.sqrt (dot3 a a)

/-- Eigen's `normalized`: the zero vector is returned as it is. -/
noncomputable def normalized (a : Fin 3 → ℝ) : Fin 3 → ℝ := fun i => if 0 < norm3 a then a i / norm3 a else a i

variable {Name : Type u} {R : Type v} {n : Nat}

/-- `CartLineInfo` and the data members of `CartLineConstraint`; `index` is `position_var_->getIndex()`. -/
structure CartLine (Name : Type u) (R : Type v) (n : Nat) where
  arm : Arm Name (Pose R) ℝ n
  index : Nat
  source : Name
  target : Name
  sourceOffset : Pose R
  offset1 : Pose R
  offset2 : Pose R
  indices : List Nat
  coeffs : List ℝ
  bounds : List (Bounds ℝ)
  numeric : Bool

/-- `CartLineInfo::CartLineInfo`, 44-73, and `CartLineConstraint::CartLineConstraint`, 77-117; `approx` is
`target_frame_offset1.isApprox(target_frame_offset2)`. -/
noncomputable def CartLine.new (approx : Pose R → Pose R → Bool) (arm : Arm Name (Pose R) ℝ n) (index : Nat) (source target : Name)
    (offset1 offset2 sourceOffset : Pose R) (indices : List Nat) (coeffs : List ℝ) : Option (CartLine Name R n) :=
  if !arm.has source then none
  else if !arm.has target then none
  else if approx offset1 offset2 then none
  else if 6 < indices.length then none
  else if indices.length = 0 then none
  else if n = 0 then none
  else if coeffs.length ≠ indices.length then none
  else some ⟨arm, index, source, target, sourceOffset, offset1, offset2, indices, coeffs,
    List.replicate indices.length default0, true⟩

/-- `setBounds`, 148-152. -/
def CartLine.setBounds (c : CartLine Name R n) (bs : List (Bounds ℝ)) : Option (CartLine Name R n) :=
  if bs.length = 6 then some { c with bounds := bs } else none

/-- `mag` in `getLinePoint`, 275-285. -/
noncomputable def mag (source target1 target2 : Pose R) : ℝ :=
  dot3 (fun i => |source.t i - target1.t i|) (normalized fun i => target2.t i - target1.t i)

/-- `getLinePoint`, 271-308. -/
noncomputable def CartLine.linePoint (slerp : ℝ → R → R → R) (c : CartLine Name R n) (source target1 target2 : Pose R) : Pose R where
  t := if 1 < mag source target1 target2 then c.offset2.t
    else if mag source target1 target2 < 0 then c.offset1.t
    else fun i => c.offset1.t i + mag source target1 target2 * normalized (fun i => target2.t i - target1.t i) i
  r := slerp (mag source target1 target2) target1.r target2.r

section
variable [Mul (Pose R)]

def CartLine.sourceTf (c : CartLine Name R n) (q : Fin n → ℝ) : Pose R := c.arm.fk q c.source * c.sourceOffset
def CartLine.targetTf1 (c : CartLine Name R n) (q : Fin n → ℝ) : Pose R := c.arm.fk q c.target * c.offset1
def CartLine.targetTf2 (c : CartLine Name R n) (q : Fin n → ℝ) : Pose R := c.arm.fk q c.target * c.offset2

/-- The line point at given joint values, 128 and 164. -/
noncomputable def CartLine.lineTf (slerp : ℝ → R → R → R) (c : CartLine Name R n) (q : Fin n → ℝ) : Pose R :=
  c.linePoint slerp (c.sourceTf q) (c.targetTf1 q) (c.targetTf2 q)

/-- `calcValues`, 119-139. -/
noncomputable def CartLine.values (slerp : ℝ → R → R → R) (P : Poses (Pose R) ℝ) (c : CartLine Name R n) (q : Fin n → ℝ) :
    Option (List ℝ) :=
  Cartesian.pick c.indices (P.error (c.lineTf slerp q) (c.sourceTf q))

/-- `error_diff_function_`, 96-116. -/
noncomputable def CartLine.errorDiff (slerp : ℝ → R → R → R) (P : Poses (Pose R) ℝ) (c : CartLine Name R n) (q q' : Fin n → ℝ) :
    Option (List ℝ) :=
  Cartesian.pick c.indices (P.diffBoth (c.lineTf slerp q) (c.lineTf slerp q') (c.sourceTf q) (c.sourceTf q'))

/-- `getJacobian` and `calcJacobianBlock`, 154-261: with numeric differentiation the block of `jac0`, whose rows are already
reduced, is read at `info_.indices[i]` for `i` up to six (179-188).  The other branch assigns a vector of six entries to
`jac0.col(c).tail(3)` (230), which Eigen does not allow. -/
noncomputable def CartLine.jacobian (slerp : ℝ → R → R → R) (P : Poses (Pose R) ℝ) (c : CartLine Name R n) (numVars : Nat)
    (q : Fin n → ℝ) : Option (List (List (Nat × ℝ))) :=
  if c.numeric then
    match (List.finRange n).mapM (fun j => c.errorDiff slerp P q (perturb q j eps)) with
    | none => none
    | some cols =>
      (List.range 6).mapM fun i =>
        match c.indices[i]? with
        | none => none
        | some r =>
          if i < c.indices.length ∧ r < c.indices.length then
            insertRow numVars ((List.finRange n).map fun j =>
              (c.index + j.val, ((cols.getD j.val []).getD r 0) / eps))
          else none
  else none

end

end Verif.CartLine
