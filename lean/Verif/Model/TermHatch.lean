import Verif.Model.Construct
import Verif.Model.Cartesian
import Verif.Model.CollisionTerms

/-!
# `hatch` of the pose and collision terms

`/repo/trajopt/src/problem_description.cpp` 751-822 (`DynamicCartPoseTermInfo::hatch`), 901-987 (`CartPoseTermInfo::hatch`) and
1714-1837 (`CollisionTermInfo::hatch`), put together from the models of their parts: the selected rows and the calculators
(Cartesian.lean), the lists of steps and evaluator types (Problem.lean), the collision terms (CollisionTerms.lean).

The pose calculators are functions on lists; where one of them fails (tolerances that are neither empty nor six, which the code
does not check) its rows are zero here, and the theorems exclude it.
The contact checker is a function of the evaluator type and the joint values of the one or two steps of a term: its cache and the
choice of the discrete or the continuous manager are C43 and C67.
-/

namespace Verif.TermHatch

open Verif.Construct Verif.Problem Verif.BasicArray Verif.Sco
open Verif.KinTerms (TermType)



variable {Name T K : Type} {n : Nat}

/-- `CartPoseTermInfo` and `DynamicCartPoseTermInfo` (`dynamic`), problem_description.hpp; `coeffs` is `pos_coeffs` followed by
`rot_coeffs`. -/
structure PoseInfo (Name T K : Type) where
  dynamic : Bool
  timestep : Int
  source : Name
  target : Name
  sourceOffset : T
  targetOffset : T
  coeffs : Fin 6 → K
  lower : List K
  upper : List K

section pose
variable [Field K] [LinearOrder K]

/-- The data given to the calculators, 781-799 and 935-951, 957-973. -/
def PoseInfo.legacy (info : PoseInfo Name T K) (arm : Cartesian.Arm Name T K n) : Cartesian.Legacy Name T K n :=
  ⟨arm, info.source, info.target, info.sourceOffset, info.targetOffset, (Cartesian.termRows info.coeffs).map (·.1), info.lower, info.upper⟩

variable [Mul T]

/-- The error function, Jacobian, variables and coefficients of the term. -/
def PoseInfo.func (close : List K → List K → Bool) (P : Cartesian.Poses T K) (arm : Cartesian.Arm Name T K n) (info : PoseInfo Name T K)
    (vs : List Nat) : ErrFunc K n (Cartesian.termRows info.coeffs).length :=
  let c := info.legacy arm
  ⟨fun q r => ((if info.dynamic then c.dynamicError close P q else c.poseError close P q).getD []).getD r.val 0,
    some fun q r j => (((if info.dynamic then c.dynamicJac P q else c.poseJac P q).getD []).getD j.val []).getD r.val 0,
    fun j => vs.getD j.val 0, some fun r => ((Cartesian.termRows info.coeffs).get r).2⟩

/-- 751-822 and 901-987: with the time flag nothing is added; the calculators reject their tolerances when they are built. -/
def PoseInfo.hatch (close : List K → List K → Bool) (P : Cartesian.Poses T K) (arm : Cartesian.Arm Name T K n) (info : PoseInfo Name T K)
    (vars : BArr Nat) (tt : TermType) : Res (List (FuncAdded K n (Cartesian.termRows info.coeffs).length)) :=
  if tt.useTime then .ok []
  else if !tt.cost && !tt.cnt then (if info.dynamic && !(info.legacy arm).valid then .exc else .ok [])
  else if !(info.legacy arm).valid then .exc
  else match vars.rblock info.timestep 0 n with
    | none => .exc
    | some vs =>
      if tt.cost then .ok [.cost .abs (info.func close P arm vs)]
      else .ok [.cnt true (info.func close P arm vs)]

end pose

section collision
variable [LinearOrder Name] [Field K] [LinearOrder K]

/-- The evaluators made for the types, collision_terms.cpp 768-814 and 1006-1052. -/
def kindOf : EvalType → CollisionTerms.Kind
  | .startFreeEndFree => .bothFree
  | .startFreeEndFixed => .startFree
  | .startFixedEndFree => .endFree
  | .singleTimeStep => .single

/-- `CollisionConstraint` (or `CollisionCost`) with the variables of one or two steps, 1333-1366. -/
def collision (debug : Bool) (g : CollisionTerms.Group Name K n) (cfg : CollisionTerms.Config Name K) (c : CollTerm) :
    CollisionTerms.Term Name K n :=
  ⟨g, cfg, kindOf c.type, fun j => c.vars0.getD j.val 0, fun j => c.vars1.getD j.val 0, debug⟩

/-- 1714-1837 `CollisionTermInfo::hatch`: whether costs are added (exactly for the type `TT_COST`), and the terms; `discrete`: the
evaluator type is `DISCRETE`. -/
def collisionHatch (debug discrete : Bool) (g : CollisionTerms.Group Name K n) (cfg : CollisionTerms.Config Name K) (first last : Nat)
    (fixed : List Int) (vars : BArr Nat) (tt : TermType) : Res (Bool × List (CollisionTerms.Term Name K n)) :=
  match if discrete then hatchDiscrete vars n first last fixed else hatchContinuous vars n first last fixed with
  | .ok l => .ok (tt.cost && !tt.cnt && !tt.useTime, l.map (collision debug g cfg))
  | .exc => .exc
  | .ub => .ub

/-- `CalcCollisions`: the contacts at the values of the variables of the term. -/
def contactsAt (test : CollisionTerms.Kind → (Fin n → K) → (Fin n → K) → CollisionTerms.HitMap Name K)
    (t : CollisionTerms.Term Name K n) (x : Nat → K) : CollisionTerms.HitMap Name K :=
  match t.kind with
  | .single => test .single (getVec x t.vars0) (getVec x t.vars0)
  | k => test k (getVec x t.vars0) (getVec x t.vars1)

end collision

end Verif.TermHatch
