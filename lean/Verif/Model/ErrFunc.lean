import Verif.Model.OsqpModel
import Verif.Model.NumDiff

/-!
Model of `trajopt_sco/src/modeling_utils.cpp`: costs and constraints given by user functions.

Simplifications: vectors of length `n` are `Fin n → K`; `n` is the number of variables of the term and `m`
the number of rows of the error function, so a Jacobian of the wrong shape cannot be expressed.  The weight
vector is either empty (`none`) or has one entry per row (`some w`); other sizes are undefined behaviour in
the code (unchecked `coeffs_[i]`) and are not modelled.  A variable is its handle in the solver model.
The symmetric eigenvalue solver of Eigen is an arbitrary function returning eigenvalues and eigenvectors.
-/

namespace Verif.Sco

open Verif.NumDiff

universe u
variable {K : Type u} [Field K] {n m : Nat}

/-- `getVec`, modeling_utils.cpp 15-21. -/
def getVec (x : Nat → K) (vars : Fin n → Nat) : Fin n → K := fun i => x (vars i)

/-- Eigen's `dot`. -/
def dot (a b : Fin n → K) : K := ((List.finRange n).map fun i => a i * b i).sum

/-- `affFromValGrad`, 31-39. -/
def affFromValGrad [LinearOrder K] (y : K) (x dydx : Fin n → K) (vars : Fin n → Nat) : AffExpr K Nat :=
  AffExpr.cleanup ⟨y - dot dydx x, (List.finRange n).map fun i => (dydx i, vars i)⟩

/-- `sco::PenaltyType`, modeling_utils.hpp. -/
inductive PenaltyType | squared | abs | hinge
  deriving DecidableEq

/-- The step `DEFAULT_EPSILON = 1e-5`, line 13. -/
def defaultEpsilon : K := 1 / 100000

/-- `sco::CostFromErrFunc`; `dfdx = none` is a null Jacobian pointer. -/
structure ErrFunc (K : Type u) (n m : Nat) where
  f : (Fin n → K) → Fin m → K
  dfdx : Option ((Fin n → K) → Fin m → Fin n → K)
  vars : Fin n → Nat
  coeffs : Option (Fin m → K)

/-- The penalty switch of `CostFromErrFunc::value`, 148-161. -/
def PenaltyType.apply [LinearOrder K] : PenaltyType → K → K
  | .squared, e => e * e
  | .abs, e => |e|
  | .hinge, e => max e 0

/-- `CostFromErrFunc::value`, 143-167. -/
def ErrFunc.costValue [LinearOrder K] (c : ErrFunc K n m) (pen : PenaltyType) (x : Nat → K) : K :=
  let err := c.f (getVec x c.vars)
  let err := fun i => pen.apply (err i)
  let err := match c.coeffs with
    | none => err
    | some w => fun i => err i * w i
  ((List.finRange m).map err).sum

/-- The Jacobian used by both `convex` functions, 171 and 250. -/
def ErrFunc.jac (c : ErrFunc K n m) (junk : Fin n → Fin m → K) (x : Fin n → K) : Fin m → Fin n → K :=
  match c.dfdx with
  | some d => d x
  | none => calcForwardNumJac junk c.f x defaultEpsilon

/-- Body of the loop of `CostFromErrFunc::convex`, 174-209. -/
def ErrFunc.costRow [LinearOrder K] (c : ErrFunc K n m) (pen : PenaltyType) (y : Fin m → K)
    (jac : Fin m → Fin n → K) (x : Fin n → K) (s : OModel K × ConvexObjective K) (i : Fin m) :
    Option (OModel K × ConvexObjective K) :=
  let aff := affFromValGrad (y i) x (jac i) c.vars
  let add := fun (weight : K) => match pen with
    | .squared => some (s.1, s.2.addQuadExpr (aff.square.scale weight))
    | .abs => ConvexObjective.addAbs s (aff.scale weight) 1
    | .hinge => ConvexObjective.addHinge s (aff.scale weight) 1
  match c.coeffs with
  | none => add 1
  | some w => if w i = 0 then some s else add (w i)

/-- `CostFromErrFunc::convex`, 168-211. -/
def ErrFunc.costConvex [LinearOrder K] (c : ErrFunc K n m) (pen : PenaltyType) (junk : Fin n → Fin m → K)
    (x : Nat → K) (mdl : OModel K) : Option (OModel K × ConvexObjective K) :=
  let xe := getVec x c.vars
  let jac := c.jac junk xe
  let y := c.f xe
  (List.finRange m).foldlM (c.costRow pen y jac xe) (mdl, ConvexObjective.new)

/-- `ConstraintFromErrFunc::value`, 238-245. -/
def ErrFunc.cntValue (c : ErrFunc K n m) (x : Nat → K) : List K :=
  let err := c.f (getVec x c.vars)
  let err := match c.coeffs with
    | none => err
    | some w => fun i => err i * w i
  (List.finRange m).map err

/-- `Constraint::violations`, modeling.cpp 150-167. -/
def ErrFunc.cntViolations [LinearOrder K] (c : ErrFunc K n m) (eq : Bool) (x : Nat → K) : List K :=
  (c.cntValue x).map fun v => if eq then |v| else if 0 < v then v else 0

/-- `Constraint::violation`, modeling.cpp 169. -/
def ErrFunc.cntViolation [LinearOrder K] (c : ErrFunc K n m) (eq : Bool) (x : Nat → K) : K :=
  (c.cntViolations eq x).foldl (· + ·) 0

/-- Body of the loop of `ConstraintFromErrFunc::convex`, 253-267. -/
def ErrFunc.cntRow [LinearOrder K] (c : ErrFunc K n m) (eq : Bool) (y : Fin m → K)
    (jac : Fin m → Fin n → K) (x : Fin n → K) (s : ConvexConstraints K) (i : Fin m) : ConvexConstraints K :=
  let aff := affFromValGrad (y i) x (jac i) c.vars
  let add := fun aff => if eq then s.addEq aff else s.addIneq aff
  match c.coeffs with
  | none => add aff
  | some w => if w i = 0 then s else add (aff.scale (w i))

/-- `ConstraintFromErrFunc::convex`, 247-269. -/
def ErrFunc.cntConvex [LinearOrder K] (c : ErrFunc K n m) (eq : Bool) (junk : Fin n → Fin m → K)
    (x : Nat → K) : ConvexConstraints K :=
  let xe := getVec x c.vars
  let jac := c.jac junk xe
  let y := c.f xe
  (List.finRange m).foldl (c.cntRow eq y jac xe) ConvexConstraints.new

/-- `sco::CostFromFunc`. -/
structure FuncCost (K : Type u) (n : Nat) where
  f : (Fin n → K) → K
  vars : Fin n → Nat
  fullHessian : Bool

/-- `CostFromFunc::value`, 46-50. -/
def FuncCost.value (c : FuncCost K n) (x : Nat → K) : K := c.f (getVec x c.vars)

/-- The nested loop over `i` and `j > i` that writes the quadratic terms, 97-108. -/
def fullTerms (P : Fin n → Fin n → K) (vars : Fin n → Nat) : List (Fin n) → List (K × Nat × Nat)
  | [] => []
  | i :: js => (P i i / 2, vars i, vars i) :: (js.map fun j => (P i j, vars i, vars j)) ++ fullTerms P vars js

/-- The loop 83-87: the part of the Hessian with positive eigenvalues. -/
def posHess [LinearOrder K] (eig : (Fin n → K) × (Fin n → Fin n → K)) : Fin n → Fin n → K :=
  (List.finRange n).foldl (fun P i =>
    if 0 < eig.1 i then fun r c => P r c + eig.1 i * eig.2 i r * eig.2 i c else P) fun _ _ => 0

/-- `CostFromFunc::convex`, 52-113; `eig` is the eigenvalue solver (eigenvalues, eigenvectors by index).
The affine part and terms of `quad_` are assigned, not added. -/
def FuncCost.convex [LinearOrder K] (c : FuncCost K n) (junk : Fin n → K)
    (eig : (Fin n → Fin n → K) → (Fin n → K) × (Fin n → Fin n → K)) (x : Nat → K) : ConvexObjective K :=
  let xe := getVec x c.vars
  if c.fullHessian then
    let r := calcGradHess junk c.f xe defaultEpsilon
    let P := posHess (eig r.2.2)
    let Px := fun i => dot (P i) xe
    { ConvexObjective.new with
      quad :=
        { aff := { constant := r.1 - dot r.2.1 xe + 1 / 2 * dot xe Px
                   terms := (List.finRange n).map fun i => (r.2.1 i - Px i, c.vars i) }
          terms := fullTerms P c.vars (List.finRange n) } }
  else
    let r := calcGradAndDiagHess junk c.f xe defaultEpsilon
    let h := fun i => max (r.2.2 i) 0
    { ConvexObjective.new with
      quad :=
        { aff := { constant := r.1 - dot r.2.1 xe + 1 / 2 * dot xe fun i => h i * xe i
                   terms := (List.finRange n).map fun i => (r.2.1 i - h i * xe i, c.vars i) }
          terms := (List.finRange n).map fun i => (h i * (1 / 2), c.vars i, c.vars i) } }

end Verif.Sco
