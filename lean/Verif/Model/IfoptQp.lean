import Verif.Model.QpProblem
import Verif.Model.IfoptCosts

/-!
Model of `trajopt_optimizers/trajopt_sqp/src/ifopt_qp_problem.cpp` (`IfoptQPProblem`).

A constraint set is what the problem reads of it at the current variables: values, Jacobian, coefficients and bounds.
The composites of `trajopt_ifopt::Problem` stack their components in order (modelled in `Composite.lean`, C34); here the
stacked vectors are concatenations.  Sparse sums and products are modelled by triplets, doubles are field elements,
`sqrt` is `std::sqrt`.  Failed asserts, out-of-range accesses and exceptions are `none`, except in `addCostSet`, whose
exception leaves a changed problem behind.  The debug names are not modelled.
-/

namespace Verif.IfoptQp

open Verif.Bounds Verif.Sco Verif.SqpExprs
open Verif.QpProblem (thr sides writeSeg rowMul Penalty)

universe u

/-- What is read of a `ConstraintSet` at the current variables. -/
structure Snap (K : Type u) where
  values : List K
  jac : Mat K
  coeffs : List K
  bounds : List (Bounds K)

/-- A `ConstraintSet`: `isDynamic` and its answers as a function of the variables. -/
structure CSet (K : Type u) where
  dynamic : Bool
  ask : (Nat → K) → Snap K

/-- `IfoptQPProblem`: the wrapped problem (`nVars`, `varBounds`, `costs`, `cnts`, `x`) and the members. -/
structure State (K : Type u) where
  nVars : Nat
  varBounds : List (Lo K × Hi K)
  x : Nat → K
  costs : List (Bool × CSet K) := []
  cnts : List (CSet K) := []
  costSets : List (CSet K) := []
  nCnts : Nat := 0
  nCosts : Nat := 0
  nQpVars : Nat := 0
  nQpCnts : Nat := 0
  types : List BType := []
  box : List K := []
  meritCoeff : List K := []
  costConstant : List K := []
  cntConstant : List K := []
  lower : List (Ext K) := []
  upper : List (Ext K) := []
  hessian : SMat K := ⟨0, []⟩
  gradient : List K := []
  matrix : SMat K := ⟨0, []⟩

section
variable {K : Type u} [Field K] [LinearOrder K]

/-- `addConstraintSet`, 42-48; dynamic sets throw. -/
def State.addConstraintSet (s : State K) (c : CSet K) : Option (State K) :=
  if c.dynamic then none else some { s with cnts := s.cnts ++ [c] }

/-- `addCostSet`, 50-78: the problem afterwards and whether the call returned normally (`false`: it threw).  The raw set
is stored before the penalty type is looked at.  A cost of the wrapped problem is a pair of "squared" and its set. -/
def State.addCostSet (s : State K) (c : CSet K) (p : Penalty) : State K × Bool :=
  if c.dynamic then (s, false)
  else
    let s := { s with costSets := s.costSets ++ [c] }
    match p with
    | .squared => ({ s with costs := s.costs ++ [(true, c)] }, true)
    | .absolute => ({ s with costs := s.costs ++ [(false, c)] }, true)
    | .hinge => (s, false)

/-- Bounds of all constraints, `getBoundsOnConstraints`. -/
def State.cntBounds (s : State K) : List (Bounds K) := s.cnts.flatMap fun c => (c.ask s.x).bounds
/-- Values of all constraints, `getConstraints().getValues()`. -/
def State.cntValues (s : State K) : List K := s.cnts.flatMap fun c => (c.ask s.x).values
/-- Rows of the stacked Jacobian, `getJacobianOfConstraints`. -/
def State.cntJac (s : State K) : List (List (Nat × K)) := s.cnts.flatMap fun c => (c.ask s.x).jac.rows

/-- Slack variables of a row, 119-136; other types throw. -/
def slacksOf : BType → Option Nat
  | .equality => some 2
  | .lowerBound => some 1
  | .upperBound => some 1
  | _ => none

/-- Slack variables of all rows. -/
def slackCount : List BType → Option Nat
  | [] => some 0
  | t :: ts => match slacksOf t, slackCount ts with
    | some k, some n => some (k + n)
    | _, _ => none

/-- `setup`, 80-141. -/
def State.setup (s : State K) : Option (State K) :=
  let types := s.cntBounds.map (·.type)
  match slackCount types with
  | none => none
  | some k => some
    { s with
      nCnts := types.length
      nCosts := s.costs.length
      nQpVars := s.nVars + k
      nQpCnts := types.length + s.nVars + k
      types := types
      costConstant := [0]
      box := List.replicate s.nVars (1 / 10)
      meritCoeff := List.replicate types.length 10
      lower := List.replicate (types.length + s.nVars + k) .negInf
      upper := List.replicate (types.length + s.nVars + k) .posInf }

/-- `setVariables`, 143. -/
def State.setVariables (s : State K) (x : Nat → K) : State K := { s with x := x }

/-- The sets with a stored Jacobian entry, 195-196 and 268-269. -/
def State.active (s : State K) : List (Snap K) :=
  (s.costSets.map fun c => c.ask s.x).filter fun c => c.jac.nonZeros ≠ 0

/-- 198-205: the rows of `diag(sqrt|w|) J`. -/
def weightedRows (sqrt : K → K) (c : Snap K) : Option (List (List (Nat × K))) :=
  if c.coeffs.length = c.jac.rows.length then
    some (List.zipWith (fun r w => scaleRow (sqrt |w|) r) c.jac.rows c.coeffs)
  else none

/-- `updateHessian`, 168-240. -/
def State.hessianOf (sqrt : K → K) (s : State K) : Option (SMat K) :=
  if s.active = [] then setFromTriplets s.nQpVars s.nQpVars []
  else match s.active.mapM (weightedRows sqrt) with
    | none => none
    | some rows => match setFromTriplets s.nVars s.nVars (rows.flatMap gramTriplets) with
      | none => none
      | some H => setFromTriplets s.nQpVars s.nQpVars (H.triplets.map fun t => (t.1, t.2.1, thr t.2.2))

/-- 271-277: column `col` of `2 J^T (w .* e)`. -/
def gradPart (c : Snap K) (col : Nat) : K :=
  2 * (List.zipWith (fun r we => at' r col * we) c.jac.rows
    (List.zipWith (· * ·) c.coeffs (calcBoundsErrors c.values (c.bounds.map sides)))).sum

/-- Sizes that lines 271-277 rely on. -/
def gradSized (c : Snap K) : Bool :=
  c.values.length = c.jac.rows.length && c.bounds.length = c.jac.rows.length && c.coeffs.length = c.jac.rows.length

/-- 291-312: costs of the slack variables. -/
def slackGrad : List BType → List K → Option (List K)
  | [], _ => some []
  | t :: ts, m :: ms => match slacksOf t, slackGrad ts ms with
    | some k, some l => some (List.replicate k m ++ l)
    | _, _ => none
  | _, _ => none

/-- Number of stored entries. -/
def stored (M : SMat K) : Nat := (M.cols.map List.length).sum

/-- `updateGradient`, 242-313, with the Hessian just stored. -/
def State.gradientOf (s : State K) (H : SMat K) : Option (List K) :=
  if s.active.all gradSized then
    let g := (List.range s.nVars).map fun col => (s.active.map fun c => gradPart c col).sum
    let g := if 0 < stored H then
      (List.range s.nVars).map fun col => g.getD col 0 - 2 * rowMul H s.nVars col s.x else g
    match slackGrad s.types s.meritCoeff with
    | none => none
    | some l => some (g ++ l)
  else none

/-- 325-335: the entries of the Jacobian, small ones as explicit zeros. -/
def jacTriplets : Nat → List (List (Nat × K)) → List (Nat × Nat × K)
  | _, [] => []
  | row, r :: rs => r.map (fun q => (row, q.1, thr q.2)) ++ jacTriplets (row + 1) rs

/-- 338-360: slack columns. -/
def slackTriplets : Nat → Nat → List BType → Option (List (Nat × Nat × K))
  | _, _, [] => some []
  | row, col, t :: ts =>
    match t with
    | .equality => (slackTriplets (row + 1) (col + 2) ts).map fun l => (row, col, 1) :: (row, col + 1, -1) :: l
    | .lowerBound => (slackTriplets (row + 1) (col + 1) ts).map fun l => (row, col, 1) :: l
    | .upperBound => (slackTriplets (row + 1) (col + 1) ts).map fun l => (row, col, -1) :: l
    | _ => none

/-- `linearizeConstraints`, 315-371. -/
def State.matrixOf (s : State K) : Option (SMat K) :=
  match slackTriplets 0 s.nVars s.types with
  | none => none
  | some sl => setFromTriplets s.nQpCnts s.nQpVars
      (jacTriplets 0 s.cntJac ++ sl ++ (List.range s.nQpVars).map fun i => (i + s.cntJac.length, i, 1))

/-- 397 and 520: `x^T H x` over the variables of the problem. -/
def State.quadTerm (s : State K) (H : SMat K) (z : Nat → K) : K :=
  ((List.range s.nVars).map fun r => z r * rowMul H s.nVars r z).sum

/-- 398 and 521: `x . g` over the variables of the problem. -/
def State.linTerm (s : State K) (g : List K) (z : Nat → K) : K :=
  ((List.range s.nVars).map fun r => z r * g.getD r 0).sum

/-- Value of a cost of the wrapped problem: `SquaredCost`/`AbsoluteCost` built without weights (63-73). -/
def State.costValue (s : State K) (c : Bool × CSet K) : Option K :=
  let q := c.2.ask s.x
  let w : IfoptCosts.Cost K := IfoptCosts.Cost.newOnes q.values.length
  let st : IfoptCosts.CState K := ⟨q.values, q.bounds.map sides, ⟨q.jac.cols, q.jac.rows⟩⟩
  if c.1 then w.squared st else w.absolute st

/-- `getExactCosts`, 527-533. -/
def State.getExactCosts (s : State K) : Option (List K) := s.costs.mapM s.costValue

/-- `getTotalExactCost`, 525: `Problem::evaluateCostFunction` returns the first row (see `Composite.lean`, C35). -/
def State.getTotalExactCost (s : State K) : Option K :=
  match s.getExactCosts with
  | none => none
  | some [] => some 0
  | some (v :: _) => some v

/-- `updateCostsConstantExpression`, 373-400. -/
def State.costConstantOf (s : State K) (H : SMat K) (g : List K) : Option (List K) :=
  if s.nCosts = 0 then some s.costConstant
  else s.getExactCosts.map fun vs => vs.map fun v => v - s.quadTerm H s.x - s.linTerm g s.x

/-- `updateConstraintsConstantExpression`, 402-428. -/
def State.cntConstantOf (s : State K) (M : SMat K) : Option (List K) :=
  if s.nCnts = 0 then some s.cntConstant
  else if s.cntValues.length = s.nCnts then
    some (s.cntValues.zipIdx.map fun v => v.1 - rowMul M s.nVars v.2 s.x)
  else none

/-- `updateNLPConstraintBounds`, 430-452. -/
def State.cntBoundsOf (s : State K) (cs : List K) (lower upper : List (Ext K)) : Option (List (Ext K) × List (Ext K)) :=
  if s.nCnts = 0 then some (lower, upper)
  else if s.cntBounds.length = s.nCnts ∧ cs.length = s.nCnts then
    match writeSeg lower 0 (List.zipWith (fun b c => addScalar b.lower (-c)) s.cntBounds cs),
      writeSeg upper 0 (List.zipWith (fun b c => addScalar b.upper (-c)) s.cntBounds cs) with
    | some l, some u => some (l, u)
    | _, _ => none
  else none

/-- One variable of 474-476: clamped first to the upper, then to the lower bound. -/
def boxOf (box x : K) (b : Lo K × Hi K) : K × K :=
  let xc := maxLo (minHi x b.2) b.1
  (maxLo (xc - box) b.1, minHi (xc + box) b.2)

/-- `updateNLPVariableBounds`, 454-479. -/
def State.varBoundsOf (s : State K) (lower upper : List (Ext K)) : Option (List (Ext K) × List (Ext K)) :=
  if s.box.length = s.nVars ∧ s.varBounds.length = s.nVars then
    let iv := (List.range s.nVars).map fun i => boxOf (s.box.getD i 0) (s.x i) (s.varBounds.getD i (none, none))
    match writeSeg lower s.nCnts (iv.map fun i => .fin i.1), writeSeg upper s.nCnts (iv.map fun i => .fin i.2) with
    | some l, some u => some (l, u)
    | _, _ => none
  else none

/-- `updateSlackVariableBounds`, 481-507. -/
def State.slackBoundsOf (s : State K) (lower upper : List (Ext K)) : Option (List (Ext K) × List (Ext K)) :=
  match slackCount s.types with
  | none => none
  | some k =>
    match writeSeg lower (s.nCnts + s.nVars) (List.replicate k (.fin 0)),
      writeSeg upper (s.nCnts + s.nVars) (List.replicate k .posInf) with
    | some l, some u => some (l, u)
    | _, _ => none

/-- `convexify`, 146-166. -/
def State.convexify (sqrt : K → K) (s : State K) : Option (State K) := do
  let H ← s.hessianOf sqrt
  let g ← s.gradientOf H
  let M ← s.matrixOf
  let cc ← s.costConstantOf H g
  let kc ← s.cntConstantOf M
  let b ← s.cntBoundsOf kc s.lower s.upper
  let b ← s.varBoundsOf b.1 b.2
  let b ← s.slackBoundsOf b.1 b.2
  some { s with hessian := H, gradient := g, matrix := M, costConstant := cc, cntConstant := kc, lower := b.1, upper := b.2 }

/-- `evaluateConvexCosts`, 514-523. -/
def State.evaluateConvexCosts (s : State K) (z : Nat → K) : List K :=
  if s.nCosts = 0 then []
  else s.costConstant.map fun c => c + s.linTerm s.gradient z + s.quadTerm s.hessian z

/-- `evaluateTotalConvexCost`, 509-512. -/
def State.evaluateTotalConvexCost (s : State K) (z : Nat → K) : K := (s.evaluateConvexCosts z).sum

/-- `evaluateConvexConstraintViolations`, 535-545. -/
def State.evaluateConvexConstraintViolations (s : State K) (z : Nat → K) : List K :=
  calcBoundsViolations ((List.range s.nCnts).map fun r => s.cntConstant.getD r 0 + rowMul s.matrix s.nVars r z)
    (s.cntBounds.map sides)

/-- `getExactConstraintViolations`, 547-554. -/
def State.getExactConstraintViolations (s : State K) : List K :=
  calcBoundsViolations s.cntValues (s.cntBounds.map sides)

/-- `setBoxSize`, 562-567. -/
def State.setBoxSize (s : State K) (b : List K) : Option (State K) :=
  if b.length = s.nVars then
    let s := { s with box := b }
    (s.varBoundsOf s.lower s.upper).map fun b => { s with lower := b.1, upper := b.2 }
  else none

/-- `scaleBoxSize`, 556-560. -/
def State.scaleBoxSize (s : State K) (a : K) : Option (State K) :=
  let s := { s with box := s.box.map (· * a) }
  (s.varBoundsOf s.lower s.upper).map fun b => { s with lower := b.1, upper := b.2 }

/-- `setConstraintMeritCoeff`, 569-573. -/
def State.setConstraintMeritCoeff (s : State K) (m : List K) : Option (State K) :=
  if m.length = s.nCnts then some { s with meritCoeff := m } else none

end
end Verif.IfoptQp
