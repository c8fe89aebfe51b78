import Verif.Model.Bounds

/-!
Model of `trajopt_ifopt/src/costs/squared_cost.cpp` and `absolute_cost.cpp`.

The wrapped constraint is what the costs read of it at the current variables: values, bounds (fixed) and a row-major
Jacobian, given as the stored (column, value) pairs of every row.  Sizes that do not fit together (the weights are
copied without a check, and a dynamic constraint may change its row count later) are undefined behaviour: `none`.
-/

namespace Verif.IfoptCosts

open Verif.Bounds

universe u

/-- `Jacobian`: a row-major sparse matrix. -/
structure RMat (K : Type u) where
  cols : Nat
  rows : List (List (Nat × K))

/-- What a cost reads of the wrapped `ConstraintSet` at the current variables. -/
structure CState (K : Type u) where
  values : List K
  bounds : List (Lo K × Hi K)
  jac : RMat K

/-- `SquaredCost`/`AbsoluteCost`: `n_constraints_` and `weights_`. -/
structure Cost (K : Type u) where
  nConstraints : Nat
  weights : List K

section
variable {K : Type u} [Field K] [LinearOrder K]

/-- Constructors with weights, squared_cost.cpp 38-45 and absolute_cost.cpp 38-45. -/
def Cost.new (rows : Nat) (weights : List K) : Cost K := ⟨rows, weights.map fun w => |w|⟩

/-- Constructors without weights, 33-36. -/
def Cost.newOnes (rows : Nat) : Cost K := Cost.new rows (List.replicate rows 1)

/-- `SquaredCost::getCost`, 53-59. -/
def Cost.squared (c : Cost K) (s : CState K) : Option K :=
  if s.values.length = s.bounds.length ∧ c.weights.length = s.values.length then
    some (List.zipWith (fun w e => w * (e * e)) c.weights (calcBoundsErrors s.values s.bounds)).sum
  else none

/-- `AbsoluteCost::getCost`, 53-59. -/
def Cost.absolute (c : Cost K) (s : CState K) : Option K :=
  if s.values.length = s.bounds.length ∧ c.weights.length = s.values.length then
    some (List.zipWith (fun w e => w * e) c.weights (calcBoundsViolations s.values s.bounds)).sum
  else none

/-- Scaling of one row, squared_cost.cpp 77-78. -/
def scaleRow (c : K) (row : List (Nat × K)) : List (Nat × K) := row.map fun q => (q.1, q.2 * c)

/-- 74-79: row `r` scaled by `2 * weights_[r] * error[r]`; reading past the end of either vector is undefined. -/
def scaleRows : List (List (Nat × K)) → List K → List K → Option (List (List (Nat × K)))
  | [], _, _ => some []
  | row :: rows, w :: ws, e :: es =>
    match scaleRows rows ws es with
    | none => none
    | some l => some (scaleRow (2 * w * e) row :: l)
  | _, _, _ => none

/-- 87-90: column sums in a dense vector. -/
def colSums (n : Nat) (rows : List (List (Nat × K))) : List K :=
  rows.foldl (fun acc row => row.foldl (fun acc q => acc.modify q.1 (· + q.2)) acc) (List.replicate n 0)

/-- 92-96: the columns with a sum other than zero, in order. -/
def nonZeros (l : List K) : List (Nat × K) :=
  (l.zipIdx.filter fun q => q.1 ≠ 0).map fun q => (q.2, q.1)

/-- `SquaredCost::getJacobian`, 63-100: the single row. -/
def Cost.squaredJac (c : Cost K) (s : CState K) : Option (List (Nat × K)) :=
  if s.values.length = s.bounds.length then
    (scaleRows s.jac.rows c.weights (calcBoundsErrors s.values s.bounds)).map fun rows =>
      nonZeros (colSums s.jac.cols rows)
  else none

/-- One entry of `coeff`, absolute_cost.cpp 75-81; `none` when `weights_[i]` is out of range. -/
def absCoeff (w : Option K) (e : K) : Option K :=
  if |e| < 1 / 10 ^ 12 then some 0
  else if 0 < e then w
  else w.map fun w => -w

/-- The loop of 73-82. -/
def absCoeffs : List K → List K → Option (List K)
  | _, [] => some []
  | ws, e :: es =>
    match absCoeff ws.head? e, absCoeffs ws.tail es with
    | some c, some l => some (c :: l)
    | _, _ => none

/-- `AbsoluteCost::getJacobian`, 63-91: `coeff^T * J`, then `sparseView` (drops exact zeros). -/
def Cost.absoluteJac (c : Cost K) (s : CState K) : Option (List (Nat × K)) :=
  if s.values.length = s.bounds.length ∧ s.values.length = c.nConstraints ∧ s.jac.rows.length = c.nConstraints then
    (absCoeffs c.weights (calcBoundsErrors s.values s.bounds)).map fun cs =>
      nonZeros (colSums s.jac.cols (List.zipWith scaleRow cs s.jac.rows))
  else none

end
end Verif.IfoptCosts
