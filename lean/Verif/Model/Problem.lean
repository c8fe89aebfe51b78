import Verif.Model.Expr
import Verif.Model.BasicArray

/-!
# Problem construction of the legacy package

Parts of `trajopt/src/problem_description.cpp` and `trajopt/src/utils.cpp`:
fixed timesteps and joints, step ranges of the joint terms, collision terms, joint subsets, variable arrays.
-/

namespace Verif.Problem

open Verif.BasicArray Verif.Sco

/-- Outcome of a call: a result, an exception, or behaviour the code does not define
(Eigen access outside a matrix; Eigen asserts this in debug builds only). -/
inductive Res (α : Type) where
  | ok (a : α)
  | exc
  | ub
deriving DecidableEq

/-- Sequencing of outcomes. -/
def Res.bind {α β : Type} : Res α → (α → Res β) → Res β
  | .ok a, f => f a
  | .exc, _ => .exc
  | .ub, _ => .ub

instance : Monad Res where
  pure := .ok
  bind := Res.bind

section fixed
variable {K : Type} [Field K]

/-- What `ConstructProblem` knows when it adds the fixed constraints (problem_description.cpp 450-483): the number of
steps and joints, whether there is a time column, and the initial trajectory, whose size has been checked. -/
structure Setup (K : Type) where
  nSteps : Nat
  nDof : Nat
  useTime : Bool
  init : Nat → Nat → K

/-- Columns of the trajectory (problem_description.cpp 590). -/
def Setup.cols (s : Setup K) : Nat := s.nDof + if s.useTime then 1 else 0

/-- problem_description.cpp 553-592: the variables are created in row-major order and wrapped in `m_traj_vars`. -/
def Setup.vars (s : Setup K) : BArr Nat := BArr.ofData s.nSteps s.cols (List.range (s.nSteps * s.cols))

/-- `init_traj(i, j)`: undefined outside the matrix. -/
def Setup.initAt (s : Setup K) (i j : Int) : Res K :=
  if 0 ≤ i ∧ i < s.nSteps ∧ 0 ≤ j ∧ j < s.cols then .ok (s.init i.toNat j.toNat) else .ub

/-- `m_traj_vars(i, j)`: throws `std::out_of_range` if the flat index is outside the data. -/
def Setup.varAt (s : Setup K) (i j : Int) : Res Nat :=
  match s.vars.at i j with
  | some v => .ok v
  | none => .exc

/-- problem_description.cpp 502-503 and 526-527: `exprSub(AffExpr(var), init)`.  The order of evaluation of the two
arguments is unspecified; the model takes the undefined access first. -/
def Setup.pin (s : Setup K) (i j : Int) : Res (AffExpr K Nat) := do
  let c ← s.initAt i j
  let v ← s.varAt i j
  pure ((AffExpr.ofVar v).decConst c)

/-- problem_description.cpp 485-506: constraints for the fixed timesteps. -/
def Setup.fixSteps (s : Setup K) (steps : List Int) : Res (List (AffExpr K Nat)) :=
  steps.foldlM (fun acc t =>
    if (s.nSteps : Int) < t then .exc
    else (List.range s.nDof).foldlM (fun (acc : List (AffExpr K Nat)) (j : Nat) => do
      let e ← s.pin t j
      pure (acc ++ [e])) acc) []

/-- problem_description.cpp 509-530: constraints for the fixed joints, skipping the fixed timesteps. -/
def Setup.fixDofs (s : Setup K) (steps dofs : List Int) (acc : List (AffExpr K Nat)) : Res (List (AffExpr K Nat)) :=
  dofs.foldlM (fun acc d =>
    if (s.nDof : Int) < d then .exc
    else (List.range s.nSteps).foldlM (fun (acc : List (AffExpr K Nat)) (i : Nat) =>
      if (i : Int) ∈ steps then pure acc
      else do
        let e ← s.pin i d
        pure (acc ++ [e])) acc) acc

/-- problem_description.cpp 485-530: both loops; the result is the list of equality constraints added. -/
def Setup.fixed (s : Setup K) (steps dofs : List Int) : Res (List (AffExpr K Nat)) := do
  let l ← s.fixSteps steps
  s.fixDofs steps dofs l

end fixed

section ranges

/-- problem_description.cpp 1087-1107 `JointPosTermInfo::hatch`: normalisation of the step range; `n` is
`prob.GetNumSteps()`. -/
def posRange (n first last : Int) : Int × Int :=
  let last := if last ≤ -1 then n - 1 else last
  let first := if n - 1 ≤ first then n - 1 else first
  let last := if n - 1 ≤ last then n - 1 else last
  let p := if last < first then (last, first) else (first, last)
  (p.1, if p.2 = -1 then p.1 else p.2)

/-- problem_description.cpp 1206-1221 (`JointVelTermInfo`), 1402-1417 (`JointAccTermInfo`), 1524-1539
(`JointJerkTermInfo`): the same statements with `k` steps needed after the first one and `inc` added to a range of one
step. -/
def diffRange (k inc n first last : Int) : Int × Int :=
  let last := if last ≤ -1 then n - 1 else last
  let first := if n - 1 - k ≤ first then n - 1 - k else first
  let last := if n - 1 ≤ last then n - 1 else last
  let last := if last = first then last + inc else last
  if last < first then (last, first) else (first, last)

/-- problem_description.cpp 1206-1221. -/
def velRange (n first last : Int) : Int × Int := diffRange 1 1 n first last
/-- problem_description.cpp 1402-1417. -/
def accRange (n first last : Int) : Int × Int := diffRange 2 2 n first last
/-- problem_description.cpp 1524-1539. -/
def jerkRange (n first last : Int) : Int × Int := diffRange 3 4 n first last

end ranges

section collision

/-- `CollisionExpressionEvaluatorType` as far as used by `CollisionTermInfo::hatch`. -/
inductive EvalType where
  | startFreeEndFree
  | startFreeEndFixed
  | startFixedEndFree
  | singleTimeStep
deriving DecidableEq

/-- One collision cost or constraint: the step in its name, the variables of its rows, the evaluator type. -/
structure CollTerm where
  step : Nat
  vars0 : List Nat
  vars1 : List Nat
  type : EvalType
deriving DecidableEq

/-- `prob.GetVarRow(i, 0, n_dof)` (problem_description.hpp 81). -/
def varRow (vars : BArr Nat) (nDof : Nat) (i : Nat) : Res (List Nat) :=
  match vars.rblock i 0 nDof with
  | some l => .ok l
  | none => .exc

/-- problem_description.cpp 1731-1747 (and 1791-1807): choice of the evaluator type. -/
def chooseType (cur next : Bool) : Res EvalType :=
  if !cur && !next then .ok .startFreeEndFree
  else if cur then .ok .startFixedEndFree
  else if next then .ok .startFreeEndFixed
  else .exc

/-- The steps of `for (i = first; i < last; ++i)`. -/
def stepsFrom (first last : Nat) : List Nat := (List.range (last - first)).map (first + ·)

/-- problem_description.cpp 1726-1760 (cost) and 1786-1820 (constraint): one term per pair of consecutive steps. -/
def hatchContinuous (vars : BArr Nat) (nDof first last : Nat) (fixed : List Int) : Res (List CollTerm) :=
  (stepsFrom first last).foldlM (fun acc (i : Nat) => do
    let cur := decide ((i : Int) ∈ fixed)
    let next := decide ((i : Int) + 1 ∈ fixed)
    let t ← chooseType cur next
    let v0 ← varRow vars nDof i
    let v1 ← varRow vars nDof (i + 1)
    pure (acc ++ [⟨i, v0, v1, t⟩])) []

/-- problem_description.cpp 1761-1775 (cost) and 1821-1835 (constraint): one term per step that is not fixed. -/
def hatchDiscrete (vars : BArr Nat) (nDof first last : Nat) (fixed : List Int) : Res (List CollTerm) :=
  (stepsFrom first (last + 1)).foldlM (fun acc (i : Nat) =>
    if (i : Int) ∈ fixed then pure acc
    else do
      let v0 ← varRow vars nDof i
      pure (acc ++ [⟨i, v0, [], .singleTimeStep⟩])) []

end collision

section subset
variable {N V : Type} [DecidableEq N]

/-- utils.cpp 91-104 `isSuperset`. -/
def isSuperset (sub sup : List N) : Bool :=
  if sub.all (fun s => decide (s ∈ sup)) then decide (sub.length < sup.length) else false

/-- utils.cpp 113-125: the loop of `updateFromSubset`; the pair is the return value and the output vector. -/
def updateLoop (sup : List N) : List (N × V) → List V → Bool × List V
  | [], out => (true, out)
  | (n, v) :: rest, out =>
    if n ∈ sup then updateLoop sup rest (out.set (sup.idxOf n) v) else (false, out)

/-- utils.cpp 106-127 `updateFromSubset`. -/
def updateFromSubset (sup : List N) (supVals : List V) (sub : List N) (subVals : List V) : Bool × List V :=
  updateLoop sup (sub.zip subVals) supVals

/-- utils.cpp 134-150: the loop of `getSubset`; `none` is the early `return false`.
An index past the end of `superset_vals` is not modelled: it yields `none` as well. -/
def getLoop (sup : List N) (supVals : List V) : List N → Option (List V)
  | [] => some []
  | n :: rest =>
    if n ∈ sup then do
      let v ← supVals[sup.idxOf n]?
      let r ← getLoop sup supVals rest
      pure (v :: r)
    else none

/-- utils.cpp 129-153 `getSubset`: `old` is the previous content of the output. -/
def getSubset (sup : List N) (supVals : List V) (sub : List N) (old : List V) : Bool × List V :=
  match getLoop sup supVals sub with
  | some out => (true, out)
  | none => (false, old)

end subset

section arrays

/-- State of the loop of `AddVarArrays`: `index[k](i, j)`, the names pushed so far (the name is determined by the array,
row and column) and `var_idx`. -/
structure AddState where
  index : Nat → Nat → Nat → Nat
  names : List (Nat × Nat × Nat)
  next : Nat

/-- utils.cpp 54-65: loops over rows, arrays and columns, in execution order, as triples (array, row, column). -/
def loopCells (rows : Nat) (cols : List Nat) : List (Nat × Nat × Nat) :=
  (List.range rows).flatMap fun i => (List.range cols.length).flatMap fun k =>
    (List.range (cols.getD k 0)).map fun j => (k, i, j)

/-- utils.cpp 60-62: loop body. -/
def AddState.step (s : AddState) (c : Nat × Nat × Nat) : AddState :=
  { index := fun k i j => if (k, i, j) = c then s.next else s.index k i j
    names := s.names ++ [c]
    next := s.next + 1 }

/-- utils.cpp 38-81 `AddVarArrays`.  `create vars names` is the variable list of the problem after
`createVariables(names)`.  The result is the new variable list and the contents of the arrays
(`none` for an access outside `getVars()`). -/
def addVarArrays {V : Type} (create : List V → List (Nat × Nat × Nat) → List V) (vars : List V) (rows : Nat) (cols : List Nat) :
    List V × (Nat → Nat → Nat → Option V) :=
  let s := (loopCells rows cols).foldl AddState.step ⟨fun _ _ _ => 0, [], vars.length⟩
  let vars' := create vars s.names
  (vars', fun k i j => vars'[s.index k i j]?)

end arrays

end Verif.Problem
