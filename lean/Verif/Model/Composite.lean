import Verif.Model.Sparse

/-!
Model of `trajopt_ifopt/src/core/composite.cpp` (`CompositeDifferentiable`) and of the cost side of
`trajopt_ifopt/src/core/problem.cpp` (`Problem`).

A component is what the composite reads of it: its row count, values, coefficients, bounds and Jacobian.  The
Jacobian is a row-major Eigen matrix in the code and `SMat` (column major) here; only the order in which its triplets
are listed differs, and `setFromTriplets` sums them.  Eigen block accesses out of range are `none` (undefined
behaviour, an assert in debug builds).  `non_zeros_` is only used for reserving memory and is not modelled.
-/

namespace Verif.Composite

open Verif.Bounds (Lo Hi)
open Verif.Sco (SMat setFromTriplets)

universe u

/-- What a `Differentiable` answers: component.h 217-283. -/
structure Comp (K : Type u) where
  rows : Nat
  values : List K
  coeffs : List K
  bounds : List (Lo K × Hi K)
  jac : SMat K

/-- `Differentiable::Mode`, component.h 198-202. -/
inductive Mode | stackRows | sumToScalar
  deriving DecidableEq

/-- `CompositeDifferentiable`: `num_vars_`, `mode_`, `dynamic_`, `rows_`, `components_`. -/
structure Composite (K : Type u) where
  numVars : Nat
  mode : Mode
  dynamic : Bool
  rows : Nat
  comps : List (Comp K)

section
variable {K : Type u}

/-- Constructor, composite.cpp 38-41. -/
def Composite.new (numVars : Nat) (mode : Mode) (dynamic : Bool) : Composite K := ⟨numVars, mode, dynamic, 0, []⟩

/-- `addComponent`, 43-50. -/
def Composite.add (s : Composite K) (c : Comp K) : Composite K :=
  { s with rows := s.rows + c.rows, comps := s.comps ++ [c] }

/-- `clearComponents`, 54-58. -/
def Composite.clear (s : Composite K) : Composite K := { s with rows := 0, comps := [] }

/-- `update`, 72-92; `upd` is what the components look like after their own `update()`.  The sum of their row counts
is stored only if the composite is dynamic; the failed assert of line 90 is `none`. -/
def Composite.update (s : Composite K) (upd : Comp K → Comp K) : Option (Composite K × Nat) :=
  let comps := s.comps.map upd
  let rows := comps.foldl (fun n c => n + c.rows) 0
  let s' : Composite K := { s with rows := if s.dynamic then rows else s.rows, comps := comps }
  if s'.rows = rows then some (s', s'.rows) else none

/-- `row` after a component, 102-103. -/
def Composite.next (s : Composite K) (row : Nat) (c : Comp K) : Nat :=
  match s.mode with
  | .stackRows => row + c.rows
  | .sumToScalar => row

/-- `g_all.middleRows(row, n) += v`, line 101. -/
def addSegment [Add K] (g : List K) (row n : Nat) (v : List K) : Option (List K) :=
  if v.length = n ∧ row + n ≤ g.length then
    some (g.take row ++ (List.zipWith (· + ·) ((g.drop row).take n) v ++ g.drop (row + n)))
  else none

/-- The loop of `getValues`/`getCoefficients`, 99-104 and 113-118. -/
def Composite.stack [Add K] (s : Composite K) (f : Comp K → List K) :
    List (Comp K) → List K → Nat → Option (List K)
  | [], g, _ => some g
  | c :: cs, g, row =>
    match addSegment g row c.rows (f c) with
    | none => none
    | some g' => s.stack f cs g' (s.next row c)

/-- `getValues`, 94-106. -/
def Composite.getValues [Add K] [Zero K] (s : Composite K) : Option (List K) :=
  s.stack Comp.values s.comps (List.replicate s.rows 0) 0

/-- `getCoefficients`, 108-120. -/
def Composite.getCoefficients [Add K] [Zero K] (s : Composite K) : Option (List K) :=
  s.stack Comp.coeffs s.comps (List.replicate s.rows 0) 0

/-- The triplet loop of `getJacobian`, 133-143. -/
def Composite.jacTriplets (s : Composite K) : List (Comp K) → Nat → List (Nat × Nat × K)
  | [], _ => []
  | c :: cs, row => c.jac.triplets.map (fun t => (row + t.1, t.2.1, t.2.2)) ++ s.jacTriplets cs (s.next row c)

/-- `getJacobian`, 122-147. -/
def Composite.getJacobian [Field K] [DecidableEq K] (s : Composite K) : Option (SMat K) :=
  if s.numVars = 0 then some ⟨s.rows, []⟩
  else setFromTriplets s.rows s.numVars (s.jacTriplets s.comps 0)

/-- `getBounds`, 149-160. -/
def Composite.getBounds (s : Composite K) : List (Lo K × Hi K) := s.comps.flatMap Comp.bounds

/-- Public operations that change a composite. -/
inductive Op (K : Type u)
  | add (c : Comp K)
  | clear
  | update (upd : Comp K → Comp K)

def Composite.apply (s : Composite K) : Op K → Option (Composite K)
  | .add c => some (s.add c)
  | .clear => some s.clear
  | .update upd => (s.update upd).map Prod.fst

/-! ### `Problem` -/

/-- What a `CostTerm` computes from the variables: its value and gradient row.  `CostTerm::getValues` (cost_term.cpp
39-44) is the single value, `getBounds` (46-49) is no bound. -/
structure CostTerm (K : Type u) where
  cost : List K → K
  grad : List K → SMat K

/-- A cost term as the composite sees it at `x`: one row (cost_term.cpp 37). -/
def CostTerm.comp [One K] (t : CostTerm K) (x : List K) : Comp K := ⟨1, [t.cost x], [1], [(none, none)], t.grad x⟩

/-- `Problem`: the current variables and the cost terms added so far. -/
structure Problem (K : Type u) where
  x : List K
  costs : List (CostTerm K)

/-- `addCostSet`, problem.cpp 49-53. -/
def Problem.addCostSet (p : Problem K) (t : CostTerm K) : Problem K := { p with costs := p.costs ++ [t] }

/-- `setVariables`, 61-67. -/
def Problem.setVariables (p : Problem K) (x : List K) : Problem K := { p with x := x }

/-- `costs_`: created with `kStackRows`, not dynamic (line 39), filled by `addCostSet`, read at the current `x`. -/
def Problem.composite [One K] (p : Problem K) : Composite K :=
  p.costs.foldl (fun s t => s.add (t.comp p.x)) (Composite.new p.x.length .stackRows false)

/-- `evaluateCostFunction`, 69-76; `g(0)` of an empty vector would be out of range. -/
def Problem.evaluateCostFunction [Field K] (p : Problem K) : Option K :=
  if p.composite.rows > 0 then
    match p.composite.getValues with
    | none => none
    | some g => g[0]?
  else some 0

/-- `jac.row(0)` as a dense vector. -/
def denseRow0 [Field K] [DecidableEq K] (M : SMat K) : List K :=
  M.cols.map fun c => ((c.find? fun q => q.1 = 0).map Prod.snd).getD 0

/-- The loop of 92-99, from variable `i` on: the variables are disturbed one at a time. -/
def Problem.fdLoop [Field K] (p : Problem K) (x : List K) (eps g : K) : List Nat → Option (List K)
  | [] => some []
  | i :: is =>
    match (p.setVariables (x.modify i (· + eps))).evaluateCostFunction, p.fdLoop x eps g is with
    | some gNew, some l => some ((gNew - g) / eps :: l)
    | _, _ => none

/-- `evaluateCostFunctionGradient`, 78-109: the gradient and the problem afterwards. -/
def Problem.evaluateCostFunctionGradient [Field K] [DecidableEq K] (p : Problem K) (fd : Bool) (eps : K) :
    Option (List K × Problem K) :=
  if p.composite.rows > 0 then
    if fd then
      match p.evaluateCostFunction with
      | none => none
      | some g => (p.fdLoop p.x eps g (List.range p.x.length)).map fun l => (l, p.setVariables p.x)
    else p.composite.getJacobian.map fun J => (denseRow0 J, p)
  else some (List.replicate p.x.length 0, p)

end
end Verif.Composite
