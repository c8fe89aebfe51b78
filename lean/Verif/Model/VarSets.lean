import Verif.Model.Bounds

/-!
Model of `trajopt_ifopt/src/variable_sets/var.cpp`, `node.cpp` and `nodes_variables.cpp`.

Vars are shared between the node that owns them and the constraints that read them; here the owner is read.  Names,
parent pointers, the value hash and the observers are not modelled.  A failed assert or an out-of-range segment is
`none`; a throwing constructor is `none` as well.
-/

namespace Verif.VarSets

open Verif.Bounds (Lo Hi getClosestValidPoint)

universe u

/-- `Var`: `index_`, `values_`, `bounds_`; its size is the size of `values_` (var.cpp 77). -/
structure Var (K : Type u) where
  index : Nat
  values : List K
  bounds : List (Lo K × Hi K)

/-- What a caller passes to `Node::addVar`: initial values and bounds. -/
structure VarSpec (K : Type u) where
  nNames : Nat
  values : List K
  bounds : List (Lo K × Hi K)

/-- `Node`: `vars_` and `length_`. -/
structure Node (K : Type u) where
  vars : List (Var K)
  length : Nat

/-- `NodesVariables`: `nodes_`, `values_`, `bounds_`, `n_dim_`; `rows_` is `n_dim_` (nodes_variables.cpp 47). -/
structure NodesVariables (K : Type u) where
  nodes : List (Node K)
  values : List K
  bounds : List (Lo K × Hi K)
  nDim : Nat

section
variable {K : Type u} [Field K] [LinearOrder K]

/-- `Var::Var` (vector form), var.cpp 46-72: throws when the sizes differ, and moves the values into the bounds.  The
scalar form, 29-44, is the case of one name. -/
def Var.new (index : Nat) (s : VarSpec K) : Option (Var K) :=
  if s.nNames ≠ s.bounds.length then none
  else if s.nNames ≠ s.values.length then none
  else some ⟨index, getClosestValidPoint s.values s.bounds, s.bounds⟩

/-- `Node::addVar`, node.cpp 36-53. -/
def Node.addVar (n : Node K) (s : VarSpec K) : Option (Node K) :=
  match Var.new n.length s with
  | none => none
  | some v => some ⟨n.vars ++ [v], n.length + s.nNames⟩

/-- `Node::Node`, 28. -/
def Node.new : Node K := ⟨[], 0⟩

/-- `Node::getValues`, 57-67. -/
def Node.getValues (n : Node K) : List K := n.vars.flatMap Var.values

/-- `Node::getBounds`, 69-78. -/
def Node.getBounds (n : Node K) : List (Lo K × Hi K) := n.vars.flatMap Var.bounds

/-- `Node::incrementIndex`, 88-92 and `Var::incrementIndex`, var.cpp 82. -/
def Node.incrementIndex (n : Node K) (k : Nat) : Node K :=
  { n with vars := n.vars.map fun v => { v with index := v.index + k } }

/-- `Var::setVariables`, var.cpp 83-88. -/
def Var.setVariables (x : List K) (v : Var K) : Option (Var K) :=
  if v.index < x.length ∧ 0 < v.values.length ∧ v.index + (v.values.length - 1) < x.length then
    some { v with values := (x.drop v.index).take v.values.length }
  else none

/-- `Node::setVariables`, node.cpp 82-86. -/
def Node.setVariables (x : List K) (n : Node K) : Option (Node K) :=
  (n.vars.mapM (Var.setVariables x)).map fun vs => { n with vars := vs }

/-- `NodesVariables::addNode`, nodes_variables.cpp 64-75. -/
def NodesVariables.addNode (s : NodesVariables K) (n : Node K) : NodesVariables K :=
  let n := n.incrementIndex s.nDim
  { s with nodes := s.nodes ++ [n], bounds := s.bounds ++ n.getBounds, nDim := s.nDim + n.length }

/-- Constructor, 39-62; the assert of line 61 is `none`. -/
def NodesVariables.new (nodes : List (Node K)) : Option (NodesVariables K) :=
  let s := nodes.foldl NodesVariables.addNode ⟨[], [], [], 0⟩
  let values := s.nodes.flatMap Node.getValues
  if values.length = s.bounds.length then some { s with values := values } else none

/-- `setVariables`, 79-88. -/
def NodesVariables.setVariables (s : NodesVariables K) (x : List K) : Option (NodesVariables K) :=
  (s.nodes.mapM (Node.setVariables x)).map fun ns => { s with nodes := ns, values := x }

/-- A node built by a caller: `addVar` for every entry. -/
def buildNode (l : List (VarSpec K)) : Option (Node K) := l.foldlM Node.addVar Node.new

/-- All nodes built and handed to the constructor. -/
def build (l : List (List (VarSpec K))) : Option (NodesVariables K) :=
  match l.mapM buildNode with
  | none => none
  | some ns => NodesVariables.new ns

/-- All variables, in order. -/
def NodesVariables.vars (s : NodesVariables K) : List (Var K) := s.nodes.flatMap Node.vars

end
end Verif.VarSets
