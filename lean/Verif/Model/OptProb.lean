import Mathlib.Algebra.Field.Defs
import Mathlib.Data.List.Basic

/-!
The bookkeeping of `sco::OptProb` (trajopt_sco/src/modeling.cpp 175-248 and include/trajopt_sco/modeling.hpp 197-277).

A variable is known by the identity of its `VarRep`, a number chosen by the caller of the model (a fresh address).  `var_rep->index` is the
place of the variable in the model's own list: `addVar` gives it the current size and `update` renumbers after removals (osqp_interface.cpp
123-130, 147-173).  Variables that somebody else creates on the model (`getModel()->addVar`, the convex models of hinge and absolute values)
are `foreign`; their removal is modelled together with the `update` that follows it.  `E` is a double including the infinities, `C` and `F`
are constraints and costs, `type` of a constraint is given with it.  A failing `assert` is `assertion`, a write behind the end of a vector is
`undefined`.  `addLinearConstraint` only talks to the model and is left out, and so are the functions for feasible points (C11).
-/

namespace Verif.OptProb

universe u
variable {E C F : Type u}

/-- `ConstraintType`, modeling.hpp 24. -/
inductive Kind
  | eq
  | ineq
  deriving DecidableEq

/-- `OptProb` with the variable list of its model. -/
structure Prob (E C F : Type u) where
  model : List Nat
  vars : List Nat
  lower : List E
  upper : List E
  costs : List F
  eqs : List C
  ineqs : List C

/-- A new problem, modeling.cpp 170-173. -/
def Prob.new : Prob E C F := ⟨[], [], [], [], [], [], []⟩

inductive Outc (E C F : Type u)
  | ok (p : Prob E C F)
  | assertion
  | undefined

/-- the loop of `createVariables`, 189-194 -/
def Prob.push (p : Prob E C F) : List Nat → List E → List E → Prob E C F
  | v :: vs, l :: ls, h :: hs =>
    Prob.push { p with model := p.model ++ [v], vars := p.vars ++ [v], lower := p.lower ++ [l], upper := p.upper ++ [h] } vs ls hs
  | _, _, _ => p

/-- `createVariables`, 180-197; `ids` are the `VarRep`s made for the names. -/
def Prob.create (p : Prob E C F) (ids : List Nat) (lb ub : List E) : Outc E C F :=
  if lb.length = ids.length ∧ ub.length = ids.length then .ok (p.push ids lb ub) else .assertion

/-- the vector `createVariables` returns, 196 -/
def Prob.created (p : Prob E C F) (n : Nat) : List Nat := p.vars.drop (p.vars.length - n)

/-- `setVec`, modeling.hpp 270-277, after its assert; the index is that of the model. -/
def setVec (model : List Nat) : List E → List Nat → List E → Option (List E)
  | x, v :: vs, a :: as =>
    if model.idxOf v < x.length then setVec model (x.set (model.idxOf v) a) vs as else none
  | x, _, _ => some x

/-- `setLowerBounds(lb)`, 199-203. -/
def Prob.setLower (p : Prob E C F) (lb : List E) : Outc E C F :=
  if lb.length = p.vars.length then .ok { p with lower := lb } else .assertion

/-- `setUpperBounds(ub)`, 205-209. -/
def Prob.setUpper (p : Prob E C F) (ub : List E) : Outc E C F :=
  if ub.length = p.vars.length then .ok { p with upper := ub } else .assertion

/-- `setLowerBounds(lb, vars)`, 211. -/
def Prob.setLowerOf (p : Prob E C F) (lb : List E) (vars : List Nat) : Outc E C F :=
  if vars.length = lb.length then
    match setVec p.model p.lower vars lb with
    | none => .undefined
    | some x => .ok { p with lower := x }
  else .assertion

/-- `setUpperBounds(ub, vars)`, 212. -/
def Prob.setUpperOf (p : Prob E C F) (ub : List E) (vars : List Nat) : Outc E C F :=
  if vars.length = ub.length then
    match setVec p.model p.upper vars ub with
    | none => .undefined
    | some x => .ok { p with upper := x }
  else .assertion

/-- `addEqConstraint`, 222-226; the type is that of the constraint. -/
def Prob.addEq (p : Prob E C F) (k : Kind) (c : C) : Outc E C F :=
  if k = .eq then .ok { p with eqs := p.eqs ++ [c] } else .assertion

/-- `addIneqConstraint`, 228-232. -/
def Prob.addIneq (p : Prob E C F) (k : Kind) (c : C) : Outc E C F :=
  if k = .ineq then .ok { p with ineqs := p.ineqs ++ [c] } else .assertion

/-- `addConstraint`, 214-220. -/
def Prob.addConstraint (p : Prob E C F) (k : Kind) (c : C) : Outc E C F :=
  if k = .eq then p.addEq k c else p.addIneq k c

/-- `addCost`, 213. -/
def Prob.addCost (p : Prob E C F) (f : F) : Outc E C F := .ok { p with costs := p.costs ++ [f] }

/-- `getConstraints`, 234-241. -/
def Prob.getConstraints (p : Prob E C F) : List C := p.eqs ++ p.ineqs

/-- `getNumConstraints`, modeling.hpp 257 (as a number without the cast to `int`). -/
def Prob.getNumConstraints (p : Prob E C F) : Nat := p.eqs.length + p.ineqs.length

/-- The calls of a user and of others with access to the model. -/
inductive Op (E C F : Type u)
  | create (ids : List Nat) (lb ub : List E)
  | setLower (lb : List E)
  | setUpper (ub : List E)
  | setLowerOf (lb : List E) (vars : List Nat)
  | setUpperOf (ub : List E) (vars : List Nat)
  | addCost (f : F)
  | addConstraint (k : Kind) (c : C)
  | addEq (k : Kind) (c : C)
  | addIneq (k : Kind) (c : C)
  | foreign (ids : List Nat)
  | removeForeign (ids : List Nat)

def Prob.call (p : Prob E C F) : Op E C F → Outc E C F
  | .create ids lb ub => p.create ids lb ub
  | .setLower lb => p.setLower lb
  | .setUpper ub => p.setUpper ub
  | .setLowerOf lb vars => p.setLowerOf lb vars
  | .setUpperOf ub vars => p.setUpperOf ub vars
  | .addCost f => p.addCost f
  | .addConstraint k c => p.addConstraint k c
  | .addEq k c => p.addEq k c
  | .addIneq k c => p.addIneq k c
  | .foreign ids => .ok { p with model := p.model ++ ids }
  | .removeForeign ids => .ok { p with model := p.model.filter fun v => !ids.contains v }

def Prob.run (p : Prob E C F) : List (Op E C F) → Outc E C F
  | [] => .ok p
  | op :: ops =>
    match p.call op with
    | .ok q => q.run ops
    | r => r

end Verif.OptProb
