import Verif.Model.Expr
import Verif.Model.Bounds

/-!
Model of the variable and constraint bookkeeping of `sco::OSQPModel` and of the convex objects built on
top of it.

Sources (all under /repo/trajopt_sco):
* `include/trajopt_sco/solver_interface.hpp` 114-175 (`VarRep`, `Var`, `CntRep`, `Cnt`)
* `src/solver_interface.cpp` 111-150 (`Model::addVar` with bounds, `removeVar`, ...)
* `src/osqp_interface.cpp` 123-168 (add/remove), 372-438 (`update`, `setVarBounds`, `getVarValues`),
  616-617 (`setObjective`)
* `src/modeling.cpp` 15-149 (`ConvexObjective`, `ConvexConstraints`)
* `src/optimizers.cpp` 59-81 (`cntsToCosts`)

Every `VarRep`/`CntRep` ever allocated is an entry of `reps`, addressed by allocation number; a handle
(`Var`, `Cnt`) is that number, so two handles are the same pointer iff the numbers agree.  The parallel
vectors `vars_`, `lbs_`, `ubs_` (and `cnts_`, `cnt_exprs_`, `cnt_types_`) are one list of tuples, so
vectors of different length cannot be expressed.  A null `var_rep` is `none`.  Dereferencing a null
pointer or indexing out of range is the outcome `none`.  Names, the mutex and `creator` are not modelled.
Expressions mention variables by handle.
-/

namespace Verif.Sco

open Verif.Bounds (Ext)

universe u

/-- `struct VarRep` / `struct CntRep`, solver_interface.hpp 114-125, 147-162. -/
structure Rep where
  index : Nat
  removed : Bool
  deriving DecidableEq

/-- The heap of reps and one family of parallel vectors (`vars_`,`lbs_`,`ubs_` or
`cnts_`,`cnt_exprs_`,`cnt_types_`). -/
structure Store (P : Type u) where
  items : List (Option Nat × P)
  reps : List Rep

namespace Store
variable {P : Type u}

/-- A model without variables. -/
def empty : Store P := ⟨[], []⟩

/-- `addVar`/`addEqCnt`/`addIneqCnt`, osqp_interface.cpp 123-148: the new rep's index is the size of
the vector before the push. -/
def add (s : Store P) (p : P) : Store P × Nat :=
  (⟨s.items ++ [(some s.reps.length, p)], s.reps ++ [⟨s.items.length, false⟩]⟩, s.reps.length)

/-- `removeVars`/`removeCnts`, osqp_interface.cpp 152-168: mark the reps as removed. -/
def remove (s : Store P) (ids : List Nat) : Store P :=
  ⟨s.items, ids.foldl (fun rs id => rs.modify id fun r => { r with removed := true }) s.reps⟩

/-- `setVarBounds` for one variable, osqp_interface.cpp 420-428: write at the position given by
`var_rep->index`. -/
def setAt (s : Store P) (id : Nat) (p : P) : Option (Store P) :=
  match s.reps[id]? with
  | none => none
  | some r => if r.index < s.items.length
      then some ⟨s.items.modify r.index fun q => (q.1, p), s.reps⟩ else none

/-- State of the compaction loop of `update`. -/
structure CState (P : Type u) where
  items : List (Option Nat × P)
  reps : List Rep
  inew : Nat

/-- One iteration of the compaction loop, osqp_interface.cpp 376-392 (variables) and 399-415
(constraints). -/
def compactStep (s : CState P) (iold : Nat) : Option (CState P) :=
  match s.items[iold]? with
  | none => none
  | some (none, _) => none
  | some (some id, p) =>
    match s.reps[id]? with
    | none => none
    | some r =>
      if r.removed then some ⟨s.items.set iold (none, p), s.reps, s.inew⟩
      else some ⟨s.items.set s.inew (some id, p), s.reps.set id { r with index := s.inew }, s.inew + 1⟩

/-- One half of `OSQPModel::update`, osqp_interface.cpp 372-396 / 397-418: compaction in place followed
by the three `resize(inew)`. -/
def update (s : Store P) : Option (Store P) :=
  match (List.range s.items.length).foldlM compactStep ⟨s.items, s.reps, 0⟩ with
  | none => none
  | some c => some ⟨c.items.take c.inew, c.reps⟩

/-- `var_rep->index` of a handle. -/
def indexOf (s : Store P) (id : Nat) : Option Nat := (s.reps[id]?).map Rep.index

/-- `getVarValues` for one variable, osqp_interface.cpp 429-438. -/
def valueOf {K : Type u} (s : Store P) (solution : List K) (id : Nat) : Option K :=
  match s.indexOf id with
  | none => none
  | some i => solution[i]?

end Store

/-- `sco::OSQPModel` without the OSQP workspace. Constraint payload: the expression and whether it is an
equality. -/
structure OModel (K : Type u) where
  vars : Store (Ext K × Ext K)
  cnts : Store (AffExpr K Nat × Bool)
  obj : QuadExpr K Nat

section model
variable {K : Type u} [Field K]

/-- A fresh `OSQPModel`. -/
def OModel.empty : OModel K := ⟨Store.empty, Store.empty, QuadExpr.zero⟩

/-- `OSQP_INFTY` (osqp_api_constants.h of OSQP 1.0: 1e30). -/
def osqpInfty : K := 10 ^ 30

/-- `Model::addVar(name, lb, ub)`, solver_interface.cpp 111-116: `addVar(name)` with bounds
`∓OSQP_INFINITY` (osqp_interface.cpp 123-130) followed by `setVarBounds`. -/
def OModel.addVar (m : OModel K) (lb ub : Ext K) : Option (OModel K × Nat) :=
  let r := m.vars.add (Ext.fin (-osqpInfty), Ext.fin osqpInfty)
  match r.1.setAt r.2 (lb, ub) with
  | none => none
  | some v => some ({ m with vars := v }, r.2)

/-- `addEqCnt`, osqp_interface.cpp 132-139. -/
def OModel.addEqCnt (m : OModel K) (e : AffExpr K Nat) : OModel K × Nat :=
  let r := m.cnts.add (e, true)
  ({ m with cnts := r.1 }, r.2)

/-- `addIneqCnt(AffExpr)`, osqp_interface.cpp 141-148. -/
def OModel.addIneqCnt (m : OModel K) (e : AffExpr K Nat) : OModel K × Nat :=
  let r := m.cnts.add (e, false)
  ({ m with cnts := r.1 }, r.2)

/-- `removeVars`, 152-159. -/
def OModel.removeVars (m : OModel K) (ids : List Nat) : OModel K := { m with vars := m.vars.remove ids }
/-- `removeCnts`, 161-168. -/
def OModel.removeCnts (m : OModel K) (ids : List Nat) : OModel K := { m with cnts := m.cnts.remove ids }

/-- `update`, 372-418. -/
def OModel.update (m : OModel K) : Option (OModel K) :=
  match m.vars.update with
  | none => none
  | some v => match m.cnts.update with
    | none => none
    | some c => some { m with vars := v, cnts := c }

/-- `setObjective(const AffExpr&)`, 616: only the affine part is assigned. -/
def OModel.setObjectiveAff (m : OModel K) (e : AffExpr K Nat) : OModel K :=
  { m with obj := { m.obj with aff := e } }
/-- `setObjective(const QuadExpr&)`, 617. -/
def OModel.setObjectiveQuad (m : OModel K) (e : QuadExpr K Nat) : OModel K := { m with obj := e }

/-- `sco::ConvexObjective`, modeling.hpp 30-69. `inModel = false` is `model_ == nullptr`. -/
structure ConvexObjective (K : Type u) where
  inModel : Bool
  quad : QuadExpr K Nat
  vars : List Nat
  eqs : List (AffExpr K Nat)
  ineqs : List (AffExpr K Nat)
  cnts : List Nat

/-- `ConvexObjective::ConvexObjective`, modeling.cpp 15. -/
def ConvexObjective.new : ConvexObjective K := ⟨true, QuadExpr.zero, [], [], [], []⟩

/-- `addAffExpr`, 16. -/
def ConvexObjective.addAffExpr (o : ConvexObjective K) (e : AffExpr K Nat) : ConvexObjective K :=
  { o with quad := o.quad.incAff e }
/-- `addQuadExpr`, 17. -/
def ConvexObjective.addQuadExpr (o : ConvexObjective K) (q : QuadExpr K Nat) : ConvexObjective K :=
  { o with quad := o.quad.inc q }

/-- `addHinge`, 18-26. -/
def ConvexObjective.addHinge (mo : OModel K × ConvexObjective K) (e : AffExpr K Nat) (coeff : K) :
    Option (OModel K × ConvexObjective K) :=
  if mo.2.inModel then
    match mo.1.addVar (Ext.fin 0) Ext.posInf with
    | none => none
    | some (m, h) =>
      some (m, { mo.2 with
        vars := mo.2.vars ++ [h]
        ineqs := mo.2.ineqs ++ [e.decVar h]
        quad := mo.2.quad.incAff ((AffExpr.ofVar h).scale coeff) })
  else none

/-- `addAbs`, 28-51. -/
def ConvexObjective.addAbs (mo : OModel K × ConvexObjective K) (e : AffExpr K Nat) (coeff : K) :
    Option (OModel K × ConvexObjective K) :=
  if mo.2.inModel then
    match mo.1.addVar (Ext.fin 0) Ext.posInf with
    | none => none
    | some (m1, neg) =>
      match m1.addVar (Ext.fin 0) Ext.posInf with
      | none => none
      | some (m, pos) =>
        some (m, { mo.2 with
          vars := mo.2.vars ++ [neg, pos]
          quad := mo.2.quad.incAff ⟨0, [(coeff, neg), (coeff, pos)]⟩
          eqs := mo.2.eqs ++ [⟨e.constant, e.terms ++ [(1, neg), (-1, pos)]⟩] })
  else none

/-- `addHinges`, 53-59. -/
def ConvexObjective.addHinges (mo : OModel K × ConvexObjective K) (es : List (AffExpr K Nat)) :
    Option (OModel K × ConvexObjective K) :=
  es.foldlM (fun s e => ConvexObjective.addHinge s e 1) mo

/-- `addL1Norm`, 61-67. -/
def ConvexObjective.addL1Norm (mo : OModel K × ConvexObjective K) (es : List (AffExpr K Nat)) :
    Option (OModel K × ConvexObjective K) :=
  es.foldlM (fun s e => ConvexObjective.addAbs s e 1) mo

/-- `addL2Norm`, 69-73. -/
def ConvexObjective.addL2Norm (o : ConvexObjective K) (es : List (AffExpr K Nat)) : ConvexObjective K :=
  es.foldl (fun s e => { s with quad := s.quad.inc e.square }) o

/-- `addMax`, 75-84: the new variable is neither pushed to `vars_` nor added to `quad_`. -/
def ConvexObjective.addMax (mo : OModel K × ConvexObjective K) (es : List (AffExpr K Nat)) :
    Option (OModel K × ConvexObjective K) :=
  if mo.2.inModel then
    match mo.1.addVar Ext.negInf Ext.posInf with
    | none => none
    | some (m, v) => some (m, { mo.2 with ineqs := mo.2.ineqs ++ es.map fun e => e.decVar v })
  else none

/-- Add a list of constraints, remembering the handles (the loops of `addConstraintsToModel`). -/
def addCnts (eq : Bool) (mc : OModel K × List Nat) (es : List (AffExpr K Nat)) : OModel K × List Nat :=
  es.foldl (fun s e =>
    let r := if eq then s.1.addEqCnt e else s.1.addIneqCnt e
    (r.1, s.2 ++ [r.2])) mc

/-- `ConvexObjective::addConstraintsToModel`, 86-97: equalities, then inequalities. -/
def ConvexObjective.addConstraintsToModel (mo : OModel K × ConvexObjective K) :
    Option (OModel K × ConvexObjective K) :=
  if mo.2.inModel then
    let r := addCnts false (addCnts true (mo.1, mo.2.cnts) mo.2.eqs) mo.2.ineqs
    some (r.1, { mo.2 with cnts := r.2 })
  else none

/-- `ConvexObjective::~ConvexObjective`, 105-109, with `removeFromModel`, 99-104. -/
def ConvexObjective.destroy (mo : OModel K × ConvexObjective K) : OModel K × ConvexObjective K :=
  if mo.2.inModel then
    ((mo.1.removeCnts mo.2.cnts).removeVars mo.2.vars, { mo.2 with inModel := false })
  else mo

/-- `ConvexObjective::value`, 149. -/
def ConvexObjective.value (o : ConvexObjective K) (x : Nat → K) : K := o.quad.value x

/-- The calls that build a convex objective. -/
inductive BuildOp (K : Type u)
  | aff (e : AffExpr K Nat)
  | quad (q : QuadExpr K Nat)
  | hinge (e : AffExpr K Nat) (c : K)
  | abs (e : AffExpr K Nat) (c : K)
  | hinges (es : List (AffExpr K Nat))
  | l1 (es : List (AffExpr K Nat))
  | l2 (es : List (AffExpr K Nat))
  | max (es : List (AffExpr K Nat))

/-- One building call. -/
def BuildOp.run (mo : OModel K × ConvexObjective K) : BuildOp K → Option (OModel K × ConvexObjective K)
  | .aff e => some (mo.1, mo.2.addAffExpr e)
  | .quad q => some (mo.1, mo.2.addQuadExpr q)
  | .hinge e c => ConvexObjective.addHinge mo e c
  | .abs e c => ConvexObjective.addAbs mo e c
  | .hinges es => ConvexObjective.addHinges mo es
  | .l1 es => ConvexObjective.addL1Norm mo es
  | .l2 es => some (mo.1, mo.2.addL2Norm es)
  | .max es => ConvexObjective.addMax mo es

/-- `sco::ConvexConstraints`, modeling.hpp 75-117. -/
structure ConvexConstraints (K : Type u) where
  inModel : Bool
  eqs : List (AffExpr K Nat)
  ineqs : List (AffExpr K Nat)
  cnts : List Nat

/-- `ConvexConstraints::ConvexConstraints`. -/
def ConvexConstraints.new : ConvexConstraints K := ⟨true, [], [], []⟩
/-- `ConvexConstraints::addEqCnt`, modeling.cpp 111. -/
def ConvexConstraints.addEq (c : ConvexConstraints K) (e : AffExpr K Nat) : ConvexConstraints K :=
  { c with eqs := c.eqs ++ [e] }
/-- `ConvexConstraints::addIneqCnt`, 112. -/
def ConvexConstraints.addIneq (c : ConvexConstraints K) (e : AffExpr K Nat) : ConvexConstraints K :=
  { c with ineqs := c.ineqs ++ [e] }

/-- `ConvexConstraints::addConstraintsToModel`, 113-124. -/
def ConvexConstraints.addConstraintsToModel (mc : OModel K × ConvexConstraints K) :
    Option (OModel K × ConvexConstraints K) :=
  if mc.2.inModel then
    let r := addCnts false (addCnts true (mc.1, mc.2.cnts) mc.2.eqs) mc.2.ineqs
    some (r.1, { mc.2 with cnts := r.2 })
  else none

/-- `ConvexConstraints::~ConvexConstraints`, 143-147, with `removeFromModel`, 126-130. -/
def ConvexConstraints.destroy (mc : OModel K × ConvexConstraints K) : OModel K × ConvexConstraints K :=
  if mc.2.inModel then (mc.1.removeCnts mc.2.cnts, { mc.2 with inModel := false }) else mc

/-- `ConvexConstraints::violations`, 132-141; `pospart` is sco_common.hpp 44. -/
def ConvexConstraints.violations [LinearOrder K] (c : ConvexConstraints K) (x : Nat → K) : List K :=
  c.eqs.map (fun e => |e.value x|) ++ c.ineqs.map fun e => if 0 < e.value x then e.value x else 0

/-- `ConvexConstraints::violation`, 142; `vecSum` is sco_common.hpp 26. -/
def ConvexConstraints.violation [LinearOrder K] (c : ConvexConstraints K) (x : Nat → K) : K :=
  (c.violations x).foldl (· + ·) 0

/-- The body of the loop of `cntsToCosts`, optimizers.cpp 66-79, for one constraint and its
coefficient. -/
def cntToCost (m : OModel K) (c : ConvexConstraints K) (coeff : K) :
    Option (OModel K × ConvexObjective K) :=
  match c.eqs.foldlM (fun s e => ConvexObjective.addAbs s e coeff) (m, ConvexObjective.new) with
  | none => none
  | some s => c.ineqs.foldlM (fun s e => ConvexObjective.addHinge s e coeff) s

end model

end Verif.Sco
