import Verif.Model.Sparse
import Verif.Model.OsqpModel

/-!
# The Gurobi back-end

`/repo/trajopt_sco/src/gurobi_interface.cpp` (all of it except `writeToFile`, the environment and logging), on top of an abstract
Gurobi: a list of variables and rows with positions as indices, where additions can be used at once (the default `UpdateMode=1`),
deletions are pending until `GRBupdatemodel`, which drops the deleted entries, renumbers the others and makes the number of
variables (`NUMVARS`) that of the model, and `GRBoptimize` processes pending changes first.  An error code of Gurobi checked by
`ENSURE_SUCCESS` is `abort()`, the outcome `none`, like a null or out-of-range access.  Assumptions on Gurobi's error codes: indices
out of range are rejected, linear rows with an index twice are rejected (so that `simplify2` is needed), deleting an entry that is
already marked is not an error.

The two vectors `m_vars` and `m_cnts` with their reps are the `Store` of the OSQP back-end (the loops of `update`, 286-324, are those
of osqp_interface.cpp); they hold no data here, all data are Gurobi's.  Names, the mutex and `creator` are not modelled.
-/

namespace Verif.Gurobi

open Verif.Sco
open Verif.Bounds (Ext)

variable {K : Type}

/-! ### Gurobi -/

/-- A column of Gurobi's model: the attributes `LB`, `UB`, `Obj`, and whether it is to be deleted. -/
structure GVar (K : Type) where
  lb : Ext K
  ub : Ext K
  obj : K
  dead : Bool

/-- A linear row: entries by column index, sense (`GRB_EQUAL` or `GRB_LESS_EQUAL`), right hand side. -/
structure GRow (K : Type) where
  terms : List (Nat × K)
  eq : Bool
  rhs : K
  dead : Bool

/-- A quadratic row with sense `GRB_LESS_EQUAL`. -/
structure GQRow (K : Type) where
  lin : List (Nat × K)
  quad : List (K × Nat × Nat)
  rhs : K

/-- `GRBmodel`; `nvars` is the attribute `NUMVARS`. -/
structure Grb (K : Type) where
  vars : List (GVar K)
  rows : List (GRow K)
  qrows : List (GQRow K)
  quad : List (K × Nat × Nat)
  objCon : K
  nvars : Nat

section grb
variable [Field K] [LinearOrder K]

/-- `GRBnewmodel` without variables, as called in 76. -/
def Grb.new : Grb K := ⟨[], [], [], [], 0, 0⟩

/-- `GRBaddvar`, objective coefficient 0. -/
def Grb.addvar (g : Grb K) (lb ub : Ext K) : Grb K := { g with vars := g.vars ++ [⟨lb, ub, 0, false⟩] }

/-- `GRBaddconstr`. -/
def Grb.addconstr (g : Grb K) (terms : List (Nat × K)) (eq : Bool) (rhs : K) : Option (Grb K) :=
  if (terms.all fun t => decide (t.1 < g.vars.length)) && decide (terms.map Prod.fst).Nodup then
    some { g with rows := g.rows ++ [⟨terms, eq, rhs, false⟩] }
  else none

/-- `GRBaddqconstr`. -/
def Grb.addqconstr (g : Grb K) (lin : List (Nat × K)) (quad : List (K × Nat × Nat)) (rhs : K) : Option (Grb K) :=
  if (lin.all fun t => decide (t.1 < g.vars.length)) &&
      quad.all fun t => decide (t.2.1 < g.vars.length) && decide (t.2.2 < g.vars.length) then
    some { g with qrows := g.qrows ++ [⟨lin, quad, rhs⟩] }
  else none

/-- `GRBdelvars`. -/
def Grb.delvars (g : Grb K) (inds : List Nat) : Option (Grb K) :=
  if inds.all fun i => decide (i < g.vars.length) then
    some { g with vars := inds.foldl (fun vs i => vs.modify i fun v => { v with dead := true }) g.vars }
  else none

/-- `GRBdelconstrs`. -/
def Grb.delconstrs (g : Grb K) (inds : List Nat) : Option (Grb K) :=
  if inds.all fun i => decide (i < g.rows.length) then
    some { g with rows := inds.foldl (fun rs i => rs.modify i fun r => { r with dead := true }) g.rows }
  else none

/-- `GRBsetdblattrlist` for `LB` or `UB`. -/
def Grb.setattrlist (set : GVar K → Ext K → GVar K) (g : Grb K) (l : List (Nat × Ext K)) : Option (Grb K) :=
  if l.all fun i => decide (i.1 < g.vars.length) then
    some { g with vars := l.foldl (fun vs i => vs.modify i.1 fun v => set v i.2) g.vars }
  else none

/-- `GRBsetdblattrarray(model, "Obj", 0, obj.size(), obj)`. -/
def Grb.setobj (g : Grb K) (obj : List K) : Option (Grb K) :=
  if obj.length ≤ g.vars.length then
    some { g with vars := g.vars.mapIdx fun i v => match obj[i]? with
      | some c => { v with obj := c }
      | none => v }
  else none

/-- `GRBaddqpterms`: terms are added unless an index is out of range. -/
def Grb.addqpterms (g : Grb K) (l : List (K × Nat × Nat)) : Grb K :=
  if l.all fun t => decide (t.2.1 < g.vars.length) && decide (t.2.2 < g.vars.length) then { g with quad := g.quad ++ l } else g

/-- The index of a column after the deletion of those that are marked. -/
def remap (vs : List (GVar K)) (i : Nat) : Option Nat :=
  match vs[i]? with
  | none => none
  | some v => if v.dead then none else some ((vs.take i).countP fun w => !w.dead)

/-- Linear terms after the deletion. -/
def remapLin (vs : List (GVar K)) (l : List (Nat × K)) : List (Nat × K) :=
  l.filterMap fun t => (remap vs t.1).map fun i => (i, t.2)

/-- Quadratic terms after the deletion. -/
def remapQuad (vs : List (GVar K)) (l : List (K × Nat × Nat)) : List (K × Nat × Nat) :=
  l.filterMap fun t => match remap vs t.2.1, remap vs t.2.2 with
    | some i, some j => some (t.1, i, j)
    | _, _ => none

/-- `GRBupdatemodel`. -/
def Grb.update (g : Grb K) : Grb K where
  vars := g.vars.filter fun v => !v.dead
  rows := (g.rows.filter fun r => !r.dead).map fun r => { r with terms := remapLin g.vars r.terms }
  qrows := g.qrows.map fun q => { q with lin := remapLin g.vars q.lin, quad := remapQuad g.vars q.quad }
  quad := remapQuad g.vars g.quad
  objCon := g.objCon
  nvars := (g.vars.filter fun v => !v.dead).length

/-- The values of `GRB_INT_ATTR_STATUS` told apart in `optimize`. -/
inductive GStatus | optimal | infeasible | other
deriving DecidableEq

/-- `CvxOptStatus`. -/
inductive CvxStatus | solved | infeasible | failed
deriving DecidableEq

end grb

/-! ### `GurobiModel` -/

/-- `sco::GurobiModel`: `m_vars`, `m_cnts` and `m_model`. -/
structure GModel (K : Type) where
  vars : Store Unit
  cnts : Store Unit
  grb : Grb K

section model
variable [Field K] [LinearOrder K]

/-- 66-77 -/
def GModel.new : GModel K := ⟨Store.empty, Store.empty, Grb.new⟩

/-- 88-94 `addVar(name, lb, ub)` -/
def GModel.addVar (m : GModel K) (lb ub : Ext K) : GModel K × Nat :=
  let r := m.vars.add ()
  ({ m with vars := r.1, grb := m.grb.addvar lb ub }, r.2)

/-- `GRB_INFINITY` -/
def grbInfinity : K := 10 ^ 100

/-- 79-86 `addVar(name)` -/
def GModel.addFreeVar (m : GModel K) : GModel K × Nat := m.addVar (.fin (-grbInfinity)) (.fin grbInfinity)

/-- `vars2inds`/`cnts2inds`, solver_interface.cpp -/
def inds (s : Store Unit) (ids : List Nat) : Option (List Nat) := ids.mapM s.indexOf

/-- Linear terms by column index. -/
def linInds (s : Store Unit) (l : List (K × Nat)) : Option (List (Nat × K)) :=
  l.mapM fun t => (s.indexOf t.2).map fun i => (i, t.1)

/-- Quadratic terms by column index. -/
def quadInds (s : Store Unit) (l : List (K × Nat × Nat)) : Option (List (K × Nat × Nat)) :=
  l.mapM fun t => (s.indexOf t.2.1).bind fun i => (s.indexOf t.2.2).map fun j => (t.1, i, j)

/-- 96-113 `addEqCnt` and 114-131 `addIneqCnt(AffExpr)`. -/
def GModel.addCnt (m : GModel K) (eq : Bool) (e : AffExpr K Nat) : Option (GModel K × Nat) :=
  (linInds m.vars e.terms).bind fun l => (m.grb.addconstr (simplify2 l) eq (-e.constant)).map fun g =>
    let r := m.cnts.add ()
    ({ m with cnts := r.1, grb := g }, r.2)

/-- 132-155 `addIneqCnt(QuadExpr)`: the handle is null. -/
def GModel.addQuadCnt (m : GModel K) (q : QuadExpr K Nat) : Option (GModel K × Option Nat) :=
  (linInds m.vars q.aff.terms).bind fun l => (quadInds m.vars q.terms).bind fun t =>
    (m.grb.addqconstr l t (-q.aff.constant)).map fun g => ({ m with grb := g }, none)

/-- 168-176 `removeVars` -/
def GModel.removeVars (m : GModel K) (ids : List Nat) : Option (GModel K) :=
  (inds m.vars ids).bind fun l => (m.grb.delvars l).map fun g => { m with vars := m.vars.remove ids, grb := g }

/-- 178-186 `removeCnts`; a null handle is dereferenced. -/
def GModel.removeCnts (m : GModel K) (cs : List (Option Nat)) : Option (GModel K) :=
  (cs.mapM id).bind fun ids => (inds m.cnts ids).bind fun l => (m.grb.delconstrs l).map fun g =>
    { m with cnts := m.cnts.remove ids, grb := g }

/-- 196-205 `setVarBounds`; vectors of different lengths are excluded by the assertion. -/
def GModel.setVarBounds (m : GModel K) (ids : List Nat) (lower upper : List (Ext K)) : Option (GModel K) :=
  if ids.length = lower.length ∧ ids.length = upper.length then
    (inds m.vars ids).bind fun l => (m.grb.setattrlist (fun v b => { v with lb := b }) (l.zip lower)).bind fun g =>
      (g.setattrlist (fun v b => { v with ub := b }) (l.zip upper)).map fun g' => { m with grb := g' }
  else none

/-- 254-269 `setObjective(AffExpr)`: the assertion, the vector of `NUMVARS` coefficients, its accumulation. -/
def GModel.setObjectiveAff (debug : Bool) (m : GModel K) (e : AffExpr K Nat) : Option (GModel K) :=
  if debug && decide (m.grb.nvars ≠ m.vars.items.length) then none
  else (linInds m.vars e.terms).bind fun l =>
    if l.all fun t => decide (t.1 < m.grb.nvars) then
      (({ m.grb with quad := [] } : Grb K).setobj
        (l.foldl (fun o t => o.modify t.1 (· + t.2)) (List.replicate m.grb.nvars 0))).map fun g =>
        { m with grb := { g with objCon := e.constant } }
    else none

/-- 271-283 `setObjective(QuadExpr)`; the error code of `GRBaddqpterms` is ignored. -/
def GModel.setObjectiveQuad (debug : Bool) (m : GModel K) (q : QuadExpr K Nat) : Option (GModel K) :=
  (m.setObjectiveAff debug q.aff).bind fun m' => (quadInds m'.vars q.terms).map fun t =>
    { m' with grb := m'.grb.addqpterms t }

/-- 286-324 `update` -/
def GModel.update (m : GModel K) : Option (GModel K) :=
  m.vars.update.bind fun v => m.cnts.update.map fun c => ⟨v, c, m.grb.update⟩

/-- 226-245 `optimize` for a Gurobi that answers `solve`; the list is the attribute `X`. -/
def GModel.optimize (solve : Grb K → GStatus × List K) (m : GModel K) : GModel K × CvxStatus × List K :=
  let g := m.grb.update
  let r := solve g
  ({ m with grb := g }, (match r.1 with
    | .optimal => .solved
    | .infeasible => .infeasible
    | .other => .failed), r.2)

/-- 216-224 `getVarValues` -/
def GModel.getVarValues (m : GModel K) (x : List K) (ids : List Nat) : Option (List K) :=
  ids.mapM (m.vars.valueOf x)

/-- 246-252 `optimizeFeasRelax`: single doubles are passed where Gurobi reads one per column (bounds) and per row. -/
def GModel.optimizeFeasRelax (relax : Grb K → Grb K) (solve : Grb K → GStatus × List K) (m : GModel K) :
    Option (GModel K × CvxStatus × List K) :=
  let g := m.grb.update
  if 1 < g.vars.length ∨ 1 < g.rows.length then none
  else some (({ m with grb := relax g } : GModel K).optimize solve)

end model

end Verif.Gurobi
