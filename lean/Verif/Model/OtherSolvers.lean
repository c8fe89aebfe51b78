import Verif.Model.Sparse

/-!
Model of the data that `BPMPDModel` and `qpOASESModel` hand to their solvers.

Sources (all under /repo/trajopt_sco/src):
* `bpmpd_interface.cpp` 355-542 (`optimize`)
* `qpoases_interface.cpp` 89-131, 220-261 (`updateObjective`, `updateConstraints`, `optimize`)

Variables, constraints, their removal and `update` are line by line those of `OSQPModel` (bpmpd_interface.cpp 238-351,
543-544; qpoases_interface.cpp 38-87, 152-218, 262-263), so the state is the `OModel` of OsqpModel.lean; the infinity of a
new variable differs (BPMPD: 1e30, qpOASES: 1e20) and is a parameter of the specification where it matters.  As in
Sparse.lean a variable of an expression is its column index; an index out of range is undefined behaviour (`none`).
The solvers themselves, warm starts (`hotstart`) and the text pipe (see BpmpdIo.lean) are not part of this file.
-/

namespace Verif.Sco

open Verif.Bounds (Ext)

universe u

section
variable {K : Type u} [Field K] [DecidableEq K]

/-- `var2cntinds[j].push_back(i); var2cntvals[j].push_back(v)`: the parallel vectors of one column are one list. -/
def pushCol (cols : List (List (Nat × K))) (j i : Nat) (v : K) : Option (List (List (Nat × K))) :=
  if j < cols.length then some (cols.modify j (· ++ [(i, v)])) else none

/-- bpmpd_interface.cpp 392-405: the terms of row `i`. -/
def scatterRow (cols : List (List (Nat × K))) (e : AffExpr K Nat × Nat) : Option (List (List (Nat × K))) :=
  e.1.terms.foldlM (fun cols t => pushCol cols t.2 e.2 t.1) cols

/-- 392-405: all rows. -/
def scatterRows (n : Nat) (es : List (AffExpr K Nat)) : Option (List (List (Nat × K))) :=
  es.zipIdx.foldlM scatterRow (List.replicate n [])

/-- One quadratic term, 424-443. -/
def scatterQuad (cols : List (List (Nat × K))) (t : K × Nat × Nat) : Option (List (List (Nat × K))) :=
  if t.2.1 < t.2.2 then pushCol cols t.2.1 t.2.2 t.1
  else if t.2.1 = t.2.2 then pushCol cols t.2.1 t.2.2 (t.1 * 2)
  else pushCol cols t.2.2 t.2.1 t.1

/-- The affine part, 453-456. -/
def addObj (obj : List K) (t : K × Nat) : Option (List K) :=
  if t.2 < obj.length then some (obj.modify t.2 (· + t.1)) else none

/-- `bpmpd_input`, as filled by `optimize`. -/
structure BInput (K : Type u) where
  m : Nat
  n : Nat
  nz : Nat
  qn : Nat
  qnz : Nat
  acolcnt : List Nat
  acolidx : List Nat
  acolnzs : List K
  qcolcnt : List Nat
  qcolidx : List Nat
  qcolnzs : List K
  rhs : List K
  obj : List K
  lbound : List (Ext K)
  ubound : List (Ext K)

/-- `BPMPDModel::optimize`, 367-520, after `update()`: constraints (expression, equality), bounds and objective.
Indices are made one-based (461-462). -/
def bpmpdInput [LinearOrder K] (cnts : List (AffExpr K Nat × Bool)) (bounds : List (Ext K × Ext K)) (obj : QuadExpr K Nat) :
    Option (BInput K) := do
  let n := bounds.length
  let a ← scatterRows n (cnts.map Prod.fst)
  let a := a.map simplify2
  let q ← obj.terms.foldlM scatterQuad (List.replicate n [])
  let q := q.map simplify2
  let c ← obj.aff.terms.foldlM addObj (List.replicate n 0)
  some
    { m := cnts.length
      n := n
      nz := a.flatten.length
      qn := n
      qnz := q.flatten.length
      acolcnt := a.map List.length
      acolidx := a.flatten.map (·.1 + 1)
      acolnzs := a.flatten.map (·.2)
      qcolcnt := q.map List.length
      qcolidx := q.flatten.map (·.1 + 1)
      qcolnzs := q.flatten.map (·.2)
      rhs := cnts.map fun c => -c.1.constant
      obj := c
      lbound := bounds.map (fun b => clampLo b.1) ++ cnts.map fun c => if c.2 then .fin 0 else .fin (-osqpInfty)
      ubound := bounds.map (fun b => clampHi b.2) ++ cnts.map fun _ => .fin 0 }

/-- 429-456 on handles: the objective with `var_rep->index`. -/
def QuadExpr.toIndices (idx : Nat → Option Nat) (q : QuadExpr K Nat) : Option (QuadExpr K Nat) :=
  match q.aff.toIndices idx, q.terms.mapM fun t => (idx t.2.1).bind fun i => (idx t.2.2).map fun j => (t.1, i, j) with
  | some a, some ts => some ⟨a, ts⟩
  | _, _ => none

/-- `optimize` reading indices through the handles. -/
def OModel.bpmpd [LinearOrder K] (m : OModel K) : Option (BInput K) := do
  let cs ← m.cnts.items.mapM fun c => (c.2.1.toIndices m.vars.indexOf).map fun e => (e, c.2.2)
  let q ← m.obj.toIndices m.vars.indexOf
  bpmpdInput cs (m.vars.items.map Prod.snd) q

/-- The return code of BPMPD, 529-537. -/
inductive CvxStatus
  | solved
  | infeasible
  | failed
deriving DecidableEq, Repr

/-- 528-537: the solution vector (`none`: fewer than `n` primal values, out of range) and the status. -/
def bpmpdResult (n : Nat) (primal : List K) (code : Int) : Option (List K × CvxStatus) :=
  if n ≤ primal.length then
    some (primal.take n, if code = 2 then .solved else if code = 3 ∨ code = 4 then .infeasible else .failed)
  else none

/-- What `qpOASESModel` hands to its solver. -/
structure QInput (K : Type u) where
  H : CSC K
  g : List (Nat × K)
  A : CSC K
  lb : List (Ext K)
  ub : List (Ext K)
  lbA : List (Ext K)
  ubA : List (Ext K)

/-- `updateObjective` and `updateConstraints`, qpoases_interface.cpp 89-131. -/
def qpoasesInput (sort : List (Nat × K) → List (Nat × K)) (infty : K) (cnts : List (AffExpr K Nat × Bool))
    (bounds : List (Ext K × Ext K)) (obj : QuadExpr K Nat) : Option (QInput K) := do
  let h ← quadToEigen sort obj bounds.length true true
  let a ← affsToEigen (cnts.map Prod.fst) bounds.length
  some
    { H := eigenToCSC false h.1
      g := h.2
      A := eigenToCSC false a.1
      lb := bounds.map Prod.fst
      ub := bounds.map Prod.snd
      lbA := List.zipWith (fun c v => if c.2 then Ext.fin v else Ext.fin (-infty)) cnts a.2
      ubA := a.2.map Ext.fin }

/-- The same through the handles. -/
def OModel.qpoases (sort : List (Nat × K) → List (Nat × K)) (infty : K) (m : OModel K) : Option (QInput K) := do
  let cs ← m.cnts.items.mapM fun c => (c.2.1.toIndices m.vars.indexOf).map fun e => (e, c.2.2)
  let q ← m.obj.toIndices m.vars.indexOf
  qpoasesInput sort infty cs (m.vars.items.map Prod.snd) q

end
end Verif.Sco
