import Verif.Model.OtherSolvers

/-!
Model of `optimize` of `sco::OSQPModel` and `sco::qpOASESModel` as state machines around the solver's workspace.

Sources (all under /repo/trajopt_sco/src):
* `osqp_interface.cpp` 170-281 (`updateObjective`, `updateConstraints`), 283-370 (`createOrUpdateSolver`),
  440-615 (`optimize`), 88-99 (configuration)
* `qpoases_interface.cpp` 133-150 (`updateSolver`, `createSolver`), 220-261 (`optimize`)

What the solver library answers during one call is a parameter (`OsqpCalls`, `QpoCalls`): every theorem quantifies over
all of them.  The workspace of OSQP is the problem that was loaded into it and the status of its last run; its solution
vectors have the sizes of the loaded problem.  `osqp_setup` is assumed to write the workspace pointer except for the two
validation errors named in the code (a failing very first allocation inside OSQP is not modelled).  Logging and the debug
printout are not modelled.
-/

namespace Verif.Sco

open Verif.Bounds (Ext)

universe u

section
variable {K : Type u} [Field K] [DecidableEq K] [LinearOrder K]

/-! ### OSQP -/

/-- The members `P_`, `q_`, `A_`, `l_`, `u_`. -/
structure OsqpQp (K : Type u) where
  P : OsqpMat K
  q : List (Nat × K)
  A : OsqpMat K
  l : List (Ext K)
  u : List (Ext K)

/-- The data computed by `updateObjective` and `updateConstraints`, 170-179, 195, 213-250, 267, on expressions over column
indices: the upper triangle of the Hessian and the rows. -/
def osqpInput (sort : List (Nat × K) → List (Nat × K)) (cnts : List (AffExpr K Nat × Bool)) (bounds : List (Ext K × Ext K))
    (obj : QuadExpr K Nat) : Option (OsqpQp K) := do
  let h ← quadToEigen sort obj bounds.length true false
  let r ← updateConstraints cnts bounds
  some
    { P := ⟨bounds.length, bounds.length, eigenToCSC true h.1⟩
      q := h.2
      A := ⟨cnts.length + bounds.length, bounds.length, eigenToCSC false r.A⟩
      l := r.l
      u := r.u }

/-- The same through the handles. -/
def OModel.osqp (sort : List (Nat × K) → List (Nat × K)) (m : OModel K) : Option (OsqpQp K) := do
  let cs ← m.cnts.items.mapM fun c => (c.2.1.toIndices m.vars.indexOf).map fun e => (e, c.2.2)
  let q ← m.obj.toIndices m.vars.indexOf
  osqpInput sort cs (m.vars.items.map Prod.snd) q

/-- `info->status_val`. `other` stands for the iteration and time limits, non-convexity and the interrupt. -/
inductive OsqpStatus
  | solved
  | solvedInaccurate
  | primalInfeasible
  | primalInfeasibleInaccurate
  | dualInfeasible
  | dualInfeasibleInaccurate
  | unsolved
  | other
deriving DecidableEq, Repr

/-- 291: "the last optimization was (almost) solved". -/
def OsqpStatus.ok : OsqpStatus → Bool
  | .solved => true
  | .solvedInaccurate => true
  | _ => false

/-- 566-571. -/
def OsqpStatus.result : OsqpStatus → CvxStatus
  | .solved => .solved
  | .solvedInaccurate => .solved
  | .primalInfeasible => .infeasible
  | .primalInfeasibleInaccurate => .infeasible
  | .dualInfeasible => .infeasible
  | .dualInfeasibleInaccurate => .infeasible
  | .unsolved => .failed
  | .other => .failed

/-- The return value of `osqp_setup`: success, one of the two validation errors, any other error. -/
inductive SetupRes
  | ok
  | invalid
  | broken
deriving DecidableEq, Repr

/-- What OSQP answers during one call of `optimize`. -/
structure OsqpCalls (K : Type u) where
  updVec : Bool
  updMat : Bool
  setup : SetupRes
  ret : Bool
  status : OsqpStatus
  x : List K

/-- `OSQPModelConfig`: `update_workspace` and `settings.warm_starting`. -/
structure OsqpConfig where
  updateWorkspace : Bool
  warmStarting : Bool

/-- The workspace: the loaded problem and the status of its last run. -/
structure OsqpWs (K : Type u) where
  qp : OsqpQp K
  status : OsqpStatus

/-- `OSQPModel` with its workspace. `cur` is `P_`, `A_` (null before the first call). -/
structure OsqpSession (K : Type u) where
  model : OModel K
  cur : Option (OsqpMat K × OsqpMat K)
  ws : Option (OsqpWs K)
  solution : List K

/-- A fresh `OSQPModel`. -/
def OsqpSession.empty : OsqpSession K := ⟨OModel.empty, none, none, []⟩

/-- `osqp_update_data_vec`, `osqp_update_data_mat` with null index arrays, 319-329: new vectors and values, the stored
patterns stay. -/
def OsqpQp.load (w new : OsqpQp K) : OsqpQp K :=
  { P := { w.P with csc := { w.P.csc with values := new.P.csc.values } }
    q := new.q
    A := { w.A with csc := { w.A.csc with values := new.A.csc.values } }
    l := new.l
    u := new.u }

/-- `updateObjective(check)` and `updateConstraints(check)`: the comparison is made only when asked for and when there is a
previous matrix, 181-206, 252-276. -/
def patternEq (check : Bool) (prev : Option (OsqpMat K)) (new : OsqpMat K) : Bool :=
  match prev with
  | none => false
  | some p => check && sparsityEqual p new

/-- `osqp_setup`, 357-366: the new workspace and whether no exception was thrown. -/
def afterSetup (new : OsqpQp K) : SetupRes → Option (OsqpWs K) × Bool
  | .ok => (some ⟨new, .unsolved⟩, true)
  | .invalid => (none, false)
  | .broken => (some ⟨new, .unsolved⟩, false)

/-- `createOrUpdateSolver`, 283-370: `P_`, `A_`, the workspace and whether no exception was thrown. -/
def createOrUpdate (cfg : OsqpConfig) (cur : Option (OsqpMat K × OsqpMat K)) (ws : Option (OsqpWs K)) (new : OsqpQp K)
    (c : OsqpCalls K) : Option (Option (OsqpWs K) × Bool) :=
  let before := ws.any fun w => w.status.ok
  let upd := before && cfg.updateWorkspace
  let warm := before && !cfg.updateWorkspace && cfg.warmStarting
  let pEq := patternEq (upd || warm) (cur.map Prod.fst) new.P
  let aEq := patternEq pEq (cur.map Prod.snd) new.A
  if upd && pEq && aEq && c.updVec && c.updMat then
    match ws with
    | none => none
    | some w => some (some ⟨w.qp.load new, w.status⟩, true)
  else
    -- 345-352: the previous solution, `n_` and `m_` values
    if warm && pEq && aEq && ws.any (fun w => decide (w.qp.P.n < new.P.n ∨ w.qp.A.m < new.A.m)) then none
    else
      some (afterSetup new c.setup)

/-- `OSQPModel::optimize`, 440-615: the new state, what the caller gets, and the problem `osqp_solve` was called on
(`none` when it was not called). -/
def OsqpSession.optimize (cfg : OsqpConfig) (sort : List (Nat × K) → List (Nat × K)) (s : OsqpSession K) (c : OsqpCalls K) :
    Option (OsqpSession K × CvxStatus × Option (OsqpQp K)) :=
  match s.model.update with
  | none => none
  | some m =>
    match m.osqp sort with
    | none => none
    | some new =>
      match createOrUpdate cfg s.cur s.ws new c with
      | none => none
      | some (ws, false) => some (⟨m, some (new.P, new.A), ws, s.solution⟩, .failed, none)
      | some (none, true) => none
      | some (some w, true) =>
        if c.ret then
          if m.vars.items.length ≤ c.x.length then
            some (⟨m, some (new.P, new.A), some ⟨w.qp, c.status⟩, c.x.take m.vars.items.length⟩, c.status.result, some w.qp)
          else none
        else some (⟨m, some (new.P, new.A), some ⟨w.qp, c.status⟩, s.solution⟩, .failed, some w.qp)

/-- Calls of a user of `OSQPModel`. -/
inductive OsqpOp (K : Type u)
  | addVar (lb ub : Ext K)
  | addEqCnt (e : AffExpr K Nat)
  | addIneqCnt (e : AffExpr K Nat)
  | removeVars (ids : List Nat)
  | removeCnts (ids : List Nat)
  | setVarBounds (id : Nat) (lb ub : Ext K)
  | setObjectiveAff (e : AffExpr K Nat)
  | setObjectiveQuad (e : QuadExpr K Nat)
  | update
  | optimize (c : OsqpCalls K)

/-- One call. -/
def OsqpSession.step (cfg : OsqpConfig) (sort : List (Nat × K) → List (Nat × K)) (s : OsqpSession K) :
    OsqpOp K → Option (OsqpSession K)
  | .addVar lb ub => (s.model.addVar lb ub).map fun r => { s with model := r.1 }
  | .addEqCnt e => some { s with model := (s.model.addEqCnt e).1 }
  | .addIneqCnt e => some { s with model := (s.model.addIneqCnt e).1 }
  | .removeVars ids => some { s with model := s.model.removeVars ids }
  | .removeCnts ids => some { s with model := s.model.removeCnts ids }
  | .setVarBounds id lb ub => (s.model.vars.setAt id (lb, ub)).map fun v => { s with model := { s.model with vars := v } }
  | .setObjectiveAff e => some { s with model := s.model.setObjectiveAff e }
  | .setObjectiveQuad e => some { s with model := s.model.setObjectiveQuad e }
  | .update => s.model.update.map fun m => { s with model := m }
  | .optimize c => (s.optimize cfg sort c).map Prod.fst

/-! ### qpOASES -/

/-- The return values of `hotstart` and `init` that `optimize` distinguishes. -/
inductive QpoRet
  | success
  | initInfeasible
  | other
deriving DecidableEq, Repr

/-- `qpoases_problem_`: its sizes (`getNV`, `getNC`), whether it is initialised and the input of the run it holds. -/
structure QpoProblem (K : Type u) where
  nv : Nat
  nc : Nat
  init : Bool
  data : Option (QInput K)

/-- What qpOASES does in one call of `optimize`. A run gets the input and the working set budget and returns its value, the
recalculations actually made (written back to `nWSR`), whether the problem is initialised afterwards and the primal
solution. -/
structure QpoCalls (K : Type u) where
  hotstart : QInput K → Nat → QpoRet × Nat × Bool × List K
  init : QInput K → Nat → QpoRet × Nat × Bool × List K

/-- `qpOASESModel` with its problem. -/
structure QpoSession (K : Type u) where
  model : OModel K
  prob : Option (QpoProblem K)
  solution : List K

/-- `updateSolver`, 133-144: a new problem when there is none or its sizes differ. -/
def updateSolver (p : Option (QpoProblem K)) (n m : Nat) : QpoProblem K :=
  match p with
  | none => ⟨n, m, false, none⟩
  | some p => if n ≠ p.nv ∨ m ≠ p.nc then ⟨n, m, false, none⟩ else p

/-- The run whose outcome counts, 228-247: `hotstart` on an initialised problem with a budget of 255, and if that is not
successful (or impossible) a new problem and `init` with whatever is left in `nWSR`. -/
def qpoRun (p : QpoProblem K) (inp : QInput K) (c : QpoCalls K) : QpoProblem K × QpoRet × List K :=
  let fresh (budget : Nat) : QpoProblem K × QpoRet × List K :=
    let r := c.init inp budget
    (⟨p.nv, p.nc, r.2.2.1, some inp⟩, r.1, r.2.2.2)
  if p.init then
    let h := c.hotstart inp 255
    if h.1 = .success then ({ p with init := h.2.2.1, data := some inp }, .success, h.2.2.2)
    else fresh h.2.1
  else fresh 255

/-- `qpOASESModel::optimize`, 220-261. -/
def QpoSession.optimize (sort : List (Nat × K) → List (Nat × K)) (infty : K) (s : QpoSession K) (c : QpoCalls K) :
    Option (QpoSession K × CvxStatus) :=
  match s.model.update with
  | none => none
  | some m =>
    match m.qpoases sort infty with
    | none => none
    | some inp =>
      let r := qpoRun (updateSolver s.prob m.vars.items.length m.cnts.items.length) inp c
      match r.2.1 with
      | .success =>
        if m.vars.items.length ≤ r.2.2.length then some (⟨m, some r.1, r.2.2.take m.vars.items.length⟩, .solved) else none
      | .initInfeasible => some (⟨m, some r.1, s.solution⟩, .infeasible)
      | .other => some (⟨m, some r.1, s.solution⟩, .failed)

end
end Verif.Sco
