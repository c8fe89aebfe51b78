import Verif.Model.Sqp
import Verif.Model.QpProblem
import Verif.Model.OsqpEigen

/-!
Model of a whole run of `trajopt_sqp::TrustRegionSQPSolver`
(/repo/trajopt_optimizers/trajopt_sqp/src/trust_region_sqp_solver.cpp) on a QP problem object and an `OSQPEigenSolver`.

`Model/Sqp.lean` models the same functions with the problem and the QP solver replaced by oracles.  Here they are the objects
themselves: the problem is anything that implements the interface `QPProblem` (qp_problem.h), with `TrajOptQPProblem` as the
instance of interest, the QP solver is the `OSQPEigenSolver` of `Model/OsqpEigen.lean`.  What remains outside is the library
OSQP, the callbacks and the clock (`World`).

* `box_size` is the vector it is in the code.
* A failed assertion, an exception, an access out of range or vectors of different size in an Eigen expression is `Out.fail`.
* The trust-region `while` loop takes fuel; running out of it is `Out.fuel` and carries the state.
* `max_merit_coeff_increases` (a `double` compared with an `int` counter) is a natural number; logging is left out.
-/

namespace Verif.SqpRun

open Verif.Sqp (Params Status dot maxCoeff tiny)
open Verif.OsqpEigen (Problem Solver Qp Outcome)

universe u v

/-- `class QPProblem`, qp_problem.h: the functions the optimizer calls.  `qp` collects `getNumQPVars`, `getNumQPConstraints`,
`getHessian`, `getGradient`, `getConstraintMatrix`, `getBoundsLower`, `getBoundsUpper` and what `setWarmStart` asks for. -/
structure QPProblem (K : Type u) (S : Type v) where
  getNumNLPVars : S → Nat
  getNumNLPConstraints : S → Nat
  getVariableValues : S → List K
  setVariables : List K → S → Option S
  getExactCosts : S → List K
  getExactConstraintViolations : S → List K
  evaluateConvexCosts : List K → S → Option (List K)
  evaluateConvexConstraintViolations : List K → S → List K
  getBoxSize : S → List K
  setBoxSize : List K → S → Option S
  scaleBoxSize : K → S → Option S
  setConstraintMeritCoeff : List K → S → Option S
  convexify : S → Option S
  qp : S → Problem K

/-- What is outside of the model: the answers of OSQP (`none`: no solution) to the k-th program, of its set-up, of its in-place
updates at the k-th transfer, the answers of the callbacks after the k-th QP, the clock. -/
structure World (K : Type u) where
  initOk : Nat → Bool
  answer : Nat → Qp K → Option (List K)
  inPlace : Nat → Fin 3 → Outcome K
  inPlace' : Nat → Fin 3 → Outcome K
  callbacks : Nat → List Bool
  clock : Nat → K

/-- `struct SQPResults`, types.h. -/
structure Results (K : Type u) where
  bestExactMerit : K
  newExactMerit : K
  bestApproxMerit : K
  newApproxMerit : K
  bestVars : List K
  newVars : List K
  approxImprove : K
  exactImprove : K
  improveRatio : K
  box : List K
  coeffs : List K
  bestViols : List K
  newViols : List K
  bestApproxViols : List K
  newApproxViols : List K
  bestCosts : List K
  newCosts : List K
  bestApproxCosts : List K
  newApproxCosts : List K
  penaltyIteration : Nat
  convexifyIteration : Nat
  trustRegionIteration : Nat
  overallIteration : Nat

/-- Ghost record of one call of the QP solver: the problem object and the results at that moment, the program OSQP was given
(`none`: it could not be set up), the answer, and the convex values at the answer. -/
structure Entry (K : Type u) (S : Type v) where
  prob : S
  res : Results K
  program : Option (Qp K)
  answer : Option (List K)
  convexCosts : List K
  convexViols : List K

/-- `status_`, `results_`, the problem and the QP solver; `clockReads`, `sent` (what was sent to the QP solver) and `log` are
bookkeeping of the model. -/
structure Run (K : Type u) (S : Type v) where
  status : Status
  res : Results K
  prob : S
  qps : Solver K
  clockReads : Nat
  sent : List (Problem K)
  log : List (Entry K S)

/-- Outcome of a function that may fail or run out of fuel. -/
inductive Out (K : Type u) (S : Type v) (α : Type*)
  | ok (a : α)
  | fail
  | fuel (w : Run K S)

section
variable {K : Type u} {S : Type v} [Field K] [LinearOrder K]

/-- `setBoxSize`, 66-70. -/
def setBoxSize (P : QPProblem K S) (b : K) (w : Run K S) : Option (Run K S) :=
  match P.setBoxSize (List.replicate (P.getNumNLPVars w.prob) b) w.prob with
  | none => none
  | some s => some { w with prob := s, res := { w.res with box := P.getBoxSize s } }

/-- `constraintMeritCoeffChanged`, 72-79. -/
def constraintMeritCoeffChanged (P : QPProblem K S) (w : Run K S) : Option (Run K S) :=
  match P.setConstraintMeritCoeff w.res.coeffs w.prob with
  | none => none
  | some s =>
    if w.res.bestViols.length = w.res.coeffs.length then
      some { w with prob := s, res := { w.res with bestExactMerit := w.res.bestCosts.sum + dot w.res.bestViols w.res.coeffs } }
    else none

/-- The results after line 59; fields that were not assigned have the value of the constructor (types.h, types.cpp 65-82; vectors that
are written before they are read are empty here). -/
def initialResults (P : QPProblem K S) (p : Params K) (s : S) : Results K :=
  { bestExactMerit := 0, newExactMerit := 0, bestApproxMerit := 0, newApproxMerit := 0
    bestVars := P.getVariableValues s, newVars := []
    approxImprove := 0, exactImprove := 0, improveRatio := 0
    box := List.replicate (P.getNumNLPVars s) 1
    coeffs := List.replicate (P.getNumNLPConstraints s) p.initialMeritErrorCoeff
    bestViols := P.getExactConstraintViolations s, newViols := [], bestApproxViols := [], newApproxViols := []
    bestCosts := P.getExactCosts s, newCosts := [], bestApproxCosts := [], newApproxCosts := []
    penaltyIteration := 0, convexifyIteration := 0, trustRegionIteration := 0, overallIteration := 0 }

/-- `init`, 45-64, with `status_ = kRunning` (89). -/
def init (P : QPProblem K S) (p : Params K) (s : S) (qps : Solver K) : Option (Run K S) :=
  match setBoxSize P p.initialTrustBoxSize
    { status := .running, res := initialResults P p s, prob := s, qps := qps, clockReads := 0, sent := [], log := [] } with
  | none => none
  | some w => constraintMeritCoeffChanged P w

/-- `callCallbacks`, 441-447. -/
def callCallbacks (o : World K) (k : Nat) : Bool := (o.callbacks k).foldl (· && ·) true

/-- The merits of the new point, 381-411, from its convex and exact costs and violations. -/
def scored (r : Results K) (y convexCosts convexViols costs viols : List K) : Results K :=
  let newApprox := convexCosts.sum + dot convexViols r.coeffs
  let approx := r.bestExactMerit - newApprox
  let newExact := costs.sum + dot viols r.coeffs
  let exact := r.bestExactMerit - newExact
  { r with newVars := y, newApproxViols := convexViols, newApproxCosts := convexCosts, newApproxMerit := newApprox,
           approxImprove := approx, newCosts := costs, newViols := viols, newExactMerit := newExact, exactImprove := exact,
           improveRatio := if |approx| < tiny then 0 else exact / approx }

/-- `solveQPProblem`, 373-439. -/
def solveQPProblem (P : QPProblem K S) (o : World K) (w : Run K S) : Option (Run K S × Status) :=
  let k := w.res.overallIteration
  let a := w.qps.solve (o.initOk k) (o.answer k)
  match a.1 with
  | none =>
    match P.setVariables w.res.bestVars w.prob with
    | none => none
    | some s => some ({ w with qps := a.2.2, prob := s, log := w.log ++ [⟨w.prob, w.res, a.2.1, none, [], []⟩] }, .qpSolveFailed)
  | some y =>
    match P.setVariables y w.prob with
    | none => none
    | some t =>
      match P.evaluateConvexCosts y t with
      | none => none
      | some cc =>
        let cv := P.evaluateConvexConstraintViolations y t
        let ev := P.getExactConstraintViolations t
        if cv.length = w.res.coeffs.length ∧ ev.length = w.res.coeffs.length then
          match P.setVariables w.res.bestVars t with
          | none => none
          | some s =>
            some ({ w with qps := a.2.2, prob := s, res := scored w.res y cc cv (P.getExactCosts t) ev,
                           log := w.log ++ [⟨w.prob, w.res, a.2.1, some y, cc, cv⟩] },
              if callCallbacks o k then .running else .stoppedByCallback)
        else none

/-- `updateBounds` and `results_.box_size = getBoxSize()` (288-289, 300-301, 342-343, 364-365). -/
def sendBounds (P : QPProblem K S) (w : Run K S) : Option (Run K S) :=
  match w.qps.updateBounds (P.qp w.prob).lower (P.qp w.prob).upper with
  | none => none
  | some r => some { w with qps := r.2, res := { w.res with box := P.getBoxSize w.prob }, sent := w.sent ++ [P.qp w.prob] }

/-- 287-289, 341-343 and, after `setVariables`, 363-365. -/
def scaleBox (P : QPProblem K S) (a : K) (w : Run K S) : Option (Run K S) :=
  match P.scaleBoxSize a w.prob with
  | none => none
  | some s => sendBounds P { w with prob := s }

/-- 299-301. -/
def minimalBox (P : QPProblem K S) (p : Params K) (w : Run K S) : Option (Run K S) :=
  match P.setBoxSize (List.replicate (P.getNumNLPVars w.prob) p.minTrustBoxSize) w.prob with
  | none => none
  | some s => sendBounds P { w with prob := s }

/-- The assignments 349-357. -/
def accepted (r : Results K) : Results K :=
  { r with bestVars := r.newVars, bestExactMerit := r.newExactMerit, bestViols := r.newViols, bestCosts := r.newCosts,
           bestApproxMerit := r.newApproxMerit, bestApproxViols := r.newApproxViols, bestApproxCosts := r.newApproxCosts }

/-- 349-366. -/
def accept (P : QPProblem K S) (p : Params K) (w : Run K S) : Option (Run K S) :=
  match P.setVariables w.res.newVars w.prob with
  | none => none
  | some s => scaleBox P p.trustExpandRatio { w with prob := s, res := accepted w.res }

/-- Outcome of one pass through the body of the trust-region loop. -/
inductive TrOut (K : Type u) (S : Type v) | cont (w : Run K S) (failures : Int) | done (w : Run K S)

/-- 280-307, after the QP solver failed. -/
def afterFailure (P : QPProblem K S) (p : Params K) (w : Run K S) (failures : Int) : Option (TrOut K S) :=
  if failures + 1 < p.maxQpSolverFailures then (scaleBox P p.trustShrinkRatio w).map fun w => .cont w (failures + 1)
  else if failures + 1 = p.maxQpSolverFailures then (minimalBox P p w).map fun w => .cont w (failures + 1)
  else some (.done w)

/-- 311-368, after the QP solver succeeded. -/
def afterSuccess (P : QPProblem K S) (p : Params K) (w : Run K S) (failures : Int) : Option (TrOut K S) :=
  if w.res.approxImprove < p.minApproxImprove then some (.done { w with status := .converged })
  else if w.res.approxImprove / max |w.res.bestExactMerit| tiny < p.minApproxImproveFrac then
    some (.done { w with status := .converged })
  else if w.res.exactImprove < 0 ∨ w.res.improveRatio < p.improveRatioThreshold then
    (scaleBox P p.trustShrinkRatio w).map fun w => .cont w failures
  else (accept P p w).map .done

/-- One pass through the body of the loop of `runTrustRegionLoop`, 268-369. -/
def trBody (P : QPProblem K S) (p : Params K) (o : World K) (w : Run K S) (failures : Int) : Option (TrOut K S) :=
  match solveQPProblem P o { w with res := { w.res with overallIteration := w.res.overallIteration + 1
                                                        trustRegionIteration := w.res.trustRegionIteration + 1 } } with
  | none => none
  | some r =>
    if r.2 = .stoppedByCallback then some (.done { r.1 with status := r.2 })
    else if r.2 ≠ .running then afterFailure P p { r.1 with status := r.2 } failures
    else afterSuccess P p { r.1 with status := r.2 } failures

/-- `maxCoeff()`; of an empty vector it is undefined. -/
def maxOf : List K → Option K
  | [] => none
  | a :: l => some (maxCoeff a l)

/-- The `while` loop of `runTrustRegionLoop`, 266-370. -/
def trLoop (P : QPProblem K S) (p : Params K) (o : World K) : Nat → Run K S → Int → Out K S (Run K S)
  | 0, w, _ => .fuel w
  | n + 1, w, f =>
    match maxOf w.res.box with
    | none => .fail
    | some b =>
      if p.minTrustBoxSize ≤ b then
        match trBody P p o w f with
        | none => .fail
        | some (.cont w' f') => trLoop P p o n w' f'
        | some (.done w') => .ok w'
      else .ok w

/-- `convexify` and the transfer to the QP solver, 204-244. -/
def convexifyAndSend (P : QPProblem K S) (o : World K) (w : Run K S) : Option (Run K S) :=
  match P.convexify w.prob with
  | none => none
  | some s =>
    match OsqpEigen.transfer (o.inPlace w.clockReads) (o.inPlace' w.clockReads) (P.qp w.prob).nv (P.qp w.prob).nc (P.qp s) w.qps with
    | none => none
    | some q => some { w with prob := s, qps := q, sent := w.sent ++ [P.qp s] }

/-- The end of `stepSQPSolver`, 249-259. -/
def stepEnd (p : Params K) (w : Run K S) : Out K S (Run K S × Bool) :=
  if w.status = .converged then .ok (w, true)
  else
    match maxOf w.res.box with
    | none => .fail
    | some b => if b < p.minTrustBoxSize then .ok ({ w with status := .converged }, true) else .ok (w, false)

/-- `stepSQPSolver`, 202-260. -/
def stepSQPSolver (P : QPProblem K S) (p : Params K) (o : World K) (fuel : Nat) (w : Run K S) : Out K S (Run K S × Bool) :=
  match convexifyAndSend P o { w with res := { w.res with convexifyIteration := w.res.convexifyIteration + 1 } } with
  | none => .fail
  | some w =>
    match trLoop P p o fuel { w with res := { w.res with trustRegionIteration := 0 } } 0 with
    | .fail => .fail
    | .fuel w => .fuel w
    | .ok w => stepEnd p w

/-- The convexification loop, 105-124; the first argument counts the remaining rounds. -/
def convexLoop (P : QPProblem K S) (p : Params K) (o : World K) (fuel : Nat) : Nat → Run K S → Out K S (Run K S)
  | 0, w => .ok w
  | k + 1, w =>
    if p.maxTime < o.clock w.clockReads then .ok { w with clockReads := w.clockReads + 1, status := .timeLimit }
    else if p.maxIterations ≤ (w.res.overallIteration : Int) then
      .ok { w with clockReads := w.clockReads + 1, status := .iterationLimit }
    else
      match stepSQPSolver P p o fuel { w with clockReads := w.clockReads + 1 } with
      | .fail => .fail
      | .fuel w => .fuel w
      | .ok (w, true) => .ok w
      | .ok (w, false) => convexLoop P p o fuel k w

/-- `verifySQPSolverConvergence`, 161-177. -/
def verifyConvergence (p : Params K) (r : Results K) : Bool :=
  match maxOf r.bestViols with
  | none => true
  | some v => decide (v < p.cntTolerance)

/-- The merit coefficients of `adjustPenalty`, 181-197; the sizes are asserted. -/
def inflate (p : Params K) (r : Results K) : Option (List K) :=
  if p.inflateIndividually then
    if r.bestViols.length = r.coeffs.length then
      some (List.zipWith (fun v c => if p.cntTolerance < v then c * p.meritCoeffIncreaseRatio else c) r.bestViols r.coeffs)
    else none
  else some (r.coeffs.map (· * p.meritCoeffIncreaseRatio))

/-- `adjustPenalty`, 179-200. -/
def adjustPenalty (P : QPProblem K S) (p : Params K) (w : Run K S) : Option (Run K S) :=
  match inflate p w.res, w.res.box with
  | some c, b :: _ =>
    match setBoxSize P (max b (p.minTrustBoxSize / p.trustShrinkRatio * (3 / 2))) { w with res := { w.res with coeffs := c } } with
    | none => none
    | some w => constraintMeritCoeffChanged P w
  | _, _ => none

/-- The penalty loop, 99-145; the first argument counts the remaining rounds, the second is `penalty_iteration`. -/
def penaltyLoop (P : QPProblem K S) (p : Params K) (o : World K) (fuel : Nat) : Nat → Nat → Run K S → Out K S (Run K S)
  | 0, _, w => .ok w
  | m + 1, i, w =>
    match convexLoop P p o fuel 99 { w with res := { w.res with penaltyIteration := i, convexifyIteration := 0 } } with
    | .fail => .fail
    | .fuel w => .fuel w
    | .ok w =>
      if verifyConvergence p w.res then .ok { w with status := .converged }
      else if w.status = .iterationLimit ∨ w.status = .timeLimit then .ok w
      else
        match adjustPenalty P p { w with status := .running } with
        | none => .fail
        | some w => penaltyLoop P p o fuel m (i + 1) w

/-- The end of `solve`, 147-158. -/
def finish (P : QPProblem K S) (w : Run K S) : Out K S (Run K S) :=
  match P.setVariables w.res.bestVars w.prob with
  | none => .fail
  | some s => .ok { w with prob := s, status := if w.status = .running then .penaltyIterationLimit else w.status }

/-- `TrustRegionSQPSolver::solve`, 87-159. -/
def solve (P : QPProblem K S) (p : Params K) (o : World K) (fuel : Nat) (s : S) (qps : Solver K) : Out K S (Run K S) :=
  match init P p s qps with
  | none => .fail
  | some w =>
    match penaltyLoop P p o fuel p.maxMeritCoeffIncreases 0 w with
    | .fail => .fail
    | .fuel w => .fuel w
    | .ok w => finish P w

/-- `TrajOptQPProblem` as a `QPProblem` (trajopt_qp_problem.cpp 1118-1219).  Variables are a list of `nVars` values; `setVariables`
reads `nVars` values from the pointer. -/
def trajOpt (sqrt : K → K) (hash : (Nat → K) → Nat) (junk : Nat → Bounds.Ext K) : QPProblem K (QpProblem.State K) where
  getNumNLPVars s := s.nVars
  getNumNLPConstraints s := s.merit.length
  getVariableValues s := (List.range s.nVars).map s.x
  setVariables l s :=
    if s.nVars ≤ l.length then some (s.setVariables hash fun i => if i < s.nVars then l.getD i 0 else 0) else none
  getExactCosts s := s.getExactCosts
  getExactConstraintViolations s := s.getExactConstraintViolations
  evaluateConvexCosts l s := if l.length = s.nQpVars then s.evaluateConvexCosts fun i => l.getD i 0 else none
  evaluateConvexConstraintViolations l s := s.evaluateConvexConstraintViolations fun i => l.getD i 0
  getBoxSize s := s.box
  setBoxSize b s := s.setBoxSize b
  scaleBoxSize a s := s.scaleBoxSize a
  setConstraintMeritCoeff m s := s.setConstraintMeritCoeff m
  convexify s := s.convexify sqrt junk
  qp s := { nv := s.nQpVars, nc := s.nQpCnts, hessian := s.hessian, gradient := s.gradient, matrix := s.matrix, lower := s.lower,
            upper := s.upper, nNlp := s.nVars, vars := (List.range s.nVars).map s.x,
            violations := s.evaluateConvexConstraintViolations s.x }

end
end Verif.SqpRun
