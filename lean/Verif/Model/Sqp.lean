import Mathlib.Algebra.Order.Field.Basic
import Mathlib.Algebra.BigOperators.Group.List.Basic
import Mathlib.Algebra.Order.AbsoluteValue.Basic

/-!
Model of `trajopt_sqp::TrustRegionSQPSolver`
(/repo/trajopt_optimizers/trajopt_sqp/src/trust_region_sqp_solver.cpp; types in include/trajopt_sqp/types.h).

Everything outside the solver is an oracle collected in `Env`: the exact costs and violations are arbitrary
functions of the NLP variables, the QP solver may answer anything (or fail), callbacks and the clock are
arbitrary.  Oracles are indexed by a call counter, so they may depend on the history in any way.

Simplifications
* `box_size` is one number: every entry of the vector is always equal (it starts as a `Constant` vector and is
  only scaled or replaced by another `Constant` vector).  The problem has at least one variable
  (`maxCoeff` of an empty vector is undefined in Eigen).
* `max_merit_coeff_increases` (a `double` compared with an `int` counter) is a natural number.
* The trust-region `while` loop takes fuel; `none` means the fuel ran out.  C25 proves enough fuel exists.
* Logging, names and the two "approx" copies in `best_*` other than the merit are left out.
-/

namespace Verif.Sqp

universe u
variable {K : Type u}

/-- `enum class SQPStatus`, types.h. -/
inductive Status
  | running | converged | iterationLimit | penaltyIterationLimit | timeLimit | qpSolveFailed | stoppedByCallback
  deriving DecidableEq, Repr

/-- `struct SQPParameters`, types.h (the fields that influence the run). -/
structure Params (K : Type u) where
  improveRatioThreshold : K
  minTrustBoxSize : K
  minApproxImprove : K
  minApproxImproveFrac : K
  maxIterations : ℤ
  trustShrinkRatio : K
  trustExpandRatio : K
  cntTolerance : K
  maxMeritCoeffIncreases : ℕ
  maxQpSolverFailures : ℤ
  meritCoeffIncreaseRatio : K
  maxTime : K
  initialMeritErrorCoeff : K
  inflateIndividually : Bool
  initialTrustBoxSize : K

/-- What the solver is connected to: the QP problem (exact functions of the NLP variables, convex model values),
the QP solver, the callbacks and the clock. -/
structure Env (K : Type u) where
  /-- `getNumNLPVars()` -/
  nVars : ℕ
  /-- `getNumNLPConstraints()` -/
  nCnts : ℕ
  /-- value of the NLP variables when `solve` is called -/
  x0 : List K
  /-- `getExactCosts()` as a function of the NLP variables -/
  exactCosts : List K → List K
  /-- `getExactConstraintViolations()` as a function of the NLP variables -/
  exactViols : List K → List K
  /-- `evaluateConvexCosts(x)` at the k-th QP call -/
  convexCosts : ℕ → List K → List K
  /-- `evaluateConvexConstraintViolations(x)` at the k-th QP call -/
  convexViols : ℕ → List K → List K
  /-- k-th call of `qp_solver->solve()` with the trust box (centre, size) in force; `none` = failure.
  The answer has one entry per QP variable (NLP variables first, then slacks). -/
  qp : ℕ → List K → K → Option (List K)
  /-- answers of the registered callbacks when they are executed after the k-th QP call -/
  callbacks : ℕ → List Bool
  /-- elapsed time at the k-th clock reading -/
  clock : ℕ → K

/-- Ghost record of one QP solve, used to state what the QP was posed with and what callbacks saw. -/
structure QpEvent (K : Type u) where
  /-- centre and size of the trust box last sent to the QP solver -/
  centre : List K
  box : K
  /-- best point and `results_.box_size` at that moment -/
  bestVars : List K
  resultsBox : K
  /-- NLP variables held by the problem when control returns to the solver/callbacks -/
  probVarsAfter : List K

/-- Solver state: `status_`, `results_`, the mutable part of the QP problem and of the QP solver. -/
structure St (K : Type u) where
  status : Status
  -- results_
  bestExactMerit : K
  newExactMerit : K
  bestApproxMerit : K
  newApproxMerit : K
  bestVars : List K
  newVars : List K
  approxImprove : K
  exactImprove : K
  improveRatio : K
  box : K
  coeffs : List K
  bestViols : List K
  newViols : List K
  bestCosts : List K
  newCosts : List K
  penaltyIteration : ℕ
  convexifyIteration : ℕ
  trustRegionIteration : ℕ
  overallIteration : ℕ
  -- qp_problem
  probVars : List K
  probBox : K
  probCentre : List K
  probCoeffs : List K
  -- qp_solver (bounds last sent with updateBounds)
  solverCentre : List K
  solverBox : K
  -- bookkeeping of the model
  clockReads : ℕ
  trace : List (QpEvent K)

section
variable [Field K] [LinearOrder K]

/-- `a.dot(b)` of two vectors. -/
def dot (a b : List K) : K := (List.zipWith (· * ·) a b).sum

/-- `maxCoeff()` of a non-empty vector. -/
def maxCoeff (a : K) (l : List K) : K := l.foldl max a

/-- `QPProblem::setVariables(x.data())` (trajopt_qp_problem.cpp 700-716, ifopt_qp_problem.cpp 143): the problem reads
its first `getRows()` values from the pointer. -/
def setVariables (e : Env K) (x : List K) (s : St K) : St K := { s with probVars := x.take e.nVars }

/-- `QPProblem::setBoxSize` (trajopt_qp_problem.cpp 1052-1057): stores the size and recomputes the variable
bounds around the current variable values. -/
def probSetBoxSize (b : K) (s : St K) : St K := { s with probBox := b, probCentre := s.probVars }

/-- `QPProblem::scaleBoxSize` (trajopt_qp_problem.cpp 1046-1050). -/
def probScaleBoxSize (r : K) (s : St K) : St K := { s with probBox := s.probBox * r, probCentre := s.probVars }

/-- `qp_solver->updateBounds(qp_problem->getBoundsLower(), getBoundsUpper())`. -/
def solverUpdateBounds (s : St K) : St K := { s with solverCentre := s.probCentre, solverBox := s.probBox }

/-- `results_.box_size = qp_problem->getBoxSize()`. -/
def readBox (s : St K) : St K := { s with box := s.probBox }

/-- `TrustRegionSQPSolver::setBoxSize`, trust_region_sqp_solver.cpp 66-70. -/
def setBoxSize (b : K) (s : St K) : St K := readBox (probSetBoxSize b s)

/-- `constraintMeritCoeffChanged`, 72-79. -/
def constraintMeritCoeffChanged (s : St K) : St K :=
  { s with probCoeffs := s.coeffs
           bestExactMerit := s.bestCosts.sum + dot s.bestViols s.coeffs }

/-- `init`, 45-64, together with `status_ = kRunning` (89).  Fields not set by `init` have the value of the
`SQPResults` constructor (types.cpp 65-82) or are irrelevant. -/
def init (p : Params K) (e : Env K) : St K :=
  constraintMeritCoeffChanged <| setBoxSize p.initialTrustBoxSize
    { status := .running
      bestExactMerit := 0, newExactMerit := 0, bestApproxMerit := 0, newApproxMerit := 0
      bestVars := e.x0, newVars := []
      approxImprove := 0, exactImprove := 0, improveRatio := 0
      box := 1, coeffs := List.replicate e.nCnts p.initialMeritErrorCoeff
      bestViols := e.exactViols e.x0, newViols := []
      bestCosts := e.exactCosts e.x0, newCosts := []
      penaltyIteration := 0, convexifyIteration := 0, trustRegionIteration := 0, overallIteration := 0
      probVars := e.x0, probBox := 1, probCentre := e.x0, probCoeffs := []
      solverCentre := [], solverBox := 0, clockReads := 0, trace := [] }

/-- `callCallbacks`, 441-447: every callback runs, the answers are and-ed. -/
def callCallbacks (e : Env K) (k : ℕ) : Bool := (e.callbacks k).foldl (· && ·) true

/-- The literal 1e-12 (327, 408). -/
def tiny : K := 1 / 1000000000000

/-- `solveQPProblem`, 373-439. -/
def solveQPProblem (e : Env K) (s : St K) : St K × Status :=
  let k := s.overallIteration
  match e.qp k s.solverCentre s.solverBox with
  | none =>
    let s1 := setVariables e s.bestVars s
    ({ s1 with trace := ⟨s.solverCentre, s.solverBox, s.bestVars, s.box, s1.probVars⟩ :: s1.trace }, .qpSolveFailed)
  | some y =>
    let s := { s with newVars := y }
    let s := setVariables e s.newVars s
    let newApproxViols := e.convexViols k s.newVars
    let newApproxCosts := e.convexCosts k s.newVars
    let s := { s with newApproxMerit := newApproxCosts.sum + dot newApproxViols s.coeffs }
    let s := { s with approxImprove := s.bestExactMerit - s.newApproxMerit }
    let s := { s with newCosts := e.exactCosts s.probVars }
    let s := { s with newViols := e.exactViols s.probVars }
    let s := { s with newExactMerit := s.newCosts.sum + dot s.newViols s.coeffs }
    let s := { s with exactImprove := s.bestExactMerit - s.newExactMerit }
    let s := { s with improveRatio := if |s.approxImprove| < tiny then 0 else s.exactImprove / s.approxImprove }
    let s := setVariables e s.bestVars s
    let s := { s with trace := ⟨s.solverCentre, s.solverBox, s.bestVars, s.box, s.probVars⟩ :: s.trace }
    if callCallbacks e k then (s, .running) else (s, .stoppedByCallback)

/-- Outcome of one pass through the body of the trust-region loop. -/
inductive TrOut (K : Type u) | cont (s : St K) (failures : ℤ) | done (s : St K)

/-- Shrink step (287-289, 341-343): scale the problem's box, send the bounds, read the box back. -/
def shrink (p : Params K) (s : St K) : St K :=
  readBox (solverUpdateBounds (probScaleBoxSize p.trustShrinkRatio s))

/-- Accept branch, 349-366. -/
def accept (p : Params K) (e : Env K) (s : St K) : St K :=
  let s := { s with bestVars := s.newVars, bestExactMerit := s.newExactMerit, bestViols := s.newViols,
                    bestCosts := s.newCosts, bestApproxMerit := s.newApproxMerit }
  let s := setVariables e s.bestVars s
  readBox (solverUpdateBounds (probScaleBoxSize p.trustExpandRatio s))

/-- One pass through the body of the loop in `runTrustRegionLoop`, 268-369. -/
def trBody (p : Params K) (e : Env K) (s : St K) (failures : ℤ) : TrOut K :=
  let s := { s with overallIteration := s.overallIteration + 1, trustRegionIteration := s.trustRegionIteration + 1 }
  let (s, st) := solveQPProblem e s
  let s := { s with status := st }
  if s.status = .stoppedByCallback then .done s
  else if s.status ≠ .running then
    let failures := failures + 1
    if failures < p.maxQpSolverFailures then .cont (shrink p s) failures
    else if failures = p.maxQpSolverFailures then
      .cont (readBox (solverUpdateBounds (probSetBoxSize p.minTrustBoxSize s))) failures
    else .done s
  else if s.approxImprove < p.minApproxImprove then .done { s with status := .converged }
  else if s.approxImprove / max |s.bestExactMerit| tiny < p.minApproxImproveFrac then
    .done { s with status := .converged }
  else if s.exactImprove < 0 ∨ s.improveRatio < p.improveRatioThreshold then .cont (shrink p s) failures
  else .done (accept p e s)

/-- The `while` loop of `runTrustRegionLoop`, 266-370, with fuel. -/
def trLoop (p : Params K) (e : Env K) : ℕ → St K → ℤ → Option (St K)
  | 0, _, _ => none
  | n + 1, s, f =>
    if p.minTrustBoxSize ≤ s.box then
      match trBody p e s f with
      | .cont s' f' => trLoop p e n s' f'
      | .done s' => some s'
    else some s

/-- `runTrustRegionLoop`, 262-371. -/
def runTrustRegionLoop (p : Params K) (e : Env K) (fuel : ℕ) (s : St K) : Option (St K) :=
  trLoop p e fuel { s with trustRegionIteration := 0 } 0

/-- `qp_problem->convexify()` (bounds part: recomputed around the current variables, trajopt_qp_problem.cpp 972)
followed by sending all data to the QP solver, 209-244 (both branches end with the solver holding the bounds). -/
def convexifyAndSend (s : St K) : St K := solverUpdateBounds { s with probCentre := s.probVars }

/-- `stepSQPSolver`, 202-260; the Boolean is its return value. -/
def stepSQPSolver (p : Params K) (e : Env K) (fuel : ℕ) (s : St K) : Option (St K × Bool) :=
  let s := { s with convexifyIteration := s.convexifyIteration + 1 }
  let s := convexifyAndSend s
  match runTrustRegionLoop p e fuel s with
  | none => none
  | some s =>
    if s.status = .converged then some (s, true)
    else if s.box < p.minTrustBoxSize then some ({ s with status := .converged }, true)
    else some (s, false)

/-- The convexification loop, 105-124; the first argument counts the remaining rounds (99 at the start). -/
def convexLoop (p : Params K) (e : Env K) (fuel : ℕ) : ℕ → St K → Option (St K)
  | 0, s => some s
  | k + 1, s =>
    let elapsed := e.clock s.clockReads
    let s := { s with clockReads := s.clockReads + 1 }
    if p.maxTime < elapsed then some { s with status := .timeLimit }
    else if p.maxIterations ≤ (s.overallIteration : ℤ) then some { s with status := .iterationLimit }
    else
      match stepSQPSolver p e fuel s with
      | none => none
      | some (s, true) => some s
      | some (s, false) => convexLoop p e fuel k s

/-- `verifySQPSolverConvergence`, 161-177. -/
def verifyConvergence (p : Params K) (s : St K) : Bool :=
  match s.bestViols with
  | [] => true
  | v :: vs => decide (maxCoeff v vs < p.cntTolerance)

/-- The inflation of the merit coefficients in `adjustPenalty`, 181-197. -/
def inflate (p : Params K) (s : St K) : List K :=
  if p.inflateIndividually then
    List.zipWith (fun v c => if p.cntTolerance < v then c * p.meritCoeffIncreaseRatio else c) s.bestViols s.coeffs
  else s.coeffs.map (· * p.meritCoeffIncreaseRatio)

/-- `adjustPenalty`, 179-200. -/
def adjustPenalty (p : Params K) (s : St K) : St K :=
  let s := { s with coeffs := inflate p s }
  let s := setBoxSize (max s.box (p.minTrustBoxSize / p.trustShrinkRatio * (3 / 2))) s
  constraintMeritCoeffChanged s

/-- The penalty loop, 99-145; the first argument counts the remaining rounds, the second is `penalty_iteration`. -/
def penaltyLoop (p : Params K) (e : Env K) (fuel : ℕ) : ℕ → ℕ → St K → Option (St K)
  | 0, _, s => some s
  | m + 1, i, s =>
    let s := { s with penaltyIteration := i, convexifyIteration := 0 }
    match convexLoop p e fuel 99 s with
    | none => none
    | some s =>
      if verifyConvergence p s then some { s with status := .converged }
      else if s.status = .iterationLimit ∨ s.status = .timeLimit then some s
      else penaltyLoop p e fuel m (i + 1) (adjustPenalty p { s with status := .running })

/-- `TrustRegionSQPSolver::solve`, 87-159. -/
def solve (p : Params K) (e : Env K) (fuel : ℕ) : Option (St K) :=
  match penaltyLoop p e fuel p.maxMeritCoeffIncreases 0 (init p e) with
  | none => none
  | some s =>
    let s := if s.status = .running then { s with status := .penaltyIterationLimit } else s
    some (setVariables e s.bestVars s)

end
end Verif.Sqp
