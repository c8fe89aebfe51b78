import Verif.Model.Sqp

/-!
Model of `sco::BasicTrustRegionSQP::optimize`
(/repo/trajopt_sco/src/optimizers.cpp 699-991, `BasicTrustRegionSQPResults::update` 380-426,
`OptResults` in include/trajopt_sco/optimizers.hpp).

The convex solver, the exact and convexified cost/constraint functions, and the clock are oracles (`Env`),
indexed by call counters so that they may depend on the history.

Simplifications
* Callbacks get a mutable reference to the results; the model assumes they do not write through it.
* `max_merit_coeff_increases` is a natural number; log files are left out.
* The `while` and the unbounded `for` loop take fuel (`none` = fuel exhausted); C20 proves enough fuel exists.
* Division follows IEEE comparison semantics through `divLt` (division by zero gives ±inf or NaN).
-/

namespace Verif.Legacy

open Verif.Sqp (dot maxCoeff)

universe u
variable {K : Type u}

/-- `enum OptStatus`, optimizers.hpp. -/
inductive Status
  | converged | scoIterationLimit | penaltyIterationLimit | timeLimit | failed | invalid
  deriving DecidableEq, Repr

/-- `BasicTrustRegionSQPParameters` without the mutable `trust_box_size`. -/
structure Params (K : Type u) where
  improveRatioThreshold : K
  minTrustBoxSize : K
  minApproxImprove : K
  minApproxImproveFrac : K
  maxIter : ℤ
  trustShrinkRatio : K
  trustExpandRatio : K
  cntTolerance : K
  maxMeritCoeffIncreases : ℕ
  maxQpSolverFailures : ℤ
  meritCoeffIncreaseRatio : K
  maxTime : K
  initialMeritErrorCoeff : K
  inflateIndividually : Bool

structure Env (K : Type u) where
  /-- number of constraints of the problem -/
  nCnts : ℕ
  /-- `OptProb::getClosestFeasiblePoint` (modelled separately, C11) -/
  closest : List K → List K
  /-- `evaluateCosts(prob_->getCosts(), x)` -/
  exactCosts : List K → List K
  /-- `evaluateConstraintViols(constraints, x)` -/
  exactViols : List K → List K
  /-- k-th `model_->optimize()` with the trust box around `x`: `none` = not CVX_SOLVED, otherwise the values of all
  model variables (problem variables first) -/
  qp : ℕ → List K → K → Option (List K)
  /-- `evaluateModelCosts(cost_models, model_var_vals)` at the k-th QP -/
  modelCosts : ℕ → List K → List K
  /-- `evaluateModelCntViols(cnt_models, model_var_vals)` at the k-th QP -/
  modelViols : ℕ → List K → List K
  clock : ℕ → K

/-- `results_` plus `param_.trust_box_size`, `merit_error_coeffs` and the clock counter. -/
structure St (K : Type u) where
  x : List K
  costVals : List K
  cntViols : List K
  nFuncEvals : ℕ
  nQpSolves : ℕ
  box : K
  coeffs : List K
  clockReads : ℕ

section
variable [Field K] [LinearOrder K]

/-- `a / b < c` for IEEE doubles with `b` a real value (zero counted as +0): x/0 is ±inf, 0/0 is NaN. -/
def divLt (a b c : K) : Bool :=
  if b = 0 then decide (a < 0) else decide (a / b < c)

/-- `cnt_viols.empty() || vecMax(cnt_viols) < cnt_tolerance` (745, 927, 939). -/
def satisfied (p : Params K) (viols : List K) : Bool :=
  match viols with
  | [] => true
  | v :: vs => decide (maxCoeff v vs < p.cntTolerance)

/-- Values computed by `BasicTrustRegionSQPResults::update`, 380-426. -/
structure IterRes (K : Type u) where
  newX : List K
  newCosts : List K
  newViols : List K
  oldMerit : K
  modelMerit : K
  newMerit : K
  approxImprove : K
  exactImprove : K

/-- `BasicTrustRegionSQPResults::update`, 380-426. -/
def iterUpdate (e : Env K) (s : St K) (k : ℕ) (modelVars : List K) : IterRes K :=
  let modelCosts := e.modelCosts k modelVars
  let modelViols := e.modelViols k modelVars
  let newX := modelVars.take s.x.length
  let newCosts := e.exactCosts newX
  let newViols := e.exactViols newX
  let oldMerit := s.costVals.sum + dot s.cntViols s.coeffs
  let modelMerit := modelCosts.sum + dot modelViols s.coeffs
  let newMerit := newCosts.sum + dot newViols s.coeffs
  { newX, newCosts, newViols, oldMerit, modelMerit, newMerit
    approxImprove := oldMerit - modelMerit, exactImprove := oldMerit - newMerit }

/-- How the trust-region loop is left. -/
inductive TrOut (K : Type u)
  /-- next pass of the `while` loop -/
  | cont (s : St K) (failures : ℤ)
  /-- `goto penaltyadjustment` with `retval = OPT_CONVERGED` -/
  | penalty (s : St K)
  /-- `goto cleanup` with `OPT_FAILED` -/
  | failed (s : St K)
  /-- `break` after accepting, or the loop condition became false -/
  | exit (s : St K)

/-- Body of the trust-region loop, 813-913. -/
def trBody (p : Params K) (e : Env K) (s : St K) (failures : ℤ) : TrOut K :=
  let ans := e.qp s.nQpSolves s.x s.box
  let k := s.nQpSolves
  let s := { s with nQpSolves := s.nQpSolves + 1 }
  match ans with
  | none =>
    if failures < p.maxQpSolverFailures - 1 then
      .cont { s with box := s.box * p.trustShrinkRatio } (failures + 1)
    else if failures = p.maxQpSolverFailures - 1 then
      .cont { s with box := p.minTrustBoxSize } (failures + 1)
    else .failed s
  | some y =>
    let r := iterUpdate e s k y
    let s := { s with nFuncEvals := s.nFuncEvals + 1 }
    if r.approxImprove < p.minApproxImprove then .penalty s
    else if divLt r.approxImprove r.oldMerit p.minApproxImproveFrac then .penalty s
    else if r.exactImprove < 0 ∨ divLt r.exactImprove r.approxImprove p.improveRatioThreshold = true then
      .cont { s with box := s.box * p.trustShrinkRatio } failures
    else
      .exit { s with x := r.newX, costVals := r.newCosts, cntViols := r.newViols,
                     box := s.box * p.trustExpandRatio }

/-- The loop `while (trust_box_size >= min_trust_box_size)`, 811-914. -/
def trLoop (p : Params K) (e : Env K) : ℕ → St K → ℤ → Option (TrOut K)
  | 0, _, _ => none
  | n + 1, s, f =>
    if p.minTrustBoxSize ≤ s.box then
      match trBody p e s f with
      | .cont s' f' => trLoop p e n s' f'
      | o => some o
    else some (.exit s)

/-- How the sqp loop is left. -/
inductive SqpOut (K : Type u)
  | penalty (s : St K)
  | cleanup (r : Status) (s : St K)

/-- First evaluation, 761-767. -/
def evalIfNeeded (e : Env K) (s : St K) : St K :=
  if s.costVals.isEmpty && s.cntViols.isEmpty then
    { s with cntViols := e.exactViols s.x, costVals := e.exactCosts s.x, nFuncEvals := s.nFuncEvals + 1 }
  else s

/-- The sqp loop `for (int iter = 1;; ++iter)`, 737-936. -/
def sqpLoop (p : Params K) (e : Env K) (fuel : ℕ) : ℕ → ℤ → St K → Option (SqpOut K)
  | 0, _, _ => none
  | n + 1, iter, s =>
    let elapsed := e.clock s.clockReads
    let s := { s with clockReads := s.clockReads + 1 }
    if p.maxTime < elapsed then
      some (.cleanup (if satisfied p s.cntViols then .converged else .timeLimit) s)
    else
      let s := evalIfNeeded e s
      match trLoop p e fuel s 0 with
      | none => none
      | some (.cont _ _) => none  -- not produced by trLoop
      | some (.penalty s) => some (.penalty s)
      | some (.failed s) => some (.cleanup .failed s)
      | some (.exit s) =>
        if s.box < p.minTrustBoxSize then some (.penalty s)
        else if p.maxIter ≤ iter then
          some (.cleanup (if satisfied p s.cntViols then .converged else .scoIterationLimit) s)
        else sqpLoop p e fuel n (iter + 1) s

/-- Inflation of the merit coefficients, 947-965. -/
def inflate (p : Params K) (s : St K) : List K :=
  if p.inflateIndividually then
    List.zipWith (fun v c => if p.cntTolerance < v then c * p.meritCoeffIncreaseRatio else c) s.cntViols s.coeffs
  else s.coeffs.map (· * p.meritCoeffIncreaseRatio)

/-- The merit adjustment loop, 735-970; `cleanup` states are returned with their status. -/
def meritLoop (p : Params K) (e : Env K) (fuel : ℕ) : ℕ → St K → Option (Status × St K)
  | 0, s => some (.penaltyIterationLimit, s)
  | m + 1, s =>
    match sqpLoop p e fuel fuel 1 s with
    | none => none
    | some (.cleanup r s) => some (r, s)
    | some (.penalty s) =>
      if satisfied p s.cntViols then some (.converged, s)
      else
        meritLoop p e fuel m
          { s with coeffs := inflate p s
                   box := max s.box (p.minTrustBoxSize / p.trustShrinkRatio * (3 / 2)) }

/-- What `optimize` leaves in `results_` (and `param_.trust_box_size`) and returns. -/
structure Result (K : Type u) where
  status : Status
  st : St K
  totalCost : K

/-- `BasicTrustRegionSQP::optimize`, 699-991, started in a state `s0` of `results_`/`trust_box_size`
(after `initialize(x)` the cost and violation vectors are empty).  The model assumes `x` non-empty (an empty `x`
throws at 720). -/
def optimize (p : Params K) (e : Env K) (fuel : ℕ) (s0 : St K) : Option (Result K) :=
  let s := { s0 with x := e.closest s0.x, coeffs := List.replicate e.nCnts p.initialMeritErrorCoeff, clockReads := 0 }
  match meritLoop p e fuel p.maxMeritCoeffIncreases s with
  | none => none
  | some (r, s) => some ⟨r, s, s.costVals.sum⟩

/-- `Optimizer::initialize`, 127-136 with `OptResults::clear`, and the current trust box size. -/
def initialState (x : List K) (box : K) : St K :=
  { x := x, costVals := [], cntViols := [], nFuncEvals := 0, nQpSolves := 0, box := box, coeffs := []
    clockReads := 0 }

end
end Verif.Legacy
