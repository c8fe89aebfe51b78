import Verif.Model.Legacy

/-!
What the callbacks of `sco::BasicTrustRegionSQP` are given (trajopt_sco/src/optimizers.cpp 118-125, 754, 975-978).

`callCallbacks` passes `results_` to every callback: once per pass of the sqp loop, after the time check and before the first evaluation (754),
and once at the end, when status and total cost are set (978).  The loops of `Model/Legacy.lean` are repeated here with the list of what was
passed.

Simplifications: as in `Model/Legacy.lean`; callbacks do not write through the reference they get, and do not throw.
-/

namespace Verif.Legacy

universe u
variable {K : Type u}

/-- `OptResults` (optimizers.hpp 40-59). -/
structure View (K : Type u) where
  status : Status
  totalCost : K
  x : List K
  costVals : List K
  cntViols : List K
  nFuncEvals : ℕ
  nQpSolves : ℕ

section
variable [Field K] [LinearOrder K]

/-- `results_` while `optimize` runs: status and total cost `(r0, c0)` are written at the end only (975-976). -/
def view (r0 : Status) (c0 : K) (s : St K) : View K :=
  { status := r0, totalCost := c0, x := s.x, costVals := s.costVals, cntViols := s.cntViols, nFuncEvals := s.nFuncEvals, nQpSolves := s.nQpSolves }

/-- `sqpLoop` (737-936) with the calls of line 754. -/
def sqpLoopW (p : Params K) (e : Env K) (fuel : ℕ) : ℕ → ℤ → St K → List (St K) → Option (SqpOut K × List (St K))
  | 0, _, _, _ => none
  | n + 1, iter, s, calls =>
    let elapsed := e.clock s.clockReads
    let s := { s with clockReads := s.clockReads + 1 }
    if p.maxTime < elapsed then
      some (.cleanup (if satisfied p s.cntViols then .converged else .timeLimit) s, calls)
    else
      let calls := calls ++ [s]
      let s := evalIfNeeded e s
      match trLoop p e fuel s 0 with
      | none => none
      | some (.cont _ _) => none
      | some (.penalty s) => some (.penalty s, calls)
      | some (.failed s) => some (.cleanup .failed s, calls)
      | some (.exit s) =>
        if s.box < p.minTrustBoxSize then some (.penalty s, calls)
        else if p.maxIter ≤ iter then
          some (.cleanup (if satisfied p s.cntViols then .converged else .scoIterationLimit) s, calls)
        else sqpLoopW p e fuel n (iter + 1) s calls

/-- `meritLoop` (735-970) with the calls. -/
def meritLoopW (p : Params K) (e : Env K) (fuel : ℕ) : ℕ → St K → List (St K) → Option ((Status × St K) × List (St K))
  | 0, s, calls => some ((.penaltyIterationLimit, s), calls)
  | m + 1, s, calls =>
    match sqpLoopW p e fuel fuel 1 s calls with
    | none => none
    | some (.cleanup r s, calls) => some ((r, s), calls)
    | some (.penalty s, calls) =>
      if satisfied p s.cntViols then some ((.converged, s), calls)
      else
        meritLoopW p e fuel m
          { s with coeffs := inflate p s
                   box := max s.box (p.minTrustBoxSize / p.trustShrinkRatio * (3 / 2)) } calls

/-- `optimize` (699-991) with everything a callback is given, in order; `(r0, c0)` are status and total cost before the call. -/
def optimizeW (p : Params K) (e : Env K) (fuel : ℕ) (r0 : Status) (c0 : K) (s0 : St K) : Option (Result K × List (View K)) :=
  let s := { s0 with x := e.closest s0.x, coeffs := List.replicate e.nCnts p.initialMeritErrorCoeff, clockReads := 0 }
  match meritLoopW p e fuel p.maxMeritCoeffIncreases s [] with
  | none => none
  | some ((r, s), calls) => some (⟨r, s, s.costVals.sum⟩, calls.map (view r0 c0) ++ [view r s.costVals.sum s])

end
end Verif.Legacy
