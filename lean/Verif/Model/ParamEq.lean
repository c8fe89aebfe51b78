import Verif.Model.Yaml
import Verif.Model.Legacy
import Verif.Model.Sqp

/-!
Comparison of solver parameters: `BasicTrustRegionSQPParameters::operator==` (trajopt_sco/src/optimizers.cpp 84-116) and
`SQPParameters::operator==` (trajopt_optimizers/trajopt_sqp/src/types.cpp 32-61).

`feps` is `numeric_limits<float>::epsilon()`, `deps` the one of `double` (the default tolerance of tesseract's
`almostEqualRelativeAndAbs`, see `Verif.Yaml.almostEq`).  `max_merit_coeff_increases` is a `double` in the code; the
models of the optimizers keep it as a natural number, here it is compared as the number it is.  Not-a-number is not modelled.
-/

namespace Verif.ParamEq

open Verif.Yaml (almostEq)

universe u

/-- `BasicTrustRegionSQPParameters`, optimizers.hpp 92-135: what the loops use, and the rest. -/
structure LegacyAll (K : Type u) where
  base : Legacy.Params K
  trustBoxSize : K
  logResults : Bool
  logDir : String
  numThreads : ℤ

/-- `SQPParameters`, types.h 95-141. -/
structure SqpAll (K : Type u) where
  base : Sqp.Params K
  logResults : Bool
  logDir : String

section
variable {K : Type u} [Field K] [LinearOrder K]

/-- optimizers.cpp 84-111 -/
def eqLegacy (feps deps : K) (p q : LegacyAll K) : Bool :=
  almostEq feps deps p.base.improveRatioThreshold q.base.improveRatioThreshold &&
  almostEq feps deps p.base.minTrustBoxSize q.base.minTrustBoxSize &&
  almostEq feps deps p.base.minApproxImprove q.base.minApproxImprove &&
  almostEq feps deps p.base.minApproxImproveFrac q.base.minApproxImproveFrac &&
  decide (p.base.maxIter = q.base.maxIter) &&
  almostEq feps deps p.base.trustShrinkRatio q.base.trustShrinkRatio &&
  almostEq feps deps p.base.trustExpandRatio q.base.trustExpandRatio &&
  almostEq feps deps p.base.cntTolerance q.base.cntTolerance &&
  almostEq feps deps (p.base.maxMeritCoeffIncreases : K) (q.base.maxMeritCoeffIncreases : K) &&
  decide (p.base.maxQpSolverFailures = q.base.maxQpSolverFailures) &&
  almostEq feps deps p.base.meritCoeffIncreaseRatio q.base.meritCoeffIncreaseRatio &&
  almostEq feps deps p.base.maxTime q.base.maxTime &&
  almostEq feps deps p.base.initialMeritErrorCoeff q.base.initialMeritErrorCoeff &&
  decide (p.base.inflateIndividually = q.base.inflateIndividually) &&
  almostEq feps deps p.trustBoxSize q.trustBoxSize &&
  decide (p.logResults = q.logResults) &&
  decide (p.logDir = q.logDir) &&
  decide (p.numThreads = q.numThreads)

/-- optimizers.cpp 113-116 -/
def neLegacy (feps deps : K) (p q : LegacyAll K) : Bool := !eqLegacy feps deps p q

/-- types.cpp 32-59 -/
def eqSqp (feps deps : K) (p q : SqpAll K) : Bool :=
  almostEq feps deps p.base.improveRatioThreshold q.base.improveRatioThreshold &&
  almostEq feps deps p.base.minTrustBoxSize q.base.minTrustBoxSize &&
  almostEq feps deps p.base.minApproxImprove q.base.minApproxImprove &&
  almostEq feps deps p.base.minApproxImproveFrac q.base.minApproxImproveFrac &&
  decide (p.base.maxIterations = q.base.maxIterations) &&
  almostEq feps deps p.base.trustShrinkRatio q.base.trustShrinkRatio &&
  almostEq feps deps p.base.trustExpandRatio q.base.trustExpandRatio &&
  almostEq feps deps p.base.cntTolerance q.base.cntTolerance &&
  almostEq feps deps (p.base.maxMeritCoeffIncreases : K) (q.base.maxMeritCoeffIncreases : K) &&
  decide (p.base.maxQpSolverFailures = q.base.maxQpSolverFailures) &&
  almostEq feps deps p.base.meritCoeffIncreaseRatio q.base.meritCoeffIncreaseRatio &&
  almostEq feps deps p.base.maxTime q.base.maxTime &&
  almostEq feps deps p.base.initialMeritErrorCoeff q.base.initialMeritErrorCoeff &&
  decide (p.base.inflateIndividually = q.base.inflateIndividually) &&
  almostEq feps deps p.base.initialTrustBoxSize q.base.initialTrustBoxSize &&
  decide (p.logResults = q.logResults) &&
  decide (p.logDir = q.logDir)

/-- types.cpp 61 -/
def neSqp (feps deps : K) (p q : SqpAll K) : Bool := !eqSqp feps deps p q

end
end Verif.ParamEq
