import Verif.Model.SqpRun
import Verif.Model.IfoptQp

/-!
`trajopt_sqp::IfoptQPProblem` (/repo/trajopt_optimizers/trajopt_sqp/src/ifopt_qp_problem.cpp) as a problem object of
`TrustRegionSQPSolver`.
-/

namespace Verif.SqpRun

open Verif.OsqpEigen (Problem)

universe u

section
variable {K : Type u} [Field K] [LinearOrder K]

/-- What `OSQPEigenSolver` reads of an `IfoptQPProblem`. -/
def ofIfopt (s : IfoptQp.State K) : Problem K :=
  { nv := s.nQpVars, nc := s.nQpCnts, hessian := s.hessian, gradient := s.gradient, matrix := s.matrix, lower := s.lower,
    upper := s.upper, nNlp := s.nVars, vars := (List.range s.nVars).map s.x,
    violations := s.evaluateConvexConstraintViolations s.x }

/-- `IfoptQPProblem` as a `QPProblem` (ifopt_qp_problem.cpp 143-144 and 509-573, ifopt_qp_problem.h).  Variables are a list of `nVars`
values; `setVariables` reads `nVars` values from the pointer.  The exact costs are stacked by `Problem::getCosts`; vectors of different
size there (`none` in `State.getExactCosts`) are excluded by the assumptions of the theorems and read as no costs here. -/
def ifopt (sqrt : K → K) : QPProblem K (IfoptQp.State K) where
  getNumNLPVars s := s.nVars
  getNumNLPConstraints s := s.nCnts
  getVariableValues s := (List.range s.nVars).map s.x
  setVariables l s :=
    if s.nVars ≤ l.length then some (s.setVariables fun i => if i < s.nVars then l.getD i 0 else 0) else none
  getExactCosts s := s.getExactCosts.getD []
  getExactConstraintViolations s := s.getExactConstraintViolations
  evaluateConvexCosts l s := if s.nVars ≤ l.length then some (s.evaluateConvexCosts fun i => l.getD i 0) else none
  evaluateConvexConstraintViolations l s := s.evaluateConvexConstraintViolations fun i => l.getD i 0
  getBoxSize s := s.box
  setBoxSize b s := s.setBoxSize b
  scaleBoxSize a s := s.scaleBoxSize a
  setConstraintMeritCoeff m s := s.setConstraintMeritCoeff m
  convexify s := s.convexify sqrt
  qp s := ofIfopt s

end
end Verif.SqpRun
