import Verif.Model.SqpRun

/-!
One `TrustRegionSQPSolver` used for several problems, several times (trust_region_sqp_solver.h 70-155, trust_region_sqp_solver.cpp 45-159).

`init` (76-85) gives `status_`, `results_`, the box and the merit coefficients fresh values for each `solve`.  What the next `solve` finds of
the earlier ones is the QP solver object `qp_solver` with everything in it, and the problem objects.  Between the calls of `solve` the user may
move the variables of a problem (`setVariables`).  The parameters `params` are public and may be different for each call.  `verbose` and
the callbacks' own state are left out; the answers of OSQP, callbacks and clock (`World`) are arbitrary for each call.
-/

namespace Verif.SqpRun

open Verif.Sqp (Params)
open Verif.OsqpEigen (Solver)
open Verif.QpProblem (State)

universe u

/-- One call of the user. -/
inductive Op (K : Type u)
  | set (k : Nat) (x : List K)
  | solve (k : Nat) (p : Params K) (o : World K)

/-- Ghost record of one call of `solve`: which problem, parameters, world, the variables before, and the state after. -/
structure Report (K : Type u) where
  k : Nat
  p : Params K
  o : World K
  start : State K
  final : Run K (State K)

/-- The problem objects, the QP solver inside the optimizer, and the reports of the finished runs. -/
structure Session (K : Type u) where
  problems : List (State K)
  qps : Solver K
  reports : List (Report K) := []

section
variable {K : Type u} [Field K] [LinearOrder K]

/-- One call.  A call on a problem that does not exist (null pointer) fails. -/
def Session.step (sqrt : K → K) (hash : (Nat → K) → Nat) (junk : Nat → Bounds.Ext K) (fuel : Nat) (s : Session K) :
    Op K → Out K (State K) (Session K)
  | .set k x =>
    match s.problems[k]? with
    | none => .fail
    | some t =>
      match (trajOpt sqrt hash junk).setVariables x t with
      | none => .fail
      | some t' => .ok { s with problems := s.problems.set k t' }
  | .solve k p o =>
    match s.problems[k]? with
    | none => .fail
    | some t =>
      match SqpRun.solve (trajOpt sqrt hash junk) p o fuel t s.qps with
      | .fail => .fail
      | .fuel w => .fuel w
      | .ok w => .ok { problems := s.problems.set k w.prob, qps := w.qps, reports := s.reports ++ [⟨k, p, o, t, w⟩] }

/-- A history of calls. -/
def Session.run (sqrt : K → K) (hash : (Nat → K) → Nat) (junk : Nat → Bounds.Ext K) (fuel : Nat) : List (Op K) → Session K → Out K (State K) (Session K)
  | [], s => .ok s
  | op :: ops, s =>
    match s.step sqrt hash junk fuel op with
    | .fail => .fail
    | .fuel w => .fuel w
    | .ok s => Session.run sqrt hash junk fuel ops s

end
end Verif.SqpRun
