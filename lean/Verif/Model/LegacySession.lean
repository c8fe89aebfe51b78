import Verif.Model.Legacy

/-!
One `sco::BasicTrustRegionSQP` used several times on its problem (trajopt_sco/src/optimizers.cpp 118-174 and 699-991).

The object keeps `param_`, with the trust box size that `optimize` changes (149-150, 833, 967), and `results_`.  `setParameters` (140) replaces
the parameters, `initialize` (127-136) checks the length and replaces the results, `optimize` starts from both.  `getParameters` returns a
reference, writing through it is `setParameters`.  `setProblem` is left out (the problem is fixed).  What convex solver, functions and clock do
(`Env`) is arbitrary for each call.
-/

namespace Verif.Legacy

universe u

/-- One call of the user. -/
inductive Call (K : Type u)
  | setParameters (p : Params K) (box : K)
  | init (x : List K)
  | optimize (e : Env K)

/-- Outcome of calls. -/
inductive Outc (α : Type*)
  | ok (a : α)
  | throw
  | fuel

/-- Ghost record of one finished run: parameters and box size at its start, the world of the call, initial values, and the result. -/
structure Record (K : Type u) where
  params : Params K
  box : K
  env : Env K
  start : List K
  result : Result K

/-- `param_` (its trust box size is `st.box`), `results_`, and the records of the finished runs. -/
structure Optimizer (K : Type u) where
  nVars : Nat
  params : Params K
  st : St K
  records : List (Record K) := []

section
variable {K : Type u} [Field K] [LinearOrder K]

/-- A new optimizer for a problem with `n` variables; `results_` is empty. -/
def Optimizer.new (n : Nat) (p : Params K) (box : K) : Optimizer K := { nVars := n, params := p, st := initialState [] box }

/-- One call; `initialize` throws for a vector of another length (131-133), `optimize` without initial values (720-721). -/
def Optimizer.call (fuel : Nat) (s : Optimizer K) : Call K → Outc (Optimizer K)
  | .setParameters p b => .ok { s with params := p, st := { s.st with box := b } }
  | .init x => if x.length = s.nVars then .ok { s with st := initialState x s.st.box } else .throw
  | .optimize e =>
    if s.st.x = [] then .throw
    else match Legacy.optimize s.params e fuel s.st with
      | none => .fuel
      | some r => .ok { s with st := r.st, records := s.records ++ [⟨s.params, s.st.box, e, s.st.x, r⟩] }

/-- A history of calls. -/
def Optimizer.run (fuel : Nat) : List (Call K) → Optimizer K → Outc (Optimizer K)
  | [], s => .ok s
  | c :: cs, s =>
    match s.call fuel c with
    | .throw => .throw
    | .fuel => .fuel
    | .ok s => Optimizer.run fuel cs s

end
end Verif.Legacy
