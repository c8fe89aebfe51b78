import Mathlib.Algebra.Field.Defs
import Mathlib.Data.Int.ModEq

/-!
The saved iterates of `trajopt_ifopt::Problem` (trajopt_ifopt/src/core/problem.cpp 36-67, 111-140 and include/trajopt_ifopt/core/problem.h
200-258).

A constraint set is what the problem sees of it: the data it collects in `update()` (for collision sets the contacts, a function of the variables
at that time, so the variables of the last update are kept instead), and the values it computes from these data and the current variables.  Costs
that are updated (`SquaredCost`, `AbsoluteCost`) behave like constraint sets here and are not listed separately.  The variable set is a vector
(what nodes do with it is C39).  `assert`s are `assertion`, `std::out_of_range` is `outOfRange`.
-/

namespace Verif.ProblemHistory

universe u

/-- A constraint set: number of rows and values; the first argument is the variables at the last `update()`. -/
structure CSet (K : Type u) where
  rows : List K → Nat
  value : List K → List K → List K

/-- `Problem`: variables, constraint sets with the variables of their last update, the row count of the composite (which is not dynamic,
problem.cpp 38), and `x_prev`. -/
structure Problem (K : Type u) where
  x : List K
  sets : List (CSet K)
  cache : List K
  rows : Nat
  saved : List (List K)

/-- How a call ends; an exception can be caught, so the problem is part of it. -/
inductive Outc (K : Type u)
  | ok (p : Problem K)
  | outOfRange (p : Problem K)
  | assertion

section
variable {K : Type u}

/-- Rows of all sets after an update at `x`, composite.cpp 75-78. -/
def rowSum (sets : List (CSet K)) (x : List K) : Nat := sets.foldl (fun n c => n + c.rows x) 0

/-- A problem with its constraint sets, 36-47; every set was made at the variables `x`. -/
def Problem.new (x : List K) (sets : List (CSet K)) : Problem K := ⟨x, sets, x, rowSum sets x, []⟩

/-- `setVariables`, 61-67; the assert is composite.cpp 90. -/
def Problem.setVariables (p : Problem K) (x : List K) : Outc K :=
  if rowSum p.sets x = p.rows then .ok { p with x := x, cache := x } else .assertion

/-- `saveCurrent`, 128. -/
def Problem.saveCurrent (p : Problem K) : Problem K := { p with saved := p.saved ++ [p.x] }

/-- `static_cast<std::size_t>` of an `int`. -/
def toSize (i : Int) : Nat := (i % 2 ^ 64).toNat

/-- `static_cast<int>` of a size. -/
def toInt (n : Nat) : Int := Int.bmod n (2 ^ 32)

/-- `setOptVariables`, 132: `variables_->setVariables(x_prev.at(…))`, without the updates of `setVariables`. -/
def Problem.setOptVariables (p : Problem K) (iter : Int) : Outc K :=
  match p.saved[toSize iter]? with
  | none => .outOfRange p
  | some y => .ok { p with x := y }

/-- `getIterationCount`, problem.h 228. -/
def Problem.getIterationCount (p : Problem K) : Int := toInt p.saved.length

/-- `setOptVariablesFinal`, 134-137. -/
def Problem.setOptVariablesFinal (p : Problem K) : Outc K :=
  match p.saved[toSize (p.getIterationCount - 1)]? with
  | none => .outOfRange p
  | some y => .ok { p with x := y }

/-- `evaluateConstraints`, 115. -/
def Problem.evaluateConstraints (p : Problem K) : List K := p.sets.flatMap fun c => c.value p.cache p.x

/-- The calls of a user. -/
inductive Op (K : Type u)
  | setVariables (x : List K)
  | save
  | restore (iter : Int)
  | restoreFinal

def Problem.call (p : Problem K) : Op K → Outc K
  | .setVariables x => p.setVariables x
  | .save => .ok p.saveCurrent
  | .restore i => p.setOptVariables i
  | .restoreFinal => p.setOptVariablesFinal

/-- A history; exceptions are caught. -/
def Problem.run (p : Problem K) : List (Op K) → Outc K
  | [] => .ok p
  | op :: ops =>
    match p.call op with
    | .ok p => p.run ops
    | .outOfRange p => p.run ops
    | .assertion => .assertion

end
end Verif.ProblemHistory
