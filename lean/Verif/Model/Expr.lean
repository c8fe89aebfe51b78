import Mathlib.Algebra.Order.Field.Basic
import Mathlib.Algebra.BigOperators.Group.List.Basic
import Mathlib.Algebra.Order.AbsoluteValue.Basic

/-!
Model of `sco::AffExpr`, `sco::QuadExpr` and the operations of `expr_ops`.

Sources (all under /repo/trajopt_sco):
* `include/trajopt_sco/solver_interface.hpp` 181-229 (structs)
* `src/solver_interface.cpp` 64-109 (`AffExpr::value`, `QuadExpr::value`)
* `include/trajopt_sco/expr_ops.hpp` 8-166 (in-place and functional arithmetic)
* `src/expr_ops.cpp` 10-99 (`exprMult`, `exprSquare`, `cleanupAff`)

Simplifications: the parallel vectors `coeffs`/`vars` (and `vars1`/`vars2`) are one list of tuples, so
the model cannot express vectors of different length.  A variable is an element of an arbitrary type `V`
(the code stores a shared pointer to a `VarRep` and reads `x[var_rep->index]`); a point is a valuation
`V → K`.  `double` is an arbitrary linearly ordered field `K`.
-/

namespace Verif.Sco

universe u v
variable {K : Type u} {V : Type v}

/-- `sco::AffExpr` (solver_interface.hpp, `struct AffExpr`): `constant + Σ coeffs[i]*vars[i]`. -/
structure AffExpr (K : Type u) (V : Type v) where
  constant : K
  terms : List (K × V)

/-- `sco::QuadExpr` (solver_interface.hpp, `struct QuadExpr`): an affine part and terms
`coeffs[i]*vars1[i]*vars2[i]`. -/
structure QuadExpr (K : Type u) (V : Type v) where
  aff : AffExpr K V
  terms : List (K × V × V)

section ops
variable [Field K]

/-- `AffExpr()` default constructor. -/
def AffExpr.zero : AffExpr K V := ⟨0, []⟩
/-- `AffExpr(double a)`, solver_interface.cpp 64. -/
def AffExpr.ofConst (a : K) : AffExpr K V := ⟨a, []⟩
/-- `AffExpr(const Var& v)`, solver_interface.cpp 65 (constant 0, one coefficient 1). -/
def AffExpr.ofVar (v : V) : AffExpr K V := ⟨0, [(1, v)]⟩
/-- `QuadExpr()` default constructor. -/
def QuadExpr.zero : QuadExpr K V := ⟨AffExpr.zero, []⟩
/-- `QuadExpr(AffExpr)`, solver_interface.cpp 89. -/
def QuadExpr.ofAff (a : AffExpr K V) : QuadExpr K V := ⟨a, []⟩
/-- `QuadExpr(double a)`, solver_interface.cpp 87. -/
def QuadExpr.ofConst (a : K) : QuadExpr K V := ⟨AffExpr.ofConst a, []⟩
/-- `QuadExpr(const Var& v)`, solver_interface.cpp 88. -/
def QuadExpr.ofVar (v : V) : QuadExpr K V := ⟨AffExpr.ofVar v, []⟩

/-- `AffExpr::value`, solver_interface.cpp 68-85: the accumulator starts at `constant` and
adds `coeffs[i] * vars[i].value(x)` from left to right. -/
def AffExpr.value (e : AffExpr K V) (x : V → K) : K :=
  e.terms.foldl (fun out t => out + t.1 * x t.2) e.constant

/-- `QuadExpr::value`, solver_interface.cpp 92-109. -/
def QuadExpr.value (q : QuadExpr K V) (x : V → K) : K :=
  q.terms.foldl (fun out t => out + t.1 * x t.2.1 * x t.2.2) (q.aff.value x)

/-- `exprScale(AffExpr&, double)`, expr_ops.hpp 9-14. -/
def AffExpr.scale (e : AffExpr K V) (a : K) : AffExpr K V :=
  ⟨e.constant * a, e.terms.map fun t => (t.1 * a, t.2)⟩
/-- `exprScale(QuadExpr&, double)`, expr_ops.hpp 15-20. -/
def QuadExpr.scale (q : QuadExpr K V) (a : K) : QuadExpr K V :=
  ⟨q.aff.scale a, q.terms.map fun t => (t.1 * a, t.2)⟩

/-- `exprInc(AffExpr&, double)`, expr_ops.hpp 23. -/
def AffExpr.incConst (a : AffExpr K V) (b : K) : AffExpr K V := ⟨a.constant + b, a.terms⟩
/-- `exprInc(AffExpr&, const AffExpr&)`, expr_ops.hpp 24-36 (copy and move versions). -/
def AffExpr.inc (a b : AffExpr K V) : AffExpr K V := ⟨a.constant + b.constant, a.terms ++ b.terms⟩
/-- `exprInc(AffExpr&, const Var&)`, expr_ops.hpp 37. -/
def AffExpr.incVar (a : AffExpr K V) (b : V) : AffExpr K V := a.inc (AffExpr.ofVar b)
/-- `exprInc(QuadExpr&, double)`, expr_ops.hpp 38. -/
def QuadExpr.incConst (a : QuadExpr K V) (b : K) : QuadExpr K V := ⟨a.aff.incConst b, a.terms⟩
/-- `exprInc(QuadExpr&, const Var&)`, expr_ops.hpp 39. -/
def QuadExpr.incVar (a : QuadExpr K V) (b : V) : QuadExpr K V := ⟨a.aff.inc (AffExpr.ofVar b), a.terms⟩
/-- `exprInc(QuadExpr&, const AffExpr&)`, expr_ops.hpp 40-41. -/
def QuadExpr.incAff (a : QuadExpr K V) (b : AffExpr K V) : QuadExpr K V := ⟨a.aff.inc b, a.terms⟩
/-- `exprInc(QuadExpr&, const QuadExpr&)`, expr_ops.hpp 42-56. -/
def QuadExpr.inc (a b : QuadExpr K V) : QuadExpr K V := ⟨a.aff.inc b.aff, a.terms ++ b.terms⟩

/-- `exprDec(AffExpr&, double)`, expr_ops.hpp 59. -/
def AffExpr.decConst (a : AffExpr K V) (b : K) : AffExpr K V := ⟨a.constant - b, a.terms⟩
/-- `exprDec(AffExpr&, AffExpr)`, expr_ops.hpp 60-64: scale the copy by -1, then `exprInc`. -/
def AffExpr.dec (a b : AffExpr K V) : AffExpr K V := a.inc (b.scale (-1))
/-- `exprDec(AffExpr&, const Var&)`, expr_ops.hpp 65. -/
def AffExpr.decVar (a : AffExpr K V) (b : V) : AffExpr K V := a.dec (AffExpr.ofVar b)
/-- `exprDec(QuadExpr&, double)`, expr_ops.hpp 66. -/
def QuadExpr.decConst (a : QuadExpr K V) (b : K) : QuadExpr K V := ⟨a.aff.decConst b, a.terms⟩
/-- `exprDec(QuadExpr&, const Var&)`, expr_ops.hpp 67. -/
def QuadExpr.decVar (a : QuadExpr K V) (b : V) : QuadExpr K V := ⟨a.aff.decVar b, a.terms⟩
/-- `exprDec(QuadExpr&, const AffExpr&)`, expr_ops.hpp 68-69. -/
def QuadExpr.decAff (a : QuadExpr K V) (b : AffExpr K V) : QuadExpr K V := ⟨a.aff.dec b, a.terms⟩
/-- `exprDec(QuadExpr&, QuadExpr)`, expr_ops.hpp 70-74. -/
def QuadExpr.dec (a b : QuadExpr K V) : QuadExpr K V := a.inc (b.scale (-1))

/-- `exprMult(const Var&, double)`, expr_ops.hpp 78-83. -/
def exprMultVar (v : V) (b : K) : AffExpr K V := (AffExpr.ofVar v).scale b

/-- `exprMult(const AffExpr&, const AffExpr&)`, expr_ops.cpp 10-44. -/
def AffExpr.mul (a b : AffExpr K V) : QuadExpr K V :=
  { aff :=
      { constant := a.constant * b.constant
        terms := (a.terms.map fun t => (b.constant * t.1, t.2)) ++
                 (b.terms.map fun t => (a.constant * t.1, t.2)) }
    terms := a.terms.flatMap fun s => b.terms.map fun t => (s.1 * t.1, s.2, t.2) }

/-- `exprSquare(const Var&)`, expr_ops.cpp 46-53. -/
def exprSquareVar (v : V) : QuadExpr K V := ⟨AffExpr.zero, [(1, v, v)]⟩

/-- The nested loop of `exprSquare(const AffExpr&)`, expr_ops.cpp 71-82: for each `i` the diagonal term,
then the doubled cross terms with `j > i`. -/
def squareTerms : List (K × V) → List (K × V × V)
  | [] => []
  | t :: ts => (t.1 * t.1, t.2, t.2) :: (ts.map fun s => (2 * t.1 * s.1, t.2, s.2)) ++ squareTerms ts

/-- `exprSquare(const AffExpr&)`, expr_ops.cpp 55-84. -/
def AffExpr.square (a : AffExpr K V) : QuadExpr K V :=
  { aff := { constant := a.constant * a.constant
             terms := a.terms.map fun t => (2 * a.constant * t.1, t.2) }
    terms := squareTerms a.terms }

end ops

/-- The literal `1e-7` used in `cleanupAff` (expr_ops.cpp 91). -/
def cleanupEps [Field K] : K := 1 / 10000000

/-- `cleanupAff`, expr_ops.cpp 86-99: keep the terms with `fabs(coeff) > 1e-7`, keep the constant. -/
def AffExpr.cleanup [Field K] [LinearOrder K] (a : AffExpr K V) : AffExpr K V :=
  ⟨a.constant, a.terms.filter fun t => decide (cleanupEps < |t.1|)⟩

end Verif.Sco
