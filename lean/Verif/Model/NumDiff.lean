import Mathlib.Algebra.Field.Basic
import Mathlib.Data.List.FinRange
import Mathlib.Algebra.BigOperators.Fin

/-!
Model of numerical differentiation.

Sources:
* `trajopt_sco/src/num_diff.cpp` 41-133
* `trajopt_ifopt/src/utils/numeric_differentiation.cpp` 28-42
* `trajopt_ifopt/src/utils/ifopt_utils.cpp` 147-255

Simplifications: vectors of length `n` are functions `Fin n → K`, matrices are `Fin m → Fin n → K`; user
functions are pure.  The loops keep the perturbed point and the (initially unspecified) output as state, as
the code does.
-/

namespace Verif.NumDiff

universe u
variable {K : Type u} [Field K] {n m : Nat} {β : Type u}

/-- The common loop body `xpert(i) = x(i) + epsilon; ypert = f(xpert); out(i) = g(ypert); xpert(i) = x(i)`
(num_diff.cpp 46-52 and 60-66, numeric_differentiation.cpp 33-39). -/
def fwdStep {γ : Type u} (f : (Fin n → K) → β) (g : β → γ) (x : Fin n → K) (ε : K)
    (s : (Fin n → K) × (Fin n → γ)) (i : Fin n) : (Fin n → K) × (Fin n → γ) :=
  let xpert := Function.update s.1 i (x i + ε)
  let ypert := f xpert
  let out := Function.update s.2 i (g ypert)
  (Function.update xpert i (x i), out)

/-- `calcForwardNumGrad`, num_diff.cpp 41-54; `junk` is the uninitialised output. -/
def calcForwardNumGrad (junk : Fin n → K) (f : (Fin n → K) → K) (x : Fin n → K) (ε : K) : Fin n → K :=
  let y := f x
  ((List.finRange n).foldl (fwdStep f (fun yp => (yp - y) / ε) x ε) (x, junk)).2

/-- `calcForwardNumJac`, num_diff.cpp 55-68 and numeric_differentiation.cpp 28-42: columns are written one
by one; the result is indexed row, column. -/
def calcForwardNumJac (junk : Fin n → Fin m → K) (f : (Fin n → K) → Fin m → K) (x : Fin n → K) (ε : K) :
    Fin m → Fin n → K :=
  let y := f x
  let cols := ((List.finRange n).foldl (fwdStep f (fun yp => fun r => (yp r - y r) / ε) x ε) (x, junk)).2
  fun r c => cols c r

/-- Body of the loop of `calcGradAndDiagHess`, num_diff.cpp 81-90. -/
def diagStep (f : (Fin n → K) → K) (x : Fin n → K) (ε y : K)
    (s : (Fin n → K) × (Fin n → K) × (Fin n → K)) (i : Fin n) : (Fin n → K) × (Fin n → K) × (Fin n → K) :=
  let xp := Function.update s.1 i (x i + ε / 2)
  let yplus := f xp
  let xm := Function.update xp i (x i - ε / 2)
  let yminus := f xm
  (Function.update xm i (x i), Function.update s.2.1 i ((yplus - yminus) / ε),
    Function.update s.2.2 i ((yplus + yminus - 2 * y) / (ε * ε / 4)))

/-- `calcGradAndDiagHess`, num_diff.cpp 70-91: value, gradient, diagonal of the Hessian. -/
def calcGradAndDiagHess (junk : Fin n → K) (f : (Fin n → K) → K) (x : Fin n → K) (ε : K) :
    K × (Fin n → K) × (Fin n → K) :=
  let y := f x
  let s := (List.finRange n).foldl (diagStep f x ε y) (x, junk, junk)
  (y, s.2.1, s.2.2)

/-- `calcGradHess`, num_diff.cpp 93-105: forward differences of forward differences, symmetrised. -/
def calcGradHess (junk : Fin n → K) (f : (Fin n → K) → K) (x : Fin n → K) (ε : K) :
    K × (Fin n → K) × (Fin n → Fin n → K) :=
  let gradFunc := fun z => calcForwardNumGrad junk f z ε
  let hess := calcForwardNumJac (fun _ => junk) gradFunc x ε
  (f x, gradFunc x, fun i j => (hess i j + hess j i) / 2)

/-- State of an ifopt problem as far as differentiation is concerned: its current variable values. -/
structure Nlp (K : Type u) (n m : Nat) where
  vars : Fin n → K
  /-- `evaluateCostFunction` at the current variables. -/
  cost : (Fin n → K) → K
  /-- `evaluateConstraints` at the current variables. -/
  cnts : (Fin n → K) → Fin m → K
  hasCostTerms : Bool

/-- Body of the loops of `calcNumericalCostGradient` (ifopt_utils.cpp 160-167) and
`calcNumericalConstraintGradient` (193-205): the problem's variables are set to the perturbed copy. -/
def nlpStep {γ : Type u} (f : (Fin n → K) → β) (g : β → γ) (x : Fin n → K) (ε : K)
    (s : (Fin n → K) × (Fin n → K) × (Fin n → γ)) (i : Fin n) : (Fin n → K) × (Fin n → K) × (Fin n → γ) :=
  let xnew := Function.update s.2.1 i (s.2.1 i + ε)
  let vars := xnew
  let gnew := f vars
  let jac := Function.update s.2.2 i (g gnew)
  (vars, Function.update xnew i (x i), jac)

/-- `calcNumericalCostGradient`, ifopt_utils.cpp 147-176: gradient and the problem afterwards. -/
def calcNumericalCostGradient (p : Nlp K n m) (x : Fin n → K) (ε : K) : (Fin n → K) × Nlp K n m :=
  let cache := p.vars
  let r : (Fin n → K) × (Fin n → K) :=
    if p.hasCostTerms then
      let g := p.cost x
      let s := (List.finRange n).foldl (nlpStep p.cost (fun gn => (gn - g) / ε) x ε) (x, x, fun _ => 0)
      (s.1, s.2.2)
    else (p.vars, fun _ => 0)
  let p := { p with vars := r.1 }
  (r.2, { p with vars := cache })

/-- `calcNumericalConstraintGradient(const double*, Problem&, double)`, ifopt_utils.cpp 178-210. -/
def calcNumericalConstraintGradient (p : Nlp K n m) (x : Fin n → K) (ε : K) :
    (Fin m → Fin n → K) × Nlp K n m :=
  let cache := p.vars
  let r : (Fin n → K) × (Fin n → Fin m → K) :=
    if m = 0 ∨ n = 0 then (p.vars, fun _ _ => 0)
    else
      let g := p.cnts x
      let s := (List.finRange n).foldl
        (nlpStep p.cnts (fun gn => fun j => (gn j - g j) / ε) x ε) (x, x, fun _ _ => 0)
      (s.1, s.2.2)
  let p := { p with vars := r.1 }
  ((fun j i => r.2 i j), { p with vars := cache })

/-- Body of the loop of the third version, ifopt_utils.cpp 233-248: `x_new(i) = x(i) + epsilon`. -/
def nlpStep' {γ : Type u} (f : (Fin n → K) → β) (g : β → γ) (x : Fin n → K) (ε : K)
    (s : (Fin n → K) × (Fin n → K) × (Fin n → γ)) (i : Fin n) : (Fin n → K) × (Fin n → K) × (Fin n → γ) :=
  let xnew := Function.update s.2.1 i (x i + ε)
  let vars := xnew
  let gnew := f vars
  let jac := Function.update s.2.2 i (g gnew)
  (vars, Function.update xnew i (x i), jac)

/-- `calcNumericalConstraintGradient(Variables&, ConstraintSet&, double)`, ifopt_utils.cpp 212-255, for a
constraint set with bounds: differentiates at the current variable values. -/
def calcNumericalConstraintGradient' (p : Nlp K n m) (ε : K) : (Fin m → Fin n → K) × Nlp K n m :=
  if m = 0 ∨ n = 0 then ((fun _ _ => 0), p)
  else
    let x := p.vars
    let g := p.cnts p.vars
    let s := (List.finRange n).foldl
      (nlpStep' p.cnts (fun gn => fun j => (gn j - g j) / ε) x ε) (x, x, fun _ _ => 0)
    let p := { p with vars := s.1 }
    ((fun j i => s.2.2 i j), { p with vars := x })

end Verif.NumDiff
