import Verif.Model.Sparse

/-!
Model of `trajopt_optimizers/trajopt_sqp/src/osqp_eigen_solver.cpp` (`OSQPEigenSolver`) and of the part of
`TrustRegionSQPSolver::stepSQPSolver` that transfers the QP to it (trust_region_sqp_solver.cpp 203-244).

Of the library OsqpEigen only what its interface documents is modelled:
* before `initSolver` the data object stores what it is given if the sizes agree with the announced numbers of variables and
  constraints, and refuses it otherwise;
* after `initSolver` the workspace has its own copy; an update of matrices or of the gradient with matching sizes may succeed
  (then exactly that part is replaced) or fail (then the workspace is anything); an update of the bounds with matching sizes
  succeeds exactly when no lower bound is above its upper bound;
* `solveProblem` answers anything.
Settings, printing and the comparison mode (114-152, compile-time constant false) are left out.  Doubles are field elements,
infinite bounds are `Ext`.  A failed assertion (sizes that do not fit) is `none`.
-/

namespace Verif.OsqpEigen

open Verif.Bounds Verif.Sco

universe u

/-- A quadratic program in OSQP's form: `1/2 x' P x + q' x`, `l <= A x <= u`. -/
structure Qp (K : Type u) where
  n : Nat
  m : Nat
  P : SMat K
  q : List K
  A : SMat K
  l : List (Ext K)
  u : List (Ext K)

/-- `OsqpEigen::Data`. -/
structure Data (K : Type u) where
  nVars : Nat := 0
  nCnts : Nat := 0
  hessian : Option (SMat K) := none
  gradient : Option (List K) := none
  matrix : Option (SMat K) := none
  bounds : Option (List (Ext K) × List (Ext K)) := none

/-- `QPSolverStatus`, types.h. -/
inductive Status | uninitialized | initialized | failed
  deriving DecidableEq, Repr

/-- Data members of `OSQPEigenSolver`; `work` is the workspace of OSQP, `none` before `initSolver`; `started` is the warm
start last given to the workspace. -/
structure Solver (K : Type u) where
  status : Status := .uninitialized
  nVars : Nat := 0
  nCnts : Nat := 0
  x0 : List K := []
  y0 : List K := []
  data : Data K := {}
  work : Option (Qp K) := none
  started : Option (List K × List K) := none
  warmStarting : Bool := true

/-- Outcome of an update of the workspace in place. -/
inductive Outcome (K : Type u)
  | done
  | refused (left : Option (Qp K))

/-- What the solver sees of a `QPProblem`. -/
structure Problem (K : Type u) where
  nv : Nat
  nc : Nat
  hessian : SMat K
  gradient : List K
  matrix : SMat K
  lower : List (Ext K)
  upper : List (Ext K)
  nNlp : Nat
  vars : List K
  violations : List K

section
variable {K : Type u} [Field K] [LinearOrder K]

/-- `init`, 63-77. -/
def Solver.init (s : Solver K) (nv nc : Nat) : Solver K :=
  { s with nVars := nv, nCnts := nc, x0 := List.replicate nv 0, y0 := List.replicate nc 0,
           data := { s.data with nVars := nv, nCnts := nc }, status := .initialized }

/-- `clear`, 79-95.  The library keeps gradient and bounds of its data object. -/
def Solver.clear (s : Solver K) : Solver K :=
  { s with work := none, started := none, data := { s.data with hessian := none, matrix := none },
           nVars := 0, nCnts := 0, x0 := [], y0 := [], status := .uninitialized }

/-- `2.0 * hessian`. -/
def twice (H : SMat K) : SMat K := ⟨H.rows, H.cols.map fun c => c.map fun q => (q.1, 2 * q.2)⟩

/-- The size check of the library for matrices. -/
def sized (M : SMat K) (r c : Nat) : Bool := decide (M.rows = r) && decide (M.cols.length = c)

/-- `updateHessianMatrix`, 220-229. -/
def Solver.updateHessianMatrix (o : Outcome K) (H : SMat K) (s : Solver K) : Bool × Solver K :=
  match s.work with
  | some w =>
    if sized H w.n w.n then
      match o with
      | .done => (true, { s with work := some { w with P := twice H } })
      | .refused w' => (false, { s with work := w' })
    else (false, s)
  | none =>
    if sized H s.data.nVars s.data.nVars then (true, { s with data := { s.data with hessian := some (twice H) } })
    else (false, { s with data := { s.data with hessian := none } })

/-- 233. -/
def cutGradient (g : List K) : List K := g.map fun v => if |v| < 1 / 10 ^ 7 then 0 else v

/-- `updateGradient`, 231-239. -/
def Solver.updateGradient (o : Outcome K) (g : List K) (s : Solver K) : Bool × Solver K :=
  match s.work with
  | some w =>
    if g.length = w.n then
      match o with
      | .done => (true, { s with work := some { w with q := cutGradient g } })
      | .refused w' => (false, { s with work := w' })
    else (false, s)
  | none =>
    if g.length = s.data.nVars then (true, { s with data := { s.data with gradient := some (cutGradient g) } })
    else (false, s)

/-- `updateLinearConstraintsMatrix`, 265-275, with the assertions on the sizes. -/
def Solver.updateMatrix (o : Outcome K) (A : SMat K) (s : Solver K) : Option (Bool × Solver K) :=
  if sized A s.nCnts s.nVars then
    match s.work with
    | some w =>
      if sized A w.m w.n then
        match o with
        | .done => some (true, { s with work := some { w with A := A } })
        | .refused w' => some (false, { s with work := w' })
      else some (false, s)
    | none =>
      if sized A s.data.nCnts s.data.nVars then some (true, { s with data := { s.data with matrix := some A } })
      else some (false, { s with data := { s.data with matrix := none } })
  else none

/-- No lower bound is above its upper bound. -/
def ordered : Ext K → Ext K → Bool
  | .negInf, _ => true
  | _, .posInf => true
  | .fin a, .fin b => decide (a ≤ b)
  | _, _ => false

/-- `updateBounds`, 253-263 (`cwiseMax`/`cwiseMin` need vectors of length `num_cnts_`). -/
def Solver.updateBounds (lower upper : List (Ext K)) (s : Solver K) : Option (Bool × Solver K) :=
  if lower.length = s.nCnts ∧ upper.length = s.nCnts then
    let lo := lower.map clampLo
    let hi := upper.map clampHi
    match s.work with
    | some w =>
      if s.nCnts = w.m ∧ (List.zipWith ordered lo hi).all (· == true) then
        some (true, { s with work := some { w with l := lo, u := hi } })
      else some (false, s)
    | none =>
      if s.nCnts = s.data.nCnts then some (true, { s with data := { s.data with bounds := some (lo, hi) } })
      else some (false, s)
  else none

/-- Entry of a sparse matrix. -/
def coeffAt (M : SMat K) (r c : Nat) : K := ((M.cols.getD c []).map fun q => if q.1 = r then q.2 else 0).sum

/-- The loops 299-317 for one slack column: the last row with a noticeable coefficient decides. -/
def slackStart (violations : List K) (M : SMat K) (col : Nat) : K :=
  violations.zipIdx.foldl (fun acc v =>
    let c := coeffAt M v.2 col
    if 1 / 10 ^ 14 < |c| then max 0 (v.1 / c) else acc) 0

/-- `setWarmStart`, 277-326; more violations than matrix rows are out of range. -/
def Solver.setWarmStart (p : Problem K) (s : Solver K) : Option (Solver K) :=
  if s.warmStarting then
    if p.vars.length = p.nNlp ∧ p.nNlp ≤ s.nVars ∧ (p.nNlp < s.nVars → p.violations.length ≤ p.matrix.rows) then
      some { s with x0 := p.vars ++ (List.range (s.nVars - p.nNlp)).map fun j => slackStart p.violations p.matrix (p.nNlp + j)
                    y0 := List.replicate s.nCnts 0 }
    else none
  else some s

/-- The whole data object as a QP. -/
def Data.qp (d : Data K) : Option (Qp K) :=
  match d.hessian, d.gradient, d.matrix, d.bounds with
  | some P, some q, some A, some b => some ⟨d.nVars, d.nCnts, P, q, A, b.1, b.2⟩
  | _, _, _, _ => none

/-- `solve`, 97-216.  `initOk`: answer of `initSolver` when all data is there; `answer`: what OSQP returns for the program in
its workspace (`none`: an error flag or another status).  Second result: the program that was solved. -/
def Solver.solve (initOk : Bool) (answer : Qp K → Option (List K)) (s : Solver K) :
    Option (List K) × Option (Qp K) × Solver K :=
  let run (w : Qp K) (s : Solver K) : Option (List K) × Option (Qp K) × Solver K :=
    match answer w with
    | some x => (some x, some w, s)
    | none => (none, some w, { s with status := .failed })
  match s.work with
  | some w => run w s
  | none => match s.data.qp with
    | some w =>
      if initOk then run w { s with work := some w, started := if s.warmStarting then some (s.x0, s.y0) else none }
      else (none, none, { s with status := .failed })
    | none => (none, none, { s with status := .failed })

/-! ### The transfer in `stepSQPSolver` -/

/-- The rebuild, trust_region_sqp_solver.cpp 219-225 and 236-242; the results of the updates are ignored. -/
def rebuild (o : Fin 3 → Outcome K) (p : Problem K) (s : Solver K) : Option (Solver K) :=
  let s := (s.clear.init p.nv p.nc)
  let s := (s.updateHessianMatrix (o 0) p.hessian).2
  let s := (s.updateGradient (o 1) p.gradient).2
  match s.updateMatrix (o 2) p.matrix with
  | none => none
  | some r => match r.2.updateBounds p.lower p.upper with
    | none => none
    | some r => r.2.setWarmStart p

/-- 214-244, after `convexify`; `prevNv`, `prevNc`: sizes of the QP before it. -/
def transfer (o o' : Fin 3 → Outcome K) (prevNv prevNc : Nat) (p : Problem K) (s : Solver K) : Option (Solver K) :=
  if s.status = .uninitialized ∨ p.nv ≠ prevNv ∨ p.nc ≠ prevNc then rebuild o p s
  else
    let r0 := s.updateHessianMatrix (o 0) p.hessian
    if !r0.1 then rebuild o' p r0.2
    else
      let r1 := r0.2.updateGradient (o 1) p.gradient
      if !r1.1 then rebuild o' p r1.2
      else
        match r1.2.updateMatrix (o 2) p.matrix with
        | none => none
        | some r2 =>
          if !r2.1 then rebuild o' p r2.2
          else match r2.2.updateBounds p.lower p.upper with
            | none => none
            | some r3 => if !r3.1 then rebuild o' p r3.2 else some r3.2

end
end Verif.OsqpEigen
