import Verif.Model.Legacy
import Verif.Model.Output

/-!
The log files of `sco::BasicTrustRegionSQP` (trajopt_sco/src/optimizers.cpp 533-647 and the stream handling in `optimize` 708-722, 858-871,
981-989).

`optimize` with `log_results` opens four files, writes to each of them for every convex problem that was solved, and closes them.  The loops of
`Model/Legacy.lean` are repeated here with the list of what was written; `logged` is the only addition.

Simplifications
* How numbers are printed is a parameter (`Printer`); quotients have printers of their own because they may be infinite or NaN.
* `GetLogLevel() >= LevelDebug` (which turns logging on, too) is part of `logOn`; `logOn` does not change during a run (a callback that
  changed it would close null pointers or leak).
* `fprintf` and `fflush` never fail, and the four paths are different files that nobody else uses.
* Reads behind the end of a vector and `fclose(nullptr)` are `undefined`.
-/

namespace Verif.Legacy

open Verif.Output (Text commaEach)

universe u
variable {K : Type u}

/-- What `writeSolver`, `writeVars`, `writeCosts` and `writeConstraints` read from `iteration_results`, and the `header` argument. -/
structure Entry (K : Type u) where
  header : Bool
  newX : List K
  oldCosts : List K
  modelCosts : List K
  newCosts : List K
  oldViols : List K
  modelViols : List K
  newViols : List K
  coeffs : List K
  oldMerit : K
  newMerit : K
  approxImprove : K
  exactImprove : K

section
variable [Field K] [LinearOrder K]

/-- What one pass of the trust-region loop logs (858-871): nothing after a failed convex problem (815-840 leave the pass), otherwise the
values of `update` (843-850); the header is written if `n_func_evals == 1`, which is counted up afterwards (873). -/
def logged (e : Env K) (s : St K) : List (Entry K) :=
  match e.qp s.nQpSolves s.x s.box with
  | none => []
  | some y =>
    let r := iterUpdate e s s.nQpSolves y
    [{ header := s.nFuncEvals == 1, newX := r.newX, oldCosts := s.costVals, modelCosts := e.modelCosts s.nQpSolves y, newCosts := r.newCosts
       oldViols := s.cntViols, modelViols := e.modelViols s.nQpSolves y, newViols := r.newViols, coeffs := s.coeffs
       oldMerit := r.oldMerit, newMerit := r.newMerit, approxImprove := r.approxImprove, exactImprove := r.exactImprove }]

/-- `trLoop` (811-914) with the log. -/
def trLoopL (p : Params K) (e : Env K) : ℕ → St K → ℤ → List (Entry K) → Option (TrOut K × List (Entry K))
  | 0, _, _, _ => none
  | n + 1, s, f, log =>
    if p.minTrustBoxSize ≤ s.box then
      match trBody p e s f with
      | .cont s' f' => trLoopL p e n s' f' (log ++ logged e s)
      | o => some (o, log ++ logged e s)
    else some (.exit s, log)

/-- `sqpLoop` (737-936) with the log. -/
def sqpLoopL (p : Params K) (e : Env K) (fuel : ℕ) : ℕ → ℤ → St K → List (Entry K) → Option (SqpOut K × List (Entry K))
  | 0, _, _, _ => none
  | n + 1, iter, s, log =>
    let elapsed := e.clock s.clockReads
    let s := { s with clockReads := s.clockReads + 1 }
    if p.maxTime < elapsed then
      some (.cleanup (if satisfied p s.cntViols then .converged else .timeLimit) s, log)
    else
      let s := evalIfNeeded e s
      match trLoopL p e fuel s 0 log with
      | none => none
      | some (.cont _ _, _) => none
      | some (.penalty s, log) => some (.penalty s, log)
      | some (.failed s, log) => some (.cleanup .failed s, log)
      | some (.exit s, log) =>
        if s.box < p.minTrustBoxSize then some (.penalty s, log)
        else if p.maxIter ≤ iter then
          some (.cleanup (if satisfied p s.cntViols then .converged else .scoIterationLimit) s, log)
        else sqpLoopL p e fuel n (iter + 1) s log

/-- `meritLoop` (735-970) with the log. -/
def meritLoopL (p : Params K) (e : Env K) (fuel : ℕ) : ℕ → St K → List (Entry K) → Option ((Status × St K) × List (Entry K))
  | 0, s, log => some ((.penaltyIterationLimit, s), log)
  | m + 1, s, log =>
    match sqpLoopL p e fuel fuel 1 s log with
    | none => none
    | some (.cleanup r s, log) => some ((r, s), log)
    | some (.penalty s, log) =>
      if satisfied p s.cntViols then some ((.converged, s), log)
      else
        meritLoopL p e fuel m
          { s with coeffs := inflate p s
                   box := max s.box (p.minTrustBoxSize / p.trustShrinkRatio * (3 / 2)) } log

/-- `optimize` (699-991) with the log. -/
def optimizeL (p : Params K) (e : Env K) (fuel : ℕ) (s0 : St K) : Option (Result K × List (Entry K)) :=
  let s := { s0 with x := e.closest s0.x, coeffs := List.replicate e.nCnts p.initialMeritErrorCoeff, clockReads := 0 }
  match meritLoopL p e fuel p.maxMeritCoeffIncreases s [] with
  | none => none
  | some ((r, s), log) => some (⟨r, s, s.costVals.sum⟩, log)

/-! ### The text -/

/-- How numbers are printed: `%10.3e` and `%e`, and the same for a quotient. -/
structure Printer (K : Type u) where
  wide : K → Text
  wideRatio : K → K → Text
  sci : K → Text
  sciRatio : K → K → Text

/-- `var_names`, `cost_names`, `cnt_names`. -/
structure Names where
  vars : List Text
  costs : List Text
  cnts : List Text

/-- `writeSolver`, 533-547. -/
def solverText (pr : Printer K) (en : Entry K) : Text :=
  (if en.header then "DESCRIPTION,oldexact,new_exact,dapprox,dexact,ratio\n".toList else []) ++
  ("Solver".toList ++ commaEach [pr.wide en.oldMerit, pr.wide en.newMerit, pr.wide en.approxImprove, pr.wide en.exactImprove,
    pr.wideRatio en.exactImprove en.approxImprove] ++ ['\n'])

/-- `writeVars`, 549-566. -/
def varsText (pr : Printer K) (nm : Names) (en : Entry K) : Text :=
  (if en.header then "NAMES".toList ++ commaEach nm.vars ++ ['\n'] else []) ++
  ("VALUES".toList ++ commaEach (en.newX.map pr.sci) ++ ['\n'])

/-- The two header lines of `writeCosts` (570-583) and `writeConstraints` (606-619). -/
def headerLines (title : Text) (names : List Text) : Text :=
  title ++ commaEach (names.flatMap fun n => [n, n, n, n]) ++ ['\n'] ++
  ("DESCRIPTION".toList ++ commaEach (names.flatMap fun _ => ["oldexact", "dapprox", "dexact", "ratio"].map String.toList) ++ ['\n'])

/-- The loop of `writeCosts`, 586-599, at index `i`. -/
def costCells (pr : Printer K) (en : Entry K) (i : Nat) : Option (List Text) :=
  match en.oldCosts[i]?, en.modelCosts[i]?, en.newCosts[i]? with
  | some o, some m, some n =>
    some [pr.sci o, pr.sci (o - m), pr.sci (o - n),
      if 1 / 10 ^ 8 < |o - m| then pr.sciRatio (o - n) (o - m) else "nan".toList]
  | _, _, _ => none

/-- `writeCosts`, 568-602. -/
def costsText (pr : Printer K) (nm : Names) (en : Entry K) : Option Text :=
  ((List.range en.oldCosts.length).mapM (costCells pr en)).map fun cs =>
    (if en.header then headerLines "COST NAMES".toList nm.costs else []) ++
    ("COSTS".toList ++ commaEach cs.flatten ++ ['\n'])

/-- The loop of `writeConstraints`, 622-644, at index `i`. -/
def cntCells (pr : Printer K) (en : Entry K) (i : Nat) : Option (List Text) :=
  match en.oldViols[i]?, en.modelViols[i]?, en.newViols[i]?, en.coeffs[i]? with
  | some o, some m, some n, some c =>
    some [pr.sci (c * o), pr.sci (c * (o - m)), pr.sci (c * (o - n)),
      if 1 / 10 ^ 8 < |o - m| then pr.sciRatio (o - n) (o - m) else "nan".toList]
  | _, _, _, _ => none

/-- `writeConstraints`, 604-647. -/
def cntsText (pr : Printer K) (nm : Names) (en : Entry K) : Option Text :=
  ((List.range en.oldViols.length).mapM (cntCells pr en)).map fun cs =>
    (if en.header then headerLines "CONSTRAINT NAMES".toList nm.cnts else []) ++
    ("CONSTRAINTS".toList ++ commaEach cs.flatten ++ ['\n'])

/-! ### The files -/

/-- One value for each of the four files. -/
structure Four (α : Type*) where
  solver : α
  vars : α
  costs : α
  cnts : α

/-- The contents of the four files (`none`: there is no such file) and the number of streams that are open. -/
structure Disk where
  files : Four (Option Text)
  handles : Nat

/-- `fopen(…, "w")`, 714-717: a file that can be opened is emptied. -/
def reopen (can : Bool) (old : Option Text) : Option Text := if can then some [] else old

def count (b : Bool) : Nat := if b then 1 else 0

def Disk.openAll (can : Four Bool) (d : Disk) : Disk :=
  { files := ⟨reopen can.solver d.files.solver, reopen can.vars d.files.vars, reopen can.costs d.files.costs, reopen can.cnts d.files.cnts⟩
    handles := d.handles + (count can.solver + count can.vars + count can.costs + count can.cnts) }

/-- How a call of `optimize` ends. -/
inductive LogOut (K : Type u)
  | ok (r : Result K) (d : Disk)
  /-- `PRINT_AND_THROW("you forgot to initialize!")` -/
  | throw (d : Disk)
  | undefined
  | fuel

/-- `optimize` with its files.  `can` says which of them can be opened.  A file that could not be opened is not written (860-870), but
closed (983-986). -/
def optimizeLogged (logOn : Bool) (can : Four Bool) (pr : Printer K) (nm : Names) (p : Params K) (e : Env K) (fuel : ℕ) (s0 : St K)
    (d : Disk) : LogOut K :=
  let d := if logOn then d.openAll can else d
  if s0.x = [] then .throw d
  else match optimizeL p e fuel s0 with
    | none => .fuel
    | some (r, log) =>
      if logOn then
        match (if can.costs then log.mapM (costsText pr nm) else some []), (if can.cnts then log.mapM (cntsText pr nm) else some []) with
        | some costs, some cnts =>
          if can.solver && can.vars && can.costs && can.cnts then
            .ok r { files := ⟨some (log.flatMap (solverText pr)), some (log.flatMap (varsText pr nm)), some costs.flatten, some cnts.flatten⟩
                    handles := d.handles - 4 }
          else .undefined
        | _, _ => .undefined
      else .ok r d

end
end Verif.Legacy
