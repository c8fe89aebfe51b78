import Verif.Model.Problem
import Verif.Model.TrajCosts
import Verif.Model.TimeTerms
import Verif.Model.KinTerms

/-!
# Construction of a problem of the legacy package

Model of `ConstructProblem`, `generateInitTraj`, the constructor of `TrajOptProb` and the `hatch` functions of the joint,
total time and user defined terms in `trajopt/src/problem_description.cpp` (line numbers without a file name refer to it).

Simplifications: the number of steps is a natural number (a negative one makes `reserve` throw); the current state has a
value for every joint (an assertion in the code); double arithmetic is exact; names of costs and constraints are left out.
`Eigen::VectorXd::LinSpaced` is modelled by its definition: equal steps, and the upper end for a single element.
-/

namespace Verif.Construct

open Verif.Problem Verif.BasicArray Verif.Sco Verif.KinTerms Verif.Traj

section types

/-- The classes derived from `TermInfo` in problem_description.hpp. -/
inductive TermKind where
  | userDefined | dynamicCartPose | cartPose | cartVel | jointPos | jointVel | jointAcc | jointJerk | collision | totalTime
  | avoidSingularity
deriving DecidableEq

/-- `getSupportedTypes()`: the argument given to `TermInfo` by the constructors in problem_description.hpp and lines 676, 820. -/
def TermKind.supported : TermKind → TermType
  | .jointPos => ⟨true, true, true⟩
  | .jointVel => ⟨true, true, true⟩
  | .totalTime => ⟨true, true, true⟩
  | _ => ⟨true, true, false⟩

/-- What `hatch` adds to the problem: costs, constraints, nothing, or an exception instead. -/
inductive Made where
  | costs | cnts | nothing | exc
deriving DecidableEq

/-- The `if (term_type & TT_COST) .. else if (term_type & TT_CNT) .. else warn` of 600-674, 1127-1174, 1921-1939. -/
def madeAny (tt : TermType) : Made := if tt.cost then .costs else if tt.cnt then .cnts else .nothing

/-- The conditions of `hatch` on `term_type`; `~(term_type | ~TT_USE_TIME)` is non-zero exactly when the flag is not set. -/
def TermKind.made (k : TermKind) (tt : TermType) : Made :=
  match k with
  -- 600-674
  | .userDefined => madeAny tt
  -- 781-816
  | .dynamicCartPose => if tt.useTime then .nothing else madeAny tt
  -- 931-984, 1015-1055, 1437-1487, 1559-1609
  | .cartPose | .cartVel | .jointAcc | .jointJerk =>
    if tt = ⟨true, false, true⟩ then .nothing
    else if tt = ⟨false, true, true⟩ then .nothing
    else if tt.cost && !tt.useTime then .costs
    else if tt.cnt && !tt.useTime then .cnts
    else .nothing
  -- 1127-1174
  | .jointPos => madeAny tt
  -- 1243-1374
  | .jointVel =>
    if tt = ⟨true, false, true⟩ then .costs
    else if tt = ⟨false, true, true⟩ then .cnts
    else if tt.cost && !tt.useTime then .costs
    else if tt.cnt && !tt.useTime then .cnts
    else .nothing
  -- 1716-1776: everything that is not exactly `TT_COST` becomes a constraint
  | .collision => if tt = ⟨true, false, false⟩ then .costs else .cnts
  -- 1878-1891
  | .totalTime => if tt.cost then .costs else if tt.cnt then .cnts else .exc
  -- 1921-1939
  | .avoidSingularity => madeAny tt

/-- An entry of `cost_infos` or `cnt_infos`. -/
structure Info where
  kind : TermKind
  type : TermType
deriving DecidableEq

/-- 416-427 (`asCost`) and 429-440: `none` is an exception, the result is `use_time`. -/
def checkInfos (asCost : Bool) (l : List Info) (start : Bool) : Option Bool :=
  l.foldlM (fun (ut : Bool) (i : Info) =>
    if !(if asCost then i.kind.supported.cost else i.kind.supported.cnt) then none
    else if i.type.useTime then (if !i.kind.supported.useTime then none else some true)
    else some ut) start

/-- 414-449: the checks at the start of `ConstructProblem`; `flag` is `basic_info.use_time`. -/
def checkTypes (costs cnts : List Info) (flag : Bool) : Bool :=
  match checkInfos true costs false with
  | none => false
  | some a => match checkInfos false cnts a with
    | none => false
    | some b => if b && !flag then false else if !b && flag then false else true

end types

section init
variable {K : Type} [Field K]

/-- `InitInfo` (problem_description.hpp). -/
inductive Init (K : Type) where
  | stationary
  | interpolated (data : Mat K)
  | given (data : Mat K)

/-- The parts of `ProblemConstructionInfo` and of its environment used by `ConstructProblem`. -/
structure Pci (K : Type) where
  nSteps : Nat
  nDof : Nat
  lower : Nat → K
  upper : Nat → K
  dtLower : K
  dtUpper : K
  useTime : Bool
  fixedSteps : List Int
  fixedDofs : List Int
  current : Nat → K
  init : Init K
  dt : K
  costs : List Info
  cnts : List Info

/-- Entry `i` of `Eigen::VectorXd::LinSpaced(n, low, high)`. -/
def linSpaced (n : Nat) (low high : K) (i : Nat) : K := if n = 1 then high else low + (i : K) * ((high - low) / ((n : K) - 1))

/-- 310-364: the trajectory without time; `none` is an exception. -/
def jointTraj (p : Pci K) : Option (Mat K) :=
  match p.init with
  | .stationary => some ⟨p.nSteps, p.nDof, fun _ j => p.current j⟩
  | .interpolated data =>
    if data.rows = 1 ∧ data.cols = p.nDof then
      some ⟨p.nSteps, p.nDof, fun i j => linSpaced p.nSteps (p.current j) (data.get 0 j) i⟩
    else if data.rows = p.nDof ∧ data.cols = 1 then
      some ⟨p.nSteps, p.nDof, fun i j => linSpaced p.nSteps (p.current j) (data.get j 0) i⟩
    else none
  | .given data => some data

/-- 310-375 `generateInitTraj`: with time, a column with `init_info.dt` is appended. -/
def generateInitTraj (p : Pci K) : Option (Mat K) :=
  match jointTraj p with
  | none => none
  | some m =>
    if p.useTime then some ⟨m.rows, m.cols + 1, fun i j => if j = m.cols then p.dt else m.get i j⟩ else some m

/-- Names of the variables: `j_i_j` and `dt_i` (575-587). -/
inductive VarName where
  | joint (i j : Nat)
  | dt (i : Nat)
deriving DecidableEq

/-- 573-588: one of the three vectors filled by the loop of the constructor of `TrajOptProb`. -/
def Pci.each {α : Type} (p : Pci K) (f : Nat → Nat → α) (g : Nat → α) : List α :=
  (List.range p.nSteps).flatMap fun i => (List.range p.nDof).map (f i) ++ if p.useTime then [g i] else []

/-- The result of `ConstructProblem` before the terms are added. -/
structure Prob (K : Type) where
  setup : Setup K
  names : List VarName
  lower : List K
  upper : List K
  hasTime : Bool
  fixed : List (AffExpr K Nat)

/-- 407-530 `ConstructProblem`. -/
def construct (p : Pci K) : Res (Prob K) :=
  if !checkTypes p.costs p.cnts p.useTime then .exc
  else match generateInitTraj p with
    | none => .exc
    | some m =>
      if p.useTime then
        if m.rows ≠ p.nSteps ∨ m.cols ≠ p.nDof + 1 then .exc
        else (Setup.fixed ⟨p.nSteps, p.nDof, true, m.get⟩ p.fixedSteps p.fixedDofs).bind fun l =>
          .ok ⟨⟨p.nSteps, p.nDof, true, m.get⟩, p.each VarName.joint VarName.dt, p.each (fun _ j => p.lower j) (fun _ => p.dtLower),
            p.each (fun _ j => p.upper j) (fun _ => p.dtUpper), true, l⟩
      else
        if m.rows ≠ p.nSteps ∨ m.cols ≠ p.nDof then .exc
        else (Setup.fixed ⟨p.nSteps, p.nDof, false, m.get⟩ p.fixedSteps p.fixedDofs).bind fun l =>
          .ok ⟨⟨p.nSteps, p.nDof, false, m.get⟩, p.each VarName.joint VarName.dt, p.each (fun _ j => p.lower j) (fun _ => p.dtLower),
            p.each (fun _ j => p.upper j) (fun _ => p.dtUpper), false, l⟩

end init

section joint
variable {K : Type} [Field K] [LinearOrder K]

/-- The members of the joint term infos. -/
structure JointInfo (K : Type) where
  coeffs : List K
  targets : List K
  upper : List K
  lower : List K
  first : Int
  last : Int

/-- 1081-1086: `if (v.empty()) v = DblVec(n_dof, d)`. -/
def fill (n : Nat) (d : K) (v : List K) : List K := if v.isEmpty then List.replicate n d else v

/-- 75-89 `checkParameterSize`; `none` is an exception. -/
def checkSize (n : Nat) (v : List K) : Option (List K) :=
  match v with
  | [a] => some (List.replicate n a)
  | v => if v.length ≠ n then none else some v

/-- `trajopt_common::doubleEquals(x, 0.)` (vector_ops.hpp 17). -/
def isTiny (x : K) : Bool := decide (|x - 0| < 1 / 100000)

/-- A vector of length `n` as the argument of the functions of TimeTerms. -/
def extend {n : Nat} (x : Fin n → K) : Nat → K := fun i => if h : i < n then x ⟨i, h⟩ else 0

/-- A cost or constraint added by a joint term. -/
inductive JointAdded (K : Type) where
  | eqCost (t : Term K)
  | ineqCost (t : Term K)
  | eqCnt (t : Term K)
  | ineqCnt (t : Term K)
  | timeCost (half : Nat) (pen : PenaltyType) (f : ErrFunc K (2 * half) (2 * (half - 1)))
  | timeCnt (half : Nat) (eq : Bool) (f : ErrFunc K (2 * half) (2 * (half - 1)))

/-- The range normalisation of the kind. -/
def rangeOf : Kind → Int → Int → Int → Int × Int
  | .pos => posRange
  | .vel => velRange
  | .acc => accRange
  | .jerk => jerkRange

/-- 1250-1260 and 1294-1304: error function of joint `j`, on its column of the joint variables and the last column of all
variables, with one weight for all rows. -/
def timeFunc (vars jv : BArr Nat) (first : Int) (half : Nat) (coeff target upper lower : K) (j : Nat) :
    Res (ErrFunc K (2 * half) (2 * (half - 1))) :=
  match jv.cblock first j half with
  | none => .exc
  | some a => match vars.cblock first ((vars.nCol : Int) - 1) half with
    | none => .exc
    | some b => .ok ⟨fun x r => TimeTerms.velErr ⟨target, upper, lower⟩ half (extend x) r,
        some fun x r c => TimeTerms.velJac half (extend x) r c, fun i => (a ++ b).getD i.val 0, some fun _ => coeff⟩

/-- 1076-1175, 1195-1376, 1393-1488, 1515-1610: `hatch` of the joint terms of kind `k`.  A negative first step is undefined
behaviour here (assertion 1229-1230 for velocities; otherwise the constructors index outside the arrays). -/
def JointInfo.hatch (k : Kind) (info : JointInfo K) (vars : BArr Nat) (n : Nat) (tt : TermType) : Res (List (JointAdded K)) :=
  let r := rangeOf k vars.nRow info.first info.last
  match checkSize n (fill n 1 info.coeffs), checkSize n info.targets, checkSize n (fill n 0 info.upper), checkSize n (fill n 0 info.lower) with
  | some cs, some ts, some us, some ls =>
    if r.1 < 0 ∨ (k = .vel ∧ r.2 ≤ r.1) then .ub
    else
      let zero := us.all isTiny && ls.all isTiny
      match vars.block 0 0 0 vars.nRow n with
      | none => .exc
      | some jv =>
        let t : Term K := ⟨⟨vars.nRow, n, fun i j => (jv.at i j).getD 0⟩, fun j => cs.getD j 0, fun j => ts.getD j 0,
          fun j => us.getD j 0, fun j => ls.getD j 0, r.1.toNat, r.2.toNat⟩
        let plain (cost : Bool) : Res (List (JointAdded K)) :=
          if !t.ok k then .exc
          else .ok [if cost then (if zero then .eqCost t else .ineqCost t) else (if zero then .eqCnt t else .ineqCnt t)]
        let half := (r.2 - r.1 + 1).toNat
        let timed (cost : Bool) : Res (List (JointAdded K)) :=
          (List.range n).foldlM (fun acc (j : Nat) => do
            let f ← timeFunc vars jv r.1 half (cs.getD j 0) (ts.getD j 0) (us.getD j 0) (ls.getD j 0) j
            pure (acc ++ [if cost then .timeCost half (if zero then .squared else .hinge) f else .timeCnt half zero f])) []
        match k with
        | .pos => if tt.cost then plain true else if tt.cnt then plain false else .ok []
        | .vel =>
          if tt = ⟨true, false, true⟩ then timed true
          else if tt = ⟨false, true, true⟩ then timed false
          else if tt.cost && !tt.useTime then plain true
          else if tt.cnt && !tt.useTime then plain false
          else .ok []
        | _ =>
          if tt = ⟨true, false, true⟩ then .ok []
          else if tt = ⟨false, true, true⟩ then .ok []
          else if tt.cost && !tt.useTime then plain true
          else if tt.cnt && !tt.useTime then plain false
          else .ok []
  | _, _, _, _ => .exc

end joint

section others
variable {K : Type} [Field K] [LinearOrder K]

/-- A cost or constraint with an error function. -/
inductive FuncAdded (K : Type) (n m : Nat) where
  | cost (pen : PenaltyType) (f : ErrFunc K n m)
  | cnt (eq : Bool) (f : ErrFunc K n m)

/-- 1848-1892 `TotalTimeTermInfo::hatch`: the variables are the last column of every row but the first. -/
def totalTimeHatch (coeff limit : K) (vars : BArr Nat) (tt : TermType) : Res (FuncAdded K (vars.nRow - 1) 1) :=
  if vars.nRow = 0 then .exc
  else match (List.range (vars.nRow - 1)).mapM fun (i : Nat) => vars.at ((i : Int) + 1) ((vars.nCol : Int) - 1) with
    | none => .exc
    | some l =>
      let f : ErrFunc K (vars.nRow - 1) 1 := ⟨fun x _ => TimeTerms.timeErr limit (vars.nRow - 1) (extend x),
        some fun x _ c => TimeTerms.timeJac (extend x) c, fun i => l.getD i.val 0, some fun _ => coeff⟩
      if tt.cost then .ok (.cost (if isTiny limit then .squared else .hinge) f)
      else if tt.cnt then .ok (.cnt (isTiny limit) f)
      else .exc

/-- `UserDefinedTermInfo` (problem_description.hpp); the default range is `-1 .. -1`. -/
structure UserInfo (K : Type) (n m : Nat) where
  first : Int := -1
  last : Int := -1
  fixed : List Int := []
  f : (Fin n → K) → Fin m → K
  dfdx : Option ((Fin n → K) → Fin m → Fin n → K) := none
  pen : PenaltyType := .squared
  eq : Bool := true
  coeff : Option (Fin m → K) := none

/-- 600-675 `UserDefinedTermInfo::hatch`. -/
def UserInfo.hatch {n m : Nat} (u : UserInfo K n m) (vars : BArr Nat) (tt : TermType) : Res (List (FuncAdded K n m)) :=
  let loop (mk : ErrFunc K n m → FuncAdded K n m) : Res (List (FuncAdded K n m)) :=
    (stepList u.first u.last).foldlM (fun acc s =>
      if s ∈ u.fixed then pure acc
      else match vars.rblock s 0 n with
        | none => .exc
        | some vs => pure (acc ++ [mk ⟨u.f, u.dfdx, fun j => vs.getD j.val 0, u.coeff⟩])) []
  if tt.cost then loop (.cost u.pen)
  else if tt.cnt then loop (.cnt u.eq)
  else .ok []

end others

end Verif.Construct
