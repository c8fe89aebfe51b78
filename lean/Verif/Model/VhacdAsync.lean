/-
Model of the asynchronous V-HACD interface `MyHACD_API`
(/repo/trajopt_ext/vhacd/src/VHACD-ASYNC.cpp), as it is made by `CreateVHACD_ASYNC` (308-312), under
every interleaving of the thread that uses the object with the worker thread that `Compute` starts.

The base object `mVHACD` is represented by what the worker can observe of it: the flag `m_cancel`
(vhacdVHACD.h 122-134), its list of hulls, and the accesses a computation makes.  What a computation
produces when it is not cancelled is given with the job (`Job.hulls`), the messages it reports and
the points at which it touches shared memory with the job's `script`; while `m_cancel` is set the
computation may skip any part of its script (the early returns at vhacdVHACD.h 193, 210, 226, 253 and
VHACD.cpp 451, 787, 902, 1133, 1312, 1347, 1368, 1421, 1483).

Simplifications: memory is sequentially consistent and a step executes at most one operation on an
atomic or one access to shared non-atomic memory; conflicting accesses that can be adjacent are
reported by `RaceOn` (which is how the C++ memory model decides that a program has a data race).  The bodies
of `Update` and `Log` of the worker (211-233), which do nothing but fill in fields between `lock` and
`unlock`, are one step that is possible only while the mutex is free.  Of a delivered message the
call of the user's function, clearing of the flag and `unlock` are one step; during it the user's function
may call the object again (`Act.reenter`).  OpenCL (`OCLInit`, `OCLRelease`) is compiled out.
-/
import Mathlib.Data.List.Basic

namespace Verif.Async

/-- What the base computation does between `Init` and its last look at the cancel flag: read the
input and change its own state; look at `m_cancel` under its mutex (vhacdVHACD.h 128-134) or without
(`!m_cancel`, vhacdVHACD.h 273 and VHACD.cpp 1182, 1394, 1503, 1526, 1567, 1575); report progress (135-144); write a log line. -/
inductive BOp (M : Type)
  | work
  | poll
  | peek
  | update (m : M)
  | log (m : M)
deriving DecidableEq

/-- One call of `Compute`: whether `countPoints` is zero (75), what the decomposition of the input
is, what the base computation does meanwhile, and the user's callback and logger
(`Parameters::m_callback`, `m_logger`). -/
structure Job (H M : Type) where
  empty : Bool
  hulls : List H
  script : List (BOp M)
  cb : Option ℕ
  lg : Option ℕ
deriving DecidableEq

/-- Operations of the worker (`ComputeNow` and the thread function, 47-50, 58-109). -/
inductive WOp (M : Type)
  | count0
  | setCb
  | setLg
  | baseInit
  | base (b : BOp M)
  | baseEnd
  | alloc
  | copy (i : ℕ)
  | countRet
  | runFalse
deriving DecidableEq

/-- The worker: its job, what is left of its program, `ok` (77) and `ret` (64). -/
structure Worker (H M : Type) where
  job : Job H M
  prog : List (WOp M)
  ok : Bool
  ret : ℕ
deriving DecidableEq

/-- Operations of the thread that uses the object. -/
inductive UOp (H M : Type)
  | ifRunning
  | setCancel
  | join
  | postLog
  | clearCancel
  | freeHulls
  | freeInput
  | copyInput
  | setRunning
  | spawn (j : Job H M)
  | cleanBase
  | delBase
  | chkU
  | chkL
  | lock
  | endU
  | endL
  | retReady
  | retCount
  | chkHull (i : ℕ)
  | readHull (i : ℕ)
  | chkBase
  | readBase
deriving DecidableEq

/-- Calls of the interface. -/
inductive Api (H M : Type)
  | compute (j : Job H M)
  | cancel
  | clean
  | isReady
  | getN
  | getHull (i : ℕ)
  | centerOfMass
  | release
deriving DecidableEq

/-- `Cancel` (148-162). -/
def cancelOps {H M : Type} : List (UOp H M) := [.ifRunning, .join, .clearCancel]

/-- `releaseHACD` (127-140). -/
def releaseOps {H M : Type} : List (UOp H M) := [.freeHulls, .freeInput]

/-- `processPendingMessages` (244-262). -/
def pendOps {H M : Type} : List (UOp H M) := [.chkU, .chkL]

/-- The bodies of the calls: `Compute` (30-56), `Cancel` (148-162), `Clean` (193-198), `IsReady`
(235-239), `GetNConvexHulls` (187-191), `GetConvexHull` (119-125), `ComputeCenterOfMass` (266-279)
and `Release` (200-203), which runs the destructor (23-28). -/
def apiOps {H M : Type} : Api H M → List (UOp H M)
  | .compute j => cancelOps ++ releaseOps ++ [.copyInput, .setRunning, .spawn j]
  | .cancel => cancelOps
  | .clean => cancelOps ++ releaseOps ++ [.cleanBase]
  | .isReady => pendOps ++ [.retReady]
  | .getN => pendOps ++ [.retCount]
  | .getHull i => [.chkHull i]
  | .centerOfMass => pendOps ++ [.chkBase]
  | .release => releaseOps ++ cancelOps ++ [.delBase]

/-- The program of the worker thread for a job (47-50, 58-109; the base's `ComputeACD`,
vhacdVHACD.h 321-352). -/
def workerProg {H M : Type} (j : Job H M) : List (WOp M) :=
  [.count0, .setCb, .setLg] ++
    (if j.empty then [] else .baseInit :: j.script.map .base ++ [.baseEnd, .alloc]) ++
    [.countRet, .runFalse]

/-- What a call reports. -/
inductive Obs (H : Type)
  | ready (b : Bool)
  | count (n : ℕ)
  | hull (i : ℕ) (h : H)
  /-- `GetConvexHull` with an index that is not below the count leaves the argument alone -/
  | noHull (i : ℕ)
deriving DecidableEq

/-- The object and both threads.  `hulls` is `mHulls` with what has been written to it, `input`
whether `mVertices` and `mIndices` are allocated, `worker` the thread (`mThread`), finished when its
program is empty; `cancel` and `baseHulls` are `m_cancel` and `m_convexHulls` of the base object; `locked`
says that the using thread holds `mMessageMutex`; `alive` that the object exists.  `last`, `hit`,
`postedU`, `postedL`, `outU`, `outL` and `obs` record history: the job of the last `Compute`, whether the cancel
flag was raised since, the messages posted, those delivered (to which callback), and the results of calls. -/
structure St (H M : Type) where
  count : ℕ
  hulls : Option (List (Option H))
  input : Bool
  cbv : Option ℕ
  lgv : Option ℕ
  running : Bool
  mCancel : Bool
  worker : Option (Worker H M)
  cancel : Bool
  baseHulls : List H
  haveU : Bool
  haveL : Bool
  msgU : M
  msgL : M
  locked : Bool
  user : List (UOp H M)
  alive : Bool
  last : Option (Job H M)
  hit : Bool
  postedU : List M
  postedL : List M
  outU : List (ℕ × M)
  outL : List (ℕ × M)
  obs : List (Obs H)
deriving DecidableEq

/-- A new object (22, 282-305). `m₀` stands for the empty strings of the message fields. -/
def init {H M : Type} (m₀ : M) : St H M :=
  { count := 0, hulls := none, input := false, cbv := none, lgv := none, running := false,
    mCancel := false, worker := none, cancel := false, baseHulls := [], haveU := false,
    haveL := false, msgU := m₀, msgL := m₀, locked := false, user := [], alive := true, last := none,
    hit := false, postedU := [], postedL := [], outU := [], outL := [], obs := [] }

/-- The next operation of the using thread; `none` if it cannot proceed (waiting for the worker in `join`,
or for a mutex it holds itself) or reads a hull that is not there.  `cancelMsg` is the text at 159. -/
def userStep {H M : Type} (cancelMsg : M) (s : St H M) : Option (St H M) :=
  match s.user with
  | [] => none
  | .ifRunning :: r => some { s with user := if s.running then .setCancel :: r else r }
  | .setCancel :: r => some { s with user := r, cancel := true, hit := true }
  | .join :: r =>
    match s.worker with
    | none => some { s with user := r }
    | some w => if w.prog = [] then some { s with user := .postLog :: r, worker := none } else none
  | .postLog :: r =>
    if s.locked then none
    else some { s with user := r, haveL := true, msgL := cancelMsg, postedL := s.postedL ++ [cancelMsg] }
  | .clearCancel :: r => some { s with user := r, mCancel := false }
  | .freeHulls :: r => some { s with user := r, hulls := none, count := 0 }
  | .freeInput :: r => some { s with user := r, input := false }
  | .copyInput :: r => some { s with user := r, input := true }
  | .setRunning :: r => some { s with user := r, running := true }
  | .spawn j :: r =>
    some { s with user := r, worker := some ⟨j, workerProg j, false, 0⟩, last := some j, hit := false }
  | .cleanBase :: r => some { s with user := r, baseHulls := [], cancel := false }
  | .delBase :: r => some { s with user := r, baseHulls := [], alive := false }
  | .chkU :: r =>
    some { s with user := if s.haveU && s.cbv.isSome then .lock :: .endU :: r else r }
  | .chkL :: r =>
    some { s with user := if s.haveL && s.lgv.isSome then .lock :: .endL :: r else r }
  | .lock :: r => if s.locked then none else some { s with user := r, locked := true }
  | .endU :: r =>
    match s.cbv with
    | none => none
    | some c => some { s with user := r, outU := s.outU ++ [(c, s.msgU)], haveU := false, locked := false }
  | .endL :: r =>
    match s.lgv with
    | none => none
    | some c => some { s with user := r, outL := s.outL ++ [(c, s.msgL)], haveL := false, locked := false }
  | .retReady :: r => some { s with user := r, obs := s.obs ++ [.ready (!s.running)] }
  | .retCount :: r => some { s with user := r, obs := s.obs ++ [.count s.count] }
  | .chkHull i :: r =>
    if i < s.count then some { s with user := .readHull i :: r }
    else some { s with user := r, obs := s.obs ++ [.noHull i] }
  | .readHull i :: r =>
    match s.hulls with
    | none => none
    | some hs =>
      match hs[i]? with
      | some (some h) => some { s with user := r, obs := s.obs ++ [.hull i h] }
      | _ => none
  | .chkBase :: r => some { s with user := if s.running then r else .readBase :: r }
  | .readBase :: r => some { s with user := r }

/-- `Update` (211-225) and `Log` (227-233) as called from the base computation, which has been given
these functions only if the user gave a callback or a logger (71-73). -/
def post {H M : Type} (j : Job H M) (b : BOp M) (s : St H M) : Option (St H M) :=
  match b with
  | .update m =>
    if j.cb.isSome then
      if s.locked then none
      else some { s with haveU := true, msgU := m, postedU := s.postedU ++ [m] }
    else some s
  | .log m =>
    if j.lg.isSome then
      if s.locked then none
      else some { s with haveL := true, msgL := m, postedL := s.postedL ++ [m] }
    else some s
  | _ => some s

/-- The next operation of the worker (58-109, 47-50); `none` if it has to wait for the mutex. -/
def workerStep {H M : Type} (s : St H M) : Option (St H M) :=
  match s.worker with
  | none => none
  | some w =>
    match w.prog with
    | [] => none
    | .count0 :: r => some { s with count := 0, worker := some { w with prog := r } }
    | .setCb :: r => some { s with cbv := w.job.cb, worker := some { w with prog := r } }
    | .setLg :: r => some { s with lgv := w.job.lg, worker := some { w with prog := r } }
    | .baseInit :: r => some { s with cancel := false, worker := some { w with prog := r } }
    | .base b :: r => (post w.job b s).map fun s' => { s' with worker := some { w with prog := r } }
    | .baseEnd :: r =>
      if s.cancel then
        some { s with baseHulls := [], cancel := false, worker := some { w with prog := r, ok := false } }
      else some { s with baseHulls := w.job.hulls, worker := some { w with prog := r, ok := true } }
    | .alloc :: r =>
      if w.ok then
        some { s with
          hulls := some (List.replicate s.baseHulls.length none)
          worker := some { w with
            prog := (List.range s.baseHulls.length).map .copy ++ r, ret := s.baseHulls.length } }
      else some { s with worker := some { w with prog := r } }
    | .copy i :: r =>
      let s := { s with hulls := s.hulls.map fun (hs : List (Option H)) => hs.set i s.baseHulls[i]? }
      if s.mCancel then
        some { s with worker := some { w with prog := [.countRet, .runFalse], ret := 0 } }
      else some { s with worker := some { w with prog := r } }
    | .countRet :: r => some { s with count := w.ret, worker := some { w with prog := r } }
    | .runFalse :: r => some { s with running := false, worker := some { w with prog := r } }

/-- While the cancel flag is set the base computation may leave out an operation. -/
def skipStep {H M : Type} (s : St H M) : Option (St H M) :=
  match s.worker with
  | some w =>
    match w.prog with
    | .base _ :: r => if s.cancel then some { s with worker := some { w with prog := r } } else none
    | _ => none
  | none => none

/-- What can happen next: the user calls the object, or does so from inside their callback or logger;
one of the threads takes a step. -/
inductive Act (H M : Type)
  | call (a : Api H M)
  | reenter (a : Api H M)
  | user
  | worker
  | skip
deriving DecidableEq

/-- Whether the using thread is inside the user's callback or logger. -/
def inCallback {H M : Type} : List (UOp H M) → Bool
  | .endU :: _ => true
  | .endL :: _ => true
  | _ => false

/-- The effect of what happens. -/
def step {H M : Type} (cm : M) (s : St H M) : Act H M → Option (St H M)
  | .call a => if s.alive ∧ s.user.isEmpty then some { s with user := apiOps a } else none
  | .reenter a =>
    if s.alive ∧ inCallback s.user = true then some { s with user := apiOps a ++ s.user } else none
  | .user => userStep cm s
  | .worker => workerStep s
  | .skip => skipStep s

/-- An execution. -/
def exec {H M : Type} (cm : M) (s : St H M) : List (Act H M) → Option (St H M)
  | [] => some s
  | a :: as => (step cm s a).bind fun s' => exec cm s' as

/-! ### Accesses -/

/-- Memory that is neither atomic nor always protected by a mutex. -/
inductive Loc
  | input
  | hulls
  | callback
  | logger
  | base
  | cancelFlag
deriving DecidableEq

/-- The accesses of the worker's operations (`true`: write).  `mVertices` and `mIndices` are read when
the thread starts (48) and their contents by the base computation; the base object is changed throughout. -/
def wAcc {M : Type} : WOp M → List (Loc × Bool)
  | .count0 => [(.input, false)]
  | .setCb => [(.callback, true)]
  | .setLg => [(.logger, true)]
  | .baseInit => [(.base, true)]
  | .base .work => [(.input, false), (.base, true)]
  | .base .poll => []
  | .base .peek => [(.cancelFlag, false)]
  | .base (.update _) => [(.base, true)]
  | .base (.log _) => [(.base, true)]
  | .baseEnd => [(.base, true)]
  | .alloc => [(.hulls, true), (.base, false)]
  | .copy _ => [(.hulls, true), (.base, false)]
  | .countRet => []
  | .runFalse => []

/-- The accesses of the using thread.  `mCallback` is looked at only if there is a message (247, 255). -/
def uAcc {H M : Type} (s : St H M) : UOp H M → List (Loc × Bool)
  | .setCancel => [(.cancelFlag, true)]
  | .freeHulls => [(.hulls, true)]
  | .freeInput => [(.input, true)]
  | .copyInput => [(.input, true)]
  | .cleanBase => [(.base, true)]
  | .delBase => [(.base, true), (.hulls, true), (.input, true)]
  | .chkU => if s.haveU then [(.callback, false)] else []
  | .chkL => if s.haveL then [(.logger, false)] else []
  | .endU => [(.callback, false)]
  | .endL => [(.logger, false)]
  | .readHull _ => [(.hulls, false)]
  | .readBase => [(.base, false)]
  | _ => []

/-- Both threads are about to access the location, at least one of them to write. -/
def RaceOn {H M : Type} (l : Loc) (s : St H M) : Prop :=
  ∃ u us w op ops bu bw, s.user = u :: us ∧ s.worker = some w ∧ w.prog = op :: ops ∧
    (l, bu) ∈ uAcc s u ∧ (l, bw) ∈ wAcc op ∧ (bu = true ∨ bw = true)

/-- The worker is about to read input that has been freed. -/
def ReadsFreed {H M : Type} (s : St H M) : Prop :=
  ∃ w op ops, s.worker = some w ∧ w.prog = op :: ops ∧ (Loc.input, false) ∈ wAcc op ∧ s.input = false

end Verif.Async
