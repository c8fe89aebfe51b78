import Mathlib.Tactic.Basic

/-!
# Convexification in parallel

Model of the parallel loop `BasicTrustRegionSQPMultiThreaded::convexifyCosts` (trajopt_sco/src/optimizers.cpp 286-299) at the level of the
memory accesses of `Model::addVar(name, lb, ub)` (solver_interface.cpp 111-116) for the solver models that do not override it: OSQP
(osqp_interface.cpp 123-130, 420-428), qpOASES (qpoases_interface.cpp 38-45, 200-208) and BPMPD (bpmpd_interface.cpp 238-245, 333-341).
All three lock their mutex in `addVar(name)` but not in `setVarBounds`.

Every cost runs as a thread of its own; an OpenMP schedule with any number of threads is an interleaving of these.  A thread makes its calls
of `addVar(name, lb, ub)` one after the other; what it computes in between touches nothing shared.  One step is one of: taking the mutex,
`vars_.emplace_back` and reading its size, the two parts of `push_back` on the vectors of lower and upper bounds (writing into spare capacity,
or filling a new block and then switching to it and freeing the old one), releasing the mutex, reading the data pointer of a vector, and
storing through it.

Simplifications: `vars_` is only its size (it is accessed under the mutex only); steps are sequentially consistent (the C++ memory model
allows more behaviours when there is a data race); a store beyond the end of a block is not detected; only freed blocks are.
-/

namespace Verif.Parallel

/-- `std::vector` with the memory its blocks live in. -/
structure Vec (α : Type) where
  block : Nat → Nat → α
  live : Nat → Bool
  buf : Nat
  size : Nat
  cap : Nat
  next : Nat

variable {α : Type}

/-- Element `k` of the vector. -/
def Vec.get (v : Vec α) (k : Nat) : α := v.block v.buf k

/-- A store into block `b`. -/
def Vec.store (v : Vec α) (b k : Nat) (a : α) : Vec α :=
  { v with block := fun b' k' => if b' = b ∧ k' = k then a else v.block b' k' }

/-- `push_back` with spare capacity. -/
def Vec.append (v : Vec α) (a : α) : Vec α := { v.store v.buf v.size a with size := v.size + 1 }

/-- `push_back` without spare capacity, first part: a new block with the old elements and the new one. -/
def Vec.alloc (v : Vec α) (a : α) : Vec α :=
  { v with
    block := fun b k => if b = v.next then (if k < v.size then v.block v.buf k else a) else v.block b k
    live := fun b => if b = v.next then true else v.live b
    next := v.next + 1 }

/-- `push_back` without spare capacity, second part: free the old block and use the new one. -/
def Vec.swap (grow : Nat → Nat) (v : Vec α) (b : Nat) : Vec α :=
  { v with live := fun b' => if b' = v.buf then false else v.live b', buf := b, size := v.size + 1, cap := grow v.cap }

/-- One call of `addVar(name, lb, ub)`. -/
structure Req (α : Type) where
  lo : α
  hi : α

/-- Where a thread is in the call. -/
inductive Pc where
  /-- before the mutex -/
  | start
  /-- before `vars_.emplace_back` -/
  | locked
  | pushLb (v : Nat)
  | swapLb (v b : Nat)
  | pushUb (v : Nat)
  | swapUb (v b : Nat)
  /-- before the mutex is released and the variable returned -/
  | unlock (v : Nat)
  /-- `lbs_[varind] = ..`: before reading the data pointer -/
  | loadLb (v : Nat)
  | storeLb (v b : Nat)
  | loadUb (v : Nat)
  | storeUb (v b : Nat)
deriving DecidableEq

/-- A thread: the calls it still has to make (the first one is being made), and the variables it got for those made. -/
structure Thread (α : Type) where
  todo : List (Req α)
  pc : Pc
  done : List (Req α × Nat)

/-- The solver model and the threads. -/
structure St (α : Type) where
  owner : Option Nat
  nvars : Nat
  lbs : Vec α
  ubs : Vec α
  thr : Nat → Thread α

def St.set (s : St α) (i : Nat) (t : Thread α) : St α := { s with thr := fun j => if j = i then t else s.thr j }

/-- One step of thread `i`: `none` is a store into freed memory; a thread that waits for the mutex or is finished does nothing.
`dlo`, `dhi` are the bounds written by `addVar(name)`. -/
def step (grow : Nat → Nat) (dlo dhi : α) (s : St α) (i : Nat) : Option (St α) :=
  let t := s.thr i
  match t.todo with
  | [] => some s
  | r :: rest =>
    match t.pc with
    | .start => if s.owner = none then some ({ s with owner := some i }.set i { t with pc := .locked }) else some s
    | .locked => some ({ s with nvars := s.nvars + 1 }.set i { t with pc := .pushLb s.nvars })
    | .pushLb v =>
      if s.lbs.size < s.lbs.cap then some ({ s with lbs := s.lbs.append dlo }.set i { t with pc := .pushUb v })
      else some ({ s with lbs := s.lbs.alloc dlo }.set i { t with pc := .swapLb v s.lbs.next })
    | .swapLb v b => some ({ s with lbs := s.lbs.swap grow b }.set i { t with pc := .pushUb v })
    | .pushUb v =>
      if s.ubs.size < s.ubs.cap then some ({ s with ubs := s.ubs.append dhi }.set i { t with pc := .unlock v })
      else some ({ s with ubs := s.ubs.alloc dhi }.set i { t with pc := .swapUb v s.ubs.next })
    | .swapUb v b => some ({ s with ubs := s.ubs.swap grow b }.set i { t with pc := .unlock v })
    | .unlock v => some ({ s with owner := none }.set i { t with pc := .loadLb v })
    | .loadLb v => some (s.set i { t with pc := .storeLb v s.lbs.buf })
    | .storeLb v b =>
      if s.lbs.live b then some ({ s with lbs := s.lbs.store b v r.lo }.set i { t with pc := .loadUb v }) else none
    | .loadUb v => some (s.set i { t with pc := .storeUb v s.ubs.buf })
    | .storeUb v b =>
      if s.ubs.live b then
        some ({ s with ubs := s.ubs.store b v r.hi }.set i { todo := rest, pc := .start, done := t.done ++ [(r, v)] })
      else none

/-- A schedule: which thread makes the next step. -/
def run (grow : Nat → Nat) (dlo dhi : α) : List Nat → St α → Option (St α)
  | [], s => some s
  | i :: l, s => match step grow dlo dhi s i with
    | none => none
    | some s' => run grow dlo dhi l s'

/-- The state at the start of the loop: `n` variables, nobody holds the mutex, thread `i` has to make the calls `prog i`. -/
def begin (lbs ubs : Vec α) (n : Nat) (prog : Nat → List (Req α)) : St α :=
  { owner := none, nvars := n, lbs := lbs, ubs := ubs, thr := fun i => ⟨prog i, .start, []⟩ }

/-- optimizers.cpp 261-284, 315-341: the loops that fill `out[i]`.  An iteration computes its value from data that is not written by any
iteration and stores it in its own element; here a schedule lists the iterations in the order of their stores. -/
def fillLoop {β : Type} (f : Nat → β) (sched : List Nat) (out : List β) : List β := sched.foldl (fun o i => o.set i (f i)) out

end Verif.Parallel
