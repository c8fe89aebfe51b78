import Mathlib.Logic.Function.Basic
import Mathlib.Data.List.Basic

/-!
Model of `trajopt_common::Cache` (`trajopt_common/include/trajopt_common/cache.h`), function by function.

Simplifications: a pooled object is named by its slot index (`pool_[i]`, `ptr_to_slot_` is the identity on indices below
the capacity; a pointer that is not from the pool is an index at or above it).  The per-slot vectors are functions on ℕ.
`slot_it_[slot]` (a list iterator) is the position of `slot` in `lru_`; `Inv.lru_iff`/`Inv.nodup` in
`Verif.Props.Cache` show that this position exists and is unique whenever the code dereferences it.  Hashing and
`KeyEqual` are equality of keys.  Memory allocation does not fail.
-/

namespace Verif.Cache

universe u
variable {Key : Type u} [DecidableEq Key]

/-- The data members, cache.h 297-320.  `free` is in vector order (`back()` is the last element), `lru` front first. -/
structure Cache (Key : Type u) where
  cap : ℕ
  keyToSlot : Key → Option ℕ
  slotKey : ℕ → Key
  assigned : ℕ → Bool
  checkedOut : ℕ → Bool
  lru : List ℕ
  free : List ℕ

/-- Constructor, 40-55; `k0` is the default-constructed key. -/
def init (capacity : ℕ) (k0 : Key) : Cache Key :=
  let cap := if capacity = 0 then 1 else capacity
  { cap := cap, keyToSlot := fun _ => none, slotKey := fun _ => k0, assigned := fun _ => false
    checkedOut := fun _ => false, lru := [], free := List.range cap }

/-- `touch`, 195-202. -/
def touch (c : Cache Key) (slot : ℕ) : Cache Key :=
  if !c.assigned slot then c else { c with lru := slot :: c.lru.erase slot }

/-- `removeFromLru`, 204-210. -/
def removeFromLru (c : Cache Key) (slot : ℕ) : Cache Key :=
  if !c.assigned slot then c else { c with lru := c.lru.erase slot }

/-- `removeFromFreeSlots`, 212-217: erases the first occurrence. -/
def removeFromFreeSlots (c : Cache Key) (slot : ℕ) : Cache Key := { c with free := c.free.erase slot }

/-- The common part of `evictSlot` (226-232) and of `put` (120-126): unmap an assigned slot. -/
def unmap (c : Cache Key) (slot : ℕ) : Cache Key :=
  let c := { c with keyToSlot := Function.update c.keyToSlot (c.slotKey slot) none }
  let c := removeFromLru c slot
  let c := { c with assigned := Function.update c.assigned slot false }
  if !c.checkedOut slot then { c with free := c.free ++ [slot] } else c

/-- `evictSlot`, 221-233. -/
def evictSlot (c : Cache Key) (slot : ℕ) : Cache Key :=
  if !c.assigned slot then c else unmap c slot

/-- `get`, 58-67. -/
def get (c : Cache Key) (key : Key) : Option ℕ × Cache Key :=
  match c.keyToSlot key with
  | none => (none, c)
  | some slot => (some slot, touch c slot)

/-- `growPool`, 170-192. -/
def growPool (c : Cache Key) (newCap : ℕ) : Cache Key :=
  if newCap ≤ c.cap then c
  else { c with cap := newCap, free := c.free ++ (List.range (newCap - c.cap)).map (· + c.cap) }

/-- The loop of 246-257 (and 276-285) on the reversed vector: pop from the back until an available slot is found. -/
def popLoop (ok : ℕ → Bool) : List ℕ → Option ℕ × List ℕ
  | [] => (none, [])
  | s :: r => if ok s then (some s, r) else popLoop ok r

/-- One run of that loop on the cache. -/
def popFree (c : Cache Key) : Option ℕ × Cache Key :=
  let r := popLoop (fun s => !c.assigned s && !c.checkedOut s) c.free.reverse
  (r.1, { c with free := r.2.reverse })

/-- 292-294: mark the slot as handed out. -/
def checkOut (c : Cache Key) (slot : ℕ) : Cache Key :=
  { c with checkedOut := Function.update c.checkedOut slot true }

/-- `acquireSlot`, 241-295; `none` is `kNpos`. -/
def acquireSlot (c : Cache Key) : Option ℕ × Cache Key :=
  match popFree c with
  | (some slot, c) => (some slot, checkOut c slot)
  | (none, c) =>
    match c.lru.getLast? with
    | some slot => (some slot, checkOut (evictSlot c slot) slot)
    | none =>
      match popFree (growPool c (if c.cap ≠ 0 then c.cap * 2 else 1)) with
      | (some slot, c) => (some slot, checkOut c slot)
      | (none, c) => (none, c)

/-- `getOrAcquire`, 73-90: slot (or null) and whether it was a hit. -/
def getOrAcquire (c : Cache Key) (key : Key) : (Option ℕ × Bool) × Cache Key :=
  match c.keyToSlot key with
  | some slot => ((some slot, true), touch c slot)
  | none =>
    match acquireSlot c with
    | (none, c) => ((none, false), c)
    | (some slot, c) => ((some slot, false), c)

/-- `put`, 109-112: if the key is already mapped to a different slot, evict that entry. -/
def putEvictOld (c : Cache Key) (key : Key) (slot : ℕ) : Cache Key :=
  match c.keyToSlot key with
  | some e => if e ≠ slot then evictSlot c e else c
  | none => c

/-- `put`, 114-127: if the slot is assigned to a different key, remove that mapping. -/
def putUnmapSlot (c : Cache Key) (key : Key) (slot : ℕ) : Cache Key :=
  if c.assigned slot then (if c.slotKey slot ≠ key then unmap c slot else c) else c

/-- `put`, 97-149. -/
def put (c : Cache Key) (key : Key) (slot : ℕ) : Bool × Cache Key :=
  if c.cap ≤ slot then (false, c)  -- not from this pool
  else
    let c := putEvictOld c key slot
    let c := putUnmapSlot c key slot
    let c := { c with checkedOut := Function.update c.checkedOut slot false }
    let c := removeFromFreeSlots c slot
    let c := { c with slotKey := Function.update c.slotKey slot key
                      keyToSlot := Function.update c.keyToSlot key (some slot) }
    if !c.assigned slot then
      (true, { c with lru := slot :: c.lru, assigned := Function.update c.assigned slot true })
    else (true, touch c slot)

/-- `erase`, 152-159. -/
def erase (c : Cache Key) (key : Key) : Cache Key :=
  match c.keyToSlot key with
  | none => c
  | some slot => evictSlot c slot

/-! ### Client: memoised evaluation

The collision constraints use the cache as
`auto [ptr, hit] = cache.getOrAcquire(hash(x)); if (!hit) { fill *ptr from x; cache.put(hash(x), ptr); }` and then read
`*ptr` (`trajopt_ifopt/src/constraints/collision/discrete_collision_constraint.cpp` 67-79 and 178-192,
`continuous_collision_constraint.cpp` 81-96 and 277-288, the numerical variants likewise).  An exception thrown while
filling is not modelled. -/

/-- Cache plus the contents of the pooled objects. -/
structure Store (Key : Type u) (V : Type*) where
  cache : Cache Key
  heap : ℕ → V

/-- One memoised evaluation; the result is the content of the returned object (`none`: null pointer dereferenced). -/
def memo {X V : Type*} (hash : X → Key) (f : X → V) (st : Store Key V) (x : X) : Option V × Store Key V :=
  match getOrAcquire st.cache (hash x) with
  | ((none, _), c) => (none, { st with cache := c })
  | ((some slot, true), c) => (some (st.heap slot), { st with cache := c })
  | ((some slot, false), c) =>
    let heap := Function.update st.heap slot (f x)
    let c := (put c (hash x) slot).2
    (some (heap slot), { cache := c, heap := heap })

/-! ### `trajopt/include/trajopt/cache.hxx`: the circular buffer used by the legacy collision evaluators -/

/-- Data members, 31-34: write position, key buffer and value buffer. -/
structure Ring (Key : Type u) (V : Type*) where
  m : ℕ
  keys : List Key
  vals : List V

/-- Constructor, 13: both buffers are filled with default-constructed elements. -/
def Ring.init {V : Type*} (bufsize : ℕ) (k0 : Key) (v0 : V) : Ring Key V :=
  ⟨0, List.replicate bufsize k0, List.replicate bufsize v0⟩

/-- `put`, 15-22. -/
def Ring.put {V : Type*} (r : Ring Key V) (key : Key) (v : V) : Ring Key V :=
  ⟨if r.m + 1 = r.keys.length then 0 else r.m + 1, r.keys.set r.m key, r.vals.set r.m v⟩

/-- `get`, 24-28: the value at the first position holding the key. -/
def Ring.get {V : Type*} (r : Ring Key V) (key : Key) : Option V :=
  let i := r.keys.findIdx (fun k => decide (k = key))
  if i < r.keys.length then r.vals[i]? else none

/-- `CollisionEvaluator::GetContactResultCached`, trajopt/src/collision_terms.cpp 440-466. -/
def Ring.memo {X V : Type*} (hash : X → Key) (f : X → V) (r : Ring Key V) (x : X) : V × Ring Key V :=
  match r.get (hash x) with
  | some v => (v, r)
  | none => (f x, r.put (hash x) (f x))

end Verif.Cache
