import Mathlib.Data.List.Basic
import Mathlib.Logic.Function.Basic

/-!
# The growing array of V-HACD

Source: `trajopt_ext/vhacd/include/vhacd/inc/vhacdSArray.h`, class `SArray<T, N>` (38-154): an
array with room for `N` elements inside the object and a buffer on the heap beyond that.

A cell is `none` while nothing was stored in it (elements of a new buffer or of a new object are
unspecified).  Access outside of a buffer, or to a deleted buffer, gives no result (`none`).
`size_t` is 64 bits wide where a counter may go below zero; sizes near 2⁶⁴ are not considered for
growth.  The elements are copied with `memcpy`; element types are taken to allow that.
-/

namespace Verif.SArray

variable {T : Type}

/-- The object: `m_data0`, the buffer `m_data` points to (`none`: null), `m_size`, `m_maxSize`. -/
structure Arr (T : Type) where
  data0 : List (Option T)
  data : Option (List (Option T))
  size : ℕ
  maxSize : ℕ
deriving DecidableEq, Repr

/-- `SArray()` and `Initialize` (133-138, 146). -/
def new (N : ℕ) : Arr T := ⟨List.replicate N none, none, 0, N⟩

/-- `Data()` (52-53); `none` for a null pointer. -/
def Arr.buf (N : ℕ) (a : Arr T) : Option (List (Option T)) :=
  if a.maxSize = N then some a.data0 else a.data

/-- Writing through `Data()`. -/
def Arr.setBuf (N : ℕ) (a : Arr T) (b : List (Option T)) : Arr T :=
  if a.maxSize = N then { a with data0 := b } else { a with data := some b }

/-- `memcpy` of the first `n` elements of a source to the start of a target. -/
def copyTo (src dst : List (Option T)) (n : ℕ) : Option (List (Option T)) :=
  if n ≤ src.length ∧ n ≤ dst.length then some (src.take n ++ dst.drop n) else none

/-- `operator[]` for reading (41-50): the contents of a cell. -/
def Arr.get (N : ℕ) (a : Arr T) (i : ℕ) : Option (Option T) := do
  let b ← a.buf N
  b[i]?

/-- `Clear` (54-60). -/
def Arr.clear (N : ℕ) (a : Arr T) : Arr T := { a with size := 0, data := none, maxSize := N }

/-- `PopBack` (61). -/
def Arr.popBack (a : Arr T) : Arr T := { a with size := (a.size + (2 ^ 64 - 1)) % 2 ^ 64 }

/-- `Allocate` (62-72). -/
def Arr.allocate (N : ℕ) (a : Arr T) (n : ℕ) : Option (Arr T) :=
  if a.maxSize < n then do
    let b ← a.buf N
    let t ← copyTo b (List.replicate n none) a.size
    return { a with data := some t, maxSize := n }
  else some a

/-- `Resize` (73-77). -/
def Arr.resize (N : ℕ) (a : Arr T) (n : ℕ) : Option (Arr T) :=
  (a.allocate N n).map fun a => { a with size := n }

/-- The growth in `PushBack` (81-89). -/
def Arr.grow (N : ℕ) (a : Arr T) : Option (Arr T) :=
  if a.size = a.maxSize then do
    let b ← a.buf N
    let t ← copyTo b (List.replicate (a.maxSize * 2) none) a.maxSize
    return { a with data := some t, maxSize := a.maxSize * 2 }
  else some a

/-- `data[m_size++] = value` (90-91). -/
def Arr.store (N : ℕ) (a : Arr T) (v : Option T) : Option (Arr T) := do
  let b ← a.buf N
  if a.size < b.length then
    return { a.setBuf N (b.set a.size v) with size := a.size + 1 }
  else none

/-- `PushBack` (79-92) of a value which is not part of the array. -/
def Arr.pushBack (N : ℕ) (a : Arr T) (v : T) : Option (Arr T) := do
  let g ← a.grow N
  g.store N (some v)

/-- `PushBack` (79-92) of a reference to an element of the array itself.  The reference goes to
the buffer in use at the call; if growing deletes that buffer the reference dangles.  The buffer
inside the object is not deleted. -/
def Arr.pushOwn (N : ℕ) (a : Arr T) (i : ℕ) : Option (Arr T) := do
  let g ← a.grow N
  if a.size = a.maxSize ∧ a.maxSize ≠ N then none
  else
    let b ← a.buf N
    let v ← b[i]?
    g.store N v

variable [DecidableEq T]

/-- `Find` (93-100): the position of the first cell, among the first `n`, which equals the value,
or `n`.  Comparing with a cell nothing was stored in gives no result. -/
def findIn (v : T) : List (Option T) → ℕ → Option ℕ
  | _, 0 => some 0
  | [], _ + 1 => none
  | none :: _, _ + 1 => none
  | some w :: l, n + 1 => if v = w then some 0 else (findIn v l n).map (· + 1)

/-- `Find` (93-100): the result and `pos`. -/
def Arr.find (N : ℕ) (a : Arr T) (v : T) : Option (Bool × ℕ) := do
  let b ← a.buf N
  let p ← findIn v b a.size
  return (decide (p < a.size), p)

/-- `Insert` (101-108). -/
def Arr.insert (N : ℕ) (a : Arr T) (v : T) : Option (Bool × Arr T) := do
  let r ← a.find N v
  if r.1 then return (false, a)
  else
    let a' ← a.pushBack N v
    return (true, a')

/-- The loop of `Erase` (115-116) from `j` on, with the number of turns left. -/
def shift : ℕ → ℕ → List (Option T) → Option (List (Option T))
  | 0, _, b => some b
  | n + 1, j, b => do
    let x ← b[j]?
    if j - 1 < b.length then shift n (j + 1) (b.set (j - 1) x) else none

/-- `Erase` (109-121). -/
def Arr.erase (N : ℕ) (a : Arr T) (v : T) : Option (Bool × Arr T) := do
  let r ← a.find N v
  if r.1 then
    let b ← a.buf N
    let b' ← shift (a.size - (r.2 + 1)) (r.2 + 1) b
    return (true, { a.setBuf N b' with size := a.size - 1 })
  else return (false, a)

omit [DecidableEq T]

/-- `operator=` (122-132) from another array. -/
def Arr.assign (N : ℕ) (a r : Arr T) : Option (Arr T) :=
  let a1 : Arr T :=
    if a.maxSize < r.size then
      { a with maxSize := r.maxSize, data := some (List.replicate r.maxSize none) }
    else a
  let a2 := { a1 with size := r.size }
  do
    let dst ← a2.buf N
    let src ← r.buf N
    let t ← copyTo src dst a2.size
    return a2.setBuf N t

/-- The copy constructor (139-145). -/
def Arr.copy (N : ℕ) (r : Arr T) : Option (Arr T) := (new N : Arr T).assign N r

/-! ### Sessions -/

/-- An operation on a family of arrays. -/
inductive Op (T : Type)
  | push (i : ℕ) (v : T)
  | pop (i : ℕ)
  | clear (i : ℕ)
  | resize (i : ℕ) (n : ℕ)
  | insert (i : ℕ) (v : T)
  | erase (i : ℕ) (v : T)
  | assign (i j : ℕ)

variable [DecidableEq T]

/-- Perform one operation.  Assigning an array to itself copies its elements onto themselves. -/
def step (N : ℕ) (s : ℕ → Arr T) : Op T → Option (ℕ → Arr T)
  | .push i v => ((s i).pushBack N v).map (Function.update s i)
  | .pop i => some (Function.update s i (s i).popBack)
  | .clear i => some (Function.update s i ((s i).clear N))
  | .resize i n => ((s i).resize N n).map (Function.update s i)
  | .insert i v => ((s i).insert N v).map fun r => Function.update s i r.2
  | .erase i v => ((s i).erase N v).map fun r => Function.update s i r.2
  | .assign i j => if i = j then some s else ((s i).assign N (s j)).map (Function.update s i)

/-- Perform a sequence of operations. -/
def run (N : ℕ) : List (Op T) → (ℕ → Arr T) → Option (ℕ → Arr T)
  | [], s => some s
  | o :: os, s => do
    let s' ← step N s o
    run N os s'

end Verif.SArray
