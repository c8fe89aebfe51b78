import Mathlib.Logic.Function.Basic
import Mathlib.Data.Nat.Notation

/-!
# The circular list of V-HACD

`CircularList<T>` of trajopt_ext/vhacd (include/vhacd/inc/vhacdCircularList.h 31-91 and
vhacdCircularList.inl), in which the incremental hull keeps vertices, edges and triangles: elements
on the heap, each with a pointer to the next and the previous one.

Pointers are numbers, memory is a map from numbers to elements, and any number of lists live in it.
A pointer or a datum that nothing was stored in is `none`.  Reading or writing through a null,
dangling or uninitialised pointer and deleting memory twice give no result.  `Delete(element)`
compares the deleted pointer with the head (19); the value is taken to be the one before.
The size is a natural number: it counts objects in memory.
-/

namespace Verif.Ring

variable {T : Type}

/-- `CircularListElement` (vhacdCircularList.h 32-54). -/
structure Node (T : Type) where
  data : Option T
  next : Option ℕ
  prev : Option ℕ
deriving DecidableEq, Repr

/-- `CircularList` (vhacdCircularList.h 88-90). -/
structure Lst where
  head : Option ℕ
  size : ℕ
deriving DecidableEq, Repr

/-- Memory: the elements, and the next number `new` gives out. -/
structure Mem (T : Type) where
  at_ : ℕ → Option (Node T)
  fresh : ℕ

/-- `p->GetNext()` (vhacdCircularList.h 38), read. -/
def Mem.next (m : Mem T) (p : ℕ) : Option ℕ := (m.at_ p).bind (·.next)

/-- `p->GetPrev()` (vhacdCircularList.h 39), read. -/
def Mem.prev (m : Mem T) (p : ℕ) : Option ℕ := (m.at_ p).bind (·.prev)

/-- `p->GetNext() = q`. -/
def Mem.setNext (m : Mem T) (p q : ℕ) : Option (Mem T) :=
  (m.at_ p).map fun n => { m with at_ := Function.update m.at_ p (some { n with next := some q }) }

/-- `p->GetPrev() = q`. -/
def Mem.setPrev (m : Mem T) (p q : ℕ) : Option (Mem T) :=
  (m.at_ p).map fun n => { m with at_ := Function.update m.at_ p (some { n with prev := some q }) }

/-- `new CircularListElement<T>(*data)` or, without data, `new CircularListElement<T>()`
(vhacdCircularList.h 43-44): the links are not set. -/
def Mem.alloc (m : Mem T) (d : Option T) : Mem T :=
  ⟨Function.update m.at_ m.fresh (some ⟨d, none, none⟩), m.fresh + 1⟩

/-- `delete p`. -/
def Mem.free (m : Mem T) (p : ℕ) : Option (Mem T) :=
  (m.at_ p).map fun _ => { m with at_ := Function.update m.at_ p none }

/-- `CircularList()` (vhacdCircularList.h 79-83). -/
def new : Lst := ⟨none, 0⟩

/-- `Add` (66-106); the pointer returned is the new head. -/
def add (m : Mem T) (l : Lst) (d : Option T) : Option (Mem T × Lst) :=
  let p := m.fresh
  if l.size = 0 then do
    let m1 := m.alloc d
    let m2 ← m1.setPrev p p
    let m3 ← m2.setNext p p
    return (m3, ⟨some p, l.size + 1⟩)
  else do
    let e ← l.head
    let n ← m.next e
    let m1 := m.alloc d
    let m2 ← m1.setNext p n
    let m3 ← m2.setPrev p e
    let m4 ← m3.setNext e p
    let m5 ← m4.setPrev n p
    return (m5, ⟨some p, l.size + 1⟩)

/-- Unlinking and deleting `e` (15-18, 23-24; 45-48, 50-51). -/
def unlink (m : Mem T) (e : ℕ) : Option (Mem T × ℕ) := do
  let n ← m.next e
  let p ← m.prev e
  let m1 ← m.free e
  let m2 ← m1.setPrev n p
  let m3 ← m2.setNext p n
  return (m3, n)

/-- Deletion of the only element (27-33, 54-60). -/
def dropOnly (m : Mem T) (l : Lst) : Option (Mem T × Lst × Bool) := do
  let e ← l.head
  let m1 ← m.free e
  return (m1, ⟨none, l.size - 1⟩, true)

/-- `Delete()` (40-65). -/
def delete (m : Mem T) (l : Lst) : Option (Mem T × Lst × Bool) :=
  if 1 < l.size then do
    let e ← l.head
    let (m1, n) ← unlink m e
    return (m1, ⟨some n, l.size - 1⟩, true)
  else if l.size = 1 then dropOnly m l
  else some (m, l, false)

/-- `Delete(element)` (6-38); `none` is the null pointer. -/
def deleteAt (m : Mem T) (l : Lst) : Option ℕ → Option (Mem T × Lst × Bool)
  | none => some (m, l, false)
  | some e =>
    if 1 < l.size then do
      let (m1, n) ← unlink m e
      return (m1, ⟨if some e = l.head then some n else l.head, l.size - 1⟩, true)
    else if l.size = 1 then dropOnly m l
    else some (m, l, false)

/-- `Next` (107-116). -/
def goNext (m : Mem T) (l : Lst) : Option (Lst × Bool) :=
  if l.size = 0 then some (l, false)
  else do
    let e ← l.head
    let n ← m.next e
    return (⟨some n, l.size⟩, true)

/-- `Prev` (117-126). -/
def goPrev (m : Mem T) (l : Lst) : Option (Lst × Bool) :=
  if l.size = 0 then some (l, false)
  else do
    let e ← l.head
    let n ← m.prev e
    return (⟨some n, l.size⟩, true)

/-- `Clear` (vhacdCircularList.h 72-76), with a bound on the number of calls of `Delete`. -/
def clearLoop : ℕ → Mem T → Lst → Option (Mem T × Lst)
  | 0, _, _ => none
  | k + 1, m, l => do
    let (m1, l1, b) ← delete m l
    if b then clearLoop k m1 l1 else return (m1, l1)

/-- `Clear`: every call but the last makes the list shorter. -/
def clear (m : Mem T) (l : Lst) : Option (Mem T × Lst) := clearLoop (l.size + 1) m l

/-- The loop 133-138 and 150-155, from the element `cur` on, with a bound on the number of turns. -/
def copyLoop (stop : ℕ) : ℕ → ℕ → Mem T → Lst → Option (Mem T × Lst)
  | 0, _, _, _ => none
  | k + 1, cur, m, l => do
    let c ← m.next cur
    let n ← m.at_ c
    let (m1, l1) ← add m l n.data
    if c = stop then return (m1, l1) else copyLoop stop k c m1 l1

/-- The body of the copy constructor (130-139) and of `operator=` (147-156).  The source has
`r.size` elements, so no more turns are needed. -/
def copyInto (m : Mem T) (l r : Lst) : Option (Mem T × Lst) :=
  if r.size = 0 then some (m, l)
  else do
    let h ← r.head
    copyLoop h r.size h m l

/-- `operator=` (141-159) from another list. -/
def assign (m : Mem T) (l r : Lst) : Option (Mem T × Lst) := do
  let (m1, l1) ← clear m l
  copyInto m1 l1 r

/-- The copy constructor (127-140): `m_head` and `m_size` are not initialised, `junk` is what is in
them. -/
def copyNew (m : Mem T) (junk r : Lst) : Option (Mem T × Lst) := copyInto m junk r

/-! ### Sessions -/

/-- An operation on a family of lists. -/
inductive Op (T : Type)
  | add (i : ℕ) (d : Option T)
  | del (i : ℕ)
  | delAt (i : ℕ) (e : Option ℕ)
  | next (i : ℕ)
  | prev (i : ℕ)
  | clear (i : ℕ)
  | assign (i j : ℕ)

/-- Memory and the lists. -/
structure St (T : Type) where
  mem : Mem T
  lst : ℕ → Lst

/-- Nothing allocated, all lists new. -/
def start : St T := ⟨⟨fun _ => none, 0⟩, fun _ => new⟩

/-- Store a list. -/
def St.put (s : St T) (i : ℕ) (m : Mem T) (l : Lst) : St T := ⟨m, Function.update s.lst i l⟩

/-- Perform one operation; the flag is the value returned (`true` if there is none).  Assigning a
list to itself does nothing (144). -/
def step (s : St T) : Op T → Option (St T × Bool)
  | .add i d => (add s.mem (s.lst i) d).map fun r => (s.put i r.1 r.2, true)
  | .del i => (delete s.mem (s.lst i)).map fun r => (s.put i r.1 r.2.1, r.2.2)
  | .delAt i e => (deleteAt s.mem (s.lst i) e).map fun r => (s.put i r.1 r.2.1, r.2.2)
  | .next i => (goNext s.mem (s.lst i)).map fun r => (s.put i s.mem r.1, r.2)
  | .prev i => (goPrev s.mem (s.lst i)).map fun r => (s.put i s.mem r.1, r.2)
  | .clear i => (clear s.mem (s.lst i)).map fun r => (s.put i r.1 r.2, true)
  | .assign i j =>
    if i = j then some (s, true)
    else (assign s.mem (s.lst i) (s.lst j)).map fun r => (s.put i r.1 r.2, true)

/-- Perform a sequence of operations. -/
def run : List (Op T) → St T → Option (St T)
  | [], s => some s
  | o :: os, s => (step s o).bind fun r => run os r.1

/-- The element `k` steps behind the head. -/
def walk (m : Mem T) : ℕ → ℕ → Option ℕ
  | 0, p => some p
  | k + 1, p => (m.next p).bind (walk m k)

end Verif.Ring
