import Mathlib.Data.List.Basic
import Mathlib.Data.Nat.ModEq

/-!
Model of the messages between `BPMPDModel` and its subprocess:
trajopt_sco/include/trajopt_sco/bpmpd_io.hpp and the loop of trajopt_sco/src/bpmpd_caller.cpp.

Simplifications: bytes are numbers; an `int` is a 32 bit word, a `double` its 64 bit pattern, `unsigned long` has eight
bytes, all little endian.  `write` always writes everything (a blocking pipe without signals).  The allocation in `resize`
succeeds.  `assert` is off (release build), so the result of `read` is ignored, as in the code.
-/

namespace Verif.BpmpdIo

/-- Bytes of a word of `k` bytes, lowest first. -/
def encLE : Nat → Nat → List Nat
  | 0, _ => []
  | k + 1, v => v % 256 :: encLE k (v / 256)

/-- The number with the given bytes. -/
def decLE : List Nat → Nat
  | [] => 0
  | b :: bs => b + 256 * decLE bs

/-- A pipe as its reader sees it: the bytes written so far and, for each of the next calls of `read`, a limit on the number
of bytes the call returns (at least one; no limit where the list has ended). -/
structure Pipe where
  bytes : List Nat
  limits : List Nat := []
deriving DecidableEq, Repr

/-- `read(fp, buf, n)`: `buf` holds `old` before the call; bytes that are not read keep their value. -/
def Pipe.read (p : Pipe) (old : List Nat) : List Nat × Pipe :=
  let k := match p.limits with
    | [] => min old.length p.bytes.length
    | l :: _ => min (min old.length p.bytes.length) (l + 1)
  (p.bytes.take k ++ old.drop k, ⟨p.bytes.drop k, p.limits.tail⟩)

/-- `ser(fp, x, DESER)` for a word of `k` bytes, bpmpd_io.hpp 32-38. -/
def readWord (k : Nat) (old : Nat) (p : Pipe) : Nat × Pipe :=
  let r := p.read (encLE k old)
  (decLE r.1, r.2)

/-- `ser(fp, x, SER)` for a word, 24-31. -/
def writeWord (k : Nat) (x : Nat) : List Nat := encLE k x

/-- Words of `k` bytes stored one after another. -/
def splitWords (k : Nat) : Nat → List Nat → List Nat
  | 0, _ => []
  | n + 1, bs => decLE (bs.take k) :: splitWords k n (bs.drop k)

/-- `ser(fp, x, SER)` for a vector of words, 45-55. -/
def writeVec (k : Nat) (x : List Nat) : List Nat := writeWord 8 x.length ++ x.flatMap (writeWord k)

/-- `ser(fp, x, DESER)` for a vector of words, 45-46 and 56-63: `size` starts as the old size; `resize` keeps old elements
and fills up with zeros. -/
def readVec (k : Nat) (old : List Nat) (p : Pipe) : List Nat × Pipe :=
  let s := readWord 8 old.length p
  let x := old.take s.1 ++ List.replicate (s.1 - old.length) 0
  let r := s.2.read (x.flatMap (encLE k))
  (splitWords k s.1 r.1, r.2)

/-- `bpmpd_input`, 67-75. -/
structure Input where
  m : Nat := 0
  n : Nat := 0
  nz : Nat := 0
  qn : Nat := 0
  qnz : Nat := 0
  acolcnt : List Nat := []
  acolidx : List Nat := []
  acolnzs : List Nat := []
  qcolcnt : List Nat := []
  qcolidx : List Nat := []
  qcolnzs : List Nat := []
  rhs : List Nat := []
  obj : List Nat := []
  lbound : List Nat := []
  ubound : List Nat := []
deriving DecidableEq, Repr

/-- `bpmpd_output`, 140-146. -/
structure Output where
  primal : List Nat := []
  dual : List Nat := []
  status : List Nat := []
  code : Nat := 0
  opt : Nat := 0
deriving DecidableEq, Repr

/-- 111. -/
def exitChar : Nat := 123
/-- 112. -/
def checkChar : Nat := 111

/-- `ser(fp, bi, SER)`, 114-138; `'z'` is 122. -/
def Input.write (b : Input) : List Nat :=
  writeWord 1 122 ++ writeWord 4 b.m ++ writeWord 4 b.n ++ writeWord 4 b.nz ++ writeWord 4 b.qn ++ writeWord 4 b.qnz ++
  writeVec 4 b.acolcnt ++ writeVec 4 b.acolidx ++ writeVec 8 b.acolnzs ++
  writeVec 4 b.qcolcnt ++ writeVec 4 b.qcolidx ++ writeVec 8 b.qcolnzs ++
  writeVec 8 b.rhs ++ writeVec 8 b.obj ++ writeVec 8 b.lbound ++ writeVec 8 b.ubound

/-- `ser(fp, bi, DESER)`, 114-138; `none` is `exit(0)`. -/
def Input.read (b : Input) (p : Pipe) : Option (Input × Pipe) :=
  let (s, p) := readWord 1 0 p
  if s = exitChar then none
  else
    let (m, p) := readWord 4 b.m p
    let (n, p) := readWord 4 b.n p
    let (nz, p) := readWord 4 b.nz p
    let (qn, p) := readWord 4 b.qn p
    let (qnz, p) := readWord 4 b.qnz p
    let (acolcnt, p) := readVec 4 b.acolcnt p
    let (acolidx, p) := readVec 4 b.acolidx p
    let (acolnzs, p) := readVec 8 b.acolnzs p
    let (qcolcnt, p) := readVec 4 b.qcolcnt p
    let (qcolidx, p) := readVec 4 b.qcolidx p
    let (qcolnzs, p) := readVec 8 b.qcolnzs p
    let (rhs, p) := readVec 8 b.rhs p
    let (obj, p) := readVec 8 b.obj p
    let (lbound, p) := readVec 8 b.lbound p
    let (ubound, p) := readVec 8 b.ubound p
    some (⟨m, n, nz, qn, qnz, acolcnt, acolidx, acolnzs, qcolcnt, qcolidx, qcolnzs, rhs, obj, lbound, ubound⟩, p)

/-- `ser(fp, bo, SER)`, 153-166. -/
def Output.write (b : Output) : List Nat :=
  writeWord 1 checkChar ++ writeVec 8 b.primal ++ writeVec 8 b.dual ++ writeVec 4 b.status ++ writeWord 4 b.code ++
  writeWord 8 b.opt

/-- `ser(fp, bo, DESER)`, 153-166. -/
def Output.read (b : Output) (p : Pipe) : Option (Output × Pipe) :=
  let (s, p) := readWord 1 0 p
  if s = exitChar then none
  else
    let (primal, p) := readVec 8 b.primal p
    let (dual, p) := readVec 8 b.dual p
    let (status, p) := readVec 4 b.status p
    let (code, p) := readWord 4 b.code p
    let (opt, p) := readWord 8 b.opt p
    some (⟨primal, dual, status, code, opt⟩, p)

/-- The loop of the subprocess, bpmpd_caller.cpp 47-100, for `fuel` rounds: the bytes it writes and whether it has exited.
`solve` is the call of `bpmpd` with its result arrays. -/
def caller (solve : Input → Output) : Nat → Pipe → List Nat × Bool
  | 0, _ => ([], false)
  | fuel + 1, p =>
    match (({} : Input).read p) with
    | none => ([], true)
    | some (b, p) =>
      let r := caller solve fuel p
      ((solve b).write ++ r.1, r.2)

end Verif.BpmpdIo
