import Verif.Model.BpmpdIo
import Mathlib.Tactic.Ring
import Mathlib.Tactic.Linarith

/-!
C52: messages between `BPMPDModel` and its subprocess.
-/

set_option linter.unusedSectionVars false
set_option linter.unusedVariables false

namespace Verif.BpmpdIo

/-! ### Words -/

theorem encLE_length (k v : Nat) : (encLE k v).length = k := by
  induction k generalizing v with
  | zero => rfl
  | succ k ih => simp [encLE, ih]

theorem decLE_encLE (k v : Nat) (h : v < 256 ^ k) : decLE (encLE k v) = v := by
  induction k generalizing v with
  | zero => simp only [pow_zero, Nat.lt_one_iff] at h; rw [h]; rfl
  | succ k ih =>
    have : v / 256 < 256 ^ k := Nat.div_lt_of_lt_mul (by rw [pow_succ] at h; omega)
    simp only [encLE, decLE, ih _ this]
    exact Nat.mod_add_div v 256

theorem flatMap_length (k : Nat) (x : List Nat) : (x.flatMap (encLE k)).length = k * x.length := by
  induction x with
  | nil => simp
  | cons a x ih => simp [encLE_length, ih]; ring

theorem splitWords_flatMap (k : Nat) (x : List Nat) (h : ∀ a ∈ x, a < 256 ^ k) :
    splitWords k x.length (x.flatMap (encLE k)) = x := by
  induction x with
  | nil => rfl
  | cons a x ih =>
    simp only [List.length_cons, splitWords, List.flatMap_cons]
    rw [List.take_left' (encLE_length _ _), List.drop_left' (encLE_length _ _), decLE_encLE _ _ (h a (by simp)),
      ih fun b hb => h b (by simp [hb])]

/-! ### Whole reads -/

theorem read_whole (a old rest : List Nat) (h : old.length = a.length) :
    (⟨a ++ rest, []⟩ : Pipe).read old = (a, ⟨rest, []⟩) := by
  have hk : min old.length (a ++ rest).length = a.length := by simp [h]
  simp only [Pipe.read, hk]
  rw [List.take_left, List.drop_left, List.drop_of_length_le (by omega), List.append_nil]
  rfl

theorem readWord_write (k old x : Nat) (rest : List Nat) (h : x < 256 ^ k) :
    readWord k old ⟨writeWord k x ++ rest, []⟩ = (x, ⟨rest, []⟩) := by
  simp only [readWord, writeWord]
  rw [read_whole _ _ _ (by rw [encLE_length, encLE_length])]
  simp only [decLE_encLE k x h]

/-- Specification: the elements of a vector are words of `k` bytes and their number fits into `unsigned long`. -/
def VecOk (k : Nat) (x : List Nat) : Prop := x.length < 256 ^ 8 ∧ ∀ a ∈ x, a < 256 ^ k

theorem readVec_write (k : Nat) (old x rest : List Nat) (h : VecOk k x) :
    readVec k old ⟨writeVec k x ++ rest, []⟩ = (x, ⟨rest, []⟩) := by
  simp only [readVec, writeVec]
  rw [List.append_assoc, readWord_write 8 _ _ _ h.1]
  simp only
  have : x.flatMap (writeWord k) = x.flatMap (encLE k) := rfl
  rw [this, read_whole _ _ _ (by
    rw [flatMap_length, flatMap_length]
    congr 1
    simp only [List.length_append, List.length_take, List.length_replicate]
    omega)]
  rw [splitWords_flatMap k x h.2]

/-- Specification: all numbers of a problem are in the range of their C++ type. -/
structure InputOk (b : Input) : Prop where
  m : b.m < 256 ^ 4
  n : b.n < 256 ^ 4
  nz : b.nz < 256 ^ 4
  qn : b.qn < 256 ^ 4
  qnz : b.qnz < 256 ^ 4
  acolcnt : VecOk 4 b.acolcnt
  acolidx : VecOk 4 b.acolidx
  acolnzs : VecOk 8 b.acolnzs
  qcolcnt : VecOk 4 b.qcolcnt
  qcolidx : VecOk 4 b.qcolidx
  qcolnzs : VecOk 8 b.qcolnzs
  rhs : VecOk 8 b.rhs
  obj : VecOk 8 b.obj
  lbound : VecOk 8 b.lbound
  ubound : VecOk 8 b.ubound

/-- Specification: likewise for a solution. -/
structure OutputOk (b : Output) : Prop where
  primal : VecOk 8 b.primal
  dual : VecOk 8 b.dual
  status : VecOk 4 b.status
  code : b.code < 256 ^ 4
  opt : b.opt < 256 ^ 8

/-- C52, the part that holds: if no call of `read` returns early, a problem is read back exactly, whatever the receiving
object held before, and the bytes after it stay in the pipe.  Missing: reads that return early, see below. -/
theorem C52_input_partial (b old : Input) (rest : List Nat) (h : InputOk b) :
    old.read ⟨b.write ++ rest, []⟩ = some (b, ⟨rest, []⟩) := by
  simp only [Input.read, Input.write, List.append_assoc]
  rw [readWord_write 1 _ 122 _ (by norm_num)]
  simp only [exitChar, Nat.reduceEqDiff, if_false]
  simp only [readWord_write 4 _ _ _ h.m, readWord_write 4 _ _ _ h.n, readWord_write 4 _ _ _ h.nz,
    readWord_write 4 _ _ _ h.qn, readWord_write 4 _ _ _ h.qnz, readVec_write 4 _ _ _ h.acolcnt,
    readVec_write 4 _ _ _ h.acolidx, readVec_write 8 _ _ _ h.acolnzs, readVec_write 4 _ _ _ h.qcolcnt,
    readVec_write 4 _ _ _ h.qcolidx, readVec_write 8 _ _ _ h.qcolnzs, readVec_write 8 _ _ _ h.rhs,
    readVec_write 8 _ _ _ h.obj, readVec_write 8 _ _ _ h.lbound, readVec_write 8 _ _ _ h.ubound]

/-- C52 for solutions. -/
theorem C52_output_partial (b old : Output) (rest : List Nat) (h : OutputOk b) :
    old.read ⟨b.write ++ rest, []⟩ = some (b, ⟨rest, []⟩) := by
  simp only [Output.read, Output.write, List.append_assoc]
  rw [readWord_write 1 _ checkChar _ (by norm_num [checkChar])]
  simp only [exitChar, checkChar, Nat.reduceEqDiff, if_false]
  simp only [readVec_write 8 _ _ _ h.primal, readVec_write 8 _ _ _ h.dual, readVec_write 4 _ _ _ h.status,
    readWord_write 4 _ _ _ h.code, readWord_write 8 _ _ _ h.opt]

/-- Reading `n` solutions one after another, each into a new object. -/
def readOutputs : Nat → Pipe → Option (List Output × Pipe)
  | 0, p => some ([], p)
  | n + 1, p => do
    let (b, p) ← ({} : Output).read p
    let (bs, p) ← readOutputs n p
    some (b :: bs, p)

/-- C52, whole sessions: any number of problems followed by the exit byte are answered by exactly their solutions, which
the other side reads back one by one; then the subprocess ends. -/
theorem C52_session_partial (solve : Input → Output) (hs : ∀ b, InputOk b → OutputOk (solve b)) (bs : List Input)
    (hb : ∀ b ∈ bs, InputOk b) (junk : List Nat) (fuel : Nat) (hf : bs.length < fuel) :
    ∃ out, caller solve fuel ⟨bs.flatMap Input.write ++ exitChar :: junk, []⟩ = (out, true) ∧
      readOutputs bs.length ⟨out, []⟩ = some (bs.map solve, ⟨[], []⟩) := by
  suffices ∀ rest, ∃ out, caller solve fuel ⟨bs.flatMap Input.write ++ exitChar :: junk, []⟩ = (out, true) ∧
      readOutputs bs.length ⟨out ++ rest, []⟩ = some (bs.map solve, ⟨rest, []⟩) by
    obtain ⟨out, a, b⟩ := this []
    rw [List.append_nil] at b
    exact ⟨out, a, b⟩
  intro rest
  induction bs generalizing fuel with
  | nil =>
    obtain ⟨fuel, rfl⟩ : ∃ k, fuel = k + 1 := ⟨fuel - 1, by simp at hf; omega⟩
    refine ⟨[], ?_, rfl⟩
    have e : exitChar :: junk = writeWord 1 exitChar ++ junk := rfl
    simp only [List.flatMap_nil, List.nil_append, caller, Input.read]
    rw [e, readWord_write 1 _ _ _ (by norm_num [exitChar])]
    simp
  | cons b bs ih =>
    obtain ⟨fuel, rfl⟩ : ∃ k, fuel = k + 1 := ⟨fuel - 1, by simp at hf; omega⟩
    obtain ⟨out, a1, a2⟩ := ih (fun b' hb' => hb b' (by simp [hb'])) fuel (by simp at hf; omega)
    refine ⟨(solve b).write ++ out, ?_, ?_⟩
    · simp only [caller, List.flatMap_cons, List.append_assoc]
      rw [C52_input_partial b {} _ (hb b (by simp))]
      simp only [a1]
    · simp only [List.length_cons, readOutputs, List.append_assoc, List.map_cons]
      rw [C52_output_partial (solve b) {} _ (hs b (hb b (by simp)))]
      simp only [Option.bind_eq_bind, Option.bind_some, a2]

/-! ### Reads that return early -/

/-- C52 is violated as soon as one `read` of the elements of a vector returns early: the rest of the elements stays in the
pipe in front of everything that follows, and the elements that were cut off keep their old value. -/
theorem C52_violated_short_read (k : Nat) (x rest : List Nat) (h : VecOk k x) (l : Nat) (hl : l + 1 < k * x.length) :
    readVec k [] ⟨writeVec k x ++ rest, [7, l]⟩ =
        (splitWords k x.length ((x.flatMap (encLE k)).take (l + 1) ++ List.replicate (k * x.length - (l + 1)) 0),
          ⟨(x.flatMap (encLE k)).drop (l + 1) ++ rest, []⟩) ∧
      (x.flatMap (encLE k)).drop (l + 1) ++ rest ≠ rest := by
  have hz : ∀ j, encLE j 0 = List.replicate j 0 := by
    intro j
    induction j with
    | zero => rfl
    | succ j ih => simp [encLE, ih, List.replicate_succ]
  have hrep : ∀ n, (List.replicate n 0).flatMap (encLE k) = List.replicate (k * n) 0 := by
    intro n
    induction n with
    | zero => rfl
    | succ n ih => rw [List.replicate_succ, List.flatMap_cons, ih, hz, List.replicate_append_replicate]; congr 1; ring
  have hword : readWord 8 0 ⟨writeWord 8 x.length ++ (x.flatMap (encLE k) ++ rest), [7, l]⟩ =
      (x.length, ⟨x.flatMap (encLE k) ++ rest, [l]⟩) := by
    simp only [readWord, writeWord, Pipe.read]
    have hk : min (min (encLE 8 0).length (encLE 8 x.length ++ (x.flatMap (encLE k) ++ rest)).length) (7 + 1) = 8 := by
      simp only [List.length_append, encLE_length]; omega
    rw [hk, List.take_left' (encLE_length _ _), List.drop_left' (encLE_length _ _),
      List.drop_of_length_le (by rw [encLE_length]), List.append_nil, decLE_encLE _ _ h.1]
    rfl
  constructor
  · simp only [readVec, writeVec]
    have e : x.flatMap (writeWord k) = x.flatMap (encLE k) := rfl
    rw [e, List.append_assoc]
    simp only [List.length_nil]
    rw [hword]
    simp only [List.take_nil, List.nil_append, Nat.sub_zero, hrep, Pipe.read]
    have hlen := flatMap_length k x
    have hk : min (min (List.replicate (k * x.length) 0).length (x.flatMap (encLE k) ++ rest).length) (l + 1) = l + 1 := by
      simp only [List.length_append, List.length_replicate, hlen]; omega
    rw [hk, List.take_append_of_le_length (by omega), List.drop_append_of_le_length (by omega), List.drop_replicate]
    rfl
  · intro he
    have := congrArg List.length he
    simp only [List.length_append, List.length_drop, flatMap_length] at this
    omega

/-- C52 is violated for whole messages: the elements of `primal` arrive in two parts (a pipe holds 64 kB, a long vector
always does), and the next member is read from the middle of them. -/
theorem C52_violated_message :
    ∃ (b : Output) (limits : List Nat), OutputOk b ∧ (({} : Output).read ⟨b.write, limits⟩).map (·.1) ≠ some b ∧
      (({} : Output).read ⟨b.write, []⟩).map (·.1) = some b := by
  refine ⟨⟨[1, 2], [], [], 2, 0⟩, [0, 7, 7], ?_, by decide +kernel, by decide +kernel⟩
  constructor <;> norm_num [VecOk]

/-- A session: two problems, answered and read back. -/
example : ∃ out, caller (fun b => ⟨List.replicate b.n 7, [], [], 2, 5⟩) 3
    ⟨[({ n := 1, m := 2, rhs := [3, 2 ^ 40] } : Input), { n := 2 }].flatMap Input.write ++ [exitChar], []⟩ = (out, true) ∧
    readOutputs 2 ⟨out, []⟩ = some ([⟨[7], [], [], 2, 5⟩, ⟨[7, 7], [], [], 2, 5⟩], ⟨[], []⟩) := by
  refine C52_session_partial _ ?_ [{ n := 1, m := 2, rhs := [3, 2 ^ 40] }, { n := 2 }] ?_ [] 3 (by norm_num)
  · intro b hb
    refine ⟨⟨?_, ?_⟩, ?_, ?_, ?_, ?_⟩
    · rw [List.length_replicate]; exact lt_trans hb.n (by norm_num)
    · intro a ha; rw [(List.mem_replicate.1 ha).2]; norm_num
    all_goals norm_num [VecOk]
  · intro b hb
    simp only [List.mem_cons, List.not_mem_nil, or_false] at hb
    rcases hb with rfl | rfl <;> constructor <;> norm_num [VecOk]

/-- The hypotheses are met by a problem with all members in use. -/
example : InputOk ⟨1, 2, 2, 2, 1, [1, 1], [1, 1], [2 ^ 62, 5], [1, 0], [1], [2 ^ 63], [9], [1, 2], [0, 0, 0], [1, 1, 1]⟩ := by
  constructor <;> norm_num [VecOk]

end Verif.BpmpdIo
