import Verif.Model.BasicArray
import Mathlib.Tactic.Linarith
import Mathlib.Tactic.Ring
import Mathlib.Tactic.NormNum
import Mathlib.Tactic.Tauto

set_option linter.unusedSectionVars false
set_option linter.unusedVariables false

/-!
# C50: `BasicArray` is a row-major matrix

The specification speaks only about reading and writing cells: a matrix of `nRow` by `nCol` cells, `Holds a f`
meaning that cell `(i, j)` reads `f i j`.
-/

namespace Verif.BasicArray

variable {T : Type}

/-- Sizes agree and fit in `int`, as for every array built by the constructors or `resize`. -/
def WF (a : BArr T) : Prop := a.data.length = a.nRow * a.nCol ∧ a.nRow < 2 ^ 31 ∧ a.nCol < 2 ^ 31

/-- Specification: `a` is the `n` by `m` matrix with entries `f`. -/
def Holds (a : BArr T) (n m : Nat) (f : Nat → Nat → T) : Prop :=
  a.nRow = n ∧ a.nCol = m ∧ WF a ∧ ∀ i j, i < n → j < m → a.at i j = some (f i j)

theorem flat_nat (a : BArr T) (h : WF a) {i j : Nat} (hi : i < a.nRow) (hj : j < a.nCol) :
    flat a i j = i * a.nCol + j ∧ i * a.nCol + j < a.data.length := by
  obtain ⟨h1, h2, h3⟩ := h
  have hlt : i * a.nCol + j < a.nRow * a.nCol := by nlinarith [Nat.mul_le_mul_right a.nCol (Nat.succ_le_of_lt hi)]
  have hb : a.nRow * a.nCol < 2 ^ 64 := by
    calc a.nRow * a.nCol ≤ 2 ^ 31 * 2 ^ 31 := Nat.mul_le_mul h2.le h3.le
      _ < 2 ^ 64 := by norm_num
  refine ⟨?_, by omega⟩
  unfold flat
  have : ((i : Int) * (a.nCol : Int) + (j : Int)) = ((i * a.nCol + j : Nat) : Int) := by push_cast; ring
  rw [this, Int.emod_eq_of_lt (by positivity) (by exact_mod_cast lt_trans hlt hb)]
  exact Int.toNat_natCast _

/-- Distinct cells have distinct flat indices. -/
theorem flat_inj (m : Nat) {i j i' j' : Nat} (hj : j < m) (hj' : j' < m) (h : i * m + j = i' * m + j') :
    i = i' ∧ j = j' := by
  have hm : 0 < m := by omega
  have e1 : (i * m + j) / m = i := by rw [Nat.mul_comm, Nat.mul_add_div hm, Nat.div_eq_of_lt hj, Nat.add_zero]
  have e2 : (i' * m + j') / m = i' := by rw [Nat.mul_comm, Nat.mul_add_div hm, Nat.div_eq_of_lt hj', Nat.add_zero]
  have : i = i' := by rw [← e1, h, e2]
  subst this
  exact ⟨rfl, by omega⟩

/-- C50, cells are distinct variables: every cell in range can be read and written, a write changes that cell and no
other cell, and keeps the shape. -/
theorem C50_cells (a : BArr T) (h : WF a) {i j : Nat} (hi : i < a.nRow) (hj : j < a.nCol) :
    (∃ v, a.at i j = some v) ∧ ∀ v, ∃ b, a.set i j v = some b ∧ b.nRow = a.nRow ∧ b.nCol = a.nCol ∧ WF b ∧ b.at i j = some v ∧
      ∀ i' j', i' < a.nRow → j' < a.nCol → (i', j') ≠ (i, j) → b.at i' j' = a.at i' j' := by
  obtain ⟨e, hl⟩ := flat_nat a h hi hj
  refine ⟨⟨_, by rw [BArr.at, e, List.getElem?_eq_getElem hl]⟩, fun v => ?_⟩
  have hs : a.set i j v = some { a with data := a.data.set (i * a.nCol + j) v } := by rw [BArr.set, e, if_pos hl]
  refine ⟨_, hs, rfl, rfl, ⟨by simpa using h.1, h.2⟩, ?_, ?_⟩
  · have : flat { a with data := a.data.set (i * a.nCol + j) v } i j = i * a.nCol + j := e
    rw [BArr.at, this]
    simp [List.getElem?_set, hl]
  · intro i' j' hi' hj' hne
    obtain ⟨e', hl'⟩ := flat_nat a h hi' hj'
    have : flat { a with data := a.data.set (i * a.nCol + j) v } i' j' = i' * a.nCol + j' := e'
    rw [BArr.at, this, BArr.at, e']
    simp only [List.getElem?_set]
    rw [if_neg]
    intro hc
    obtain ⟨rfl, rfl⟩ := flat_inj _ hj hj' hc
    exact hne rfl

theorem holds_self (a : BArr T) (h : WF a) (d : T) : Holds a a.nRow a.nCol fun i j => (a.at i j).getD d := by
  refine ⟨rfl, rfl, h, fun i j hi hj => ?_⟩
  obtain ⟨v, hv⟩ := (C50_cells a h hi hj).1
  simp [hv]

theorem mem_cells (n m : Nat) (c : Nat × Nat) : c ∈ cells n m ↔ c.1 < n ∧ c.2 < m := by
  obtain ⟨i, j⟩ := c
  simp only [cells, List.mem_flatMap, List.mem_range, List.mem_map, Prod.mk.injEq]
  constructor
  · rintro ⟨i', hi, j', hj, rfl, rfl⟩; exact ⟨hi, hj⟩
  · rintro ⟨hi, hj⟩; exact ⟨i, hi, j, hj, rfl, rfl⟩

theorem resize_empty_wf (d : T) (n m : Nat) (hn : n < 2 ^ 31) (hm : m < 2 ^ 31) :
    (BArr.resize d BArr.empty n m).nRow = n ∧ (BArr.resize d BArr.empty n m).nCol = m ∧
      WF (BArr.resize d BArr.empty n m) := by
  refine ⟨rfl, rfl, ?_, hn, hm⟩
  simp [BArr.resize, BArr.empty]

/-- The copy loop, writing each cell to its own place. -/
theorem copy_spec (a : BArr T) (r : Nat × Nat → Int × Int) (f : Nat → Nat → T) (l : List (Nat × Nat)) :
    ∀ (out : BArr T), WF out → (∀ c ∈ l, c.1 < out.nRow ∧ c.2 < out.nCol ∧ a.at (r c).1 (r c).2 = some (f c.1 c.2)) →
      ∃ b, copy a (fun c => (c.1, c.2)) r l out = some b ∧ b.nRow = out.nRow ∧ b.nCol = out.nCol ∧ WF b ∧
        ∀ i j, i < out.nRow → j < out.nCol →
          ((i, j) ∈ l → b.at i j = some (f i j)) ∧ ((i, j) ∉ l → b.at i j = out.at i j) := by
  induction l with
  | nil => intro out hw _; exact ⟨out, rfl, rfl, rfl, hw, fun i j _ _ => ⟨by simp, fun _ => rfl⟩⟩
  | cons c l ih =>
    intro out hw hc
    obtain ⟨h1, h2, h3⟩ := hc c (by simp)
    obtain ⟨o, ho, e1, e2, hwo, hset, hother⟩ := (C50_cells out hw h1 h2).2 (f c.1 c.2)
    obtain ⟨b, hb, f1, f2, hwb, hspec⟩ := ih o hwo (fun c' hc' => by rw [e1, e2]; exact hc c' (by simp [hc']))
    refine ⟨b, ?_, f1.trans e1, f2.trans e2, hwb, fun i j hi hj => ?_⟩
    · rw [copy, List.foldlM_cons, h3]
      simp only [Option.bind_eq_bind, Option.bind_some, ho]
      exact hb
    · obtain ⟨g1, g2⟩ := hspec i j (e1 ▸ hi) (e2 ▸ hj)
      by_cases hm : (i, j) ∈ l
      · exact ⟨fun _ => g1 hm, fun hn => absurd (List.mem_cons_of_mem _ hm) hn⟩
      · rw [g2 hm]
        by_cases hcc : (i, j) = c
        · subst hcc
          exact ⟨fun _ => hset, fun hn => absurd List.mem_cons_self hn⟩
        · exact ⟨fun h => by rcases List.mem_cons.1 h with h | h <;> contradiction, fun _ => hother i j hi hj hcc⟩

/-- C50, `block`: exactly the named sub-block, for every block inside the matrix. -/
theorem C50_block (d : T) (a : BArr T) (n m : Nat) (f : Nat → Nat → T) (h : Holds a n m f) (r c k l : Nat)
    (hr : r + k ≤ n) (hc : c + l ≤ m) :
    ∃ b, a.block d r c k l = some b ∧ Holds b k l fun i j => f (r + i) (c + j) := by
  obtain ⟨rfl, rfl, hw, hf⟩ := h
  obtain ⟨e1, e2, hwo⟩ := resize_empty_wf d k l (by have := hw.2.1; omega) (by have := hw.2.2; omega)
  obtain ⟨b, hb, f1, f2, hwb, hs⟩ := copy_spec a (fun x => (x.1 + (r : Int), x.2 + (c : Int))) (fun i j => f (r + i) (c + j)) (cells k l)
    _ hwo (by
      intro x hx
      obtain ⟨h1, h2⟩ := (mem_cells k l x).1 hx
      refine ⟨e1 ▸ h1, e2 ▸ h2, ?_⟩
      have := hf (r + x.1) (c + x.2) (by omega) (by omega)
      push_cast at this
      simpa [add_comm] using this)
  refine ⟨b, hb, f1, f2, hwb, fun i j hi hj => ?_⟩
  exact (hs i j hi hj).1 ((mem_cells k l (i, j)).2 ⟨hi, hj⟩)

theorem mapM_range (n : Nat) (g : Nat → Option T) (f : Nat → T) (h : ∀ i, i < n → g i = some (f i)) :
    (List.range n).mapM g = some ((List.range n).map f) := by
  have : ∀ l : List Nat, (∀ i ∈ l, i < n) → l.mapM g = some (l.map f) := by
    intro l
    induction l with
    | nil => intro _; rfl
    | cons x l ih =>
      intro hl
      rw [List.mapM_cons, h x (hl x (by simp)), ih (fun i hi => hl i (by simp [hi]))]
      rfl
  exact this _ fun i hi => List.mem_range.1 hi

/-- C50, `rblock` and `cblock`, `row` and `col`: exactly the named row or column parts. -/
theorem C50_lines (a : BArr T) (n m : Nat) (f : Nat → Nat → T) (h : Holds a n m f) :
    (∀ r c k, r < n → c + k ≤ m → a.rblock r c k = some ((List.range k).map fun j => f r (c + j))) ∧
    (∀ r c k, r + k ≤ n → c < m → a.cblock r c k = some ((List.range k).map fun i => f (r + i) c)) ∧
    (∀ r : Nat, r < n → a.row r = some ((List.range m).map fun j => f r j)) ∧
    (∀ c : Nat, c < m → a.col c = some ((List.range n).map fun i => f i c)) := by
  obtain ⟨rfl, rfl, hw, hf⟩ := h
  refine ⟨fun r c k hr hc => mapM_range k _ _ fun j hj => ?_, fun r c k hr hc => mapM_range k _ _ fun i hi => ?_,
    fun r hr => mapM_range _ _ _ fun j hj => hf r j hr hj, fun c hc => mapM_range _ _ _ fun i hi => hf i c hi hc⟩
  · have := hf r (c + j) hr (by omega)
    push_cast at this
    rwa [add_comm] at this
  · have := hf (r + i) c (by omega) hc
    push_cast at this
    rwa [add_comm (r : Int)] at this

/-- C50, `topRows` (and `middleRows` from row 0): exactly the first rows. -/
theorem C50_topRows (d : T) (a : BArr T) (n m : Nat) (f : Nat → Nat → T) (h : Holds a n m f) (k : Nat) (hk : k ≤ n) :
    ∃ b, a.topRows d k = some b ∧ Holds b k m f := by
  obtain ⟨b, hb, hh⟩ := C50_block d a n m f h 0 0 k m (by omega) (by omega)
  refine ⟨b, ?_, by simpa using hh⟩
  rw [← hb, BArr.topRows, BArr.middleRows, BArr.block, h.2.1]
  simp

/-- C50, `bottomRows` of the whole matrix, the only case in which it works. -/
theorem C50_bottomRows_partial (d : T) (a : BArr T) (n m : Nat) (f : Nat → Nat → T) (h : Holds a n m f) :
    ∃ b, a.bottomRows d n = some b ∧ Holds b n m f := by
  obtain ⟨b, hb, hh⟩ := C50_topRows d a n m f h n le_rfl
  refine ⟨b, ?_, hh⟩
  rw [BArr.bottomRows, h.1, sub_self]; exact hb

theorem foldlM_none {α β : Type} (g : β → α → Option β) (P : β → Prop) (l : List α) (x : α) (hx : x ∈ l)
    (hP : ∀ b c b', P b → g b c = some b' → P b') (hn : ∀ b, P b → g b x = none) :
    ∀ b, P b → l.foldlM g b = none := by
  induction l with
  | nil => simp at hx
  | cons y l ih =>
    intro b hb
    rw [List.foldlM_cons]
    by_cases hxy : x = y
    · subst hxy; simp [hn b hb]
    · cases hg : g b y with
      | none => rfl
      | some b' => exact ih (by simpa [hxy] using hx) b' (hP b y b' hb hg)

/-- C50 is violated by `middleRows`: for every matrix with at least one column and every non-empty range that does not
start at row 0 it throws instead of returning the rows. -/
theorem C50_violated_middleRows (d : T) (a : BArr T) (h : WF a) (hc : 0 < a.nCol) (start n : Nat) (hs : 0 < start)
    (hn : 0 < n) (hin : start + n ≤ a.nRow) : a.middleRows d start n = none := by
  obtain ⟨hl, hr, hcc⟩ := h
  unfold BArr.middleRows copy
  apply foldlM_none _ (fun b : BArr T => b.nCol = a.nCol ∧ b.data.length = n * a.nCol) _ (n - 1, 0)
    ((mem_cells n a.nCol _).2 ⟨by simp; omega, hc⟩)
  · rintro b c b' ⟨h1, h2⟩ hg
    simp only [Option.bind_eq_bind] at hg
    obtain ⟨v, hv, hg⟩ := Option.bind_eq_some_iff.1 hg
    simp only [BArr.set] at hg
    split at hg
    · injection hg with hg; subst hg; exact ⟨h1, by simpa using h2⟩
    · exact absurd hg (by simp)
  · rintro b ⟨h1, h2⟩
    simp only [Option.bind_eq_bind]
    cases a.at ((start : Int) + ((n - 1 : Nat) : Int)) ((0 : Nat) : Int) with
    | none => rfl
    | some v =>
      simp only [Option.bind_some, BArr.set]
      rw [if_neg]
      have hlt : (start + (n - 1)) * a.nCol < 2 ^ 64 := by
        calc (start + (n - 1)) * a.nCol ≤ 2 ^ 31 * 2 ^ 31 := Nat.mul_le_mul (by omega) hcc.le
          _ < 2 ^ 64 := by norm_num
      have : flat b ((start : Int) + ((n - 1 : Nat) : Int)) ((0 : Nat) : Int) = (start + (n - 1)) * a.nCol := by
        unfold flat
        rw [h1]
        have e : ((start : Int) + ((n - 1 : Nat) : Int)) * (a.nCol : Int) + ((0 : Nat) : Int) =
            (((start + (n - 1)) * a.nCol : Nat) : Int) := by push_cast; ring
        rw [e, Int.emod_eq_of_lt (by positivity) (by exact_mod_cast hlt)]
        exact Int.toNat_natCast _
      rw [this, h2, not_lt]
      exact Nat.mul_le_mul_right _ (by omega)
  · exact ⟨rfl, by simp [BArr.resize, BArr.empty]⟩

/-- C50 is violated by `bottomRows`: it throws for every proper non-empty part. -/
theorem C50_violated_bottomRows (d : T) (a : BArr T) (h : WF a) (hc : 0 < a.nCol) (n : Nat) (hn : 0 < n)
    (hlt : n < a.nRow) : a.bottomRows d n = none := by
  have := C50_violated_middleRows d a h hc (a.nRow - n) n (by omega) hn (by omega)
  rw [BArr.bottomRows]
  rwa [Nat.cast_sub hlt.le] at this

/-- Exactly which accesses are reported (`int` arguments): those whose row-major position is outside the data. -/
theorem C50_reported_exactly_partial (a : BArr T) (h : WF a) (r c : Int) (hr : -2 ^ 31 ≤ r ∧ r < 2 ^ 31)
    (hc : -2 ^ 31 ≤ c ∧ c < 2 ^ 31) :
    a.at r c = none ↔ r * a.nCol + c < 0 ∨ (a.nRow * a.nCol : Int) ≤ r * a.nCol + c := by
  obtain ⟨hl, h2, h3⟩ := h
  have hc1 : (a.nCol : Int) < 2 ^ 31 := by exact_mod_cast h3
  have hc0 : (0 : Int) ≤ a.nCol := by positivity
  have hsz : ((a.nRow * a.nCol : Nat) : Int) ≤ 2 ^ 31 * 2 ^ 31 := by
    exact_mod_cast Nat.mul_le_mul h2.le h3.le
  have b1 : -2 ^ 62 ≤ r * a.nCol := by nlinarith
  have b2 : r * a.nCol ≤ 2 ^ 62 := by nlinarith
  rw [BArr.at, List.getElem?_eq_none_iff, hl, flat]
  push_cast at hsz
  rw [Int.le_toNat (Int.emod_nonneg _ (by norm_num)), Nat.cast_mul]
  by_cases hn : r * a.nCol + c < 0
  · have : (r * a.nCol + c) % 2 ^ 64 = r * a.nCol + c + 2 ^ 64 := by
      rw [← Int.add_emod_right, Int.emod_eq_of_lt (by omega) (by omega)]
    rw [this]
    constructor
    · intro _; exact Or.inl hn
    · intro _; omega
  · rw [Int.emod_eq_of_lt (by omega) (by omega)]
    constructor
    · intro h; exact Or.inr h
    · rintro (h | h)
      · exact absurd h hn
      · exact h

/-- C50, reporting of bad rows: a row outside the matrix (any `int`) with a column inside it throws. -/
theorem C50_row_reported_partial (a : BArr T) (h : WF a) (r : Int) (j : Nat) (hj : j < a.nCol)
    (hr : r < 0 ∨ (a.nRow : Int) ≤ r) (hint : -2 ^ 31 ≤ r ∧ r < 2 ^ 31) : a.at r j = none := by
  have hc1 : a.nCol < 2 ^ 31 := h.2.2
  have hj' : (j : Int) < a.nCol := by exact_mod_cast hj
  have hj0 : (0 : Int) ≤ j := by positivity
  rw [C50_reported_exactly_partial a h r j hint (by omega)]
  rcases hr with hr | hr
  · left; nlinarith
  · right; nlinarith

/-- C50 is violated for columns: a column past the end is not reported, it silently reads the next row. -/
theorem C50_violated_column (a : BArr T) (i j : Nat) : a.at i ((a.nCol : Int) + j) = a.at (i + 1) j := by
  unfold BArr.at flat
  congr 3
  ring

/-- C50 is violated for negative columns: column -1 reads the last column of the row before. -/
theorem C50_violated_negative_column (a : BArr T) (i : Nat) : a.at (i + 1) (-1) = a.at i ((a.nCol : Int) - 1) := by
  unfold BArr.at flat
  congr 3
  ring

/-- A 3 by 2 matrix. -/
def exampleArr : BArr Nat := ⟨3, 2, [10, 11, 20, 21, 30, 31]⟩

/-- non-vacuity: the example is a well formed matrix, so `Holds` is inhabited and the theorems apply. -/
example : WF exampleArr ∧ Holds exampleArr 3 2 (fun i j => (exampleArr.at i j).getD 0) ∧
    exampleArr.middleRows 0 1 2 = none ∧ exampleArr.at 0 2 = some 20 := by
  have hw : WF exampleArr := by unfold WF exampleArr; simp
  exact ⟨hw, holds_self _ hw 0, C50_violated_middleRows 0 _ hw (by decide) 1 2 (by decide) (by decide) (by decide), by decide +kernel⟩

end Verif.BasicArray
