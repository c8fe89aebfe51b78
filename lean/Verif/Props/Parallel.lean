import Verif.Model.Parallel
import Verif.Props.Convex
import Mathlib.Algebra.BigOperators.Group.Finset.Basic
import Mathlib.Algebra.BigOperators.Ring.Finset
import Mathlib.Algebra.Order.BigOperators.Group.Finset
import Mathlib.Data.List.Nodup
import Mathlib.Tactic.Ring
import Mathlib.Tactic.Linarith

/-!
C128, C129: evaluation and convexification in parallel, for every schedule.
-/

set_option linter.unusedSectionVars false
set_option linter.unusedVariables false

namespace Verif.Parallel

variable {α : Type}

/-! ### Specification -/

/-- Specification: thread `i` has made all its calls. -/
def Finished (s : St α) : Prop := ∀ i, (s.thr i).todo = []

/-- Specification: the calls of all threads had the effect of calls made one after the other, in some order: every call got a variable of its
own with the bounds asked for, there are no other new variables, and the bounds of the old variables are unchanged. -/
structure Linearised (lbs ubs : Vec α) (n : Nat) (prog : Nat → List (Req α)) (s : St α) : Prop where
  calls : ∀ i, (s.thr i).done.map Prod.fst = prog i
  bounds : ∀ i r v, (r, v) ∈ (s.thr i).done → s.lbs.get v = r.lo ∧ s.ubs.get v = r.hi
  fresh : ∀ i r v, (r, v) ∈ (s.thr i).done → n ≤ v ∧ v < s.nvars
  own : ∀ i, ((s.thr i).done.map Prod.snd).Nodup
  apart : ∀ i j, i ≠ j → ∀ r v r' v', (r, v) ∈ (s.thr i).done → (r', v') ∈ (s.thr j).done → v ≠ v'
  all : ∀ v, n ≤ v → v < s.nvars → ∃ i r, (r, v) ∈ (s.thr i).done
  sizes : s.lbs.size = s.nvars ∧ s.ubs.size = s.nvars
  old : ∀ v, v < n → s.lbs.get v = lbs.get v ∧ s.ubs.get v = ubs.get v
  free : s.owner = none

/-- The vectors as they are between two convexifications: one element per variable, in memory that is not freed. -/
def Vec.Ready (v : Vec α) (n : Nat) : Prop := v.size = n ∧ v.live v.buf = true ∧ v.buf < v.next

/-! ### Invariant -/

def Pc.inLock : Pc → Bool
  | .locked => true
  | .pushLb _ => true
  | .swapLb _ _ => true
  | .pushUb _ => true
  | .swapUb _ _ => true
  | .unlock _ => true
  | _ => false

def Pc.cur : Pc → List Nat
  | .start => []
  | .locked => []
  | .pushLb v => [v]
  | .swapLb v _ => [v]
  | .pushUb v => [v]
  | .swapUb v _ => [v]
  | .unlock v => [v]
  | .loadLb v => [v]
  | .storeLb v _ => [v]
  | .loadUb v => [v]
  | .storeUb v _ => [v]

def Thread.assigned (t : Thread α) : List Nat := t.done.map Prod.snd ++ t.pc.cur
def Thread.pend (t : Thread α) : Nat := t.todo.length - t.pc.cur.length

def SizeOk (solo : Prop) (s : St α) : Pc → Prop
  | .locked => s.lbs.size = s.nvars ∧ s.ubs.size = s.nvars
  | .pushLb v => v + 1 = s.nvars ∧ s.lbs.size = v ∧ s.ubs.size = v
  | .swapLb v b => v + 1 = s.nvars ∧ s.lbs.size = v ∧ s.ubs.size = v ∧ solo ∧ s.lbs.live b = true ∧ b ≠ s.lbs.buf ∧ b < s.lbs.next ∧
      ∀ k, k < v → s.lbs.block b k = s.lbs.get k
  | .pushUb v => v + 1 = s.nvars ∧ s.lbs.size = v + 1 ∧ s.ubs.size = v
  | .swapUb v b => v + 1 = s.nvars ∧ s.lbs.size = v + 1 ∧ s.ubs.size = v ∧ solo ∧ s.ubs.live b = true ∧ b ≠ s.ubs.buf ∧ b < s.ubs.next ∧
      ∀ k, k < v → s.ubs.block b k = s.ubs.get k
  | .unlock v => v + 1 = s.nvars ∧ s.lbs.size = v + 1 ∧ s.ubs.size = v + 1
  | _ => True

def PcCell (s : St α) (r : Req α) : Pc → Prop
  | .storeLb v b => b = s.lbs.buf
  | .loadUb v => s.lbs.get v = r.lo
  | .storeUb v b => s.lbs.get v = r.lo ∧ b = s.ubs.buf
  | _ => True

structure CellOk (s : St α) (t : Thread α) : Prop where
  made : ∀ r v, (r, v) ∈ t.done → s.lbs.get v = r.lo ∧ s.ubs.get v = r.hi
  now : ∀ r rest, t.todo = r :: rest → PcCell s r t.pc

structure Inv (lb0 ub0 : Nat → α) (n0 n : Nat) (prog : Nat → List (Req α)) (s : St α) : Prop where
  idle : ∀ i, (s.thr i).todo = [] → (s.thr i).pc = .start
  hist : ∀ i, prog i = (s.thr i).done.map Prod.fst ++ (s.thr i).todo
  own : ∀ i, s.owner = some i ↔ (s.thr i).pc.inLock = true
  size : s.owner = none → s.lbs.size = s.nvars ∧ s.ubs.size = s.nvars
  sizes : ∀ i, SizeOk (∀ j, j ≠ 0 → prog j = []) s (s.thr i).pc
  live : s.lbs.live s.lbs.buf = true ∧ s.ubs.live s.ubs.buf = true ∧ s.lbs.buf < s.lbs.next ∧ s.ubs.buf < s.ubs.next
  cells : ∀ i, CellOk s (s.thr i)
  range : ∀ i v, v ∈ (s.thr i).assigned → n0 ≤ v ∧ v < s.nvars
  nodup : ∀ i, (s.thr i).assigned.Nodup
  disj : ∀ i j, i ≠ j → ∀ v, v ∈ (s.thr i).assigned → v ∉ (s.thr j).assigned
  cover : ∀ v, n0 ≤ v → v < s.nvars → ∃ i, v ∈ (s.thr i).assigned
  old : ∀ v, v < n0 → s.lbs.get v = lb0 v ∧ s.ubs.get v = ub0 v
  low : n0 ≤ s.nvars
  count : s.nvars + ∑ i ∈ Finset.range n, (s.thr i).pend = n0 + ∑ i ∈ Finset.range n, (prog i).length
  room : (n0 + ∑ i ∈ Finset.range n, (prog i).length ≤ s.lbs.cap ∧ n0 + ∑ i ∈ Finset.range n, (prog i).length ≤ s.ubs.cap) ∨
    ∀ j, j ≠ 0 → prog j = []

theorem begin_inv (lbs ubs : Vec α) (n0 n : Nat) (prog : Nat → List (Req α)) (hl : lbs.Ready n0) (hu : ubs.Ready n0)
    (hroom : (n0 + ∑ i ∈ Finset.range n, (prog i).length ≤ lbs.cap ∧ n0 + ∑ i ∈ Finset.range n, (prog i).length ≤ ubs.cap) ∨
      ∀ j, j ≠ 0 → prog j = []) : Inv lbs.get ubs.get n0 n prog (begin lbs ubs n0 prog) where
  idle _ _ := rfl
  hist _ := rfl
  own i := by simp [begin, Pc.inLock]
  size _ := ⟨hl.1, hu.1⟩
  sizes _ := trivial
  live := ⟨hl.2.1, hu.2.1, hl.2.2, hu.2.2⟩
  cells _ := ⟨fun _ _ h => by simp [begin] at h, fun _ _ _ => trivial⟩
  range _ _ h := by simp [begin, Thread.assigned, Pc.cur] at h
  nodup _ := by simp [begin, Thread.assigned, Pc.cur]
  disj _ _ _ _ h := by simp [begin, Thread.assigned, Pc.cur] at h
  cover v h1 h2 := by simp [begin] at h2; omega
  old _ _ := ⟨rfl, rfl⟩
  low := le_rfl
  count := by simp [begin, Thread.pend, Pc.cur]
  room := hroom

/-- Threads that see the same bounds of their own variables in the same blocks are as well off as before. -/
theorem CellOk.frame {s s' : St α} {t : Thread α} (h : CellOk s t)
    (hl : ∀ v ∈ t.assigned, s'.lbs.get v = s.lbs.get v) (hu : ∀ v ∈ t.assigned, s'.ubs.get v = s.ubs.get v)
    (hb : s'.lbs.buf = s.lbs.buf ∧ s'.ubs.buf = s.ubs.buf ∨ t.todo = []) : CellOk s' t := by
  refine ⟨fun r v hm => ?_, fun r rest ht => ?_⟩
  · have hv : v ∈ t.assigned := List.mem_append_left _ (List.mem_map_of_mem (f := Prod.snd) hm)
    rw [hl v hv, hu v hv]
    exact h.made r v hm
  · obtain ⟨hb1, hb2⟩ := hb.resolve_right (by rw [ht]; simp)
    have hn := h.now r rest ht
    have hc : ∀ v ∈ t.pc.cur, s'.lbs.get v = s.lbs.get v := fun v hv => hl v (List.mem_append_right _ hv)
    cases hp : t.pc with
    | storeLb v b => rw [hp] at hn; simp only [PcCell] at hn ⊢; rw [hb1]; exact hn
    | loadUb v => rw [hp] at hn hc; simp only [PcCell] at hn ⊢; rw [hc v (by simp [Pc.cur])]; exact hn
    | storeUb v b =>
      rw [hp] at hn hc; simp only [PcCell] at hn ⊢; rw [hc v (by simp [Pc.cur]), hb2]; exact hn
    | _ => trivial

/-- What all steps but the creation of the variable have in common. -/
theorem Inv.keep {lb0 ub0 : Nat → α} {n0 n : Nat} {prog : Nat → List (Req α)} {s : St α} (h : Inv lb0 ub0 n0 n prog s) (s' : St α)
    (i : Nat) (t' : Thread α) (hthr : s'.thr = fun j => if j = i then t' else s.thr j) (hn : s'.nvars = s.nvars)
    (hasg : t'.assigned = (s.thr i).assigned) (hpend : t'.pend = (s.thr i).pend) (hidle : t'.todo = [] → t'.pc = .start)
    (hhist : prog i = t'.done.map Prod.fst ++ t'.todo)
    (hown : ∀ j, s'.owner = some j ↔ (s'.thr j).pc.inLock = true)
    (hsize : s'.owner = none → s'.lbs.size = s'.nvars ∧ s'.ubs.size = s'.nvars)
    (hsz : SizeOk (∀ j, j ≠ 0 → prog j = []) s' t'.pc)
    (hlive : s'.lbs.live s'.lbs.buf = true ∧ s'.ubs.live s'.ubs.buf = true ∧ s'.lbs.buf < s'.lbs.next ∧ s'.ubs.buf < s'.ubs.next)
    (hcell : CellOk s' t')
    (hl : ∀ v, v < s.nvars → v ∉ (s.thr i).pc.cur → s'.lbs.get v = s.lbs.get v)
    (hu : ∀ v, v < s.nvars → v ∉ (s.thr i).pc.cur → s'.ubs.get v = s.ubs.get v)
    (hb : s'.lbs.buf = s.lbs.buf ∧ s'.ubs.buf = s.ubs.buf ∨ ∀ j, j ≠ 0 → prog j = []) (hi : (s.thr i).todo ≠ [])
    (hsame : s.owner = some i ∨ s'.lbs.size = s.lbs.size ∧ s'.ubs.size = s.ubs.size)
    (hroom : s'.lbs.cap = s.lbs.cap ∧ s'.ubs.cap = s.ubs.cap ∨ ∀ j, j ≠ 0 → prog j = []) : Inv lb0 ub0 n0 n prog s' := by
  have hself : s'.thr i = t' := by rw [hthr]; simp
  have hoth : ∀ j, j ≠ i → s'.thr j = s.thr j := fun j hj => by rw [hthr]; simp [hj]
  have hall : ∀ j, (s'.thr j).assigned = (s.thr j).assigned := by
    intro j
    by_cases hj : j = i
    · subst hj; rw [hself, hasg]
    · rw [hoth j hj]
  have hcur : ∀ v ∈ (s.thr i).pc.cur, v ∈ (s.thr i).assigned := fun v hv => List.mem_append_right _ hv
  refine ⟨fun j => ?_, fun j => ?_, hown, hsize, fun j => ?_, hlive, fun j => ?_, fun j v => ?_, fun j => ?_, fun j k hjk v => ?_,
    fun v h1 h2 => ?_, fun v hv => ?_, hn ▸ h.low, ?_, ?_⟩
  · by_cases hj : j = i
    · subst hj; rw [hself]; exact hidle
    · rw [hoth j hj]; exact h.idle j
  · by_cases hj : j = i
    · subst hj; rw [hself]; exact hhist
    · rw [hoth j hj]; exact h.hist j
  · by_cases hj : j = i
    · subst hj; rw [hself]; exact hsz
    · rw [hoth j hj]
      by_cases hlk : (s.thr j).pc.inLock = true
      · have howj := (h.own j).2 hlk
        obtain ⟨z1, z2⟩ := hsame.resolve_left (fun hoi => hj (by rw [howj] at hoi; exact Option.some.inj hoi))
        have hsj := h.sizes j
        have hsolo : (∀ k, k ≠ 0 → prog k = []) → False := by
          intro hs
          have hji : j = 0 := by
            by_contra hne
            have hp := h.hist j
            rw [hs j hne] at hp
            have : (s.thr j).todo = [] := by
              have := congrArg List.length hp
              simp at this
              exact List.eq_nil_of_length_eq_zero (by omega)
            have := h.idle j this
            rw [this] at hlk
            simp [Pc.inLock] at hlk
          have hi0 : i ≠ 0 := fun h0 => hj (by rw [hji, h0])
          have hp := h.hist i
          rw [hs i hi0] at hp
          have := congrArg List.length hp
          simp at this
          exact hi (List.eq_nil_of_length_eq_zero (by omega))
        cases hp : (s.thr j).pc <;> rw [hp] at hsj <;> simp only [SizeOk] at hsj ⊢ <;> rw [hn, z1, z2] <;> first
          | exact hsj
          | exact (hsolo hsj.2.2.2.1).elim
      · cases hp : (s.thr j).pc <;> rw [hp] at hlk <;> first
          | trivial
          | (simp [Pc.inLock] at hlk)
  · by_cases hj : j = i
    · subst hj; rw [hself]; exact hcell
    · rw [hoth j hj]
      have hne : ∀ v ∈ (s.thr j).assigned, v < s.nvars ∧ v ∉ (s.thr i).pc.cur := fun v hv =>
        ⟨(h.range j v hv).2, fun hc => h.disj j i hj v hv (hcur v hc)⟩
      refine (h.cells j).frame (fun v hv => hl v (hne v hv).1 (hne v hv).2) (fun v hv => hu v (hne v hv).1 (hne v hv).2) ?_
      rcases hb with hb | hs
      · exact Or.inl hb
      · right
        by_cases hj0 : j = 0
        · have hi0 : i ≠ 0 := fun h0 => hj (by rw [hj0, h0])
          have hp := h.hist i
          rw [hs i hi0] at hp
          have := congrArg List.length hp
          simp at this
          exact absurd (List.eq_nil_of_length_eq_zero (by omega)) hi
        · have hp := h.hist j
          rw [hs j hj0] at hp
          have := congrArg List.length hp
          simp at this
          exact List.eq_nil_of_length_eq_zero (by omega)
  · rw [hall j, hn]; exact h.range j v
  · rw [hall j]; exact h.nodup j
  · rw [hall j, hall k]; exact h.disj j k hjk v
  · rw [hn] at h2
    obtain ⟨j, hj⟩ := h.cover v h1 h2
    exact ⟨j, by rw [hall j]; exact hj⟩
  · have hlow := h.low
    have hnc : v ∉ (s.thr i).pc.cur := fun hc => absurd (h.range i v (hcur v hc)).1 (by omega)
    rw [hl v (by omega) hnc, hu v (by omega) hnc]
    exact h.old v hv
  · rw [hn, ← h.count]
    congr 1
    refine Finset.sum_congr rfl fun j _ => ?_
    by_cases hj : j = i
    · subst hj; rw [hself, hpend]
    · rw [hoth j hj]
  · rcases hroom with ⟨c1, c2⟩ | hs
    · rw [c1, c2]; exact h.room
    · exact Or.inr hs

theorem own_same {s : St α} {i : Nat} {t' : Thread α} (h : ∀ j, s.owner = some j ↔ (s.thr j).pc.inLock = true)
    (hl : t'.pc.inLock = (s.thr i).pc.inLock) (j : Nat) : s.owner = some j ↔ (if j = i then t' else s.thr j).pc.inLock = true := by
  by_cases hj : j = i
  · subst hj; rw [if_pos rfl, hl]; exact h j
  · rw [if_neg hj]; exact h j

theorem get_append (v : Vec α) (a : α) (k : Nat) : (v.append a).get k = if k = v.size then a else v.get k := by
  simp [Vec.append, Vec.store, Vec.get]

theorem get_alloc (v : Vec α) (a : α) (k : Nat) (h : v.buf < v.next) : (v.alloc a).get k = v.get k := by
  have : v.buf ≠ v.next := by omega
  simp [Vec.alloc, Vec.get, this]

theorem get_store (v : Vec α) (k k' : Nat) (a : α) : (v.store v.buf k a).get k' = if k' = k then a else v.get k' := by
  simp [Vec.store, Vec.get]

/-- The same for a step inside a call. -/
theorem Inv.move {lb0 ub0 : Nat → α} {n0 n : Nat} {prog : Nat → List (Req α)} {s : St α} (h : Inv lb0 ub0 n0 n prog s)
    {i : Nat} {r : Req α} {rest : List (Req α)} (htd : (s.thr i).todo = r :: rest) (s' : St α) (pc' : Pc)
    (hthr : s'.thr = fun j => if j = i then ⟨r :: rest, pc', (s.thr i).done⟩ else s.thr j) (hn : s'.nvars = s.nvars)
    (hcur : pc'.cur = (s.thr i).pc.cur)
    (hown : ∀ j, s'.owner = some j ↔ (s'.thr j).pc.inLock = true)
    (hsize : s'.owner = none → s'.lbs.size = s'.nvars ∧ s'.ubs.size = s'.nvars)
    (hsz : SizeOk (∀ j, j ≠ 0 → prog j = []) s' pc')
    (hlive : s'.lbs.live s'.lbs.buf = true ∧ s'.ubs.live s'.ubs.buf = true ∧ s'.lbs.buf < s'.lbs.next ∧ s'.ubs.buf < s'.ubs.next)
    (hnow : PcCell s' r pc')
    (hl : ∀ v, v < s.nvars → v ∉ (s.thr i).pc.cur → s'.lbs.get v = s.lbs.get v)
    (hu : ∀ v, v < s.nvars → v ∉ (s.thr i).pc.cur → s'.ubs.get v = s.ubs.get v)
    (hb : s'.lbs.buf = s.lbs.buf ∧ s'.ubs.buf = s.ubs.buf ∨ ∀ j, j ≠ 0 → prog j = [])
    (hsame : s.owner = some i ∨ s'.lbs.size = s.lbs.size ∧ s'.ubs.size = s.ubs.size)
    (hroom : s'.lbs.cap = s.lbs.cap ∧ s'.ubs.cap = s.ubs.cap ∨ ∀ j, j ≠ 0 → prog j = []) : Inv lb0 ub0 n0 n prog s' := by
  have hi : (s.thr i).todo ≠ [] := by rw [htd]; simp
  refine h.keep s' i _ hthr hn ?_ ?_ ?_ ?_ hown hsize hsz hlive ?_ hl hu hb hi hsame hroom
  · simp [Thread.assigned, hcur]
  · simp [Thread.pend, hcur, htd]
  · intro h'; simp at h'
  · have := h.hist i; rw [htd] at this; exact this
  · refine ⟨fun r' v hm => ?_, fun r' rest' he => ?_⟩
    · have hv : v ∈ (s.thr i).assigned := List.mem_append_left _ (List.mem_map_of_mem (f := Prod.snd) hm)
      have hne : v ∉ (s.thr i).pc.cur := by
        intro hc
        have := h.nodup i
        rw [Thread.assigned, List.nodup_append] at this
        exact this.2.2 _ (List.mem_map_of_mem (f := Prod.snd) hm) _ hc rfl
      rw [hl v (h.range i v hv).2 hne, hu v (h.range i v hv).2 hne]
      exact (h.cells i).made r' v hm
    · injection he with h1 h2; subst h1; exact hnow

/-- The step that creates the variable. -/
theorem Inv.create {lb0 ub0 : Nat → α} {n0 n : Nat} {prog : Nat → List (Req α)} {s : St α} (h : Inv lb0 ub0 n0 n prog s)
    (hfin : ∀ i, n ≤ i → prog i = [])
    {i : Nat} {r : Req α} {rest : List (Req α)} (htd : (s.thr i).todo = r :: rest) (hpc : (s.thr i).pc = .locked) :
    Inv lb0 ub0 n0 n prog ({ s with nvars := s.nvars + 1 }.set i ⟨r :: rest, .pushLb s.nvars, (s.thr i).done⟩) := by
  have hoi : s.owner = some i := (h.own i).2 (by rw [hpc]; rfl)
  have hsz := h.sizes i
  rw [hpc] at hsz
  have hin : i < n := by
    by_contra hge
    have := h.hist i
    rw [hfin i (by omega), htd] at this
    simp at this
  have hasg : ∀ j, (({ s with nvars := s.nvars + 1 }.set i ⟨r :: rest, .pushLb s.nvars, (s.thr i).done⟩).thr j).assigned =
      if j = i then (s.thr j).assigned ++ [s.nvars] else (s.thr j).assigned := by
    intro j
    by_cases hj : j = i
    · subst hj; simp [St.set, Thread.assigned, hpc, Pc.cur]
    · simp [St.set, hj]
  refine ⟨fun j => ?_, fun j => ?_, fun j => ?_, fun hc => ?_, fun j => ?_, h.live, fun j => ?_, fun j v hv => ?_, fun j => ?_,
    fun j k hjk v hv => ?_, fun v h1 h2 => ?_, h.old, ?_, ?_, h.room⟩
  · by_cases hj : j = i
    · subst hj; simp [St.set]
    · simpa [St.set, hj] using h.idle j
  · by_cases hj : j = i
    · subst hj
      have := h.hist j
      rw [htd] at this
      simpa [St.set] using this
    · simpa [St.set, hj] using h.hist j
  · exact own_same h.own (by simp [hpc, Pc.inLock]) j
  · exact absurd (hc.symm.trans hoi) (by simp)
  · by_cases hj : j = i
    · subst hj; simp only [St.set, if_true, SizeOk]; exact ⟨trivial, hsz.1, hsz.2⟩
    · simp only [St.set, hj, if_false]
      have hlk : (s.thr j).pc.inLock ≠ true := by
        intro hl
        have := (h.own j).2 hl
        rw [hoi] at this
        exact hj (Option.some.inj this).symm
      cases hp : (s.thr j).pc <;> rw [hp] at hlk <;> first
        | trivial
        | exact absurd rfl hlk
  · by_cases hj : j = i
    · subst hj
      simp only [St.set, if_true]
      exact ⟨(h.cells j).made, fun _ _ _ => trivial⟩
    · simp only [St.set, hj, if_false]
      exact (h.cells j).frame (fun _ _ => rfl) (fun _ _ => rfl) (Or.inl ⟨rfl, rfl⟩)
  · rw [hasg] at hv
    have hl := h.low
    simp only [St.set]
    by_cases hj : j = i
    · rw [if_pos hj, List.mem_append, List.mem_singleton] at hv
      rcases hv with hv | hv
      · have := h.range j v hv; omega
      · omega
    · rw [if_neg hj] at hv
      have := h.range j v hv; omega
  · rw [hasg]
    by_cases hj : j = i
    · rw [if_pos hj, List.nodup_append]
      refine ⟨h.nodup j, by simp, fun a ha b hb => ?_⟩
      rw [List.mem_singleton] at hb
      have := h.range j a ha
      omega
    · rw [if_neg hj]; exact h.nodup j
  · rw [hasg] at hv ⊢
    by_cases hj : j = i
    · have hk : k ≠ i := fun hk => hjk (hj.trans hk.symm)
      rw [if_pos hj, List.mem_append, List.mem_singleton] at hv
      rw [if_neg hk]
      rcases hv with hv | hv
      · exact h.disj j k hjk v hv
      · intro hk'
        have := h.range k v hk'
        omega
    · rw [if_neg hj] at hv
      by_cases hk : k = i
      · rw [if_pos hk, List.mem_append, List.mem_singleton]
        rintro (hk' | hk')
        · exact h.disj j k hjk v hv hk'
        · have := h.range j v hv; omega
      · rw [if_neg hk]; exact h.disj j k hjk v hv
  · simp only [St.set] at h2
    by_cases hv : v = s.nvars
    · exact ⟨i, by rw [hasg, if_pos rfl]; simp [hv]⟩
    · obtain ⟨j, hj⟩ := h.cover v h1 (by omega)
      refine ⟨j, ?_⟩
      rw [hasg]
      split
      · exact List.mem_append_left _ hj
      · exact hj
  · have := h.low; simp only [St.set]; omega
  · have hc := h.count
    have e1 := Finset.add_sum_erase (Finset.range n) (fun j => (s.thr j).pend) (Finset.mem_range.2 hin)
    have e2 := Finset.add_sum_erase (Finset.range n)
      (fun j => (({ s with nvars := s.nvars + 1 }.set i ⟨r :: rest, .pushLb s.nvars, (s.thr i).done⟩).thr j).pend) (Finset.mem_range.2 hin)
    have e3 : ∑ j ∈ (Finset.range n).erase i, (({ s with nvars := s.nvars + 1 }.set i ⟨r :: rest, .pushLb s.nvars, (s.thr i).done⟩).thr j).pend =
        ∑ j ∈ (Finset.range n).erase i, (s.thr j).pend := by
      refine Finset.sum_congr rfl fun j hj => ?_
      simp [St.set, Finset.ne_of_mem_erase hj]
    have e4 : (({ s with nvars := s.nvars + 1 }.set i ⟨r :: rest, .pushLb s.nvars, (s.thr i).done⟩).thr i).pend + 1 = (s.thr i).pend := by
      simp [St.set, Thread.pend, Pc.cur, hpc, htd]
    rw [← e2, e3]
    simp only [St.set] at e4 ⊢
    omega

/-- Without spare capacity there is only one thread. -/
theorem Inv.solo {lb0 ub0 : Nat → α} {n0 n : Nat} {prog : Nat → List (Req α)} {s : St α} (h : Inv lb0 ub0 n0 n prog s)
    (hf : ¬ s.nvars ≤ s.lbs.cap ∨ ¬ s.nvars ≤ s.ubs.cap) : ∀ j, j ≠ 0 → prog j = [] := by
  rcases h.room with ⟨h1, h2⟩ | h3
  · have := h.count; omega
  · exact h3

/-- Every step keeps the invariant, and no store goes to freed memory. -/
theorem step_inv (grow : Nat → Nat) (dlo dhi : α) {lb0 ub0 : Nat → α} {n0 n : Nat} {prog : Nat → List (Req α)} {s : St α}
    (hfin : ∀ i, n ≤ i → prog i = []) (h : Inv lb0 ub0 n0 n prog s) (i : Nat) :
    ∃ s', step grow dlo dhi s i = some s' ∧ Inv lb0 ub0 n0 n prog s' := by
  unfold step
  dsimp only
  cases htd : (s.thr i).todo with
  | nil => exact ⟨s, rfl, h⟩
  | cons r rest =>
    have hnow := (h.cells i).now r rest htd
    have hsz := h.sizes i
    have hoi : (s.thr i).pc.inLock = true → s.owner = some i := (h.own i).2
    obtain ⟨li1, li2, li3, li4⟩ := h.live
    cases hpc : (s.thr i).pc with
    | start =>
      dsimp only
      by_cases ho : s.owner = none
      · rw [if_pos ho]
        refine ⟨_, rfl, h.move htd _ .locked rfl rfl (by rw [hpc]; rfl) ?_ ?_ (h.size ho) h.live trivial (fun _ _ _ => rfl)
          (fun _ _ _ => rfl) (Or.inl ⟨rfl, rfl⟩) (Or.inr ⟨rfl, rfl⟩) (Or.inl ⟨rfl, rfl⟩)⟩
        · intro j
          simp only [St.set]
          by_cases hj : j = i
          · subst hj; simp [Pc.inLock]
          · simp only [hj, if_false]
            have := h.own j
            rw [ho] at this
            simp only [reduceCtorEq, false_iff] at this
            simp [this, Ne.symm hj]
        · intro hc; simp [St.set] at hc
      · rw [if_neg ho]; exact ⟨s, rfl, h⟩
    | locked => exact ⟨_, rfl, h.create hfin htd hpc⟩
    | pushLb v =>
      dsimp only
      rw [hpc] at hsz hoi
      have hoi := hoi rfl
      obtain ⟨z1, z2, z3⟩ := hsz
      have hno : ∀ {p : Prop}, s.owner = none → p := fun hcc => absurd (hcc.symm.trans hoi) (by simp)
      by_cases hc : s.lbs.size < s.lbs.cap
      · rw [if_pos hc]
        refine ⟨_, rfl, h.move htd _ (.pushUb v) rfl rfl (by rw [hpc]; rfl) (own_same h.own (by simp [hpc, Pc.inLock])) hno
          ⟨z1, by simp [St.set, Vec.append, z2], z3⟩ h.live trivial ?_ (fun _ _ _ => rfl) (Or.inl ⟨rfl, rfl⟩) (Or.inl hoi) (Or.inl ⟨rfl, rfl⟩)⟩
        intro v' hv' hn'
        simp only [hpc, Pc.cur, List.mem_singleton] at hn'
        simp only [St.set, get_append]
        rw [if_neg (by omega)]
      · rw [if_neg hc]
        refine ⟨_, rfl, h.move htd _ (.swapLb v s.lbs.next) rfl rfl (by rw [hpc]; rfl) (own_same h.own (by simp [hpc, Pc.inLock])) hno
          ⟨z1, z2, z3, h.solo (by omega), by simp [St.set, Vec.alloc], by simp [St.set, Vec.alloc]; omega, by simp [St.set, Vec.alloc], ?_⟩
          ⟨?_, li2, ?_, li4⟩ trivial (fun v' _ _ => get_alloc _ _ _ li3) (fun _ _ _ => rfl) (Or.inl ⟨rfl, rfl⟩) (Or.inl hoi) (Or.inl ⟨rfl, rfl⟩)⟩
        · intro k hk
          simp only [St.set]
          rw [get_alloc _ _ _ li3]
          simp [Vec.alloc, Vec.get, show k < s.lbs.size by omega]
        · simp only [St.set, Vec.alloc]
          split
          · rfl
          · exact li1
        · simp only [St.set, Vec.alloc]; omega
    | swapLb v b =>
      dsimp only
      rw [hpc] at hsz hoi
      have hoi := hoi rfl
      obtain ⟨z1, z2, z3, z4, z5, z6, z7, z8⟩ := hsz
      have hno : ∀ {p : Prop}, s.owner = none → p := fun hcc => absurd (hcc.symm.trans hoi) (by simp)
      refine ⟨_, rfl, h.move htd _ (.pushUb v) rfl rfl (by rw [hpc]; rfl) (own_same h.own (by simp [hpc, Pc.inLock])) hno
          ⟨z1, by simp [St.set, Vec.swap, z2], z3⟩ ⟨?_, li2, z7, li4⟩ trivial ?_ (fun _ _ _ => rfl) (Or.inr z4) (Or.inl hoi) (Or.inr z4)⟩
      · simp only [St.set, Vec.swap, if_neg z6]; exact z5
      · intro v' hv' hn'
        simp only [hpc, Pc.cur, List.mem_singleton] at hn'
        exact z8 v' (by omega)
    | pushUb v =>
      dsimp only
      rw [hpc] at hsz hoi
      have hoi := hoi rfl
      obtain ⟨z1, z2, z3⟩ := hsz
      have hno : ∀ {p : Prop}, s.owner = none → p := fun hcc => absurd (hcc.symm.trans hoi) (by simp)
      by_cases hc : s.ubs.size < s.ubs.cap
      · rw [if_pos hc]
        refine ⟨_, rfl, h.move htd _ (.unlock v) rfl rfl (by rw [hpc]; rfl) (own_same h.own (by simp [hpc, Pc.inLock])) hno
          ⟨z1, z2, by simp [St.set, Vec.append, z3]⟩ h.live trivial (fun _ _ _ => rfl) ?_ (Or.inl ⟨rfl, rfl⟩) (Or.inl hoi) (Or.inl ⟨rfl, rfl⟩)⟩
        intro v' hv' hn'
        simp only [hpc, Pc.cur, List.mem_singleton] at hn'
        simp only [St.set, get_append]
        rw [if_neg (by omega)]
      · rw [if_neg hc]
        refine ⟨_, rfl, h.move htd _ (.swapUb v s.ubs.next) rfl rfl (by rw [hpc]; rfl) (own_same h.own (by simp [hpc, Pc.inLock])) hno
          ⟨z1, z2, z3, h.solo (by omega), by simp [St.set, Vec.alloc], by simp [St.set, Vec.alloc]; omega, by simp [St.set, Vec.alloc], ?_⟩
          ⟨li1, ?_, li3, ?_⟩ trivial (fun _ _ _ => rfl) (fun v' _ _ => get_alloc _ _ _ li4) (Or.inl ⟨rfl, rfl⟩) (Or.inl hoi) (Or.inl ⟨rfl, rfl⟩)⟩
        · intro k hk
          simp only [St.set]
          rw [get_alloc _ _ _ li4]
          simp [Vec.alloc, Vec.get, show k < s.ubs.size by omega]
        · simp only [St.set, Vec.alloc]
          split
          · rfl
          · exact li2
        · simp only [St.set, Vec.alloc]; omega
    | swapUb v b =>
      dsimp only
      rw [hpc] at hsz hoi
      have hoi := hoi rfl
      obtain ⟨z1, z2, z3, z4, z5, z6, z7, z8⟩ := hsz
      have hno : ∀ {p : Prop}, s.owner = none → p := fun hcc => absurd (hcc.symm.trans hoi) (by simp)
      refine ⟨_, rfl, h.move htd _ (.unlock v) rfl rfl (by rw [hpc]; rfl) (own_same h.own (by simp [hpc, Pc.inLock])) hno
          ⟨z1, z2, by simp [St.set, Vec.swap, z3]⟩ ⟨li1, ?_, li3, z7⟩ trivial (fun _ _ _ => rfl) ?_ (Or.inr z4) (Or.inl hoi) (Or.inr z4)⟩
      · simp only [St.set, Vec.swap, if_neg z6]; exact z5
      · intro v' hv' hn'
        simp only [hpc, Pc.cur, List.mem_singleton] at hn'
        exact z8 v' (by omega)
    | unlock v =>
      dsimp only
      rw [hpc] at hsz hoi
      have hoi := hoi rfl
      obtain ⟨z1, z2, z3⟩ := hsz
      refine ⟨_, rfl, h.move htd _ (.loadLb v) rfl rfl (by rw [hpc]; rfl) ?_ (fun _ => ⟨z2.trans z1, z3.trans z1⟩)
          trivial h.live trivial (fun _ _ _ => rfl) (fun _ _ _ => rfl) (Or.inl ⟨rfl, rfl⟩) (Or.inl hoi) (Or.inl ⟨rfl, rfl⟩)⟩
      intro j
      simp only [St.set]
      by_cases hj : j = i
      · subst hj; simp [Pc.inLock]
      · simp only [hj, if_false, reduceCtorEq, false_iff]
        intro hl
        have := (h.own j).2 hl
        rw [hoi] at this
        exact hj (Option.some.inj this).symm
    | loadLb v =>
      exact ⟨_, rfl, h.move htd _ (.storeLb v s.lbs.buf) rfl rfl (by rw [hpc]; rfl) (own_same h.own (by simp [hpc, Pc.inLock])) h.size
          trivial h.live rfl (fun _ _ _ => rfl) (fun _ _ _ => rfl) (Or.inl ⟨rfl, rfl⟩) (Or.inr ⟨rfl, rfl⟩) (Or.inl ⟨rfl, rfl⟩)⟩
    | storeLb v b =>
      dsimp only
      rw [hpc] at hnow
      simp only [PcCell] at hnow
      subst hnow
      rw [if_pos li1]
      refine ⟨_, rfl, h.move htd _ (.loadUb v) rfl rfl (by rw [hpc]; rfl) (own_same h.own (by simp [hpc, Pc.inLock])) h.size
          trivial h.live ?_ ?_ (fun _ _ _ => rfl) (Or.inl ⟨rfl, rfl⟩) (Or.inr ⟨rfl, rfl⟩) (Or.inl ⟨rfl, rfl⟩)⟩
      · simp only [PcCell, St.set, get_store, if_true]
      · intro v' hv' hn'
        simp only [hpc, Pc.cur, List.mem_singleton] at hn'
        simp only [St.set, get_store, if_neg hn']
    | loadUb v =>
      rw [hpc] at hnow
      exact ⟨_, rfl, h.move htd _ (.storeUb v s.ubs.buf) rfl rfl (by rw [hpc]; rfl) (own_same h.own (by simp [hpc, Pc.inLock])) h.size
          trivial h.live ⟨hnow, rfl⟩ (fun _ _ _ => rfl) (fun _ _ _ => rfl) (Or.inl ⟨rfl, rfl⟩) (Or.inr ⟨rfl, rfl⟩) (Or.inl ⟨rfl, rfl⟩)⟩
    | storeUb v b =>
      dsimp only
      rw [hpc] at hnow
      obtain ⟨hlo, hbuf⟩ := hnow
      subst hbuf
      rw [if_pos li2]
      have hi : (s.thr i).todo ≠ [] := by rw [htd]; simp
      have hu : ∀ v', v' < s.nvars → v' ∉ (s.thr i).pc.cur → (s.ubs.store s.ubs.buf v r.hi).get v' = s.ubs.get v' := by
        intro v' hv' hn'
        simp only [hpc, Pc.cur, List.mem_singleton] at hn'
        rw [get_store, if_neg hn']
      refine ⟨_, rfl, h.keep _ i _ rfl rfl ?_ ?_ (fun _ => rfl) ?_ (own_same h.own (by simp [hpc, Pc.inLock])) h.size trivial h.live ?_
        (fun _ _ _ => rfl) hu (Or.inl ⟨rfl, rfl⟩) hi (Or.inr ⟨rfl, rfl⟩) (Or.inl ⟨rfl, rfl⟩)⟩
      · simp [Thread.assigned, hpc, Pc.cur]
      · simp [Thread.pend, hpc, Pc.cur, htd]
      · have := h.hist i; rw [htd] at this; simpa using this
      · refine ⟨fun r' v' hm => ?_, fun r' rest' he => trivial⟩
        dsimp only at hm
        rw [List.mem_append, List.mem_singleton] at hm
        rcases hm with hm | hm
        · have hv : v' ∈ (s.thr i).assigned := List.mem_append_left _ (List.mem_map_of_mem (f := Prod.snd) hm)
          have hne : v' ∉ (s.thr i).pc.cur := by
            intro hc
            have := h.nodup i
            rw [Thread.assigned, List.nodup_append] at this
            exact this.2.2 _ (List.mem_map_of_mem (f := Prod.snd) hm) _ hc rfl
          simp only [St.set]
          rw [hu v' (h.range i v' hv).2 hne]
          exact (h.cells i).made r' v' hm
        · injection hm with e1 e2
          subst e1; subst e2
          simp only [St.set, get_store, if_true]
          exact ⟨hlo, trivial⟩

theorem run_inv (grow : Nat → Nat) (dlo dhi : α) {lb0 ub0 : Nat → α} {n0 n : Nat} {prog : Nat → List (Req α)}
    (hfin : ∀ i, n ≤ i → prog i = []) (sched : List Nat) : ∀ {s : St α}, Inv lb0 ub0 n0 n prog s →
    ∃ s', run grow dlo dhi sched s = some s' ∧ Inv lb0 ub0 n0 n prog s' := by
  induction sched with
  | nil => intro s h; exact ⟨s, rfl, h⟩
  | cons i l ih =>
    intro s h
    obtain ⟨s1, h1, h2⟩ := step_inv grow dlo dhi hfin h i
    obtain ⟨s2, h3, h4⟩ := ih h2
    exact ⟨s2, by rw [run, h1]; exact h3, h4⟩

/-! ### Progress -/

def Pc.pos : Pc → Nat
  | .start => 0
  | .locked => 1
  | .pushLb _ => 2
  | .swapLb _ _ => 3
  | .pushUb _ => 4
  | .swapUb _ _ => 5
  | .unlock _ => 6
  | .loadLb _ => 7
  | .storeLb _ _ => 8
  | .loadUb _ => 9
  | .storeUb _ _ => 10

def Thread.left (t : Thread α) : Nat := 11 * t.todo.length - t.pc.pos

def left (n : Nat) (s : St α) : Nat := ∑ i ∈ Finset.range n, (s.thr i).left

theorem left_lt {n i : Nat} (hi : i < n) {s s' : St α} {t : Thread α} (hthr : s'.thr = fun j => if j = i then t else s.thr j)
    (hlt : t.left < (s.thr i).left) : left n s' < left n s := by
  unfold left
  rw [← Finset.add_sum_erase (Finset.range n) (fun j => (s.thr j).left) (Finset.mem_range.2 hi),
    ← Finset.add_sum_erase (Finset.range n) (fun j => (s'.thr j).left) (Finset.mem_range.2 hi)]
  have e : ∑ j ∈ (Finset.range n).erase i, (s'.thr j).left = ∑ j ∈ (Finset.range n).erase i, (s.thr j).left :=
    Finset.sum_congr rfl fun j hj => by rw [hthr]; simp [Finset.ne_of_mem_erase hj]
  rw [e, hthr]
  simpa using hlt

/-- A thread is stuck for now: it has nothing to do or waits for the mutex. -/
def Waits (s : St α) (i : Nat) : Prop := (s.thr i).todo = [] ∨ (s.thr i).pc = .start ∧ s.owner ≠ none

theorem step_waits (grow : Nat → Nat) (dlo dhi : α) {s : St α} {i : Nat} (h : Waits s i) : step grow dlo dhi s i = some s := by
  unfold step
  rcases h with h | ⟨h1, h2⟩
  · simp [h]
  · cases htd : (s.thr i).todo <;> simp [h1, h2, htd]

theorem step_left (grow : Nat → Nat) (dlo dhi : α) {n : Nat} {s s' : St α} {i : Nat} (hi : (s.thr i).todo ≠ [] → i < n)
    (h : ¬ Waits s i) (hs : step grow dlo dhi s i = some s') : left n s' < left n s := by
  have hne : (s.thr i).todo ≠ [] := fun hc => h (Or.inl hc)
  have hin := hi hne
  unfold step at hs
  dsimp only at hs
  cases htd : (s.thr i).todo with
  | nil => exact absurd htd hne
  | cons r rest =>
    rw [htd] at hs
    cases hpc : (s.thr i).pc <;> rw [hpc] at hs <;> dsimp only at hs
    case start =>
      have ho : s.owner = none := by
        by_contra hc; exact h (Or.inr ⟨hpc, hc⟩)
      rw [if_pos ho] at hs
      injection hs with hs; subst hs
      exact left_lt hin rfl (by simp [Thread.left, Pc.pos, htd, hpc])
    case storeLb v b =>
      split at hs
      · injection hs with hs; subst hs
        exact left_lt hin rfl (by simp only [Thread.left, Pc.pos, htd, hpc, List.length_cons]; omega)
      · cases hs
    case storeUb v b =>
      split at hs
      · injection hs with hs; subst hs
        exact left_lt hin rfl (by simp only [Thread.left, Pc.pos, htd, hpc, List.length_cons]; omega)
      · cases hs
    case pushLb v =>
      split at hs <;> injection hs with hs <;> subst hs <;>
        exact left_lt hin rfl (by simp only [Thread.left, Pc.pos, htd, hpc, List.length_cons]; omega)
    case pushUb v =>
      split at hs <;> injection hs with hs <;> subst hs <;>
        exact left_lt hin rfl (by simp only [Thread.left, Pc.pos, htd, hpc, List.length_cons]; omega)
    all_goals
      injection hs with hs; subst hs
      exact left_lt hin rfl (by simp only [Thread.left, Pc.pos, htd, hpc, List.length_cons]; omega)

theorem Inv.active {lb0 ub0 : Nat → α} {n0 n : Nat} {prog : Nat → List (Req α)} {s : St α} (h : Inv lb0 ub0 n0 n prog s)
    (hfin : ∀ i, n ≤ i → prog i = []) (i : Nat) (hi : (s.thr i).todo ≠ []) : i < n := by
  by_contra hc
  have := h.hist i
  rw [hfin i (by omega)] at this
  exact hi (by simpa using (List.append_eq_nil_iff.1 this.symm).2)

/-- Some thread can always go on. -/
theorem Inv.progress {lb0 ub0 : Nat → α} {n0 n : Nat} {prog : Nat → List (Req α)} {s : St α} (h : Inv lb0 ub0 n0 n prog s)
    (hf : ¬ Finished s) : ∃ i, (s.thr i).todo ≠ [] ∧ ¬ Waits s i := by
  unfold Finished at hf
  push Not at hf
  obtain ⟨i, hi⟩ := hf
  cases ho : s.owner with
  | none =>
    refine ⟨i, hi, ?_⟩
    rintro (hw | ⟨-, hw⟩)
    · exact hi hw
    · exact hw ho
  | some k =>
    have hk := (h.own k).1 ho
    have hkt : (s.thr k).todo ≠ [] := by
      intro hc; rw [h.idle k hc] at hk; simp [Pc.inLock] at hk
    refine ⟨k, hkt, ?_⟩
    rintro (hw | ⟨hw, -⟩)
    · exact hkt hw
    · rw [hw] at hk; simp [Pc.inLock] at hk

theorem run_append (grow : Nat → Nat) (dlo dhi : α) (l1 l2 : List Nat) (s : St α) :
    run grow dlo dhi (l1 ++ l2) s = (run grow dlo dhi l1 s).bind (run grow dlo dhi l2) := by
  induction l1 generalizing s with
  | nil => rfl
  | cons i l ih =>
    simp only [List.cons_append, run]
    cases step grow dlo dhi s i with
    | none => rfl
    | some s' => exact ih s'

/-- A part of the schedule in which every thread has a turn makes progress. -/
theorem round_left (grow : Nat → Nat) (dlo dhi : α) {lb0 ub0 : Nat → α} {n0 n : Nat} {prog : Nat → List (Req α)}
    (hfin : ∀ i, n ≤ i → prog i = []) (b : List Nat) : ∀ {s s' : St α}, Inv lb0 ub0 n0 n prog s → run grow dlo dhi b s = some s' →
    left n s' ≤ left n s ∧ ((∃ e ∈ b, ¬ Waits s e) → left n s' < left n s) := by
  induction b with
  | nil =>
    intro s s' h hr
    injection hr with hr; subst hr
    exact ⟨le_rfl, by rintro ⟨e, he, -⟩; simp at he⟩
  | cons i l ih =>
    intro s s' h hr
    obtain ⟨s1, h1, h2⟩ := step_inv grow dlo dhi hfin h i
    rw [run, h1] at hr
    dsimp only at hr
    by_cases hw : Waits s i
    · rw [step_waits grow dlo dhi hw] at h1
      injection h1 with h1; subst h1
      obtain ⟨h3, h4⟩ := ih h hr
      refine ⟨h3, ?_⟩
      rintro ⟨e, he, hne⟩
      rcases List.mem_cons.1 he with he | he
      · subst he; exact absurd hw hne
      · exact h4 ⟨e, he, hne⟩
    · have h5 := step_left grow dlo dhi (h.active hfin i) hw h1
      have h6 := (ih h2 hr).1
      exact ⟨by omega, fun _ => by omega⟩

theorem finished_stays (grow : Nat → Nat) (dlo dhi : α) (l : List Nat) {s : St α} (h : Finished s) : run grow dlo dhi l s = some s := by
  induction l with
  | nil => rfl
  | cons i l ih => rw [run, step_waits grow dlo dhi (Or.inl (h i))]; exact ih

theorem rounds_finish (grow : Nat → Nat) (dlo dhi : α) {lb0 ub0 : Nat → α} {n0 n : Nat} {prog : Nat → List (Req α)}
    (hfin : ∀ i, n ≤ i → prog i = []) (bs : List (List Nat)) (hbs : ∀ b ∈ bs, ∀ i, i < n → i ∈ b) :
    ∀ {s : St α}, Inv lb0 ub0 n0 n prog s → left n s ≤ bs.length → ∃ s', run grow dlo dhi bs.flatten s = some s' ∧ Finished s' := by
  induction bs with
  | nil =>
    intro s h hl
    refine ⟨s, rfl, ?_⟩
    by_contra hf
    obtain ⟨e, he, hw⟩ := h.progress hf
    obtain ⟨s1, h1, -⟩ := step_inv grow dlo dhi hfin h e
    have := step_left grow dlo dhi (h.active hfin e) hw h1
    simp at hl
    omega
  | cons b bs ih =>
    intro s h hl
    rw [List.flatten_cons, run_append]
    by_cases hf : Finished s
    · rw [finished_stays grow dlo dhi b hf]
      exact ⟨s, finished_stays grow dlo dhi _ hf, hf⟩
    · obtain ⟨s1, h1, h2⟩ := run_inv grow dlo dhi hfin b h
      obtain ⟨e, he, hw⟩ := h.progress hf
      have := (round_left grow dlo dhi hfin b h h1).2 ⟨e, hbs b (by simp) e (h.active hfin e he), hw⟩
      rw [h1]
      exact ih (fun b hb => hbs b (by simp [hb])) h2 (by simp at hl; omega)

theorem Inv.linearised {lbs ubs : Vec α} {n0 n : Nat} {prog : Nat → List (Req α)} {s : St α}
    (h : Inv lbs.get ubs.get n0 n prog s) (hf : Finished s) : Linearised lbs ubs n0 prog s := by
  have hmem : ∀ i r v, (r, v) ∈ (s.thr i).done → v ∈ (s.thr i).assigned := fun i r v hm =>
    List.mem_append_left _ (List.mem_map_of_mem (f := Prod.snd) hm)
  have hasg : ∀ i, (s.thr i).assigned = (s.thr i).done.map Prod.snd := fun i => by
    rw [Thread.assigned, h.idle i (hf i)]; simp [Pc.cur]
  have hno : s.owner = none := by
    cases ho : s.owner with
    | none => rfl
    | some k =>
      have := (h.own k).1 ho
      rw [h.idle k (hf k)] at this
      simp [Pc.inLock] at this
  refine ⟨fun i => ?_, fun i => (h.cells i).made, fun i r v hm => h.range i v (hmem i r v hm), fun i => ?_,
    fun i j hij r v r' v' hm hm' he => ?_, fun v h1 h2 => ?_, h.size hno, h.old, hno⟩
  · have := h.hist i; rw [hf i] at this; simpa using this.symm
  · rw [← hasg]; exact h.nodup i
  · subst he; exact h.disj i j hij v (hmem i r v hm) (hmem j r' v hm')
  · obtain ⟨i, hi⟩ := h.cover v h1 h2
    rw [hasg, List.mem_map] at hi
    obtain ⟨⟨r, w⟩, hm, rfl⟩ := hi
    exact ⟨i, r, hm⟩

/-! ### The properties -/

/-- Specification: nothing has to be moved while several threads are at work: either the vectors have room for all new variables, or there
is only one thread. -/
def NoMove (lbs ubs : Vec α) (n0 n : Nat) (prog : Nat → List (Req α)) : Prop :=
  (n0 + ∑ i ∈ Finset.range n, (prog i).length ≤ lbs.cap ∧ n0 + ∑ i ∈ Finset.range n, (prog i).length ≤ ubs.cap) ∨
    ∀ j, j ≠ 0 → prog j = []

/-- C129 (partial).  When the vectors do not have to be moved, then under every schedule no store goes to freed memory; whenever all threads
are through, the calls had the effect of calls made one after the other. -/
theorem C129_linear_partial (grow : Nat → Nat) (dlo dhi : α) (lbs ubs : Vec α) (n0 n : Nat) (prog : Nat → List (Req α))
    (hl : lbs.Ready n0) (hu : ubs.Ready n0) (hfin : ∀ i, n ≤ i → prog i = []) (hroom : NoMove lbs ubs n0 n prog) (sched : List Nat) :
    ∃ s, run grow dlo dhi sched (begin lbs ubs n0 prog) = some s ∧ (Finished s → Linearised lbs ubs n0 prog s) := by
  obtain ⟨s, h1, h2⟩ := run_inv grow dlo dhi hfin sched (begin_inv lbs ubs n0 n prog hl hu hroom)
  exact ⟨s, h1, h2.linearised⟩

/-- C129 (partial).  No deadlock and no starvation: a schedule in which every thread has a turn often enough gets all threads through, from the
start or from any state reached. -/
theorem C129_finishes_partial (grow : Nat → Nat) (dlo dhi : α) (lbs ubs : Vec α) (n0 n : Nat) (prog : Nat → List (Req α))
    (hl : lbs.Ready n0) (hu : ubs.Ready n0) (hfin : ∀ i, n ≤ i → prog i = []) (hroom : NoMove lbs ubs n0 n prog) (sched : List Nat) (s : St α)
    (hs : run grow dlo dhi sched (begin lbs ubs n0 prog) = some s) (rounds : List (List Nat)) (hturn : ∀ b ∈ rounds, ∀ i, i < n → i ∈ b)
    (hlong : 11 * ∑ i ∈ Finset.range n, (prog i).length ≤ rounds.length) :
    ∃ s', run grow dlo dhi rounds.flatten s = some s' ∧ Finished s' ∧ Linearised lbs ubs n0 prog s' := by
  have h0 := begin_inv lbs ubs n0 n prog hl hu hroom
  obtain ⟨s1, h1, h2⟩ := run_inv grow dlo dhi hfin sched h0
  rw [hs] at h1
  injection h1 with h1; subst h1
  have hle := (round_left grow dlo dhi hfin sched h0 hs).1
  have hb : left n (begin lbs ubs n0 prog) = 11 * ∑ i ∈ Finset.range n, (prog i).length := by
    simp [left, begin, Thread.left, Pc.pos, Finset.mul_sum]
  obtain ⟨s', h3, h4⟩ := rounds_finish grow dlo dhi hfin rounds hturn h2 (by omega)
  obtain ⟨s2, h5, h6⟩ := run_inv grow dlo dhi hfin rounds.flatten h2
  rw [h3] at h5
  injection h5 with h5; subst h5
  exact ⟨s', h3, h4, h6.linearised h4⟩

def two (a b : Thread α) : Nat → Thread α := fun i => if i = 0 then a else if i = 1 then b else ⟨[], .start, []⟩

theorem two_zero (a b : Thread α) : two a b 0 = a := rfl
theorem two_one (a b : Thread α) : two a b 1 = b := rfl

theorem set_zero (o : Option Nat) (n : Nat) (l u : Vec α) (a b t : Thread α) :
    (St.mk o n l u (two a b)).set 0 t = ⟨o, n, l, u, two t b⟩ := by
  simp only [St.set, St.mk.injEq, true_and]
  funext j
  simp only [two]
  split <;> rfl

theorem set_one (o : Option Nat) (n : Nat) (l u : Vec α) (a b t : Thread α) :
    (St.mk o n l u (two a b)).set 1 t = ⟨o, n, l, u, two a t⟩ := by
  simp only [St.set, St.mk.injEq, true_and]
  funext j
  simp only [two]
  by_cases h0 : j = 0
  · subst h0; simp
  · by_cases h1 : j = 1
    · subst h1; simp
    · simp [h0, h1]

/-- C129, the negation: whatever the model holds, when one more element fits into the vectors, two threads that each make one call have a
schedule after which the first variable does not have its lower bound. -/
theorem C129_violated_lost (grow : Nat → Nat) (dlo dhi : α) (lbs ubs : Vec α) (n0 : Nat) (hl : lbs.Ready n0) (hu : ubs.Ready n0)
    (hcl : lbs.cap = n0 + 1) (hcu : ubs.cap = n0 + 1) (r0 r1 : Req α) :
    ∃ sched s, run grow dlo dhi sched (begin lbs ubs n0 fun i => if i = 0 then [r0] else if i = 1 then [r1] else []) = some s ∧ Finished s ∧
      (s.thr 0).done = [(r0, n0)] ∧ (s.thr 1).done = [(r1, n0 + 1)] ∧ s.nvars = n0 + 2 ∧ s.lbs.get n0 = dlo ∧ s.ubs.get n0 = r0.hi ∧
      s.lbs.get (n0 + 1) = r1.lo ∧ s.ubs.get (n0 + 1) = r1.hi := by
  obtain ⟨l1, l2, l3⟩ := hl
  obtain ⟨u1, u2, u3⟩ := hu
  have hne : lbs.buf ≠ lbs.next := by omega
  have hnu : ubs.buf ≠ ubs.next := by omega
  refine ⟨[0, 0, 0, 0, 0, 0, 1, 1, 1, 0, 1, 1, 1, 1, 1, 1, 1, 1, 0, 0], ?_⟩
  have hb : (begin lbs ubs n0 fun i => if i = 0 then [r0] else if i = 1 then [r1] else []) =
      ⟨none, n0, lbs, ubs, two ⟨[r0], .start, []⟩ ⟨[r1], .start, []⟩⟩ := by
    simp only [begin, St.mk.injEq, true_and]
    funext i
    simp only [two]
    split
    · rfl
    · split <;> rfl
  rw [hb]
  refine ⟨⟨none, n0 + 2, ((((lbs.append dlo).alloc dlo).store lbs.buf n0 r0.lo).swap grow lbs.next).store lbs.next (n0 + 1) r1.lo,
    ((((ubs.append dhi).alloc dhi).swap grow ubs.next).store ubs.next (n0 + 1) r1.hi).store ubs.next n0 r0.hi,
    two ⟨[], .start, [(r0, n0)]⟩ ⟨[], .start, [(r1, n0 + 1)]⟩⟩, ?_, ?_, rfl, rfl, rfl, ?_⟩
  · simp only [run, step, two_zero, two_one, set_zero, set_one, if_true, Vec.append, Vec.store, Vec.alloc, Vec.swap, l1, u1, hcl, hcu,
      Nat.lt_succ_self, lt_irrefl, if_false, l2, u2, hne, hnu, hne.symm, hnu.symm, List.nil_append]
  · intro i
    simp only [two]
    split
    · rfl
    · split <;> rfl
  · simp [Vec.append, Vec.store, Vec.alloc, Vec.swap, Vec.get, l1, u1, hne, hnu, hne.symm, hnu.symm]

/-- C129, the negation: the same threads have a schedule that stores into freed memory. -/
theorem C129_violated_freed (grow : Nat → Nat) (dlo dhi : α) (lbs ubs : Vec α) (n0 : Nat) (hl : lbs.Ready n0) (hu : ubs.Ready n0)
    (hcl : lbs.cap = n0 + 1) (hcu : ubs.cap = n0 + 1) (prog : Nat → List (Req α)) (h0 : prog 0 ≠ []) (h1 : prog 1 ≠ []) :
    ∃ sched, run grow dlo dhi sched (begin lbs ubs n0 prog) = none := by
  obtain ⟨a, l, hp0⟩ := List.exists_cons_of_ne_nil h0
  obtain ⟨a', l', hp1⟩ := List.exists_cons_of_ne_nil h1
  refine ⟨[0, 0, 0, 0, 0, 0, 1, 1, 1, 1, 0], ?_⟩
  obtain ⟨l1, l2, l3⟩ := hl
  obtain ⟨u1, u2, u3⟩ := hu
  have hne : lbs.buf ≠ lbs.next := by omega
  simp [run, step, begin, St.set, hp0, hp1, Vec.append, Vec.store, Vec.alloc, Vec.swap, l1, u1, hcl, hcu, l2, u2, hne]

/-- C128: filling one element per iteration gives the same result for every order of the iterations. -/
theorem fillLoop_get {β : Type} (f : Nat → β) (sched : List Nat) (out : List β) :
    (fillLoop f sched out).length = out.length ∧
      ∀ k, (fillLoop f sched out)[k]? = if k ∈ sched ∧ k < out.length then some (f k) else out[k]? := by
  induction sched generalizing out with
  | nil => simp [fillLoop]
  | cons i l ih =>
    obtain ⟨h1, h2⟩ := ih (out.set i (f i))
    rw [fillLoop, List.foldl_cons]
    change (fillLoop f l (out.set i (f i))).length = _ ∧ _
    refine ⟨by rw [h1]; simp, fun k => ?_⟩
    change (fillLoop f l (out.set i (f i)))[k]? = _
    rw [h2]
    by_cases hk : k < out.length
    · by_cases hkl : k ∈ l
      · simp [hk, hkl]
      · by_cases hki : i = k
        · subst hki; simp [hk, hkl]
        · simp [hk, hkl, hki, Ne.symm hki, List.getElem?_set]
    · have : (out.set i (f i)).length = out.length := by simp
      simp [hk, this, List.getElem?_eq_none (show out.length ≤ k by omega)]

theorem C128_any_schedule {β : Type} (f : Nat → β) (out : List β) (sched : List Nat) (h : ∀ i, i < out.length → i ∈ sched) :
    fillLoop f sched out = (List.range out.length).map f := by
  apply List.ext_getElem?
  intro k
  rw [(fillLoop_get f sched out).2 k]
  by_cases hk : k < out.length
  · simp [hk, h k hk]
  · simp [hk]

/-! ### What this means for hinge costs -/

section Hinge

open Verif.Sco (Within)
open Verif.Bounds (Ext)

variable {K : Type} [Field K] [LinearOrder K] [IsStrictOrderedRing K]

/-- The calls a thread makes for its hinges (modeling.cpp 52-64: every hinge adds a variable in `[0, inf)`).  A hinge is given by its
coefficient and by the value of its expression at the point looked at. -/
def hingeProg (hs : Nat → List (K × K)) (i : Nat) : List (Req (Ext K)) := (hs i).map fun _ => ⟨.fin 0, .posInf⟩

/-- Specification: hinge and variable of thread `i`. -/
def hingeVars (hs : Nat → List (K × K)) (s : St (Ext K)) (i : Nat) : List ((K × K) × Nat) := (hs i).zip ((s.thr i).done.map Prod.snd)

/-- Specification: the added variables respect their bounds, and each is at least the value of its hinge expression. -/
def Allowed (hs : Nat → List (K × K)) (n0 : Nat) (s : St (Ext K)) (y : Nat → K) : Prop :=
  (∀ v, n0 ≤ v → v < s.nvars → Within (s.lbs.get v, s.ubs.get v) (y v)) ∧ ∀ i, ∀ p ∈ hingeVars hs s i, p.1.2 ≤ y p.2

/-- Specification: the objective that all threads together add. -/
def hingeObj (hs : Nat → List (K × K)) (n : Nat) (s : St (Ext K)) (y : Nat → K) : K :=
  ∑ i ∈ Finset.range n, ((hingeVars hs s i).map fun p => p.1.1 * y p.2).sum

/-- Specification: the penalties that were meant. -/
def hingeMeant (hs : Nat → List (K × K)) (n : Nat) : K := ∑ i ∈ Finset.range n, ((hs i).map fun h => h.1 * max 0 h.2).sum

theorem zip_sum {β : Type} (l : List (K × K)) (vs : List β) (h : vs.length = l.length) (f : K × K → K) :
    ((l.zip vs).map fun p => f p.1).sum = (l.map f).sum := by
  have : (l.zip vs).map (fun p => f p.1) = l.map f := by
    rw [show (fun p : (K × K) × β => f p.1) = f ∘ Prod.fst from rfl, ← List.map_map, List.map_fst_zip (by omega)]
  rw [this]

theorem zip_inj {β γ : Type} {l : List β} {vs : List γ} (hn : vs.Nodup) {p q : β × γ} (hp : p ∈ l.zip vs) (hq : q ∈ l.zip vs)
    (h : p.2 = q.2) : p = q := by
  obtain ⟨i, hi, rfl⟩ := List.getElem_of_mem hp
  obtain ⟨j, hj, rfl⟩ := List.getElem_of_mem hq
  simp only [List.getElem_zip] at h ⊢
  have := (List.Nodup.getElem_inj_iff hn).1 h
  subst this
  rfl

/-- C129 (partial): when the vectors do not have to be moved, minimising over the added variables gives the sum of the hinge penalties of all
costs, whatever the schedule. -/
theorem C129_hinges_partial (grow : Nat → Nat) (dlo dhi : Ext K) (lbs ubs : Vec (Ext K)) (n0 n : Nat) (hs : Nat → List (K × K))
    (hl : lbs.Ready n0) (hu : ubs.Ready n0) (hfin : ∀ i, n ≤ i → hs i = []) (hroom : NoMove lbs ubs n0 n (hingeProg hs))
    (hc : ∀ i, ∀ h ∈ hs i, 0 ≤ h.1) (sched : List Nat) (s : St (Ext K))
    (hrun : run grow dlo dhi sched (begin lbs ubs n0 (hingeProg hs)) = some s) (hdone : Finished s) :
    (∀ y, Allowed hs n0 s y → hingeMeant hs n ≤ hingeObj hs n s y) ∧ ∃ y, Allowed hs n0 s y ∧ hingeObj hs n s y = hingeMeant hs n := by
  obtain ⟨s1, h1, h2⟩ := C129_linear_partial grow dlo dhi lbs ubs n0 n (hingeProg hs) hl hu
    (fun i hi => by simp [hingeProg, hfin i hi]) hroom sched
  rw [hrun] at h1
  injection h1 with h1; subst h1
  have L := h2 hdone
  have hlen : ∀ i, ((s.thr i).done.map Prod.snd).length = (hs i).length := fun i => by
    have := congrArg List.length (L.calls i)
    simpa [hingeProg] using this
  have hbnd : ∀ i r v, (r, v) ∈ (s.thr i).done → s.lbs.get v = .fin 0 ∧ s.ubs.get v = .posInf := fun i r v hm => by
    have hr : r ∈ hingeProg hs i := by rw [← L.calls i]; exact List.mem_map_of_mem (f := Prod.fst) hm
    simp only [hingeProg, List.mem_map] at hr
    obtain ⟨-, -, rfl⟩ := hr
    exact L.bounds i _ v hm
  have hvar : ∀ i, ∀ p ∈ hingeVars hs s i, ∃ r, (r, p.2) ∈ (s.thr i).done := fun i p hp => by
    have := (List.of_mem_zip (a := p.1) (b := p.2) hp).2
    rw [List.mem_map] at this
    obtain ⟨⟨r, v⟩, hm, he⟩ := this
    dsimp only at he; subst he
    exact ⟨r, hm⟩
  have hsum : ∀ i, ((hs i).map fun h => h.1 * max 0 h.2).sum = ((hingeVars hs s i).map fun p => p.1.1 * max 0 p.1.2).sum := fun i =>
    (zip_sum (hs i) _ (hlen i) fun h => h.1 * max 0 h.2).symm
  refine ⟨fun y hy => ?_, ?_⟩
  · refine Finset.sum_le_sum fun i _ => ?_
    rw [hsum]
    refine List.sum_le_sum fun p hp => ?_
    refine mul_le_mul_of_nonneg_left (max_le ?_ (hy.2 i p hp)) (hc i _ (List.of_mem_zip (a := p.1) (b := p.2) hp).1)
    obtain ⟨r, hm⟩ := hvar i p hp
    have hw := hy.1 p.2 (L.fresh i r p.2 hm).1 (L.fresh i r p.2 hm).2
    rw [(hbnd i r p.2 hm).1] at hw
    exact hw.1
  · classical
    let y : Nat → K := fun v => if h : ∃ q : Nat × ((K × K) × Nat), q.2 ∈ hingeVars hs s q.1 ∧ q.2.2 = v then max 0 h.choose.2.1.2 else 0
    have hy : ∀ i, ∀ p ∈ hingeVars hs s i, y p.2 = max 0 p.1.2 := by
      intro i p hp
      have hex : ∃ q : Nat × ((K × K) × Nat), q.2 ∈ hingeVars hs s q.1 ∧ q.2.2 = p.2 := ⟨(i, p), hp, rfl⟩
      simp only [y, dif_pos hex]
      obtain ⟨hq1, hq2⟩ := hex.choose_spec
      generalize hex.choose = q at hq1 hq2
      obtain ⟨j, q⟩ := q
      dsimp only at hq1 hq2 ⊢
      have hij : j = i := by
        by_contra hne
        obtain ⟨r, hr⟩ := hvar j q hq1
        obtain ⟨r', hr'⟩ := hvar i p hp
        exact L.apart j i hne r q.2 r' p.2 hr hr' hq2
      subst hij
      rw [zip_inj (L.own j) hq1 hp hq2]
    have hpos : ∀ v, 0 ≤ y v := fun v => by
      simp only [y]
      split
      · exact le_max_left _ _
      · exact le_rfl
    refine ⟨y, ⟨fun v h1 h2 => ?_, fun i p hp => ?_⟩, Finset.sum_congr rfl fun i _ => ?_⟩
    · obtain ⟨i, r, hm⟩ := L.all v h1 h2
      rw [(hbnd i r v hm).1, (hbnd i r v hm).2]
      exact ⟨hpos v, trivial⟩
    · rw [hy i p hp]; exact le_max_right _ _
    · rw [hsum]
      congr 1
      exact List.map_congr_left fun p hp => by rw [hy i p hp]

/-- C129, the negation: with room for one more element, two costs with a hinge each have a schedule after which a satisfied hinge is
rewarded: the minimum is below the sum of the penalties. -/
theorem C129_violated_hinges (grow : Nat → Nat) (d : K) (hd : d < 0) (dhi : Ext K) (lbs ubs : Vec (Ext K)) (n0 : Nat)
    (hl : lbs.Ready n0) (hu : ubs.Ready n0) (hcl : lbs.cap = n0 + 1) (hcu : ubs.cap = n0 + 1) (c e c' e' : K) (hc : 0 < c) (he : e < 0) :
    let hs : Nat → List (K × K) := fun i => if i = 0 then [(c, e)] else if i = 1 then [(c', e')] else []
    ∃ sched s, run grow (.fin d) dhi sched (begin lbs ubs n0 (hingeProg hs)) = some s ∧ Finished s ∧
      ∃ y, Allowed hs n0 s y ∧ hingeObj hs 2 s y < hingeMeant hs 2 := by
  intro hs
  obtain ⟨sched, s, h1, h2, h3, h4, h5, h6, h7, h8, h9⟩ := C129_violated_lost grow (.fin d) dhi lbs ubs n0 hl hu hcl hcu
    (⟨.fin 0, .posInf⟩ : Req (Ext K)) ⟨.fin 0, .posInf⟩
  have hp : hingeProg hs = fun i => if i = 0 then [(⟨.fin 0, .posInf⟩ : Req (Ext K))] else if i = 1 then [⟨.fin 0, .posInf⟩] else [] := by
    funext i
    simp only [hingeProg, hs]
    split
    · rfl
    · split <;> rfl
  have hv : ∀ i, hingeVars hs s i = if i = 0 then [((c, e), n0)] else if i = 1 then [((c', e'), n0 + 1)] else [] := by
    intro i
    simp only [hingeVars, hs]
    split
    · rename_i h; subst h; simp [h3]
    · split
      · rename_i h; subst h; simp [h4]
      · rfl
  refine ⟨sched, s, by rw [hp]; exact h1, h2, fun v => if v = n0 then max d e else max 0 e', ⟨fun v hv1 hv2 => ?_, fun i p hpm => ?_⟩, ?_⟩
  · rw [h5] at hv2
    by_cases hvn : v = n0
    · subst hvn
      rw [h6, h7]
      beta_reduce
      rw [if_pos rfl]
      exact ⟨le_max_left _ _, trivial⟩
    · obtain rfl : v = n0 + 1 := by omega
      rw [h8, h9]
      beta_reduce
      rw [if_neg hvn]
      exact ⟨le_max_left _ _, trivial⟩
  · rw [hv] at hpm
    split at hpm
    · simp only [List.mem_singleton] at hpm; subst hpm; simp
    · split at hpm
      · simp only [List.mem_singleton] at hpm; subst hpm; simp
      · simp at hpm
  · simp only [hingeObj, hingeMeant, hv, Finset.sum_range_succ, Finset.sum_range_zero, hs]
    simp
    rw [max_eq_left he.le, mul_zero]
    exact mul_neg_of_pos_of_neg hc (max_lt hd he)

end Hinge

/-! ### The hypotheses can be met -/

namespace Demo

/-- Two variables, room for `c` elements. -/
def vec (c : Nat) : Vec Int := ⟨fun _ k => k, fun b => b = 0, 0, 2, c, 1⟩

/-- Thread 0 makes two calls, thread 2 one. -/
def prog : Nat → List (Req Int) := fun i => if i = 0 then [⟨0, 10⟩, ⟨1, 11⟩] else if i = 2 then [⟨-3, 7⟩] else []

example : (vec 5).Ready 2 := by simp [Vec.Ready, vec]
example : ∀ i, 3 ≤ i → prog i = [] := fun i hi => by simp [prog, show i ≠ 0 by omega, show i ≠ 2 by omega]
example : NoMove (vec 5) (vec 6) 2 3 prog := Or.inl (by simp [vec, prog, Finset.sum_range_succ])
/-- One thread, no room. -/
example : NoMove (vec 2) (vec 2) 2 1 (fun i => if i = 0 then [⟨0, 10⟩, ⟨1, 11⟩] else []) := Or.inr fun j hj => by simp [hj]
/-- A schedule with many changes of thread gets everything done. -/
example : (run (fun c => 2 * c) (-100) 100 ((List.replicate 33 [2, 1, 0]).flatten) (begin (vec 5) (vec 5) 2 prog)).map
    (fun s => ((s.thr 0).done.map Prod.snd, (s.thr 2).done.map Prod.snd, (List.range 5).map s.lbs.get, (List.range 5).map s.ubs.get)) =
    some ([3, 4], [2], [0, 1, -3, 0, 1], [0, 1, 7, 10, 11]) := by decide +kernel
/-- The lost bound of `C129_violated_lost`. -/
example : (run (fun c => 2 * c) (-100) 100 [0, 0, 0, 0, 0, 0, 2, 2, 2, 0, 2, 2, 2, 2, 2, 2, 2, 2, 0, 0] (begin (vec 3) (vec 3) 2 prog)).map
    (fun s => ((s.thr 0).done.map Prod.snd, (List.range 4).map s.lbs.get)) = some ([2], [0, 1, -100, -3]) := by decide +kernel
/-- The iterations of an evaluation loop in another order. -/
example : fillLoop (fun i => 10 * i) [2, 0, 1] [7, 7, 7] = [0, 10, 20] := by decide

end Demo

end Verif.Parallel
