import Verif.Model.Cache
import Mathlib.Data.List.Nodup
import Mathlib.Data.List.Perm.Subperm
import Mathlib.Data.List.Range
import Mathlib.Data.Fintype.Pigeonhole
import Mathlib.Tactic.NormNum

/-!
C42 (LRU cache refinement), C43 (caching is transparent), C67 (the circular-buffer cache of the legacy evaluators).
-/

set_option linter.unusedSectionVars false
set_option linter.unusedVariables false

namespace Verif.Cache

universe u
variable {Key : Type u} [DecidableEq Key]

/-! ### Specification: a bounded LRU map from keys to slots, most recently used first -/

/-- Abstract state: the visible entries, most recently used first, the slots handed out for filling, the pool size. -/
structure LRU (Key : Type u) where
  entries : List (Key × ℕ)
  out : ℕ → Prop
  cap : ℕ

/-- look-up -/
def LRU.Maps (a : LRU Key) (k : Key) (s : ℕ) : Prop := (k, s) ∈ a.entries

/-- using an entry moves it to the front -/
def LRU.use (a : LRU Key) (k : Key) (s : ℕ) : LRU Key :=
  { a with entries := (k, s) :: a.entries.filter (fun e => e.1 ≠ k) }

/-- a slot that is neither visible nor handed out -/
def LRU.FreeSlot (a : LRU Key) (s : ℕ) : Prop := s < a.cap ∧ (∀ k, (k, s) ∉ a.entries) ∧ ¬ a.out s

/-- handing out a slot on a miss: a free one if there is one; else the one of the least recently used entry, which
disappears; else (everything handed out) the pool doubles and a new slot is given -/
def LRU.Acquire (a : LRU Key) (s : ℕ) (a' : LRU Key) : Prop :=
  (a.FreeSlot s ∧ a'.entries = a.entries ∧ a'.cap = a.cap ∧ (∀ t, a'.out t ↔ (a.out t ∨ t = s))) ∨
  ((∀ t, ¬ a.FreeSlot t) ∧ (∃ k, a.entries = a'.entries ++ [(k, s)]) ∧ a'.cap = a.cap ∧
    (∀ t, a'.out t ↔ (a.out t ∨ t = s))) ∨
  ((∀ t, ¬ a.FreeSlot t) ∧ a.entries = [] ∧ a'.entries = [] ∧ a'.cap = 2 * a.cap ∧ a.cap ≤ s ∧ s < a'.cap ∧
    (∀ t, a'.out t ↔ (a.out t ∨ t = s)))

/-- storing: the new entry replaces whatever the key and the slot were associated with -/
def LRU.store (a : LRU Key) (k : Key) (s : ℕ) : LRU Key :=
  { entries := (k, s) :: a.entries.filter (fun e => e.1 ≠ k ∧ e.2 ≠ s), out := fun t => a.out t ∧ t ≠ s, cap := a.cap }

/-- removing a key -/
def LRU.remove (a : LRU Key) (k : Key) : LRU Key := { a with entries := a.entries.filter (fun e => e.1 ≠ k) }

/-- Well-formedness of the abstract map: no key and no slot twice, slots in the pool, handed-out slots invisible,
at most `cap` entries. -/
structure LRU.WF (a : LRU Key) : Prop where
  keys : (a.entries.map Prod.fst).Nodup
  slots : (a.entries.map Prod.snd).Nodup
  inPool : ∀ k s, (k, s) ∈ a.entries → s < a.cap
  outInPool : ∀ s, a.out s → s < a.cap
  hidden : ∀ k s, (k, s) ∈ a.entries → ¬ a.out s
  bounded : a.entries.length ≤ a.cap
  pos : 0 < a.cap

/-- Abstraction of the concrete cache. -/
def abs (c : Cache Key) : LRU Key :=
  { entries := c.lru.map fun s => (c.slotKey s, s), out := fun s => c.checkedOut s = true, cap := c.cap }

/-! ### Representation invariant -/

structure Inv (c : Cache Key) : Prop where
  nodup : c.lru.Nodup
  lru_iff : ∀ s, s ∈ c.lru ↔ c.assigned s = true
  lru_lt : ∀ s, s ∈ c.lru → s < c.cap
  map_iff : ∀ k s, c.keyToSlot k = some s ↔ (s ∈ c.lru ∧ c.slotKey s = k)
  out_not : ∀ s, c.checkedOut s = true → c.assigned s = false
  out_lt : ∀ s, c.checkedOut s = true → s < c.cap
  free_lt : ∀ s, s ∈ c.free → s < c.cap
  free_mem : ∀ s, s < c.cap → c.assigned s = false → c.checkedOut s = false → s ∈ c.free
  pos : 0 < c.cap

theorem Inv.keyInj {c : Cache Key} (h : Inv c) {s t : ℕ} (hs : s ∈ c.lru) (ht : t ∈ c.lru)
    (hk : c.slotKey s = c.slotKey t) : s = t := by
  have h1 := (h.map_iff (c.slotKey t) s).mpr ⟨hs, hk⟩
  have h2 := (h.map_iff (c.slotKey t) t).mpr ⟨ht, rfl⟩
  rw [h1] at h2; simpa using h2

theorem Inv.wf {c : Cache Key} (h : Inv c) : (abs c).WF where
  keys := by
    simp only [abs, List.map_map]
    exact h.nodup.map_on (fun s hs t ht hk => h.keyInj hs ht hk)
  slots := by
    simp only [abs, List.map_map]
    have : (Prod.snd ∘ fun s => (c.slotKey s, s)) = id := rfl
    rw [this, List.map_id]; exact h.nodup
  inPool := by
    intro k s hs
    simp only [abs, List.mem_map, Prod.mk.injEq] at hs
    obtain ⟨t, ht, _, rfl⟩ := hs
    exact h.lru_lt t ht
  outInPool := h.out_lt
  hidden := by
    intro k s hs ho
    simp only [abs, List.mem_map, Prod.mk.injEq] at hs
    obtain ⟨t, ht, _, rfl⟩ := hs
    have := h.out_not t ho
    rw [(h.lru_iff t).mp ht] at this; cases this
  bounded := by
    simp only [abs, List.length_map]
    have : c.lru ⊆ List.range c.cap := fun s hs => List.mem_range.mpr (h.lru_lt s hs)
    simpa using (h.nodup.subperm this).length_le
  pos := h.pos

theorem mem_abs {c : Cache Key} {k : Key} {s : ℕ} : (k, s) ∈ (abs c).entries ↔ (s ∈ c.lru ∧ c.slotKey s = k) := by
  simp only [abs, List.mem_map, Prod.mk.injEq]
  constructor
  · rintro ⟨t, ht, hk, rfl⟩; exact ⟨ht, hk⟩
  · rintro ⟨hs, hk⟩; exact ⟨s, hs, hk, rfl⟩

theorem abs_filter_key {c : Cache Key} (h : Inv c) {s : ℕ} (hs : s ∈ c.lru) :
    (c.lru.filter (fun t => t ≠ s)).map (fun t => (c.slotKey t, t)) =
      ((abs c).entries).filter (fun e => e.1 ≠ c.slotKey s) := by
  simp only [abs, List.filter_map]
  congr 1
  apply List.filter_congr
  intro t ht
  simp only [Function.comp_apply, decide_eq_decide]
  constructor
  · intro hne hk; exact hne (h.keyInj ht hs hk)
  · rintro hk rfl; exact hk rfl

/-! ### The operations preserve the invariant and refine the specification -/

theorem init_inv (n : ℕ) (k0 : Key) : Inv (init n k0) := by
  have hpos : 0 < (if n = 0 then 1 else n) := by split_ifs <;> omega
  constructor <;> simp_all [init]

theorem touch_inv {c : Cache Key} (h : Inv c) {s : ℕ} (hs : s ∈ c.lru) :
    Inv (touch c s) ∧ abs (touch c s) = (abs c).use (c.slotKey s) s := by
  have ha : c.assigned s = true := (h.lru_iff s).mp hs
  have ht : touch c s = { c with lru := s :: c.lru.erase s } := by unfold touch; simp [ha]
  have hmem : ∀ t, t ∈ s :: c.lru.erase s ↔ t ∈ c.lru := by
    intro t
    rw [List.mem_cons, h.nodup.mem_erase_iff]
    constructor
    · rintro (rfl | h); exacts [hs, h.2]
    · intro h'
      by_cases e : t = s
      · exact Or.inl e
      · exact Or.inr ⟨e, h'⟩
  rw [ht]
  constructor
  · constructor
    · simp only [List.nodup_cons]
      exact ⟨fun h' => ((h.nodup.mem_erase_iff).mp h').1 rfl, h.nodup.erase s⟩
    · intro t; exact (hmem t).trans (h.lru_iff t)
    · intro t ht'; exact h.lru_lt t ((hmem t).mp ht')
    · intro k t
      rw [h.map_iff k t]
      simp only [hmem t]
    · exact h.out_not
    · exact h.out_lt
    · exact h.free_lt
    · exact h.free_mem
    · exact h.pos
  · simp only [LRU.use]
    rw [← abs_filter_key h hs]
    simp only [abs, List.map_cons, h.nodup.erase_eq_filter]
    congr 3
    apply List.filter_congr
    intro t _
    by_cases e : t = s <;> simp [e]

/-- unmapping an assigned, not handed-out slot -/
theorem unmap_inv {c : Cache Key} (h : Inv c) {s : ℕ} (hs : s ∈ c.lru) :
    Inv (unmap c s) ∧ (unmap c s).lru = c.lru.filter (fun t => t ≠ s) ∧ (unmap c s).slotKey = c.slotKey ∧
    (unmap c s).checkedOut = c.checkedOut ∧ (unmap c s).cap = c.cap ∧ (unmap c s).free = c.free ++ [s] ∧
    (unmap c s).keyToSlot = Function.update c.keyToSlot (c.slotKey s) none ∧
    (unmap c s).assigned = Function.update c.assigned s false := by
  have ha : c.assigned s = true := (h.lru_iff s).mp hs
  have hco : c.checkedOut s = false := by
    cases hc : c.checkedOut s with
    | false => rfl
    | true => have := h.out_not s hc; rw [ha] at this; cases this
  have hu : unmap c s = { c with
      keyToSlot := Function.update c.keyToSlot (c.slotKey s) none
      lru := c.lru.filter (fun t => t ≠ s)
      assigned := Function.update c.assigned s false
      free := c.free ++ [s] } := by
    have he : c.lru.erase s = c.lru.filter (fun t => t ≠ s) := by
      rw [h.nodup.erase_eq_filter]
      apply List.filter_congr
      intro t _
      by_cases e : t = s <;> simp [e]
    simp [unmap, removeFromLru, ha, hco, he]
  rw [hu]
  refine ⟨?_, rfl, rfl, rfl, rfl, rfl, rfl, rfl⟩
  constructor
  · exact h.nodup.filter _
  · intro t
    simp only [List.mem_filter, decide_eq_true_eq, h.lru_iff t, Function.update_apply]
    by_cases e : t = s <;> simp [e]
  · intro t ht
    simp only [List.mem_filter] at ht
    exact h.lru_lt t ht.1
  · intro k t
    simp only [List.mem_filter, decide_eq_true_eq, Function.update_apply]
    by_cases e : k = c.slotKey s
    · subst e
      simp only [if_true, reduceCtorEq, false_iff]
      rintro ⟨⟨ht, hne⟩, hk⟩
      exact hne (h.keyInj ht hs hk)
    · rw [if_neg e, h.map_iff k t]
      constructor
      · rintro ⟨ht, hk⟩
        refine ⟨⟨ht, ?_⟩, hk⟩
        rintro rfl; exact e hk.symm
      · rintro ⟨⟨ht, _⟩, hk⟩; exact ⟨ht, hk⟩
  · intro t ht
    simp only [Function.update_apply]
    split_ifs with e
    · rfl
    · exact h.out_not t ht
  · exact h.out_lt
  · intro t ht
    simp only [List.mem_append, List.mem_singleton] at ht
    rcases ht with ht | rfl
    · exact h.free_lt t ht
    · exact h.lru_lt t hs
  · intro t htc hta hto
    simp only [List.mem_append, List.mem_singleton]
    simp only [Function.update_apply] at hta
    by_cases e : t = s
    · exact Or.inr e
    · rw [if_neg e] at hta; exact Or.inl (h.free_mem t htc hta hto)
  · exact h.pos

theorem evict_eq {c : Cache Key} (h : Inv c) {s : ℕ} (hs : s ∈ c.lru) : evictSlot c s = unmap c s := by
  unfold evictSlot; simp [(h.lru_iff s).mp hs]

theorem popLoop_some {ok : ℕ → Bool} {l : List ℕ} {s : ℕ} {r : List ℕ} (h : popLoop ok l = (some s, r)) :
    ok s = true ∧ s ∈ l ∧ (∀ t ∈ r, t ∈ l) ∧ (∀ t ∈ l, ok t = true → t = s ∨ t ∈ r) := by
  induction l with
  | nil => simp [popLoop] at h
  | cons a l ih =>
    unfold popLoop at h
    split_ifs at h with c
    · simp only [Prod.mk.injEq, Option.some.injEq] at h
      obtain ⟨rfl, rfl⟩ := h
      refine ⟨c, by simp, fun t ht => by simp [ht], ?_⟩
      intro t ht _
      simpa using ht
    · obtain ⟨h1, h2, h3, h4⟩ := ih h
      refine ⟨h1, by simp [h2], fun t ht => by simp [h3 t ht], ?_⟩
      intro t ht hok
      rcases List.mem_cons.mp ht with rfl | ht
      · exact absurd hok c
      · exact h4 t ht hok

theorem popLoop_none {ok : ℕ → Bool} {l r : List ℕ} (h : popLoop ok l = (none, r)) :
    r = [] ∧ ∀ t ∈ l, ok t = false := by
  induction l with
  | nil => simp [popLoop] at h; simp [h]
  | cons a l ih =>
    unfold popLoop at h
    split_ifs at h with c
    · cases h
    · obtain ⟨h1, h2⟩ := ih h
      refine ⟨h1, ?_⟩
      intro t ht
      rcases List.mem_cons.mp ht with rfl | ht
      · simpa using c
      · exact h2 t ht

/-- popping from the free list, when it succeeds: the slot is neither assigned nor handed out; handing it out keeps the
invariant and the entries -/
theorem popFree_some {c : Cache Key} (h : Inv c) {s : ℕ} {c' : Cache Key} (hp : popFree c = (some s, c')) :
    Inv (checkOut c' s) ∧ c.assigned s = false ∧ c.checkedOut s = false ∧ s < c.cap ∧
    (checkOut c' s).lru = c.lru ∧ (checkOut c' s).slotKey = c.slotKey ∧ (checkOut c' s).cap = c.cap ∧
    (checkOut c' s).checkedOut = Function.update c.checkedOut s true := by
  unfold popFree at hp
  simp only [Prod.mk.injEq] at hp
  obtain ⟨h1, rfl⟩ := hp
  have hpl : popLoop (fun s => !c.assigned s && !c.checkedOut s) c.free.reverse =
      (some s, (popLoop (fun s => !c.assigned s && !c.checkedOut s) c.free.reverse).2) := by
    rw [← h1]
  obtain ⟨k1, k2, k3, k4⟩ := popLoop_some hpl
  simp only [Bool.and_eq_true, Bool.not_eq_true'] at k1
  have hlt : s < c.cap := h.free_lt s (by simpa using k2)
  refine ⟨?_, k1.1, k1.2, hlt, rfl, rfl, rfl, rfl⟩
  constructor
  · exact h.nodup
  · exact h.lru_iff
  · exact h.lru_lt
  · exact h.map_iff
  · intro t ht
    simp only [checkOut, Function.update_apply] at ht
    split_ifs at ht with e
    · rw [e]; exact k1.1
    · exact h.out_not t ht
  · intro t ht
    simp only [checkOut, Function.update_apply] at ht
    split_ifs at ht with e
    · rw [e]; exact hlt
    · exact h.out_lt t ht
  · intro t ht
    simp only [checkOut, List.mem_reverse] at ht
    exact h.free_lt t (by simpa using k3 t ht)
  · intro t htc hta hto
    simp only [checkOut, List.mem_reverse, Function.update_apply] at hto ⊢
    split_ifs at hto with e
    have hf := h.free_mem t htc hta hto
    rcases k4 t (by simpa using hf) (by simp [hta, hto]; exact hta) with h' | h'
    · exact absurd h' e
    · exact h'
  · exact h.pos

theorem popFree_none {c : Cache Key} (h : Inv c) {c' : Cache Key} (hp : popFree c = (none, c')) :
    c' = { c with free := [] } ∧ (∀ s, s < c.cap → c.assigned s = true ∨ c.checkedOut s = true) := by
  unfold popFree at hp
  simp only [Prod.mk.injEq] at hp
  obtain ⟨h1, rfl⟩ := hp
  have hpl : popLoop (fun s => !c.assigned s && !c.checkedOut s) c.free.reverse =
      (none, (popLoop (fun s => !c.assigned s && !c.checkedOut s) c.free.reverse).2) := by
    rw [← h1]
  obtain ⟨k1, k2⟩ := popLoop_none hpl
  refine ⟨by rw [k1]; rfl, ?_⟩
  intro s hs
  by_contra hc
  push Not at hc
  have hf := h.free_mem s hs (by simpa using hc.1) (by simpa using hc.2)
  have := k2 s (by simpa using hf)
  simp [hc.1, hc.2] at this

theorem free_iff {c : Cache Key} (h : Inv c) (s : ℕ) :
    (abs c).FreeSlot s ↔ (s < c.cap ∧ c.assigned s = false ∧ c.checkedOut s = false) := by
  unfold LRU.FreeSlot
  simp only [mem_abs]
  constructor
  · rintro ⟨h1, h2, h3⟩
    refine ⟨h1, ?_, by simpa [abs] using h3⟩
    cases ha : c.assigned s with
    | false => rfl
    | true => exact absurd ⟨(h.lru_iff s).mpr ha, rfl⟩ (h2 (c.slotKey s))
  · rintro ⟨h1, h2, h3⟩
    refine ⟨h1, ?_, by simp [abs, h3]⟩
    rintro k ⟨hm, _⟩
    rw [(h.lru_iff s).mp hm] at h2; cases h2

theorem acquire_spec {c : Cache Key} (h : Inv c) :
    ∃ s c', acquireSlot c = (some s, c') ∧ Inv c' ∧ (abs c).Acquire s (abs c') := by
  unfold acquireSlot
  cases hp : popFree c with
  | mk o c1 =>
    cases o with
    | some s =>
      obtain ⟨i, h1, h2, h3, e1, e2, e3, e4⟩ := popFree_some h hp
      refine ⟨s, _, rfl, i, Or.inl ⟨(free_iff h s).mpr ⟨h3, h1, h2⟩, ?_, e3, ?_⟩⟩
      · simp only [abs, e1, e2]
      · intro t
        simp only [abs, e4, Function.update_apply]
        by_cases e : t = s <;> simp [e]
    | none =>
      obtain ⟨rfl, hfull⟩ := popFree_none h hp
      have hnf : ∀ t, ¬ (abs c).FreeSlot t := by
        intro t ht
        obtain ⟨h1, h2, h3⟩ := (free_iff h t).mp ht
        rcases hfull t h1 with h' | h'
        · rw [h2] at h'; cases h'
        · rw [h3] at h'; cases h'
      have hI : Inv ({ c with free := [] } : Cache Key) := by
        constructor
        · exact h.nodup
        · exact h.lru_iff
        · exact h.lru_lt
        · exact h.map_iff
        · exact h.out_not
        · exact h.out_lt
        · intro s hs; cases hs
        · intro s h1 h2 h3
          rcases hfull s h1 with h' | h'
          · simp only at h2; rw [h2] at h'; cases h'
          · simp only at h3; rw [h3] at h'; cases h'
        · exact h.pos
      simp only
      cases hl : c.lru.getLast? with
      | some s =>
        have hsm : s ∈ c.lru := List.mem_of_getLast? hl
        obtain ⟨u1, u2, u3, u4, u5, u6, u7, u8⟩ := unmap_inv hI (s := s) hsm
        simp only at u2 u3 u4 u5 u6 u7 u8
        simp only
        rw [evict_eq hI hsm]
        have hdrop : c.lru.filter (fun t => t ≠ s) = c.lru.dropLast := by
          obtain ⟨l, hl'⟩ := List.getLast?_eq_some_iff.mp hl
          have hnd := h.nodup
          rw [hl'] at hnd ⊢
          rw [List.dropLast_concat, List.filter_append]
          have : s ∉ l := by
            intro hm
            rw [List.nodup_append] at hnd
            exact hnd.2.2 s hm s (by simp) rfl
          rw [List.filter_eq_self.mpr (fun t ht => by
            simp only [decide_eq_true_eq, ne_eq]
            rintro rfl; exact this ht)]
          simp
        refine ⟨s, _, rfl, ?_, Or.inr (Or.inl ⟨hnf, ⟨c.slotKey s, ?_⟩, ?_, ?_⟩)⟩
        · constructor
          · exact u1.nodup
          · exact u1.lru_iff
          · exact u1.lru_lt
          · exact u1.map_iff
          · intro t ht
            simp only [checkOut, Function.update_apply, u4] at ht
            simp only [checkOut, u8, Function.update_apply]
            split_ifs at ht ⊢ with e
            · rfl
            · exact h.out_not t ht
          · intro t ht
            simp only [checkOut, Function.update_apply, u4] at ht
            simp only [checkOut, u5]
            split_ifs at ht with e
            · rw [e]; exact h.lru_lt s hsm
            · exact h.out_lt t ht
          · exact u1.free_lt
          · intro t h1 h2 h3
            simp only [checkOut, Function.update_apply] at h3
            split_ifs at h3 with e
            exact u1.free_mem t h1 h2 h3
          · exact u1.pos
        · simp only [abs, checkOut, u2, u3, hdrop]
          obtain ⟨l, hl'⟩ := List.getLast?_eq_some_iff.mp hl
          rw [hl']; simp
        · simp [abs, checkOut, u5]
        · intro t
          simp only [abs, checkOut, u4, Function.update_apply]
          by_cases e : t = s <;> simp [e]
      | none =>
        have hemp : c.lru = [] := List.getLast?_eq_none_iff.mp hl
        have hcap : c.cap ≠ 0 := by have := h.pos; omega
        simp only [hcap, ne_eq, not_false_eq_true, if_true]
        have hg : growPool ({ c with free := [] } : Cache Key) (c.cap * 2) =
            { c with cap := c.cap * 2, free := (List.range (c.cap * 2 - c.cap)).map (· + c.cap) } := by
          unfold growPool
          rw [if_neg (by have := h.pos; simp only; omega)]
          simp
        rw [hg]
        have hout : ∀ s, c.cap ≤ s → c.checkedOut s = false := by
          intro s hs
          cases hc : c.checkedOut s with
          | false => rfl
          | true => have := h.out_lt s hc; omega
        have hasg : ∀ s, c.assigned s = false := by
          intro s
          cases hc : c.assigned s with
          | false => rfl
          | true => have := (h.lru_iff s).mpr hc; rw [hemp] at this; cases this
        have hIg : Inv ({ c with cap := c.cap * 2
                                 free := (List.range (c.cap * 2 - c.cap)).map (· + c.cap) } : Cache Key) := by
          constructor
          · exact h.nodup
          · exact h.lru_iff
          · intro s hs; have := h.lru_lt s hs; simp only; omega
          · exact h.map_iff
          · exact h.out_not
          · intro s hs; have := h.out_lt s hs; simp only; omega
          · intro s hs
            simp only [List.mem_map, List.mem_range] at hs
            obtain ⟨a, ha, rfl⟩ := hs
            simp only; omega
          · intro s h1 h2 h3
            simp only at h1 h2 h3 ⊢
            simp only [List.mem_map, List.mem_range]
            by_cases hlt : s < c.cap
            · rcases hfull s hlt with h' | h'
              · rw [h2] at h'; cases h'
              · rw [h3] at h'; cases h'
            · exact ⟨s - c.cap, by omega, by omega⟩
          · have := h.pos; simp only; omega
        cases hp2 : popFree ({ c with cap := c.cap * 2
                                      free := (List.range (c.cap * 2 - c.cap)).map (· + c.cap) } : Cache Key) with
        | mk o c2 =>
          cases o with
          | some s =>
            obtain ⟨i, h1, h2, h3, e1, e2, e3, e4⟩ := popFree_some hIg hp2
            simp only at h1 h2 h3 e1 e2 e3 e4
            have hge : c.cap ≤ s := by
              by_contra hlt
              rcases hfull s (by omega) with h' | h'
              · rw [h1] at h'; cases h'
              · rw [h2] at h'; cases h'
            refine ⟨s, _, rfl, i, Or.inr (Or.inr ⟨hnf, by simp [abs, hemp], by simp [abs, e1, hemp], ?_, hge, ?_, ?_⟩)⟩
            · simp only [abs, e3]; omega
            · simp only [abs, e3]; exact h3
            · intro t
              simp only [abs, e4, Function.update_apply]
              by_cases e : t = s <;> simp [e]
          | none =>
            exfalso
            obtain ⟨_, hf2⟩ := popFree_none hIg hp2
            rcases hf2 c.cap (by have := h.pos; simp only; omega) with h' | h'
            · simp only at h'; rw [hasg] at h'; cases h'
            · simp only at h'; rw [hout _ le_rfl] at h'; cases h'

/-! ### Property theorems: refinement -/

/-- C42: a new cache is empty, has the requested capacity (at least 1) and nothing handed out. -/
theorem C42_init (n : ℕ) (k0 : Key) :
    Inv (init n k0) ∧ (abs (init n k0)).entries = [] ∧ (∀ s, ¬ (abs (init n k0)).out s) ∧
    (abs (init n k0)).cap = max n 1 := by
  refine ⟨init_inv n k0, rfl, by simp [abs, init], ?_⟩
  simp only [abs, init]; split_ifs <;> omega

/-- C42: every reachable state is a well-formed bounded LRU map. -/
theorem C42_wf (c : Cache Key) (h : Inv c) : (abs c).WF := h.wf

/-- C42: `get` returns the slot stored for the key and makes it the most recently used; on a miss nothing changes. -/
theorem C42_get (c : Cache Key) (h : Inv c) (k : Key) :
    Inv (get c k).2 ∧
    ((∃ s, (abs c).Maps k s ∧ (get c k).1 = some s ∧ abs (get c k).2 = (abs c).use k s) ∨
     ((∀ s, ¬ (abs c).Maps k s) ∧ (get c k).1 = none ∧ (get c k).2 = c)) := by
  unfold get
  cases hk : c.keyToSlot k with
  | none =>
    refine ⟨h, Or.inr ⟨?_, rfl, rfl⟩⟩
    intro s hs
    rw [(h.map_iff k s).mpr (mem_abs.mp hs)] at hk; cases hk
  | some s =>
    obtain ⟨hm, rfl⟩ := (h.map_iff k s).mp hk
    obtain ⟨t1, t2⟩ := touch_inv h hm
    exact ⟨t1, Or.inl ⟨s, mem_abs.mpr ⟨hm, rfl⟩, rfl, t2⟩⟩

/-- C42: `getOrAcquire` never returns a null pointer; a hit is as `get`; on a miss the slot handed out is chosen as the
LRU policy says and is neither visible nor handed out to anybody else. -/
theorem C42_getOrAcquire (c : Cache Key) (h : Inv c) (k : Key) :
    Inv (getOrAcquire c k).2 ∧
    ((∃ s, (abs c).Maps k s ∧ (getOrAcquire c k).1 = (some s, true) ∧
        abs (getOrAcquire c k).2 = (abs c).use k s) ∨
     ((∀ s, ¬ (abs c).Maps k s) ∧ ∃ s, (getOrAcquire c k).1 = (some s, false) ∧
        (abs c).Acquire s (abs (getOrAcquire c k).2) ∧
        (∀ k', ¬ (abs (getOrAcquire c k).2).Maps k' s) ∧ ¬ (abs c).out s)) := by
  unfold getOrAcquire
  cases hk : c.keyToSlot k with
  | none =>
    obtain ⟨s, c', e, i, a⟩ := acquire_spec h
    rw [e]
    refine ⟨i, Or.inr ⟨?_, s, rfl, a, ?_, ?_⟩⟩
    · intro s hs
      rw [(h.map_iff k s).mpr (mem_abs.mp hs)] at hk; cases hk
    · intro k' hk'
      refine i.wf.hidden k' s hk' ?_
      rcases a with a | a | a
      · exact (a.2.2.2 s).mpr (Or.inr rfl)
      · exact (a.2.2.2 s).mpr (Or.inr rfl)
      · exact (a.2.2.2.2.2.2 s).mpr (Or.inr rfl)
    · intro ho
      rcases a with a | a | a
      · exact a.1.2.2 ho
      · obtain ⟨k', ha⟩ := a.2.1
        exact h.wf.hidden k' s (by rw [ha]; simp) ho
      · have := h.wf.outInPool s ho
        have := a.2.2.2.2.1
        omega
  | some s =>
    obtain ⟨hm, rfl⟩ := (h.map_iff k s).mp hk
    obtain ⟨t1, t2⟩ := touch_inv h hm
    exact ⟨t1, Or.inl ⟨s, mem_abs.mpr ⟨hm, rfl⟩, rfl, t2⟩⟩

theorem evict_key {c : Cache Key} (h : Inv c) {k : Key} {s : ℕ} (hk : c.keyToSlot k = some s) :
    Inv (evictSlot c s) ∧ abs (evictSlot c s) = (abs c).remove k := by
  obtain ⟨hm, rfl⟩ := (h.map_iff k s).mp hk
  rw [evict_eq h hm]
  obtain ⟨u1, u2, u3, u4, u5, u6, u7, u8⟩ := unmap_inv h hm
  refine ⟨u1, ?_⟩
  have := abs_filter_key h hm
  simp only [LRU.remove, ← this]
  simp only [abs, u2, u3, u4, u5]

/-- C42: `erase` removes exactly the entry of the key. -/
theorem C42_erase (c : Cache Key) (h : Inv c) (k : Key) :
    Inv (erase c k) ∧ abs (erase c k) = (abs c).remove k := by
  unfold erase
  cases hk : c.keyToSlot k with
  | none =>
    refine ⟨h, ?_⟩
    simp only [LRU.remove]
    have : (abs c).entries.filter (fun e => e.1 ≠ k) = (abs c).entries := by
      rw [List.filter_eq_self]
      rintro ⟨k', s⟩ he
      simp only [ne_eq, decide_eq_true_eq]
      rintro rfl
      rw [(h.map_iff k' s).mpr (mem_abs.mp he)] at hk; cases hk
    rw [this]
  | some s => exact evict_key h hk

/-- C42: `put` refuses a pointer that is not from the pool and otherwise makes `(key, slot)` the most recently used
entry, replacing whatever the key and the slot were associated with; the slot is no longer handed out. -/
theorem C42_put (c : Cache Key) (h : Inv c) (k : Key) (s : ℕ) :
    (c.cap ≤ s → put c k s = (false, c)) ∧
    (s < c.cap → (put c k s).1 = true ∧ Inv (put c k s).2 ∧
      (abs (put c k s).2).entries = ((abs c).store k s).entries ∧
      (abs (put c k s).2).cap = c.cap ∧ ∀ t, (abs (put c k s).2).out t ↔ ((abs c).out t ∧ t ≠ s)) := by
  refine ⟨fun hs => by unfold put; rw [if_pos hs], ?_⟩
  intro hs
  -- step 1: evict the old slot of the key
  set c1 : Cache Key := putEvictOld c k s with hc1
  have h1 : Inv c1 ∧ c1.slotKey = c.slotKey ∧ c1.checkedOut = c.checkedOut ∧ c1.cap = c.cap ∧
      c1.lru = c.lru.filter (fun t => c.slotKey t ≠ k ∨ t = s) := by
    rw [hc1]
    unfold putEvictOld
    cases hk : c.keyToSlot k with
    | none =>
      refine ⟨h, rfl, rfl, rfl, ?_⟩
      symm; rw [List.filter_eq_self]
      intro t ht
      simp only [ne_eq, Bool.decide_or, Bool.or_eq_true, decide_eq_true_eq]
      left; intro hkt
      rw [(h.map_iff k t).mpr ⟨ht, hkt⟩] at hk; cases hk
    | some e =>
      obtain ⟨hm, rfl⟩ := (h.map_iff k e).mp hk
      by_cases hes : e = s
      · simp only [ne_eq, hes, not_true_eq_false, if_false]
        refine ⟨h, trivial, trivial, trivial, ?_⟩
        symm; rw [List.filter_eq_self]
        intro t ht
        simp only [ne_eq, Bool.decide_or, Bool.or_eq_true, decide_eq_true_eq]
        by_cases hts : t = s
        · exact Or.inr hts
        · left; intro hkt; exact hts (h.keyInj ht (hes ▸ hm) hkt)
      · simp only [ne_eq, hes, not_false_eq_true, if_true]
        rw [evict_eq h hm]
        obtain ⟨u1, u2, u3, u4, u5, u6, u7, u8⟩ := unmap_inv h hm
        refine ⟨u1, u3, u4, u5, ?_⟩
        rw [u2]
        apply List.filter_congr
        intro t ht
        rw [decide_eq_decide]
        constructor
        · intro hte; left; intro hkt; exact hte (h.keyInj ht hm hkt)
        · rintro (hkt | rfl)
          · rintro rfl; exact hkt rfl
          · intro h'; exact hes h'.symm
  -- step 2: unmap the slot if it holds another key
  set c2 : Cache Key := putUnmapSlot c1 k s with hc2
  have h2 : Inv c2 ∧ c2.slotKey = c.slotKey ∧ c2.checkedOut = c.checkedOut ∧ c2.cap = c.cap ∧
      (∀ t, t ∈ c2.lru → t = s ∨ c.slotKey t ≠ k) ∧ (s ∈ c2.lru → c.slotKey s = k) ∧
      c2.lru.filter (fun t => t ≠ s) = c.lru.filter (fun t => c.slotKey t ≠ k ∧ t ≠ s) := by
    obtain ⟨i1, k1, o1, p1, l1⟩ := h1
    have hfil : (c.lru.filter (fun t => c.slotKey t ≠ k ∨ t = s)).filter (fun t => t ≠ s) =
        c.lru.filter (fun t => c.slotKey t ≠ k ∧ t ≠ s) := by
      rw [List.filter_filter]
      apply List.filter_congr
      intro t _
      by_cases e : t = s <;> simp [e]
    have hmem1 : ∀ t, t ∈ c1.lru → t = s ∨ c.slotKey t ≠ k := by
      intro t ht
      rw [l1] at ht
      simp only [List.mem_filter, decide_eq_true_eq] at ht
      exact ht.2.symm
    rw [hc2]
    unfold putUnmapSlot
    split_ifs with ca ck
    · have hm : s ∈ c1.lru := (i1.lru_iff s).mpr ca
      obtain ⟨u1, u2, u3, u4, u5, u6, u7, u8⟩ := unmap_inv i1 hm
      refine ⟨u1, u3.trans k1, u4.trans o1, u5.trans p1, ?_, ?_, ?_⟩
      · intro t ht
        rw [u2] at ht
        exact hmem1 t (List.mem_filter.mp ht).1
      · intro ht; rw [u2] at ht
        simp at ht
      · rw [u2, List.filter_filter]
        simp only [Bool.and_self]
        rw [l1]; exact hfil
    · refine ⟨i1, k1, o1, p1, hmem1, ?_, ?_⟩
      · intro _; rw [← k1]; simpa using ck
      · rw [l1]; exact hfil
    · refine ⟨i1, k1, o1, p1, hmem1, ?_, ?_⟩
      · intro hm; exact absurd ((i1.lru_iff s).mp hm) ca
      · rw [l1]; exact hfil
  obtain ⟨i2, k2, o2, p2, m2, n2, l2⟩ := h2
  -- step 3
  have hput : put c k s = (true, { c2 with
      checkedOut := Function.update c2.checkedOut s false
      free := c2.free.erase s
      slotKey := Function.update c2.slotKey s k
      keyToSlot := Function.update c2.keyToSlot k (some s)
      lru := s :: c2.lru.filter (fun t => t ≠ s)
      assigned := Function.update c2.assigned s true }) := by
    unfold put
    rw [if_neg (by omega)]
    simp only
    rw [← hc1, ← hc2]
    simp only [removeFromFreeSlots]
    split_ifs with hh
    · have ha : c2.assigned s = false := by simpa using hh
      have : c2.lru.filter (fun t => t ≠ s) = c2.lru := by
        rw [List.filter_eq_self]
        intro t ht
        simp only [ne_eq, decide_eq_true_eq]
        rintro rfl
        rw [(i2.lru_iff t).mp ht] at ha; cases ha
      rw [this]
      exact if_pos hh
    · have ha : c2.assigned s = true := by simpa using hh
      unfold touch
      simp only [ha, Bool.not_true, Bool.false_eq_true, if_false]
      have he : c2.lru.erase s = c2.lru.filter (fun t => t ≠ s) := by
        rw [i2.nodup.erase_eq_filter]
        apply List.filter_congr
        intro t _
        by_cases e : t = s <;> simp [e]
      rw [he]
      congr 2
      funext t
      by_cases e : t = s
      · subst e; simp [ha]
      · simp [Function.update_apply, e]
  rw [hput]
  refine ⟨rfl, ?_, ?_, p2, ?_⟩
  · have hmem : ∀ t, t ∈ s :: c2.lru.filter (fun t => t ≠ s) ↔ (t = s ∨ t ∈ c2.lru) := by
      intro t
      simp only [List.mem_cons, List.mem_filter, decide_eq_true_eq]
      by_cases e : t = s <;> simp [e]
    constructor
    · simp only [List.nodup_cons, List.mem_filter, decide_eq_true_eq]
      exact ⟨fun h' => h'.2 rfl, i2.nodup.filter _⟩
    · intro t
      simp only [hmem t, Function.update_apply, i2.lru_iff t]
      by_cases e : t = s <;> simp [e]
    · intro t ht
      rcases (hmem t).mp ht with rfl | ht
      · simp only [p2]; exact hs
      · exact i2.lru_lt t ht
    · intro k' t
      simp only [hmem t, Function.update_apply]
      by_cases ek : k' = k
      · subst ek
        simp only [if_true, Option.some.injEq]
        constructor
        · rintro rfl; exact ⟨Or.inl rfl, by simp⟩
        · rintro ⟨ht, hkt⟩
          split_ifs at hkt with e
          · exact e.symm
          · rcases ht with ht | ht
            · exact ht.symm
            · rcases m2 t ht with h' | h'
              · exact h'.symm
              · rw [k2] at hkt; exact absurd hkt h'
      · rw [if_neg ek, i2.map_iff k' t]
        by_cases e : t = s
        · subst e
          simp only [if_true, true_or, true_and]
          constructor
          · rintro ⟨ht, hkt⟩
            rw [k2, n2 ht] at hkt; exact absurd hkt.symm ek
          · intro h'; exact absurd h'.symm ek
        · simp [e]
    · intro t ht
      simp only [Function.update_apply] at ht ⊢
      split_ifs at ht ⊢ with e
      exact i2.out_not t ht
    · intro t ht
      simp only [Function.update_apply] at ht
      split_ifs at ht with e
      exact i2.out_lt t ht
    · intro t ht
      exact i2.free_lt t (List.mem_of_mem_erase ht)
    · intro t h1 h2 h3
      simp only [Function.update_apply] at h2 h3
      split_ifs at h2 h3 with e
      exact (List.mem_erase_of_ne e).mpr (i2.free_mem t h1 h2 h3)
    · exact i2.pos
  · simp only [abs, LRU.store, List.map_cons, Function.update_self, List.filter_map]
    congr 1
    rw [l2]
    have : List.filter ((fun e : Key × ℕ => decide (e.1 ≠ k ∧ e.2 ≠ s)) ∘ fun t => (c.slotKey t, t)) c.lru =
        c.lru.filter (fun t => c.slotKey t ≠ k ∧ t ≠ s) := rfl
    rw [this]
    apply List.map_congr_left
    intro t ht
    simp only [List.mem_filter, decide_eq_true_eq] at ht
    simp only [Function.update_apply, if_neg ht.2.2, k2]
  · intro t
    simp only [abs, Function.update_apply, o2]
    by_cases e : t = s <;> simp [e]

/-- The public operations. -/
inductive Op (Key : Type u)
  | get (k : Key)
  | getOrAcquire (k : Key)
  | put (k : Key) (slot : ℕ)
  | erase (k : Key)

def applyOp (c : Cache Key) : Op Key → Cache Key
  | .get k => (get c k).2
  | .getOrAcquire k => (getOrAcquire c k).2
  | .put k s => (put c k s).2
  | .erase k => erase c k

theorem reachable_inv (ops : List (Op Key)) (c : Cache Key) (h : Inv c) : Inv (ops.foldl applyOp c) := by
  induction ops generalizing c with
  | nil => exact h
  | cons o ops ih =>
    refine ih _ ?_
    cases o with
    | get k => exact (C42_get c h k).1
    | getOrAcquire k => exact (C42_getOrAcquire c h k).1
    | put k s =>
      by_cases hs : s < c.cap
      · exact ((C42_put c h k s).2 hs).2.1
      · simp only [applyOp]; rw [(C42_put c h k s).1 (by omega)]; exact h
    | erase k => exact (C42_erase c h k).1

/-- C42: after any history of operations from construction (correct or incorrect use by the client) the cache is a
well-formed bounded LRU map: no key or slot twice, at most `capacity()` entries, and slots handed out for filling are
not visible under any key. -/
theorem C42_every_history (n : ℕ) (k0 : Key) (ops : List (Op Key)) :
    (abs (ops.foldl applyOp (init n k0))).WF ∧ Inv (ops.foldl applyOp (init n k0)) :=
  ⟨(reachable_inv ops _ (init_inv n k0)).wf, reachable_inv ops _ (init_inv n k0)⟩

/-- C42: round trip. After `put(key, ptr)` with a pooled object, `get(key)` and `getOrAcquire(key)` return that object. -/
theorem C42_put_get (n : ℕ) (k0 : Key) (ops : List (Op Key)) (k : Key) (s : ℕ)
    (hs : s < (ops.foldl applyOp (init n k0)).cap) :
    let c := (put (ops.foldl applyOp (init n k0)) k s).2
    (get c k).1 = some s ∧ (getOrAcquire c k).1 = (some s, true) := by
  intro c
  obtain ⟨-, h2, h3, -, -⟩ := (C42_put _ (C42_every_history n k0 ops).2 k s).2 hs
  have hm : (k, s) ∈ (abs c).entries := by rw [h3]; simp [LRU.store]
  have hk : c.keyToSlot k = some s := (h2.map_iff k s).mpr (mem_abs.mp hm)
  simp [get, getOrAcquire, hk]

/-- C42: a key whose entry was erased, or that was never stored, misses. -/
theorem C42_erase_get (n : ℕ) (k0 : Key) (ops : List (Op Key)) (k : Key) :
    (get (erase (ops.foldl applyOp (init n k0)) k) k).1 = none := by
  obtain ⟨h1, h2⟩ := C42_erase _ (C42_every_history n k0 ops).2 k
  set c := erase (ops.foldl applyOp (init n k0)) k
  unfold get
  cases hk : c.keyToSlot k with
  | none => rfl
  | some s =>
    have hm := mem_abs.mpr ((h1.map_iff k s).mp hk)
    rw [h2] at hm
    simp [LRU.remove] at hm

/-! ### C43 -/

section memo
variable {X V : Type*}

/-- run a sequence of memoised evaluations -/
def memoRun (hash : X → Key) (f : X → V) : Store Key V → List X → List (Option V) × Store Key V
  | st, [] => ([], st)
  | st, x :: xs =>
    let r := memo hash f st x
    let rs := memoRun hash f r.2 xs
    (r.1 :: rs.1, rs.2)

/-- every visible entry holds the value of some input with that key, and nothing is left handed out -/
def Good (hash : X → Key) (f : X → V) (st : Store Key V) : Prop :=
  Inv st.cache ∧ (∀ s, ¬ (abs st.cache).out s) ∧
  ∀ k s, (k, s) ∈ (abs st.cache).entries → ∃ x, hash x = k ∧ st.heap s = f x

theorem memo_good (hash : X → Key) (f : X → V) (hinj : ∀ x y, hash x = hash y → f x = f y) (st : Store Key V)
    (h : Good hash f st) (x : X) :
    (memo hash f st x).1 = some (f x) ∧ Good hash f (memo hash f st x).2 := by
  obtain ⟨hi, ho, he⟩ := h
  obtain ⟨g1, g2⟩ := C42_getOrAcquire st.cache hi (hash x)
  unfold memo
  rcases g2 with ⟨s, hm, hr, ha⟩ | ⟨hm, s, hr, ha, hv, hno⟩
  · obtain ⟨y, hy1, hy2⟩ := he _ _ hm
    generalize hg : getOrAcquire st.cache (hash x) = g at *
    obtain ⟨⟨o, b⟩, c⟩ := g
    simp only [Prod.mk.injEq] at hr
    obtain ⟨rfl, rfl⟩ := hr
    refine ⟨by simp only [hy2, hinj y x hy1], g1, ?_, ?_⟩
    · intro t; simp only at ha ⊢; rw [ha]; exact ho t
    · intro k t hkt
      simp only at ha hkt ⊢
      rw [ha] at hkt
      simp only [LRU.use, List.mem_cons, Prod.mk.injEq, List.mem_filter] at hkt
      rcases hkt with ⟨rfl, rfl⟩ | hkt
      · exact ⟨y, hy1, hy2⟩
      · exact he k t hkt.1
  · generalize hg : getOrAcquire st.cache (hash x) = g at *
    obtain ⟨⟨o, b⟩, c⟩ := g
    simp only [Prod.mk.injEq] at hr
    obtain ⟨rfl, rfl⟩ := hr
    simp only at g1 ha hv ⊢
    have hs : s < c.cap := by
      have hout : (abs c).out s := by
        rcases ha with a | a | a
        · exact (a.2.2.2 s).mpr (Or.inr rfl)
        · exact (a.2.2.2 s).mpr (Or.inr rfl)
        · exact (a.2.2.2.2.2.2 s).mpr (Or.inr rfl)
      exact g1.out_lt s hout
    obtain ⟨p1, p2, p3, p4, p5⟩ := (C42_put c g1 (hash x) s).2 hs
    refine ⟨by simp, p2, ?_, ?_⟩
    · intro t ht
      simp only at ht
      rw [p5 t] at ht
      have : (abs st.cache).out t ∨ t = s := by
        rcases ha with a | a | a
        · exact (a.2.2.2 t).mp ht.1
        · exact (a.2.2.2 t).mp ht.1
        · exact (a.2.2.2.2.2.2 t).mp ht.1
      rcases this with h' | h'
      · exact ho t h'
      · exact ht.2 h'
    · intro k t hkt
      simp only at hkt ⊢
      rw [p3] at hkt
      simp only [LRU.store, List.mem_cons, Prod.mk.injEq, List.mem_filter, decide_eq_true_eq] at hkt
      rcases hkt with ⟨rfl, rfl⟩ | ⟨hkt, _, hne⟩
      · exact ⟨x, rfl, by simp⟩
      · have hin : (k, t) ∈ (abs st.cache).entries := by
          rcases ha with a | a | a
          · rw [← a.2.1]; exact hkt
          · obtain ⟨k', ha'⟩ := a.2.1
            rw [ha']; simp [hkt]
          · rw [a.2.2.1] at hkt; cases hkt
        obtain ⟨y, hy1, hy2⟩ := he k t hin
        exact ⟨y, hy1, by rw [Function.update_of_ne hne]; exact hy2⟩

/-- C43: if inputs with the same hash have the same value, every evaluation through the cache returns the directly
computed value, for every history and every capacity. -/
theorem C43_transparent_partial (hash : X → Key) (f : X → V) (hinj : ∀ x y, hash x = hash y → f x = f y)
    (n : ℕ) (k0 : Key) (heap : ℕ → V) (xs : List X) :
    (memoRun hash f ⟨init n k0, heap⟩ xs).1 = xs.map (fun x => some (f x)) := by
  have key : ∀ (xs : List X) (st : Store Key V), Good hash f st →
      (memoRun hash f st xs).1 = xs.map (fun x => some (f x)) := by
    intro xs
    induction xs with
    | nil => intro st _; rfl
    | cons x xs ih =>
      intro st h
      obtain ⟨h1, h2⟩ := memo_good hash f hinj st h x
      simp only [memoRun, List.map_cons, h1, ih _ h2]
  refine key xs _ ⟨init_inv n k0, by simp [abs, init], ?_⟩
  intro k s h; simp [abs, init] at h

/-- C43 is violated by hash collisions: two evaluations in a row whose inputs have the same hash return the value of the
first input both times. -/
theorem C43_violated_on_collision (hash : X → Key) (f : X → V) (n : ℕ) (k0 : Key) (heap : ℕ → V) (x y : X)
    (hxy : hash x = hash y) :
    (memoRun hash f ⟨init n k0, heap⟩ [x, y]).1 = [some (f x), some (f x)] := by
  -- the second evaluation is a hit with the same key, so it behaves as an evaluation of `x`
  have h := C43_transparent_partial (X := Unit) (fun _ => hash x) (fun _ => f x) (fun _ _ _ => rfl) n k0 heap [(), ()]
  have e1 : memo hash f ⟨init n k0, heap⟩ x = memo (X := Unit) (fun _ => hash x) (fun _ => f x) ⟨init n k0, heap⟩ () := rfl
  simp only [memoRun, List.map_cons, List.map_nil, List.cons.injEq, and_true] at h ⊢
  refine ⟨by rw [e1]; exact h.1, ?_⟩
  rw [e1]
  have hg : Good (X := Unit) (fun _ => hash x) (fun _ => f x) (memo (X := Unit) (fun _ => hash x) (fun _ => f x)
      (⟨init n k0, heap⟩ : Store Key V) ()).2 :=
    (memo_good _ _ (fun _ _ _ => rfl) _ ⟨init_inv n k0, by simp [abs, init], by
      intro k s h; simp [abs, init] at h⟩ ()).2
  -- there is an entry for the key
  set st := (memo (X := Unit) (fun _ => hash x) (fun _ => f x) (⟨init n k0, heap⟩ : Store Key V) ()).2 with hst
  have hhit : ∃ s, st.cache.keyToSlot (hash x) = some s := by
    rw [hst]
    unfold memo
    obtain ⟨g1, g2⟩ := C42_getOrAcquire (init n k0) (init_inv n k0) (hash x)
    rcases g2 with ⟨s, hm, hr, ha⟩ | ⟨hm, s, hr, ha, hv, hno⟩
    · simp [LRU.Maps, abs, init] at hm
    · simp only
      generalize hgg : getOrAcquire (init n k0) (hash x) = g at *
      obtain ⟨⟨o, b⟩, c⟩ := g
      simp only [Prod.mk.injEq] at hr
      obtain ⟨rfl, rfl⟩ := hr
      simp only at g1 ha hv ⊢
      have hs : s < c.cap := by
        have hout : (abs c).out s := by
          rcases ha with a | a | a
          · exact (a.2.2.2 s).mpr (Or.inr rfl)
          · exact (a.2.2.2 s).mpr (Or.inr rfl)
          · exact (a.2.2.2.2.2.2 s).mpr (Or.inr rfl)
        exact g1.out_lt s hout
      obtain ⟨p1, p2, p3, p4, p5⟩ := (C42_put c g1 (hash x) s).2 hs
      exact ⟨s, (p2.map_iff _ _).mpr (mem_abs.mp (by rw [p3]; simp [LRU.store]))⟩
  obtain ⟨s, hs⟩ := hhit
  obtain ⟨_, _, hval⟩ := hg.2.2 (hash x) s (mem_abs.mpr ((hg.1.map_iff _ _).mp hs))
  simp only [memo, getOrAcquire, ← hxy, hs, hval]

/-- C43: with a key type of finitely many values (the code uses 64-bit hashes of double vectors) such collisions exist
whenever there are infinitely many inputs. -/
theorem C43_collisions_exist [Finite Key] [Infinite X] (hash : X → Key) : ∃ x y, x ≠ y ∧ hash x = hash y := by
  obtain ⟨x, y, hne, h⟩ := Finite.exists_ne_map_eq_of_infinite hash
  exact ⟨x, y, hne, h⟩

end memo

/-! ### Non-vacuity -/

/-- capacity 2, three keys: the least recently used one (key 1) is evicted -/
example :
    let c := init 2 0
    let c := (put (getOrAcquire c 1).2 1 1).2
    let c := (put (getOrAcquire c 2).2 2 0).2
    let c := (get c 2).2
    let r := getOrAcquire c 3
    (c.lru, r.1, r.2.lru, (get r.2 1).1, (get r.2 2).1) = ([0, 1], (some 1, false), [0], none, some 0) := by
  decide +kernel

/-- everything handed out: the pool doubles -/
example : ((getOrAcquire (getOrAcquire (init 1 0) 5).2 6).1, (getOrAcquire (getOrAcquire (init 1 0) 5).2 6).2.cap) =
    ((some 1, false), 2) := by decide +kernel

example : (memoRun (fun x : ℕ => x % 4) (fun x => x * 10) ⟨init 2 0, fun _ => 0⟩ [1, 2, 3, 1, 1]).1 =
    [some 10, some 20, some 30, some 10, some 10] := by decide +kernel

/-! ### C67: the circular-buffer cache of the legacy collision evaluators -/

section ring
variable {X V : Type*}

/-- run a sequence of evaluations through `GetContactResultCached` -/
def ringRun (hash : X → Key) (f : X → V) : Ring Key V → List X → List V × Ring Key V
  | r, [] => ([], r)
  | r, x :: xs =>
    let a := r.memo hash f x
    let b := ringRun hash f a.2 xs
    (a.1 :: b.1, b.2)

/-- the buffers have the same positive length, the write position is inside, and every key position holds the default
key or the key of an input whose value is stored beside it -/
def RingGood (hash : X → Key) (f : X → V) (k0 : Key) (r : Ring Key V) : Prop :=
  r.vals.length = r.keys.length ∧ r.m < r.keys.length ∧
  ∀ i (hk : i < r.keys.length) (hv : i < r.vals.length), r.keys[i] = k0 ∨ ∃ x, r.keys[i] = hash x ∧ r.vals[i] = f x

theorem ring_get_none {r : Ring Key V} {k : Key} (hlen : r.vals.length = r.keys.length) (h : r.get k = none) :
    ∀ i (hk : i < r.keys.length), r.keys[i] ≠ k := by
  intro i hk hik
  unfold Ring.get at h
  have hlt : r.keys.findIdx (fun a => decide (a = k)) < r.keys.length :=
    List.findIdx_lt_length_of_exists ⟨r.keys[i], List.getElem_mem hk, by simp [hik]⟩
  simp only [hlt, if_true] at h
  rw [List.getElem?_eq_none_iff] at h
  omega

theorem ring_get_some {r : Ring Key V} {k : Key} {v : V} (h : r.get k = some v) :
    ∃ i, ∃ (hk : i < r.keys.length) (hv : i < r.vals.length), r.keys[i] = k ∧ r.vals[i] = v := by
  unfold Ring.get at h
  simp only at h
  split_ifs at h with c
  rw [List.getElem?_eq_some_iff] at h
  obtain ⟨hv, he⟩ := h
  refine ⟨_, c, hv, ?_, he⟩
  have := List.findIdx_getElem (w := c)
  simpa using this

theorem ring_memo_good (hash : X → Key) (f : X → V) (k0 : Key) (hinj : ∀ x y, hash x = hash y → f x = f y)
    (r : Ring Key V) (h : RingGood hash f k0 r) (x : X) (hx : hash x ≠ k0) :
    (r.memo hash f x).1 = f x ∧ RingGood hash f k0 (r.memo hash f x).2 := by
  obtain ⟨h1, h2, h3⟩ := h
  unfold Ring.memo
  cases hg : r.get (hash x) with
  | some v =>
    refine ⟨?_, h1, h2, h3⟩
    obtain ⟨i, hk, hv, hik, hiv⟩ := ring_get_some hg
    rcases h3 i hk hv with h' | ⟨y, hy, hfy⟩
    · exact absurd (hik.symm.trans h') hx
    · rw [hik] at hy
      rw [← hiv, hfy]; exact hinj y x hy.symm
  | none =>
    refine ⟨rfl, ?_⟩
    unfold Ring.put RingGood
    simp only [List.length_set]
    refine ⟨h1, ?_, ?_⟩
    · split_ifs <;> omega
    · intro i hk hv
      by_cases e : r.m = i
      · subst e
        exact Or.inr ⟨x, by simp, by simp⟩
      · simp only [List.getElem_set_ne e]
        exact h3 i hk hv

/-- C67 (partial): if inputs with the same hash have the same value and no input hashes to the default-constructed key
(0), every evaluation through the legacy cache returns the directly computed value, for every history and every buffer
size of at least one.  Missing: inputs whose hash is the default key, see `C67_violated_default_key`. -/
theorem C67_transparent_partial (hash : X → Key) (f : X → V) (k0 : Key) (v0 : V)
    (hinj : ∀ x y, hash x = hash y → f x = f y) (n : ℕ) (hn : 0 < n) (xs : List X) (hx : ∀ x ∈ xs, hash x ≠ k0) :
    (ringRun hash f (Ring.init n k0 v0) xs).1 = xs.map f := by
  have key : ∀ (xs : List X) (r : Ring Key V), RingGood hash f k0 r → (∀ x ∈ xs, hash x ≠ k0) →
      (ringRun hash f r xs).1 = xs.map f := by
    intro xs
    induction xs with
    | nil => intro r _ _; rfl
    | cons x xs ih =>
      intro r h hx
      obtain ⟨a, b⟩ := ring_memo_good hash f k0 hinj r h x (hx x (by simp))
      simp only [ringRun, List.map_cons, a, ih _ b (fun y hy => hx y (by simp [hy]))]
  refine key xs _ ⟨by simp [Ring.init], by simpa [Ring.init] using hn, ?_⟩ hx
  intro i hk hv
  left
  simp [Ring.init]

/-- C67 is violated: an input whose hash is the default key (boost's hash of an empty range is 0) hits in a fresh cache
and gets the default-constructed value (a pair of null pointers) instead of its result. -/
theorem C67_violated_default_key (hash : X → Key) (f : X → V) (k0 : Key) (v0 : V) (n : ℕ) (hn : 0 < n) (x : X)
    (hx : hash x = k0) : ((Ring.init n k0 v0).memo hash f x).1 = v0 := by
  obtain ⟨m, rfl⟩ : ∃ m, n = m + 1 := ⟨n - 1, by omega⟩
  simp [Ring.memo, Ring.get, Ring.init, hx, List.replicate_succ, List.findIdx_cons]

/-- C67: storing a key that is already stored does not replace its value as long as the old one is still in the buffer at
a lower position. -/
theorem C67_duplicate_put_stale (k k0 : Key) (v0 v1 v2 : V) (n : ℕ) :
    (((Ring.init (n + 2) k0 v0).put k v1).put k v2).get k = some v1 := by
  simp [Ring.put, Ring.get, Ring.init, List.replicate_succ, List.findIdx_cons]

/-- C67: the buffer keeps the last `bufsize` stores: a key just stored is found. -/
theorem C67_put_get (r : Ring Key V) (hlen : r.vals.length = r.keys.length) (hm : r.m < r.keys.length) (k : Key) (v : V)
    (hnew : r.get k = none) : (r.put k v).get k = some v := by
  have hnone := ring_get_none hlen hnew
  have hidx : (r.keys.set r.m k).findIdx (fun a => decide (a = k)) = r.m := by
    rw [List.findIdx_eq (by simpa using hm)]
    refine ⟨by simp, ?_⟩
    intro j hj
    rw [List.getElem_set_ne (by omega)]
    simpa using hnone j (by omega)
  simp only [Ring.put, Ring.get, hidx, List.length_set, hm, if_true]
  rw [List.getElem?_set_self (by omega)]

example : (ringRun (fun x : ℕ => x) (fun x => x + 100) (Ring.init 2 0 0) [1, 2, 3, 1, 2]).1 =
    [101, 102, 103, 101, 102] := by decide +kernel

end ring

end Verif.Cache
