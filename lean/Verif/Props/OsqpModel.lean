import Verif.Model.OsqpModel
import Mathlib.Tactic.Ring
import Mathlib.Tactic.Linarith

/-!
C13 (bookkeeping of variables and constraints) and C15 (`setObjective`).

Specification of the bookkeeping: a model is the list of its live entries (handle, payload) in the order of
creation together with the number of handles given out so far (`Spec`).
-/

set_option linter.unusedSectionVars false
set_option linter.unusedVariables false

namespace Verif.Sco

open Verif.Bounds (Ext)

universe u
variable {P : Type u}

/-- Specification: what a user believes the model contains. -/
structure Spec (P : Type u) where
  next : Nat
  live : List (Nat × P)

/-- The calls a user can make on one family of the model's entries. -/
inductive StoreOp (P : Type u)
  | add (p : P)
  | remove (ids : List Nat)
  | set (id : Nat) (p : P)
  | update

/-- Specification of the calls. -/
def Spec.step (s : Spec P) : StoreOp P → Spec P
  | .add p => ⟨s.next + 1, s.live ++ [(s.next, p)]⟩
  | .remove ids => ⟨s.next, s.live.filter fun q => decide (q.1 ∉ ids)⟩
  | .set id p => ⟨s.next, s.live.map fun q => if q.1 = id then (q.1, p) else q⟩
  | .update => s

/-- Specification: an empty model. -/
def Spec.empty : Spec P := ⟨0, []⟩

/-- Client contract: handles come from the model; bounds are set on live variables only. -/
def Spec.Ok (s : Spec P) : StoreOp P → Prop
  | .add _ => True
  | .remove ids => ∀ id ∈ ids, id < s.next
  | .set id _ => ∃ q ∈ s.live, q.1 = id
  | .update => True

/-- The implementation of the calls. -/
def Store.step (s : Store P) : StoreOp P → Option (Store P)
  | .add p => some (s.add p).1
  | .remove ids => some (s.remove ids)
  | .set id p => s.setAt id p
  | .update => s.update

namespace Store

/-- Is the handle marked as removed? -/
def removedB (s : Store P) (id : Nat) : Bool := ((s.reps[id]?).map Rep.removed).getD true

/-- The entry as the user sees it. -/
def liveItem (reps : List Rep) (q : Option Nat × P) : Option (Nat × P) :=
  match q.1 with
  | none => none
  | some id => match reps[id]? with
    | none => none
    | some r => if r.removed then none else some (id, q.2)

/-- The live entries, in order. -/
def live (s : Store P) : List (Nat × P) := s.items.filterMap (liveItem s.reps)

/-- Every entry has a rep and the rep's index is the position of the entry. -/
def Inv (s : Store P) : Prop :=
  ∀ (k : Nat) (q : Option Nat × P), s.items[k]? = some q → ∃ (id : Nat) (r : Rep), q.1 = some id ∧ s.reps[id]? = some r ∧ r.index = k

theorem inv_empty : (Store.empty : Store P).Inv := by intro k q h; simp [Store.empty] at h

theorem add_snd (s : Store P) (p : P) : (s.add p).2 = s.reps.length := rfl

theorem add_inv {s : Store P} (h : s.Inv) (p : P) : (s.add p).1.Inv := by
  intro k q hq
  simp only [Store.add] at hq ⊢
  rw [List.getElem?_append] at hq
  split_ifs at hq with hk
  · obtain ⟨id, r, h1, h2, h3⟩ := h k q hq
    refine ⟨id, r, h1, ?_, h3⟩
    have : id < s.reps.length := by
      by_contra hc; rw [List.getElem?_eq_none (not_lt.mp hc)] at h2; cases h2
    rw [List.getElem?_append_left this]; exact h2
  · have hk' : k = s.items.length := by
      by_contra hc
      have : 1 ≤ k - s.items.length := by omega
      rw [List.getElem?_eq_none (by simpa using this)] at hq; cases hq
    subst hk'
    simp at hq; subst hq
    exact ⟨s.reps.length, ⟨s.items.length, false⟩, rfl, by simp, rfl⟩

theorem id_lt {s : Store P} (h : s.Inv) {q} (hq : q ∈ s.items) : ∃ id, q.1 = some id ∧ id < s.reps.length := by
  obtain ⟨k, hk⟩ := List.getElem?_of_mem hq
  obtain ⟨id, r, h1, h2, _⟩ := h k q hk
  refine ⟨id, h1, ?_⟩
  by_contra hc; rw [List.getElem?_eq_none (not_lt.mp hc)] at h2; cases h2

theorem add_live {s : Store P} (h : s.Inv) (p : P) : (s.add p).1.live = s.live ++ [(s.reps.length, p)] := by
  simp only [live, Store.add, List.filterMap_append]
  congr 1
  · apply List.filterMap_congr
    intro q hq
    obtain ⟨id, h1, h2⟩ := id_lt h hq
    simp only [liveItem, h1]
    rw [List.getElem?_append_left h2]
  · simp [liveItem]

theorem mark_get (ids : List Nat) (rs : List Rep) (id : Nat) :
    (ids.foldl (fun rs id => rs.modify id fun r => { r with removed := true }) rs)[id]? =
      (rs[id]?).map fun r => if id ∈ ids then { r with removed := true } else r := by
  induction ids generalizing rs with
  | nil => simp
  | cons a ids ih =>
    rw [List.foldl_cons, ih, List.getElem?_modify]
    by_cases h : a = id
    · subst h; simp; cases rs[a]? <;> simp
    · have h' : ¬ id = a := fun e => h e.symm
      cases rs[id]? with
      | none => simp
      | some r => simp [h, h']

theorem mark_length (ids : List Nat) (rs : List Rep) :
    (ids.foldl (fun rs id => rs.modify id fun r => { r with removed := true }) rs).length = rs.length := by
  induction ids generalizing rs with
  | nil => rfl
  | cons a ids ih => rw [List.foldl_cons, ih, List.length_modify]

theorem remove_inv {s : Store P} (h : s.Inv) (ids : List Nat) : (s.remove ids).Inv := by
  intro k q hq
  obtain ⟨id, r, h1, h2, h3⟩ := h k q hq
  refine ⟨id, (if id ∈ ids then { r with removed := true } else r), h1, ?_, ?_⟩
  · simp only [Store.remove, mark_get, h2, Option.map_some]
  · split_ifs <;> exact h3

theorem remove_live (s : Store P) (ids : List Nat) :
    (s.remove ids).live = s.live.filter fun q => decide (q.1 ∉ ids) := by
  simp only [live, Store.remove]
  rw [← List.filterMap_eq_filter, List.filterMap_filterMap]
  apply List.filterMap_congr
  intro q _
  rcases q with ⟨_ | id, p⟩
  · simp [liveItem]
  · simp only [liveItem, mark_get]
    cases hr : s.reps[id]? with
    | none => simp
    | some r =>
      by_cases hm : id ∈ ids
      · simp [hm]; cases r.removed <;> simp [Option.guard, hm]
      · simp [hm]; cases r.removed <;> simp [Option.guard, hm]

/-- A live handle has its rep in range, not removed, and its index points at its entry. -/
theorem live_mem {s : Store P} (h : s.Inv) {id : Nat} {p : P} (hm : (id, p) ∈ s.live) :
    ∃ k r, s.items[k]? = some (some id, p) ∧ s.reps[id]? = some r ∧ r.index = k ∧ r.removed = false := by
  simp only [live, List.mem_filterMap] at hm
  obtain ⟨q, hq, hl⟩ := hm
  obtain ⟨k, hk⟩ := List.getElem?_of_mem hq
  obtain ⟨id', r, h1, h2, h3⟩ := h k q hk
  simp only [liveItem, h1, h2] at hl
  cases hr : r.removed with
  | true => simp [hr] at hl
  | false =>
    simp [hr] at hl
    obtain ⟨e1, e2⟩ := hl
    subst e1
    refine ⟨k, r, ?_, h2, h3, hr⟩
    rw [hk, ← e2, ← h1]

/-- Two entries with the same handle are at the same position. -/
theorem pos_unique {s : Store P} (h : s.Inv) {k k' : Nat} {q q'} (hk : s.items[k]? = some q)
    (hk' : s.items[k']? = some q') (he : q.1 = q'.1) : k = k' := by
  obtain ⟨id, r, h1, h2, h3⟩ := h k q hk
  obtain ⟨id', r', h1', h2', h3'⟩ := h k' q' hk'
  rw [h1, h1'] at he
  injection he with he; subst he
  rw [h2] at h2'; injection h2' with e; subst e
  rw [← h3, ← h3']

theorem setAt_live {s : Store P} (h : s.Inv) {id : Nat} {p0 : P} (hm : (id, p0) ∈ s.live) (p : P) :
    ∃ s', s.setAt id p = some s' ∧ s'.Inv ∧ s'.reps = s.reps ∧
      s'.live = s.live.map fun q => if q.1 = id then (q.1, p) else q := by
  obtain ⟨k, r, hk, hr, hi, hrem⟩ := live_mem h hm
  have hlt : r.index < s.items.length := by
    rw [hi]; by_contra hc; rw [List.getElem?_eq_none (not_lt.mp hc)] at hk; cases hk
  refine ⟨⟨s.items.modify r.index fun q => (q.1, p), s.reps⟩, ?_, ?_, rfl, ?_⟩
  · simp only [setAt, hr, if_pos hlt]
  · intro j q hq
    simp only at hq ⊢
    rw [List.getElem?_modify] at hq
    cases hj : s.items[j]? with
    | none => simp [hj] at hq
    | some q0 =>
      obtain ⟨id', r', h1, h2, h3⟩ := h j q0 hj
      refine ⟨id', r', ?_, h2, h3⟩
      by_cases hjk : r.index = j
      · simp [hj, hjk] at hq; rw [← hq]; exact h1
      · simp [hj, hjk] at hq; rw [← hq]; exact h1
  · have key : (s.items.modify r.index fun q => (q.1, p)) =
        s.items.map fun q => if q.1 = some id then (q.1, p) else q := by
      apply List.ext_getElem?
      intro j
      rw [List.getElem?_modify, List.getElem?_map]
      cases hj : s.items[j]? with
      | none => simp
      | some q0 =>
        simp only [Option.map_some]
        by_cases hjk : r.index = j
        · have : q0.1 = some id := by
            rw [hi] at hjk; subst hjk; rw [hk] at hj; injection hj with hj; rw [← hj]
          simp [hjk, this]
        · have : q0.1 ≠ some id := by
            intro hc
            exact hjk (hi.trans (pos_unique h hk hj hc.symm))
          simp [hjk, this]
    show List.filterMap (liveItem s.reps) (s.items.modify r.index fun q => (q.1, p)) = _
    rw [key, live, List.filterMap_map, List.map_filterMap]
    apply List.filterMap_congr
    intro q _
    rcases q with ⟨_ | id', p'⟩
    · simp [liveItem]
    · by_cases hid : id' = id
      · subst hid
        simp [liveItem, hr, hrem]
      · simp only [Function.comp, liveItem, Option.some.injEq, hid, if_false]
        cases s.reps[id']? with
        | none => simp
        | some r' => cases hr' : r'.removed <;> simp [hid, hr']

/-- Loop invariant of the compaction after `k` iterations. -/
structure LoopInv (s : Store P) (k : Nat) (c : CState P) : Prop where
  inew : c.inew = ((s.items.take k).filterMap (liveItem s.reps)).length
  front : c.items.take c.inew =
    ((s.items.take k).filterMap (liveItem s.reps)).map fun q => (some q.1, q.2)
  back : c.items.drop k = s.items.drop k
  len : c.items.length = s.items.length
  rlen : c.reps.length = s.reps.length
  flags : ∀ id : Nat, (c.reps[id]?).map Rep.removed = (s.reps[id]?).map Rep.removed
  idx : ∀ (j : Nat) (q : Nat × P), ((s.items.take k).filterMap (liveItem s.reps))[j]? = some q →
    (c.reps[q.1]?).map Rep.index = some j
  rest : ∀ id : Nat, (∀ q ∈ (s.items.take k).filterMap (liveItem s.reps), q.1 ≠ id) → c.reps[id]? = s.reps[id]?

theorem take_succ_filterMap {α β} (f : α → Option β) (l : List α) (k : Nat) (q : α) (h : l[k]? = some q) :
    (l.take (k + 1)).filterMap f = (l.take k).filterMap f ++ (f q).toList := by
  rw [List.take_add_one, h, List.filterMap_append]
  cases hf : f q <;> simp [hf]

theorem drop_of_set {α} (l : List α) (i j : Nat) (a : α) (h : i < j) : (l.set i a).drop j = l.drop j := by
  apply List.ext_getElem?
  intro n
  rw [List.getElem?_drop, List.getElem?_drop, List.getElem?_set]
  have : i ≠ j + n := by omega
  simp [this]

theorem step_loopInv {s : Store P} (h : s.Inv) {k : Nat} {c : CState P} (hk : k < s.items.length)
    (L : LoopInv s k c) : ∃ c', compactStep c k = some c' ∧ LoopInv s (k + 1) c' := by
  obtain ⟨q, hq⟩ : ∃ q, s.items[k]? = some q := ⟨_, List.getElem?_eq_getElem hk⟩
  obtain ⟨id, r, h1, h2, h3⟩ := h k q hq
  have hck : c.items[k]? = some (some id, q.2) := by
    have : (c.items.drop k)[0]? = (s.items.drop k)[0]? := by rw [L.back]
    simp only [List.getElem?_drop, Nat.add_zero] at this
    rw [this, hq, ← h1]
  -- the handle of position k is not among those already kept
  have hfresh : ∀ q' ∈ (s.items.take k).filterMap (liveItem s.reps), q'.1 ≠ id := by
    intro q' hq' he
    obtain ⟨a, ha, hl⟩ := List.mem_filterMap.1 hq'
    obtain ⟨j, hj⟩ := List.getElem?_of_mem ha
    have hjk : j < k := by
      by_contra hc
      rw [List.getElem?_take] at hj
      simp [hc] at hj
    rw [List.getElem?_take_of_lt hjk] at hj
    have ha1 : a.1 = some id := by
      obtain ⟨id', r', g1, g2, g3⟩ := h j a hj
      simp only [liveItem, g1, g2] at hl
      cases hr : r'.removed with
      | true => simp [hr] at hl
      | false => simp [hr] at hl; rw [g1, ← he, ← hl]
    have := pos_unique h hj hq (ha1.trans h1.symm)
    omega
  have hcr : c.reps[id]? = some r := by rw [L.rest id hfresh, h2]
  have hle : c.inew ≤ k := by
    rw [L.inew]
    refine le_trans (List.length_filterMap_le _ _) ?_
    simp
  have htake := take_succ_filterMap (liveItem s.reps) s.items k q hq
  cases hrem : r.removed with
  | true =>
    have hnone : liveItem s.reps q = none := by simp [liveItem, h1, h2, hrem]
    rw [hnone] at htake
    simp only [Option.toList_none, List.append_nil] at htake
    refine ⟨⟨c.items.set k (none, q.2), c.reps, c.inew⟩, ?_, ?_⟩
    · simp [compactStep, hck, hcr, hrem]
    · refine ⟨?_, ?_, ?_, ?_, L.rlen, L.flags, ?_, ?_⟩
      · simpa [htake] using L.inew
      · rw [htake]; rw [← L.front]
        simp only
        rw [List.take_set_of_le hle]
      · simp only
        rw [drop_of_set _ _ _ _ (Nat.lt_succ_self k)]
        have := congrArg (List.drop 1) L.back
        simpa [List.drop_drop] using this
      · simpa using L.len
      · rw [htake]; exact L.idx
      · rw [htake]; exact L.rest
  | false =>
    have hsome : liveItem s.reps q = some (id, q.2) := by simp [liveItem, h1, h2, hrem]
    rw [hsome] at htake
    simp only [Option.toList_some] at htake
    have hilt : c.inew < c.items.length := by rw [L.len]; omega
    refine ⟨⟨c.items.set c.inew (some id, q.2), c.reps.set id { r with index := c.inew }, c.inew + 1⟩,
      ?_, ?_⟩
    · simp [compactStep, hck, hcr, hrem]
    · have hidlt : id < c.reps.length := by
        by_contra hc; rw [List.getElem?_eq_none (not_lt.mp hc)] at hcr; cases hcr
      refine ⟨?_, ?_, ?_, ?_, ?_, ?_, ?_, ?_⟩
      · simp [htake, L.inew]
      · rw [htake, List.map_append, ← L.front]
        simp only
        rw [List.take_add_one, List.take_set_of_le (le_refl _), List.getElem?_set_self hilt]
        simp
      · simp only
        rw [drop_of_set _ _ _ _ (by omega)]
        have := congrArg (List.drop 1) L.back
        simpa [List.drop_drop] using this
      · simpa using L.len
      · simpa using L.rlen
      · intro id'
        simp only [List.getElem?_set]
        by_cases he : id = id'
        · subst he; rw [← L.flags id, hcr]; simp [hidlt]
        · simp [he]; exact L.flags id'
      · intro j q' hq'
        rw [htake, List.getElem?_append] at hq'
        simp only
        split_ifs at hq' with hj
        · have hne : id ≠ q'.1 := fun e => hfresh q' (List.mem_of_getElem? hq') e.symm
          rw [List.getElem?_set_ne hne]
          exact L.idx j q' hq'
        · have hj' : j = c.inew := by
            rw [L.inew]
            by_contra hc
            have : 1 ≤ j - ((s.items.take k).filterMap (liveItem s.reps)).length := by omega
            rw [List.getElem?_eq_none (by simpa using this)] at hq'; cases hq'
          rw [hj', L.inew] at hq'
          simp at hq'
          rw [← hq', List.getElem?_set_self hidlt, hj']
          simp
      · intro id' hid'
        rw [htake] at hid'
        have hne : id ≠ id' := hid' (id, q.2) (by simp)
        simp only
        rw [List.getElem?_set_ne hne]
        exact L.rest id' fun q' hq' => hid' q' (by simp [hq'])

theorem loop_run {s : Store P} (h : s.Inv) (k : Nat) (hk : k ≤ s.items.length) :
    ∃ c, (List.range k).foldlM compactStep ⟨s.items, s.reps, 0⟩ = some c ∧ LoopInv s k c := by
  induction k with
  | zero => exact ⟨_, rfl, ⟨by simp, by simp, rfl, rfl, rfl, fun _ => rfl, by simp, fun _ _ => rfl⟩⟩
  | succ k ih =>
    obtain ⟨c, hc, L⟩ := ih (by omega)
    obtain ⟨c', hc', L'⟩ := step_loopInv h (by omega : k < s.items.length) L
    refine ⟨c', ?_, L'⟩
    rw [List.range_succ, List.foldlM_append, hc]
    simp [hc']

theorem update_spec {s : Store P} (h : s.Inv) :
    ∃ s', s.update = some s' ∧ s'.Inv ∧ s'.live = s.live ∧ s'.reps.length = s.reps.length ∧
      s'.items = s.live.map (fun q => (some q.1, q.2)) := by
  obtain ⟨c, hc, L⟩ := loop_run h s.items.length (le_refl _)
  have htake : s.items.take s.items.length = s.items := List.take_length
  have hitems : c.items.take c.inew = s.live.map fun q => (some q.1, q.2) := by
    rw [L.front, htake]; rfl
  have hidx : ∀ j q, s.live[j]? = some q → (c.reps[q.1]?).map Rep.index = some j := by
    intro j q hq; apply L.idx; rw [htake]; exact hq
  refine ⟨⟨c.items.take c.inew, c.reps⟩, ?_, ?_, ?_, L.rlen, hitems⟩
  · simp [Store.update, hc]
  · intro k q hq
    simp only at hq ⊢
    rw [hitems, List.getElem?_map] at hq
    cases hk : s.live[k]? with
    | none => simp [hk] at hq
    | some a =>
      simp only [hk, Option.map_some, Option.some.injEq] at hq
      have := hidx k a hk
      cases hr : c.reps[a.1]? with
      | none => simp [hr] at this
      | some r =>
        simp [hr] at this
        exact ⟨a.1, r, by rw [← hq], hr, this⟩
  · show (c.items.take c.inew).filterMap (liveItem c.reps) = s.live
    rw [hitems, List.filterMap_map]
    conv_rhs => rw [← List.filterMap_some (l := s.live)]
    apply List.filterMap_congr
    intro q hq
    obtain ⟨k, r, _, hr, _, hrem⟩ := live_mem h (show (q.1, q.2) ∈ s.live from hq)
    have hf := L.flags q.1
    rw [hr] at hf
    cases hcr : c.reps[q.1]? with
    | none => simp [hcr] at hf
    | some r' =>
      simp [hcr, hrem] at hf
      simp [liveItem, hcr, hf]

end Store

/-- The relation between implementation and specification. -/
structure Sim (s : Store P) (a : Spec P) : Prop where
  inv : s.Inv
  live : s.live = a.live
  next : s.reps.length = a.next

theorem Sim.step {s : Store P} {a : Spec P} (h : Sim s a) (op : StoreOp P) (ok : a.Ok op) :
    ∃ s', s.step op = some s' ∧ Sim s' (a.step op) := by
  cases op with
  | add p =>
    refine ⟨_, rfl, Store.add_inv h.inv p, ?_, ?_⟩
    · rw [Store.add_live h.inv, h.live, h.next]; rfl
    · simp [Store.add, Spec.step, h.next]
  | remove ids =>
    refine ⟨_, rfl, Store.remove_inv h.inv ids, ?_, ?_⟩
    · rw [Store.remove_live, h.live]; rfl
    · simp [Store.remove, Store.mark_length, Spec.step, h.next]
  | set id p =>
    obtain ⟨q, hq, hid⟩ := ok
    obtain ⟨s', h1, h2, h3, h4⟩ := Store.setAt_live h.inv (id := id) (p0 := q.2)
      (by rw [h.live, ← hid]; exact hq) p
    exact ⟨s', h1, h2, by rw [h4, h.live]; rfl, by rw [h3, h.next]; rfl⟩
  | update =>
    obtain ⟨s', h1, h2, h3, h4, _⟩ := Store.update_spec h.inv
    exact ⟨s', h1, h2, by rw [h3, h.live]; rfl, by rw [h4, h.next]; rfl⟩

/-- A history obeys the client contract. -/
def Spec.OkAll (a : Spec P) : List (StoreOp P) → Prop
  | [] => True
  | op :: ops => a.Ok op ∧ (a.step op).OkAll ops

theorem Sim.run {s : Store P} {a : Spec P} (h : Sim s a) (ops : List (StoreOp P)) (ok : a.OkAll ops) :
    ∃ s', ops.foldlM Store.step s = some s' ∧ Sim s' (ops.foldl Spec.step a) := by
  induction ops generalizing s a with
  | nil => exact ⟨s, rfl, h⟩
  | cons op ops ih =>
    obtain ⟨s1, h1, h2⟩ := h.step op ok.1
    obtain ⟨s', h3, h4⟩ := ih h2 ok.2
    exact ⟨s', by simp [h1, h3], h4⟩

theorem sim_empty : Sim (Store.empty : Store P) Spec.empty :=
  ⟨Store.inv_empty, rfl, rfl⟩

/-- C13: for every history of calls on a model that obeys the client contract (handles come from the
model, bounds are set on live variables), no call hits undefined behaviour, the live entries and their
payloads (bounds; expressions and types) are exactly those added and not removed, in the order of creation,
and after `update()` the stored vector contains exactly them with `index` equal to the position. -/
theorem C13_every_history (ops : List (StoreOp P)) (ok : (Spec.empty : Spec P).OkAll ops) :
    ∃ s, ops.foldlM Store.step Store.empty = some s ∧
      s.live = (ops.foldl Spec.step Spec.empty).live ∧
      ∃ s', s.update = some s' ∧
        s'.items = (ops.foldl Spec.step Spec.empty).live.map (fun q => (some q.1, q.2)) ∧
        ∀ k q, (ops.foldl Spec.step Spec.empty).live[k]? = some q → s'.indexOf q.1 = some k := by
  obtain ⟨s, h1, h2⟩ := sim_empty.run ops ok
  obtain ⟨s', h3, h4, h5, h6, h7⟩ := Store.update_spec h2.inv
  refine ⟨s, h1, h2.live, s', h3, by rw [h7, h2.live], ?_⟩
  intro k q hq
  have : s'.items[k]? = some (some q.1, q.2) := by
    rw [h7, List.getElem?_map, h2.live, hq]; rfl
  obtain ⟨id, r, g1, g2, g3⟩ := h4 k _ this
  injection g1 with g1
  simp [Store.indexOf, g1, g2, g3]

/-- C13: after `update()` distinct live variables never share a solution column, and `getVarValues` gives
the `k`-th live variable the `k`-th entry of the solution vector. -/
theorem C13_distinct_columns (ops : List (StoreOp P)) (ok : (Spec.empty : Spec P).OkAll ops)
    {s s' : Store P} (h : ops.foldlM Store.step Store.empty = some s) (hu : s.update = some s') :
    (∀ a ∈ s'.live, ∀ b ∈ s'.live, s'.indexOf a.1 = s'.indexOf b.1 → a = b) ∧
    ∀ {K : Type u} (solution : List K) (k : Nat) (a : Nat × P), s'.live[k]? = some a →
      s'.valueOf solution a.1 = solution[k]? := by
  obtain ⟨s0, h1, h2⟩ := sim_empty.run ops ok
  rw [h] at h1; injection h1 with h1; subst h1
  obtain ⟨s1, h3, h4, h5, h6, h7⟩ := Store.update_spec h2.inv
  rw [hu] at h3; injection h3 with h3; subst h3
  constructor
  · intro a ha b hb he
    obtain ⟨k, r, e1, e2, e3, _⟩ := Store.live_mem h4 (show (a.1, a.2) ∈ s'.live from ha)
    obtain ⟨k', r', e1', e2', e3', _⟩ := Store.live_mem h4 (show (b.1, b.2) ∈ s'.live from hb)
    simp only [Store.indexOf, e2, e2', Option.map_some, Option.some.injEq] at he
    rw [← e3, he, e3', e1'] at e1
    simp at e1
    exact Prod.ext e1.1.symm e1.2.symm
  · intro K solution k a ha
    have : s'.items[k]? = some (some a.1, a.2) := by
      rw [h7, List.getElem?_map, ← h5, ha]; rfl
    obtain ⟨id, r, g1, g2, g3⟩ := h4 k _ this
    injection g1 with g1
    simp [Store.valueOf, Store.indexOf, g1, g2, g3]

/-- C13: handles in the specification are never reused: the live list is strictly increasing. -/
theorem C13_handles_increasing (ops : List (StoreOp P)) :
    ((ops.foldl Spec.step (Spec.empty : Spec P)).live.map Prod.fst).Pairwise (· < ·) ∧
    ∀ q ∈ (ops.foldl Spec.step (Spec.empty : Spec P)).live, q.1 < (ops.foldl Spec.step (Spec.empty : Spec P)).next := by
  have gen : ∀ (a : Spec P), ((a.live.map Prod.fst).Pairwise (· < ·) ∧ ∀ q ∈ a.live, q.1 < a.next) →
      (((ops.foldl Spec.step a).live.map Prod.fst).Pairwise (· < ·) ∧
        ∀ q ∈ (ops.foldl Spec.step a).live, q.1 < (ops.foldl Spec.step a).next) := by
    induction ops with
    | nil => intro a h; exact h
    | cons op ops ih =>
      intro a h
      apply ih
      obtain ⟨h1, h2⟩ := h
      cases op with
      | add p =>
        constructor
        · simp only [Spec.step, List.map_append, List.map_cons, List.map_nil]
          rw [List.pairwise_append]
          refine ⟨h1, by simp, ?_⟩
          intro x hx y hy
          simp at hy; subst hy
          obtain ⟨q, hq, rfl⟩ := List.mem_map.1 hx
          exact h2 q hq
        · intro q hq
          simp only [Spec.step, List.mem_append, List.mem_singleton] at hq ⊢
          rcases hq with hq | hq
          · exact Nat.lt_succ_of_lt (h2 q hq)
          · subst hq; exact Nat.lt_succ_self _
      | remove ids =>
        constructor
        · exact h1.sublist ((List.filter_sublist).map _)
        · intro q hq; exact h2 q (List.mem_of_mem_filter hq)
      | set id p =>
        have e : (a.live.map fun q => if q.1 = id then (q.1, p) else q).map Prod.fst = a.live.map Prod.fst := by
          rw [List.map_map]; apply List.map_congr_left; intro q _; simp only [Function.comp]; split_ifs <;> rfl
        constructor
        · show ((a.live.map fun q => if q.1 = id then (q.1, p) else q).map Prod.fst).Pairwise _
          rw [e]; exact h1
        · intro q hq
          have : q.1 ∈ (a.live.map fun q => if q.1 = id then (q.1, p) else q).map Prod.fst :=
            List.mem_map_of_mem hq
          rw [e] at this
          obtain ⟨q', hq', he⟩ := List.mem_map.1 this
          rw [← he]; exact h2 q' hq'
      | update => exact ⟨h1, h2⟩
  exact gen _ ⟨by simp [Spec.empty], by simp [Spec.empty]⟩

/-- non-vacuity for C13: add three variables, remove the middle one, add one more before `update`, set
bounds of a moved one after it. -/
example : ∃ s, ([StoreOp.add 'a', .add 'b', .add 'c', .remove [1], .add 'd', .set 2 'C', .update, .set 3 'D'] :
    List (StoreOp Char)).foldlM Store.step Store.empty = some s ∧
    s.items = [(some 0, 'a'), (some 2, 'C'), (some 3, 'D')] ∧ s.indexOf 3 = some 2 := by
  refine ⟨_, rfl, rfl, rfl⟩

example : (Spec.empty : Spec Char).OkAll
    [StoreOp.add 'a', .add 'b', .add 'c', .remove [1], .add 'd', .set 2 'C', .update, .set 3 'D'] := by
  simp [Spec.OkAll, Spec.Ok, Spec.step, Spec.empty]

/-- Outside the client contract: after a variable has been removed and the model updated, its handle still
carries a stale index, and `setVarBounds` through it changes the bounds of a different, live variable. -/
theorem C13_stale_handle_aliases :
    ∃ s s' : Store Nat, ([StoreOp.add 10, .add 11, .remove [0], .update] : List (StoreOp Nat)).foldlM
        Store.step Store.empty = some s ∧ s.live = [(1, 11)] ∧
      s.setAt 0 99 = some s' ∧ s'.live = [(1, 99)] :=
  ⟨_, _, rfl, rfl, rfl, rfl⟩

section objective
variable {K : Type u} [Field K]

/-- C15: setting a quadratic objective replaces whatever was set before. -/
theorem C15_quadratic_partial (m : OModel K) (q : QuadExpr K Nat) (x : Nat → K) :
    (m.setObjectiveQuad q).obj.value x = q.value x := rfl

/-- C15 for affine objectives holds as long as the previous objective has no quadratic terms (e.g. on a
model whose objective was never quadratic). -/
theorem C15_affine_partial (m : OModel K) (e : AffExpr K Nat) (x : Nat → K) (h : m.obj.terms = []) :
    (m.setObjectiveAff e).obj.value x = e.value x := by
  simp [OModel.setObjectiveAff, QuadExpr.value, h]

/-- What an affine objective really becomes: the new affine part plus the *old* quadratic terms. -/
theorem C15_affine_keeps_quadratic (m : OModel K) (e : AffExpr K Nat) (x : Nat → K) :
    (m.setObjectiveAff e).obj.value x = e.value x + (m.obj.value x - m.obj.aff.value x) := by
  have aux : ∀ (l : List (K × Nat × Nat)) (c : K),
      l.foldl (fun out t => out + t.1 * x t.2.1 * x t.2.2) c =
        c + l.foldl (fun out t => out + t.1 * x t.2.1 * x t.2.2) 0 := by
    intro l
    induction l with
    | nil => intro c; simp
    | cons t l ih => intro c; rw [List.foldl_cons, List.foldl_cons, ih, ih (0 + _)]; ring
  simp only [OModel.setObjectiveAff, QuadExpr.value]
  rw [aux _ (e.value x), aux _ (m.obj.aff.value x)]
  ring

end objective

/-- C15 violated: after setting the quadratic objective `x0*x0` and then the affine objective `x0`, the
objective is not `x0`. -/
theorem C15_violated :
    ∃ (q : QuadExpr ℚ Nat) (e : AffExpr ℚ Nat) (x : Nat → ℚ),
      ((OModel.empty.setObjectiveQuad q).setObjectiveAff e).obj.value x ≠ e.value x := by
  refine ⟨⟨AffExpr.zero, [(1, 0, 0)]⟩, AffExpr.ofVar 0, fun _ => 2, ?_⟩
  simp [OModel.setObjectiveAff, OModel.setObjectiveQuad, QuadExpr.value, AffExpr.value, AffExpr.ofVar]

end Verif.Sco
