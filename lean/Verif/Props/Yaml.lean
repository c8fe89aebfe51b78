import Mathlib.Algebra.Order.Ring.Rat
import Mathlib.Data.List.Perm.Subperm
import Mathlib.Tactic.Linarith
import Verif.Model.Yaml
import Verif.Props.Collision

set_option linter.unusedSectionVars false
set_option linter.unusedVariables false

/-!
# C123-C125: collision settings in YAML documents and archives, and their comparison
-/

namespace Verif.Yaml

open Verif.Collision

universe u

/-! ## Specification -/

/-- The conversion gives back what it wrote. -/
def Codec.Lawful {α : Type u} (c : Codec α) : Prop := ∀ a, c.dec (c.enc a) = some a

/-- The coefficient data after a history of calls on a new object with default `d0`. -/
def after {K : Type u} (isZero : K → Bool) (d0 : K) (ops : List (CoeffOp String K)) : CoeffData String K :=
  ops.foldl (CoeffData.step isZero) (CoeffData.new d0)

/-- The document has the entry `k: v`. -/
def Says (l : List (Node × Node)) (k : String) (v : Node) : Prop := (.scalar k, v) ∈ l

/-- The document has no entry `k`. -/
def Silent (l : List (Node × Node)) (k : String) : Prop := ∀ v, ¬ Says l k v

/-- YAML's rule that keys are unique. -/
def OnceKeys (l : List (Node × Node)) : Prop := ∀ k v w, Says l k v → Says l k w → v = w

/-- The document determines `x` by entry `k`; without the entry it is `dflt`. -/
def FieldIs {α : Type u} (l : List (Node × Node)) (k : String) (dec : Node → Option α) (dflt x : α) : Prop :=
  (∃ v, Says l k v ∧ dec v = some x) ∨ (Silent l k ∧ x = dflt)

/-- An entry `[a, b]: v` of the table in a document. -/
def Lists {K : Type u} (num : Codec K) (e : Node × Node) (a b : String) (v : K) : Prop :=
  e.1 = .seq [.scalar a, .scalar b] ∧ num.dec e.2 = some v

/-- Two numbers the comparison is meant to identify. -/
def Close {K : Type u} [Field K] [LinearOrder K] (feps deps a b : K) : Prop :=
  |a - b| ≤ feps ∨ |a - b| ≤ deps * |a| ∨ |a - b| ≤ deps * |b|

/-! ## Finding entries -/

theorem find_says {l : List (Node × Node)} {k : String} {v : Node} (h : (Node.map l).find k = some v) : Says l k v := by
  simp only [Node.find, Option.map_eq_some_iff] at h
  obtain ⟨e, he, rfl⟩ := h
  have h1 := List.find?_some he
  have h2 := List.mem_of_find?_eq_some he
  obtain ⟨x, y⟩ := e
  cases x <;> simp [Node.isKey] at h1
  subst h1
  exact h2

theorem find_silent {l : List (Node × Node)} {k : String} : (Node.map l).find k = none ↔ Silent l k := by
  simp only [Node.find, Option.map_eq_none_iff, List.find?_eq_none]
  constructor
  · intro h v hv
    exact h _ hv (by simp [Node.isKey])
  · rintro h ⟨x, y⟩ he hk
    cases x <;> simp [Node.isKey] at hk
    subst hk
    exact h _ he

theorem find_once {l : List (Node × Node)} (ho : OnceKeys l) {k : String} {v : Node} (hv : Says l k v) :
    (Node.map l).find k = some v := by
  cases h : (Node.map l).find k with
  | none => exact absurd hv (find_silent.1 h v)
  | some w => rw [ho k w v (find_says h) hv]

/-! ## The table as a map -/

section table

variable {K : Type u}

/-- Keys are unique and ordered, and the zero set is the set of pairs with a zero coefficient. -/
structure Inv (isZero : K → Bool) (c : CoeffData String K) : Prop where
  nodup : (c.table.map Prod.fst).Nodup
  ordered : ∀ e ∈ c.table, orderedPair e.1.1 e.1.2 = e.1
  zero : ∀ q, q ∈ c.zero ↔ ∃ v, tableFind c.table q = some v ∧ isZero v = true

theorem find_iff {t : List ((String × String) × K)} (h : (t.map Prod.fst).Nodup) (q : String × String) (v : K) :
    tableFind t q = some v ↔ (q, v) ∈ t := by
  induction t with
  | nil => simp [tableFind]
  | cons e t ih =>
    simp only [List.map_cons, List.nodup_cons] at h
    simp only [tableFind, List.find?_cons, List.mem_cons] at ih ⊢
    by_cases he : e.1 = q
    · simp only [he, decide_true, Option.map_some, Option.some.injEq]
      constructor
      · rintro rfl; left; rw [← he]
      · rintro (rfl | hm)
        · rfl
        · exact absurd (List.mem_map.2 ⟨(q, v), hm, he.symm⟩) h.1
    · simp only [he, decide_false]
      rw [ih h.2]
      constructor
      · exact Or.inr
      · rintro (rfl | hm)
        · exact absurd rfl he
        · exact hm

theorem assign_keys (k : String × String) (v : K) (t : List ((String × String) × K)) (q : String × String) :
    q ∈ (tableAssign k v t).map Prod.fst ↔ q = k ∨ q ∈ t.map Prod.fst := by
  induction t with
  | nil => simp [tableAssign]
  | cons e t ih =>
    simp only [tableAssign]
    split_ifs with he
    · subst he; simp
    · simp only [List.map_cons, List.mem_cons, ih]
      tauto

theorem assign_nodup (k : String × String) (v : K) (t : List ((String × String) × K)) (h : (t.map Prod.fst).Nodup) :
    ((tableAssign k v t).map Prod.fst).Nodup := by
  induction t with
  | nil => simp [tableAssign]
  | cons e t ih =>
    simp only [List.map_cons, List.nodup_cons] at h
    simp only [tableAssign]
    split_ifs with he
    · subst he; simpa using h
    · simp only [List.map_cons, List.nodup_cons, assign_keys]
      exact ⟨fun h' => h'.elim he h.1, ih h.2⟩

theorem ordered_idem (a b : String) : orderedPair (orderedPair a b).1 (orderedPair a b).2 = orderedPair a b := by
  rw [orderedPair_eq]
  unfold orderedPair
  split_ifs <;> simp

theorem inv_set (isZero : K → Bool) {c : CoeffData String K} (h : Inv isZero c) (a b : String) (v : K) :
    Inv isZero (c.set isZero a b v) := by
  refine ⟨assign_nodup _ _ _ h.nodup, ?_, ?_⟩
  · intro e he
    have hk : e.1 ∈ (tableAssign (orderedPair a b) v c.table).map Prod.fst := List.mem_map.2 ⟨e, he, rfl⟩
    rw [assign_keys] at hk
    rcases hk with hk | hk
    · rw [hk]; exact ordered_idem a b
    · obtain ⟨e', he', hk'⟩ := List.mem_map.1 hk
      rw [← hk']; exact h.ordered e' he'
  · intro q
    simp only [CoeffData.set, find_assign]
    by_cases hz : isZero v = true
    · simp only [hz, if_true]
      by_cases hq : orderedPair a b = q
      · subst hq
        simp only [if_true, Option.some.injEq, exists_eq_left', hz, iff_true]
        split_ifs with hm
        · exact hm
        · simp
      · simp only [hq, if_false, ← h.zero q]
        split_ifs with hm
        · rfl
        · simp [Ne.symm hq]
    · simp only [hz, Bool.false_eq_true, if_false, List.mem_filter, decide_eq_true_eq]
      by_cases hq : orderedPair a b = q
      · subst hq; simp [hz]
      · simp only [hq, if_false, ← h.zero q]
        exact ⟨fun h => h.1, fun h => ⟨h, fun e => hq e.symm⟩⟩

theorem inv_new (isZero : K → Bool) (d : K) : Inv isZero (CoeffData.new d : CoeffData String K) :=
  ⟨by simp [CoeffData.new], by simp [CoeffData.new], by simp [CoeffData.new, tableFind]⟩

theorem inv_default (isZero : K → Bool) {c : CoeffData String K} (h : Inv isZero c) (d : K) :
    Inv isZero (c.setDefault d) := ⟨h.nodup, h.ordered, h.zero⟩

theorem inv_after (isZero : K → Bool) (d0 : K) (ops : List (CoeffOp String K)) : Inv isZero (after isZero d0 ops) := by
  unfold after
  have : ∀ c : CoeffData String K, Inv isZero c → Inv isZero (ops.foldl (CoeffData.step isZero) c) := by
    induction ops with
    | nil => exact fun c h => h
    | cons o ops ih =>
      intro c h
      refine ih _ ?_
      cases o with
      | setDefault d => exact inv_default isZero h d
      | set a b v => exact inv_set isZero h a b v
  exact this _ (inv_new isZero d0)

/-- What the history says about a pair is what is in the table. -/
theorem find_after (isZero : K → Bool) (d0 : K) (ops : List (CoeffOp String K)) (a b : String) :
    tableFind (after isZero d0 ops).table (orderedPair a b) = lastSet a b ops.reverse := by
  unfold after
  have : ∀ ops : List (CoeffOp String K),
      tableFind (ops.reverse.foldl (CoeffData.step isZero) (CoeffData.new d0)).table (orderedPair a b) = lastSet a b ops := by
    intro ops
    induction ops with
    | nil => simp [CoeffData.new, tableFind, lastSet]
    | cons o ops ih =>
      simp only [List.reverse_cons, List.foldl_append, List.foldl_cons, List.foldl_nil]
      cases o with
      | setDefault d => simpa [CoeffData.step, CoeffData.setDefault, lastSet] using ih
      | set x y v => simp only [CoeffData.step, CoeffData.set, find_assign, lastSet, ih, orderedPair_eq]
  simpa using this ops.reverse

theorem dflt_after (isZero : K → Bool) (d0 : K) (ops : List (CoeffOp String K)) :
    (after isZero d0 ops).dflt = lastDefault d0 ops.reverse := by
  unfold after
  have : ∀ ops : List (CoeffOp String K),
      (ops.reverse.foldl (CoeffData.step isZero) (CoeffData.new d0)).dflt = lastDefault d0 ops := by
    intro ops
    induction ops with
    | nil => simp [CoeffData.new, lastDefault]
    | cons o ops ih =>
      simp only [List.reverse_cons, List.foldl_append, List.foldl_cons, List.foldl_nil]
      cases o with
      | setDefault d => simp [CoeffData.step, CoeffData.setDefault, lastDefault]
      | set x y v => simpa [CoeffData.step, CoeffData.set, lastDefault] using ih
  simpa using this ops.reverse

/-- Setting the entries of a map one after the other. -/
def setAll (isZero : K → Bool) (order : List ((String × String) × K)) (c : CoeffData String K) : CoeffData String K :=
  order.foldl (fun c e => c.set isZero e.1.1 e.1.2 e.2) c

theorem setAll_inv (isZero : K → Bool) (order : List ((String × String) × K)) (c : CoeffData String K)
    (h : Inv isZero c) : Inv isZero (setAll isZero order c) := by
  induction order generalizing c with
  | nil => exact h
  | cons e es ih => exact ih _ (inv_set isZero h _ _ _)

theorem setAll_dflt (isZero : K → Bool) (order : List ((String × String) × K)) (c : CoeffData String K) :
    (setAll isZero order c).dflt = c.dflt := by
  induction order generalizing c with
  | nil => rfl
  | cons e es ih => exact (ih _).trans rfl

theorem setAll_find (isZero : K → Bool) (order : List ((String × String) × K)) (c : CoeffData String K)
    (hn : (order.map Prod.fst).Nodup) (ho : ∀ e ∈ order, orderedPair e.1.1 e.1.2 = e.1) (q : String × String) (v : K) :
    tableFind (setAll isZero order c).table q = some v ↔
      (q, v) ∈ order ∨ (q ∉ order.map Prod.fst ∧ tableFind c.table q = some v) := by
  induction order generalizing c with
  | nil => simp [setAll]
  | cons e es ih =>
    simp only [List.map_cons, List.nodup_cons] at hn
    have := ih (c.set isZero e.1.1 e.1.2 e.2) hn.2 (fun e he => ho e (List.mem_cons_of_mem _ he))
    simp only [setAll, List.foldl_cons] at this ⊢
    rw [this]
    simp only [CoeffData.set, find_assign, ho e (List.mem_cons_self ..), List.mem_cons, List.map_cons, not_or]
    obtain ⟨k, w⟩ := e
    by_cases hq : k = q
    · subst hq
      simp only [if_true, Option.some.injEq, Prod.mk.injEq, true_and, not_true_eq_false, false_and, or_false]
      constructor
      · rintro (h | ⟨_, rfl⟩)
        · exact Or.inr h
        · exact Or.inl rfl
      · rintro (rfl | h)
        · exact Or.inr ⟨hn.1, rfl⟩
        · exact Or.inl h
    · have hq' : ¬ q = k := fun e => hq e.symm
      simp [hq, hq']

theorem nodup_pairs {t : List ((String × String) × K)} (h : (t.map Prod.fst).Nodup) : t.Nodup := List.Nodup.of_map _ h

/-- Two maps with the same entries. -/
theorem perm_of_find {s t : List ((String × String) × K)} (hs : (s.map Prod.fst).Nodup) (ht : (t.map Prod.fst).Nodup)
    (h : ∀ q v, tableFind s q = some v ↔ tableFind t q = some v) : s.Perm t := by
  rw [List.perm_ext_iff_of_nodup (nodup_pairs hs) (nodup_pairs ht)]
  rintro ⟨q, v⟩
  rw [← find_iff hs, ← find_iff ht]
  exact h q v

theorem find_perm {s t : List ((String × String) × K)} (hs : (s.map Prod.fst).Nodup) (h : s.Perm t) (q : String × String) :
    tableFind s q = tableFind t q := by
  have ht : (t.map Prod.fst).Nodup := (h.map _).nodup_iff.1 hs
  cases h1 : tableFind s q with
  | none =>
    cases h2 : tableFind t q with
    | none => rfl
    | some v =>
      rw [find_iff ht, ← h.mem_iff, ← find_iff hs, h1] at h2
      cases h2
  | some v =>
    rw [find_iff hs, h.mem_iff, ← find_iff ht] at h1
    exact h1.symm

end table

/-! ## C125: comparison -/

section C125

variable {K : Type u} [Field K] [LinearOrder K] [IsStrictOrderedRing K]

theorem almostEq_iff {feps deps : K} (hd : 0 ≤ deps) (a b : K) : almostEq feps deps a b = true ↔ Close feps deps a b := by
  unfold almostEq Close
  split_ifs with h
  · simp [h]
  · simp only [decide_eq_true_eq, h, false_or]
    rcases le_total |a| |b| with hab | hab
    · rw [max_eq_right hab, mul_comm]
      constructor
      · exact Or.inr
      · rintro (h | h)
        · exact h.trans (mul_le_mul_of_nonneg_left hab hd)
        · exact h
    · rw [max_eq_left hab, mul_comm]
      constructor
      · exact Or.inl
      · rintro (h | h)
        · exact h
        · exact h.trans (mul_le_mul_of_nonneg_left hab hd)

theorem close_refl {feps deps : K} (hf : 0 ≤ feps) (a : K) : Close feps deps a a := by
  left; simpa using hf

theorem close_symm {feps deps : K} {a b : K} (h : Close feps deps a b) : Close feps deps b a := by
  unfold Close at h ⊢
  rw [abs_sub_comm b a]
  tauto

/-- Both absent, or both given and close. -/
def OptClose (feps deps : K) : Option K → Option K → Prop
  | none, none => True
  | some a, some b => Close feps deps a b
  | _, _ => False

theorem sameSet_iff (s t : List (String × String)) : sameSet s t = true ↔ ∀ q, q ∈ s ↔ q ∈ t := by
  simp only [sameSet, Bool.and_eq_true, List.all_eq_true, decide_eq_true_eq]
  exact ⟨fun h q => ⟨h.1 q, h.2 q⟩, fun h => ⟨fun q => (h q).1, fun q => (h q).2⟩⟩

theorem find_none_iff {K : Type u} (t : List ((String × String) × K)) (q : String × String) :
    tableFind t q = none ↔ q ∉ t.map Prod.fst := by
  simp only [tableFind, Option.map_eq_none_iff, List.find?_eq_none, decide_eq_true_eq, List.mem_map, not_exists, not_and]

theorem identicalMap_iff {feps deps : K} (hd : 0 ≤ deps) {s t : List ((String × String) × K)}
    (hs : (s.map Prod.fst).Nodup) (ht : (t.map Prod.fst).Nodup) :
    identicalMap (almostEq feps deps) s t = true ↔ ∀ q, OptClose feps deps (tableFind s q) (tableFind t q) := by
  simp only [identicalMap, Bool.and_eq_true, decide_eq_true_eq, List.all_eq_true]
  constructor
  · rintro ⟨hl, ha⟩ q
    cases h1 : tableFind s q with
    | some v =>
      have := ha _ ((find_iff hs q v).1 h1)
      simp only at this
      cases h2 : tableFind t q with
      | none => rw [h2] at this; simp at this
      | some w => rw [h2] at this; exact (almostEq_iff hd v w).1 this
    | none =>
      cases h2 : tableFind t q with
      | none => trivial
      | some w =>
        exfalso
        rw [find_none_iff] at h1
        have hsub : s.map Prod.fst ⊆ t.map Prod.fst := by
          intro k hk
          obtain ⟨e, he, rfl⟩ := List.mem_map.1 hk
          have := ha e he
          cases h3 : tableFind t e.1 with
          | none => rw [h3] at this; simp at this
          | some x => exact List.mem_map.2 ⟨_, (find_iff ht _ _).1 h3, rfl⟩
        have hp : (s.map Prod.fst).Perm (t.map Prod.fst) :=
          (List.subperm_of_subset hs hsub).perm_of_length_le (by simp [hl])
        exact h1 (hp.mem_iff.2 (List.mem_map.2 ⟨_, (find_iff ht _ _).1 h2, rfl⟩))
  · intro h
    constructor
    · have : ∀ q, q ∈ s.map Prod.fst ↔ q ∈ t.map Prod.fst := by
        intro q
        have hq := h q
        rw [← not_iff_not, ← find_none_iff, ← find_none_iff]
        cases h1 : tableFind s q <;> cases h2 : tableFind t q <;> simp [h1, h2, OptClose] at hq ⊢
      simpa using ((List.perm_ext_iff_of_nodup hs ht).2 this).length_eq
    · intro e he
      have hq := h e.1
      rw [(find_iff hs e.1 e.2).2 he] at hq
      cases h2 : tableFind t e.1 with
      | none => rw [h2] at hq; exact hq.elim
      | some w => rw [h2] at hq; exact (almostEq_iff hd _ _).2 hq

theorem ordered_of_find {isZero : K → Bool} {c : CoeffData String K} (h : Inv isZero c) {q : String × String} {v : K}
    (hf : tableFind c.table q = some v) : q = orderedPair q.1 q.2 :=
  (h.ordered _ ((find_iff h.nodup q v).1 hf)).symm

theorem optClose_pairs {isZero : K → Bool} {feps deps : K} {c c' : CoeffData String K} (h : Inv isZero c)
    (h' : Inv isZero c') : (∀ q, OptClose feps deps (tableFind c.table q) (tableFind c'.table q)) ↔
      ∀ a b, OptClose feps deps (tableFind c.table (orderedPair a b)) (tableFind c'.table (orderedPair a b)) := by
  constructor
  · exact fun hq a b => hq _
  · intro hab q
    cases h1 : tableFind c.table q with
    | some v =>
      have := hab q.1 q.2
      rw [← ordered_of_find h h1, h1] at this
      exact this
    | none =>
      cases h2 : tableFind c'.table q with
      | none => trivial
      | some v =>
        have := hab q.1 q.2
        rw [← ordered_of_find h' h2, h1, h2] at this
        exact this

theorem eqCoeff_iff {isZero : K → Bool} {feps deps : K} (hd : 0 ≤ deps) {c c' : CoeffData String K} (h : Inv isZero c)
    (h' : Inv isZero c') : eqCoeff feps deps c c' = true ↔ Close feps deps c.dflt c'.dflt ∧
      (∀ a b, OptClose feps deps (tableFind c.table (orderedPair a b)) (tableFind c'.table (orderedPair a b))) ∧
      ∀ q, q ∈ c.zero ↔ q ∈ c'.zero := by
  simp only [eqCoeff, Bool.and_eq_true, almostEq_iff hd, identicalMap_iff hd h.nodup h'.nodup, sameSet_iff,
    optClose_pairs h h', and_assoc]

/-- **C125.** Two coefficient objects with any histories compare equal exactly when their defaults are close, the same
unordered pairs were given a coefficient, with close values, and the same of them are zero. -/
theorem C125_equal_iff (isZero : K → Bool) {feps deps : K} (hd : 0 ≤ deps) (d0 d1 : K) (ops ops' : List (CoeffOp String K)) :
    eqCoeff feps deps (after isZero d0 ops) (after isZero d1 ops') = true ↔
      Close feps deps (lastDefault d0 ops.reverse) (lastDefault d1 ops'.reverse) ∧
      (∀ a b, OptClose feps deps (lastSet a b ops.reverse) (lastSet a b ops'.reverse)) ∧
      ∀ a b, (∃ v, lastSet a b ops.reverse = some v ∧ isZero v = true) ↔
        ∃ v, lastSet a b ops'.reverse = some v ∧ isZero v = true := by
  have h := inv_after isZero d0 ops
  have h' := inv_after isZero d1 ops'
  rw [eqCoeff_iff hd h h']
  simp only [dflt_after, find_after]
  refine and_congr_right fun _ => and_congr_right fun _ => ?_
  constructor
  · intro hq a b
    have := hq (orderedPair a b)
    rw [h.zero, h'.zero] at this
    simpa only [find_after] using this
  · intro hab q
    rw [h.zero, h'.zero]
    constructor
    · rintro ⟨v, hv, hz⟩
      have e := ordered_of_find h hv
      have := hab q.1 q.2
      rw [← find_after isZero d0 ops, ← find_after isZero d1 ops', ← e] at this
      exact this.1 ⟨v, hv, hz⟩
    · rintro ⟨v, hv, hz⟩
      have e := ordered_of_find h' hv
      have := hab q.1 q.2
      rw [← find_after isZero d0 ops, ← find_after isZero d1 ops', ← e] at this
      exact this.2 ⟨v, hv, hz⟩

/-- **C125.** Equal objects weigh every pair of links (nearly) alike. -/
theorem C125_same_coefficients (isZero : K → Bool) {feps deps : K} (hd : 0 ≤ deps) (d0 d1 : K)
    (ops ops' : List (CoeffOp String K))
    (h : eqCoeff feps deps (after isZero d0 ops) (after isZero d1 ops') = true) (a b : String) :
    Close feps deps ((after isZero d0 ops).get a b) ((after isZero d1 ops').get a b) := by
  obtain ⟨h1, h2, _⟩ := (C125_equal_iff isZero hd d0 d1 ops ops').1 h
  simp only [CoeffData.get, find_after, dflt_after]
  have := h2 a b
  cases e1 : lastSet a b ops.reverse <;> cases e2 : lastSet a b ops'.reverse <;> simp only [e1, e2, OptClose] at this
  · simpa using h1
  · simpa using this

/-- **C125.** The comparison does not depend on the order of its arguments, and an object equals itself. -/
theorem C125_refl_symm (isZero : K → Bool) {feps deps : K} (hf : 0 ≤ feps) (hd : 0 ≤ deps) (d0 d1 : K)
    (ops ops' : List (CoeffOp String K)) :
    eqCoeff feps deps (after isZero d0 ops) (after isZero d0 ops) = true ∧
    eqCoeff feps deps (after isZero d0 ops) (after isZero d1 ops') =
      eqCoeff feps deps (after isZero d1 ops') (after isZero d0 ops) := by
  constructor
  · rw [C125_equal_iff isZero hd]
    refine ⟨close_refl hf _, fun a b => ?_, fun a b => Iff.rfl⟩
    cases lastSet a b ops.reverse
    · trivial
    · exact close_refl hf _
  · rw [Bool.eq_iff_iff, C125_equal_iff isZero hd, C125_equal_iff isZero hd]
    have : ∀ x y : Option K, OptClose feps deps x y ↔ OptClose feps deps y x := by
      intro x y
      cases x <;> cases y <;> simp only [OptClose]
      exact ⟨close_symm, close_symm⟩
    refine and_congr ⟨close_symm, close_symm⟩ (and_congr ?_ ?_)
    · exact forall_congr' fun a => forall_congr' fun b => this _ _
    · exact forall_congr' fun a => forall_congr' fun b => Iff.comm

/-- **C125 does not hold for transitivity**: three objects, the outer ones unequal. -/
theorem C125_violated_trans : ∃ c1 c2 c3 : CoeffData String ℚ,
    eqCoeff (1 / 8388608) 0 c1 c2 = true ∧ eqCoeff (1 / 8388608) 0 c2 c3 = true ∧ eqCoeff (1 / 8388608) 0 c1 c3 = false :=
  ⟨CoeffData.new 0, CoeffData.new (1 / 8388608), CoeffData.new (2 / 8388608), by decide +kernel⟩

/-- **C125, configurations.** Equality decides all fields. -/
theorem C125_config {CM CC : Type*} (eqM : CM → CM → Bool) (eqC : CC → CC → Bool) {feps deps : K} (hd : 0 ≤ deps)
    (c c' : Config CM CC K) : eqConfig eqM eqC feps deps c c' = true ↔
      c.enabled = c'.enabled ∧ eqM c.manager c'.manager = true ∧ eqC c.check c'.check = true ∧
        eqCoeff feps deps c.coeff c'.coeff = true ∧ Close feps deps c.buffer c'.buffer ∧ c.maxCnt = c'.maxCnt := by
  simp only [eqConfig, Bool.and_eq_true, decide_eq_true_eq, almostEq_iff hd, and_assoc]

/-- non-vacuity: the same pairs set in another order and orientation. -/
example : eqCoeff (1 / 8388608 : ℚ) 0
    (after (fun v => decide (v = 0)) 1 [.set "a" "b" 5, .set "c" "a" 0])
    (after (fun v => decide (v = 0)) 3 [.set "a" "c" 7, .setDefault 1, .set "b" "a" 5, .set "c" "a" 0]) = true ∧
  eqCoeff (1 / 8388608 : ℚ) 0 (after (fun v => decide (v = 0)) 1 [.set "a" "b" 5])
    (after (fun v => decide (v = 0)) 1 []) = false := by decide +kernel

end C125

/-! ## C123: round trips -/

section C123

variable {K : Type u} [Field K] [LinearOrder K] [IsStrictOrderedRing K]

theorem decodePairs_order (isZero : K → Bool) (num : Codec K) (hnum : num.Lawful)
    (order : List ((String × String) × K)) (c : CoeffData String K) :
    decodePairs isZero num (order.map (encodePair num)) c = .ok (setAll isZero order c) := by
  induction order generalizing c with
  | nil => rfl
  | cons e es ih =>
    simp only [List.map_cons, decodePairs, decodePair, encodePair, asString, hnum e.2]
    exact ih _

theorem decode_encode (isZero : K → Bool) (num : Codec K) (hnum : num.Lawful) (c : CoeffData String K)
    (order : List ((String × String) × K)) :
    asCoeff isZero num (encodeCoeff num c order) = some (setAll isZero order (CoeffData.new c.dflt)) := by
  unfold asCoeff encodeCoeff decodeCoeff
  by_cases ho : order = []
  · subst ho
    simp [optional, Node.find, Node.isKey, hnum c.dflt, setAll, CoeffData.setDefault, CoeffData.new]
  · simp only [ho, if_false, optional, Node.find, Node.isKey, List.find?_cons, decide_true, Option.map_some, hnum c.dflt]
    simp only [show ("default_coeff" = "pair_coeff_data") = False by simp, decide_false, List.find?_nil, Option.map_some,
      decodeTable, decodePairs_order isZero num hnum, CoeffData.setDefault, CoeffData.new]

/-- The same map, default and zero set. -/
structure Same (c c' : CoeffData String K) : Prop where
  dflt : c'.dflt = c.dflt
  table : c'.table.Perm c.table
  find : ∀ q, tableFind c'.table q = tableFind c.table q
  zero : ∀ q, q ∈ c'.zero ↔ q ∈ c.zero

theorem setAll_same (isZero : K → Bool) {c : CoeffData String K} (h : Inv isZero c)
    {order : List ((String × String) × K)} (hp : order.Perm c.table) :
    Same c (setAll isZero order (CoeffData.new c.dflt)) ∧ Inv isZero (setAll isZero order (CoeffData.new c.dflt)) := by
  have hn : (order.map Prod.fst).Nodup := ((hp.map _).nodup_iff).2 h.nodup
  have ho : ∀ e ∈ order, orderedPair e.1.1 e.1.2 = e.1 := fun e he => h.ordered e (hp.mem_iff.1 he)
  have hi := setAll_inv isZero order _ (inv_new isZero c.dflt)
  have hf : ∀ q v, tableFind (setAll isZero order (CoeffData.new c.dflt)).table q = some v ↔ tableFind c.table q = some v := by
    intro q v
    rw [setAll_find isZero order _ hn ho, find_iff h.nodup, hp.mem_iff]
    simp [CoeffData.new, tableFind]
  have hperm := perm_of_find hi.nodup h.nodup hf
  have hfind := find_perm hi.nodup hperm
  refine ⟨⟨setAll_dflt _ _ _, hperm, hfind, fun q => ?_⟩, hi⟩
  rw [hi.zero, h.zero]
  simp only [hfind]

theorem same_eq {isZero : K → Bool} {feps deps : K} (hf : 0 ≤ feps) (hd : 0 ≤ deps) {c c' : CoeffData String K}
    (h : Inv isZero c) (h' : Inv isZero c') (hs : Same c c') : eqCoeff feps deps c c' = true := by
  rw [eqCoeff_iff hd h h']
  refine ⟨by rw [hs.dflt]; exact close_refl hf _, fun a b => ?_, fun q => (hs.zero q).symm⟩
  rw [hs.find]
  cases tableFind c.table (orderedPair a b)
  · trivial
  · exact close_refl hf _

/-- **C123, coefficients.** After any history, and in whatever order the map is iterated, the YAML node reads back as an
object with the same default, the same entries, the same coefficient of every pair and the same zero pairs, which
compares equal to the original. -/
theorem C123_coefficients (isZero : K → Bool) (num : Codec K) (hnum : num.Lawful) {feps deps : K} (hf : 0 ≤ feps)
    (hd : 0 ≤ deps) (d0 : K) (ops : List (CoeffOp String K)) (order : List ((String × String) × K))
    (hp : order.Perm (after isZero d0 ops).table) :
    ∃ c', asCoeff isZero num (encodeCoeff num (after isZero d0 ops) order) = some c' ∧
      c'.dflt = (after isZero d0 ops).dflt ∧ c'.table.Perm (after isZero d0 ops).table ∧
      (∀ a b, c'.get a b = (after isZero d0 ops).get a b) ∧
      (∀ a b, c'.get a b = (lastSet a b ops.reverse).getD (lastDefault d0 ops.reverse)) ∧
      (∀ q, q ∈ c'.zero ↔ q ∈ (after isZero d0 ops).zero) ∧
      eqCoeff feps deps (after isZero d0 ops) c' = true := by
  have hi := inv_after isZero d0 ops
  obtain ⟨hs, hi'⟩ := setAll_same isZero hi hp
  have hg : ∀ a b, (setAll isZero order (CoeffData.new (after isZero d0 ops).dflt)).get a b = (after isZero d0 ops).get a b := by
    intro a b
    simp only [CoeffData.get, hs.find, hs.dflt]
  refine ⟨_, decode_encode isZero num hnum _ order, hs.dflt, hs.table, hg, fun a b => ?_, hs.zero, same_eq hf hd hi hi' hs⟩
  rw [hg]
  simp only [CoeffData.get, find_after, dflt_after]

/-- The conversions of yaml-cpp and tesseract give back what they wrote. -/
structure Codecs.Lawful {CM CC : Type*} (d : Codecs CM CC K) : Prop where
  num : d.num.Lawful
  int : d.int.Lawful
  bool : d.bool.Lawful
  manager : d.manager.Lawful
  check : d.check.Lawful

/-- **C123, configurations.** Whatever object it is read into, the node of a configuration reads back as that
configuration. -/
theorem C123_config {CM CC : Type*} (isZero : K → Bool) (d : Codecs CM CC K) (hl : d.Lawful)
    (eqM : CM → CM → Bool) (eqC : CC → CC → Bool) (hM : ∀ m, eqM m m = true) (hC : ∀ m, eqC m m = true)
    {feps deps : K} (hf : 0 ≤ feps) (hd : 0 ≤ deps)
    (c base : Config CM CC K) (d0 : K) (ops : List (CoeffOp String K)) (hc : c.coeff = after isZero d0 ops)
    (order : List ((String × String) × K)) (hp : order.Perm c.coeff.table) :
    ∃ c', decodeConfig isZero d (encodeConfig d c order) base = .ok c' ∧
      c'.enabled = c.enabled ∧ c'.manager = c.manager ∧ c'.check = c.check ∧ c'.buffer = c.buffer ∧ c'.maxCnt = c.maxCnt ∧
      (∀ a b, c'.coeff.get a b = c.coeff.get a b) ∧ (∀ q, q ∈ c'.coeff.zero ↔ q ∈ c.coeff.zero) ∧
      c'.coeff.dflt = c.coeff.dflt ∧ c'.coeff.table.Perm c.coeff.table ∧ eqConfig eqM eqC feps deps c c' = true := by
  have hi : Inv isZero c.coeff := hc ▸ inv_after isZero d0 ops
  obtain ⟨hs, hi'⟩ := setAll_same isZero hi hp
  refine ⟨{ c with coeff := setAll isZero order (CoeffData.new c.coeff.dflt) }, ?_, rfl, rfl, rfl, rfl, rfl,
    fun a b => by simp only [CoeffData.get, hs.find, hs.dflt], hs.zero, hs.dflt, hs.table, ?_⟩
  · simp [decodeConfig, encodeConfig, optional, Node.find, Node.isKey, hl.num _, hl.int _, hl.bool _, hl.manager _,
      hl.check _, decode_encode isZero d.num hl.num, bind, Except.bind]
  · rw [C125_config eqM eqC hd]
    exact ⟨rfl, hM _, hC _, same_eq hf hd hi hi' hs, close_refl hf _, rfl⟩

theorem loadTable_order (order : List ((String × String) × K)) (rest : List (Tok K)) (t : List ((String × String) × K))
    (hn : ((t ++ order).map Prod.fst).Nodup) :
    loadTable order.length ((order.flatMap fun e => savePair e.1 ++ [.num e.2]) ++ rest) t = some (t ++ order, rest) := by
  induction order generalizing t with
  | nil => simp [loadTable]
  | cons e es ih =>
    obtain ⟨⟨a, b⟩, v⟩ := e
    have hnone : tableFind t (a, b) = none := by
      rw [find_none_iff]
      intro hm
      simp only [List.map_append, List.map_cons, List.nodup_append] at hn
      exact hn.2.2 _ hm _ (List.mem_cons_self ..) rfl
    simp only [List.length_cons, List.flatMap_cons, savePair, List.cons_append, List.nil_append, List.append_assoc, loadTable,
      hnone]
    have := ih (t ++ [((a, b), v)]) (by simpa using hn)
    simpa [savePair] using this

theorem loadSet_order (order : List (String × String)) (rest : List (Tok K)) (t : List (String × String))
    (hn : (t ++ order).Nodup) : loadSet order.length (order.flatMap savePair ++ rest) t = some (t ++ order, rest) := by
  induction order generalizing t with
  | nil => simp [loadSet]
  | cons e es ih =>
    obtain ⟨a, b⟩ := e
    have hnone : (a, b) ∉ t := by
      intro hm
      rw [List.nodup_append] at hn
      exact hn.2.2 _ hm _ (List.mem_cons_self ..) rfl
    simp only [List.length_cons, List.flatMap_cons, savePair, List.cons_append, List.nil_append, loadSet, hnone, if_false]
    have := ih (t ++ [(a, b)]) (by simpa using hn)
    simpa [savePair] using this

/-- **C123, archives.** The archive reads back as the same object, and nothing behind it is consumed. -/
theorem C123_archive (isZero : K → Bool) {feps deps : K} (hf : 0 ≤ feps) (hd : 0 ≤ deps) (d0 : K)
    (ops : List (CoeffOp String K)) (order : List ((String × String) × K)) (hp : order.Perm (after isZero d0 ops).table)
    (zorder : List (String × String)) (hz : ∀ q, q ∈ zorder ↔ q ∈ (after isZero d0 ops).zero) (hzn : zorder.Nodup)
    (rest : List (Tok K)) :
    ∃ c', loadCoeff (saveCoeff (after isZero d0 ops) order zorder ++ rest) = some (c', rest) ∧
      c'.dflt = (after isZero d0 ops).dflt ∧ c'.table.Perm (after isZero d0 ops).table ∧
      (∀ a b, c'.get a b = (after isZero d0 ops).get a b) ∧
      (∀ q, q ∈ c'.zero ↔ q ∈ (after isZero d0 ops).zero) ∧ eqCoeff feps deps (after isZero d0 ops) c' = true := by
  have hi := inv_after isZero d0 ops
  have hn : (order.map Prod.fst).Nodup := ((hp.map _).nodup_iff).2 hi.nodup
  have hfind := find_perm hn hp
  have hi' : Inv isZero (⟨(after isZero d0 ops).dflt, order, zorder⟩ : CoeffData String K) :=
    ⟨hn, fun e he => hi.ordered e (hp.mem_iff.1 he), fun q => by simp only [hz, hi.zero, hfind]⟩
  refine ⟨⟨(after isZero d0 ops).dflt, order, zorder⟩, ?_, rfl, hp, fun a b => by simp only [CoeffData.get, hfind], hz,
    same_eq hf hd hi hi' ⟨rfl, hp, hfind, hz⟩⟩
  have h1 := loadTable_order order (.size zorder.length :: (zorder.flatMap savePair ++ rest)) [] (by simpa using hn)
  have h2 := loadSet_order zorder rest [] (by simpa using hzn)
  simp only [List.nil_append] at h1 h2
  simp [saveCoeff, loadCoeff, h1, h2]

end C123

/-! ## C124: reading documents -/

section C124

variable {K : Type u} [Field K] [LinearOrder K] [IsStrictOrderedRing K]

theorem optional_ok {α : Type*} {β : Type*} {l : List (Node × Node)} {k : String} {dec : Node → Option α} {f : α → β → β}
    {b b' : β} (h : optional (.map l) k dec f b = .ok b') :
    (∃ v x, Says l k v ∧ dec v = some x ∧ b' = f x b) ∨ (Silent l k ∧ b' = b) := by
  unfold optional at h
  cases hf : (Node.map l).find k with
  | none => rw [hf] at h; right; exact ⟨find_silent.1 hf, by simpa using h.symm⟩
  | some m =>
    rw [hf] at h
    cases hd : dec m with
    | none => simp [hd] at h
    | some a =>
      simp only [hd, Except.ok.injEq] at h
      exact Or.inl ⟨m, a, find_says hf, hd, h.symm⟩

theorem optional_field {α : Type*} {β : Type*} {l : List (Node × Node)} {k : String} {dec : Node → Option α} {f : α → β → β}
    {b b' : β} (h : optional (.map l) k dec f b = .ok b') (p : β → α) (hp : ∀ x b, p (f x b) = x) :
    FieldIs l k dec (p b) (p b') := by
  rcases optional_ok h with ⟨v, x, hv, hx, rfl⟩ | ⟨hs, rfl⟩
  · exact Or.inl ⟨v, hv, by rw [hp]; exact hx⟩
  · exact Or.inr ⟨hs, rfl⟩

theorem optional_keep {α : Type*} {β γ : Type*} {l : List (Node × Node)} {k : String} {dec : Node → Option α} {f : α → β → β}
    {b b' : β} (h : optional (.map l) k dec f b = .ok b') (p : β → γ) (hp : ∀ x b, p (f x b) = p b) : p b' = p b := by
  rcases optional_ok h with ⟨v, x, hv, hx, rfl⟩ | ⟨hs, rfl⟩
  · exact hp x b
  · rfl

theorem optional_total {α : Type*} {β : Type*} {l : List (Node × Node)} {k : String} {dec : Node → Option α} (f : α → β → β)
    (b : β) (h : ∀ v, Says l k v → (dec v).isSome) : ∃ b', optional (.map l) k dec f b = .ok b' := by
  unfold optional
  cases hf : (Node.map l).find k with
  | none => exact ⟨b, rfl⟩
  | some m =>
    obtain ⟨a, ha⟩ := Option.isSome_iff_exists.1 (h m (find_says hf))
    exact ⟨f a b, by simp [ha]⟩

/-- **C124, fields.** In an accepted document every field is what its entry says, or keeps its previous value if there is
no such entry; margins are scaled after they are read, wherever `scale_margins` stands in the document.
Missing for the full claim: the alias `buffer` (see `C124_violated_alias`) and unknown keys, which are ignored. -/
theorem C124_fields_partial {CM CC : Type*} (isZero : K → Bool) (d : Codecs CM CC K) (l : List (Node × Node))
    (base c : Config CM CC K) (h : decodeConfig isZero d (.map l) base = .ok c) :
    FieldIs l "enabled" d.bool.dec base.enabled c.enabled ∧
    FieldIs l "collision_check_config" d.check.dec base.check c.check ∧
    FieldIs l "collision_coeff_data" (asCoeff isZero d.num) base.coeff c.coeff ∧
    FieldIs l "collision_margin_buffer" d.num.dec base.buffer c.buffer ∧
    FieldIs l "max_num_cnt" d.int.dec base.maxCnt c.maxCnt ∧
    ∃ m, FieldIs l "contact_manager_config" d.manager.dec base.manager m ∧
      ((∃ v x, Says l "scale_margins" v ∧ d.num.dec v = some x ∧ c.manager = d.scale x m) ∨
       (Silent l "scale_margins" ∧ c.manager = m)) := by
  simp only [decodeConfig, bind, Except.bind] at h
  cases h1 : optional (.map l) "enabled" d.bool.dec (fun x (c : Config CM CC K) => { c with enabled := x }) base with
  | error f => simp [h1] at h
  | ok c1 =>
  simp only [h1] at h
  cases h2 : optional (.map l) "contact_manager_config" d.manager.dec (fun x (c : Config CM CC K) => { c with manager := x }) c1 with
  | error f => simp [h2] at h
  | ok c2 =>
  simp only [h2] at h
  cases h3 : optional (.map l) "collision_check_config" d.check.dec (fun x (c : Config CM CC K) => { c with check := x }) c2 with
  | error f => simp [h3] at h
  | ok c3 =>
  simp only [h3] at h
  cases h4 : optional (.map l) "collision_coeff_data" (asCoeff isZero d.num) (fun x (c : Config CM CC K) => { c with coeff := x }) c3 with
  | error f => simp [h4] at h
  | ok c4 =>
  simp only [h4] at h
  cases h5 : optional (.map l) "collision_margin_buffer" d.num.dec (fun x (c : Config CM CC K) => { c with buffer := x }) c4 with
  | error f => simp [h5] at h
  | ok c5 =>
  simp only [h5] at h
  cases h6 : optional (.map l) "max_num_cnt" d.int.dec (fun x (c : Config CM CC K) => { c with maxCnt := x }) c5 with
  | error f => simp [h6] at h
  | ok c6 =>
  simp only [h6] at h
  refine ⟨?_, ?_, ?_, ?_, ?_, c2.manager, ?_, ?_⟩
  · rw [optional_keep h (·.enabled) fun _ _ => rfl, optional_keep h6 (·.enabled) fun _ _ => rfl,
      optional_keep h5 (·.enabled) fun _ _ => rfl, optional_keep h4 (·.enabled) fun _ _ => rfl,
      optional_keep h3 (·.enabled) fun _ _ => rfl, optional_keep h2 (·.enabled) fun _ _ => rfl]
    exact optional_field h1 (·.enabled) fun _ _ => rfl
  · rw [optional_keep h (·.check) fun _ _ => rfl, optional_keep h6 (·.check) fun _ _ => rfl,
      optional_keep h5 (·.check) fun _ _ => rfl, optional_keep h4 (·.check) fun _ _ => rfl,
      ← optional_keep h1 (·.check) fun _ _ => rfl, ← optional_keep h2 (·.check) fun _ _ => rfl]
    exact optional_field h3 (·.check) fun _ _ => rfl
  · rw [optional_keep h (·.coeff) fun _ _ => rfl, optional_keep h6 (·.coeff) fun _ _ => rfl,
      optional_keep h5 (·.coeff) fun _ _ => rfl, ← optional_keep h1 (·.coeff) fun _ _ => rfl,
      ← optional_keep h2 (·.coeff) fun _ _ => rfl, ← optional_keep h3 (·.coeff) fun _ _ => rfl]
    exact optional_field h4 (·.coeff) fun _ _ => rfl
  · rw [optional_keep h (·.buffer) fun _ _ => rfl, optional_keep h6 (·.buffer) fun _ _ => rfl,
      ← optional_keep h1 (·.buffer) fun _ _ => rfl, ← optional_keep h2 (·.buffer) fun _ _ => rfl,
      ← optional_keep h3 (·.buffer) fun _ _ => rfl, ← optional_keep h4 (·.buffer) fun _ _ => rfl]
    exact optional_field h5 (·.buffer) fun _ _ => rfl
  · rw [optional_keep h (·.maxCnt) fun _ _ => rfl, ← optional_keep h1 (·.maxCnt) fun _ _ => rfl,
      ← optional_keep h2 (·.maxCnt) fun _ _ => rfl, ← optional_keep h3 (·.maxCnt) fun _ _ => rfl,
      ← optional_keep h4 (·.maxCnt) fun _ _ => rfl, ← optional_keep h5 (·.maxCnt) fun _ _ => rfl]
    exact optional_field h6 (·.maxCnt) fun _ _ => rfl
  · rw [← optional_keep h1 (·.manager) fun _ _ => rfl]
    exact optional_field h2 (·.manager) fun _ _ => rfl
  · rw [← optional_keep h3 (·.manager) fun _ _ => rfl, ← optional_keep h4 (·.manager) fun _ _ => rfl,
      ← optional_keep h5 (·.manager) fun _ _ => rfl, ← optional_keep h6 (·.manager) fun _ _ => rfl]
    rcases optional_ok h with ⟨v, x, s, e, rfl⟩ | ⟨s, rfl⟩
    · exact Or.inl ⟨v, x, s, e, rfl⟩
    · exact Or.inr ⟨s, rfl⟩

/-- **C124, acceptance.** A map whose known entries all convert is accepted; a node that is no map is refused; a map with
a known entry that does not convert throws. -/
theorem C124_accepts {CM CC : Type*} (isZero : K → Bool) (d : Codecs CM CC K) (l : List (Node × Node))
    (base : Config CM CC K)
    (h1 : ∀ v, Says l "enabled" v → (d.bool.dec v).isSome) (h2 : ∀ v, Says l "contact_manager_config" v → (d.manager.dec v).isSome)
    (h3 : ∀ v, Says l "collision_check_config" v → (d.check.dec v).isSome)
    (h4 : ∀ v, Says l "collision_coeff_data" v → (asCoeff isZero d.num v).isSome)
    (h5 : ∀ v, Says l "collision_margin_buffer" v → (d.num.dec v).isSome) (h6 : ∀ v, Says l "max_num_cnt" v → (d.int.dec v).isSome)
    (h7 : ∀ v, Says l "scale_margins" v → (d.num.dec v).isSome) : ∃ c, decodeConfig isZero d (.map l) base = .ok c := by
  simp only [decodeConfig, bind, Except.bind]
  obtain ⟨c1, e1⟩ := optional_total (fun x (c : Config CM CC K) => { c with enabled := x }) base h1
  obtain ⟨c2, e2⟩ := optional_total (fun x (c : Config CM CC K) => { c with manager := x }) c1 h2
  obtain ⟨c3, e3⟩ := optional_total (fun x (c : Config CM CC K) => { c with check := x }) c2 h3
  obtain ⟨c4, e4⟩ := optional_total (fun x (c : Config CM CC K) => { c with coeff := x }) c3 h4
  obtain ⟨c5, e5⟩ := optional_total (fun x (c : Config CM CC K) => { c with buffer := x }) c4 h5
  obtain ⟨c6, e6⟩ := optional_total (fun x (c : Config CM CC K) => { c with maxCnt := x }) c5 h6
  simp only [e1, e2, e3, e4, e5, e6]
  exact optional_total _ _ h7

/-- Specification: what the entries of the table, last one first, say about a pair. -/
def listed (a b : String) : List ((String × String) × K) → Option K
  | [] => none
  | e :: es => if (e.1.1 = a ∧ e.1.2 = b) ∨ (e.1.1 = b ∧ e.1.2 = a) then some e.2 else listed a b es

theorem setAll_get_find (isZero : K → Bool) (order : List ((String × String) × K)) (c : CoeffData String K) (a b : String) :
    tableFind (setAll isZero order c).table (orderedPair a b) =
      (listed a b order.reverse).or (tableFind c.table (orderedPair a b)) := by
  have : ∀ order : List ((String × String) × K), tableFind (setAll isZero order.reverse c).table (orderedPair a b) =
      (listed a b order).or (tableFind c.table (orderedPair a b)) := by
    intro order
    induction order with
    | nil => simp [setAll, listed]
    | cons e es ih =>
      simp only [setAll, List.reverse_cons, List.foldl_append, List.foldl_cons, List.foldl_nil] at ih ⊢
      rw [CoeffData.set]
      simp only [find_assign, listed, orderedPair_eq, ih]
      split_ifs
      · simp
      · rfl
  simpa using this order.reverse

theorem decodePairs_listed (isZero : K → Bool) (num : Codec K) (es : List (Node × Node)) (ps : List ((String × String) × K))
    (h : List.Forall₂ (fun e p => Lists num e p.1.1 p.1.2 p.2) es ps) (c : CoeffData String K) :
    decodePairs isZero num es c = .ok (setAll isZero ps c) := by
  induction h generalizing c with
  | nil => rfl
  | @cons e p es ps hep _ ih =>
    obtain ⟨k, v⟩ := e
    obtain ⟨h1, h2⟩ := hep
    simp only at h1 h2
    subst h1
    simp only [decodePairs, decodePair, asString, h2]
    exact ih _

/-- **C124, table.** A document with a default and a table of pairs, in any order and orientation and with repetitions,
gives every pair its last listed coefficient, all others the default, and the pairs with zero coefficients are those
whose last coefficient is zero. -/
theorem C124_table (isZero : K → Bool) (num : Codec K) (l es : List (Node × Node)) (ho : OnceKeys l) (dv : Node) (d : K)
    (hd : Says l "default_coeff" dv) (hdec : num.dec dv = some d) (ht : Says l "pair_coeff_data" (.map es))
    (ps : List ((String × String) × K)) (hps : List.Forall₂ (fun e p => Lists num e p.1.1 p.1.2 p.2) es ps) :
    ∃ c, asCoeff isZero num (.map l) = some c ∧ (∀ a b, c.get a b = (listed a b ps.reverse).getD d) ∧
      ∀ a b, orderedPair a b ∈ c.zero ↔ ∃ v, listed a b ps.reverse = some v ∧ isZero v = true := by
  have hfind : ∀ a b, tableFind (setAll isZero ps (CoeffData.new d)).table (orderedPair a b) = listed a b ps.reverse := by
    intro a b
    rw [setAll_get_find]
    simp [CoeffData.new, tableFind]
  have hi := setAll_inv isZero ps _ (inv_new isZero d)
  refine ⟨setAll isZero ps (CoeffData.new d), ?_, fun a b => ?_, fun a b => ?_⟩
  · simp only [asCoeff, decodeCoeff, optional, find_once ho hd, hdec, find_once ho ht, decodeTable,
      decodePairs_listed isZero num es ps hps, CoeffData.setDefault, CoeffData.new]
  · simp only [CoeffData.get, hfind, setAll_dflt]
    rfl
  · rw [hi.zero]; simp only [hfind]

/-- **C124, bad tables.** A key that is no pair makes the reading fail, after whatever prefix. -/
theorem C124_bad_key (isZero : K → Bool) (num : Codec K) (l es : List (Node × Node)) (ho : OnceKeys l)
    (ht : Says l "pair_coeff_data" (.map es)) (e : Node × Node) (he : e ∈ es) (hk : ∀ x y, e.1 ≠ .seq [x, y]) :
    asCoeff isZero num (.map l) = none := by
  have hbad : ∀ (es : List (Node × Node)) (c : CoeffData String K), e ∈ es → ∃ f, decodePairs isZero num es c = .error f := by
    intro es
    induction es with
    | nil => intro c h; simp at h
    | cons e' es ih =>
      intro c h
      simp only [decodePairs]
      cases hp : decodePair isZero num e' c with
      | error f => exact ⟨f, rfl⟩
      | ok c' =>
        rcases List.mem_cons.1 h with rfl | h
        · exfalso
          unfold decodePair at hp
          split at hp
          · rename_i x y he1; exact hk x y he1
          · simp at hp
        · exact ih c' h
  unfold asCoeff decodeCoeff
  simp only
  cases optional (.map l) "default_coeff" num.dec (fun d (c : CoeffData String K) => c.setDefault d) (CoeffData.new 1) with
  | error f => rfl
  | ok c =>
    simp only [find_once ho ht, decodeTable]
    obtain ⟨f, hf⟩ := hbad es c he
    simp [hf]

/-- **C124 does not hold for the alias `buffer`**, which the reader announces: in every accepted document that gives the
buffer by this name only, the value is dropped. -/
theorem C124_violated_alias {CM CC : Type*} (isZero : K → Bool) (d : Codecs CM CC K) (l : List (Node × Node))
    (base c : Config CM CC K) (v : Node) (x : K) (hb : Says l "buffer" v) (hx : d.num.dec v = some x)
    (hs : Silent l "collision_margin_buffer") (h : decodeConfig isZero d (.map l) base = .ok c) :
    c.buffer = base.buffer := by
  rcases (C124_fields_partial isZero d l base c h).2.2.2.1 with ⟨v, hv, _⟩ | ⟨_, e⟩
  · exact absurd hv (hs v)
  · exact e

/-- **C124 does not hold for a table that is no map**: a scalar is accepted and ignored. -/
theorem C124_violated_scalar_table (isZero : K → Bool) (num : Codec K) (l : List (Node × Node)) (ho : OnceKeys l) (s : String)
    (ht : Says l "pair_coeff_data" (.scalar s)) (hs : Silent l "default_coeff") :
    asCoeff isZero num (.map l) = some (CoeffData.new 1) := by
  simp only [asCoeff, decodeCoeff, optional, find_silent.2 hs, find_once ho ht, decodeTable]

end C124

/-! ## Non-vacuity -/

namespace Demo

/-- Numbers written as decimal naturals. -/
def natCodec : Codec ℚ := ⟨fun q => .scalar (toString q.num.toNat), fun n => match n with
  | .scalar s => s.toNat?.map fun n => (n : ℚ)
  | _ => none⟩

/-- A lawful conversion: the number of elements of a sequence, over the rationals through an encoding of pairs. -/
def ratCodec : Codec ℚ := ⟨fun q => .seq [.seq (List.replicate q.num.natAbs .null),
    if q.num < 0 then .null else .scalar "", .seq (List.replicate q.den .null)], fun n => match n with
  | .seq [.seq a, .null, .seq b] => some (-(a.length : ℚ) / b.length)
  | .seq [.seq a, .scalar _, .seq b] => some ((a.length : ℚ) / b.length)
  | _ => none⟩

theorem ratCodec_lawful : ratCodec.Lawful := by
  intro q
  unfold ratCodec
  simp only
  have hq : (q.num : ℚ) / q.den = q := Rat.num_div_den q
  by_cases h : q.num < 0
  · simp only [h, if_true, List.length_replicate, Option.some.injEq]
    have : (q.num.natAbs : ℚ) = -(q.num : ℚ) := by
      have : (q.num.natAbs : ℤ) = -q.num := Int.ofNat_natAbs_of_nonpos h.le
      rw [← Int.cast_natCast, this]; simp
    rw [this, neg_neg, hq]
  · simp only [h, if_false, List.length_replicate, Option.some.injEq]
    have : (q.num.natAbs : ℚ) = (q.num : ℚ) := by
      have : (q.num.natAbs : ℤ) = q.num := Int.natAbs_of_nonneg (not_lt.1 h)
      rw [← Int.cast_natCast, this]
    rw [this, hq]

/-- A history with an overwritten pair, iterated backwards. -/
example : ∃ c', asCoeff (fun v : ℚ => decide (v = 0)) ratCodec
    (encodeCoeff ratCodec (after (fun v => decide (v = 0)) 2 [.set "b" "a" 5, .set "c" "a" 1, .set "a" "b" 0])
      (after (fun v => decide (v = 0)) 2 [.set "b" "a" 5, .set "c" "a" 1, .set "a" "b" 0]).table.reverse) = some c' ∧
    c'.get "b" "a" = 0 := by
  obtain ⟨c', h, _, _, _, hg, _⟩ := C123_coefficients (fun v : ℚ => decide (v = 0)) ratCodec ratCodec_lawful
    (feps := 0) (deps := 0) le_rfl le_rfl 2 [.set "b" "a" 5, .set "c" "a" 1, .set "a" "b" 0] _ (List.reverse_perm _)
  exact ⟨c', h, by rw [hg]; decide +kernel⟩

/-- A document with the alias is accepted. -/
def doc : List (Node × Node) := [(.scalar "buffer", ratCodec.enc (1 / 20))]

example : ∃ c, decodeConfig (fun v : ℚ => decide (v = 0))
      (⟨ratCodec, ⟨fun _ => .null, fun _ => some 0⟩, ⟨fun _ => .null, fun _ => some true⟩, ⟨fun _ => .null, fun _ => some ()⟩,
        ⟨fun _ => .null, fun _ => some ()⟩, fun _ c => c⟩ : Codecs Unit Unit ℚ) (.map doc)
      ⟨true, (), (), CoeffData.new 1, 1 / 100, 3⟩ = .ok c ∧ c.buffer = 1 / 100 ∧ Says doc "buffer" (ratCodec.enc (1 / 20)) ∧
      Silent doc "collision_margin_buffer" := by
  refine ⟨⟨true, (), (), CoeffData.new 1, 1 / 100, 3⟩, ?_, rfl, List.mem_singleton.2 rfl, ?_⟩
  · simp [decodeConfig, doc, optional, Node.find, Node.isKey, bind, Except.bind]
  · intro v hv
    simp [Says, doc] at hv

/-- A document with a table, one pair given twice. -/
def tableDoc : List (Node × Node) :=
  [(.scalar "pair_coeff_data", .map [(.seq [.scalar "a", .scalar "b"], ratCodec.enc 3),
     (.seq [.scalar "b", .scalar "a"], ratCodec.enc 0)]), (.scalar "default_coeff", ratCodec.enc 4)]

example : ∃ c, asCoeff (fun v : ℚ => decide (v = 0)) ratCodec (.map tableDoc) = some c ∧ c.get "a" "b" = 0 ∧ c.get "a" "c" = 4 := by
  have ho : OnceKeys tableDoc := by
    intro k v w hv hw
    simp only [Says, tableDoc, List.mem_cons, Prod.mk.injEq, Node.scalar.injEq, List.not_mem_nil, or_false] at hv hw
    rcases hv with ⟨rfl, rfl⟩ | ⟨rfl, rfl⟩ <;> rcases hw with ⟨h, rfl⟩ | ⟨h, rfl⟩ <;> first | rfl | exact absurd h (by decide)
  obtain ⟨c, hc, hg, _⟩ := C124_table (fun v : ℚ => decide (v = 0)) ratCodec tableDoc _ ho (ratCodec.enc 4) 4
    (by simp [Says, tableDoc]) (ratCodec_lawful 4) (List.mem_cons_self ..)
    [(("a", "b"), 3), (("b", "a"), 0)]
    (.cons ⟨rfl, ratCodec_lawful 3⟩ (.cons ⟨rfl, ratCodec_lawful 0⟩ .nil))
  exact ⟨c, hc, by rw [hg]; decide +kernel, by rw [hg]; decide +kernel⟩

end Demo

end Verif.Yaml
