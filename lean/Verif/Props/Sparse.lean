import Verif.Model.Sparse
import Verif.Props.Convex
import Mathlib.Data.List.Sort
import Mathlib.Algebra.BigOperators.Ring.Finset
import Mathlib.Algebra.Order.BigOperators.Group.Finset
import Mathlib.Tactic.FieldSimp

/-!
C04 (linear rows), C05 (Hessian and gradient), C06 (compressed columns).
-/

set_option linter.unusedSectionVars false
set_option linter.unusedVariables false

namespace Verif.Sco

open Verif.Bounds (Ext)

universe u
variable {K : Type u} [Field K] [DecidableEq K]

/-- Specification: the linear form denoted by (index, value) pairs. -/
def pairDen (l : List (Nat × K)) (x : Nat → K) : K := (l.map fun q => q.2 * x q.1).sum

@[simp] theorem pairDen_nil (x : Nat → K) : pairDen [] x = 0 := rfl
@[simp] theorem pairDen_cons (q : Nat × K) (l) (x : Nat → K) : pairDen (q :: l) x = q.2 * x q.1 + pairDen l x := by
  simp [pairDen]
@[simp] theorem pairDen_append (l l' : List (Nat × K)) (x : Nat → K) :
    pairDen (l ++ l') x = pairDen l x + pairDen l' x := by simp [pairDen]

/-- Specification: strictly increasing indices. -/
def Increasing (l : List (Nat × K)) : Prop := l.Pairwise fun a b => a.1 < b.1

theorem mapAdd_mem (i : Nat) (v : K) (l : List (Nat × K)) (j : Nat) :
    j ∈ (mapAdd i v l).map Prod.fst ↔ j = i ∨ j ∈ l.map Prod.fst := by
  induction l with
  | nil => simp [mapAdd]
  | cons a l ih =>
    obtain ⟨k, w⟩ := a
    simp only [mapAdd]
    split_ifs with h1 h2
    · simp
    · subst h2; simp
    · simp only [List.map_cons, List.mem_cons, ih]; tauto

theorem mapAdd_den (i : Nat) (v : K) (l : List (Nat × K)) (x : Nat → K) :
    pairDen (mapAdd i v l) x = pairDen l x + v * x i := by
  induction l with
  | nil => simp [mapAdd]
  | cons a l ih =>
    obtain ⟨k, w⟩ := a
    simp only [mapAdd]
    split_ifs with h1 h2
    · simp; ring
    · subst h2; simp; ring
    · simp [ih]; ring

theorem mapAdd_increasing (i : Nat) (v : K) {l : List (Nat × K)} (h : Increasing l) : Increasing (mapAdd i v l) := by
  induction l with
  | nil => simp [mapAdd, Increasing]
  | cons a l ih =>
    obtain ⟨k, w⟩ := a
    obtain ⟨h1, h2⟩ := List.pairwise_cons.1 h
    simp only [mapAdd]
    split_ifs with hlt heq
    · refine List.pairwise_cons.2 ⟨?_, h⟩
      intro b hb
      rcases List.mem_cons.1 hb with rfl | hb
      · exact hlt
      · exact lt_trans hlt (h1 b hb)
    · exact List.pairwise_cons.2 ⟨h1, h2⟩
    · refine List.pairwise_cons.2 ⟨?_, ih h2⟩
      intro b hb
      have : b.1 ∈ (mapAdd i v l).map Prod.fst := List.mem_map_of_mem hb
      rw [mapAdd_mem] at this
      rcases this with e | hm
      · show k < b.1; omega
      · obtain ⟨c, hc, e⟩ := List.mem_map.1 hm
        rw [← e]; exact h1 c hc

/-- C04: `simplify2` gives strictly increasing indices, the same linear form, and mentions exactly the
indices that had a non-zero value. -/
theorem C04_simplify2 (l : List (Nat × K)) :
    Increasing (simplify2 l) ∧ (∀ x, pairDen (simplify2 l) x = pairDen l x) ∧
    ∀ j, j ∈ (simplify2 l).map Prod.fst ↔ ∃ q ∈ l, q.1 = j ∧ q.2 ≠ 0 := by
  have key : ∀ (l m : List (Nat × K)), Increasing m →
      Increasing (l.foldl (fun m t => if t.2 ≠ 0 then mapAdd t.1 t.2 m else m) m) ∧
      (∀ x, pairDen (l.foldl (fun m t => if t.2 ≠ 0 then mapAdd t.1 t.2 m else m) m) x =
        pairDen m x + pairDen l x) ∧
      ∀ j, j ∈ (l.foldl (fun m t => if t.2 ≠ 0 then mapAdd t.1 t.2 m else m) m).map Prod.fst ↔
        j ∈ m.map Prod.fst ∨ ∃ q ∈ l, q.1 = j ∧ q.2 ≠ 0 := by
    intro l
    induction l with
    | nil => intro m h; exact ⟨h, by simp, by simp⟩
    | cons t l ih =>
      intro m h
      rw [List.foldl_cons]
      by_cases h0 : t.2 = 0
      · simp only [h0, ne_eq, not_true, if_false]
        obtain ⟨a, b, c⟩ := ih m h
        refine ⟨a, fun x => by rw [b]; simp [h0], fun j => ?_⟩
        rw [c]; simp [h0]
      · simp only [h0, ne_eq, not_false_iff, if_true]
        obtain ⟨a, b, c⟩ := ih _ (mapAdd_increasing t.1 t.2 h)
        refine ⟨a, fun x => by rw [b, mapAdd_den]; simp; ring, fun j => ?_⟩
        rw [c, mapAdd_mem]
        constructor
        · rintro ((rfl | h1) | ⟨q, h1, h2⟩)
          · exact Or.inr ⟨t, by simp, rfl, h0⟩
          · exact Or.inl h1
          · exact Or.inr ⟨q, by simp [h1], h2⟩
        · rintro (h1 | ⟨q, h1, h2⟩)
          · exact Or.inl (Or.inr h1)
          · rcases List.mem_cons.1 h1 with rfl | h1
            · exact Or.inl (Or.inl h2.1.symm)
            · exact Or.inr ⟨q, h1, h2⟩
  obtain ⟨a, b, c⟩ := key l [] List.Pairwise.nil
  exact ⟨a, fun x => by rw [simplify2, b]; simp, fun j => by rw [simplify2, c]; simp⟩

theorem doublets_none (n : Nat) (ts : List (K × Nat)) : doublets n ts = none ↔ ∃ t ∈ ts, n ≤ t.2 := by
  induction ts with
  | nil => simp [doublets]
  | cons t ts ih =>
    simp only [doublets]
    by_cases h : n ≤ t.2
    · simp [h]
    · cases hd : doublets n ts with
      | none => simp only [h, if_false]; simp [h, ← ih, hd]
      | some l =>
        have : ¬ ∃ t ∈ ts, n ≤ t.2 := by rw [← ih, hd]; simp
        simp only [h, if_false]; simp [h]
        intro a b hab
        by_contra hc
        exact this ⟨(a, b), hab, by simpa using hc⟩

theorem doublets_spec (n : Nat) (ts : List (K × Nat)) (l : List (Nat × K)) (h : doublets n ts = some l) :
    (∀ x, pairDen l x = linDen ts x) ∧ (∀ q ∈ l, q.1 < n ∧ q.2 ≠ 0) ∧
    ∀ j, j ∈ l.map Prod.fst ↔ ∃ t ∈ ts, t.2 = j ∧ t.1 ≠ 0 := by
  induction ts generalizing l with
  | nil => simp [doublets] at h; subst h; simp
  | cons t ts ih =>
    simp only [doublets] at h
    by_cases hn : n ≤ t.2
    · simp [hn] at h
    · simp only [hn, if_false] at h
      cases hd : doublets n ts with
      | none => simp [hd] at h
      | some l' =>
        simp only [hd, Option.some.injEq] at h
        obtain ⟨a, b, c⟩ := ih l' hd
        by_cases h0 : t.1 = 0
        · simp only [h0, ne_eq, not_true, if_false] at h
          subst h
          refine ⟨fun x => by rw [a]; simp [h0], b, fun j => ?_⟩
          rw [c]; simp [h0]
        · simp only [h0, ne_eq, not_false_iff, if_true] at h
          subst h
          refine ⟨fun x => by simp [a], ?_, fun j => ?_⟩
          · intro q hq
            rcases List.mem_cons.1 hq with rfl | hq
            · exact ⟨not_le.1 hn, h0⟩
            · exact b q hq
          · rw [List.map_cons, List.mem_cons, c]
            constructor
            · rintro (rfl | ⟨t', h1, h2⟩)
              · exact ⟨t, by simp, rfl, h0⟩
              · exact ⟨t', by simp [h1], h2⟩
            · rintro ⟨t', h1, h2⟩
              rcases List.mem_cons.1 h1 with rfl | h1
              · exact Or.inl h2.1.symm
              · exact Or.inr ⟨t', h1, h2⟩

/-- Specification of `std::sort` by index (not necessarily stable). -/
def IsSort (sort : List (Nat × K) → List (Nat × K)) : Prop :=
  ∀ l, (sort l).Perm l ∧ (sort l).Pairwise fun a b => a.1 ≤ b.1

theorem pairDen_perm {l l' : List (Nat × K)} (h : l.Perm l') (x : Nat → K) : pairDen l x = pairDen l' x :=
  (h.map _).sum_eq

/-- Shape of the vector under construction: the last stored entry has the previous index. -/
def Built (s : List (Nat × K) × Option Nat) : Prop :=
  Increasing s.1 ∧ (match s.2 with
    | none => s.1 = []
    | some p => ∃ init v, s.1 = init ++ [(p, v)])

theorem coeffAdd_init (i : Nat) (v : K) (l : List (Nat × K)) (h : ∀ q ∈ l, q.1 ≠ i) : coeffAdd i v l = l := by
  induction l with
  | nil => rfl
  | cons a l ih =>
    have h1 : a.1 ≠ i := h a (by simp)
    have h2 := ih fun q hq => h q (by simp [hq])
    simp only [coeffAdd] at h2 ⊢
    simp [h1, h2]

theorem insertLoop_spec (l : List (Nat × K)) (hl : l.Pairwise fun a b => a.1 ≤ b.1)
    (s : List (Nat × K) × Option Nat) (hs : Built s) (hle : ∀ p, s.2 = some p → ∀ q ∈ l, p ≤ q.1) :
    Built (l.foldl insertLoop s) ∧
    (∀ x, pairDen (l.foldl insertLoop s).1 x = pairDen s.1 x + pairDen l x) ∧
    ∀ j, j ∈ (l.foldl insertLoop s).1.map Prod.fst ↔ j ∈ s.1.map Prod.fst ∨ j ∈ l.map Prod.fst := by
  induction l generalizing s with
  | nil => exact ⟨hs, by simp, by simp⟩
  | cons d l ih =>
    obtain ⟨hl1, hl2⟩ := List.pairwise_cons.1 hl
    obtain ⟨acc, prev⟩ := s
    rw [List.foldl_cons]
    by_cases h : prev = some d.1
    · subst h
      obtain ⟨hinc, init, v, hacc⟩ := hs
      simp only at hacc hinc
      subst hacc
      have hlt : ∀ q ∈ init, q.1 < d.1 := by
        intro q hq
        exact (List.pairwise_append.1 hinc).2.2 q hq (d.1, v) (by simp)
      have e : insertLoop (init ++ [(d.1, v)], some d.1) d = (init ++ [(d.1, v + d.2)], some d.1) := by
        have e1 : coeffAdd d.1 d.2 (init ++ [(d.1, v)]) = init ++ [(d.1, v + d.2)] := by
          have := coeffAdd_init d.1 d.2 init fun q hq => ne_of_lt (hlt q hq)
          simp only [coeffAdd] at this ⊢
          rw [List.map_append, this]; simp
        simp only [insertLoop, if_true, e1]
      rw [e]
      have hinc' : Increasing (init ++ [(d.1, v + d.2)]) := by
        rw [Increasing, List.pairwise_append]
        refine ⟨(List.pairwise_append.1 hinc).1, by simp, ?_⟩
        intro a ha b hb
        simp at hb; subst hb; exact hlt a ha
      obtain ⟨a, b, c⟩ := ih hl2 (init ++ [(d.1, v + d.2)], some d.1) ⟨hinc', init, v + d.2, rfl⟩
        (fun p hp q hq => by simp at hp; subst hp; exact hl1 q hq)
      refine ⟨a, fun x => by rw [b]; simp; ring, fun j => ?_⟩
      rw [c]; simp only [List.map_append, List.map_cons, List.mem_append, List.mem_cons]; simp; tauto
    · have e : insertLoop (acc, prev) d = (acc ++ [d], some d.1) := by simp only [insertLoop, h, if_false]
      rw [e]
      have hinc' : Increasing (acc ++ [d]) := by
        rw [Increasing, List.pairwise_append]
        refine ⟨hs.1, by simp, ?_⟩
        intro a ha b hb
        simp at hb; subst hb
        cases hp : prev with
        | none => have := hs.2; simp only [hp] at this; subst this; simp at ha
        | some p =>
          have h2 := hs.2
          simp only [hp] at h2
          obtain ⟨init, v, hacc⟩ := h2
          have hpd : p < b.1 := by
            have h1 : p ≤ b.1 := hle p (by simp [hp]) b (by simp)
            have h2 : p ≠ b.1 := fun e => h (by rw [hp, e])
            omega
          subst hacc
          rcases List.mem_append.1 ha with ha | ha
          · have := (List.pairwise_append.1 hs.1).2.2 a ha (p, v) (by simp)
            exact lt_trans this hpd
          · simp at ha; subst ha; exact hpd
      obtain ⟨a, b, c⟩ := ih hl2 (acc ++ [d], some d.1) ⟨hinc', acc, d.2, rfl⟩
        (fun p hp q hq => by simp at hp; subst hp; exact hl1 q hq)
      refine ⟨a, fun x => by rw [b]; simp; ring, fun j => ?_⟩
      rw [c]; simp only [List.map_append, List.map_cons, List.mem_append, List.mem_cons]; simp; tauto

/-- C04: `exprToEigen(AffExpr)` throws exactly when a mentioned index is not below the requested size;
otherwise the vector has strictly increasing indices in range, denotes the linear part of the expression,
and stores exactly the indices with a non-zero coefficient.  Holds for every sorting procedure. -/
theorem C04_exprToEigen (sort : List (Nat × K) → List (Nat × K)) (hsort : IsSort sort) (e : AffExpr K Nat) (n : Nat) :
    (affToSparse sort e n = none ↔ ∃ t ∈ e.terms, n ≤ t.2) ∧
    ∀ v, affToSparse sort e n = some v →
      Increasing v ∧ (∀ q ∈ v, q.1 < n) ∧ (∀ x, e.constant + pairDen v x = affDen e x) ∧
      ∀ j, j ∈ v.map Prod.fst ↔ ∃ t ∈ e.terms, t.2 = j ∧ t.1 ≠ 0 := by
  constructor
  · rw [← doublets_none]
    simp only [affToSparse]
    cases doublets n e.terms <;> simp
  · intro v hv
    simp only [affToSparse] at hv
    cases hd : doublets n e.terms with
    | none => simp [hd] at hv
    | some l =>
      simp only [hd, Option.some.injEq] at hv
      obtain ⟨a, b, c⟩ := doublets_spec n e.terms l hd
      obtain ⟨p, q⟩ := hsort l
      obtain ⟨A, B, C⟩ := insertLoop_spec (sort l) q ([], none) ⟨List.Pairwise.nil, rfl⟩ (by simp)
      have A1 := A.1
      rw [hv] at A1
      simp only [hv] at B C
      have hmem : ∀ j, j ∈ v.map Prod.fst ↔ j ∈ l.map Prod.fst := by
        intro j; rw [C]; simp only [List.map_nil, List.not_mem_nil, false_or]
        exact (p.map Prod.fst).mem_iff
      refine ⟨A1, ?_, fun x => ?_, fun j => ?_⟩
      · intro r hr
        have := (hmem r.1).1 (List.mem_map_of_mem hr)
        obtain ⟨s, hs, es⟩ := List.mem_map.1 this
        rw [← es]; exact (b s hs).1
      · rw [B, pairDen_perm p, a]; simp [affDen]
      · rw [hmem, c]

/-- non-vacuity for C04: `insertionSort` is such a sort; repeated indices are merged. -/
theorem insertionSort_isSort : IsSort fun l : List (Nat × K) => l.insertionSort fun a b => a.1 ≤ b.1 := by
  intro l
  refine ⟨List.perm_insertionSort _ l, ?_⟩
  haveI : Std.Total fun a b : Nat × K => a.1 ≤ b.1 := ⟨fun a b => Nat.le_total _ _⟩
  haveI : IsTrans (Nat × K) fun a b : Nat × K => a.1 ≤ b.1 := ⟨fun a b c => Nat.le_trans⟩
  exact List.pairwise_insertionSort _ l
example : affToSparse (fun l => l.insertionSort fun a b => a.1 ≤ b.1)
    (⟨7, [(1, 3), (2, 0), (5, 3), (0, 1)]⟩ : AffExpr ℚ Nat) 4 = some [(0, 2), (3, 6)] := by decide +kernel
example : simplify2 [(3, (1 : ℚ)), (0, 2), (3, 5), (1, 0)] = [(0, 2), (3, 6)] := by decide +kernel

/-! ### C05 -/

/-- Specification: the entry of a sparse matrix, `0` where nothing is stored. -/
def colEntry (c : List (Nat × K)) (r : Nat) : K := (c.map fun q => if q.1 = r then q.2 else 0).sum
/-- Specification: the entry of a sparse matrix. -/
def SMat.entry (M : SMat K) (r c : Nat) : K := colEntry (M.cols[c]?.getD []) r

/-- Specification: sum of the triplets at a position. -/
def tsum (ts : List (Nat × Nat × K)) (r c : Nat) : K :=
  (ts.map fun t => if t.1 = r ∧ t.2.1 = c then t.2.2 else 0).sum

/-- Well-formed: strictly increasing row indices in range. -/
structure SMat.Wf (M : SMat K) : Prop where
  inc : ∀ c ∈ M.cols, Increasing c
  rng : ∀ c ∈ M.cols, ∀ q ∈ c, q.1 < M.rows

theorem colEntry_mapAdd (i : Nat) (v : K) (l : List (Nat × K)) (r : Nat) :
    colEntry (mapAdd i v l) r = colEntry l r + if i = r then v else 0 := by
  have h := mapAdd_den i v l (fun j => if j = r then 1 else 0)
  simpa only [pairDen, colEntry, mul_ite, mul_one, mul_zero] using h

theorem addTriplet_spec {M : SMat K} (hM : M.Wf) (t : Nat × Nat × K) (h1 : t.1 < M.rows)
    (h2 : t.2.1 < M.cols.length) :
    ∃ M', M.addTriplet t = some M' ∧ M'.Wf ∧ M'.rows = M.rows ∧ M'.cols.length = M.cols.length ∧
      (∀ r c, M'.entry r c = M.entry r c + if t.1 = r ∧ t.2.1 = c then t.2.2 else 0) ∧
      ∀ r c, (∃ col, M'.cols[c]? = some col ∧ r ∈ col.map Prod.fst) ↔
        (∃ col, M.cols[c]? = some col ∧ r ∈ col.map Prod.fst) ∨ (t.1 = r ∧ t.2.1 = c) := by
  have hget : ∀ c, (M.cols.modify t.2.1 (mapAdd t.1 t.2.2))[c]? =
      if t.2.1 = c then (M.cols[c]?).map (mapAdd t.1 t.2.2) else M.cols[c]? := by
    intro c; rw [List.getElem?_modify]; split_ifs with h <;> simp
  refine ⟨{ M with cols := M.cols.modify t.2.1 (mapAdd t.1 t.2.2) }, by simp [SMat.addTriplet, h1, h2], ?_, rfl,
    by simp, ?_, ?_⟩
  · constructor
    · intro c hc
      obtain ⟨k, hk⟩ := List.getElem?_of_mem hc
      simp only [hget] at hk
      split_ifs at hk with h
      · cases hq : M.cols[k]? with
        | none => simp [hq] at hk
        | some q =>
          simp [hq] at hk; subst hk
          exact mapAdd_increasing _ _ (hM.inc q (List.mem_of_getElem? hq))
      · exact hM.inc c (List.mem_of_getElem? hk)
    · intro c hc q hq
      obtain ⟨k, hk⟩ := List.getElem?_of_mem hc
      simp only [hget] at hk
      split_ifs at hk with h
      · cases hq' : M.cols[k]? with
        | none => simp [hq'] at hk
        | some q' =>
          simp [hq'] at hk; subst hk
          have := (mapAdd_mem t.1 t.2.2 q' q.1).1 (List.mem_map_of_mem hq)
          rcases this with e | hm
          · rw [e]; exact h1
          · obtain ⟨w, hw, e⟩ := List.mem_map.1 hm
            rw [← e]; exact hM.rng q' (List.mem_of_getElem? hq') w hw
      · exact hM.rng c (List.mem_of_getElem? hk) q hq
  · intro r c
    simp only [SMat.entry, hget]
    by_cases h : t.2.1 = c
    · subst h
      rw [List.getElem?_eq_getElem h2]
      simp [colEntry_mapAdd]
    · simp [h]
  · intro r c
    simp only [hget]
    by_cases h : t.2.1 = c
    · subst h
      rw [List.getElem?_eq_getElem h2]
      simp only [if_true, Option.map_some, Option.some.injEq, exists_eq_left', mapAdd_mem, and_true]
      constructor
      · rintro (rfl | h); exacts [Or.inr rfl, Or.inl h]
      · rintro (h | rfl); exacts [Or.inr h, Or.inl rfl]
    · simp [h]

theorem wf_zero (r c : Nat) : (⟨r, List.replicate c []⟩ : SMat K).Wf := by
  constructor
  · intro col h; rw [List.eq_of_mem_replicate h]; exact List.Pairwise.nil
  · intro col h q hq; rw [List.eq_of_mem_replicate h] at hq; simp at hq

theorem foldl_triplets (ts : List (Nat × Nat × K)) (M : SMat K) (hM : M.Wf)
    (h : ∀ t ∈ ts, t.1 < M.rows ∧ t.2.1 < M.cols.length) :
    ∃ M', ts.foldlM SMat.addTriplet M = some M' ∧ M'.Wf ∧ M'.rows = M.rows ∧ M'.cols.length = M.cols.length ∧
      (∀ r c, M'.entry r c = M.entry r c + tsum ts r c) ∧
      ∀ r c, (∃ col, M'.cols[c]? = some col ∧ r ∈ col.map Prod.fst) ↔
        (∃ col, M.cols[c]? = some col ∧ r ∈ col.map Prod.fst) ∨ ∃ t ∈ ts, t.1 = r ∧ t.2.1 = c := by
  induction ts generalizing M with
  | nil => exact ⟨M, rfl, hM, rfl, rfl, by simp [tsum], by simp⟩
  | cons t ts ih =>
    obtain ⟨M1, a1, a2, a3, a4, a5, a6⟩ := addTriplet_spec hM t (h t (by simp)).1 (h t (by simp)).2
    obtain ⟨M2, b1, b2, b3, b4, b5, b6⟩ := ih M1 a2 (fun s hs => by rw [a3, a4]; exact h s (by simp [hs]))
    refine ⟨M2, by rw [List.foldlM_cons, a1]; exact b1, b2, b3.trans a3, b4.trans a4, ?_, ?_⟩
    · intro r c; rw [b5, a5]; simp [tsum]; ring
    · intro r c
      rw [b6, a6]
      simp only [List.mem_cons, exists_eq_or_imp, or_assoc]

/-- `setFromTriplets` sums duplicates; stored positions are exactly those mentioned. -/
theorem setFromTriplets_spec (r c : Nat) (ts : List (Nat × Nat × K)) (h : ∀ t ∈ ts, t.1 < r ∧ t.2.1 < c) :
    ∃ M, setFromTriplets r c ts = some M ∧ M.Wf ∧ M.rows = r ∧ M.cols.length = c ∧
      (∀ i j, M.entry i j = tsum ts i j) ∧
      ∀ i j, (∃ col, M.cols[j]? = some col ∧ i ∈ col.map Prod.fst) ↔ ∃ t ∈ ts, t.1 = i ∧ t.2.1 = j := by
  obtain ⟨M, a1, a2, a3, a4, a5, a6⟩ := foldl_triplets ts ⟨r, List.replicate c []⟩ (wf_zero r c)
    (by simpa using h)
  refine ⟨M, a1, a2, a3, by simpa using a4, ?_, ?_⟩
  · intro i j
    rw [a5]
    have : (⟨r, List.replicate c []⟩ : SMat K).entry i j = 0 := by
      simp only [SMat.entry, List.getElem?_replicate]
      split_ifs <;> simp [colEntry]
    rw [this, zero_add]
  · intro i j
    rw [a6]
    constructor
    · rintro (⟨col, h1, h2⟩ | h)
      · simp only [List.getElem?_replicate] at h1
        split_ifs at h1
        · injection h1 with h1; subst h1; simp at h2
      · exact h
    · exact Or.inr

theorem tsum_append (a b : List (Nat × Nat × K)) (r c : Nat) : tsum (a ++ b) r c = tsum a r c + tsum b r c := by
  simp [tsum]

/-- The triplets of a matrix sum up to its entries. -/
theorem tsum_triplets (M : SMat K) (r c : Nat) : tsum M.triplets r c = M.entry r c := by
  have key : ∀ (cols : List (List (Nat × K))) (k : Nat),
      tsum ((cols.zipIdx k).flatMap fun c => c.1.map fun q => (q.1, c.2, q.2)) r c =
        if k ≤ c then colEntry (cols[c - k]?.getD []) r else 0 := by
    intro cols
    induction cols with
    | nil => intro k; simp [tsum, colEntry]
    | cons a cols ih =>
      intro k
      rw [List.zipIdx_cons, List.flatMap_cons, tsum_append, ih]
      have e : tsum (a.map fun q => (q.1, k, q.2)) r c = if k = c then colEntry a r else 0 := by
        rw [tsum, List.map_map]
        by_cases h : k = c
        · subst h; simp [colEntry, Function.comp_def]
        · simp [h, Function.comp_def]
      simp only [e]
      rcases Nat.lt_trichotomy k c with h | h | h
      · have h1 : k ≠ c := by omega
        have h2 : k + 1 ≤ c := by omega
        have h3 : k ≤ c := by omega
        obtain ⟨d, rfl⟩ : ∃ d, c = k + 1 + d := ⟨c - (k + 1), by omega⟩
        have e1 : k + 1 + d - k = d + 1 := by omega
        have e2 : k + 1 + d - (k + 1) = d := by omega
        rw [if_neg h1, if_pos h2, if_pos h3, e1, e2, List.getElem?_cons_succ, zero_add]
      · subst h
        simp
      · have h1 : k ≠ c := by omega
        have h2 : ¬ k + 1 ≤ c := by omega
        have h3 : ¬ k ≤ c := by omega
        rw [if_neg h1, if_neg h2, if_neg h3, zero_add]
  have := key M.cols 0
  simpa [SMat.triplets, SMat.entry] using this

theorem triplets_range {M : SMat K} (hM : M.Wf) : ∀ t ∈ M.triplets, t.1 < M.rows ∧ t.2.1 < M.cols.length := by
  intro t ht
  simp only [SMat.triplets, List.mem_flatMap] at ht
  obtain ⟨⟨col, k⟩, hc, ht⟩ := ht
  obtain ⟨q, hq, rfl⟩ := List.mem_map.1 ht
  have := List.mem_zipIdx hc
  simp only [Nat.zero_add, Nat.sub_zero] at this
  exact ⟨hM.rng col (by rw [this.2.2]; exact List.getElem_mem _) q hq, this.2.1⟩

/-- C06: `eigenToTriplets` followed by `tripletsToEigen` gives the same entries. -/
theorem C06_triplets_round_trip (M : SMat K) (hM : M.Wf) :
    ∃ M', tripletsToEigen M.rows M.cols.length M.triplets = some M' ∧ M'.rows = M.rows ∧
      M'.cols.length = M.cols.length ∧ ∀ r c, M'.entry r c = M.entry r c := by
  obtain ⟨M', a1, a2, a3, a4, a5, _⟩ := setFromTriplets_spec M.rows M.cols.length M.triplets (triplets_range hM)
  exact ⟨M', a1, a3, a4, fun r c => by rw [a5, tsum_triplets]⟩

theorem entry_scale (M : SMat K) (a : K) (r c : Nat) : (M.scale a).entry r c = a * M.entry r c := by
  simp only [SMat.entry, SMat.scale, List.getElem?_map]
  cases M.cols[c]? with
  | none => simp [colEntry]
  | some col =>
    simp only [Option.map_some, Option.getD_some, colEntry, List.map_map]
    rw [← List.sum_map_mul_left]
    congr 1
    apply List.map_congr_left
    intro q _
    simp only [Function.comp]
    split_ifs <;> simp

theorem plusTranspose_spec {M : SMat K} (hM : M.Wf) (hsq : M.rows = M.cols.length) :
    ∃ S, M.plusTranspose = some S ∧ S.Wf ∧ S.rows = M.rows ∧ S.cols.length = M.cols.length ∧
      ∀ r c, S.entry r c = M.entry r c + M.entry c r := by
  have hr := triplets_range hM
  obtain ⟨S, a1, a2, a3, a4, a5, _⟩ := setFromTriplets_spec M.rows M.cols.length
    (M.triplets ++ M.triplets.map fun t => (t.2.1, t.1, t.2.2)) (by
      intro t ht
      rcases List.mem_append.1 ht with h | h
      · exact hr t h
      · obtain ⟨s, hs, rfl⟩ := List.mem_map.1 h
        have := hr s hs
        exact ⟨hsq ▸ this.2, hsq ▸ this.1⟩)
  refine ⟨S, a1, a2, a3, a4, fun r c => ?_⟩
  rw [a5, tsum_append, tsum_triplets, ← tsum_triplets M c r]
  congr 1
  rw [tsum, tsum, List.map_map]
  congr 1
  apply List.map_congr_left
  intro t _
  simp only [Function.comp, and_comm]

open Finset in
/-- The quadratic form of a sum of triplets. -/
theorem form_tsum (n : Nat) (ts : List (Nat × Nat × K)) (h : ∀ t ∈ ts, t.1 < n ∧ t.2.1 < n) (x : Nat → K) :
    ∑ r ∈ range n, ∑ c ∈ range n, x r * tsum ts r c * x c = (ts.map fun t => t.2.2 * x t.1 * x t.2.1).sum := by
  induction ts with
  | nil => simp [tsum]
  | cons t ts ih =>
    have h1 := h t (by simp)
    rw [List.map_cons, List.sum_cons, ← ih fun s hs => h s (by simp [hs])]
    have e : ∀ r c, x r * tsum (t :: ts) r c * x c =
        (if t.1 = r then (if t.2.1 = c then t.2.2 * x r * x c else 0) else 0) + x r * tsum ts r c * x c := by
      intro r c
      simp only [tsum, List.map_cons, List.sum_cons]
      by_cases a : t.1 = r
      · by_cases b : t.2.1 = c
        · simp [a, b]; ring
        · simp [a, b]
      · simp [a]
    simp only [e, sum_add_distrib]
    congr 1
    rw [sum_eq_single t.1]
    · rw [sum_eq_single t.2.1]
      · simp
      · intro c _ hc; simp [Ne.symm hc]
      · intro hc; exact absurd (mem_range.2 h1.2) hc
    · intro r _ hr; simp [Ne.symm hr]
    · intro hr; exact absurd (mem_range.2 h1.1) hr

theorem quadTriplets_range (n : Nat) (ts : List (K × Nat × Nat)) (h : ∀ t ∈ ts, t.2.1 < n ∧ t.2.2 < n) :
    ∀ t ∈ quadTriplets ts, t.1 < n ∧ t.2.1 < n := by
  induction ts with
  | nil => simp [quadTriplets]
  | cons t ts ih =>
    have h1 := h t (by simp)
    have h2 := ih fun s hs => h s (by simp [hs])
    intro s hs
    simp only [quadTriplets] at hs
    split_ifs at hs with h0 ha hb
    all_goals first
      | exact h2 s hs
      | (rcases List.mem_cons.1 hs with rfl | hs
         · first | exact h1 | exact ⟨h1.2, h1.1⟩
         · exact h2 s hs)

theorem quadTriplets_den (ts : List (K × Nat × Nat)) (x : Nat → K) :
    ((quadTriplets ts).map fun t => t.2.2 * x t.1 * x t.2.1).sum = quadTermsDen ts x := by
  induction ts with
  | nil => rfl
  | cons t ts ih =>
    simp only [quadTriplets]
    split_ifs with h0 ha hb
    · simp [ih, ha]
    · simp [ih]
    · simp [ih]; ring
    · simp at h0; simp [ih, h0]

open Finset in
/-- C05: for every quadratic expression over variables below `n`, `exprToEigen` succeeds; the matrix is
`n × n` and symmetric, and together with the vector it denotes the objective: `1/2 x'Qx + q'x + const` when
`matrix_is_halved`, `x'Qx + q'x + const` otherwise. -/
theorem C05_quadratic [LinearOrder K] [IsStrictOrderedRing K] (sort : List (Nat × K) → List (Nat × K))
    (hsort : IsSort sort) (q : QuadExpr K Nat) (n : Nat) (ha : ∀ t ∈ q.aff.terms, t.2 < n)
    (hq : ∀ t ∈ q.terms, t.2.1 < n ∧ t.2.2 < n) (halved diag : Bool) :
    ∃ Q v, quadToEigen sort q n halved diag = some (Q, v) ∧ Q.rows = n ∧ Q.cols.length = n ∧
      (∀ r c, Q.entry r c = Q.entry c r) ∧ Increasing v ∧ (∀ p ∈ v, p.1 < n) ∧
      ∀ x : Nat → K, (if halved then (1 / 2 : K) else 1) * (∑ r ∈ range n, ∑ c ∈ range n, x r * Q.entry r c * x c) +
        pairDen v x + q.aff.constant = quadDen q x := by
  obtain ⟨hnone, hsome⟩ := C04_exprToEigen sort hsort q.aff n
  cases hv : affToSparse sort q.aff n with
  | none =>
    obtain ⟨t, ht, hn⟩ := hnone.1 hv
    exact absurd (ha t ht) (not_lt.2 hn)
  | some v =>
    obtain ⟨v1, v2, v3, _⟩ := hsome v hv
    have hrange := quadTriplets_range n q.terms hq
    let ts := if diag then quadTriplets q.terms ++ (List.range n).map (fun k => (k, k, (0 : K))) else quadTriplets q.terms
    have hts : ∀ t ∈ ts, t.1 < n ∧ t.2.1 < n := by
      intro t ht
      simp only [ts] at ht
      split_ifs at ht
      · rcases List.mem_append.1 ht with h | h
        · exact hrange t h
        · obtain ⟨k, hk, rfl⟩ := List.mem_map.1 h
          exact ⟨List.mem_range.1 hk, List.mem_range.1 hk⟩
      · exact hrange t ht
    have hden : ∀ x : Nat → K, (ts.map fun t => t.2.2 * x t.1 * x t.2.1).sum = quadTermsDen q.terms x := by
      intro x
      simp only [ts]
      split_ifs
      · rw [List.map_append, List.sum_append, quadTriplets_den, List.map_map]
        simp [Function.comp_def]
      · exact quadTriplets_den _ x
    obtain ⟨M, m1, m2, m3, m4, m5, _⟩ := setFromTriplets_spec n n ts hts
    obtain ⟨S, s1, s2, s3, s4, s5⟩ := plusTranspose_spec m2 (by rw [m3, m4])
    have hform : ∀ x : Nat → K, ∑ r ∈ range n, ∑ c ∈ range n, x r * S.entry r c * x c =
        2 * quadTermsDen q.terms x := by
      intro x
      have e1 : ∑ r ∈ range n, ∑ c ∈ range n, x r * S.entry r c * x c =
          (∑ r ∈ range n, ∑ c ∈ range n, x r * tsum ts r c * x c) +
          ∑ r ∈ range n, ∑ c ∈ range n, x c * tsum ts c r * x r := by
        rw [← sum_add_distrib]
        apply sum_congr rfl; intro r _
        rw [← sum_add_distrib]
        apply sum_congr rfl; intro c _
        rw [s5, m5, m5]; ring
      rw [e1, sum_comm (f := fun r c => x c * tsum ts c r * x r), form_tsum n ts hts, hden]
      ring
    refine ⟨if halved then S else S.scale (1 / 2), v, ?_, ?_, ?_, ?_, v1, v2, ?_⟩
    · simp only [quadToEigen, hv]
      change (match setFromTriplets n n ts with
        | none => none
        | some M => match M.plusTranspose with
          | none => none
          | some S => some (if halved then S else S.scale (1 / 2), v)) = _
      simp only [m1, s1]
    · cases halved <;> simp [SMat.scale, s3, m3]
    · cases halved <;> simp [SMat.scale, s4, m4]
    · intro r c
      cases halved
      · simp only [Bool.false_eq_true, if_false, entry_scale, s5]; ring
      · simp only [if_true, s5]; ring
    · intro x
      have hf := hform x
      have hc := v3 x
      cases halved
      · simp only [Bool.false_eq_true, if_false, entry_scale]
        have e : ∑ r ∈ range n, ∑ c ∈ range n, x r * (1 / 2 * S.entry r c) * x c =
            1 / 2 * ∑ r ∈ range n, ∑ c ∈ range n, x r * S.entry r c * x c := by
          rw [mul_sum]; apply sum_congr rfl; intro r _
          rw [mul_sum]; apply sum_congr rfl; intro c _; ring
        rw [e, hf, quadDen, ← hc]; ring
      · simp only [if_true]
        rw [hf, quadDen, ← hc]; ring

/-- non-vacuity for C05: diagonal, swapped and repeated index pairs. -/
example : (quadToEigen (fun l => l.insertionSort fun a b => a.1 ≤ b.1)
    (⟨⟨5, [(1, 1)]⟩, [(2, 0, 0), (3, 1, 0), (4, 0, 1)]⟩ : QuadExpr ℚ Nat) 2 true false).map (fun r => r.1.cols) =
    some [[(0, 4), (1, 7)], [(0, 7)]] := by decide +kernel

/-! ### C06 -/

/-- Specification: decode compressed columns, column `c` being the entries from pointer `c` to pointer
`c+1`. -/
def CSC.decode (m : CSC K) : List (List (Nat × K)) :=
  (List.range (m.columnPointers.length - 1)).map fun c =>
    ((m.rowIndices.zip m.values).drop (m.columnPointers.getD c 0)).take
      (m.columnPointers.getD (c + 1) 0 - m.columnPointers.getD c 0)

theorem outerIndex_length (k : Nat) (cs : List (List (Nat × K))) : (outerIndex k cs).length = cs.length := by
  induction cs generalizing k with
  | nil => rfl
  | cons c cs ih => simp [outerIndex, ih]

/-- The pointers: running counts. -/
theorem pointer_eq (k : Nat) (cs : List (List (Nat × K))) (c : Nat) (hc : c ≤ cs.length) :
    (outerIndex k cs ++ [k + cs.flatten.length]).getD c 0 = k + (cs.take c).flatten.length := by
  induction cs generalizing k c with
  | nil => simp at hc; subst hc; simp [outerIndex]
  | cons a cs ih =>
    cases c with
    | zero => simp [outerIndex]
    | succ c =>
      have := ih (k + a.length) c (by simpa using hc)
      simp only [outerIndex, List.cons_append, List.getD_cons_succ, List.flatten_cons, List.length_append,
        List.take_succ_cons, ← Nat.add_assoc] at this ⊢
      exact this

/-- C06: `eigenToCSC` gives column pointers that start at `0`, are monotone and end at the number of stored
entries; row indices and values have that length; decoding gives back every column of the matrix (of its
upper triangle when requested), entry for entry and in order. -/
theorem C06_csc_round_trip (upper : Bool) (M : SMat K) :
    let N := if upper then M.upper else M
    let C := eigenToCSC upper M
    C.decode = N.cols ∧ C.columnPointers.length = N.cols.length + 1 ∧ C.columnPointers.head? = some 0 ∧
    C.columnPointers.getLast? = some C.values.length ∧ C.rowIndices.length = C.values.length ∧
    C.columnPointers.Pairwise (· ≤ ·) := by
  intro N C
  have hptr : ∀ c, c ≤ N.cols.length → C.columnPointers.getD c 0 = (N.cols.take c).flatten.length := by
    intro c hc
    have := pointer_eq 0 N.cols c hc
    simpa [C, eigenToCSC, N] using this
  have hlen : C.columnPointers.length = N.cols.length + 1 := by simp [C, eigenToCSC, outerIndex_length, N]
  have hzip : C.rowIndices.zip C.values = N.cols.flatten := by
    show (N.cols.flatten.map Prod.fst).zip (N.cols.flatten.map Prod.snd) = _
    generalize N.cols.flatten = l
    induction l with
    | nil => rfl
    | cons a l ih => simp [ih]
  refine ⟨?_, hlen, ?_, ?_, by simp only [C, eigenToCSC, List.length_map], ?_⟩
  · apply List.ext_getElem?
    intro c
    simp only [CSC.decode, hlen, Nat.add_sub_cancel, List.getElem?_map]
    by_cases hc : c < N.cols.length
    · rw [List.getElem?_range hc, List.getElem?_eq_getElem hc]
      simp only [Option.map_some, Option.some.injEq]
      rw [hptr c (le_of_lt hc), hptr (c + 1) hc, hzip]
      have e1 : N.cols.flatten = (N.cols.take c).flatten ++ (N.cols[c] ++ (N.cols.drop (c + 1)).flatten) := by
        rw [← List.flatten_cons, ← List.flatten_append]
        congr 1
        rw [← List.drop_eq_getElem_cons hc, List.take_append_drop]
      have e2 : (N.cols.take (c + 1)).flatten.length = (N.cols.take c).flatten.length + N.cols[c].length := by
        rw [List.take_succ_eq_append_getElem hc, List.flatten_append]; simp
      rw [e2, e1, List.drop_left]
      simp
    · rw [List.getElem?_eq_none (by simpa using hc), List.getElem?_eq_none (by simpa using hc)]; rfl
  · cases h : N.cols with
    | nil => simp [C, eigenToCSC, N] at h ⊢; simp [N, h, outerIndex]
    | cons a l => simp [C, eigenToCSC]; simp [N] at h; simp [h, outerIndex]
  · simp only [C, eigenToCSC, List.length_map, List.getLast?_append, List.getLast?_singleton, Option.some_or]
  · rw [List.pairwise_iff_getElem]
    intro i j hi hj hij
    rw [hlen] at hi hj
    have gi := hptr i (by omega)
    have gj := hptr j (by omega)
    rw [List.getD_eq_getElem?_getD, List.getElem?_eq_getElem (by rw [hlen]; exact hi), Option.getD_some] at gi
    rw [List.getD_eq_getElem?_getD, List.getElem?_eq_getElem (by rw [hlen]; exact hj), Option.getD_some] at gj
    rw [gi, gj]
    have : N.cols.take i = (N.cols.take j).take i := by rw [List.take_take, min_eq_left (le_of_lt hij)]
    rw [this]
    conv_rhs => rw [← List.take_append_drop i (N.cols.take j), List.flatten_append, List.length_append]
    omega

/-- C06: the upper triangle keeps exactly the entries on or above the diagonal. -/
theorem C06_upper_entries (M : SMat K) (r c : Nat) :
    M.upper.entry r c = if r ≤ c then M.entry r c else 0 := by
  simp only [SMat.entry, SMat.upper, List.getElem?_map, List.getElem?_zipIdx]
  cases M.cols[c]? with
  | none => simp [colEntry]
  | some col =>
    simp only [Option.map_some, Option.getD_some, Nat.zero_add]
    induction col with
    | nil => simp [colEntry]
    | cons a col ih =>
      simp only [colEntry] at ih ⊢
      simp only [List.filter_cons, List.map_cons, List.sum_cons]
      by_cases ha : a.1 ≤ c
      · simp only [ha, decide_true, if_true, List.map_cons, List.sum_cons, ih]
        by_cases hr : r ≤ c
        · simp [hr]
        · have : a.1 ≠ r := by omega
          simp [hr, this]
      · simp only [ha, decide_false, Bool.false_eq_true, if_false, ih]
        by_cases hr : r ≤ c
        · have : a.1 ≠ r := by omega
          simp [hr, this]
        · simp [hr]

/-- non-vacuity for C06: a matrix with an empty column. -/
example : (eigenToCSC true (⟨3, [[(0, 1), (2, 5)], [], [(1, 2), (2, 3)]]⟩ : SMat ℚ)).columnPointers = [0, 1, 1, 3] ∧
    (eigenToCSC true (⟨3, [[(0, 1), (2, 5)], [], [(1, 2), (2, 3)]]⟩ : SMat ℚ)).decode =
      [[(0, 1)], [], [(1, 2), (2, 3)]] := by decide +kernel

end Verif.Sco
