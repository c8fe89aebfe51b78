import Verif.Model.SArray
import Mathlib.Tactic.Linarith
import Mathlib.Data.List.Infix

set_option linter.unusedSectionVars false
set_option linter.unusedVariables false

/-!
# C170: the growing array of V-HACD behaves as a list
-/

namespace Verif.SArray

variable {T : Type}

/-! ### Specification -/

/-- The elements of an array, in order; `none` for elements nothing was stored in. -/
def elems (N : ℕ) (a : Arr T) : List (Option T) := ((a.buf N).getD []).take a.size

/-- An array as its operations keep it. -/
def Arr.WF (N : ℕ) (a : Arr T) : Prop :=
  a.data0.length = N ∧ N ≤ a.maxSize ∧ a.size ≤ a.maxSize ∧
    (a.maxSize ≠ N → ∃ b, a.data = some b ∧ b.length = a.maxSize)

/-- What an operation on a family of lists should do. -/
def Spec [DecidableEq T] (m m' : ℕ → List (Option T)) : Op T → Prop
  | .push i v => m' = Function.update m i (m i ++ [some v])
  | .pop i => m' = Function.update m i (m i).dropLast
  | .clear i => m' = Function.update m i []
  | .resize i n => ∃ l, l.length = n ∧ l.take (m i).length = (m i).take n ∧ m' = Function.update m i l
  | .insert i v => m' = Function.update m i (if some v ∈ m i then m i else m i ++ [some v])
  | .erase i v => m' = Function.update m i ((m i).erase (some v))
  | .assign i j => m' = Function.update m i (m j)

/-- When an operation may be used: an element must be there to be removed from the end, and
elements compared must have been stored. -/
def Can (m : ℕ → List (Option T)) : Op T → Prop
  | .pop i => m i ≠ [] ∧ (m i).length < 2 ^ 64
  | .insert i _ => ∀ x ∈ m i, x ≠ none
  | .erase i _ => ∀ x ∈ m i, x ≠ none
  | _ => True

/-- Sequences of operations on lists. -/
inductive Runs [DecidableEq T] : List (Op T) → (ℕ → List (Option T)) → (ℕ → List (Option T)) → Prop
  | nil (m : ℕ → List (Option T)) : Runs [] m m
  | cons {o : Op T} {os : List (Op T)} {m m1 m2 : ℕ → List (Option T)} :
      Can m o → Spec m m1 o → Runs os m1 m2 → Runs (o :: os) m m2

/-! ### Single operations -/

theorem buf_spec {N : ℕ} {a : Arr T} (h : a.WF N) : ∃ b, a.buf N = some b ∧ b.length = a.maxSize := by
  unfold Arr.buf
  by_cases hm : a.maxSize = N
  · rw [if_pos hm]; exact ⟨_, rfl, by rw [h.1, hm]⟩
  · rw [if_neg hm]; exact h.2.2.2 hm

theorem elems_of {N : ℕ} {a : Arr T} {b : List (Option T)} (h : a.buf N = some b) :
    elems N a = b.take a.size := by
  unfold elems; rw [h]; rfl

theorem elems_length {N : ℕ} {a : Arr T} (h : a.WF N) : (elems N a).length = a.size := by
  obtain ⟨b, h1, h2⟩ := buf_spec h
  rw [elems_of h1, List.length_take, h2]
  exact Nat.min_eq_left h.2.2.1

theorem setBuf_spec {N : ℕ} {a : Arr T} (h : a.WF N) {b : List (Option T)} (hb : b.length = a.maxSize)
    (n : ℕ) (hn : n ≤ a.maxSize) :
    ({ a.setBuf N b with size := n } : Arr T).WF N ∧
      ({ a.setBuf N b with size := n } : Arr T).buf N = some b := by
  unfold Arr.setBuf
  by_cases hm : a.maxSize = N
  · rw [if_pos hm]
    refine ⟨⟨by rw [hb, hm], h.2.1, hn, fun hc => absurd hm hc⟩, ?_⟩
    unfold Arr.buf; exact if_pos hm
  · rw [if_neg hm]
    refine ⟨⟨h.1, h.2.1, hn, fun _ => ⟨b, rfl, hb⟩⟩, ?_⟩
    unfold Arr.buf; exact if_neg hm

theorem copyTo_spec {src dst : List (Option T)} {n : ℕ} (h1 : n ≤ src.length) (h2 : n ≤ dst.length) :
    ∃ t, copyTo src dst n = some t ∧ t.length = dst.length ∧ t.take n = src.take n := by
  refine ⟨src.take n ++ dst.drop n, if_pos ⟨h1, h2⟩, ?_, ?_⟩
  · simp only [List.length_append, List.length_take, List.length_drop]; omega
  · rw [List.take_append_of_le_length (by simp; omega)]
    simp

theorem new_wf (N : ℕ) : (new N : Arr T).WF N ∧ elems N (new N : Arr T) = [] :=
  ⟨⟨by simp [new], le_refl _, Nat.zero_le _, fun h => absurd rfl h⟩, by simp [elems, new]⟩

theorem grow_spec {N : ℕ} (hN : 0 < N) {a : Arr T} (h : a.WF N) :
    ∃ g, a.grow N = some g ∧ g.WF N ∧ g.size = a.size ∧ elems N g = elems N a ∧ g.size < g.maxSize := by
  obtain ⟨b, h1, h2⟩ := buf_spec h
  unfold Arr.grow
  by_cases hs : a.size = a.maxSize
  · rw [if_pos hs]
    obtain ⟨t, t1, t2, t3⟩ := copyTo_spec (src := b)
      (dst := List.replicate (a.maxSize * 2) (none : Option T)) (n := a.maxSize) (by omega)
      (by simp; omega)
    rw [List.length_replicate] at t2
    have hN' := h.2.1
    refine ⟨{ a with data := some t, maxSize := a.maxSize * 2 }, by simp [h1, t1], ?_, rfl, ?_, ?_⟩
    · exact ⟨h.1, by simp only; omega, by simp only; omega, fun _ => ⟨t, rfl, t2⟩⟩
    · have hb : ({ a with data := some t, maxSize := a.maxSize * 2 } : Arr T).buf N = some t := by
        unfold Arr.buf; exact if_neg (by simp only; omega)
      rw [elems_of hb, elems_of h1]
      simp only
      rw [hs, t3]
    · simp only; omega
  · rw [if_neg hs]
    exact ⟨a, rfl, h, rfl, rfl, lt_of_le_of_ne h.2.2.1 hs⟩

theorem take_set (b : List (Option T)) (n : ℕ) (v : Option T) (h : n < b.length) :
    (b.set n v).take (n + 1) = b.take n ++ [v] := by
  rw [List.take_succ, List.take_set_of_le (le_refl n)]
  simp [h]

theorem store_spec {N : ℕ} {a : Arr T} (h : a.WF N) (hs : a.size < a.maxSize) (v : Option T) :
    ∃ a', a.store N v = some a' ∧ a'.WF N ∧ elems N a' = elems N a ++ [v] := by
  obtain ⟨b, h1, h2⟩ := buf_spec h
  obtain ⟨s1, s2⟩ := setBuf_spec h (b := b.set a.size v) (by simpa using h2) (a.size + 1) (by omega)
  refine ⟨{ a.setBuf N (b.set a.size v) with size := a.size + 1 }, ?_, s1, ?_⟩
  · unfold Arr.store
    simp [h1, if_pos (show a.size < b.length by omega)]
  · rw [elems_of s2, elems_of h1]
    exact take_set b a.size v (by omega)

theorem pushBack_spec {N : ℕ} (hN : 0 < N) {a : Arr T} (h : a.WF N) (v : T) :
    ∃ a', a.pushBack N v = some a' ∧ a'.WF N ∧ elems N a' = elems N a ++ [some v] := by
  obtain ⟨g, g1, g2, g3, g4, g5⟩ := grow_spec hN h
  obtain ⟨a', s1, s2, s3⟩ := store_spec g2 g5 (some v)
  exact ⟨a', by simp [Arr.pushBack, g1, s1], s2, by rw [s3, g4]⟩

theorem popBack_spec {N : ℕ} {a : Arr T} (h : a.WF N) (h0 : elems N a ≠ []) (h1 : a.size < 2 ^ 64) :
    a.popBack.WF N ∧ elems N a.popBack = (elems N a).dropLast := by
  have hpos : 0 < a.size := by
    rw [← elems_length h]; exact List.length_pos_of_ne_nil h0
  have hs : a.popBack = { a with size := a.size - 1 } := by
    have hm : (a.size + (2 ^ 64 - 1)) % 2 ^ 64 = a.size - 1 := by omega
    unfold Arr.popBack
    rw [hm]
  rw [hs]
  obtain ⟨b, b1, b2⟩ := buf_spec h
  have hb : ({ a with size := a.size - 1 } : Arr T).buf N = some b := b1
  have hle := h.2.2.1
  refine ⟨⟨h.1, h.2.1, by simp only; omega, h.2.2.2⟩, ?_⟩
  rw [elems_of hb, elems_of b1]
  simp only
  rw [List.dropLast_eq_take, List.length_take, List.take_take, b2]
  congr 1
  omega

theorem clear_spec {N : ℕ} {a : Arr T} (h : a.WF N) :
    (a.clear N).WF N ∧ elems N (a.clear N) = [] :=
  ⟨⟨h.1, le_refl _, Nat.zero_le _, fun hc => absurd rfl hc⟩, by simp [elems, Arr.clear]⟩

theorem resize_spec {N : ℕ} {a : Arr T} (h : a.WF N) (n : ℕ) :
    ∃ a', a.resize N n = some a' ∧ a'.WF N ∧ (elems N a').length = n ∧
      (elems N a').take a.size = (elems N a).take n := by
  obtain ⟨b, h1, h2⟩ := buf_spec h
  have hle := h.2.2.1
  have hN := h.2.1
  unfold Arr.resize Arr.allocate
  by_cases hn : a.maxSize < n
  · rw [if_pos hn]
    obtain ⟨t, t1, t2, t3⟩ := copyTo_spec (src := b)
      (dst := List.replicate n (none : Option T)) (n := a.size) (by omega) (by simp; omega)
    rw [List.length_replicate] at t2
    have hb : ({ a with data := some t, maxSize := n, size := n } : Arr T).buf N = some t := by
      unfold Arr.buf; exact if_neg (by simp only; omega)
    refine ⟨{ a with data := some t, maxSize := n, size := n }, by simp [h1, t1], ?_, ?_, ?_⟩
    · exact ⟨h.1, by simp only; omega, le_refl _, fun _ => ⟨t, rfl, t2⟩⟩
    · rw [elems_of hb]; simp [t2]
    · rw [elems_of hb, elems_of h1]
      simp only
      rw [List.take_of_length_le (by omega : t.length ≤ n), t3, List.take_take,
        Nat.min_eq_right (by omega)]
  · rw [if_neg hn]
    have hb : ({ a with size := n } : Arr T).buf N = some b := h1
    refine ⟨{ a with size := n }, rfl, ⟨h.1, h.2.1, by simp only; omega, h.2.2.2⟩, ?_, ?_⟩
    · rw [elems_of hb]; simp; omega
    · rw [elems_of hb, elems_of h1]
      simp only
      rw [List.take_take, List.take_take, Nat.min_comm]

theorem assign_spec {N : ℕ} {a r : Arr T} (h : a.WF N) (hr : r.WF N) :
    ∃ a', a.assign N r = some a' ∧ a'.WF N ∧ elems N a' = elems N r := by
  obtain ⟨br, r1, r2⟩ := buf_spec hr
  have hle := hr.2.2.1
  have hN := h.2.1
  have hN' := hr.2.1
  unfold Arr.assign
  generalize ha1 : (if a.maxSize < r.size then
      ({ a with maxSize := r.maxSize, data := some (List.replicate r.maxSize none) } : Arr T)
    else a) = a1
  have hw : ({ a1 with size := r.size } : Arr T).WF N := by
    rw [← ha1]
    by_cases hs : a.maxSize < r.size
    · rw [if_pos hs]
      exact ⟨h.1, by simp only; omega, hle, fun _ => ⟨_, rfl, by simp⟩⟩
    · rw [if_neg hs]
      exact ⟨h.1, h.2.1, by simp only; omega, h.2.2.2⟩
  obtain ⟨b, b1, b2⟩ := buf_spec hw
  have hsz : r.size ≤ a1.maxSize := hw.2.2.1
  obtain ⟨t, t1, t2, t3⟩ := copyTo_spec (src := br) (dst := b) (n := r.size) (by omega)
    (by rw [b2]; exact hsz)
  obtain ⟨s1, s2⟩ := setBuf_spec hw (b := t) (by rw [t2, b2]) r.size hsz
  have e1 : ({ ({ a1 with size := r.size } : Arr T).setBuf N t with size := r.size } : Arr T) =
      ({ a1 with size := r.size } : Arr T).setBuf N t := by
    unfold Arr.setBuf
    split_ifs <;> rfl
  rw [e1] at s1 s2
  refine ⟨({ a1 with size := r.size } : Arr T).setBuf N t, by simp [b1, r1, t1], s1, ?_⟩
  rw [elems_of s2, elems_of r1, ← t3]
  congr 1
  unfold Arr.setBuf
  split_ifs <;> rfl

variable [DecidableEq T]

theorem findIn_spec (v : T) : ∀ (l : List (Option T)) (n : ℕ), n ≤ l.length →
    (∀ x ∈ l.take n, x ≠ none) → findIn v l n = some ((l.take n).idxOf (some v)) := by
  intro l
  induction l with
  | nil =>
    intro n hn _
    have : n = 0 := by simpa using hn
    subst this
    rfl
  | cons w l ih =>
    intro n hn hs
    cases n with
    | zero => simp [findIn]
    | succ n =>
      rw [List.take_succ_cons] at hs ⊢
      cases w with
      | none => exact absurd rfl (hs none (List.mem_cons_self ..))
      | some w =>
        rw [findIn]
        by_cases hv : v = w
        · rw [if_pos hv, hv, List.idxOf_cons_self]
        · rw [if_neg hv, ih n (by simpa using hn) (fun x hx => hs x (List.mem_cons_of_mem _ hx)),
            List.idxOf_cons_ne _ (by simpa using fun h => hv h.symm)]
          rfl

theorem find_spec {N : ℕ} {a : Arr T} (h : a.WF N) (v : T) (hs : ∀ x ∈ elems N a, x ≠ none) :
    a.find N v = some (decide (some v ∈ elems N a), (elems N a).idxOf (some v)) := by
  obtain ⟨b, h1, h2⟩ := buf_spec h
  have hl := elems_length h
  rw [elems_of h1] at hs hl ⊢
  unfold Arr.find
  simp only [h1, Option.bind_eq_bind, Option.bind_some, findIn_spec v b a.size (by rw [h2]; exact h.2.2.1) hs]
  congr 2
  rw [decide_eq_decide]
  have hi := List.idxOf_lt_length_iff (a := some v) (l := b.take a.size)
  rwa [hl] at hi

theorem insert_spec {N : ℕ} (hN : 0 < N) {a : Arr T} (h : a.WF N) (v : T)
    (hs : ∀ x ∈ elems N a, x ≠ none) :
    ∃ r, a.insert N v = some r ∧ r.1 = !decide (some v ∈ elems N a) ∧ r.2.WF N ∧
      elems N r.2 = if some v ∈ elems N a then elems N a else elems N a ++ [some v] := by
  unfold Arr.insert
  rw [find_spec h v hs]
  by_cases hm : some v ∈ elems N a
  · refine ⟨(false, a), by simp [hm], by simp [hm], h, by simp [hm]⟩
  · obtain ⟨a', p1, p2, p3⟩ := pushBack_spec hN h v
    refine ⟨(true, a'), by simp [hm, p1], by simp [hm], p2, by simp [hm, p3]⟩

theorem shift_spec : ∀ (n j : ℕ) (b : List (Option T)), 1 ≤ j → j + n ≤ b.length →
    ∃ b', shift n j b = some b' ∧ b'.length = b.length ∧
      ∀ k : ℕ, b'[k]? = if j ≤ k + 1 ∧ k + 1 < j + n then b[k + 1]? else b[k]? := by
  intro n
  induction n with
  | zero =>
    intro j b _ _
    refine ⟨b, rfl, rfl, fun k => ?_⟩
    rw [if_neg (by omega)]
  | succ n ih =>
    intro j b hj hl
    have hlt : j < b.length := by omega
    obtain ⟨b', e1, e2, e3⟩ := ih (j + 1) (b.set (j - 1) b[j]) (by omega) (by rw [List.length_set]; omega)
    refine ⟨b', ?_, by rw [e2, List.length_set], fun k => ?_⟩
    · rw [shift]
      simp only [List.getElem?_eq_getElem hlt, Option.bind_eq_bind, Option.bind_some]
      rw [if_pos (by omega), e1]
    · rw [e3 k]
      simp only [List.getElem?_set]
      by_cases c1 : j + 1 ≤ k + 1 ∧ k + 1 < j + 1 + n
      · rw [if_pos c1, if_neg (by omega), if_pos (by omega)]
      · rw [if_neg c1]
        by_cases c2 : j - 1 = k
        · rw [if_pos c2, if_pos (by omega), if_pos (by omega)]
          have : k + 1 = j := by omega
          rw [this, List.getElem?_eq_getElem hlt]
        · rw [if_neg c2, if_neg (by omega)]

theorem erase_spec {N : ℕ} {a : Arr T} (h : a.WF N) (v : T)
    (hs : ∀ x ∈ elems N a, x ≠ none) :
    ∃ r, a.erase N v = some r ∧ r.1 = decide (some v ∈ elems N a) ∧ r.2.WF N ∧
      elems N r.2 = (elems N a).erase (some v) := by
  obtain ⟨b, h1, h2⟩ := buf_spec h
  have hl := elems_length h
  have hle := h.2.2.1
  unfold Arr.erase
  rw [find_spec h v hs]
  by_cases hm : some v ∈ elems N a
  · have hp : (elems N a).idxOf (some v) < a.size := by
      rw [← hl]; exact List.idxOf_lt_length_iff.mpr hm
    generalize hpos : (elems N a).idxOf (some v) = p at hp
    obtain ⟨b', s1, s2, s3⟩ := shift_spec (a.size - (p + 1)) (p + 1) b (by omega) (by omega)
    obtain ⟨w1, w2⟩ := setBuf_spec h (b := b') (by rw [s2, h2]) (a.size - 1) (by omega)
    refine ⟨(true, { a.setBuf N b' with size := a.size - 1 }), by simp [hm, h1, s1], by simp [hm],
      w1, ?_⟩
    simp only
    rw [elems_of w2, List.erase_eq_eraseIdx_of_idxOf hpos, elems_of h1]
    simp only
    apply List.ext_getElem?
    intro k
    rw [List.getElem?_eraseIdx, List.getElem?_take, List.getElem?_take, List.getElem?_take, s3]
    by_cases c1 : k < a.size - 1
    · rw [if_pos c1]
      by_cases c2 : k < p
      · rw [if_neg (by omega), if_pos c2, if_pos (by omega)]
      · rw [if_pos (by omega), if_neg c2, if_pos (by omega)]
    · rw [if_neg c1]
      by_cases c2 : k < p
      · omega
      · rw [if_neg c2, if_neg (by omega)]
  · refine ⟨(false, a), by simp [hm], by simp [hm], h, ?_⟩
    rw [List.erase_of_not_mem hm]

/-! ### The claim -/

/-- **C170.** Each operation which may be used does to the array what it should do to a list, never
touches memory outside of its buffers, and leaves an array on which all operations work.  After
`Resize` to a greater size the new elements are unspecified. -/
theorem C170_step (N : ℕ) (hN : 0 < N) (s : ℕ → Arr T) (hw : ∀ i, (s i).WF N) (o : Op T)
    (hc : Can (fun i => elems N (s i)) o) :
    ∃ s', step N s o = some s' ∧ (∀ i, (s' i).WF N) ∧
      Spec (fun i => elems N (s i)) (fun i => elems N (s' i)) o := by
  have upd : ∀ (i : ℕ) (a' : Arr T), a'.WF N → (∀ j, (Function.update s i a' j).WF N) ∧
      (fun j => elems N (Function.update s i a' j)) =
        Function.update (fun j => elems N (s j)) i (elems N a') := by
    intro i a' h
    refine ⟨fun j => ?_, ?_⟩
    · by_cases hj : j = i
      · subst hj; rw [Function.update_self]; exact h
      · rw [Function.update_of_ne hj]; exact hw j
    · funext j
      by_cases hj : j = i
      · subst hj; rw [Function.update_self, Function.update_self]
      · rw [Function.update_of_ne hj, Function.update_of_ne hj]
  cases o with
  | push i v =>
    obtain ⟨a', h1, h2, h3⟩ := pushBack_spec hN (hw i) v
    refine ⟨Function.update s i a', by simp [step, h1], (upd i a' h2).1, ?_⟩
    show _ = _
    rw [(upd i a' h2).2, h3]
  | pop i =>
    obtain ⟨h2, h3⟩ := popBack_spec (hw i) hc.1 (by
      have := hc.2; simp only [elems_length (hw i)] at this; exact this)
    refine ⟨_, rfl, (upd i _ h2).1, ?_⟩
    show _ = _
    rw [(upd i _ h2).2, h3]
  | clear i =>
    obtain ⟨h2, h3⟩ := clear_spec (hw i)
    refine ⟨_, rfl, (upd i _ h2).1, ?_⟩
    show _ = _
    rw [(upd i _ h2).2, h3]
  | resize i n =>
    obtain ⟨a', h1, h2, h3, h4⟩ := resize_spec (hw i) n
    refine ⟨Function.update s i a', by simp [step, h1], (upd i a' h2).1, ?_⟩
    refine ⟨elems N a', h3, ?_, (upd i a' h2).2⟩
    rw [elems_length (hw i)]
    exact h4
  | insert i v =>
    obtain ⟨r, h1, _, h2, h3⟩ := insert_spec hN (hw i) v hc
    refine ⟨Function.update s i r.2, by simp [step, h1], (upd i _ h2).1, ?_⟩
    show _ = _
    rw [(upd i _ h2).2, h3]
  | erase i v =>
    obtain ⟨r, h1, _, h2, h3⟩ := erase_spec (hw i) v hc
    refine ⟨Function.update s i r.2, by simp [step, h1], (upd i _ h2).1, ?_⟩
    show _ = _
    rw [(upd i _ h2).2, h3]
  | assign i j =>
    by_cases hij : i = j
    · refine ⟨s, by simp [step, hij], hw, ?_⟩
      show _ = _
      rw [hij, Function.update_eq_self]
    · obtain ⟨a', h1, h2, h3⟩ := assign_spec (hw i) (hw j)
      refine ⟨Function.update s i a', by simp [step, hij, h1], (upd i a' h2).1, ?_⟩
      show _ = _
      rw [(upd i a' h2).2, h3]

/-- **C170.** For every sequence of operations on any number of arrays which start out empty: the
arrays go through it as lists do, without a fault, unless at some point an operation is used which
may not be used there. -/
theorem C170_session (N : ℕ) (hN : 0 < N) (os : List (Op T)) :
    (∃ s', run N os (fun _ => new N) = some s' ∧
        Runs os (fun _ => ([] : List (Option T))) (fun i => elems N (s' i))) ∨
      ∃ pre o post m, os = pre ++ o :: post ∧ Runs pre (fun _ => ([] : List (Option T))) m ∧ ¬ Can m o := by
  have key : ∀ (os : List (Op T)) (s : ℕ → Arr T), (∀ i, (s i).WF N) →
      (∃ s', run N os s = some s' ∧ Runs os (fun i => elems N (s i)) (fun i => elems N (s' i))) ∨
        ∃ pre o post m, os = pre ++ o :: post ∧ Runs pre (fun i => elems N (s i)) m ∧ ¬ Can m o := by
    intro os
    induction os with
    | nil => intro s _; exact Or.inl ⟨s, rfl, Runs.nil _⟩
    | cons o os ih =>
      intro s hw
      by_cases hc : Can (fun i => elems N (s i)) o
      · obtain ⟨s1, h1, h2, h3⟩ := C170_step N hN s hw o hc
        rcases ih s1 h2 with ⟨s', r1, r2⟩ | ⟨pre, o', post, m, r1, r2, r3⟩
        · exact Or.inl ⟨s', by simp [run, h1, r1], Runs.cons hc h3 r2⟩
        · exact Or.inr ⟨o :: pre, o', post, m, by rw [r1]; rfl, Runs.cons hc h3 r2, r3⟩
      · exact Or.inr ⟨[], o, os, _, rfl, Runs.nil _, hc⟩
  have h := key os (fun _ => new N) (fun _ => (new_wf N).1)
  have e : (fun _ : ℕ => elems N (new N : Arr T)) = fun _ => [] := by funext _; exact (new_wf N).2
  rw [e] at h
  exact h

/-- **C170.** `operator[]` reads the elements, `Find`, `Insert` and `Erase` report whether the
value was there, `Find` gives the first position, and a copy has the same elements. -/
theorem C170_reads (N : ℕ) (hN : 0 < N) (a : Arr T) (h : a.WF N) (v : T) :
    a.size = (elems N a).length ∧
      (∀ i (hi : i < (elems N a).length), a.get N i = some (elems N a)[i]) ∧
      ((∀ x ∈ elems N a, x ≠ none) →
        a.find N v = some (decide (some v ∈ elems N a), (elems N a).idxOf (some v)) ∧
        (a.insert N v).map (·.1) = some (!decide (some v ∈ elems N a)) ∧
        (a.erase N v).map (·.1) = some (decide (some v ∈ elems N a))) ∧
      ∃ c, a.copy N = some c ∧ c.WF N ∧ elems N c = elems N a := by
  refine ⟨(elems_length h).symm, ?_, ?_, assign_spec (new_wf N).1 h⟩
  · intro i hi
    obtain ⟨b, h1, h2⟩ := buf_spec h
    have hi' := hi
    rw [elems_length h] at hi'
    have hle := h.2.2.1
    unfold Arr.get
    simp only [h1, Option.bind_eq_bind, Option.bind_some]
    rw [List.getElem?_eq_getElem (by omega)]
    simp only [elems_of h1, List.getElem_take]
  · intro hs
    obtain ⟨r, r1, r2, _⟩ := insert_spec hN h v hs
    obtain ⟨q, q1, q2, _⟩ := erase_spec h v hs
    exact ⟨find_spec h v hs, by rw [r1]; simp [r2], by rw [q1]; simp [q2]⟩

/-- **C170 (partial: unless the array is full and has left its inner buffer).** An element of the
array itself may be appended to it. -/
theorem C170_own_partial (N : ℕ) (hN : 0 < N) (a : Arr T) (h : a.WF N) (i : ℕ)
    (hi : i < (elems N a).length) (hf : ¬ (a.size = a.maxSize ∧ a.maxSize ≠ N)) :
    ∃ a', a.pushOwn N i = some a' ∧ a'.WF N ∧ elems N a' = elems N a ++ [(elems N a)[i]] := by
  obtain ⟨b, h1, h2⟩ := buf_spec h
  have hi' := hi
  rw [elems_length h] at hi'
  have hle := h.2.2.1
  obtain ⟨g, g1, g2, g3, g4, g5⟩ := grow_spec hN h
  have hb : b[i]? = some (elems N a)[i] := by
    rw [List.getElem?_eq_getElem (by omega)]
    simp only [elems_of h1, List.getElem_take]
  obtain ⟨a', s1, s2, s3⟩ := store_spec g2 g5 (elems N a)[i]
  refine ⟨a', ?_, s2, by rw [s3, g4]⟩
  unfold Arr.pushOwn
  simp only [g1, Option.bind_eq_bind, Option.bind_some, if_neg hf, h1, hb, s1]

/-- **C170 (violated).** Appending an element of the array itself when the array is full and has
left its inner buffer reads memory which was just freed. -/
theorem C170_violated_own (N : ℕ) (a : Arr T) (h : a.size = a.maxSize ∧ a.maxSize ≠ N) (i : ℕ) :
    a.pushOwn N i = none := by
  unfold Arr.pushOwn
  cases a.grow N <;> simp [h]

/-- **C170 (violated).** Removing an element from an empty array leaves one which claims to have
2⁶⁴ - 1 elements. -/
theorem C170_violated_pop (N : ℕ) : (new N : Arr T).popBack.size = 2 ^ 64 - 1 := by
  show (0 + (2 ^ 64 - 1)) % 2 ^ 64 = _
  norm_num

/-! ### Examples -/

/-- five elements in an array with room for two inside -/
example : (run 2 [.push 0 5, .push 0 6, .push 0 7, .insert 0 6, .erase 0 5, .assign 1 0, .pop 1]
      (fun _ => (new 2 : Arr ℕ))).map (fun s => (elems 2 (s 0), elems 2 (s 1), (s 0).maxSize)) =
    some ([some 6, some 7], [some 6], 4) := by decide +kernel

/-- `Resize` exposes elements which were removed before -/
example : (run 2 [.push 0 5, .pop 0, .resize 0 2] (fun _ => (new 2 : Arr ℕ))).map
    (fun s => elems 2 (s 0)) = some [some 5, none] := by decide +kernel

/-- an array which is full and has left its inner buffer -/
example : ∃ a : Arr ℕ, a.WF 1 ∧ a.size = a.maxSize ∧ a.maxSize ≠ 1 ∧ 0 < (elems 1 a).length :=
  ⟨⟨[none], some [some 3, some 4], 2, 2⟩, ⟨rfl, by decide, by decide, fun _ => ⟨_, rfl, rfl⟩⟩, rfl,
    by decide, by decide⟩

/-- with no room inside, nothing can be stored -/
example : (new 0 : Arr ℕ).pushBack 0 1 = none := by decide +kernel

end Verif.SArray
