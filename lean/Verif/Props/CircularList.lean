import Verif.Model.CircularList
import Mathlib.Data.List.Basic
import Mathlib.Data.List.Nodup
import Mathlib.Data.List.Induction
import Mathlib.Tactic.Ring
import Mathlib.Tactic.NormNum
import Mathlib.Tactic.Push

set_option linter.unusedSectionVars false
set_option linter.unusedVariables false

/-!
# Property C171: circular lists

Specification: a list is a sequence of elements (an address and a datum each), read from its head.
-/

namespace Verif.Ring

variable {T : Type}

/-! ### Specification -/

/-- The elements of a list in order, starting at the head. -/
abbrev Seq (T : Type) := List (ℕ × Option T)

/-- The addresses of the elements. -/
def ids (l : Seq T) : List ℕ := l.map Prod.fst

/-- The datum of the element at an address; `none` if there is no element. -/
def Mem.data (m : Mem T) (p : ℕ) : Option (Option T) := (m.at_ p).map (·.data)

/-- `y` is the successor of `x` and `x` the predecessor of `y`. -/
def Linked (m : Mem T) (x y : ℕ) : Prop := m.next x = some y ∧ m.prev y = some x

/-- From `x` the links lead through `l` to `y`. -/
def Path (m : Mem T) : ℕ → List ℕ → ℕ → Prop
  | x, [], y => Linked m x y
  | x, a :: l, y => Linked m x a ∧ Path m a l y

/-- The links lead once around. -/
def Cyc (m : Mem T) : List ℕ → Prop
  | [] => True
  | x :: l => Path m x l x

/-- The list object stands for the sequence. -/
def Shows (m : Mem T) (L : Lst) (l : Seq T) : Prop :=
  L.size = l.length ∧ L.head = l.head?.map Prod.fst ∧ (∀ x ∈ l, m.data x.1 = some x.2) ∧ Cyc m (ids l)

/-- Every list object stands for its sequence, no element is in two places, the elements in memory
are those in the lists, and `new` does not give out their addresses. -/
structure Inv (s : St T) (A : ℕ → Seq T) : Prop where
  shows_ : ∀ i, Shows s.mem (s.lst i) (A i)
  nodup : ∀ i, (ids (A i)).Nodup
  disj : ∀ i j, i ≠ j → ∀ p ∈ ids (A i), p ∉ ids (A j)
  live : ∀ p, (∃ d, s.mem.data p = some d) ↔ ∃ i, p ∈ ids (A i)
  bound : ∀ i, ∀ p ∈ ids (A i), p < s.mem.fresh

/-- What an operation does to the sequences, and what it returns. -/
def Does (A A' : ℕ → Seq T) (ret : Bool) : Op T → Prop
  | .add i d => ret = true ∧
      ∃ p, (∀ j, p ∉ ids (A j)) ∧ A' = Function.update A i ((p, d) :: (A i).tail ++ (A i).take 1)
  | .del i => ret = !(A i).isEmpty ∧ A' = Function.update A i (A i).tail
  | .delAt i e => ret = e.isSome ∧ A' = Function.update A i ((A i).filter fun x => some x.1 ≠ e)
  | .next i => ret = !(A i).isEmpty ∧ A' = Function.update A i ((A i).tail ++ (A i).take 1)
  | .prev i => ret = !(A i).isEmpty ∧
      A' = Function.update A i ((A i).getLast?.toList ++ (A i).dropLast)
  | .clear i => ret = true ∧ A' = Function.update A i []
  | .assign i j => ret = true ∧
      if i = j then A' = A
      else ∃ l : Seq T, l.map Prod.snd = (A j).map Prod.snd ∧ (∀ p ∈ ids l, ∀ k, p ∉ ids (A k)) ∧
        A' = Function.update A i l

/-- `Delete(element)` is called with an element of the list or a null pointer. -/
def Legal (A : ℕ → Seq T) : Op T → Prop
  | .delAt i (some e) => e ∈ ids (A i)
  | _ => True

/-- The sequences after a series of operations. -/
inductive Hist : (ℕ → Seq T) → List (Op T) → (ℕ → Seq T) → Prop
  | nil (A) : Hist A [] A
  | cons {A B C : ℕ → Seq T} {o : Op T} {os : List (Op T)} {ret : Bool} :
      Legal A o → Does A B ret o → Hist B os C → Hist A (o :: os) C

/-! ### Memory -/

theorem setNext_spec (m : Mem T) (p q : ℕ) (d : Option T) (h : m.data p = some d) :
    ∃ m', m.setNext p q = some m' ∧ m'.next = Function.update m.next p (some q) ∧ m'.prev = m.prev ∧
      m'.data = m.data ∧ m'.fresh = m.fresh := by
  unfold Mem.data at h
  cases hn : m.at_ p with
  | none => rw [hn] at h; cases h
  | some n =>
    refine ⟨{ m with at_ := Function.update m.at_ p (some { n with next := some q }) },
      by rw [Mem.setNext, hn]; rfl, ?_, ?_, ?_, rfl⟩
    · funext z
      by_cases hz : z = p
      · subst hz; simp [Mem.next]
      · simp [Mem.next, hz]
    · funext z
      by_cases hz : z = p
      · subst hz; simp [Mem.prev, hn]
      · simp [Mem.prev, hz]
    · funext z
      by_cases hz : z = p
      · subst hz; simp [Mem.data, hn]
      · simp [Mem.data, hz]

theorem setPrev_spec (m : Mem T) (p q : ℕ) (d : Option T) (h : m.data p = some d) :
    ∃ m', m.setPrev p q = some m' ∧ m'.next = m.next ∧ m'.prev = Function.update m.prev p (some q) ∧
      m'.data = m.data ∧ m'.fresh = m.fresh := by
  unfold Mem.data at h
  cases hn : m.at_ p with
  | none => rw [hn] at h; cases h
  | some n =>
    refine ⟨{ m with at_ := Function.update m.at_ p (some { n with prev := some q }) },
      by rw [Mem.setPrev, hn]; rfl, ?_, ?_, ?_, rfl⟩
    · funext z
      by_cases hz : z = p
      · subst hz; simp [Mem.next, hn]
      · simp [Mem.next, hz]
    · funext z
      by_cases hz : z = p
      · subst hz; simp [Mem.prev]
      · simp [Mem.prev, hz]
    · funext z
      by_cases hz : z = p
      · subst hz; simp [Mem.data, hn]
      · simp [Mem.data, hz]

theorem free_spec (m : Mem T) (p : ℕ) (d : Option T) (h : m.data p = some d) :
    ∃ m', m.free p = some m' ∧ m'.next = Function.update m.next p none ∧
      m'.prev = Function.update m.prev p none ∧ m'.data = Function.update m.data p none ∧
      m'.fresh = m.fresh := by
  unfold Mem.data at h
  cases hn : m.at_ p with
  | none => rw [hn] at h; cases h
  | some n =>
    refine ⟨{ m with at_ := Function.update m.at_ p none }, by rw [Mem.free, hn]; rfl, ?_, ?_, ?_, rfl⟩
    all_goals
      funext z
      by_cases hz : z = p
      · subst hz; simp [Mem.next, Mem.prev, Mem.data]
      · simp [Mem.next, Mem.prev, Mem.data, hz]

theorem alloc_spec (m : Mem T) (d : Option T) :
    (m.alloc d).next = Function.update m.next m.fresh none ∧
      (m.alloc d).prev = Function.update m.prev m.fresh none ∧
      (m.alloc d).data = Function.update m.data m.fresh (some d) ∧ (m.alloc d).fresh = m.fresh + 1 := by
  refine ⟨?_, ?_, ?_, rfl⟩
  all_goals
    funext z
    by_cases hz : z = m.fresh
    · subst hz; simp [Mem.next, Mem.prev, Mem.data, Mem.alloc]
    · simp [Mem.next, Mem.prev, Mem.data, Mem.alloc, hz]

/-! ### Paths -/

theorem path_append (m : Mem T) (l l' : List ℕ) (x a y : ℕ) :
    Path m x (l ++ a :: l') y ↔ Path m x l a ∧ Path m a l' y := by
  induction l generalizing x with
  | nil => rfl
  | cons b l ih => simp only [List.cons_append, Path, ih, and_assoc]

theorem path_congr (m m' : Mem T) (l : List ℕ) (x y : ℕ) (h : Path m x l y)
    (hn : ∀ z ∈ x :: l, m'.next z = m.next z) (hp : ∀ z ∈ l ++ [y], m'.prev z = m.prev z) :
    Path m' x l y := by
  induction l generalizing x with
  | nil =>
    obtain ⟨h1, h2⟩ := h
    exact ⟨by rw [hn x (by simp), h1], by rw [hp y (by simp), h2]⟩
  | cons a l ih =>
    obtain ⟨⟨h1, h2⟩, h3⟩ := h
    exact ⟨⟨by rw [hn x (by simp), h1], by rw [hp a (by simp), h2]⟩,
      ih a h3 (fun z hz => hn z (List.mem_cons_of_mem _ hz)) fun z hz => hp z (by simp only [List.cons_append, List.mem_cons]; exact .inr hz)⟩

theorem cyc_congr (m m' : Mem T) (l : List ℕ) (h : Cyc m l)
    (hn : ∀ z ∈ l, m'.next z = m.next z) (hp : ∀ z ∈ l, m'.prev z = m.prev z) : Cyc m' l := by
  cases l with
  | nil => trivial
  | cons x l =>
    refine path_congr m m' l x x h hn fun z hz => hp z ?_
    simp only [List.mem_append, List.mem_cons, List.not_mem_nil, or_false] at hz ⊢
    exact hz.symm

theorem cyc_rotate (m : Mem T) (l l' : List ℕ) (h : Cyc m (l ++ l')) : Cyc m (l' ++ l) := by
  cases l with
  | nil => rwa [List.append_nil]
  | cons x l =>
    cases l' with
    | nil => rwa [List.append_nil] at h
    | cons y l' =>
      have h' : Path m x (l ++ y :: l') x := h
      rw [path_append] at h'
      have : Path m y (l' ++ x :: l) y := (path_append ..).mpr ⟨h'.2, h'.1⟩
      exact this

theorem path_last (m : Mem T) (l : List ℕ) (x y : ℕ) (h : Path m x l y) :
    m.prev y = some ((x :: l).getLast (List.cons_ne_nil _ _)) := by
  induction l generalizing x with
  | nil => exact h.2
  | cons a l ih => rw [ih a h.2]; simp

theorem path_first (m : Mem T) (l : List ℕ) (x y : ℕ) (h : Path m x l y) :
    m.next x = some ((l ++ [y]).head (by simp)) := by
  cases l with
  | nil => exact h.1
  | cons a l => exact h.1.1

/-! ### Adding -/

theorem add_spec (m : Mem T) (L : Lst) (l : Seq T) (d : Option T) (h : Shows m L l)
    (hb : ∀ p ∈ ids l, p < m.fresh) (hnd : (ids l).Nodup) :
    ∃ m', add m L d = some (m', ⟨some m.fresh, L.size + 1⟩) ∧
      Shows m' ⟨some m.fresh, L.size + 1⟩ ((m.fresh, d) :: l.tail ++ l.take 1) ∧
      m'.data = Function.update m.data m.fresh (some d) ∧ m'.fresh = m.fresh + 1 ∧
      ∀ z, z ∉ ids l → z ≠ m.fresh → m'.next z = m.next z ∧ m'.prev z = m.prev z := by
  obtain ⟨h1, h2, h3, h4⟩ := h
  obtain ⟨a1, a2, a3, a4⟩ := alloc_spec m d
  cases l with
  | nil =>
    obtain ⟨m2, b0, b1, b2, b3, b4⟩ := setPrev_spec (m.alloc d) m.fresh m.fresh d (by rw [a3]; simp)
    obtain ⟨m3, c0, c1, c2, c3, c4⟩ := setNext_spec m2 m.fresh m.fresh d (by rw [b3, a3]; simp)
    refine ⟨m3, ?_, ?_, by rw [c3, b3, a3], by rw [c4, b4, a4], ?_⟩
    · have hs : L.size = 0 := by simpa using h1
      simp [add, hs, b0, c0]
    · refine ⟨by simp [h1], rfl, ?_, ?_⟩
      · intro x hx
        simp only [List.tail_nil, List.take_nil, List.append_nil, List.mem_singleton] at hx
        subst hx
        simp [c3, b3, a3]
      · show Linked m3 m.fresh m.fresh
        exact ⟨by simp [c1], by simp [c2, b2]⟩
    · intro z _ hz
      simp [c1, c2, b1, b2, a1, a2, hz]
  | cons x t =>
    obtain ⟨e, v⟩ := x
    have hs : L.size ≠ 0 := by simp [h1]
    have he : L.head = some e := by simpa using h2
    have hpath : Path m e (ids t) e := h4
    have hfirst := path_first m _ e e hpath
    obtain ⟨n, hn⟩ : ∃ n, n = (ids t ++ [e]).head (by simp) := ⟨_, rfl⟩
    rw [← hn] at hfirst
    have hnmem : n ∈ e :: ids t := by
      have : n ∈ ids t ++ [e] := by rw [hn]; exact List.head_mem _
      simpa [or_comm] using this
    have hall : ∀ z ∈ e :: ids t, z < m.fresh := hb
    have hdata : ∀ z ∈ e :: ids t, ∃ w, m.data z = some w := by
      intro z hz
      obtain ⟨x, hx, rfl⟩ := List.mem_map.mp (show z ∈ ids ((e, v) :: t) from hz)
      exact ⟨_, h3 x hx⟩
    have hef : e ≠ m.fresh := (hall e (by simp)).ne
    have hnf : n ≠ m.fresh := (hall n hnmem).ne
    obtain ⟨de, hde⟩ := hdata e (by simp)
    obtain ⟨dn, hdn⟩ := hdata n hnmem
    obtain ⟨m2, b0, b1, b2, b3, b4⟩ := setNext_spec (m.alloc d) m.fresh n d (by rw [a3]; simp)
    obtain ⟨m3, c0, c1, c2, c3, c4⟩ := setPrev_spec m2 m.fresh e d (by rw [b3, a3]; simp)
    obtain ⟨m4, d0, d1, d2, d3, d4⟩ := setNext_spec m3 e m.fresh de (by rw [c3, b3, a3]; simp [hef, hde])
    obtain ⟨m5, e0, e1, e2, e3, e4⟩ := setPrev_spec m4 n m.fresh dn (by rw [d3, c3, b3, a3]; simp [hnf, hdn])
    have hnext : ∀ z, m5.next z = if z = e then some m.fresh else if z = m.fresh then some n else m.next z := by
      intro z
      rw [e1, d1, c1, b1, a1]
      simp only [Function.update_apply]
      split_ifs <;> rfl
    have hprev : ∀ z, m5.prev z = if z = n then some m.fresh else if z = m.fresh then some e else m.prev z := by
      intro z
      rw [e2, d2, c2, b2, a2]
      simp only [Function.update_apply]
      split_ifs <;> rfl
    have hdat : m5.data = Function.update m.data m.fresh (some d) := by rw [e3, d3, c3, b3, a3]
    refine ⟨m5, ?_, ?_, hdat, by rw [e4, d4, c4, b4, a4], ?_⟩
    · simp [add, hs, he, hfirst, b0, c0, d0, e0]
    · refine ⟨by simp [h1], rfl, ?_, ?_⟩
      · intro x hx
        simp only [List.tail_cons, List.take_succ_cons, List.take_zero, List.cons_append,
          List.mem_cons, List.mem_append, List.not_mem_nil, or_false] at hx
        rw [hdat]
        rcases hx with rfl | hx | rfl
        · simp
        · rw [Function.update_of_ne]
          · exact h3 x (List.mem_cons_of_mem _ hx)
          · exact (hall x.1 (List.mem_cons_of_mem _ (List.mem_map_of_mem hx))).ne
        · rw [Function.update_of_ne hef]
          exact h3 _ List.mem_cons_self
      · have hids : ids ((m.fresh, d) :: ((e, v) :: t).tail ++ ((e, v) :: t).take 1) = m.fresh :: (ids t ++ e :: []) := by
          simp [ids]
        rw [hids]
        show Path m5 m.fresh (ids t ++ e :: []) m.fresh
        rw [path_append]
        refine ⟨?_, ⟨by simp [hnext], ?_⟩⟩
        · revert hn hpath hnd
          rw [show ids ((e, v) :: t) = e :: ids t from rfl]
          cases htt : ids t with
          | nil =>
            intro hnd hpath hn
            have hne : n = e := by simpa using hn
            subst hne
            refine ⟨?_, by simp [hprev]⟩
            rw [hnext, if_neg (Ne.symm hef), if_pos rfl]
          | cons a t' =>
            intro hnd hpath hn
            have hna : n = a := by simpa using hn
            subst hna
            simp only [List.nodup_cons, List.mem_cons, not_or] at hnd
            refine ⟨⟨by rw [hnext, if_neg (Ne.symm hef), if_pos rfl], by simp [hprev]⟩, ?_⟩
            refine path_congr m m5 t' n e hpath.2 ?_ ?_
            · intro z hz
              have h5 : z ≠ e := by
                rintro rfl
                rcases List.mem_cons.mp hz with h | h
                · exact hnd.1.1 h
                · exact hnd.1.2 h
              have h6 : z ≠ m.fresh := (hall z (by rw [htt]; exact List.mem_cons_of_mem _ hz)).ne
              rw [hnext, if_neg h5, if_neg h6]
            · intro z hz
              have h5 : z ≠ n := by
                rintro rfl
                rcases List.mem_append.mp hz with h | h
                · exact hnd.2.1 h
                · exact hnd.1.1 (List.mem_singleton.mp h).symm
              have h6 : z ≠ m.fresh := by
                refine (hall z ?_).ne
                rw [htt]
                rcases List.mem_append.mp hz with h | h
                · exact List.mem_cons_of_mem _ (List.mem_cons_of_mem _ h)
                · rw [List.mem_singleton.mp h]; exact List.mem_cons_self
              rw [hprev, if_neg h5, if_neg h6]
        · rw [hprev, if_neg (Ne.symm hnf), if_pos rfl]
    · intro z hz hzf
      have hze : z ≠ e := fun h => hz (by rw [h]; exact List.mem_cons_self)
      have hzn : z ≠ n := fun h => hz (by rw [h]; exact hnmem)
      rw [hnext, hprev, if_neg hze, if_neg hzf, if_neg hzn, if_neg hzf]
      exact ⟨rfl, rfl⟩

/-! ### Deleting -/

theorem unlink_spec (m : Mem T) (e : ℕ) (t : List ℕ) (ht : t ≠ []) (h : Cyc m (e :: t)) (hnd : (e :: t).Nodup)
    (hdata : ∀ z ∈ e :: t, ∃ w, m.data z = some w) :
    ∃ m', unlink m e = some (m', t.head ht) ∧ Cyc m' t ∧ m'.data = Function.update m.data e none ∧
      m'.fresh = m.fresh ∧ ∀ z, z ∉ e :: t → m'.next z = m.next z ∧ m'.prev z = m.prev z := by
  have hpath : Path m e t e := h
  have hfirst := path_first m _ e e hpath
  have hlast := path_last m _ e e hpath
  rw [List.getLast_cons ht] at hlast
  obtain ⟨n, hn⟩ : ∃ n, n = t.head ht := ⟨_, rfl⟩
  obtain ⟨p, hp⟩ : ∃ p, p = t.getLast ht := ⟨_, rfl⟩
  rw [List.head_append_of_ne_nil ht] at hfirst
  rw [← hn] at hfirst ⊢
  rw [← hp] at hlast
  have hnm : n ∈ t := by rw [hn]; exact List.head_mem _
  have hpm : p ∈ t := by rw [hp]; exact List.getLast_mem _
  have het : e ∉ t := (List.nodup_cons.mp hnd).1
  have hne : n ≠ e := fun h => het (h ▸ hnm)
  have hpe : p ≠ e := fun h => het (h ▸ hpm)
  obtain ⟨de, hde⟩ := hdata e (by simp)
  obtain ⟨dn, hdn⟩ := hdata n (by simp [hnm])
  obtain ⟨dp, hdp⟩ := hdata p (by simp [hpm])
  obtain ⟨m1, a0, a1, a2, a3, a4⟩ := free_spec m e de hde
  obtain ⟨m2, b0, b1, b2, b3, b4⟩ := setPrev_spec m1 n p dn (by rw [a3]; simp [hne, hdn])
  obtain ⟨m3, c0, c1, c2, c3, c4⟩ := setNext_spec m2 p n dp (by rw [b3, a3]; simp [hpe, hdp])
  have hnext : ∀ z, m3.next z = if z = p then some n else if z = e then none else m.next z := by
    intro z
    rw [c1, b1, a1]
    simp only [Function.update_apply]
  have hprev : ∀ z, m3.prev z = if z = n then some p else if z = e then none else m.prev z := by
    intro z
    rw [c2, b2, a2]
    simp only [Function.update_apply]
  refine ⟨m3, ?_, ?_, by rw [c3, b3, a3], by rw [c4, b4, a4], ?_⟩
  · simp [unlink, hfirst, hlast, a0, b0, c0]
  · cases t with
    | nil => exact absurd rfl ht
    | cons a t' =>
      have hna : n = a := by simpa using hn
      subst hna
      show Path m3 n t' n
      rcases List.eq_nil_or_concat t' with rfl | ⟨t'', q, rfl⟩
      · have hpn : p = n := by simpa using hp
        subst hpn
        exact ⟨by simp [hnext], by simp [hprev]⟩
      · have hpq : p = q := by
          rw [hp]; simp
        subst hpq
        have hpath2 : Path m n (t'' ++ p :: []) e := by
          have := hpath.2
          simpa [List.concat_eq_append] using this
        rw [List.concat_eq_append, show t'' ++ [p] = t'' ++ p :: [] from rfl, path_append]
        rw [path_append] at hpath2
        simp only [List.concat_eq_append, List.nodup_cons, List.mem_cons, List.mem_append, not_or, List.not_mem_nil,
          or_false, not_false_eq_true, and_true, List.nodup_append] at hnd het
        refine ⟨?_, by simp [hnext], by simp [hprev]⟩
        refine path_congr m m3 t'' n p hpath2.1 ?_ ?_
        · intro z hz
          have h5 : z ≠ p := by
            rintro rfl
            rcases List.mem_cons.mp hz with h | h
            · exact hnd.2.1.2 h.symm
            · exact hnd.2.2.2.2 _ h _ rfl rfl
          have h6 : z ≠ e := by
            rintro rfl
            rcases List.mem_cons.mp hz with h | h
            · exact het.1 h
            · exact het.2.1 h
          rw [hnext, if_neg h5, if_neg h6]
        · intro z hz
          have h5 : z ≠ n := by
            rintro rfl
            rcases List.mem_append.mp hz with h | h
            · exact hnd.2.1.1 h
            · exact hnd.2.1.2 (List.mem_singleton.mp h)
          have h6 : z ≠ e := by
            rintro rfl
            rcases List.mem_append.mp hz with h | h
            · exact het.2.1 h
            · exact het.2.2 (List.mem_singleton.mp h)
          rw [hprev, if_neg h5, if_neg h6]
  · intro z hz
    simp only [List.mem_cons, not_or] at hz
    have h5 : z ≠ p := fun h => hz.2 (h ▸ hpm)
    have h6 : z ≠ n := fun h => hz.2 (h ▸ hnm)
    rw [hnext, hprev, if_neg h5, if_neg hz.1, if_neg h6, if_neg hz.1]
    exact ⟨rfl, rfl⟩

/-! ### The state as a whole -/

theorem shows_frame (m m' : Mem T) (L : Lst) (l : Seq T) (h : Shows m L l)
    (hn : ∀ z ∈ ids l, m'.next z = m.next z) (hp : ∀ z ∈ ids l, m'.prev z = m.prev z)
    (hd : ∀ z ∈ ids l, m'.data z = m.data z) : Shows m' L l := by
  obtain ⟨h1, h2, h3, h4⟩ := h
  exact ⟨h1, h2, fun x hx => by rw [hd x.1 (List.mem_map_of_mem hx)]; exact h3 x hx, cyc_congr m m' _ h4 hn hp⟩

theorem Inv.data_of {s : St T} {A : ℕ → Seq T} (h : Inv s A) (i : ℕ) : ∀ z ∈ ids (A i), ∃ w, s.mem.data z = some w :=
  fun z hz => (h.live z).mpr ⟨i, hz⟩

/-- One list is replaced, the memory of the others is left alone. -/
theorem inv_put {s : St T} {A : ℕ → Seq T} (h : Inv s A) (i : ℕ) (m : Mem T) (L : Lst) (l : Seq T)
    (hs : Shows m L l) (hnd : (ids l).Nodup) (hnew : ∀ z ∈ ids l, z ∈ ids (A i) ∨ s.mem.fresh ≤ z)
    (hframe : ∀ z, z ∉ ids (A i) → z < s.mem.fresh → m.next z = s.mem.next z ∧ m.prev z = s.mem.prev z ∧ m.data z = s.mem.data z)
    (hlive : ∀ z, (z ∈ ids (A i) ∨ s.mem.fresh ≤ z) → ((∃ d, m.data z = some d) ↔ z ∈ ids l))
    (hb : ∀ z ∈ ids l, z < m.fresh) (hf : s.mem.fresh ≤ m.fresh) : Inv (s.put i m L) (Function.update A i l) := by
  have hother : ∀ j, j ≠ i → ∀ z ∈ ids (A j), z ∉ ids (A i) ∧ z < s.mem.fresh :=
    fun j hj z hz => ⟨h.disj j i hj z hz, h.bound j z hz⟩
  refine ⟨fun j => ?_, fun j => ?_, fun j k hjk p hp => ?_, fun p => ?_, fun j p hp => ?_⟩
  · by_cases hj : j = i
    · subst hj; simpa [St.put] using hs
    · simp only [St.put, Function.update_of_ne hj]
      refine shows_frame _ _ _ _ (h.shows_ j) ?_ ?_ ?_
      · exact fun z hz => (hframe z (hother j hj z hz).1 (hother j hj z hz).2).1
      · exact fun z hz => (hframe z (hother j hj z hz).1 (hother j hj z hz).2).2.1
      · exact fun z hz => (hframe z (hother j hj z hz).1 (hother j hj z hz).2).2.2
  · by_cases hj : j = i
    · subst hj; simpa using hnd
    · rw [Function.update_of_ne hj]; exact h.nodup j
  · by_cases hj : j = i
    · subst hj
      rw [Function.update_self] at hp
      rw [Function.update_of_ne (Ne.symm hjk)]
      intro hk
      have := hother k (Ne.symm hjk) p hk
      rcases hnew p hp with h1 | h1
      · exact this.1 h1
      · omega
    · rw [Function.update_of_ne hj] at hp
      by_cases hk : k = i
      · subst hk
        rw [Function.update_self]
        intro hp'
        have := hother j hj p hp
        rcases hnew p hp' with h1 | h1
        · exact this.1 h1
        · omega
      · rw [Function.update_of_ne hk]
        exact h.disj j k hjk p hp
  · show (∃ d, m.data p = some d) ↔ _
    by_cases hp : p ∈ ids (A i) ∨ s.mem.fresh ≤ p
    · rw [hlive p hp]
      constructor
      · exact fun hl => ⟨i, by rwa [Function.update_self]⟩
      · rintro ⟨j, hj⟩
        by_cases hji : j = i
        · subst hji; rwa [Function.update_self] at hj
        · rw [Function.update_of_ne hji] at hj
          have := hother j hji p hj
          rcases hp with h1 | h1
          · exact absurd h1 this.1
          · omega
    · push Not at hp
      rw [(hframe p hp.1 hp.2).2.2, h.live p]
      constructor
      · rintro ⟨j, hj⟩
        have hji : j ≠ i := by rintro rfl; exact hp.1 hj
        exact ⟨j, by rwa [Function.update_of_ne hji]⟩
      · rintro ⟨j, hj⟩
        by_cases hji : j = i
        · subst hji
          rw [Function.update_self] at hj
          rcases hnew p hj with h1 | h1
          · exact absurd h1 hp.1
          · omega
        · rw [Function.update_of_ne hji] at hj
          exact ⟨j, hj⟩
  · by_cases hj : j = i
    · subst hj; rw [Function.update_self] at hp; exact hb p hp
    · rw [Function.update_of_ne hj] at hp
      exact lt_of_lt_of_le (h.bound j p hp) hf

theorem fresh_not_mem {s : St T} {A : ℕ → Seq T} (h : Inv s A) (p : ℕ) (hp : s.mem.fresh ≤ p) : ∀ j, p ∉ ids (A j) :=
  fun j hj => absurd (h.bound j p hj) (by omega)

theorem add_inv {s : St T} {A : ℕ → Seq T} (h : Inv s A) (i : ℕ) (d : Option T) :
    ∃ m', add s.mem (s.lst i) d = some (m', ⟨some s.mem.fresh, (s.lst i).size + 1⟩) ∧ m'.fresh = s.mem.fresh + 1 ∧
      Inv (s.put i m' ⟨some s.mem.fresh, (s.lst i).size + 1⟩)
        (Function.update A i ((s.mem.fresh, d) :: (A i).tail ++ (A i).take 1)) := by
  obtain ⟨m', h1, h2, h3, h4, h5⟩ := add_spec s.mem (s.lst i) (A i) d (h.shows_ i) (h.bound i) (h.nodup i)
  have hmem : ∀ z, z ∈ ids ((s.mem.fresh, d) :: (A i).tail ++ (A i).take 1) ↔ z = s.mem.fresh ∨ z ∈ ids (A i) := by
    intro z
    cases A i with
    | nil => simp [ids]
    | cons x t => simp only [ids, List.tail_cons, List.take_succ_cons, List.take_zero, List.map_append, List.map_cons,
        List.map_nil, List.cons_append, List.mem_cons, List.mem_append, List.not_mem_nil, or_false]; tauto
  have hfr := fresh_not_mem h s.mem.fresh (le_refl _) i
  refine ⟨m', h1, h4, inv_put h i m' _ _ h2 ?_ ?_ ?_ ?_ ?_ (by omega)⟩
  · have hnd := h.nodup i
    revert hnd hfr
    cases A i with
    | nil => intro _ _; simp [ids]
    | cons x t =>
      intro hfr hnd
      simp only [ids, List.map_cons, List.nodup_cons, List.mem_cons, not_or] at hnd hfr
      simp only [ids, List.tail_cons, List.take_succ_cons, List.take_zero, List.map_append, List.map_cons,
        List.map_nil, List.cons_append, List.nodup_cons, List.mem_append, List.mem_cons, List.not_mem_nil, or_false, not_or,
        List.nodup_append, List.not_mem_nil, not_false_eq_true, List.nodup_nil, and_true, true_and]
      refine ⟨⟨hfr.2, hfr.1⟩, hnd.2, ?_⟩
      rintro a ha b rfl rfl
      exact hnd.1 ha
  · intro z hz
    rcases (hmem z).mp hz with rfl | hz
    · exact .inr (le_refl _)
    · exact .inl hz
  · intro z hz hzf
    obtain ⟨a, b⟩ := h5 z hz (by omega)
    exact ⟨a, b, by rw [h3, Function.update_of_ne (by omega)]⟩
  · intro z hz
    rw [hmem, h3]
    by_cases hzf : z = s.mem.fresh
    · subst hzf; simp
    · rw [Function.update_of_ne hzf, h.live z]
      constructor
      · rintro ⟨j, hj⟩
        rcases hz with hz | hz
        · exact .inr hz
        · exact absurd (h.bound j z hj) (by omega)
      · rintro (h0 | h0)
        · exact absurd h0 hzf
        · exact ⟨i, h0⟩
  · intro z hz
    rcases (hmem z).mp hz with rfl | hz
    · omega
    · have := h.bound i z hz
      omega

/-- Deletion of an element of a list with several elements. -/
theorem remove_inv {s : St T} {A : ℕ → Seq T} (h : Inv s A) (i : ℕ) (pre post : Seq T) (x : ℕ × Option T)
    (hA : A i = pre ++ x :: post) (hne : pre ++ post ≠ []) :
    ∃ m', unlink s.mem x.1 = some (m', ((post ++ pre).head (by intro h0; apply hne; simp_all)).1) ∧ m'.fresh = s.mem.fresh ∧
      ∀ L : Lst, L.size = (s.lst i).size - 1 → L.head = (pre ++ post).head?.map Prod.fst →
        Inv (s.put i m' L) (Function.update A i (pre ++ post)) := by
  have hne' : post ++ pre ≠ [] := by intro h0; apply hne; simp_all
  have hids : ids (A i) = ids pre ++ x.1 :: ids post := by rw [hA]; simp [ids]
  obtain ⟨s1, s2, s3, s4⟩ := h.shows_ i
  have hcyc : Cyc s.mem (x.1 :: (ids post ++ ids pre)) := by
    rw [hids] at s4
    have := cyc_rotate s.mem _ _ s4
    simpa using this
  have hperm : (x.1 :: (ids post ++ ids pre)).Perm (ids (A i)) := by
    rw [hids]
    refine List.Perm.trans ?_ List.perm_middle.symm
    exact List.Perm.cons _ List.perm_append_comm
  have hnd : (x.1 :: (ids post ++ ids pre)).Nodup := hperm.nodup_iff.mpr (h.nodup i)
  have ht : ids post ++ ids pre ≠ [] := by
    intro h0; apply hne'; simpa [ids] using h0
  obtain ⟨m', u1, u2, u3, u4, u5⟩ := unlink_spec s.mem x.1 (ids post ++ ids pre) ht hcyc hnd
    fun z hz => h.data_of i z (hperm.mem_iff.mp hz)
  have hhead : (ids post ++ ids pre).head ht = ((post ++ pre).head hne').1 := by
    have : ids post ++ ids pre = (post ++ pre).map Prod.fst := by simp [ids]
    simp only [this, List.head_map]
  refine ⟨m', by rw [u1, hhead], u4, fun L l1 l2 => ?_⟩
  have hx : x.1 ∉ ids (pre ++ post) := by
    intro h0
    have := (List.nodup_cons.mp hnd).1
    apply this
    simp only [ids, List.map_append, List.mem_append] at h0 ⊢
    exact h0.symm
  have hmem : ∀ z, z ∈ ids (A i) ↔ z = x.1 ∨ z ∈ ids (pre ++ post) := by
    intro z
    rw [hids]
    simp only [ids, List.map_append, List.mem_append, List.mem_cons]
    tauto
  refine inv_put h i m' L _ ⟨?_, l2, ?_, ?_⟩ ?_ ?_ ?_ ?_ ?_ (by omega)
  · rw [l1, s1, hA]; simp only [List.length_append, List.length_cons]; omega
  · intro y hy
    have hyx : y.1 ≠ x.1 := fun h0 => hx (h0 ▸ List.mem_map_of_mem hy)
    rw [u3, Function.update_of_ne hyx]
    apply s3
    rw [hA]
    simp only [List.mem_append, List.mem_cons] at hy ⊢
    tauto
  · have := cyc_rotate m' _ _ u2
    simpa [ids] using this
  · have := (List.nodup_cons.mp hnd).2
    have h2 : (ids pre ++ ids post).Nodup := List.perm_append_comm.nodup_iff.mpr this
    simpa [ids] using h2
  · exact fun z hz => .inl ((hmem z).mpr (.inr hz))
  · intro z hz hzf
    have hz' : z ∉ x.1 :: (ids post ++ ids pre) := fun h0 => hz (hperm.mem_iff.mp h0)
    obtain ⟨a, b⟩ := u5 z hz'
    refine ⟨a, b, ?_⟩
    rw [u3, Function.update_of_ne]
    rintro rfl
    exact hz' List.mem_cons_self
  · intro z hz
    rw [u3]
    by_cases hzx : z = x.1
    · subst hzx
      simp [hx]
    · rw [Function.update_of_ne hzx, h.live z]
      constructor
      · rintro ⟨j, hj⟩
        rcases hz with hz | hz
        · exact ((hmem z).mp hz).resolve_left hzx
        · exact absurd (h.bound j z hj) (by omega)
      · exact fun h0 => ⟨i, (hmem z).mpr (.inr h0)⟩
  · intro z hz
    rw [u4]
    exact h.bound i z ((hmem z).mpr (.inr hz))

theorem dropOnly_inv {s : St T} {A : ℕ → Seq T} (h : Inv s A) (i : ℕ) (x : ℕ × Option T) (hA : A i = [x]) :
    ∃ m', dropOnly s.mem (s.lst i) = some (m', ⟨none, 0⟩, true) ∧ m'.fresh = s.mem.fresh ∧ Inv (s.put i m' ⟨none, 0⟩) (Function.update A i []) := by
  obtain ⟨s1, s2, s3, s4⟩ := h.shows_ i
  rw [hA] at s1 s2
  obtain ⟨m', f1, f2, f3, f4, f5⟩ := free_spec s.mem x.1 x.2 (s3 x (by rw [hA]; simp))
  have hids : ids (A i) = [x.1] := by rw [hA]; rfl
  refine ⟨m', ?_, f5, inv_put h i m' _ [] ⟨rfl, rfl, by simp, trivial⟩ (by simp [ids]) (by simp [ids]) ?_ ?_ (by simp [ids]) (by omega)⟩
  · have s2' : (s.lst i).head = some x.1 := by simpa using s2
    have s1' : (s.lst i).size = 1 := by simpa using s1
    simp [dropOnly, s2', s1', f1]
  · intro z hz _
    rw [hids, List.mem_singleton] at hz
    rw [f2, f3, f4, Function.update_of_ne hz, Function.update_of_ne hz, Function.update_of_ne hz]
    exact ⟨rfl, rfl, rfl⟩
  · intro z hz
    simp only [ids, List.map_nil, List.not_mem_nil, iff_false]
    rintro ⟨d, hd⟩
    rw [f4] at hd
    by_cases hzx : z = x.1
    · subst hzx; simp at hd
    · rw [Function.update_of_ne hzx] at hd
      obtain ⟨j, hj⟩ := (h.live z).mp ⟨d, hd⟩
      rcases hz with hz | hz
      · rw [hids, List.mem_singleton] at hz; exact hzx hz
      · exact absurd (h.bound j z hj) (by omega)

theorem put_self (s : St T) (i : ℕ) : s.put i s.mem (s.lst i) = s := by
  simp [St.put]

theorem delete_inv {s : St T} {A : ℕ → Seq T} (h : Inv s A) (i : ℕ) :
    ∃ m' L', delete s.mem (s.lst i) = some (m', L', !(A i).isEmpty) ∧ m'.fresh = s.mem.fresh ∧
      Inv (s.put i m' L') (Function.update A i (A i).tail) := by
  obtain ⟨s1, s2, -, -⟩ := h.shows_ i
  cases hA : A i with
  | nil =>
    rw [hA] at s1
    refine ⟨s.mem, s.lst i, ?_, rfl, ?_⟩
    · have s1' : (s.lst i).size = 0 := by simpa using s1
      simp [delete, s1']
    · rw [put_self, List.tail_nil, ← hA, Function.update_eq_self]
      exact h
  | cons x t =>
    rw [hA] at s1 s2
    have s1' : (s.lst i).size = t.length + 1 := by simpa using s1
    have s2' : (s.lst i).head = some x.1 := by simpa using s2
    cases t with
    | nil =>
      obtain ⟨m', d1, d2, d3⟩ := dropOnly_inv h i x hA
      refine ⟨m', _, ?_, d2, d3⟩
      have s1'' : (s.lst i).size = 1 := s1'
      simp [delete, s1'', d1]
    | cons y t =>
      obtain ⟨m', r1, r2, r3⟩ := remove_inv h i [] (y :: t) x (by rw [hA]; rfl) (by simp)
      refine ⟨m', ⟨some y.1, (s.lst i).size - 1⟩, ?_, r2, r3 _ rfl rfl⟩
      have hlt : 1 < (s.lst i).size := by rw [s1']; simp
      simp only [List.nil_append, List.append_nil, List.head_cons] at r1
      simp [delete, hlt, s2', r1]

theorem put_put (s : St T) (i : ℕ) (m m' : Mem T) (L L' : Lst) : (s.put i m L).put i m' L' = s.put i m' L' := by
  simp [St.put]

theorem clearLoop_inv {s : St T} {A : ℕ → Seq T} (h : Inv s A) (i k : ℕ) (hk : (A i).length < k) :
    ∃ m' L', clearLoop k s.mem (s.lst i) = some (m', L') ∧ m'.fresh = s.mem.fresh ∧
      Inv (s.put i m' L') (Function.update A i []) := by
  induction k generalizing s A with
  | zero => omega
  | succ k ih =>
    obtain ⟨m1, L1, d1, d2, d3⟩ := delete_inv h i
    cases hA : A i with
    | nil =>
      rw [hA] at d1 d3
      exact ⟨m1, L1, by simp [clearLoop, d1], d2, d3⟩
    | cons x t =>
      rw [hA] at d1 d3 hk
      simp only [List.tail_cons] at d3
      obtain ⟨m2, L2, e1, e2, e3⟩ := ih d3 (by rw [Function.update_self]; simpa using hk)
      rw [put_put, Function.update_idem] at e3
      refine ⟨m2, L2, ?_, e2.trans d2, e3⟩
      have e1' : clearLoop k m1 L1 = some (m2, L2) := by simpa [St.put] using e1
      simp [clearLoop, d1, e1']

theorem clear_inv {s : St T} {A : ℕ → Seq T} (h : Inv s A) (i : ℕ) :
    ∃ m' L', clear s.mem (s.lst i) = some (m', L') ∧ m'.fresh = s.mem.fresh ∧
      Inv (s.put i m' L') (Function.update A i []) :=
  clearLoop_inv h i _ (by rw [(h.shows_ i).1]; omega)

/-- The values after adding one. -/
def addV (l : List (Option T)) (v : Option T) : List (Option T) := v :: l.tail ++ l.take 1

theorem foldl_addV (r : List (Option T)) (a : Option T) : (r ++ [a]).foldl addV [] = a :: r := by
  induction r using List.reverseRecOn generalizing a with
  | nil => rfl
  | append_singleton r b ih =>
    rw [List.foldl_append, ih]
    simp [addV]

theorem copyLoop_inv {s : St T} {A : ℕ → Seq T} (h : Inv s A) (i j : ℕ) (hij : i ≠ j) (stop : ℕ × Option T)
    (rem : Seq T) : ∀ (pre : Seq T) (cur : ℕ × Option T), A j = pre ++ cur :: rem → (A j).head? = some stop →
    ∃ m' L' l', copyLoop stop.1 (rem.length + 1) cur.1 s.mem (s.lst i) = some (m', L') ∧
      Inv (s.put i m' L') (Function.update A i l') ∧ (∀ z ∈ ids l', z ∈ ids (A i) ∨ s.mem.fresh ≤ z) ∧
      l'.map Prod.snd = ((rem.map Prod.snd) ++ [stop.2]).foldl addV ((A i).map Prod.snd) := by
  have hsnd : ∀ (p : ℕ) (d : Option T) (l : Seq T),
      ((p, d) :: l.tail ++ l.take 1).map Prod.snd = addV (l.map Prod.snd) d := by
    intro p d l
    simp [addV, List.map_tail, List.map_take]
  have hids : ∀ (p : ℕ) (d : Option T) (l : Seq T), ∀ z ∈ ids ((p, d) :: l.tail ++ l.take 1), z = p ∨ z ∈ ids l := by
    intro p d l z hz
    cases l with
    | nil => left; simpa [ids] using hz
    | cons x t =>
      simp only [ids, List.tail_cons, List.take_succ_cons, List.take_zero, List.map_append, List.map_cons,
        List.map_nil, List.cons_append, List.mem_cons, List.mem_append, List.not_mem_nil, or_false] at hz ⊢
      tauto
  induction rem generalizing s A with
  | nil =>
    intro pre cur hA hstop
    obtain ⟨-, -, s3, s4⟩ := h.shows_ j
    have hcyc : s.mem.next cur.1 = some stop.1 := by
      have : ids (A j) = ids pre ++ cur.1 :: [] := by rw [hA]; simp [ids]
      rw [this] at s4
      have h2 := cyc_rotate s.mem _ _ s4
      have h3 := path_first s.mem _ _ _ (show Path s.mem cur.1 (ids pre) cur.1 from h2)
      rw [h3]
      congr 1
      cases pre with
      | nil => rw [hA] at hstop; simp only [List.nil_append, List.head?_cons, Option.some.injEq] at hstop; subst hstop; rfl
      | cons a pre => rw [hA] at hstop; simp only [List.cons_append, List.head?_cons, Option.some.injEq] at hstop; subst hstop; rfl
    have hd : s.mem.data stop.1 = some stop.2 := s3 stop (List.mem_of_mem_head? hstop)
    obtain ⟨n, hn1, hn2⟩ : ∃ n, s.mem.at_ stop.1 = some n ∧ n.data = stop.2 := by
      unfold Mem.data at hd
      exact Option.map_eq_some_iff.mp hd
    obtain ⟨m', a1, a2, a3⟩ := add_inv h i stop.2
    refine ⟨m', _, _, ?_, a3, ?_, ?_⟩
    · simp [copyLoop, hcyc, hn1, hn2, a1]
    · intro z hz
      rcases hids _ _ _ z hz with rfl | hz
      · exact .inr (le_refl _)
      · exact .inl hz
    · rw [hsnd]; rfl
  | cons y rem ih =>
    intro pre cur hA hstop
    obtain ⟨-, -, s3, s4⟩ := h.shows_ j
    have hnext : s.mem.next cur.1 = some y.1 := by
      have : ids (A j) = ids pre ++ cur.1 :: y.1 :: ids rem := by rw [hA]; simp [ids]
      rw [this] at s4
      have h2 := cyc_rotate s.mem _ _ s4
      exact path_first s.mem _ _ _ (show Path s.mem cur.1 (y.1 :: ids rem ++ ids pre) cur.1 from h2)
    have hd : s.mem.data y.1 = some y.2 := s3 y (by rw [hA]; simp)
    obtain ⟨n, hn1, hn2⟩ : ∃ n, s.mem.at_ y.1 = some n ∧ n.data = y.2 := by
      unfold Mem.data at hd
      exact Option.map_eq_some_iff.mp hd
    have hys : y.1 ≠ stop.1 := by
      have hnd := h.nodup j
      rw [hA] at hnd hstop
      cases pre with
      | nil =>
        simp only [List.nil_append, List.head?_cons, Option.some.injEq] at hstop
        subst hstop
        simp only [ids, List.nil_append, List.map_cons, List.nodup_cons, List.mem_cons, not_or] at hnd
        exact Ne.symm hnd.1.1
      | cons a pre =>
        simp only [List.cons_append, List.head?_cons, Option.some.injEq] at hstop
        subst hstop
        simp only [ids, List.cons_append, List.map_cons, List.map_append, List.nodup_cons, List.mem_cons, List.mem_append, not_or] at hnd
        exact Ne.symm hnd.1.2.2.1
    obtain ⟨m1, a1, a2, a3⟩ := add_inv h i y.2
    have hAj : Function.update A i ((s.mem.fresh, y.2) :: (A i).tail ++ (A i).take 1) j = A j :=
      Function.update_of_ne (Ne.symm hij) _ _
    obtain ⟨m', L', l', b1, b2, b3, b4⟩ := ih a3 (pre ++ [cur]) y (by rw [hAj, hA]; simp) (by rw [hAj]; exact hstop)
    rw [put_put, Function.update_idem] at b2
    rw [Function.update_self] at b3 b4
    refine ⟨m', L', l', ?_, b2, ?_, ?_⟩
    · have b1' : copyLoop stop.1 (rem.length + 1) y.1 m1 ⟨some s.mem.fresh, (s.lst i).size + 1⟩ = some (m', L') := by
        simpa [St.put] using b1
      rw [List.length_cons]
      rw [copyLoop]
      simp [hnext, hn1, hn2, a1, hys, b1']
    · intro z hz
      rcases b3 z hz with h0 | h0
      · rcases hids _ _ _ z h0 with rfl | h0
        · exact .inr (le_refl _)
        · exact .inl h0
      · have : (s.put i m1 ⟨some s.mem.fresh, (s.lst i).size + 1⟩).mem.fresh = s.mem.fresh + 1 := a2
        right; omega
    · rw [b4, hsnd]; rfl

theorem copyInto_inv {s : St T} {A : ℕ → Seq T} (h : Inv s A) (i j : ℕ) (hij : i ≠ j) (hi : A i = []) :
    ∃ m' L' l', copyInto s.mem (s.lst i) (s.lst j) = some (m', L') ∧ Inv (s.put i m' L') (Function.update A i l') ∧
      (∀ z ∈ ids l', s.mem.fresh ≤ z) ∧ l'.map Prod.snd = (A j).map Prod.snd := by
  obtain ⟨s1, s2, -, -⟩ := h.shows_ j
  cases hA : A j with
  | nil =>
    rw [hA] at s1
    refine ⟨s.mem, s.lst i, [], ?_, ?_, by simp [ids], rfl⟩
    · have s1' : (s.lst j).size = 0 := by simpa using s1
      simp [copyInto, s1']
    · rw [put_self, ← hi, Function.update_eq_self]; exact h
  | cons x t =>
    obtain ⟨m', L', l', c1, c2, c3, c4⟩ := copyLoop_inv h i j hij x t [] x (by rw [hA]; rfl) (by rw [hA]; rfl)
    rw [hA] at s1 s2
    have s1' : (s.lst j).size = t.length + 1 := by simpa using s1
    have s2' : (s.lst j).head = some x.1 := by simpa using s2
    refine ⟨m', L', l', ?_, c2, ?_, ?_⟩
    · simp [copyInto, s1', s2', c1]
    · intro z hz
      rcases c3 z hz with h0 | h0
      · rw [hi] at h0; simp [ids] at h0
      · exact h0
    · rw [c4, hi, List.map_nil, foldl_addV]; rfl

theorem assign_inv {s : St T} {A : ℕ → Seq T} (h : Inv s A) (i j : ℕ) (hij : i ≠ j) :
    ∃ m' L' l', assign s.mem (s.lst i) (s.lst j) = some (m', L') ∧ Inv (s.put i m' L') (Function.update A i l') ∧
      (∀ z ∈ ids l', s.mem.fresh ≤ z) ∧ l'.map Prod.snd = (A j).map Prod.snd := by
  obtain ⟨m1, L1, c1, c2, c3⟩ := clear_inv h i
  obtain ⟨m', L', l', d1, d2, d3, d4⟩ := copyInto_inv c3 i j hij (by rw [Function.update_self])
  rw [put_put, Function.update_idem] at d2
  rw [Function.update_of_ne (Ne.symm hij)] at d4
  refine ⟨m', L', l', ?_, d2, ?_, d4⟩
  · have d1' : copyInto m1 L1 (s.lst j) = some (m', L') := by
      simpa [St.put, Function.update_of_ne (Ne.symm hij)] using d1
    simp [assign, c1, d1']
  · intro z hz
    have := d3 z hz
    have e : (s.put i m1 L1).mem.fresh = s.mem.fresh := c2
    omega

theorem goNext_inv {s : St T} {A : ℕ → Seq T} (h : Inv s A) (i : ℕ) :
    ∃ L', goNext s.mem (s.lst i) = some (L', !(A i).isEmpty) ∧
      Inv (s.put i s.mem L') (Function.update A i ((A i).tail ++ (A i).take 1)) := by
  obtain ⟨s1, s2, s3, s4⟩ := h.shows_ i
  cases hA : A i with
  | nil =>
    rw [hA] at s1
    refine ⟨s.lst i, ?_, ?_⟩
    · have s1' : (s.lst i).size = 0 := by simpa using s1
      simp [goNext, s1']
    · rw [put_self, List.tail_nil, List.take_nil, List.append_nil, ← hA, Function.update_eq_self]
      exact h
  | cons x t =>
    rw [hA] at s1 s2 s3 s4
    have s1' : (s.lst i).size = t.length + 1 := by simpa using s1
    have s2' : (s.lst i).head = some x.1 := by simpa using s2
    have hf := path_first s.mem _ _ _ (show Path s.mem x.1 (ids t) x.1 from s4)
    obtain ⟨y, hy⟩ : ∃ y, (t ++ [x]).head? = some y := by cases t <;> simp
    have hyn : (ids t ++ [x.1]).head (by simp) = y.1 := by
      cases t with
      | nil => simp only [List.nil_append, List.head?_cons, Option.some.injEq] at hy; subst hy; rfl
      | cons a t => simp only [List.cons_append, List.head?_cons, Option.some.injEq] at hy; subst hy; rfl
    rw [hyn] at hf
    refine ⟨⟨some y.1, (s.lst i).size⟩, by simp [goNext, s1', s2', hf], ?_⟩
    have hperm : (ids (t ++ [x])).Perm (ids (A i)) := by
      rw [hA]; exact (List.perm_append_singleton x t).map _
    refine inv_put h i s.mem _ _ ⟨by simp [s1'], by simp [hy], ?_, ?_⟩ (hperm.nodup_iff.mpr (h.nodup i))
      (fun z hz => .inl (hperm.mem_iff.mp hz)) (fun _ _ _ => ⟨rfl, rfl, rfl⟩) ?_
      (fun z hz => h.bound i z (hperm.mem_iff.mp hz)) (le_refl _)
    · intro z hz
      apply s3
      simp only [List.tail_cons, List.take_succ_cons, List.take_zero, List.mem_append, List.mem_cons, List.not_mem_nil, or_false] at hz ⊢
      exact hz.symm
    · have := cyc_rotate s.mem [x.1] (ids t) s4
      simpa [ids] using this
    · intro z hz
      rw [h.live z]
      constructor
      · rintro ⟨j, hj⟩
        rcases hz with hz | hz
        · exact hperm.mem_iff.mpr hz
        · exact absurd (h.bound j z hj) (by omega)
      · exact fun h0 => ⟨i, hperm.mem_iff.mp h0⟩

theorem goPrev_inv {s : St T} {A : ℕ → Seq T} (h : Inv s A) (i : ℕ) :
    ∃ L', goPrev s.mem (s.lst i) = some (L', !(A i).isEmpty) ∧
      Inv (s.put i s.mem L') (Function.update A i ((A i).getLast?.toList ++ (A i).dropLast)) := by
  obtain ⟨s1, s2, s3, s4⟩ := h.shows_ i
  rcases List.eq_nil_or_concat (A i) with hA | ⟨t, x, hA⟩
  · rw [hA] at s1 ⊢
    refine ⟨s.lst i, ?_, ?_⟩
    · have s1' : (s.lst i).size = 0 := by simpa using s1
      simp [goPrev, s1']
    · rw [put_self]
      show Inv s (Function.update A i [])
      rw [← hA, Function.update_eq_self]
      exact h
  · rw [List.concat_eq_append] at hA
    obtain ⟨y, hy⟩ : ∃ y, (t ++ [x]).head? = some y := by cases t <;> simp
    have s1' : (s.lst i).size = t.length + 1 := by rw [s1, hA]; simp
    have s2' : (s.lst i).head = some y.1 := by rw [s2, hA, hy]; rfl
    have hp : s.mem.prev y.1 = some x.1 := by
      rw [hA] at s4
      cases t with
      | nil =>
        simp only [List.nil_append, List.head?_cons, Option.some.injEq] at hy
        subst hy
        exact s4.2
      | cons a t =>
        simp only [List.cons_append, List.head?_cons, Option.some.injEq] at hy
        subst hy
        have := path_last s.mem _ _ _ (show Path s.mem a.1 (ids (t ++ [x])) a.1 from s4)
        rw [this]
        simp [ids]
    have hlist : (A i).getLast?.toList ++ (A i).dropLast = x :: t := by rw [hA]; simp
    rw [hlist]
    refine ⟨⟨some x.1, (s.lst i).size⟩, by simp [goPrev, s1', s2', hp, hA], ?_⟩
    have hperm : (ids (x :: t)).Perm (ids (A i)) := by
      rw [hA]; exact (List.perm_append_singleton x t).symm.map _
    refine inv_put h i s.mem _ _ ⟨by simp [s1'], by simp, ?_, ?_⟩ (hperm.nodup_iff.mpr (h.nodup i))
      (fun z hz => .inl (hperm.mem_iff.mp hz)) (fun _ _ _ => ⟨rfl, rfl, rfl⟩) ?_
      (fun z hz => h.bound i z (hperm.mem_iff.mp hz)) (le_refl _)
    · intro z hz
      apply s3
      rw [hA]
      simp only [List.mem_append, List.mem_cons, List.not_mem_nil, or_false] at hz ⊢
      exact hz.symm
    · have h2 : Cyc s.mem (ids t ++ [x.1]) := by rw [hA] at s4; simpa [ids] using s4
      have := cyc_rotate s.mem (ids t) [x.1] h2
      simpa [ids] using this
    · intro z hz
      rw [h.live z]
      constructor
      · rintro ⟨j, hj⟩
        rcases hz with hz | hz
        · exact hperm.mem_iff.mpr hz
        · exact absurd (h.bound j z hj) (by omega)
      · exact fun h0 => ⟨i, hperm.mem_iff.mp h0⟩

theorem filter_ne (pre post : Seq T) (x : ℕ × Option T) (h : (ids (pre ++ x :: post)).Nodup) :
    ((pre ++ x :: post).filter fun y => some y.1 ≠ some x.1) = pre ++ post := by
  have h1 : x.1 ∉ ids pre ∧ x.1 ∉ ids post := by
    have hp : (ids (pre ++ x :: post)).Perm (x.1 :: (ids pre ++ ids post)) := by
      simp only [ids, List.map_append, List.map_cons]; exact List.perm_middle
    have := (List.nodup_cons.mp (hp.nodup_iff.mp h)).1
    simpa [not_or] using this
  have keep : ∀ l : Seq T, x.1 ∉ ids l → (l.filter fun y => some y.1 ≠ some x.1) = l := by
    intro l hl
    rw [List.filter_eq_self]
    intro y hy
    simp only [ne_eq, Option.some.injEq, decide_not, Bool.not_eq_eq_eq_not, Bool.not_true, decide_eq_false_iff_not]
    intro h0
    exact hl (h0 ▸ List.mem_map_of_mem hy)
  rw [List.filter_append, List.filter_cons, keep pre h1.1, keep post h1.2]
  simp

theorem deleteAt_inv {s : St T} {A : ℕ → Seq T} (h : Inv s A) (i e : ℕ) (he : e ∈ ids (A i)) :
    ∃ m' L', deleteAt s.mem (s.lst i) (some e) = some (m', L', true) ∧
      Inv (s.put i m' L') (Function.update A i ((A i).filter fun x => some x.1 ≠ some e)) := by
  obtain ⟨x, hx, rfl⟩ := List.mem_map.mp he
  obtain ⟨pre, post, hA⟩ := List.append_of_mem hx
  obtain ⟨s1, s2, s3, s4⟩ := h.shows_ i
  have hf : ((A i).filter fun y => some y.1 ≠ some x.1) = pre ++ post := by
    rw [hA]; exact filter_ne pre post x (by rw [← hA]; exact h.nodup i)
  rw [hf]
  have s1' : (s.lst i).size = pre.length + post.length + 1 := by rw [s1, hA]; simp; omega
  by_cases hne : pre ++ post = []
  · have hpre : pre = [] := (List.append_eq_nil_iff.mp hne).1
    have hpost : post = [] := (List.append_eq_nil_iff.mp hne).2
    subst hpre; subst hpost
    obtain ⟨m', d1, d2, d3⟩ := dropOnly_inv h i x (by rw [hA]; rfl)
    refine ⟨m', _, ?_, d3⟩
    have s1'' : (s.lst i).size = 1 := by simpa using s1'
    simp [deleteAt, s1'', d1]
  · obtain ⟨m', r1, r2, r3⟩ := remove_inv h i pre post x hA hne
    have hlt : 1 < (s.lst i).size := by
      rw [s1']
      have : 0 < (pre ++ post).length := List.length_pos_iff.mpr hne
      simp only [List.length_append] at this
      omega
    refine ⟨m', ⟨if some x.1 = (s.lst i).head then some ((post ++ pre).head (by intro h0; apply hne; simp_all)).1 else (s.lst i).head,
      (s.lst i).size - 1⟩, by simp [deleteAt, hlt, r1], r3 _ rfl ?_⟩
    show (if some x.1 = (s.lst i).head then _ else _) = _
    rw [s2, hA]
    cases pre with
    | nil =>
      simp only [List.nil_append, List.head?_cons, Option.map_some, if_true, List.append_nil] at hne ⊢
      cases post with
      | nil => exact absurd rfl hne
      | cons a post => rfl
    | cons a pre =>
      have hax : x.1 ≠ a.1 := by
        have hnd := h.nodup i
        rw [hA] at hnd
        simp only [ids, List.cons_append, List.map_cons, List.map_append, List.nodup_cons, List.mem_append, List.mem_cons, not_or] at hnd
        exact Ne.symm hnd.1.2.1
      simp [hax]

theorem path_get (m : Mem T) (l : List ℕ) (x y : ℕ) (h : Path m x l y) (k a b : ℕ)
    (ha : (x :: l)[k]? = some a) (hb : (l ++ [y])[k]? = some b) : Linked m a b := by
  induction l generalizing x k with
  | nil =>
    cases k with
    | zero => simp at ha hb; subst ha; subst hb; exact h
    | succ k => simp at ha
  | cons c l ih =>
    cases k with
    | zero => simp at ha hb; subst ha; subst hb; exact h.1
    | succ k => exact ih c h.2 k (by simpa using ha) (by simpa using hb)

/-! ### Property theorems -/

/-- C171: every operation on a circular list does what it says and returns what it should, on every
state of any number of lists: nothing dangling, null or uninitialised is used, the other lists stay
as they are, and no element is leaked.  `Delete(element)` needs an element of the list. -/
theorem C171_step_partial (s : St T) (A : ℕ → Seq T) (h : Inv s A) (o : Op T) (hl : Legal A o) :
    ∃ s' ret A', step s o = some (s', ret) ∧ Does A A' ret o ∧ Inv s' A' := by
  cases o with
  | add i d =>
    obtain ⟨m', a1, -, a3⟩ := add_inv h i d
    exact ⟨_, true, _, by simp [step, a1], ⟨rfl, s.mem.fresh, fresh_not_mem h _ (le_refl _), rfl⟩, a3⟩
  | del i =>
    obtain ⟨m', L', d1, -, d3⟩ := delete_inv h i
    exact ⟨_, _, _, by rw [step, d1]; rfl, ⟨rfl, rfl⟩, d3⟩
  | delAt i e =>
    cases e with
    | none =>
      refine ⟨s, false, A, by simp [step, deleteAt, put_self], ⟨rfl, ?_⟩, h⟩
      rw [show ((A i).filter fun x => some x.1 ≠ (none : Option ℕ)) = A i by
        rw [List.filter_eq_self]; simp]
      rw [Function.update_eq_self]
    | some e =>
      obtain ⟨m', L', d1, d3⟩ := deleteAt_inv h i e hl
      exact ⟨_, _, _, by rw [step, d1]; rfl, ⟨rfl, rfl⟩, d3⟩
  | next i =>
    obtain ⟨L', d1, d3⟩ := goNext_inv h i
    exact ⟨_, _, _, by rw [step, d1]; rfl, ⟨rfl, rfl⟩, d3⟩
  | prev i =>
    obtain ⟨L', d1, d3⟩ := goPrev_inv h i
    exact ⟨_, _, _, by rw [step, d1]; rfl, ⟨rfl, rfl⟩, d3⟩
  | clear i =>
    obtain ⟨m', L', d1, -, d3⟩ := clear_inv h i
    exact ⟨_, _, _, by rw [step, d1]; rfl, ⟨rfl, rfl⟩, d3⟩
  | assign i j =>
    by_cases hij : i = j
    · refine ⟨s, true, A, by simp [step, hij], ⟨rfl, ?_⟩, h⟩
      rw [if_pos hij]
    · obtain ⟨m', L', l', d1, d2, d3, d4⟩ := assign_inv h i j hij
      refine ⟨_, true, _, by rw [step, if_neg hij, d1]; rfl, ⟨rfl, ?_⟩, d2⟩
      rw [if_neg hij]
      exact ⟨l', d4, fun p hp k => fresh_not_mem h p (d3 p hp) k, rfl⟩

/-- C171: a program that uses any number of lists in any order runs without undefined behaviour, and
at its end every list is what its history makes it, unless the program at some time passes an element to
`Delete(element)` that is not in that list. -/
theorem C171_session (os : List (Op T)) :
    (∃ s A, run os start = some s ∧ Hist (fun _ => []) os A ∧ Inv s A) ∨
      ∃ pre o post s A, os = pre ++ o :: post ∧ run pre start = some s ∧ Hist (fun _ => []) pre A ∧ Inv s A ∧ ¬ Legal A o := by
  have h0 : Inv (start : St T) (fun _ => []) := by
    refine ⟨fun i => ⟨rfl, rfl, by simp, trivial⟩, fun i => by simp [ids], fun i j _ p hp => by simp [ids], fun p => ?_, fun i p hp => by simp [ids] at hp⟩
    simp [start, Mem.data, ids]
  have key : ∀ (os : List (Op T)) (s : St T) (A : ℕ → Seq T), Inv s A →
      (∃ s' A', run os s = some s' ∧ Hist A os A' ∧ Inv s' A') ∨
      ∃ pre o post s' A', os = pre ++ o :: post ∧ run pre s = some s' ∧ Hist A pre A' ∧ Inv s' A' ∧ ¬ Legal A' o := by
    intro os
    induction os with
    | nil => exact fun s A h => .inl ⟨s, A, rfl, .nil A, h⟩
    | cons o os ih =>
      intro s A h
      by_cases hl : Legal A o
      · obtain ⟨s1, ret, A1, e1, e2, e3⟩ := C171_step_partial s A h o hl
        rcases ih s1 A1 e3 with ⟨s', A', f1, f2, f3⟩ | ⟨pre, o', post, s', A', f0, f1, f2, f3, f4⟩
        · exact .inl ⟨s', A', by simp [run, e1, f1], .cons hl e2 f2, f3⟩
        · exact .inr ⟨o :: pre, o', post, s', A', by rw [f0]; rfl, by simp [run, e1, f1], .cons hl e2 f2, f3, f4⟩
      · exact .inr ⟨[], o, os, s, A, rfl, rfl, .nil A, h, hl⟩
  exact key os start _ h0

/-- C171: what can be read from a list: its size; going round from the head by the links forward gives the elements in
order, again and again; the links backward lead back; and memory holds nothing else than the elements of the lists. -/
theorem C171_reads (s : St T) (A : ℕ → Seq T) (h : Inv s A) (i : ℕ) :
    (s.lst i).size = (A i).length ∧
    (∀ x t, A i = x :: t → ∃ hd, (s.lst i).head = some hd ∧ ∀ k, ∃ (y : ℕ × Option T),
      (A i)[k % (A i).length]? = some y ∧ walk s.mem k hd = some y.1 ∧ s.mem.data y.1 = some y.2) ∧
    (∀ p q, (∃ v, (p, v) ∈ A i) → s.mem.next p = some q → s.mem.prev q = some p) ∧
    ((∀ j, A j = []) → ∀ p, s.mem.at_ p = none) := by
  obtain ⟨s1, s2, s3, s4⟩ := h.shows_ i
  -- the link from each position
  have hlink : ∀ x t, A i = x :: t → ∀ (k : ℕ) (y y' : ℕ × Option T), k < (A i).length → (A i)[k]? = some y →
      (A i)[(k + 1) % (A i).length]? = some y' → Linked s.mem y.1 y'.1 := by
    intro x t hA k y y' hk hy hy'
    rw [hA] at hk hy hy' s4
    refine path_get s.mem (ids t) x.1 x.1 s4 k y.1 y'.1 ?_ ?_
    · show (ids (x :: t))[k]? = _
      rw [ids, List.getElem?_map, hy]; rfl
    · have hap : (ids t ++ [x.1]) = (t ++ [x]).map Prod.fst := by simp [ids]
      rw [hap, List.getElem?_map]
      simp only [List.length_cons] at hk hy'
      by_cases hlast : k = t.length
      · subst hlast
        rw [Nat.mod_self] at hy'
        simp at hy' ⊢
        rw [hy']
      · rw [Nat.mod_eq_of_lt (by omega), List.getElem?_cons_succ] at hy'
        rw [List.getElem?_append_left (by omega), hy']
        rfl
  refine ⟨s1, ?_, ?_, ?_⟩
  · intro x t hA
    refine ⟨x.1, by rw [s2, hA]; rfl, ?_⟩
    have hpos : 0 < (A i).length := by rw [hA]; simp
    have hex : ∀ k, ∃ y, (A i)[k % (A i).length]? = some y := fun k =>
      ⟨_, List.getElem?_eq_getElem (Nat.mod_lt _ hpos)⟩
    have hwalk : ∀ (k a : ℕ) (y y' : ℕ × Option T), (A i)[a % (A i).length]? = some y →
        (A i)[(a + k) % (A i).length]? = some y' → walk s.mem k y.1 = some y'.1 := by
      intro k
      induction k with
      | zero =>
        intro a y y' hy hy'
        rw [Nat.add_zero, hy] at hy'
        cases hy'
        rfl
      | succ k ih =>
        intro a y y' hy hy'
        obtain ⟨z, hz⟩ := hex (a + 1)
        have hl := hlink x t hA (a % (A i).length) y z (Nat.mod_lt _ hpos) hy (by rw [Nat.mod_add_mod]; exact hz)
        rw [walk, hl.1]
        exact ih (a + 1) z y' hz (by rw [show a + 1 + k = a + (k + 1) by omega]; exact hy')
    intro k
    obtain ⟨y, hy⟩ := hex k
    refine ⟨y, hy, hwalk k 0 x y (by rw [Nat.zero_mod, hA]; rfl) (by rw [Nat.zero_add]; exact hy), s3 y (List.mem_of_getElem? hy)⟩
  · rintro p q ⟨v, hv⟩ hq
    obtain ⟨k, hk⟩ := List.mem_iff_getElem?.mp hv
    have hk' : k < (A i).length := by
      by_contra h0
      rw [List.getElem?_eq_none (by omega)] at hk
      cases hk
    cases hA : A i with
    | nil => rw [hA] at hk'; simp at hk'
    | cons x t =>
      obtain ⟨y, hy⟩ : ∃ y, (A i)[(k + 1) % (A i).length]? = some y :=
        ⟨_, List.getElem?_eq_getElem (Nat.mod_lt _ (by omega))⟩
      have hl := hlink x t hA k (p, v) y hk' hk hy
      have : q = y.1 := by
        have := hl.1
        rw [hq] at this
        exact Option.some.inj this
      rw [this]
      exact hl.2
  · intro hall p
    by_contra h0
    obtain ⟨n, hn⟩ := Option.ne_none_iff_exists'.mp h0
    obtain ⟨j, hj⟩ := (h.live p).mp ⟨n.data, by simp [Mem.data, hn]⟩
    rw [hall j] at hj
    simp [ids] at hj

/-- C171 is violated for an element of another list: on a list with one element, `Delete(element)` deletes that
element, whatever the argument points to, and says it succeeded. -/
theorem C171_violated_only (s : St T) (A : ℕ → Seq T) (h : Inv s A) (i e : ℕ) (x : ℕ × Option T) (hA : A i = [x]) (he : e ≠ x.1) :
    ∃ s', step s (.delAt i (some e)) = some (s', true) ∧ Inv s' (Function.update A i []) ∧ (s'.lst i).size = 0 := by
  obtain ⟨m', d1, d2, d3⟩ := dropOnly_inv h i x hA
  have s1 : (s.lst i).size = 1 := by rw [(h.shows_ i).1, hA]; rfl
  refine ⟨_, by simp [step, deleteAt, s1, d1], d3, by simp [St.put]⟩

/-- C171 is violated by the copy constructor, which does not initialise the new list.  A copy of an empty list has the size that
happened to be there; a copy of any other list uses a wild pointer, unless that size is zero, when the copy is right. -/
theorem C171_violated_copy (s : St T) (A : ℕ → Seq T) (h : Inv s A) (j : ℕ) (junk : Lst) :
    (A j = [] → copyNew s.mem junk (s.lst j) = some (s.mem, junk)) ∧
    (A j ≠ [] → junk.size ≠ 0 → (∀ p, junk.head = some p → ∀ k, p ∉ ids (A k)) → copyNew s.mem junk (s.lst j) = none) ∧
    (∀ i, i ≠ j → A i = [] → junk = new → ∃ m' L' l', copyNew s.mem junk (s.lst j) = some (m', L') ∧
      Inv (s.put i m' L') (Function.update A i l') ∧ l'.map Prod.snd = (A j).map Prod.snd) := by
  refine ⟨fun hj => ?_, fun hj hs hw => ?_, fun i hij hi hjunk => ?_⟩
  · have s1 : (s.lst j).size = 0 := by rw [(h.shows_ j).1, hj]; rfl
    simp [copyNew, copyInto, s1]
  · obtain ⟨s1, s2, -, -⟩ := h.shows_ j
    cases hA : A j with
    | nil => exact absurd hA hj
    | cons x t =>
      rw [hA] at s1 s2
      have s1' : (s.lst j).size = t.length + 1 := by simpa using s1
      have s2' : (s.lst j).head = some x.1 := by simpa using s2
      have hadd : ∀ d, add s.mem junk d = none := by
        intro d
        rw [add, if_neg hs]
        cases hh : junk.head with
        | none => rfl
        | some p =>
          have hp : s.mem.at_ p = none := by
            by_contra h0
            obtain ⟨n, hn⟩ := Option.ne_none_iff_exists'.mp h0
            obtain ⟨k, hk⟩ := (h.live p).mp ⟨n.data, by simp [Mem.data, hn]⟩
            exact hw p hh k hk
          simp [Mem.next, hp]
      simp only [copyNew, copyInto, s1', s2']
      rw [if_neg (by omega)]
      simp only [Option.bind_eq_bind, Option.bind_some, copyLoop]
      cases s.mem.next x.1 with
      | none => rfl
      | some c =>
        simp only [Option.bind_some]
        cases s.mem.at_ c with
        | none => rfl
        | some n => simp [hadd]
  · subst hjunk
    obtain ⟨m', L', l', c1, c2, -, c4⟩ := copyInto_inv h i j hij hi
    have hl : s.lst i = new := by
      obtain ⟨s1, s2, -, -⟩ := h.shows_ i
      rw [hi] at s1 s2
      cases hh : s.lst i with
      | mk hd sz => rw [hh] at s1 s2; simp at s1 s2; rw [s1, s2]; rfl
    rw [hl] at c1
    exact ⟨m', L', l', c1, c2, c4⟩

/-! ### Examples -/

/-- Three elements are added, the head is moved on, an element is deleted and the list is copied: the data read going round. -/
example : ((run [.add 0 (some 10), .add 0 (some 11), .add 0 (some 12), .next 0, .delAt 0 (some 1), .assign 1 0] (start : St ℕ)).map fun s =>
    ((s.lst 1).size, (List.range 4).map fun k => ((s.lst 1).head.bind (walk s.mem k)).bind s.mem.data)) =
    some (2, [some (some 10), some (some 12), some (some 10), some (some 12)]) := by decide +kernel

/-- The hypotheses of the theorems hold for the states a program reaches. -/
example : ∃ s A, run [.add 0 (some 10), .add 0 (some 11)] (start : St ℕ) = some s ∧ Inv s A ∧ Legal A (.delAt 0 (some 1)) ∧
    A 0 = [(1, some 11), (0, some 10)] := by
  rcases C171_session [.add 0 (some 10), .add 0 (some 11)] with ⟨s, A, h1, h2, h3⟩ | ⟨pre, o, post, s, A, h0, h1, h2, h3, h4⟩
  · refine ⟨s, A, h1, h3, ?_⟩
    obtain ⟨r1, r2, -, -⟩ := C171_reads s A h3 0
    have e : s = (run [.add 0 (some 10), .add 0 (some 11)] (start : St ℕ)).get (by decide +kernel) := by simp [h1]
    have hsz : (s.lst 0).size = 2 := by rw [e]; decide +kernel
    cases hA : A 0 with
    | nil => rw [r1, hA] at hsz; simp at hsz
    | cons x t =>
      obtain ⟨hd, g1, g2⟩ := r2 x t hA
      have hhd : (s.lst 0).head = some 1 := by rw [e]; decide +kernel
      have hd1 : hd = 1 := by rw [g1] at hhd; exact Option.some.inj hhd
      obtain ⟨y0, a1, a2, a3⟩ := g2 0
      obtain ⟨y1, b1, b2, b3⟩ := g2 1
      rw [r1, hA] at hsz
      obtain ⟨z, rfl⟩ : ∃ z, t = [z] := List.length_eq_one_iff.mp (by simpa using hsz)
      rw [hA] at a1 b1
      simp at a1 b1
      subst a1; subst b1
      subst hd1
      have w0 : walk s.mem 0 1 = some 1 := rfl
      have w1 : walk s.mem 1 1 = some 0 := by rw [e]; decide +kernel
      have d0 : s.mem.data 1 = some (some 11) := by rw [e]; decide +kernel
      have d1 : s.mem.data 0 = some (some 10) := by rw [e]; decide +kernel
      rw [w0] at a2; rw [w1] at b2
      have x1 := Option.some.inj a2
      have z1 := Option.some.inj b2
      rw [← x1, d0] at a3; rw [← z1, d1] at b3
      have hx : x = (1, some 11) := Prod.ext x1.symm (Option.some.inj a3).symm
      have hz : z = (0, some 10) := Prod.ext z1.symm (Option.some.inj b3).symm
      subst hx; subst hz
      exact ⟨by simp [Legal, hA, ids], rfl⟩
  · exfalso
    have : o ∈ [Op.add 0 (some 10), Op.add 0 (some 11)] := by rw [h0]; simp
    simp only [List.mem_cons, List.not_mem_nil, or_false] at this
    rcases this with rfl | rfl <;> exact h4 trivial

end Verif.Ring
