import Verif.Props.Sparse

/-!
C14 (rows handed to OSQP) and C63 (sparsity comparison).
-/

set_option linter.unusedSectionVars false
set_option linter.unusedVariables false

namespace Verif.Sco

open Verif.Bounds (Ext)
open Finset

universe u
variable {K : Type u} [Field K] [LinearOrder K] [IsStrictOrderedRing K]

/-- Specification: OSQP's reading of a lower limit; values at or below `-OSQP_INFTY` are absent. -/
def LowOk (b : Ext K) (a : K) : Prop :=
  match b with
  | .negInf => True
  | .fin l => l ≤ -osqpInfty ∨ l ≤ a
  | .posInf => False
/-- Specification: OSQP's reading of an upper limit. -/
def HighOk (b : Ext K) (a : K) : Prop :=
  match b with
  | .negInf => False
  | .fin u => osqpInfty ≤ u ∨ a ≤ u
  | .posInf => True

/-- Specification: row `r` of a matrix times a vector. -/
def SMat.rowForm (M : SMat K) (r : Nat) (x : Nat → K) : K := ∑ c ∈ range M.cols.length, M.entry r c * x c

/-- Specification: all rows hold. -/
def Rows.Hold (R : Rows K) (x : Nat → K) : Prop :=
  ∀ r < R.A.rows, ∃ l u, R.l[r]? = some l ∧ R.u[r]? = some u ∧ LowOk l (R.A.rowForm r x) ∧ HighOk u (R.A.rowForm r x)

theorem infty_pos : (0 : K) < osqpInfty := by simp [osqpInfty]

theorem clampLo_ok (b : Ext K) (a : K) : LowOk (clampLo b) a ↔ LowOk b a := by
  cases b with
  | negInf => simp [clampLo, LowOk]
  | posInf => simp [clampLo, LowOk]
  | fin l =>
    simp only [clampLo, LowOk]
    rcases le_total l (-osqpInfty) with h | h
    · simp [max_eq_right h, h]
    · simp [max_eq_left h]

theorem clampHi_ok (b : Ext K) (a : K) : HighOk (clampHi b) a ↔ HighOk b a := by
  cases b with
  | negInf => simp [clampHi, HighOk]
  | posInf => simp [clampHi, HighOk]
  | fin l =>
    simp only [clampHi, HighOk]
    rcases le_total l osqpInfty with h | h
    · simp [min_eq_left h]
    · simp [min_eq_right h, h]

/-- C14: for limits inside OSQP's range its reading is the plain one. -/
theorem C14_ordinary_bounds (b : Ext K × Ext K) (a : K) (h1 : ∀ l, b.1 = .fin l → -osqpInfty < l)
    (h2 : ∀ u, b.2 = .fin u → u < osqpInfty) : (LowOk b.1 a ∧ HighOk b.2 a) ↔ Within b a := by
  obtain ⟨l, u⟩ := b
  apply and_congr
  · cases l with
    | fin l => simp only [LowOk]; simp [not_le.2 (h1 l rfl)]
    | negInf => simp [LowOk]
    | posInf => simp [LowOk]
  · cases u with
    | fin u => simp only [HighOk]; simp [not_le.2 (h2 u rfl)]
    | negInf => simp [HighOk]
    | posInf => simp [HighOk]

theorem row_tsum_cons (n : Nat) (t : Nat × Nat × K) (ts : List (Nat × Nat × K)) (ht : t.2.1 < n) (r : Nat)
    (x : Nat → K) : ∑ c ∈ range n, tsum (t :: ts) r c * x c =
      (if t.1 = r then t.2.2 * x t.2.1 else 0) + ∑ c ∈ range n, tsum ts r c * x c := by
  have e : ∀ c, tsum (t :: ts) r c * x c =
      (if t.2.1 = c then (if t.1 = r then t.2.2 * x c else 0) else 0) + tsum ts r c * x c := by
    intro c
    simp only [tsum, List.map_cons, List.sum_cons]
    by_cases a : t.1 = r
    · by_cases b : t.2.1 = c
      · simp [a, b]; ring
      · simp [a, b]
    · simp [a]
  simp only [e, sum_add_distrib]
  congr 1
  rw [sum_eq_single t.2.1]
  · simp
  · intro c _ hc; simp [Ne.symm hc]
  · intro hc; exact absurd (mem_range.2 ht) hc

theorem row_tsum_row (n i : Nat) (l : List (Nat × K)) (hl : ∀ q ∈ l, q.1 < n) (ts : List (Nat × Nat × K)) (r : Nat)
    (x : Nat → K) : ∑ c ∈ range n, tsum (l.map (fun d => (i, d.1, d.2)) ++ ts) r c * x c =
      (if i = r then pairDen l x else 0) + ∑ c ∈ range n, tsum ts r c * x c := by
  induction l with
  | nil => simp
  | cons d l ih =>
    rw [List.map_cons, List.cons_append, row_tsum_cons n _ _ (hl d (by simp)), ih fun q hq => hl q (by simp [hq])]
    by_cases h : i = r
    · simp [h]; ring
    · simp [h]

theorem rowTriplets_spec (n : Nat) (es : List (AffExpr K Nat)) (i : Nat) (h : ∀ e ∈ es, ∀ t ∈ e.terms, t.2 < n) :
    ∃ ts, rowTriplets n i es = some ts ∧ (∀ t ∈ ts, i ≤ t.1 ∧ t.1 < i + es.length ∧ t.2.1 < n) ∧
      ∀ (k : Nat) (e : AffExpr K Nat), es[k]? = some e → ∀ x, ∑ c ∈ range n, tsum ts (i + k) c * x c = linDen e.terms x := by
  induction es generalizing i with
  | nil => exact ⟨[], rfl, by simp, by simp⟩
  | cons e es ih =>
    obtain ⟨ts, a1, a2, a3⟩ := ih (i + 1) fun e' he' => h e' (by simp [he'])
    cases hd : doublets n e.terms with
    | none =>
      obtain ⟨t, ht, hn⟩ := (doublets_none n e.terms).1 hd
      exact absurd (h e (by simp) t ht) (not_lt.2 hn)
    | some l =>
      obtain ⟨d1, d2, _⟩ := doublets_spec n e.terms l hd
      refine ⟨l.map (fun d => (i, d.1, d.2)) ++ ts, by simp [rowTriplets, hd, a1], ?_, ?_⟩
      · intro t ht
        rcases List.mem_append.1 ht with ht | ht
        · obtain ⟨q, hq, rfl⟩ := List.mem_map.1 ht
          exact ⟨le_refl _, by simp, (d2 q hq).1⟩
        · obtain ⟨b1, b2, b3⟩ := a2 t ht
          exact ⟨by omega, by simp; omega, b3⟩
      · intro k e' he' x
        rw [row_tsum_row n i l fun q hq => (d2 q hq).1]
        cases k with
        | zero =>
          simp at he'; subst he'
          have h0 : ∑ c ∈ range n, tsum ts (i + 0) c * x c = 0 := by
            apply sum_eq_zero
            intro c _
            have : tsum ts (i + 0) c = 0 := by
              rw [tsum]
              apply List.sum_eq_zero
              intro a ha
              obtain ⟨t, ht, rfl⟩ := List.mem_map.1 ha
              have := (a2 t ht).1
              have hne : t.1 ≠ i + 0 := by omega
              simp only [hne, false_and, if_false]
            rw [this, zero_mul]
          rw [h0, d1]; simp
        | succ k =>
          have hne : i ≠ i + (k + 1) := by omega
          rw [if_neg hne, zero_add, ← a3 k e' (by simpa using he') x]
          apply sum_congr rfl; intro c _
          rw [show i + 1 + k = i + (k + 1) by omega]

theorem entry_out {M : SMat K} (hM : M.Wf) (r c : Nat) (h : M.rows ≤ r) : M.entry r c = 0 := by
  rw [SMat.entry]
  cases hc : M.cols[c]? with
  | none => simp [colEntry]
  | some col =>
    simp only [Option.getD_some, colEntry]
    apply List.sum_eq_zero
    intro a ha
    obtain ⟨q, hq, rfl⟩ := List.mem_map.1 ha
    have := hM.rng col (List.mem_of_getElem? hc) q hq
    have hne : q.1 ≠ r := by omega
    simp [hne]

theorem addBoundRows_entry (M : SMat K) (m r c : Nat) (hc : c < M.cols.length) :
    (addBoundRows M m).entry r c = M.entry r c + if m + c = r then 1 else 0 := by
  simp only [SMat.entry, addBoundRows, List.getElem?_map, List.getElem?_zipIdx, List.getElem?_eq_getElem hc,
    Option.map_some, Option.getD_some, Nat.zero_add, colEntry, List.map_append, List.sum_append]
  simp

/-- `updateConstraints` on expressions over column indices. -/
theorem updateConstraints_spec (cnts : List (AffExpr K Nat × Bool)) (bounds : List (Ext K × Ext K))
    (h : ∀ c ∈ cnts, ∀ t ∈ c.1.terms, t.2 < bounds.length)
    (hbig : ∀ c ∈ cnts, |c.1.constant| < osqpInfty) :
    ∃ R, updateConstraints cnts bounds = some R ∧ R.A.rows = cnts.length + bounds.length ∧
      R.A.cols.length = bounds.length ∧ R.l.length = R.A.rows ∧ R.u.length = R.A.rows ∧
      ∀ x, R.Hold x ↔ (∀ c ∈ cnts, Satisfies c x) ∧
        ∀ (k : Nat) (b : Ext K × Ext K), bounds[k]? = some b → LowOk b.1 (x k) ∧ HighOk b.2 (x k) := by
  obtain ⟨ts, t1, t2, t3⟩ := rowTriplets_spec bounds.length (cnts.map Prod.fst) 0 (by
    intro e he
    obtain ⟨c, hc, rfl⟩ := List.mem_map.1 he
    exact h c hc)
  obtain ⟨M, m1, m2, m3, m4, m5, _⟩ := setFromTriplets_spec (cnts.map Prod.fst).length bounds.length ts
    (fun t ht => ⟨by have := (t2 t ht).2.1; omega, (t2 t ht).2.2⟩)
  have hlen : (cnts.map Prod.fst).length = cnts.length := by simp
  rw [hlen] at m3
  have haff : affsToEigen (cnts.map Prod.fst) bounds.length =
      some (M, (cnts.map Prod.fst).map fun e => -e.constant) := by simp only [affsToEigen, t1, m1]
  have hupd : ∃ R, updateConstraints cnts bounds = some R ∧ R.A = addBoundRows M cnts.length ∧
      R.l = (cnts.map fun c => if c.2 then Ext.fin (-c.1.constant) else Ext.fin (-osqpInfty)) ++
        bounds.map (fun b => clampLo b.1) ∧
      R.u = (cnts.map fun c => Ext.fin (-c.1.constant)) ++ bounds.map (fun b => clampHi b.2) := by
    refine ⟨_, by simp only [updateConstraints, haff]; rfl, rfl, ?_, ?_⟩
    · simp [List.map_map, Function.comp_def, List.zipWith_map_right, List.zipWith_self]
    · simp [List.map_map, Function.comp_def]
  obtain ⟨R, r1, rA, rl, ru⟩ := hupd
  have hcols : R.A.cols.length = bounds.length := by rw [rA]; simp [addBoundRows, m4]
  have hrows : R.A.rows = cnts.length + bounds.length := by rw [rA]; simp [addBoundRows, m4]
  refine ⟨R, r1, hrows, hcols, by rw [hrows, rl]; simp, by rw [hrows, ru]; simp, ?_⟩
  intro x
  have hform1 : ∀ (k : Nat) (c : AffExpr K Nat × Bool), cnts[k]? = some c → R.A.rowForm k x = linDen c.1.terms x := by
    intro k c hk
    have hkl : k < cnts.length := (List.getElem?_eq_some_iff.1 hk).1
    rw [SMat.rowForm, hcols, ← t3 k c.1 (by simp [hk]) x]
    apply sum_congr rfl
    intro c' hc'
    rw [rA, addBoundRows_entry _ _ _ _ (by rw [m4]; exact mem_range.1 hc'), m5, Nat.zero_add]
    have : ¬ cnts.length + c' = k := by omega
    simp [this]
  have hform2 : ∀ (k : Nat), k < bounds.length → R.A.rowForm (cnts.length + k) x = x k := by
    intro k hk
    rw [SMat.rowForm, hcols]
    have e : ∀ c ∈ range bounds.length, R.A.entry (cnts.length + k) c * x c = if c = k then x k else 0 := by
      intro c hc
      rw [rA, addBoundRows_entry _ _ _ _ (by rw [m4]; exact mem_range.1 hc), entry_out m2 _ _ (by rw [m3]; omega)]
      by_cases hck : c = k
      · subst hck; simp
      · have : ¬ cnts.length + c = cnts.length + k := by omega
        simp [hck]
    rw [sum_congr rfl e]
    simp [hk]
  have hsat : ∀ c ∈ cnts, ∀ f : K, f = linDen c.1.terms x →
      ((LowOk (if c.2 then Ext.fin (-c.1.constant) else Ext.fin (-osqpInfty)) f ∧ HighOk (Ext.fin (-c.1.constant)) f) ↔
        Satisfies c x) := by
    intro c hc f hf
    obtain ⟨b1, b2⟩ := abs_lt.1 (hbig c hc)
    have n1 : ¬ -c.1.constant ≤ -osqpInfty := by linarith
    have n2 : ¬ osqpInfty ≤ -c.1.constant := by linarith
    cases h2 : c.2 with
    | true =>
      simp only [if_true, LowOk, HighOk, Satisfies, h2, n1, n2, false_or, affDen, ← hf]
      constructor
      · rintro ⟨a, b⟩; linarith
      · intro a; constructor <;> linarith
    | false =>
      simp only [Bool.false_eq_true, if_false, LowOk, HighOk, Satisfies, h2, n2, false_or, affDen, ← hf, le_refl,
        true_or, true_and]
      constructor
      · intro a; linarith
      · intro a; linarith
  constructor
  · intro H
    constructor
    · intro c hc
      obtain ⟨k, hk⟩ := List.getElem?_of_mem hc
      have hkl : k < cnts.length := (List.getElem?_eq_some_iff.1 hk).1
      obtain ⟨l, u, h1, h2, h3, h4⟩ := H k (by rw [hrows]; omega)
      rw [rl, List.getElem?_append_left (by simpa using hkl), List.getElem?_map, hk] at h1
      rw [ru, List.getElem?_append_left (by simpa using hkl), List.getElem?_map, hk] at h2
      injection h1 with h1; injection h2 with h2; subst h1 h2
      exact (hsat c hc _ (hform1 k c hk)).1 ⟨h3, h4⟩
    · intro k b hk
      have hkl : k < bounds.length := (List.getElem?_eq_some_iff.1 hk).1
      obtain ⟨l, u, h1, h2, h3, h4⟩ := H (cnts.length + k) (by rw [hrows]; omega)
      rw [rl, List.getElem?_append_right (by simp)] at h1
      rw [ru, List.getElem?_append_right (by simp)] at h2
      simp [hk] at h1 h2
      subst h1 h2
      rw [hform2 k hkl] at h3 h4
      exact ⟨(clampLo_ok _ _).1 h3, (clampHi_ok _ _).1 h4⟩
  · rintro ⟨Hc, Hb⟩ r hr
    rw [hrows] at hr
    by_cases hlt : r < cnts.length
    · have hk := List.getElem?_eq_getElem hlt
      have := (hsat _ (List.getElem_mem hlt) _ (hform1 r _ hk)).2 (Hc _ (List.getElem_mem hlt))
      refine ⟨_, _, ?_, ?_, this.1, this.2⟩
      · rw [rl, List.getElem?_append_left (by simpa using hlt), List.getElem?_map, hk]; rfl
      · rw [ru, List.getElem?_append_left (by simpa using hlt), List.getElem?_map, hk]; rfl
    · obtain ⟨k, rfl⟩ : ∃ k, r = cnts.length + k := ⟨r - cnts.length, by omega⟩
      have hkl : k < bounds.length := by omega
      have hk := List.getElem?_eq_getElem hkl
      have := Hb k _ hk
      refine ⟨clampLo bounds[k].1, clampHi bounds[k].2, ?_, ?_, ?_, ?_⟩
      · rw [rl, List.getElem?_append_right (by simp)]; simp [hk]
      · rw [ru, List.getElem?_append_right (by simp)]; simp [hk]
      · rw [hform2 k hkl]; exact (clampLo_ok _ _).2 this.1
      · rw [hform2 k hkl]; exact (clampHi_ok _ _).2 this.2

theorem mapM_forall₂ {α β : Type u} (f : α → Option β) (P : α → β → Prop) (l : List α)
    (h : ∀ a ∈ l, ∃ b, f a = some b ∧ P a b) : ∃ bs, l.mapM f = some bs ∧ List.Forall₂ P l bs := by
  induction l with
  | nil => exact ⟨[], rfl, .nil⟩
  | cons a l ih =>
    obtain ⟨b, hb, hp⟩ := h a (by simp)
    obtain ⟨bs, hbs, hps⟩ := ih fun a' ha' => h a' (by simp [ha'])
    exact ⟨b :: bs, by simp [List.mapM_cons, hb, hbs], .cons hp hps⟩

theorem toIndices_spec (idx : Nat → Option Nat) (n : Nat) (y x : Nat → K) (e : AffExpr K Nat)
    (h : ∀ t ∈ e.terms, ∃ i, idx t.2 = some i ∧ i < n ∧ x i = y t.2) :
    ∃ e', e.toIndices idx = some e' ∧ e'.constant = e.constant ∧ (∀ t ∈ e'.terms, t.2 < n) ∧
      affDen e' x = affDen e y := by
  have key : ∀ ts : List (K × Nat), (∀ t ∈ ts, ∃ i, idx t.2 = some i ∧ i < n ∧ x i = y t.2) →
      ∃ ts' : List (K × Nat), (ts.mapM fun t => (idx t.2).map fun i => (t.1, i)) = some ts' ∧ (∀ t ∈ ts', t.2 < n) ∧
        linDen ts' x = linDen ts y := by
    intro ts
    induction ts with
    | nil => intro _; exact ⟨[], rfl, by simp, by simp⟩
    | cons t ts ih =>
      intro h
      obtain ⟨i, h1, h2, h3⟩ := h t (by simp)
      obtain ⟨ts', a1, a2, a3⟩ := ih fun t' ht' => h t' (by simp [ht'])
      refine ⟨(t.1, i) :: ts', by simp [List.mapM_cons, h1, a1], ?_, by simp [a3, h3]⟩
      intro t' ht'
      rcases List.mem_cons.1 ht' with rfl | ht'
      · exact h2
      · exact a2 t' ht'
  obtain ⟨ts', a1, a2, a3⟩ := key e.terms h
  exact ⟨⟨e.constant, ts'⟩, by simp only [AffExpr.toIndices, a1], rfl, a2, by simp [affDen, a3]⟩

/-- C14: after `update`, for every model whose constraints mention live variables (and whose constants are
below OSQP's infinity), the rows `l <= A x <= u` exist, have consistent sizes, and hold at a point exactly when
the point satisfies every live constraint and every variable bound (limits at or beyond `1e30` meaning
"none").  Column `k` is the `k`-th live variable. -/
theorem C14_rows (m : OModel K) (hv : m.vars.Inv) (hc : m.cnts.Inv)
    (href : ∀ q ∈ m.cnts.live, ∀ t ∈ q.2.1.terms, ∃ p, (t.2, p) ∈ m.vars.live)
    (hbig : ∀ q ∈ m.cnts.live, |q.2.1.constant| < osqpInfty) :
    ∃ m' R, m.update = some m' ∧ m'.rows = some R ∧ R.A.rows = m.cnts.live.length + m.vars.live.length ∧
      R.A.cols.length = m.vars.live.length ∧ R.l.length = R.A.rows ∧ R.u.length = R.A.rows ∧
      ∀ x y : Nat → K, (∀ (k : Nat) (q : Nat × Ext K × Ext K), m.vars.live[k]? = some q → x k = y q.1) →
        (R.Hold x ↔ (∀ q ∈ m.cnts.live, Satisfies q.2 y) ∧
          ∀ q ∈ m.vars.live, LowOk q.2.1 (y q.1) ∧ HighOk q.2.2 (y q.1)) := by
  obtain ⟨v', v1, v2, v3, v4, v5⟩ := Store.update_spec hv
  obtain ⟨c', c1, c2, c3, c4, c5⟩ := Store.update_spec hc
  have hupd : m.update = some { m with vars := v', cnts := c' } := by simp only [OModel.update, v1, c1]
  have hidx : ∀ (k : Nat) (q : Nat × Ext K × Ext K), m.vars.live[k]? = some q → v'.indexOf q.1 = some k := by
    intro k q hk
    obtain ⟨id, r, h1, h2, h3⟩ := v2 k (some q.1, q.2) (by rw [v5, List.getElem?_map, hk]; rfl)
    simp at h1; subst h1
    simp [Store.indexOf, h2, h3]
  have hterm : ∀ q ∈ m.cnts.live, ∀ t ∈ q.2.1.terms, ∃ i, v'.indexOf t.2 = some i ∧ i < m.vars.live.length ∧
      ∀ x y : Nat → K, (∀ (k : Nat) (q : Nat × Ext K × Ext K), m.vars.live[k]? = some q → x k = y q.1) → x i = y t.2 := by
    intro q hq t ht
    obtain ⟨p, hp⟩ := href q hq t ht
    obtain ⟨k, hk⟩ := List.getElem?_of_mem hp
    exact ⟨k, hidx k _ hk, (List.getElem?_eq_some_iff.1 hk).1, fun x y h => h k _ hk⟩
  obtain ⟨cs, s1, s2⟩ := mapM_forall₂
    (fun c : Option Nat × AffExpr K Nat × Bool => (c.2.1.toIndices v'.indexOf).map fun e => (e, c.2.2))
    (fun c e => e.2 = c.2.2 ∧ e.1.constant = c.2.1.constant ∧ (∀ t ∈ e.1.terms, t.2 < m.vars.live.length) ∧
      ∀ x y : Nat → K, (∀ (k : Nat) (q : Nat × Ext K × Ext K), m.vars.live[k]? = some q → x k = y q.1) →
        affDen e.1 x = affDen c.2.1 y) c'.items (by
    intro c hcm
    rw [c5] at hcm
    obtain ⟨q, hq, rfl⟩ := List.mem_map.1 hcm
    have hspec := fun x y h => toIndices_spec v'.indexOf m.vars.live.length y x q.2.1 (fun t ht => by
      obtain ⟨i, i1, i2, i3⟩ := hterm q hq t ht
      exact ⟨i, i1, i2, i3 x y h⟩)
    obtain ⟨e', e1, e2, e3, _⟩ := hspec (fun _ => 0) (fun _ => 0) (fun _ _ _ => rfl)
    refine ⟨(e', q.2.2), by simp [e1], rfl, e2, e3, ?_⟩
    intro x y h
    obtain ⟨e'', f1, _, _, f4⟩ := hspec x y h
    have : e'' = e' := by rw [e1] at f1; injection f1 with f1; exact f1.symm
    rw [this] at f4; exact f4)
  have hb : (v'.items.map Prod.snd).length = m.vars.live.length := by rw [v5]; simp
  have hcs : cs.length = m.cnts.live.length := by rw [← s2.length_eq, c5]; simp
  have hback : ∀ e ∈ cs, ∃ c ∈ c'.items, e.2 = c.2.2 ∧ e.1.constant = c.2.1.constant ∧
      (∀ t ∈ e.1.terms, t.2 < m.vars.live.length) ∧
      ∀ x y : Nat → K, (∀ (k : Nat) (q : Nat × Ext K × Ext K), m.vars.live[k]? = some q → x k = y q.1) →
        affDen e.1 x = affDen c.2.1 y := by
    intro e he
    obtain ⟨k, hk⟩ := List.getElem?_of_mem he
    have hkl := (List.getElem?_eq_some_iff.1 hk)
    have hk2 : k < c'.items.length := by rw [s2.length_eq]; exact hkl.1
    have := (List.forall₂_iff_get.1 s2).2 k hk2 hkl.1
    refine ⟨c'.items[k], List.getElem_mem _, ?_⟩
    rw [← hkl.2]; exact this
  have hforth : ∀ q ∈ m.cnts.live, ∃ e ∈ cs, e.2 = q.2.2 ∧
      ∀ x y : Nat → K, (∀ (k : Nat) (q : Nat × Ext K × Ext K), m.vars.live[k]? = some q → x k = y q.1) →
        affDen e.1 x = affDen q.2.1 y := by
    intro q hq
    have hm : (some q.1, q.2) ∈ c'.items := by rw [c5]; exact List.mem_map.2 ⟨q, hq, rfl⟩
    obtain ⟨k, hk⟩ := List.getElem?_of_mem hm
    have hkl := (List.getElem?_eq_some_iff.1 hk)
    have hk2 : k < cs.length := by rw [← s2.length_eq]; exact hkl.1
    have := (List.forall₂_iff_get.1 s2).2 k hkl.1 hk2
    simp only [List.get_eq_getElem, hkl.2] at this
    exact ⟨cs[k], List.getElem_mem _, this.1, this.2.2.2⟩
  obtain ⟨R, r1, r2, r3, r4, r5, r6⟩ := updateConstraints_spec cs (v'.items.map Prod.snd)
    (by
      intro e he t ht
      obtain ⟨c, _, _, _, h3, _⟩ := hback e he
      rw [hb]; exact h3 t ht)
    (by
      intro e he
      obtain ⟨c, hcm, _, h2, _⟩ := hback e he
      rw [c5] at hcm
      obtain ⟨q, hq, rfl⟩ := List.mem_map.1 hcm
      rw [h2]; exact hbig q hq)
  refine ⟨_, R, hupd, by simp only [OModel.rows, s1, r1], by rw [r2, hcs, hb], by rw [r3, hb], r4, r5, ?_⟩
  intro x y hxy
  rw [r6]
  apply and_congr
  · constructor
    · intro H q hq
      obtain ⟨e, he, e2, e3⟩ := hforth q hq
      have := H e he
      simp only [Satisfies, e2, e3 x y hxy] at this ⊢
      exact this
    · intro H e he
      obtain ⟨c, hcm, h1, _, _, h4⟩ := hback e he
      rw [c5] at hcm
      obtain ⟨q, hq, rfl⟩ := List.mem_map.1 hcm
      have := H q hq
      simp only [Satisfies, h1, h4 x y hxy] at this ⊢
      exact this
  · constructor
    · intro H q hq
      obtain ⟨k, hk⟩ := List.getElem?_of_mem hq
      rw [← hxy k q hk]
      exact H k q.2 (by rw [v5]; simp [hk])
    · intro H k b hk
      rw [v5] at hk
      simp only [List.map_map, List.getElem?_map, Option.map_eq_some_iff] at hk
      obtain ⟨q, hq, rfl⟩ := hk
      rw [hxy k q hq]
      exact H q (List.mem_of_getElem? hq)

/-- non-vacuity for C14: two variables, a removed constraint, an inequality and an equality. -/
example : ∃ m : OModel ℚ, m.vars.Inv ∧ m.cnts.Inv ∧ m.vars.live.length = 2 ∧ m.cnts.live.length = 2 ∧
    (∀ q ∈ m.cnts.live, ∀ t ∈ q.2.1.terms, ∃ p, (t.2, p) ∈ m.vars.live) ∧
    ∀ q ∈ m.cnts.live, |q.2.1.constant| < osqpInfty := by
  let v : Store (Ext ℚ × Ext ℚ) := ((Store.empty.add (.fin 0, .posInf)).1.add (.negInf, .fin 3)).1
  let c : Store (AffExpr ℚ Nat × Bool) :=
    ((((Store.empty.add (⟨1, [(1, 0)]⟩, true)).1.add (⟨2, [(1, 0), (-1, 1)]⟩, false)).1.add (⟨4, [(1, 1)]⟩, true)).1).remove [0]
  have hv : v.Inv := Store.add_inv (Store.add_inv Store.inv_empty _) _
  have hc : c.Inv := Store.remove_inv (Store.add_inv (Store.add_inv (Store.add_inv Store.inv_empty _) _) _) _
  have e1 : v.live = [(0, (.fin 0, .posInf)), (1, (.negInf, .fin 3))] := rfl
  have e2 : c.live = [(1, (⟨2, [(1, 0), (-1, 1)]⟩, false)), (2, (⟨4, [(1, 1)]⟩, true))] := rfl
  refine ⟨⟨v, c, QuadExpr.zero⟩, hv, hc, by rw [e1]; rfl, by rw [e2]; rfl, ?_, ?_⟩
  · intro q hq t ht
    simp only [e2] at hq
    simp only [e1]
    simp at hq
    rcases hq with rfl | rfl <;> simp at ht
    · rcases ht with rfl | rfl <;> simp
    · subst ht; simp
  · intro q hq
    simp only [e2] at hq
    simp at hq
    rcases hq with rfl | rfl <;> norm_num [osqpInfty]

/-! ### C63 -/

/-- Specification: equal sparsity pattern. -/
def SamePattern {K : Type u} (a b : OsqpMat K) : Prop :=
  a.m = b.m ∧ a.n = b.n ∧ a.csc.columnPointers = b.csc.columnPointers ∧ a.csc.rowIndices = b.csc.rowIndices

/-- Specification: the matrix is consistent. -/
def OsqpMat.Ok {K : Type u} (a : OsqpMat K) : Prop :=
  a.csc.columnPointers.length = a.n + 1 ∧ a.csc.rowIndices.length = a.csc.values.length

theorem intBytes_length (v : Nat) : (intBytes v).length = 8 := by simp [intBytes, osqpIntSize]

theorem intBytes_inj {a b : Nat} (ha : a < 256 ^ 8) (hb : b < 256 ^ 8) (h : intBytes a = intBytes b) : a = b := by
  simp only [intBytes, osqpIntSize] at h
  have hk : ∀ k < 8, a / 256 ^ k % 256 = b / 256 ^ k % 256 := by
    intro k hk
    have := congrArg (fun l : List Nat => l[k]?) h
    simpa [hk] using this
  have h0 := hk 0 (by omega)
  have h1 := hk 1 (by omega)
  have h2 := hk 2 (by omega)
  have h3 := hk 3 (by omega)
  have h4 := hk 4 (by omega)
  have h5 := hk 5 (by omega)
  have h6 := hk 6 (by omega)
  have h7 := hk 7 (by omega)
  norm_num at h0 h1 h2 h3 h4 h5 h6 h7 ha hb
  omega

theorem memEq_prefix (a b : List Nat) (ha : ∀ v ∈ a, v < 256 ^ 8) (hb : ∀ v ∈ b, v < 256 ^ 8)
    (hlen : a.length = b.length) (n : Nat) (h : memEq a b n = true) : a.take (n / 8) = b.take (n / 8) := by
  have h := of_decide_eq_true h
  clear * - h ha hb hlen
  induction a generalizing b n with
  | nil =>
    have : b = [] := List.eq_nil_of_length_eq_zero hlen.symm
    subst this; rfl
  | cons v a ih =>
    cases b with
    | nil => simp at hlen
    | cons w b =>
      by_cases hn : n < 8
      · have : n / 8 = 0 := Nat.div_eq_of_lt hn
        simp [this]
      · obtain ⟨k, rfl⟩ : ∃ k, n = 8 + k := ⟨n - 8, by omega⟩
        have e : (8 + k) / 8 = k / 8 + 1 := by omega
        rw [e, List.take_succ_cons, List.take_succ_cons]
        simp only [vecBytes, List.flatMap_cons] at h
        have t : ∀ v (l : List Nat), (intBytes v ++ l).take (8 + k) = intBytes v ++ l.take k := by
          intro v l
          rw [List.take_append, intBytes_length]
          rw [List.take_of_length_le (by rw [intBytes_length]; omega)]
          simp
        rw [t, t] at h
        obtain ⟨h1, h2⟩ := List.append_inj h (by simp [intBytes_length])
        rw [intBytes_inj (ha v (by simp)) (hb w (by simp)) h1,
          ih b (fun u hu => ha u (by simp [hu])) (fun u hu => hb u (by simp [hu])) (by simpa using hlen) k h2]

/-- C63, proved part: an unchanged pattern is always recognised, and then the updated workspace holds
exactly the new matrices. -/
theorem C63_unchanged_partial {K : Type u} (wsP wsA P A : OsqpMat K) (hP : SamePattern wsP P) (hA : SamePattern wsA A)
    (oP : wsP.Ok) (oP' : P.Ok) (oA : wsA.Ok) (oA' : A.Ok) :
    sparsityEqual wsP P = true ∧ sparsityEqual wsA A = true ∧ nextWorkspace wsP wsA P A = (P, A) := by
  have key : ∀ W Q : OsqpMat K, SamePattern W Q → W.Ok → Q.Ok → sparsityEqual W Q = true := by
    intro W Q ⟨h1, h2, h3, h4⟩ o o'
    have : W.csc.values.length = Q.csc.values.length := by rw [← o.2, ← o'.2, h4]
    simp [sparsityEqual, h1, h2, this, h3, h4, memEq]
  have e1 := key wsP P hP oP oP'
  have e2 := key wsA A hA oA oA'
  refine ⟨e1, e2, ?_⟩
  simp only [nextWorkspace, e1, e2, Bool.and_self, if_true]
  have fin : ∀ W Q : OsqpMat K, SamePattern W Q → ({ W with csc := { W.csc with values := Q.csc.values } } : OsqpMat K) = Q := by
    intro W Q ⟨h1, h2, h3, h4⟩
    obtain ⟨a, b, c, d, e⟩ := W
    obtain ⟨a', b', c', d', e'⟩ := Q
    simp_all
  rw [fin wsP P hP, fin wsA A hA]

/-- C63, proved part: what the comparison does guarantee (sizes, number of entries, and only the first eighth
of the pointers and of the row indices). -/
theorem C63_reported_equal_partial {K : Type u} (W Q : OsqpMat K) (o : W.Ok) (o' : Q.Ok)
    (hW : ∀ v ∈ W.csc.columnPointers ++ W.csc.rowIndices, v < 256 ^ 8)
    (hQ : ∀ v ∈ Q.csc.columnPointers ++ Q.csc.rowIndices, v < 256 ^ 8) (h : sparsityEqual W Q = true) :
    W.m = Q.m ∧ W.n = Q.n ∧ W.csc.values.length = Q.csc.values.length ∧
    W.csc.columnPointers.take ((W.n + 1) / 8) = Q.csc.columnPointers.take ((W.n + 1) / 8) ∧
    W.csc.rowIndices.take (W.csc.values.length / 8) = Q.csc.rowIndices.take (W.csc.values.length / 8) := by
  simp only [sparsityEqual, Bool.and_eq_true, decide_eq_true_eq] at h
  obtain ⟨⟨⟨h1, h2, h3⟩, h4⟩, h5⟩ := h
  refine ⟨h2, h1, h3, ?_, ?_⟩
  · exact memEq_prefix _ _ (fun v hv => hW v (by simp [hv])) (fun v hv => hQ v (by simp [hv]))
      (by rw [o.1, o'.1, h1]) _ h4
  · exact memEq_prefix _ _ (fun v hv => hW v (by simp [hv])) (fun v hv => hQ v (by simp [hv]))
      (by rw [o.2, o'.2, h3]) _ h5

/-- Same sizes, same number of entries, and the same first eighth of the pointers and of the row indices. -/
def Alike {K : Type u} (W Q : OsqpMat K) : Prop :=
  W.m = Q.m ∧ W.n = Q.n ∧ W.csc.values.length = Q.csc.values.length ∧
    W.csc.columnPointers.take ((W.n + 1) / 8) = Q.csc.columnPointers.take ((W.n + 1) / 8) ∧
    W.csc.rowIndices.take (W.csc.values.length / 8) = Q.csc.rowIndices.take (W.csc.values.length / 8)

/-- C63, proved part: a change of either matrix that shows in the sizes, the number of entries or the first eighth of
the pattern is noticed, and the workspace is set up again with both matrices. -/
theorem C63_noticed_partial {K : Type u} (wsP wsA P A : OsqpMat K) (oP : wsP.Ok) (oP' : P.Ok) (oA : wsA.Ok) (oA' : A.Ok)
    (hb : ∀ M ∈ [wsP, wsA, P, A], ∀ v ∈ M.csc.columnPointers ++ M.csc.rowIndices, v < 256 ^ 8)
    (h : ¬ Alike wsP P ∨ ¬ Alike wsA A) : nextWorkspace wsP wsA P A = (P, A) := by
  unfold nextWorkspace
  rw [if_neg]
  intro he
  rw [Bool.and_eq_true] at he
  rcases h with h | h
  · exact h (C63_reported_equal_partial wsP P oP oP' (hb _ (by simp)) (hb _ (by simp)) he.1)
  · exact h (C63_reported_equal_partial wsA A oA oA' (hb _ (by simp)) (hb _ (by simp)) he.2)

/-- one entry fewer in the Hessian -/
example : ¬ Alike (⟨2, 2, eigenToCSC false ⟨2, [[(0, 1)], [(1, 1)]]⟩⟩ : OsqpMat ℚ)
    ⟨2, 2, eigenToCSC false ⟨2, [[(0, 1)], []]⟩⟩ := by
  intro h; exact absurd h.2.2.1 (by decide +kernel)

/-- C63 is violated: `x0`, `x1` constrained separately, then one constraint on both; the second is reported as
unchanged and the workspace keeps the row indices of the first, hence solves a different problem. -/
theorem C63_violated :
    ∃ W Q : OsqpMat ℚ, W.Ok ∧ Q.Ok ∧ (∃ M N : SMat ℚ, M.Wf ∧ N.Wf ∧ W.csc = eigenToCSC false M ∧ Q.csc = eigenToCSC false N) ∧
      sparsityEqual W Q = true ∧ ¬ SamePattern W Q ∧
      (nextWorkspace W W Q Q).2.csc.decode ≠ Q.csc.decode := by
  refine ⟨⟨2, 2, eigenToCSC false ⟨2, [[(0, 1)], [(1, 1)]]⟩⟩, ⟨2, 2, eigenToCSC false ⟨2, [[(0, 1)], [(0, 1)]]⟩⟩,
    ⟨rfl, rfl⟩, ⟨rfl, rfl⟩, ⟨_, _, ?_, ?_, rfl, rfl⟩, by decide +kernel, ?_, by decide +kernel⟩
  · constructor <;> simp [Increasing]
  · constructor <;> simp [Increasing]
  · rintro ⟨_, _, _, h⟩; exact absurd h (by decide +kernel)

/-- non-vacuity for C63: the identity pattern is recognised. -/
example : sparsityEqual (⟨2, 2, eigenToCSC false ⟨2, [[(0, 1)], [(1, 1)]]⟩⟩ : OsqpMat ℚ)
    ⟨2, 2, eigenToCSC false ⟨2, [[(0, 5)], [(1, 7)]]⟩⟩ = true := by decide +kernel

end Verif.Sco
