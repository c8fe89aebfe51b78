import Verif.Model.OtherSolvers
import Verif.Props.OsqpRows

/-!
C85 (BPMPD) and C86 (qpOASES): the data handed to the solvers describe the problem of the model.
-/

set_option linter.unusedSectionVars false
set_option linter.unusedVariables false

namespace Verif.Sco

open Verif.Bounds (Ext)
open Finset

universe u
variable {K : Type u} [Field K] [LinearOrder K] [IsStrictOrderedRing K]

/-! ### Specification: how BPMPD reads its input (readme in bpmpd_interface.cpp 19-143) -/

/-- Specification: the columns stored one after another, `counts` entries each. -/
def takeCols {α : Type u} : List Nat → List α → List (List α)
  | [], _ => []
  | c :: cs, l => l.take c :: takeCols cs (l.drop c)

/-- Specification: the columns of the constraint matrix, one-based row indices. -/
def BInput.aCols (b : BInput K) : List (List (Nat × K)) := takeCols b.acolcnt (b.acolidx.zip b.acolnzs)
/-- Specification: the columns of the lower triangle of Q. -/
def BInput.qCols (b : BInput K) : List (List (Nat × K)) := takeCols b.qcolcnt (b.qcolidx.zip b.qcolnzs)

/-- Specification: row `r` (counted from zero) of the constraint matrix times `x`. -/
def BInput.row (b : BInput K) (r : Nat) (x : Nat → K) : K :=
  (b.aCols.zipIdx.map fun c => (c.1.map fun q => if q.1 = r + 1 then q.2 * x c.2 else 0).sum).sum

/-- Specification: `c'x + 1/2 x'Qx`; an entry below the diagonal stands for two entries of Q. -/
def BInput.cost (b : BInput K) (x : Nat → K) : K :=
  (b.obj.zipIdx.map fun c => c.1 * x c.2).sum + 1 / 2 *
    (b.qCols.zipIdx.map fun c => (c.1.map fun q =>
      if q.1 = c.2 + 1 then q.2 * x c.2 * x c.2 else 2 * (q.2 * x (q.1 - 1) * x c.2)).sum).sum

/-- Specification: a point satisfies bounds and rows; limits at or beyond `1e30` are absent. -/
def BInput.Holds (b : BInput K) (x : Nat → K) : Prop :=
  (∀ j < b.n, ∃ l u, b.lbound[j]? = some l ∧ b.ubound[j]? = some u ∧ LowOk l (x j) ∧ HighOk u (x j)) ∧
  ∀ r < b.m, ∃ l u h, b.lbound[b.n + r]? = some l ∧ b.ubound[b.n + r]? = some u ∧ b.rhs[r]? = some h ∧
    LowOk l (b.row r x - h) ∧ HighOk u (b.row r x - h)

/-- Specification: sizes agree, indices are in range, every column is strictly increasing, and the entries of Q are in the
lower triangle. -/
structure BInput.Wf (b : BInput K) : Prop where
  acolcnt : b.acolcnt.length = b.n
  qcolcnt : b.qcolcnt.length = b.n
  nz : b.nz = b.acolcnt.sum ∧ b.acolidx.length = b.nz ∧ b.acolnzs.length = b.nz
  qnz : b.qnz = b.qcolcnt.sum ∧ b.qcolidx.length = b.qnz ∧ b.qcolnzs.length = b.qnz
  qn : b.qn = b.n
  obj : b.obj.length = b.n
  rhs : b.rhs.length = b.m
  lbound : b.lbound.length = b.n + b.m
  ubound : b.ubound.length = b.n + b.m
  aIdx : ∀ i ∈ b.acolidx, 1 ≤ i ∧ i ≤ b.m
  aInc : ∀ c ∈ b.aCols, Increasing c
  qInc : ∀ c ∈ b.qCols, Increasing c
  qLower : ∀ (j : Nat) c, b.qCols[j]? = some c → ∀ q ∈ c, j + 1 ≤ q.1 ∧ q.1 ≤ b.n

/-! ### Columns -/

theorem takeCols_flatten {α : Type u} (cols : List (List α)) : takeCols (cols.map List.length) cols.flatten = cols := by
  induction cols with
  | nil => rfl
  | cons c cols ih =>
    simp only [List.map_cons, List.flatten_cons, takeCols]
    rw [List.take_left, List.drop_left, ih]

theorem takeCols_map {α β : Type u} (f : α → β) (cs : List Nat) (l : List α) :
    takeCols cs (l.map f) = (takeCols cs l).map (List.map f) := by
  induction cs generalizing l with
  | nil => rfl
  | cons c cs ih => simp only [takeCols, List.map_cons, ← List.map_take, ← List.map_drop, ih]

/-- Any bilinear reading of stored columns. -/
def colsForm (cols : List (List (Nat × K))) (k : Nat) (f : Nat → Nat → K) : K :=
  ((cols.zipIdx k).map fun c => (c.1.map fun q => q.2 * f q.1 c.2).sum).sum

theorem colsForm_cons (c : List (Nat × K)) (cols : List (List (Nat × K))) (k : Nat) (f : Nat → Nat → K) :
    colsForm (c :: cols) k f = pairDen c (fun r => f r k) + colsForm cols (k + 1) f := by
  simp [colsForm, pairDen]

theorem colsForm_replicate (n k : Nat) (f : Nat → Nat → K) : colsForm (List.replicate n []) k f = 0 := by
  induction n generalizing k with
  | zero => rfl
  | succ n ih => rw [List.replicate_succ, colsForm_cons, ih]; simp

theorem colsForm_modify (cols : List (List (Nat × K))) (k j i : Nat) (v : K) (hj : j < cols.length) (f : Nat → Nat → K) :
    colsForm (cols.modify j (· ++ [(i, v)])) k f = colsForm cols k f + v * f i (k + j) := by
  induction cols generalizing k j with
  | nil => simp at hj
  | cons c cols ih =>
    cases j with
    | zero => simp only [List.modify_zero_cons, colsForm_cons, pairDen_append, pairDen_cons, pairDen_nil, Nat.add_zero]; ring
    | succ j =>
      simp only [List.modify_succ_cons, colsForm_cons]
      rw [ih _ _ (by simpa using hj), show k + 1 + j = k + (j + 1) by omega]; ring

theorem colsForm_simplify (cols : List (List (Nat × K))) (k : Nat) (f : Nat → Nat → K) :
    colsForm (cols.map simplify2) k f = colsForm cols k f := by
  induction cols generalizing k with
  | nil => rfl
  | cons c cols ih => rw [List.map_cons, colsForm_cons, colsForm_cons, ih, (C04_simplify2 c).2.1]

/-- A statement about all entries of the columns. -/
def AllIn (cols : List (List (Nat × K))) (P : Nat → Nat → Prop) : Prop := ∀ (j : Nat) c, cols[j]? = some c → ∀ q ∈ c, P q.1 j

theorem allIn_replicate (n : Nat) (P : Nat → Nat → Prop) : AllIn (List.replicate n ([] : List (Nat × K))) P := by
  intro j c hj
  rw [List.eq_of_mem_replicate (List.mem_of_getElem? hj)]; simp

theorem allIn_modify {cols : List (List (Nat × K))} {P : Nat → Nat → Prop} (h : AllIn cols P) (j i : Nat) (v : K) (hp : P i j) :
    AllIn (cols.modify j (· ++ [(i, v)])) P := by
  intro j' c hj' q hq
  rw [List.getElem?_modify] at hj'
  obtain ⟨c0, h0, h1⟩ := Option.map_eq_some_iff.1 hj'
  by_cases e : j = j'
  · rw [if_pos e] at h1
    subst h1 e
    rcases List.mem_append.1 hq with hq | hq
    · exact h _ _ h0 q hq
    · rw [List.mem_singleton.1 hq]; exact hp
  · rw [if_neg e] at h1
    subst h1; exact h _ _ h0 q hq

theorem allIn_simplify {cols : List (List (Nat × K))} {P : Nat → Nat → Prop} (h : AllIn cols P) :
    AllIn (cols.map simplify2) P := by
  intro j c hj q hq
  rw [List.getElem?_map] at hj
  obtain ⟨c0, h0, rfl⟩ := Option.map_eq_some_iff.1 hj
  obtain ⟨q', hq', e, -⟩ := ((C04_simplify2 c0).2.2 q.1).1 (List.mem_map_of_mem hq)
  rw [← e]; exact h _ _ h0 q' hq'

/-- Pushing a list of entries. -/
theorem push_all {α : Type u} (col row : α → Nat) (val : α → K) (P : Nat → Nat → Prop) (l : List α)
    (cols : List (List (Nat × K))) (h : ∀ t ∈ l, col t < cols.length ∧ P (row t) (col t)) (hP : AllIn cols P) :
    ∃ cols', l.foldlM (fun cols t => pushCol cols (col t) (row t) (val t)) cols = some cols' ∧
      cols'.length = cols.length ∧ AllIn cols' P ∧
      ∀ f, colsForm cols' 0 f = colsForm cols 0 f + (l.map fun t => val t * f (row t) (col t)).sum := by
  induction l generalizing cols with
  | nil => exact ⟨cols, rfl, rfl, hP, by simp⟩
  | cons t l ih =>
    obtain ⟨h1, h2⟩ := h t (by simp)
    obtain ⟨cols', a1, a2, a3, a4⟩ := ih (cols.modify (col t) (· ++ [(row t, val t)]))
      (by intro t' ht'; rw [List.length_modify]; exact h t' (by simp [ht'])) (allIn_modify hP _ _ _ h2)
    refine ⟨cols', ?_, by rw [a2, List.length_modify], a3, ?_⟩
    · rw [List.foldlM_cons]
      simp only [pushCol, if_pos h1, Option.bind_eq_bind, Option.bind_some]
      exact a1
    · intro f
      rw [a4, colsForm_modify _ _ _ _ _ h1, List.map_cons, List.sum_cons, Nat.zero_add]; ring

theorem scatterRows_spec (n : Nat) (es : List (AffExpr K Nat)) (h : ∀ e ∈ es, ∀ t ∈ e.terms, t.2 < n) :
    ∃ cols, scatterRows n es = some cols ∧ cols.length = n ∧ AllIn cols (fun r _ => r < es.length) ∧
      ∀ f, colsForm cols 0 f = (es.zipIdx.map fun e => (e.1.terms.map fun t => t.1 * f e.2 t.2).sum).sum := by
  have key : ∀ (l : List (AffExpr K Nat × Nat)) (cols : List (List (Nat × K))), cols.length = n →
      (∀ e ∈ l, e.2 < es.length ∧ ∀ t ∈ e.1.terms, t.2 < n) → AllIn cols (fun r _ => r < es.length) →
      ∃ cols', l.foldlM scatterRow cols = some cols' ∧ cols'.length = n ∧ AllIn cols' (fun r _ => r < es.length) ∧
        ∀ f, colsForm cols' 0 f = colsForm cols 0 f + (l.map fun e => (e.1.terms.map fun t => t.1 * f e.2 t.2).sum).sum := by
    intro l
    induction l with
    | nil => intro cols hn _ hP; exact ⟨cols, rfl, hn, hP, by simp⟩
    | cons e l ih =>
      intro cols hn he hP
      obtain ⟨e1, e2⟩ := he e (by simp)
      obtain ⟨c1, a1, a2, a3, a4⟩ := push_all (fun t : K × Nat => t.2) (fun _ => e.2) (fun t => t.1)
        (fun r _ => r < es.length) e.1.terms cols (fun t ht => ⟨by rw [hn]; exact e2 t ht, e1⟩) hP
      obtain ⟨c2, b1, b2, b3, b4⟩ := ih c1 (by rw [a2, hn]) (fun e' he' => he e' (by simp [he'])) a3
      refine ⟨c2, ?_, b2, b3, ?_⟩
      · rw [List.foldlM_cons]
        simp only [scatterRow, a1, Option.bind_eq_bind, Option.bind_some]
        exact b1
      · intro f; rw [b4, a4, List.map_cons, List.sum_cons]; ring
  obtain ⟨cols, a1, a2, a3, a4⟩ := key es.zipIdx (List.replicate n []) (by simp) (by
    rintro ⟨e, k⟩ he
    obtain ⟨h1, h2, h3⟩ := List.mem_zipIdx he
    refine ⟨by simpa using h2, ?_⟩
    exact h e (by rw [h3]; exact List.getElem_mem _)) (allIn_replicate n _)
  exact ⟨cols, a1, a2, a3, fun f => by rw [a4, colsForm_replicate, zero_add]⟩

theorem scatterQuad_spec (n : Nat) (ts : List (K × Nat × Nat)) (h : ∀ t ∈ ts, t.2.1 < n ∧ t.2.2 < n) :
    ∃ cols, ts.foldlM scatterQuad (List.replicate n []) = some cols ∧ cols.length = n ∧
      AllIn cols (fun r c => c ≤ r ∧ r < n) ∧
      ∀ x : Nat → K, colsForm cols 0 (fun r c => if r = c then x c * x c else 2 * (x r * x c)) = 2 * quadTermsDen ts x := by
  have he : ∀ (cols : List (List (Nat × K))) (t : K × Nat × Nat), scatterQuad cols t =
      pushCol cols (min t.2.1 t.2.2) (max t.2.1 t.2.2) (if t.2.1 = t.2.2 then t.1 * 2 else t.1) := by
    intro cols t
    unfold scatterQuad
    rcases lt_trichotomy t.2.1 t.2.2 with a | a | a
    · rw [if_pos a, min_eq_left a.le, max_eq_right a.le, if_neg a.ne]
    · rw [if_neg (by omega), if_pos a, if_pos a, a, min_self, max_self]
    · rw [if_neg (by omega), if_neg (by omega), if_neg (by omega), min_eq_right a.le, max_eq_left a.le]
  have : scatterQuad (K := K) = fun cols t =>
      pushCol cols (min t.2.1 t.2.2) (max t.2.1 t.2.2) (if t.2.1 = t.2.2 then t.1 * 2 else t.1) := by
    funext cols t; exact he cols t
  rw [this]
  obtain ⟨cols, a1, a2, a3, a4⟩ := push_all (fun t : K × Nat × Nat => min t.2.1 t.2.2) (fun t => max t.2.1 t.2.2)
    (fun t => if t.2.1 = t.2.2 then t.1 * 2 else t.1) (fun r c => c ≤ r ∧ r < n) ts (List.replicate n [])
    (fun t ht => by
      obtain ⟨h1, h2⟩ := h t ht
      exact ⟨by rw [List.length_replicate]; omega, by omega, by omega⟩) (allIn_replicate n _)
  refine ⟨cols, a1, by rw [a2, List.length_replicate], a3, ?_⟩
  intro x
  rw [a4, colsForm_replicate, zero_add, quadTermsDen]
  have key : ∀ l : List (K × Nat × Nat), (l.map fun t => (if t.2.1 = t.2.2 then t.1 * 2 else t.1) *
      (if max t.2.1 t.2.2 = min t.2.1 t.2.2 then x (min t.2.1 t.2.2) * x (min t.2.1 t.2.2)
        else 2 * (x (max t.2.1 t.2.2) * x (min t.2.1 t.2.2)))).sum = 2 * (l.map fun t => t.1 * x t.2.1 * x t.2.2).sum := by
    intro l
    induction l with
    | nil => simp
    | cons t l ih =>
      rw [List.map_cons, List.sum_cons, ih, List.map_cons, List.sum_cons]
      rcases lt_trichotomy t.2.1 t.2.2 with a | a | a
      · rw [min_eq_left a.le, max_eq_right a.le, if_neg a.ne, if_neg a.ne']; ring
      · rw [a, min_self, max_self, if_pos rfl, if_pos rfl]; ring
      · rw [min_eq_right a.le, max_eq_left a.le, if_neg a.ne', if_neg a.ne']; ring
  exact key ts

theorem addObj_spec (n : Nat) (ts : List (K × Nat)) (h : ∀ t ∈ ts, t.2 < n) :
    ∃ c, ts.foldlM addObj (List.replicate n 0) = some c ∧ c.length = n ∧
      ∀ x : Nat → K, (c.zipIdx.map fun q => q.1 * x q.2).sum = linDen ts x := by
  have hmod : ∀ (c : List K) (k j : Nat) (v : K) (x : Nat → K), j < c.length →
      ((c.modify j (· + v)).zipIdx k |>.map fun q => q.1 * x q.2).sum = ((c.zipIdx k).map fun q => q.1 * x q.2).sum + v * x (k + j) := by
    intro c
    induction c with
    | nil => intro k j v x hj; simp at hj
    | cons a c ih =>
      intro k j v x hj
      cases j with
      | zero => simp only [List.modify_zero_cons, List.zipIdx_cons, List.map_cons, List.sum_cons, Nat.add_zero]; ring
      | succ j =>
        simp only [List.modify_succ_cons, List.zipIdx_cons, List.map_cons, List.sum_cons]
        rw [ih _ _ _ _ (by simpa using hj), show k + 1 + j = k + (j + 1) by omega]; ring
  have key : ∀ (ts : List (K × Nat)) (c : List K), c.length = n → (∀ t ∈ ts, t.2 < n) →
      ∃ c', ts.foldlM addObj c = some c' ∧ c'.length = n ∧
        ∀ x : Nat → K, (c'.zipIdx.map fun q => q.1 * x q.2).sum = (c.zipIdx.map fun q => q.1 * x q.2).sum + linDen ts x := by
    intro ts
    induction ts with
    | nil => intro c hc _; exact ⟨c, rfl, hc, by simp⟩
    | cons t ts ih =>
      intro c hc ht
      have h1 : t.2 < c.length := by rw [hc]; exact ht t (by simp)
      obtain ⟨c', a1, a2, a3⟩ := ih (c.modify t.2 (· + t.1)) (by rw [List.length_modify, hc]) fun t' ht' => ht t' (by simp [ht'])
      refine ⟨c', ?_, a2, ?_⟩
      · rw [List.foldlM_cons]
        simp only [addObj, if_pos h1, Option.bind_eq_bind, Option.bind_some]; exact a1
      · intro x
        rw [a3, hmod _ _ _ _ _ h1]
        simp only [linDen, List.map_cons, List.sum_cons, Nat.zero_add]; ring
  obtain ⟨c, a1, a2, a3⟩ := key ts (List.replicate n 0) (by simp) h
  refine ⟨c, a1, a2, fun x => ?_⟩
  rw [a3]
  have : ∀ (k : Nat), (((List.replicate n (0 : K)).zipIdx k).map fun q => q.1 * x q.2).sum = 0 := by
    intro k
    apply List.sum_eq_zero
    intro a ha
    obtain ⟨q, hq, rfl⟩ := List.mem_map.1 ha
    obtain ⟨-, -, h3⟩ := List.mem_zipIdx hq
    rw [h3]; simp
  rw [this, zero_add]

/-! ### BPMPD -/

theorem zip_one (l : List (Nat × K)) : (l.map (·.1 + 1)).zip (l.map (·.2)) = l.map fun q => (q.1 + 1, q.2) := by
  induction l with
  | nil => rfl
  | cons a l ih => simp [ih]

/-- The input on expressions over column indices. -/
theorem bpmpdInput_spec (cnts : List (AffExpr K Nat × Bool)) (bounds : List (Ext K × Ext K)) (obj : QuadExpr K Nat)
    (h : ∀ c ∈ cnts, ∀ t ∈ c.1.terms, t.2 < bounds.length) (ha : ∀ t ∈ obj.aff.terms, t.2 < bounds.length)
    (hq : ∀ t ∈ obj.terms, t.2.1 < bounds.length ∧ t.2.2 < bounds.length) :
    ∃ b, bpmpdInput cnts bounds obj = some b ∧ b.Wf ∧ b.n = bounds.length ∧ b.m = cnts.length ∧
      (∀ x, b.cost x + obj.aff.constant = quadDen obj x) ∧
      ∀ x, b.Holds x ↔ (∀ c ∈ cnts, Satisfies c x) ∧
        ∀ (k : Nat) (v : Ext K × Ext K), bounds[k]? = some v → LowOk v.1 (x k) ∧ HighOk v.2 (x k) := by
  obtain ⟨a, a1, a2, a3, a4⟩ := scatterRows_spec bounds.length (cnts.map Prod.fst) (by
    intro e he
    obtain ⟨c, hc, rfl⟩ := List.mem_map.1 he
    exact h c hc)
  obtain ⟨q, q1, q2, q3, q4⟩ := scatterQuad_spec bounds.length obj.terms hq
  obtain ⟨o, o1, o2, o3⟩ := addObj_spec bounds.length obj.aff.terms ha
  obtain ⟨b, hb, hin⟩ : ∃ b : BInput K, b =
    { m := cnts.length, n := bounds.length, nz := (a.map simplify2).flatten.length, qn := bounds.length
      qnz := (q.map simplify2).flatten.length, acolcnt := (a.map simplify2).map List.length
      acolidx := (a.map simplify2).flatten.map (·.1 + 1), acolnzs := (a.map simplify2).flatten.map (·.2)
      qcolcnt := (q.map simplify2).map List.length, qcolidx := (q.map simplify2).flatten.map (·.1 + 1)
      qcolnzs := (q.map simplify2).flatten.map (·.2), rhs := cnts.map fun c => -c.1.constant, obj := o
      lbound := bounds.map (fun b => clampLo b.1) ++ cnts.map fun c => if c.2 then .fin 0 else .fin (-osqpInfty)
      ubound := bounds.map (fun b => clampHi b.2) ++ cnts.map fun _ => .fin 0 } ∧
      bpmpdInput cnts bounds obj = some b := by
    refine ⟨_, rfl, ?_⟩
    unfold bpmpdInput
    simp only [a1, q1, o1, Option.bind_eq_bind, Option.bind_some]
  refine ⟨b, hin, ?_⟩
  have pn : b.n = bounds.length := by rw [hb]
  have pm : b.m = cnts.length := by rw [hb]
  have hA : b.aCols = (a.map simplify2).map (List.map fun q => (q.1 + 1, q.2)) := by
    rw [BInput.aCols, hb]
    simp only [zip_one]
    rw [takeCols_map, takeCols_flatten]
  have hQ : b.qCols = (q.map simplify2).map (List.map fun q => (q.1 + 1, q.2)) := by
    rw [BInput.qCols, hb]
    simp only [zip_one]
    rw [takeCols_map, takeCols_flatten]
  have hinc : ∀ (cols : List (List (Nat × K))), ∀ c ∈ (cols.map simplify2).map (List.map fun q : Nat × K => (q.1 + 1, q.2)),
      Increasing c := by
    intro cols c hc
    obtain ⟨c1, h1, rfl⟩ := List.mem_map.1 hc
    obtain ⟨c2, h2, rfl⟩ := List.mem_map.1 h1
    exact List.Pairwise.map _ (fun a b hab => by simpa using hab) (C04_simplify2 c2).1
  have hform : ∀ (cols : List (List (Nat × K))) (k : Nat) (g : Nat × K → Nat → K),
      (((cols.map (List.map fun q : Nat × K => (q.1 + 1, q.2))).zipIdx k).map fun c => (c.1.map fun q => g q c.2).sum).sum =
        ((cols.zipIdx k).map fun c => (c.1.map fun q => g (q.1 + 1, q.2) c.2).sum).sum := by
    intro cols
    induction cols with
    | nil => intro k g; rfl
    | cons c cols ih =>
      intro k g
      simp only [List.map_cons, List.zipIdx_cons, List.sum_cons, ih, List.map_map, Function.comp_def]
  have hrow : ∀ (r : Nat) (c : AffExpr K Nat × Bool), cnts[r]? = some c → ∀ x, b.row r x = linDen c.1.terms x := by
    intro r c hr x
    have e1 : b.row r x = colsForm (a.map simplify2) 0 (fun i j => if i = r then x j else 0) := by
      rw [BInput.row, hA, hform _ 0 fun q j => if q.1 = r + 1 then q.2 * x j else 0]
      simp only [colsForm, Nat.add_right_cancel_iff, mul_ite, mul_zero]
    rw [e1, colsForm_simplify, a4]
    have gen : ∀ (l : List (AffExpr K Nat)) (k : Nat), ((l.zipIdx k).map fun e =>
        (e.1.terms.map fun t => t.1 * if e.2 = r then x t.2 else 0).sum).sum =
        if k ≤ r then ((l[r - k]?).map fun e => linDen e.terms x).getD 0 else 0 := by
      intro l
      induction l with
      | nil => intro k; simp
      | cons e l ih =>
        intro k
        simp only [List.zipIdx_cons, List.map_cons, List.sum_cons, ih]
        rcases lt_trichotomy k r with hk | hk | hk
        · have e0 : k ≠ r := by omega
          obtain ⟨d, rfl⟩ : ∃ d, r = k + 1 + d := ⟨r - k - 1, by omega⟩
          rw [if_pos (by omega), if_pos (by omega), show k + 1 + d - (k + 1) = d by omega,
            show k + 1 + d - k = d + 1 by omega, List.getElem?_cons_succ]
          simp only [if_neg e0, mul_zero, List.map_const', List.sum_replicate, nsmul_zero, zero_add]
        · subst hk
          rw [if_neg (by omega), if_pos (le_refl _), Nat.sub_self]
          simp [linDen]
        · have e0 : k ≠ r := by omega
          rw [if_neg (by omega), if_neg (by omega)]
          simp [e0]
    rw [gen]
    simp [hr]
  refine ⟨?_, pn, pm, ?_, ?_⟩
  · refine ⟨by simp [hb, a2], by simp [hb, q2], ⟨by simp only [hb, List.length_flatten], by simp only [hb, List.length_map], by simp only [hb, List.length_map]⟩,
      ⟨by simp only [hb, List.length_flatten], by simp only [hb, List.length_map], by simp only [hb, List.length_map]⟩, by simp [hb], by simp [hb, o2], by simp [hb], by simp [hb], by simp [hb],
      ?_, ?_, ?_, ?_⟩
    · intro i hi
      rw [show b.acolidx = (a.map simplify2).flatten.map (·.1 + 1) by rw [hb]] at hi
      obtain ⟨p, hp, rfl⟩ := List.mem_map.1 hi
      obtain ⟨c, hc, hpc⟩ := List.mem_flatten.1 hp
      obtain ⟨j, hj⟩ := List.getElem?_of_mem hc
      have := allIn_simplify a3 j c hj p hpc
      rw [List.length_map] at this
      exact ⟨by omega, by rw [pm]; omega⟩
    · rw [hA]; exact hinc a
    · rw [hQ]; exact hinc q
    · intro j c hj p hp
      rw [hQ, List.getElem?_map] at hj
      obtain ⟨c1, h1, rfl⟩ := Option.map_eq_some_iff.1 hj
      obtain ⟨p', hp', rfl⟩ := List.mem_map.1 hp
      have := allIn_simplify q3 j c1 h1 p' hp'
      rw [pn]; exact ⟨by simpa using this.1, by simpa [Nat.succ_le_iff] using this.2⟩
  · intro x
    rw [BInput.cost, hQ, hform _ 0 fun q j =>
      if q.1 = j + 1 then q.2 * x j * x j else 2 * (q.2 * x (q.1 - 1) * x j)]
    have e1 : ((q.map simplify2).zipIdx.map fun c => (c.1.map fun p : Nat × K =>
        if p.1 + 1 = c.2 + 1 then p.2 * x c.2 * x c.2 else 2 * (p.2 * x (p.1 + 1 - 1) * x c.2)).sum).sum =
        colsForm (q.map simplify2) 0 (fun r c => if r = c then x c * x c else 2 * (x r * x c)) := by
      unfold colsForm
      congr 1
      apply List.map_congr_left; intro c _
      congr 1
      apply List.map_congr_left; intro p _
      simp only [Nat.add_right_cancel_iff, Nat.add_sub_cancel]
      split_ifs <;> ring
    have e2 : b.obj = o := by rw [hb]
    simp only at e1 ⊢
    rw [e1, colsForm_simplify, q4, e2, o3, quadDen, affDen]
    ring
  · intro x
    have hl1 : ∀ (k : Nat) (v : Ext K × Ext K), bounds[k]? = some v → b.lbound[k]? = some (clampLo v.1) ∧
        b.ubound[k]? = some (clampHi v.2) := by
      intro k v hk
      have hlt := (List.getElem?_eq_some_iff.1 hk).1
      constructor
      · simp only [hb]; rw [List.getElem?_append_left (by simpa using hlt), List.getElem?_map, hk]; rfl
      · simp only [hb]; rw [List.getElem?_append_left (by simpa using hlt), List.getElem?_map, hk]; rfl
    have hl2 : ∀ (r : Nat) (c : AffExpr K Nat × Bool), cnts[r]? = some c →
        b.lbound[bounds.length + r]? = some (if c.2 then .fin 0 else .fin (-osqpInfty)) ∧
        b.ubound[bounds.length + r]? = some (.fin 0) ∧ b.rhs[r]? = some (-c.1.constant) := by
      intro r c hr
      refine ⟨?_, ?_, ?_⟩
      · simp only [hb]; rw [List.getElem?_append_right (by simp)]; simp [hr]
      · simp only [hb]; rw [List.getElem?_append_right (by simp), List.length_map, Nat.add_sub_cancel_left,
          List.getElem?_map, hr]; rfl
      · simp only [hb]; simp [hr]
    have hsat : ∀ (c : AffExpr K Nat × Bool) (f : K), f = linDen c.1.terms x →
        ((LowOk (if c.2 then Ext.fin 0 else Ext.fin (-osqpInfty)) (f - -c.1.constant) ∧
          HighOk (Ext.fin 0) (f - -c.1.constant)) ↔ Satisfies c x) := by
      intro c f hf
      have n1 : ¬ (0 : K) ≤ -osqpInfty := by have := infty_pos (K := K); linarith
      have n2 : ¬ osqpInfty ≤ (0 : K) := not_le.2 infty_pos
      cases h2 : c.2 with
      | true =>
        simp only [if_true, LowOk, HighOk, Satisfies, h2, n1, n2, false_or, affDen, ← hf]
        constructor
        · rintro ⟨a, b⟩; linarith
        · intro a; constructor <;> linarith
      | false =>
        simp only [Bool.false_eq_true, if_false, LowOk, HighOk, Satisfies, h2, n2, false_or, affDen, ← hf, le_refl,
          true_or, true_and]
        constructor
        · intro a; linarith
        · intro a; linarith
    constructor
    · rintro ⟨h1, h2⟩
      constructor
      · intro c hc
        obtain ⟨r, hr⟩ := List.getElem?_of_mem hc
        obtain ⟨l, u, g, e1, e2, e3, e4, e5⟩ := h2 r (by rw [pm]; exact (List.getElem?_eq_some_iff.1 hr).1)
        obtain ⟨f1, f2, f3⟩ := hl2 r c hr
        rw [pn, f1] at e1
        rw [pn, f2] at e2
        rw [f3] at e3
        injection e1 with e1; injection e2 with e2; injection e3 with e3
        subst e1 e2 e3
        exact (hsat c _ (hrow r c hr x)).1 ⟨e4, e5⟩
      · intro k v hk
        obtain ⟨l, u, e1, e2, e3, e4⟩ := h1 k (by rw [pn]; exact (List.getElem?_eq_some_iff.1 hk).1)
        obtain ⟨f1, f2⟩ := hl1 k v hk
        rw [f1] at e1; rw [f2] at e2
        injection e1 with e1; injection e2 with e2
        subst e1 e2
        exact ⟨(clampLo_ok _ _).1 e3, (clampHi_ok _ _).1 e4⟩
    · rintro ⟨h1, h2⟩
      constructor
      · intro j hj
        have hk := List.getElem?_eq_getElem (show j < bounds.length from pn ▸ hj)
        obtain ⟨f1, f2⟩ := hl1 j _ hk
        have := h2 j _ hk
        exact ⟨_, _, f1, f2, (clampLo_ok _ _).2 this.1, (clampHi_ok _ _).2 this.2⟩
      · intro r hr
        have hk := List.getElem?_eq_getElem (show r < cnts.length from pm ▸ hr)
        obtain ⟨f1, f2, f3⟩ := hl2 r _ hk
        have := (hsat _ _ (hrow r _ hk x)).2 (h1 _ (List.getElem_mem _))
        rw [← pn] at f1 f2
        exact ⟨_, _, _, f1, f2, f3, this.1, this.2⟩

/-! ### From handles to columns -/

theorem quadIndices_spec (idx : Nat → Option Nat) (n : Nat) (y x : Nat → K) (q : QuadExpr K Nat)
    (h1 : ∀ t ∈ q.aff.terms, ∃ i, idx t.2 = some i ∧ i < n ∧ x i = y t.2)
    (h2 : ∀ t ∈ q.terms, (∃ i, idx t.2.1 = some i ∧ i < n ∧ x i = y t.2.1) ∧ ∃ i, idx t.2.2 = some i ∧ i < n ∧ x i = y t.2.2) :
    ∃ q', q.toIndices idx = some q' ∧ q'.aff.constant = q.aff.constant ∧ (∀ t ∈ q'.aff.terms, t.2 < n) ∧
      (∀ t ∈ q'.terms, t.2.1 < n ∧ t.2.2 < n) ∧ quadDen q' x = quadDen q y := by
  obtain ⟨a, a1, a2, a3, a4⟩ := toIndices_spec idx n y x q.aff h1
  have key : ∀ ts : List (K × Nat × Nat), (∀ t ∈ ts, (∃ i, idx t.2.1 = some i ∧ i < n ∧ x i = y t.2.1) ∧
      ∃ i, idx t.2.2 = some i ∧ i < n ∧ x i = y t.2.2) →
      ∃ ts' : List (K × Nat × Nat), (ts.mapM fun t => (idx t.2.1).bind fun i => (idx t.2.2).map fun j => (t.1, i, j)) = some ts' ∧
        (∀ t ∈ ts', t.2.1 < n ∧ t.2.2 < n) ∧ quadTermsDen ts' x = quadTermsDen ts y := by
    intro ts
    induction ts with
    | nil => intro _; exact ⟨[], rfl, by simp, by simp [quadTermsDen]⟩
    | cons t ts ih =>
      intro h
      obtain ⟨⟨i, i1, i2, i3⟩, j, j1, j2, j3⟩ := h t (by simp)
      obtain ⟨ts', b1, b2, b3⟩ := ih fun t' ht' => h t' (by simp [ht'])
      refine ⟨(t.1, i, j) :: ts', by simp [List.mapM_cons, i1, j1, b1], ?_, ?_⟩
      · intro t' ht'
        rcases List.mem_cons.1 ht' with rfl | ht'
        · exact ⟨i2, j2⟩
        · exact b2 t' ht'
      · simp only [quadTermsDen, List.map_cons, List.sum_cons] at b3 ⊢
        rw [b3, i3, j3]
  obtain ⟨ts', b1, b2, b3⟩ := key q.terms h2
  exact ⟨⟨a, ts'⟩, by simp only [QuadExpr.toIndices, a1, b1], a2, a3, b2, by simp only [quadDen, a4, b3]⟩

/-- Column `k` is the `k`-th live variable. -/
def Agree (m : OModel K) (x y : Nat → K) : Prop :=
  ∀ (k : Nat) (q : Nat × Ext K × Ext K), m.vars.live[k]? = some q → x k = y q.1

theorem handles_spec (m : OModel K) (hv : m.vars.Inv) (hc : m.cnts.Inv)
    (href : ∀ q ∈ m.cnts.live, ∀ t ∈ q.2.1.terms, ∃ p, (t.2, p) ∈ m.vars.live)
    (ha : ∀ t ∈ m.obj.aff.terms, ∃ p, (t.2, p) ∈ m.vars.live)
    (hq : ∀ t ∈ m.obj.terms, (∃ p, (t.2.1, p) ∈ m.vars.live) ∧ ∃ p, (t.2.2, p) ∈ m.vars.live) :
    ∃ m' cs q, m.update = some m' ∧
      (m'.cnts.items.mapM fun c => (c.2.1.toIndices m'.vars.indexOf).map fun e => (e, c.2.2)) = some cs ∧
      m'.obj.toIndices m'.vars.indexOf = some q ∧ m'.vars.items.map Prod.snd = m.vars.live.map Prod.snd ∧
      cs.length = m.cnts.live.length ∧ (∀ c ∈ cs, ∀ t ∈ c.1.terms, t.2 < m.vars.live.length) ∧
      (∀ c ∈ cs, ∃ l ∈ m.cnts.live, c.1.constant = l.2.1.constant) ∧
      q.aff.constant = m.obj.aff.constant ∧ (∀ t ∈ q.aff.terms, t.2 < m.vars.live.length) ∧
      (∀ t ∈ q.terms, t.2.1 < m.vars.live.length ∧ t.2.2 < m.vars.live.length) ∧
      ∀ x y : Nat → K, Agree m x y → ((∀ c ∈ cs, Satisfies c x) ↔ ∀ q ∈ m.cnts.live, Satisfies q.2 y) ∧
        quadDen q x = quadDen m.obj y := by
  obtain ⟨v', v1, v2, v3, v4, v5⟩ := Store.update_spec hv
  obtain ⟨c', c1, c2, c3, c4, c5⟩ := Store.update_spec hc
  have hupd : m.update = some { m with vars := v', cnts := c' } := by simp only [OModel.update, v1, c1]
  have hidx : ∀ (k : Nat) (q : Nat × Ext K × Ext K), m.vars.live[k]? = some q → v'.indexOf q.1 = some k := by
    intro k q hk
    obtain ⟨id, r, h1, h2, h3⟩ := v2 k (some q.1, q.2) (by rw [v5, List.getElem?_map, hk]; rfl)
    simp at h1; subst h1
    simp [Store.indexOf, h2, h3]
  have hlive : ∀ j : Nat, (∃ p, (j, p) ∈ m.vars.live) → ∃ i, v'.indexOf j = some i ∧ i < m.vars.live.length ∧
      ∀ x y : Nat → K, Agree m x y → x i = y j := by
    rintro j ⟨p, hp⟩
    obtain ⟨k, hk⟩ := List.getElem?_of_mem hp
    exact ⟨k, hidx k _ hk, (List.getElem?_eq_some_iff.1 hk).1, fun x y h => h k _ hk⟩
  obtain ⟨cs, s1, s2⟩ := mapM_forall₂
    (fun c : Option Nat × AffExpr K Nat × Bool => (c.2.1.toIndices v'.indexOf).map fun e => (e, c.2.2))
    (fun c e => e.2 = c.2.2 ∧ e.1.constant = c.2.1.constant ∧ (∀ t ∈ e.1.terms, t.2 < m.vars.live.length) ∧
      ∀ x y : Nat → K, Agree m x y → affDen e.1 x = affDen c.2.1 y) c'.items (by
    intro c hcm
    rw [c5] at hcm
    obtain ⟨q, hq, rfl⟩ := List.mem_map.1 hcm
    have hspec := fun x y h => toIndices_spec v'.indexOf m.vars.live.length y x q.2.1 (fun t ht => by
      obtain ⟨i, i1, i2, i3⟩ := hlive t.2 (href q hq t ht)
      exact ⟨i, i1, i2, i3 x y h⟩)
    obtain ⟨e', e1, e2, e3, _⟩ := hspec (fun _ => 0) (fun _ => 0) (fun _ _ _ => rfl)
    refine ⟨(e', q.2.2), by simp [e1], rfl, e2, e3, ?_⟩
    intro x y h
    obtain ⟨e'', f1, _, _, f4⟩ := hspec x y h
    have : e'' = e' := by rw [e1] at f1; injection f1 with f1; exact f1.symm
    rw [this] at f4; exact f4)
  have hspec := fun x y (h : Agree m x y) => quadIndices_spec v'.indexOf m.vars.live.length y x m.obj (fun t ht => by
      obtain ⟨i, i1, i2, i3⟩ := hlive t.2 (ha t ht)
      exact ⟨i, i1, i2, i3 x y h⟩) (fun t ht => by
      obtain ⟨i, i1, i2, i3⟩ := hlive t.2.1 (hq t ht).1
      obtain ⟨j, j1, j2, j3⟩ := hlive t.2.2 (hq t ht).2
      exact ⟨⟨i, i1, i2, i3 x y h⟩, j, j1, j2, j3 x y h⟩)
  obtain ⟨q', q1, q2, q3, q4, _⟩ := hspec (fun _ => 0) (fun _ => 0) (fun _ _ _ => rfl)
  have hback : ∀ e ∈ cs, ∃ c ∈ m.cnts.live, e.2 = c.2.2 ∧ e.1.constant = c.2.1.constant ∧
      (∀ t ∈ e.1.terms, t.2 < m.vars.live.length) ∧ ∀ x y : Nat → K, Agree m x y → affDen e.1 x = affDen c.2.1 y := by
    intro e he
    obtain ⟨k, hk⟩ := List.getElem?_of_mem he
    have hkl := (List.getElem?_eq_some_iff.1 hk)
    have hk2 : k < c'.items.length := by rw [s2.length_eq]; exact hkl.1
    have h1 := (List.forall₂_iff_get.1 s2).2 k hk2 hkl.1
    obtain ⟨q, hq, e2⟩ : ∃ q ∈ m.cnts.live, (some q.1, q.2) = c'.items.get ⟨k, hk2⟩ := by
      have h2 : ∀ c ∈ c'.items, ∃ q ∈ m.cnts.live, (some q.1, q.2) = c := by
        intro c hcm
        rw [c5] at hcm
        exact List.mem_map.1 hcm
      exact h2 _ (List.get_mem _ _)
    refine ⟨q, hq, ?_⟩
    rw [← e2] at h1
    simp only [List.get_eq_getElem, hkl.2] at h1
    exact h1
  have hforth : ∀ q ∈ m.cnts.live, ∃ e ∈ cs, e.2 = q.2.2 ∧
      ∀ x y : Nat → K, Agree m x y → affDen e.1 x = affDen q.2.1 y := by
    intro q hq
    have hm : (some q.1, q.2) ∈ c'.items := by rw [c5]; exact List.mem_map.2 ⟨q, hq, rfl⟩
    obtain ⟨k, hk⟩ := List.getElem?_of_mem hm
    have hkl := (List.getElem?_eq_some_iff.1 hk)
    have hk2 : k < cs.length := by rw [← s2.length_eq]; exact hkl.1
    have := (List.forall₂_iff_get.1 s2).2 k hkl.1 hk2
    simp only [List.get_eq_getElem, hkl.2] at this
    exact ⟨cs[k], List.getElem_mem _, this.1, this.2.2.2⟩
  refine ⟨_, cs, q', hupd, s1, q1, by simp only [v5, List.map_map, Function.comp_def], by rw [← s2.length_eq, c5]; simp,
    fun c hc => (hback c hc).choose_spec.2.2.2.1, fun c hc => ?_, q2, q3, q4, fun x y hxy => ⟨?_, ?_⟩⟩
  · obtain ⟨l, h1, _, h3, _⟩ := hback c hc
    exact ⟨l, h1, h3⟩
  · constructor
    · intro H q hq
      obtain ⟨e, he, e2, e3⟩ := hforth q hq
      have := H e he
      simp only [Satisfies, e2, e3 x y hxy] at this ⊢
      exact this
    · intro H e he
      obtain ⟨q, hq, h1, _, _, h4⟩ := hback e he
      have := H q hq
      simp only [Satisfies, h1, h4 x y hxy] at this ⊢
      exact this
  · obtain ⟨q'', f1, _, _, _, f4⟩ := hspec x y hxy
    have : q'' = q' := by rw [q1] at f1; injection f1 with f1; exact f1.symm
    rw [this] at f4; exact f4

theorem bounds_live (m : OModel K) (x y : Nat → K) (h : Agree m x y) (P : Ext K × Ext K → K → Prop) :
    (∀ (k : Nat) (v : Ext K × Ext K), (m.vars.live.map Prod.snd)[k]? = some v → P v (x k)) ↔
      ∀ q ∈ m.vars.live, P q.2 (y q.1) := by
  constructor
  · intro H q hq
    obtain ⟨k, hk⟩ := List.getElem?_of_mem hq
    have := H k q.2 (by rw [List.getElem?_map, hk]; rfl)
    rwa [h k q hk] at this
  · intro H k v hk
    rw [List.getElem?_map] at hk
    obtain ⟨q, hq, rfl⟩ := Option.map_eq_some_iff.1 hk
    rw [h k q hq]
    exact H q (List.mem_of_getElem? hq)

/-- C85: for every model whose constraints and objective mention live variables, the input sent to BPMPD exists, is
well formed, and is the model's problem: the cost up to the constant, and feasibility exactly the live constraints and
bounds (limits at or beyond `1e30` meaning none).  Constraint constants may be arbitrarily large. -/
theorem C85_input (m : OModel K) (hv : m.vars.Inv) (hc : m.cnts.Inv)
    (href : ∀ q ∈ m.cnts.live, ∀ t ∈ q.2.1.terms, ∃ p, (t.2, p) ∈ m.vars.live)
    (ha : ∀ t ∈ m.obj.aff.terms, ∃ p, (t.2, p) ∈ m.vars.live)
    (hq : ∀ t ∈ m.obj.terms, (∃ p, (t.2.1, p) ∈ m.vars.live) ∧ ∃ p, (t.2.2, p) ∈ m.vars.live) :
    ∃ m' b, m.update = some m' ∧ m'.bpmpd = some b ∧ b.Wf ∧ b.n = m.vars.live.length ∧ b.m = m.cnts.live.length ∧
      ∀ x y : Nat → K, (∀ (k : Nat) (q : Nat × Ext K × Ext K), m.vars.live[k]? = some q → x k = y q.1) →
        b.cost x + m.obj.aff.constant = quadDen m.obj y ∧
        (b.Holds x ↔ (∀ q ∈ m.cnts.live, Satisfies q.2 y) ∧
          ∀ q ∈ m.vars.live, LowOk q.2.1 (y q.1) ∧ HighOk q.2.2 (y q.1)) := by
  obtain ⟨m', cs, q, h1, h2, h3, h4, h5, h6, -, h7, h8, h9, h10⟩ := handles_spec m hv hc href ha hq
  have hlen : (m.vars.live.map Prod.snd).length = m.vars.live.length := by simp
  obtain ⟨b, b1, b2, b3, b4, b5, b6⟩ := bpmpdInput_spec cs (m.vars.live.map Prod.snd) q
    (by rw [hlen]; exact h6) (by rw [hlen]; exact h8) (by rw [hlen]; exact h9)
  refine ⟨m', b, h1, ?_, b2, by rw [b3, hlen], by rw [b4, h5], ?_⟩
  · unfold OModel.bpmpd
    rw [h2, h3, h4]; exact b1
  · intro x y hxy
    obtain ⟨k1, k2⟩ := h10 x y hxy
    refine ⟨by rw [← h7, b5, k2], ?_⟩
    rw [b6, k1]
    exact and_congr_right' (bounds_live m x y hxy fun v a => LowOk v.1 a ∧ HighOk v.2 a)

/-- C85: what the caller sees: solved exactly for code 2, infeasible for 3 and 4, failed otherwise (in particular for
code 1, a suboptimal point), and the first `n` primal values as the solution. -/
theorem C85_result (n : Nat) (primal : List K) (code : Int) (h : n ≤ primal.length) :
    ∃ x s, bpmpdResult n primal code = some (x, s) ∧ x.length = n ∧ (∀ k < n, x[k]? = primal[k]?) ∧
      (s = .solved ↔ code = 2) ∧ (s = .infeasible ↔ code = 3 ∨ code = 4) ∧ (s = .failed ↔ code ≤ 1 ∨ 5 ≤ code) := by
  refine ⟨primal.take n, _, by rw [bpmpdResult, if_pos h], by simp [h], ?_, ?_⟩
  · intro k hk; rw [List.getElem?_take, if_pos hk]
  · by_cases h2 : code = 2
    · subst h2; simp
    · by_cases h3 : code = 3 ∨ code = 4
      · rw [if_neg h2, if_pos h3]; simp [h2, h3]; omega
      · rw [if_neg h2, if_neg h3]; simp [h2, h3]; omega

/-! ### qpOASES -/

/-- Specification: entry `(r, c)` of a matrix stored by compressed columns. -/
def CSC.entry (C : CSC K) (r c : Nat) : K := colEntry ((C.decode[c]?).getD []) r

/-- Specification: qpOASES' reading of a lower limit; values at or below `-infty` are absent. -/
def LowIn (infty : K) (b : Ext K) (a : K) : Prop :=
  match b with
  | .negInf => True
  | .fin l => l ≤ -infty ∨ l ≤ a
  | .posInf => False
/-- Specification: qpOASES' reading of an upper limit. -/
def HighIn (infty : K) (b : Ext K) (a : K) : Prop :=
  match b with
  | .negInf => False
  | .fin u => infty ≤ u ∨ a ≤ u
  | .posInf => True

/-- Specification: `x` satisfies `lb <= x <= ub` and `lbA <= A x <= ubA`; limits at or beyond `infty` are absent. -/
def QInput.Holds (infty : K) (b : QInput K) (n m : Nat) (x : Nat → K) : Prop :=
  (∀ j < n, ∃ l u, b.lb[j]? = some l ∧ b.ub[j]? = some u ∧ LowIn infty l (x j) ∧ HighIn infty u (x j)) ∧
  ∀ r < m, ∃ l u, b.lbA[r]? = some l ∧ b.ubA[r]? = some u ∧
    LowIn infty l (∑ c ∈ range n, b.A.entry r c * x c) ∧ HighIn infty u (∑ c ∈ range n, b.A.entry r c * x c)

/-- Specification: `1/2 x'Hx + g'x`. -/
def QInput.cost (b : QInput K) (n : Nat) (x : Nat → K) : K :=
  1 / 2 * (∑ r ∈ range n, ∑ c ∈ range n, x r * b.H.entry r c * x c) + (b.g.map fun p => p.2 * x p.1).sum

/-- Specification: the arrays of one matrix have consistent sizes. -/
structure CSC.Wf (C : CSC K) (cols : Nat) : Prop where
  pointers : C.columnPointers.length = cols + 1
  first : C.columnPointers.head? = some 0
  last : C.columnPointers.getLast? = some C.values.length
  indices : C.rowIndices.length = C.values.length
  monotone : C.columnPointers.Pairwise (· ≤ ·)

theorem csc_wf (M : SMat K) : (eigenToCSC false M).Wf M.cols.length ∧ ∀ r c, (eigenToCSC false M).entry r c = M.entry r c := by
  obtain ⟨h1, h2, h3, h4, h5, h6⟩ := C06_csc_round_trip false M
  simp only [Bool.false_eq_true, if_false] at h1 h2
  refine ⟨⟨h2, h3, h4, h5, h6⟩, fun r c => ?_⟩
  rw [CSC.entry, h1, SMat.entry]

/-- The input on expressions over column indices. -/
theorem qpoasesInput_spec (sort : List (Nat × K) → List (Nat × K)) (hsort : IsSort sort) (infty : K)
    (cnts : List (AffExpr K Nat × Bool)) (bounds : List (Ext K × Ext K)) (obj : QuadExpr K Nat)
    (h : ∀ c ∈ cnts, ∀ t ∈ c.1.terms, t.2 < bounds.length) (ha : ∀ t ∈ obj.aff.terms, t.2 < bounds.length)
    (hq : ∀ t ∈ obj.terms, t.2.1 < bounds.length ∧ t.2.2 < bounds.length)
    (hbig : ∀ c ∈ cnts, |c.1.constant| < infty) :
    ∃ b, qpoasesInput sort infty cnts bounds obj = some b ∧ b.H.Wf bounds.length ∧ b.A.Wf bounds.length ∧
      (∀ r c, b.H.entry r c = b.H.entry c r) ∧ Increasing b.g ∧ (∀ p ∈ b.g, p.1 < bounds.length) ∧
      b.lb.length = bounds.length ∧ b.ub.length = bounds.length ∧ b.lbA.length = cnts.length ∧ b.ubA.length = cnts.length ∧
      (∀ x, b.cost bounds.length x + obj.aff.constant = quadDen obj x) ∧
      ∀ x, b.Holds infty bounds.length cnts.length x ↔ (∀ c ∈ cnts, Satisfies c x) ∧
        ∀ (k : Nat) (v : Ext K × Ext K), bounds[k]? = some v → LowIn infty v.1 (x k) ∧ HighIn infty v.2 (x k) := by
  obtain ⟨H, g, g1, g2, g3, g4, g5, g6, g7⟩ := C05_quadratic sort hsort obj bounds.length ha hq true true
  obtain ⟨ts, t1, t2, t3⟩ := rowTriplets_spec bounds.length (cnts.map Prod.fst) 0 (by
    intro e he
    obtain ⟨c, hc, rfl⟩ := List.mem_map.1 he
    exact h c hc)
  obtain ⟨M, m1, m2, m3, m4, m5, _⟩ := setFromTriplets_spec (cnts.map Prod.fst).length bounds.length ts
    (fun t ht => ⟨by have := (t2 t ht).2.1; omega, (t2 t ht).2.2⟩)
  have haff : affsToEigen (cnts.map Prod.fst) bounds.length =
      some (M, (cnts.map Prod.fst).map fun e => -e.constant) := by simp only [affsToEigen, t1, m1]
  obtain ⟨b, hb, hin⟩ : ∃ b : QInput K, b =
      { H := eigenToCSC false H, g := g, A := eigenToCSC false M, lb := bounds.map Prod.fst, ub := bounds.map Prod.snd
        lbA := cnts.map fun c => if c.2 then Ext.fin (-c.1.constant) else Ext.fin (-infty)
        ubA := cnts.map fun c => Ext.fin (-c.1.constant) } ∧ qpoasesInput sort infty cnts bounds obj = some b := by
    refine ⟨_, rfl, ?_⟩
    unfold qpoasesInput
    simp only [g1, haff, Option.bind_eq_bind, Option.bind_some, List.map_map, Function.comp_def, List.zipWith_map_right,
      List.zipWith_self]
  obtain ⟨wH, eH⟩ := csc_wf H
  obtain ⟨wA, eA⟩ := csc_wf M
  refine ⟨b, hin, by rw [hb]; rw [g3] at wH; exact wH, by rw [hb]; rw [m4] at wA; exact wA, ?_, by rw [hb]; exact g5,
    by rw [hb]; exact g6, by simp [hb], by simp [hb], by simp [hb], by simp [hb], ?_, ?_⟩
  · intro r c; rw [hb]; simp only [eH]; exact g4 r c
  · intro x
    rw [← g7 x, QInput.cost, hb]
    simp only [eH, if_true, pairDen]
  · intro x
    have hrow : ∀ (r : Nat) (c : AffExpr K Nat × Bool), cnts[r]? = some c →
        ∑ k ∈ range bounds.length, b.A.entry r k * x k = linDen c.1.terms x := by
      intro r c hr
      rw [← t3 r c.1 (by simp [hr]) x]
      apply sum_congr rfl
      intro k _
      rw [hb]; simp only [eA]; rw [m5, Nat.zero_add]
    have hl : ∀ (r : Nat) (c : AffExpr K Nat × Bool), cnts[r]? = some c →
        b.lbA[r]? = some (if c.2 then Ext.fin (-c.1.constant) else Ext.fin (-infty)) ∧
        b.ubA[r]? = some (.fin (-c.1.constant)) := by
      intro r c hr
      constructor
      · rw [hb]; simp [hr]
      · rw [hb]; simp [hr]
    have hv : ∀ (k : Nat) (v : Ext K × Ext K), bounds[k]? = some v → b.lb[k]? = some v.1 ∧ b.ub[k]? = some v.2 := by
      intro k v hk
      constructor
      · rw [hb]; simp [hk]
      · rw [hb]; simp [hk]
    have hsat : ∀ c ∈ cnts, ∀ f : K, f = linDen c.1.terms x →
        ((LowIn infty (if c.2 then Ext.fin (-c.1.constant) else Ext.fin (-infty)) f ∧
          HighIn infty (Ext.fin (-c.1.constant)) f) ↔ Satisfies c x) := by
      intro c hc f hf
      obtain ⟨b1, b2⟩ := abs_lt.1 (hbig c hc)
      have n1 : ¬ -c.1.constant ≤ -infty := by intro h; linarith
      have n2 : ¬ infty ≤ -c.1.constant := by intro h; linarith
      cases h2 : c.2 with
      | true =>
        simp only [if_true, LowIn, HighIn, Satisfies, h2, n1, n2, false_or, affDen, ← hf]
        constructor
        · rintro ⟨a, b⟩; linarith
        · intro a; constructor <;> linarith
      | false =>
        simp only [Bool.false_eq_true, if_false, LowIn, HighIn, Satisfies, h2, n2, false_or, affDen, ← hf, le_refl,
          true_or, true_and]
        constructor
        · intro a; linarith
        · intro a; linarith
    constructor
    · rintro ⟨h1, h2⟩
      constructor
      · intro c hc
        obtain ⟨r, hr⟩ := List.getElem?_of_mem hc
        obtain ⟨l, u, e1, e2, e4, e5⟩ := h2 r (List.getElem?_eq_some_iff.1 hr).1
        obtain ⟨f1, f2⟩ := hl r c hr
        rw [f1] at e1; rw [f2] at e2
        injection e1 with e1; injection e2 with e2
        subst e1 e2
        exact (hsat c hc _ (hrow r c hr)).1 ⟨e4, e5⟩
      · intro k v hk
        obtain ⟨l, u, e1, e2, e3, e4⟩ := h1 k (List.getElem?_eq_some_iff.1 hk).1
        obtain ⟨f1, f2⟩ := hv k v hk
        rw [f1] at e1; rw [f2] at e2
        injection e1 with e1; injection e2 with e2
        subst e1 e2
        exact ⟨e3, e4⟩
    · rintro ⟨h1, h2⟩
      constructor
      · intro j hj
        have hk := List.getElem?_eq_getElem hj
        obtain ⟨f1, f2⟩ := hv j _ hk
        have := h2 j _ hk
        exact ⟨_, _, f1, f2, this.1, this.2⟩
      · intro r hr
        have hk := List.getElem?_eq_getElem hr
        obtain ⟨f1, f2⟩ := hl r _ hk
        have := (hsat _ (List.getElem_mem hr) _ (hrow r _ hk)).2 (h1 _ (List.getElem_mem _))
        exact ⟨_, _, f1, f2, this.1, this.2⟩

/-- C86: for every model whose constraints and objective mention live variables (and whose constants are below the
solver's infinity), the data handed to qpOASES exist, have consistent sizes and a symmetric Hessian, and are the model's
problem: the cost up to the constant, and feasibility exactly the live constraints and bounds. -/
theorem C86_input (sort : List (Nat × K) → List (Nat × K)) (hsort : IsSort sort) (infty : K) (m : OModel K)
    (hv : m.vars.Inv) (hc : m.cnts.Inv)
    (href : ∀ q ∈ m.cnts.live, ∀ t ∈ q.2.1.terms, ∃ p, (t.2, p) ∈ m.vars.live)
    (ha : ∀ t ∈ m.obj.aff.terms, ∃ p, (t.2, p) ∈ m.vars.live)
    (hq : ∀ t ∈ m.obj.terms, (∃ p, (t.2.1, p) ∈ m.vars.live) ∧ ∃ p, (t.2.2, p) ∈ m.vars.live)
    (hbig : ∀ q ∈ m.cnts.live, |q.2.1.constant| < infty) :
    ∃ m' b, m.update = some m' ∧ m'.qpoases sort infty = some b ∧ b.H.Wf m.vars.live.length ∧ b.A.Wf m.vars.live.length ∧
      (∀ r c, b.H.entry r c = b.H.entry c r) ∧ Increasing b.g ∧ (∀ p ∈ b.g, p.1 < m.vars.live.length) ∧
      b.lb.length = m.vars.live.length ∧ b.ub.length = m.vars.live.length ∧
      b.lbA.length = m.cnts.live.length ∧ b.ubA.length = m.cnts.live.length ∧
      ∀ x y : Nat → K, (∀ (k : Nat) (q : Nat × Ext K × Ext K), m.vars.live[k]? = some q → x k = y q.1) →
        b.cost m.vars.live.length x + m.obj.aff.constant = quadDen m.obj y ∧
        (b.Holds infty m.vars.live.length m.cnts.live.length x ↔ (∀ q ∈ m.cnts.live, Satisfies q.2 y) ∧
          ∀ q ∈ m.vars.live, LowIn infty q.2.1 (y q.1) ∧ HighIn infty q.2.2 (y q.1)) := by
  obtain ⟨m', cs, q, h1, h2, h3, h4, h5, h6, hk, h7, h8, h9, h10⟩ := handles_spec m hv hc href ha hq
  have hlen : (m.vars.live.map Prod.snd).length = m.vars.live.length := by simp
  obtain ⟨b, b1, b2, b3, b4, b5, b6, b7, b8, b9, b10, b11, b12⟩ := qpoasesInput_spec sort hsort infty cs
    (m.vars.live.map Prod.snd) q (by rw [hlen]; exact h6) (by rw [hlen]; exact h8) (by rw [hlen]; exact h9)
    (by
      intro c hc
      obtain ⟨l, hl, e⟩ := hk c hc
      rw [e]; exact hbig l hl)
  rw [hlen] at b2 b3 b6 b7 b8 b11 b12
  rw [h5] at b9 b10 b12
  refine ⟨m', b, h1, ?_, b2, b3, b4, b5, b6, b7, b8, b9, b10, ?_⟩
  · unfold OModel.qpoases
    rw [h2, h3, h4]; exact b1
  · intro x y hxy
    obtain ⟨k1, k2⟩ := h10 x y hxy
    refine ⟨by rw [← h7, b11, k2], ?_⟩
    rw [b12, k1]
    exact and_congr_right' (bounds_live m x y hxy fun v a => LowIn infty v.1 a ∧ HighIn infty v.2 a)

/-- The hypotheses of `C85_input` and `C86_input` are met by a model with a removed constraint and a removed variable. -/
example : ∃ m : OModel ℚ, m.vars.Inv ∧ m.cnts.Inv ∧ m.vars.live.length = 2 ∧ m.vars.items.length = 3 ∧ m.cnts.live.length = 2 ∧
    (∀ q ∈ m.cnts.live, ∀ t ∈ q.2.1.terms, ∃ p, (t.2, p) ∈ m.vars.live) ∧
    (∀ t ∈ m.obj.aff.terms, ∃ p, (t.2, p) ∈ m.vars.live) ∧
    (∀ t ∈ m.obj.terms, (∃ p, (t.2.1, p) ∈ m.vars.live) ∧ ∃ p, (t.2.2, p) ∈ m.vars.live) ∧ m.obj.terms.length = 2 ∧
    ∀ q ∈ m.cnts.live, |q.2.1.constant| < 10 ^ 20 := by
  let v : Store (Ext ℚ × Ext ℚ) :=
    (((Store.empty.add (.fin 5, .posInf)).1.add (.fin 0, .posInf)).1.add (.negInf, .fin 3)).1.remove [0]
  let c : Store (AffExpr ℚ Nat × Bool) :=
    ((((Store.empty.add (⟨1, [(1, 0)]⟩, true)).1.add (⟨2, [(1, 1), (-1, 2)]⟩, false)).1.add (⟨4, [(1, 2)]⟩, true)).1).remove [0]
  have hv : v.Inv := Store.remove_inv (Store.add_inv (Store.add_inv (Store.add_inv Store.inv_empty _) _) _) _
  have hc : c.Inv := Store.remove_inv (Store.add_inv (Store.add_inv (Store.add_inv Store.inv_empty _) _) _) _
  have e1 : v.live = [(1, (.fin 0, .posInf)), (2, (.negInf, .fin 3))] := rfl
  have e2 : c.live = [(1, (⟨2, [(1, 1), (-1, 2)]⟩, false)), (2, (⟨4, [(1, 2)]⟩, true))] := rfl
  have h1 : ∃ p, (1, p) ∈ v.live := ⟨_, by rw [e1]; exact List.mem_cons_self⟩
  have h2 : ∃ p, (2, p) ∈ v.live := ⟨_, by rw [e1]; exact List.mem_cons_of_mem _ List.mem_cons_self⟩
  refine ⟨⟨v, c, ⟨⟨7, [(3, 1)]⟩, [(1, 1, 1), (2, 2, 1)]⟩⟩, hv, hc, by rw [e1]; rfl, rfl, by rw [e2]; rfl, ?_, ?_, ?_, rfl, ?_⟩
  · intro q hq t ht
    simp only [e2] at hq
    simp only [List.mem_cons, List.not_mem_nil, or_false] at hq
    rcases hq with rfl | rfl
    · simp only [List.mem_cons, List.not_mem_nil, or_false] at ht
      rcases ht with rfl | rfl
      · exact h1
      · exact h2
    · simp only [List.mem_cons, List.not_mem_nil, or_false] at ht
      subst ht; exact h2
  · intro t ht
    simp only [List.mem_cons, List.not_mem_nil, or_false] at ht
    subst ht; exact h1
  · intro t ht
    simp only [List.mem_cons, List.not_mem_nil, or_false] at ht
    rcases ht with rfl | rfl
    · exact ⟨h1, h1⟩
    · exact ⟨h2, h1⟩
  · intro q hq
    simp only [e2] at hq
    simp only [List.mem_cons, List.not_mem_nil, or_false] at hq
    rcases hq with rfl | rfl <;> norm_num

/-- The input of a small problem: minimise `x0^2 + 2 x0 x1 + 3 x0` subject to `x0 - x1 + 2 <= 0`, `x1 + 4 = 0`. -/
example : (bpmpdInput (K := ℚ) [(⟨2, [(1, 0), (-1, 1)]⟩, false), (⟨4, [(1, 1)]⟩, true)] [(.fin 0, .posInf), (.negInf, .fin 3)]
    ⟨⟨7, [(3, 0)]⟩, [(1, 0, 0), (2, 1, 0)]⟩).map (fun b => (b.acolcnt, b.acolidx, b.acolnzs)) =
      some ([1, 2], [1, 1, 2], [1, -1, 1]) := by decide +kernel

end Verif.Sco
