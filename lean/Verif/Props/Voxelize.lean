import Verif.Model.Voxelize
import Mathlib.Data.Finset.Prod
import Mathlib.Data.Finset.Card
import Mathlib.Data.Int.Interval
import Mathlib.Order.Interval.Finset.Basic
import Mathlib.Tactic.Linarith
import Mathlib.Tactic.Ring
import Mathlib.Tactic.FieldSimp
import Mathlib.Tactic.LinearCombination
import Mathlib.Data.Rat.Floor

set_option linter.unusedSectionVars false
set_option linter.unusedVariables false

/-!
C167: what the voxelization of a mesh in V-HACD guarantees.
-/

namespace Verif.Voxel

/-! ### Specification -/

/-- A voxel of a grid with the given numbers of voxels along the axes. -/
def Inside3 (d0 d1 d2 : ℤ) (c : Cell) : Prop :=
  (0 ≤ c.1 ∧ c.1 < d0) ∧ (0 ≤ c.2.1 ∧ c.2.1 < d1) ∧ 0 ≤ c.2.2 ∧ c.2.2 < d2

/-- Two voxels share a face. -/
def Adj (c c' : Cell) : Prop :=
  |c.1 - c'.1| + |c.2.1 - c'.2.1| + |c.2.2 - c'.2.2| = 1

/-- A voxel on the border of the grid. -/
def Border (d0 d1 d2 : ℤ) (c : Cell) : Prop :=
  c.1 = 0 ∨ c.1 = d0 - 1 ∨ c.2.1 = 0 ∨ c.2.1 = d1 - 1 ∨ c.2.2 = 0 ∨ c.2.2 = d2 - 1

/-- A voxel that can be reached from the border of the grid through faces without entering one of
the voxels `solid`. -/
inductive Open (d0 d1 d2 : ℤ) (solid : Cell → Prop) : Cell → Prop
  | border {c} : Inside3 d0 d1 d2 c → Border d0 d1 d2 c → ¬ solid c → Open d0 d1 d2 solid c
  | step {c c'} : Open d0 d1 d2 solid c → Inside3 d0 d1 d2 c' → Adj c c' → ¬ solid c' →
      Open d0 d1 d2 solid c'

/-- All voxels of a grid. -/
def gridSet (d0 d1 d2 : ℤ) : Finset Cell :=
  Finset.Ico 0 d0 ×ˢ (Finset.Ico 0 d1 ×ˢ Finset.Ico 0 d2)

/-- The number of voxels of `v` with a value. -/
def count (v : Vol) (x : Val) : ℕ :=
  ((gridSet v.d0 v.d1 v.d2).filter fun c => get false v c = some x).card

/-- The smallest and the largest value of a coordinate over the points. -/
def Extent {K : Type*} [LE K] (ps : List (V3 K)) (f : V3 K → K) (lo hi : K) : Prop :=
  (∀ p ∈ ps, lo ≤ f p ∧ f p ≤ hi) ∧ (∃ p ∈ ps, f p = lo) ∧ ∃ p ∈ ps, f p = hi

/-- The closed box of a voxel (around `minBB + scale * index`, with edges of length `scale`) contains a
point. -/
def Covers {K : Type*} [Field K] [LinearOrder K] (g : Grid K) (c : Cell) (y : V3 K) : Prop :=
  |y.x - (g.minBB.x + g.scale * c.1)| ≤ g.scale / 2 ∧
  |y.y - (g.minBB.y + g.scale * c.2.1)| ≤ g.scale / 2 ∧
  |y.z - (g.minBB.z + g.scale * c.2.2)| ≤ g.scale / 2

/-- A point of the triangle with corners `a`, `b`, `c`. -/
def OnTriangle {K : Type*} [Field K] [LinearOrder K] (a b c y : V3 K) : Prop :=
  ∃ α β γ : K, 0 ≤ α ∧ 0 ≤ β ∧ 0 ≤ γ ∧ α + β + γ = 1 ∧
    y = ⟨α * a.x + β * b.x + γ * c.x, α * a.y + β * b.y + γ * c.y, α * a.z + β * b.z + γ * c.z⟩

/-- A triangle of the mesh given by its corners. -/
def IsTriangle {K : Type*} (ps : List (V3 K)) (tris : List (ℕ × ℕ × ℕ)) (a b c : V3 K) : Prop :=
  ∃ t ∈ tris, ps[t.1]? = some a ∧ ps[t.2.1]? = some b ∧ ps[t.2.2]? = some c

/-- Every index of every triangle is that of a point. -/
def Valid {K : Type*} (ps : List (V3 K)) (tris : List (ℕ × ℕ × ℕ)) : Prop :=
  ∀ t ∈ tris, t.1 < ps.length ∧ t.2.1 < ps.length ∧ t.2.2 < ps.length

/-- One side is longer than the other two, or the third side is at least as long as them, and it has a
length. -/
def Longest {K : Type*} [Zero K] [LinearOrder K] (a b c : K) : Prop :=
  (b < a ∧ c < a) ∨ (a < b ∧ c < b) ∨ (a ≤ c ∧ b ≤ c ∧ 0 < c)

/-! ### Lemmas on the grid -/

theorem mem_ival {a b x : ℤ} : x ∈ ival a b ↔ a ≤ x ∧ x < b := by
  unfold ival
  simp only [List.mem_map, List.mem_range]
  constructor
  · rintro ⟨n, hn, rfl⟩; omega
  · rintro ⟨h1, h2⟩; exact ⟨(x - a).toNat, by omega, by omega⟩

theorem mem_cells {i0 j0 k0 i1 j1 k1 : ℤ} {c : Cell} :
    c ∈ cells i0 j0 k0 i1 j1 k1 ↔
      (i0 ≤ c.1 ∧ c.1 < i1) ∧ (j0 ≤ c.2.1 ∧ c.2.1 < j1) ∧ k0 ≤ c.2.2 ∧ c.2.2 < k1 := by
  obtain ⟨i, j, k⟩ := c
  unfold cells
  simp only [List.mem_flatMap, List.mem_map, mem_ival, Prod.mk.injEq]
  constructor
  · rintro ⟨i', hi, j', hj, k', hk, rfl, rfl, rfl⟩; exact ⟨hi, hj, hk⟩
  · rintro ⟨hi, hj, hk⟩; exact ⟨i, hi, j, hj, k, hk, rfl, rfl, rfl⟩

theorem mem_gridSet {d0 d1 d2 : ℤ} {c : Cell} : c ∈ gridSet d0 d1 d2 ↔ Inside3 d0 d1 d2 c := by
  unfold gridSet Inside3
  simp only [Finset.mem_product, Finset.mem_Ico]

abbrev InG (v : Vol) (c : Cell) : Prop := Inside3 v.d0 v.d1 v.d2 c

/-- The value of a voxel. -/
def valAt (v : Vol) (c : Cell) : Val := v.data (addr v c)

theorem addr_inj {v : Vol} {c c' : Cell} (h : InG v c) (h' : InG v c') (e : addr v c = addr v c') :
    c = c' := by
  obtain ⟨i, j, k⟩ := c
  obtain ⟨i', j', k'⟩ := c'
  obtain ⟨⟨a1, a2⟩, ⟨a3, a4⟩, a5, a6⟩ := h
  obtain ⟨⟨b1, b2⟩, ⟨b3, b4⟩, b5, b6⟩ := h'
  simp only [addr] at *
  have e1 : i + v.d0 * (j + v.d1 * k) = i' + v.d0 * (j' + v.d1 * k') := by linarith [e, mul_comm v.d0 j]
  have hi : i = i' := by
    have := congrArg (· % v.d0) e1
    simp only [Int.add_mul_emod_self_left] at this
    rwa [Int.emod_eq_of_lt a1 a2, Int.emod_eq_of_lt b1 b2] at this
  subst hi
  have e2 : j + v.d1 * k = j' + v.d1 * k' := by
    have h0 : v.d0 ≠ 0 := by omega
    exact mul_left_cancel₀ h0 (by linarith)
  have hj : j = j' := by
    have := congrArg (· % v.d1) e2
    simp only [Int.add_mul_emod_self_left] at this
    rwa [Int.emod_eq_of_lt a3 a4, Int.emod_eq_of_lt b3 b4] at this
  subst hj
  have hk : k = k' := by
    have h0 : v.d1 ≠ 0 := by omega
    exact mul_left_cancel₀ h0 (by linarith)
  rw [hk]

theorem addr_lt {v : Vol} {c : Cell} (h : InG v c) : addr v c < v.d0 * v.d1 * v.d2 := by
  obtain ⟨i, j, k⟩ := c
  obtain ⟨⟨a1, a2⟩, ⟨a3, a4⟩, a5, a6⟩ := h
  simp only [addr] at *
  have h1 : i + j * v.d0 + 1 ≤ v.d0 * v.d1 := by nlinarith
  have h2 : 0 < v.d0 * v.d1 := mul_pos (by omega) (by omega)
  nlinarith

theorem get_in {dbg : Bool} {v : Vol} {c : Cell} (hd : dbg = true → v.d1 ≤ v.d0 ∧ v.d2 ≤ v.d0)
    (h : InG v c) : get dbg v c = some (valAt v c) := by
  have := addr_lt h
  obtain ⟨⟨a1, a2⟩, ⟨a3, a4⟩, a5, a6⟩ := h
  rw [get, if_pos, valAt]
  refine ⟨fun hb => ?_, a1, a3, a5, this⟩
  obtain ⟨h1, h2⟩ := hd hb
  exact ⟨a2, by omega, by omega⟩

theorem get_false {v : Vol} {c : Cell} (h : InG v c) : get false v c = some (valAt v c) :=
  get_in (by simp) h

theorem valAt_set {v : Vol} {c c' : Cell} {x : Val} (h : InG v c) (h' : InG v c') :
    valAt (set v c x) c' = if c' = c then x else valAt v c' := by
  have ea : addr (set v c x) c' = addr v c' := rfl
  unfold valAt
  rw [ea]
  simp only [set]
  by_cases e : c' = c
  · subst e; simp
  · rw [if_neg e, Function.update_of_ne]
    intro e'; exact e (addr_inj h' h e')

/-- The number of voxels with a value, in terms of `valAt`. -/
def cnt (v : Vol) (x : Val) : ℕ :=
  ((gridSet v.d0 v.d1 v.d2).filter fun c => valAt v c = x).card

theorem count_eq (v : Vol) (x : Val) : count v x = cnt v x := by
  unfold count cnt
  congr 1
  apply Finset.filter_congr
  intro c hc
  rw [get_false (mem_gridSet.1 hc)]
  simp

theorem cnt_set {v w : Vol} {c : Cell} {x y : Val} (hc : InG v c) (hy : valAt v c = y) (hxy : x ≠ y)
    (hw : w.data = (set v c x).data) (h0 : w.d0 = v.d0) (h1 : w.d1 = v.d1) (h2 : w.d2 = v.d2) :
    cnt w x = cnt v x + 1 ∧ cnt w y + 1 = cnt v y ∧
      ∀ z, z ≠ x → z ≠ y → cnt w z = cnt v z := by
  have hv : ∀ c', InG v c' → valAt w c' = if c' = c then x else valAt v c' := by
    intro c' h'
    rw [← valAt_set hc h']
    unfold valAt addr
    rw [hw, h0, h1]
    rfl
  unfold cnt
  rw [h0, h1, h2]
  refine ⟨?_, ?_, ?_⟩
  · rw [← Finset.card_insert_of_notMem (a := c)]
    · congr 1
      ext c'
      simp only [Finset.mem_filter, Finset.mem_insert, mem_gridSet]
      constructor
      · rintro ⟨g, e⟩
        rw [hv _ g] at e
        by_cases hcc : c' = c
        · exact Or.inl hcc
        · rw [if_neg hcc] at e; exact Or.inr ⟨g, e⟩
      · rintro (rfl | ⟨g, e⟩)
        · exact ⟨hc, by rw [hv _ hc, if_pos rfl]⟩
        · refine ⟨g, ?_⟩
          rw [hv _ g]
          split_ifs with hcc
          · rfl
          · exact e
    · simp only [Finset.mem_filter, hy]
      rintro ⟨-, e⟩; exact hxy e.symm
  · rw [← Finset.card_insert_of_notMem (a := c)]
    · congr 1
      ext c'
      simp only [Finset.mem_filter, Finset.mem_insert, mem_gridSet]
      constructor
      · rintro (rfl | ⟨g, e⟩)
        · exact ⟨hc, hy⟩
        · refine ⟨g, ?_⟩
          rw [hv _ g] at e
          split_ifs at e with hcc
          · exact absurd e hxy
          · exact e
      · rintro ⟨g, e⟩
        by_cases hcc : c' = c
        · exact Or.inl hcc
        · exact Or.inr ⟨g, by rw [hv _ g, if_neg hcc]; exact e⟩
    · simp only [Finset.mem_filter, mem_gridSet]
      rintro ⟨-, e⟩
      rw [hv _ hc, if_pos rfl] at e
      exact hxy e
  · intro z hzx hzy
    congr 1
    apply Finset.filter_congr
    intro c' hc'
    rw [hv _ (mem_gridSet.1 hc')]
    split_ifs with hcc
    · subst hcc
      constructor
      · intro e; exact absurd e.symm hzx
      · intro e; exact absurd (e.symm.trans hy) hzy
    · rfl

/-! ### The flood fill -/

/-- The invariant of the flood fill that started from `v0`, with the voxels in the queue. -/
structure Inv (v0 : Vol) (Q : List Cell) (v : Vol) : Prop where
  e0 : v.d0 = v0.d0
  e1 : v.d1 = v0.d1
  e2 : v.d2 = v0.d2
  nOn : v.nOn = v0.nOn
  nIn : v.nIn = v0.nIn
  on : ∀ c, InG v0 c → (valAt v c = Val.on ↔ valAt v0 c = Val.on)
  ins : ∀ c, InG v0 c → valAt v c ≠ Val.ins
  op : ∀ c, InG v0 c → valAt v c = Val.out → Open v0.d0 v0.d1 v0.d2 (fun c => valAt v0 c = Val.on) c
  closed : ∀ c, InG v0 c → valAt v c = Val.out → c ∉ Q → ∀ c', InG v0 c' → Adj c c' →
    valAt v c' ≠ Val.undef
  q : ∀ c ∈ Q, InG v0 c ∧ valAt v c = Val.out
  nOut : v.nOut = cnt v Val.out
  onc : cnt v Val.on = cnt v0 Val.on

/-- Voxels decided stay decided. -/
def Mono (v0 v w : Vol) : Prop :=
  ∀ c, InG v0 c → valAt v c ≠ Val.undef → valAt w c ≠ Val.undef

theorem inG_eq {v0 v : Vol} {c : Cell} (h0 : v.d0 = v0.d0) (h1 : v.d1 = v0.d1) (h2 : v.d2 = v0.d2) :
    InG v c ↔ InG v0 c := by
  unfold InG; rw [h0, h1, h2]

/-- The result of marking `c` as outside. -/
def mark (v : Vol) (c : Cell) : Vol := { set v c Val.out with nOut := v.nOut + 1 }

theorem valAt_mark {v : Vol} {c c' : Cell} (h : InG v c) (h' : InG v c') :
    valAt (mark v c) c' = if c' = c then Val.out else valAt v c' := valAt_set h h'

theorem inv_mark {v0 v : Vol} {Q : List Cell} {c : Cell} (hI : Inv v0 Q v) (hc : InG v0 c)
    (hu : valAt v c = Val.undef)
    (ho : Open v0.d0 v0.d1 v0.d2 (fun c => valAt v0 c = Val.on) c) :
    Inv v0 (Q ++ [c]) (mark v c) ∧ cnt (mark v c) Val.undef + 1 = cnt v Val.undef ∧
      Mono v0 v (mark v c) ∧ valAt (mark v c) c ≠ Val.undef := by
  have hcv : InG v c := (inG_eq hI.e0 hI.e1 hI.e2).2 hc
  have hcnt := cnt_set (w := mark v c) (x := Val.out) hcv hu (by decide) rfl rfl rfl rfl
  have hv : ∀ c', InG v0 c' → valAt (mark v c) c' = if c' = c then Val.out else valAt v c' :=
    fun c' h' => valAt_mark hcv ((inG_eq hI.e0 hI.e1 hI.e2).2 h')
  refine ⟨⟨hI.e0, hI.e1, hI.e2, hI.nOn, hI.nIn, ?_, ?_, ?_, ?_, ?_, ?_, ?_⟩, hcnt.2.1, ?_, ?_⟩
  · intro c' h'
    rw [hv c' h']
    split_ifs with e
    · subst e
      have := hI.on c' h'
      rw [hu] at this
      simp only [reduceCtorEq, false_iff] at this ⊢
      exact this
    · exact hI.on c' h'
  · intro c' h'
    rw [hv c' h']
    split_ifs with e
    · simp
    · exact hI.ins c' h'
  · intro c' h'
    rw [hv c' h']
    split_ifs with e
    · subst e; intro _; exact ho
    · exact hI.op c' h'
  · intro c' h' hout hq c'' h'' ha
    rw [hv c'' h'']
    split_ifs with e
    · simp
    · rw [hv c' h'] at hout
      simp only [List.mem_append, List.mem_singleton, not_or] at hq
      rw [if_neg hq.2] at hout
      exact hI.closed c' h' hout hq.1 c'' h'' ha
  · intro c' h'
    simp only [List.mem_append, List.mem_singleton] at h'
    rcases h' with h' | rfl
    · obtain ⟨g, e⟩ := hI.q c' h'
      refine ⟨g, ?_⟩
      rw [hv c' g]
      split_ifs
      · rfl
      · exact e
    · exact ⟨hc, by rw [hv c' hc, if_pos rfl]⟩
  · show v.nOut + 1 = _
    rw [hcnt.1, hI.nOut]
  · rw [hcnt.2.2 _ (by decide) (by decide)]
    exact hI.onc
  · intro c' h' hn
    rw [hv c' h']
    split_ifs
    · simp
    · exact hn
  · rw [hv c hc, if_pos rfl]; simp

theorem short_id {z : ℤ} (h1 : -32768 ≤ z) (h2 : z < 32768) : short z = z := by
  unfold short; omega

theorem adj_iff {c c' : Cell} :
    Adj c c' ↔ (c'.1 - c.1, c'.2.1 - c.2.1, c'.2.2 - c.2.2) ∈ neighbours := by
  obtain ⟨i, j, k⟩ := c
  obtain ⟨i', j', k'⟩ := c'
  unfold Adj neighbours
  simp only [List.mem_cons, Prod.mk.injEq, List.not_mem_nil, or_false]
  constructor
  · intro h
    rcases abs_cases (i - i') with ⟨a, _⟩ | ⟨a, _⟩ <;> rcases abs_cases (j - j') with ⟨b, _⟩ | ⟨b, _⟩ <;>
      rcases abs_cases (k - k') with ⟨d, _⟩ | ⟨d, _⟩ <;> rw [a, b, d] at h <;> omega
  · rintro (h | h | h | h | h | h) <;>
      (obtain ⟨h1, h2, h3⟩ := h
       rcases abs_cases (i - i') with ⟨a, _⟩ | ⟨a, _⟩ <;> rcases abs_cases (j - j') with ⟨b, _⟩ | ⟨b, _⟩ <;>
      rcases abs_cases (k - k') with ⟨d, _⟩ | ⟨d, _⟩ <;> rw [a, b, d] <;> omega)

variable {dbg : Bool} {v0 : Vol}

/-- The sizes for which the indices fit into `short` and the assertions hold. -/
structure Fits (dbg : Bool) (v0 : Vol) : Prop where
  p0 : 1 ≤ v0.d0
  p1 : 1 ≤ v0.d1
  p2 : 1 ≤ v0.d2
  s0 : v0.d0 ≤ 32767
  s1 : v0.d1 ≤ 32767
  s2 : v0.d2 ≤ 32767
  dbg : dbg = true → v0.d1 ≤ v0.d0 ∧ v0.d2 ≤ v0.d0

theorem get_inv {Q : List Cell} {v : Vol} {c : Cell} (hF : Fits dbg v0) (hI : Inv v0 Q v)
    (hc : InG v0 c) : get dbg v c = some (valAt v c) := by
  apply get_in
  · intro h; rw [hI.e0, hI.e1, hI.e2]; exact hF.dbg h
  · exact (inG_eq hI.e0 hI.e1 hI.e2).2 hc

theorem visit_spec (hF : Fits dbg v0) {cur : Cell} {s : Vol × List Cell} {h : Cell}
    (hI : Inv v0 (cur :: s.2) s.1) (hn : h ∈ neighbours) :
    ∃ s', visit dbg cur s h = some s' ∧ Inv v0 (cur :: s'.2) s'.1 ∧ Mono v0 s.1 s'.1 ∧
      cnt s'.1 Val.undef + s'.2.length = cnt s.1 Val.undef + s.2.length ∧
      (InG v0 (cur.1 + h.1, cur.2.1 + h.2.1, cur.2.2 + h.2.2) →
        valAt s'.1 (cur.1 + h.1, cur.2.1 + h.2.1, cur.2.2 + h.2.2) ≠ Val.undef) := by
  obtain ⟨hcG, hcO⟩ := hI.q cur (by simp)
  have ht := hF
  obtain ⟨⟨a1, a2⟩, ⟨a3, a4⟩, a5, a6⟩ := id hcG
  have hb : (-1 ≤ h.1 ∧ h.1 ≤ 1) ∧ (-1 ≤ h.2.1 ∧ h.2.1 ≤ 1) ∧ -1 ≤ h.2.2 ∧ h.2.2 ≤ 1 := by
    simp only [neighbours, List.mem_cons, List.not_mem_nil, or_false] at hn
    rcases hn with rfl | rfl | rfl | rfl | rfl | rfl <;> simp
  have ha : Adj cur (cur.1 + h.1, cur.2.1 + h.2.1, cur.2.2 + h.2.2) := by
    rw [adj_iff]; simpa using hn
  have hs := hF.s0; have hs1 := hF.s1; have hs2 := hF.s2
  unfold visit
  rw [short_id (z := cur.1 + h.1) (by omega) (by omega), short_id (z := cur.2.1 + h.2.1) (by omega) (by omega),
    short_id (z := cur.2.2 + h.2.2) (by omega) (by omega)]
  generalize hc' : ((cur.1 + h.1, cur.2.1 + h.2.1, cur.2.2 + h.2.2) : Cell) = c' at *
  have q1 : cur.1 + h.1 = c'.1 := by rw [← hc']
  have q2 : cur.2.1 + h.2.1 = c'.2.1 := by rw [← hc']
  have q3 : cur.2.2 + h.2.2 = c'.2.2 := by rw [← hc']
  simp only [q1, q2, q3, Prod.mk.eta]
  by_cases hg : InG v0 c'
  · rw [if_neg (by
      obtain ⟨⟨b1, b2⟩, ⟨b3, b4⟩, b5, b6⟩ := hg
      rw [hI.e0, hI.e1, hI.e2]; omega), get_inv hF hI hg, Option.bind_some]
    by_cases hu : valAt s.1 c' = Val.undef
    · rw [if_pos hu]
      obtain ⟨m1, m2, m3, m4⟩ := inv_mark hI hg hu
        (Open.step (hI.op cur hcG hcO) hg ha (by
          intro e
          have := (hI.on c' hg).2 e
          rw [hu] at this; cases this))
      refine ⟨_, rfl, m1, m3, ?_, fun _ => m4⟩
      show cnt (mark s.1 c') Val.undef + _ = _
      rw [List.length_append, List.length_singleton]; omega
    · rw [if_neg hu]
      exact ⟨s, rfl, hI, fun _ _ h => h, rfl, fun _ => hu⟩
  · rw [if_pos (by
      unfold InG Inside3 at hg
      rw [hI.e0, hI.e1, hI.e2]; omega)]
    exact ⟨s, rfl, hI, fun _ _ h => h, rfl, fun h => absurd h hg⟩

theorem visits_spec (hF : Fits dbg v0) {cur : Cell} : ∀ (hs : List Cell) (s : Vol × List Cell),
    (∀ h ∈ hs, h ∈ neighbours) → Inv v0 (cur :: s.2) s.1 →
    ∃ s', hs.foldlM (visit dbg cur) s = some s' ∧ Inv v0 (cur :: s'.2) s'.1 ∧ Mono v0 s.1 s'.1 ∧
      cnt s'.1 Val.undef + s'.2.length = cnt s.1 Val.undef + s.2.length ∧
      ∀ h ∈ hs, InG v0 (cur.1 + h.1, cur.2.1 + h.2.1, cur.2.2 + h.2.2) →
        valAt s'.1 (cur.1 + h.1, cur.2.1 + h.2.1, cur.2.2 + h.2.2) ≠ Val.undef := by
  intro hs
  induction hs with
  | nil => intro s _ hI; exact ⟨s, rfl, hI, fun _ _ h => h, rfl, by simp⟩
  | cons h hs ih =>
    intro s hn hI
    obtain ⟨s1, r1, i1, m1, c1, g1⟩ := visit_spec hF hI (hn h (by simp))
    obtain ⟨s2, r2, i2, m2, c2, g2⟩ := ih s1 (fun x hx => hn x (by simp [hx])) i1
    refine ⟨s2, ?_, i2, fun c hc hx => m2 c hc (m1 c hc hx), by omega, ?_⟩
    · rw [List.foldlM_cons, r1]; exact r2
    · intro x hx hg
      rcases List.mem_cons.1 hx with rfl | hx
      · exact m2 _ hg (g1 hg)
      · exact g2 x hx hg

theorem bfs_spec (hF : Fits dbg v0) : ∀ (n : ℕ) (v : Vol) (Q : List Cell), Inv v0 Q v →
    cnt v Val.undef + Q.length ≤ n →
    ∃ w, bfs dbg n v Q = some w ∧ Inv v0 [] w ∧ Mono v0 v w := by
  intro n
  induction n with
  | zero =>
    intro v Q hI hm
    have : Q = [] := List.length_eq_zero_iff.1 (by omega)
    subst this
    exact ⟨v, rfl, hI, fun _ _ h => h⟩
  | succ n ih =>
    intro v Q hI hm
    cases Q with
    | nil => exact ⟨v, by rw [bfs], hI, fun _ _ h => h⟩
    | cons c q =>
      obtain ⟨s, r, i, m, cc, g⟩ := visits_spec hF (cur := c) neighbours (v, q) (fun _ h => h) hI
      have i' : Inv v0 s.2 s.1 :=
        { i with
          closed := by
            intro x hx ho hq x' hx' ha
            by_cases e : x = c
            · subst e
              have hm := adj_iff.1 ha
              have := g _ hm
              simp only [add_sub_cancel, Prod.mk.eta] at this
              exact this hx'
            · exact i.closed x hx ho (by simp [e, hq]) x' hx' ha
          q := fun x hx => i.q x (by simp [hx]) }
      obtain ⟨w, r2, i2, m2⟩ := ih s.1 s.2 i' (by
        simp only [List.length_cons] at hm cc
        omega)
      refine ⟨w, ?_, i2, fun x hx h => m2 x hx (m x hx h)⟩
      rw [bfs, r]
      exact r2

theorem cnt_le (v : Vol) (hp0 : 0 ≤ v.d0) (hp1 : 0 ≤ v.d1) (hp2 : 0 ≤ v.d2) (x : Val) :
    cnt v x ≤ (v.d0 * v.d1 * v.d2).toNat := by
  unfold cnt
  refine (Finset.card_filter_le _ _).trans ?_
  unfold gridSet
  simp only [Finset.card_product, Int.card_Ico, sub_zero]
  rw [Int.toNat_mul (mul_nonneg hp0 hp1) hp2, Int.toNat_mul hp0 hp1, mul_assoc]

theorem fillCell_spec (hF : Fits dbg v0) {v : Vol} {c : Cell} (hI : Inv v0 [] v) (hc : InG v0 c)
    (hb : Border v0.d0 v0.d1 v0.d2 c) :
    ∃ w, fillCell dbg v c = some w ∧ Inv v0 [] w ∧ Mono v0 v w ∧ valAt w c ≠ Val.undef := by
  unfold fillCell
  rw [get_inv hF hI hc, Option.bind_some]
  by_cases hu : valAt v c = Val.undef
  · rw [if_pos hu]
    have hs := hF.s0; have hs1 := hF.s1; have hs2 := hF.s2
    have e : ((short c.1, short c.2.1, short c.2.2) : Cell) = c := by
      obtain ⟨⟨a1, a2⟩, ⟨a3, a4⟩, a5, a6⟩ := id hc
      rw [short_id (by omega) (by omega), short_id (by omega) (by omega),
        short_id (by omega) (by omega)]
    simp only [e]
    rw [get_inv hF hI hc, Option.bind_some]
    obtain ⟨m1, m2, m3, m4⟩ := inv_mark hI hc hu (Open.border hc hb (by
      intro e
      have := (hI.on c hc).2 e
      rw [hu] at this; cases this))
    obtain ⟨w, r, i, m⟩ := bfs_spec hF ((v.d0 * v.d1 * v.d2).toNat + 1) (mark v c) [c] m1 (by
      have := cnt_le v (by rw [hI.e0]; have := hF.p0; omega) (by rw [hI.e1]; have := hF.p1; omega)
        (by rw [hI.e2]; have := hF.p2; omega) Val.undef
      simp only [List.length_singleton]; omega)
    exact ⟨w, r, i, fun x hx h => m x hx (m3 x hx h), m c hc m4⟩
  · rw [if_neg hu]
    exact ⟨v, rfl, hI, fun _ _ h => h, hu⟩

theorem fillList_spec (hF : Fits dbg v0) : ∀ (cs : List Cell) (v : Vol), Inv v0 [] v →
    (∀ c ∈ cs, InG v0 c ∧ Border v0.d0 v0.d1 v0.d2 c) →
    ∃ w, cs.foldlM (fillCell dbg) v = some w ∧ Inv v0 [] w ∧ Mono v0 v w ∧
      ∀ c ∈ cs, valAt w c ≠ Val.undef := by
  intro cs
  induction cs with
  | nil => intro v hI _; exact ⟨v, rfl, hI, fun _ _ h => h, by simp⟩
  | cons c cs ih =>
    intro v hI hc
    obtain ⟨h1, h2⟩ := hc c (by simp)
    obtain ⟨v1, r1, i1, m1, g1⟩ := fillCell_spec hF hI h1 h2
    obtain ⟨w, r, i, m, g⟩ := ih v1 i1 (fun x hx => hc x (by simp [hx]))
    refine ⟨w, by rw [List.foldlM_cons, r1]; exact r, i, fun x hx h => m x hx (m1 x hx h), ?_⟩
    intro x hx
    rcases List.mem_cons.1 hx with rfl | hx
    · exact m x h1 g1
    · exact g x hx

/-- The state of `FillInsideSurface`. -/
structure Inv2 (v1 : Vol) (cs : List Cell) (v : Vol) : Prop where
  e0 : v.d0 = v1.d0
  e1 : v.d1 = v1.d1
  e2 : v.d2 = v1.d2
  nOn : v.nOn = v1.nOn
  nOut : v.nOut = v1.nOut
  keep : ∀ c, InG v1 c → valAt v1 c ≠ Val.undef → valAt v c = valAt v1 c
  new : ∀ c, InG v1 c → valAt v1 c = Val.undef → (c ∉ cs → valAt v c = Val.ins) ∧
    (valAt v c = Val.ins ∨ valAt v c = Val.undef)
  nIn : v.nIn = cnt v Val.ins
  onc : cnt v Val.on = cnt v1 Val.on
  outc : cnt v Val.out = cnt v1 Val.out

theorem insideList_spec (v1 : Vol) (hd : dbg = true → v1.d1 ≤ v1.d0 ∧ v1.d2 ≤ v1.d0) :
    ∀ (cs : List Cell) (v : Vol), Inv2 v1 cs v → (∀ c ∈ cs, InG v1 c) →
    ∃ w, cs.foldlM (insideCell dbg) v = some w ∧ Inv2 v1 [] w := by
  intro cs
  induction cs with
  | nil => intro v hI _; exact ⟨v, rfl, hI⟩
  | cons c cs ih =>
    intro v hI hc
    have hg := hc c (by simp)
    have hgv : InG v c := (inG_eq hI.e0 hI.e1 hI.e2).2 hg
    have hget : get dbg v c = some (valAt v c) :=
      get_in (by intro h; rw [hI.e0, hI.e1, hI.e2]; exact hd h) hgv
    have : ∃ v', insideCell dbg v c = some v' ∧ Inv2 v1 cs v' := by
      unfold insideCell
      rw [hget, Option.bind_some]
      by_cases hu : valAt v c = Val.undef
      · rw [if_pos hu]
        refine ⟨_, rfl, ?_⟩
        have hcnt := cnt_set (w := { set v c Val.ins with nIn := v.nIn + 1 }) (x := Val.ins) hgv hu
          (by decide) rfl rfl rfl rfl
        have hv : ∀ c', InG v1 c' → valAt { set v c Val.ins with nIn := v.nIn + 1 } c' =
            if c' = c then Val.ins else valAt v c' :=
          fun c' h' => valAt_set hgv ((inG_eq hI.e0 hI.e1 hI.e2).2 h')
        refine ⟨hI.e0, hI.e1, hI.e2, hI.nOn, hI.nOut, ?_, ?_, ?_, ?_, ?_⟩
        · intro c' h' hn
          rw [hv c' h']
          split_ifs with e
          · subst e
            have := hI.keep c' h' hn
            rw [hu] at this; exact absurd this.symm hn
          · exact hI.keep c' h' hn
        · intro c' h' hn
          rw [hv c' h']
          split_ifs with e
          · simp
          · obtain ⟨h1, h2⟩ := hI.new c' h' hn
            exact ⟨fun hx => h1 (by simp [e, hx]), h2⟩
        · show v.nIn + 1 = _
          rw [hcnt.1, hI.nIn]
        · rw [hcnt.2.2 _ (by decide) (by decide)]; exact hI.onc
        · rw [hcnt.2.2 _ (by decide) (by decide)]; exact hI.outc
      · rw [if_neg hu]
        refine ⟨v, rfl, { hI with new := ?_ }⟩
        intro c' h' hn
        obtain ⟨h1, h2⟩ := hI.new c' h' hn
        refine ⟨fun hx => ?_, h2⟩
        rcases h2 with h2 | h2
        · exact h2
        · by_cases e : c' = c
          · subst e; exact absurd h2 hu
          · exact h1 (by simp [e, hx])
    obtain ⟨v', r', i'⟩ := this
    obtain ⟨w, r, i⟩ := ih v' i' (fun x hx => hc x (by simp [hx]))
    exact ⟨w, by rw [List.foldlM_cons, r']; exact r, i⟩

/-- What the fill leaves behind. -/
structure Filled (v0 w : Vol) : Prop where
  e0 : w.d0 = v0.d0
  e1 : w.d1 = v0.d1
  e2 : w.d2 = v0.d2
  on : ∀ c, InG v0 c → (valAt w c = Val.on ↔ valAt v0 c = Val.on)
  out : ∀ c, InG v0 c →
    (valAt w c = Val.out ↔ Open v0.d0 v0.d1 v0.d2 (fun c => valAt v0 c = Val.on) c)
  ins : ∀ c, InG v0 c → (valAt w c = Val.ins ↔
    valAt v0 c ≠ Val.on ∧ ¬ Open v0.d0 v0.d1 v0.d2 (fun c => valAt v0 c = Val.on) c)
  nOn : w.nOn = v0.nOn
  onc : cnt w Val.on = cnt v0 Val.on
  nOut : w.nOut = cnt w Val.out
  nIn : w.nIn = cnt w Val.ins

theorem open_not_solid {d0 d1 d2 : ℤ} {S : Cell → Prop} {c : Cell} (h : Open d0 d1 d2 S c) : ¬ S c := by
  cases h <;> assumption

theorem fill_spec (hF : Fits dbg v0)
    (hv : ∀ c, InG v0 c → valAt v0 c = Val.on ∨ valAt v0 c = Val.undef) (hO : v0.nOut = 0)
    (hN : v0.nIn = 0) : ∃ w, fill dbg v0 = some w ∧ Filled v0 w := by
  have z : ∀ x, x ≠ Val.on → x ≠ Val.undef → cnt v0 x = 0 := by
    intro x h1 h2
    unfold cnt
    rw [Finset.card_eq_zero, Finset.filter_eq_empty_iff]
    intro c hc e
    rcases hv c (mem_gridSet.1 hc) with h | h
    · exact h1 (e ▸ h)
    · exact h2 (e ▸ h)
  have i0 : Inv v0 [] v0 := by
    refine ⟨rfl, rfl, rfl, rfl, rfl, fun _ _ => Iff.rfl, ?_, ?_, ?_, by simp, ?_, rfl⟩
    · intro c hc e; rcases hv c hc with h | h <;> rw [h] at e <;> cases e
    · intro c hc e; rcases hv c hc with h | h <;> rw [h] at e <;> cases e
    · intro c hc e; rcases hv c hc with h | h <;> rw [h] at e <;> cases e
    · rw [hO, z _ (by decide) (by decide)]
  have p0 := hF.p0; have p1 := hF.p1; have p2 := hF.p2
  have side : ∀ (v : Vol) (a0 b0 c0 a1 b1 c1 : ℤ), Inv v0 [] v →
      (∀ c ∈ cells a0 b0 c0 a1 b1 c1, InG v0 c ∧ Border v0.d0 v0.d1 v0.d2 c) →
      ∃ w, fillOutside dbg v a0 b0 c0 a1 b1 c1 = some w ∧ Inv v0 [] w ∧ Mono v0 v w ∧
        ∀ c ∈ cells a0 b0 c0 a1 b1 c1, valAt w c ≠ Val.undef :=
    fun v a0 b0 c0 a1 b1 c1 hI h => fillList_spec hF _ v hI h
  obtain ⟨v1, r1, i1, m1, g1⟩ := side v0 0 0 0 v0.d0 v0.d1 1 i0 (by
    intro c hc; rw [mem_cells] at hc; unfold InG Inside3 Border; omega)
  obtain ⟨v2, r2, i2, m2, g2⟩ := side v1 0 0 (v0.d2 - 1) v0.d0 v0.d1 v0.d2 i1 (by
    intro c hc; rw [mem_cells] at hc; unfold InG Inside3 Border; omega)
  obtain ⟨v3, r3, i3, m3, g3⟩ := side v2 0 0 0 v0.d0 1 v0.d2 i2 (by
    intro c hc; rw [mem_cells] at hc; unfold InG Inside3 Border; omega)
  obtain ⟨v4, r4, i4, m4, g4⟩ := side v3 0 (v0.d1 - 1) 0 v0.d0 v0.d1 v0.d2 i3 (by
    intro c hc; rw [mem_cells] at hc; unfold InG Inside3 Border; omega)
  obtain ⟨v5, r5, i5, m5, g5⟩ := side v4 0 0 0 1 v0.d1 v0.d2 i4 (by
    intro c hc; rw [mem_cells] at hc; unfold InG Inside3 Border; omega)
  obtain ⟨v6, r6, i6, m6, g6⟩ := side v5 (v0.d0 - 1) 0 0 v0.d0 v0.d1 v0.d2 i5 (by
    intro c hc; rw [mem_cells] at hc; unfold InG Inside3 Border; omega)
  have bord : ∀ c, InG v0 c → Border v0.d0 v0.d1 v0.d2 c → valAt v6 c ≠ Val.undef := by
    intro c hc hb
    obtain ⟨⟨a1, a2⟩, ⟨a3, a4⟩, a5, a6⟩ := id hc
    rcases hb with h | h | h | h | h | h
    · exact m6 c hc (g5 c (by rw [mem_cells]; omega))
    · exact g6 c (by rw [mem_cells]; omega)
    · exact m6 c hc (m5 c hc (m4 c hc (g3 c (by rw [mem_cells]; omega))))
    · exact m6 c hc (m5 c hc (g4 c (by rw [mem_cells]; omega)))
    · exact m6 c hc (m5 c hc (m4 c hc (m3 c hc (m2 c hc (g1 c (by rw [mem_cells]; omega))))))
    · exact m6 c hc (m5 c hc (m4 c hc (m3 c hc (g2 c (by rw [mem_cells]; omega)))))
  have cls : ∀ c, InG v0 c → valAt v6 c ≠ Val.undef → valAt v0 c ≠ Val.on → valAt v6 c = Val.out := by
    intro c hc hu hn
    have h1 := i6.ins c hc
    have h2 := fun e => hn ((i6.on c hc).1 e)
    cases e : valAt v6 c with
    | undef => exact absurd e hu
    | out => rfl
    | ins => exact absurd e h1
    | on => exact absurd e h2
  have opn : ∀ c, Open v0.d0 v0.d1 v0.d2 (fun c => valAt v0 c = Val.on) c →
      InG v0 c ∧ valAt v6 c = Val.out := by
    intro c h
    induction h with
    | border hc hb hs => exact ⟨hc, cls _ hc (bord _ hc hb) hs⟩
    | step ho hc ha hs ih =>
      exact ⟨hc, cls _ hc (i6.closed _ ih.1 ih.2 (by simp) _ hc ha) hs⟩
  have out6 : ∀ c, InG v0 c →
      (valAt v6 c = Val.out ↔ Open v0.d0 v0.d1 v0.d2 (fun c => valAt v0 c = Val.on) c) :=
    fun c hc => ⟨i6.op c hc, fun h => (opn c h).2⟩
  have hins0 : cnt v6 Val.ins = 0 := by
    unfold cnt
    rw [Finset.card_eq_zero, Finset.filter_eq_empty_iff]
    intro c hc
    exact i6.ins c ((inG_eq i6.e0 i6.e1 i6.e2).1 (mem_gridSet.1 hc))
  have j0 : Inv2 v6 (cells 0 0 0 v6.d0 v6.d1 v6.d2) v6 := by
    refine ⟨rfl, rfl, rfl, rfl, rfl, fun _ _ _ => rfl, ?_, ?_, rfl, rfl⟩
    · intro c hc hu
      refine ⟨fun hx => absurd ?_ hx, Or.inr hu⟩
      rw [mem_cells]
      exact hc
    · rw [i6.nIn, hN, hins0]
  obtain ⟨w, rw_, jw⟩ := insideList_spec v6 (dbg := dbg) (by
    rw [i6.e0, i6.e1, i6.e2]; exact hF.dbg) _ v6 j0 (by
    intro c hc; rw [mem_cells] at hc; exact hc)
  refine ⟨w, ?_, ?_⟩
  · unfold fill
    rw [r1, Option.bind_some, i1.e0, i1.e1, i1.e2, r2, Option.bind_some, i2.e0, i2.e2, r3,
      Option.bind_some, i3.e0, i3.e1, i3.e2, r4, Option.bind_some, i4.e1, i4.e2, r5,
      Option.bind_some, i5.e0, i5.e1, i5.e2, r6, Option.bind_some]
    exact rw_
  · have gq : ∀ {c}, InG v6 c ↔ InG v0 c := inG_eq i6.e0 i6.e1 i6.e2
    have val : ∀ c, InG v0 c → valAt w c = if valAt v6 c = Val.undef then Val.ins else valAt v6 c := by
      intro c hc
      split_ifs with h
      · exact (jw.new c (gq.2 hc) h).1 (by simp)
      · exact jw.keep c (gq.2 hc) h
    have on6 := i6.on
    refine ⟨jw.e0.trans i6.e0, jw.e1.trans i6.e1, jw.e2.trans i6.e2, ?_, ?_, ?_,
      jw.nOn.trans i6.nOn, jw.onc.trans i6.onc, ?_, jw.nIn⟩
    · intro c hc
      rw [val c hc, ← on6 c hc]
      split_ifs with h
      · rw [h]; simp
      · rfl
    · intro c hc
      rw [val c hc, ← out6 c hc]
      split_ifs with h
      · rw [h]; simp
      · rfl
    · intro c hc
      rw [val c hc, ← out6 c hc, Ne, ← on6 c hc]
      have := i6.ins c hc
      cases e : valAt v6 c <;> simp_all
    · rw [jw.nOut, i6.nOut, jw.outc]

/-! ### The overlap test -/

section geometry

variable {K : Type*} [Field K] [LinearOrder K] [IsStrictOrderedRing K] [FloorRing K]

theorem apart_false {s p q rad : K} (h0 : 0 ≤ s) (h1 : s ≤ 1) (h : |s * p + (1 - s) * q| ≤ rad) :
    apart p q rad = false := by
  obtain ⟨l, u⟩ := abs_le.1 h
  unfold apart
  simp only [Bool.or_eq_false_iff, decide_eq_false_iff_not, not_lt]
  by_cases hpq : p < q
  · simp only [if_pos hpq]; constructor <;> nlinarith
  · simp only [if_neg hpq]; push Not at hpq; constructor <;> nlinarith

theorem abs_lin {a b x y h k : K} (hx : |x| ≤ h) (hy : |y| ≤ k) : |a * x - b * y| ≤ |a| * h + |b| * k := by
  calc |a * x - b * y| ≤ |a * x| + |b * y| := abs_sub _ _
    _ = |a| * |x| + |b| * |y| := by rw [abs_mul, abs_mul]
    _ ≤ _ := add_le_add (mul_le_mul_of_nonneg_left hx (abs_nonneg _))
      (mul_le_mul_of_nonneg_left hy (abs_nonneg _))

theorem boxApart_iff {x0 x1 x2 h : K} : boxApart x0 x1 x2 h = false ↔
    (x0 ≤ h ∨ x1 ≤ h ∨ x2 ≤ h) ∧ (-h ≤ x0 ∨ -h ≤ x1 ∨ -h ≤ x2) := by
  unfold boxApart
  simp only [Bool.or_eq_false_iff, decide_eq_false_iff_not, not_lt]
  apply and_congr
  · split_ifs <;> constructor <;> intro H <;> first | grind | skip
  · split_ifs <;> constructor <;> intro H <;> first | grind | skip

theorem plane_term {n v b x : K} (h : |x| ≤ b) :
    n * vminOf n v b ≤ n * (x - v) ∧ n * (x - v) ≤ n * vmaxOf n v b := by
  obtain ⟨l, u⟩ := abs_le.1 h
  unfold vminOf vmaxOf
  by_cases hn : 0 < n
  · simp only [if_pos hn]; constructor <;> nlinarith
  · simp only [if_neg hn]; push Not at hn; constructor <;> nlinarith

/-- The point with the given barycentric coordinates. -/
def comb (α β γ : K) (a b c : V3 K) : V3 K :=
  ⟨α * a.x + β * b.x + γ * c.x, α * a.y + β * b.y + γ * c.y, α * a.z + β * b.z + γ * c.z⟩

/-- The thirteen tests of `TriBoxOverlap` around the origin. -/
structure Tests (h v0 v1 v2 : V3 K) : Prop where
  x0 : axisX (v1.z - v0.z) (v1.y - v0.y) |v1.z - v0.z| |v1.y - v0.y| h v0 v2 = false
  y0 : axisY (v1.z - v0.z) (v1.x - v0.x) |v1.z - v0.z| |v1.x - v0.x| h v0 v2 = false
  z0 : axisZ (v1.y - v0.y) (v1.x - v0.x) |v1.y - v0.y| |v1.x - v0.x| h v2 v1 = false
  x1 : axisX (v2.z - v1.z) (v2.y - v1.y) |v2.z - v1.z| |v2.y - v1.y| h v0 v2 = false
  y1 : axisY (v2.z - v1.z) (v2.x - v1.x) |v2.z - v1.z| |v2.x - v1.x| h v0 v2 = false
  z1 : axisZ (v2.y - v1.y) (v2.x - v1.x) |v2.y - v1.y| |v2.x - v1.x| h v0 v1 = false
  x2 : axisX (v0.z - v2.z) (v0.y - v2.y) |v0.z - v2.z| |v0.y - v2.y| h v0 v1 = false
  y2 : axisY (v0.z - v2.z) (v0.x - v2.x) |v0.z - v2.z| |v0.x - v2.x| h v0 v1 = false
  z2 : axisZ (v0.y - v2.y) (v0.x - v2.x) |v0.y - v2.y| |v0.x - v2.x| h v2 v1 = false
  bx : boxApart v0.x v1.x v2.x h.x = false
  by' : boxApart v0.y v1.y v2.y h.y = false
  bz : boxApart v0.z v1.z v2.z h.z = false
  pl : planeBox ((v1.sub v0).cross (v2.sub v1)) v0 h = true

theorem chain (b e : Bool) : (if b = true then false else e) = true ↔ b = false ∧ e = true := by
  cases b <;> simp

theorem triBox_iff {ctr h t0 t1 t2 : V3 K} :
    triBox ctr h t0 t1 t2 = true ↔ Tests h (t0.sub ctr) (t1.sub ctr) (t2.sub ctr) := by
  unfold triBox
  constructor
  · intro H
    obtain ⟨h1, H⟩ := (chain _ _).1 H
    obtain ⟨h2, H⟩ := (chain _ _).1 H
    obtain ⟨h3, H⟩ := (chain _ _).1 H
    obtain ⟨h4, H⟩ := (chain _ _).1 H
    obtain ⟨h5, H⟩ := (chain _ _).1 H
    obtain ⟨h6, H⟩ := (chain _ _).1 H
    obtain ⟨h7, H⟩ := (chain _ _).1 H
    obtain ⟨h8, H⟩ := (chain _ _).1 H
    obtain ⟨h9, H⟩ := (chain _ _).1 H
    obtain ⟨h10, H⟩ := (chain _ _).1 H
    obtain ⟨h11, H⟩ := (chain _ _).1 H
    obtain ⟨h12, H⟩ := (chain _ _).1 H
    exact ⟨h1, h2, h3, h4, h5, h6, h7, h8, h9, h10, h11, h12, H⟩
  · rintro ⟨h1, h2, h3, h4, h5, h6, h7, h8, h9, h10, h11, h12, h13⟩
    exact (chain _ _).2 ⟨h1, (chain _ _).2 ⟨h2, (chain _ _).2 ⟨h3, (chain _ _).2 ⟨h4,
      (chain _ _).2 ⟨h5, (chain _ _).2 ⟨h6, (chain _ _).2 ⟨h7, (chain _ _).2 ⟨h8,
      (chain _ _).2 ⟨h9, (chain _ _).2 ⟨h10, (chain _ _).2 ⟨h11, (chain _ _).2 ⟨h12, h13⟩⟩⟩⟩⟩⟩⟩⟩⟩⟩⟩⟩

theorem tests_complete {h v0 v1 v2 : V3 K} {α β γ : K} (ha : 0 ≤ α) (hb : 0 ≤ β) (hc : 0 ≤ γ)
    (hs : α + β + γ = 1) (hx : |(comb α β γ v0 v1 v2).x| ≤ h.x)
    (hy : |(comb α β γ v0 v1 v2).y| ≤ h.y) (hz : |(comb α β γ v0 v1 v2).z| ≤ h.z) :
    Tests h v0 v1 v2 := by
  obtain rfl : γ = 1 - α - β := by linarith
  have hxy : ∀ a b : K, |a * (comb α β (1 - α - β) v0 v1 v2).x - b * (comb α β (1 - α - β) v0 v1 v2).y|
      ≤ |a| * h.x + |b| * h.y := fun a b => abs_lin hx hy
  have hyz : ∀ a b : K, |a * (comb α β (1 - α - β) v0 v1 v2).y - b * (comb α β (1 - α - β) v0 v1 v2).z|
      ≤ |a| * h.y + |b| * h.z := fun a b => abs_lin hy hz
  have hxz : ∀ a b : K, |-a * (comb α β (1 - α - β) v0 v1 v2).x + b * (comb α β (1 - α - β) v0 v1 v2).z|
      ≤ |a| * h.x + |b| * h.z := fun a b => by
    have := abs_lin (a := -a) (b := -b) hx hz
    rw [abs_neg, abs_neg] at this
    simpa using this
  have q1 : α + β ≤ 1 := by linarith
  have hbox : ∀ {a b c k : K}, |α * a + β * b + (1 - α - β) * c| ≤ k → boxApart a b c k = false := by
    intro a b c k hk
    obtain ⟨l, u⟩ := abs_le.1 hk
    rw [boxApart_iff]
    constructor
    · by_contra hn
      push Not at hn
      obtain ⟨h1, h2, h3⟩ := hn
      have hm : k < min a (min b c) := lt_min h1 (lt_min h2 h3)
      have m1 := min_le_left a (min b c)
      have m2 := (min_le_right a (min b c)).trans (min_le_left b c)
      have m3 := (min_le_right a (min b c)).trans (min_le_right b c)
      nlinarith [mul_nonneg ha (sub_nonneg.2 m1), mul_nonneg hb (sub_nonneg.2 m2),
        mul_nonneg hc (sub_nonneg.2 m3)]
    · by_contra hn
      push Not at hn
      obtain ⟨h1, h2, h3⟩ := hn
      have hm : max a (max b c) < -k := max_lt h1 (max_lt h2 h3)
      have m1 := le_max_left a (max b c)
      have m2 := (le_max_left b c).trans (le_max_right a (max b c))
      have m3 := (le_max_right b c).trans (le_max_right a (max b c))
      nlinarith [mul_nonneg ha (sub_nonneg.2 m1), mul_nonneg hb (sub_nonneg.2 m2),
        mul_nonneg hc (sub_nonneg.2 m3)]
  simp only [comb] at hx hy hz hxy hyz hxz
  refine ⟨?_, ?_, ?_, ?_, ?_, ?_, ?_, ?_, ?_, hbox hx, hbox hy, hbox hz, ?_⟩
  · apply apart_false (s := α + β) (by linarith) (by linarith)
    refine le_trans (le_of_eq ?_) (hyz _ _); congr 1; ring
  · apply apart_false (s := α + β) (by linarith) (by linarith)
    refine le_trans (le_of_eq ?_) (hxz _ _); congr 1; ring
  · apply apart_false (s := 1 - α - β) (by linarith) (by linarith)
    refine le_trans (le_of_eq ?_) (hxy _ _); congr 1; ring
  · apply apart_false (s := α) (by linarith) (by linarith)
    refine le_trans (le_of_eq ?_) (hyz _ _); congr 1; ring
  · apply apart_false (s := α) (by linarith) (by linarith)
    refine le_trans (le_of_eq ?_) (hxz _ _); congr 1; ring
  · apply apart_false (s := α) (by linarith) (by linarith)
    refine le_trans (le_of_eq ?_) (hxy _ _); congr 1; ring
  · apply apart_false (s := 1 - β) (by linarith) (by linarith)
    refine le_trans (le_of_eq ?_) (hyz _ _); congr 1; ring
  · apply apart_false (s := 1 - β) (by linarith) (by linarith)
    refine le_trans (le_of_eq ?_) (hxz _ _); congr 1; ring
  · apply apart_false (s := 1 - β) (by linarith) (by linarith)
    refine le_trans (le_of_eq ?_) (hxy _ _); congr 1; ring
  · have t1 := plane_term (n := ((v1.sub v0).cross (v2.sub v1)).x) (v := v0.x) hx
    have t2 := plane_term (n := ((v1.sub v0).cross (v2.sub v1)).y) (v := v0.y) hy
    have t3 := plane_term (n := ((v1.sub v0).cross (v2.sub v1)).z) (v := v0.z) hz
    have hz : ((v1.sub v0).cross (v2.sub v1)).x * (α * v0.x + β * v1.x + (1 - α - β) * v2.x - v0.x) +
        ((v1.sub v0).cross (v2.sub v1)).y * (α * v0.y + β * v1.y + (1 - α - β) * v2.y - v0.y) +
        ((v1.sub v0).cross (v2.sub v1)).z * (α * v0.z + β * v1.z + (1 - α - β) * v2.z - v0.z) = 0 := by
      simp only [V3.cross, V3.sub]; ring
    unfold planeBox V3.dot
    simp only
    rw [if_neg (by push Not; linarith [t1.1, t2.1, t3.1]), if_pos (by linarith [t1.2, t2.2, t3.2])]

theorem triBox_meets {ctr h t0 t1 t2 : V3 K} {α β γ : K} (ha : 0 ≤ α) (hb : 0 ≤ β) (hc : 0 ≤ γ)
    (hs : α + β + γ = 1) (hx : |(comb α β γ t0 t1 t2).x - ctr.x| ≤ h.x)
    (hy : |(comb α β γ t0 t1 t2).y - ctr.y| ≤ h.y) (hz : |(comb α β γ t0 t1 t2).z - ctr.z| ≤ h.z) :
    triBox ctr h t0 t1 t2 = true := by
  rw [triBox_iff]
  obtain rfl : γ = 1 - α - β := by linarith
  apply tests_complete ha hb hc hs
  · convert hx using 2; simp only [comb, V3.sub]; ring
  · convert hy using 2; simp only [comb, V3.sub]; ring
  · convert hz using 2; simp only [comb, V3.sub]; ring

/-! ### The bounding box and the dimensions -/

theorem grow_le (b : K × K) (p : K) (h : b.1 ≤ b.2) :
    (grow b p).1 = min b.1 p ∧ (grow b p).2 = max b.2 p ∧ (grow b p).1 ≤ (grow b p).2 := by
  unfold grow
  split_ifs with h1 h2
  · exact ⟨(min_eq_right h1.le).symm, (max_eq_left (h1.le.trans h)).symm, h1.le.trans h⟩
  · push Not at h1
    exact ⟨(min_eq_left h1).symm, (max_eq_right h2.le).symm, h.trans h2.le⟩
  · push Not at h1 h2
    exact ⟨(min_eq_left h1).symm, (max_eq_left h2).symm, h⟩

theorem foldl_grow : ∀ (l : List K) (b : K × K), b.1 ≤ b.2 →
    ((l.foldl grow b).1 ≤ b.1 ∧ b.2 ≤ (l.foldl grow b).2) ∧
    (∀ p ∈ l, (l.foldl grow b).1 ≤ p ∧ p ≤ (l.foldl grow b).2) ∧
    ((l.foldl grow b).1 = b.1 ∨ (l.foldl grow b).1 ∈ l) ∧
    ((l.foldl grow b).2 = b.2 ∨ (l.foldl grow b).2 ∈ l) := by
  intro l
  induction l with
  | nil => intro b h; simp
  | cons p l ih =>
    intro b h
    obtain ⟨g1, g2, g3⟩ := grow_le b p h
    obtain ⟨⟨i1, i2⟩, i3, i4, i5⟩ := ih (grow b p) g3
    rw [List.foldl_cons]
    refine ⟨⟨i1.trans (g1 ▸ min_le_left _ _), (g2 ▸ le_max_left _ _ : b.2 ≤ (grow b p).2).trans i2⟩, ?_, ?_, ?_⟩
    · intro q hq
      rcases List.mem_cons.1 hq with rfl | hq
      · exact ⟨i1.trans (g1 ▸ min_le_right _ _), (g2 ▸ le_max_right _ _ : q ≤ (grow b q).2).trans i2⟩
      · exact i3 q hq
    · rcases i4 with e | e
      · rw [e, g1]
        rcases min_choice b.1 p with h | h
        · exact Or.inl h
        · right; rw [h]; simp
      · exact Or.inr (List.mem_cons_of_mem _ e)
    · rcases i5 with e | e
      · rw [e, g2]
        rcases max_choice b.2 p with h | h
        · exact Or.inl h
        · right; rw [h]; simp
      · exact Or.inr (List.mem_cons_of_mem _ e)

theorem bb_spec (p : K) (l : List K) : (∀ q ∈ p :: l, (bb p l).1 ≤ q ∧ q ≤ (bb p l).2) ∧
    (bb p l).1 ∈ p :: l ∧ (bb p l).2 ∈ p :: l := by
  obtain ⟨⟨i1, i2⟩, i3, i4, i5⟩ := foldl_grow l (p, p) le_rfl
  unfold bb
  refine ⟨?_, ?_, ?_⟩
  · intro q hq
    rcases List.mem_cons.1 hq with rfl | hq
    · exact ⟨i1, i2⟩
    · exact i3 q hq
  · rcases i4 with e | e
    · rw [e]; simp
    · exact List.mem_cons_of_mem _ e
  · rcases i5 with e | e
    · rw [e]; simp
    · exact List.mem_cons_of_mem _ e

/-- There are enough voxels along a side of length `d`. -/
def Enough (dim : ℕ) (r d : K) (n : ℤ) : Prop :=
  2 ≤ n ∧ ∀ q : K, q ≤ d → q * (((dim : K) - 1) / r) + 1 / 2 < (n : K)

theorem enough_long {dim : ℕ} {r : K} (hd : 2 ≤ dim) (hr : 0 < r) : Enough dim r r (dim : ℤ) := by
  have h2 : (2 : K) ≤ dim := by exact_mod_cast hd
  refine ⟨by exact_mod_cast hd, fun q hq => ?_⟩
  have h1 : q * (((dim : K) - 1) / r) ≤ r * (((dim : K) - 1) / r) :=
    mul_le_mul_of_nonneg_right hq (div_nonneg (by linarith) hr.le)
  rw [mul_div_cancel₀ _ hr.ne'] at h1
  have : ((dim : ℤ) : K) = (dim : K) := by push_cast; rfl
  rw [this]
  linarith

theorem sideCells_spec {dim : ℕ} {r d : K} {n : ℤ} (hd : 2 ≤ dim) (hr : 0 ≤ r) (h0 : 0 ≤ d)
    (h : sideCells dim d r = some n) : 0 < r ∧ Enough dim r d n ∧ (d < r → n ≤ dim + 1) ∧
      n = 2 + ⌊(dim : K) * d / r⌋ := by
  unfold sideCells toSize at h
  have h2 : (2 : K) ≤ dim := by exact_mod_cast hd
  split_ifs at h with h1 h3
  · simp only [Option.map_some, Option.some.injEq] at h
    subst h
    have hr' : 0 < r := lt_of_le_of_ne hr (Ne.symm h1)
    have f1 := Int.lt_floor_add_one ((dim : K) * d / r)
    refine ⟨hr', ⟨?_, ?_⟩, ?_, rfl⟩
    · have := Int.floor_nonneg.2 h3; omega
    · intro q hq
      have a1 : q * (((dim : K) - 1) / r) ≤ d * (((dim : K) - 1) / r) :=
        mul_le_mul_of_nonneg_right hq (div_nonneg (by linarith) hr)
      have a2 : d * (((dim : K) - 1) / r) = (dim : K) * d / r - d / r := by ring
      have a3 : 0 ≤ d / r := div_nonneg h0 hr
      push_cast
      linarith
    · intro hlt
      have : ⌊(dim : K) * d / r⌋ < (dim : ℤ) := by
        rw [Int.floor_lt]
        push_cast
        rw [div_lt_iff₀ hr']
        nlinarith
      omega
  · simp at h

theorem dims_spec {dim : ℕ} {a b c r : K} {x y z : ℤ} (hd : 2 ≤ dim) (ha : 0 ≤ a) (hb : 0 ≤ b)
    (hc : 0 ≤ c) (h : dims dim a b c = some (r, x, y, z)) :
    0 < r ∧ Enough dim r a x ∧ Enough dim r b y ∧ Enough dim r c z := by
  unfold dims at h
  split_ifs at h with h1 h2
  · rw [Option.bind_eq_some_iff] at h
    obtain ⟨y', e1, h⟩ := h
    rw [Option.bind_eq_some_iff] at h
    obtain ⟨z', e2, h⟩ := h
    simp only [Option.some.injEq, Prod.mk.injEq] at h
    obtain ⟨rfl, rfl, rfl, rfl⟩ := h
    obtain ⟨p1, p2, -⟩ := sideCells_spec hd ha hb e1
    obtain ⟨-, p3, -⟩ := sideCells_spec hd ha hc e2
    exact ⟨p1, enough_long hd p1, p2, p3⟩
  · rw [Option.bind_eq_some_iff] at h
    obtain ⟨y', e1, h⟩ := h
    rw [Option.bind_eq_some_iff] at h
    obtain ⟨z', e2, h⟩ := h
    simp only [Option.some.injEq, Prod.mk.injEq] at h
    obtain ⟨rfl, rfl, rfl, rfl⟩ := h
    obtain ⟨p1, p2, -⟩ := sideCells_spec hd hb ha e1
    obtain ⟨-, p3, -⟩ := sideCells_spec hd hb hc e2
    exact ⟨p1, p2, enough_long hd p1, p3⟩
  · rw [Option.bind_eq_some_iff] at h
    obtain ⟨y', e1, h⟩ := h
    rw [Option.bind_eq_some_iff] at h
    obtain ⟨z', e2, h⟩ := h
    simp only [Option.some.injEq, Prod.mk.injEq] at h
    obtain ⟨rfl, rfl, rfl, rfl⟩ := h
    obtain ⟨p1, p2, -⟩ := sideCells_spec hd hc ha e1
    obtain ⟨-, p3, -⟩ := sideCells_spec hd hc hb e2
    exact ⟨p1, p2, p3, enough_long hd p1⟩

/-! ### Marking the surface -/

/-- The voxels a triangle overlaps according to the test. -/
def Hit (t : V3 K × V3 K × V3 K) (c : Cell) : Prop :=
  triBox ⟨(c.1 : K), (c.2.1 : K), (c.2.2 : K)⟩ ⟨1 / 2, 1 / 2, 1 / 2⟩ t.1 t.2.1 t.2.2 = true

/-- The state while triangles are marked: the voxels on the surface are `S`. -/
structure Marked (v0 : Vol) (S : Cell → Prop) (v : Vol) : Prop where
  e0 : v.d0 = v0.d0
  e1 : v.d1 = v0.d1
  e2 : v.d2 = v0.d2
  on : ∀ c, InG v0 c → (valAt v c = Val.on ↔ S c)
  un : ∀ c, InG v0 c → (valAt v c = Val.undef ↔ ¬ S c)
  nOn : v.nOn = cnt v Val.on
  nIn : v.nIn = 0
  nOut : v.nOut = 0

theorem markCell_spec (hd : dbg = true → v0.d1 ≤ v0.d0 ∧ v0.d2 ≤ v0.d0) {S : Cell → Prop} {v : Vol}
    (t : V3 K × V3 K × V3 K) {c : Cell} (hM : Marked v0 S v) (hc : InG v0 c) :
    ∃ w, markCell dbg t.1 t.2.1 t.2.2 v c = some w ∧ Marked v0 (fun x => S x ∨ (x = c ∧ Hit t x)) w := by
  have hgv : InG v c := (inG_eq hM.e0 hM.e1 hM.e2).2 hc
  have hget : get dbg v c = some (valAt v c) :=
    get_in (by intro h; rw [hM.e0, hM.e1, hM.e2]; exact hd h) hgv
  unfold markCell
  simp only [hget, Option.bind_some]
  by_cases hu : Hit t c ∧ valAt v c = Val.undef
  · refine ⟨_, if_pos hu, ?_⟩
    have hcnt := cnt_set (w := { set v c Val.on with nOn := v.nOn + 1 }) (x := Val.on) hgv hu.2
      (by decide) rfl rfl rfl rfl
    have hv : ∀ c', InG v0 c' → valAt { set v c Val.on with nOn := v.nOn + 1 } c' =
        if c' = c then Val.on else valAt v c' :=
      fun c' h' => valAt_set hgv ((inG_eq hM.e0 hM.e1 hM.e2).2 h')
    refine ⟨hM.e0, hM.e1, hM.e2, ?_, ?_, ?_, hM.nIn, hM.nOut⟩
    · intro x hx
      rw [hv x hx]
      split_ifs with e
      · subst e; simp [hu.1]
      · rw [hM.on x hx]; simp [e]
    · intro x hx
      rw [hv x hx]
      split_ifs with e
      · subst e; simp [hu.1]
      · rw [hM.un x hx]; simp [e]
    · show v.nOn + 1 = _
      rw [hcnt.1, hM.nOn]
  · refine ⟨v, if_neg hu, { hM with on := ?_, un := ?_ }⟩
    · intro x hx
      rw [hM.on x hx]
      constructor
      · exact Or.inl
      · rintro (h | ⟨rfl, h⟩)
        · exact h
        · by_contra hn
          exact hu ⟨h, (hM.un x hx).2 hn⟩
    · intro x hx
      rw [hM.un x hx, not_or]
      constructor
      · intro h
        refine ⟨h, ?_⟩
        rintro ⟨rfl, h'⟩
        exact hu ⟨h', (hM.un x hx).2 h⟩
      · exact fun h => h.1

theorem marked_congr {S T : Cell → Prop} {v : Vol} (h : Marked v0 S v) (e : ∀ c, InG v0 c → (S c ↔ T c)) :
    Marked v0 T v :=
  { h with on := fun c hc => (h.on c hc).trans (e c hc)
           un := fun c hc => (h.un c hc).trans (not_congr (e c hc)) }

theorem markCells_spec (hd : dbg = true → v0.d1 ≤ v0.d0 ∧ v0.d2 ≤ v0.d0) (t : V3 K × V3 K × V3 K) :
    ∀ (cs : List Cell) (S : Cell → Prop) (v : Vol), Marked v0 S v → (∀ c ∈ cs, InG v0 c) →
    ∃ w, cs.foldlM (markCell dbg t.1 t.2.1 t.2.2) v = some w ∧
      Marked v0 (fun x => S x ∨ (x ∈ cs ∧ Hit t x)) w := by
  intro cs
  induction cs with
  | nil => intro S v hM _; exact ⟨v, rfl, marked_congr hM (by simp)⟩
  | cons c cs ih =>
    intro S v hM hc
    obtain ⟨v1, r1, m1⟩ := markCell_spec hd t hM (hc c (by simp))
    obtain ⟨w, r, m⟩ := ih _ v1 m1 (fun x hx => hc x (by simp [hx]))
    refine ⟨w, by rw [List.foldlM_cons, r1]; exact r, marked_congr m ?_⟩
    intro x _
    simp only [List.mem_cons]
    tauto

theorem span_spec (i j k : ℤ) : (span i j k).1 = min i (min j k) ∧ (span i j k).2 = max i (max j k) := by
  unfold span
  simp only
  constructor <;> split_ifs <;> omega

theorem index_spec {q : K} (h : 0 ≤ q) : index q = some ⌊q + 1 / 2⌋ := by
  unfold index toSize
  rw [if_pos (by positivity)]

/-- The range of the loops in one direction contains every voxel whose side the triangle's extent meets. -/
theorem range_mem {a b c : K} {n d : ℤ} (hd : ∀ q ∈ [a, b, c], 0 ≤ q ∧ q + 1 / 2 < (d : K))
    (h0 : 0 ≤ n) (h1 : boxApart (a - n) (b - n) (c - n) (1 / 2 : K) = false) :
    (widen d (span ⌊a + 1 / 2⌋ ⌊b + 1 / 2⌋ ⌊c + 1 / 2⌋)).1 ≤ n ∧
      n < (widen d (span ⌊a + 1 / 2⌋ ⌊b + 1 / 2⌋ ⌊c + 1 / 2⌋)).2 := by
  rw [boxApart_iff] at h1
  obtain ⟨e1, e2⟩ := span_spec ⌊a + 1 / 2⌋ ⌊b + 1 / 2⌋ ⌊c + 1 / 2⌋
  have hlt : ∀ q ∈ [a, b, c], ⌊q + 1 / 2⌋ < d := fun q hq => Int.floor_lt.2 (hd q hq).2
  have lo : ∀ q : K, q - n ≤ 1 / 2 → ⌊q + 1 / 2⌋ ≤ n + 1 := by
    intro q hq
    have := Int.floor_le (q + 1 / 2)
    have h : ((⌊q + 1 / 2⌋ : ℤ) : K) ≤ ((n + 1 : ℤ) : K) := by push_cast; linarith
    exact_mod_cast h
  have hi : ∀ q : K, -(1 / 2) ≤ q - n → n ≤ ⌊q + 1 / 2⌋ := by
    intro q hq
    rw [Int.le_floor]; linarith
  have l1 := hlt a (by simp); have l2 := hlt b (by simp); have l3 := hlt c (by simp)
  unfold widen
  rw [e1, e2]
  simp only
  constructor
  · have : min ⌊a + 1 / 2⌋ (min ⌊b + 1 / 2⌋ ⌊c + 1 / 2⌋) ≤ n + 1 := by
      rcases h1.1 with h | h | h
      · have := lo _ h; omega
      · have := lo _ h; omega
      · have := lo _ h; omega
    split_ifs <;> omega
  · have : n ≤ max ⌊a + 1 / 2⌋ (max ⌊b + 1 / 2⌋ ⌊c + 1 / 2⌋) := by
      rcases h1.2 with h | h | h
      · have := hi _ h; omega
      · have := hi _ h; omega
      · have := hi _ h; omega
    split_ifs <;> omega

theorem range_in {a b c : K} {d n : ℤ} (hd : ∀ q ∈ [a, b, c], 0 ≤ q ∧ q + 1 / 2 < (d : K))
    (h : (widen d (span ⌊a + 1 / 2⌋ ⌊b + 1 / 2⌋ ⌊c + 1 / 2⌋)).1 ≤ n ∧
      n < (widen d (span ⌊a + 1 / 2⌋ ⌊b + 1 / 2⌋ ⌊c + 1 / 2⌋)).2) : 0 ≤ n ∧ n < d := by
  obtain ⟨e1, e2⟩ := span_spec ⌊a + 1 / 2⌋ ⌊b + 1 / 2⌋ ⌊c + 1 / 2⌋
  have hlt : ∀ q ∈ [a, b, c], 0 ≤ ⌊q + 1 / 2⌋ ∧ ⌊q + 1 / 2⌋ < d := fun q hq =>
    ⟨Int.floor_nonneg.2 (by have := (hd q hq).1; positivity), Int.floor_lt.2 (hd q hq).2⟩
  have l1 := hlt a (by simp); have l2 := hlt b (by simp); have l3 := hlt c (by simp)
  unfold widen at h
  rw [e1, e2] at h
  simp only at h
  split_ifs at h <;> omega

/-- A scaled point lies in the grid. -/
def InBox (v0 : Vol) (p : V3 K) : Prop :=
  (0 ≤ p.x ∧ p.x + 1 / 2 < (v0.d0 : K)) ∧ (0 ≤ p.y ∧ p.y + 1 / 2 < (v0.d1 : K)) ∧
    0 ≤ p.z ∧ p.z + 1 / 2 < (v0.d2 : K)

theorem vertexCell_spec {v : Vol} {p : V3 K} (h0 : v.d0 = v0.d0) (h1 : v.d1 = v0.d1) (h2 : v.d2 = v0.d2)
    (h : InBox v0 p) :
    vertexCell dbg v p = some (⌊p.x + 1 / 2⌋, ⌊p.y + 1 / 2⌋, ⌊p.z + 1 / 2⌋) := by
  obtain ⟨⟨a1, a2⟩, ⟨a3, a4⟩, a5, a6⟩ := h
  unfold vertexCell
  rw [index_spec a1, index_spec a3, index_spec a5]
  simp only [Option.bind_some]
  rw [if_neg]
  rintro ⟨-, hn⟩
  apply hn
  rw [h0, h1, h2]
  exact ⟨Int.floor_lt.2 a2, Int.floor_lt.2 a4, Int.floor_lt.2 a6⟩

theorem markTri_spec (hd : dbg = true → v0.d1 ≤ v0.d0 ∧ v0.d2 ≤ v0.d0) {S : Cell → Prop} {v : Vol}
    {t : V3 K × V3 K × V3 K} (hM : Marked v0 S v) (h1 : InBox v0 t.1) (h2 : InBox v0 t.2.1)
    (h3 : InBox v0 t.2.2) :
    ∃ w, markTri dbg v t = some w ∧ Marked v0 (fun x => S x ∨ Hit t x) w := by
  have hx : ∀ q ∈ [t.1.x, t.2.1.x, t.2.2.x], 0 ≤ q ∧ q + 1 / 2 < (v0.d0 : K) := by
    simp only [List.mem_cons, List.not_mem_nil, or_false, forall_eq_or_imp, forall_eq]
    exact ⟨h1.1, h2.1, h3.1⟩
  have hy : ∀ q ∈ [t.1.y, t.2.1.y, t.2.2.y], 0 ≤ q ∧ q + 1 / 2 < (v0.d1 : K) := by
    simp only [List.mem_cons, List.not_mem_nil, or_false, forall_eq_or_imp, forall_eq]
    exact ⟨h1.2.1, h2.2.1, h3.2.1⟩
  have hz : ∀ q ∈ [t.1.z, t.2.1.z, t.2.2.z], 0 ≤ q ∧ q + 1 / 2 < (v0.d2 : K) := by
    simp only [List.mem_cons, List.not_mem_nil, or_false, forall_eq_or_imp, forall_eq]
    exact ⟨h1.2.2, h2.2.2, h3.2.2⟩
  unfold markTri
  rw [vertexCell_spec hM.e0 hM.e1 hM.e2 h1, vertexCell_spec hM.e0 hM.e1 hM.e2 h2,
    vertexCell_spec hM.e0 hM.e1 hM.e2 h3]
  simp only [Option.bind_some]
  rw [hM.e0, hM.e1, hM.e2]
  obtain ⟨w, r, m⟩ := markCells_spec hd t (cells
      (widen v0.d0 (span ⌊t.1.x + 1 / 2⌋ ⌊t.2.1.x + 1 / 2⌋ ⌊t.2.2.x + 1 / 2⌋)).1
      (widen v0.d1 (span ⌊t.1.y + 1 / 2⌋ ⌊t.2.1.y + 1 / 2⌋ ⌊t.2.2.y + 1 / 2⌋)).1
      (widen v0.d2 (span ⌊t.1.z + 1 / 2⌋ ⌊t.2.1.z + 1 / 2⌋ ⌊t.2.2.z + 1 / 2⌋)).1
      (widen v0.d0 (span ⌊t.1.x + 1 / 2⌋ ⌊t.2.1.x + 1 / 2⌋ ⌊t.2.2.x + 1 / 2⌋)).2
      (widen v0.d1 (span ⌊t.1.y + 1 / 2⌋ ⌊t.2.1.y + 1 / 2⌋ ⌊t.2.2.y + 1 / 2⌋)).2
      (widen v0.d2 (span ⌊t.1.z + 1 / 2⌋ ⌊t.2.1.z + 1 / 2⌋ ⌊t.2.2.z + 1 / 2⌋)).2) S v hM (by
    intro c hc
    rw [mem_cells] at hc
    exact ⟨range_in hx hc.1, range_in hy hc.2.1, range_in hz hc.2.2⟩)
  refine ⟨w, r, marked_congr m ?_⟩
  intro c hc
  constructor
  · rintro (h | h)
    · exact Or.inl h
    · exact Or.inr h.2
  · rintro (h | h)
    · exact Or.inl h
    · refine Or.inr ⟨?_, h⟩
      obtain ⟨g1, g2, g3⟩ := hc
      have T := triBox_iff.1 h
      rw [mem_cells]
      exact ⟨range_mem hx g1.1 T.bx, range_mem hy g2.1 T.by', range_mem hz g3.1 T.bz⟩

theorem markTris_spec (hd : dbg = true → v0.d1 ≤ v0.d0 ∧ v0.d2 ≤ v0.d0) {ps : List (V3 K)} {mn : V3 K}
    {inv : K} (hp : ∀ p ∈ ps, InBox v0 (scaled mn inv p)) :
    ∀ (ts : List (ℕ × ℕ × ℕ)) (S : Cell → Prop) (v : Vol), Marked v0 S v →
    (∀ t ∈ ts, t.1 < ps.length ∧ t.2.1 < ps.length ∧ t.2.2 < ps.length) →
    ∃ w, ts.foldlM (fun v t => (corners ps mn inv t).bind (markTri dbg v)) v = some w ∧
      Marked v0 (fun x => S x ∨ ∃ t ∈ ts, ∃ a b c, ps[t.1]? = some a ∧ ps[t.2.1]? = some b ∧
        ps[t.2.2]? = some c ∧ Hit (scaled mn inv a, scaled mn inv b, scaled mn inv c) x) w := by
  intro ts
  induction ts with
  | nil => intro S v hM _; exact ⟨v, rfl, marked_congr hM (by simp)⟩
  | cons t ts ih =>
    intro S v hM ht
    obtain ⟨l1, l2, l3⟩ := ht t (by simp)
    have c1 := List.getElem?_eq_getElem l1
    have c2 := List.getElem?_eq_getElem l2
    have c3 := List.getElem?_eq_getElem l3
    obtain ⟨v1, r1, m1⟩ := markTri_spec hd (t := (scaled mn inv ps[t.1], scaled mn inv ps[t.2.1],
      scaled mn inv ps[t.2.2])) hM (hp _ (List.getElem_mem l1)) (hp _ (List.getElem_mem l2))
      (hp _ (List.getElem_mem l3))
    obtain ⟨w, r, m⟩ := ih _ v1 m1 (fun x hx => ht x (by simp [hx]))
    refine ⟨w, ?_, marked_congr m ?_⟩
    · rw [List.foldlM_cons]
      have : (corners ps mn inv t).bind (markTri dbg v) = some v1 := by
        unfold corners fetch
        rw [c1, c2, c3]
        exact r1
      rw [this]
      exact r
    · intro x _
      constructor
      · rintro ((h | h) | ⟨t', ht', h⟩)
        · exact Or.inl h
        · exact Or.inr ⟨t, by simp, _, _, _, c1, c2, c3, h⟩
        · exact Or.inr ⟨t', by simp [ht'], h⟩
      · rintro (h | ⟨t', ht', a, b, c, ha, hb, hc, h⟩)
        · exact Or.inl (Or.inl h)
        · rcases List.mem_cons.1 ht' with rfl | ht'
          · rw [c1] at ha; rw [c2] at hb; rw [c3] at hc
            cases ha; cases hb; cases hc
            exact Or.inl (Or.inr h)
          · exact Or.inr ⟨t', ht', a, b, c, ha, hb, hc, h⟩

/-- The conversion from a point of the mesh to units of voxels. -/
def Grid.unit (g : Grid K) (p : V3 K) : V3 K := scaled g.minBB (1 / g.scale) p

/-- The voxels on the surface of a grid according to the test. -/
def Surf (g : Grid K) (ps : List (V3 K)) (tris : List (ℕ × ℕ × ℕ)) (x : Cell) : Prop :=
  ∃ t ∈ tris, ∃ a b c, ps[t.1]? = some a ∧ ps[t.2.1]? = some b ∧ ps[t.2.2]? = some c ∧
    Hit (g.unit a, g.unit b, g.unit c) x

/-- Everything about a successful voxelization. -/
structure Result (ps : List (V3 K)) (tris : List (ℕ × ℕ × ℕ)) (g : Grid K) : Prop where
  sc : 0 < g.scale
  box : ∀ p ∈ ps, InBox g.vol (g.unit p)
  pos : 2 ≤ g.vol.d0 ∧ 2 ≤ g.vol.d1 ∧ 2 ≤ g.vol.d2
  on : ∀ c, InG g.vol c → (valAt g.vol c = Val.on ↔ Surf g ps tris c)
  out : ∀ c, InG g.vol c → (valAt g.vol c = Val.out ↔
    Open g.vol.d0 g.vol.d1 g.vol.d2 (fun c => valAt g.vol c = Val.on) c)
  ins : ∀ c, InG g.vol c → (valAt g.vol c = Val.ins ↔ valAt g.vol c ≠ Val.on ∧
    ¬ Open g.vol.d0 g.vol.d1 g.vol.d2 (fun c => valAt g.vol c = Val.on) c)
  nOn : g.vol.nOn = cnt g.vol Val.on
  nIn : g.vol.nIn = cnt g.vol Val.ins
  nOut : g.vol.nOut = cnt g.vol Val.out

theorem open_congr {d0 d1 d2 : ℤ} {S T : Cell → Prop} (h : ∀ c, Inside3 d0 d1 d2 c → (S c ↔ T c))
    {c : Cell} : Open d0 d1 d2 S c ↔ Open d0 d1 d2 T c := by
  constructor
  · intro o
    induction o with
    | border a b s => exact Open.border a b (fun e => s ((h _ a).2 e))
    | step _ a b s ih => exact Open.step ih a b (fun e => s ((h _ a).2 e))
  · intro o
    induction o with
    | border a b s => exact Open.border a b (fun e => s ((h _ a).1 e))
    | step _ a b s ih => exact Open.step ih a b (fun e => s ((h _ a).1 e))

/-- The run of `voxelize` for a mesh with a box that has a size. -/
theorem voxelize_run {p : V3 K} {rest : List (V3 K)} {tris : List (ℕ × ℕ × ℕ)} {dim : ℕ} {r : K}
    {x y z : ℤ} (hdim : 2 ≤ dim)
    (hds : dims dim ((bb p.x (rest.map V3.x)).2 - (bb p.x (rest.map V3.x)).1)
      ((bb p.y (rest.map V3.y)).2 - (bb p.y (rest.map V3.y)).1)
      ((bb p.z (rest.map V3.z)).2 - (bb p.z (rest.map V3.z)).1) = some (r, x, y, z))
    (hx : x ≤ 32767) (hy : y ≤ 32767) (hz : z ≤ 32767) (hd : dbg = true → y ≤ x ∧ z ≤ x)
    (ht : ∀ t ∈ tris, t.1 < (p :: rest).length ∧ t.2.1 < (p :: rest).length ∧
      t.2.2 < (p :: rest).length) :
    ∃ g, voxelize dbg (p :: rest) tris dim = some (some g) ∧ g.vol.d0 = x ∧ g.vol.d1 = y ∧
      g.vol.d2 = z ∧ Result (p :: rest) tris g := by
  obtain ⟨bx, bx1, bx2⟩ := bb_spec p.x (rest.map V3.x)
  obtain ⟨by_, by1, by2⟩ := bb_spec p.y (rest.map V3.y)
  obtain ⟨bz, bz1, bz2⟩ := bb_spec p.z (rest.map V3.z)
  have ex := (bx _ bx1).2; have ey := (by_ _ by1).2; have ez := (bz _ bz1).2
  obtain ⟨hr, n0, n1, n2⟩ := dims_spec hdim (sub_nonneg.2 ex) (sub_nonneg.2 ey) (sub_nonneg.2 ez) hds
  set mn : V3 K := ⟨(bb p.x (rest.map V3.x)).1, (bb p.y (rest.map V3.y)).1, (bb p.z (rest.map V3.z)).1⟩
    with hmn
  set inv := ((dim : K) - 1) / r with hinv
  set v0 : Vol := ⟨x, y, z, fun _ => Val.undef, 0, 0, 0⟩ with hv0
  have h2 : (2 : K) ≤ dim := by exact_mod_cast hdim
  have hinv0 : 0 ≤ inv := div_nonneg (by linarith) hr.le
  have one : ∀ q ∈ (p :: rest), q.x ∈ p.x :: rest.map V3.x ∧ q.y ∈ p.y :: rest.map V3.y ∧
      q.z ∈ p.z :: rest.map V3.z := by
    intro q hq
    rcases List.mem_cons.1 hq with rfl | hq
    · simp
    · exact ⟨List.mem_cons_of_mem _ (List.mem_map_of_mem hq), List.mem_cons_of_mem _ (List.mem_map_of_mem hq),
        List.mem_cons_of_mem _ (List.mem_map_of_mem hq)⟩
  have hbox : ∀ q ∈ (p :: rest), InBox v0 (scaled mn inv q) := by
    intro q hq
    obtain ⟨o1, o2, o3⟩ := one q hq
    have a1 := bx _ o1; have a2 := by_ _ o2; have a3 := bz _ o3
    refine ⟨⟨mul_nonneg (sub_nonneg.2 a1.1) hinv0, n0.2 _ (by simp only [hmn]; linarith [a1.2])⟩,
      ⟨mul_nonneg (sub_nonneg.2 a2.1) hinv0, n1.2 _ (by simp only [hmn]; linarith [a2.2])⟩,
      mul_nonneg (sub_nonneg.2 a3.1) hinv0, n2.2 _ (by simp only [hmn]; linarith [a3.2])⟩
  have m0 : Marked v0 (fun _ => False) v0 := by
    refine ⟨rfl, rfl, rfl, ?_, ?_, ?_, rfl, rfl⟩
    · intro c _; simp [valAt, hv0]
    · intro c _; simp [valAt, hv0]
    · symm
      show cnt v0 Val.on = 0
      unfold cnt
      rw [Finset.card_eq_zero, Finset.filter_eq_empty_iff]
      intro c _
      simp [valAt, hv0]
  obtain ⟨v1, r1, m1⟩ := markTris_spec (dbg := dbg) (v0 := v0) hd hbox tris _ v0 m0 ht
  have hF : Fits dbg v1 := by
    refine ⟨?_, ?_, ?_, ?_, ?_, ?_, ?_⟩
    · rw [m1.e0]; have := n0.1; show 1 ≤ x; omega
    · rw [m1.e1]; have := n1.1; show 1 ≤ y; omega
    · rw [m1.e2]; have := n2.1; show 1 ≤ z; omega
    · rw [m1.e0]; exact hx
    · rw [m1.e1]; exact hy
    · rw [m1.e2]; exact hz
    · rw [m1.e0, m1.e1, m1.e2]; exact hd
  have gq : ∀ {c}, InG v1 c ↔ InG v0 c := inG_eq m1.e0 m1.e1 m1.e2
  obtain ⟨w, r2, f⟩ := fill_spec hF (by
    intro c hc
    by_cases h : valAt v1 c = Val.on
    · exact Or.inl h
    · right
      rw [m1.un c (gq.1 hc), ← m1.on c (gq.1 hc)]; exact h) m1.nOut m1.nIn
  have q0 : w.d0 = x := f.e0.trans m1.e0
  have q1 : w.d1 = y := f.e1.trans m1.e1
  have q2 : w.d2 = z := f.e2.trans m1.e2
  have gw : ∀ {c}, InG w c ↔ InG v1 c := inG_eq f.e0 f.e1 f.e2
  have einv : (1 : K) / (r / ((dim : K) - 1)) = inv := by rw [hinv, one_div_div]
  refine ⟨⟨mn, r / ((dim : K) - 1), w⟩, ?_, q0, q1, q2, ?_⟩
  · unfold voxelize
    simp only
    rw [if_neg (by omega), hds]
    simp only [Option.bind_some]
    rw [r1]
    simp only [Option.bind_some]
    rw [r2]
    rfl
  · have oc : ∀ c, Open w.d0 w.d1 w.d2 (fun c => valAt w c = Val.on) c ↔
        Open v1.d0 v1.d1 v1.d2 (fun c => valAt v1 c = Val.on) c := by
      intro c
      rw [f.e0, f.e1, f.e2]
      exact open_congr fun c hc => f.on c hc
    refine ⟨div_pos hr (by linarith), ?_, ?_, ?_, ?_, ?_, ?_, f.nIn, f.nOut⟩
    · intro q hq
      have := hbox q hq
      unfold Grid.unit
      simp only [einv]
      unfold InBox at this ⊢
      simp only [q0, q1, q2]
      exact this
    · simp only [q0, q1, q2]; exact ⟨n0.1, n1.1, n2.1⟩
    · intro c hc
      show valAt w c = Val.on ↔ _
      rw [f.on c (gw.1 hc), m1.on c (gq.1 (gw.1 hc))]
      unfold Surf Grid.unit
      simp only [einv, false_or]
    · intro c hc
      show valAt w c = Val.out ↔ _
      rw [f.out c (gw.1 hc)]
      exact (oc c).symm
    · intro c hc
      show valAt w c = Val.ins ↔ valAt w c ≠ Val.on ∧ _
      rw [f.ins c (gw.1 hc), Ne, Ne, f.on c (gw.1 hc)]
      exact and_congr Iff.rfl (not_congr (oc c).symm)
    · show w.nOn = cnt w Val.on
      rw [f.nOn, f.onc, m1.nOn]

theorem bb_extent {ps : List (V3 K)} {f : V3 K → K} {p : V3 K} {rest : List (V3 K)} {lo hi : K}
    (h : Extent (p :: rest) f lo hi) : bb (f p) (rest.map f) = (lo, hi) := by
  obtain ⟨b1, b2, b3⟩ := bb_spec (f p) (rest.map f)
  have hm : ∀ x, x ∈ f p :: rest.map f ↔ ∃ q ∈ p :: rest, f q = x := by
    intro x
    rw [← List.map_cons, List.mem_map]
  obtain ⟨h1, ⟨q1, m1, e1⟩, q2, m2, e2⟩ := h
  have l1 := (b1 lo ((hm lo).2 ⟨q1, m1, e1⟩)).1
  have l2 := (b1 hi ((hm hi).2 ⟨q2, m2, e2⟩)).2
  obtain ⟨x1, y1, z1⟩ := (hm _).1 b2
  obtain ⟨x2, y2, z2⟩ := (hm _).1 b3
  have g1 := (h1 x1 y1).1
  have g2 := (h1 x2 y2).2
  ext
  · rw [z1] at g1; exact le_antisymm l1 g1
  · rw [z2] at g2; exact le_antisymm g2 l2

theorem sideCells_some {dim : ℕ} {d r : K} (h0 : 0 ≤ d) (hr : 0 < r) :
    sideCells dim d r = some (2 + ⌊(dim : K) * d / r⌋) := by
  unfold sideCells toSize
  rw [if_neg hr.ne', if_pos (by positivity)]
  rfl

theorem floor_le_dim {dim : ℕ} {d r : K} (hr : 0 < r) (h : d ≤ r) : 2 + ⌊(dim : K) * d / r⌋ ≤ dim + 2 := by
  have : ⌊(dim : K) * d / r⌋ ≤ (dim : ℤ) := by
    have h1 : (dim : K) * d / r ≤ ((dim : ℤ) : K) := by
      rw [div_le_iff₀ hr]
      push_cast
      have : (0 : K) ≤ dim := Nat.cast_nonneg _
      nlinarith
    have := Int.floor_le_floor h1
    rwa [Int.floor_intCast] at this
  omega

theorem dims_longest {dim : ℕ} {a b c : K} (ha : 0 ≤ a) (hb : 0 ≤ b) (hc : 0 ≤ c) (h : Longest a b c) :
    ∃ x y z : ℤ, dims dim a b c = some (max a (max b c), x, y, z) ∧ x ≤ dim + 2 ∧ y ≤ dim + 2 ∧
      z ≤ dim + 2 ∧ (b < a → c < a → x = dim) ∧ (a < b → c < b → y = dim) ∧
      (a ≤ c → b ≤ c → z = dim) := by
  unfold dims
  rcases h with ⟨h1, h2⟩ | ⟨h1, h2⟩ | ⟨h1, h2, h3⟩
  · have hr : 0 < a := lt_of_le_of_lt hb h1
    rw [if_pos ⟨h1, h2⟩, sideCells_some hb hr, sideCells_some hc hr]
    refine ⟨dim, _, _, ?_, by omega, floor_le_dim hr h1.le, floor_le_dim hr h2.le, ?_, ?_, ?_⟩
    · rw [max_eq_left (max_le h1.le h2.le)]; rfl
    · intros; rfl
    · intro h; exact absurd h (not_lt.2 h1.le)
    · intro h; exact absurd h (not_le.2 h2)
  · have hr : 0 < b := lt_of_le_of_lt ha h1
    rw [if_neg (fun h => absurd h.1 (not_lt.2 h1.le)), if_pos ⟨h1, h2⟩, sideCells_some ha hr,
      sideCells_some hc hr]
    refine ⟨_, dim, _, ?_, floor_le_dim hr h1.le, by omega, floor_le_dim hr h2.le, ?_, ?_, ?_⟩
    · rw [max_eq_left h2.le, max_eq_right h1.le]; rfl
    · intro h; exact absurd h (not_lt.2 h1.le)
    · intros; rfl
    · intro _ h; exact absurd h (not_le.2 h2)
  · rw [if_neg (fun h => absurd h.2 (not_lt.2 h1)), if_neg (fun h => absurd h.2 (not_lt.2 h2)),
      sideCells_some ha h3, sideCells_some hb h3]
    refine ⟨_, _, dim, ?_, floor_le_dim h3 h1, floor_le_dim h3 h2, by omega, ?_, ?_, ?_⟩
    · rw [max_eq_right h2, max_eq_right h1]; rfl
    · intro _ h; exact absurd h (not_lt.2 h1)
    · intro _ h; exact absurd h (not_lt.2 h2)
    · intros; rfl

/-! ### The dimensions do not change -/

/-- Two volumes of the same dimensions. -/
def Same (v w : Vol) : Prop := w.d0 = v.d0 ∧ w.d1 = v.d1 ∧ w.d2 = v.d2

theorem Same.refl (v : Vol) : Same v v := ⟨rfl, rfl, rfl⟩

theorem Same.trans {u v w : Vol} (h : Same u v) (h' : Same v w) : Same u w :=
  ⟨h'.1.trans h.1, h'.2.1.trans h.2.1, h'.2.2.trans h.2.2⟩

theorem foldlM_rel {σ τ : Type*} (R : σ → σ → Prop) (hr : ∀ s, R s s)
    (ht : ∀ a b c, R a b → R b c → R a c) (f : σ → τ → Option σ)
    (hf : ∀ s x s', f s x = some s' → R s s') :
    ∀ (l : List τ) (s s' : σ), l.foldlM f s = some s' → R s s' := by
  intro l
  induction l with
  | nil => intro s s' h; cases h; exact hr s
  | cons x l ih =>
    intro s s' h
    rw [List.foldlM_cons] at h
    obtain ⟨m, h1, h2⟩ := Option.bind_eq_some_iff.1 h
    exact ht _ _ _ (hf _ _ _ h1) (ih _ _ h2)

theorem foldlM_none {σ τ : Type*} (R : σ → σ → Prop) (hr : ∀ s, R s s)
    (ht : ∀ a b c, R a b → R b c → R a c) (f : σ → τ → Option σ)
    (hf : ∀ s x s', f s x = some s' → R s s') (s0 : σ) :
    ∀ (l : List τ) (s : σ), R s0 s → (∃ x ∈ l, ∀ s, R s0 s → f s x = none) → l.foldlM f s = none := by
  intro l
  induction l with
  | nil => rintro s _ ⟨x, h, _⟩; simp at h
  | cons x l ih =>
    rintro s hs ⟨y, hy, hn⟩
    rw [List.foldlM_cons]
    rcases List.mem_cons.1 hy with rfl | hy
    · rw [hn s hs]; rfl
    · cases h : f s x with
      | none => rfl
      | some m => exact ih m (ht _ _ _ hs (hf _ _ _ h)) ⟨y, hy, hn⟩

theorem visit_same {cur : Cell} {s s' : Vol × List Cell} {h : Cell} (e : visit dbg cur s h = some s') :
    Same s.1 s'.1 := by
  unfold visit at e
  simp only at e
  split_ifs at e with h1
  · cases e; exact Same.refl _
  · obtain ⟨x, _, e⟩ := Option.bind_eq_some_iff.1 e
    split_ifs at e
    · cases e; exact ⟨rfl, rfl, rfl⟩
    · cases e; exact Same.refl _

theorem bfs_same : ∀ (n : ℕ) (v : Vol) (q : List Cell) (w : Vol), bfs dbg n v q = some w → Same v w := by
  intro n
  induction n with
  | zero =>
    intro v q w h
    cases q with
    | nil => cases h; exact Same.refl _
    | cons => cases h
  | succ n ih =>
    intro v q w h
    cases q with
    | nil => cases h; exact Same.refl _
    | cons c q =>
      rw [bfs] at h
      obtain ⟨s, h1, h2⟩ := Option.bind_eq_some_iff.1 h
      have := foldlM_rel (fun a b : Vol × List Cell => Same a.1 b.1) (fun _ => Same.refl _)
        (fun _ _ _ => Same.trans) _ (fun _ _ _ => visit_same) _ _ _ h1
      exact this.trans (ih _ _ _ h2)

theorem fillCell_same {v w : Vol} {c : Cell} (e : fillCell dbg v c = some w) : Same v w := by
  unfold fillCell at e
  obtain ⟨x, _, e⟩ := Option.bind_eq_some_iff.1 e
  split_ifs at e
  · obtain ⟨x, _, e⟩ := Option.bind_eq_some_iff.1 e
    exact Same.trans (v := { set v (short c.1, short c.2.1, short c.2.2) Val.out with nOut := v.nOut + 1 })
      ⟨rfl, rfl, rfl⟩ (bfs_same _ _ _ _ e)
  · cases e; exact Same.refl _

theorem fillOutside_same {v w : Vol} {a b c a' b' c' : ℤ} (e : fillOutside dbg v a b c a' b' c' = some w) :
    Same v w :=
  foldlM_rel Same Same.refl (fun _ _ _ => Same.trans) _ (fun _ _ _ => fillCell_same) _ _ _ e

theorem insideCell_same {v w : Vol} {c : Cell} (e : insideCell dbg v c = some w) : Same v w := by
  unfold insideCell at e
  obtain ⟨x, _, e⟩ := Option.bind_eq_some_iff.1 e
  split_ifs at e
  · cases e; exact ⟨rfl, rfl, rfl⟩
  · cases e; exact Same.refl _

theorem fillInside_same {v w : Vol} (e : fillInside dbg v = some w) : Same v w :=
  foldlM_rel Same Same.refl (fun _ _ _ => Same.trans) _ (fun _ _ _ => insideCell_same) _ _ _ e

theorem fillInside_none {v : Vol} {c : Cell} (hc : InG v c) (h : v.d0 ≤ c.2.1 ∨ v.d0 ≤ c.2.2) :
    fillInside true v = none := by
  refine foldlM_none Same Same.refl (fun _ _ _ => Same.trans) _ (fun _ _ _ => insideCell_same) v _ v
    (Same.refl v) ⟨c, by rw [mem_cells]; exact hc, ?_⟩
  intro s hs
  unfold insideCell get
  rw [if_neg]
  · rfl
  · rintro ⟨h1, -⟩
    obtain ⟨-, h2, h3⟩ := h1 rfl
    rw [hs.1] at h2 h3
    omega

/-- The six calls of `FillOutsideSurface` before the call of `FillInsideSurface`. -/
theorem fill_split {v w : Vol} (h : fill dbg v = some w) :
    ∃ u, Same v u ∧ fillInside dbg u = some w := by
  unfold fill at h
  obtain ⟨v1, e1, h⟩ := Option.bind_eq_some_iff.1 h
  obtain ⟨v2, e2, h⟩ := Option.bind_eq_some_iff.1 h
  obtain ⟨v3, e3, h⟩ := Option.bind_eq_some_iff.1 h
  obtain ⟨v4, e4, h⟩ := Option.bind_eq_some_iff.1 h
  obtain ⟨v5, e5, h⟩ := Option.bind_eq_some_iff.1 h
  obtain ⟨v6, e6, h⟩ := Option.bind_eq_some_iff.1 h
  exact ⟨v6, (((((fillOutside_same e1).trans (fillOutside_same e2)).trans (fillOutside_same e3)).trans
    (fillOutside_same e4)).trans (fillOutside_same e5)).trans (fillOutside_same e6), h⟩

theorem fill_same {v w : Vol} (h : fill dbg v = some w) : Same v w := by
  obtain ⟨u, h1, h2⟩ := fill_split h
  exact h1.trans (fillInside_same h2)

theorem fill_debug {v : Vol} (h0 : 1 ≤ v.d0) (h1 : 1 ≤ v.d1) (h2 : 1 ≤ v.d2)
    (h : v.d0 < v.d1 ∨ v.d0 < v.d2) : fill true v = none := by
  cases e : fill true v with
  | none => rfl
  | some w =>
    exfalso
    obtain ⟨u, ⟨s0, s1, s2⟩, h3⟩ := fill_split e
    rcases h with h | h
    · have := fillInside_none (v := u) (c := (0, u.d0, 0)) (by unfold InG Inside3; simp only; omega)
        (Or.inl le_rfl)
      rw [this] at h3; cases h3
    · have := fillInside_none (v := u) (c := (0, 0, u.d0)) (by unfold InG Inside3; simp only; omega)
        (Or.inr le_rfl)
      rw [this] at h3; cases h3

theorem markCell_same {t0 t1 t2 : V3 K} {v w : Vol} {c : Cell} (e : markCell dbg t0 t1 t2 v c = some w) :
    Same v w := by
  unfold markCell at e
  simp only at e
  obtain ⟨x, _, e⟩ := Option.bind_eq_some_iff.1 e
  split_ifs at e
  · cases e; exact ⟨rfl, rfl, rfl⟩
  · cases e; exact Same.refl _

theorem markTri_same {v w : Vol} {t : V3 K × V3 K × V3 K} (e : markTri dbg v t = some w) : Same v w := by
  unfold markTri at e
  obtain ⟨a, _, e⟩ := Option.bind_eq_some_iff.1 e
  obtain ⟨b, _, e⟩ := Option.bind_eq_some_iff.1 e
  obtain ⟨c, _, e⟩ := Option.bind_eq_some_iff.1 e
  exact foldlM_rel Same Same.refl (fun _ _ _ => Same.trans) _ (fun _ _ _ => markCell_same) _ _ _ e

theorem markTris_same {ps : List (V3 K)} {mn : V3 K} {inv : K} {ts : List (ℕ × ℕ × ℕ)} {v w : Vol}
    (e : ts.foldlM (fun v t => (corners ps mn inv t).bind (markTri dbg v)) v = some w) : Same v w := by
  refine foldlM_rel Same Same.refl (fun _ _ _ => Same.trans) _ ?_ _ _ _ e
  intro s t s' h
  obtain ⟨c, _, h⟩ := Option.bind_eq_some_iff.1 h
  exact markTri_same h

/-- What a run of `voxelize` that ends has gone through. -/
theorem voxelize_inv {p : V3 K} {rest : List (V3 K)} {tris : List (ℕ × ℕ × ℕ)} {dim : ℕ}
    {g : Option (Grid K)} (h : voxelize dbg (p :: rest) tris dim = some g) :
    2 ≤ dim ∧ ∃ (r : K) (x y z : ℤ),
      dims dim ((bb p.x (rest.map V3.x)).2 - (bb p.x (rest.map V3.x)).1)
      ((bb p.y (rest.map V3.y)).2 - (bb p.y (rest.map V3.y)).1)
      ((bb p.z (rest.map V3.z)).2 - (bb p.z (rest.map V3.z)).1) = some (r, x, y, z) ∧
      ∃ v w : Vol, (v.d0 = x ∧ v.d1 = y ∧ v.d2 = z) ∧ fill dbg v = some w ∧
        g = some ⟨⟨(bb p.x (rest.map V3.x)).1, (bb p.y (rest.map V3.y)).1, (bb p.z (rest.map V3.z)).1⟩,
          r / ((dim : K) - 1), w⟩ := by
  unfold voxelize at h
  simp only at h
  split_ifs at h with hd
  obtain ⟨⟨r, x, y, z⟩, h1, h⟩ := Option.bind_eq_some_iff.1 h
  obtain ⟨v, h2, h⟩ := Option.bind_eq_some_iff.1 h
  obtain ⟨w, h3, h⟩ := Option.bind_eq_some_iff.1 h
  refine ⟨by omega, r, x, y, z, h1, v, w, markTris_same h2, h3, ?_⟩
  cases h
  rfl

theorem voxelize_some {ps : List (V3 K)} {tris : List (ℕ × ℕ × ℕ)} {dim : ℕ} {g : Grid K}
    (hv : Valid ps tris) (h : voxelize dbg ps tris dim = some (some g)) (hs0 : g.vol.d0 ≤ 32767)
    (hs1 : g.vol.d1 ≤ 32767) (hs2 : g.vol.d2 ≤ 32767) : Result ps tris g := by
  cases ps with
  | nil => simp [voxelize] at h
  | cons p rest =>
    obtain ⟨hdim, r, x, y, z, hds, v, w, ⟨q0, q1, q2⟩, hf, hg⟩ := voxelize_inv h
    cases hg
    obtain ⟨s0, s1, s2⟩ := fill_same hf
    obtain ⟨bx, bx1, -⟩ := bb_spec p.x (rest.map V3.x)
    obtain ⟨by_, by1, -⟩ := bb_spec p.y (rest.map V3.y)
    obtain ⟨bz, bz1, -⟩ := bb_spec p.z (rest.map V3.z)
    obtain ⟨-, n0, n1, n2⟩ := dims_spec hdim (sub_nonneg.2 (bx _ bx1).2) (sub_nonneg.2 (by_ _ by1).2)
      (sub_nonneg.2 (bz _ bz1).2) hds
    have m0 := n0.1; have m1 := n1.1; have m2 := n2.1
    simp only at hs0 hs1 hs2
    obtain ⟨g', r', -, -, -, res⟩ := voxelize_run (dbg := dbg) (tris := tris) hdim hds (by omega) (by omega)
      (by omega) (by
        intro hb
        subst hb
        by_contra hn
        have := fill_debug (v := v) (by omega) (by omega) (by omega) (by omega)
        rw [this] at hf; cases hf) hv
    rw [h] at r'
    cases r'
    exact res

/-! ### C167 -/

/-- C167, part 1.  The fill, for every grid that fits into `short` and every set of voxels marked as
surface: afterwards the surface is what it was, a voxel is outside exactly if it can be reached from
the border of the grid without entering the surface, all other voxels are inside, and the counters say
how many there are.  It never reads or writes outside the array and always ends.  (In a debug build
this needs the first side to be the longest, see `C167_violated_debug`.) -/
theorem C167_fill (dbg : Bool) (v : Vol) (h0 : 1 ≤ v.d0) (h1 : 1 ≤ v.d1) (h2 : 1 ≤ v.d2)
    (s0 : v.d0 ≤ 32767) (s1 : v.d1 ≤ 32767) (s2 : v.d2 ≤ 32767)
    (hb : dbg = true → v.d1 ≤ v.d0 ∧ v.d2 ≤ v.d0)
    (hv : ∀ c, Inside3 v.d0 v.d1 v.d2 c → get false v c = some Val.on ∨ get false v c = some Val.undef)
    (hO : v.nOut = 0) (hN : v.nIn = 0) (hS : v.nOn = count v Val.on) :
    ∃ w, fill dbg v = some w ∧ (w.d0 = v.d0 ∧ w.d1 = v.d1 ∧ w.d2 = v.d2) ∧
      (∀ c, Inside3 v.d0 v.d1 v.d2 c →
        (get false w c = some Val.on ↔ get false v c = some Val.on) ∧
        (get false w c = some Val.out ↔
          Open v.d0 v.d1 v.d2 (fun c => get false v c = some Val.on) c) ∧
        (get false w c = some Val.ins ↔ get false v c ≠ some Val.on ∧
          ¬ Open v.d0 v.d1 v.d2 (fun c => get false v c = some Val.on) c)) ∧
      w.nOn = count w Val.on ∧ w.nOut = count w Val.out ∧ w.nIn = count w Val.ins := by
  have gv : ∀ c, Inside3 v.d0 v.d1 v.d2 c → ∀ x, get false v c = some x ↔ valAt v c = x := by
    intro c hc x
    rw [get_false hc, Option.some.injEq]
  obtain ⟨w, r, f⟩ := fill_spec (dbg := dbg) ⟨h0, h1, h2, s0, s1, s2, hb⟩ (fun c hc => by
    have := hv c hc
    rwa [gv c hc, gv c hc] at this) hO hN
  refine ⟨w, r, ⟨f.e0, f.e1, f.e2⟩, ?_, ?_, ?_, ?_⟩
  · intro c hc
    have gw : ∀ x, get false w c = some x ↔ valAt w c = x := by
      intro x
      rw [get_false ((inG_eq f.e0 f.e1 f.e2).2 hc), Option.some.injEq]
    have oc : Open v.d0 v.d1 v.d2 (fun c => get false v c = some Val.on) c ↔
        Open v.d0 v.d1 v.d2 (fun c => valAt v c = Val.on) c := open_congr fun c hc => gv c hc _
    rw [gw, gw, gw, Ne, gv c hc, oc]
    exact ⟨f.on c hc, f.out c hc, f.ins c hc⟩
  · rw [f.nOn, hS, count_eq, count_eq, f.onc]
  · rw [count_eq]; exact f.nOut
  · rw [count_eq]; exact f.nIn

/-- C167, part 2.  A mesh with a longest side (`Longest`, in the aligned frame) is voxelized: the number
of voxels along that side is the one asked for, no side has more than two more, and the grid starts at
the smallest coordinates and has voxels of the size of the longest side divided by one less than the
number asked for.  This is about builds without assertions. -/
theorem C167_total (ps : List (V3 K)) (tris : List (ℕ × ℕ × ℕ)) (dim : ℕ) (hdim : 2 ≤ dim)
    (hmax : dim ≤ 32765) (hv : Valid ps tris) {x0 x1 y0 y1 z0 z1 : K} (hx : Extent ps V3.x x0 x1)
    (hy : Extent ps V3.y y0 y1) (hz : Extent ps V3.z z0 z1)
    (hl : Longest (x1 - x0) (y1 - y0) (z1 - z0)) :
    ∃ g, voxelize false ps tris dim = some (some g) ∧ g.minBB = ⟨x0, y0, z0⟩ ∧
      g.scale = max (x1 - x0) (max (y1 - y0) (z1 - z0)) / ((dim : K) - 1) ∧
      (g.vol.d0 ≤ dim + 2 ∧ g.vol.d1 ≤ dim + 2 ∧ g.vol.d2 ≤ dim + 2) ∧
      (g.vol.d0 = dim ∨ g.vol.d1 = dim ∨ g.vol.d2 = dim) := by
  cases ps with
  | nil => obtain ⟨-, ⟨p, hp, -⟩, -⟩ := hx; simp at hp
  | cons p rest =>
    have ex := bb_extent (ps := p :: rest) hx
    have ey := bb_extent (ps := p :: rest) hy
    have ez := bb_extent (ps := p :: rest) hz
    have le : ∀ {f : V3 K → K} {lo hi : K}, Extent (p :: rest) f lo hi → 0 ≤ hi - lo := by
      rintro f lo hi ⟨h1, ⟨q, hq, rfl⟩, -⟩
      exact sub_nonneg.2 (h1 q hq).2
    obtain ⟨x, y, z, hds, l1, l2, l3, e1, e2, e3⟩ := dims_longest (dim := dim) (le hx) (le hy) (le hz) hl
    have hds' := hds
    rw [← show (bb p.x (rest.map V3.x)).2 - (bb p.x (rest.map V3.x)).1 = x1 - x0 by rw [ex],
      ← show (bb p.y (rest.map V3.y)).2 - (bb p.y (rest.map V3.y)).1 = y1 - y0 by rw [ey],
      ← show (bb p.z (rest.map V3.z)).2 - (bb p.z (rest.map V3.z)).1 = z1 - z0 by rw [ez]] at hds'
    obtain ⟨g, r, g0, g1, g2, -⟩ := voxelize_run (dbg := false) hdim hds' (by omega) (by omega) (by omega)
      (by simp) hv
    obtain ⟨-, r', x', y', z', hds2, v, w, -, -, hg⟩ := voxelize_inv r
    rw [hds'] at hds2
    cases hds2
    cases hg
    refine ⟨_, r, ?_, ?_, ?_, ?_⟩
    · simp only [ex, ey, ez]
    · simp only [ex, ey, ez]
    · rw [g0, g1, g2]; exact ⟨l1, l2, l3⟩
    · rw [g0, g1, g2]
      rcases hl with ⟨h1, h2⟩ | ⟨h1, h2⟩ | ⟨h1, h2, -⟩
      · exact Or.inl (e1 h1 h2)
      · exact Or.inr (Or.inl (e2 h1 h2))
      · exact Or.inr (Or.inr (e3 h1 h2))

theorem unit_covers {g : Grid K} (hs : 0 < g.scale) {c : Cell} {y : V3 K} : Covers g c y ↔
    |(g.unit y).x - c.1| ≤ 1 / 2 ∧ |(g.unit y).y - c.2.1| ≤ 1 / 2 ∧ |(g.unit y).z - c.2.2| ≤ 1 / 2 := by
  have key : ∀ (a m : K) (n : ℤ), |a - (m + g.scale * n)| ≤ g.scale / 2 ↔
      |(a - m) * (1 / g.scale) - n| ≤ 1 / 2 := by
    intro a m n
    have e : a - (m + g.scale * n) = g.scale * ((a - m) * (1 / g.scale) - n) := by
      field_simp
      ring
    rw [e, abs_mul, abs_of_pos hs, show g.scale / 2 = g.scale * (1 / 2) by ring]
    exact mul_le_mul_iff_right₀ hs
  unfold Covers Grid.unit scaled
  rw [key, key, key]

theorem unit_comb {g : Grid K} {a b c : V3 K} {α β γ : K} (hs : α + β + γ = 1) :
    comb α β γ (g.unit a) (g.unit b) (g.unit c) = g.unit (comb α β γ a b c) := by
  obtain rfl : γ = 1 - α - β := by linarith
  unfold comb Grid.unit scaled
  ext <;> simp only <;> ring

/-- C167, part 3.  Nothing of the mesh is lost: every point of every triangle lies in a voxel of the
grid, and every voxel of the grid whose box contains a point of a triangle is on the surface. -/
theorem C167_surface (dbg : Bool) (ps : List (V3 K)) (tris : List (ℕ × ℕ × ℕ)) (dim : ℕ) (g : Grid K)
    (hv : Valid ps tris) (h : voxelize dbg ps tris dim = some (some g)) (hs0 : g.vol.d0 ≤ 32767)
    (hs1 : g.vol.d1 ≤ 32767) (hs2 : g.vol.d2 ≤ 32767) (a b c y : V3 K)
    (ht : IsTriangle ps tris a b c) (hy : OnTriangle a b c y) :
    (∃ q, Inside3 g.vol.d0 g.vol.d1 g.vol.d2 q ∧ Covers g q y) ∧
    ∀ q, Inside3 g.vol.d0 g.vol.d1 g.vol.d2 q → Covers g q y → get false g.vol q = some Val.on := by
  have R := voxelize_some hv h hs0 hs1 hs2
  obtain ⟨t, htm, ea, eb, ec⟩ := ht
  obtain ⟨α, β, γ, ha, hb, hc, hs, rfl⟩ := hy
  have ya : a ∈ ps := List.mem_of_getElem? ea
  have yb : b ∈ ps := List.mem_of_getElem? eb
  have yc : c ∈ ps := List.mem_of_getElem? ec
  have hu := unit_comb (g := g) (a := a) (b := b) (c := c) hs
  constructor
  · have mid : ∀ {p q r d : K}, (0 ≤ p ∧ p + 1 / 2 < d) → (0 ≤ q ∧ q + 1 / 2 < d) →
        (0 ≤ r ∧ r + 1 / 2 < d) →
        0 ≤ α * p + β * q + γ * r ∧ α * p + β * q + γ * r + 1 / 2 < d := by
      rintro p q r d ⟨p1, p2⟩ ⟨q1, q2⟩ ⟨r1, r2⟩
      refine ⟨by positivity, ?_⟩
      have m1 := le_max_left p (max q r)
      have m2 := (le_max_left q r).trans (le_max_right p (max q r))
      have m3 := (le_max_right q r).trans (le_max_right p (max q r))
      have hm : max p (max q r) < d - 1 / 2 := max_lt (by linarith) (max_lt (by linarith) (by linarith))
      have hg : γ = 1 - α - β := by linarith
      nlinarith [mul_nonneg ha (sub_nonneg.2 m1), mul_nonneg hb (sub_nonneg.2 m2),
        mul_nonneg hc (sub_nonneg.2 m3)]
    have ba := R.box a ya; have bb' := R.box b yb; have bc := R.box c yc
    obtain ⟨x1, x2⟩ := mid ba.1 bb'.1 bc.1
    obtain ⟨y1, y2⟩ := mid ba.2.1 bb'.2.1 bc.2.1
    obtain ⟨z1, z2⟩ := mid ba.2.2 bb'.2.2 bc.2.2
    have rnd : ∀ u : K, |u - (⌊u + 1 / 2⌋ : ℤ)| ≤ 1 / 2 := by
      intro u
      have f1 := Int.floor_le (u + 1 / 2)
      have f2 := Int.lt_floor_add_one (u + 1 / 2)
      rw [abs_le]; constructor <;> linarith
    refine ⟨(⌊(g.unit (comb α β γ a b c)).x + 1 / 2⌋, ⌊(g.unit (comb α β γ a b c)).y + 1 / 2⌋,
      ⌊(g.unit (comb α β γ a b c)).z + 1 / 2⌋), ?_, ?_⟩
    · rw [← hu]
      have hh : (0 : K) ≤ 1 / 2 := by norm_num
      exact ⟨⟨Int.floor_nonneg.2 (add_nonneg x1 hh), Int.floor_lt.2 x2⟩,
        ⟨Int.floor_nonneg.2 (add_nonneg y1 hh), Int.floor_lt.2 y2⟩,
        Int.floor_nonneg.2 (add_nonneg z1 hh), Int.floor_lt.2 z2⟩
    · rw [unit_covers R.sc]
      exact ⟨rnd _, rnd _, rnd _⟩
  · intro q hq hcv
    rw [unit_covers R.sc] at hcv
    rw [get_false hq, (R.on q hq).2 ⟨t, htm, a, b, c, ea, eb, ec, ?_⟩]
    obtain ⟨c1, c2, c3⟩ := hcv
    have hu' : g.unit ⟨α * a.x + β * b.x + γ * c.x, α * a.y + β * b.y + γ * c.y,
      α * a.z + β * b.z + γ * c.z⟩ = comb α β γ (g.unit a) (g.unit b) (g.unit c) := hu.symm
    rw [hu'] at c1 c2 c3
    exact triBox_meets ha hb hc hs c1 c2 c3

/-- C167, part 4.  Conversely a voxel on the surface is near the mesh: its box meets the box around
some triangle.  (The test that decides is the separating axis test; `C167_exact` in `Props/TriBox.lean`
shows that it is exact.) -/
theorem C167_near (dbg : Bool) (ps : List (V3 K)) (tris : List (ℕ × ℕ × ℕ)) (dim : ℕ) (g : Grid K)
    (hv : Valid ps tris) (h : voxelize dbg ps tris dim = some (some g)) (hs0 : g.vol.d0 ≤ 32767)
    (hs1 : g.vol.d1 ≤ 32767) (hs2 : g.vol.d2 ≤ 32767) (q : Cell)
    (hq : Inside3 g.vol.d0 g.vol.d1 g.vol.d2 q) (hon : get false g.vol q = some Val.on) :
    ∃ a b c, IsTriangle ps tris a b c ∧
      (∃ p ∈ [a, b, c], p.x ≤ g.minBB.x + g.scale * q.1 + g.scale / 2) ∧
      (∃ p ∈ [a, b, c], g.minBB.x + g.scale * q.1 - g.scale / 2 ≤ p.x) ∧
      (∃ p ∈ [a, b, c], p.y ≤ g.minBB.y + g.scale * q.2.1 + g.scale / 2) ∧
      (∃ p ∈ [a, b, c], g.minBB.y + g.scale * q.2.1 - g.scale / 2 ≤ p.y) ∧
      (∃ p ∈ [a, b, c], p.z ≤ g.minBB.z + g.scale * q.2.2 + g.scale / 2) ∧
      (∃ p ∈ [a, b, c], g.minBB.z + g.scale * q.2.2 - g.scale / 2 ≤ p.z) := by
  have R := voxelize_some hv h hs0 hs1 hs2
  rw [get_false hq, Option.some.injEq] at hon
  obtain ⟨t, htm, a, b, c, ea, eb, ec, hh⟩ := (R.on q hq).1 hon
  have T := triBox_iff.1 hh
  have hs := R.sc
  have up : ∀ (u m : K) (n : ℤ), (u - m) * (1 / g.scale) - n ≤ 1 / 2 → u ≤ m + g.scale * n + g.scale / 2 := by
    intro u m n hn
    have : (u - m) * (1 / g.scale) - n = (u - m - g.scale * n) / g.scale := by field_simp
    rw [this, div_le_iff₀ hs] at hn
    linarith
  have dn : ∀ (u m : K) (n : ℤ), -(1 / 2) ≤ (u - m) * (1 / g.scale) - n → m + g.scale * n - g.scale / 2 ≤ u := by
    intro u m n hn
    have : (u - m) * (1 / g.scale) - n = (u - m - g.scale * n) / g.scale := by field_simp
    rw [this, le_div_iff₀ hs] at hn
    linarith
  have one : ∀ (f : V3 K → K) (m : K) (n : ℤ),
      boxApart ((f a - m) * (1 / g.scale) - n) ((f b - m) * (1 / g.scale) - n)
        ((f c - m) * (1 / g.scale) - n) (1 / 2 : K) = false →
      (∃ p ∈ [a, b, c], f p ≤ m + g.scale * n + g.scale / 2) ∧
        (∃ p ∈ [a, b, c], m + g.scale * n - g.scale / 2 ≤ f p) := by
    intro f m n hb
    rw [boxApart_iff] at hb
    constructor
    · rcases hb.1 with h | h | h
      · exact ⟨a, by simp, up _ _ _ h⟩
      · exact ⟨b, by simp, up _ _ _ h⟩
      · exact ⟨c, by simp, up _ _ _ h⟩
    · rcases hb.2 with h | h | h
      · exact ⟨a, by simp, dn _ _ _ h⟩
      · exact ⟨b, by simp, dn _ _ _ h⟩
      · exact ⟨c, by simp, dn _ _ _ h⟩
  obtain ⟨o1, o2⟩ := one V3.x g.minBB.x q.1 T.bx
  obtain ⟨o3, o4⟩ := one V3.y g.minBB.y q.2.1 T.by'
  obtain ⟨o5, o6⟩ := one V3.z g.minBB.z q.2.2 T.bz
  exact ⟨a, b, c, ⟨t, htm, ea, eb, ec⟩, o1, o2, o3, o4, o5, o6⟩

/-- C167, part 5.  Every voxel has exactly one of the three values: on the surface; outside, exactly if
it can be reached from the border of the grid without entering the surface; or inside.  The numbers
reported are those of the voxels, no voxel inside shares a face with one outside, and none lies on the
border. -/
theorem C167_classes (dbg : Bool) (ps : List (V3 K)) (tris : List (ℕ × ℕ × ℕ)) (dim : ℕ) (g : Grid K)
    (hv : Valid ps tris) (h : voxelize dbg ps tris dim = some (some g)) (hs0 : g.vol.d0 ≤ 32767)
    (hs1 : g.vol.d1 ≤ 32767) (hs2 : g.vol.d2 ≤ 32767) :
    (∀ q, Inside3 g.vol.d0 g.vol.d1 g.vol.d2 q →
      (get false g.vol q = some Val.out ↔
        Open g.vol.d0 g.vol.d1 g.vol.d2 (fun q => get false g.vol q = some Val.on) q) ∧
      (get false g.vol q = some Val.on ∨ get false g.vol q = some Val.out ∨
        get false g.vol q = some Val.ins)) ∧
    (g.vol.nOn = count g.vol Val.on ∧ g.vol.nIn = count g.vol Val.ins ∧
      g.vol.nOut = count g.vol Val.out) ∧
    ∀ q, Inside3 g.vol.d0 g.vol.d1 g.vol.d2 q → get false g.vol q = some Val.ins →
      ¬ Border g.vol.d0 g.vol.d1 g.vol.d2 q ∧
      ∀ q', Inside3 g.vol.d0 g.vol.d1 g.vol.d2 q' → Adj q' q → get false g.vol q' ≠ some Val.out := by
  have R := voxelize_some hv h hs0 hs1 hs2
  have gv : ∀ q, Inside3 g.vol.d0 g.vol.d1 g.vol.d2 q → ∀ x, get false g.vol q = some x ↔ valAt g.vol q = x := by
    intro q hq x
    rw [get_false hq, Option.some.injEq]
  have oc : ∀ q, Open g.vol.d0 g.vol.d1 g.vol.d2 (fun q => get false g.vol q = some Val.on) q ↔
      Open g.vol.d0 g.vol.d1 g.vol.d2 (fun q => valAt g.vol q = Val.on) q :=
    fun q => open_congr fun c hc => gv c hc _
  refine ⟨?_, ?_, ?_⟩
  · intro q hq
    rw [gv q hq, gv q hq, gv q hq, oc]
    refine ⟨R.out q hq, ?_⟩
    by_cases h1 : valAt g.vol q = Val.on
    · exact Or.inl h1
    · by_cases h2 : Open g.vol.d0 g.vol.d1 g.vol.d2 (fun q => valAt g.vol q = Val.on) q
      · exact Or.inr (Or.inl ((R.out q hq).2 h2))
      · exact Or.inr (Or.inr ((R.ins q hq).2 ⟨h1, h2⟩))
  · rw [count_eq, count_eq, count_eq]
    exact ⟨R.nOn, R.nIn, R.nOut⟩
  · intro q hq hi
    rw [gv q hq] at hi
    obtain ⟨h1, h2⟩ := (R.ins q hq).1 hi
    refine ⟨fun hb => h2 (Open.border hq hb h1), ?_⟩
    intro q' hq' ha ho
    rw [gv q' hq'] at ho
    exact h2 (Open.step ((R.out q' hq').1 ho) hq ha h1)

/-- C167, violated: in a debug build the voxelization of a mesh that is noticeably longer along its
second or its third axis than along its first fails with an assertion, whatever its triangles are:
`GetVoxel` compares all three indices with the number of voxels along the first axis. -/
theorem C167_violated_debug (ps : List (V3 K)) (tris : List (ℕ × ℕ × ℕ)) (dim : ℕ)
    {x0 x1 y0 y1 z0 z1 : K} (hx : Extent ps V3.x x0 x1) (hy : Extent ps V3.y y0 y1)
    (hz : Extent ps V3.z z0 z1)
    (hl : (x1 - x0 < y1 - y0 ∧ z1 - z0 < y1 - y0 ∧
        (dim : K) * (x1 - x0) < ((dim : K) - 2) * (y1 - y0)) ∨
      (x1 - x0 < z1 - z0 ∧ y1 - y0 < z1 - z0 ∧
        (dim : K) * (x1 - x0) < ((dim : K) - 2) * (z1 - z0))) :
    voxelize true ps tris dim = none := by
  cases ps with
  | nil => obtain ⟨-, ⟨p, hp, -⟩, -⟩ := hx; simp at hp
  | cons p rest =>
    cases e : voxelize true (p :: rest) tris dim with
    | none => rfl
    | some g =>
      exfalso
      obtain ⟨hdim, r, x, y, z, hds, v, w, ⟨q0, q1, q2⟩, hf, -⟩ := voxelize_inv e
      have ex := bb_extent (ps := p :: rest) hx
      have ey := bb_extent (ps := p :: rest) hy
      have ez := bb_extent (ps := p :: rest) hz
      have le : ∀ {f : V3 K → K} {lo hi : K}, Extent (p :: rest) f lo hi → 0 ≤ hi - lo := by
        rintro f lo hi ⟨h1, ⟨q, hq, rfl⟩, -⟩
        exact sub_nonneg.2 (h1 q hq).2
      have lx := le hx; have ly := le hy; have lz := le hz
      rw [ex, ey, ez] at hds
      simp only at hds
      obtain ⟨-, n0, n1, n2⟩ := dims_spec hdim lx ly lz hds
      have m0 := n0.1; have m1 := n1.1; have m2 := n2.1
      have small : ∀ d : K, 0 < d → (dim : K) * (x1 - x0) < ((dim : K) - 2) * d →
          2 + ⌊(dim : K) * (x1 - x0) / d⌋ < (dim : ℤ) := by
        intro d hd hlt
        have : ⌊(dim : K) * (x1 - x0) / d⌋ < (dim : ℤ) - 2 := by
          rw [Int.floor_lt, div_lt_iff₀ hd]
          push_cast
          exact hlt
        omega
      have bad : v.d0 < v.d1 ∨ v.d0 < v.d2 := by
        rw [q0, q1, q2]
        unfold dims at hds
        rcases hl with ⟨h1, h2, h3⟩ | ⟨h1, h2, h3⟩
        · have hr : 0 < y1 - y0 := lt_of_le_of_lt lx h1
          rw [if_neg (fun h => absurd h.1 (not_lt.2 h1.le)), if_pos ⟨h1, h2⟩, sideCells_some lx hr,
            sideCells_some lz hr] at hds
          cases hds
          exact Or.inl (small _ hr h3)
        · have hr : 0 < z1 - z0 := lt_of_le_of_lt lx h1
          rw [if_neg (fun h => absurd h.2 (not_lt.2 h1.le)), if_neg (fun h => absurd h.2 (not_lt.2 h2.le)),
            sideCells_some lx hr, sideCells_some ly hr] at hds
          cases hds
          exact Or.inr (small _ hr h3)
      rw [fill_debug (by omega) (by omega) (by omega) bad] at hf
      cases hf

/-- C167, violated: if the first two sides are equally long and longer than the third, the third one is
taken for the longest: a square plate gets as many voxels along its first side as that side is longer
than the plate is thick, times the number asked for. -/
theorem C167_violated_square (dbg : Bool) (ps : List (V3 K)) (tris : List (ℕ × ℕ × ℕ)) (dim : ℕ)
    (g : Grid K) {x0 x1 y0 y1 z0 z1 : K} (hx : Extent ps V3.x x0 x1) (hy : Extent ps V3.y y0 y1)
    (hz : Extent ps V3.z z0 z1) (he : x1 - x0 = y1 - y0) (hl : z1 - z0 < x1 - x0)
    (h : voxelize dbg ps tris dim = some (some g)) :
    0 < z1 - z0 ∧ g.vol.d2 = dim ∧ g.vol.d0 = g.vol.d1 ∧
      (dim : K) * ((x1 - x0) / (z1 - z0)) < g.vol.d0 := by
  cases ps with
  | nil => obtain ⟨-, ⟨p, hp, -⟩, -⟩ := hx; simp at hp
  | cons p rest =>
    obtain ⟨hdim, r, x, y, z, hds, v, w, ⟨q0, q1, q2⟩, hf, hg⟩ := voxelize_inv h
    cases hg
    obtain ⟨s0, s1, s2⟩ := fill_same hf
    have ex := bb_extent (ps := p :: rest) hx
    have ey := bb_extent (ps := p :: rest) hy
    have ez := bb_extent (ps := p :: rest) hz
    have le : ∀ {f : V3 K → K} {lo hi : K}, Extent (p :: rest) f lo hi → 0 ≤ hi - lo := by
      rintro f lo hi ⟨h1, ⟨q, hq, rfl⟩, -⟩
      exact sub_nonneg.2 (h1 q hq).2
    have lx := le hx; have ly := le hy; have lz := le hz
    rw [ex, ey, ez] at hds
    simp only at hds ⊢
    unfold dims at hds
    rw [if_neg (fun h => absurd h.1 (not_lt.2 he.le)), if_neg (fun h => absurd h.1 (not_lt.2 he.ge))] at hds
    obtain ⟨x', e1, hds⟩ := Option.bind_eq_some_iff.1 hds
    obtain ⟨y', e2, hds⟩ := Option.bind_eq_some_iff.1 hds
    cases hds
    obtain ⟨hp, -, -, f1⟩ := sideCells_spec hdim lz lx e1
    obtain ⟨-, -, -, f2⟩ := sideCells_spec hdim lz ly e2
    refine ⟨hp, by omega, ?_, ?_⟩
    · rw [s0, s1, q0, q1, f1, f2, he]
    · rw [s0, q0, f1, ← mul_div_assoc]
      have := Int.lt_floor_add_one ((dim : K) * (x1 - x0) / (z1 - z0))
      push_cast
      linarith

/-- C167, violated: a flat square (parallel to the first two axes, and any mesh without extent) cannot
be voxelized: the quotient of the sides is infinite or not a number and is converted to an integer. -/
theorem C167_violated_flat (dbg : Bool) (ps : List (V3 K)) (tris : List (ℕ × ℕ × ℕ)) (dim : ℕ)
    {x0 x1 y0 y1 z0 : K} (hx : Extent ps V3.x x0 x1) (hy : Extent ps V3.y y0 y1)
    (hz : Extent ps V3.z z0 z0) (he : x1 - x0 = y1 - y0) : voxelize dbg ps tris dim = none := by
  cases ps with
  | nil => obtain ⟨-, ⟨p, hp, -⟩, -⟩ := hx; simp at hp
  | cons p rest =>
    cases e : voxelize dbg (p :: rest) tris dim with
    | none => rfl
    | some g =>
      exfalso
      obtain ⟨hdim, r, x, y, z, hds, -⟩ := voxelize_inv e
      rw [bb_extent (ps := p :: rest) hx, bb_extent (ps := p :: rest) hy,
        bb_extent (ps := p :: rest) hz] at hds
      simp only at hds
      unfold dims at hds
      rw [if_neg (fun h => absurd h.1 (not_lt.2 he.le)), if_neg (fun h => absurd h.1 (not_lt.2 he.ge))] at hds
      obtain ⟨x', e1, -⟩ := Option.bind_eq_some_iff.1 hds
      unfold sideCells at e1
      rw [if_pos (sub_self z0)] at e1
      cases e1

end geometry

/-! ### Examples -/

/-- A tetrahedron. -/
def tetra : List (V3 ℚ) := [⟨0, 0, 0⟩, ⟨4, 0, 0⟩, ⟨0, 3, 0⟩, ⟨0, 0, 2⟩]

def tetraTris : List (ℕ × ℕ × ℕ) := [(0, 1, 2), (0, 1, 3), (0, 2, 3), (1, 2, 3)]

example : Extent tetra V3.x 0 4 ∧ Extent tetra V3.y 0 3 ∧ Extent tetra V3.z 0 2 := by
  unfold Extent tetra
  simp

example : Longest (4 - 0 : ℚ) (3 - 0) (2 - 0) ∧ Valid tetra tetraTris := by
  constructor
  · left; norm_num
  · unfold Valid tetra tetraTris; simp

example : IsTriangle tetra tetraTris ⟨0, 0, 0⟩ ⟨4, 0, 0⟩ ⟨0, 3, 0⟩ :=
  ⟨(0, 1, 2), by simp [tetraTris], rfl, rfl, rfl⟩

example : OnTriangle (⟨0, 0, 0⟩ : V3 ℚ) ⟨4, 0, 0⟩ ⟨0, 3, 0⟩ ⟨1, 3 / 2, 0⟩ :=
  ⟨1 / 4, 1 / 4, 1 / 2, by norm_num, by norm_num, by norm_num, by norm_num, by ext <;> norm_num⟩

/-- The hypotheses of parts 3 to 5 are met. -/
example : ∃ g, voxelize true tetra tetraTris 5 = some (some g) ∧ g.vol.d0 = 5 ∧ g.vol.d1 = 5 ∧
    g.vol.d2 = 4 := by
  have hx : Extent tetra V3.x 0 4 := by unfold Extent tetra; simp
  have hy : Extent tetra V3.y 0 3 := by unfold Extent tetra; simp
  have hz : Extent tetra V3.z 0 2 := by unfold Extent tetra; simp
  obtain ⟨g, h, g0, g1, g2, -⟩ := voxelize_run (dbg := true) (p := (⟨0, 0, 0⟩ : V3 ℚ))
    (rest := [⟨4, 0, 0⟩, ⟨0, 3, 0⟩, ⟨0, 0, 2⟩]) (tris := tetraTris) (dim := 5) (r := 4) (x := 5) (y := 5)
    (z := 4) (by norm_num) (by decide +kernel) (by norm_num) (by norm_num) (by norm_num) (by norm_num)
    (by decide +kernel)
  exact ⟨g, h, g0, g1, g2⟩

/-- A shell of surface voxels around one voxel: the hypotheses of part 1 are met, and the voxel in the
middle is inside. -/
def shell : Vol where
  d0 := 3
  d1 := 3
  d2 := 3
  data := fun n => if n = 4 ∨ n = 10 ∨ n = 12 ∨ n = 14 ∨ n = 16 ∨ n = 22 then Val.on else Val.undef
  nOn := 6
  nIn := 0
  nOut := 0

example : (fill true shell).map (fun w => (w.nOn, w.nIn, w.nOut, get false w (1, 1, 1))) =
    some (6, 1, 20, some Val.ins) := by decide +kernel

example : (∀ c ∈ gridSet 3 3 3, get false shell c = some Val.on ∨ get false shell c = some Val.undef) ∧
    shell.nOn = count shell Val.on := by decide +kernel

/-- A bar along the second axis does not get past the assertions. -/
example (tris : List (ℕ × ℕ × ℕ)) :
    voxelize true [(⟨0, 0, 0⟩ : V3 ℚ), ⟨1, 0, 0⟩, ⟨0, 10, 0⟩, ⟨0, 0, 1⟩] tris 20 = none :=
  C167_violated_debug _ tris 20 (x0 := 0) (x1 := 1) (y0 := 0) (y1 := 10) (z0 := 0) (z1 := 1)
    (by unfold Extent; simp) (by unfold Extent; simp) (by unfold Extent; simp)
    (Or.inl (by norm_num))

/-- A flat unit square. -/
example (tris : List (ℕ × ℕ × ℕ)) :
    voxelize false [(⟨0, 0, 0⟩ : V3 ℚ), ⟨1, 0, 0⟩, ⟨1, 1, 0⟩, ⟨0, 1, 0⟩] tris 64 = none :=
  C167_violated_flat false _ tris 64 (x0 := 0) (x1 := 1) (y0 := 0) (y1 := 1) (z0 := 0)
    (by unfold Extent; simp) (by unfold Extent; simp) (by unfold Extent; simp) (by norm_num)

/-- A square plate a tenth as thick as it is long, with eight voxels asked for: it gets 82 along its
sides. -/
example : ∃ g, voxelize false [(⟨0, 0, 0⟩ : V3 ℚ), ⟨10, 0, 0⟩, ⟨0, 10, 0⟩, ⟨0, 0, 1⟩] [(0, 1, 2)] 8 =
    some (some g) ∧ g.vol.d0 = 82 := by
  obtain ⟨g, h, g0, -⟩ := voxelize_run (dbg := false) (p := (⟨0, 0, 0⟩ : V3 ℚ))
    (rest := [⟨10, 0, 0⟩, ⟨0, 10, 0⟩, ⟨0, 0, 1⟩]) (tris := [(0, 1, 2)]) (dim := 8) (r := 1) (x := 82)
    (y := 82) (z := 8) (by norm_num) (by decide +kernel) (by norm_num) (by norm_num) (by norm_num)
    (by norm_num) (by decide +kernel)
  exact ⟨g, h, g0⟩

end Verif.Voxel
