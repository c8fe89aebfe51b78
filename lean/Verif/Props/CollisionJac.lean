import Verif.Props.CollisionCons

/-!
C94 (Jacobians of the collision constraints with a fixed number of rows), C95 (the constraints with one row per contact),
C96 (the numerical constraints).
-/

set_option linter.unusedSectionVars false
set_option linter.unusedVariables false

namespace Verif.Collision

universe u v w

/-! ### Writing rows -/

section rows
variable {K : Type v} [Field K] {n : Nat}

/-- Row `i` of `J'` is that of `J` with the block of `n` columns at `off` set to `f` where it was zero. -/
structure RowSet (J J' : Jac K) (i off : Nat) (f : Fin n → K) : Prop where
  rows : J'.rows = J.rows
  cols : J'.cols = J.cols
  same : ∀ a b, ¬ (a = i ∧ ∃ j : Fin n, b = off + j.val) → J'.val a b = J.val a b ∧ J'.stored a b = J.stored a b
  put : ∀ j : Fin n, J.val i (off + j.val) = 0 → J'.val i (off + j.val) = f j
  mono : ∀ a b, J.stored a b = true → J'.stored a b = true

theorem writeList (J : Jac K) (i off : Nat) (f : Fin n → K) (hi : i < J.rows) (hc : off + n ≤ J.cols) (l : List (Fin n)) :
    ∃ J', l.foldlM (fun J j => J.coeffRef i (off + j.val) (f j)) J = some J' ∧ J'.rows = J.rows ∧ J'.cols = J.cols ∧
      (∀ a b, ¬ (a = i ∧ ∃ j ∈ l, b = off + j.val) → J'.val a b = J.val a b ∧ J'.stored a b = J.stored a b) ∧
      (∀ j ∈ l, J'.val i (off + j.val) = f j ∧ J'.stored i (off + j.val) = true) ∧
      (∀ a b, J.stored a b = true → J'.stored a b = true) := by
  induction l generalizing J with
  | nil => exact ⟨J, rfl, rfl, rfl, fun _ _ _ => ⟨rfl, rfl⟩, by simp, fun _ _ h => h⟩
  | cons j l ih =>
    have hj := j.2
    have h1 : J.coeffRef i (off + j.val) (f j) = some (J.put i (off + j.val) (f j)) := by
      rw [Jac.coeffRef, if_pos ⟨hi, by omega⟩]
    obtain ⟨J', e, a1, a2, a3, a4, a5⟩ := ih (J.put i (off + j.val) (f j)) hi hc
    refine ⟨J', by rw [List.foldlM_cons, h1]; exact e, a1, a2, ?_, ?_, ?_⟩
    · intro a b hab
      have := a3 a b (by rintro ⟨rfl, j', hj', rfl⟩; exact hab ⟨rfl, j', by simp [hj'], rfl⟩)
      rw [this.1, this.2]
      have hne : ¬ (a = i ∧ b = off + j.val) := by rintro ⟨rfl, rfl⟩; exact hab ⟨rfl, j, by simp, rfl⟩
      simp only [Jac.put]
      rw [if_neg hne, if_neg hne]
      exact ⟨rfl, rfl⟩
    · intro j' hj'
      by_cases hm : j' ∈ l
      · exact a4 j' hm
      · rcases List.mem_cons.1 hj' with rfl | h
        · have := a3 i (off + j'.val) (by
            rintro ⟨_, j, hjl, h⟩
            have : j = j' := by ext; omega
            exact hm (this ▸ hjl))
          rw [this.1, this.2]
          simp [Jac.put]
        · exact absurd h hm
    · intro a b hs
      apply a5
      simp only [Jac.put]
      split_ifs
      · rfl
      · exact hs

theorem writeRow_set (J : Jac K) (i off : Nat) (f : Fin n → K) (hi : i < J.rows) (hc : off + n ≤ J.cols) :
    ∃ J', J.writeRow i off f = some J' ∧ RowSet J J' i off f ∧ ∀ j : Fin n, J'.stored i (off + j.val) = true := by
  obtain ⟨J', e, a1, a2, a3, a4, a5⟩ := writeList J i off f hi hc (List.finRange n)
  refine ⟨J', e, ⟨a1, a2, fun a b h => a3 a b fun ⟨x, j, _, y⟩ => h ⟨x, j, y⟩, fun j _ => (a4 j (List.mem_finRange j)).1, a5⟩,
    fun j => (a4 j (List.mem_finRange j)).2⟩

theorem insertList (J : Jac K) (i off : Nat) (f : Fin n → K) (hi : i < J.rows) (hc : off + n ≤ J.cols) (l : List (Fin n))
    (hl : l.Pairwise (· < ·)) (hs : ∀ j ∈ l, ∀ b < J.cols, J.stored i b = true → b < off + j.val) :
    ∃ J', l.foldlM (fun J j => J.insertBack i (off + j.val) (f j)) J = some J' ∧ J'.rows = J.rows ∧ J'.cols = J.cols ∧
      (∀ a b, ¬ (a = i ∧ ∃ j ∈ l, b = off + j.val) → J'.val a b = J.val a b ∧ J'.stored a b = J.stored a b) ∧
      (∀ j ∈ l, J'.val i (off + j.val) = f j ∧ J'.stored i (off + j.val) = true) ∧
      (∀ a b, J.stored a b = true → J'.stored a b = true) := by
  induction l generalizing J with
  | nil => exact ⟨J, rfl, rfl, rfl, fun _ _ _ => ⟨rfl, rfl⟩, by simp, fun _ _ h => h⟩
  | cons j l ih =>
    have hj := j.2
    have hall : (List.range J.cols).all (fun b => decide (b < off + j.val) || !J.stored i b) = true := by
      rw [List.all_eq_true]
      intro b hb
      cases hst : J.stored i b with
      | false => simp
      | true => simpa using hs j (by simp) b (List.mem_range.1 hb) hst
    have h1 : J.insertBack i (off + j.val) (f j) = some (J.put i (off + j.val) (f j)) := by
      rw [Jac.insertBack, if_pos ⟨hi, by omega, hall⟩]
    obtain ⟨hl1, hl2⟩ := List.pairwise_cons.1 hl
    obtain ⟨J', e, a1, a2, a3, a4, a5⟩ := ih (J.put i (off + j.val) (f j)) hi hc hl2 (by
      intro j' hj' b hb hst
      simp only [Jac.put] at hst hb
      have hlt : j.val < j'.val := hl1 j' hj'
      split_ifs at hst with hc'
      · omega
      · exact hs j' (by simp [hj']) b hb hst)
    refine ⟨J', by rw [List.foldlM_cons, h1]; exact e, a1, a2, ?_, ?_, ?_⟩
    · intro a b hab
      have := a3 a b (by rintro ⟨rfl, j', hj', rfl⟩; exact hab ⟨rfl, j', by simp [hj'], rfl⟩)
      rw [this.1, this.2]
      have hne : ¬ (a = i ∧ b = off + j.val) := by rintro ⟨rfl, rfl⟩; exact hab ⟨rfl, j, by simp, rfl⟩
      simp only [Jac.put]
      rw [if_neg hne, if_neg hne]
      exact ⟨rfl, rfl⟩
    · intro j' hj'
      by_cases hm : j' ∈ l
      · exact a4 j' hm
      · rcases List.mem_cons.1 hj' with rfl | h
        · have := a3 i (off + j'.val) (by
            rintro ⟨_, j, hjl, h⟩
            have : j = j' := by ext; omega
            exact hm (this ▸ hjl))
          rw [this.1, this.2]
          simp [Jac.put]
        · exact absurd h hm
    · intro a b hs'
      apply a5
      simp only [Jac.put]
      split_ifs
      · rfl
      · exact hs'

theorem insertRow_set (J : Jac K) (i off : Nat) (f : Fin n → K) (hi : i < J.rows) (hc : off + n ≤ J.cols)
    (hs : ∀ b, J.stored i b = true → b < off) :
    ∃ J', J.insertRow i off f = some J' ∧ RowSet J J' i off f ∧ ∀ j : Fin n, J'.stored i (off + j.val) = true := by
  obtain ⟨J', e, a1, a2, a3, a4, a5⟩ := insertList J i off f hi hc (List.finRange n) (List.pairwise_lt_finRange n)
    (fun j _ b _ h => by have := hs b h; omega)
  refine ⟨J', e, ⟨a1, a2, fun a b h => a3 a b fun ⟨x, j, _, y⟩ => h ⟨x, j, y⟩, fun j _ => (a4 j (List.mem_finRange j)).1, a5⟩,
    fun j => (a4 j (List.mem_finRange j)).2⟩

/-- Rows `k, k+1, …` of `J'` are those of `J` with the block at `off` set to `f` of the list elements. -/
structure BlockSet {α : Type*} (J J' : Jac K) (k off : Nat) (l : List α) (f : α → Fin n → K) : Prop where
  rows : J'.rows = J.rows
  cols : J'.cols = J.cols
  same : ∀ a b, ¬ ((k ≤ a ∧ a < k + l.length) ∧ ∃ j : Fin n, b = off + j.val) → J'.val a b = J.val a b ∧ J'.stored a b = J.stored a b
  put : ∀ (i : Nat) x, l[i]? = some x → ∀ j : Fin n, J.val (k + i) (off + j.val) = 0 → J'.val (k + i) (off + j.val) = f x j
  mono : ∀ a b, J.stored a b = true → J'.stored a b = true

theorem block_fold {α : Type*} (body : Jac K → α × Nat → Option (Jac K)) (rows cols off : Nat) (f : α → Fin n → K) (l : List α)
    (k : Nat) (hk : k + l.length ≤ rows)
    (hbody : ∀ (J : Jac K) (x : α) (i : Nat), x ∈ l → J.rows = rows → J.cols = cols → i < rows →
      ∃ J', body J (x, i) = some J' ∧ RowSet J J' i off (f x))
    (J : Jac K) (hr : J.rows = rows) (hc : J.cols = cols) :
    ∃ J', (l.zipIdx k).foldlM body J = some J' ∧ BlockSet J J' k off l f := by
  induction l generalizing J k with
  | nil => exact ⟨J, rfl, ⟨rfl, rfl, fun _ _ _ => ⟨rfl, rfl⟩, by simp, fun _ _ h => h⟩⟩
  | cons x l ih =>
    simp only [List.length_cons] at hk
    obtain ⟨J1, e1, r1⟩ := hbody J x k (by simp) hr hc (by omega)
    obtain ⟨J2, e2, r2⟩ := ih (k + 1) (by omega) (fun J y i hy => hbody J y i (by simp [hy])) J1 (r1.rows.trans hr) (r1.cols.trans hc)
    refine ⟨J2, by rw [List.zipIdx_cons, List.foldlM_cons, e1]; exact e2,
      ⟨r2.rows.trans r1.rows, r2.cols.trans r1.cols, ?_, ?_, fun a b h => r2.mono a b (r1.mono a b h)⟩⟩
    · intro a b hab
      have s2 := r2.same a b (fun h => hab ⟨by simp only [List.length_cons]; omega, h.2⟩)
      have s1 := r1.same a b (fun h => hab ⟨by simp only [List.length_cons]; omega, h.2⟩)
      exact ⟨s2.1.trans s1.1, s2.2.trans s1.2⟩
    · intro i y hy j hz
      cases i with
      | zero =>
        simp at hy; subst hy
        rw [(r2.same (k + 0) (off + j.val) (fun h => by omega)).1]
        exact r1.put j hz
      | succ i =>
        have hy' : l[i]? = some y := by simpa using hy
        have he : k + (i + 1) = k + 1 + i := by omega
        rw [he]
        refine r2.put i y hy' j ?_
        rw [(r1.same (k + 1 + i) (off + j.val) (fun h => by omega)).1, ← he]
        exact hz

theorem setZeros_spec (ts : List (Nat × Nat)) (J : Jac K) (h : ∀ t ∈ ts, t.1 < J.rows ∧ t.2 < J.cols)
    (hz : ∀ a b, J.val a b = 0) :
    ∃ J', J.setZeros ts = some J' ∧ J'.rows = J.rows ∧ J'.cols = J.cols ∧ (∀ a b, J'.val a b = 0) ∧
      ∀ a b, J'.stored a b = true ↔ J.stored a b = true ∨ (a, b) ∈ ts := by
  induction ts generalizing J with
  | nil => exact ⟨J, rfl, rfl, rfl, hz, by simp⟩
  | cons t ts ih =>
    have h1 : J.coeffRef t.1 t.2 0 = some (J.put t.1 t.2 0) := by rw [Jac.coeffRef, if_pos (h t (by simp))]
    obtain ⟨J', e, a1, a2, a3, a4⟩ := ih (J.put t.1 t.2 0) (fun s hs => h s (by simp [hs])) (by
      intro a b; simp only [Jac.put]; split_ifs
      · rfl
      · exact hz a b)
    refine ⟨J', ?_, a1, a2, a3, ?_⟩
    · rw [Jac.setZeros, List.foldlM_cons, h1]; exact e
    · intro a b
      rw [a4 a b]
      simp only [Jac.put, List.mem_cons]
      by_cases hab : a = t.1 ∧ b = t.2
      · obtain ⟨rfl, rfl⟩ := hab; simp
      · rw [if_neg hab]
        have : (a, b) ≠ t := fun h => hab (by rw [← h]; exact ⟨rfl, rfl⟩)
        simp [this]

end rows

/-! ### The average of a row -/

section average
variable {Name : Type w} {ι : Type u} {K : Type v} [Field K] [LinearOrder K] [IsStrictOrderedRing K]

/-- Specification: the gradients of the counting links averaged with the depths (with buffer) as weights; zero without
weights. -/
def average (k : Fin 2) (rs : List (GradRes ι K)) (j : ι) : K :=
  if totalWeight k rs = 0 then 0 else weightedSum k rs j / totalWeight k rs

/-- The weighted average for a normaliser that is at least every counting error. -/
theorem weightedAvg_any (lowest : K) (hlow : lowest < 0) (key : Name × Name) (sk : Nat × Nat) (coeff : K)
    (rs : List (GradRes ι K)) (hb : ∀ r ∈ rs, lowest < r.errorBuf) (k : Fin 2) (hr : ∀ r ∈ rs, Consistent k r)
    (M : K) (hM : ∀ r ∈ rs, ∀ i, Counts k i r → r.errorBuf ≤ M) :
    weightedAvg ((GSet.new lowest key sk coeff : GSet Name ι K).addAll rs) k M = some (average k rs) := by
  by_cases hpos : 0 < M
  · obtain ⟨v, h1, h2, h3⟩ := C48_weighted_average (Name := Name) lowest hlow key sk coeff rs hb k hr M hpos
    rw [h1]
    congr 1
    funext j
    by_cases h0 : totalWeight k rs = 0
    · rw [h2 h0, average, if_pos h0]
    · rw [(h3 h0).2, average, if_neg h0]
  · have hz : ∀ p ∈ pairs k rs, max p.1.errorBuf 0 = 0 := by
      intro p hp
      obtain ⟨r, hr', hp'⟩ := List.mem_flatMap.1 hp
      obtain ⟨i, _, hi⟩ := List.mem_filterMap.1 hp'
      split_ifs at hi with hc
      simp only [Option.some.injEq] at hi
      subst hi
      exact max_eq_right (le_trans (hM r hr' i hc) (not_lt.1 hpos))
    have ht : totalWeight k rs = 0 := by
      rw [totalWeight, List.map_congr_left (g := fun _ => (0 : K)) (fun p hp => hz p hp)]
      simp
    have hav : average k rs = fun _ : ι => (0 : K) := by funext j; rw [average, if_pos ht]
    rw [hav]
    let g := (GSet.new lowest key sk coeff : GSet Name ι K).addAll rs
    have hbuf : ∀ i, ¬ 0 < (g.maxError i).buf k := by
      intro i h
      have e := (slots (Name := Name) lowest key sk coeff rs i k).2.2.1
      have h' : 0 < (contrib GradRes.errorBuf k i rs).foldl max lowest := by rw [← e]; exact h
      have : ∀ (l : List K) (a : K), a < 0 → (∀ v ∈ l, v ≤ 0) → ¬ 0 < l.foldl max a := by
        intro l
        induction l with
        | nil => intro a ha _ h; simp at h; exact absurd h (not_lt.2 ha.le)
        | cons v l ih =>
          intro a ha hl h
          rw [List.foldl_cons] at h
          rcases lt_or_eq_of_le (max_le ha.le (hl v (by simp))) with h3 | h3
          · exact ih _ h3 (fun v hv => hl v (by simp [hv])) h
          · rw [h3] at h
            clear ih h3
            induction l with
            | nil => simp at h
            | cons w l ih2 =>
              rw [List.foldl_cons, max_eq_left (hl w (by simp))] at h
              exact ih2 (fun u hu => by
                rcases List.mem_cons.1 hu with rfl | hu
                · exact hl u (by simp)
                · exact hl u (by simp [hu])) h
      refine this _ lowest hlow ?_ h'
      intro v hv
      obtain ⟨r, hr', hc, rfl⟩ := (mem_contrib _ k i rs v).1 hv
      exact le_trans (hM r hr' i hc) (not_lt.1 hpos)
    have hlink : ∀ r (s : AvgState ι K) i, avgLink g k M r s i = some s := by
      intro r s i
      simp only [avgLink, if_neg (hbuf i), ite_self]
    have hloop : avgLoop g k M = some ⟨0, fun _ => 0, 0⟩ := by
      simp only [avgLoop, hlink]
      generalize g.results = l
      induction l with
      | nil => rfl
      | cons r l ih => rw [List.foldlM_cons]; exact ih
    show weightedAvg g k M = _
    simp only [weightedAvg, hloop]
    split_ifs <;> rfl

end average

/-! ### C94 -/

section C94
variable {Key : Type w} [DecidableEq Key] {Name : Type w} [LinearOrder Name] {n : Nat} {K : Type v} [Field K] [LinearOrder K]
  [IsStrictOrderedRing K] {X : Type*}

/-- Specification: column `b` belongs to the block of `n` columns at `off`. -/
def InBlock (n off b : Nat) : Prop := ∃ j : Fin n, b = off + j.val

/-- Specification of a Jacobian for the groups `gs`: `blocks` lists the free ends with the first columns of their
variables.  Row `i` holds minus the average gradient of group `i` in each block; everything else is zero. -/
structure JacobianIs (rows cols : Nat) (gs : List (GSet Name (Fin n) K)) (blocks : List (Fin 2 × Nat)) (J : Jac K) : Prop where
  nRows : J.rows = rows
  nCols : J.cols = cols
  rowVal : ∀ (i : Nat) g, i < rows → gs[i]? = some g → ∀ p ∈ blocks, ∀ j : Fin n,
    J.val i (p.2 + j.val) = -average p.1 g.results j
  zero : ∀ a b, ¬ (a < rows ∧ a < gs.length ∧ ∃ p ∈ blocks, InBlock n p.2 b) → J.val a b = 0

/-- Specification of the pattern: inside the rows and the columns of the variables; all of it with fixed sparsity. -/
def PatternIs (n rows : Nat) (offs : List Nat) (fixedSparsity : Bool) (J : Jac K) : Prop :=
  (∀ a b, J.stored a b = true → a < rows ∧ ∃ off ∈ offs, InBlock n off b) ∧
  (fixedSparsity = true → ∀ a b, a < rows → (∃ off ∈ offs, InBlock n off b) → J.stored a b = true)

/-- Specification: group `g` holds the contacts of one pair and shape pair. -/
def GroupIs (raw : RawMap Name (Fin n) K) (near : (Name × Name) → Raw (Fin n) K → Prop)
    (grad : (Name × Name) → Raw (Fin n) K → GradRes (Fin n) K) (g : GSet Name (Fin n) K) : Prop :=
  ∃ p ∈ raw, g.key = p.1 ∧ g.results = (members near p g.shapeKey).map (grad p.1)

theorem mem_zeros1 (rows n index a b : Nat) : (a, b) ∈ zeros1 rows n index ↔ a < rows ∧ InBlock n index b := by
  simp only [zeros1, List.mem_flatMap, List.mem_range, List.mem_map, InBlock, Prod.mk.injEq]
  constructor
  · rintro ⟨i, hi, j, hj, rfl, rfl⟩; exact ⟨hi, ⟨j, hj⟩, rfl⟩
  · rintro ⟨ha, j, rfl⟩; exact ⟨a, ha, j.val, j.2, rfl, rfl⟩

theorem mem_zeros2 (rows n index0 index1 a b : Nat) :
    (a, b) ∈ zeros2 rows n index0 index1 ↔ a < rows ∧ (InBlock n index0 b ∨ InBlock n index1 b) := by
  simp only [zeros2, List.mem_flatMap, List.mem_range, InBlock, Prod.mk.injEq, List.mem_cons, List.not_mem_nil, or_false]
  constructor
  · rintro ⟨i, hi, j, hj, ⟨rfl, rfl⟩ | ⟨rfl, rfl⟩⟩
    · exact ⟨hi, Or.inl ⟨⟨j, hj⟩, rfl⟩⟩
    · exact ⟨hi, Or.inr ⟨⟨j, hj⟩, rfl⟩⟩
  · rintro ⟨ha, ⟨j, rfl⟩ | ⟨j, rfl⟩⟩
    · exact ⟨a, ha, j.val, j.2, Or.inl ⟨rfl, rfl⟩⟩
    · exact ⟨a, ha, j.val, j.2, Or.inr ⟨rfl, rfl⟩⟩

/-- The matrix every `getJacobian` starts from. -/
theorem start_spec (rows cols : Nat) (zeros : List (Nat × Nat)) (hz : ∀ t ∈ zeros, t.1 < rows ∧ t.2 < cols) (inited fs : Bool)
    (ts : List (Nat × Nat)) (ht : ts = if inited && fs then zeros else []) (hi : inited = true) :
    ∃ J : Jac K, (Jac.empty rows cols).setZeros ts = some J ∧ J.rows = rows ∧ J.cols = cols ∧ (∀ a b, J.val a b = 0) ∧
      ∀ a b, J.stored a b = true ↔ fs = true ∧ (a, b) ∈ zeros := by
  obtain ⟨J, h1, h2, h3, h4, h5⟩ := setZeros_spec ts (Jac.empty rows cols : Jac K) (by
    intro t h
    rw [ht] at h
    split_ifs at h
    · exact hz t h
    · simp at h) (fun _ _ => rfl)
  refine ⟨J, h1, h2, h3, h4, fun a b => ?_⟩
  rw [h5, ht, hi]
  cases fs <;> simp [Jac.empty]

/-- The average of a group of the discrete evaluator. -/
theorem discreteAvg_spec (ev : Evaluator Name K) (hlow : ev.lowest < 0) (raw : RawMap Name (Fin n) K) (h : Delivered ev raw)
    (hu : Unclassified raw) (gs : List (GSet Name (Fin n) K)) (hg : Groups ev raw (Near ev) (grad1 ev) gs)
    (g : GSet Name (Fin n) K) (hm : g ∈ gs) :
    ∃ M, g.getMaxErrorWithBufferT ev.lowest 0 = some M ∧ weightedAvg g 0 M = some (average 0 g.results) := by
  obtain ⟨p, hp, rs, _, hrs, hres, e, hne, hl, hb⟩ := hg.low h (grad1_error ev) g hm
  obtain ⟨_, _, _, h3, h4⟩ := C46_max_error_at (Name := Name) ev.lowest p.1 g.shapeKey (ev.coeff.get p.1.1 p.1.2) g.results hl hb 0
  rw [← e] at h3 h4
  cases hv : g.getMaxErrorWithBufferT ev.lowest 0 with
  | none =>
    obtain ⟨r, hr⟩ := List.exists_mem_of_ne_nil _ hne
    have hr' := hr
    rw [hres] at hr'
    obtain ⟨q, hq, rfl⟩ := List.mem_map.1 hr'
    obtain ⟨i, hi⟩ := grad1_counts ev p.1 q (h.active p hp q (hrs q hq)) (hu p hp q (hrs q hq))
    exact absurd hi (h3.1 hv _ hr i)
  | some M =>
    refine ⟨M, rfl, ?_⟩
    have := weightedAvg_any (Name := Name) ev.lowest hlow p.1 g.shapeKey (ev.coeff.get p.1.1 p.1.2) g.results hb 0
      (fun r _ => consistent_zero r) M (fun r hr i hc => (h4 M hv).2 _ ⟨r, hr, i, hc, rfl⟩)
    rwa [← e] at this

/-- C94 for `DiscreteCollisionConstraint`: after any history of updates, the Jacobian does not fail; row `i` holds minus
the average gradient of the contacts of group `i` in the columns of the variable, and everything else is zero; with fixed
sparsity the stored pattern is the same after every update. -/
theorem C94_discrete (ev : Evaluator Name K) (hlow : ev.lowest < 0)
    (sort : List (GSet Name (Fin n) K) → List (GSet Name (Fin n) K)) (hsort : ∀ l, (sort l).Perm l) (k0 : Key) (m : Int)
    (fs : Bool) (s : Con Key Name n K) (hnew : Con.new k0 m fs = some s)
    (hash : X → Key) (tests : X → RawMap Name (Fin n) K) (hinj : ∀ x y, hash x = hash y → tests x = tests y)
    (hd : ∀ x, Delivered ev (tests x)) (hu : ∀ x, Unclassified (tests x)) (cols index : Nat) (hcols : index + n ≤ cols)
    (xs : List X) (x : X) :
    ∃ t d J, s.run hash (fun x => calcCollisions ev sort m.toNat (tests x)) (zeros1 m.toNat n index) (xs ++ [x]) = some t ∧
      calcCollisions ev sort m.toNat (tests x) = some d ∧ t.discreteJacobian ev cols index = some J ∧
      (∀ g ∈ d.sets, GroupIs (tests x) (Near ev) (grad1 ev) g) ∧
      JacobianIs m.toNat cols d.sets [(0, index)] J ∧ PatternIs n m.toNat [index] fs J := by
  obtain ⟨_, hm, _, _⟩ := Con.new_ok (X := X) k0 hash (fun x => calcCollisions ev sort m.toNat (tests x))
    (zeros1 m.toNat n index) m fs s hnew
  have hsome : ∀ x, calcCollisions ev sort m.toNat (tests x) ≠ none := by
    intro x
    obtain ⟨d, e, _⟩ := calcCollisions_spec ev sort hsort m.toNat hm (tests x) (hd x)
    rw [e]; simp
  obtain ⟨d, e, _, hg, _⟩ := calcCollisions_spec ev sort hsort m.toNat hm (tests x) (hd x)
  obtain ⟨t, h1, h2, h3, h5, h4⟩ := Con.run_last hash (fun x => calcCollisions ev sort m.toNat (tests x)) (zeros1 m.toNat n index)
    (fun a b hab => by simp only [hinj a b hab]) k0 m fs s hnew xs (fun x _ => hsome x) x d e
  have hb : t.bounds.length = m.toNat := by rw [h2.bounds]; simp
  obtain ⟨J0, j1, j2, j3, j4, j5⟩ := start_spec (K := K) m.toNat cols (zeros1 m.toNat n index) (by
    rintro ⟨a, b⟩ ht
    obtain ⟨h, j, hj⟩ := (mem_zeros1 _ _ _ _ _).1 ht
    have := j.2
    simp only at *
    omega) t.inited fs t.triplets h2.triplets h5
  obtain ⟨J, f1, f2⟩ := block_fold (n := n) (fun (J : Jac K) (g : GSet Name (Fin n) K × Nat) => match g.1.getMaxErrorWithBufferT ev.lowest 0 with
      | none => none
      | some M => match weightedAvg g.1 0 M with
        | none => none
        | some v => J.writeRow g.2 index fun j => -1 * v j) m.toNat cols index
    (fun g j => -average 0 g.results j) (d.sets.take m.toNat) 0 (by simp) (by
      intro J g i hgm hr hc hi
      obtain ⟨M, e1, e2⟩ := discreteAvg_spec ev hlow (tests x) (hd x) (hu x) d.sets hg g (List.mem_of_mem_take hgm)
      obtain ⟨J', w1, w2, _⟩ := writeRow_set J i index (fun j => -1 * average 0 g.results j) (hr ▸ hi) (hc ▸ hcols)
      refine ⟨J', by simp only [e1, e2, w1], ?_⟩
      simpa using w2) J0 j2 j3
  refine ⟨t, d, J, h1, e, ?_, fun g hgm => hg.exact g hgm, ⟨f2.rows.trans j2, f2.cols.trans j3, ?_, ?_⟩, ?_, ?_⟩
  · simp only [Con.discreteJacobian, h3, h2.hrows, j1, Con.used, hb]
    exact f1
  · intro i g hi hgi p hp j
    simp only [List.mem_singleton] at hp
    subst hp
    have := f2.put i g (by rw [List.getElem?_take, if_pos hi, hgi]) j (j4 _ _)
    simpa using this
  · intro a b hab
    rw [(f2.same a b ?_).1, j4]
    rintro ⟨⟨_, ha⟩, hbk⟩
    simp only [List.length_take] at ha
    exact hab ⟨by omega, by omega, (0, index), by simp, hbk⟩
  · intro a b hst
    by_cases hin : (0 ≤ a ∧ a < 0 + (d.sets.take m.toNat).length) ∧ ∃ j : Fin n, b = index + j.val
    · have := hin.1.2
      simp only [List.length_take] at this
      exact ⟨by omega, index, by simp, hin.2⟩
    · rw [(f2.same a b hin).2] at hst
      obtain ⟨_, hz⟩ := (j5 a b).1 hst
      obtain ⟨ha, hbk⟩ := (mem_zeros1 _ _ _ _ _).1 hz
      exact ⟨ha, index, by simp, hbk⟩
  · rintro hfs a b ha ⟨off, ho, hbk⟩
    simp only [List.mem_singleton] at ho
    subst ho
    exact f2.mono a b ((j5 a b).2 ⟨hfs, (mem_zeros1 _ _ _ _ _).2 ⟨ha, hbk⟩⟩)

/-- The average of a group of an LVS evaluator at the free end `k`, and whether the row is written at all. -/
theorem continuousAvg_spec (ev : Evaluator Name K) (hlow : ev.lowest < 0) (raw : RawMap Name (Fin n) K) (h : Delivered ev raw)
    (fixed0 fixed1 : Bool) (gs : List (GSet Name (Fin n) K))
    (hg : Groups ev raw (NearFree ev fixed0 fixed1) (grad2 ev) gs) (k : Fin 2) (otherFixed : Bool)
    (g : GSet Name (Fin n) K) (hm : g ∈ gs) :
    (((g.maxError 0).has k || (g.maxError 1).has k) = false → average k g.results = fun _ => 0) ∧
    (((g.maxError 0).has k || (g.maxError 1).has k) = true →
      ∃ MT M, g.getMaxErrorWithBufferT ev.lowest k = some MT ∧
        (if otherFixed then some MT else g.getMaxErrorWithBuffer ev.lowest) = some M ∧
        weightedAvg g k M = some (average k g.results)) := by
  obtain ⟨p, hp, rs, _, hrs, hres, e, hne, hl, hb⟩ := hg.low h (grad2_error ev) g hm
  obtain ⟨_, _, _, h3, h4⟩ := C46_max_error_at (Name := Name) ev.lowest p.1 g.shapeKey (ev.coeff.get p.1.1 p.1.2) g.results hl hb k
  obtain ⟨_, _, b3, b4⟩ := C46_max_error (Name := Name) ev.lowest p.1 g.shapeKey (ev.coeff.get p.1.1 p.1.2) g.results hl hb
  rw [← e] at h3 h4 b3 b4
  have hcons : ∀ r ∈ g.results, Consistent k r := by
    intro r hr
    rw [hres] at hr
    obtain ⟨q, hq, rfl⟩ := List.mem_map.1 hr
    exact C48_getGradient_consistent _ _ _ _ _ _ _
  have hs : ∀ j, (g.maxError j).has k = decide (contrib GradRes.error k j g.results ≠ []) := by
    intro j
    have := (slots (Name := Name) ev.lowest p.1 g.shapeKey (ev.coeff.get p.1.1 p.1.2) g.results j k).1
    rwa [← e] at this
  constructor
  · intro hf
    rw [Bool.or_eq_false_iff, hs, hs] at hf
    have hnc : ∀ r ∈ g.results, ∀ i, ¬ Counts k i r := by
      intro r hr i hc
      have hne' : contrib GradRes.error k i g.results ≠ [] := List.ne_nil_of_mem ((mem_contrib _ k i g.results _).2 ⟨r, hr, hc, rfl⟩)
      match i with
      | 0 => exact absurd hne' (of_decide_eq_false hf.1)
      | 1 => exact absurd hne' (of_decide_eq_false hf.2)
    have hp0 : pairs k g.results = [] := by
      rw [pairs, List.flatMap_eq_nil_iff]
      intro r hr
      simp [hnc r hr]
    funext j
    rw [average, if_pos (by simp [totalWeight, hp0])]
  · intro hf
    have hc : ∃ r ∈ g.results, ∃ i, Counts k i r := by
      rw [Bool.or_eq_true, hs, hs] at hf
      rcases hf with hf | hf <;>
      · obtain ⟨v, hv⟩ := List.exists_mem_of_ne_nil _ (of_decide_eq_true hf)
        obtain ⟨r, hr, hc, _⟩ := (mem_contrib _ _ _ _ _).1 hv
        exact ⟨r, hr, _, hc⟩
    obtain ⟨r0, hr0, i0, hc0⟩ := hc
    cases hv : g.getMaxErrorWithBufferT ev.lowest k with
    | none => exact absurd hc0 (h3.1 hv r0 hr0 i0)
    | some MT =>
      have hMT := h4 MT hv
      refine ⟨MT, ?_⟩
      cases otherFixed with
      | true =>
        refine ⟨MT, rfl, by simp, ?_⟩
        have := weightedAvg_any (Name := Name) ev.lowest hlow p.1 g.shapeKey (ev.coeff.get p.1.1 p.1.2) g.results hb k
          hcons MT (fun r hr i hc => hMT.2 _ ⟨r, hr, i, hc, rfl⟩)
        rwa [← e] at this
      | false =>
        cases hw : g.getMaxErrorWithBuffer ev.lowest with
        | none => have := b3.1 hw r0 hr0 i0; rw [hc0.1] at this; simp at this
        | some M =>
          refine ⟨M, rfl, by simp, ?_⟩
          have := weightedAvg_any (Name := Name) ev.lowest hlow p.1 g.shapeKey (ev.coeff.get p.1.1 p.1.2) g.results hb k
            hcons M (fun r hr i hc => (b4 M hw).2 _ ⟨r, hr, ⟨i, hc.1⟩, rfl⟩)
          rwa [← e] at this

/-- One block of the continuous Jacobian. -/
theorem continuousBlock_spec (ev : Evaluator Name K) (hlow : ev.lowest < 0) (raw : RawMap Name (Fin n) K) (h : Delivered ev raw)
    (fixed0 fixed1 : Bool) (gs : List (GSet Name (Fin n) K))
    (hg : Groups ev raw (NearFree ev fixed0 fixed1) (grad2 ev) gs) (k : Fin 2) (otherFixed : Bool) (rows cols index : Nat)
    (hcols : index + n ≤ cols) (J : Jac K) (hr : J.rows = rows) (hc : J.cols = cols) :
    ∃ J', continuousBlock ev otherFixed k index (gs.take rows).zipIdx J = some J' ∧
      BlockSet J J' 0 index (gs.take rows) fun g j => -average k g.results j := by
  refine block_fold (n := n) _ rows cols index (fun g j => -average k g.results j) (gs.take rows) 0 (by simp) ?_ J hr hc
  intro J g i hgm hr hc hi
  obtain ⟨a1, a2⟩ := continuousAvg_spec ev hlow raw h fixed0 fixed1 gs hg k otherFixed g (List.mem_of_mem_take hgm)
  cases hh : ((g.maxError 0).has k || (g.maxError 1).has k) with
  | false =>
    refine ⟨J, by simp [hh], ⟨rfl, rfl, fun _ _ _ => ⟨rfl, rfl⟩, ?_, fun _ _ h => h⟩⟩
    intro j hz
    rw [hz, a1 hh]; simp
  | true =>
    obtain ⟨MT, M, e1, e2, e3⟩ := a2 hh
    obtain ⟨J', w1, w2, _⟩ := writeRow_set J i index (fun j => -1 * average k g.results j) (hr ▸ hi) (hc ▸ hcols)
    refine ⟨J', by simp only [hh, if_true, e1, e2, e3, w1], ?_⟩
    simpa using w2

/-- Specification: the free ends with the columns of their variables. -/
def freeBlocks (fixed0 fixed1 : Bool) (index0 index1 : Nat) : List (Fin 2 × Nat) :=
  (if fixed0 then [] else [(0, index0)]) ++ (if fixed1 then [] else [(1, index1)])

/-- C94 for `ContinuousCollisionConstraint`: the same with one block per free end; the columns of a fixed end stay zero. -/
theorem C94_continuous (ev : Evaluator Name K) (hlow : ev.lowest < 0)
    (sort : List (GSet Name (Fin n) K) → List (GSet Name (Fin n) K)) (hsort : ∀ l, (sort l).Perm l) (k0 : Key) (m : Int)
    (fixed0 fixed1 fs : Bool) (s : Con Key Name n K) (hnew : Con.newContinuous k0 m fixed0 fixed1 fs = some s)
    (hash : X → Key) (tests : X → RawMap Name (Fin n) K) (hinj : ∀ x y, hash x = hash y → tests x = tests y)
    (hd : ∀ x, Delivered ev (tests x)) (cols index0 index1 : Nat) (hcols0 : index0 + n ≤ cols) (hcols1 : index1 + n ≤ cols)
    (hdis : index0 + n ≤ index1 ∨ index1 + n ≤ index0) (xs : List X) (x : X) :
    ∃ t d J, s.run hash (fun x => calcCollisionData ev sort fixed0 fixed1 m.toNat (tests x))
        (zeros2 m.toNat n index0 index1) (xs ++ [x]) = some t ∧
      calcCollisionData ev sort fixed0 fixed1 m.toNat (tests x) = some d ∧
      t.continuousJacobian ev fixed0 fixed1 cols index0 index1 = some J ∧
      (∀ g ∈ d.sets, GroupIs (tests x) (NearFree ev fixed0 fixed1) (grad2 ev) g) ∧
      JacobianIs m.toNat cols d.sets (freeBlocks fixed0 fixed1 index0 index1) J ∧ PatternIs n m.toNat [index0, index1] fs J := by
  have hf : ¬ (fixed0 = true ∧ fixed1 = true) := by
    rintro ⟨rfl, rfl⟩; simp [Con.newContinuous] at hnew
  have hnew' : Con.new k0 m fs = some s := by
    simp only [Con.newContinuous] at hnew
    split_ifs at hnew
    exact hnew
  obtain ⟨_, hm, _, _⟩ := Con.new_ok (X := X) k0 hash (fun x => calcCollisionData ev sort fixed0 fixed1 m.toNat (tests x))
    (zeros2 m.toNat n index0 index1) m fs s hnew'
  have hsome : ∀ x, calcCollisionData ev sort fixed0 fixed1 m.toNat (tests x) ≠ none := by
    intro x
    obtain ⟨d, e, _⟩ := calcCollisionData_spec ev sort hsort fixed0 fixed1 hf m.toNat hm (tests x) (hd x)
    rw [e]; simp
  obtain ⟨d, e, _, hg, _⟩ := calcCollisionData_spec ev sort hsort fixed0 fixed1 hf m.toNat hm (tests x) (hd x)
  obtain ⟨t, h1, h2, h3, h5, h4⟩ := Con.run_last hash (fun x => calcCollisionData ev sort fixed0 fixed1 m.toNat (tests x))
    (zeros2 m.toNat n index0 index1)
    (fun a b hab => by simp only [hinj a b hab]) k0 m fs s hnew' xs (fun x _ => hsome x) x d e
  have hb : t.bounds.length = m.toNat := by rw [h2.bounds]; simp
  obtain ⟨J0, j1, j2, j3, j4, j5⟩ := start_spec (K := K) m.toNat cols (zeros2 m.toNat n index0 index1) (by
    rintro ⟨a, b⟩ ht
    obtain ⟨h, ⟨j, hj⟩ | ⟨j, hj⟩⟩ := (mem_zeros2 _ _ _ _ _ _).1 ht <;>
    · have := j.2
      simp only at *
      omega) t.inited fs t.triplets h2.triplets h5
  -- first block
  obtain ⟨J1, b1, b2⟩ : ∃ J1, (if fixed0 then some J0 else continuousBlock ev fixed1 0 index0 (d.sets.take m.toNat).zipIdx J0) = some J1 ∧
      (if fixed0 then J1 = J0 else BlockSet J0 J1 0 index0 (d.sets.take m.toNat) fun g j => -average 0 g.results j) := by
    cases fixed0 with
    | true => exact ⟨J0, by simp, by simp⟩
    | false =>
      obtain ⟨J1, x1, x2⟩ := continuousBlock_spec ev hlow (tests x) (hd x) false fixed1 d.sets hg 0 fixed1 m.toNat cols index0 hcols0 J0 j2 j3
      exact ⟨J1, by simpa using x1, by simpa using x2⟩
  have b1r : J1.rows = m.toNat ∧ J1.cols = cols := by
    cases fixed0 with
    | true => simp at b2; subst b2; exact ⟨j2, j3⟩
    | false => simp at b2; exact ⟨b2.rows.trans j2, b2.cols.trans j3⟩
  obtain ⟨J2, c1, c2⟩ : ∃ J2, (if fixed1 then some J1 else continuousBlock ev fixed0 1 index1 (d.sets.take m.toNat).zipIdx J1) = some J2 ∧
      (if fixed1 then J2 = J1 else BlockSet J1 J2 0 index1 (d.sets.take m.toNat) fun g j => -average 1 g.results j) := by
    cases fixed1 with
    | true => exact ⟨J1, by simp, by simp⟩
    | false =>
      obtain ⟨J2, x1, x2⟩ := continuousBlock_spec ev hlow (tests x) (hd x) fixed0 false d.sets hg 1 fixed0 m.toNat cols index1 hcols1 J1 b1r.1 b1r.2
      exact ⟨J2, by simpa using x1, by simpa using x2⟩
  have c2r : J2.rows = m.toNat ∧ J2.cols = cols := by
    cases fixed1 with
    | true => simp at c2; subst c2; exact b1r
    | false => simp at c2; exact ⟨c2.rows.trans b1r.1, c2.cols.trans b1r.2⟩
  have hlen : ∀ a, (0 ≤ a ∧ a < 0 + (d.sets.take m.toNat).length) ↔ a < m.toNat ∧ a < d.sets.length := by
    intro a; simp only [List.length_take]; omega
  -- outside the first block nothing changes in the first step, and likewise in the second
  have s1 : ∀ a b, ¬ (fixed0 = false ∧ (a < m.toNat ∧ a < d.sets.length) ∧ InBlock n index0 b) →
      J1.val a b = J0.val a b ∧ J1.stored a b = J0.stored a b := by
    intro a b hab
    cases fixed0 with
    | true => simp at b2; subst b2; exact ⟨rfl, rfl⟩
    | false => simp at b2; exact b2.same a b fun h => hab ⟨rfl, (hlen a).1 h.1, h.2⟩
  have s2 : ∀ a b, ¬ (fixed1 = false ∧ (a < m.toNat ∧ a < d.sets.length) ∧ InBlock n index1 b) →
      J2.val a b = J1.val a b ∧ J2.stored a b = J1.stored a b := by
    intro a b hab
    cases fixed1 with
    | true => simp at c2; subst c2; exact ⟨rfl, rfl⟩
    | false => simp at c2; exact c2.same a b fun h => hab ⟨rfl, (hlen a).1 h.1, h.2⟩
  have hdisj : ∀ b, InBlock n index0 b → ¬ InBlock n index1 b := by
    rintro b ⟨j, hj⟩ ⟨j', hj'⟩
    have := j.2; have := j'.2
    omega
  refine ⟨t, d, J2, h1, e, ?_, fun g hgm => hg.exact g hgm, ⟨c2r.1, c2r.2, ?_, ?_⟩, ?_, ?_⟩
  · simp only [Con.continuousJacobian, h3, h2.hrows, j1, Con.used, hb, b1]
    exact c1
  · intro i g hi hgi p hp j
    have hget : (d.sets.take m.toNat)[i]? = some g := by rw [List.getElem?_take, if_pos hi, hgi]
    simp only [freeBlocks, List.mem_append] at hp
    rcases hp with hp | hp
    · cases fixed0 with
      | true => simp at hp
      | false =>
        simp at hp b2
        subst hp
        have hin : InBlock n index0 (index0 + j.val) := ⟨j, rfl⟩
        rw [(s2 i _ (fun h => hdisj _ hin h.2.2)).1]
        have := b2.put i g hget j (j4 _ _)
        simpa using this
    · cases fixed1 with
      | true => simp at hp
      | false =>
        simp at hp c2
        subst hp
        have hin : InBlock n index1 (index1 + j.val) := ⟨j, rfl⟩
        have := c2.put i g hget j (by rw [(s1 _ _ (fun h => hdisj _ h.2.2 hin)).1]; exact j4 _ _)
        simpa using this
  · intro a b hab
    rw [(s2 a b ?_).1, (s1 a b ?_).1, j4]
    · rintro ⟨h0, ⟨ha, ha'⟩, hbk⟩
      exact hab ⟨ha, ha', (0, index0), by simp [freeBlocks, h0], hbk⟩
    · rintro ⟨h0, ⟨ha, ha'⟩, hbk⟩
      exact hab ⟨ha, ha', (1, index1), by simp [freeBlocks, h0], hbk⟩
  · intro a b hst
    by_cases hin1 : fixed1 = false ∧ (a < m.toNat ∧ a < d.sets.length) ∧ InBlock n index1 b
    · exact ⟨hin1.2.1.1, index1, by simp, hin1.2.2⟩
    rw [(s2 a b hin1).2] at hst
    by_cases hin0 : fixed0 = false ∧ (a < m.toNat ∧ a < d.sets.length) ∧ InBlock n index0 b
    · exact ⟨hin0.2.1.1, index0, by simp, hin0.2.2⟩
    rw [(s1 a b hin0).2] at hst
    obtain ⟨ha, hbk | hbk⟩ := (mem_zeros2 _ _ _ _ _ _).1 ((j5 a b).1 hst).2
    · exact ⟨ha, index0, by simp, hbk⟩
    · exact ⟨ha, index1, by simp, hbk⟩
  · rintro hfs a b ha ⟨off, ho, hbk⟩
    have hz : J0.stored a b = true := by
      refine (j5 a b).2 ⟨hfs, (mem_zeros2 _ _ _ _ _ _).2 ⟨ha, ?_⟩⟩
      simp only [List.mem_cons, List.not_mem_nil, or_false] at ho
      rcases ho with rfl | rfl
      · exact Or.inl hbk
      · exact Or.inr hbk
    have hz1 : J1.stored a b = true := by
      cases fixed0 with
      | true => simp at b2; subst b2; exact hz
      | false => simp at b2; exact b2.mono a b hz
    cases fixed1 with
    | true => simp at c2; subst c2; exact hz1
    | false => simp at c2; exact c2.mono a b hz1

end C94

/-! ### C95 -/

section fill
variable {K : Type v} [Field K] {n : Nat}

/-- The entries of row `i` are those described by `P` (column, value); the rest is unchanged. -/
structure RowFill (J J' : Jac K) (i : Nat) (P : Nat → K → Prop) : Prop where
  rows : J'.rows = J.rows
  cols : J'.cols = J.cols
  same : ∀ a b, ¬ (a = i ∧ ∃ v, P b v) → J'.val a b = J.val a b ∧ J'.stored a b = J.stored a b
  put : ∀ b v, P b v → J'.val i b = v ∧ J'.stored i b = true

theorem insertRow_fill (J : Jac K) (i off : Nat) (f : Fin n → K) (hi : i < J.rows) (hc : off + n ≤ J.cols)
    (hs : ∀ b, J.stored i b = true → b < off) :
    ∃ J', J.insertRow i off f = some J' ∧ RowFill J J' i fun b v => ∃ j : Fin n, b = off + j.val ∧ v = f j := by
  obtain ⟨J', e, a1, a2, a3, a4, a5⟩ := insertList J i off f hi hc (List.finRange n) (List.pairwise_lt_finRange n)
    (fun j _ b _ h => by have := hs b h; omega)
  refine ⟨J', e, ⟨a1, a2, fun a b h => a3 a b ?_, ?_⟩⟩
  · rintro ⟨x, j, _, y⟩; exact h ⟨x, f j, j, y, rfl⟩
  · rintro b v ⟨j, rfl, rfl⟩; exact a4 j (List.mem_finRange j)

/-- All rows. -/
structure Fill {α : Type*} (J J' : Jac K) (k : Nat) (l : List α) (P : α → Nat → K → Prop) : Prop where
  rows : J'.rows = J.rows
  cols : J'.cols = J.cols
  same : ∀ a b, ¬ (k ≤ a ∧ ∃ x, l[a - k]? = some x ∧ ∃ v, P x b v) → J'.val a b = J.val a b ∧ J'.stored a b = J.stored a b
  put : ∀ (i : Nat) x, l[i]? = some x → ∀ b v, P x b v → J'.val (k + i) b = v ∧ J'.stored (k + i) b = true

theorem fill_fold {α : Type*} (body : Jac K → α × Nat → Option (Jac K)) (rows cols : Nat) (P : α → Nat → K → Prop) (l : List α)
    (k : Nat) (hk : k + l.length ≤ rows)
    (hbody : ∀ (J : Jac K) (x : α) (i : Nat), x ∈ l → J.rows = rows → J.cols = cols → i < rows →
      (∀ b, J.stored i b = false) → ∃ J', body J (x, i) = some J' ∧ RowFill J J' i (P x))
    (J : Jac K) (hr : J.rows = rows) (hc : J.cols = cols) (hs : ∀ a b, k ≤ a → J.stored a b = false) :
    ∃ J', (l.zipIdx k).foldlM body J = some J' ∧ Fill J J' k l P := by
  induction l generalizing J k with
  | nil => exact ⟨J, rfl, ⟨rfl, rfl, fun _ _ _ => ⟨rfl, rfl⟩, by simp⟩⟩
  | cons x l ih =>
    simp only [List.length_cons] at hk
    obtain ⟨J1, e1, r1⟩ := hbody J x k (by simp) hr hc (by omega) (fun b => hs k b le_rfl)
    obtain ⟨J2, e2, r2⟩ := ih (k + 1) (by omega) (fun J y i hy => hbody J y i (by simp [hy])) J1 (r1.rows.trans hr) (r1.cols.trans hc)
      (fun a b ha => by rw [(r1.same a b (fun h => by omega)).2]; exact hs a b (by omega))
    refine ⟨J2, by rw [List.zipIdx_cons, List.foldlM_cons, e1]; exact e2,
      ⟨r2.rows.trans r1.rows, r2.cols.trans r1.cols, ?_, ?_⟩⟩
    · intro a b hab
      have s2 := r2.same a b (by
        rintro ⟨h1, y, h2, h3⟩
        refine hab ⟨by omega, y, ?_, h3⟩
        have : a - k = (a - (k + 1)) + 1 := by omega
        rw [this, List.getElem?_cons_succ, h2])
      have s1 := r1.same a b (by
        rintro ⟨rfl, h3⟩
        exact hab ⟨le_rfl, x, by simp, h3⟩)
      exact ⟨s2.1.trans s1.1, s2.2.trans s1.2⟩
    · intro i y hy b v hP
      cases i with
      | zero =>
        simp at hy; subst hy
        have s := r2.same (k + 0) b (fun h => by omega)
        rw [s.1, s.2]
        exact r1.put b v hP
      | succ i =>
        have he : k + (i + 1) = k + 1 + i := by omega
        rw [he]
        exact r2.put i y (by simpa using hy) b v hP

end fill

section C95
variable {Key : Type w} [DecidableEq Key] {Name : Type w} [LinearOrder Name] {n : Nat} {K : Type v} [Field K] [LinearOrder K]
  [IsStrictOrderedRing K] {X : Type*}

/-- A sequence of `update` calls. -/
def DynCon.run (s : DynCon Key Name n K) (ev : Evaluator Name K) (hash : X → Key) (eval : X → Option (Data Name (Fin n) K))
    (xs : List X) : Option (DynCon Key Name n K) := xs.foldlM (fun s x => s.update ev hash eval x) s

open Classical in
/-- Specification: all contacts in reach, in order. -/
noncomputable def inReach (near : (Name × Name) → Raw (Fin n) K → Prop) (raw : RawMap Name (Fin n) K) :
    List ((Name × Name) × Raw (Fin n) K) :=
  raw.flatMap fun p => (p.2.filter fun r => decide (near p.1 r)).map fun r => (p.1, r)

/-- The state after a history whose last update saw the contacts `l`: one row per contact, with its depth and the
coefficient of its pair. -/
structure DynIs (ev : Evaluator Name K) (l : List ((Name × Name) × Raw (Fin n) K)) (t : DynCon Key Name n K) : Prop where
  rows : t.rows = l.length
  bounds : t.bounds = List.replicate l.length ⟨.negInf, .fin 0, .upperBound⟩
  coeffs : t.coeffs = l.map fun p => ev.coeff.get p.1.1 p.1.2
  values : t.values = l.map fun p => depth ev p.1 p.2
  data : ∃ d, t.data = some d ∧ flat d.map = l

theorem DynCon.run_last (ev : Evaluator Name K) (hash : X → Key) (f : X → RawMap Name (Fin n) K)
    (hinj : ∀ x y, hash x = hash y → f x = f y) (k0 : Key) (xs : List X) (x : X) :
    ∃ t, (DynCon.new k0 : DynCon Key Name n K).run ev hash (fun x => some ⟨f x, []⟩) (xs ++ [x]) = some t ∧
      DynIs ev (flat (f x)) t := by
  let eval : X → Option (Data Name (Fin n) K) := fun x => some ⟨f x, []⟩
  have hinj' : ∀ x y, hash x = hash y → eval x = eval y := fun a b h => by simp only [eval, hinj a b h]
  have hupd : ∀ (s : DynCon Key Name n K) x, Cache.Good hash eval s.store →
      ∃ t, s.update ev hash eval x = some t ∧ Cache.Good hash eval t.store ∧ DynIs ev (flat (f x)) t := by
    intro s x hgood
    obtain ⟨m1, m2⟩ := Cache.memo_good hash eval hinj' s.store hgood x
    cases hm : Cache.memo hash eval s.store x with
    | mk o st =>
      rw [hm] at m1 m2
      simp only at m1 m2
      subst m1
      simp only [DynCon.update, hm, eval]
      exact ⟨_, rfl, m2, ⟨rfl, by rw [← smallerZero_eq], rfl, rfl, _, rfl, rfl⟩⟩
  have hall : ∀ (xs : List X) (s : DynCon Key Name n K), Cache.Good hash eval s.store →
      ∃ t, s.run ev hash eval xs = some t ∧ Cache.Good hash eval t.store := by
    intro xs
    induction xs with
    | nil => intro s h; exact ⟨s, rfl, h⟩
    | cons y ys ih =>
      intro s h
      obtain ⟨t, a1, a2, _⟩ := hupd s y h
      obtain ⟨t', b1, b2⟩ := ih t a2
      exact ⟨t', by simp only [DynCon.run, List.foldlM_cons, a1]; exact b1, b2⟩
  have h0 : Cache.Good hash eval (DynCon.new k0 : DynCon Key Name n K).store := by
    refine ⟨Cache.init_inv 3 k0, by simp [DynCon.new, Cache.abs, Cache.init], ?_⟩
    intro k t h'; simp [DynCon.new, Cache.abs, Cache.init] at h'
  obtain ⟨t, a1, a2⟩ := hall xs _ h0
  obtain ⟨t', b1, _, b3⟩ := hupd t x a2
  refine ⟨t', ?_, b3⟩
  simp only [DynCon.run] at a1
  simp only [DynCon.run, List.foldlM_append]
  rw [a1]
  simpa using b1

theorem flat_filter (near : (Name × Name) → Raw (Fin n) K → Prop) (keep : (Name × Name) → Raw (Fin n) K → Bool)
    (raw : RawMap Name (Fin n) K) (hkeep : ∀ p ∈ raw, ∀ r ∈ p.2, keep p.1 r = true ↔ near p.1 r) :
    flat (raw.map fun p => (p.1, p.2.filter (keep p.1))) = inReach near raw := by
  simp only [flat, inReach, List.flatMap_map]
  apply List.flatMap_congr
  intro p hp
  congr 1
  apply List.filter_congr
  intro r hr
  have := hkeep p hp r hr
  by_cases h : near p.1 r <;> simp_all

theorem mem_inReach (near : (Name × Name) → Raw (Fin n) K → Prop) (raw : RawMap Name (Fin n) K) (k : Name × Name)
    (r : Raw (Fin n) K) : (k, r) ∈ inReach near raw ↔ near k r ∧ ∃ rs, (k, rs) ∈ raw ∧ r ∈ rs := by
  simp only [inReach, List.mem_flatMap, List.mem_map, List.mem_filter, decide_eq_true_eq, Prod.mk.injEq]
  constructor
  · rintro ⟨p, hp, q, ⟨hq, hn⟩, rfl, rfl⟩; exact ⟨hn, p.2, hp, hq⟩
  · rintro ⟨hn, rs, hrs, hr⟩; exact ⟨(k, rs), hrs, r, ⟨hr, hn⟩, rfl, rfl⟩

/-- Specification: sum over the active links of a contact. -/
def linkSum (wt : Fin 2 → K) (r : Raw (Fin n) K) (second : Bool) (j : Fin n) : K :=
  (if r.active 0 then wt 0 * r.grad 0 second j else 0) + (if r.active 1 then wt 1 * r.grad 1 second j else 0)

/-- Specification: the share of a link at the first or second end. -/
def share (r : Raw (Fin n) K) (second : Bool) (i : Fin 2) : K :=
  if r.c.cc i = .none then 1 else if second then r.t i else 1 - r.t i

theorem dynRow1_spec (r : Raw (Fin n) K) (ha : ∃ i, r.active i = true) :
    ∃ v, dynRow1 r = some v ∧ ∀ j, v j = -linkSum (fun _ => 1) r false j := by
  have h0 : ∀ i, ((getGradient1 r.c r.t r.grad r.active (0 : K) 0).grads i).has = r.active i := by
    intro i; by_cases hn : r.c.cc i = .none <;> cases ha : r.active i <;> simp [getGradient1, calcGradient, ha, hn, LinkGrad.empty]
  have h1 : ∀ i, r.active i = true → ((getGradient1 r.c r.t r.grad r.active (0 : K) 0).grads i).gradient = r.grad i false := by
    intro i hi; by_cases hn : r.c.cc i = .none <;> simp [getGradient1, hi, calcGradient, hn]
  simp only [dynRow1, h0]
  cases a0 : r.active 0 <;> cases a1 : r.active 1
  · obtain ⟨i, hi⟩ := ha
    match i with
    | 0 => rw [a0] at hi; simp at hi
    | 1 => rw [a1] at hi; simp at hi
  · exact ⟨_, rfl, fun j => by simp only [h1 1 a1, linkSum, a0, a1]; simp⟩
  · exact ⟨_, rfl, fun j => by simp only [h1 0 a0, linkSum, a0, a1]; simp⟩
  · exact ⟨_, rfl, fun j => by simp only [h1 1 a1, h1 0 a0, linkSum, a0, a1]; simp⟩

theorem dynRow2_spec (k : Fin 2) (r : Raw (Fin n) K) (ha : ∃ i, r.active i = true) :
    ∃ v, dynRow2 k r = some v ∧ ∀ j, v j = -linkSum (share r (decide (k = 1))) r (decide (k = 1)) j := by
  let l : Fin 2 → LinkGrad (Fin n) K := if k = 0 then (getGradient2 r.c r.t r.grad r.active (0 : K) 0).grads
    else (getGradient2 r.c r.t r.grad r.active (0 : K) 0).ccGrads
  have hk : k = 0 ∨ k = 1 := by omega
  have h0 : ∀ i, (l i).has = r.active i := by
    intro i
    rcases hk with rfl | rfl <;> by_cases hn : r.c.cc i = .none <;> cases ha : r.active i <;>
      simp [l, getGradient2, calcGradient, ha, hn, LinkGrad.empty]
  have h1 : ∀ i, r.active i = true → (l i).gradient = r.grad i (decide (k = 1)) ∧ (l i).scale = share r (decide (k = 1)) i := by
    intro i hi
    obtain ⟨_, _, e1, e2, e3, e4⟩ := C48_getGradient_scale r.c r.t r.grad r.active (0 : K) 0 i hi
    by_cases hn : r.c.cc i = .none
    · rcases hk with rfl | rfl
      · exact ⟨by simpa [l] using e1, by simpa [l, share, hn] using (e4 hn).1⟩
      · exact ⟨by simpa [l] using e2, by simpa [l, share, hn] using (e4 hn).2⟩
    · rcases hk with rfl | rfl
      · exact ⟨by simpa [l] using e1, by simpa [l, share, hn] using (e3 hn).1⟩
      · exact ⟨by simpa [l] using e2, by simpa [l, share, hn] using (e3 hn).2⟩
  have hd : dynRow2 k r = (if (l 0).has && (l 1).has then
      some fun j => -1 * ((l 0).scale * (l 0).gradient j + (l 1).scale * (l 1).gradient j)
    else if (l 0).has then some fun j => -1 * (l 0).scale * (l 0).gradient j
    else if (l 1).has then some fun j => -1 * (l 1).scale * (l 1).gradient j
    else none) := rfl
  rw [hd, h0, h0]
  cases a0 : r.active 0 <;> cases a1 : r.active 1
  · obtain ⟨i, hi⟩ := ha
    match i with
    | 0 => rw [a0] at hi; simp at hi
    | 1 => rw [a1] at hi; simp at hi
  · exact ⟨_, rfl, fun j => by simp only [h1 1 a1, linkSum, a0, a1]; simp⟩
  · exact ⟨_, rfl, fun j => by simp only [h1 0 a0, linkSum, a0, a1]; simp⟩
  · exact ⟨_, rfl, fun j => by simp only [h1 1 a1, h1 0 a0, linkSum, a0, a1]; simp⟩

/-- C95 for `DiscreteCollisionConstraintD`: after any history of updates there is one row per contact in reach at the last
position, in order, holding its depth and the coefficient of its pair; the Jacobian row is minus the sum of the gradients of
the active links in the columns of the variable; and with a buffer that is not negative all rows are satisfied exactly if
every considered contact keeps its margin. -/
theorem C95_discrete (ev : Evaluator Name K) (sort : List (GSet Name (Fin n) K) → List (GSet Name (Fin n) K)) (k0 : Key)
    (hash : X → Key) (tests : X → RawMap Name (Fin n) K) (hinj : ∀ x y, hash x = hash y → tests x = tests y)
    (hact : ∀ x, ∀ p ∈ tests x, ∀ r ∈ p.2, ∃ i, r.active i = true) (cols index : Nat) (hcols : index + n ≤ cols)
    (xs : List X) (x : X) :
    ∃ t J, (DynCon.new k0 : DynCon Key Name n K).run ev hash (fun x => calcCollisions ev sort 0 (tests x)) (xs ++ [x]) = some t ∧
      DynIs ev (inReach (Near ev) (tests x)) t ∧ t.discreteJacobian cols index = some J ∧
      J.rows = t.rows ∧ J.cols = cols ∧
      (∀ (i : Nat) p, (inReach (Near ev) (tests x))[i]? = some p → ∀ j : Fin n,
        J.val i (index + j.val) = -linkSum (fun _ => 1) p.2 false j ∧ J.stored i (index + j.val) = true) ∧
      (∀ a b, ¬ (a < t.rows ∧ InBlock n index b) → J.val a b = 0 ∧ J.stored a b = false) ∧
      (0 ≤ ev.buffer → ((∀ v ∈ t.values, v ≤ 0) ↔ ∀ k r, Considered ev (tests x) k r → ev.margin k ≤ r.c.distance)) := by
  have hcalc : ∀ x, calcCollisions ev sort 0 (tests x) = some ⟨discreteFilter ev (tests x), []⟩ := fun x => by
    simp [calcCollisions]
  have hfl : flat (discreteFilter ev (tests x)) = inReach (Near ev) (tests x) := by
    let keep : (Name × Name) → Raw (Fin n) K → Bool := fun k r =>
      !decide (k ∈ ev.coeff.zero) && !decide (ev.margin k + ev.buffer < r.c.distance)
    have : discreteFilter ev (tests x) = (tests x).map fun p => (p.1, p.2.filter (keep p.1)) := by
      simp only [discreteFilter, keep]
      apply List.map_congr_left
      intro p _
      by_cases hz : p.1 ∈ ev.coeff.zero <;> simp [hz]
    rw [this]
    exact flat_filter (Near ev) keep (tests x) (fun p _ r _ => by simp [keep, Near])
  simp only [hcalc]
  obtain ⟨t, h1, h2⟩ := DynCon.run_last ev hash (fun x => discreteFilter ev (tests x))
    (fun a b h => by simp only [hinj a b h]) k0 xs x
  rw [hfl] at h2
  obtain ⟨d, hd1, hd2⟩ := h2.data
  let l := inReach (Near ev) (tests x)
  obtain ⟨J, f1, f2⟩ := fill_fold (fun (J : Jac K) (p : ((Name × Name) × Raw (Fin n) K) × Nat) => match dynRow1 p.1.2 with
      | none => none
      | some v => J.insertRow p.2 index v) l.length cols
    (fun p b v => ∃ j : Fin n, b = index + j.val ∧ v = -linkSum (fun _ => 1) p.2 false j) l 0 (by simp) (by
      rintro J ⟨k, r⟩ i hm hr hc hi hst
      obtain ⟨_, rs, hrs, hr'⟩ := (mem_inReach _ _ k r).1 hm
      obtain ⟨v, e1, e2⟩ := dynRow1_spec r (hact x _ hrs r hr')
      obtain ⟨J', g1, g2⟩ := insertRow_fill J i index v (hr ▸ hi) (hc ▸ hcols) (fun b hb => by rw [hst b] at hb; simp at hb)
      refine ⟨J', by simp only [e1, g1], ?_⟩
      have : v = fun j => -linkSum (fun _ => 1) r false j := funext e2
      subst this
      exact g2) (Jac.empty l.length cols) rfl rfl (fun _ _ _ => rfl)
  refine ⟨t, J, h1, h2, ?_, f2.rows.trans h2.rows.symm, f2.cols, ?_, ?_, ?_⟩
  · simp only [DynCon.discreteJacobian, hd1, hd2, h2.rows]
    exact f1
  · intro i p hp j
    have := f2.put i p hp (index + j.val) _ ⟨j, rfl, rfl⟩
    simpa using this
  · intro a b hab
    have := f2.same a b (by
      rintro ⟨_, p, hp, v, j, hj, _⟩
      refine hab ⟨?_, j, hj⟩
      rw [h2.rows]
      exact (List.getElem?_eq_some_iff.1 hp).1)
    exact ⟨this.1, this.2⟩
  · intro hbuf
    rw [h2.values]
    constructor
    · rintro hv k r ⟨⟨rs, hrs, hr⟩, hz⟩
      by_cases hfar : ev.margin k + ev.buffer < r.c.distance
      · linarith
      · have := hv _ (List.mem_map.2 ⟨(k, r), (mem_inReach _ _ k r).2 ⟨⟨hz, not_lt.1 hfar⟩, rs, hrs, hr⟩, rfl⟩)
        rw [depth] at this; linarith
    · intro hs v hv
      obtain ⟨⟨k, r⟩, hm, rfl⟩ := List.mem_map.1 hv
      obtain ⟨hn, rs, hrs, hr⟩ := (mem_inReach _ _ k r).1 hm
      have := hs k r ⟨⟨rs, hrs, hr⟩, hn.1⟩
      simp only [depth]; linarith

/-- C95 for `ContinuousCollisionConstraintD`: as `C95_discrete`, for the contacts relevant for a free end; the gradient of
a link counts with its share at each end.  The variable of the first end must come before that of the second when both
are free. -/
theorem C95_continuous (ev : Evaluator Name K) (sort : List (GSet Name (Fin n) K) → List (GSet Name (Fin n) K)) (k0 : Key)
    (fixed0 fixed1 : Bool) (hash : X → Key) (tests : X → RawMap Name (Fin n) K)
    (hinj : ∀ x y, hash x = hash y → tests x = tests y)
    (hact : ∀ x, ∀ p ∈ tests x, ∀ r ∈ p.2, ∃ i, r.active i = true) (cols index0 index1 : Nat) (hcols0 : index0 + n ≤ cols)
    (hcols1 : index1 + n ≤ cols) (hord : index0 + n ≤ index1) (xs : List X) (x : X) :
    ∃ t J, (DynCon.new k0 : DynCon Key Name n K).run ev hash (fun x => calcCollisionData ev sort fixed0 fixed1 0 (tests x))
        (xs ++ [x]) = some t ∧
      DynIs ev (inReach (NearFree ev fixed0 fixed1) (tests x)) t ∧
      t.continuousJacobian fixed0 fixed1 cols index0 index1 = some J ∧ J.rows = t.rows ∧ J.cols = cols ∧
      (∀ (i : Nat) p, (inReach (NearFree ev fixed0 fixed1) (tests x))[i]? = some p →
        ∀ q ∈ freeBlocks fixed0 fixed1 index0 index1, ∀ j : Fin n,
          J.val i (q.2 + j.val) = -linkSum (share p.2 (decide (q.1 = 1))) p.2 (decide (q.1 = 1)) j ∧
          J.stored i (q.2 + j.val) = true) ∧
      (∀ a b, ¬ (a < t.rows ∧ ∃ q ∈ freeBlocks fixed0 fixed1 index0 index1, InBlock n q.2 b) →
        J.val a b = 0 ∧ J.stored a b = false) ∧
      (0 ≤ ev.buffer → ((∀ v ∈ t.values, v ≤ 0) ↔ ∀ k r, Considered ev (tests x) k r → ForFreeEnd fixed0 fixed1 r →
        ev.margin k ≤ r.c.distance)) := by
  have hcalc : ∀ x, calcCollisionData ev sort fixed0 fixed1 0 (tests x) = some ⟨continuousFilter ev fixed0 fixed1 (tests x), []⟩ :=
    fun x => by simp [calcCollisionData]
  have hinv : ∀ k (r : Raw (Fin n) K), isInvalid (ev.margin k) ev.buffer fixed0 fixed1 r.c = false ↔
      Relevant (ev.margin k) ev.buffer fixed0 fixed1 r.c := by
    intro k r
    have := (C62_filter [r.c] (ev.margin k) ev.buffer fixed0 fixed1).1 r.c
    simpa [removeInvalidContactResults] using this
  have hfl : flat (continuousFilter ev fixed0 fixed1 (tests x)) = inReach (NearFree ev fixed0 fixed1) (tests x) := by
    let keep : (Name × Name) → Raw (Fin n) K → Bool := fun k r =>
      !decide (k ∈ ev.coeff.zero) && !isInvalid (ev.margin k) ev.buffer fixed0 fixed1 r.c
    have : continuousFilter ev fixed0 fixed1 (tests x) = (tests x).map fun p => (p.1, p.2.filter (keep p.1)) := by
      simp only [continuousFilter, keep]
      apply List.map_congr_left
      intro p _
      by_cases hz : p.1 ∈ ev.coeff.zero <;> simp [hz]
    rw [this]
    exact flat_filter (NearFree ev fixed0 fixed1) keep (tests x) (fun p _ r _ => by simp [keep, NearFree, hinv])
  simp only [hcalc]
  obtain ⟨t, h1, h2⟩ := DynCon.run_last ev hash (fun x => continuousFilter ev fixed0 fixed1 (tests x))
    (fun a b h => by simp only [hinj a b h]) k0 xs x
  rw [hfl] at h2
  obtain ⟨d, hd1, hd2⟩ := h2.data
  let l := inReach (NearFree ev fixed0 fixed1) (tests x)
  obtain ⟨J, f1, f2⟩ := fill_fold (fun (J : Jac K) (p : ((Name × Name) × Raw (Fin n) K) × Nat) =>
      match dynRow2 0 p.1.2, dynRow2 1 p.1.2 with
      | some v0, some v1 =>
        match (if fixed0 then some J else J.insertRow p.2 index0 v0) with
        | none => none
        | some J => if fixed1 then some J else J.insertRow p.2 index1 v1
      | _, _ => none) l.length cols
    (fun p b v => ∃ q ∈ freeBlocks fixed0 fixed1 index0 index1, ∃ j : Fin n, b = q.2 + j.val ∧
      v = -linkSum (share p.2 (decide (q.1 = 1))) p.2 (decide (q.1 = 1)) j) l 0 (by simp) (by
      rintro J ⟨k, r⟩ i hm hr hc hi hst
      obtain ⟨_, rs, hrs, hr'⟩ := (mem_inReach _ _ k r).1 hm
      obtain ⟨v0, e0, g0⟩ := dynRow2_spec 0 r (hact x _ hrs r hr')
      obtain ⟨v1, e1, g1⟩ := dynRow2_spec 1 r (hact x _ hrs r hr')
      obtain rfl : v0 = fun j => _ := funext g0
      obtain rfl : v1 = fun j => _ := funext g1
      simp only [e0, e1]
      cases fixed0 with
      | true =>
        cases fixed1 with
        | true =>
          refine ⟨J, by simp, ⟨rfl, rfl, fun _ _ _ => ⟨rfl, rfl⟩, ?_⟩⟩
          rintro b v ⟨q, hq, _⟩; simp [freeBlocks] at hq
        | false =>
          obtain ⟨J', w1, w2⟩ := insertRow_fill J i index1 (fun j => -linkSum (share r (decide ((1 : Fin 2) = 1))) r (decide ((1 : Fin 2) = 1)) j)
            (hr ▸ hi) (hc ▸ hcols1) (fun b hb => by rw [hst b] at hb; simp at hb)
          refine ⟨J', by simpa using w1, ?_⟩
          simpa [freeBlocks] using w2
      | false =>
        obtain ⟨J', w1, w2⟩ := insertRow_fill J i index0 (fun j => -linkSum (share r (decide ((0 : Fin 2) = 1))) r (decide ((0 : Fin 2) = 1)) j)
          (hr ▸ hi) (hc ▸ hcols0) (fun b hb => by rw [hst b] at hb; simp at hb)
        cases fixed1 with
        | true =>
          refine ⟨J', by simp only [Bool.false_eq_true, if_false, w1, if_true], ?_⟩
          simpa [freeBlocks] using w2
        | false =>
          obtain ⟨J'', y1, y2⟩ := insertRow_fill J' i index1 (fun j => -linkSum (share r (decide ((1 : Fin 2) = 1))) r (decide ((1 : Fin 2) = 1)) j)
            (w2.rows ▸ hr ▸ hi) (w2.cols ▸ hc ▸ hcols1) (by
              intro b hb
              by_cases hin : ∃ j : Fin n, b = index0 + j.val
              · obtain ⟨j, hj⟩ := hin; have := j.2; omega
              · rw [(w2.same i b (by rintro ⟨_, v, j, hj, _⟩; exact hin ⟨j, hj⟩)).2, hst b] at hb
                simp at hb)
          refine ⟨J'', by
            simp only [Bool.false_eq_true, if_false, w1]
            exact y1, ⟨y2.rows.trans w2.rows, y2.cols.trans w2.cols, ?_, ?_⟩⟩
          · intro a b hab
            have s2 := y2.same a b (by
              rintro ⟨rfl, v, j, hj, hv⟩
              exact hab ⟨rfl, v, (1, index1), by simp [freeBlocks], j, hj, hv⟩)
            have s1 := w2.same a b (by
              rintro ⟨rfl, v, j, hj, hv⟩
              exact hab ⟨rfl, v, (0, index0), by simp [freeBlocks], j, hj, hv⟩)
            exact ⟨s2.1.trans s1.1, s2.2.trans s1.2⟩
          · rintro b v ⟨q, hq, j, hj, hv⟩
            simp [freeBlocks] at hq
            rcases hq with rfl | rfl
            · have s2 := y2.same i b (by
                rintro ⟨_, v, j', hj', hv⟩
                have := j.2
                simp only at hj
                omega)
              rw [s2.1, s2.2]
              exact w2.put b v ⟨j, hj, hv⟩
            · exact y2.put b v ⟨j, hj, hv⟩) (Jac.empty l.length cols) rfl rfl (fun _ _ _ => rfl)
  refine ⟨t, J, h1, h2, ?_, f2.rows.trans h2.rows.symm, f2.cols, ?_, ?_, ?_⟩
  · simp only [DynCon.continuousJacobian, hd1, hd2, h2.rows]
    exact f1
  · intro i p hp q hq j
    have := f2.put i p hp (q.2 + j.val) _ ⟨q, hq, j, rfl, rfl⟩
    simpa using this
  · intro a b hab
    have := f2.same a b (by
      rintro ⟨_, p, hp, v, q, hq, j, hj, _⟩
      refine hab ⟨?_, q, hq, j, hj⟩
      rw [h2.rows]
      exact (List.getElem?_eq_some_iff.1 hp).1)
    exact ⟨this.1, this.2⟩
  · intro hbuf
    rw [h2.values]
    constructor
    · rintro hv k r ⟨⟨rs, hrs, hr⟩, hz⟩ hfree
      by_cases hfar : ev.margin k + ev.buffer < r.c.distance
      · linarith
      · have := hv _ (List.mem_map.2 ⟨(k, r), (mem_inReach _ _ k r).2 ⟨⟨hz, not_lt.1 hfar, hfree⟩, rs, hrs, hr⟩, rfl⟩)
        rw [depth] at this; linarith
    · intro hs v hv
      obtain ⟨⟨k, r⟩, hm, rfl⟩ := List.mem_map.1 hv
      obtain ⟨hn, rs, hrs, hr⟩ := (mem_inReach _ _ k r).1 hm
      have := hs k r ⟨⟨rs, hrs, hr⟩, hn.1⟩ hn.2.2
      simp only [depth]; linarith

end C95

/-! ### C96 -/

section C96
variable {Key : Type w} [DecidableEq Key] {Name : Type w} [LinearOrder Name] {n : Nat} {K : Type v} [Field K] [LinearOrder K]
  [IsStrictOrderedRing K]

/-- Specification: contact `r` of the pair `k` and shape pair `sk` is in reach. -/
def Touches (near : (Name × Name) → Raw (Fin n) K → Prop) (raw : RawMap Name (Fin n) K) (k : Name × Name) (sk : Nat × Nat)
    (r : Raw (Fin n) K) : Prop := (∃ rs, (k, rs) ∈ raw ∧ r ∈ rs) ∧ near k r ∧ shapeKey r.c = some sk

/-- Specification: the largest depth of a pair and shape pair, or minus the buffer when nothing is in reach. -/
def PairValue (ev : Evaluator Name K) (near : (Name × Name) → Raw (Fin n) K → Prop) (raw : RawMap Name (Fin n) K)
    (k : Name × Name) (sk : Nat × Nat) (v : K) : Prop :=
  IsMax (fun x => ∃ r, Touches near raw k sk r ∧ depth ev k r = x) v ∨ ((∀ r, ¬ Touches near raw k sk r) ∧ v = -ev.buffer)

/-- There is only one such value. -/
theorem PairValue.unique {ev : Evaluator Name K} {near : (Name × Name) → Raw (Fin n) K → Prop} {raw : RawMap Name (Fin n) K}
    {k : Name × Name} {sk : Nat × Nat} {v v' : K} (h : PairValue ev near raw k sk v) (h' : PairValue ev near raw k sk v') :
    v = v' := by
  rcases h with h | ⟨h, rfl⟩ <;> rcases h' with h' | ⟨h', rfl⟩
  · exact le_antisymm (h'.2 _ h.1) (h.2 _ h'.1)
  · obtain ⟨⟨r, hr, _⟩, _⟩ := h; exact absurd hr (h' r)
  · obtain ⟨⟨r, hr, _⟩, _⟩ := h'; exact absurd hr (h r)
  · rfl

/-- Values of groups are pair values when every pair is filed once. -/
theorem Groups.pairValue {ev : Evaluator Name K} {raw : RawMap Name (Fin n) K} {near : (Name × Name) → Raw (Fin n) K → Prop}
    {grad : (Name × Name) → Raw (Fin n) K → GradRes (Fin n) K} {gs : List (GSet Name (Fin n) K)} (h : Groups ev raw near grad gs)
    (hnd : (raw.map Prod.fst).Nodup) (hgrad : ∀ k r, (grad k r).error = depth ev k r) (g : GSet Name (Fin n) K) (hg : g ∈ gs)
    (v : K) (hv : IsMax (fun x => ∃ r ∈ g.results, r.error = x) v) : PairValue ev near raw g.key g.shapeKey v := by
  obtain ⟨_, p, hp, e1, _, hmax⟩ := h.row hgrad g hg v hv
  left
  have hiff : ∀ r, Touches near raw g.key g.shapeKey r ↔ InGroup ev near p g.shapeKey r := by
    intro r
    constructor
    · rintro ⟨⟨rs, hrs, hr⟩, hn, hs⟩
      have : (g.key, rs) = p := List.inj_on_of_nodup_map hnd hrs hp e1
      subst this
      exact ⟨hr, hn, hs⟩
    · rintro ⟨hr, hn, hs⟩
      rw [e1]
      exact ⟨⟨p.2, hp, hr⟩, hn, hs⟩
  simp only [hiff]
  rw [e1]
  exact hmax

/-- The difference quotient of one row. -/
theorem quotient_spec {ev : Evaluator Name K} {raw raw' : RawMap Name (Fin n) K} {near : (Name × Name) → Raw (Fin n) K → Prop}
    {grad : (Name × Name) → Raw (Fin n) K → GradRes (Fin n) K} {gs gs' : List (GSet Name (Fin n) K)}
    (h : Groups ev raw near grad gs) (h' : Groups ev raw' near grad gs')
    (hnd : (raw.map Prod.fst).Nodup) (hnd' : (raw'.map Prod.fst).Nodup)
    (hgrad : ∀ k r, (grad k r).error = depth ev k r) (err : GSet Name (Fin n) K → Option K)
    (herr : ∀ g ∈ gs, ∃ v, err g = some v ∧ IsMax (fun x => ∃ r ∈ g.results, r.error = x) v)
    (herr' : ∀ g ∈ gs', ∃ v, err g = some v ∧ IsMax (fun x => ∃ r ∈ g.results, r.error = x) v)
    (delta : K) (g : GSet Name (Fin n) K) (hg : g ∈ gs) :
    ∃ a b, quotient err ev.buffer delta g gs' = some ((b - a) / delta) ∧
      PairValue ev near raw g.key g.shapeKey a ∧ PairValue ev near raw' g.key g.shapeKey b := by
  obtain ⟨a, ea, ma⟩ := herr g hg
  have ha := h.pairValue hnd hgrad g hg a ma
  cases hm : matching g gs' with
  | some g' =>
    have hmem := List.mem_of_find?_eq_some hm
    have hp := List.find?_some hm
    simp only [Bool.and_eq_true, decide_eq_true_eq] at hp
    obtain ⟨b, eb, mb⟩ := herr' g' hmem
    have hb := h'.pairValue hnd' hgrad g' hmem b mb
    rw [hp.1, hp.2] at hb
    exact ⟨a, b, by simp only [quotient, hm, ea, eb], ha, hb⟩
  | none =>
    refine ⟨a, -ev.buffer, by simp [quotient, hm, ea], ha, Or.inr ⟨?_, rfl⟩⟩
    rintro r ⟨⟨rs, hrs, hr⟩, hn, hs⟩
    obtain ⟨g', hg', rs', hr', hmem, e⟩ := h'.covers (g.key, rs) hrs r hr hn
    have hk : g'.key = g.key := by
      have := (addAll_coeff (Name := Name) ev.lowest g.key g'.shapeKey (ev.coeff.get g.key.1 g.key.2) (rs'.map (grad g.key))).2.1
      rwa [← e] at this
    have hs' : g'.shapeKey = g.shapeKey := by
      have := ((hmem r).1 hr').2.2
      rw [hs, Option.some.injEq] at this
      exact this.symm
    have := List.find?_eq_none.1 hm g' hg'
    simp [hk, hs'] at this

/-- All columns of one block: `q j g` is the quotient written for column `j` and group `g`. -/
theorem columns_fold (rows cols index : Nat) (hcols : index + n ≤ cols) (gs : List (GSet Name (Fin n) K))
    (hlen : gs.length ≤ rows) (q : Fin n → GSet Name (Fin n) K → K) (body : Jac K → Fin n → Option (Jac K))
    (hbody : ∀ (J : Jac K) j, J.rows = rows → J.cols = cols → ∃ J', body J j = some J' ∧
      BlockSet (n := 1) J J' 0 (index + j.val) gs fun g _ => q j g) (l : List (Fin n)) (hnd : l.Nodup) (J : Jac K)
    (hr : J.rows = rows) (hc : J.cols = cols) (hz : ∀ j ∈ l, ∀ a, J.val a (index + j.val) = 0) :
    ∃ J', l.foldlM body J = some J' ∧ J'.rows = rows ∧ J'.cols = cols ∧
      (∀ a b, ¬ (a < gs.length ∧ ∃ j ∈ l, b = index + j.val) → J'.val a b = J.val a b ∧ J'.stored a b = J.stored a b) ∧
      (∀ j ∈ l, ∀ (i : Nat) g, gs[i]? = some g → J'.val i (index + j.val) = q j g) ∧
      (∀ a b, J.stored a b = true → J'.stored a b = true) := by
  induction l generalizing J with
  | nil => exact ⟨J, rfl, hr, hc, fun _ _ _ => ⟨rfl, rfl⟩, by simp, fun _ _ h => h⟩
  | cons j l ih =>
    obtain ⟨hj, hnd⟩ := List.nodup_cons.1 hnd
    obtain ⟨J1, e1, b1⟩ := hbody J j hr hc
    have hother : ∀ a (j' : Fin n), j' ≠ j → J1.val a (index + j'.val) = J.val a (index + j'.val) ∧
        J1.stored a (index + j'.val) = J.stored a (index + j'.val) := by
      intro a j' hne
      refine b1.same a _ ?_
      rintro ⟨_, k, hk⟩
      have := k.2
      exact hne (by ext; omega)
    obtain ⟨J2, e2, r2, c2, s2, p2, m2⟩ := ih hnd J1 (b1.rows.trans hr) (b1.cols.trans hc) (by
      intro j' hj' a
      rw [(hother a j' (fun h => hj (h ▸ hj'))).1]
      exact hz j' (by simp [hj']) a)
    refine ⟨J2, by rw [List.foldlM_cons, e1]; exact e2, r2, c2, ?_, ?_, fun a b h => m2 a b (b1.mono a b h)⟩
    · intro a b hab
      have x2 := s2 a b (by rintro ⟨h1, j', h2, h3⟩; exact hab ⟨h1, j', by simp [h2], h3⟩)
      have x1 := b1.same a b (by
        rintro ⟨⟨_, h1⟩, k, hk⟩
        have hk0 := k.2
        exact hab ⟨by omega, j, by simp, by omega⟩)
      exact ⟨x2.1.trans x1.1, x2.2.trans x1.2⟩
    · intro j' hj' i g hg
      rcases List.mem_cons.1 hj' with rfl | hj'
      · have x2 := (s2 i (index + j'.val) (by
          rintro ⟨_, k, hk, h⟩
          have : k = j' := by ext; omega
          exact hj (this ▸ hk))).1
        rw [x2]
        have := b1.put i g hg 0 (by simpa using hz j' (by simp) (0 + i))
        simpa using this
      · exact p2 j' hj' i g hg

theorem column_spec (rows cols col : Nat) (hcol : col < cols) (gs : List (GSet Name (Fin n) K)) (hlen : gs.length ≤ rows)
    (err : GSet Name (Fin n) K → Option K) (buffer delta : K) (gs' : List (GSet Name (Fin n) K)) (q : GSet Name (Fin n) K → K)
    (hq : ∀ g ∈ gs, quotient err buffer delta g gs' = some (q g)) (J : Jac K) (hr : J.rows = rows) (hc : J.cols = cols) :
    ∃ J', column err buffer delta col gs.zipIdx gs' J = some J' ∧ BlockSet (n := 1) J J' 0 col gs fun g _ => q g := by
  refine block_fold (n := 1) _ rows cols col (fun g _ => q g) gs 0 (by simpa using hlen) ?_ J hr hc
  intro J g i hg hr hc hi
  obtain ⟨J', w1, w2, _⟩ := writeRow_set (n := 1) J i col (fun _ => q g) (hr ▸ hi) (hc ▸ (by omega))
  refine ⟨J', ?_, w2⟩
  simp only [hq g hg]
  simpa [Jac.writeRow, List.finRange] using w1

/-- One block of a numerical Jacobian: the perturbed states see the maps `pert j`. -/
theorem numBlock_spec {ev : Evaluator Name K} {raw : RawMap Name (Fin n) K} {near : (Name × Name) → Raw (Fin n) K → Prop}
    {grad : (Name × Name) → Raw (Fin n) K → GradRes (Fin n) K} {gs : List (GSet Name (Fin n) K)}
    (h : Groups ev raw near grad gs) (hnd : (raw.map Prod.fst).Nodup) (hgrad : ∀ k r, (grad k r).error = depth ev k r)
    (err : GSet Name (Fin n) K → Option K)
    (herr : ∀ g ∈ gs, ∃ v, err g = some v ∧ IsMax (fun x => ∃ r ∈ g.results, r.error = x) v)
    (pert : Fin n → RawMap Name (Fin n) K) (data : Fin n → Option (Data Name (Fin n) K))
    (hpert : ∀ j, ((pert j).map Prod.fst).Nodup ∧ ∃ d, data j = some d ∧ Groups ev (pert j) near grad d.sets ∧
      ∀ g ∈ d.sets, ∃ v, err g = some v ∧ IsMax (fun x => ∃ r ∈ g.results, r.error = x) v)
    (rows cols index : Nat) (hcols : index + n ≤ cols) (delta : K) (J : Jac K) (hr : J.rows = rows) (hc : J.cols = cols)
    (hz : ∀ j : Fin n, ∀ a, J.val a (index + j.val) = 0) :
    ∃ J', (List.finRange n).foldlM (fun J j => match data j with
      | none => none
      | some dd => column err ev.buffer delta (index + j.val) (gs.take rows).zipIdx dd.sets J) J = some J' ∧
      J'.rows = rows ∧ J'.cols = cols ∧
      (∀ a b, ¬ (a < (gs.take rows).length ∧ InBlock n index b) → J'.val a b = J.val a b ∧ J'.stored a b = J.stored a b) ∧
      (∀ (i : Nat) g, i < rows → gs[i]? = some g → ∀ j : Fin n, ∃ a b,
        PairValue ev near raw g.key g.shapeKey a ∧ PairValue ev near (pert j) g.key g.shapeKey b ∧
        J'.val i (index + j.val) = (b - a) / delta) ∧
      (∀ a b, J.stored a b = true → J'.stored a b = true) := by
  have hquo : ∀ j, ∃ dd, data j = some dd ∧ ∀ g ∈ gs, ∃ a b, quotient err ev.buffer delta g dd.sets = some ((b - a) / delta) ∧
      PairValue ev near raw g.key g.shapeKey a ∧ PairValue ev near (pert j) g.key g.shapeKey b := by
    intro j
    obtain ⟨hn, d, e, hg', he'⟩ := hpert j
    exact ⟨d, e, fun g hg => quotient_spec h hg' hnd hn hgrad err herr he' delta g hg⟩
  choose dd hdd hq using hquo
  obtain ⟨J', f1, f2, f3, f4, f5, f6⟩ := columns_fold rows cols index hcols (gs.take rows) (by simp)
    (fun j g => (quotient err ev.buffer delta g (dd j).sets).getD 0)
    (fun J j => match data j with
      | none => none
      | some dd => column err ev.buffer delta (index + j.val) (gs.take rows).zipIdx dd.sets J) (by
      intro J j hr hc
      simp only [hdd j]
      have := j.2
      refine column_spec rows cols (index + j.val) (by omega) (gs.take rows) (by simp) err ev.buffer delta (dd j).sets _ ?_ J hr hc
      intro g hg
      obtain ⟨a, b, e, _⟩ := hq j g (List.mem_of_mem_take hg)
      rw [e]; rfl) (List.finRange n) (List.nodup_finRange n) J hr hc (fun j _ => hz j)
  refine ⟨J', f1, f2, f3, fun a b hab => f4 a b ?_, ?_, f6⟩
  · rintro ⟨h1, j, _, h2⟩; exact hab ⟨h1, j, h2⟩
  · intro i g hi hg j
    obtain ⟨a, b, e, pa, pb⟩ := hq j g (List.mem_of_getElem? hg)
    refine ⟨a, b, pa, pb, ?_⟩
    rw [f5 j (List.mem_finRange j) i g (by rw [List.getElem?_take, if_pos hi, hg]), e]
    rfl

/-- Specification: row `i` belongs to group `i`, whose entries in the block at `index` are the difference quotients between
the map at the current position and the maps `pert j`. -/
def QuotientRows (ev : Evaluator Name K) (near : (Name × Name) → Raw (Fin n) K → Prop) (raw : RawMap Name (Fin n) K)
    (pert : Fin n → RawMap Name (Fin n) K) (delta : K) (rows index : Nat) (gs : List (GSet Name (Fin n) K)) (J : Jac K) : Prop :=
  ∀ (i : Nat) g, i < rows → gs[i]? = some g → ∀ j : Fin n, ∃ a b,
    PairValue ev near raw g.key g.shapeKey a ∧ PairValue ev near (pert j) g.key g.shapeKey b ∧
    J.val i (index + j.val) = (b - a) / delta

/-- C96 for `DiscreteCollisionNumericalConstraint`: after any history of updates the Jacobian does not fail; the entry of
row `i` and joint `j` is the difference quotient of the value of the same pair and shape pair when joint `j` is moved by
`delta` (minus the buffer when it is no longer in reach); everything else is zero. -/
theorem C96_discrete (ev : Evaluator Name K) (sort : List (GSet Name (Fin n) K) → List (GSet Name (Fin n) K))
    (hsort : ∀ l, (sort l).Perm l) (k0 : Key) (m : Int) (fs : Bool) (s : Con Key Name n K) (hnew : Con.new k0 m fs = some s)
    (hash : (Fin n → K) → Key) (tests : (Fin n → K) → RawMap Name (Fin n) K) (hinj : ∀ x y, hash x = hash y → tests x = tests y)
    (hd : ∀ x, Delivered ev (tests x)) (hu : ∀ x, Unclassified (tests x)) (hnd : ∀ x, ((tests x).map Prod.fst).Nodup)
    (delta : K) (cols index : Nat) (hcols : index + n ≤ cols) (xs : List (Fin n → K)) (q : Fin n → K) :
    ∃ t d J, s.run hash (fun x => calcCollisions ev sort m.toNat (tests x)) (zeros1 m.toNat n index) (xs ++ [q]) = some t ∧
      calcCollisions ev sort m.toNat (tests q) = some d ∧
      t.discreteNumJacobian ev (fun x => calcCollisions ev sort m.toNat (tests x)) delta cols index q = some J ∧
      J.rows = m.toNat ∧ J.cols = cols ∧
      QuotientRows ev (Near ev) (tests q) (fun j => tests (Function.update q j (q j + delta))) delta m.toNat index d.sets J ∧
      (∀ a b, ¬ (a < m.toNat ∧ a < d.sets.length ∧ InBlock n index b) → J.val a b = 0) ∧ PatternIs n m.toNat [index] fs J := by
  obtain ⟨_, hm, _, _⟩ := Con.new_ok k0 hash (fun x => calcCollisions ev sort m.toNat (tests x))
    (zeros1 m.toNat n index) m fs s hnew
  have hspec := fun x => calcCollisions_spec ev sort hsort m.toNat hm (tests x) (hd x)
  have hsome : ∀ x, calcCollisions ev sort m.toNat (tests x) ≠ none := by
    intro x
    obtain ⟨d, e, _⟩ := hspec x
    rw [e]; simp
  obtain ⟨d, e, _, hg, _⟩ := hspec q
  obtain ⟨t, h1, h2, h3, h5, h4⟩ := Con.run_last hash (fun x => calcCollisions ev sort m.toNat (tests x)) (zeros1 m.toNat n index)
    (fun a b hab => by simp only [hinj a b hab]) k0 m fs s hnew xs (fun x _ => hsome x) q d e
  have hb : t.bounds.length = m.toNat := by rw [h2.bounds]; simp
  obtain ⟨J0, j1, j2, j3, j4, j5⟩ := start_spec (K := K) m.toNat cols (zeros1 m.toNat n index) (by
    rintro ⟨a, b⟩ ht
    obtain ⟨h, j, hj⟩ := (mem_zeros1 _ _ _ _ _).1 ht
    have := j.2
    simp only at *
    omega) t.inited fs t.triplets h2.triplets h5
  have hpat0 : PatternIs n m.toNat [index] fs J0 := by
    constructor
    · intro a b hst
      obtain ⟨ha, hbk⟩ := (mem_zeros1 _ _ _ _ _).1 ((j5 a b).1 hst).2
      exact ⟨ha, index, by simp, hbk⟩
    · rintro hfs a b ha ⟨off, ho, hbk⟩
      simp only [List.mem_singleton] at ho
      subst ho
      exact (j5 a b).2 ⟨hfs, (mem_zeros1 _ _ _ _ _).2 ⟨ha, hbk⟩⟩
  by_cases hempty : d.sets = []
  · refine ⟨t, d, J0, h1, e, ?_, j2, j3, ?_, fun a b _ => j4 a b, hpat0⟩
    · simp only [Con.discreteNumJacobian, h3, h2.hrows, j1, hempty, if_true]
    · intro i g _ hgi
      rw [hempty] at hgi; simp at hgi
  · have herr : ∀ x (dd : Data Name (Fin n) K), calcCollisions ev sort m.toNat (tests x) = some dd →
        ∀ g ∈ dd.sets, ∃ v, g.getMaxErrorT ev.lowest 0 = some v ∧ IsMax (fun x => ∃ r ∈ g.results, r.error = x) v := by
      intro x dd hdd g hgm
      obtain ⟨d', e', _, hg', _⟩ := hspec x
      rw [hdd, Option.some.injEq] at e'
      subst e'
      exact discreteRow_spec ev (tests x) (hd x) (hu x) dd.sets hg' g hgm
    obtain ⟨J, f1, f2, f3, f4, f5, f6⟩ := numBlock_spec hg (hnd q) (fun k r => (grad1_error ev k r).1)
      (fun g => g.getMaxErrorT ev.lowest 0) (herr q d e) (fun j => tests (Function.update q j (q j + delta)))
      (fun j => calcCollisions ev sort m.toNat (tests (Function.update q j (q j + delta)))) (by
        intro j
        refine ⟨hnd _, ?_⟩
        obtain ⟨d', e', _, hg', _⟩ := hspec (Function.update q j (q j + delta))
        exact ⟨d', e', hg', herr _ d' e'⟩) m.toNat cols index hcols delta J0 j2 j3 (fun j a => j4 _ _)
    refine ⟨t, d, J, h1, e, ?_, f2, f3, f5, ?_, ?_, ?_⟩
    · simp only [Con.discreteNumJacobian, h3, h2.hrows, j1, if_neg hempty, Con.used, hb]
      exact f1
    · intro a b hab
      rw [(f4 a b ?_).1, j4]
      rintro ⟨ha, hbk⟩
      simp only [List.length_take] at ha
      exact hab ⟨by omega, by omega, hbk⟩
    · intro a b hst
      by_cases hin : a < (d.sets.take m.toNat).length ∧ InBlock n index b
      · have := hin.1
        simp only [List.length_take] at this
        exact ⟨by omega, index, by simp, hin.2⟩
      · rw [(f4 a b hin).2] at hst
        exact hpat0.1 a b hst
    · intro hfs a b ha hbk
      exact f6 a b (hpat0.2 hfs a b ha hbk)

/-- C96 for `ContinuousCollisionNumericalConstraint`, proved part: the block of the first end holds the difference quotients
for the first position.  The block of the second end holds the quotients between the current map and the map with the
*first* position replaced by the perturbed second one; missing is that these are the quotients for the second position
(`C96_violated_continuous`). -/
theorem C96_continuous_partial (ev : Evaluator Name K) (sort : List (GSet Name (Fin n) K) → List (GSet Name (Fin n) K))
    (hsort : ∀ l, (sort l).Perm l) (k0 : Key) (m : Int) (fixed0 fixed1 fs : Bool) (s : Con Key Name n K)
    (hnew : Con.newContinuous k0 m fixed0 fixed1 fs = some s)
    (hash : (Fin n → K) × (Fin n → K) → Key) (tests : (Fin n → K) × (Fin n → K) → RawMap Name (Fin n) K)
    (hinj : ∀ x y, hash x = hash y → tests x = tests y)
    (hd : ∀ x, Delivered ev (tests x)) (hnd : ∀ x, ((tests x).map Prod.fst).Nodup)
    (delta : K) (cols index0 index1 : Nat) (hcols0 : index0 + n ≤ cols) (hcols1 : index1 + n ≤ cols)
    (hdis : index0 + n ≤ index1 ∨ index1 + n ≤ index0)
    (xs : List ((Fin n → K) × (Fin n → K))) (q0 q1 : Fin n → K) :
    ∃ t d J, s.run hash (fun x => calcCollisionData ev sort fixed0 fixed1 m.toNat (tests x)) (zeros2 m.toNat n index0 index1)
        (xs ++ [(q0, q1)]) = some t ∧
      calcCollisionData ev sort fixed0 fixed1 m.toNat (tests (q0, q1)) = some d ∧
      t.continuousNumJacobian ev (fun a b => calcCollisionData ev sort fixed0 fixed1 m.toNat (tests (a, b))) delta fixed0 fixed1
        cols index0 index1 q0 q1 = some J ∧
      J.rows = m.toNat ∧ J.cols = cols ∧
      QuotientRows ev (NearFree ev fixed0 fixed1) (tests (q0, q1)) (fun j => tests (Function.update q0 j (q0 j + delta), q1)) delta
        m.toNat index0 d.sets J ∧
      QuotientRows ev (NearFree ev fixed0 fixed1) (tests (q0, q1)) (fun j => tests (Function.update q1 j (q1 j + delta), q1)) delta
        m.toNat index1 d.sets J ∧
      (∀ a b, ¬ (a < m.toNat ∧ a < d.sets.length ∧ (InBlock n index0 b ∨ InBlock n index1 b)) → J.val a b = 0) ∧
      PatternIs n m.toNat [index0, index1] fs J := by
  have hf : ¬ (fixed0 = true ∧ fixed1 = true) := by
    rintro ⟨rfl, rfl⟩; simp [Con.newContinuous] at hnew
  have hnew' : Con.new k0 m fs = some s := by
    simp only [Con.newContinuous] at hnew
    split_ifs at hnew
    exact hnew
  obtain ⟨_, hm, _, _⟩ := Con.new_ok k0 hash (fun x => calcCollisionData ev sort fixed0 fixed1 m.toNat (tests x))
    (zeros2 m.toNat n index0 index1) m fs s hnew'
  have hspec := fun x => calcCollisionData_spec ev sort hsort fixed0 fixed1 hf m.toNat hm (tests x) (hd x)
  have hsome : ∀ x, calcCollisionData ev sort fixed0 fixed1 m.toNat (tests x) ≠ none := by
    intro x
    obtain ⟨d, e, _⟩ := hspec x
    rw [e]; simp
  obtain ⟨d, e, _, hg, _⟩ := hspec (q0, q1)
  obtain ⟨t, h1, h2, h3, h5, h4⟩ := Con.run_last hash (fun x => calcCollisionData ev sort fixed0 fixed1 m.toNat (tests x))
    (zeros2 m.toNat n index0 index1)
    (fun a b hab => by simp only [hinj a b hab]) k0 m fs s hnew' xs (fun x _ => hsome x) (q0, q1) d e
  have hb : t.bounds.length = m.toNat := by rw [h2.bounds]; simp
  obtain ⟨J0, j1, j2, j3, j4, j5⟩ := start_spec (K := K) m.toNat cols (zeros2 m.toNat n index0 index1) (by
    rintro ⟨a, b⟩ ht
    obtain ⟨h, ⟨j, hj⟩ | ⟨j, hj⟩⟩ := (mem_zeros2 _ _ _ _ _ _).1 ht <;>
    · have := j.2
      simp only at *
      omega) t.inited fs t.triplets h2.triplets h5
  have hpat0 : PatternIs n m.toNat [index0, index1] fs J0 := by
    constructor
    · intro a b hst
      obtain ⟨ha, hbk | hbk⟩ := (mem_zeros2 _ _ _ _ _ _).1 ((j5 a b).1 hst).2
      · exact ⟨ha, index0, by simp, hbk⟩
      · exact ⟨ha, index1, by simp, hbk⟩
    · rintro hfs a b ha ⟨off, ho, hbk⟩
      simp only [List.mem_cons, List.not_mem_nil, or_false] at ho
      refine (j5 a b).2 ⟨hfs, (mem_zeros2 _ _ _ _ _ _).2 ⟨ha, ?_⟩⟩
      rcases ho with rfl | rfl
      · exact Or.inl hbk
      · exact Or.inr hbk
  by_cases hempty : d.sets = []
  · refine ⟨t, d, J0, h1, e, ?_, j2, j3, ?_, ?_, fun a b _ => j4 a b, hpat0⟩
    · simp only [Con.continuousNumJacobian, h3, h2.hrows, j1, hempty, if_true]
    · intro i g _ hgi
      rw [hempty] at hgi; simp at hgi
    · intro i g _ hgi
      rw [hempty] at hgi; simp at hgi
  · have herr : ∀ x (dd : Data Name (Fin n) K), calcCollisionData ev sort fixed0 fixed1 m.toNat (tests x) = some dd →
        ∀ g ∈ dd.sets, ∃ v, freeError ev.lowest fixed0 fixed1 g = some v ∧ IsMax (fun x => ∃ r ∈ g.results, r.error = x) v := by
      intro x dd hdd g hgm
      obtain ⟨d', e', _, hg', hcf, _⟩ := hspec x
      rw [hdd, Option.some.injEq] at e'
      subst e'
      obtain ⟨v, a1, _, a2⟩ := continuousRow_spec ev (tests x) (hd x) fixed0 fixed1 hf dd.sets hg' hcf g hgm
      exact ⟨v, a1, a2⟩
    have hdisj : ∀ b, InBlock n index0 b → ¬ InBlock n index1 b := by
      rintro b ⟨j, hj⟩ ⟨j', hj'⟩
      have := j.2; have := j'.2
      omega
    obtain ⟨J1, f1, f2, f3, f4, f5, f6⟩ := numBlock_spec hg (hnd (q0, q1)) (fun k r => (grad2_error ev k r).1)
      (freeError ev.lowest fixed0 fixed1) (herr _ d e) (fun j => tests (Function.update q0 j (q0 j + delta), q1))
      (fun j => calcCollisionData ev sort fixed0 fixed1 m.toNat (tests (Function.update q0 j (q0 j + delta), q1))) (by
        intro j
        refine ⟨hnd _, ?_⟩
        obtain ⟨d', e', _, hg', _⟩ := hspec (Function.update q0 j (q0 j + delta), q1)
        exact ⟨d', e', hg', herr _ d' e'⟩) m.toNat cols index0 hcols0 delta J0 j2 j3 (fun j a => j4 _ _)
    obtain ⟨J2, g1, g2, g3, g4, g5, g6⟩ := numBlock_spec hg (hnd (q0, q1)) (fun k r => (grad2_error ev k r).1)
      (freeError ev.lowest fixed0 fixed1) (herr _ d e) (fun j => tests (Function.update q1 j (q1 j + delta), q1))
      (fun j => calcCollisionData ev sort fixed0 fixed1 m.toNat (tests (Function.update q1 j (q1 j + delta), q1))) (by
        intro j
        refine ⟨hnd _, ?_⟩
        obtain ⟨d', e', _, hg', _⟩ := hspec (Function.update q1 j (q1 j + delta), q1)
        exact ⟨d', e', hg', herr _ d' e'⟩) m.toNat cols index1 hcols1 delta J1 f2 f3 (fun j a => by
          rw [(f4 a _ (fun h => hdisj _ h.2 ⟨j, rfl⟩)).1]; exact j4 _ _)
    refine ⟨t, d, J2, h1, e, ?_, g2, g3, ?_, g5, ?_, ?_, ?_⟩
    · have f1' : Con.continuousNumBlock ev (fun a b => calcCollisionData ev sort fixed0 fixed1 m.toNat (tests (a, b))) delta fixed0
          fixed1 index0 q0 q1 (d.sets.take m.toNat).zipIdx J0 = some J1 := f1
      have g1' : Con.continuousNumBlock ev (fun a b => calcCollisionData ev sort fixed0 fixed1 m.toNat (tests (a, b))) delta fixed0
          fixed1 index1 q1 q1 (d.sets.take m.toNat).zipIdx J1 = some J2 := g1
      simp only [Con.continuousNumJacobian, h3, h2.hrows, j1, if_neg hempty, Con.used, hb, f1', g1']
    · intro i g hi hgi j
      obtain ⟨a, b, pa, pb, ev⟩ := f5 i g hi hgi j
      refine ⟨a, b, pa, pb, ?_⟩
      rw [(g4 i _ (fun h => hdisj _ ⟨j, rfl⟩ h.2)).1]
      exact ev
    · intro a b hab
      rw [(g4 a b ?_).1, (f4 a b ?_).1, j4]
      · rintro ⟨ha, hbk⟩
        simp only [List.length_take] at ha
        exact hab ⟨by omega, by omega, Or.inl hbk⟩
      · rintro ⟨ha, hbk⟩
        simp only [List.length_take] at ha
        exact hab ⟨by omega, by omega, Or.inr hbk⟩
    · intro a b hst
      by_cases hin1 : a < (d.sets.take m.toNat).length ∧ InBlock n index1 b
      · have := hin1.1
        simp only [List.length_take] at this
        exact ⟨by omega, index1, by simp, hin1.2⟩
      rw [(g4 a b hin1).2] at hst
      by_cases hin0 : a < (d.sets.take m.toNat).length ∧ InBlock n index0 b
      · have := hin0.1
        simp only [List.length_take] at this
        exact ⟨by omega, index0, by simp, hin0.2⟩
      rw [(f4 a b hin0).2] at hst
      exact hpat0.1 a b hst
    · intro hfs a b ha hbk
      exact g6 a b (f6 a b (hpat0.2 hfs a b ha hbk))

end C96

/-! ### Witnesses -/

/-- One contact whose distance is the first position; the second position is irrelevant. -/
def demoTests (p : (Fin 1 → ℚ) × (Fin 1 → ℚ)) : RawMap Nat (Fin 1) ℚ := [((0, 1), [demoRaw (p.1 0) ![true, true]])]

/-- C96 is violated by `ContinuousCollisionNumericalConstraint`: the contacts do not depend on the second position at all, yet
with the step of the code the entry for the second position is `-100000001` instead of zero. -/
theorem C96_violated_continuous :
    (∀ a b b', demoTests (a, b) = demoTests (a, b')) ∧
    ((Con.newContinuous (0 : Nat) 1 false false false : Option (Con Nat Nat 1 ℚ)).bind fun s =>
      (s.run (fun _ => 7) (fun x => calcCollisionData demoEv id false false 1 (demoTests x)) [] [(fun _ => 0, fun _ => 1)]).bind
        fun t => (t.continuousNumJacobian demoEv (fun a b => calcCollisionData demoEv id false false 1 (demoTests (a, b)))
          (1 / 10 ^ 8) false false 2 0 1 (fun _ => 0) (fun _ => 1)).map fun J => (J.val 0 0, J.val 0 1)) =
      some (-1, -100000001) := by
  refine ⟨fun _ _ _ => rfl, ?_⟩
  decide +kernel

/-! ### Non-vacuity -/

theorem demoTests_delivered (p : (Fin 1 → ℚ) × (Fin 1 → ℚ)) (h : p.1 0 < 1001) : Delivered demoEv (demoTests p) ∧
    Unclassified (demoTests p) ∧ ((demoTests p).map Prod.fst).Nodup := by
  have hraw : ∀ q ∈ demoTests p, ∀ r ∈ q.2, r = demoRaw (p.1 0) ![true, true] := by
    intro q hq r hr
    simp only [demoTests, List.mem_singleton] at hq
    subst hq
    simpa using hr
  refine ⟨⟨?_, ?_, ?_, ?_⟩, ?_, by simp [demoTests]⟩
  · intro q hq r hr
    rw [hraw q hq r hr]
    have : shapeKey (demoRaw (p.1 0) ![true, true] : Raw (Fin 1) ℚ).c = shapeKey (demoRaw 0 ![true, true] : Raw (Fin 1) ℚ).c := rfl
    rw [this]
    decide +kernel
  · intro q hq r hr
    rw [hraw q hq r hr]; exact ⟨0, rfl⟩
  · intro q hq r hr i hi
    rw [hraw q hq r hr] at hi; exact absurd rfl hi
  · intro q hq r hr
    rw [hraw q hq r hr]
    simp only [demoEv, demoRaw]
    constructor <;> linarith
  · intro q hq r hr i
    rw [hraw q hq r hr]; rfl

/-- A single evaluated position in contact: the hypotheses of C92–C96 hold, with one group in one row. -/
example : (Con.new (0 : Nat) 1 true : Option (Con Nat Nat 1 ℚ)).isSome = true ∧
    (Con.newContinuous (0 : Nat) 1 false true true : Option (Con Nat Nat 1 ℚ)).isSome = true ∧
    Delivered demoEv (demoTests (fun _ => 0, fun _ => 0)) ∧ Unclassified (demoTests (fun _ => 0, fun _ => 0)) ∧
    ((demoTests (fun _ => 0, fun _ => 0)).map Prod.fst).Nodup ∧
    SortsBy discreteCmp (fun l : List (GSet Nat (Fin 1) ℚ) => l.mergeSort fun a b => !discreteCmp b a) ∧
    0 ≤ demoEv.buffer ∧ demoEv.lowest < 0 ∧
    (calcCollisions demoEv id 1 (demoTests (fun _ => 0, fun _ => 0))).map (fun d => d.sets.length) = some 1 ∧
    (calcCollisionData demoEv id false false 1 (demoTests (fun _ => 0, fun _ => 0))).map (fun d => d.sets.length) = some 1 := by
  obtain ⟨h1, h2, h3⟩ := demoTests_delivered (fun _ => 0, fun _ => 0) (by norm_num)
  refine ⟨rfl, rfl, h1, h2, h3, ?_, by norm_num [demoEv], by norm_num [demoEv], by decide +kernel, by decide +kernel⟩
  intro l
  refine ⟨List.mergeSort_perm _ _, ?_⟩
  have := List.pairwise_mergeSort (le := fun a b : GSet Nat (Fin 1) ℚ => !discreteCmp b a) ?_ ?_ l
  · exact this.imp fun h => by simpa using h
  · intro a b c
    simp only [discreteCmp, arrayGt, Bool.not_eq_true', Bool.or_eq_false_iff, decide_eq_false_iff_not, not_lt,
      Bool.and_eq_false_iff]
    rintro ⟨h1, h2⟩ ⟨h3, h4⟩
    refine ⟨le_trans h3 h1, ?_⟩
    rcases h2 with h2 | h2
    · exact Or.inl fun h => h2 (le_antisymm h1 (by rw [h]; exact h3)).symm
    · rcases h4 with h4 | h4
      · exact Or.inl fun h => h4 (le_antisymm h3 (by rw [← h]; exact h1)).symm
      · exact Or.inr (le_trans h4 h2)
  · intro a b
    simp only [discreteCmp, arrayGt, Bool.or_eq_true, Bool.not_eq_true', Bool.or_eq_false_iff, decide_eq_false_iff_not, not_lt,
      Bool.and_eq_false_iff]
    rcases lt_trichotomy ((a.maxError 0).err 0) ((b.maxError 0).err 0) with h | h | h
    · right; exact ⟨h.le, Or.inl h.ne'⟩
    · rcases le_total ((a.maxError 0).err 1) ((b.maxError 0).err 1) with h' | h'
      · right; exact ⟨h.le, Or.inr h'⟩
      · left; exact ⟨h.ge, Or.inr h'⟩
    · left; exact ⟨h.le, Or.inl h.ne'⟩

/-- The rows read one contact inside the margin, and the averaged gradient is minus the one of both links. -/
example :
    ((Con.new (0 : Nat) 2 true : Option (Con Nat Nat 1 ℚ)).bind fun s =>
      (s.run (fun _ => 7) (fun x => calcCollisions demoEv id 2 (demoTests x)) (zeros1 2 1 3) [(fun _ => 0, fun _ => 0)]).bind
        fun t => t.discreteValues demoEv) = some [1, -1] ∧
    ((Con.new (0 : Nat) 2 true : Option (Con Nat Nat 1 ℚ)).bind fun s =>
      (s.run (fun _ => 7) (fun x => calcCollisions demoEv id 2 (demoTests x)) (zeros1 2 1 3) [(fun _ => 0, fun _ => 0)]).bind
        fun t => (t.discreteJacobian demoEv 5 3).map fun J => (J.val 0 3, J.val 1 3, J.stored 1 3)) = some (-1, 0, true) ∧
    (((DynCon.new (0 : Nat) : DynCon Nat Nat 1 ℚ).run demoEv (fun _ => 7) (fun x => calcCollisions demoEv id 0 (demoTests x))
      [(fun _ => 0, fun _ => 0)]).bind fun t => (t.discreteJacobian 5 3).map fun J => (t.values, J.rows, J.val 0 3)) =
      some ([1], 1, -2) ∧
    (((DynCon.new (0 : Nat) : DynCon Nat Nat 1 ℚ).run demoEv (fun _ => 7)
      (fun x => calcCollisionData demoEv id false false 0 (demoTests x))
      [(fun _ => 0, fun _ => 0)]).bind fun t => (t.continuousJacobian false false 5 3 4).map fun J => (J.val 0 3, J.val 0 4)) =
      some (-2, -2) := by
  refine ⟨?_, ?_, ?_, ?_⟩ <;> decide +kernel

end Verif.Collision
