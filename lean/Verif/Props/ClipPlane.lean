import Verif.Model.ClipPlane
import Verif.Props.Decompose
import Mathlib.Tactic.FinCases
import Mathlib.Data.Fintype.Basic
import Mathlib.Data.Fintype.Fin

set_option linter.unusedSectionVars false
set_option linter.unusedVariables false

/-!
# C169: the choice of the clipping plane does not depend on the order of the threads
-/

namespace Verif.Decompose

variable {K : Type} [Field K] [LinearOrder K] [IsStrictOrderedRing K]

/-! ### The choice -/

/-- Among some planes, `x` is the cheapest, and the first of the cheapest. -/
def FirstCheapest (total : ℕ → K) (among : ℕ → Prop) (x : ℕ) : Prop :=
  among x ∧ ∀ y, among y → total x ≤ total y ∧ (total y = total x → x ≤ y)

/-- what is known after some planes have entered -/
def Seen (planes : List (Cand K)) (total conc : ℕ → K) (M : K) (p0 : Option (Cand K)) (c0 : K)
    (l : List ℕ) (b : Best K) : Prop :=
  ((∀ x ∈ l, M ≤ total x) ∧ b = ⟨M, -1, p0, c0⟩) ∨
    ∃ x, FirstCheapest total (· ∈ l) x ∧ total x < M ∧ b = ⟨total x, x, planes[x]?, conc x⟩

theorem enter_seen (planes : List (Cand K)) (total conc : ℕ → K) (M : K) (p0 : Option (Cand K))
    (c0 : K) (l : List ℕ) (b : Best K) (z : ℕ) (h : Seen planes total conc M p0 c0 l b) :
    Seen planes total conc M p0 c0 (l ++ [z]) (enter planes total conc b z) := by
  rcases h with ⟨h1, rfl⟩ | ⟨x, ⟨hx, hmin⟩, hM, rfl⟩
  · unfold enter
    by_cases hz : total z < M
    · rw [if_pos (Or.inl hz)]
      right
      refine ⟨z, ⟨by simp, ?_⟩, hz, rfl⟩
      intro y hy
      rcases List.mem_append.mp hy with hy | hy
      · exact ⟨hz.le.trans (h1 y hy), fun he => absurd (h1 y hy) (by rw [he]; exact not_le.mpr hz)⟩
      · have : y = z := by simpa using hy
        subst this
        exact ⟨le_refl _, fun _ => le_refl _⟩
    · rw [if_neg (by
        rintro (h | ⟨_, h⟩)
        · exact hz h
        · simp only at h; omega)]
      left
      refine ⟨?_, rfl⟩
      intro y hy
      rcases List.mem_append.mp hy with hy | hy
      · exact h1 y hy
      · have : y = z := by simpa using hy
        subst this
        exact not_lt.mp hz
  · unfold enter
    right
    by_cases hz : total z < total x ∨ (total z = total x ∧ (z : ℤ) < (x : ℤ))
    · rw [if_pos hz]
      have hzx : total z ≤ total x := by
        rcases hz with h | h
        · exact h.le
        · exact h.1.le
      refine ⟨z, ⟨by simp, ?_⟩, lt_of_le_of_lt hzx hM, rfl⟩
      intro y hy
      rcases List.mem_append.mp hy with hy | hy
      · refine ⟨hzx.trans (hmin y hy).1, fun he => ?_⟩
        rcases hz with h | h
        · exact absurd ((hmin y hy).1) (by rw [he]; exact not_le.mpr h)
        · have := (hmin y hy).2 (by rw [he, h.1])
          have := h.2
          omega
      · have : y = z := by simpa using hy
        subst this
        exact ⟨le_refl _, fun _ => le_refl _⟩
    · rw [if_neg hz]
      push Not at hz
      refine ⟨x, ⟨List.mem_append_left _ hx, ?_⟩, hM, rfl⟩
      intro y hy
      rcases List.mem_append.mp hy with hy | hy
      · exact hmin y hy
      · have : y = z := by simpa using hy
        subst this
        refine ⟨hz.1, fun he => ?_⟩
        have := hz.2 he
        omega

theorem foldl_seen (planes : List (Cand K)) (total conc : ℕ → K) (M : K) (p0 : Option (Cand K))
    (c0 : K) : ∀ (l l0 : List ℕ) (b : Best K), Seen planes total conc M p0 c0 l0 b →
    Seen planes total conc M p0 c0 (l0 ++ l) (l.foldl (enter planes total conc) b) := by
  intro l
  induction l with
  | nil => intro l0 b h; simpa using h
  | cons z l ih =>
    intro l0 b h
    have := ih (l0 ++ [z]) _ (enter_seen planes total conc M p0 c0 l0 b z h)
    simpa using this

/-- **C169.** In whatever order the threads finish the planes, the result is the first of the
cheapest planes, with its concavity, provided one is cheaper than `MAX_DOUBLE`; otherwise the
plane and the concavity at the call are kept. -/
theorem C169_choice (planes : List (Cand K)) (total conc : ℕ → K) (M : K) (order : List ℕ)
    (p0 : Option (Cand K)) (c0 : K) :
    let b := choose planes total conc M order p0 c0
    (∀ x, FirstCheapest total (· ∈ order) x → total x < M →
        b.plane = planes[x]? ∧ b.concavity = conc x) ∧
      ((∀ x ∈ order, M ≤ total x) → b.plane = p0 ∧ b.concavity = c0) := by
  have h := foldl_seen planes total conc M p0 c0 order [] ⟨M, -1, p0, c0⟩ (Or.inl ⟨by simp, rfl⟩)
  rw [List.nil_append] at h
  change Seen planes total conc M p0 c0 order (choose planes total conc M order p0 c0) at h
  refine ⟨?_, ?_⟩
  · intro x hx hM
    rcases h with ⟨h1, _⟩ | ⟨y, hy, _, hb⟩
    · exact absurd (h1 x hx.1) (not_le.mpr hM)
    · have hxy : x = y := by
        have a1 := hx.2 y hy.1
        have a2 := hy.2 x hx.1
        have e : total x = total y := le_antisymm a1.1 a2.1
        exact le_antisymm (a1.2 e.symm) (a2.2 e)
      rw [hb, hxy]
      exact ⟨rfl, rfl⟩
  · intro hall
    rcases h with ⟨_, hb⟩ | ⟨y, hy, hM, _⟩
    · rw [hb]; exact ⟨rfl, rfl⟩
    · exact absurd (hall y hy.1) (not_le.mpr hM)

/-- **C169.** Two executions which finish the same planes in different orders choose the same plane
and report the same concavity. -/
theorem C169_order (planes : List (Cand K)) (total conc : ℕ → K) (M : K) (o₁ o₂ : List ℕ)
    (hp : o₁.Perm o₂) (p0 : Option (Cand K)) (c0 : K) :
    choose planes total conc M o₁ p0 c0 = choose planes total conc M o₂ p0 c0 := by
  have h1 := foldl_seen planes total conc M p0 c0 o₁ [] ⟨M, -1, p0, c0⟩ (Or.inl ⟨by simp, rfl⟩)
  have h2 := foldl_seen planes total conc M p0 c0 o₂ [] ⟨M, -1, p0, c0⟩ (Or.inl ⟨by simp, rfl⟩)
  rw [List.nil_append] at h1 h2
  change Seen planes total conc M p0 c0 o₁ (choose planes total conc M o₁ p0 c0) at h1
  change Seen planes total conc M p0 c0 o₂ (choose planes total conc M o₂ p0 c0) at h2
  rcases h1 with ⟨a1, a2⟩ | ⟨x, a1, a2, a3⟩ <;> rcases h2 with ⟨b1, b2⟩ | ⟨y, b1, b2, b3⟩
  · rw [a2, b2]
  · exact absurd (a1 y (hp.mem_iff.mpr b1.1)) (not_le.mpr b2)
  · exact absurd (b1 x (hp.mem_iff.mp a1.1)) (not_le.mpr a2)
  · have hxy : x = y := by
      have c1 := a1.2 y (hp.mem_iff.mpr b1.1)
      have c2 := b1.2 x (hp.mem_iff.mp a1.1)
      have e : total x = total y := le_antisymm c1.1 c2.1
      exact le_antisymm (c1.2 e.symm) (c2.2 e)
    rw [a3, b3, hxy]

/-- **C169.** If all planes are finished, there is at least one, and their costs are below
`MAX_DOUBLE`, then one of the planes is chosen: no caller is left with an uninitialised plane. -/
theorem C169_found (planes : List (Cand K)) (total conc : ℕ → K) (M : K) (order : List ℕ)
    (ho : order.Perm (List.range planes.length)) (hne : planes ≠ [])
    (hM : ∀ x < planes.length, total x < M) (p0 : Option (Cand K)) (c0 : K) :
    ∃ c ∈ planes, (choose planes total conc M order p0 c0).plane = some c := by
  have h := foldl_seen planes total conc M p0 c0 order [] ⟨M, -1, p0, c0⟩ (Or.inl ⟨by simp, rfl⟩)
  rw [List.nil_append] at h
  change Seen planes total conc M p0 c0 order (choose planes total conc M order p0 c0) at h
  have hlen : 0 < planes.length := List.length_pos_of_ne_nil hne
  rcases h with ⟨h1, _⟩ | ⟨x, hx, _, hb⟩
  · have : 0 ∈ order := ho.mem_iff.mpr (List.mem_range.mpr hlen)
    exact absurd (h1 0 this) (not_le.mpr (hM 0 hlen))
  · have hxl : x < planes.length := List.mem_range.mp (ho.mem_iff.mp hx.1)
    refine ⟨planes[x], List.getElem_mem hxl, ?_⟩
    rw [hb]
    exact List.getElem?_eq_getElem hxl

/-! ### The planes -/

theorem toShort_id (x : ℤ) (h1 : -2 ^ 15 ≤ x) (h2 : x < 2 ^ 15) : toShort x = x := by
  unfold toShort
  rw [Int.emod_eq_of_lt (by omega) (by omega)]
  omega

theorem indices_mem (i1 step : ℤ) (hs : 1 ≤ step) (hr : i1 + step < 2 ^ 15) :
    ∀ (fuel : ℕ) (i : ℤ), -2 ^ 15 ≤ i → (i1 - i + 1).toNat < fuel →
    ∃ l, indices fuel i i1 step = some l ∧ l.Pairwise (· < ·) ∧
      ∀ j, j ∈ l ↔ i ≤ j ∧ j ≤ i1 ∧ step ∣ j - i := by
  intro fuel
  induction fuel with
  | zero => intro i _ h; omega
  | succ fuel ih =>
    intro i hi hf
    rw [indices]
    by_cases hle : i ≤ i1
    · rw [if_pos hle, toShort_id (i + step) (by omega) (by omega)]
      obtain ⟨l, h1, h2, h3⟩ := ih (i + step) (by omega) (by omega)
      rw [h1]
      refine ⟨i :: l, rfl, ?_, ?_⟩
      · rw [List.pairwise_cons]
        exact ⟨fun j hj => by have := ((h3 j).mp hj).1; omega, h2⟩
      · intro j
        rw [List.mem_cons, h3]
        constructor
        · rintro (rfl | ⟨a, b, c⟩)
          · exact ⟨le_refl _, hle, by simp⟩
          · refine ⟨by omega, b, ?_⟩
            have : j - i = (j - (i + step)) + step := by ring
            rw [this]
            exact dvd_add c (dvd_refl _)
        · rintro ⟨a, b, c⟩
          by_cases hji : j = i
          · exact Or.inl hji
          · right
            have hst : step ≤ j - i := Int.le_of_dvd (by omega) c
            refine ⟨by omega, b, ?_⟩
            have : j - (i + step) = (j - i) - step := by ring
            rw [this]
            exact dvd_sub c (dvd_refl _)
    · rw [if_neg hle]
      refine ⟨[], rfl, List.Pairwise.nil, ?_⟩
      intro j
      constructor
      · intro h; cases h
      · rintro ⟨a, b, _⟩; omega

theorem bounds_fold (axis : Fin 3) : ∀ (l : List Voxel) (b : ℤ × ℤ),
    let r := l.foldl (fun b w => ((if w.at axis < b.1 then w.at axis else b.1 : ℤ),
      (if b.2 < w.at axis then w.at axis else b.2 : ℤ))) b
    (r.1 = b.1 ∨ ∃ w ∈ l, w.at axis = r.1) ∧ (r.2 = b.2 ∨ ∃ w ∈ l, w.at axis = r.2) ∧
      r.1 ≤ b.1 ∧ b.2 ≤ r.2 ∧ ∀ w ∈ l, r.1 ≤ w.at axis ∧ w.at axis ≤ r.2 := by
  intro l
  induction l with
  | nil => intro b; simp
  | cons v l ih =>
    intro b
    rw [List.foldl_cons]
    generalize hb : ((if v.at axis < b.1 then v.at axis else b.1 : ℤ),
      (if b.2 < v.at axis then v.at axis else b.2 : ℤ)) = b'
    have k1 : (b'.1 = b.1 ∨ v.at axis = b'.1) ∧ b'.1 ≤ b.1 ∧ b'.1 ≤ v.at axis := by
      rw [← hb]
      simp only
      by_cases h : v.at axis < b.1
      · rw [if_pos h]; exact ⟨Or.inr rfl, h.le, le_refl _⟩
      · rw [if_neg h]; exact ⟨Or.inl rfl, le_refl _, not_lt.mp h⟩
    have k2 : (b'.2 = b.2 ∨ v.at axis = b'.2) ∧ b.2 ≤ b'.2 ∧ v.at axis ≤ b'.2 := by
      rw [← hb]
      simp only
      by_cases h : b.2 < v.at axis
      · rw [if_pos h]; exact ⟨Or.inr rfl, h.le, le_refl _⟩
      · rw [if_neg h]; exact ⟨Or.inl rfl, le_refl _, not_lt.mp h⟩
    obtain ⟨h1, h2, h3, h4, h5⟩ := ih b'
    refine ⟨?_, ?_, h3.trans k1.2.1, k2.2.1.trans h4, ?_⟩
    · rcases h1 with h1 | ⟨w, hw, h1⟩
      · rcases k1.1 with k | k
        · exact Or.inl (h1.trans k)
        · exact Or.inr ⟨v, List.mem_cons_self .., k.trans h1.symm⟩
      · exact Or.inr ⟨w, List.mem_cons_of_mem _ hw, h1⟩
    · rcases h2 with h2 | ⟨w, hw, h2⟩
      · rcases k2.1 with k | k
        · exact Or.inl (h2.trans k)
        · exact Or.inr ⟨v, List.mem_cons_self .., k.trans h2.symm⟩
      · exact Or.inr ⟨w, List.mem_cons_of_mem _ hw, h2⟩
    · intro w hw
      rcases List.mem_cons.mp hw with rfl | hw
      · exact ⟨h3.trans k1.2.2, k2.2.2.trans h4⟩
      · exact h5 w hw

/-- the bounds are those of the voxels -/
theorem bounds_spec (s : VSet K) (axis : Fin 3) (h : s.voxels ≠ []) :
    (∃ w ∈ s.voxels, w.at axis = (bounds s axis).1) ∧ (∃ w ∈ s.voxels, w.at axis = (bounds s axis).2) ∧
      ∀ w ∈ s.voxels, (bounds s axis).1 ≤ w.at axis ∧ w.at axis ≤ (bounds s axis).2 := by
  unfold bounds
  cases hv : s.voxels with
  | nil => exact absurd hv h
  | cons v l =>
    obtain ⟨h1, h2, _, _, h5⟩ := bounds_fold axis (v :: l) (v.at axis, v.at axis)
    simp only at h1 h2 h5 ⊢
    refine ⟨?_, ?_, h5⟩
    · rcases h1 with h1 | h1
      · exact ⟨v, List.mem_cons_self .., h1.symm⟩
      · exact h1
    · rcases h2 with h2 | h2
      · exact ⟨v, List.mem_cons_self .., h2.symm⟩
      · exact h2

/-- **C169 (partial: a downsampling of at least one and below 2¹⁵, and voxels whose coordinates leave room for
it in a `short`).** The planes considered first are, for each axis, those after every
`downsampling`-th layer of voxels, from the first layer of the set to its last: `(axis, i)` is
considered exactly if `i` lies between the coordinates of two of its voxels and its distance from
the first layer is a multiple of the downsampling. -/
theorem C169_coarse_partial (s : VSet K) (hne : s.voxels ≠ []) (D : ℕ) (hD : 1 ≤ D) (hD' : D < 2 ^ 15)
    (hr : ∀ v ∈ s.voxels, ∀ axis, -2 ^ 15 ≤ v.at axis ∧ v.at axis + D < 2 ^ 15) (fuel : ℕ)
    (hf : 2 ^ 16 ≤ fuel) :
    ∃ l, coarsePlanes fuel s D = some l ∧ l ≠ [] ∧ ∀ c, c ∈ l ↔
      ∃ axis i lo, c = axisPlane s axis i ∧ (∃ v ∈ s.voxels, v.at axis = lo) ∧
        (∀ v ∈ s.voxels, lo ≤ v.at axis) ∧ lo ≤ i ∧ (∃ v ∈ s.voxels, i ≤ v.at axis) ∧
        (D : ℤ) ∣ i - lo := by
  have key : ∀ axis : Fin 3, ∃ l, indices fuel (bounds s axis).1 (bounds s axis).2 D = some l ∧
      ∀ j, j ∈ l ↔ (bounds s axis).1 ≤ j ∧ j ≤ (bounds s axis).2 ∧ (D : ℤ) ∣ j - (bounds s axis).1 := by
    intro axis
    obtain ⟨⟨a, ha, ha'⟩, ⟨b, hb, hb'⟩, h3⟩ := bounds_spec s axis hne
    have r1 := hr a ha axis
    have r2 := hr b hb axis
    obtain ⟨l, h1, _, h2⟩ := indices_mem (bounds s axis).2 D (by omega) (by omega) fuel
      (bounds s axis).1 (by omega) (by omega)
    exact ⟨l, h1, h2⟩
  obtain ⟨v0, hv0⟩ := List.exists_mem_of_ne_nil _ hne
  have hDs : toShort (D : ℤ) = D := by
    have := hr v0 hv0 0
    exact toShort_id _ (by omega) (by omega)
  obtain ⟨xs, x1, x2⟩ := key 0
  obtain ⟨ys, y1, y2⟩ := key 1
  obtain ⟨zs, z1, z2⟩ := key 2
  refine ⟨xs.map (axisPlane s 0) ++ ys.map (axisPlane s 1) ++ zs.map (axisPlane s 2), ?_, ?_, ?_⟩
  · simp only [coarsePlanes, hDs, x1, y1, z1]
    rfl
  · obtain ⟨⟨a, ha, ha'⟩, ⟨b, hb, hb'⟩, h3⟩ := bounds_spec s 0 hne
    have : (bounds s 0).1 ∈ xs := (x2 _).mpr ⟨le_refl _, by have := h3 b hb; omega, by simp⟩
    intro hc
    have hx : xs = [] := by
      simpa using (List.append_eq_nil_iff.mp (List.append_eq_nil_iff.mp hc).1).1
    rw [hx] at this
    cases this
  · intro c
    have conv : ∀ (axis : Fin 3) (i : ℤ),
        ((bounds s axis).1 ≤ i ∧ i ≤ (bounds s axis).2 ∧ (D : ℤ) ∣ i - (bounds s axis).1) ↔
        ∃ lo, (∃ v ∈ s.voxels, v.at axis = lo) ∧ (∀ v ∈ s.voxels, lo ≤ v.at axis) ∧ lo ≤ i ∧
          (∃ v ∈ s.voxels, i ≤ v.at axis) ∧ (D : ℤ) ∣ i - lo := by
      intro axis i
      obtain ⟨⟨a, ha, ha'⟩, ⟨b, hb, hb'⟩, h3⟩ := bounds_spec s axis hne
      constructor
      · rintro ⟨q1, q2, q3⟩
        exact ⟨_, ⟨a, ha, ha'⟩, fun v hv => (h3 v hv).1, q1, ⟨b, hb, by omega⟩, q3⟩
      · rintro ⟨lo, ⟨v, hv, rfl⟩, q2, q3, ⟨w, hw, q4⟩, q5⟩
        have e : v.at axis = (bounds s axis).1 := by
          have := q2 a ha
          have := (h3 v hv).1
          omega
        rw [e] at q3 q5
        exact ⟨q3, q4.trans (h3 w hw).2, q5⟩
    simp only [List.mem_append, List.mem_map, x2, y2, z2]
    constructor
    · rintro ((⟨i, hi, rfl⟩ | ⟨i, hi, rfl⟩) | ⟨i, hi, rfl⟩)
      · obtain ⟨lo, q⟩ := (conv 0 i).mp hi
        exact ⟨0, i, lo, rfl, q⟩
      · obtain ⟨lo, q⟩ := (conv 1 i).mp hi
        exact ⟨1, i, lo, rfl, q⟩
      · obtain ⟨lo, q⟩ := (conv 2 i).mp hi
        exact ⟨2, i, lo, rfl, q⟩
    · rintro ⟨axis, i, lo, rfl, q⟩
      have hi := (conv axis i).mpr ⟨lo, q⟩
      fin_cases axis
      · exact Or.inl (Or.inl ⟨i, hi, rfl⟩)
      · exact Or.inl (Or.inr ⟨i, hi, rfl⟩)
      · exact Or.inr ⟨i, hi, rfl⟩

/-- **C169.** The refinement considers all planes of the same axis within `downsampling` layers of
the best one, between the first and the last layer of the set; in particular the best one
itself. -/
theorem C169_fine (s : VSet K) (hne : s.voxels ≠ []) (D : ℕ) (best : Cand K)
    (hr : ∀ v ∈ s.voxels, -2 ^ 15 ≤ v.at best.axis ∧ v.at best.axis < 2 ^ 15 - 1)
    (hD : D < 2 ^ 15) (fuel : ℕ) (hf : 2 ^ 16 ≤ fuel)
    (hb : (∃ v ∈ s.voxels, v.at best.axis ≤ best.index) ∧ ∃ v ∈ s.voxels, best.index ≤ v.at best.axis) :
    ∃ l, finePlanes fuel s best D = some l ∧ axisPlane s best.axis best.index ∈ l ∧
      ∀ c, c ∈ l ↔ ∃ i, c = axisPlane s best.axis i ∧ |i - best.index| ≤ D ∧
        (∃ v ∈ s.voxels, v.at best.axis ≤ i) ∧ ∃ v ∈ s.voxels, i ≤ v.at best.axis := by
  obtain ⟨⟨a, ha, ha'⟩, ⟨b, hbm, hb'⟩, h3⟩ := bounds_spec s best.axis hne
  obtain ⟨⟨u, hu, hu'⟩, ⟨w, hw, hw'⟩⟩ := hb
  have ra := hr a ha
  have rb := hr b hbm
  have bu := h3 u hu
  have bw := h3 w hw
  have hDs : toShort (D : ℤ) = D := toShort_id _ (by omega) (by omega)
  have h0 : toShort (max (bounds s best.axis).1 (best.index - D)) =
      max (bounds s best.axis).1 (best.index - D) := toShort_id _ (by omega) (by omega)
  have h1 : toShort (min (bounds s best.axis).2 (best.index + D)) =
      min (bounds s best.axis).2 (best.index + D) := toShort_id _ (by omega) (by omega)
  obtain ⟨l, l1, _, l2⟩ := indices_mem (min (bounds s best.axis).2 (best.index + D)) 1 (by omega)
    (by omega) fuel (max (bounds s best.axis).1 (best.index - D)) (by omega) (by omega)
  refine ⟨l.map (axisPlane s best.axis), ?_, ?_, ?_⟩
  · simp only [finePlanes, hDs, h0, h1, l1]
    rfl
  · refine List.mem_map_of_mem ((l2 _).mpr ⟨by omega, by omega, one_dvd _⟩)
  · intro c
    rw [List.mem_map]
    constructor
    · rintro ⟨i, hi, rfl⟩
      obtain ⟨q1, q2, _⟩ := (l2 i).mp hi
      exact ⟨i, rfl, abs_le.mpr ⟨by omega, by omega⟩, ⟨a, ha, by omega⟩, ⟨b, hbm, by omega⟩⟩
    · rintro ⟨i, rfl, q1, ⟨x, hx, q2⟩, ⟨y, hy, q3⟩⟩
      have := abs_le.mp q1
      have := h3 x hx
      have := h3 y hy
      exact ⟨i, (l2 i).mpr ⟨by omega, by omega, one_dvd _⟩, rfl⟩

/-- height over the plane of an axis -/
theorem height_axis (s : VSet K) (axis : Fin 3) (i : ℤ) (v : Voxel) :
    height (axisPlane s axis i).plane s v = ((v.at axis : K) - i - 1 / 2) * s.scale := by
  fin_cases axis <;> simp [axisPlane, height, Voxel.at] <;> ring

/-- **C169.** Cutting at index `i` separates the layers up to `i` from those above, and marks
exactly the two layers next to the cut as surface, in addition to those which were. -/
theorem C169_cut (s : VSet K) (hs : 0 < s.scale) (axis : Fin 3) (i : ℤ) (up : Bool) :
    half (axisPlane s axis i).plane s up =
      (s.voxels.filter fun v => decide (i < v.at axis) == up).map fun v =>
        { v with surf := v.surf || decide (v.at axis = i ∨ v.at axis = i + 1) } := by
  have hside : ∀ v : Voxel, (0 ≤ height (axisPlane s axis i).plane s v) ↔ i < v.at axis := by
    intro v
    rw [height_axis, mul_nonneg_iff_of_pos_right hs]
    constructor
    · intro h
      by_contra hc
      have : (v.at axis : K) ≤ i := by exact_mod_cast not_lt.mp hc
      linarith
    · intro h
      have : (i : K) + 1 ≤ v.at axis := by exact_mod_cast h
      linarith
  have hnear : ∀ v : Voxel, (|height (axisPlane s axis i).plane s v| ≤ s.scale) ↔
      (v.at axis = i ∨ v.at axis = i + 1) := by
    intro v
    rw [height_axis, abs_mul, abs_of_pos hs, mul_le_iff_le_one_left hs, abs_le]
    constructor
    · rintro ⟨h1, h2⟩
      have a1 : (i : K) - 1 < v.at axis := by linarith
      have a2 : (v.at axis : K) < i + 2 := by linarith
      have b1 : i - 1 < v.at axis := by exact_mod_cast a1
      have b2 : v.at axis < i + 2 := by exact_mod_cast a2
      omega
    · rintro (h | h)
      · rw [h]; constructor <;> linarith
      · rw [h]; push_cast; constructor <;> linarith
  unfold half
  simp only [hside, hnear]

/-- **C169 (violated).** A downsampling of zero, or a multiple of 65536, never ends: the loop over
the planes does not move, and collects planes until memory is exhausted. -/
theorem C169_violated_zero (s : VSet K) (hne : s.voxels ≠ [])
    (hr : ∀ v ∈ s.voxels, -2 ^ 15 ≤ v.x ∧ v.x < 2 ^ 15) (D : ℕ) (hD : 2 ^ 16 ∣ D) (fuel : ℕ) :
    coarsePlanes fuel s D = none := by
  have hDs : toShort (D : ℤ) = 0 := by
    obtain ⟨k, rfl⟩ := hD
    unfold toShort
    push_cast
    omega
  obtain ⟨⟨a, ha, ha'⟩, ⟨b, hbm, hb'⟩, h3⟩ := bounds_spec s 0 hne
  have ra := hr a ha
  have key : ∀ fuel, indices fuel (bounds s 0).1 (bounds s 0).2 0 = none := by
    intro fuel
    induction fuel with
    | zero => rfl
    | succ fuel ih =>
      have hle : (bounds s 0).1 ≤ (bounds s 0).2 := by have := h3 a ha; omega
      have hid : toShort ((bounds s 0).1 + 0) = (bounds s 0).1 := by
        have : a.at 0 = a.x := rfl
        rw [add_zero]
        exact toShort_id _ (by omega) (by omega)
      rw [indices, if_pos hle, hid, ih]
      rfl
  simp only [coarsePlanes, hDs, key]
  rfl

/-- **C169 (violated).** Within `downsampling` layers of the last layer of the set, the refinement
considers a plane which cuts nothing: all voxels are on one side of it, and the other part would be
empty. -/
theorem C169_violated_empty (s : VSet K) (hne : s.voxels ≠ []) (hs : 0 < s.scale) (D : ℕ)
    (best : Cand K)
    (hr : ∀ v ∈ s.voxels, -2 ^ 15 ≤ v.at best.axis ∧ v.at best.axis < 2 ^ 15 - 1)
    (hD : D < 2 ^ 15) (fuel : ℕ) (hf : 2 ^ 16 ≤ fuel)
    (hb : (∃ v ∈ s.voxels, v.at best.axis ≤ best.index) ∧ ∃ v ∈ s.voxels, best.index ≤ v.at best.axis)
    (hlast : ∀ v ∈ s.voxels, v.at best.axis ≤ best.index + D) :
    ∃ l c, finePlanes fuel s best D = some l ∧ c ∈ l ∧ ∀ a b : VSet K,
      (clip c.plane s a b).1.voxels = [] ∧
        (clip c.plane s a b).2.voxels.length = s.voxels.length := by
  obtain ⟨l, l1, _, l3⟩ := C169_fine s hne D best hr hD fuel hf hb
  obtain ⟨_, ⟨w, hw, hw'⟩, h3⟩ := bounds_spec s best.axis hne
  obtain ⟨_, ⟨u, hu, hu'⟩⟩ := hb
  refine ⟨l, axisPlane s best.axis (w.at best.axis), l1, (l3 _).mpr ⟨_, rfl, ?_, ⟨w, hw, le_refl _⟩,
    ⟨w, hw, le_refl _⟩⟩, ?_⟩
  · have := hlast w hw
    have := (h3 u hu).2
    exact abs_le.mpr ⟨by omega, by omega⟩
  · intro a b
    rw [clip_eq _ _ _ _ hne]
    have h1 : half (axisPlane s best.axis (w.at best.axis)).plane s true = [] := by
      rw [C169_cut s hs]
      simp only [List.map_eq_nil_iff, List.filter_eq_nil_iff]
      intro v hv
      have := (h3 v hv).2
      simp
      omega
    refine ⟨h1, ?_⟩
    have := (half_length (axisPlane s best.axis (w.at best.axis)).plane s).2
    rw [h1] at this
    simpa [onGrid] using this

/-! ### Examples -/

/-- three layers -/
def exSet : VSet ℚ :=
  ⟨[⟨4, 0, 0, true⟩, ⟨5, 0, 0, false⟩, ⟨6, 1, 0, true⟩], 0, 0, 0, 1 / 2, 1 / 8, 2, 1⟩

example : (coarsePlanes 100 exSet 2).map (·.map fun c => (c.axis, c.index)) =
    some [(0, 4), (0, 6), (1, 0), (2, 0)] := by decide +kernel

example : (finePlanes 100 exSet (axisPlane exSet 0 4) 2).map (·.map fun c => (c.axis, c.index)) =
    some [(0, 4), (0, 5), (0, 6)] := by decide +kernel

/-- the last of these planes cuts nothing -/
example : (clip (axisPlane exSet 0 6).plane exSet fresh fresh).1.voxels = [] := by decide +kernel

/-- two threads, both orders, with a tie -/
example : let ps := [axisPlane exSet 0 4, axisPlane exSet 0 5, axisPlane exSet 0 6]
    let cost : ℕ → ℚ := fun x => if x = 0 then 3 else 2
    choose ps cost cost 100 [2, 0, 1] none 100 = choose ps cost cost 100 [0, 1, 2] none 100 ∧
      (choose ps cost cost 100 [2, 0, 1] none 100).plane = some (axisPlane exSet 0 5) := by
  decide +kernel

example : let best := axisPlane exSet 0 5
    (∀ v ∈ exSet.voxels, -2 ^ 15 ≤ v.at best.axis ∧ v.at best.axis < 2 ^ 15 - 1) ∧
    ((∃ v ∈ exSet.voxels, v.at best.axis ≤ best.index) ∧
      ∃ v ∈ exSet.voxels, best.index ≤ v.at best.axis) ∧
    ∀ v ∈ exSet.voxels, v.at best.axis ≤ best.index + (2 : ℕ) := by decide +kernel

example : exSet.voxels ≠ [] ∧ (1 ≤ 2) ∧ (2 < 2 ^ 15) ∧ (0 < exSet.scale) ∧
    (∀ v ∈ exSet.voxels, ∀ axis, -2 ^ 15 ≤ v.at axis ∧ v.at axis + (2 : ℕ) < 2 ^ 15) := by
  decide +kernel

end Verif.Decompose
