import Mathlib.Analysis.Convex.Radon
import Mathlib.Algebra.Order.Field.Basic
import Mathlib.Algebra.BigOperators.Fin
import Mathlib.Data.Fintype.Prod
import Mathlib.LinearAlgebra.FiniteDimensional.Lemmas
import Mathlib.LinearAlgebra.Dimension.Constructions
import Mathlib.Tactic.Linarith
import Mathlib.Tactic.Ring
import Mathlib.Tactic.FieldSimp
import Mathlib.Tactic.LinearCombination
import Mathlib.Tactic.FinCases

set_option linter.unusedSectionVars false
set_option linter.unusedVariables false

/-!
# The separating axis theorem for a triangle and a box

If none of the thirteen axes separates a triangle from a box around the origin, they have a point in
common, over any ordered field.  `c i j` is coordinate `i` of corner `j`.  The proof applies Helly's
theorem in the plane of barycentric coordinates (on a line, if the triangle is degenerate).
-/

namespace Verif.Separating

variable {K : Type*} [Field K] [LinearOrder K] [IsStrictOrderedRing K]

/-- A linear function of the corners at the point with barycentric coordinates `1 - t.1 - t.2`, `t.1`, `t.2`. -/
def L (f : Fin 3 → K) (t : K × K) : K := f 0 + t.1 * (f 1 - f 0) + t.2 * (f 2 - f 0)

/-- The triangle. -/
def S : Set (K × K) := {t | 0 ≤ t.1 ∧ 0 ≤ t.2 ∧ t.1 + t.2 ≤ 1}

/-- One side of one slab of the box. -/
def H (c : Fin 3 → Fin 3 → K) (h : Fin 3 → K) (p : Fin 3 × Bool) : Set (K × K) :=
  {t | if p.2 then L (c p.1) t ≤ h p.1 else -h p.1 ≤ L (c p.1) t}

/-- The corner `j`. -/
def corner (j : Fin 3) : K × K := (if j = 1 then 1 else 0, if j = 2 then 1 else 0)

/-- A point between two corners. -/
def mix (s : K) (j k : Fin 3) : K × K :=
  ((1 - s) * (corner j).1 + s * (corner k : K × K).1, (1 - s) * (corner j).2 + s * (corner k : K × K).2)

theorem L_mix (f : Fin 3 → K) (s : K) (j k : Fin 3) : L f (mix s j k) = (1 - s) * f j + s * f k := by
  fin_cases j <;> fin_cases k <;> simp [L, mix, corner] <;> ring

theorem mix_mem {s : K} (h0 : 0 ≤ s) (h1 : s ≤ 1) (j k : Fin 3) : (mix s j k : K × K) ∈ S := by
  have h2 : 0 ≤ 1 - s := by linarith
  fin_cases j <;> fin_cases k <;> simp [S, mix, corner] <;> (try constructor) <;> (try constructor) <;> linarith

theorem L_neg (f : Fin 3 → K) (t : K × K) : L (fun j => -f j) t = -L f t := by unfold L; ring

/-- Two corners on different sides of a quadrant, joined by a line that does not pass it. -/
theorem segment {x y : Fin 3 → K} {hx hy : K} {p q : Fin 3} (p1 : x p ≤ hx) (p2 : hy < y p) (q1 : hx < x q) (q2 : y q ≤ hy)
    (hle : (y p - y q) * x q + (x q - x p) * y q ≤ (y p - y q) * hx + (x q - x p) * hy) :
    ∃ t ∈ (S : Set (K × K)), L x t ≤ hx ∧ L y t ≤ hy := by
  have hd : 0 < x q - x p := by linarith
  refine ⟨mix ((hx - x p) / (x q - x p)) p q, mix_mem (div_nonneg (by linarith) hd.le) ?_ p q, ?_, ?_⟩
  · rw [div_le_one hd]; linarith
  · rw [L_mix]
    apply le_of_eq
    field_simp
    ring
  · rw [L_mix]
    have : (1 - (hx - x p) / (x q - x p)) * y p + (hx - x p) / (x q - x p) * y q =
        ((x q - hx) * y p + (hx - x p) * y q) / (x q - x p) := by field_simp; ring
    rw [this, div_le_iff₀ hd]
    linarith

/-- The separating axis theorem for a triangle and a quadrant. -/
theorem quadrant {x y : Fin 3 → K} {hx hy : K} (hA : ∃ j, x j ≤ hx) (hB : ∃ j, y j ≤ hy)
    (hE : ∀ j k, ∃ l, (y k - y j) * x l - (x k - x j) * y l ≤ |y k - y j| * hx + |x k - x j| * hy) :
    ∃ t ∈ (S : Set (K × K)), L x t ≤ hx ∧ L y t ≤ hy := by
  by_cases hv : ∃ j, x j ≤ hx ∧ y j ≤ hy
  · obtain ⟨j, h1, h2⟩ := hv
    refine ⟨mix 0 j j, mix_mem (le_refl _) zero_le_one j j, ?_, ?_⟩ <;> rw [L_mix] <;> linarith
  push Not at hv
  obtain ⟨p, p1⟩ := hA
  obtain ⟨q, q2⟩ := hB
  have p2 := hv p p1
  have q1 : hx < x q := by
    by_contra h0
    push Not at h0
    exact absurd (hv q h0) (not_lt.mpr q2)
  -- the edge test for a corner on either side
  have hE' : ∀ p q : Fin 3, x p ≤ hx → hx < x q → y q ≤ hy →
      ∃ l, (y p - y q) * x l + (x q - x p) * y l ≤ (y p - y q) * hx + (x q - x p) * hy := by
    intro p q p1 q1 q2
    have p2 := hv p p1
    obtain ⟨l, hl⟩ := hE q p
    refine ⟨l, ?_⟩
    rw [abs_of_pos (by linarith : 0 < y p - y q), abs_of_neg (by linarith : x p - x q < 0)] at hl
    linarith
  by_contra hno
  have hseg : ∀ p q : Fin 3, x p ≤ hx → hx < x q → y q ≤ hy →
      (y p - y q) * hx + (x q - x p) * hy < (y p - y q) * x q + (x q - x p) * y q := by
    intro p q p1 q1 q2
    by_contra h0
    push Not at h0
    exact hno (segment p1 (hv p p1) q1 q2 h0)
  obtain ⟨l, hl⟩ := hE' p q p1 q1 q2
  have s1 := hseg p q p1 q1 q2
  have hlq : l ≠ q := by rintro rfl; exact absurd hl (not_le.mpr s1)
  have hlp : l ≠ p := by
    rintro rfl
    have : (y l - y q) * x l + (x q - x l) * y l = (y l - y q) * x q + (x q - x l) * y q := by ring
    rw [this] at hl
    exact absurd hl (not_le.mpr s1)
  have hpq : p ≠ q := by rintro rfl; linarith
  have third : ∀ m : Fin 3, m = p ∨ m = q ∨ m = l := by
    intro m
    omega
  by_cases hlx : x l ≤ hx
  · -- `l` is on the side of `p`
    have s2 := hseg l q hlx q1 q2
    obtain ⟨m, hm⟩ := hE' l q hlx q1 q2
    rcases third m with rfl | rfl | rfl
    · nlinarith
    · linarith
    · nlinarith
  · push Not at hlx
    by_cases hly : y l ≤ hy
    · have s2 := hseg p l p1 hlx hly
      obtain ⟨m, hm⟩ := hE' p l p1 hlx hly
      rcases third m with rfl | rfl | rfl
      · nlinarith
      · nlinarith
      · linarith
    · push Not at hly
      have a1 : 0 < y p - y q := by linarith
      have b1 : 0 < x q - x p := by linarith
      nlinarith [mul_pos a1 (sub_pos.2 hlx), mul_pos b1 (sub_pos.2 hly)]

/-- The twelve axes other than the normal of the triangle do not separate. -/
structure Touch (c : Fin 3 → Fin 3 → K) (h : Fin 3 → K) : Prop where
  pos : ∀ i, 0 ≤ h i
  lo : ∀ i, ∃ j, c i j ≤ h i
  hi : ∀ i, ∃ j, -h i ≤ c i j
  edge : ∀ i i', i ≠ i' → ∀ j k, ∃ l, (c i' k - c i' j) * c i l - (c i k - c i j) * c i' l ≤
    |c i' k - c i' j| * h i + |c i k - c i j| * h i'

/-- The same statement after reflection in some axes. -/
theorem Touch.pair {c : Fin 3 → Fin 3 → K} {h : Fin 3 → K} (T : Touch c h) (p q : Fin 3 × Bool) :
    ∃ t ∈ (S : Set (K × K)), t ∈ H c h p ∧ t ∈ H c h q := by
  obtain ⟨i, s⟩ := p
  obtain ⟨i', s'⟩ := q
  have ex : ∀ (i : Fin 3) (s : Bool), ∃ j, (if s then c i j else -c i j) ≤ h i := by
    intro i s
    cases s
    · obtain ⟨j, hj⟩ := T.hi i
      refine ⟨j, ?_⟩
      simp only [Bool.false_eq_true, if_false]
      linarith
    · obtain ⟨j, hj⟩ := T.lo i; exact ⟨j, by simpa using hj⟩
  have back : ∀ (i : Fin 3) (s : Bool) (t : K × K), L (fun j => if s then c i j else -c i j) t ≤ h i → t ∈ H c h (i, s) := by
    intro i s t ht
    cases s
    · simp only [Bool.false_eq_true, if_false, L_neg] at ht
      show -h i ≤ L (c i) t
      linarith
    · simp only [if_true] at ht
      exact ht
  by_cases hi : i = i'
  · subst hi
    by_cases hs : s = s'
    · subst hs
      obtain ⟨j, hj⟩ := ex i s
      have : (mix 0 j j : K × K) ∈ H c h (i, s) := back i s _ (by rw [L_mix]; linarith)
      exact ⟨mix 0 j j, mix_mem (le_refl _) zero_le_one j j, this, this⟩
    · -- both sides of a slab
      obtain ⟨t, ht, h1, h2⟩ : ∃ t ∈ (S : Set (K × K)), L (c i) t ≤ h i ∧ -h i ≤ L (c i) t := by
        obtain ⟨j, hj⟩ := T.lo i
        obtain ⟨k, hk⟩ := T.hi i
        have h0 := T.pos i
        by_cases h1 : -h i ≤ c i j
        · exact ⟨mix 0 j j, mix_mem (le_refl _) zero_le_one j j, by rw [L_mix]; linarith, by rw [L_mix]; linarith⟩
        by_cases h2 : c i k ≤ h i
        · exact ⟨mix 0 k k, mix_mem (le_refl _) zero_le_one k k, by rw [L_mix]; linarith, by rw [L_mix]; linarith⟩
        push Not at h1 h2
        have hd : 0 < c i k - c i j := by linarith
        have e : L (c i) (mix ((h i - c i j) / (c i k - c i j)) j k) = h i := by
          rw [L_mix]; field_simp; ring
        refine ⟨mix ((h i - c i j) / (c i k - c i j)) j k, mix_mem (div_nonneg (by linarith) hd.le) ?_ j k, e.le, by rw [e]; linarith⟩
        rw [div_le_one hd]; linarith
      have m1 : t ∈ H c h (i, true) := back i true t (by simpa using h1)
      have m2 : t ∈ H c h (i, false) := back i false t (by
        simp only [Bool.false_eq_true, if_false, L_neg]; linarith)
      refine ⟨t, ht, ?_, ?_⟩
      · cases s <;> assumption
      · cases s' <;> assumption
  · obtain ⟨t, ht, h1, h2⟩ := quadrant (ex i s) (ex i' s') (by
      intro j k
      cases s <;> cases s' <;> simp only [Bool.false_eq_true, if_false, if_true]
      · obtain ⟨l, hl⟩ := T.edge i i' hi j k
        refine ⟨l, ?_⟩
        rw [show -c i' k - -c i' j = -(c i' k - c i' j) by ring, show -c i k - -c i j = -(c i k - c i j) by ring, abs_neg, abs_neg]
        linarith
      · obtain ⟨l, hl⟩ := T.edge i i' hi k j
        refine ⟨l, ?_⟩
        rw [show -c i k - -c i j = c i j - c i k by ring, abs_sub_comm (c i' k)]
        linarith
      · obtain ⟨l, hl⟩ := T.edge i i' hi k j
        refine ⟨l, ?_⟩
        rw [show -c i' k - -c i' j = c i' j - c i' k by ring, abs_sub_comm (c i k)]
        linarith
      · exact T.edge i i' hi j k)
    exact ⟨t, ht, back i s t h1, back i' s' t h2⟩

theorem L_combo (f : Fin 3 → K) (a b : K) (t u : K × K) (hab : a + b = 1) :
    L f (a • t + b • u) = a * L f t + b * L f u := by
  obtain rfl : b = 1 - a := by linarith
  simp only [L, Prod.smul_fst, Prod.smul_snd, Prod.fst_add, Prod.snd_add, smul_eq_mul]
  ring

theorem convex_S : Convex K (S : Set (K × K)) := by
  rintro t ⟨t1, t2, t3⟩ u ⟨u1, u2, u3⟩ a b ha hb hab
  refine ⟨?_, ?_, ?_⟩
  · simp only [Prod.fst_add, Prod.smul_fst, smul_eq_mul]; positivity
  · simp only [Prod.snd_add, Prod.smul_snd, smul_eq_mul]; positivity
  · simp only [Prod.fst_add, Prod.smul_fst, smul_eq_mul, Prod.snd_add, Prod.smul_snd]
    nlinarith

theorem convex_H (c : Fin 3 → Fin 3 → K) (h : Fin 3 → K) (p : Fin 3 × Bool) : Convex K (H c h p) := by
  obtain ⟨i, s⟩ := p
  intro t ht u hu a b ha hb hab
  cases s
  · have ht' : -h i ≤ L (c i) t := by simpa [H] using ht
    have hu' : -h i ≤ L (c i) u := by simpa [H] using hu
    show -h i ≤ L (c i) (a • t + b • u)
    rw [L_combo _ _ _ _ _ hab]
    obtain rfl : b = 1 - a := by linarith
    linarith [mul_le_mul_of_nonneg_left ht' ha, mul_le_mul_of_nonneg_left hu' hb]
  · have ht' : L (c i) t ≤ h i := by simpa [H] using ht
    have hu' : L (c i) u ≤ h i := by simpa [H] using hu
    show L (c i) (a • t + b • u) ≤ h i
    rw [L_combo _ _ _ _ _ hab]
    obtain rfl : b = 1 - a := by linarith
    linarith [mul_le_mul_of_nonneg_left ht' ha, mul_le_mul_of_nonneg_left hu' hb]

theorem two {ι : Type*} [DecidableEq ι] (d : ι) (I : Finset ι) (hI : I.card ≤ 2) : ∃ p q, I ⊆ {p, q} := by
  rcases Nat.lt_or_ge I.card 2 with h | h
  · haveI : Nonempty ι := ⟨d⟩
    obtain ⟨a, ha⟩ := Finset.card_le_one_iff_subset_singleton.mp (by omega : I.card ≤ 1)
    exact ⟨a, a, by simpa using ha⟩
  · obtain ⟨a, b, -, rfl⟩ := Finset.card_eq_two.mp (by omega : I.card = 2)
    exact ⟨a, b, le_refl _⟩

/-- A triangle and a box that no axis but possibly the normal separates, and whose plane meets the box, have a common point. -/
theorem Touch.meet_plane {c : Fin 3 → Fin 3 → K} {h : Fin 3 → K} (T : Touch c h) (hpl : ∃ t : K × K, ∀ p, t ∈ H c h p) :
    ∃ t ∈ (S : Set (K × K)), ∀ p, t ∈ H c h p := by
  classical
  let F : Option (Fin 3 × Bool) → Set (K × K) := fun o => match o with
    | none => S
    | some p => H c h p
  have key : (⋂ i ∈ (Finset.univ : Finset (Option (Fin 3 × Bool))), F i).Nonempty := by
    apply Convex.helly_theorem' (𝕜 := K)
    · intro i _
      cases i with
      | none => exact convex_S
      | some p => exact convex_H c h p
    · intro I _ hI
      have hfr : Module.finrank K (K × K) = 2 := by simp
      rw [hfr] at hI
      by_cases hn : none ∈ I
      · have hc : (I.erase none).card ≤ 2 := by
          rw [Finset.card_erase_of_mem hn]; omega
        obtain ⟨o, o', ho⟩ := two (none : Option (Fin 3 × Bool)) _ hc
        let g : Option (Fin 3 × Bool) → Fin 3 × Bool := fun o => o.getD (0, true)
        obtain ⟨t, t1, t2, t3⟩ := T.pair (g o) (g o')
        refine ⟨t, ?_⟩
        simp only [Set.mem_iInter]
        intro i hi
        cases i with
        | none => exact t1
        | some p =>
          have := ho (Finset.mem_erase.mpr ⟨by simp, hi⟩)
          simp only [Finset.mem_insert, Finset.mem_singleton] at this
          rcases this with h0 | h0
          · have e : g o = p := by rw [← h0]; rfl
            rw [e] at t2; exact t2
          · have e : g o' = p := by rw [← h0]; rfl
            rw [e] at t3; exact t3
      · obtain ⟨t, ht⟩ := hpl
        refine ⟨t, ?_⟩
        simp only [Set.mem_iInter]
        intro i hi
        cases i with
        | none => exact absurd hi hn
        | some p => exact ht p
  obtain ⟨t, ht⟩ := key
  simp only [Set.mem_iInter] at ht
  exact ⟨t, ht none (Finset.mem_univ _), fun p => ht (some p) (Finset.mem_univ _)⟩

/-- The same for a degenerate triangle, whose corners lie on a line. -/
theorem Touch.meet_line {c : Fin 3 → Fin 3 → K} {h : Fin 3 → K} (T : Touch c h)
    (hline : ∃ (u : Fin 3 → K) (s : Fin 3 → K), ∀ i j, c i j = c i 0 + s j * u i) :
    ∃ t ∈ (S : Set (K × K)), ∀ p, t ∈ H c h p := by
  classical
  obtain ⟨u, s, hus⟩ := hline
  have hL : ∀ i t, L (c i) t = c i 0 + L s t * u i := by
    intro i t
    have h0 : s 0 * u i = 0 := by linarith [hus i 0]
    simp only [L, hus i 1, hus i 2]
    linear_combination (-(1 : K) + t.1 + t.2) * h0
  let F : Fin 3 × Bool → Set K := fun p => (fun t => L s t) '' (S ∩ H c h p)
  have key : (⋂ i ∈ (Finset.univ : Finset (Fin 3 × Bool)), F i).Nonempty := by
    apply Convex.helly_theorem' (𝕜 := K)
    · rintro p - x ⟨t, ht, rfl⟩ y ⟨v, hv, rfl⟩ a b ha hb hab
      exact ⟨a • t + b • v, (convex_S.inter (convex_H c h p)) ht hv ha hb hab, by simp only [L_combo _ _ _ _ _ hab, smul_eq_mul]⟩
    · intro I _ hI
      rw [Module.finrank_self] at hI
      obtain ⟨p, q, hpq⟩ := two ((0, true) : Fin 3 × Bool) I hI
      obtain ⟨t, t1, t2, t3⟩ := T.pair p q
      refine ⟨L s t, ?_⟩
      simp only [Set.mem_iInter]
      intro i hi
      have := hpq hi
      simp only [Finset.mem_insert, Finset.mem_singleton] at this
      rcases this with rfl | rfl
      · exact ⟨t, ⟨t1, t2⟩, rfl⟩
      · exact ⟨t, ⟨t1, t3⟩, rfl⟩
  obtain ⟨x, hx⟩ := key
  simp only [Set.mem_iInter] at hx
  obtain ⟨t, ⟨t1, t2⟩, t3⟩ := hx (0, true) (Finset.mem_univ _)
  refine ⟨t, t1, fun p => ?_⟩
  obtain ⟨v, ⟨v1, v2⟩, v3⟩ := hx p (Finset.mem_univ _)
  have e : L (c p.1) t = L (c p.1) v := by
    rw [hL, hL]
    have : L s t = L s v := t3.trans v3.symm
    rw [this]
  have v2' : if p.2 = true then L (c p.1) v ≤ h p.1 else -h p.1 ≤ L (c p.1) v := v2
  rw [← e] at v2'
  exact v2'

end Verif.Separating
