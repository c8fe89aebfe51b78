import Verif.Model.CartLine
import Verif.Props.Cartesian
import Mathlib.Tactic.Linarith
import Mathlib.Tactic.FinCases

/-!
C108: `CartLineConstraint` measures the pose against the nearest point of a line segment.
-/

set_option linter.unusedSectionVars false
set_option linter.unusedVariables false

namespace Verif.CartLine

open Verif.Cartesian (Arm Poses pick_eq perturb_update insertRow_block rowDot_block mapM_finRange_some frame)
open Verif.JointConstraints (rowDot insertRow)
open Finset (sum_congr)

universe u v
variable {Name : Type u} {R : Type v} {n : Nat}

/-! ### Specification -/

/-- Specification: squared distance of two points. -/
def sq (a b : Fin 3 → ℝ) : ℝ := ∑ i, (a i - b i) ^ 2

/-- Specification: the point is on the segment between `a` and `b`. -/
def OnSegment (a b p : Fin 3 → ℝ) : Prop := ∃ s : ℝ, 0 ≤ s ∧ s ≤ 1 ∧ ∀ i, p i = a i + s * (b i - a i)

/-- Specification: the point of the segment nearest to `c`. -/
def Nearest (a b c p : Fin 3 → ℝ) : Prop := OnSegment a b p ∧ ∀ p', OnSegment a b p' → sq p c ≤ sq p' c

/-- Specification: length of the segment. -/
noncomputable def len (a b : Fin 3 → ℝ) : ℝ := Real.sqrt (sq b a)

/-- Specification: how far along the direction of the segment the point lies. -/
noncomputable def along (a b c : Fin 3 → ℝ) : ℝ := (∑ i, (c i - a i) * (b i - a i)) / len a b

/-! ### Geometry -/

theorem len_sq (a b : Fin 3 → ℝ) : len a b ^ 2 = sq b a :=
  Real.sq_sqrt (Finset.sum_nonneg fun i _ => sq_nonneg _)

theorem len_nonneg (a b : Fin 3 → ℝ) : 0 ≤ len a b := Real.sqrt_nonneg _

theorem sq_at (a b c : Fin 3 → ℝ) (s : ℝ) (p : Fin 3 → ℝ) (hp : ∀ i, p i = a i + s * (b i - a i)) :
    sq p c = sq a c - 2 * s * (∑ i, (c i - a i) * (b i - a i)) + s ^ 2 * sq b a := by
  simp only [sq, Fin.sum_univ_three, hp]
  ring

theorem sq_zero {a b : Fin 3 → ℝ} (h : sq a b = 0) : a = b := by
  funext i
  have := (Finset.sum_eq_zero_iff_of_nonneg fun i _ => sq_nonneg (a i - b i)).1 h i (Finset.mem_univ i)
  exact sub_eq_zero.1 (pow_eq_zero_iff two_ne_zero |>.1 this)

theorem sq_pos {a b : Fin 3 → ℝ} (h : a ≠ b) : 0 < sq a b := by
  rcases lt_or_eq_of_le (Finset.sum_nonneg fun i _ => sq_nonneg (a i - b i) : 0 ≤ sq a b) with h1 | h1
  · exact h1
  · exact absurd (sq_zero h1.symm) h

theorem norm3_len (a b : Fin 3 → ℝ) : norm3 (fun i => b i - a i) = len a b := by
  unfold norm3 len dot3 sq
  congr 1
  simp only [Fin.sum_univ_three]
  ring

theorem len_pos {a b : Fin 3 → ℝ} (h : a ≠ b) : 0 < len a b := Real.sqrt_pos.2 (sq_pos fun e => h e.symm)

theorem normalized_eq {a b : Fin 3 → ℝ} (h : a ≠ b) (i : Fin 3) : normalized (fun i => b i - a i) i = (b i - a i) / len a b := by
  unfold normalized
  rw [norm3_len, if_pos (len_pos h)]

/-- The magnitude computed by the code, when the source is not behind the first point in any coordinate. -/
theorem mag_eq {S T1 T2 : Pose R} (hne : T1.t ≠ T2.t) (hpos : ∀ i, T1.t i ≤ S.t i) : mag S T1 T2 = along T1.t T2.t S.t := by
  unfold mag along dot3
  simp only [normalized_eq hne, Fin.sum_univ_three]
  rw [abs_of_nonneg (sub_nonneg.2 (hpos 0)), abs_of_nonneg (sub_nonneg.2 (hpos 1)), abs_of_nonneg (sub_nonneg.2 (hpos 2))]
  ring

theorem along_mul {a b : Fin 3 → ℝ} (h : a ≠ b) (c : Fin 3 → ℝ) : ∑ i, (c i - a i) * (b i - a i) = along a b c * len a b := by
  unfold along
  rw [div_mul_cancel₀ _ (len_pos h).ne']

/-- The nearest point of the segment, by the three cases. -/
theorem nearest_cases {a b : Fin 3 → ℝ} (h : a ≠ b) (c : Fin 3 → ℝ) :
    (along a b c < 0 → Nearest a b c a) ∧ (len a b ≤ along a b c → Nearest a b c b) ∧
    (0 ≤ along a b c → along a b c ≤ len a b → Nearest a b c fun i => a i + along a b c * ((b i - a i) / len a b)) := by
  have hl := len_pos h
  have hd := along_mul h c
  have hs := len_sq a b
  set m := along a b c
  set L := len a b
  refine ⟨fun hm => ⟨⟨0, le_rfl, zero_le_one, fun i => by ring⟩, ?_⟩, fun hm => ⟨⟨1, zero_le_one, le_rfl, fun i => by ring⟩, ?_⟩,
    fun h0 h1 => ⟨⟨m / L, div_nonneg h0 hl.le, (div_le_one hl).2 h1, fun i => by ring⟩, ?_⟩⟩
  · rintro p ⟨s, s0, s1, hp⟩
    rw [sq_at a b c s p hp, hd, ← hs]
    nlinarith [mul_nonneg s0 (mul_nonneg (neg_nonneg.2 hm.le) hl.le), sq_nonneg (s * L)]
  · rintro p ⟨s, s0, s1, hp⟩
    rw [sq_at a b c s p hp, sq_at a b c 1 b fun i => by ring, hd, ← hs]
    nlinarith [mul_nonneg (sub_nonneg.2 s1) (mul_nonneg (sub_nonneg.2 hm) hl.le),
      mul_nonneg (mul_nonneg (sub_nonneg.2 s1) (sub_nonneg.2 s1)) (sq_nonneg L)]
  · rintro p ⟨s, s0, s1, hp⟩
    rw [sq_at a b c s p hp, sq_at a b c (m / L) _ fun i => by ring, hd, ← hs]
    have e : (m / L) * L = m := div_mul_cancel₀ _ hl.ne'
    have : m / L = m / L := rfl
    generalize m / L = w at *
    subst_vars
    rw [← e]
    nlinarith [sq_nonneg ((s - w) * L)]

theorem nearest_unique {a b c p p' : Fin 3 → ℝ} (h : a ≠ b) (h1 : Nearest a b c p) (h2 : Nearest a b c p') : p = p' := by
  obtain ⟨⟨s, s0, s1, hp⟩, m1⟩ := h1
  obtain ⟨⟨s', s0', s1', hp'⟩, m2⟩ := h2
  have e : sq p c = sq p' c := le_antisymm (m1 p' ⟨s', s0', s1', hp'⟩) (m2 p ⟨s, s0, s1, hp⟩)
  have hmid := m1 (fun i => a i + ((s + s') / 2) * (b i - a i)) ⟨(s + s') / 2, by linarith, by linarith, fun i => rfl⟩
  rw [sq_at a b c s p hp, sq_at a b c s' p' hp'] at e
  rw [sq_at a b c s p hp, sq_at a b c ((s + s') / 2) _ fun i => rfl] at hmid
  have hpos := sq_pos fun e => h e.symm
  have : (s - s') ^ 2 * sq b a ≤ 0 := by nlinarith
  have hz : (s - s') ^ 2 = 0 := by
    rcases lt_or_eq_of_le (sq_nonneg (s - s')) with hlt | heq
    · exact absurd (mul_pos hlt hpos) (not_lt.2 this)
    · exact heq.symm
  have : s = s' := sub_eq_zero.1 (pow_eq_zero_iff two_ne_zero |>.1 hz)
  subst this
  funext i
  rw [hp, hp']

/-! ### C108 -/

/-- C108: the constructors fail exactly for a missing link, end poses that coincide, no or more than six indices, a group without
joints, or a number of coefficients other than the number of indices. -/
theorem C108_rejects (approx : Pose R → Pose R → Bool) (arm : Arm Name (Pose R) ℝ n) (index : Nat) (source target : Name)
    (o1 o2 so : Pose R) (indices : List Nat) (coeffs : List ℝ) :
    CartLine.new approx arm index source target o1 o2 so indices coeffs = none ↔
      arm.has source = false ∨ arm.has target = false ∨ approx o1 o2 = true ∨ 6 < indices.length ∨ indices.length = 0 ∨ n = 0 ∨
        coeffs.length ≠ indices.length := by
  unfold CartLine.new
  cases arm.has source <;> cases arm.has target <;> cases approx o1 o2 <;> by_cases h1 : 6 < indices.length <;>
    by_cases h2 : indices.length = 0 <;> by_cases h3 : n = 0 <;> by_cases h4 : coeffs.length = indices.length <;>
    simp [h1, h2, h3, h4]

/-- C108: the point the pose is measured against is the nearest point of the segment, provided the target frame is the root frame,
the source is not behind the first point in any coordinate, and it is on the same side of length one as of the end of the segment
(as it always is when the segment has length one). -/
theorem C108_nearest_partial (slerp : ℝ → R → R → R) (c : CartLine Name R n) (S T1 T2 : Pose R) (hne : T1.t ≠ T2.t)
    (h1 : c.offset1.t = T1.t) (h2 : c.offset2.t = T2.t) (hpos : ∀ i, T1.t i ≤ S.t i)
    (hone : along T1.t T2.t S.t ≤ 1 ↔ along T1.t T2.t S.t ≤ len T1.t T2.t) :
    Nearest T1.t T2.t S.t (c.linePoint slerp S T1 T2).t ∧
      (c.linePoint slerp S T1 T2).r = slerp (along T1.t T2.t S.t) T1.r T2.r := by
  obtain ⟨n1, n2, n3⟩ := nearest_cases hne S.t
  refine ⟨?_, by rw [← mag_eq hne hpos]; rfl⟩
  unfold CartLine.linePoint
  simp only [mag_eq hne hpos, normalized_eq hne, h1, h2]
  split
  · rename_i hm
    exact n2 (le_of_lt (not_le.1 fun h => absurd (hone.2 h) (not_le.2 hm)))
  · rename_i hm
    push Not at hm
    split
    · rename_i h0
      exact n1 h0
    · rename_i h0
      exact n3 (not_lt.1 h0) (hone.1 hm)

/-- C108, the case of a segment of length one. -/
theorem C108_unit_partial (slerp : ℝ → R → R → R) (c : CartLine Name R n) (S T1 T2 : Pose R) (hl : len T1.t T2.t = 1)
    (h1 : c.offset1.t = T1.t) (h2 : c.offset2.t = T2.t) (hpos : ∀ i, T1.t i ≤ S.t i) :
    Nearest T1.t T2.t S.t (c.linePoint slerp S T1 T2).t := by
  have hne : T1.t ≠ T2.t := by
    intro e
    simp [len, sq, e] at hl
  exact (C108_nearest_partial slerp c S T1 T2 hne h1 h2 hpos (by rw [hl])).1

/-- C108 fails on segments longer than one: between length one and the end, the far end is taken for the nearest point. -/
theorem C108_violated_long (slerp : ℝ → R → R → R) (c : CartLine Name R n) (S T1 T2 : Pose R) (hne : T1.t ≠ T2.t)
    (h2 : c.offset2.t = T2.t) (hpos : ∀ i, T1.t i ≤ S.t i) (hm : 1 < along T1.t T2.t S.t)
    (hl : along T1.t T2.t S.t < len T1.t T2.t) :
    (c.linePoint slerp S T1 T2).t = T2.t ∧ ¬Nearest T1.t T2.t S.t (c.linePoint slerp S T1 T2).t := by
  have he : (c.linePoint slerp S T1 T2).t = T2.t := by
    unfold CartLine.linePoint
    simp only [mag_eq hne hpos, hm, if_true, h2]
  refine ⟨he, fun hn => ?_⟩
  rw [he] at hn
  have := nearest_unique hne hn ((nearest_cases hne S.t).2.2 (by linarith) hl.le)
  have hL := len_pos hne
  apply hne
  funext i
  have hi := congrFun this i
  have : (T2.t i - T1.t i) * (len T1.t T2.t - along T1.t T2.t S.t) = 0 := by
    have h3 : T2.t i - T1.t i = along T1.t T2.t S.t * ((T2.t i - T1.t i) / len T1.t T2.t) := by linarith
    have h4 : (T2.t i - T1.t i) * len T1.t T2.t = along T1.t T2.t S.t * (T2.t i - T1.t i) := by
      calc (T2.t i - T1.t i) * len T1.t T2.t
          = along T1.t T2.t S.t * ((T2.t i - T1.t i) / len T1.t T2.t) * len T1.t T2.t := by rw [← h3]
        _ = along T1.t T2.t S.t * (T2.t i - T1.t i) := by rw [mul_assoc, div_mul_cancel₀ _ hL.ne']
    linarith [mul_comm (T2.t i - T1.t i) (along T1.t T2.t S.t), mul_sub (T2.t i - T1.t i) (len T1.t T2.t) (along T1.t T2.t S.t)]
  rcases mul_eq_zero.1 this with h3 | h3
  · linarith
  · linarith

/-- C108 fails on segments shorter than one: past the end, the point is not on the segment. -/
theorem C108_violated_short (slerp : ℝ → R → R → R) (c : CartLine Name R n) (S T1 T2 : Pose R) (hne : T1.t ≠ T2.t)
    (h1 : c.offset1.t = T1.t) (hpos : ∀ i, T1.t i ≤ S.t i) (hm : along T1.t T2.t S.t ≤ 1)
    (hl : len T1.t T2.t < along T1.t T2.t S.t) : ¬OnSegment T1.t T2.t (c.linePoint slerp S T1 T2).t := by
  have hL := len_pos hne
  have he : (c.linePoint slerp S T1 T2).t = fun i => T1.t i + along T1.t T2.t S.t * ((T2.t i - T1.t i) / len T1.t T2.t) := by
    unfold CartLine.linePoint
    simp only [mag_eq hne hpos, normalized_eq hne, h1]
    rw [if_neg (not_lt.2 hm), if_neg (not_lt.2 (by linarith))]
  rintro ⟨s, s0, s1, hs⟩
  rw [he] at hs
  apply hne
  funext i
  have hi := hs i
  simp only at hi
  have h3 : along T1.t T2.t S.t * ((T2.t i - T1.t i) / len T1.t T2.t) = s * (T2.t i - T1.t i) := by linarith
  have h4 : along T1.t T2.t S.t * (T2.t i - T1.t i) = s * (T2.t i - T1.t i) * len T1.t T2.t := by
    rw [← h3, mul_assoc, div_mul_cancel₀ _ hL.ne']
  have h5 : (along T1.t T2.t S.t - s * len T1.t T2.t) * (T2.t i - T1.t i) = 0 := by linarith [mul_right_comm s (T2.t i - T1.t i) (len T1.t T2.t), sub_mul (along T1.t T2.t S.t) (s * len T1.t T2.t) (T2.t i - T1.t i)]
  rcases mul_eq_zero.1 h5 with h6 | h6
  · nlinarith
  · linarith

/-- C108 fails behind the first point: the pose a distance `s` before the start of the segment (whose direction has no negative
coordinate) is measured against the mirror image of that pose, not against the start. -/
theorem C108_violated_behind (slerp : ℝ → R → R → R) (c : CartLine Name R n) (S T1 T2 : Pose R) (hne : T1.t ≠ T2.t)
    (h1 : c.offset1.t = T1.t) (hdir : ∀ i, T1.t i ≤ T2.t i) (s : ℝ) (hs0 : 0 < s) (hs1 : s ≤ 1)
    (hS : ∀ i, S.t i = T1.t i - s * ((T2.t i - T1.t i) / len T1.t T2.t)) :
    (c.linePoint slerp S T1 T2).t = (fun i => T1.t i + s * ((T2.t i - T1.t i) / len T1.t T2.t)) ∧
      Nearest T1.t T2.t S.t T1.t ∧ (c.linePoint slerp S T1 T2).t ≠ T1.t := by
  have hL := len_pos hne
  have hsq := len_sq T1.t T2.t
  have hu : ∑ i, ((T2.t i - T1.t i) / len T1.t T2.t) ^ 2 = 1 := by
    simp only [div_eq_mul_inv, mul_pow, ← Finset.sum_mul]
    rw [show ∑ i, (T2.t i - T1.t i) ^ 2 = sq T2.t T1.t from rfl, ← hsq, inv_pow, mul_inv_cancel₀ (pow_ne_zero _ hL.ne')]
  have hmag : mag S T1 T2 = s := by
    unfold mag dot3
    have ha : ∀ i, |S.t i - T1.t i| = s * ((T2.t i - T1.t i) / len T1.t T2.t) := by
      intro i
      rw [hS, show T1.t i - s * ((T2.t i - T1.t i) / len T1.t T2.t) - T1.t i = -(s * ((T2.t i - T1.t i) / len T1.t T2.t)) by ring,
        abs_neg, abs_of_nonneg (mul_nonneg hs0.le (div_nonneg (sub_nonneg.2 (hdir i)) hL.le))]
    simp only [ha, normalized_eq hne]
    rw [Fin.sum_univ_three] at hu
    linear_combination s * hu
  have he : (c.linePoint slerp S T1 T2).t = fun i => T1.t i + s * ((T2.t i - T1.t i) / len T1.t T2.t) := by
    unfold CartLine.linePoint
    simp only [hmag, normalized_eq hne, h1]
    rw [if_neg (not_lt.2 hs1), if_neg (not_lt.2 hs0.le)]
  refine ⟨he, ?_, ?_⟩
  · apply (nearest_cases hne S.t).1
    have : ∑ i, (S.t i - T1.t i) * (T2.t i - T1.t i) = -(s * len T1.t T2.t) := by
      have e : ∀ i, (S.t i - T1.t i) * (T2.t i - T1.t i) = -(s * len T1.t T2.t) * ((T2.t i - T1.t i) / len T1.t T2.t) ^ 2 := by
        intro i
        rw [hS]
        field_simp
        ring
      simp only [e, ← Finset.mul_sum, hu, mul_one]
    unfold along
    rw [this]
    exact div_neg_of_neg_of_pos (neg_lt_zero.2 (mul_pos hs0 hL)) hL
  · intro h
    apply hne
    funext i
    rw [he] at h
    have hi := congrFun h i
    have h3 : s * ((T2.t i - T1.t i) / len T1.t T2.t) = 0 := by linarith
    rcases mul_eq_zero.1 h3 with h4 | h4
    · exact absurd h4 hs0.ne'
    · rcases div_eq_zero_iff.1 h4 with h5 | h5
      · linarith
      · exact absurd h5 hL.ne'

/-- C108 fails when the target frame is displaced: the line point stays where it is though the segment and the source have moved
with the frame. -/
theorem C108_violated_frame (slerp : ℝ → R → R → R) (c : CartLine Name R n) (S T1 T2 S' T1' T2' : Pose R) (hne : T1.t ≠ T2.t)
    (w : Fin 3 → ℝ) (hw : w ≠ 0) (hS : ∀ i, S'.t i = S.t i + w i) (hT1 : ∀ i, T1'.t i = T1.t i + w i)
    (hT2 : ∀ i, T2'.t i = T2.t i + w i) :
    (c.linePoint slerp S' T1' T2').t = (c.linePoint slerp S T1 T2).t ∧
      ¬(Nearest T1.t T2.t S.t (c.linePoint slerp S T1 T2).t ∧ Nearest T1'.t T2'.t S'.t (c.linePoint slerp S' T1' T2').t) := by
  have hmag : mag S' T1' T2' = mag S T1 T2 := by
    unfold mag
    congr 1
    · funext i
      rw [hS, hT1]
      congr 1
      ring
    · congr 1
      funext i
      rw [hT2, hT1]
      ring
  have hdir : (fun i => T2'.t i - T1'.t i) = fun i => T2.t i - T1.t i := by
    funext i
    rw [hT2, hT1]
    ring
  have he : (c.linePoint slerp S' T1' T2').t = (c.linePoint slerp S T1 T2).t := by
    unfold CartLine.linePoint
    simp only [hmag, hdir]
  refine ⟨he, ?_⟩
  rintro ⟨ha, hb⟩
  rw [he] at hb
  generalize (c.linePoint slerp S T1 T2).t = p at *
  have hb' : Nearest T1.t T2.t S.t fun i => p i - w i := by
    obtain ⟨⟨s, s0, s1, hs⟩, hmin⟩ := hb
    refine ⟨⟨s, s0, s1, fun i => ?_⟩, ?_⟩
    · have := hs i
      rw [hT1, hT2] at this
      show p i - w i = _
      rw [this]
      ring
    · rintro p' ⟨s', s0', s1', hs'⟩
      have := hmin (fun i => p' i + w i) ⟨s', s0', s1', fun i => by show p' i + w i = _; rw [hs', hT1, hT2]; ring⟩
      simp only [sq, hS] at this ⊢
      simpa [sub_sub, add_sub_add_right_eq_sub, add_comm (w _)] using this
  have := nearest_unique hne ha hb'
  apply hw
  funext i
  have hi := congrFun this i
  simp only [Pi.zero_apply]
  linarith

/-- C108 fails for the orientation unless the segment has length one: at the end of a shorter segment the orientation is still that
of the interpolation at the segment's length. -/
theorem C108_violated_orientation (slerp : ℝ → R → R → R) (c : CartLine Name R n) (S T1 T2 : Pose R) (hne : T1.t ≠ T2.t)
    (hdir : ∀ i, T1.t i ≤ T2.t i) (hS : S.t = T2.t) : (c.linePoint slerp S T1 T2).r = slerp (len T1.t T2.t) T1.r T2.r := by
  have hpos : ∀ i, T1.t i ≤ S.t i := by rw [hS]; exact hdir
  have : along T1.t T2.t S.t = len T1.t T2.t := by
    have hL := len_pos hne
    unfold along
    rw [hS, div_eq_iff hL.ne', ← pow_two, len_sq]
    exact sum_congr rfl fun i _ => by ring
  rw [← this, ← mag_eq hne hpos]
  rfl

/-- C108: with all six components, a target frame at the root, a segment of length one and a source that is not behind the first
point in any coordinate, the values vanish exactly when the source is on the segment with the interpolated orientation. -/
theorem C108_on_segment_partial [Mul (Pose R)] (slerp : ℝ → R → R → R) (P : Poses (Pose R) ℝ)
    (hP : ∀ a b, (∀ i, P.error a b i = 0) ↔ a = b) (c : CartLine Name R n) (hidx : ∀ i < 6, i ∈ c.indices)
    (hlt : ∀ i ∈ c.indices, i < 6) (q : Fin n → ℝ) (S T1 T2 : Pose R) (hS : frame c.arm c.source c.sourceOffset q = S)
    (hT1 : frame c.arm c.target c.offset1 q = T1) (hT2 : frame c.arm c.target c.offset2 q = T2)
    (hl : len T1.t T2.t = 1) (h1 : c.offset1.t = T1.t) (h2 : c.offset2.t = T2.t) (hpos : ∀ i, T1.t i ≤ S.t i) :
    ∃ vs, c.values slerp P q = some vs ∧
      ((∀ v ∈ vs, v = 0) ↔ OnSegment T1.t T2.t S.t ∧ S.r = slerp (along T1.t T2.t S.t) T1.r T2.r) := by
  have hne : T1.t ≠ T2.t := by
    intro e
    simp [len, sq, e] at hl
  obtain ⟨hn, hr⟩ := C108_nearest_partial slerp c S T1 T2 hne h1 h2 hpos (by rw [hl])
  unfold CartLine.values
  rw [pick_eq _ _ hlt]
  refine ⟨_, rfl, ?_⟩
  have hline : c.lineTf slerp q = c.linePoint slerp S T1 T2 := by rw [← hS, ← hT1, ← hT2]; rfl
  have hsrc : c.sourceTf q = S := hS
  have hall : (∀ v ∈ (c.indices.map fun i => if h : i < 6 then P.error (c.lineTf slerp q) (c.sourceTf q) ⟨i, h⟩ else 0), v = 0) ↔
      c.linePoint slerp S T1 T2 = S := by
    rw [← hP, hline, hsrc]
    simp only [List.mem_map, forall_exists_index, and_imp, forall_apply_eq_imp_iff₂]
    constructor
    · intro h i
      have := h i.val (hidx _ i.isLt)
      rwa [dif_pos i.isLt] at this
    · intro h i hi
      rw [dif_pos (hlt i hi)]
      exact h _
  rw [hall]
  constructor
  · intro h
    rw [h] at hn hr
    exact ⟨hn.1, hr⟩
  · rintro ⟨hs, hrot⟩
    have : (c.linePoint slerp S T1 T2).t = S.t := by
      apply sq_zero
      apply le_antisymm _ (Finset.sum_nonneg fun i _ => sq_nonneg _)
      refine le_trans (hn.2 S.t hs) (le_of_eq ?_)
      simp [sq]
    rw [← hrot] at hr
    generalize hp : c.linePoint slerp S T1 T2 = p at *
    cases p
    cases S
    simp_all

/-- C108: with the six components in order, the Jacobian rows are the difference quotients of the values. -/
theorem C108_jacobian_partial [Mul (Pose R)] (slerp : ℝ → R → R → R) (P : Poses (Pose R) ℝ) (c : CartLine Name R n)
    (hidx : c.indices = [0, 1, 2, 3, 4, 5]) (hnum : c.numeric = true) (numVars : Nat) (hv : c.index + n ≤ numVars) (q : Fin n → ℝ)
    (hd : ∀ (j : Fin n) (i : Fin 6), let q' := Function.update q j (q j + 1 / 10 ^ 5)
      P.diffBoth (c.lineTf slerp q) (c.lineTf slerp q') (c.sourceTf q) (c.sourceTf q') i =
        P.error (c.lineTf slerp q') (c.sourceTf q') i - P.error (c.lineTf slerp q) (c.sourceTf q) i) :
    ∃ rows, c.jacobian slerp P numVars q = some rows ∧ rows.length = 6 ∧
      ∀ (r : Nat) (row : List (Nat × ℝ)) (vs : List ℝ) (vs' : Fin n → List ℝ), rows[r]? = some row → c.values slerp P q = some vs →
        (∀ j : Fin n, c.values slerp P (Function.update q j (q j + 1 / 10 ^ 5)) = some (vs' j)) → ∀ d : Nat → ℝ,
        rowDot row d = ∑ j : Fin n, ((vs' j).getD r 0 - vs.getD r 0) / (1 / 10 ^ 5) * d (c.index + j.val) := by
  have hlt : ∀ i ∈ c.indices, i < 6 := by rw [hidx]; decide
  unfold CartLine.jacobian CartLine.errorDiff
  simp only [hnum, if_true, pick_eq _ _ hlt]
  rw [mapM_finRange_some _ _ _ fun j => rfl]
  simp only
  rw [JointConstraints.mapM_range_some 6 _
    (fun i => (List.finRange n).map fun j : Fin n => (c.index + j.val,
      (P.diffBoth (c.lineTf slerp q) (c.lineTf slerp (Cartesian.perturb q j Cartesian.eps)) (c.sourceTf q)
        (c.sourceTf (Cartesian.perturb q j Cartesian.eps)) (Fin.ofNat 6 i)) / Cartesian.eps))]
  · refine ⟨_, rfl, by simp, ?_⟩
    intro r row vs vs' hrow hvs hvs' d
    rw [List.getElem?_map] at hrow
    by_cases hr : r < 6
    · rw [List.getElem?_range hr] at hrow
      injection hrow with hrow
      subst hrow
      rw [rowDot_block]
      apply sum_congr rfl
      intro j _
      congr 2
      rw [perturb_update, show (Cartesian.eps : ℝ) = 1 / 10 ^ 5 from rfl]
      have e1 := hvs' j
      unfold CartLine.values at e1 hvs
      rw [pick_eq _ _ hlt] at e1 hvs
      injection e1 with e1
      injection hvs with hvs
      rw [hd j, ← e1, ← hvs, hidx]
      match r, hr with
      | 0, _ => rfl
      | 1, _ => rfl
      | 2, _ => rfl
      | 3, _ => rfl
      | 4, _ => rfl
      | 5, _ => rfl
    · rw [List.getElem?_eq_none (by simpa using hr)] at hrow
      simp at hrow
  · intro i hi
    have hii : c.indices[i]? = some i := by
      rw [hidx]
      match i, hi with
      | 0, _ => rfl
      | 1, _ => rfl
      | 2, _ => rfl
      | 3, _ => rfl
      | 4, _ => rfl
      | 5, _ => rfl
    rw [hii]
    simp only
    have hlen : c.indices.length = 6 := by rw [hidx]; rfl
    rw [if_pos ⟨by omega, by omega⟩, insertRow_block _ _ _ hv]
    congr 1
    apply List.map_congr_left
    intro j _
    congr 2
    simp only [List.getD_eq_getElem?_getD, List.getElem?_map, show (List.finRange n)[j.val]? = some j by simp, hii,
      Option.map_some, Option.getD_some]
    rw [dif_pos hi]
    congr 1
    apply Fin.ext
    simp [Fin.ofNat, Nat.mod_eq_of_lt hi]

/-- C108 fails for a selection of fewer than six components: the Jacobian reads past the end of the list of indices. -/
theorem C108_violated_few [Mul (Pose R)] (slerp : ℝ → R → R → R) (P : Poses (Pose R) ℝ) (c : CartLine Name R n)
    (hidx : c.indices.length < 6) (numVars : Nat) (q : Fin n → ℝ) : c.jacobian slerp P numVars q = none := by
  unfold CartLine.jacobian
  split
  · split
    · rfl
    · apply JointConstraints.mapM_none _ _ c.indices.length (List.mem_range.2 hidx)
      rw [List.getElem?_eq_none le_rfl]
  · rfl

/-- C108 fails for the six components in another order: row `i` of the Jacobian is the difference quotient of the component
`indices[indices[i]]`, while value `i` is the component `indices[i]`. -/
theorem C108_violated_order [Mul (Pose R)] (slerp : ℝ → R → R → R) (P : Poses (Pose R) ℝ) (c : CartLine Name R n)
    (hlen : c.indices.length = 6) (hlt : ∀ i ∈ c.indices, i < 6) (hnum : c.numeric = true) (numVars : Nat)
    (hv : c.index + n ≤ numVars) (q : Fin n → ℝ) (i a b : Nat) (hi : i < 6) (ha : c.indices[i]? = some a)
    (hb : c.indices[a]? = some b) (hb6 : b < 6) :
    ∃ rows row, c.jacobian slerp P numVars q = some rows ∧ rows[i]? = some row ∧ ∀ d : Nat → ℝ,
      rowDot row d = ∑ j : Fin n, P.diffBoth (c.lineTf slerp q) (c.lineTf slerp (Function.update q j (q j + 1 / 10 ^ 5)))
        (c.sourceTf q) (c.sourceTf (Function.update q j (q j + 1 / 10 ^ 5))) ⟨b, hb6⟩ / (1 / 10 ^ 5) * d (c.index + j.val) := by
  unfold CartLine.jacobian CartLine.errorDiff
  simp only [hnum, if_true, pick_eq _ _ hlt]
  rw [mapM_finRange_some _ _ _ fun j => rfl]
  simp only
  let at2 : Nat → Nat := fun i => (c.indices.getD ((c.indices.getD i 0)) 0)
  rw [JointConstraints.mapM_range_some 6 _
    (fun i => (List.finRange n).map fun j : Fin n => (c.index + j.val,
      (P.diffBoth (c.lineTf slerp q) (c.lineTf slerp (Cartesian.perturb q j Cartesian.eps)) (c.sourceTf q)
        (c.sourceTf (Cartesian.perturb q j Cartesian.eps)) (Fin.ofNat 6 (at2 i))) / Cartesian.eps))]
  · refine ⟨_, _, rfl, by rw [List.getElem?_map, List.getElem?_range hi]; rfl, ?_⟩
    intro d
    rw [rowDot_block]
    apply sum_congr rfl
    intro j _
    rw [perturb_update, show (Cartesian.eps : ℝ) = 1 / 10 ^ 5 from rfl]
    have : Fin.ofNat 6 (at2 i) = ⟨b, hb6⟩ := by
      apply Fin.ext
      simp [at2, List.getD_eq_getElem?_getD, ha, hb, Fin.ofNat, Nat.mod_eq_of_lt hb6]
    rw [this]
  · intro k hk
    have hkk : c.indices[k]? = some (c.indices[k]'(by omega)) := List.getElem?_eq_getElem _
    have hk6 := hlt _ (List.getElem_mem (h := (by omega : k < c.indices.length)))
    have hk2 : c.indices[c.indices[k]'(by omega)]? = some (c.indices[c.indices[k]'(by omega)]'(by omega)) :=
      List.getElem?_eq_getElem _
    have hk26 := hlt _ (List.getElem_mem (h := (by omega : (c.indices[k]'(by omega)) < c.indices.length)))
    rw [hkk]
    simp only
    rw [if_pos ⟨by omega, by omega⟩, insertRow_block _ _ _ hv]
    congr 1
    apply List.map_congr_left
    intro j _
    congr 2
    simp only [List.getD_eq_getElem?_getD, List.getElem?_map, show (List.finRange n)[j.val]? = some j by simp, hk2,
      Option.map_some, Option.getD_some]
    rw [dif_pos hk26]
    congr 1
    apply Fin.ext
    simp only [at2, List.getD_eq_getElem?_getD, hkk, hk2, Option.getD_some, Fin.ofNat]
    rw [Nat.mod_eq_of_lt hk26]

/-- C108 fails for the bounds of a selection of fewer than six components: no list with one interval per value is accepted. -/
theorem C108_violated_bounds (c : CartLine Name R n) (hidx : c.indices.length < 6) (bs : List (Verif.Bounds.Bounds ℝ))
    (hb : bs.length = c.indices.length) : c.setBounds bs = none := by
  unfold CartLine.setBounds
  rw [if_neg (by omega)]

namespace Demo

/-- Poses are a translation and an angle; the product adds them. -/
instance : Mul (Pose ℝ) := ⟨fun a b => ⟨fun i => a.t i + b.t i, a.r + b.r⟩⟩

noncomputable def pose (x y z r : ℝ) : Pose ℝ := ⟨![x, y, z], r⟩

/-- Three sliders: link 1 rides on all of them, link 0 is fixed. -/
noncomputable def arm : Arm Nat (Pose ℝ) ℝ 3 where
  has := fun l => decide (l ≤ 1)
  active := fun l => decide (l = 1)
  fk := fun q l => if l = 1 then ⟨q, 0⟩ else pose 0 0 0 0

/-- Translation error in the first three components, angle in the others. -/
noncomputable def gap (a b : Pose ℝ) (i : Fin 6) : ℝ := if h : i.val < 3 then b.t ⟨i, h⟩ - a.t ⟨i, h⟩ else b.r - a.r

noncomputable def poses : Poses (Pose ℝ) ℝ where
  error := gap
  diff := fun a b b' i => gap a b' i - gap a b i
  diffBoth := fun a a' b b' i => gap a' b' i - gap a b i
  diffTol := fun a b b' _ _ i => gap a b' i - gap a b i
  diffBothTol := fun a a' b b' _ _ i => gap a' b' i - gap a b i

noncomputable def slerp (s a b : ℝ) : ℝ := a + s * (b - a)

/-- The segment from the origin to `(l, 0, 0)`, turning by one along the way. -/
noncomputable def line (l : ℝ) (indices : List Nat) : CartLine Nat ℝ 3 :=
  ⟨arm, 2, 1, 0, pose 0 0 0 0, pose 0 0 0 0, pose l 0 0 1, indices, List.replicate indices.length 1,
    List.replicate indices.length Verif.Bounds.default0, true⟩

theorem sep (a b : Pose ℝ) : (∀ i, poses.error a b i = 0) ↔ a = b := by
  constructor
  · intro h
    obtain ⟨at', ar⟩ := a
    obtain ⟨bt, br⟩ := b
    have hr := h 3
    simp [poses, gap] at hr
    have ht : at' = bt := by
      funext i
      have := h ⟨i, by omega⟩
      simp [poses, gap, i.isLt] at this
      linarith
    rw [ht, show ar = br by linarith]
  · rintro rfl i
    simp [poses, gap]

theorem len_line (l : ℝ) (h : 0 ≤ l) : len (pose 0 0 0 0).t (pose l 0 0 1).t = l := by
  simp [len, sq, pose, Fin.sum_univ_three, Real.sqrt_sq h]

theorem along_line (l : ℝ) (h : 0 < l) (x y z r : ℝ) : along (pose 0 0 0 0).t (pose l 0 0 1).t (pose x y z r).t = x := by
  unfold along
  rw [len_line l h.le]
  simp [pose, Fin.sum_univ_three, h.ne']

theorem ends (l : ℝ) (h : 0 < l) : (pose 0 0 0 0).t ≠ (pose l 0 0 1).t := by
  intro e
  have := congrFun e 0
  simp [pose] at this
  linarith

end Demo

/-- non-vacuity for C108: the constructors accept the line; with length one and the source in front of the start, the hypotheses of
the theorems on the nearest point hold. -/
example : CartLine.new (fun _ _ => false) Demo.arm 2 1 0 (Demo.pose 0 0 0 0) (Demo.pose 1 0 0 1) (Demo.pose 0 0 0 0)
      [0, 1, 2, 3, 4, 5] (List.replicate 6 1) = some (Demo.line 1 [0, 1, 2, 3, 4, 5]) ∧
    len (Demo.pose 0 0 0 0).t (Demo.pose 1 0 0 1).t = 1 ∧ (∀ i, (Demo.pose 0 0 0 0).t i ≤ (Demo.pose (1/2) 3 0 1).t i) ∧
    (Demo.line 1 [0, 1, 2, 3, 4, 5]).offset1.t = (Demo.pose 0 0 0 0).t ∧
    (Demo.line 1 [0, 1, 2, 3, 4, 5]).offset2.t = (Demo.pose 1 0 0 1).t ∧
    frame Demo.arm 1 (Demo.pose 0 0 0 0) ![1/2, 3, 0] = Demo.pose (1/2) 3 0 0 ∧
    frame Demo.arm 0 (Demo.pose 1 0 0 1) ![1/2, 3, 0] = Demo.pose 1 0 0 1 := by
  refine ⟨?_, Demo.len_line 1 (by norm_num), ?_, rfl, rfl, ?_, ?_⟩
  · simp [CartLine.new, Demo.arm, Demo.line]
  · intro i
    fin_cases i <;> simp [Demo.pose]
  · show Pose.mk _ _ = Pose.mk _ _
    congr 1
    · funext i
      fin_cases i <;> simp [Demo.arm, Demo.pose]
    · simp [Demo.arm, Demo.pose]
  · show Pose.mk _ _ = Pose.mk _ _
    congr 1
    · funext i
      fin_cases i <;> simp [Demo.arm, Demo.pose]
    · simp [Demo.arm, Demo.pose]

/-- non-vacuity for C108_violated_long and C108_violated_short: a segment of length four with the source beside its middle, one of
length a half with the source beyond it. -/
example : (1 < along (Demo.pose 0 0 0 0).t (Demo.pose 4 0 0 1).t (Demo.pose 2 1 0 0).t ∧
      along (Demo.pose 0 0 0 0).t (Demo.pose 4 0 0 1).t (Demo.pose 2 1 0 0).t < len (Demo.pose 0 0 0 0).t (Demo.pose 4 0 0 1).t ∧
      (Demo.pose 0 0 0 0).t ≠ (Demo.pose 4 0 0 1).t ∧ ∀ i, (Demo.pose 0 0 0 0).t i ≤ (Demo.pose 2 1 0 0).t i) ∧
    (along (Demo.pose 0 0 0 0).t (Demo.pose (1/2) 0 0 1).t (Demo.pose (3/4) 0 0 0).t ≤ 1 ∧
      len (Demo.pose 0 0 0 0).t (Demo.pose (1/2) 0 0 1).t < along (Demo.pose 0 0 0 0).t (Demo.pose (1/2) 0 0 1).t (Demo.pose (3/4) 0 0 0).t ∧
      (Demo.pose 0 0 0 0).t ≠ (Demo.pose (1/2) 0 0 1).t ∧ ∀ i, (Demo.pose 0 0 0 0).t i ≤ (Demo.pose (3/4) 0 0 0).t i) := by
  rw [Demo.along_line 4 (by norm_num), Demo.along_line (1/2) (by norm_num), Demo.len_line 4 (by norm_num),
    Demo.len_line (1/2) (by norm_num)]
  refine ⟨⟨by norm_num, by norm_num, Demo.ends 4 (by norm_num), fun i => ?_⟩, by norm_num, by norm_num,
    Demo.ends (1/2) (by norm_num), fun i => ?_⟩
  · fin_cases i <;> simp [Demo.pose]
  · fin_cases i <;> simp [Demo.pose] <;> norm_num

/-- non-vacuity for C108_violated_behind, C108_violated_frame and C108_violated_orientation: the source a quarter before the start, a
frame displaced along the third axis. -/
example : (∀ i, (Demo.pose (-1/4) 0 0 0).t i = (Demo.pose 0 0 0 0).t i -
      1/4 * (((Demo.pose 1 0 0 1).t i - (Demo.pose 0 0 0 0).t i) / len (Demo.pose 0 0 0 0).t (Demo.pose 1 0 0 1).t)) ∧
    (∀ i, (Demo.pose 0 0 0 0).t i ≤ (Demo.pose 1 0 0 1).t i) ∧ (![0, 0, 1] : Fin 3 → ℝ) ≠ 0 ∧
    (∀ i, (Demo.pose 1 0 1 1).t i = (Demo.pose 1 0 0 1).t i + (![0, 0, 1] : Fin 3 → ℝ) i) := by
  rw [Demo.len_line 1 (by norm_num)]
  refine ⟨fun i => ?_, fun i => ?_, fun h => ?_, fun i => ?_⟩
  · fin_cases i <;> simp [Demo.pose] <;> norm_num
  · fin_cases i <;> simp [Demo.pose]
  · have := congrFun h 2
    simp at this
  · fin_cases i <;> simp [Demo.pose]

/-- non-vacuity for the Jacobian: six components in order, a selection of three, and the order 1, 2, 0, 3, 4, 5, where row 0
belongs to component 2. -/
example : (Demo.line 1 [0, 1, 2, 3, 4, 5]).numeric = true ∧ (Demo.line 1 [0, 1, 2, 3, 4, 5]).index + 3 ≤ 5 ∧
    (∀ a a' b b' i, Demo.poses.diffBoth a a' b b' i = Demo.poses.error a' b' i - Demo.poses.error a b i) ∧
    (Demo.line 1 [0, 1, 2]).indices.length < 6 ∧ (∀ i ∈ (Demo.line 1 [1, 2, 0, 3, 4, 5]).indices, i < 6) ∧
    (Demo.line 1 [1, 2, 0, 3, 4, 5]).indices[0]? = some 1 ∧ (Demo.line 1 [1, 2, 0, 3, 4, 5]).indices[1]? = some 2 :=
  ⟨rfl, by simp [Demo.line], fun _ _ _ _ _ => rfl, by simp [Demo.line], by simp [Demo.line], rfl, rfl⟩

end Verif.CartLine
