import Verif.Model.TimeTerms
import Mathlib.Algebra.Order.Field.Basic
import Mathlib.Algebra.Order.BigOperators.Group.Finset
import Mathlib.Tactic.Linarith
import Mathlib.Tactic.Ring
import Mathlib.Tactic.FieldSimp
import Mathlib.Tactic.Positivity
import Mathlib.Tactic.NormNum
import Mathlib.Analysis.Calculus.Deriv.Inv
import Mathlib.Analysis.Calculus.Deriv.Add
import Mathlib.Analysis.Calculus.Deriv.Mul

set_option linter.unusedSectionVars false
set_option linter.unusedVariables false

/-!
# C61, C72, C73: error functions and Jacobians of the legacy terms with time
-/

namespace Verif.TimeTerms

section field
variable {K : Type} [Field K]

/-- Jacobian times vector. -/
def apply (row : Nat → K) (n : Nat) (d : Nat → K) : K := ∑ c ∈ Finset.range n, row c * d c

theorem assignRow_notin (l : List (Nat × K)) (c : Nat) (h : c ∉ l.map Prod.fst) : assignRow l c = 0 := by
  have : ∀ (l : List (Nat × K)) (r : Nat → K), c ∉ l.map Prod.fst → l.foldl (fun r p => Function.update r p.1 p.2) r c = r c := by
    intro l
    induction l with
    | nil => simp
    | cons p l ih =>
      intro r h
      simp only [List.map_cons, List.mem_cons, not_or] at h
      rw [List.foldl_cons, ih _ h.2, Function.update_of_ne h.1]
  exact this l _ h

theorem apply_assignRow (l : List (Nat × K)) (n : Nat) (hn : ∀ p ∈ l, p.1 < n) (hd : (l.map Prod.fst).Nodup) (d : Nat → K) :
    apply (assignRow l) n d = (l.map fun p => p.2 * d p.1).sum := by
  induction l using List.reverseRecOn with
  | nil => simp [apply, assignRow]
  | append_singleton l p ih =>
    rw [List.map_append, List.nodup_append'] at hd
    have hp : p.1 ∉ l.map Prod.fst := fun h => hd.2.2 h (by simp)
    have hrow : assignRow (l ++ [p]) = Function.update (assignRow l) p.1 p.2 := by
      simp [assignRow, List.foldl_append]
    have ih := ih (fun q hq => hn q (by simp [hq])) hd.1
    rw [List.map_append, List.sum_append, ← ih, hrow]
    unfold apply
    have hmem : p.1 ∈ Finset.range n := Finset.mem_range.2 (hn p (by simp))
    rw [← Finset.add_sum_erase _ _ hmem, ← Finset.add_sum_erase _ _ hmem, assignRow_notin l p.1 hp]
    rw [Function.update_self]
    have : ∑ c ∈ (Finset.range n).erase p.1, Function.update (assignRow l) p.1 p.2 c * d c =
        ∑ c ∈ (Finset.range n).erase p.1, assignRow l c * d c :=
      Finset.sum_congr rfl fun c hc => by rw [Function.update_of_ne (Finset.ne_of_mem_erase hc)]
    rw [this]
    simp
    ring

theorem apply_velJacTop (half : Nat) (x d : Nat → K) (i : Nat) (hi : i + 1 < half) :
    apply (velJacTop half x i) (2 * half) d =
      -(x (i + half + 1)) * d i + x (i + half + 1) * d (i + 1) + (x (i + 1) - x i) * d (i + half + 1) := by
  unfold velJacTop
  rw [apply_assignRow]
  · simp; ring
  · intro p hp; simp at hp; rcases hp with rfl | rfl | rfl <;> simp <;> omega
  · simp; omega

/-- C61: the Jacobian is the exact linear part of the error: the rest is the second-order term of the bilinear form. -/
theorem C61_expansion (p : VelParams K) (half : Nat) (x d : Nat → K) (i : Nat) (hi : i < half - 1) :
    velErr p half (x + d) i = velErr p half x i + apply (velJac half x i) (2 * half) d + (d (i + 1) - d i) * d (half + 1 + i) ∧
    velErr p half (x + d) (half - 1 + i) = velErr p half x (half - 1 + i) + apply (velJac half x (half - 1 + i)) (2 * half) d
      - (d (i + 1) - d i) * d (half + 1 + i) := by
  have h := apply_velJacTop half x d i (by omega)
  have hneg : apply (fun c => -velJacTop half x i c) (2 * half) d = -apply (velJacTop half x i) (2 * half) d := by
    unfold apply; rw [← Finset.sum_neg_distrib]; exact Finset.sum_congr rfl fun c _ => by ring
  have e1 : ¬ half - 1 + i < half - 1 := by omega
  have e2 : half - 1 + i - (half - 1) = i := by omega
  constructor
  · simp only [velErr, velJac, if_pos hi, h, vel, Pi.add_apply]
    rw [show 1 + i = i + 1 by omega, show 0 + i = i by omega, show half + 1 + i = i + half + 1 by omega]
    ring
  · simp only [velErr, velJac, if_neg e1, e2, hneg, h, vel, Pi.add_apply]
    rw [show 1 + i = i + 1 by omega, show 0 + i = i by omega, show half + 1 + i = i + half + 1 by omega]
    ring

end field

section order
variable {K : Type} [Field K] [LinearOrder K] [IsStrictOrderedRing K]

/-- C61: with step length `dt` of the second point, both errors are non-positive exactly if the velocity
`(q_{i+1} - q_i) / dt` lies in the band `[target + lower, target + upper]`, and both are zero, for zero tolerances, exactly if
the velocity is the target. -/
theorem C61_band (p : VelParams K) (half : Nat) (x : Nat → K) (i : Nat) (hi : i < half - 1) (dt : K)
    (hdt : x (half + 1 + i) = 1 / dt) :
    ((velErr p half x i ≤ 0 ∧ velErr p half x (half - 1 + i) ≤ 0) ↔
      p.target + p.lower ≤ (x (i + 1) - x i) / dt ∧ (x (i + 1) - x i) / dt ≤ p.target + p.upper) ∧
    (p.upper = 0 → p.lower = 0 → ((velErr p half x i = 0 ∧ velErr p half x (half - 1 + i) = 0) ↔
      (x (i + 1) - x i) / dt = p.target)) := by
  have e1 : ¬ half - 1 + i < half - 1 := by omega
  have e2 : half - 1 + i - (half - 1) = i := by omega
  have hv : vel half x i = (x (i + 1) - x i) / dt := by
    rw [vel, hdt, show 1 + i = i + 1 by omega, show 0 + i = i by omega]; ring
  simp only [velErr, if_pos hi, if_neg e1, e2, hv]
  constructor
  · constructor
    · rintro ⟨a, b⟩; exact ⟨by linarith, by linarith⟩
    · rintro ⟨a, b⟩; exact ⟨by linarith, by linarith⟩
  · intro hu hl
    rw [hu, hl]
    constructor
    · rintro ⟨a, b⟩; linarith
    · intro a; exact ⟨by linarith, by linarith⟩

/-- C72: for step lengths `dt_i` the error of the total time term is the duration minus the limit. -/
theorem C72_duration (limit : K) (n : Nat) (x dt : Nat → K) (h : ∀ i, i < n → x i = 1 / dt i) :
    timeErr limit n x = (∑ i ∈ Finset.range n, dt i) - limit := by
  unfold timeErr
  congr 1
  exact Finset.sum_congr rfl fun i hi => by rw [h i (Finset.mem_range.1 hi)]; simp

/-- C72: for positive values the linearisation never overestimates the time, and touches it at the current point. -/
theorem C72_underestimates (limit : K) (n : Nat) (x y : Nat → K) (hx : ∀ i, i < n → 0 < x i) (hy : ∀ i, i < n → 0 < y i) :
    timeErr limit n x + apply (timeJac x) n (y - x) ≤ timeErr limit n y ∧
    timeErr limit n x + apply (timeJac x) n (x - x) = timeErr limit n x := by
  constructor
  · unfold timeErr apply
    have : ∑ i ∈ Finset.range n, (x i)⁻¹ + ∑ c ∈ Finset.range n, timeJac x c * (y - x) c ≤ ∑ i ∈ Finset.range n, (y i)⁻¹ := by
      rw [← Finset.sum_add_distrib]
      apply Finset.sum_le_sum
      intro i hi
      have a := hx i (Finset.mem_range.1 hi)
      have b := hy i (Finset.mem_range.1 hi)
      have : (y i)⁻¹ - ((x i)⁻¹ + timeJac x i * (y - x) i) = (y i - x i) ^ 2 / (y i * x i ^ 2) := by
        simp only [timeJac, Pi.sub_apply]
        field_simp
        ring
      have h2 : 0 ≤ (y i - x i) ^ 2 / (y i * x i ^ 2) := by positivity
      linarith
    linarith
  · simp [apply]

end order

section derivative

theorem line (x d : Nat → ℝ) (k : Nat) : HasDerivAt (fun s : ℝ => (x + s • d) k) (d k) 0 := by
  have : (fun s : ℝ => (x + s • d) k) = fun s => x k + s * d k := by funext s; simp
  rw [this]
  simpa using ((hasDerivAt_id (0 : ℝ)).mul_const (d k)).const_add (x k)

/-- C72: the Jacobian is the derivative of the error in every direction, wherever no value is zero. -/
theorem C72_derivative (limit : ℝ) (n : Nat) (x d : Nat → ℝ) (hx : ∀ i, i < n → x i ≠ 0) :
    HasDerivAt (fun s : ℝ => timeErr limit n (x + s • d)) (apply (timeJac x) n d) 0 := by
  unfold timeErr apply
  apply HasDerivAt.sub_const
  apply HasDerivAt.fun_sum
  intro i hi
  have h := (line x d i).inv (by simpa using hx i (Finset.mem_range.1 hi))
  refine h.congr_deriv ?_
  have := hx i (Finset.mem_range.1 hi)
  simp only [timeJac, zero_smul, add_zero]
  field_simp

theorem vel_deriv (half : Nat) (x d : Nat → ℝ) (i : Nat) (hi : i < half - 1) :
    HasDerivAt (fun s : ℝ => velErr .default half (x + s • d) i) (apply (velJac half x i) (2 * half) d) 0 := by
  have h := ((line x d (1 + i)).sub (line x d (0 + i))).mul (line x d (half + 1 + i))
  have hf : (fun s : ℝ => velErr .default half (x + s • d) i) =
      fun s : ℝ => ((x + s • d) (1 + i) - (x + s • d) (0 + i)) * (x + s • d) (half + 1 + i) := by
    funext s
    simp [velErr, if_pos hi, vel, VelParams.default]
  rw [hf]
  refine h.congr_deriv ?_
  simp only [velJac, if_pos hi]
  rw [apply_velJacTop half x d i (by omega)]
  simp only [zero_smul, add_zero, Pi.sub_apply]
  rw [show 1 + i = i + 1 by omega, show 0 + i = i by omega, show half + 1 + i = i + half + 1 by omega]
  ring

theorem velJac_eq (half : Nat) (x : Nat → ℝ) (i c : Nat) (hi : i < half - 1) :
    velJac half x i c = if c = i + half + 1 then x (i + 1) - x i else if c = i + 1 then x (i + half + 1)
      else if c = i then -x (i + half + 1) else 0 := by
  simp only [velJac, if_pos hi, velJacTop, assignRow, List.foldl_cons, List.foldl_nil, Function.update_apply]
  simp

theorem apply_velJac (half : Nat) (x d : Nat → ℝ) (i : Nat) (hi : i < half - 1) :
    apply (velJac half x i) (2 * half) d =
      -(x (i + half + 1)) * d i + x (i + half + 1) * d (i + 1) + (x (i + 1) - x i) * d (i + half + 1) := by
  simp only [velJac, if_pos hi]
  exact apply_velJacTop half x d i (by omega)

theorem apply_accJac (half : Nat) (x d : Nat → ℝ) (i : Nat) (hi : i < half - 2) (ht : x (i + half + 1) + x (i + half + 2) ≠ 0) :
    apply (accJac half x i) (2 * half) d =
      2 * ((apply (velJac half x (i + 1)) (2 * half) d - apply (velJac half x i) (2 * half) d) / (x (i + half + 1) + x (i + half + 2)) -
        (velErr .default half x (i + 1) - velErr .default half x i) * (d (i + half + 1) + d (i + half + 2)) /
          (x (i + half + 1) + x (i + half + 2)) ^ 2) := by
  rw [apply_velJac half x d i (by omega), apply_velJac half x d (i + 1) (by omega)]
  unfold accJac
  simp only
  rw [apply_assignRow]
  · have e0 : velJac half x (i + 1) i = 0 := by rw [velJac_eq half x _ _ (by omega)]; split_ifs <;> first | omega | rfl
    have e1 : velJac half x i i = -x (i + half + 1) := by rw [velJac_eq half x _ _ (by omega)]; split_ifs <;> first | omega | rfl
    have e2 : velJac half x (i + 1) (i + 1) = -x (i + half + 1 + 1) := by
      rw [velJac_eq half x _ _ (by omega), show i + 1 + half + 1 = i + half + 1 + 1 by omega]; split_ifs <;> first | omega | rfl
    have e3 : velJac half x i (i + 1) = x (i + half + 1) := by rw [velJac_eq half x _ _ (by omega)]; split_ifs <;> first | omega | rfl
    have e4 : velJac half x (i + 1) (i + 2) = x (i + half + 1 + 1) := by
      rw [velJac_eq half x _ _ (by omega), show i + 1 + half + 1 = i + half + 1 + 1 by omega]; split_ifs <;> first | omega | rfl
    have e5 : velJac half x i (i + 2) = 0 := by rw [velJac_eq half x _ _ (by omega)]; split_ifs <;> first | omega | rfl
    have e6 : velJac half x (i + 1) (i + half + 1) = 0 := by rw [velJac_eq half x _ _ (by omega)]; split_ifs <;> first | omega | rfl
    have e7 : velJac half x i (i + half + 1) = x (i + 1) - x i := by rw [velJac_eq half x _ _ (by omega)]; split_ifs <;> first | omega | rfl
    have e8 : velJac half x (i + 1) (i + half + 1 + 1) = x (i + 2) - x (i + 1) := by
      rw [velJac_eq half x _ _ (by omega)]; split_ifs <;> first | omega | rfl
    have e9 : velJac half x i (i + half + 1 + 1) = 0 := by rw [velJac_eq half x _ _ (by omega)]; split_ifs <;> first | omega | rfl
    simp only [List.map_cons, List.map_nil, List.sum_cons, List.sum_nil, e0, e1, e2, e3, e4, e5, e6, e7, e8, e9]
    rw [show i + 1 + half + 1 = i + half + 1 + 1 by omega, show i + 1 + 1 = i + 2 by omega, show i + half + 1 + 1 = i + half + 2 by omega]
    field_simp
    ring
  · intro p hp; simp at hp; rcases hp with rfl | rfl | rfl | rfl | rfl <;> simp <;> omega
  · simp; omega

/-- C73: the Jacobian of the acceleration error is its derivative in every direction, wherever the denominators are not
zero. -/
theorem C73_acc (limit : ℝ) (half : Nat) (x d : Nat → ℝ) (i : Nat) (hi : i < half - 2)
    (ht : x (i + half + 1) + x (i + half + 2) ≠ 0) :
    HasDerivAt (fun s : ℝ => accErr limit half (x + s • d) i) (apply (accJac half x i) (2 * half) d) 0 := by
  rw [apply_accJac half x d i hi ht]
  have h1 := (vel_deriv half x d (i + 1) (by omega)).sub (vel_deriv half x d i (by omega))
  have h2 := (line x d (i + half + 1)).add (line x d (i + half + 2))
  have h := ((h1.const_mul 2).div h2 (by simpa using ht)).sub_const limit
  have hf : (fun s : ℝ => accErr limit half (x + s • d) i) = fun s : ℝ =>
      2 * (velErr .default half (x + s • d) (i + 1) - velErr .default half (x + s • d) i) /
        ((x + s • d) (i + half + 1) + (x + s • d) (i + half + 2)) - limit := by
    funext s
    rw [accErr, show 1 + i = i + 1 by omega, show 0 + i = i by omega, show half + 1 + i = i + half + 1 by omega,
      show half + 2 + i = i + half + 2 by omega]
  rw [hf]
  refine h.congr_deriv ?_
  simp only [zero_smul, add_zero, Pi.add_apply, Pi.sub_apply, Pi.smul_apply]
  field_simp

theorem apply_support (row : Nat → ℝ) (n : Nat) (d : Nat → ℝ) (l : List Nat) (hl : l.Nodup) (hn : ∀ c ∈ l, c < n)
    (h0 : ∀ c, c ∉ l → row c = 0) : apply row n d = (l.map fun c => row c * d c).sum := by
  unfold apply
  rw [← List.sum_toFinset _ hl]
  symm
  apply Finset.sum_subset
  · intro c hc; exact Finset.mem_range.2 (hn c (List.mem_toFinset.1 hc))
  · intro c _ hc
    rw [h0 c (fun h => hc (List.mem_toFinset.2 h)), zero_mul]

theorem apply_jerkJac (half : Nat) (x d : Nat → ℝ) (i : Nat) (hi : i < half - 3)
    (ht : x (i + half + 1) + x (i + half + 2) + x (i + half + 3) ≠ 0) :
    apply (jerkJac half x i) (2 * half) d =
      3 * ((apply (accJac half x (i + 1)) (2 * half) d - apply (accJac half x i) (2 * half) d) /
          (x (i + half + 1) + x (i + half + 2) + x (i + half + 3)) -
        (accErr 0 half x (i + 1) - accErr 0 half x i) * (d (i + half + 1) + d (i + half + 2) + d (i + half + 3)) /
          (x (i + half + 1) + x (i + half + 2) + x (i + half + 3)) ^ 2) := by
  have hs : ∀ k, k = i ∨ k = i + 1 → apply (accJac half x k) (2 * half) d =
      ([i, i + 1, i + 2, i + 3, i + half + 1, i + half + 2, i + half + 3].map fun c => accJac half x k c * d c).sum := by
    intro k hk
    apply apply_support
    · simp; omega
    · intro c hc; simp at hc; omega
    · intro c hc
      apply assignRow_notin
      simp at hc ⊢
      omega
  rw [hs i (Or.inl rfl), hs (i + 1) (Or.inr rfl)]
  unfold jerkJac
  simp only
  rw [apply_assignRow]
  · rw [show i + half + 1 + 1 = i + half + 2 by omega, show i + half + 2 + 1 = i + half + 3 by omega]
    simp only [List.map_cons, List.map_nil, List.sum_cons, List.sum_nil]
    field_simp
    ring
  · intro p hp; simp at hp; rcases hp with rfl | rfl | rfl | rfl | rfl | rfl | rfl <;> simp <;> omega
  · simp; omega

/-- C73: the Jacobian of the jerk error is its derivative in every direction, wherever the denominators are not zero. -/
theorem C73_jerk (limit : ℝ) (half : Nat) (x d : Nat → ℝ) (i : Nat) (hi : i < half - 3)
    (h1 : x (i + half + 1) + x (i + half + 2) ≠ 0) (h2 : x (i + half + 2) + x (i + half + 3) ≠ 0)
    (h3 : x (i + half + 1) + x (i + half + 2) + x (i + half + 3) ≠ 0) :
    HasDerivAt (fun s : ℝ => jerkErr limit half (x + s • d) i) (apply (jerkJac half x i) (2 * half) d) 0 := by
  rw [apply_jerkJac half x d i hi h3]
  have a := (C73_acc 0 half x d (i + 1) (by omega) (by
    rw [show i + 1 + half + 1 = i + half + 2 by omega, show i + 1 + half + 2 = i + half + 3 by omega]; exact h2)).sub
    (C73_acc 0 half x d i (by omega) h1)
  have b := ((line x d (i + half + 1)).add (line x d (i + half + 2))).add (line x d (i + half + 3))
  have h := ((a.const_mul 3).div b (by simpa using h3)).sub_const limit
  have hf : (fun s : ℝ => jerkErr limit half (x + s • d) i) = fun s : ℝ =>
      3 * (accErr 0 half (x + s • d) (i + 1) - accErr 0 half (x + s • d) i) /
        ((x + s • d) (i + half + 1) + (x + s • d) (i + half + 2) + (x + s • d) (i + half + 3)) - limit := by
    funext s
    rw [jerkErr, show 1 + i = i + 1 by omega, show 0 + i = i by omega, show half + 1 + i = i + half + 1 by omega,
      show half + 2 + i = i + half + 2 by omega, show half + 3 + i = i + half + 3 by omega]
  rw [hf]
  refine h.congr_deriv ?_
  simp only [zero_smul, add_zero, Pi.add_apply, Pi.sub_apply, Pi.smul_apply]
  field_simp

/-- The acceleration error is not the acceleration: the variables are `1/dt`, and the velocity difference is divided by the
sum of the `1/dt` instead of the mean `dt`.  With `dt = 2` at every step the value is four times the acceleration. -/
theorem C73_violated_scale (half : Nat) (q : Nat → ℝ) (i : Nat) (hi : i < half - 2) :
    let x : Nat → ℝ := fun k => if k < half then q k else 1 / 2
    accErr 0 half x i = 4 * (((q (i + 2) - q (i + 1)) / 2 - (q (i + 1) - q i) / 2) / 2) := by
  intro x
  have hq : ∀ k, k < half → x k = q k := fun k hk => if_pos hk
  have hh : ∀ k, half ≤ k → x k = 1 / 2 := fun k hk => if_neg (by omega)
  simp only [accErr, velErr, vel, VelParams.default]
  rw [if_pos (by omega), if_pos (by omega)]
  rw [show 1 + (1 + i) = i + 2 by omega, show 0 + (1 + i) = i + 1 by omega, show 1 + (0 + i) = i + 1 by omega,
    show 0 + (0 + i) = i by omega]
  rw [hq (i + 2) (by omega), hq (i + 1) (by omega), hq i (by omega), hh (half + 1 + (1 + i)) (by omega),
    hh (half + 1 + (0 + i)) (by omega), hh (half + 1 + i) (by omega), hh (half + 2 + i) (by omega)]
  ring

/-- non-vacuity: four points, `1/dt = 2` everywhere; all denominators are positive and the error is not zero. -/
example : let x : Nat → ℝ := fun k => if k < 4 then (k : ℝ) ^ 2 else 2
    x (0 + 4 + 1) + x (0 + 4 + 2) ≠ 0 ∧ x (0 + 4 + 2) + x (0 + 4 + 3) ≠ 0 ∧ velErr ⟨1, 1, -1⟩ 4 x 1 = 4 := by
  refine ⟨by norm_num, by norm_num, by norm_num [velErr, vel]⟩

end derivative

end Verif.TimeTerms
