import Mathlib.Tactic.Ring
import Mathlib.Tactic.FieldSimp
import Mathlib.Tactic.Linarith
import Mathlib.Tactic.Positivity
import Mathlib.Tactic.FinCases
import Mathlib.Tactic.LinearCombination
import Mathlib.LinearAlgebra.Matrix.Determinant.Basic
import Mathlib.Analysis.Real.Sqrt
import Verif.Model.Diagonalize

set_option linter.unusedSectionVars false
set_option linter.unusedVariables false

/-!
# C174: the axes returned are a frame, and nothing of the matrix is lost
-/

namespace Verif.Diag

variable {K : Type*} [Field K] [LinearOrder K] [IsStrictOrderedRing K]

/-- A square root. -/
def IsSqrt (sqrt : K → K) : Prop := ∀ x, 0 ≤ x → 0 ≤ sqrt x ∧ sqrt x * sqrt x = x

/-- Symmetric matrices. -/
def Sym (A : M3 K) : Prop := ∀ i j, A i j = A j i

/-- A right-handed orthonormal frame: the columns of the matrix. -/
structure Frame (Q : M3 K) : Prop where
  cols : ∀ i j, ∑ k, Q k i * Q k j = if i = j then 1 else 0
  rows : ∀ i j, ∑ k, Q i k * Q j k = if i = j then 1 else 0
  det : Q.det = 1

def Quat.Unit (q : Quat K) : Prop := q.x * q.x + q.y * q.y + q.z * q.z + q.w * q.w = 1

theorem toMat_frame {q : Quat K} (h : q.Unit) : Frame (toMat q) := by
  obtain ⟨x, y, z, w⟩ := q
  simp only [Quat.Unit] at h
  have hw : w * w = 1 - x * x - y * y - z * z := by linear_combination h
  refine ⟨?_, ?_, ?_⟩
  · intro i j
    fin_cases i <;> fin_cases j <;> simp [toMat, Fin.sum_univ_three] <;>
      first
      | ring1
      | linear_combination (x * x + y * y + z * z + w * w + 1) * h
  · intro i j
    fin_cases i <;> fin_cases j <;> simp [toMat, Fin.sum_univ_three] <;>
      first
      | ring1
      | linear_combination (x * x + y * y + z * z + w * w + 1) * h
  · rw [Matrix.det_fin_three]
    simp [toMat]
    linear_combination ((x * x + y * y + z * z + w * w) * (x * x + y * y + z * z + w * w) + (x * x + y * y + z * z + w * w) + 1) * h

theorem IsSqrt.pos {sqrt : K → K} (hs : IsSqrt sqrt) {x : K} (hx : 0 < x) : 0 < sqrt x := by
  obtain ⟨h1, h2⟩ := hs x hx.le
  rcases h1.lt_or_eq with h | h
  · exact h
  · rw [← h] at h2; simp at h2; exact absurd h2 hx.ne

/-- In exact arithmetic the rotation always exists. -/
theorem jacobi_some {sqrt : K → K} (hs : IsSqrt sqrt) (D : M3 K) (k : Fin 3) : ∃ j j3, jacobi sqrt D k = some (j, j3) ∧ 0 < j3 ∧ j * j + j3 * j3 = 1 ∧ j ≠ 0 := by
  unfold jacobi
  generalize (D (k + 2) (k + 2) - D (k + 1) (k + 1)) / (2 * offDiag D k) = th
  obtain ⟨sgn, hsg⟩ : ∃ s : K, (if 0 < th then (1 : K) else -1) = s := ⟨_, rfl⟩
  have hs1 : sgn * sgn = 1 := by subst hsg; split_ifs <;> norm_num
  have hth : 0 ≤ th * sgn := by
    subst hsg; split_ifs with h
    · linarith
    · linarith
  have hs0 : sgn ≠ 0 := by rintro rfl; simp at hs1
  simp only [hsg]
  obtain ⟨d, hd⟩ : ∃ d : K, (th * sgn + (if th * sgn < 1000000 then sqrt (th * sgn * (th * sgn) + 1) else th * sgn)) = d := ⟨_, rfl⟩
  have hd0 : 0 < d := by
    subst hd; split_ifs with h
    · have := hs.pos (x := th * sgn * (th * sgn) + 1) (by positivity)
      linarith
    · linarith
  simp only [hd]
  have ht0 : sgn / d ≠ 0 := div_ne_zero hs0 hd0.ne'
  generalize sgn / d = t at ht0
  have htt : 0 < t * t := mul_self_pos.2 ht0
  have hr0 := hs.pos (x := t * t + 1) (by positivity)
  have hr := (hs (t * t + 1) (by positivity)).2
  generalize sqrt (t * t + 1) = r at hr0 hr
  have hr1 : 1 < r := by nlinarith
  have hc0 : 0 < 1 / r := by positivity
  have hc1 : 1 / r < 1 := by rw [div_lt_one hr0]; exact hr1
  generalize 1 / r = c at hc0 hc1
  rw [if_neg hc1.ne]
  have hh0 : 0 < (1 - c) / 2 := by linarith
  have hj0 := hs.pos hh0
  have hj := (hs _ hh0.le).2
  generalize sqrt ((1 - c) / 2) = s at hj0 hj
  have hjj : sgn * s * (-1) * (sgn * s * (-1)) = (1 - c) / 2 := by
    rw [← hj]; linear_combination s * s * hs1
  have h30 : 0 < 1 - sgn * s * (-1) * (sgn * s * (-1)) := by rw [hjj]; linarith
  have h3p := hs.pos h30
  have h3 := (hs _ h30.le).2
  have hne : sqrt (1 - sgn * s * (-1) * (sgn * s * (-1))) ≠ 1 := by
    intro he
    rw [he, hjj] at h3
    linarith
  rw [if_neg hne]
  refine ⟨_, _, rfl, h3p, by linarith, ?_⟩
  intro h0
  rw [h0] at hjj
  linarith

/-- The product in place never gives the zero quaternion. -/
theorem rotate_pos {q : Quat K} (hq : q.Unit) {k : Fin 3} {j j3 : K} (h3 : 0 < j3) :
    0 < (rotate q (jr k j j3)).x * (rotate q (jr k j j3)).x + (rotate q (jr k j j3)).y * (rotate q (jr k j j3)).y
      + (rotate q (jr k j j3)).z * (rotate q (jr k j j3)).z + (rotate q (jr k j j3)).w * (rotate q (jr k j j3)).w := by
  obtain ⟨x, y, z, w⟩ := q
  have key : ∀ a b c d : K, ¬ (a = 0 ∧ b = 0 ∧ c = 0 ∧ d = 0) → 0 < a * a + b * b + c * c + d * d := by
    intro a b c d h
    have ha := mul_self_nonneg a
    have hb := mul_self_nonneg b
    have hc := mul_self_nonneg c
    have hd := mul_self_nonneg d
    by_contra hn
    apply h
    refine ⟨mul_self_eq_zero.1 ?_, mul_self_eq_zero.1 ?_, mul_self_eq_zero.1 ?_, mul_self_eq_zero.1 ?_⟩ <;> linarith
  apply key
  rintro ⟨e0, e1, e2, e3⟩
  simp only [Quat.Unit] at hq
  have h3' := h3.ne'
  have e3' : w = 0 := by
    have : w * j3 = 0 := by
      have hh : (rotate ⟨x, y, z, w⟩ (jr k j j3)).w = w * j3 - (rotate ⟨x, y, z, w⟩ (jr k j j3)).x * (jr k j j3).x
        - (rotate ⟨x, y, z, w⟩ (jr k j j3)).y * (jr k j j3).y - (rotate ⟨x, y, z, w⟩ (jr k j j3)).z * (jr k j j3).z := rfl
      rw [e0, e1, e2, e3] at hh
      linarith
    exact (mul_eq_zero.1 this).resolve_right h3'
  have e2' : z = 0 := by
    have : z * j3 = 0 := by
      have hh : (rotate ⟨x, y, z, w⟩ (jr k j j3)).z = w * (jr k j j3).z + (rotate ⟨x, y, z, w⟩ (jr k j j3)).x * (jr k j j3).y
        - (rotate ⟨x, y, z, w⟩ (jr k j j3)).y * (jr k j j3).x + z * j3 := rfl
      rw [e0, e1, e2, e3'] at hh
      linarith
    exact (mul_eq_zero.1 this).resolve_right h3'
  have e1' : y = 0 := by
    have : y * j3 = 0 := by
      have hh : (rotate ⟨x, y, z, w⟩ (jr k j j3)).y = w * (jr k j j3).y - (rotate ⟨x, y, z, w⟩ (jr k j j3)).x * (jr k j j3).z
        + y * j3 + z * (jr k j j3).x := rfl
      rw [e0, e1, e2', e3'] at hh
      linarith
    exact (mul_eq_zero.1 this).resolve_right h3'
  have e0' : x = 0 := by
    have : x * j3 = 0 := by
      have hh : (rotate ⟨x, y, z, w⟩ (jr k j j3)).x = w * (jr k j j3).x + x * j3 + y * (jr k j j3).z - z * (jr k j j3).y := rfl
      rw [e0, e1', e2', e3'] at hh
      linarith
    exact (mul_eq_zero.1 this).resolve_right h3'
  rw [e0', e1', e2', e3'] at hq
  simp at hq

theorem normalize_unit {sqrt : K → K} (hs : IsSqrt sqrt) {q : Quat K}
    (h : 0 < q.x * q.x + q.y * q.y + q.z * q.z + q.w * q.w) : (normalize sqrt q).Unit := by
  have h1 := hs.pos h
  have h2 := (hs _ h.le).2
  simp only [normalize, Quat.Unit]
  generalize sqrt (q.x * q.x + q.y * q.y + q.z * q.z + q.w * q.w) = m at h1 h2
  have hm := h1.ne'
  field_simp
  linear_combination -h2

theorem product_eq {A : M3 K} (hA : Sym A) (Q : M3 K) (i j : Fin 3) :
    mulQtAQ (mulAQ A Q) Q i j = ∑ k, ∑ l, Q k i * A k l * Q l j := by
  have h1 := hA 1 0
  have h2 := hA 2 0
  have h3 := hA 2 1
  fin_cases i <;> fin_cases j <;> simp [mulQtAQ, mulAQ, Fin.sum_univ_three, h1, h2, h3] <;> ring

/-- What the loop keeps, at whatever turn it ends. -/
theorem loop_spec {sqrt : K → K} (hs : IsSqrt sqrt) (A : M3 K) (n : ℕ) (q : Quat K) (hq : q.Unit) :
    Frame (diagLoop sqrt A n q).1
    ∧ (diagLoop sqrt A n q).2.1 = mulQtAQ (mulAQ A (diagLoop sqrt A n q).1) (diagLoop sqrt A n q).1
    ∧ (diagLoop sqrt A n q).2.2 ≠ .precision
    ∧ ((diagLoop sqrt A n q).2.2 = .diagonal → offDiag (diagLoop sqrt A n q).2.1 (largest (offDiag (diagLoop sqrt A n q).2.1)) = 0) := by
  induction n generalizing q with
  | zero =>
    unfold diagLoop
    by_cases h : offDiag (mulQtAQ (mulAQ A (toMat q)) (toMat q)) (largest (offDiag (mulQtAQ (mulAQ A (toMat q)) (toMat q)))) = 0
    · simp only [if_pos h]
      exact ⟨toMat_frame hq, trivial, by simp, fun _ => h⟩
    · simp only [if_neg h]
      exact ⟨toMat_frame hq, trivial, by simp, by simp⟩
  | succ n ih =>
    unfold diagLoop
    by_cases h : offDiag (mulQtAQ (mulAQ A (toMat q)) (toMat q)) (largest (offDiag (mulQtAQ (mulAQ A (toMat q)) (toMat q)))) = 0
    · simp only [if_pos h]
      exact ⟨toMat_frame hq, trivial, by simp, fun _ => h⟩
    · obtain ⟨j, j3, hj, h3, -, -⟩ := jacobi_some hs (mulQtAQ (mulAQ A (toMat q)) (toMat q)) (largest (offDiag (mulQtAQ (mulAQ A (toMat q)) (toMat q))))
      simp only [if_neg h, hj]
      exact ih _ (normalize_unit hs (rotate_pos hq h3))

theorem largest_spec (o : Fin 3 → K) (h : o (largest o) = 0) (k : Fin 3) : o k = 0 := by
  have key : ∀ k, |o k| ≤ |o (largest o)| := by
    intro k
    unfold largest
    by_cases h1 : |o 1| < |o 0| ∧ |o 2| < |o 0|
    · rw [if_pos h1]
      fin_cases k
      · exact le_refl _
      · exact h1.1.le
      · exact h1.2.le
    · rw [if_neg h1]
      rw [not_and_or, not_lt, not_lt] at h1
      by_cases h2 : |o 2| < |o 1|
      · rw [if_pos h2]
        fin_cases k
        · rcases h1 with h1 | h1
          · exact h1
          · exact h1.trans h2.le
        · exact le_refl _
        · exact h2.le
      · rw [if_neg h2]
        rw [not_lt] at h2
        fin_cases k
        · rcases h1 with h1 | h1
          · exact h1.trans h2
          · exact h1
        · exact h2
        · exact le_refl _
  have := key k
  rw [h, abs_zero] at this
  exact abs_eq_zero.1 (le_antisymm this (abs_nonneg _))

/-- **C174** The columns of the matrix returned are a right-handed orthonormal frame, for every matrix and at whatever
turn the loop ends. -/
theorem C174_frame {sqrt : K → K} (hs : IsSqrt sqrt) (A : M3 K) : Frame (diagonalize sqrt A).1 :=
  (loop_spec hs A 23 ⟨0, 0, 0, 1⟩ (by simp [Quat.Unit])).1

/-- **C174** The second matrix is the given one seen from that frame, and the given one comes back from the two. -/
theorem C174_product {sqrt : K → K} (hs : IsSqrt sqrt) {A : M3 K} (hA : Sym A) :
    (∀ i j, (diagonalize sqrt A).2.1 i j = ∑ k, ∑ l, (diagonalize sqrt A).1 k i * A k l * (diagonalize sqrt A).1 l j)
    ∧ (∀ i j, A i j = ∑ k, ∑ l, (diagonalize sqrt A).1 i k * (diagonalize sqrt A).2.1 k l * (diagonalize sqrt A).1 j l)
    ∧ Sym (diagonalize sqrt A).2.1 := by
  obtain ⟨hf, hD, -, -⟩ := loop_spec hs A 23 ⟨0, 0, 0, 1⟩ (by simp [Quat.Unit])
  change Frame (diagonalize sqrt A).1 at hf
  change (diagonalize sqrt A).2.1 = _ at hD
  have hD' : ∀ i j, (diagonalize sqrt A).2.1 i j = ∑ k, ∑ l, (diagonalize sqrt A).1 k i * A k l * (diagonalize sqrt A).1 l j := by
    intro i j
    rw [hD]
    exact product_eq hA _ i j
  refine ⟨hD', ?_, ?_⟩
  · generalize (diagonalize sqrt A).1 = Q at hf hD'
    generalize (diagonalize sqrt A).2.1 = D at hD'
    intro i j
    have e1 : (Matrix.transpose Q) * A * Q = D := by
      ext a b
      rw [hD', Matrix.mul_apply]
      simp only [Matrix.mul_apply, Matrix.transpose_apply, Finset.sum_mul]
      exact Finset.sum_comm
    have e2 : Q * Matrix.transpose Q = 1 := by
      ext a b
      rw [Matrix.mul_apply, Matrix.one_apply]
      simpa using hf.rows a b
    have e3 : Q * D * Matrix.transpose Q = A := by
      rw [← e1]
      calc Q * (Matrix.transpose Q * A * Q) * Matrix.transpose Q
          = (Q * Matrix.transpose Q) * A * (Q * Matrix.transpose Q) := by simp only [Matrix.mul_assoc]
        _ = A := by rw [e2, Matrix.one_mul, Matrix.mul_one]
    have := congrFun (congrFun e3 i) j
    rw [← this, Matrix.mul_apply]
    simp only [Matrix.mul_apply, Matrix.transpose_apply, Finset.sum_mul]
    exact Finset.sum_comm
  · intro i j
    rw [hD', hD', Finset.sum_comm]
    refine Finset.sum_congr rfl fun k _ => Finset.sum_congr rfl fun l _ => ?_
    rw [hA l k]; ring

/-- **C174** In exact arithmetic the loop ends only with a diagonal matrix or after all its turns; in the first case the
columns are eigenvectors.  That 24 turns are enough is not proved. -/
theorem C174_eigen_partial {sqrt : K → K} (hs : IsSqrt sqrt) {A : M3 K} (hA : Sym A) :
    ((diagonalize sqrt A).2.2 = .diagonal ∨ (diagonalize sqrt A).2.2 = .steps)
    ∧ ((diagonalize sqrt A).2.2 = .diagonal →
        (∀ i j, i ≠ j → (diagonalize sqrt A).2.1 i j = 0)
        ∧ ∀ i j, ∑ k, A i k * (diagonalize sqrt A).1 k j = (diagonalize sqrt A).2.1 j j * (diagonalize sqrt A).1 i j) := by
  obtain ⟨hf, hD, hp, hd⟩ := loop_spec hs A 23 ⟨0, 0, 0, 1⟩ (by simp [Quat.Unit])
  obtain ⟨h1, h2, h3⟩ := C174_product hs hA
  change (diagonalize sqrt A).2.2 ≠ _ at hp
  change (diagonalize sqrt A).2.2 = _ → offDiag (diagonalize sqrt A).2.1 (largest (offDiag (diagonalize sqrt A).2.1)) = 0 at hd
  change Frame (diagonalize sqrt A).1 at hf
  refine ⟨?_, ?_⟩
  · revert hp
    cases (diagonalize sqrt A).2.2 <;> simp
  · intro he
    have hz := largest_spec _ (hd he)
    have z0 := hz 0
    have z1 := hz 1
    have z2 := hz 2
    simp only [offDiag] at z0 z1 z2
    have hoff : ∀ i j, i ≠ j → (diagonalize sqrt A).2.1 i j = 0 := by
      intro i j hij
      have s01 := h3 1 0
      have s02 := h3 2 0
      have s12 := h3 2 1
      fin_cases i <;> fin_cases j <;> simp at hij ⊢ <;> first | assumption | (rw [s01]; assumption) | (rw [s02]; assumption) | (rw [s12]; assumption)
    refine ⟨hoff, fun i j => ?_⟩
    generalize (diagonalize sqrt A).1 = Q at *
    generalize (diagonalize sqrt A).2.1 = D at *
    have c := fun b => hf.cols b j
    have hA2 : ∀ a b, A a b = D 0 0 * Q a 0 * Q b 0 + D 1 1 * Q a 1 * Q b 1 + D 2 2 * Q a 2 * Q b 2 := by
      intro a b
      rw [h2 a b]
      simp only [Fin.sum_univ_three, hoff 0 1 (by decide), hoff 0 2 (by decide), hoff 1 0 (by decide), hoff 1 2 (by decide), hoff 2 0 (by decide), hoff 2 1 (by decide)]
      ring
    have c0 := c 0
    have c1 := c 1
    have c2 := c 2
    simp only [Fin.sum_univ_three] at c0 c1 c2 ⊢
    rw [hA2 i 0, hA2 i 1, hA2 i 2]
    have : ((D 0 0 * Q i 0) * (Q 0 0 * Q 0 j + Q 1 0 * Q 1 j + Q 2 0 * Q 2 j)
        + (D 1 1 * Q i 1) * (Q 0 1 * Q 0 j + Q 1 1 * Q 1 j + Q 2 1 * Q 2 j)
        + (D 2 2 * Q i 2) * (Q 0 2 * Q 0 j + Q 1 2 * Q 1 j + Q 2 2 * Q 2 j)) = D j j * Q i j := by
      rw [c0, c1, c2]
      fin_cases j <;> simp
    rw [← this]; ring

/-- **C174** A matrix that is already diagonal comes back with the axes of coordinates. -/
theorem C174_diagonal (sqrt : K → K) {A : M3 K} (h1 : A 0 1 = 0) (h2 : A 0 2 = 0) (h3 : A 1 2 = 0) :
    (diagonalize sqrt A).2.2 = .diagonal ∧ (∀ i j, (diagonalize sqrt A).1 i j = if i = j then 1 else 0)
    ∧ ∀ i, (diagonalize sqrt A).2.1 i i = A i i := by
  have hz : ∀ k, offDiag (mulQtAQ (mulAQ A (toMat ⟨0, 0, 0, 1⟩)) (toMat ⟨0, 0, 0, 1⟩)) k = 0 := by
    intro k
    fin_cases k <;> simp [offDiag, mulQtAQ, mulAQ, toMat, h1, h2, h3]
  have he : diagonalize sqrt A = (toMat ⟨0, 0, 0, 1⟩, mulQtAQ (mulAQ A (toMat ⟨0, 0, 0, 1⟩)) (toMat ⟨0, 0, 0, 1⟩), .diagonal) := by
    unfold diagonalize
    unfold diagLoop
    exact if_pos (hz _)
  rw [he]
  refine ⟨rfl, ?_, ?_⟩
  · intro i j
    fin_cases i <;> fin_cases j <;> simp [toMat]
  · intro i
    fin_cases i <;> simp [mulQtAQ, mulAQ, toMat]

/-- The product in place is not the product of quaternions: the unit times a unit quaternion is neither that quaternion
nor of length one, so a turn rotates by another angle than the one computed. -/
theorem product_in_place :
    rotate (⟨0, 0, 0, 1⟩ : Quat ℚ) (jr 2 (3 / 5) (4 / 5)) = ⟨0, 0, 3 / 5, 11 / 25⟩ ∧ (jr 2 (3 / 5) (4 / 5) : Quat ℚ).Unit := by
  constructor
  · simp [rotate, jr]; norm_num
  · simp [Quat.Unit, jr]; norm_num

/-- The hypotheses are met by the real numbers and a matrix that is not diagonal. -/
example : IsSqrt Real.sqrt ∧ Sym (!![2, 1, 0; 1, 3, -1; 0, -1, 5] : M3 ℝ) ∧ ¬ (∀ i j : Fin 3, i ≠ j → (!![2, 1, 0; 1, 3, -1; 0, -1, 5] : M3 ℝ) i j = 0) := by
  refine ⟨fun x hx => ⟨Real.sqrt_nonneg x, Real.mul_self_sqrt hx⟩, ?_, ?_⟩
  · intro i j
    fin_cases i <;> fin_cases j <;> simp
  · intro h
    have := h 0 1 (by decide)
    simp at this

/-- A diagonal matrix that is not a multiple of the unit. -/
example : (!![2, 0, 0; 0, 3, 0; 0, 0, 5] : M3 ℚ) 0 1 = 0 ∧ (!![2, 0, 0; 0, 3, 0; 0, 0, 5] : M3 ℚ) 1 1 = 3 := by
  constructor <;> simp

end Verif.Diag
