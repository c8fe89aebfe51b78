import Verif.Model.KinTerms
import Verif.Props.ErrFunc
import Verif.Props.ProblemTerms
import Verif.Props.JointConstraints
import Mathlib.Analysis.Calculus.Deriv.Mul
import Mathlib.Analysis.Calculus.Deriv.Inv
import Mathlib.Analysis.Calculus.Deriv.Add
import Mathlib.Analysis.Calculus.Deriv.Pow
import Mathlib.Analysis.Calculus.Deriv.Slope
import Mathlib.Topology.Algebra.Order.Field

/-!
C109: the inverse kinematics constraint.  C110: the Cartesian velocity term.  C111: the singularity term.
-/

set_option linter.unusedSectionVars false
set_option linter.unusedVariables false

namespace Verif.KinTerms

open Verif.Bounds hiding Fin
open Verif.BasicArray
open Verif.JointConstraints (rowDot insertRow insertRow_some mapM_range_some)
open Verif.Sco (ErrFunc getVec costValue_eq cntViolation_eq)
open Filter Topology

universe w
variable {Name : Type} {T : Type w} {n m k : Nat}

/-! ### C109 -/

/-- Specification: squared distance of two joint positions. -/
def far (a b : Fin n → ℝ) : ℝ := ∑ i, (a i - b i) ^ 2

theorem far_nonneg (a b : Fin n → ℝ) : 0 ≤ far a b := Finset.sum_nonneg fun i _ => sq_nonneg _

theorem far_self (a : Fin n → ℝ) : far a a = 0 := by simp [far]

theorem far_zero {a b : Fin n → ℝ} (h : far a b = 0) : a = b := by
  funext i
  have := (Finset.sum_eq_zero_iff_of_nonneg fun i _ => sq_nonneg (a i - b i)).1 h i (Finset.mem_univ i)
  exact sub_eq_zero.1 (pow_eq_zero_iff two_ne_zero |>.1 this)

theorem norm_far (s q : Fin n → ℝ) : norm (fun i => s i - q i) = Real.sqrt (far s q) := by
  unfold norm far
  congr 1
  rw [← List.sum_ofFn, List.ofFn_eq_map]
  simp only [pow_two]

theorem norm_lt_iff (s s' q : Fin n → ℝ) :
    norm (fun i => s i - q i) < norm (fun i => s' i - q i) ↔ far s q < far s' q := by
  rw [norm_far, norm_far, Real.sqrt_lt_sqrt_iff (far_nonneg _ _)]

theorem fold_nearest (q : Fin n → ℝ) : ∀ (sols : List (Fin n → ℝ)) (s : Fin n → ℝ),
    ∃ r, (r = s ∨ r ∈ sols) ∧
      sols.foldl (nearestStep q) (some (norm fun i => s i - q i), fun i => s i - q i) =
        (some (norm fun i => r i - q i), fun i => r i - q i) ∧ far r q ≤ far s q ∧ ∀ s' ∈ sols, far r q ≤ far s' q := by
  intro sols
  induction sols with
  | nil => exact fun s => ⟨s, Or.inl rfl, rfl, le_rfl, by simp⟩
  | cons a l ih =>
    intro s
    rw [List.foldl_cons]
    by_cases h : norm (fun i => a i - q i) < norm fun i => s i - q i
    · obtain ⟨r, h1, h2, h3, h4⟩ := ih a
      rw [show nearestStep q (some (norm fun i => s i - q i), fun i => s i - q i) a =
        (some (norm fun i => a i - q i), fun i => a i - q i) by simp [nearestStep, h]]
      rw [norm_lt_iff] at h
      refine ⟨r, ?_, h2, h3.trans h.le, ?_⟩
      · rcases h1 with h1 | h1
        · exact Or.inr (by simp [h1])
        · exact Or.inr (by simp [h1])
      · intro s' hs'
        rcases List.mem_cons.1 hs' with h5 | h5
        · rw [h5]; exact h3
        · exact h4 s' h5
    · obtain ⟨r, h1, h2, h3, h4⟩ := ih s
      rw [show nearestStep q (some (norm fun i => s i - q i), fun i => s i - q i) a =
        (some (norm fun i => s i - q i), fun i => s i - q i) by simp [nearestStep, h]]
      rw [norm_lt_iff, not_lt] at h
      refine ⟨r, ?_, h2, h3, ?_⟩
      · rcases h1 with h1 | h1
        · exact Or.inl h1
        · exact Or.inr (by simp [h1])
      · intro s' hs'
        rcases List.mem_cons.1 hs' with h5 | h5
        · rw [h5]; exact h3.trans h
        · exact h4 s' h5

/-- C109: construction fails exactly without the tool frame or for an empty variable. -/
theorem C109_rejects (hasLink : Name → Bool) (joints : Nat) (working tcp : Name) (off target : T) (index : Nat) :
    (Ik.new n hasLink joints working tcp off target index = none ↔ hasLink tcp = false ∨ n = 0) := by
  unfold Ik.new
  cases hasLink tcp <;> by_cases h : n = 0 <;> simp [h]

/-- C109: `setTargetPose` is construction with another target. -/
theorem C109_set_target (hasLink : Name → Bool) (joints : Nat) (working tcp : Name) (off target p : T) (index : Nat) (c : Ik Name T n)
    (h : Ik.new n hasLink joints working tcp off target index = some c) :
    Ik.new n hasLink joints working tcp off p index = some (c.setTargetPose p) := by
  unfold Ik.new at h ⊢
  split at h
  · simp at h
  · rename_i h1
    rw [if_neg h1]
    split at h
    · simp at h
    · rename_i h2
      rw [if_neg h2]
      injection h with h
      rw [← h]
      rfl

/-- C109: if the solver finds solutions, the value is the difference to one that is nearest to the joint values. -/
theorem C109_nearest_partial (asserts : Bool) (ik : T → Name → Name → (Fin k → ℝ) → List (Fin n → ℝ)) (c : Ik Name T n)
    (q : Fin n → ℝ) (seed : Fin k → ℝ) (hj : c.joints = n) (hne : ik c.target c.working c.tcp seed ≠ []) :
    ∃ s ∈ ik c.target c.working c.tcp seed, c.values asserts ik q seed = some (fun i => s i - q i) ∧
      ∀ s' ∈ ik c.target c.working c.tcp seed, far s q ≤ far s' q := by
  unfold Ik.values
  generalize ik c.target c.working c.tcp seed = sols at *
  cases sols with
  | nil => exact absurd rfl hne
  | cons a l =>
    obtain ⟨r, h1, h2, h3, h4⟩ := fold_nearest q l a
    refine ⟨r, ?_, ?_, ?_⟩
    · rcases h1 with h1 | h1 <;> simp [h1]
    · simp only [List.isEmpty_cons, Bool.and_false, Bool.false_eq_true, if_false, hj, ne_eq, not_true_eq_false, decide_false]
      rw [List.foldl_cons, show nearestStep q (none, fun _ => 0) a = (some (norm fun i => a i - q i), fun i => a i - q i) from rfl, h2]
    · intro s' hs'
      rcases List.mem_cons.1 hs' with h5 | h5
      · rw [h5]; exact h3
      · exact h4 s' h5

/-- C109: the value vanishes exactly at the solutions. -/
theorem C109_satisfied_partial (asserts : Bool) (ik : T → Name → Name → (Fin k → ℝ) → List (Fin n → ℝ)) (c : Ik Name T n)
    (q : Fin n → ℝ) (seed : Fin k → ℝ) (hj : c.joints = n) (hne : ik c.target c.working c.tcp seed ≠ []) :
    ∃ v, c.values asserts ik q seed = some v ∧ ((∀ i, v i = 0) ↔ q ∈ ik c.target c.working c.tcp seed) := by
  obtain ⟨s, h1, h2, h3⟩ := C109_nearest_partial asserts ik c q seed hj hne
  refine ⟨_, h2, ?_, ?_⟩
  · intro h
    have : s = q := funext fun i => sub_eq_zero.1 (h i)
    rwa [← this]
  · intro h i
    have := h3 q h
    rw [far_self] at this
    rw [far_zero (le_antisymm this (far_nonneg _ _)), sub_self]

/-- Specification: every solution brings the tool frame to the target, seen from the working frame. -/
def Sound (fk : (Fin n → ℝ) → Name → Name → T) (ik : T → Name → Name → (Fin k → ℝ) → List (Fin n → ℝ)) : Prop :=
  ∀ target working tcp seed, ∀ s ∈ ik target working tcp seed, fk s working tcp = target

/-- C109: with a sound solver and no tool offset, the tool is at the target wherever the constraint is satisfied. -/
theorem C109_reaches_partial [Group T] (asserts : Bool) (fk : (Fin n → ℝ) → Name → Name → T)
    (ik : T → Name → Name → (Fin k → ℝ) → List (Fin n → ℝ)) (hs : Sound fk ik) (c : Ik Name T n) (q : Fin n → ℝ)
    (seed : Fin k → ℝ) (hj : c.joints = n) (hne : ik c.target c.working c.tcp seed ≠ []) (hoff : c.tcpOffset = 1) (v : Fin n → ℝ)
    (hv : c.values asserts ik q seed = some v) (h0 : ∀ i, v i = 0) : fk q c.working c.tcp * c.tcpOffset = c.target := by
  obtain ⟨v', h1, h2⟩ := C109_satisfied_partial asserts ik c q seed hj hne
  rw [hv] at h1
  injection h1 with h1
  rw [hoff, mul_one]
  exact hs _ _ _ _ _ (h2.1 (h1 ▸ h0))

/-- C109 fails with a tool offset: wherever the constraint is satisfied, the tool is not at the target. -/
theorem C109_violated_offset [Group T] (asserts : Bool) (fk : (Fin n → ℝ) → Name → Name → T)
    (ik : T → Name → Name → (Fin k → ℝ) → List (Fin n → ℝ)) (hs : Sound fk ik) (c : Ik Name T n) (q : Fin n → ℝ)
    (seed : Fin k → ℝ) (hj : c.joints = n) (hne : ik c.target c.working c.tcp seed ≠ []) (hoff : c.tcpOffset ≠ 1) (v : Fin n → ℝ)
    (hv : c.values asserts ik q seed = some v) (h0 : ∀ i, v i = 0) : fk q c.working c.tcp * c.tcpOffset ≠ c.target := by
  obtain ⟨v', h1, h2⟩ := C109_satisfied_partial asserts ik c q seed hj hne
  rw [hv] at h1
  injection h1 with h1
  rw [hs _ _ _ _ _ (h2.1 (h1 ▸ h0))]
  exact fun h => hoff (mul_eq_left.1 h)

/-- C109 fails for a target that cannot be reached: without assertions the constraint is satisfied everywhere, with assertions the
program stops. -/
theorem C109_violated_unreachable (ik : T → Name → Name → (Fin k → ℝ) → List (Fin n → ℝ)) (c : Ik Name T n)
    (seed : Fin k → ℝ) (hno : ik c.target c.working c.tcp seed = []) (q : Fin n → ℝ) :
    c.values false ik q seed = some (fun _ => 0) ∧ c.values true ik q seed = none := by
  unfold Ik.values
  rw [hno]
  exact ⟨rfl, rfl⟩

/-- C109 fails for a variable of another size than the group: it is accepted and cannot be evaluated. -/
theorem C109_violated_size (asserts : Bool) (hasLink : Name → Bool) (joints : Nat) (working tcp : Name) (off target : T) (index : Nat)
    (hl : hasLink tcp = true) (h0 : 0 < n) (hj : joints ≠ n) (ik : T → Name → Name → (Fin k → ℝ) → List (Fin n → ℝ))
    (q : Fin n → ℝ) (seed : Fin k → ℝ) (hne : ik target working tcp seed ≠ []) :
    ∃ c, Ik.new n hasLink joints working tcp off target index = some c ∧ c.values asserts ik q seed = none := by
  refine ⟨⟨joints, working, tcp, off, target, index, List.replicate n default0⟩, ?_, ?_⟩
  · unfold Ik.new
    rw [if_neg (by simp [hl]), if_neg (by omega)]
  · unfold Ik.values
    have : (ik target working tcp seed).isEmpty = false := by
      cases h : ik target working tcp seed with
      | nil => exact absurd h hne
      | cons a l => rfl
    simp [this, hj]

/-- C109 fails for bounds: any number of intervals is accepted. -/
theorem C109_violated_bounds (c : Ik Name T n) (bs : List (Bounds ℝ)) (h : bs.length ≠ n) : (c.setBounds bs).bounds.length ≠ n := h

/-- C109: where one solution is strictly nearest, and the seed is another variable, the rows of the Jacobian are the derivatives of
the values in every direction. -/
theorem C109_derivative_partial (asserts : Bool) (ik : T → Name → Name → (Fin k → ℝ) → List (Fin n → ℝ)) (c : Ik Name T n)
    (q : Fin n → ℝ) (seed : Fin k → ℝ) (hj : c.joints = n) (s : Fin n → ℝ) (hs : s ∈ ik c.target c.working c.tcp seed)
    (hmin : ∀ s' ∈ ik c.target c.working c.tcp seed, s' ≠ s → far s q < far s' q) (numVars : Nat) (hv : c.index + n ≤ numVars)
    (d : Nat → ℝ) :
    ∃ (rows : List (List (Nat × ℝ))) (g : ℝ → Fin n → ℝ), c.jacobian numVars = some rows ∧ rows.length = n ∧
      (∀ t : ℝ, c.values asserts ik (fun i => q i + t * d (c.index + i.val)) seed = some (g t)) ∧
      ∀ (i : Fin n) (row : List (Nat × ℝ)), rows[i.val]? = some row → HasDerivAt (fun t => g t i) (rowDot row d) 0 := by
  have hne : ik c.target c.working c.tcp seed ≠ [] := List.ne_nil_of_mem hs
  have hval := fun t : ℝ => C109_nearest_partial asserts ik c (fun i => q i + t * d (c.index + i.val)) seed hj hne
  choose r hr1 hr2 hr3 using hval
  have hev : ∀ᶠ t : ℝ in 𝓝 0, r t = s := by
    have hfin : {s' | s' ∈ ik c.target c.working c.tcp seed}.Finite := List.finite_toSet _
    have : ∀ᶠ t : ℝ in 𝓝 0, ∀ s' ∈ {s' | s' ∈ ik c.target c.working c.tcp seed}, s' ≠ s →
        far s (fun i => q i + t * d (c.index + i.val)) < far s' (fun i => q i + t * d (c.index + i.val)) := by
      rw [Filter.eventually_all_finite hfin]
      intro s' hs'
      by_cases h : s' = s
      · exact Filter.Eventually.of_forall fun t h' => absurd h h'
      · have hc : ∀ a : Fin n → ℝ, Continuous fun t : ℝ => far a (fun i => q i + t * d (c.index + i.val)) := by
          intro a
          unfold far
          fun_prop
        have := (hc s).continuousAt.eventually_lt (hc s').continuousAt (x₀ := (0 : ℝ)) (by simpa using hmin s' hs' h)
        exact this.mono fun t ht _ => ht
    refine this.mono fun t ht => ?_
    by_contra hne
    exact absurd (hr3 t s hs) (not_le.2 (ht (r t) (hr1 t) hne))
  refine ⟨(List.range n).map fun j => [(c.index + j, (-1 : ℝ))], fun t i => r t i - (q i + t * d (c.index + i.val)), ?_, by simp, hr2, ?_⟩
  · unfold Ik.jacobian
    apply mapM_range_some
    intro j hj
    exact insertRow_some _ _ (by simp) (by simp; omega)
  · intro i row hrow
    rw [List.getElem?_map, List.getElem?_range i.isLt] at hrow
    injection hrow with hrow
    rw [← hrow]
    have h1 : HasDerivAt (fun t : ℝ => s i - (q i + t * d (c.index + i.val))) (-(1 * d (c.index + i.val))) 0 :=
      (((hasDerivAt_id (0 : ℝ)).mul_const _).const_add _).const_sub _
    have h2 := h1.congr_of_eventuallyEq (f₁ := fun t => r t i - (q i + t * d (c.index + i.val)))
      (hev.mono fun t ht => by simp only [ht])
    refine h2.congr_deriv ?_
    simp [rowDot]

/-! ### C110 -/

/-- Specification: displacement of the tool between two consecutive states. -/
def moved (t : Tool n) (q q' : Fin n → ℝ) (a : Fin 3) : ℝ := t.pos q' a - t.pos q a

theorem velErr_top (t : Tool n) (L : ℝ) (x : Fin (n + n) → ℝ) (a : Fin 3) :
    velErr t L x (Fin.castAdd 3 a) = moved t (top x) (bottom x) a - L := by
  unfold velErr
  rw [Fin.addCases_left]
  rfl

theorem velErr_bottom (t : Tool n) (L : ℝ) (x : Fin (n + n) → ℝ) (a : Fin 3) :
    velErr t L x (Fin.natAdd 3 a) = -moved t (top x) (bottom x) a - L := by
  unfold velErr
  rw [Fin.addCases_right]
  simp [moved]

theorem forall_six {p : Fin 6 → Prop} : (∀ i, p i) ↔ ∀ a : Fin 3, p (Fin.castAdd 3 a) ∧ p (Fin.natAdd 3 a) :=
  ⟨fun h a => ⟨h _, h _⟩, fun h i => Fin.addCases (m := 3) (n := 3) (motive := p) (fun a => (h a).1) (fun a => (h a).2) i⟩

/-- C110: no row is positive exactly when the tool moves by at most the limit along every axis. -/
theorem C110_satisfied (t : Tool n) (L : ℝ) (x : Fin (n + n) → ℝ) :
    (∀ i, velErr t L x i ≤ 0) ↔ ∀ a, |t.pos (bottom x) a - t.pos (top x) a| ≤ L := by
  rw [forall_six]
  apply forall_congr'
  intro a
  rw [velErr_top, velErr_bottom, abs_le, moved]
  constructor
  · rintro ⟨h1, h2⟩
    exact ⟨by linarith, by linarith⟩
  · rintro ⟨h1, h2⟩
    exact ⟨by linarith, by linarith⟩

/-- C110: a motion no longer than the limit satisfies the rows; a motion that satisfies them is at most the limit times the square
root of three long. -/
theorem C110_length_partial (t : Tool n) (L : ℝ) (hL : 0 ≤ L) (x : Fin (n + n) → ℝ) :
    (∑ a, (t.pos (bottom x) a - t.pos (top x) a) ^ 2 ≤ L ^ 2 → ∀ i, velErr t L x i ≤ 0) ∧
    ((∀ i, velErr t L x i ≤ 0) → ∑ a, (t.pos (bottom x) a - t.pos (top x) a) ^ 2 ≤ 3 * L ^ 2) := by
  constructor
  · intro h
    rw [C110_satisfied]
    intro a
    apply abs_le_of_sq_le_sq _ hL
    exact (Finset.single_le_sum (f := fun a => (t.pos (bottom x) a - t.pos (top x) a) ^ 2) (fun i _ => sq_nonneg _)
      (Finset.mem_univ a)).trans h
  · intro h
    rw [C110_satisfied] at h
    have : ∀ a ∈ (Finset.univ : Finset (Fin 3)), (t.pos (bottom x) a - t.pos (top x) a) ^ 2 ≤ L ^ 2 := fun a _ => by
      rw [← sq_abs]
      exact pow_le_pow_left₀ (abs_nonneg _) (h a) 2
    refine (Finset.sum_le_sum this).trans (le_of_eq ?_)
    simp

/-- C110 fails for motions that are oblique to the axes: the tool may move further than the limit. -/
theorem C110_violated_oblique (t : Tool n) (L : ℝ) (hL : 0 < L) (x : Fin (n + n) → ℝ)
    (hx : ∀ a, t.pos (bottom x) a - t.pos (top x) a = L) :
    (∀ i, velErr t L x i ≤ 0) ∧ L ^ 2 < ∑ a, (t.pos (bottom x) a - t.pos (top x) a) ^ 2 := by
  refine ⟨(C110_satisfied t L x).2 fun a => by rw [hx, abs_of_pos hL], ?_⟩
  simp only [hx, Finset.sum_const, Finset.card_univ, Fintype.card_fin]
  have := pow_pos hL 2
  simp
  linarith

/-- Specification: the matrix is the Jacobian of the position of the tool. -/
def IsJacobian (t : Tool n) (jac : (Fin n → ℝ) → Fin 3 → Fin n → ℝ) : Prop :=
  ∀ (q d : Fin n → ℝ) (a : Fin 3), HasDerivAt (fun s : ℝ => t.pos (fun j => q j + s * d j) a) (∑ j, jac q a j * d j) 0

/-- C110: the Jacobian is the derivative of the rows in every direction of the variables of the two states, provided the group's
Jacobian of the link (of the point of the link, with a tool) is that of the tool's position. -/
theorem C110_derivative (t : Tool n) (L : ℝ) (h0 : t.tcpZero = true → IsJacobian t t.jacLink)
    (h1 : t.tcpZero = false → IsJacobian t t.jacPoint) (x y : Fin (n + n) → ℝ) (i : Fin 6) :
    HasDerivAt (fun s : ℝ => velErr t L (fun j => x j + s * y j) i) (∑ j, velJac t x i j * y j) 0 := by
  have hJ : IsJacobian t (if t.tcpZero then t.jacLink else t.jacPoint) := by
    cases h : t.tcpZero
    · simpa [h] using h1 h
    · simpa [h] using h0 h
  have ht : ∀ a, HasDerivAt (fun s : ℝ => t.pos (top fun j => x j + s * y j) a)
      (∑ j, (if t.tcpZero then t.jacLink else t.jacPoint) (top x) a j * y (Fin.castAdd n j)) 0 :=
    fun a => hJ (top x) (fun j => y (Fin.castAdd n j)) a
  have hb : ∀ a, HasDerivAt (fun s : ℝ => t.pos (bottom fun j => x j + s * y j) a)
      (∑ j, (if t.tcpZero then t.jacLink else t.jacPoint) (bottom x) a j * y (Fin.natAdd n j)) 0 :=
    fun a => hJ (bottom x) (fun j => y (Fin.natAdd n j)) a
  revert i
  rw [forall_six]
  intro a
  constructor
  · have h := ((hb a).sub (ht a)).sub_const L
    simp only [velErr_top]
    refine HasDerivAt.congr_deriv h ?_
    rw [Fin.sum_univ_add]
    simp only [velJac, Fin.addCases_left, Fin.addCases_right, neg_mul, Finset.sum_neg_distrib]
    ring
  · have h := ((ht a).sub (hb a)).sub_const L
    simp only [velErr_bottom]
    have e : (fun s : ℝ => -moved t (top fun j => x j + s * y j) (bottom fun j => x j + s * y j) a - L) =
        fun s : ℝ => t.pos (top fun j => x j + s * y j) a - t.pos (bottom fun j => x j + s * y j) a - L := by
      funext s
      simp [moved]
    rw [e]
    refine HasDerivAt.congr_deriv h ?_
    rw [Fin.sum_univ_add]
    simp only [velJac, Fin.addCases_left, Fin.addCases_right, neg_mul, Finset.sum_neg_distrib]
    ring

/-- The values of a state in the problem's vector. -/
def stateAt (f : Nat → Nat → Nat) (n : Nat) (x : Nat → ℝ) (i : Int) : Fin n → ℝ := fun j => x (f i.toNat j.val)

theorem rblock_ok {vars : BArr Nat} {N M : Nat} {f : Nat → Nat → Nat} (h : Holds vars N M f) (hn : n ≤ M) {i : Int} (h0 : 0 ≤ i)
    (hi : i < N) : vars.rblock i 0 n = some ((List.range n).map (f i.toNat)) := by
  have := (C50_lines vars N M f h).1 i.toNat 0 n (by omega) (by omega)
  simp only [Nat.cast_zero, Nat.zero_add, Int.toNat_of_nonneg h0] at this
  exact this

theorem rblock_none {vars : BArr Nat} {N M : Nat} {f : Nat → Nat → Nat} (h : Holds vars N M f) (hn : n ≤ M) (hn0 : 0 < n)
    {i : Int} (hi : (N : Int) ≤ i) (hmax : i < 2 ^ 31) : vars.rblock i 0 n = none := by
  unfold BArr.rblock
  apply JointConstraints.mapM_none _ _ 0 (List.mem_range.2 hn0)
  obtain ⟨e1, e2, hw, -⟩ := h
  have := C50_row_reported_partial vars hw i 0 (by omega) (Or.inr (by omega)) ⟨by omega, hmax⟩
  simpa using this

theorem range_get (g : Nat → Nat) (j : Fin n) : ((List.range n).map g).getD j.val 0 = g j.val := by
  rw [List.getD_eq_getElem?_getD, List.getElem?_map, List.getElem?_range j.isLt]
  rfl

theorem pairVars_ok {vars : BArr Nat} {N M : Nat} {f : Nat → Nat → Nat} (h : Holds vars N M f) (hn : n ≤ M) {i : Int} (h0 : 0 ≤ i)
    (hi : i + 1 < N) : ∃ vs, pairVars vars n i = some vs ∧ ∀ x : Nat → ℝ,
      top (getVec x vs) = stateAt f n x i ∧ bottom (getVec x vs) = stateAt f n x (i + 1) := by
  unfold pairVars
  rw [rblock_ok h hn h0 (by omega), rblock_ok h hn (i := i + 1) (by omega) hi]
  refine ⟨_, rfl, fun x => ⟨?_, ?_⟩⟩
  · funext j
    simp only [top, getVec, Fin.addCases_left, range_get, stateAt]
  · funext j
    simp only [bottom, getVec, Fin.addCases_right, range_get, stateAt]

theorem mem_stepList (a b i : Int) : i ∈ stepList a b ↔ a ≤ i ∧ i ≤ b := by
  simp only [stepList, List.mem_map, List.mem_range]
  constructor
  · rintro ⟨k, hk, rfl⟩
    omega
  · rintro ⟨h1, h2⟩
    exact ⟨(i - a).toNat, by omega, by omega⟩

theorem mapM_some_mem {α β : Type*} (g : α → Option β) (P : α → β → Prop) : ∀ l : List α, (∀ a ∈ l, ∃ b, g a = some b ∧ P a b) →
    ∃ r, l.mapM g = some r ∧ List.Forall₂ P l r := by
  intro l
  induction l with
  | nil => exact fun _ => ⟨[], rfl, .nil⟩
  | cons a l ih =>
    intro h
    obtain ⟨b, h1, h2⟩ := h a (by simp)
    obtain ⟨r, h3, h4⟩ := ih fun a ha => h a (by simp [ha])
    exact ⟨b :: r, by rw [List.mapM_cons, h1, h3]; rfl, .cons h2 h4⟩

/-- Specification: a constraint is satisfied when its violation is zero; a cost adds no condition. -/
def Added.satisfied (x : Nat → ℝ) : Added n m → Prop
  | .cost _ => True
  | .cnt f => f.cntViolation false x = 0

/-- Specification: the value a term adds to the objective. -/
noncomputable def Added.value (x : Nat → ℝ) : Added n m → ℝ
  | .cost f => f.costValue .abs x
  | .cnt _ => 0

/-- Specification: the flags of a constraint, and of a cost, without time. -/
def asCnt : TermType := ⟨false, true, false⟩
def asCost : TermType := ⟨true, false, false⟩

theorem violation_zero (f : ErrFunc ℝ n m) (hc : f.coeffs = none) (x : Nat → ℝ) :
    f.cntViolation false x = 0 ↔ ∀ i, f.f (getVec x f.vars) i ≤ 0 := by
  rw [cntViolation_eq, Finset.sum_eq_zero_iff_of_nonneg fun i _ => by simp]
  simp [ErrFunc.weight, hc]

theorem forall₂_all {α β : Type*} {R : α → β → Prop} {P : α → Prop} {Q : β → Prop} (h : ∀ a b, R a b → (P a ↔ Q b)) :
    ∀ {l : List α} {r : List β}, List.Forall₂ R l r → ((∀ a ∈ l, P a) ↔ ∀ b ∈ r, Q b) := by
  intro l r hf
  induction hf with
  | nil => simp
  | cons h1 _ ih => simp only [List.forall_mem_cons, h _ _ h1, ih]

/-- C110: the term info accepted from a file, whose range leaves a state after its last step, adds constraints that together say:
between every step of the range and the next the tool moves by at most the limit along every axis. -/
theorem C110_constraints_partial [DecidableEq Name] (c : CartVel) (active : List Name) (link : Name) (t : Tool n) (vars : BArr Nat)
    (N M : Nat) (f : Nat → Nat → Nat) (h : Holds vars N M f) (hn : n ≤ M) (hacc : c.accepted N active link = true)
    (hlast : c.last + 1 < N) :
    ∃ l, c.hatch asCnt t vars = some l ∧ ∀ x : Nat → ℝ, (∀ a ∈ l, a.satisfied x) ↔
      ∀ i, c.first ≤ i → i ≤ c.last → ∀ a, |t.pos (stateAt f n x (i + 1)) a - t.pos (stateAt f n x i) a| ≤ c.limit := by
  simp only [CartVel.accepted, Bool.and_eq_true, decide_eq_true_eq] at hacc
  obtain ⟨⟨⟨⟨⟨a1, a2⟩, a3⟩, a4⟩, a5⟩, -⟩ := hacc
  obtain ⟨l, h1, h2⟩ := mapM_some_mem (fun i => match pairVars vars n i with
      | none => none
      | some vs => some (Added.cnt ⟨velErr t c.limit, some (velJac t), vs, none⟩))
    (fun i (b : Added (n + n) 6) => ∀ x : Nat → ℝ, b.satisfied x ↔
      ∀ a, |t.pos (stateAt f n x (i + 1)) a - t.pos (stateAt f n x i) a| ≤ c.limit) (stepList c.first c.last) (by
    intro i hi
    rw [mem_stepList] at hi
    obtain ⟨vs, g1, g2⟩ := pairVars_ok h hn (i := i) (by omega) (by omega)
    rw [g1]
    refine ⟨_, rfl, fun x => ?_⟩
    simp only [Added.satisfied]
    rw [violation_zero _ rfl, C110_satisfied]
    simp only [(g2 x).1, (g2 x).2])
  refine ⟨l, ?_, fun x => ?_⟩
  · unfold CartVel.hatch
    simp only [asCnt, TermType.mk.injEq, Bool.false_eq_true, Bool.true_eq_false, and_false, false_and, if_false, Bool.false_and,
      Bool.not_false, Bool.and_self, if_true, and_true]
    exact h1
  · rw [← forall₂_all (P := fun i => ∀ a, |t.pos (stateAt f n x (i + 1)) a - t.pos (stateAt f n x i) a| ≤ c.limit)
      (fun i b hb => (hb x).symm) h2]
    simp only [mem_stepList, and_imp]

theorem six_sum (g : Fin 6 → ℝ) : ∑ i, g i = ∑ a : Fin 3, (g (Fin.castAdd 3 a) + g (Fin.natAdd 3 a)) := by
  rw [Finset.sum_add_distrib]
  exact Fin.sum_univ_add (a := 3) (b := 3) g

theorem abs_pair (d L : ℝ) (hL : 0 ≤ L) : |d - L| + |-d - L| = 2 * L + 2 * max 0 (|d| - L) := by
  rw [show -d - L = -(d + L) by ring, abs_neg]
  rcases le_total 0 d with h | h
  · rw [abs_of_nonneg h, abs_of_nonneg (show 0 ≤ d + L by linarith)]
    rcases le_total L d with h2 | h2
    · rw [abs_of_nonneg (by linarith), max_eq_right (by linarith)]; ring
    · rw [abs_of_nonpos (by linarith), max_eq_left (by linarith)]; ring
  · rw [abs_of_nonpos h, abs_of_nonpos (show d - L ≤ 0 by linarith)]
    rcases le_total L (-d) with h2 | h2
    · rw [abs_of_nonpos (by linarith), max_eq_right (by linarith)]; ring
    · rw [abs_of_nonneg (by linarith), max_eq_left (by linarith)]; ring

/-- C110: the costs add up to a constant plus twice the excess over the limit of every axis and step of the range. -/
theorem C110_costs_partial [DecidableEq Name] (c : CartVel) (active : List Name) (link : Name) (t : Tool n) (vars : BArr Nat)
    (N M : Nat) (f : Nat → Nat → Nat) (h : Holds vars N M f) (hn : n ≤ M) (hacc : c.accepted N active link = true)
    (hlast : c.last + 1 < N) (hL : 0 ≤ c.limit) :
    ∃ l, c.hatch asCost t vars = some l ∧ ∀ x : Nat → ℝ, (l.map fun a => a.value x).sum =
      ((stepList c.first c.last).map fun i => 6 * c.limit +
        2 * ∑ a, max 0 (|t.pos (stateAt f n x (i + 1)) a - t.pos (stateAt f n x i) a| - c.limit)).sum := by
  simp only [CartVel.accepted, Bool.and_eq_true, decide_eq_true_eq] at hacc
  obtain ⟨⟨⟨⟨⟨a1, a2⟩, a3⟩, a4⟩, a5⟩, -⟩ := hacc
  obtain ⟨l, h1, h2⟩ := mapM_some_mem (fun i => match pairVars vars n i with
      | none => none
      | some vs => some (Added.cost ⟨velErr t c.limit, some (velJac t), vs, none⟩))
    (fun i (b : Added (n + n) 6) => ∀ x : Nat → ℝ, b.value x = 6 * c.limit +
        2 * ∑ a, max 0 (|t.pos (stateAt f n x (i + 1)) a - t.pos (stateAt f n x i) a| - c.limit)) (stepList c.first c.last) (by
    intro i hi
    rw [mem_stepList] at hi
    obtain ⟨vs, g1, g2⟩ := pairVars_ok h hn (i := i) (by omega) (by omega)
    rw [g1]
    refine ⟨_, rfl, fun x => ?_⟩
    simp only [Added.value]
    rw [costValue_eq, six_sum]
    simp only [ErrFunc.weight, Sco.penSpec, one_mul, velErr_top, velErr_bottom, moved, (g2 x).1, (g2 x).2, abs_pair _ _ hL,
      Finset.sum_add_distrib, Finset.sum_const, Finset.card_univ, Fintype.card_fin, Finset.mul_sum, nsmul_eq_mul]
    push_cast
    ring)
  refine ⟨l, ?_, fun x => ?_⟩
  · unfold CartVel.hatch
    simp only [asCost, TermType.mk.injEq, Bool.false_eq_true, Bool.true_eq_false, and_false, false_and, if_false,
      Bool.not_false, Bool.and_self, if_true, and_true]
    exact h1
  · clear h1
    generalize stepList c.first c.last = steps at h2 ⊢
    induction h2 with
    | nil => rfl
    | cons hb _ ih => simp only [List.map_cons, List.sum_cons, hb x, ih]

/-- Specification: the error function of a term with its Jacobian. -/
def Added.func : Added n m → ErrFunc ℝ n m
  | .cost f => f
  | .cnt f => f

theorem mapM_mem {α β : Type*} (g : α → Option β) : ∀ (l : List α) (r : List β), l.mapM g = some r → ∀ b ∈ r, ∃ a ∈ l, g a = some b := by
  intro l
  induction l with
  | nil =>
    intro r h b hb
    rw [List.mapM_nil] at h
    injection h with h
    rw [← h] at hb
    simp at hb
  | cons a l ih =>
    intro r h b hb
    rw [List.mapM_cons] at h
    cases h1 : g a with
    | none => rw [h1] at h; simp at h
    | some c =>
      cases h2 : l.mapM g with
      | none => rw [h1, h2] at h; simp at h
      | some r' =>
        rw [h1, h2] at h
        injection h with h
        rw [← h] at hb
        rcases List.mem_cons.1 hb with hb | hb
        · exact ⟨a, by simp, by rw [h1, hb]⟩
        · obtain ⟨a', ha', e⟩ := ih r' h2 b hb
          exact ⟨a', by simp [ha'], e⟩

/-- C110: every term added, cost or constraint, is linearised with the derivative of its error. -/
theorem C110_linearised (c : CartVel) (tt : TermType) (t : Tool n) (vars : BArr Nat) (h0 : t.tcpZero = true → IsJacobian t t.jacLink)
    (h1 : t.tcpZero = false → IsJacobian t t.jacPoint) (l : List (Added (n + n) 6)) (hl : c.hatch tt t vars = some l) :
    ∀ b ∈ l, ∃ d, b.func.dfdx = some d ∧ ∀ (x y : Fin (n + n) → ℝ) (i : Fin 6),
      HasDerivAt (fun s : ℝ => b.func.f (fun j => x j + s * y j) i) (∑ j, d x i j * y j) 0 := by
  intro b hb
  have key : b.func.f = velErr t c.limit ∧ b.func.dfdx = some (velJac t) := by
    unfold CartVel.hatch at hl
    split at hl
    · injection hl with hl
      rw [← hl] at hb
      simp at hb
    · split at hl
      · injection hl with hl
        rw [← hl] at hb
        simp at hb
      · split at hl
        · obtain ⟨i, -, e⟩ := mapM_mem _ _ _ hl b hb
          split at e
          · simp at e
          · injection e with e
            rw [← e]
            exact ⟨rfl, rfl⟩
        · split at hl
          · obtain ⟨i, -, e⟩ := mapM_mem _ _ _ hl b hb
            split at e
            · simp at e
            · injection e with e
              rw [← e]
              exact ⟨rfl, rfl⟩
          · injection hl with hl
            rw [← hl] at hb
            simp at hb
  refine ⟨_, key.2, fun x y i => ?_⟩
  rw [key.1]
  exact C110_derivative t c.limit h0 h1 x y i

/-- C110 fails for a range that ends with the last state, which is accepted: the problem cannot be built. -/
theorem C110_violated_last [DecidableEq Name] (c : CartVel) (active : List Name) (link : Name) (t : Tool n) (vars : BArr Nat)
    (N M : Nat) (f : Nat → Nat → Nat) (h : Holds vars N M f) (hn : n ≤ M) (hn0 : 0 < n) (hmax : N < 2 ^ 31)
    (hlast : c.last + 1 = N) (h0 : 0 ≤ c.first) (hle : c.first < c.last) (hl : link ∈ active) :
    c.accepted N active link = true ∧ c.hatch asCnt t vars = none ∧ c.hatch asCost t vars = none := by
  have hp : pairVars vars n c.last = none := by
    unfold pairVars
    rw [rblock_none (i := c.last + 1) h hn hn0 (by omega) (by omega)]
    split <;> rfl
  have hm : c.last ∈ stepList c.first c.last := (mem_stepList _ _ _).2 ⟨by omega, le_rfl⟩
  refine ⟨?_, ?_, ?_⟩
  · simp only [CartVel.accepted, Bool.and_eq_true, decide_eq_true_eq]
    exact ⟨⟨⟨⟨⟨h0, by omega⟩, hle⟩, by omega⟩, by omega⟩, hl⟩
  · unfold CartVel.hatch
    simp only [asCnt, TermType.mk.injEq, Bool.false_eq_true, Bool.true_eq_false, and_false, false_and, if_false, Bool.false_and,
      Bool.not_false, Bool.and_self, if_true, and_true]
    exact JointConstraints.mapM_none _ _ _ hm (by rw [hp])
  · unfold CartVel.hatch
    simp only [asCost, TermType.mk.injEq, Bool.false_eq_true, Bool.true_eq_false, and_false, false_and, if_false,
      Bool.not_false, Bool.and_self, if_true, and_true]
    exact JointConstraints.mapM_none _ _ _ hm (by rw [hp])

/-- C110 fails for terms with time: nothing is added to the problem, and building it goes on. -/
theorem C110_violated_time (c : CartVel) (t : Tool n) (vars : BArr Nat) (tt : TermType) (ht : tt.useTime = true) :
    c.hatch tt t vars = some [] := by
  unfold CartVel.hatch
  obtain ⟨a, b, d⟩ := tt
  simp only at ht
  subst ht
  cases a <;> cases b <;> simp

/-! ### C111 -/

/-- Specification: unit vectors with a common singular value. -/
structure Singular (J : Fin m → Fin n → ℝ) (u : Fin m → ℝ) (s : ℝ) (v : Fin n → ℝ) : Prop where
  right : ∀ r, ∑ c, J r c * v c = s * u r
  left : ∀ c, ∑ r, J r c * u r = s * v c
  unitU : ∑ r, u r ^ 2 = 1
  unitV : ∑ c, v c ^ 2 = 1
  nonneg : 0 ≤ s

/-- Specification: the decomposition returns a singular value, with its vectors, that is not larger than any other. -/
def Decomposes (a : Arm m n) : Prop :=
  ∀ J, Singular J (a.svd J).u (a.svd J).s (a.svd J).v ∧ ∀ u s v, Singular J u s v → (a.svd J).s ≤ s

/-- C111: with positive damping, the error is not positive exactly when no singular value of the Jacobian is below 0.1. -/
theorem C111_satisfied (a : Arm m n) (hd : Decomposes a) (lambda : ℝ) (hl : 0 < lambda) (q : Fin n → ℝ) :
    singErr a lambda q ≤ 0 ↔ ∀ u s v, Singular (a.jac q) u s v → 1 / 10 ≤ s := by
  obtain ⟨h1, h2⟩ := hd (a.jac q)
  have hs : 0 < (a.svd (a.jac q)).s + lambda := by linarith [h1.nonneg]
  unfold singErr
  rw [sub_nonpos, one_div_le_one_div hs (by linarith), add_le_add_iff_right]
  exact ⟨fun h u s v hsv => h.trans (h2 u s v hsv), fun h => h _ _ _ h1⟩

/-- C111: the error decreases strictly with the smallest singular value. -/
theorem C111_decreasing (a : Arm m n) (hd : Decomposes a) (lambda : ℝ) (hl : 0 < lambda) (q q' : Fin n → ℝ) :
    singErr a lambda q' < singErr a lambda q ↔ (a.svd (a.jac q)).s < (a.svd (a.jac q')).s := by
  have hs := fun q => (hd (a.jac q)).1.nonneg
  unfold singErr
  rw [sub_lt_sub_iff_right, one_div_lt_one_div (by linarith [hs q']) (by linarith [hs q]), add_lt_add_iff_right]

theorem dot_sum (a b : Fin n → ℝ) : Sco.dot a b = ∑ i, a i * b i := by
  unfold Sco.dot
  rw [← List.sum_ofFn, List.ofFn_eq_map]

theorem perturb_zero (q : Fin n → ℝ) (j : Fin n) : Cartesian.perturb q j 0 = q := by
  funext k
  simp [Cartesian.perturb]

/-- C111: let the Jacobian be differentiable in joint `j` and let its decomposition be differentiable there.  Then the error is
differentiable, and the entry for joint `j` tends to its derivative as the step tends to zero. -/
theorem C111_derivative (a : Arm m n) (hd : Decomposes a) (lambda : ℝ) (hl : 0 < lambda) (q : Fin n → ℝ) (j : Fin n)
    (J' : Fin m → Fin n → ℝ) (hJ : ∀ r c, HasDerivAt (fun t : ℝ => a.jac (Function.update q j (q j + t)) r c) (J' r c) 0)
    (u' : Fin m → ℝ) (s' : ℝ) (v' : Fin n → ℝ)
    (hu : ∀ r, HasDerivAt (fun t : ℝ => (a.svd (a.jac (Function.update q j (q j + t)))).u r) (u' r) 0)
    (hs : HasDerivAt (fun t : ℝ => (a.svd (a.jac (Function.update q j (q j + t)))).s) s' 0)
    (hv : ∀ c, HasDerivAt (fun t : ℝ => (a.svd (a.jac (Function.update q j (q j + t)))).v c) (v' c) 0) :
    ∃ D, HasDerivAt (fun t : ℝ => singErr a lambda (Function.update q j (q j + t))) D 0 ∧
      Tendsto (fun eps => singJac a lambda eps q j) (𝓝[≠] 0) (𝓝 D) := by
  have e0 : Function.update q j (q j + 0) = q := by simp
  have ep : ∀ t, Cartesian.perturb q j t = Function.update q j (q j + t) := by
    intro t
    funext k
    by_cases h : k = j
    · subst h; simp [Cartesian.perturb]
    · simp [Cartesian.perturb, h]
  obtain ⟨h1, -⟩ := hd (a.jac q)
  have hpos : 0 < (a.svd (a.jac q)).s + lambda := by linarith [h1.nonneg]
  -- the vectors stay of length one
  have hu0 : ∑ r, (a.svd (a.jac q)).u r * u' r = 0 := by
    have hc : HasDerivAt (fun t : ℝ => ∑ r, (a.svd (a.jac (Function.update q j (q j + t)))).u r ^ 2)
        (∑ r, 2 * ((a.svd (a.jac q)).u r * u' r)) 0 := by
      refine HasDerivAt.fun_sum fun r _ => ?_
      refine ((hu r).fun_pow 2).congr_deriv ?_
      simp only [add_zero, Function.update_eq_self]
      push_cast
      ring
    have hk : (fun t : ℝ => ∑ r, (a.svd (a.jac (Function.update q j (q j + t)))).u r ^ 2) = fun _ => 1 :=
      funext fun t => (hd _).1.unitU
    rw [hk] at hc
    have := hc.unique (hasDerivAt_const (0 : ℝ) (1 : ℝ))
    rw [← Finset.mul_sum] at this
    linarith
  have hv0 : ∑ c, (a.svd (a.jac q)).v c * v' c = 0 := by
    have hc : HasDerivAt (fun t : ℝ => ∑ r, (a.svd (a.jac (Function.update q j (q j + t)))).v r ^ 2)
        (∑ r, 2 * ((a.svd (a.jac q)).v r * v' r)) 0 := by
      refine HasDerivAt.fun_sum fun r _ => ?_
      refine ((hv r).fun_pow 2).congr_deriv ?_
      simp only [add_zero, Function.update_eq_self]
      push_cast
      ring
    have hk : (fun t : ℝ => ∑ r, (a.svd (a.jac (Function.update q j (q j + t)))).v r ^ 2) = fun _ => 1 :=
      funext fun t => (hd _).1.unitV
    rw [hk] at hc
    have := hc.unique (hasDerivAt_const (0 : ℝ) (1 : ℝ))
    rw [← Finset.mul_sum] at this
    linarith
  -- the singular value is the bilinear form of its vectors
  have hform : ∀ q', (a.svd (a.jac q')).s = ∑ r, (a.svd (a.jac q')).u r * ∑ c, a.jac q' r c * (a.svd (a.jac q')).v c := by
    intro q'
    obtain ⟨g, -⟩ := hd (a.jac q')
    simp only [g.right]
    have : ∑ r, (a.svd (a.jac q')).u r * ((a.svd (a.jac q')).s * (a.svd (a.jac q')).u r) =
        (a.svd (a.jac q')).s * ∑ r, (a.svd (a.jac q')).u r ^ 2 := by
      rw [Finset.mul_sum]
      exact Finset.sum_congr rfl fun r _ => by ring
    rw [this, g.unitU, mul_one]
  have hs' : s' = ∑ r, (a.svd (a.jac q)).u r * ∑ c, J' r c * (a.svd (a.jac q)).v c := by
    have hc : HasDerivAt (fun t : ℝ => (a.svd (a.jac (Function.update q j (q j + t)))).s)
        (∑ r, (u' r * (∑ c, a.jac q r c * (a.svd (a.jac q)).v c) +
          (a.svd (a.jac q)).u r * ∑ c, (J' r c * (a.svd (a.jac q)).v c + a.jac q r c * v' c))) 0 := by
      have : (fun t : ℝ => (a.svd (a.jac (Function.update q j (q j + t)))).s) = fun t : ℝ =>
          ∑ r, (a.svd (a.jac (Function.update q j (q j + t)))).u r *
            ∑ c, a.jac (Function.update q j (q j + t)) r c * (a.svd (a.jac (Function.update q j (q j + t)))).v c :=
        funext fun t => hform _
      rw [this]
      refine HasDerivAt.fun_sum fun r _ => ?_
      have hin := HasDerivAt.fun_sum (u := Finset.univ) fun c _ => (hJ r c).fun_mul (hv c)
      refine ((hu r).fun_mul hin).congr_deriv ?_
      simp only [add_zero, Function.update_eq_self]
    rw [hs.unique hc]
    simp only [h1.right, Finset.sum_add_distrib, mul_add]
    have z1 : ∑ r, u' r * ((a.svd (a.jac q)).s * (a.svd (a.jac q)).u r) = 0 := by
      have : ∑ r, u' r * ((a.svd (a.jac q)).s * (a.svd (a.jac q)).u r) =
          (a.svd (a.jac q)).s * ∑ r, (a.svd (a.jac q)).u r * u' r := by
        rw [Finset.mul_sum]
        exact Finset.sum_congr rfl fun r _ => by ring
      rw [this, hu0, mul_zero]
    have z2 : ∑ r, (a.svd (a.jac q)).u r * ∑ c, a.jac q r c * v' c = 0 := by
      have : ∑ r, (a.svd (a.jac q)).u r * ∑ c, a.jac q r c * v' c =
          ∑ c, v' c * ∑ r, a.jac q r c * (a.svd (a.jac q)).u r := by
        simp only [Finset.mul_sum]
        rw [Finset.sum_comm]
        exact Finset.sum_congr rfl fun c _ => Finset.sum_congr rfl fun r _ => by ring
      rw [this]
      simp only [h1.left]
      have : ∑ c, v' c * ((a.svd (a.jac q)).s * (a.svd (a.jac q)).v c) =
          (a.svd (a.jac q)).s * ∑ c, (a.svd (a.jac q)).v c * v' c := by
        rw [Finset.mul_sum]
        exact Finset.sum_congr rfl fun r _ => by ring
      rw [this, hv0, mul_zero]
    rw [z1, z2]
    ring
  refine ⟨-s' / ((a.svd (a.jac q)).s + lambda) ^ 2, ?_, ?_⟩
  · have h := (hs.add_const lambda).fun_inv (by simpa using hpos.ne')
    have h2 := h.sub_const (1 / (1 / 10 + lambda))
    unfold singErr
    simp only [one_div] at h2 ⊢
    refine h2.congr_deriv ?_
    simp
  · unfold singJac
    simp only [dot_sum]
    have hlim : Tendsto (fun eps => ∑ r, (a.svd (a.jac q)).u r * ∑ c, jacDiff a eps q j r c * (a.svd (a.jac q)).v c) (𝓝[≠] 0)
        (𝓝 (∑ r, (a.svd (a.jac q)).u r * ∑ c, J' r c * (a.svd (a.jac q)).v c)) := by
      refine tendsto_finset_sum _ fun r _ => Tendsto.const_mul _ (tendsto_finset_sum _ fun c _ => Tendsto.mul_const _ ?_)
      have := (hJ r c).tendsto_slope_zero
      simp only [zero_add, add_zero, Function.update_eq_self, smul_eq_mul] at this
      refine this.congr fun eps => ?_
      rw [jacDiff, ep]
      ring
    have := hlim.mul_const (-1 / ((a.svd (a.jac q)).s + lambda) ^ 2)
    rw [← hs'] at this
    rwa [show -s' / ((a.svd (a.jac q)).s + lambda) ^ 2 = s' * (-1 / ((a.svd (a.jac q)).s + lambda) ^ 2) by ring]

theorem sing_mapM (f : (Fin n → ℝ) → ℝ) (df : (Fin n → ℝ) → Fin n → ℝ) (coeff : Option ℝ) (vars : BArr Nat)
    (N M : Nat) (g : Nat → Nat → Nat) (h : Holds vars N M g) (hn : n ≤ M) (mk : ErrFunc ℝ n 1 → Added n 1) (first last : Int)
    (h0 : 0 ≤ first) (hl : last < N) :
    ∃ l, (stepList first last).mapM (fun i => match vars.rblock i 0 n with
        | none => none
        | some vs => some (mk ⟨fun x _ => f x, some fun x _ => df x, fun j => vs.getD j.val 0, coeff.map fun c _ => c⟩)) = some l ∧
      List.Forall₂ (fun i b => b = mk ⟨fun x _ => f x, some fun x _ => df x, fun j => g i.toNat j.val, coeff.map fun c _ => c⟩)
        (stepList first last) l := by
  apply mapM_some_mem
  intro i hi
  rw [mem_stepList] at hi
  rw [rblock_ok h hn (by omega) (by omega)]
  refine ⟨_, rfl, ?_⟩
  simp only [range_get]

/-- C111: as a constraint with a positive coefficient (or none), the term asks for every step of the range that the error is not
positive; with C111_satisfied: that no singular value of the Jacobian is below 0.1. -/
theorem C111_constraints (a : Arm m n) (lambda eps : ℝ) (coeff : Option ℝ) (hc : ∀ c, coeff = some c → 0 < c) (vars : BArr Nat)
    (N M : Nat) (g : Nat → Nat → Nat) (h : Holds vars N M g) (hn : n ≤ M) (first last : Int) (h0 : 0 ≤ first) (hl : last < N) :
    ∃ l, singHatch (singErr a lambda) (singJac a lambda eps) coeff first last asCnt vars = some l ∧
      ∀ x : Nat → ℝ, (∀ b ∈ l, b.satisfied x) ↔ ∀ i, first ≤ i → i ≤ last → singErr a lambda (stateAt g n x i) ≤ 0 := by
  obtain ⟨l, h1, h2⟩ := sing_mapM (singErr a lambda) (singJac a lambda eps) coeff vars N M g h hn .cnt first last h0 hl
  refine ⟨l, by simp only [singHatch, asCnt, Bool.false_eq_true, if_false, if_true]; exact h1, fun x => ?_⟩
  rw [← forall₂_all (P := fun i => singErr a lambda (stateAt g n x i) ≤ 0) ?_ h2]
  · simp only [mem_stepList, and_imp]
  · rintro i b rfl
    simp only [Added.satisfied]
    rw [cntViolation_eq]
    simp only [Finset.univ_unique, Finset.sum_singleton, Bool.false_eq_true, if_false, max_eq_left_iff]
    rw [show getVec x (fun j => g i.toNat j.val) = stateAt g n x i from rfl]
    cases hcc : coeff with
    | none => simp [ErrFunc.weight]
    | some c =>
      have := hc c hcc
      simp only [ErrFunc.weight, Option.map_some]
      constructor
      · exact fun h => mul_nonpos_of_nonneg_of_nonpos this.le h
      · intro h
        by_contra h'
        exact absurd h (not_le.2 (mul_pos this (not_le.1 h')))

/-- C111: the costs add up to the coefficient times the size of the error, over the steps of the range. -/
theorem C111_costs (a : Arm m n) (lambda eps : ℝ) (coeff : Option ℝ) (vars : BArr Nat)
    (N M : Nat) (g : Nat → Nat → Nat) (h : Holds vars N M g) (hn : n ≤ M) (first last : Int) (h0 : 0 ≤ first) (hl : last < N) :
    ∃ l, singHatch (singErr a lambda) (singJac a lambda eps) coeff first last asCost vars = some l ∧
      ∀ x : Nat → ℝ, (l.map fun b => b.value x).sum =
        ((stepList first last).map fun i => coeff.getD 1 * |singErr a lambda (stateAt g n x i)|).sum := by
  obtain ⟨l, h1, h2⟩ := sing_mapM (singErr a lambda) (singJac a lambda eps) coeff vars N M g h hn .cost first last h0 hl
  refine ⟨l, by simp only [singHatch, asCost, if_true]; exact h1, fun x => ?_⟩
  clear h1
  generalize stepList first last = steps at h2 ⊢
  induction h2 with
  | nil => rfl
  | cons hb _ ih =>
    rename_i i b _ _ _
    subst hb
    simp only [List.map_cons, List.sum_cons, ih]
    congr 1
    simp only [Added.value]
    rw [costValue_eq]
    simp only [Finset.univ_unique, Finset.sum_singleton, Sco.penSpec]
    rw [show getVec x (fun j => g i.toNat j.val) = stateAt g n x i from rfl]
    cases coeff <;> simp [ErrFunc.weight]

/-- C111: every term added, cost or constraint, is linearised with the gradient of C111_derivative. -/
theorem C111_linearised (a : Arm m n) (lambda eps : ℝ) (coeff : Option ℝ) (vars : BArr Nat) (first last : Int) (tt : TermType)
    (l : List (Added n 1)) (hl : singHatch (singErr a lambda) (singJac a lambda eps) coeff first last tt vars = some l) :
    ∀ b ∈ l, ∃ d, b.func.dfdx = some d ∧ ∀ x, b.func.f x 0 = singErr a lambda x ∧ d x 0 = singJac a lambda eps x := by
  intro b hb
  unfold singHatch at hl
  split at hl
  · obtain ⟨i, -, e⟩ := mapM_mem _ _ _ hl b hb
    split at e
    · simp at e
    · injection e with e
      rw [← e]
      exact ⟨_, rfl, fun x => ⟨rfl, rfl⟩⟩
  · split at hl
    · obtain ⟨i, -, e⟩ := mapM_mem _ _ _ hl b hb
      split at e
      · simp at e
      · injection e with e
        rw [← e]
        exact ⟨_, rfl, fun x => ⟨rfl, rfl⟩⟩
    · have : ∀ (steps : List Int) (l0 l : List (Added n 1)), steps.foldlM (fun l i => match vars.rblock i 0 n with
          | none => none | some _ => some l) l0 = some l → l = l0 := by
        intro steps
        induction steps with
        | nil =>
          intro l0 l h
          rw [List.foldlM_nil] at h
          injection h with h
          exact h.symm
        | cons i steps ih =>
          intro l0 l h
          rw [List.foldlM_cons] at h
          cases hr : vars.rblock i 0 n with
          | none => rw [hr] at h; simp at h
          | some v => rw [hr] at h; exact ih l0 l h
      rw [this _ _ _ hl] at hb
      simp at hb

/-- C111 fails for costs: among states without a singular value below 0.1, the one further from a singularity costs more. -/
theorem C111_violated_cost (a : Arm m n) (hd : Decomposes a) (lambda c : ℝ) (hl : 0 < lambda) (hc : 0 < c) (q q' : Fin n → ℝ)
    (h1 : 1 / 10 ≤ (a.svd (a.jac q)).s) (h2 : (a.svd (a.jac q)).s < (a.svd (a.jac q')).s) :
    c * |singErr a lambda q| < c * |singErr a lambda q'| := by
  have d := (C111_decreasing a hd lambda hl q q').2 h2
  have n1 : singErr a lambda q ≤ 0 := (C111_satisfied a hd lambda hl q).2 fun u s v hs => h1.trans ((hd _).2 u s v hs)
  apply mul_lt_mul_of_pos_left _ hc
  rw [abs_of_nonpos n1, abs_of_nonpos (by linarith)]
  linarith

section
variable [DecidableEq Name]

/-- Specification: the values of the joints of the subset. -/
noncomputable def restrict (sup sub : List Name) (x : Fin n → ℝ) : List ℝ := sub.map fun s => (List.ofFn x).getD (sup.idxOf s) 0

theorem getSubset_eq (sup sub : List Name) (x : Fin n → ℝ) (hl : sup.length = n) (hs : ∀ s ∈ sub, s ∈ sup) (junk : List ℝ) :
    Problem.getSubset sup (List.ofFn x) sub junk = (true, restrict sup sub x) := by
  obtain ⟨h1, -, h3⟩ := Problem.C59_get sup sub (List.ofFn x) junk (by simp [hl])
  have ht := h1.2 hs
  refine Prod.ext ht ?_
  have := h3 ht
  generalize (Problem.getSubset sup (List.ofFn x) sub junk).2 = r at this
  clear h1 h3 ht hs
  unfold restrict
  induction this with
  | nil => rfl
  | cons h _ ih => rw [ih, List.map_cons, List.getD_eq_getElem?_getD, h]; rfl

/-- C111: with assertions the subset term evaluates the subset's own joints, and its gradient is that of the subset at the subset's
joints and zero at the others. -/
theorem C111_subset_partial (sup sub : List Name) (a : Arm m k) (lambda eps : ℝ) (junk tmp : List ℝ) (x : Fin n → ℝ)
    (hn : sup.length = n) (hk : sub.length = k) (d1 : sup.Nodup) (d2 : sub.Nodup) (hs : ∀ s ∈ sub, s ∈ sup) :
    subsetErr true sup sub junk a lambda x = some (singErr a lambda (ofList k (restrict sup sub x))) ∧
    ∃ J, subsetJac true sup sub junk tmp a lambda eps x = some J ∧
      (∀ (i : Fin k) (j : Fin n), sub[i.val]? = sup[j.val]? → J j = singJac a lambda eps (ofList k (restrict sup sub x)) i) ∧
      ∀ (j : Fin n) (s : Name), sup[j.val]? = some s → s ∉ sub → J j = 0 := by
  obtain ⟨u1, u2, u3, u4⟩ := Problem.C59_update sup sub (List.replicate n (0 : ℝ))
    (List.ofFn (singJac a lambda eps (ofList k (restrict sup sub x)))) d1 d2 (by simp [hn]) (by simp [hk])
  have ht := u2.2 hs
  refine ⟨?_, ?_⟩
  · unfold subsetErr
    simp only [if_true, getSubset_eq sup sub x hn hs junk]
  · unfold subsetJac
    simp only [if_true, getSubset_eq sup sub x hn hs junk, ht]
    have hidx : ∀ (j : Fin n) (s : Name), sup[j.val]? = some s → sup.idxOf s = j.val := by
      intro j s hj
      obtain ⟨hlt, he⟩ := List.getElem?_eq_some_iff.1 hj
      rw [← he]
      exact d1.idxOf_getElem _ _
    refine ⟨_, rfl, ?_, ?_⟩
    · intro i j hij
      have hi : sub[i.val]? = some (sub[i.val]'(by omega)) := List.getElem?_eq_getElem _
      have hx := hidx j _ (hij.symm.trans hi)
      have := List.forall₂_iff_get.1 (u4 ht) |>.2 i.val (by omega) (by simp)
      simp only [List.get_eq_getElem, List.getElem_ofFn] at this
      rw [hx] at this
      simp only [ofList]
      rw [List.getD_eq_getElem?_getD, this]
      rfl
    · intro j s hj hns
      have hmem : s ∈ sup := List.mem_of_getElem? hj
      have := u3 s hmem hns
      rw [hidx j s hj] at this
      simp only [ofList]
      rw [List.getD_eq_getElem?_getD, this]
      simp

/-- C111 fails for the subset without assertions: error and gradient do not depend on the joint values. -/
theorem C111_violated_release (sup sub : List Name) (a : Arm m k) (lambda eps : ℝ) (junk tmp : List ℝ) (x x' : Fin n → ℝ) :
    subsetErr false sup sub junk a lambda x = subsetErr false sup sub junk a lambda x' ∧
    subsetJac false sup sub junk tmp a lambda eps x = subsetJac false sup sub junk tmp a lambda eps x' := by
  simp only [subsetErr, subsetJac, Bool.false_eq_true, if_false, and_self]

/-- C111: the subset is used exactly when it is given, all its joints belong to the problem and there are fewer of them; any other
subset is ignored. -/
theorem C111_choice (sub : Option (List Name)) (sup : List Name) :
    useSubset sub sup = true ↔ ∃ s, sub = some s ∧ (∀ e ∈ s, e ∈ sup) ∧ s.length < sup.length := by
  cases sub with
  | none => simp [useSubset]
  | some s => simp [useSubset, Problem.C59_isSuperset]

end

/-! ### Non-vacuity -/

namespace Demo

/-- One joint; the tool frame is at the square of the joint value (poses are positions on a line), so a positive target has two
solutions. -/
noncomputable def fk (q : Fin 1 → ℝ) (_ _ : Nat) : Multiplicative ℝ := Multiplicative.ofAdd (q 0 ^ 2)

noncomputable def ik (t : Multiplicative ℝ) (_ _ : Nat) (_ : Fin 1 → ℝ) : List (Fin 1 → ℝ) :=
  if 0 ≤ t.toAdd then [fun _ => Real.sqrt t.toAdd, fun _ => -Real.sqrt t.toAdd] else []

noncomputable def ikCnt (off target : ℝ) : Ik Nat (Multiplicative ℝ) 1 :=
  ⟨1, 0, 1, Multiplicative.ofAdd off, Multiplicative.ofAdd target, 4, [default0]⟩

theorem sound : Sound fk ik := by
  intro t _ _ _ s hs
  unfold ik at hs
  split at hs
  · rename_i h
    apply Multiplicative.toAdd.injective
    simp only [List.mem_cons, List.not_mem_nil, or_false] at hs
    rcases hs with rfl | rfl
    · simp [fk, Real.sq_sqrt h]
    · simp [fk, Real.sq_sqrt h]
  · simp at hs

end Demo

/-- non-vacuity for C109: two solutions for the target 4, the first strictly nearer to 3; none for the target -1; an offset. -/
example : Sound Demo.fk Demo.ik ∧ Ik.new 1 (fun _ => true) 1 0 1 (Multiplicative.ofAdd 0) (Multiplicative.ofAdd 4) 4 = some (Demo.ikCnt 0 4) ∧
    Demo.ik (Demo.ikCnt 0 4).target 0 1 (fun _ => 0) = [fun _ => 2, fun _ => -2] ∧
    (∀ s' ∈ Demo.ik (Demo.ikCnt 0 4).target 0 1 (fun _ => 0), s' ≠ (fun _ => 2) → far (fun _ => 2) (fun _ : Fin 1 => 3) < far s' (fun _ => 3)) ∧
    (Demo.ikCnt 0 4).tcpOffset = 1 ∧ (Demo.ikCnt 1 4).tcpOffset ≠ 1 ∧ Demo.ik (Demo.ikCnt 0 (-1)).target 0 1 (fun _ => 0) = [] := by
  have h4 : Real.sqrt 4 = 2 := by
    rw [show (4 : ℝ) = 2 ^ 2 by norm_num]
    exact Real.sqrt_sq (by norm_num)
  have hik : Demo.ik (Demo.ikCnt 0 4).target 0 1 (fun _ => 0) = [fun _ => 2, fun _ => -2] := by
    simp [Demo.ik, Demo.ikCnt, h4]
  refine ⟨Demo.sound, rfl, hik, ?_, rfl, ?_, ?_⟩
  · rw [hik]
    intro s' hs' hne
    simp only [List.mem_cons, List.not_mem_nil, or_false] at hs'
    rcases hs' with rfl | rfl
    · exact absurd rfl hne
    · simp [far]
      norm_num
  · intro h
    have := congrArg Multiplicative.toAdd h
    simp [Demo.ikCnt] at this
  · exact if_neg (by simp [Demo.ikCnt])

namespace Demo

/-- Three sliders. -/
noncomputable def tool : Tool 3 := ⟨fun q => q, fun _ a j => if a = j then 1 else 0, fun _ a j => if a = j then 1 else 0, true⟩

theorem tool_jac : IsJacobian tool tool.jacLink := by
  intro q d a
  have : HasDerivAt (fun s : ℝ => q a + s * d a) (1 * d a) 0 := ((hasDerivAt_id (0 : ℝ)).mul_const _).const_add _
  refine this.congr_deriv ?_
  simp [tool]

/-- Four states of three joints. -/
def grid : BArr Nat := ⟨4, 3, List.range 12⟩

theorem grid_holds : Holds grid 4 3 (fun i j => 3 * i + j) := by
  refine ⟨rfl, rfl, ⟨rfl, by decide, by decide⟩, ?_⟩
  have : ∀ i : Fin 4, ∀ j : Fin 3, grid.at (i.val : Int) (j.val : Int) = some (3 * i.val + j.val) := by decide
  exact fun i j hi hj => this ⟨i, hi⟩ ⟨j, hj⟩

end Demo

/-- non-vacuity for C110: the first three steps leave a state after the last; a range up to the last state is accepted as well. -/
example : IsJacobian Demo.tool Demo.tool.jacLink ∧ Holds Demo.grid 4 3 (fun i j => 3 * i + j) ∧
    (⟨0, 2, 1/2⟩ : CartVel).accepted 4 [7] 7 = true ∧ (⟨0, 3, 1/2⟩ : CartVel).accepted 4 [7] 7 = true ∧
    (∀ a, Demo.tool.pos (bottom fun i : Fin (3 + 3) => if i.val < 3 then 0 else 1) a -
      Demo.tool.pos (top fun i : Fin (3 + 3) => if i.val < 3 then 0 else 1) a = 1) := by
  refine ⟨Demo.tool_jac, Demo.grid_holds, by simp [CartVel.accepted], by simp [CartVel.accepted], fun a => ?_⟩
  simp [Demo.tool, bottom, top]

namespace Demo

/-- One joint whose Jacobian is `q² + 1`. -/
noncomputable def arm : Arm 1 1 where
  jac := fun q _ _ => q 0 ^ 2 + 1
  svd := fun J => ⟨fun _ => if J 0 0 < 0 then -1 else 1, |J 0 0|, fun _ => 1⟩

theorem arm_svd : Decomposes arm := by
  intro J
  constructor
  · constructor
    · intro r
      have : r = 0 := Subsingleton.elim _ _
      subst this
      simp only [arm, Finset.univ_unique, Finset.sum_singleton, mul_one, Fin.default_eq_zero]
      split
      · rename_i h; rw [abs_of_neg h]; ring
      · rename_i h; rw [abs_of_nonneg (not_lt.1 h)]; ring
    · intro r
      have : r = 0 := Subsingleton.elim _ _
      subst this
      simp only [arm, Finset.univ_unique, Finset.sum_singleton, mul_one, Fin.default_eq_zero]
      split
      · rename_i h; rw [abs_of_neg h]; ring
      · rename_i h; rw [abs_of_nonneg (not_lt.1 h)]; ring
    · simp only [arm, Finset.univ_unique, Finset.sum_singleton]
      split <;> norm_num
    · simp [arm]
    · exact abs_nonneg _
  · intro u s v h
    have h1 := h.right 0
    have h2 := h.unitU
    have h3 := h.unitV
    simp only [Finset.univ_unique, Finset.sum_singleton, Fin.default_eq_zero] at h1 h2 h3
    show |J 0 0| ≤ s
    have e : J 0 0 ^ 2 = s ^ 2 := by
      calc J 0 0 ^ 2 = (J 0 0 * v 0) ^ 2 := by rw [mul_pow, h3, mul_one]
        _ = s ^ 2 := by rw [h1, mul_pow, h2, mul_one]
    exact abs_le_of_sq_le_sq e.le h.nonneg

end Demo

/-- non-vacuity for C111: a decomposition; Jacobian and decomposition are differentiable; states with different distance from a
singularity. -/
example : Decomposes Demo.arm ∧
    (∀ r c, HasDerivAt (fun t : ℝ => Demo.arm.jac (Function.update (fun _ => 1) 0 (1 + t)) r c) 2 0) ∧
    (∀ r, HasDerivAt (fun t : ℝ => (Demo.arm.svd (Demo.arm.jac (Function.update (fun _ => 1) 0 (1 + t)))).u r) 0 0) ∧
    HasDerivAt (fun t : ℝ => (Demo.arm.svd (Demo.arm.jac (Function.update (fun _ => 1) 0 (1 + t)))).s) 2 0 ∧
    (Demo.arm.svd (Demo.arm.jac fun _ => 0)).s = 1 ∧ (Demo.arm.svd (Demo.arm.jac fun _ => 1)).s = 2 ∧
    useSubset (some [3]) [3, 4] = true := by
  have hp : ∀ t : ℝ, 0 ≤ (1 + t) ^ 2 + 1 := fun t => by positivity
  have hd : HasDerivAt (fun t : ℝ => (1 + t) ^ 2 + 1) 2 0 := by
    have := (((hasDerivAt_id (0 : ℝ)).const_add 1).fun_pow 2).add_const 1
    refine this.congr_deriv ?_
    simp
  refine ⟨Demo.arm_svd, fun r c => ?_, fun r => ?_, ?_, ?_, ?_, by decide⟩
  · simpa [Demo.arm] using hd
  · have : (fun t : ℝ => (Demo.arm.svd (Demo.arm.jac (Function.update (fun _ => 1) 0 (1 + t)))).u r) = fun _ => 1 := by
      funext t
      simp [Demo.arm, not_lt.2 (hp t)]
    rw [this]
    exact hasDerivAt_const _ _
  · simpa [Demo.arm, abs_of_nonneg (hp _)] using hd
  · simp [Demo.arm]
  · simp [Demo.arm]
    norm_num

end Verif.KinTerms
