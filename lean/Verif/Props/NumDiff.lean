import Verif.Model.NumDiff
import Mathlib.Tactic.Ring
import Mathlib.Tactic.FieldSimp
import Mathlib.Tactic.Linarith
import Mathlib.Tactic.NormNum
import Mathlib.Algebra.BigOperators.Ring.Finset
import Mathlib.Algebra.BigOperators.Field

/-!
C41: numerical differentiation is exact where it should be.
-/

set_option linter.unusedSectionVars false
set_option linter.unusedVariables false

namespace Verif.NumDiff

open Finset

universe u
variable {K : Type u} [Field K] {n m : Nat} {β γ : Type u}

/-- The point with coordinate `i` shifted by `d`. -/
def shift (x : Fin n → K) (i : Fin n) (d : K) : Fin n → K := fun j => if j = i then x j + d else x j

theorem update_shift (x : Fin n → K) (i : Fin n) (d : K) : Function.update x i (x i + d) = shift x i d := by
  funext j
  by_cases h : j = i
  · subst h; simp [shift]
  · simp [shift, h]

theorem update_shift_sub (x : Fin n → K) (i : Fin n) (d : K) :
    Function.update x i (x i - d) = shift x i (-d) := by
  rw [sub_eq_add_neg]; exact update_shift x i (-d)

theorem restore_shift (x : Fin n → K) (i : Fin n) (d : K) : Function.update (shift x i d) i (x i) = x := by
  rw [← update_shift]; simp

theorem restore (x : Fin n → K) (i : Fin n) (a : K) : Function.update (Function.update x i a) i (x i) = x := by
  simp

theorem fwd_loop (f : (Fin n → K) → β) (g : β → γ) (x : Fin n → K) (ε : K) (out : Fin n → γ) (l : List (Fin n)) :
    (l.foldl (fwdStep f g x ε) (x, out)).1 = x ∧
    ∀ i, (l.foldl (fwdStep f g x ε) (x, out)).2 i = if i ∈ l then g (f (shift x i ε)) else out i := by
  induction l generalizing out with
  | nil => simp
  | cons a l ih =>
    have e : fwdStep f g x ε (x, out) a = (x, Function.update out a (g (f (shift x a ε)))) := by
      simp only [fwdStep, update_shift, restore_shift]
    rw [List.foldl_cons, e]
    obtain ⟨h1, h2⟩ := ih (Function.update out a (g (f (shift x a ε))))
    refine ⟨h1, fun i => ?_⟩
    rw [h2 i]
    by_cases hl : i ∈ l
    · simp [hl]
    · by_cases ha : i = a
      · subst ha; simp
      · simp [hl, ha]

theorem forwardNumGrad_eq (junk : Fin n → K) (f : (Fin n → K) → K) (x : Fin n → K) (ε : K) (i : Fin n) :
    calcForwardNumGrad junk f x ε i = (f (shift x i ε) - f x) / ε := by
  simp only [calcForwardNumGrad]
  rw [(fwd_loop f (fun yp => (yp - f x) / ε) x ε junk _).2 i]
  simp

theorem forwardNumJac_eq (junk : Fin n → Fin m → K) (f : (Fin n → K) → Fin m → K) (x : Fin n → K) (ε : K)
    (r : Fin m) (c : Fin n) :
    calcForwardNumJac junk f x ε r c = (f (shift x c ε) r - f x r) / ε := by
  simp only [calcForwardNumJac]
  rw [(fwd_loop f (fun yp => fun r => (yp r - f x r) / ε) x ε junk _).2 c]
  simp

theorem diag_loop (f : (Fin n → K) → K) (x : Fin n → K) (ε y : K) (g h : Fin n → K) (l : List (Fin n)) :
    (l.foldl (diagStep f x ε y) (x, g, h)).1 = x ∧
    (∀ i, (l.foldl (diagStep f x ε y) (x, g, h)).2.1 i =
      if i ∈ l then (f (shift x i (ε / 2)) - f (shift x i (-(ε / 2)))) / ε else g i) ∧
    (∀ i, (l.foldl (diagStep f x ε y) (x, g, h)).2.2 i =
      if i ∈ l then (f (shift x i (ε / 2)) + f (shift x i (-(ε / 2))) - 2 * y) / (ε * ε / 4) else h i) := by
  induction l generalizing g h with
  | nil => simp
  | cons a l ih =>
    have e2 : Function.update (Function.update x a (x a + ε / 2)) a (x a - ε / 2) = shift x a (-(ε / 2)) := by
      rw [Function.update_idem, update_shift_sub]
    have e : diagStep f x ε y (x, g, h) a =
        (x, Function.update g a ((f (shift x a (ε / 2)) - f (shift x a (-(ε / 2)))) / ε),
          Function.update h a ((f (shift x a (ε / 2)) + f (shift x a (-(ε / 2))) - 2 * y) / (ε * ε / 4))) := by
      simp only [diagStep, e2, update_shift]
      rw [← update_shift x a (ε / 2), e2, restore_shift]
    rw [List.foldl_cons, e]
    obtain ⟨h1, h2, h3⟩ := ih _ _
    refine ⟨h1, fun i => ?_, fun i => ?_⟩
    · rw [h2 i]
      by_cases hl : i ∈ l
      · simp [hl]
      · by_cases ha : i = a
        · subst ha; simp
        · simp [hl, ha]
    · rw [h3 i]
      by_cases hl : i ∈ l
      · simp [hl]
      · by_cases ha : i = a
        · subst ha; simp
        · simp [hl, ha]

/-- Specification: an affine function. -/
def affine (c : K) (a : Fin n → K) (x : Fin n → K) : K := c + ∑ j, a j * x j

/-- Specification: a quadratic function with Hessian `Q` (taken symmetric). -/
def quadratic (c : K) (b : Fin n → K) (Q : Fin n → Fin n → K) (x : Fin n → K) : K :=
  c + ∑ j, b j * x j + 1 / 2 * ∑ i, ∑ j, x i * Q i j * x j

theorem sum_shift (a : Fin n → K) (x : Fin n → K) (i : Fin n) (d : K) :
    ∑ j, a j * shift x i d j = ∑ j, a j * x j + a i * d := by
  have : ∀ j, a j * shift x i d j = a j * x j + if j = i then a j * d else 0 := by
    intro j; by_cases h : j = i <;> simp [shift, h]; ring
  simp only [this, sum_add_distrib, sum_ite_eq', mem_univ, if_true]

theorem sum_shift' (a : Fin n → K) (x : Fin n → K) (i : Fin n) (d : K) :
    ∑ j, shift x i d j * a j = ∑ j, x j * a j + d * a i := by
  have h := sum_shift a x i d
  simpa only [mul_comm (a _)] using h

theorem affine_shift (c : K) (a : Fin n → K) (x : Fin n → K) (i : Fin n) (d : K) :
    affine c a (shift x i d) = affine c a x + a i * d := by
  simp only [affine, sum_shift]; ring

theorem quadratic_shift [NeZero (2 : K)] (c : K) (b : Fin n → K) (Q : Fin n → Fin n → K) (hQ : ∀ i j, Q i j = Q j i)
    (x : Fin n → K) (i : Fin n) (d : K) :
    quadratic c b Q (shift x i d) =
      quadratic c b Q x + (b i + ∑ j, Q i j * x j) * d + 1 / 2 * Q i i * d ^ 2 := by
  have h2 : (2 : K) ≠ 0 := NeZero.ne 2
  have e1 : ∀ y : Fin n → K, (∑ i, ∑ j, y i * Q i j * y j) = ∑ i, y i * ∑ j, Q i j * y j := by
    intro y; apply sum_congr rfl; intro k _; rw [mul_sum]; apply sum_congr rfl; intro j _; ring
  simp only [quadratic, e1]
  simp only [sum_shift]
  have e2 : ∀ y : Fin n → K, ∑ k, y k * (∑ j, Q k j * x j + Q k i * d) =
      (∑ k, y k * ∑ j, Q k j * x j) + d * ∑ k, Q i k * y k := by
    intro y
    rw [mul_sum, ← sum_add_distrib]
    apply sum_congr rfl; intro k _; rw [hQ k i]; ring
  rw [e2, sum_shift', sum_shift]
  field_simp
  ring

/-- C41: `calcForwardNumGrad` is exact on affine functions, whatever the uninitialised output contained. -/
theorem C41_forward_grad_affine (junk : Fin n → K) (c : K) (a : Fin n → K) (x : Fin n → K) (ε : K)
    (hε : ε ≠ 0) : calcForwardNumGrad junk (affine c a) x ε = a := by
  funext i
  rw [forwardNumGrad_eq, affine_shift]
  field_simp
  ring

/-- C41: `calcForwardNumJac` (both copies) is exact on affine functions. -/
theorem C41_forward_jac_affine (junk : Fin n → Fin m → K) (c : Fin m → K) (A : Fin m → Fin n → K)
    (x : Fin n → K) (ε : K) (hε : ε ≠ 0) :
    calcForwardNumJac junk (fun x r => affine (c r) (A r) x) x ε = A := by
  funext r i
  rw [forwardNumJac_eq, affine_shift]
  field_simp
  ring

/-- C41: entry `(r, i)` of the numerical Jacobian only depends on the function at `x` and at `x` shifted in
coordinate `i`: no column sees another column's perturbation. -/
theorem C41_columns_independent (junk : Fin n → Fin m → K) (f f' : (Fin n → K) → Fin m → K) (x : Fin n → K)
    (ε : K) (i : Fin n) (h0 : f x = f' x) (hi : ∀ y, (∀ j, j ≠ i → y j = x j) → f y = f' y) (r : Fin m) :
    calcForwardNumJac junk f x ε r i = calcForwardNumJac junk f' x ε r i := by
  rw [forwardNumJac_eq, forwardNumJac_eq, h0, hi (shift x i ε) (fun j hj => by simp [shift, hj])]

/-- C41: `calcGradAndDiagHess` returns the exact value, gradient and Hessian diagonal of quadratic
functions. -/
theorem C41_diag_hess_quadratic [NeZero (2 : K)] (junk : Fin n → K) (c : K) (b : Fin n → K) (Q : Fin n → Fin n → K)
    (hQ : ∀ i j, Q i j = Q j i) (x : Fin n → K) (ε : K) (hε : ε ≠ 0) :
    calcGradAndDiagHess junk (quadratic c b Q) x ε =
      (quadratic c b Q x, (fun i => b i + ∑ j, Q i j * x j), fun i => Q i i) := by
  have h2 : (2 : K) ≠ 0 := NeZero.ne 2
  have h4 : (4 : K) ≠ 0 := by
    have : (4 : K) = 2 * 2 := by norm_num
    rw [this]; exact mul_ne_zero h2 h2
  obtain ⟨_, h1, h3⟩ := diag_loop (quadratic c b Q) x ε (quadratic c b Q x) junk junk (List.finRange n)
  simp only [calcGradAndDiagHess, Prod.mk.injEq, true_and]
  constructor
  · funext i
    rw [h1 i, if_pos (List.mem_finRange i), quadratic_shift _ _ _ hQ, quadratic_shift _ _ _ hQ]
    field_simp
    ring
  · funext i
    rw [h3 i, if_pos (List.mem_finRange i), quadratic_shift _ _ _ hQ, quadratic_shift _ _ _ hQ]
    field_simp
    ring

/-- C41: `calcGradHess` returns the exact Hessian of quadratic functions; its gradient is off by exactly
`epsilon/2` times the diagonal (forward instead of central differences). -/
theorem C41_full_hess_quadratic [NeZero (2 : K)] (junk : Fin n → K) (c : K) (b : Fin n → K) (Q : Fin n → Fin n → K)
    (hQ : ∀ i j, Q i j = Q j i) (x : Fin n → K) (ε : K) (hε : ε ≠ 0) :
    calcGradHess junk (quadratic c b Q) x ε =
      (quadratic c b Q x, (fun i => b i + ∑ j, Q i j * x j + ε / 2 * Q i i), Q) := by
  have h2 : (2 : K) ≠ 0 := NeZero.ne 2
  have hg : ∀ z : Fin n → K, ∀ i, calcForwardNumGrad junk (quadratic c b Q) z ε i =
      b i + ∑ j, Q i j * z j + ε / 2 * Q i i := by
    intro z i
    rw [forwardNumGrad_eq, quadratic_shift _ _ _ hQ]
    field_simp
    ring
  have hj : ∀ r s, calcForwardNumJac (fun _ => junk) (fun z => calcForwardNumGrad junk (quadratic c b Q) z ε) x ε
      r s = Q r s := by
    intro r s
    rw [forwardNumJac_eq, hg, hg, sum_shift]
    field_simp
    ring
  simp only [calcGradHess, Prod.mk.injEq, true_and]
  refine ⟨funext fun i => hg x i, ?_⟩
  funext i j
  rw [hj, hj, hQ j i]
  field_simp
  ring

theorem nlp_loop (f : (Fin n → K) → β) (g : β → γ) (x : Fin n → K) (ε : K) (v : Fin n → K) (out : Fin n → γ)
    (l : List (Fin n)) (hl : l.Nodup) :
    (l.foldl (nlpStep f g x ε) (v, x, out)).2.1 = x ∧
    ∀ i, (l.foldl (nlpStep f g x ε) (v, x, out)).2.2 i = if i ∈ l then g (f (shift x i ε)) else out i := by
  induction l generalizing out v with
  | nil => simp
  | cons a l ih =>
    have e : nlpStep f g x ε (v, x, out) a = (shift x a ε, x, Function.update out a (g (f (shift x a ε)))) := by
      simp only [nlpStep, update_shift, restore_shift]
    rw [List.foldl_cons, e]
    obtain ⟨h1, h2⟩ := ih (shift x a ε) (Function.update out a (g (f (shift x a ε)))) (List.nodup_cons.1 hl).2
    refine ⟨h1, fun i => ?_⟩
    rw [h2 i]
    by_cases hl : i ∈ l
    · simp [hl]
    · by_cases ha : i = a
      · subst ha; simp
      · simp [hl, ha]

theorem nlp_loop' (f : (Fin n → K) → β) (g : β → γ) (x : Fin n → K) (ε : K) (v : Fin n → K) (out : Fin n → γ)
    (l : List (Fin n)) :
    (l.foldl (nlpStep' f g x ε) (v, x, out)).2.1 = x ∧
    ∀ i, (l.foldl (nlpStep' f g x ε) (v, x, out)).2.2 i = if i ∈ l then g (f (shift x i ε)) else out i := by
  induction l generalizing out v with
  | nil => simp
  | cons a l ih =>
    have e : nlpStep' f g x ε (v, x, out) a = (shift x a ε, x, Function.update out a (g (f (shift x a ε)))) := by
      simp only [nlpStep', update_shift, restore_shift]
    rw [List.foldl_cons, e]
    obtain ⟨h1, h2⟩ := ih (shift x a ε) (Function.update out a (g (f (shift x a ε))))
    refine ⟨h1, fun i => ?_⟩
    rw [h2 i]
    by_cases hl : i ∈ l
    · simp [hl]
    · by_cases ha : i = a
      · subst ha; simp
      · simp [hl, ha]

/-- C41: the numerical gradient of an affine cost through an ifopt problem is exact at the requested point,
and the problem, including its current variables, is left as it was. -/
theorem C41_nlp_cost_gradient (p : Nlp K n m) (c : K) (a : Fin n → K) (hp : p.cost = affine c a)
    (x : Fin n → K) (ε : K) (hε : ε ≠ 0) :
    (calcNumericalCostGradient p x ε).1 = (if p.hasCostTerms then a else fun _ => 0) ∧
    (calcNumericalCostGradient p x ε).2 = p := by
  refine ⟨?_, rfl⟩
  simp only [calcNumericalCostGradient]
  by_cases h : p.hasCostTerms = true
  · simp only [h, if_true, hp]
    funext i
    rw [(nlp_loop (affine c a) (fun gn => (gn - affine c a x) / ε) x ε x _ _ (List.nodup_finRange n)).2 i,
      if_pos (List.mem_finRange i), affine_shift]
    field_simp
    ring
  · simp [h]

/-- C41: likewise for the constraint Jacobian. -/
theorem C41_nlp_constraint_gradient (p : Nlp K n m) (c : Fin m → K) (A : Fin m → Fin n → K)
    (hp : p.cnts = fun x r => affine (c r) (A r) x) (x : Fin n → K) (ε : K) (hε : ε ≠ 0) :
    (calcNumericalConstraintGradient p x ε).1 = A ∧ (calcNumericalConstraintGradient p x ε).2 = p := by
  refine ⟨?_, rfl⟩
  simp only [calcNumericalConstraintGradient]
  by_cases h : m = 0 ∨ n = 0
  · funext j i
    rcases h with h | h
    · subst h; exact j.elim0
    · subst h; exact i.elim0
  · simp only [h, if_false, hp]
    funext j i
    rw [(nlp_loop (fun x r => affine (c r) (A r) x) (fun gn => fun j => (gn j - affine (c j) (A j) x) / ε) x ε x _ _
      (List.nodup_finRange n)).2 i, if_pos (List.mem_finRange i)]
    simp only [affine_shift]
    field_simp
    ring

/-- C41: likewise for the overload that differentiates one constraint set in place. -/
theorem C41_set_constraint_gradient (p : Nlp K n m) (c : Fin m → K) (A : Fin m → Fin n → K)
    (hp : p.cnts = fun x r => affine (c r) (A r) x) (ε : K) (hε : ε ≠ 0) :
    (calcNumericalConstraintGradient' p ε).1 = A ∧ (calcNumericalConstraintGradient' p ε).2 = p := by
  by_cases h : m = 0 ∨ n = 0
  · refine ⟨?_, by simp [calcNumericalConstraintGradient', h]⟩
    funext j i
    rcases h with h | h
    · subst h; exact j.elim0
    · subst h; exact i.elim0
  · refine ⟨?_, by simp [calcNumericalConstraintGradient', h]⟩
    simp only [calcNumericalConstraintGradient', h, if_false, hp]
    funext j i
    rw [(nlp_loop' (fun x r => affine (c r) (A r) x) (fun gn => fun j => (gn j - affine (c j) (A j) p.vars) / ε)
      p.vars ε p.vars _ _).2 i, if_pos (List.mem_finRange i)]
    simp only [affine_shift]
    field_simp
    ring

/-- non-vacuity for C41: a concrete quadratic in two variables and a step. -/
example : calcForwardNumGrad (fun _ => 7) (affine (3 : ℚ) ![2, -5]) ![1, 4] (1 / 100000) = ![2, -5] :=
  C41_forward_grad_affine _ _ _ _ _ (by norm_num)
example : ((calcGradAndDiagHess (fun _ => 0) (quadratic (1 : ℚ) ![2, 3] ![![4, 1], ![1, 6]]) ![1, 1] (1 / 10)).2.2 0,
    (calcGradAndDiagHess (fun _ => 0) (quadratic (1 : ℚ) ![2, 3] ![![4, 1], ![1, 6]]) ![1, 1] (1 / 10)).2.2 1)
    = (4, 6) := by decide +kernel
example : (![![4, 1], ![1, 6]] : Fin 2 → Fin 2 → ℚ) 0 1 = (![![4, 1], ![1, 6]] : Fin 2 → Fin 2 → ℚ) 1 0 := by
  decide +kernel

end Verif.NumDiff
