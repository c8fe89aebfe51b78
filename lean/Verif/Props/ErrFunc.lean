import Verif.Model.ErrFunc
import Verif.Props.Convex
import Verif.Props.NumDiff
import Mathlib.Algebra.Order.BigOperators.Group.Finset

/-!
C64: error-function costs and constraints agree with their convexification.
C69: convexified scalar costs are convex and touch the cost.
-/

set_option linter.unusedSectionVars false
set_option linter.unusedVariables false

namespace Verif.Sco

open Verif.NumDiff Finset
open Verif.Bounds (Ext)

universe u
variable {K : Type u} [Field K] [LinearOrder K] [IsStrictOrderedRing K] {n m : Nat}

/-- Specification: first-order expansion of a row around `x`. -/
def firstOrder (y : K) (g x z : Fin n → K) : K := y + ∑ j, g j * (z j - x j)

/-- Specification: the three penalties. -/
def penSpec : PenaltyType → K → K
  | .squared, e => e ^ 2
  | .abs, e => |e|
  | .hinge, e => max 0 e

/-- Specification: the weight of a row (1 without a weight vector). -/
def ErrFunc.weight (c : ErrFunc K n m) (i : Fin m) : K :=
  match c.coeffs with
  | none => 1
  | some w => w i

/-- Specification: every entry is zero or larger than the clean-up threshold 1e-7. -/
def NoTiny (J : Fin m → Fin n → K) : Prop := ∀ i j, J i j = 0 ∨ (1 : K) / 10000000 < |J i j|

theorem dot_eq (a b : Fin n → K) : dot a b = ∑ j, a j * b j := by
  rw [dot, Fin.sum_univ_def]

theorem linDen_finRange (g : Fin n → K) (vars : Fin n → Nat) (z : Nat → K) :
    linDen ((List.finRange n).map fun i => (g i, vars i)) z = ∑ j, g j * z (vars j) := by
  rw [linDen, Fin.sum_univ_def, List.map_map]; rfl

theorem linDen_filter_finRange (g : Fin n → K) (vars : Fin n → Nat) (z : Nat → K) (p : K → Bool) :
    linDen (((List.finRange n).map fun i => (g i, vars i)).filter fun t => p t.1) z =
      ∑ j, if p (g j) then g j * z (vars j) else 0 := by
  rw [Fin.sum_univ_def]
  generalize List.finRange n = l
  induction l with
  | nil => rfl
  | cons a l ih =>
    by_cases h : p (g a) = true
    · simp [h, ih]
    · simp [h, ih]

theorem aff_below {n0 : Nat} (y : K) (x g : Fin n → K) {vars : Fin n → Nat} (h : ∀ j, vars j < n0) :
    (affFromValGrad y x g vars).Below n0 := by
  intro t ht
  have := (List.mem_filter.1 ht).1
  obtain ⟨j, _, rfl⟩ := List.mem_map.1 this
  exact h j

theorem aff_value (y : K) (x g : Fin n → K) (vars : Fin n → Nat) (z : Nat → K) :
    affDen (affFromValGrad y x g vars) z =
      y - (∑ j, g j * x j) + ∑ j, if (1 : K) / 10000000 < |g j| then g j * z (vars j) else 0 := by
  simp only [affFromValGrad, AffExpr.cleanup, affDen, dot_eq]
  congr 1
  rw [linDen_filter_finRange g vars z (fun a => decide (cleanupEps < |a|))]
  simp only [cleanupEps]
  apply sum_congr rfl; intro j _
  by_cases h : (1 : K) / 10000000 < |g j| <;> simp only [h, decide_true, decide_false, if_true, Bool.false_eq_true, if_false]

theorem aff_exact (y : K) (x g : Fin n → K) (vars : Fin n → Nat) (z : Nat → K)
    (h : ∀ j, g j = 0 ∨ (1 : K) / 10000000 < |g j|) :
    affDen (affFromValGrad y x g vars) z = firstOrder y g x (getVec z vars) := by
  rw [aff_value, firstOrder]
  have : ∀ j, (if (1 : K) / 10000000 < |g j| then g j * z (vars j) else 0) = g j * z (vars j) := by
    intro j
    rcases h j with h | h
    · simp [h]
    · simp only [h, if_true]
  simp only [this, getVec, mul_sub, sum_sub_distrib]
  ring

theorem aff_error (y : K) (x g : Fin n → K) (vars : Fin n → Nat) (z : Nat → K) :
    |affDen (affFromValGrad y x g vars) z - firstOrder y g x (getVec z vars)| ≤
      1 / 10000000 * ∑ j, |z (vars j)| := by
  rw [aff_value, firstOrder]
  have e : y - (∑ j, g j * x j) + (∑ j, if (1 : K) / 10000000 < |g j| then g j * z (vars j) else 0) -
      (y + ∑ j, g j * (getVec z vars j - x j)) =
      ∑ j, -(if (1 : K) / 10000000 < |g j| then 0 else g j * z (vars j)) := by
    have : ∀ j, -(if (1 : K) / 10000000 < |g j| then 0 else g j * z (vars j)) =
        (if (1 : K) / 10000000 < |g j| then g j * z (vars j) else 0) - g j * z (vars j) := by
      intro j; split_ifs <;> ring
    simp only [this, getVec, mul_sub, sum_sub_distrib]
    ring
  rw [e, mul_sum]
  refine (abs_sum_le_sum_abs _ _).trans (sum_le_sum fun j _ => ?_)
  rw [abs_neg]
  split_ifs with h
  · simp only [abs_zero]; positivity
  · rw [abs_mul]; exact mul_le_mul_of_nonneg_right (not_lt.1 h) (abs_nonneg _)

theorem affDen_scale (e : AffExpr K Nat) (a : K) (z : Nat → K) : affDen (e.scale a) z = affDen e z * a := by
  rw [← C01_aff_value, ← C01_aff_value]; exact (C01_scale e QuadExpr.zero a z).1

theorem quadDen_scale (e : QuadExpr K Nat) (a : K) (z : Nat → K) : quadDen (e.scale a) z = quadDen e z * a := by
  rw [← C01_quad_value, ← C01_quad_value]; exact (C01_scale AffExpr.zero e a z).2

theorem scale_below {n0 : Nat} {e : AffExpr K Nat} (h : e.Below n0) (a : K) : (e.scale a).Below n0 := by
  intro t ht
  obtain ⟨s, hs, rfl⟩ := List.mem_map.1 ht
  exact h s hs

theorem qscale_below {n0 : Nat} {e : QuadExpr K Nat} (h : e.Below n0) (a : K) : (e.scale a).Below n0 := by
  refine ⟨scale_below h.1 a, ?_⟩
  intro t ht
  obtain ⟨s, hs, rfl⟩ := List.mem_map.1 ht
  exact h.2 s hs

theorem good_nothing {n0 : Nat} {m0 : OModel K} : Good n0 m0 (fun s => some s) (fun _ => 0) := by
  intro s hs
  exact ⟨s, rfl, hs, fun x v h => by simpa using h⟩

theorem Good.congr {n0 : Nat} {m0 : OModel K} {F : BState K → Option (BState K)} {c c' : (Nat → K) → K}
    (h : Good n0 m0 F c) (hc : ∀ x, c x = c' x) : Good n0 m0 F c' := by
  have : c = c' := funext hc
  rw [← this]; exact h

/-- One row of the convexified cost. -/
theorem good_row {n0 : Nat} {m0 : OModel K} (c : ErrFunc K n m) (pen : PenaltyType) (y : Fin m → K)
    (J : Fin m → Fin n → K) (x : Fin n → K) (hv : ∀ j, c.vars j < n0) (i : Fin m)
    (hpw : pen = .squared ∨ 0 ≤ c.weight i) :
    Good n0 m0 (fun s => c.costRow pen y J x s i)
      (fun z => c.weight i * penSpec pen (affDen (affFromValGrad (y i) x (J i) c.vars) z)) := by
  have hb := aff_below (y i) x (J i) hv
  have hadd : ∀ (pen : PenaltyType) (w : K), pen = .squared ∨ 0 ≤ w →
      Good n0 m0 (fun s => match pen with
        | .squared => some (s.1, s.2.addQuadExpr ((affFromValGrad (y i) x (J i) c.vars).square.scale w))
        | .abs => ConvexObjective.addAbs s ((affFromValGrad (y i) x (J i) c.vars).scale w) 1
        | .hinge => ConvexObjective.addHinge s ((affFromValGrad (y i) x (J i) c.vars).scale w) 1)
      (fun z => w * penSpec pen (affDen (affFromValGrad (y i) x (J i) c.vars) z)) := by
    intro pen w hw
    cases pen with
    | squared =>
      refine (good_quad (qscale_below (square_below hb) w)).congr fun z => ?_
      rw [quadDen_scale, quadDen_square, penSpec]; ring
    | abs =>
      have hw : 0 ≤ w := by rcases hw with h | h; · cases h
                            · exact h
      refine (good_abs (scale_below hb w) zero_le_one).congr fun z => ?_
      rw [affDen_scale, penSpec, abs_mul, abs_of_nonneg hw]; ring
    | hinge =>
      have hw : 0 ≤ w := by rcases hw with h | h; · cases h
                            · exact h
      refine (good_hinge (scale_below hb w) zero_le_one).congr fun z => ?_
      rw [affDen_scale, penSpec, one_mul, mul_max_of_nonneg _ _ hw, mul_zero, mul_comm]
  cases hc : c.coeffs with
  | none =>
    simp only [ErrFunc.costRow, ErrFunc.weight, hc]
    exact hadd pen 1 (Or.inr zero_le_one)
  | some w =>
    simp only [ErrFunc.weight, hc] at hpw
    simp only [ErrFunc.costRow, ErrFunc.weight, hc]
    by_cases h0 : w i = 0
    · simp only [h0, if_true, zero_mul]; exact good_nothing
    · simp only [h0, if_false]; exact hadd pen (w i) hpw

/-- The cost is what the code says it is. -/
theorem costValue_eq (c : ErrFunc K n m) (pen : PenaltyType) (x : Nat → K) :
    c.costValue pen x = ∑ i, c.weight i * penSpec pen (c.f (getVec x c.vars) i) := by
  have hp : ∀ e : K, pen.apply e = penSpec pen e := by
    intro e
    cases pen with
    | squared => simp [PenaltyType.apply, penSpec, pow_two]
    | abs => rfl
    | hinge => exact max_comm _ _
  rw [Fin.sum_univ_def]
  simp only [ErrFunc.costValue, ErrFunc.weight, hp]
  cases c.coeffs with
  | none => simp
  | some w => simp only [mul_comm]

/-- Value of the convexified cost in general. -/
theorem convex_value (c : ErrFunc K n m) (pen : PenaltyType) (mdl : OModel K) (hv : mdl.vars.Inv)
    (hc : mdl.cnts.Inv) (hvars : ∀ j, c.vars j < mdl.vars.reps.length)
    (hw : pen = .squared ∨ ∀ i, 0 ≤ c.weight i) (junk : Fin n → Fin m → K) (x : Nat → K) :
    ∃ s s', c.costConvex pen junk x mdl = some s ∧ ConvexObjective.addConstraintsToModel s = some s' ∧
      ∀ z, PartialMin s'.1 mdl.vars.reps.length mdl.cnts.reps.length s'.2.quad z
        (∑ i, c.weight i * penSpec pen (affDen (affFromValGrad (c.f (getVec x c.vars) i) (getVec x c.vars)
          (c.jac junk (getVec x c.vars) i) c.vars) z)) := by
  have g := good_foldlM (n0 := mdl.vars.reps.length) (m0 := mdl)
    (fun (s : BState K) (i : ULift.{u} (Fin m)) =>
      c.costRow pen (c.f (getVec x c.vars)) (c.jac junk (getVec x c.vars)) (getVec x c.vars) s i.down)
    (fun i z => c.weight i.down * penSpec pen (affDen (affFromValGrad (c.f (getVec x c.vars) i.down)
      (getVec x c.vars) (c.jac junk (getVec x c.vars) i.down) c.vars) z))
    ((List.finRange m).map ULift.up) fun i _ => good_row c pen _ _ _ hvars i.down (hw.imp id fun h => h i.down)
  obtain ⟨s, s', h1, h2, h3⟩ := program hv hc g
  refine ⟨s, s', ?_, h2, fun z => ?_⟩
  · rw [← h1]
    simp only [ErrFunc.costConvex, List.foldlM_map]
  · have := h3 z
    rw [List.map_map] at this
    rw [Fin.sum_univ_def]
    exact this

/-- C64 (cost, general): with non-negative weights (any weights for squared costs) the convexified cost,
minimised over its slack variables, is the weighted penalty of a linear function of the variables that
differs from the first-order expansion of the error function around `x` by at most the clean-up error
`1e-7 * Σ|z_j|`, for every point `z`. -/
theorem C64_cost_convex_partial (c : ErrFunc K n m) (pen : PenaltyType) (mdl : OModel K) (hv : mdl.vars.Inv)
    (hc : mdl.cnts.Inv) (hvars : ∀ j, c.vars j < mdl.vars.reps.length)
    (hw : pen = .squared ∨ ∀ i, 0 ≤ c.weight i) (junk : Fin n → Fin m → K) (x : Nat → K) :
    ∃ s s', c.costConvex pen junk x mdl = some s ∧ ConvexObjective.addConstraintsToModel s = some s' ∧
      ∀ z, ∃ L : Fin m → K,
        (∀ i, |L i - firstOrder (c.f (getVec x c.vars) i) (c.jac junk (getVec x c.vars) i) (getVec x c.vars)
          (getVec z c.vars)| ≤ 1 / 10000000 * ∑ j, |z (c.vars j)|) ∧
        PartialMin s'.1 mdl.vars.reps.length mdl.cnts.reps.length s'.2.quad z
          (∑ i, c.weight i * penSpec pen (L i)) := by
  obtain ⟨s, s', h1, h2, h3⟩ := convex_value c pen mdl hv hc hvars hw junk x
  exact ⟨s, s', h1, h2, fun z => ⟨_, fun i => aff_error _ _ _ _ _, h3 z⟩⟩

/-- C64 (cost, touching): if no Jacobian entry falls under the clean-up threshold, the convexified cost at
the point of linearisation equals the cost. -/
theorem C64_cost_touches_partial (c : ErrFunc K n m) (pen : PenaltyType) (mdl : OModel K) (hv : mdl.vars.Inv)
    (hc : mdl.cnts.Inv) (hvars : ∀ j, c.vars j < mdl.vars.reps.length)
    (hw : pen = .squared ∨ ∀ i, 0 ≤ c.weight i) (junk : Fin n → Fin m → K) (x : Nat → K)
    (hJ : NoTiny (c.jac junk (getVec x c.vars))) :
    ∃ s s', c.costConvex pen junk x mdl = some s ∧ ConvexObjective.addConstraintsToModel s = some s' ∧
      PartialMin s'.1 mdl.vars.reps.length mdl.cnts.reps.length s'.2.quad x (c.costValue pen x) := by
  obtain ⟨s, s', h1, h2, h3⟩ := convex_value c pen mdl hv hc hvars hw junk x
  refine ⟨s, s', h1, h2, ?_⟩
  have := h3 x
  simp only [aff_exact _ _ _ _ _ (hJ _), firstOrder, sub_self, mul_zero, sum_const_zero, add_zero] at this
  rw [costValue_eq]; exact this

/-- The Jacobian of an affine error function, given or computed numerically. -/
theorem jac_affine (c : ErrFunc K n m) (a : Fin m → K) (A : Fin m → Fin n → K)
    (hf : c.f = fun x r => affine (a r) (A r) x) (hd : ∀ d, c.dfdx = some d → ∀ x, d x = A)
    (junk : Fin n → Fin m → K) (x : Fin n → K) : c.jac junk x = A := by
  simp only [ErrFunc.jac]
  cases h : c.dfdx with
  | some d => exact hd d h x
  | none =>
    simp only [hf]
    exact C41_forward_jac_affine junk a A x defaultEpsilon (by norm_num [defaultEpsilon])

theorem firstOrder_affine (a : K) (A : Fin n → K) (x z : Fin n → K) :
    firstOrder (affine a A x) A x z = affine a A z := by
  simp only [firstOrder, affine, mul_sub, sum_sub_distrib]; ring

/-- C64 (cost, affine error functions): for an affine error function, with its Jacobian given or computed
by the library's forward differences, the convexified cost equals the cost at every point. -/
theorem C64_cost_affine_partial (c : ErrFunc K n m) (pen : PenaltyType) (mdl : OModel K) (hv : mdl.vars.Inv)
    (hc : mdl.cnts.Inv) (hvars : ∀ j, c.vars j < mdl.vars.reps.length)
    (hw : pen = .squared ∨ ∀ i, 0 ≤ c.weight i) (junk : Fin n → Fin m → K) (x : Nat → K)
    (a : Fin m → K) (A : Fin m → Fin n → K)
    (hf : c.f = fun x r => affine (a r) (A r) x) (hd : ∀ d, c.dfdx = some d → ∀ x, d x = A) (hA : NoTiny A) :
    ∃ s s', c.costConvex pen junk x mdl = some s ∧ ConvexObjective.addConstraintsToModel s = some s' ∧
      ∀ z, PartialMin s'.1 mdl.vars.reps.length mdl.cnts.reps.length s'.2.quad z (c.costValue pen z) := by
  obtain ⟨s, s', h1, h2, h3⟩ := convex_value c pen mdl hv hc hvars hw junk x
  refine ⟨s, s', h1, h2, fun z => ?_⟩
  have := h3 z
  simp only [jac_affine c a A hf hd] at this
  simp only [aff_exact _ _ _ _ _ (hA _)] at this
  rw [costValue_eq]
  simp only [hf] at this ⊢
  simp only [firstOrder_affine] at this
  exact this

/-- The violation computed by the convexified constraint. -/
theorem cnt_violation (c : ErrFunc K n m) (eq : Bool) (junk : Fin n → Fin m → K) (x z : Nat → K) :
    (c.cntConvex eq junk x).violation z =
      ∑ i, (fun v : K => if eq then |v| else max 0 v)
        (c.weight i * affDen (affFromValGrad (c.f (getVec x c.vars) i) (getVec x c.vars)
          (c.jac junk (getVec x c.vars) i) c.vars) z) := by
  rw [violation_eq, Fin.sum_univ_def]
  simp only [ErrFunc.cntConvex]
  have key : ∀ (l : List (Fin m)) (s : ConvexConstraints K),
      violationSpec (l.foldl (c.cntRow eq (c.f (getVec x c.vars)) (c.jac junk (getVec x c.vars))
        (getVec x c.vars)) s) z = violationSpec s z +
      (l.map fun i => (fun v : K => if eq then |v| else max 0 v)
        (c.weight i * affDen (affFromValGrad (c.f (getVec x c.vars) i) (getVec x c.vars)
          (c.jac junk (getVec x c.vars) i) c.vars) z)).sum := by
    intro l
    induction l with
    | nil => intro s; simp
    | cons i l ih =>
      intro s
      rw [List.foldl_cons, ih, List.map_cons, List.sum_cons, ← add_assoc]
      congr 1
      cases hc : c.coeffs with
      | none =>
        cases eq <;>
          simp [ErrFunc.cntRow, ErrFunc.weight, hc, ConvexConstraints.addEq, ConvexConstraints.addIneq,
            violationSpec] <;> ring
      | some w =>
        by_cases h0 : w i = 0
        · cases eq <;> simp [ErrFunc.cntRow, ErrFunc.weight, hc, h0]
        · cases eq <;>
            simp [ErrFunc.cntRow, ErrFunc.weight, hc, h0, ConvexConstraints.addEq, ConvexConstraints.addIneq,
              violationSpec, affDen_scale, mul_comm (w i), abs_mul] <;> ring
  rw [key]
  simp [violationSpec, ConvexConstraints.new]

theorem cntViolation_eq (c : ErrFunc K n m) (eq : Bool) (x : Nat → K) :
    c.cntViolation eq x = ∑ i, (fun v : K => if eq then |v| else max 0 v)
      (c.weight i * c.f (getVec x c.vars) i) := by
  have hf : ∀ (l : List K) (a : K), l.foldl (· + ·) a = a + l.sum := by
    intro l
    induction l with
    | nil => simp
    | cons b l ih => intro a; simp [ih, add_assoc]
  have hp : ∀ a : K, (if 0 < a then a else 0) = max 0 a := by
    intro a
    split_ifs with h
    · rw [max_eq_right (le_of_lt h)]
    · rw [max_eq_left (not_lt.1 h)]
  rw [Fin.sum_univ_def, ErrFunc.cntViolation, hf, zero_add]
  simp only [ErrFunc.cntViolations, ErrFunc.cntValue, List.map_map, hp, ErrFunc.weight]
  cases c.coeffs with
  | none => simp [Function.comp_def]
  | some w => simp [Function.comp_def, mul_comm]

/-- C64 (constraint, touching): with any weights (negative and zero included), the violation of the
linearised constraint at the point of linearisation equals the violation of the constraint, provided no
Jacobian entry falls under the clean-up threshold. -/
theorem C64_constraint_touches_partial (c : ErrFunc K n m) (eq : Bool) (junk : Fin n → Fin m → K) (x : Nat → K)
    (hJ : NoTiny (c.jac junk (getVec x c.vars))) :
    (c.cntConvex eq junk x).violation x = c.cntViolation eq x := by
  rw [cnt_violation, cntViolation_eq]
  simp only [aff_exact _ _ _ _ _ (hJ _), firstOrder, sub_self, mul_zero, sum_const_zero, add_zero]

/-- C64 (constraint, affine error functions): equality at every point. -/
theorem C64_constraint_affine_partial (c : ErrFunc K n m) (eq : Bool) (junk : Fin n → Fin m → K) (x z : Nat → K)
    (a : Fin m → K) (A : Fin m → Fin n → K)
    (hf : c.f = fun x r => affine (a r) (A r) x) (hd : ∀ d, c.dfdx = some d → ∀ x, d x = A) (hA : NoTiny A) :
    (c.cntConvex eq junk x).violation z = c.cntViolation eq z := by
  rw [cnt_violation, cntViolation_eq]
  simp only [jac_affine c a A hf hd, aff_exact _ _ _ _ _ (hA _)]
  simp only [hf, firstOrder_affine]

/-- C64 violated for a negative weight: the error function `x`, weight `-1`, absolute penalty.  The cost at
`x = 1` is `-1`, its convexification has minimum `1`. -/
theorem C64_violated_negative_weight :
    ∃ (c : ErrFunc ℚ 1 1) (mdl : OModel ℚ) (s s' : BState ℚ), mdl.vars.reps.length = 1 ∧
      c.costConvex .abs (fun _ _ => 0) (fun _ => 1) mdl = some s ∧
      ConvexObjective.addConstraintsToModel s = some s' ∧ c.costValue .abs (fun _ => 1) = -1 ∧
      PartialMin s'.1 1 0 s'.2.quad (fun _ => 1) 1 := by
  obtain ⟨m', h1, h2, h3, h4, h5, _⟩ :=
    addVar_spec (m := (OModel.empty : OModel ℚ)) Store.inv_empty Ext.negInf Ext.posInf
  have hc : m'.cnts = (OModel.empty : OModel ℚ).cnts := h5
  have hlen : m'.vars.reps.length = 1 := by rw [h4]; rfl
  let c : ErrFunc ℚ 1 1 := ⟨fun x _ => x 0, some fun _ _ _ => 1, fun _ => 0, some fun _ => -1⟩
  let e : AffExpr ℚ Nat := (affFromValGrad (1 : ℚ) (fun _ : Fin 1 => 1) (fun _ => 1) (fun _ => 0)).scale (-1)
  have he : e.Below m'.vars.reps.length := scale_below (aff_below _ _ _ fun _ => by omega) _
  obtain ⟨s, s', g1, g2, g3⟩ := C08_abs m' h2 (by rw [hc]; exact Store.inv_empty) e he 1 zero_le_one
  refine ⟨c, m', s, s', hlen, ?_, g2, by decide +kernel, ?_⟩
  · rw [← g1]
    simp only [ErrFunc.costConvex, List.finRange_succ, List.finRange_zero, List.map_nil, List.foldlM_cons,
      List.foldlM_nil]
    simp only [ErrFunc.costRow, c, ErrFunc.jac, getVec]
    norm_num
    rfl
  · have := g3 fun _ => 1
    rw [hlen, hc] at this
    have hv : (1 : ℚ) * |affDen e fun _ => 1| = 1 := by
      simp only [e, affDen_scale, aff_value]
      norm_num
    rw [hv] at this
    exact this

/-- C64 violated by the clean-up: the constraint `x/10^8 = 0` at `x = 10^9` has violation `10`, its
linearisation has violation `0` there (and everywhere). -/
theorem C64_violated_small_jacobian :
    ∃ (c : ErrFunc ℚ 1 1) (x : Nat → ℚ), c.cntViolation true x = 10 ∧
      ∀ z, (c.cntConvex true (fun _ _ => 0) x).violation z = 0 := by
  refine ⟨⟨fun x _ => x 0 / 100000000, some fun _ _ _ => 1 / 100000000, fun _ => 0, none⟩, fun _ => 1000000000,
    by decide +kernel, fun z => ?_⟩
  rw [cnt_violation]
  simp only [aff_value, ErrFunc.weight, ErrFunc.jac, getVec]
  norm_num

/-- non-vacuity for C64: a two-row affine error function of two variables with weights. -/
example : ∃ (c : ErrFunc ℚ 2 2) (a : Fin 2 → ℚ) (A : Fin 2 → Fin 2 → ℚ),
    (c.f = fun x r => affine (a r) (A r) x) ∧ c.dfdx = none ∧ (∀ i, 0 ≤ c.weight i) ∧ NoTiny A ∧
    c.costValue .hinge (fun _ => 1) = 8 := by
  refine ⟨⟨fun x r => affine (![1, -7] r) (![![2, 1], ![0, 3]] r) x, none, fun i => i, some ![2, 0]⟩, ![1, -7],
    ![![2, 1], ![0, 3]], rfl, rfl, ?_, ?_, by decide +kernel⟩
  · intro i; simp only [ErrFunc.weight]; revert i; decide +kernel
  · intro i j; revert i j; simp only [abs_eq_max_neg]; decide +kernel

/-! ### C69 -/

/-- Specification: second-order expansion with curvature matrix `P`. -/
def secondOrder (y : K) (g : Fin n → K) (P : Fin n → Fin n → K) (x z : Fin n → K) : K :=
  y + ∑ j, g j * (z j - x j) + 1 / 2 * ∑ i, ∑ j, (z i - x i) * P i j * (z j - x j)

/-- Specification: positive semidefinite. -/
def PSD (P : Fin n → Fin n → K) : Prop := ∀ v : Fin n → K, 0 ≤ ∑ i, ∑ j, v i * P i j * v j

/-- Specification: convexity on the line between any two points. -/
def ConvexFn (q : (Nat → K) → K) : Prop :=
  ∀ (z w : Nat → K) (t : K), 0 ≤ t → t ≤ 1 →
    q (fun i => t * z i + (1 - t) * w i) ≤ t * q z + (1 - t) * q w

theorem quadTermsDen_diag (h : Fin n → K) (vars : Fin n → Nat) (z : Nat → K) :
    quadTermsDen ((List.finRange n).map fun i => (h i, vars i, vars i)) z =
      ∑ j, h j * z (vars j) * z (vars j) := by
  rw [quadTermsDen, Fin.sum_univ_def, List.map_map]; rfl

theorem quadTermsDen_full (P : Fin n → Fin n → K) (hP : ∀ i j, P i j = P j i) (vars : Fin n → Nat) (z : Nat → K)
    (l : List (Fin n)) :
    quadTermsDen (fullTerms P vars l) z =
      1 / 2 * (l.map fun i => (l.map fun j => z (vars i) * P i j * z (vars j)).sum).sum := by
  induction l with
  | nil => simp [fullTerms]
  | cons a l ih =>
    have e1 : quadTermsDen (l.map fun j => (P a j, vars a, vars j)) z =
        (l.map fun j => z (vars a) * P a j * z (vars j)).sum := by
      rw [quadTermsDen, List.map_map]
      congr 1
      apply List.map_congr_left
      intro j _
      simp only [Function.comp]; ring
    have e2 : (l.map fun i => (((a :: l).map fun j => z (vars i) * P i j * z (vars j)).sum)).sum =
        (l.map fun j => z (vars a) * P a j * z (vars j)).sum +
        (l.map fun i => (l.map fun j => z (vars i) * P i j * z (vars j)).sum).sum := by
      simp only [List.map_cons, List.sum_cons, List.sum_map_add]
      congr 1
      congr 1
      apply List.map_congr_left
      intro j _
      rw [hP j a]; ring
    rw [fullTerms, List.cons_append, quadTermsDen_cons, quadTermsDen_append, ih, e1, List.map_cons, List.sum_cons,
      e2, List.map_cons, List.sum_cons]
    ring

theorem posHess_entry (eig : (Fin n → K) × (Fin n → Fin n → K)) (r c : Fin n) :
    posHess eig r c = ∑ i, if 0 < eig.1 i then eig.1 i * eig.2 i r * eig.2 i c else 0 := by
  have key : ∀ (l : List (Fin n)) (P : Fin n → Fin n → K),
      l.foldl (fun P i => if 0 < eig.1 i then fun r c => P r c + eig.1 i * eig.2 i r * eig.2 i c else P) P r c =
        P r c + (l.map fun i => if 0 < eig.1 i then eig.1 i * eig.2 i r * eig.2 i c else 0).sum := by
    intro l
    induction l with
    | nil => simp
    | cons a l ih =>
      intro P
      rw [List.foldl_cons, ih]
      by_cases h : 0 < eig.1 a
      · simp [h]; ring
      · simp [h]
  rw [posHess, key, Fin.sum_univ_def, zero_add]

theorem posHess_symm (eig : (Fin n → K) × (Fin n → Fin n → K)) (r c : Fin n) :
    posHess eig r c = posHess eig c r := by
  rw [posHess_entry, posHess_entry]
  apply sum_congr rfl; intro i _; split_ifs <;> ring

theorem posHess_psd (eig : (Fin n → K) × (Fin n → Fin n → K)) : PSD (posHess eig) := by
  intro v
  have : ∑ r, ∑ c, v r * posHess eig r c * v c =
      ∑ i, if 0 < eig.1 i then eig.1 i * (∑ r, v r * eig.2 i r) ^ 2 else 0 := by
    have e : ∀ r c, v r * posHess eig r c * v c =
        ∑ i, if 0 < eig.1 i then eig.1 i * ((v r * eig.2 i r) * (v c * eig.2 i c)) else 0 := by
      intro r c
      rw [posHess_entry, mul_sum, sum_mul]
      apply sum_congr rfl; intro i _; split_ifs <;> ring
    simp only [e]
    rw [sum_congr rfl (fun r _ => sum_comm), sum_comm]
    apply sum_congr rfl
    intro i _
    split_ifs with h
    · rw [pow_two, sum_mul_sum, mul_sum]; apply sum_congr rfl; intro r _; rw [mul_sum]
    · simp
  rw [this]
  apply sum_nonneg
  intro i _
  split_ifs with h
  · exact mul_nonneg (le_of_lt h) (sq_nonneg _)
  · exact le_refl _

theorem secondOrder_expand (y : K) (g : Fin n → K) (P : Fin n → Fin n → K) (hP : ∀ i j, P i j = P j i)
    (x z : Fin n → K) :
    secondOrder y g P x z = y - (∑ j, g j * x j) + 1 / 2 * (∑ i, x i * ∑ j, P i j * x j) +
      (∑ i, (g i - ∑ j, P i j * x j) * z i) + 1 / 2 * ∑ i, ∑ j, z i * P i j * z j := by
  have e1 : ∑ i, ∑ j, (z i - x i) * P i j * (z j - x j) =
      (∑ i, ∑ j, z i * P i j * z j) - (∑ i, z i * ∑ j, P i j * x j) - (∑ i, ∑ j, x i * P i j * z j) +
      ∑ i, x i * ∑ j, P i j * x j := by
    simp only [mul_sum, ← sum_sub_distrib, ← sum_add_distrib]
    apply sum_congr rfl; intro i _; apply sum_congr rfl; intro j _; ring
  have e2 : ∑ i, ∑ j, x i * P i j * z j = ∑ i, z i * ∑ j, P i j * x j := by
    rw [sum_comm]
    apply sum_congr rfl; intro i _
    rw [mul_sum]
    apply sum_congr rfl; intro j _
    rw [hP j i]; ring
  have e3 : ∑ i, (g i - ∑ j, P i j * x j) * z i = (∑ i, g i * z i) - ∑ i, z i * ∑ j, P i j * x j := by
    rw [← sum_sub_distrib]; apply sum_congr rfl; intro i _; ring
  have e4 : ∑ j, g j * (z j - x j) = (∑ j, g j * z j) - ∑ j, g j * x j := by
    rw [← sum_sub_distrib]; apply sum_congr rfl; intro i _; ring
  rw [secondOrder, e1, e2, e3, e4]
  ring

/-- C69: whatever function, point and eigenvalue solver, the convex cost built from a scalar function is a
second-order expansion around the point, with the value and the numerical gradient of the function there
and a positive semidefinite curvature.  In particular it touches the cost at the point. -/
theorem C69_convex_form (c : FuncCost K n) (junk : Fin n → K)
    (eig : (Fin n → Fin n → K) → (Fin n → K) × (Fin n → Fin n → K)) (x : Nat → K) :
    ∃ (g : Fin n → K) (P : Fin n → Fin n → K), PSD P ∧ (∀ i j, P i j = P j i) ∧
      (∀ z, (c.convex junk eig x).value z = secondOrder (c.value x) g P (getVec x c.vars) (getVec z c.vars)) ∧
      (c.convex junk eig x).value x = c.value x := by
  have touch : ∀ (g : Fin n → K) (P : Fin n → Fin n → K) (v : K) (y : Fin n → K), secondOrder v g P y y = v := by
    intro g P v y; simp [secondOrder]
  suffices h : ∃ (g : Fin n → K) (P : Fin n → Fin n → K), PSD P ∧ (∀ i j, P i j = P j i) ∧
      (∀ z, (c.convex junk eig x).value z = secondOrder (c.value x) g P (getVec x c.vars) (getVec z c.vars)) by
    obtain ⟨g, P, h1, h2, h3⟩ := h
    exact ⟨g, P, h1, h2, h3, by rw [h3, touch]⟩
  cases hc : c.fullHessian with
  | true =>
    refine ⟨(calcGradHess junk c.f (getVec x c.vars) defaultEpsilon).2.1,
      posHess (eig (calcGradHess junk c.f (getVec x c.vars) defaultEpsilon).2.2), posHess_psd _, posHess_symm _, ?_⟩
    intro z
    simp only [FuncCost.convex, hc, if_true, ConvexObjective.value, C01_quad_value, quadDen, affDen,
      linDen_finRange, dot_eq]
    rw [quadTermsDen_full _ (posHess_symm _), ← Fin.sum_univ_def, secondOrder_expand _ _ _ (posHess_symm _)]
    simp only [← Fin.sum_univ_def, getVec]
    rfl
  | false =>
    let h : Fin n → K := fun i => max ((calcGradAndDiagHess junk c.f (getVec x c.vars) defaultEpsilon).2.2 i) 0
    have hd : ∀ (a b : Fin n → K), ∀ i, ∑ j, a i * (if i = j then h i else 0) * b j = a i * h i * b i := by
      intro a b i
      rw [sum_eq_single i]
      · simp
      · intro j _ hj; simp [Ne.symm hj]
      · simp
    have hd' : ∀ (b : Fin n → K), ∀ i, ∑ j, (if i = j then h i else 0) * b j = h i * b i := by
      intro b i
      rw [sum_eq_single i]
      · simp
      · intro j _ hj; simp [Ne.symm hj]
      · simp
    have hs : ∀ i j : Fin n, (if i = j then h i else 0) = if j = i then h j else 0 := by
      intro i j; by_cases e : i = j
      · subst e; rfl
      · simp [e, Ne.symm e]
    refine ⟨(calcGradAndDiagHess junk c.f (getVec x c.vars) defaultEpsilon).2.1,
      fun i j => if i = j then h i else 0, ?_, hs, ?_⟩
    · intro v
      apply sum_nonneg
      intro i _
      rw [hd]
      have : 0 ≤ h i := le_max_right _ _
      nlinarith [mul_nonneg this (mul_self_nonneg (v i))]
    · intro z
      simp only [FuncCost.convex, hc, Bool.false_eq_true, if_false, ConvexObjective.value, C01_quad_value, quadDen,
        affDen, linDen_finRange, dot_eq]
      rw [quadTermsDen_diag, secondOrder_expand _ _ _ hs]
      simp only [hd, hd', getVec]
      have : ∀ j, h j * (1 / 2) * z (c.vars j) * z (c.vars j) = 1 / 2 * (z (c.vars j) * h j * z (c.vars j)) := by
        intro j; ring
      show _ + ∑ j, h j * (1 / 2) * z (c.vars j) * z (c.vars j) = _
      simp only [this, ← mul_sum]
      have e : ∀ i, ∑ j, (z (c.vars i) * if i = j then h i else 0) * z (c.vars j) =
          z (c.vars i) * h i * z (c.vars i) := fun i => hd (fun i => z (c.vars i)) (fun i => z (c.vars i)) i
      simp only [e]
      rfl

/-- C69: the convex cost is a convex function. -/
theorem C69_convex (c : FuncCost K n) (junk : Fin n → K)
    (eig : (Fin n → Fin n → K) → (Fin n → K) × (Fin n → Fin n → K)) (x : Nat → K) :
    ConvexFn (c.convex junk eig x).value := by
  obtain ⟨g, P, h1, h2, h3, _⟩ := C69_convex_form c junk eig x
  intro z w t ht0 ht1
  rw [h3, h3, h3]
  have key : t * secondOrder (c.value x) g P (getVec x c.vars) (getVec z c.vars) +
      (1 - t) * secondOrder (c.value x) g P (getVec x c.vars) (getVec w c.vars) -
      secondOrder (c.value x) g P (getVec x c.vars) (getVec (fun i => t * z i + (1 - t) * w i) c.vars) =
      1 / 2 * (t * (1 - t)) * ∑ i, ∑ j, (z (c.vars i) - w (c.vars i)) * P i j * (z (c.vars j) - w (c.vars j)) := by
    simp only [secondOrder, getVec]
    have lin : ∑ j, g j * (t * z (c.vars j) + (1 - t) * w (c.vars j) - x (c.vars j)) =
        t * (∑ j, g j * (z (c.vars j) - x (c.vars j))) + (1 - t) * ∑ j, g j * (w (c.vars j) - x (c.vars j)) := by
      simp only [mul_sum, ← sum_add_distrib]
      apply sum_congr rfl; intro j _; ring
    have quad : ∑ i, ∑ j, (t * z (c.vars i) + (1 - t) * w (c.vars i) - x (c.vars i)) * P i j *
          (t * z (c.vars j) + (1 - t) * w (c.vars j) - x (c.vars j)) =
        t * (∑ i, ∑ j, (z (c.vars i) - x (c.vars i)) * P i j * (z (c.vars j) - x (c.vars j))) +
        (1 - t) * (∑ i, ∑ j, (w (c.vars i) - x (c.vars i)) * P i j * (w (c.vars j) - x (c.vars j))) -
        t * (1 - t) * ∑ i, ∑ j, (z (c.vars i) - w (c.vars i)) * P i j * (z (c.vars j) - w (c.vars j)) := by
      simp only [mul_sum, ← sum_add_distrib, ← sum_sub_distrib]
      apply sum_congr rfl; intro i _; apply sum_congr rfl; intro j _; ring
    rw [lin, quad]
    ring
  have h4 : 0 ≤ t * (1 - t) := mul_nonneg ht0 (sub_nonneg.2 ht1)
  have h5 := mul_nonneg (mul_nonneg (by norm_num : (0 : K) ≤ 1 / 2) h4)
    (h1 fun i => z (c.vars i) - w (c.vars i))
  rw [← key] at h5
  linarith

/-- C69: for convex quadratic costs with non-negative Hessian diagonal and no cross terms, the diagonal
version is exact at every point. -/
theorem C69_exact_separable (c : FuncCost K n) (junk : Fin n → K)
    (eig : (Fin n → Fin n → K) → (Fin n → K) × (Fin n → Fin n → K)) (x z : Nat → K) (hd : c.fullHessian = false)
    (k : K) (b h : Fin n → K) (hh : ∀ i, 0 ≤ h i)
    (hf : c.f = fun y => k + ∑ j, b j * y j + 1 / 2 * ∑ j, h j * y j ^ 2) :
    (c.convex junk eig x).value z = c.value z := by
  have hq : c.f = quadratic k b fun i j => if i = j then h i else 0 := by
    rw [hf]; funext y
    simp only [quadratic]
    congr 2
    apply sum_congr rfl; intro i _
    rw [sum_eq_single i]
    · simp; ring
    · intro j _ hj; simp [Ne.symm hj]
    · simp
  have hs : ∀ i j : Fin n, (if i = j then h i else 0) = if j = i then h j else 0 := by
    intro i j; by_cases e : i = j
    · subst e; rfl
    · simp [e, Ne.symm e]
  have e := C41_diag_hess_quadratic junk k b (fun i j => if i = j then h i else 0) hs (getVec x c.vars)
    (defaultEpsilon : K) (by norm_num [defaultEpsilon])
  have hd' : ∀ (b : Fin n → K), ∀ i, ∑ j, (if i = j then h i else 0) * b j = h i * b i := by
    intro b i
    rw [sum_eq_single i]
    · simp
    · intro j _ hj; simp [Ne.symm hj]
    · simp
  simp only [FuncCost.convex, hd, Bool.false_eq_true, if_false, ConvexObjective.value, C01_quad_value, quadDen,
    affDen, linDen_finRange, dot_eq, quadTermsDen_diag, FuncCost.value]
  rw [hq, e, ← hq, hf]
  simp only [if_true, max_eq_left (hh _), hd', getVec]
  have e1 : ∑ j, (b j + h j * x (c.vars j)) * x (c.vars j) =
      (∑ j, b j * x (c.vars j)) + ∑ j, h j * x (c.vars j) ^ 2 := by
    rw [← sum_add_distrib]; apply sum_congr rfl; intro j _; ring
  have e2 : ∑ j, x (c.vars j) * (h j * x (c.vars j)) = ∑ j, h j * x (c.vars j) ^ 2 := by
    apply sum_congr rfl; intro j _; ring
  have e3 : ∑ j, (b j + h j * x (c.vars j) - h j * x (c.vars j)) * z (c.vars j) = ∑ j, b j * z (c.vars j) := by
    apply sum_congr rfl; intro j _; ring
  have e4 : ∑ j, h j * (1 / 2) * z (c.vars j) * z (c.vars j) = 1 / 2 * ∑ j, h j * z (c.vars j) ^ 2 := by
    rw [mul_sum]; apply sum_congr rfl; intro j _; ring
  rw [e1, e2, e3, e4]
  ring

/-- non-vacuity for C69: a non-convex function of one variable gets a convex expansion that touches it. -/
example : ((FuncCost.mk (fun x : Fin 1 → ℚ => - x 0 ^ 2) (fun _ => 0) false).convex (fun _ => 0)
    (fun _ => (fun _ => 0, fun _ _ => 0)) (fun _ => 3)).value (fun _ => 3) = -9 := by decide +kernel

end Verif.Sco
