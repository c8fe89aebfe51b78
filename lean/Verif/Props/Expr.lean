import Verif.Model.Expr
import Mathlib.Tactic.Ring
import Mathlib.Tactic.Linarith
import Mathlib.Tactic.NormNum
import Mathlib.Algebra.BigOperators.Ring.List
import Mathlib.Algebra.Order.BigOperators.Group.List

/-!
C01 (arithmetic preserves value), C02 (products and squares are exact), C03 (`cleanupAff` error bound).

Specification: an affine expression denotes `constant + Σ coeff * x(var)` (`affDen`), a quadratic one
adds `Σ coeff * x(var1) * x(var2)` (`quadDen`), both as plain sums over the list of terms.
-/

set_option linter.unusedSectionVars false

namespace Verif.Sco

universe u v
variable {K : Type u} {V : Type v}

section den
variable [Field K]

/-- Specification: the mathematical value of a list of linear terms. -/
def linDen (ts : List (K × V)) (x : V → K) : K := (ts.map fun t => t.1 * x t.2).sum
/-- Specification: the mathematical value of an affine expression. -/
def affDen (e : AffExpr K V) (x : V → K) : K := e.constant + linDen e.terms x
/-- Specification: the mathematical value of a list of quadratic terms. -/
def quadTermsDen (ts : List (K × V × V)) (x : V → K) : K :=
  (ts.map fun t => t.1 * x t.2.1 * x t.2.2).sum
/-- Specification: the mathematical value of a quadratic expression. -/
def quadDen (q : QuadExpr K V) (x : V → K) : K := affDen q.aff x + quadTermsDen q.terms x

theorem foldl_add_eq (f : α → K) (l : List α) (c : K) :
    l.foldl (fun out t => out + f t) c = c + (l.map f).sum := by
  induction l generalizing c with
  | nil => simp
  | cons a l ih => simp [ih, add_assoc]

/-- C01: `AffExpr::value` computes the mathematical value. -/
theorem C01_aff_value (e : AffExpr K V) (x : V → K) : e.value x = affDen e x := by
  simp [AffExpr.value, affDen, linDen, foldl_add_eq (fun t : K × V => t.1 * x t.2)]

/-- C01: `QuadExpr::value` computes the mathematical value. -/
theorem C01_quad_value (q : QuadExpr K V) (x : V → K) : q.value x = quadDen q x := by
  simp [QuadExpr.value, quadDen, quadTermsDen, C01_aff_value,
    foldl_add_eq (fun t : K × V × V => t.1 * x t.2.1 * x t.2.2)]

@[simp] theorem linDen_nil (x : V → K) : linDen [] x = 0 := rfl
@[simp] theorem linDen_cons (t : K × V) (ts) (x : V → K) :
    linDen (t :: ts) x = t.1 * x t.2 + linDen ts x := by simp [linDen]
@[simp] theorem linDen_append (a b : List (K × V)) (x : V → K) :
    linDen (a ++ b) x = linDen a x + linDen b x := by simp [linDen]
theorem linDen_mulRight (a : List (K × V)) (c : K) (x : V → K) :
    linDen (a.map fun t => (t.1 * c, t.2)) x = linDen a x * c := by
  induction a with
  | nil => simp
  | cons t a ih => simp [ih]; ring
theorem linDen_mulLeft (a : List (K × V)) (c : K) (x : V → K) :
    linDen (a.map fun t => (c * t.1, t.2)) x = c * linDen a x := by
  induction a with
  | nil => simp
  | cons t a ih => simp [ih]; ring
@[simp] theorem quadTermsDen_nil (x : V → K) : quadTermsDen [] x = 0 := rfl
@[simp] theorem quadTermsDen_cons (t : K × V × V) (ts) (x : V → K) :
    quadTermsDen (t :: ts) x = t.1 * x t.2.1 * x t.2.2 + quadTermsDen ts x := by simp [quadTermsDen]
@[simp] theorem quadTermsDen_append (a b : List (K × V × V)) (x : V → K) :
    quadTermsDen (a ++ b) x = quadTermsDen a x + quadTermsDen b x := by simp [quadTermsDen]
theorem quadTermsDen_mulRight (a : List (K × V × V)) (c : K) (x : V → K) :
    quadTermsDen (a.map fun t => (t.1 * c, t.2)) x = quadTermsDen a x * c := by
  induction a with
  | nil => simp
  | cons t a ih => simp [ih]; ring

/-- C01: scaling (expr_ops.hpp 9-20, 85-94). -/
theorem C01_scale (e : AffExpr K V) (q : QuadExpr K V) (a : K) (x : V → K) :
    (e.scale a).value x = e.value x * a ∧ (q.scale a).value x = q.value x * a := by
  simp only [C01_aff_value, C01_quad_value, affDen, quadDen, AffExpr.scale, QuadExpr.scale,
    linDen_mulRight, quadTermsDen_mulRight]
  constructor <;> ring

/-- C01: constants and single variables. -/
theorem C01_constructors (a : K) (v : V) (x : V → K) :
    (AffExpr.ofConst a : AffExpr K V).value x = a ∧ (AffExpr.ofVar v : AffExpr K V).value x = x v ∧
    (AffExpr.zero : AffExpr K V).value x = 0 ∧ (QuadExpr.ofConst a : QuadExpr K V).value x = a ∧
    (QuadExpr.ofVar v : QuadExpr K V).value x = x v ∧ (QuadExpr.zero : QuadExpr K V).value x = 0 := by
  simp [AffExpr.value, QuadExpr.value, AffExpr.ofConst, AffExpr.ofVar, AffExpr.zero, QuadExpr.ofConst,
    QuadExpr.ofVar, QuadExpr.zero]

/-- C01: a `QuadExpr` built from an affine one has the same value. -/
theorem C01_ofAff (a : AffExpr K V) (x : V → K) : (QuadExpr.ofAff a).value x = a.value x := by
  simp [QuadExpr.value, QuadExpr.ofAff]

/-- C01: all overloads of `exprInc`/`exprAdd`. -/
theorem C01_inc (a b : AffExpr K V) (p q : QuadExpr K V) (c : K) (v : V) (x : V → K) :
    (a.incConst c).value x = a.value x + c ∧ (a.inc b).value x = a.value x + b.value x ∧
    (a.incVar v).value x = a.value x + x v ∧
    (p.incConst c).value x = p.value x + c ∧ (p.incVar v).value x = p.value x + x v ∧
    (p.incAff b).value x = p.value x + b.value x ∧ (p.inc q).value x = p.value x + q.value x := by
  simp only [C01_aff_value, C01_quad_value, affDen, quadDen, AffExpr.incConst, AffExpr.inc,
    AffExpr.incVar, AffExpr.ofVar, QuadExpr.incConst, QuadExpr.incVar, QuadExpr.incAff, QuadExpr.inc,
    linDen_append, quadTermsDen_append, linDen_cons, linDen_nil]
  refine ⟨?_, ?_, ?_, ?_, ?_, ?_, ?_⟩ <;> ring

/-- C01: all overloads of `exprDec`/`exprSub`. -/
theorem C01_dec (a b : AffExpr K V) (p q : QuadExpr K V) (c : K) (v : V) (x : V → K) :
    (a.decConst c).value x = a.value x - c ∧ (a.dec b).value x = a.value x - b.value x ∧
    (a.decVar v).value x = a.value x - x v ∧
    (p.decConst c).value x = p.value x - c ∧ (p.decVar v).value x = p.value x - x v ∧
    (p.decAff b).value x = p.value x - b.value x ∧ (p.dec q).value x = p.value x - q.value x := by
  simp only [C01_aff_value, C01_quad_value, affDen, quadDen, AffExpr.decConst, AffExpr.dec, AffExpr.scale,
    AffExpr.inc, AffExpr.decVar, AffExpr.ofVar, QuadExpr.decConst, QuadExpr.decVar, QuadExpr.decAff,
    QuadExpr.dec, QuadExpr.inc, QuadExpr.scale, linDen_append, quadTermsDen_append, linDen_mulRight,
    quadTermsDen_mulRight, linDen_cons, linDen_nil]
  refine ⟨?_, ?_, ?_, ?_, ?_, ?_, ?_⟩ <;> ring

/-- C01: `exprMult(Var, double)`. -/
theorem C01_multVar (v : V) (b : K) (x : V → K) : (exprMultVar v b).value x = b * x v := by
  simp [exprMultVar, (C01_scale (AffExpr.ofVar v) QuadExpr.zero b x).1, (C01_constructors 0 v x).2.1,
    mul_comm]

/-- non-vacuity for C01: a concrete expression with a repeated variable. -/
example : ((AffExpr.mk 1 [(2, 0), (3, 0)] : AffExpr ℚ ℕ).dec (AffExpr.ofVar 0)).value (fun _ => 5) = 21 := by
  rw [(C01_dec _ _ QuadExpr.zero QuadExpr.zero 0 0 _).2.1]
  norm_num [AffExpr.value, AffExpr.ofVar]

theorem quadTermsDen_flatMap (s t : List (K × V)) (x : V → K) :
    quadTermsDen (s.flatMap fun a => t.map fun b => (a.1 * b.1, a.2, b.2)) x =
      linDen s x * linDen t x := by
  induction s with
  | nil => simp
  | cons a s ih =>
    have h : ∀ l : List (K × V), quadTermsDen (l.map fun b => (a.1 * b.1, a.2, b.2)) x =
        a.1 * x a.2 * linDen l x := by
      intro l
      induction l with
      | nil => simp
      | cons b l ihl => simp [ihl]; ring
    simp [List.flatMap_cons, ih, h]; ring

theorem quadTermsDen_squareTerms (s : List (K × V)) (x : V → K) :
    quadTermsDen (squareTerms s) x = linDen s x * linDen s x := by
  induction s with
  | nil => simp [squareTerms]
  | cons a s ih =>
    have h : ∀ l : List (K × V), quadTermsDen (l.map fun b => (2 * a.1 * b.1, a.2, b.2)) x =
        2 * a.1 * x a.2 * linDen l x := by
      intro l
      induction l with
      | nil => simp
      | cons b l ihl => simp [ihl]; ring
    simp [squareTerms, ih, h]; ring

/-- C02: the product of two affine expressions evaluates to the product of their values. -/
theorem C02_mul (a b : AffExpr K V) (x : V → K) : (a.mul b).value x = a.value x * b.value x := by
  simp only [C01_aff_value, C01_quad_value, affDen, quadDen, AffExpr.mul, linDen_append, linDen_mulLeft,
    quadTermsDen_flatMap]
  ring

/-- C02: the square of a variable. -/
theorem C02_squareVar (v : V) (x : V → K) : (exprSquareVar v : QuadExpr K V).value x = x v * x v := by
  simp [exprSquareVar, QuadExpr.value, AffExpr.value, AffExpr.zero]

/-- C02: the square of an affine expression evaluates to the square of its value. -/
theorem C02_square (a : AffExpr K V) (x : V → K) : a.square.value x = a.value x * a.value x := by
  simp only [C01_aff_value, C01_quad_value, affDen, quadDen, AffExpr.square, quadTermsDen_squareTerms]
  have := linDen_mulLeft a.terms (2 * a.constant) x
  rw [this]; ring

/-- C02: a squared cost is never negative. -/
theorem C02_square_nonneg [LinearOrder K] [IsStrictOrderedRing K] (a : AffExpr K V) (x : V → K) :
    0 ≤ a.square.value x := by
  rw [C02_square]; exact mul_self_nonneg _

/-- C02: the number of quadratic terms reserved by the code, `naff*(naff+1)/2`, is the number produced. -/
theorem C02_square_size (a : AffExpr K V) :
    2 * a.square.terms.length = a.terms.length * (a.terms.length + 1) := by
  have : ∀ s : List (K × V), 2 * (squareTerms s).length = s.length * (s.length + 1) := by
    intro s
    induction s with
    | nil => simp [squareTerms]
    | cons t s ih =>
      simp only [squareTerms, List.length_append, List.length_cons, List.length_map]
      rw [Nat.mul_add, ih]; ring
  exact this _

/-- non-vacuity for C02: repeated variable, mixed signs. -/
example : (AffExpr.mk 1 [(2, 0), (-3, 1), (1, 0)] : AffExpr ℚ ℕ).square.value (fun i => (i : ℚ) + 1) = 4 := by
  rw [C02_square]; norm_num [AffExpr.value]

end den

section cleanup
variable [Field K] [LinearOrder K] [IsStrictOrderedRing K]

/-- C03: every kept term was in the expression and is larger than 1e-7; every dropped one is not; order kept. -/
theorem C03_cleanup_terms (a : AffExpr K V) :
    a.cleanup.constant = a.constant ∧ a.cleanup.terms.Sublist a.terms ∧
    (∀ t ∈ a.cleanup.terms, (1 : K) / 10000000 < |t.1|) ∧
    (∀ t ∈ a.terms, (1 : K) / 10000000 < |t.1| → t ∈ a.cleanup.terms) := by
  refine ⟨rfl, List.filter_sublist, ?_, ?_⟩
  · intro t ht
    have := (List.mem_filter.mp ht).2
    simpa [cleanupEps] using this
  · intro t ht h
    exact List.mem_filter.mpr ⟨ht, by simpa [cleanupEps] using h⟩

/-- C03: the value changes by at most `1e-7 * Σ |x_i|`, the sum ranging over the dropped terms. -/
theorem C03_cleanup_error (a : AffExpr K V) (x : V → K) :
    |a.cleanup.value x - a.value x| ≤
      1 / 10000000 * ((a.terms.filter fun t => decide (|t.1| ≤ (1 : K) / 10000000)).map fun t => |x t.2|).sum := by
  rw [C01_aff_value, C01_aff_value]
  have key : ∀ ts : List (K × V),
      |linDen (ts.filter fun t => decide (cleanupEps < |t.1|)) x - linDen ts x| ≤
      1 / 10000000 * ((ts.filter fun t => decide (|t.1| ≤ (1 : K) / 10000000)).map fun t => |x t.2|).sum := by
    intro ts
    induction ts with
    | nil => simp
    | cons t ts ih =>
      by_cases h : (cleanupEps : K) < |t.1|
      · have h' : ¬ |t.1| ≤ (1 : K) / 10000000 := by simpa [cleanupEps] using h
        simp only [List.filter_cons, h, h', decide_true, decide_false, if_true, Bool.false_eq_true, if_false,
          linDen_cons]
        simpa using ih
      · have h' : |t.1| ≤ (1 : K) / 10000000 := by simpa [cleanupEps] using h
        simp only [List.filter_cons, h, h', decide_true, decide_false, if_true, Bool.false_eq_true, if_false,
          linDen_cons, List.map_cons, List.sum_cons, mul_add]
        have e : linDen (ts.filter fun t => decide (cleanupEps < |t.1|)) x - (t.1 * x t.2 + linDen ts x) =
            -(t.1 * x t.2) + (linDen (ts.filter fun t => decide (cleanupEps < |t.1|)) x - linDen ts x) := by ring
        rw [e]
        refine (abs_add_le _ _).trans (add_le_add ?_ ih)
        rw [abs_neg, abs_mul]
        exact mul_le_mul_of_nonneg_right h' (abs_nonneg _)
  simpa [affDen, AffExpr.cleanup] using key a.terms

/-- C03: cleaning up twice changes nothing more. -/
theorem C03_cleanup_idem (a : AffExpr K V) : a.cleanup.cleanup = a.cleanup := by
  simp [AffExpr.cleanup, List.filter_filter]

/-- C03: an expression without small coefficients is left unchanged. -/
theorem C03_cleanup_exact_of_large (a : AffExpr K V)
    (h : ∀ t ∈ a.terms, (1 : K) / 10000000 < |t.1|) : a.cleanup = a := by
  have : a.terms.filter (fun t => decide (cleanupEps < |t.1|)) = a.terms := by
    apply List.filter_eq_self.mpr
    intro t ht; simpa [cleanupEps] using h t ht
  cases a
  exact congrArg (AffExpr.mk _) this

/-- non-vacuity for C03. -/
example : (AffExpr.mk 1 [(1/100000000, 0), (1, 1)] : AffExpr ℚ ℕ).cleanup.terms = [(1, 1)] := by
  norm_num [AffExpr.cleanup, cleanupEps, List.filter_cons]

end cleanup
end Verif.Sco
