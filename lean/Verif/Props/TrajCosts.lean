import Verif.Model.TrajCosts
import Verif.Props.Convex
import Mathlib.Tactic.Ring
import Mathlib.Tactic.Linarith
import Mathlib.Tactic.FieldSimp

/-!
C53 (squared joint costs), C54 (tolerance bands), C55 (joint equality constraints), C71 (reported violation and
violation of the linear model).
-/

set_option linter.unusedSectionVars false
set_option linter.unusedVariables false

namespace Verif.Traj

open Verif.Sco

universe u
variable {K : Type u} [Field K] [LinearOrder K] [IsStrictOrderedRing K]

/-! ### Specification -/

/-- n-th forward difference. -/
def delta : Nat → (Nat → K) → Nat → K
  | 0, f, i => f i
  | n + 1, f, i => delta n f (i + 1) - delta n f i

/-- The n-th difference of joint `j` at step `i` minus its target. -/
def dev (t : Term K) (k : Kind) (x : Nat → K) (i j : Nat) : K :=
  delta k.order (fun s => x (t.vars.var s j)) i - t.targets j

/-- The step range lies in the trajectory and is long enough. -/
def Fits (t : Term K) (k : Kind) : Prop := t.first + k.order ≤ t.last ∧ t.last < t.vars.rows

/-- The steps and joints the term covers. -/
def Cell (t : Term K) (k : Kind) (i j : Nat) : Prop := t.first ≤ i ∧ i + k.order ≤ t.last ∧ j < t.vars.cols

/-- All variables of the array exist in the model. -/
def VarsBelow (t : Term K) (n : Nat) : Prop := ∀ i j, i < t.vars.rows → j < t.vars.cols → t.vars.var i j < n

/-! ### Lemmas -/

/-- Velocity, acceleration and jerk terms that get constructed fit. -/
theorem fits_of_ok (t : Term K) (k : Kind) (hk : k ≠ .pos) (hc : t.vars.cols ≠ 0) (h : t.ok k = true) : Fits t k := by
  simp only [Term.ok, Bool.and_eq_true, Bool.or_eq_true, decide_eq_true_eq, hk, hc, or_false, false_or] at h
  have : 0 ≤ k.order := Nat.zero_le _
  refine ⟨h.1, ?_⟩
  rcases h.2 with h2 | h2
  · exact h2
  · have := h.1; omega

theorem mem_cells (t : Term K) (k : Kind) (c : Nat × Nat) : c ∈ t.cells k ↔ Cell t k c.1 c.2 := by
  obtain ⟨i, j⟩ := c
  simp only [Term.cells, Term.steps, List.mem_flatMap, List.mem_map, List.mem_range, Prod.mk.injEq, Cell]
  constructor
  · rintro ⟨a, ⟨b, hb, rfl⟩, j', hj, rfl, rfl⟩
    exact ⟨by omega, by omega, hj⟩
  · rintro ⟨h1, h2, h3⟩
    exact ⟨i, ⟨i - t.first, by omega, by omega⟩, j, h3, rfl, rfl⟩

theorem affDen_inc (a b : AffExpr K Nat) (x : Nat → K) : affDen (a.inc b) x = affDen a x + affDen b x := by
  simp [affDen, AffExpr.inc]; ring

theorem affDen_scale (a : AffExpr K Nat) (c : K) (x : Nat → K) : affDen (a.scale c) x = affDen a x * c := by
  simp only [affDen, AffExpr.scale, linDen_mulRight]; ring

theorem affDen_decConst (a : AffExpr K Nat) (c : K) (x : Nat → K) : affDen (a.decConst c) x = affDen a x - c := by
  simp only [affDen, AffExpr.decConst]; ring

theorem affDen_incConst (a : AffExpr K Nat) (c : K) (x : Nat → K) : affDen (a.incConst c) x = affDen a x + c := by
  simp only [affDen, AffExpr.incConst]; ring

theorem affDen_dec (a b : AffExpr K Nat) (x : Nat → K) : affDen (a.dec b) x = affDen a x - affDen b x := by
  rw [AffExpr.dec, affDen_inc, affDen_scale]; ring

theorem affDen_zero (x : Nat → K) : affDen (AffExpr.zero : AffExpr K Nat) x = 0 := by simp [affDen, AffExpr.zero]

theorem affDen_multVar (v : Nat) (b : K) (x : Nat → K) : affDen (exprMultVar v b) x = b * x v := by
  rw [exprMultVar, affDen_scale]; simp [AffExpr.ofVar, affDen]; ring

/-- The affine expression of a cell evaluates to the difference minus the target. -/
theorem diffExpr_value (t : Term K) (k : Kind) (x : Nat → K) (i j : Nat) :
    affDen (t.diffExpr k i j) x = dev t k x i j := by
  cases k <;>
    simp [Term.diffExpr, Kind.stencil, affDen_decConst, affDen_inc, affDen_zero, affDen_multVar, dev, Kind.order, delta,
      List.zipIdx] <;> ring

theorem delta_shift (n : Nat) (f : Nat → K) (i : Nat) : delta n (fun s => f (s + 1) - f s) i = delta (n + 1) f i := by
  induction n generalizing i with
  | zero => rfl
  | succ n ih =>
    rw [show delta (n + 1) (fun s => f (s + 1) - f s) i =
      delta n (fun s => f (s + 1) - f s) (i + 1) - delta n (fun s => f (s + 1) - f s) i from rfl, ih, ih]
    rfl

theorem delta_offset (n : Nat) (f : Nat → K) (a i : Nat) : delta n (fun s => f (a + s)) i = delta n f (a + i) := by
  induction n generalizing i with
  | zero => rfl
  | succ n ih => simp only [delta, ih]; rfl

theorem diffTimes_spec (n : Nat) (m : Mat K) (h : n ≤ m.rows) :
    diffTimes n m = some ⟨m.rows - n, m.cols, fun i j => delta n (fun s => m.get s j) i⟩ := by
  induction n generalizing m with
  | zero => rfl
  | succ n ih =>
    have h0 : ¬ m.rows = 0 := by omega
    simp only [diffTimes, diffAxis0, h0, if_false]
    rw [ih _ (by show n ≤ m.rows - 1; omega)]
    simp only [Option.some.injEq, Mat.mk.injEq, true_and]
    refine ⟨by omega, ?_⟩
    funext i j
    exact delta_shift n (fun s => m.get s j) i

theorem diffMat_spec (t : Term K) (k : Kind) (hf : Fits t k) (x : Nat → K) :
    t.diffMat k x = some ⟨t.last + 1 - k.order - t.first, t.vars.cols, fun i j => dev t k x (t.first + i) j⟩ := by
  obtain ⟨h1, h2⟩ := hf
  have e1 : ¬ t.last + 1 < t.first := by omega
  have e2 : t.first + (t.last + 1 - t.first) ≤ t.vars.rows := by omega
  simp only [Term.diffMat, e1, if_false, Mat.rowBlock, getTraj, e2, if_true]
  rw [diffTimes_spec _ _ (by show k.order ≤ t.last + 1 - t.first; omega)]
  simp only [Option.some.injEq, Mat.mk.injEq, true_and]
  refine ⟨by omega, ?_⟩
  funext i j
  simp only [dev]
  rw [delta_offset k.order (fun s => x (t.vars.var s j)) t.first i]

theorem toList_cells (t : Term K) (k : Kind) (g : Nat → Nat → K) :
    Mat.toList ⟨t.last + 1 - k.order - t.first, t.vars.cols, fun i j => g (t.first + i) j⟩ =
      (t.cells k).map fun c => g c.1 c.2 := by
  simp only [Mat.toList, Term.cells, Term.steps, List.map_flatMap, List.flatMap_map, List.map_map]
  rfl

theorem quadDen_incQ (q p : QuadExpr K Nat) (y : Nat → K) : quadDen (q.inc p) y = quadDen q y + quadDen p y :=
  Verif.Sco.quadDen_inc q p y

theorem quadDen_scale (q : QuadExpr K Nat) (c : K) (y : Nat → K) : quadDen (q.scale c) y = quadDen q y * c := by
  simp only [quadDen, QuadExpr.scale, affDen_scale, quadTermsDen_mulRight]; ring

theorem foldl_quad {α : Type} (l : List α) (f : α → QuadExpr K Nat) (q : QuadExpr K Nat) (y : Nat → K) :
    quadDen (l.foldl (fun e c => e.inc (f c)) q) y = quadDen q y + (l.map fun c => quadDen (f c) y).sum := by
  induction l generalizing q with
  | nil => simp
  | cons a l ih => rw [List.foldl_cons, ih, quadDen_incQ, List.map_cons, List.sum_cons, add_assoc]

theorem eqCostExpr_value (t : Term K) (k : Kind) (x : Nat → K) :
    quadDen (t.eqCostExpr k) x = ((t.cells k).map fun c => dev t k x c.1 c.2 ^ 2 * t.coeffs c.2).sum := by
  rw [Term.eqCostExpr, foldl_quad]
  simp only [quadDen_scale, quadDen_square, diffExpr_value]
  have : quadDen (QuadExpr.zero : QuadExpr K Nat) x = 0 := by simp [quadDen, QuadExpr.zero, affDen_zero]
  rw [this, zero_add]
  congr 1
  apply List.map_congr_left
  intro c _
  ring

/-! ### The expressions mention existing variables only -/

theorem diffExpr_below (t : Term K) (k : Kind) (n : Nat) (hv : VarsBelow t n) (i j : Nat)
    (hi : i + k.order < t.vars.rows) (hj : j < t.vars.cols) : (t.diffExpr k i j).Below n := by
  intro q hq
  cases k <;>
    simp [Term.diffExpr, Kind.stencil, AffExpr.decConst, AffExpr.inc, AffExpr.zero, exprMultVar, AffExpr.scale,
      AffExpr.ofVar, List.zipIdx] at hq <;> simp only [Kind.order] at hi
  · subst hq; exact hv _ _ (by omega) hj
  · rcases hq with rfl | rfl <;> exact hv _ _ (by omega) hj
  · rcases hq with rfl | rfl | rfl <;> exact hv _ _ (by omega) hj
  · rcases hq with rfl | rfl | rfl | rfl <;> exact hv _ _ (by omega) hj

theorem scale_below {n : Nat} {e : AffExpr K Nat} (h : e.Below n) (c : K) : (e.scale c).Below n := by
  intro q hq
  simp only [AffExpr.scale, List.mem_map] at hq
  obtain ⟨p, hp, rfl⟩ := hq
  exact h p hp

theorem inc_below {n : Nat} {e f : AffExpr K Nat} (h : e.Below n) (h' : f.Below n) : (e.inc f).Below n := by
  intro q hq
  rcases List.mem_append.1 hq with hq | hq
  · exact h q hq
  · exact h' q hq

theorem zero_below (n : Nat) : (AffExpr.zero : AffExpr K Nat).Below n := by
  intro q hq; simp [AffExpr.zero] at hq

theorem qscale_below {n : Nat} {q : QuadExpr K Nat} (h : q.Below n) (c : K) : (q.scale c).Below n := by
  refine ⟨scale_below h.1 c, ?_⟩
  intro p hp
  simp only [QuadExpr.scale, List.mem_map] at hp
  obtain ⟨r, hr, rfl⟩ := hp
  exact h.2 r hr

theorem qinc_below {n : Nat} {q p : QuadExpr K Nat} (h : q.Below n) (h' : p.Below n) : (q.inc p).Below n := by
  refine ⟨inc_below h.1 h'.1, ?_⟩
  intro r hr
  rcases List.mem_append.1 hr with hr | hr
  · exact h.2 r hr
  · exact h'.2 r hr

theorem cell_below (t : Term K) (k : Kind) (n : Nat) (hv : VarsBelow t n) (hf : Fits t k) {c : Nat × Nat}
    (hc : c ∈ t.cells k) : (t.diffExpr k c.1 c.2).Below n := by
  obtain ⟨h1, h2, h3⟩ := (mem_cells t k c).1 hc
  exact diffExpr_below t k n hv c.1 c.2 (lt_of_le_of_lt h2 hf.2) h3

theorem eqCostExpr_below (t : Term K) (k : Kind) (n : Nat) (hv : VarsBelow t n) (hf : Fits t k) :
    (t.eqCostExpr k).Below n := by
  have key : ∀ (l : List (Nat × Nat)) (q : QuadExpr K Nat), q.Below n → (∀ c ∈ l, c ∈ t.cells k) →
      (l.foldl (fun e c => e.inc ((t.diffExpr k c.1 c.2).square.scale (t.coeffs c.2))) q).Below n := by
    intro l
    induction l with
    | nil => intro q hq _; exact hq
    | cons c l ih =>
      intro q hq hl
      rw [List.foldl_cons]
      refine ih _ (qinc_below hq (qscale_below (square_below (cell_below t k n hv hf (hl c (by simp)))) _)) fun c' h => hl c' (by simp [h])
  exact key _ _ ⟨zero_below n, by simp [QuadExpr.zero]⟩ fun c h => h

theorem ineqExprs_below (t : Term K) (k : Kind) (n : Nat) (hv : VarsBelow t n) (hf : Fits t k) :
    ∀ e ∈ t.ineqExprs k, e.Below n := by
  intro e he
  obtain ⟨c, hc, he⟩ := List.mem_flatMap.1 he
  have hd := cell_below t k n hv hf hc
  simp only [List.mem_cons, List.not_mem_nil, or_false] at he
  rcases he with rfl | rfl
  · rw [Term.upperExpr]
    split_ifs
    · exact scale_below (e := ((AffExpr.zero : AffExpr K Nat).inc (t.diffExpr k c.1 c.2)).decConst _) (inc_below (zero_below n) hd) _
    · exact scale_below (inc_below (e := (AffExpr.zero : AffExpr K Nat).incConst _) (zero_below n) (scale_below hd _)) _
  · exact scale_below (inc_below (e := (AffExpr.zero : AffExpr K Nat).incConst _) (zero_below n) (scale_below hd _)) _

/-! ### C53 -/

section main

/-- C53: for position, velocity, acceleration and jerk, the cost reported by `value` is the sum over steps and
joints of `coeff * (difference - target)^2`, and so is the value of the quadratic expression given to the QP; at
every point. -/
theorem C53_exact (t : Term K) (k : Kind) (hf : Fits t k) (x : Nat → K) :
    t.eqCostValue k x = some (quadDen (t.eqCostExpr k) x) ∧
    quadDen (t.eqCostExpr k) x = ((t.cells k).map fun c => dev t k x c.1 c.2 ^ 2 * t.coeffs c.2).sum ∧
    (t.cells k).Nodup ∧ ∀ i j, (i, j) ∈ t.cells k ↔ Cell t k i j := by
  refine ⟨?_, eqCostExpr_value t k x, ?_, fun i j => mem_cells t k (i, j)⟩
  · rw [Term.eqCostValue, diffMat_spec t k hf x, Option.map_some, eqCostExpr_value]
    rw [toList_cells t k fun i j => dev t k x i j ^ 2 * t.coeffs j]
  · simp only [Term.cells, Term.steps]
    rw [List.nodup_flatMap]
    refine ⟨fun i _ => ?_, ?_⟩
    · exact (List.nodup_range).map fun a b h => by simpa using h
    · apply List.Pairwise.map (R := fun a b : Nat => a ≠ b)
      · intro a b hab
        simp only [Function.onFun, List.disjoint_left, List.mem_map, List.mem_range]
        rintro c ⟨j, _, rfl⟩ ⟨j', _, h⟩
        injection h with h1 _
        exact hab (by omega)
      · exact List.nodup_range

/-- C53: the objective that `convex()` builds has, in any model with these variables, exactly `value(x)` as its
value at every point (no auxiliary variables are involved). -/
theorem C53_convex (t : Term K) (k : Kind) (hf : Fits t k) (m : OModel K) (hv : m.vars.Inv) (hc : m.cnts.Inv)
    (hb : VarsBelow t m.vars.reps.length) :
    ∃ s s', (t.eqCostConvex k).foldlM BuildOp.run (m, ConvexObjective.new) = some s ∧
      ConvexObjective.addConstraintsToModel s = some s' ∧
      ∀ x, ∃ v, t.eqCostValue k x = some v ∧
        PartialMin s'.1 m.vars.reps.length m.cnts.reps.length s'.2.quad x v := by
  obtain ⟨s, s', h1, h2, h3⟩ := C07_program m hv hc (t.eqCostConvex k) (by
    intro op hop
    simp only [Term.eqCostConvex, List.mem_singleton] at hop
    subst hop
    exact eqCostExpr_below t k _ hb hf)
  refine ⟨s, s', h1, h2, fun x => ⟨_, (C53_exact t k hf x).1, ?_⟩⟩
  have := h3 x
  simpa [Term.eqCostConvex, BuildOp.cost] using this

/-! ### C54 -/

/-- Specification: every difference lies in its tolerance band. -/
def InBand (t : Term K) (k : Kind) (x : Nat → K) : Prop :=
  ∀ i j, Cell t k i j → t.targets j + t.lower j ≤ delta k.order (fun s => x (t.vars.var s j)) i ∧
    delta k.order (fun s => x (t.vars.var s j)) i ≤ t.targets j + t.upper j

theorem upperExpr_value (t : Term K) (k : Kind) (x : Nat → K) (i j : Nat) :
    affDen (t.upperExpr k i j) x = (dev t k x i j - t.upper j) * t.coeffs j := by
  rw [Term.upperExpr]
  split_ifs
  · rw [affDen_scale, affDen_decConst, affDen_inc, affDen_zero, diffExpr_value]; ring
  · rw [affDen_scale, affDen_dec, affDen_incConst, affDen_zero, diffExpr_value]; ring

theorem lowerExpr_value (t : Term K) (k : Kind) (x : Nat → K) (i j : Nat) :
    affDen (t.lowerExpr k i j) x = (t.lower j - dev t k x i j) * t.coeffs j := by
  rw [Term.lowerExpr, affDen_scale, affDen_dec, affDen_incConst, affDen_zero, diffExpr_value]; ring

theorem foldl_addIneq (es : List (AffExpr K Nat)) (c : ConvexConstraints K) :
    (es.foldl ConvexConstraints.addIneq c).ineqs = c.ineqs ++ es ∧ (es.foldl ConvexConstraints.addIneq c).eqs = c.eqs := by
  induction es generalizing c with
  | nil => simp
  | cons e es ih => rw [List.foldl_cons]; refine ⟨?_, (ih _).2⟩; rw [(ih _).1]; simp [ConvexConstraints.addIneq]

theorem foldl_addEq (es : List (AffExpr K Nat)) (c : ConvexConstraints K) :
    (es.foldl ConvexConstraints.addEq c).eqs = c.eqs ++ es ∧ (es.foldl ConvexConstraints.addEq c).ineqs = c.ineqs := by
  induction es generalizing c with
  | nil => simp
  | cons e es ih => rw [List.foldl_cons]; refine ⟨?_, (ih _).2⟩; rw [(ih _).1]; simp [ConvexConstraints.addEq]

/-- C54: with positive coefficients, the linear inequalities given to the QP hold at `x` exactly when every
difference lies in its band. -/
theorem C54_rows (t : Term K) (k : Kind) (hpos : ∀ j, j < t.vars.cols → 0 < t.coeffs j) (x : Nat → K) :
    (t.ineqCntConvex k).eqs = [] ∧ ((∀ e ∈ (t.ineqCntConvex k).ineqs, affDen e x ≤ 0) ↔ InBand t k x) := by
  obtain ⟨h1, h2⟩ := foldl_addIneq (t.ineqExprs k) (ConvexConstraints.new : ConvexConstraints K)
  refine ⟨h2, ?_⟩
  rw [Term.ineqCntConvex, h1]
  simp only [ConvexConstraints.new, List.nil_append, Term.ineqExprs, List.mem_flatMap, List.mem_cons, List.not_mem_nil, or_false]
  constructor
  · intro h i j hc
    have hm := (mem_cells t k (i, j)).2 hc
    have hu := h _ ⟨(i, j), hm, Or.inl rfl⟩
    have hl := h _ ⟨(i, j), hm, Or.inr rfl⟩
    rw [upperExpr_value] at hu
    rw [lowerExpr_value] at hl
    have hcp := hpos j hc.2.2
    have hu' := nonpos_of_mul_nonpos_left hu hcp
    have hl' := nonpos_of_mul_nonpos_left hl hcp
    simp only [dev] at hu' hl'
    constructor <;> linarith
  · rintro h e ⟨⟨i, j⟩, hm, rfl | rfl⟩
    · have hc := (mem_cells t k (i, j)).1 hm
      rw [upperExpr_value]
      apply mul_nonpos_of_nonpos_of_nonneg _ (hpos j hc.2.2).le
      have := (h i j hc).2
      simp only [dev]; linarith
    · have hc := (mem_cells t k (i, j)).1 hm
      rw [lowerExpr_value]
      apply mul_nonpos_of_nonpos_of_nonneg _ (hpos j hc.2.2).le
      have := (h i j hc).1
      simp only [dev]; linarith

theorem pospart_max (v : K) : (if 0 < v then v else 0) = max v 0 := by
  split_ifs with h
  · rw [max_eq_left h.le]
  · rw [max_eq_right (not_lt.1 h)]

/-- The violations reported for an inequality constraint, as a list over the steps. -/
theorem ineq_violations (t : Term K) (k : Kind) (hf : Fits t k) (x : Nat → K) :
    ∃ vals, t.ineqCntValue k x = some vals ∧ ineqViolations vals = (t.steps k).flatMap fun i =>
      ((List.range t.vars.cols).map fun j => max ((dev t k x i j - t.upper j) * t.coeffs j) 0) ++
      ((List.range t.vars.cols).map fun j => max ((t.lower j - dev t k x i j) * t.coeffs j) 0) := by
  rw [Term.ineqCntValue, diffMat_spec t k hf x, Option.map_some]
  refine ⟨_, rfl, ?_⟩
  have hmm : ∀ v : K, max (max v 0) 0 = max v 0 := fun v => max_eq_left (le_max_right _ _)
  have hl : ∀ a b : K, (a * -1 + b) = b - a := fun a b => by ring
  simp only [Term.diff1, Term.diff2, ineqViolations, pospart_max, hl]
  by_cases hk : k = .pos
  · rw [if_pos hk]
    simp only [List.map_flatMap, List.map_append, List.map_map, Term.steps, List.flatMap_map]
    rfl
  · rw [if_neg hk]
    simp only [List.map_flatMap, List.map_append, List.map_map, Term.steps, List.flatMap_map, Function.comp_def, hmm]

/-- C54: with positive coefficients, `value` reports no violation exactly when every difference lies in its
band. -/
theorem C54_value (t : Term K) (k : Kind) (hf : Fits t k) (hpos : ∀ j, j < t.vars.cols → 0 < t.coeffs j) (x : Nat → K) :
    ∃ vals, t.ineqCntValue k x = some vals ∧ ((∀ v ∈ ineqViolations vals, v = 0) ↔ InBand t k x) := by
  obtain ⟨vals, h1, h2⟩ := ineq_violations t k hf x
  refine ⟨vals, h1, ?_⟩
  rw [h2]
  have hz : ∀ a c : K, 0 < c → (max (a * c) 0 = 0 ↔ a ≤ 0) := by
    intro a c hc
    rw [max_eq_right_iff]
    constructor
    · intro h; exact nonpos_of_mul_nonpos_left h hc
    · intro h; exact mul_nonpos_of_nonpos_of_nonneg h hc.le
  have hs : ∀ i, i ∈ t.steps k ↔ t.first ≤ i ∧ i + k.order ≤ t.last := by
    intro i
    simp only [Term.steps, List.mem_map, List.mem_range]
    constructor
    · rintro ⟨a, ha, rfl⟩; omega
    · rintro ⟨h1, h2⟩; exact ⟨i - t.first, by omega, by omega⟩
  simp only [List.mem_flatMap, List.mem_append, List.mem_map, List.mem_range]
  constructor
  · intro h i j ⟨c1, c2, c3⟩
    have hu := h _ ⟨i, (hs i).2 ⟨c1, c2⟩, Or.inl ⟨j, c3, rfl⟩⟩
    have hl := h _ ⟨i, (hs i).2 ⟨c1, c2⟩, Or.inr ⟨j, c3, rfl⟩⟩
    rw [hz _ _ (hpos j c3)] at hu hl
    simp only [dev] at hu hl
    constructor <;> linarith
  · rintro h v ⟨i, hi, ⟨j, hj, rfl⟩ | ⟨j, hj, rfl⟩⟩
    · rw [hz _ _ (hpos j hj)]
      have := (h i j ⟨((hs i).1 hi).1, ((hs i).1 hi).2, hj⟩).2
      simp only [dev]; linarith
    · rw [hz _ _ (hpos j hj)]
      have := (h i j ⟨((hs i).1 hi).1, ((hs i).1 hi).2, hj⟩).1
      simp only [dev]; linarith

theorem sum_flatMap_pair {α : Type} (l : List α) (f g : α → K) :
    (l.flatMap fun a => [f a, g a]).sum = (l.map f).sum + (l.map g).sum := by
  induction l with
  | nil => simp
  | cons a l ih => simp only [List.flatMap_cons, List.sum_append, ih, List.map_cons, List.sum_cons, List.sum_nil]; ring

theorem ineqExprs_hinge (t : Term K) (k : Kind) (x : Nat → K) :
    ((t.ineqExprs k).map fun e => max 0 (affDen e x)).sum =
      ((t.cells k).map fun c => max ((dev t k x c.1 c.2 - t.upper c.2) * t.coeffs c.2) 0).sum +
      ((t.cells k).map fun c => max ((t.lower c.2 - dev t k x c.1 c.2) * t.coeffs c.2) 0).sum := by
  rw [Term.ineqExprs, List.map_flatMap]
  simp only [List.map_cons, List.map_nil, upperExpr_value, lowerExpr_value]
  rw [sum_flatMap_pair]
  simp only [max_comm]

/-- C54: the tolerance cost reported by `value` is, at every point, the minimum over the auxiliary variables of the
objective built by `convex()`. -/
theorem C54_cost (t : Term K) (k : Kind) (hf : Fits t k) (m : OModel K) (hv : m.vars.Inv) (hc : m.cnts.Inv)
    (hb : VarsBelow t m.vars.reps.length) :
    ∃ s s', (t.ineqCostConvex k).foldlM BuildOp.run (m, ConvexObjective.new) = some s ∧
      ConvexObjective.addConstraintsToModel s = some s' ∧
      ∀ x, ∃ v, t.ineqCostValue k x = some v ∧
        PartialMin s'.1 m.vars.reps.length m.cnts.reps.length s'.2.quad x v := by
  obtain ⟨s, s', h1, h2, h3⟩ := C07_program m hv hc (t.ineqCostConvex k) (by
    intro op hop
    simp only [Term.ineqCostConvex, List.mem_map] at hop
    obtain ⟨e, he, rfl⟩ := hop
    exact ⟨ineqExprs_below t k _ hb hf e he, zero_le_one⟩)
  refine ⟨s, s', h1, h2, fun x => ?_⟩
  rw [Term.ineqCostValue, diffMat_spec t k hf x, Option.map_some]
  refine ⟨_, rfl, ?_⟩
  have := h3 x
  simp only [Term.ineqCostConvex, List.map_map, Function.comp_def, BuildOp.cost, one_mul] at this
  rw [ineqExprs_hinge] at this
  have hl : ∀ a b : K, (a * -1 + b) = b - a := fun a b => by ring
  simp only [Term.diff1, Term.diff2, hl]
  rw [toList_cells t k fun i j => (dev t k x i j - t.upper j) * t.coeffs j,
    toList_cells t k fun i j => (t.lower j - dev t k x i j) * t.coeffs j]
  simp only [List.map_map, Function.comp_def]
  exact this

/-! ### C55 -/

/-- The violations reported for an equality constraint. -/
theorem eq_violations (t : Term K) (k : Kind) (hf : Fits t k) (x : Nat → K) :
    ∃ vals, t.eqCntValue k x = some vals ∧
      eqViolations vals = (t.cells k).map fun c => |t.coeffs c.2| * dev t k x c.1 c.2 ^ 2 := by
  rw [Term.eqCntValue, diffMat_spec t k hf x, Option.map_some]
  refine ⟨_, rfl, ?_⟩
  rw [toList_cells t k fun i j => dev t k x i j ^ 2 * t.coeffs j, eqViolations, List.map_map]
  apply List.map_congr_left
  intro c _
  simp only [Function.comp, abs_mul, abs_pow, sq_abs]
  ring

/-- C55: with non-zero coefficients, no violation is reported iff the linear equalities given to the QP hold, iff
every difference equals its target. -/
theorem C55_zero (t : Term K) (k : Kind) (hf : Fits t k) (hne : ∀ j, j < t.vars.cols → t.coeffs j ≠ 0) (x : Nat → K) :
    (t.eqCntConvex k).ineqs = [] ∧
    ((∀ e ∈ (t.eqCntConvex k).eqs, affDen e x = 0) ↔
      ∀ i j, Cell t k i j → delta k.order (fun s => x (t.vars.var s j)) i = t.targets j) ∧
    ∃ vals, t.eqCntValue k x = some vals ∧ ((∀ v ∈ eqViolations vals, v = 0) ↔
      ∀ i j, Cell t k i j → delta k.order (fun s => x (t.vars.var s j)) i = t.targets j) := by
  obtain ⟨h1, h2⟩ := foldl_addEq (t.eqCntExprs k) (ConvexConstraints.new : ConvexConstraints K)
  refine ⟨h2, ?_, ?_⟩
  · rw [Term.eqCntConvex, h1]
    simp only [ConvexConstraints.new, List.nil_append, Term.eqCntExprs, List.mem_map, forall_exists_index, and_imp,
      forall_apply_eq_imp_iff₂]
    constructor
    · intro h i j hc
      have := h (i, j) ((mem_cells t k (i, j)).2 hc)
      rw [affDen_scale, diffExpr_value] at this
      have := (mul_eq_zero.1 this).resolve_right (hne j hc.2.2)
      exact sub_eq_zero.1 this
    · intro h c hc
      have hcell := (mem_cells t k c).1 hc
      rw [affDen_scale, diffExpr_value, dev, h c.1 c.2 hcell, sub_self, zero_mul]
  · obtain ⟨vals, e1, e2⟩ := eq_violations t k hf x
    refine ⟨vals, e1, ?_⟩
    rw [e2]
    simp only [List.mem_map, forall_exists_index, and_imp, forall_apply_eq_imp_iff₂]
    constructor
    · intro h i j hc
      have := h (i, j) ((mem_cells t k (i, j)).2 hc)
      have := (mul_eq_zero.1 this).resolve_left (abs_ne_zero.2 (hne j hc.2.2))
      exact sub_eq_zero.1 (pow_eq_zero_iff (two_ne_zero)|>.1 this)
    · intro h c hc
      have hcell := (mem_cells t k c).1 hc
      rw [dev, h c.1 c.2 hcell, sub_self]; simp

/-- C55: a reported violation of at most `tol` bounds the squared deviation of that step and joint by
`tol / |coeff|`. -/
theorem C55_bound (t : Term K) (k : Kind) (hf : Fits t k) (hne : ∀ j, j < t.vars.cols → t.coeffs j ≠ 0) (x : Nat → K) (tol : K) :
    ∃ vals, t.eqCntValue k x = some vals ∧ ((∀ v ∈ eqViolations vals, v ≤ tol) ↔
      ∀ i j, Cell t k i j → (delta k.order (fun s => x (t.vars.var s j)) i - t.targets j) ^ 2 ≤ tol / |t.coeffs j|) := by
  obtain ⟨vals, e1, e2⟩ := eq_violations t k hf x
  refine ⟨vals, e1, ?_⟩
  rw [e2]
  simp only [List.mem_map, forall_exists_index, and_imp, forall_apply_eq_imp_iff₂]
  constructor
  · intro h i j hc
    have := h (i, j) ((mem_cells t k (i, j)).2 hc)
    rw [le_div_iff₀ (abs_pos.2 (hne j hc.2.2)), mul_comm]
    exact this
  · intro h c hc
    have hcell := (mem_cells t k c).1 hc
    have := h c.1 c.2 hcell
    rw [le_div_iff₀ (abs_pos.2 (hne c.2 hcell.2.2)), mul_comm] at this
    exact this

/-! ### C71 -/

theorem sum_flatMap_append {α : Type} (l : List α) (f g : α → List K) :
    (l.flatMap fun a => f a ++ g a).sum = (l.flatMap f).sum + (l.flatMap g).sum := by
  induction l with
  | nil => simp
  | cons a l ih => simp only [List.flatMap_cons, List.sum_append, ih]; ring

/-- C71 for the tolerance constraints: the violation reported for `x` and the violation at `x` of the linear model
are the same, for all coefficients and at every point. -/
theorem C71_tolerance_partial (t : Term K) (k : Kind) (hf : Fits t k) (x : Nat → K) :
    ∃ vals, t.ineqCntValue k x = some vals ∧ (ineqViolations vals).sum = (t.ineqCntConvex k).violation x := by
  obtain ⟨vals, h1, h2⟩ := ineq_violations t k hf x
  refine ⟨vals, h1, ?_⟩
  obtain ⟨a1, a2⟩ := foldl_addIneq (t.ineqExprs k) (ConvexConstraints.new : ConvexConstraints K)
  rw [violation_eq, violationSpec, h2, Term.ineqCntConvex, a1, a2]
  simp only [ConvexConstraints.new, List.nil_append, List.map_nil, List.sum_nil, zero_add]
  rw [ineqExprs_hinge, sum_flatMap_append]
  simp only [Term.cells, List.map_flatMap, List.map_map, Function.comp_def]

/-- C71 is violated by the equality constraints, in this exact way: the reported violation is
`Σ |coeff| d²`, the violation of the linear model at the same point is `Σ |coeff| |d|`. -/
theorem C71_violated_formula (t : Term K) (k : Kind) (hf : Fits t k) (x : Nat → K) :
    (∃ vals, t.eqCntValue k x = some vals ∧ (eqViolations vals).sum =
      ((t.cells k).map fun c => |t.coeffs c.2| * dev t k x c.1 c.2 ^ 2).sum) ∧
    (t.eqCntConvex k).violation x = ((t.cells k).map fun c => |t.coeffs c.2| * |dev t k x c.1 c.2|).sum := by
  constructor
  · obtain ⟨vals, h1, h2⟩ := eq_violations t k hf x
    exact ⟨vals, h1, by rw [h2]⟩
  · obtain ⟨a1, a2⟩ := foldl_addEq (t.eqCntExprs k) (ConvexConstraints.new : ConvexConstraints K)
    rw [violation_eq, violationSpec, Term.eqCntConvex, a1, a2]
    simp only [ConvexConstraints.new, List.nil_append, List.map_nil, List.sum_nil, add_zero, Term.eqCntExprs, List.map_map,
      Function.comp_def, affDen_scale, diffExpr_value, abs_mul]
    congr 1
    apply List.map_congr_left
    intro c _
    ring

end main

/-- A trajectory of five steps with one joint. -/
def exampleTerm : Term ℚ :=
  { vars := ⟨5, 1, fun i _ => i⟩, coeffs := fun _ => 2, targets := fun _ => 1, upper := fun _ => 1/2, lower := fun _ => -1/2
    first := 1, last := 4 }

/-- C71 is violated: one velocity step deviating by 10 is reported as 200 while the linear model says 20; and a
deviation of 1/10 is reported as 1/50 while the model says 1/5. -/
theorem C71_violated : ∃ (t : Term ℚ) (x y : Nat → ℚ), Fits t .vel ∧
    (∃ vals, t.eqCntValue .vel x = some vals ∧ (eqViolations vals).sum = 200) ∧ (t.eqCntConvex .vel).violation x = 20 ∧
    (∃ vals, t.eqCntValue .vel y = some vals ∧ (eqViolations vals).sum = 1/50) ∧ (t.eqCntConvex .vel).violation y = 1/5 := by
  refine ⟨⟨⟨2, 1, fun i _ => i⟩, fun _ => 2, fun _ => 0, fun _ => 0, fun _ => 0, 0, 1⟩, fun i => if i = 1 then 10 else 0,
    fun i => if i = 1 then 1/10 else 0, by simp [Fits, Kind.order], ⟨_, rfl, by decide +kernel⟩, by decide +kernel,
    ⟨_, rfl, by decide +kernel⟩, by decide +kernel⟩

/-- non-vacuity for C53-C55: the term fits for every kind and its coefficients are positive. -/
example : Fits exampleTerm .pos ∧ Fits exampleTerm .vel ∧ Fits exampleTerm .acc ∧ Fits exampleTerm .jerk ∧
    (∀ j, j < exampleTerm.vars.cols → 0 < exampleTerm.coeffs j) ∧ VarsBelow exampleTerm 5 := by
  refine ⟨by simp [Fits, exampleTerm, Kind.order], by simp [Fits, exampleTerm, Kind.order], by simp [Fits, exampleTerm, Kind.order],
    by simp [Fits, exampleTerm, Kind.order], fun j _ => by simp [exampleTerm], fun i j h _ => h⟩

/-- and the cost is not trivial: velocities 1, 3, 5 from x = i² at steps 1..4 give 2*(4+16+36). -/
example : exampleTerm.eqCostValue .vel (fun i => (i : ℚ) ^ 2) = some 112 := by decide +kernel

/-- the band holds at one point and fails at another. -/
example : InBand exampleTerm .vel (fun i => (i : ℚ)) ∧ ¬ InBand exampleTerm .vel (fun i => (3 * i : ℚ)) := by
  constructor
  · intro i j h
    simp [exampleTerm, Kind.order, delta]; norm_num
  · intro h
    have := (h 1 0 ⟨by simp [exampleTerm], by simp [exampleTerm, Kind.order], by simp [exampleTerm]⟩).2
    simp [exampleTerm, Kind.order, delta] at this
    norm_num at this

end Verif.Traj
