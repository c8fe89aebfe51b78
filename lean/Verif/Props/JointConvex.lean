import Verif.Props.Optimal
import Verif.Props.EndToEnd

/-!
C148: the joint terms are convex, and what that makes of a converged run of the trust-region optimiser.
-/

set_option linter.unusedSectionVars false
set_option linter.unusedVariables false

namespace Verif.Traj

open Verif.Sco Verif.Optimal Verif.EndToEnd

universe u
variable {K : Type u} [Field K] [LinearOrder K] [IsStrictOrderedRing K]

/-- Specification: `g` is convex in the variables. -/
def Convex (g : (Nat → K) → K) : Prop :=
  ∀ u v t, 0 ≤ t → t ≤ 1 → g (fun i => u i + t * (v i - u i)) ≤ (1 - t) * g u + t * g v

/-- Specification: `g` is affine in the variables. -/
def Affine (g : (Nat → K) → K) : Prop := ∀ u v t, g (fun i => u i + t * (v i - u i)) = (1 - t) * g u + t * g v

theorem delta_affine (n : Nat) (u v : Nat → K) (t : K) (i : Nat) :
    delta n (fun s => u s + t * (v s - u s)) i = (1 - t) * delta n u i + t * delta n v i := by
  induction n generalizing i with
  | zero => simp only [delta]; ring
  | succ n ih => simp only [delta, ih]; ring

theorem dev_affine (s : Term K) (k : Kind) (i j : Nat) : Affine fun x => dev s k x i j := by
  intro u v t
  simp only [dev]
  rw [delta_affine k.order (fun a => u (s.vars.var a j)) (fun a => v (s.vars.var a j)) t i]
  ring

theorem Affine.mul_const {g : (Nat → K) → K} (h : Affine g) (c : K) : Affine fun x => g x * c := by
  intro u v t; simp only [h u v t]; ring

theorem Affine.sub_const {g : (Nat → K) → K} (h : Affine g) (c : K) : Affine fun x => g x - c := by
  intro u v t; simp only [h u v t]; ring

theorem Affine.const_sub {g : (Nat → K) → K} (h : Affine g) (c : K) : Affine fun x => c - g x := by
  intro u v t; simp only [h u v t]; ring

theorem Affine.sq {g : (Nat → K) → K} (h : Affine g) {c : K} (hc : 0 ≤ c) : Convex fun x => g x ^ 2 * c := by
  intro u v t h0 h1
  simp only [h u v t]
  have := mul_nonneg (mul_nonneg (mul_nonneg h0 (sub_nonneg.2 h1)) (sq_nonneg (g u - g v))) hc
  nlinarith

theorem Affine.hinge {g : (Nat → K) → K} (h : Affine g) : Convex fun x => max (g x) 0 := by
  intro u v t h0 h1
  simp only [h u v t]
  have h1' := sub_nonneg.2 h1
  have ma := mul_le_mul_of_nonneg_left (le_max_left (g u) 0) h1'
  have mb := mul_le_mul_of_nonneg_left (le_max_left (g v) 0) h0
  have na := mul_nonneg h1' (le_max_right (g u) 0)
  have nb := mul_nonneg h0 (le_max_right (g v) 0)
  exact max_le (by linarith) (by linarith)

theorem Affine.abs {g : (Nat → K) → K} (h : Affine g) {c : K} (hc : 0 ≤ c) : Convex fun x => c * |g x| := by
  intro u v t h0 h1
  simp only [h u v t]
  have h1' := sub_nonneg.2 h1
  have := abs_add_le ((1 - t) * g u) (t * g v)
  rw [abs_mul, abs_mul, abs_of_nonneg h0, abs_of_nonneg h1'] at this
  have := mul_le_mul_of_nonneg_left this hc
  linarith

theorem Convex.add {f g : (Nat → K) → K} (hf : Convex f) (hg : Convex g) : Convex fun x => f x + g x := by
  intro u v t h0 h1
  have := hf u v t h0 h1
  have := hg u v t h0 h1
  linarith

theorem convex_sum {α : Type*} (l : List α) (f : α → (Nat → K) → K) (h : ∀ a ∈ l, Convex (f a)) :
    Convex fun x => (l.map fun a => f a x).sum := by
  induction l with
  | nil => intro u v t _ _; simp
  | cons a l ih =>
    have := (h a List.mem_cons_self).add (ih fun b hb => h b (List.mem_cons_of_mem _ hb))
    simpa using this

theorem sum_nonneg' {α : Type*} (l : List α) (f : α → K) (h : ∀ a ∈ l, 0 ≤ f a) : 0 ≤ (l.map f).sum :=
  List.sum_nonneg fun v hv => by obtain ⟨a, ha, rfl⟩ := List.mem_map.1 hv; exact h a ha

theorem cols_of_cell (t : Term K) (k : Kind) {c : Nat × Nat} (h : c ∈ t.cells k) : c.2 < t.vars.cols :=
  ((mem_cells t k c).1 h).2.2

/-- C148 (costs): the cost of a joint position, velocity, acceleration or jerk term without tolerances is convex and never negative, if no
coefficient is negative. -/
theorem C148_eq_cost (t : Term K) (k : Kind) (hf : Fits t k) (hpos : ∀ j, j < t.vars.cols → 0 ≤ t.coeffs j) :
    ∃ g, (∀ x, t.eqCostValue k x = some (g x)) ∧ Convex g ∧ ∀ x, 0 ≤ g x := by
  refine ⟨fun x => ((t.cells k).map fun c => dev t k x c.1 c.2 ^ 2 * t.coeffs c.2).sum, fun x => ?_, ?_, fun x => ?_⟩
  · rw [(C53_exact t k hf x).1, (C53_exact t k hf x).2.1]
  · exact convex_sum (t.cells k) (fun c x => dev t k x c.1 c.2 ^ 2 * t.coeffs c.2) fun c hc =>
      (dev_affine t k c.1 c.2).sq (hpos _ (cols_of_cell t k hc))
  · exact sum_nonneg' _ _ fun c hc => mul_nonneg (sq_nonneg _) (hpos _ (cols_of_cell t k hc))

theorem hinge_upper_convex (t : Term K) (k : Kind) (i j : Nat) : Convex fun x => max ((dev t k x i j - t.upper j) * t.coeffs j) 0 :=
  (((dev_affine t k i j).sub_const _).mul_const _).hinge

theorem hinge_lower_convex (t : Term K) (k : Kind) (i j : Nat) : Convex fun x => max ((t.lower j - dev t k x i j) * t.coeffs j) 0 :=
  (((dev_affine t k i j).const_sub _).mul_const _).hinge

/-- The common value of tolerance costs and tolerance constraints. -/
def hinges (t : Term K) (k : Kind) (x : Nat → K) : K :=
  ((t.cells k).map fun c => max ((dev t k x c.1 c.2 - t.upper c.2) * t.coeffs c.2) 0).sum +
    ((t.cells k).map fun c => max ((t.lower c.2 - dev t k x c.1 c.2) * t.coeffs c.2) 0).sum

theorem hinges_convex (t : Term K) (k : Kind) : Convex (hinges t k) :=
  (convex_sum (t.cells k) (fun c x => max ((dev t k x c.1 c.2 - t.upper c.2) * t.coeffs c.2) 0) fun c _ => hinge_upper_convex t k _ _).add
    (convex_sum (t.cells k) (fun c x => max ((t.lower c.2 - dev t k x c.1 c.2) * t.coeffs c.2) 0) fun c _ => hinge_lower_convex t k _ _)

theorem hinges_nonneg (t : Term K) (k : Kind) (x : Nat → K) : 0 ≤ hinges t k x :=
  add_nonneg (sum_nonneg' _ _ fun c _ => le_max_right _ _) (sum_nonneg' _ _ fun c _ => le_max_right _ _)

/-- C148 (tolerance costs): convex and never negative, for all coefficients. -/
theorem C148_ineq_cost (t : Term K) (k : Kind) (hf : Fits t k) :
    ∃ g, (∀ x, t.ineqCostValue k x = some (g x)) ∧ Convex g ∧ ∀ x, 0 ≤ g x := by
  refine ⟨hinges t k, fun x => ?_, hinges_convex t k, hinges_nonneg t k⟩
  have hl : ∀ a b : K, (a * -1 + b) = b - a := fun a b => by ring
  rw [Term.ineqCostValue, diffMat_spec t k hf x, Option.map_some]
  simp only [Term.diff1, Term.diff2, hl]
  rw [toList_cells t k fun i j => (dev t k x i j - t.upper j) * t.coeffs j, toList_cells t k fun i j => (t.lower j - dev t k x i j) * t.coeffs j]
  simp only [List.map_map, Function.comp_def, hinges]

/-- C148 (tolerance constraints): the reported violation is convex and never negative, for all coefficients, and the violation by the linear
rows is the same function. -/
theorem C148_ineq_cnt (t : Term K) (k : Kind) (hf : Fits t k) :
    ∃ g, (∀ x, (t.ineqCntValue k x).map (fun vals => (ineqViolations vals).sum) = some (g x)) ∧ Convex g ∧ (∀ x, 0 ≤ g x) ∧
      ∀ x, (t.ineqCntConvex k).violation x = g x := by
  have hv : ∀ x, (t.ineqCntConvex k).violation x = hinges t k x := by
    intro x
    obtain ⟨a1, a2⟩ := foldl_addIneq (t.ineqExprs k) (ConvexConstraints.new : ConvexConstraints K)
    rw [violation_eq, violationSpec, Term.ineqCntConvex, a1, a2]
    simp only [ConvexConstraints.new, List.nil_append, List.map_nil, List.sum_nil, zero_add]
    exact ineqExprs_hinge t k x
  refine ⟨hinges t k, fun x => ?_, hinges_convex t k, hinges_nonneg t k, hv⟩
  obtain ⟨vals, h1, h2⟩ := C71_tolerance_partial t k hf x
  rw [h1, Option.map_some, h2, hv]

/-- C148 (equality constraints): the reported violation is convex and never negative, for all coefficients; so is the violation by the
linear rows, a different function (C71). Both vanish exactly when every difference with a coefficient equals its target. -/
theorem C148_eq_cnt (t : Term K) (k : Kind) (hf : Fits t k) :
    ∃ g, (∀ x, (t.eqCntValue k x).map (fun vals => (eqViolations vals).sum) = some (g x)) ∧ Convex g ∧ (∀ x, 0 ≤ g x) ∧
      Convex (t.eqCntConvex k).violation ∧ (∀ x, 0 ≤ (t.eqCntConvex k).violation x) ∧ ∀ x, g x = 0 ↔ (t.eqCntConvex k).violation x = 0 := by
  have hv : (t.eqCntConvex k).violation = fun x => ((t.cells k).map fun c => |t.coeffs c.2| * |dev t k x c.1 c.2|).sum :=
    funext fun x => (C71_violated_formula t k hf x).2
  refine ⟨fun x => ((t.cells k).map fun c => |t.coeffs c.2| * dev t k x c.1 c.2 ^ 2).sum, fun x => ?_, ?_, fun x => ?_, ?_, fun x => ?_,
    fun x => ?_⟩
  · obtain ⟨vals, h1, h2⟩ := (C71_violated_formula t k hf x).1
    rw [h1, Option.map_some, h2]
  · have := convex_sum (t.cells k) (fun c x => dev t k x c.1 c.2 ^ 2 * |t.coeffs c.2|) fun c hc =>
      (dev_affine t k c.1 c.2).sq (abs_nonneg _)
    simpa only [mul_comm] using this
  · exact sum_nonneg' _ _ fun c hc => by positivity
  · rw [hv]
    exact convex_sum (t.cells k) (fun c x => |t.coeffs c.2| * |dev t k x c.1 c.2|) fun c hc => (dev_affine t k c.1 c.2).abs (abs_nonneg _)
  · rw [hv]
    exact sum_nonneg' _ _ fun c hc => by positivity
  · rw [hv]
    have hz : ∀ f : Nat × Nat → K, (∀ c, 0 ≤ f c) → (((t.cells k).map f).sum = 0 ↔ ∀ c ∈ t.cells k, f c = 0) := by
      intro f h
      constructor
      · intro hs c hc
        refine le_antisymm ?_ (h c)
        rw [← hs]
        exact List.single_le_sum (by intro v hv; obtain ⟨a, -, rfl⟩ := List.mem_map.1 hv; exact h a) _ (List.mem_map_of_mem hc)
      · intro hs
        exact List.sum_eq_zero (by intro v hv; obtain ⟨a, ha, rfl⟩ := List.mem_map.1 hv; exact hs a ha)
    rw [hz _ fun c => by positivity, hz _ fun c => by positivity]
    simp [mul_eq_zero]

end Verif.Traj

namespace Verif.EndToEnd

open Verif.Construct Verif.Sco Verif.Traj Verif.Legacy Verif.Optimal

variable {K : Type} [Field K] [LinearOrder K] [IsStrictOrderedRing K]

/-! ### Specification -/

/-- Specification: the optimiser evaluates exactly these costs and constraints of joint terms. -/
structure JointProblem (e : Env K) (costs cnts : List (Kind × JointAdded K)) : Prop where
  count : cnts.length = e.nCnts
  costs : ∀ x, e.exactCosts x = costs.map fun a => (cost a.1 (read x) a.2).getD 0
  cnts : ∀ x, e.exactViols x = cnts.map fun a => (violation a.1 (read x) a.2).getD 0

/-- Specification: a cost of a joint term without time, on steps of the trajectory, with coefficients that are not negative. -/
def PlainCost (a : Kind × JointAdded K) : Prop :=
  ∃ t : Term K, Fits t a.1 ∧ (∀ j, j < t.vars.cols → 0 ≤ t.coeffs j) ∧ (a.2 = .eqCost t ∨ a.2 = .ineqCost t)

/-- Specification: the same for constraints. -/
def PlainCnt (a : Kind × JointAdded K) : Prop :=
  ∃ t : Term K, Fits t a.1 ∧ (∀ j, j < t.vars.cols → 0 ≤ t.coeffs j) ∧ (a.2 = .eqCnt t ∨ a.2 = .ineqCnt t)

/-- Specification: the trajectory keeps the constraint: every difference of the kind is the target, or in the band around it. -/
def Meets (x : Nat → K) (a : Kind × JointAdded K) : Prop :=
  (∀ t, a.2 = .eqCnt t → ∀ i j, Cell t a.1 i j → delta a.1.order (fun s => x (t.vars.var s j)) i = t.targets j) ∧
    ∀ t, a.2 = .ineqCnt t → InBand t a.1 x

/-- Specification: the penalised cost with the violations of the linear rows, which is what the QP minimises on its box. -/
def linMerit (costs cnts : List (Kind × JointAdded K)) (μ : List K) (x : List K) : K :=
  (costs.map fun a => (cost a.1 (read x) a.2).getD 0).sum + (List.zipWith (· * ·) (cnts.map fun a => linear a.1 (read x) a.2) μ).sum

/-! ### Convexity in the list of variables -/

theorem read_seg {t : K} {x z : List K} (h : x.length = z.length) :
    read (seg t x z) = fun i => read x i + t * (read z i - read x i) := by
  funext i
  simp only [read, seg, List.getD_eq_getElem?_getD, List.getElem?_zipWith]
  by_cases hi : i < x.length
  · rw [List.getElem?_eq_getElem hi, List.getElem?_eq_getElem (h ▸ hi)]; rfl
  · rw [List.getElem?_eq_none (by omega), List.getElem?_eq_none (by omega)]; simp

theorem convexOn_read {S : List K → Prop} {n : Nat} (hn : ∀ x, S x → x.length = n)
    (hS : ∀ x z t, S x → S z → 0 ≤ t → t ≤ 1 → S (seg t x z)) {g : (Nat → K) → K} (hg : Traj.Convex g) : ConvexOn S fun x => g (read x) := by
  intro x z t hx hz h0 h1
  refine ⟨hS x z t hx hz h0 h1, ?_⟩
  simp only [read_seg ((hn x hx).trans (hn z hz).symm)]
  exact hg _ _ t h0 h1

theorem cost_convex {a : Kind × JointAdded K} (h : PlainCost a) :
    ∃ g, (∀ x, cost a.1 x a.2 = some (g x)) ∧ Traj.Convex g ∧ ∀ x, 0 ≤ g x := by
  obtain ⟨t, hf, hc, h | h⟩ := h
  · simp only [h, cost]; exact C148_eq_cost t a.1 hf hc
  · simp only [h, cost]; exact C148_ineq_cost t a.1 hf

theorem viol_nonneg {a : Kind × JointAdded K} (h : PlainCnt a) :
    ∃ g : (Nat → K) → K, (∀ x, violation a.1 x a.2 = some (g x)) ∧ ∀ x, 0 ≤ g x := by
  obtain ⟨t, hf, hc, h | h⟩ := h
  · obtain ⟨g, h1, -, h3, -⟩ := C148_eq_cnt t a.1 hf
    exact ⟨g, by simpa only [h, violation] using h1, h3⟩
  · obtain ⟨g, h1, -, h3, -⟩ := C148_ineq_cnt t a.1 hf
    exact ⟨g, by simpa only [h, violation] using h1, h3⟩

theorem linear_convex {a : Kind × JointAdded K} (h : PlainCnt a) :
    Traj.Convex (fun x => linear a.1 x a.2) ∧ (∀ x, 0 ≤ linear a.1 x a.2) ∧ ∀ x, Meets x a → linear a.1 x a.2 = 0 := by
  obtain ⟨t, hf, hc, h | h⟩ := h
  · obtain ⟨g, h1, -, h3, h4, h5, h6⟩ := C148_eq_cnt t a.1 hf
    simp only [h, linear, Meets]
    refine ⟨h4, h5, fun x hx => ?_⟩
    rw [(C71_violated_formula t a.1 hf x).2]
    refine List.sum_eq_zero ?_
    intro v hv
    obtain ⟨c, hcm, rfl⟩ := List.mem_map.1 hv
    have := hx.1 t rfl c.1 c.2 ((mem_cells t a.1 c).1 hcm)
    rw [dev, this]
    simp
  · obtain ⟨g, h1, h2, h3, h4⟩ := C148_ineq_cnt t a.1 hf
    simp only [h, linear, Meets, h4]
    refine ⟨h2, h3, fun x hx => ?_⟩
    rw [← h4]
    obtain ⟨a1, a2⟩ := foldl_addIneq (t.ineqExprs a.1) (ConvexConstraints.new : ConvexConstraints K)
    rw [violation_eq, violationSpec, Term.ineqCntConvex, a1, a2]
    simp only [ConvexConstraints.new, List.nil_append, List.map_nil, List.sum_nil, zero_add]
    rw [ineqExprs_hinge]
    have key : ∀ c ∈ t.cells a.1, (dev t a.1 x c.1 c.2 - t.upper c.2) * t.coeffs c.2 ≤ 0 ∧ (t.lower c.2 - dev t a.1 x c.1 c.2) * t.coeffs c.2 ≤ 0 := by
      intro c hcm
      have hcell := (mem_cells t a.1 c).1 hcm
      obtain ⟨b1, b2⟩ := hx.2 t rfl c.1 c.2 hcell
      have hp := hc c.2 hcell.2.2
      constructor
      · exact mul_nonpos_of_nonpos_of_nonneg (by rw [dev]; linarith) hp
      · exact mul_nonpos_of_nonpos_of_nonneg (by rw [dev]; linarith) hp
    rw [List.sum_eq_zero, List.sum_eq_zero, add_zero]
    · intro v hv
      obtain ⟨c, hcm, rfl⟩ := List.mem_map.1 hv
      exact max_eq_right (key c hcm).2
    · intro v hv
      obtain ⟨c, hcm, rfl⟩ := List.mem_map.1 hv
      exact max_eq_right (key c hcm).1

/-- C148 (runs): a problem whose costs and constraints are joint position, velocity, acceleration and jerk terms without time is convex.
If a run reports convergence within its limits with a trust box of at least the minimum, and the answer of the last QP is no worse, by the
model, than the points `S` of the box (the trajectories within the joint limits and fixed steps), then the total cost exceeds that of any
trajectory of `S` that keeps all constraints by at most the tolerance, plus the excess of the linear over the reported violations at
the returned point, times the distance in units of the final box. -/
theorem C148_joint_optimal_partial (p : Params K) (e : Env K) (hmin : 0 < p.minTrustBoxSize) (happ : 0 ≤ p.minApproxImprove)
    (hinit : 0 ≤ p.initialMeritErrorCoeff) (hratio : 0 ≤ p.meritCoeffIncreaseRatio) (costs cnts : List (Kind × JointAdded K))
    (hp : JointProblem e costs cnts) (hcost : ∀ a ∈ costs, PlainCost a) (hcnt : ∀ a ∈ cnts, PlainCnt a)
    (fuel : ℕ) (x0 : List K) (box : K) (r : Result K)
    (hclock : ∀ k, e.clock k ≤ p.maxTime) (hr : optimize p e fuel (initialState x0 box) = some r) (hc : r.status = .converged)
    (hiter : (r.st.nQpSolves : ℤ) < p.maxIter) (hbox : p.minTrustBoxSize ≤ r.st.box)
    (S : List K → Prop) (n : Nat) (hn : ∀ x, S x → x.length = n) (hS : ∀ x z t, S x → S z → 0 ≤ t → t ≤ 1 → S (seg t x z)) (hx : S r.st.x) :
    ∃ k y, e.qp k r.st.x r.st.box = some y ∧
      ((∀ w, S w → Near r.st.box r.st.x w → modelMerit e r.st.coeffs k y ≤ linMerit costs cnts r.st.coeffs w) →
        ∀ z D, S z → (∀ a ∈ cnts, Meets (read z) a) → Near D r.st.x z →
          r.totalCost ≤ (costs.map fun a => (cost a.1 (read z) a.2).getD 0).sum +
            (tolerance p (exactMerit e r.st.coeffs r.st.x) +
              max 0 (linMerit costs cnts r.st.coeffs r.st.x - exactMerit e r.st.coeffs r.st.x)) * max 1 (D / r.st.box)) := by
  obtain ⟨k, y, h1, h2⟩ := C147_model_optimal_partial p e hmin happ fuel x0 box r hclock hr hc hiter hbox
  have ht : Terms e (costs.map fun a x => (cost a.1 (read x) a.2).getD 0) (cnts.map fun a x => (violation a.1 (read x) a.2).getD 0) :=
    ⟨by rw [List.length_map, hp.count], fun x => by rw [hp.costs, List.map_map]; rfl, fun x => by rw [hp.cnts, List.map_map]; rfl⟩
  have hμ := coeffs_nonneg ht hr hinit hratio
  -- the linear problem
  let e' : Env K := { e with exactViols := fun x => cnts.map fun a => linear a.1 (read x) a.2 }
  have ht' : Terms e' (costs.map fun a x => (cost a.1 (read x) a.2).getD 0) (cnts.map fun a x => linear a.1 (read x) a.2) :=
    ⟨by rw [List.length_map]; exact hp.count, fun x => by rw [List.map_map]; exact hp.costs x, fun x => by rw [List.map_map]; rfl⟩
  have hlin : linMerit costs cnts r.st.coeffs = exactMerit e' r.st.coeffs := by
    funext x
    simp only [linMerit, exactMerit, e', hp.costs]
  have hcv : ∀ f ∈ costs.map (fun a x => (cost a.1 (read x) a.2).getD 0), ConvexOn S f ∧ ∀ x, 0 ≤ f x := by
    intro f hf
    obtain ⟨a, ha, rfl⟩ := List.mem_map.1 hf
    obtain ⟨g, g1, g2, g3⟩ := cost_convex (hcost a ha)
    simp only [g1, Option.getD_some]
    exact ⟨convexOn_read hn hS g2, fun x => g3 _⟩
  have hconv : ConvexOn S (linMerit costs cnts r.st.coeffs) := by
    rw [hlin]
    refine merit_convex ht' hμ (fun x z t hx hz h0 h1 => ⟨hS x z t hx hz h0 h1, by simp⟩) (fun f hf => (hcv f hf).1) fun f hf => ?_
    obtain ⟨a, ha, rfl⟩ := List.mem_map.1 hf
    exact convexOn_read hn hS (linear_convex (hcnt a ha)).1
  have hge := merit_ge ht hμ r.st.x (by
    intro f hf
    obtain ⟨a, ha, rfl⟩ := List.mem_map.1 hf
    obtain ⟨g, g1, g2⟩ := viol_nonneg (hcnt a ha)
    simp only [g1, Option.getD_some]
    exact g2 _)
  have hpos : 0 ≤ (e.exactCosts r.st.x).sum := by
    rw [ht.costs]
    refine List.sum_nonneg fun v hv => ?_
    obtain ⟨f, hf, rfl⟩ := List.mem_map.1 hv
    exact (hcv f hf).2 _
  refine ⟨k, y, h1, fun hlow z D hz hfz hD => ?_⟩
  have key := h2 S _ hconv hx (hpos.trans hge) hlow z D hz hD
  have hfeas : linMerit costs cnts r.st.coeffs z = (costs.map fun a => (cost a.1 (read z) a.2).getD 0).sum := by
    rw [hlin, merit_feasible ht' _ z (by
      intro f hf
      obtain ⟨a, ha, rfl⟩ := List.mem_map.1 hf
      exact (linear_convex (hcnt a ha)).2.2 _ (hfz a ha))]
    rw [← hp.costs]
  rw [hfeas] at key
  rw [totalCost_eq hclock hr hc]
  exact hge.trans key

/-- C148 (tolerances): without equality constraints the excess is zero at every point. -/
theorem C148_no_excess (e : Env K) (costs cnts : List (Kind × JointAdded K)) (hp : JointProblem e costs cnts) (hcnt : ∀ a ∈ cnts, PlainCnt a)
    (htol : ∀ a ∈ cnts, ∀ t, a.2 ≠ .eqCnt t) (μ x : List K) : linMerit costs cnts μ x = exactMerit e μ x := by
  unfold linMerit exactMerit
  rw [hp.costs, hp.cnts]
  congr 3
  refine List.map_congr_left fun a ha => Eq.symm ?_
  obtain ⟨t, hf, hc, h | h⟩ := hcnt a ha
  · exact absurd h (htol a ha t)
  · obtain ⟨g, h1, -, -, h4⟩ := C148_ineq_cnt t a.1 hf
    simp only [h, linear, violation, h4, h1, Option.getD_some]

namespace JointDemo

/-- Two steps of one joint: the cost is twice the squared step, and the step is to be one half, give or take a tenth. -/
def costTerm : Term ℚ := ⟨⟨2, 1, fun i _ => i⟩, fun _ => 2, fun _ => 0, fun _ => 0, fun _ => 0, 0, 1⟩
def costs : List (Kind × JointAdded ℚ) := [(.vel, .eqCost costTerm)]
def cnts : List (Kind × JointAdded ℚ) := [(.vel, .ineqCnt Demo.term)]

/-- The solver knows the optimum of the penalised problem near the start: a step of 2/5. -/
def env : Env ℚ where
  nCnts := 1
  closest := id
  exactCosts := fun x => costs.map fun a => (cost a.1 (read x) a.2).getD 0
  exactViols := fun x => cnts.map fun a => (violation a.1 (read x) a.2).getD 0
  qp := fun _ _ _ => some [0, 2/5]
  modelCosts := fun _ y => costs.map fun a => (cost a.1 (read y) a.2).getD 0
  modelViols := fun _ y => cnts.map fun a => linear a.1 (read y) a.2
  clock := fun _ => 0

theorem run : ∃ r, optimize Legacy.OptDemo.params env 20 (initialState [0, 0] (2/5)) = some r ∧ r.status = .converged ∧ r.st.x = [0, 2/5] ∧
    r.st.nQpSolves = 2 ∧ r.st.box = 3/5 ∧ r.st.coeffs = [10] ∧ r.totalCost = 8/25 := by
  have h : (optimize Legacy.OptDemo.params env 20 (initialState [0, 0] (2/5))).map (fun r => (r.status, r.st.x, r.st.nQpSolves, r.st.box,
      r.st.coeffs, r.totalCost)) = some (.converged, [0, 2/5], 2, 3/5, [10], 8/25) := by decide +kernel
  cases hr : optimize Legacy.OptDemo.params env 20 (initialState [0, 0] (2/5)) with
  | none => rw [hr] at h; cases h
  | some r =>
    rw [hr] at h
    simp only [Option.map_some, Option.some.injEq, Prod.mk.injEq] at h
    exact ⟨r, rfl, h⟩

theorem linMerit_eq (a b : ℚ) : linMerit costs cnts [10] [a, b] =
    (b - a) ^ 2 * 2 + (max ((b - a - 1/2 - 1/10) * 2) 0 + max ((-1/10 - (b - a - 1/2)) * 2) 0) * 10 := by
  have hf : Fits costTerm .vel := by simp [Fits, costTerm, Kind.order]
  have hf' : Fits Demo.term .vel := by simp [Fits, Demo.term, Kind.order]
  have c1 : costTerm.cells .vel = [(0, 0)] := by decide
  have c2 : Demo.term.cells .vel = [(0, 0)] := by decide
  have h1 := C53_exact _ .vel hf (read [a, b])
  have h2 : (Demo.term.ineqCntConvex .vel).violation (read [a, b]) = hinges Demo.term .vel (read [a, b]) := by
    obtain ⟨a1, a2⟩ := foldl_addIneq (Demo.term.ineqExprs .vel) (ConvexConstraints.new : ConvexConstraints ℚ)
    rw [violation_eq, violationSpec, Term.ineqCntConvex, a1, a2]
    simp only [ConvexConstraints.new, List.nil_append, List.map_nil, List.sum_nil, zero_add]
    exact ineqExprs_hinge _ _ _
  simp only [linMerit, costs, cnts, List.map_cons, List.map_nil, cost, linear, h1.1, h1.2.1, h2, hinges, c1, c2, Option.getD_some,
    List.zipWith_cons_cons, List.zipWith_nil_left, List.sum_cons, List.sum_nil]
  simp only [dev, delta, Kind.order, Demo.term, costTerm, read, List.getD_cons_zero, List.getD_cons_succ]
  norm_num

theorem lin_ge (a b : ℚ) : 8/25 ≤ linMerit costs cnts [10] [a, b] := by
  rw [linMerit_eq]
  have h1 := le_max_left ((b - a - 1/2 - 1/10) * 2) 0
  have h2 := le_max_right ((b - a - 1/2 - 1/10) * 2) 0
  have h3 := le_max_left ((-1/10 - (b - a - 1/2)) * 2) 0
  have h4 := le_max_right ((-1/10 - (b - a - 1/2)) * 2) 0
  by_cases h : b - a ≤ 2/5
  · nlinarith [sq_nonneg (b - a - 2/5)]
  · push Not at h
    nlinarith [sq_nonneg (b - a - 2/5)]

/-- non-vacuity for C148: the run meets all hypotheses; the trajectories of `S` are those that start at 0. -/
example (b D : ℚ) (h1 : 2/5 ≤ b) (h2 : b ≤ 3/5) (hD : |b - 2/5| ≤ D) (hD0 : 0 ≤ D) : 8/25 ≤ b ^ 2 * 2 + 1/10000 * max 1 (D / (3/5)) := by
  obtain ⟨r, g1, g2, g3, g4, g5, g6, g7⟩ := run
  have hp : JointProblem env costs cnts := ⟨rfl, fun _ => rfl, fun _ => rfl⟩
  have hf : Fits costTerm .vel := by simp [Fits, costTerm, Kind.order]
  have hf' : Fits Demo.term .vel := by simp [Fits, Demo.term, Kind.order]
  have hcnt : ∀ a ∈ cnts, PlainCnt a := by
    intro a ha
    simp only [cnts, List.mem_singleton] at ha
    subst ha
    exact ⟨Demo.term, hf', fun j _ => by simp [Demo.term], Or.inr rfl⟩
  obtain ⟨k, y, q1, q2⟩ := C148_joint_optimal_partial Legacy.OptDemo.params env (by norm_num [Legacy.OptDemo.params])
    (by norm_num [Legacy.OptDemo.params]) (by norm_num [Legacy.OptDemo.params]) (by norm_num [Legacy.OptDemo.params]) costs cnts hp
    (by
      intro a ha
      simp only [costs, List.mem_singleton] at ha
      subst ha
      exact ⟨_, hf, fun j _ => by simp [costTerm], Or.inl rfl⟩) hcnt 20 [0, 0] (2/5) r (fun _ => by norm_num [env, Legacy.OptDemo.params])
    g1 g2 (by rw [g4]; decide) (by rw [g5]; norm_num [Legacy.OptDemo.params]) (fun x => ∃ b, x = [0, b]) 2
    (by rintro _ ⟨b, rfl⟩; rfl) (by rintro _ _ t ⟨a, rfl⟩ ⟨b, rfl⟩ - -; exact ⟨_, by simp [seg]; rfl⟩) ⟨2/5, g3⟩
  have hno := C148_no_excess env costs cnts hp hcnt (by simp [cnts]) [10] [0, 2/5]
  rw [g3, g5] at q1
  simp only [env, Option.some.injEq] at q1
  have hmm : modelMerit env [10] k [0, 2/5] = 8/25 := by
    show modelMerit env [10] 0 [0, 2/5] = 8/25
    decide +kernel
  rw [g3, g5, g6, g7, hno, sub_self, max_self, add_zero, ← q1, hmm] at q2
  have := q2 (by rintro _ ⟨w, rfl⟩ -; exact lin_ge 0 w) [0, b] D ⟨b, rfl⟩ (by
    intro a ha
    simp only [cnts, List.mem_singleton] at ha
    subst ha
    refine And.intro (fun t ht => by cases ht) (fun t ht => ?_)
    injection ht with ht
    subst ht
    rintro i j ⟨c1, c2, c3⟩
    have hi : i = 0 := by
      simp only [Demo.term, Kind.order] at c2
      omega
    subst hi
    simp only [Demo.term, delta, Kind.order, read, List.getD_cons_zero, List.getD_cons_succ]
    constructor <;> norm_num <;> linarith) (.cons (by simpa using hD0) (.cons hD .nil))
  have ht : tolerance Legacy.OptDemo.params (exactMerit env [10] [0, 2/5]) = 1/10000 := by
    rw [show exactMerit env [10] [0, 2/5] = 8/25 by decide +kernel]
    norm_num [tolerance, Legacy.OptDemo.params]
  have hz : (costs.map fun a => (cost a.1 (read [0, b]) a.2).getD 0).sum = b ^ 2 * 2 := by
    have c1 : costTerm.cells .vel = [(0, 0)] := by decide
    have h1 := C53_exact _ .vel hf (read [0, b])
    simp only [costs, List.map_cons, List.map_nil, cost, h1.1, h1.2.1, c1, Option.getD_some, List.sum_cons, List.sum_nil]
    simp only [dev, delta, Kind.order, costTerm, read, List.getD_cons_zero, List.getD_cons_succ]
    norm_num
  rw [ht, hz] at this
  exact this

end JointDemo

end Verif.EndToEnd
