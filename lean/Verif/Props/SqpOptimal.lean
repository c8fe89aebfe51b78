import Verif.Props.Sqp
import Verif.Props.Optimal

/-!
C149: what convergence of `trajopt_sqp::TrustRegionSQPSolver` means for convex problems.
-/

set_option linter.unusedSectionVars false
set_option linter.unusedVariables false

namespace Verif.Sqp

open Verif.Optimal

universe u
variable {K : Type u} [Field K] [LinearOrder K] [IsStrictOrderedRing K]

/-! ### Specification -/

/-- Specification: the merit of an answer `y` of the `k`-th QP by its convex model. -/
def modelMerit (e : Env K) (μ : List K) (k : ℕ) (y : List K) : K :=
  (e.convexCosts k y).sum + (List.zipWith (· * ·) (e.convexViols k y) μ).sum

/-- Specification: how much improvement the two convergence tests call small at a point of merit `m`. -/
def tolerance (p : Params K) (m : K) : K := max p.minApproxImprove (p.minApproxImproveFrac * max |m| (1 / 1000000000000))

/-- Specification: the last QP was posed around the best point with the present box, and its answer promises at most a small
improvement. -/
def Last (p : Params K) (e : Env K) (s : St K) : Prop :=
  ∃ k y, k ≤ s.overallIteration ∧ e.qp k (best e s) s.box = some y ∧
    exactMerit e s.coeffs (best e s) - modelMerit e s.coeffs k y ≤ tolerance p (exactMerit e s.coeffs (best e s))

/-! ### Why a run ends -/

theorem Last.of_eq {p : Params K} {e : Env K} {s t : St K} (h : Last p e s) (h1 : t.bestVars = s.bestVars) (h2 : t.box = s.box)
    (h3 : t.coeffs = s.coeffs) (h4 : t.overallIteration = s.overallIteration) : Last p e t := by
  unfold Last best at *
  rw [h1, h2, h3, h4]
  exact h

theorem trBody_last (p : Params K) (e : Env K) (s : St K) (f : ℤ) (h : LoopInv e s) (t : St K) (ht : trBody p e s f = .done t)
    (hc : t.status = .converged) : Last p e t := by
  unfold trBody at ht
  set s0 : St K := { s with overallIteration := s.overallIteration + 1,
                            trustRegionIteration := s.trustRegionIteration + 1 } with hs0
  obtain ⟨g1, g2, g3, g4, g5, g6, g7, g8, g9, g10, g11, g12, g13, g14, g15, g16⟩ := solveQP_frame e s0
  obtain ⟨q1, q2, q3⟩ := solveQP_status e s0
  have hcase := solveQP_status_cases e s0
  have hval := solveQP_values e s0
  simp only at ht
  generalize solveQPProblem e s0 = r at *
  obtain ⟨r, st⟩ := r
  simp only at *
  by_cases c1 : st = .stoppedByCallback
  · rw [if_pos c1] at ht
    cases ht
    rw [c1] at hc
    cases hc
  rw [if_neg c1] at ht
  by_cases c2 : st ≠ .running
  · rw [if_pos c2] at ht
    split_ifs at ht
    cases ht
    rcases hcase with h' | h' | h' <;> rw [h'] at hc <;> cases hc
  rw [if_neg c2] at ht
  push Not at c2
  obtain ⟨hsome, -⟩ := q2.1 c2
  obtain ⟨y, hy⟩ := Option.isSome_iff_exists.1 hsome
  obtain ⟨-, -, -, -, v5, -, -⟩ := hval y hy
  have hbest : ∀ x, best e { r with status := x } = best e s := fun x => by simp only [best, g1]; rfl
  have key : ∀ x : Status, r.approxImprove < p.minApproxImprove ∨ r.approxImprove / max |r.bestExactMerit| tiny < p.minApproxImproveFrac →
      Last p e { r with status := x } := by
    intro x hsm
    refine ⟨s0.overallIteration, y, ?_, ?_, ?_⟩
    · show s0.overallIteration ≤ r.overallIteration
      rw [g11]
    · rw [hbest]
      show e.qp _ _ r.box = _
      rw [g6, ← hy]
      show e.qp s0.overallIteration (best e s) s.box = e.qp s0.overallIteration s.solverCentre s.solverBox
      rw [h.centre, h.sbox]
    · rw [hbest]
      have hco : r.coeffs = s.coeffs := g5
      have hm : exactMerit e s.coeffs (best e s) = r.bestExactMerit := by rw [g4]; exact h.merit.symm
      show exactMerit e r.coeffs (best e s) - modelMerit e r.coeffs _ y ≤ tolerance p (exactMerit e r.coeffs (best e s))
      rw [hco, hm]
      have ha : r.bestExactMerit - modelMerit e s.coeffs s0.overallIteration y = r.approxImprove := by
        rw [v5, g4]; rfl
      rw [ha]
      rcases hsm with hsm | hsm
      · exact hsm.le.trans (le_max_left _ _)
      · rw [div_lt_iff₀ (lt_max_of_lt_right tiny_pos)] at hsm
        exact hsm.le.trans (le_max_right _ _)
  by_cases c3 : r.approxImprove < p.minApproxImprove
  · rw [if_pos c3] at ht
    cases ht
    exact key _ (Or.inl c3)
  rw [if_neg c3] at ht
  by_cases c4 : r.approxImprove / max |r.bestExactMerit| tiny < p.minApproxImproveFrac
  · rw [if_pos c4] at ht
    cases ht
    exact key _ (Or.inr c4)
  rw [if_neg c4] at ht
  split_ifs at ht
  cases ht
  rw [show (accept p e { r with status := st }).status = st from rfl, c2] at hc
  cases hc

theorem trBody_status (p : Params K) (e : Env K) (s : St K) (f : ℤ) (t : St K) (f' : ℤ) (ht : trBody p e s f = .cont t f') :
    t.status ≠ .converged := by
  unfold trBody at ht
  set s0 : St K := { s with overallIteration := s.overallIteration + 1,
                            trustRegionIteration := s.trustRegionIteration + 1 } with hs0
  have hcase := solveQP_status_cases e s0
  simp only at ht
  generalize solveQPProblem e s0 = r at *
  obtain ⟨r, st⟩ := r
  simp only at *
  have hst : st ≠ .converged := by rcases hcase with h | h | h <;> rw [h] <;> decide
  split_ifs at ht <;> cases ht <;> exact hst

theorem trLoop_last (p : Params K) (e : Env K) (n : ℕ) (s : St K) (f : ℤ) (t : St K) (h : LoopInv e s) (hs : s.status ≠ .converged)
    (hr : trLoop p e n s f = some t) (hc : t.status = .converged) : Last p e t := by
  induction n generalizing s f with
  | zero => simp [trLoop] at hr
  | succ n ih =>
    unfold trLoop at hr
    split_ifs at hr with hb
    · have b1 := (trBody_spec p e s f h).1
      cases hbody : trBody p e s f with
      | cont w f' =>
        rw [hbody] at hr b1
        exact ih w f' b1 (trBody_status p e s f w f' hbody) hr
      | done w =>
        rw [hbody] at hr
        injection hr with hr; subst hr
        exact trBody_last p e s f h w hbody hc
    · injection hr with hr; subst hr
      exact absurd hc hs

theorem trLoop_convexify (p : Params K) (e : Env K) (n : ℕ) (s : St K) (f : ℤ) (t : St K) (hr : trLoop p e n s f = some t) :
    t.convexifyIteration = s.convexifyIteration := by
  induction n generalizing s f with
  | zero => simp [trLoop] at hr
  | succ n ih =>
    unfold trLoop at hr
    split_ifs at hr with hb
    · have hb : (trBody p e s f).st.convexifyIteration = s.convexifyIteration := by
        unfold trBody
        set s0 : St K := { s with overallIteration := s.overallIteration + 1,
                                  trustRegionIteration := s.trustRegionIteration + 1 } with hs0
        obtain ⟨g1, g2, g3, g4, g5, g6, g7, g8, g9, g10, g11, g12, g13, g14, g15, g16⟩ := solveQP_frame e s0
        simp only
        generalize solveQPProblem e s0 = r at *
        obtain ⟨r, st⟩ := r
        simp only at *
        split_ifs <;> exact g15
      cases hbody : trBody p e s f with
      | cont w f' =>
        rw [hbody] at hr hb
        rw [ih w f' hr]; exact hb
      | done w =>
        rw [hbody] at hr hb
        injection hr with hr; subst hr
        exact hb
    · injection hr with hr; subst hr
      rfl

theorem step_last (p : Params K) (e : Env K) (fuel : ℕ) (s t : St K) (b : Bool) (h : Consistent e s) (hs : s.status ≠ .converged)
    (hr : stepSQPSolver p e fuel s = some (t, b)) : t.convexifyIteration = s.convexifyIteration + 1 ∧
      (b = true → Last p e t ∨ t.box < p.minTrustBoxSize) ∧ (b = false → t.status ≠ .converged) := by
  unfold stepSQPSolver at hr
  simp only at hr
  set s1 : St K := convexifyAndSend { s with convexifyIteration := s.convexifyIteration + 1 } with hs1
  have hl : LoopInv e { s1 with trustRegionIteration := 0 } :=
    ⟨⟨h.vars, h.costs, h.viols, h.merit, h.pbox, h.pcoeffs, h.trace⟩, h.vars, h.pbox⟩
  cases ht : runTrustRegionLoop p e fuel s1 with
  | none => rw [ht] at hr; cases hr
  | some w =>
    rw [ht] at hr
    have i1 := trLoop_last p e fuel _ 0 w hl hs ht
    have i2 : w.convexifyIteration = s.convexifyIteration + 1 := trLoop_convexify p e fuel _ 0 w ht
    simp only at hr
    split_ifs at hr with c1 c2
    · cases hr; exact ⟨i2, fun _ => Or.inl (i1 c1), by simp⟩
    · cases hr; exact ⟨i2, fun _ => Or.inr c2, by simp⟩
    · cases hr; exact ⟨i2, by simp, fun _ => c1⟩

/-- Why the convexification loop ends. -/
theorem convexLoop_last (p : Params K) (e : Env K) (hclock : ∀ k, e.clock k ≤ p.maxTime) (fuel : ℕ) (k : ℕ) (s t : St K)
    (h : Consistent e s) (hs : s.status ≠ .converged) (hr : convexLoop p e fuel k s = some t) :
    Last p e t ∨ t.box < p.minTrustBoxSize ∨ p.maxIterations ≤ (t.overallIteration : ℤ) ∨ t.convexifyIteration = s.convexifyIteration + k := by
  induction k generalizing s with
  | zero => cases hr; exact Or.inr (Or.inr (Or.inr rfl))
  | succ k ih =>
    unfold convexLoop at hr
    simp only at hr
    rw [if_neg (not_lt.2 (hclock _))] at hr
    have h0 : Consistent e { s with clockReads := s.clockReads + 1 } :=
      ⟨h.vars, h.costs, h.viols, h.merit, h.pbox, h.pcoeffs, h.trace⟩
    split_ifs at hr with c2
    · cases hr; exact Or.inr (Or.inr (Or.inl c2))
    · split at hr
      · cases hr
      · rename_i w hstep
        injection hr with hr; subst hr
        rcases (step_last p e fuel _ _ _ h0 hs hstep).2.1 rfl with i | i
        · exact Or.inl i
        · exact Or.inr (Or.inl i)
      · rename_i w hstep
        obtain ⟨i1, -, i3⟩ := step_last p e fuel _ _ _ h0 hs hstep
        have i1' : w.convexifyIteration = s.convexifyIteration + 1 := i1
        rcases ih w (step_spec p e fuel _ _ _ h0 hstep).1 (i3 rfl) hr with j | j | j | j
        · exact Or.inl j
        · exact Or.inr (Or.inl j)
        · exact Or.inr (Or.inr (Or.inl j))
        · exact Or.inr (Or.inr (Or.inr (by omega)))

theorem penaltyLoop_last (p : Params K) (e : Env K) (hclock : ∀ k, e.clock k ≤ p.maxTime) (fuel m i : ℕ) (s t : St K)
    (h : Consistent e s) (hs : s.status = .running) (hr : penaltyLoop p e fuel m i s = some t) (hc : t.status = .converged) :
    Last p e t ∨ t.box < p.minTrustBoxSize ∨ p.maxIterations ≤ (t.overallIteration : ℤ) ∨ t.convexifyIteration = 99 := by
  induction m generalizing i s with
  | zero => cases hr; rw [hs] at hc; cases hc
  | succ m ih =>
    unfold penaltyLoop at hr
    simp only at hr
    have h0 : Consistent e { s with penaltyIteration := i, convexifyIteration := 0 } :=
      ⟨h.vars, h.costs, h.viols, h.merit, h.pbox, h.pcoeffs, h.trace⟩
    split at hr
    · cases hr
    · rename_i w hconv
      have c1 := (convexLoop_spec p e fuel 99 _ w h0 hconv).1
      have key := convexLoop_last p e hclock fuel 99 _ w h0 (by rw [show ({ s with penaltyIteration := i, convexifyIteration := 0 } : St K).status = s.status from rfl, hs]; decide) hconv
      split_ifs at hr with v1 v2
      · injection hr with hr; subst hr
        rcases key with j | j | j | j
        · exact Or.inl (j.of_eq rfl rfl rfl rfl)
        · exact Or.inr (Or.inl j)
        · exact Or.inr (Or.inr (Or.inl j))
        · refine Or.inr (Or.inr (Or.inr ?_))
          show w.convexifyIteration = 99
          simpa using j
      · injection hr with hr; subst hr
        rcases v2 with v2 | v2 <;> rw [v2] at hc <;> cases hc
      · have c1' : Consistent e { w with status := .running } :=
          ⟨c1.vars, c1.costs, c1.viols, c1.merit, c1.pbox, c1.pcoeffs, c1.trace⟩
        obtain ⟨a1, a2, a3⟩ := adjust_consistent p e _ c1'
        exact ih (i + 1) _ a1 a2 hr

/-- C149 (merit): if `solve` returns `kConverged`, the time limit was never exceeded and the solver did not run into its iteration
limit, its 99 convexifications or the minimum trust box, then the last QP was posed around the returned point with the reported box
and its answer promises an improvement of at most the tolerance. If the answer is, by its model, no worse than the values of a convex
function `m` on the box, then `merit ≤ m z + (tolerance + max 0 (m - merit at the result)) · max 1 (distance / box)` for every `z`. With
`m` the merit itself, the result is optimal up to the tolerance. No assumption on signs is needed, unlike C147. -/
theorem C149_merit_optimal_partial (p : Params K) (e : Env K) (hx0 : e.x0.length = e.nVars) (hmin : 0 < p.minTrustBoxSize) (fuel : ℕ) (s : St K)
    (hclock : ∀ k, e.clock k ≤ p.maxTime) (hr : solve p e fuel = some s) (hc : s.status = .converged)
    (hiter : (s.overallIteration : ℤ) < p.maxIterations) (hconv : s.convexifyIteration < 99) (hbox : p.minTrustBoxSize ≤ s.box) :
    ∃ k y, e.qp k s.probVars s.box = some y ∧
      ∀ (S : List K → Prop) (m : List K → K), ConvexOn S m → S s.probVars →
        (∀ w, S w → Near s.box s.probVars w → modelMerit e s.coeffs k y ≤ m w) →
        ∀ z D, S z → Near D s.probVars z →
          exactMerit e s.coeffs s.probVars ≤ m z + (tolerance p (exactMerit e s.coeffs s.probVars) +
            max 0 (m s.probVars - exactMerit e s.coeffs s.probVars)) * max 1 (D / s.box) := by
  unfold solve at hr
  split at hr
  · cases hr
  · rename_i t ht
    injection hr with hr
    have hst : t.status ≠ .running := by
      intro h
      rw [if_pos h] at hr
      subst hr
      cases hc
    rw [if_neg hst] at hr
    subst hr
    have key := penaltyLoop_last p e hclock fuel _ 0 _ t (init_consistent p e hx0) rfl ht hc
    change (t.overallIteration : ℤ) < p.maxIterations at hiter
    change t.convexifyIteration < 99 at hconv
    change p.minTrustBoxSize ≤ t.box at hbox
    rcases key with ⟨k, y, -, h1, h2⟩ | h | h | h
    · refine ⟨k, y, h1, fun S m hm hx hlow z D hz hD => ?_⟩
      refine global_of_model hm hx (hmin.trans_le hbox) (fun w hw hn => ?_) hz hD
      have h3 := hlow w hw hn
      change modelMerit e t.coeffs k y ≤ m w at h3
      change exactMerit e t.coeffs (best e t) - tolerance p (exactMerit e t.coeffs (best e t)) ≤ m w
      linarith
    · exact absurd h (not_lt.2 hbox)
    · omega
    · omega

/-! ### Costs of feasible points -/

theorem inflate_nonneg (p : Params K) (hratio : 0 ≤ p.meritCoeffIncreaseRatio) (s : St K) (h : ∀ c ∈ s.coeffs, 0 ≤ c) :
    ∀ c ∈ inflate p s, 0 ≤ c := by
  unfold inflate
  split_ifs
  · generalize s.bestViols = v
    generalize s.coeffs = l at h
    induction l generalizing v with
    | nil => simp
    | cons a l ih =>
      cases v with
      | nil => simp
      | cons b v =>
        intro c hc
        rw [List.zipWith_cons_cons] at hc
        rcases List.mem_cons.1 hc with rfl | hc
        · have := h a List.mem_cons_self
          split_ifs
          · exact mul_nonneg this hratio
          · exact this
        · exact ih v (fun c hc => h c (List.mem_cons_of_mem _ hc)) c hc
  · intro c hc
    obtain ⟨a, ha, rfl⟩ := List.mem_map.1 hc
    exact mul_nonneg (h a ha) hratio

theorem penaltyLoop_nonneg (p : Params K) (e : Env K) (hratio : 0 ≤ p.meritCoeffIncreaseRatio) (fuel m i : ℕ) (s t : St K)
    (h : Consistent e s) (hs : ∀ c ∈ s.coeffs, 0 ≤ c) (hr : penaltyLoop p e fuel m i s = some t) : ∀ c ∈ t.coeffs, 0 ≤ c := by
  induction m generalizing i s with
  | zero => cases hr; exact hs
  | succ m ih =>
    unfold penaltyLoop at hr
    simp only at hr
    have h0 : Consistent e { s with penaltyIteration := i, convexifyIteration := 0 } :=
      ⟨h.vars, h.costs, h.viols, h.merit, h.pbox, h.pcoeffs, h.trace⟩
    split at hr
    · cases hr
    · rename_i w hconv
      obtain ⟨c1, c2, -⟩ := convexLoop_spec p e fuel 99 _ w h0 hconv
      have hw : ∀ c ∈ w.coeffs, 0 ≤ c := by rw [c2]; exact hs
      split_ifs at hr with v1 v2
      · injection hr with hr; subst hr; exact hw
      · injection hr with hr; subst hr; exact hw
      · have c1' : Consistent e { w with status := .running } :=
          ⟨c1.vars, c1.costs, c1.viols, c1.merit, c1.pbox, c1.pcoeffs, c1.trace⟩
        exact ih (i + 1) _ (adjust_consistent p e _ c1').1 (inflate_nonneg p hratio _ hw) hr

theorem coeffs_nonneg (p : Params K) (e : Env K) (hx0 : e.x0.length = e.nVars) (hinit : 0 ≤ p.initialMeritErrorCoeff)
    (hratio : 0 ≤ p.meritCoeffIncreaseRatio) (fuel : ℕ) (s : St K) (hr : solve p e fuel = some s) : ∀ c ∈ s.coeffs, 0 ≤ c := by
  unfold solve at hr
  split at hr
  · cases hr
  · rename_i t ht
    injection hr with hr
    have := penaltyLoop_nonneg p e hratio fuel _ 0 _ t (init_consistent p e hx0) (fun c hc => by
      have hc' : c ∈ List.replicate e.nCnts p.initialMeritErrorCoeff := hc
      rw [(List.mem_replicate.1 hc').2]
      exact hinit) ht
    subst hr
    split_ifs <;> exact this

/-- Specification: the exact costs and violations are given by these functions. -/
structure Terms (e : Env K) (costs cnts : List (List K → K)) : Prop where
  costs : ∀ x, e.exactCosts x = costs.map fun f => f x
  cnts : ∀ x, e.exactViols x = cnts.map fun f => f x

theorem zip_sum (cnts : List (List K → K)) (μ x : List K) : (List.zipWith (· * ·) (cnts.map fun f => f x) μ).sum =
    (((cnts.zip μ).map fun c => fun x => c.1 x * c.2).map fun f => f x).sum := by
  induction cnts generalizing μ with
  | nil => simp
  | cons c cnts ih =>
    cases μ with
    | nil => simp
    | cons a μ =>
      have := ih μ
      simp only [List.map_cons, List.zipWith_cons_cons, List.zip_cons_cons, List.sum_cons]
      rw [this]

/-- C149 (costs): in such a run of a problem with convex costs and convex violations that are never negative, with a QP answer that is no worse
than the merit on the box, the total exact cost of the result exceeds that of any feasible point by at most the tolerance times the
distance in units of the final box. The costs may be negative. -/
theorem C149_cost_optimal_partial (p : Params K) (e : Env K) (hx0 : e.x0.length = e.nVars) (hmin : 0 < p.minTrustBoxSize)
    (hinit : 0 ≤ p.initialMeritErrorCoeff) (hratio : 0 ≤ p.meritCoeffIncreaseRatio) (costs cnts : List (List K → K)) (ht : Terms e costs cnts)
    (fuel : ℕ) (s : St K)
    (hclock : ∀ k, e.clock k ≤ p.maxTime) (hr : solve p e fuel = some s) (hc : s.status = .converged)
    (hiter : (s.overallIteration : ℤ) < p.maxIterations) (hconv : s.convexifyIteration < 99) (hbox : p.minTrustBoxSize ≤ s.box) :
    ∃ k y, e.qp k s.probVars s.box = some y ∧
      ∀ S : List K → Prop, ConvexOn S (fun _ => 0) → (∀ f ∈ costs, ConvexOn S f) →
        (∀ f ∈ cnts, ConvexOn S f ∧ ∀ x, S x → 0 ≤ f x) → S s.probVars →
        (∀ w, S w → Near s.box s.probVars w → modelMerit e s.coeffs k y ≤ exactMerit e s.coeffs w) →
        ∀ z D, S z → (∀ f ∈ cnts, f z = 0) → Near D s.probVars z →
          s.bestCosts.sum ≤ (costs.map fun f => f z).sum + tolerance p (exactMerit e s.coeffs s.probVars) * max 1 (D / s.box) := by
  obtain ⟨k, y, h1, h2⟩ := C149_merit_optimal_partial p e hx0 hmin fuel s hclock hr hc hiter hconv hbox
  have hμ := coeffs_nonneg p e hx0 hinit hratio fuel s hr
  have heq : ∀ x, exactMerit e s.coeffs x = (0 + (costs.map fun f => f x).sum) +
      (((cnts.zip s.coeffs).map fun c => fun x => c.1 x * c.2).map fun f => f x).sum := by
    intro x
    unfold exactMerit
    rw [ht.costs, ht.cnts, zip_sum, zero_add]
  refine ⟨k, y, h1, fun S hS hcs hcn hx hlow z D hz hfz hD => ?_⟩
  have hconvex : ConvexOn S (exactMerit e s.coeffs) := by
    rw [funext heq]
    refine (hS.sum costs hcs).sum _ fun f hf => ?_
    obtain ⟨c, hcm, rfl⟩ := List.mem_map.1 hf
    exact (hcn c.1 (List.of_mem_zip hcm).1).1.smul (hμ c.2 (List.of_mem_zip hcm).2)
  have key := h2 S _ hconvex hx hlow z D hz hD
  rw [sub_self, max_self, add_zero] at key
  have hge : (e.exactCosts s.probVars).sum ≤ exactMerit e s.coeffs s.probVars := by
    rw [heq, zero_add, ← ht.costs]
    refine le_add_of_nonneg_right (List.sum_nonneg ?_)
    intro v hv
    simp only [List.map_map, List.mem_map, Function.comp] at hv
    obtain ⟨c, hcm, rfl⟩ := hv
    exact mul_nonneg ((hcn c.1 (List.of_mem_zip hcm).1).2 _ hx) (hμ c.2 (List.of_mem_zip hcm).2)
  have hz0 : exactMerit e s.coeffs z = (costs.map fun f => f z).sum := by
    rw [heq, zero_add]
    refine add_eq_left.2 (List.sum_eq_zero ?_)
    intro v hv
    simp only [List.map_map, List.mem_map, Function.comp] at hv
    obtain ⟨c, hcm, rfl⟩ := hv
    rw [hfz c.1 (List.of_mem_zip hcm).1, zero_mul]
  rw [hz0] at key
  rw [(C24_results_belong_to_point p e fuel s hx0 hr).2.1]
  exact hge.trans key

/-! ### Example -/

namespace OptDemo

open Verif.Legacy.OptDemo (One one_seg cnt_convex)

/-- One variable, the cost `(x - 3)² - 100`, which is negative, and the constraint `x ≤ 1`; the solver returns the minimiser of the
penalised problem on the box for every penalty of at least 4. -/
def env : Env ℚ where
  nVars := 1
  nCnts := 1
  x0 := [0]
  exactCosts := fun x => [(x.getD 0 0 - 3) ^ 2 - 100]
  exactViols := fun x => [max 0 (x.getD 0 0 - 1)]
  qp := fun _ x b => some [max (x.getD 0 0 - b) (min (x.getD 0 0 + b) 1), 0]
  convexCosts := fun _ y => [(y.getD 0 0 - 3) ^ 2 - 100]
  convexViols := fun _ y => [max 0 (y.getD 0 0 - 1)]
  callbacks := fun _ => [true]
  clock := fun _ => 0

/-- The run: from 0 with a box of 1/10 to the optimum 1. -/
theorem run : ∃ s, solve defaultParams env 20 = some s ∧ s.status = .converged ∧ s.probVars = [1] ∧ s.overallIteration = 6 ∧
    s.convexifyIteration = 6 ∧ s.box = 243/320 ∧ s.coeffs = [10] ∧ s.bestCosts = [-96] := by
  have h : (solve defaultParams env 20).map (fun s => ((s.status, s.probVars, s.overallIteration), s.convexifyIteration, s.box, s.coeffs,
      s.bestCosts)) = some ((.converged, [1], 6), 6, 243/320, [10], [-96]) := by decide +kernel
  cases hr : solve defaultParams env 20 with
  | none => rw [hr] at h; cases h
  | some r =>
    rw [hr] at h
    simp only [Option.map_some, Option.some.injEq, Prod.mk.injEq] at h
    exact ⟨r, rfl, h.1.1, h.1.2.1, h.1.2.2, h.2⟩

theorem cost_convex : ConvexOn One fun x => (x.getD 0 0 - 3) ^ 2 - 100 := by
  rintro _ _ t ⟨a, rfl⟩ ⟨b, rfl⟩ h0 h1
  refine ⟨one_seg ⟨a, rfl⟩ ⟨b, rfl⟩, ?_⟩
  simp only [seg, List.zipWith_cons_cons, List.getD_cons_zero]
  nlinarith [mul_nonneg (mul_nonneg h0 (sub_nonneg.2 h1)) (sq_nonneg (a - b))]

/-- non-vacuity for C149: the run meets all hypotheses, and the conclusion says that -96 is the smallest cost of a feasible point up to
the tolerance. -/
example (a D : ℚ) (ha : a ≤ 1) (hD : |a - 1| ≤ D) : -96 ≤ (a - 3) ^ 2 - 100 + 1/10000 * max 1 (D / (243/320)) := by
  obtain ⟨r, h1, h2, h3, h4, h5, h6, h7, h8⟩ := run
  obtain ⟨k, y, q1, q2⟩ := C149_cost_optimal_partial defaultParams env rfl (by norm_num [defaultParams]) (by norm_num [defaultParams])
    (by norm_num [defaultParams]) [fun x => (x.getD 0 0 - 3) ^ 2 - 100] [fun x => max 0 (x.getD 0 0 - 1)] ⟨fun _ => rfl, fun _ => rfl⟩
    20 r (fun _ => by norm_num [defaultParams, env]) h1 h2 (by rw [h4]; decide) (by rw [h5]; decide)
    (by rw [h6]; norm_num [defaultParams])
  rw [h3, h6] at q1
  simp only [env, Option.some.injEq] at q1
  rw [h3, h6, h7, h8] at q2
  have hm : ∀ w : ℚ, exactMerit env [10] [w] = (w - 3) ^ 2 - 100 + max 0 (w - 1) * 10 := fun w => by
    simp [exactMerit, env]
  have := q2 One (fun x z t hx hz _ _ => ⟨one_seg hx hz, by simp⟩)
    (by simp only [List.mem_singleton, forall_eq]; exact cost_convex)
    (by simp only [List.mem_singleton, forall_eq]; exact ⟨cnt_convex, fun x _ => le_max_left _ _⟩) ⟨1, rfl⟩
    (by
      rintro _ ⟨w, rfl⟩ -
      rw [← q1, hm]
      have : modelMerit env [10] k [max (([1] : List ℚ).getD 0 0 - 243/320) (min (([1] : List ℚ).getD 0 0 + 243/320) 1), 0] = -96 := by
        show modelMerit env [10] 0 [max (([1] : List ℚ).getD 0 0 - 243/320) (min (([1] : List ℚ).getD 0 0 + 243/320) 1), 0] = -96
        decide +kernel
      rw [this]
      have := Verif.Legacy.OptDemo.merit_one w
      linarith) [a] D ⟨a, rfl⟩
    (by simp only [List.mem_singleton, forall_eq, List.getD_cons_zero]; exact max_eq_left (by linarith)) (.cons hD .nil)
  have ht : tolerance defaultParams (exactMerit env [10] [1]) = 1/10000 := by
    rw [hm]; norm_num [tolerance, defaultParams]
  rw [ht] at this
  simpa using this

end OptDemo

end Verif.Sqp
