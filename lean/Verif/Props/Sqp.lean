import Verif.Model.Sqp
import Mathlib.Tactic.Ring
import Mathlib.Tactic.Linarith
import Mathlib.Tactic.NormNum
import Mathlib.Tactic.FieldSimp
import Mathlib.Tactic.Positivity
import Mathlib.Algebra.Order.Archimedean.Basic

/-!
C21-C25 and C65 (`TrustRegionSQPSolver`), for every problem, QP oracle, callback and clock behaviour.
-/

set_option linter.unusedSectionVars false
set_option linter.unusedVariables false

namespace Verif.Sqp

universe u
variable {K : Type u} [Field K] [LinearOrder K] [IsStrictOrderedRing K]

/-! ### Specification -/

/-- Specification: the exact merit of a point under given merit coefficients:
sum of the exact costs plus the weighted sum of the exact violations. -/
def exactMerit (e : Env K) (μ : List K) (x : List K) : K :=
  (e.exactCosts x).sum + (List.zipWith (· * ·) (e.exactViols x) μ).sum

/-- Specification: all constraints are satisfied to tolerance at `x`. -/
def Satisfied (e : Env K) (tol : K) (x : List K) : Prop := ∀ v ∈ e.exactViols x, v < tol

/-- Specification: the NLP point stored as best. -/
def best (e : Env K) (s : St K) : List K := s.bestVars.take e.nVars

/-- The stored results describe the stored point, and the problem holds that point. -/
structure Consistent (e : Env K) (s : St K) : Prop where
  vars : s.probVars = best e s
  costs : s.bestCosts = e.exactCosts (best e s)
  viols : s.bestViols = e.exactViols (best e s)
  merit : s.bestExactMerit = exactMerit e s.coeffs (best e s)
  pbox : s.probBox = s.box
  pcoeffs : s.probCoeffs = s.coeffs
  trace : ∀ ev ∈ s.trace, ev.centre = ev.bestVars.take e.nVars ∧ ev.box = ev.resultsBox ∧
    ev.probVarsAfter = ev.bestVars.take e.nVars

/-- Additionally the QP solver holds the trust box around the stored point (true inside the trust-region loop). -/
structure LoopInv (e : Env K) (s : St K) : Prop extends Consistent e s where
  centre : s.solverCentre = best e s
  sbox : s.solverBox = s.box

/-! ### Helper lemmas -/

theorem foldl_max_ge (a : K) (l : List K) : a ≤ l.foldl max a ∧ ∀ v ∈ l, v ≤ l.foldl max a := by
  induction l generalizing a with
  | nil => simp
  | cons b l ih =>
    obtain ⟨h1, h2⟩ := ih (max a b)
    simp only [List.foldl_cons, List.mem_cons, forall_eq_or_imp]
    exact ⟨(le_max_left _ _).trans h1, (le_max_right _ _).trans h1, h2⟩

theorem verify_iff (p : Params K) (s : St K) :
    verifyConvergence p s = true ↔ ∀ v ∈ s.bestViols, v < p.cntTolerance := by
  unfold verifyConvergence
  cases h : s.bestViols with
  | nil => simp
  | cons v vs =>
    change decide (vs.foldl max v < p.cntTolerance) = true ↔ _
    rw [decide_eq_true_iff]
    constructor
    · intro hlt w hw
      obtain ⟨h1, h2⟩ := foldl_max_ge v vs
      rcases List.mem_cons.mp hw with rfl | hw
      · exact h1.trans_lt hlt
      · exact (h2 w hw).trans_lt hlt
    · intro hall
      have : ∀ (l : List K) (a : K), a < p.cntTolerance → (∀ w ∈ l, w < p.cntTolerance) →
          l.foldl max a < p.cntTolerance := by
        intro l
        induction l with
        | nil => intro a ha _; simpa using ha
        | cons b l ih =>
          intro a ha hl
          simp only [List.foldl_cons]
          exact ih _ (max_lt ha (hl b (by simp))) (fun w hw => hl w (by simp [hw]))
      exact this vs v (hall v (by simp)) (fun w hw => hall w (by simp [hw]))

/-- What `solveQPProblem` may change. -/
theorem solveQP_frame (e : Env K) (s : St K) :
    let r := solveQPProblem e s
    r.1.bestVars = s.bestVars ∧ r.1.bestCosts = s.bestCosts ∧ r.1.bestViols = s.bestViols ∧
    r.1.bestExactMerit = s.bestExactMerit ∧ r.1.coeffs = s.coeffs ∧ r.1.box = s.box ∧
    r.1.probBox = s.probBox ∧ r.1.probCoeffs = s.probCoeffs ∧
    r.1.solverCentre = s.solverCentre ∧ r.1.solverBox = s.solverBox ∧
    r.1.overallIteration = s.overallIteration ∧ r.1.clockReads = s.clockReads ∧
    r.1.probVars = best e s ∧
    r.1.trace = ⟨s.solverCentre, s.solverBox, s.bestVars, s.box, best e s⟩ :: s.trace ∧
    r.1.convexifyIteration = s.convexifyIteration ∧ r.1.penaltyIteration = s.penaltyIteration := by
  unfold solveQPProblem
  cases h : e.qp s.overallIteration s.solverCentre s.solverBox with
  | none => simp [setVariables, best, h]
  | some y => by_cases hc : callCallbacks e s.overallIteration <;> simp [setVariables, best, hc, h]

theorem solveQP_status (e : Env K) (s : St K) :
    ((solveQPProblem e s).2 = .qpSolveFailed ↔ e.qp s.overallIteration s.solverCentre s.solverBox = none) ∧
    ((solveQPProblem e s).2 = .running ↔
      (e.qp s.overallIteration s.solverCentre s.solverBox).isSome ∧ callCallbacks e s.overallIteration = true) ∧
    ((solveQPProblem e s).2 = .stoppedByCallback ↔
      (e.qp s.overallIteration s.solverCentre s.solverBox).isSome ∧ callCallbacks e s.overallIteration = false) := by
  unfold solveQPProblem
  cases h : e.qp s.overallIteration s.solverCentre s.solverBox with
  | none => simp [h]
  | some y => by_cases hc : callCallbacks e s.overallIteration <;> simp [hc, h]

theorem solveQP_status_cases (e : Env K) (s : St K) :
    (solveQPProblem e s).2 = .qpSolveFailed ∨ (solveQPProblem e s).2 = .running ∨
    (solveQPProblem e s).2 = .stoppedByCallback := by
  unfold solveQPProblem
  cases h : e.qp s.overallIteration s.solverCentre s.solverBox with
  | none => simp [h]
  | some y => by_cases hc : callCallbacks e s.overallIteration <;> simp [hc, h]

theorem solveQP_values (e : Env K) (s : St K) (y : List K)
    (h : e.qp s.overallIteration s.solverCentre s.solverBox = some y) :
    let r := (solveQPProblem e s).1
    r.newVars = y ∧ r.newCosts = e.exactCosts (y.take e.nVars) ∧ r.newViols = e.exactViols (y.take e.nVars) ∧
    r.newExactMerit = exactMerit e s.coeffs (y.take e.nVars) ∧
    r.approxImprove = s.bestExactMerit -
      ((e.convexCosts s.overallIteration y).sum + dot (e.convexViols s.overallIteration y) s.coeffs) ∧
    r.exactImprove = s.bestExactMerit - exactMerit e s.coeffs (y.take e.nVars) ∧
    r.improveRatio = (if |r.approxImprove| < tiny then 0 else r.exactImprove / r.approxImprove) := by
  unfold solveQPProblem
  by_cases hc : callCallbacks e s.overallIteration <;> simp [setVariables, exactMerit, dot, hc, h] <;> rfl

/-- Specification of one pass: either nothing of the best record changed, or the QP answer was accepted. -/
def Unchanged (s s' : St K) : Prop :=
  s'.bestVars = s.bestVars ∧ s'.bestCosts = s.bestCosts ∧ s'.bestViols = s.bestViols ∧
  s'.bestExactMerit = s.bestExactMerit ∧ s'.coeffs = s.coeffs

/-- Specification: `y` (the answer of the `k`-th QP) replaced the best point of `s`, with exact improvement at least
the threshold times the predicted improvement. -/
def Accepted (p : Params K) (e : Env K) (s s' : St K) : Prop :=
  ∃ y, e.qp (s.overallIteration + 1) s.solverCentre s.solverBox = some y ∧ s'.bestVars = y ∧
    s'.coeffs = s.coeffs ∧
    let pred := exactMerit e s.coeffs (best e s) -
      ((e.convexCosts (s.overallIteration + 1) y).sum + dot (e.convexViols (s.overallIteration + 1) y) s.coeffs)
    p.minApproxImprove ≤ pred ∧
    exactMerit e s.coeffs (best e s') ≤ exactMerit e s.coeffs (best e s) ∧
    (0 < p.improveRatioThreshold → 0 ≤ p.minApproxImprove →
      0 < pred ∧
      exactMerit e s.coeffs (best e s') ≤ exactMerit e s.coeffs (best e s) - p.improveRatioThreshold * pred)

def TrOut.st : TrOut K → St K
  | .cont s _ => s
  | .done s => s

theorem tiny_pos : (0 : K) < tiny := by unfold tiny; positivity

/-- Core lemma about one pass through the loop body. -/
theorem trBody_spec (p : Params K) (e : Env K) (s : St K) (f : ℤ) (h : LoopInv e s) :
    LoopInv e (trBody p e s f).st ∧
    (trBody p e s f).st.overallIteration = s.overallIteration + 1 ∧
    (Unchanged s (trBody p e s f).st ∨ Accepted p e s (trBody p e s f).st) ∧
    (∀ s' f', trBody p e s f = .cont s' f' → Unchanged s s' ∧
      ((f' = f ∧ s'.box = s.box * p.trustShrinkRatio) ∨
       (f' = f + 1 ∧ f' < p.maxQpSolverFailures ∧ s'.box = s.box * p.trustShrinkRatio) ∨
       (f' = f + 1 ∧ f' = p.maxQpSolverFailures ∧ s'.box = p.minTrustBoxSize))) := by
  set s0 : St K := { s with overallIteration := s.overallIteration + 1,
                            trustRegionIteration := s.trustRegionIteration + 1 } with hs0
  obtain ⟨g1, g2, g3, g4, g5, g6, g7, g8, g9, g10, g11, g12, g13, g14, g15, g16⟩ := solveQP_frame e s0
  have hbest : best e s0 = best e s := rfl
  -- the invariant holds right after the QP solve, whatever status is written
  have hinv : ∀ st, LoopInv e { (solveQPProblem e s0).1 with status := st } := by
    intro st
    have hb : best e { (solveQPProblem e s0).1 with status := st } = best e s := by simp [best, g1]; rfl
    refine ⟨⟨?_, ?_, ?_, ?_, ?_, ?_, ?_⟩, ?_, ?_⟩
    · rw [hb]; exact g13
    · rw [hb]; exact g2.trans h.costs
    · rw [hb]; exact g3.trans h.viols
    · rw [hb]; change (solveQPProblem e s0).1.bestExactMerit = exactMerit e (solveQPProblem e s0).1.coeffs _
      rw [g4, g5]; exact h.merit
    · change (solveQPProblem e s0).1.probBox = (solveQPProblem e s0).1.box
      rw [g7, g6]; exact h.pbox
    · change (solveQPProblem e s0).1.probCoeffs = (solveQPProblem e s0).1.coeffs
      rw [g8, g5]; exact h.pcoeffs
    · change ∀ ev ∈ (solveQPProblem e s0).1.trace, _
      rw [g14]
      intro ev hev
      rcases List.mem_cons.mp hev with rfl | hev
      · exact ⟨h.centre, h.sbox, rfl⟩
      · exact h.trace ev hev
    · rw [hb]; exact g9.trans h.centre
    · change (solveQPProblem e s0).1.solverBox = (solveQPProblem e s0).1.box
      rw [g10, g6]; exact h.sbox
  have hunch : ∀ st, Unchanged s { (solveQPProblem e s0).1 with status := st } :=
    fun st => ⟨g1, g2, g3, g4, g5⟩
  -- shrinking keeps the invariant
  have hshrink : ∀ t : St K, LoopInv e t → LoopInv e (shrink p t) := by
    intro t ht
    refine ⟨⟨ht.vars, ht.costs, ht.viols, ht.merit, rfl, ht.pcoeffs, ht.trace⟩, ?_, rfl⟩
    exact ht.vars
  have hmin : ∀ t : St K, LoopInv e t →
      LoopInv e (readBox (solverUpdateBounds (probSetBoxSize p.minTrustBoxSize t))) := by
    intro t ht
    refine ⟨⟨ht.vars, ht.costs, ht.viols, ht.merit, rfl, ht.pcoeffs, ht.trace⟩, ?_, rfl⟩
    exact ht.vars
  have hbox : ∀ st, ({ (solveQPProblem e s0).1 with status := st } : St K).probBox = s.box := fun st =>
    (g7.trans h.pbox : _)
  unfold trBody
  simp only []
  rw [← hs0]
  set r := solveQPProblem e s0 with hr
  obtain ⟨r1, r2⟩ := r
  simp only at *
  by_cases c1 : r2 = .stoppedByCallback
  · simp only [c1, if_true, TrOut.st, reduceCtorEq, false_imp_iff, implies_true, and_true]
    exact ⟨hinv _, g11, Or.inl (hunch _)⟩
  by_cases c2 : r2 = .running
  swap
  · simp only [c1, c2, if_false, ne_eq, not_false_eq_true, if_true]
    by_cases c3 : f + 1 < p.maxQpSolverFailures
    · simp only [c3, if_true, TrOut.st]
      refine ⟨hshrink _ (hinv r2), g11, Or.inl (hunch r2), ?_⟩
      intro s' f' heq
      cases heq
      exact ⟨hunch r2, Or.inr (Or.inl ⟨rfl, c3, congrArg (· * p.trustShrinkRatio) (hbox r2)⟩)⟩
    · by_cases c4 : f + 1 = p.maxQpSolverFailures
      · simp only [c3, c4, if_false, if_true, TrOut.st]
        rw [if_neg (by simp)]
        refine ⟨hmin _ (hinv r2), g11, Or.inl (hunch r2), ?_⟩
        intro s' f' heq
        cases heq
        exact ⟨hunch r2, Or.inr (Or.inr ⟨by omega, rfl, rfl⟩)⟩
      · simp only [c3, c4, if_false, TrOut.st]
        refine ⟨hinv _, g11, Or.inl (hunch _), ?_⟩
        intro s' f' heq; cases heq
  · -- the QP succeeded and no callback objected
    simp only [c2, reduceCtorEq, if_false, ne_eq, not_true_eq_false]
    have hsome := (solveQP_status e s0).2.1.mp (by rw [← hr]; exact c2)
    obtain ⟨y, hy⟩ := Option.isSome_iff_exists.mp hsome.1
    obtain ⟨v1, v2, v3, v4, v5, v6, v7⟩ := solveQP_values e s0 y hy
    rw [← hr] at v1 v2 v3 v4 v5 v6 v7
    simp only at v1 v2 v3 v4 v5 v6 v7
    by_cases c5 : r1.approxImprove < p.minApproxImprove
    · simp only [c5, if_true, TrOut.st]
      refine ⟨hinv _, g11, Or.inl (hunch _), ?_⟩
      intro s' f' heq; cases heq
    by_cases c6 : r1.approxImprove / max |r1.bestExactMerit| tiny < p.minApproxImproveFrac
    · simp only [c5, c6, if_true, if_false, TrOut.st]
      refine ⟨hinv _, g11, Or.inl (hunch _), ?_⟩
      intro s' f' heq; cases heq
    by_cases c7 : r1.exactImprove < 0 ∨ r1.improveRatio < p.improveRatioThreshold
    · simp only [c5, c6, c7, if_true, if_false, TrOut.st]
      refine ⟨hshrink _ (hinv .running), g11, Or.inl (hunch .running), ?_⟩
      intro s' f' heq
      cases heq
      exact ⟨hunch .running, Or.inl ⟨rfl, congrArg (· * p.trustShrinkRatio) (hbox r2)⟩⟩
    · simp only [c5, c6, c7, if_false, TrOut.st]
      have hI := hinv .running
      have hbn : best e (accept p e { r1 with status := .running }) = y.take e.nVars := by
        simp [accept, best, readBox, solverUpdateBounds, probScaleBoxSize, setVariables, v1]
      refine ⟨⟨⟨?_, ?_, ?_, ?_, ?_, ?_, ?_⟩, ?_, ?_⟩, g11, Or.inr ?_, ?_⟩
      · rw [hbn]; simp [accept, readBox, solverUpdateBounds, probScaleBoxSize, setVariables, v1]
      · rw [hbn]; exact v2
      · rw [hbn]; exact v3
      · rw [hbn]; change r1.newExactMerit = exactMerit e r1.coeffs _; rw [v4, g5]
      · rfl
      · exact hI.pcoeffs
      · exact hI.trace
      · rw [hbn]
        simp [accept, readBox, solverUpdateBounds, probScaleBoxSize, setVariables, v1]
      · rfl
      · push Not at c7
        obtain ⟨c7a, c7b⟩ := c7
        have hm : s0.bestExactMerit = exactMerit e s.coeffs (best e s) := h.merit
        refine ⟨y, hy, v1, g5, ?_, ?_, ?_⟩
        · rw [v5, hm] at c5; exact not_lt.mp c5
        · rw [hbn]; rw [v6, hm] at c7a
          exact sub_nonneg.mp c7a
        · intro ht hmi
          have hpred : r1.approxImprove = exactMerit e s.coeffs (best e s) -
              ((e.convexCosts (s.overallIteration + 1) y).sum +
                dot (e.convexViols (s.overallIteration + 1) y) s.coeffs) := by rw [v5, hm]
          have hnn : 0 ≤ r1.approxImprove := hmi.trans (not_lt.mp c5)
          rw [hbn, ← hpred]
          rw [v7] at c7b
          split_ifs at c7b with hq
          · exact absurd ht (not_lt.mpr c7b)
          · have hpos : 0 < r1.approxImprove := by
              rw [abs_of_nonneg hnn] at hq
              exact lt_of_lt_of_le tiny_pos (not_lt.mp hq)
            refine ⟨hpos, ?_⟩
            rw [le_div_iff₀ hpos, v6, hm] at c7b
            have : exactMerit e s0.coeffs (y.take e.nVars) = exactMerit e s.coeffs (y.take e.nVars) := rfl
            rw [this] at c7b
            linarith
      · intro s' f' heq; cases heq

/-! ### The loops -/

theorem unchanged_merit {e : Env K} {s s' : St K} (h : Unchanged s s') (μ : List K) :
    exactMerit e μ (best e s') = exactMerit e μ (best e s) := by
  unfold best; rw [h.1]

theorem Unchanged.trans {a b c : St K} (h : Unchanged a b) (h' : Unchanged b c) : Unchanged a c :=
  ⟨h'.1.trans h.1, h'.2.1.trans h.2.1, h'.2.2.1.trans h.2.2.1, h'.2.2.2.1.trans h.2.2.2.1,
    h'.2.2.2.2.trans h.2.2.2.2⟩

theorem Unchanged.refl (a : St K) : Unchanged a a := ⟨rfl, rfl, rfl, rfl, rfl⟩

theorem trLoop_spec (p : Params K) (e : Env K) (n : ℕ) (s : St K) (f : ℤ) (s' : St K) (h : LoopInv e s)
    (hr : trLoop p e n s f = some s') :
    LoopInv e s' ∧ s.overallIteration ≤ s'.overallIteration ∧
    (Unchanged s s' ∨ ∃ t, LoopInv e t ∧ Unchanged s t ∧ Accepted p e t s') := by
  induction n generalizing s f with
  | zero => simp [trLoop] at hr
  | succ n ih =>
    unfold trLoop at hr
    split_ifs at hr with hb
    · obtain ⟨b1, b2, b3, b4⟩ := trBody_spec p e s f h
      cases hbody : trBody p e s f with
      | cont t f' =>
        rw [hbody] at hr b1 b2 b4
        have hu := (b4 t f' rfl).1
        obtain ⟨i1, i2, i3⟩ := ih t f' b1 hr
        refine ⟨i1, ?_, ?_⟩
        · have : t.overallIteration = s.overallIteration + 1 := b2
          omega
        · rcases i3 with i3 | ⟨w, w1, w2, w3⟩
          · exact Or.inl (hu.trans i3)
          · exact Or.inr ⟨w, w1, hu.trans w2, w3⟩
      | done t =>
        rw [hbody] at hr b1 b2 b3
        injection hr with hr; subst hr
        refine ⟨b1, ?_, ?_⟩
        · have : t.overallIteration = s.overallIteration + 1 := b2
          omega
        · rcases b3 with b3 | b3
          · exact Or.inl b3
          · exact Or.inr ⟨s, h, Unchanged.refl s, b3⟩
    · injection hr with hr; subst hr
      exact ⟨h, le_refl _, Or.inl (Unchanged.refl s)⟩

theorem Accepted.merit {p : Params K} {e : Env K} {s s' : St K} (h : Accepted p e s s') :
    exactMerit e s.coeffs (best e s') ≤ exactMerit e s.coeffs (best e s) ∧ s'.coeffs = s.coeffs := by
  obtain ⟨y, _, _, hc, _, hm, _⟩ := h
  exact ⟨hm, hc⟩

theorem step_spec (p : Params K) (e : Env K) (fuel : ℕ) (s s' : St K) (b : Bool) (h : Consistent e s)
    (hr : stepSQPSolver p e fuel s = some (s', b)) :
    Consistent e s' ∧ s'.coeffs = s.coeffs ∧
    exactMerit e s.coeffs (best e s') ≤ exactMerit e s.coeffs (best e s) ∧
    (b = true → s'.status = .converged) ∧ (b = false → p.minTrustBoxSize ≤ s'.box) ∧
    (Unchanged s s' ∨ ∃ t, LoopInv e t ∧ Unchanged s t ∧ Accepted p e t s') := by
  unfold stepSQPSolver at hr
  simp only at hr
  set s1 : St K := convexifyAndSend { s with convexifyIteration := s.convexifyIteration + 1 } with hs1
  have hl : LoopInv e { s1 with trustRegionIteration := 0 } :=
    ⟨⟨h.vars, h.costs, h.viols, h.merit, h.pbox, h.pcoeffs, h.trace⟩, h.vars, h.pbox⟩
  cases ht : runTrustRegionLoop p e fuel s1 with
  | none => rw [ht] at hr; cases hr
  | some t =>
    rw [ht] at hr
    obtain ⟨i1, i2, i3⟩ := trLoop_spec p e fuel _ 0 t hl ht
    have hmer : t.coeffs = s.coeffs ∧
        exactMerit e s.coeffs (best e t) ≤ exactMerit e s.coeffs (best e s) := by
      rcases i3 with i3 | ⟨w, w1, w2, w3⟩
      · exact ⟨i3.2.2.2.2, le_of_eq (unchanged_merit i3 _)⟩
      · have hw : w.coeffs = s.coeffs := w2.2.2.2.2
        have := w3.merit
        rw [hw] at this
        exact ⟨this.2, this.1.trans (le_of_eq (unchanged_merit w2 _))⟩
    simp only at hr
    split_ifs at hr with c1 c2
    · cases hr; exact ⟨i1.toConsistent, hmer.1, hmer.2, fun _ => c1, by simp, i3⟩
    · cases hr
      exact ⟨⟨i1.vars, i1.costs, i1.viols, i1.merit, i1.pbox, i1.pcoeffs, i1.trace⟩, hmer.1, hmer.2,
        fun _ => rfl, by simp, i3⟩
    · cases hr; exact ⟨i1.toConsistent, hmer.1, hmer.2, by simp, fun _ => not_lt.mp c2, i3⟩

theorem convexLoop_spec (p : Params K) (e : Env K) (fuel : ℕ) (k : ℕ) (s s' : St K) (h : Consistent e s)
    (hr : convexLoop p e fuel k s = some s') :
    Consistent e s' ∧ s'.coeffs = s.coeffs ∧
    exactMerit e s.coeffs (best e s') ≤ exactMerit e s.coeffs (best e s) := by
  induction k generalizing s with
  | zero => cases hr; exact ⟨h, rfl, le_refl _⟩
  | succ k ih =>
    unfold convexLoop at hr
    simp only at hr
    split_ifs at hr with c1 c2
    · cases hr; exact ⟨⟨h.vars, h.costs, h.viols, h.merit, h.pbox, h.pcoeffs, h.trace⟩, rfl, le_refl _⟩
    · cases hr; exact ⟨⟨h.vars, h.costs, h.viols, h.merit, h.pbox, h.pcoeffs, h.trace⟩, rfl, le_refl _⟩
    · have h0 : Consistent e { s with clockReads := s.clockReads + 1 } :=
        ⟨h.vars, h.costs, h.viols, h.merit, h.pbox, h.pcoeffs, h.trace⟩
      split at hr
      · cases hr
      · rename_i t hstep
        injection hr with hr; subst hr
        obtain ⟨i1, i2, i3, _⟩ := step_spec p e fuel _ _ _ h0 hstep
        exact ⟨i1, i2, i3⟩
      · rename_i t hstep
        obtain ⟨i1, i2, i3, _⟩ := step_spec p e fuel _ _ _ h0 hstep
        obtain ⟨j1, j2, j3⟩ := ih t i1 hr
        have i2' : t.coeffs = s.coeffs := i2
        rw [i2'] at j3 j2
        exact ⟨j1, j2, j3.trans i3⟩

theorem init_consistent (p : Params K) (e : Env K) (hx : e.x0.length = e.nVars) : Consistent e (init p e) := by
  have ht : e.x0.take e.nVars = e.x0 := by rw [← hx]; exact List.take_length
  refine ⟨?_, ?_, ?_, ?_, rfl, rfl, ?_⟩
  · simp [init, best, constraintMeritCoeffChanged, setBoxSize, readBox, probSetBoxSize, ht]
  · simp [init, best, constraintMeritCoeffChanged, setBoxSize, readBox, probSetBoxSize, ht]
  · simp [init, best, constraintMeritCoeffChanged, setBoxSize, readBox, probSetBoxSize, ht]
  · simp [init, best, constraintMeritCoeffChanged, setBoxSize, readBox, probSetBoxSize, ht, exactMerit, dot]
  · simp [init, constraintMeritCoeffChanged, setBoxSize, readBox, probSetBoxSize]

theorem adjust_consistent (p : Params K) (e : Env K) (s : St K) (h : Consistent e s) :
    Consistent e (adjustPenalty p s) ∧ (adjustPenalty p s).status = s.status ∧
    (adjustPenalty p s).bestVars = s.bestVars := by
  refine ⟨⟨h.vars, h.costs, h.viols, ?_, rfl, rfl, h.trace⟩, rfl, rfl⟩
  change s.bestCosts.sum + dot s.bestViols (inflate p s) = exactMerit e (inflate p s) (best e s)
  rw [h.costs, h.viols]; rfl

theorem penaltyLoop_spec (p : Params K) (e : Env K) (fuel m i : ℕ) (s s' : St K) (h : Consistent e s)
    (hst : s.status = .running) (hr : penaltyLoop p e fuel m i s = some s') :
    Consistent e s' ∧
    (s'.status = .converged ∨ s'.status = .iterationLimit ∨ s'.status = .timeLimit ∨ s'.status = .running) ∧
    (s'.status = .converged → ∀ v ∈ s'.bestViols, v < p.cntTolerance) ∧
    (0 < m → (∀ v ∈ s'.bestViols, v < p.cntTolerance) → s'.status = .converged) := by
  induction m generalizing i s with
  | zero => cases hr; exact ⟨h, by simp [hst], by simp [hst], by simp⟩
  | succ m ih =>
    unfold penaltyLoop at hr
    simp only at hr
    have h0 : Consistent e { s with penaltyIteration := i, convexifyIteration := 0 } :=
      ⟨h.vars, h.costs, h.viols, h.merit, h.pbox, h.pcoeffs, h.trace⟩
    split at hr
    · cases hr
    · rename_i t hconv
      obtain ⟨c1, c2, c3⟩ := convexLoop_spec p e fuel 99 _ t h0 hconv
      split_ifs at hr with v1 v2
      · injection hr with hr; subst hr
        refine ⟨⟨c1.vars, c1.costs, c1.viols, c1.merit, c1.pbox, c1.pcoeffs, c1.trace⟩, Or.inl rfl, ?_,
          fun _ _ => rfl⟩
        intro _
        exact (verify_iff p t).mp v1
      · injection hr with hr; subst hr
        refine ⟨c1, ?_, ?_, ?_⟩
        · rcases v2 with v2 | v2 <;> simp [v2]
        · intro hc; rcases v2 with v2 | v2 <;> simp [v2] at hc
        · intro _ hs; exact absurd ((verify_iff p t).mpr hs) v1
      · have c1' : Consistent e { t with status := .running } :=
          ⟨c1.vars, c1.costs, c1.viols, c1.merit, c1.pbox, c1.pcoeffs, c1.trace⟩
        obtain ⟨a1, a2, a3⟩ := adjust_consistent p e _ c1'
        obtain ⟨i1, i2, i3, i4⟩ := ih (i + 1) _ a1 a2 hr
        refine ⟨i1, i2, i3, ?_⟩
        intro _ hs
        rcases Nat.eq_zero_or_pos m with rfl | hm
        · simp only [penaltyLoop, Option.some.injEq] at hr
          subst hr
          exact absurd ((verify_iff p t).mpr hs) v1
        · exact i4 hm hs

/-! ### Property theorems -/

/-- C24: when `solve` returns, the problem's NLP variables are the best point, and the reported costs, violations and
merit are the exact ones at that point. -/
theorem C24_results_belong_to_point (p : Params K) (e : Env K) (fuel : ℕ) (s : St K)
    (hx : e.x0.length = e.nVars) (hr : solve p e fuel = some s) :
    s.probVars = s.bestVars.take e.nVars ∧ s.bestCosts = e.exactCosts s.probVars ∧
    s.bestViols = e.exactViols s.probVars ∧
    s.bestExactMerit = exactMerit e s.coeffs s.probVars := by
  unfold solve at hr
  split at hr
  · cases hr
  · rename_i t ht
    obtain ⟨i1, -⟩ := penaltyLoop_spec p e fuel _ 0 _ t (init_consistent p e hx) rfl ht
    injection hr with hr; subst hr
    split_ifs <;>
    exact ⟨rfl, i1.costs, i1.viols, i1.merit⟩

/-- The final status and what it implies. -/
theorem solve_status (p : Params K) (e : Env K) (fuel : ℕ) (s : St K)
    (hx : e.x0.length = e.nVars) (hr : solve p e fuel = some s) :
    (s.status = .converged ∨ s.status = .iterationLimit ∨ s.status = .timeLimit ∨
      s.status = .penaltyIterationLimit) ∧
    (s.status = .converged → Satisfied e p.cntTolerance s.probVars) ∧
    (0 < p.maxMeritCoeffIncreases → Satisfied e p.cntTolerance s.probVars → s.status = .converged) := by
  have hc24 := C24_results_belong_to_point p e fuel s hx hr
  unfold solve at hr
  split at hr
  · cases hr
  · rename_i t ht
    obtain ⟨i1, i2, i3, i4⟩ := penaltyLoop_spec p e fuel _ 0 _ t (init_consistent p e hx) rfl ht
    unfold Satisfied
    rw [← hc24.2.2.1]
    injection hr with hr; subst hr
    by_cases hrun : t.status = .running
    · simp only [hrun, if_true, setVariables, reduceCtorEq, or_true, false_imp_iff, true_and,
        imp_false]
      intro hm hs
      have := i4 hm hs
      rw [hrun] at this; cases this
    · simp only [hrun, if_false, setVariables]
      refine ⟨?_, i3, i4⟩
      rcases i2 with i2 | i2 | i2 | i2
      · exact Or.inl i2
      · exact Or.inr (Or.inl i2)
      · exact Or.inr (Or.inr (Or.inl i2))
      · exact absurd i2 hrun

/-- C21: `kConverged` implies that every exact constraint violation at the point left in the problem is below
`cnt_tolerance`, for every problem, QP oracle, callback and clock behaviour. -/
theorem C21_converged_sound (p : Params K) (e : Env K) (fuel : ℕ) (s : St K)
    (hx : e.x0.length = e.nVars) (hr : solve p e fuel = some s) (hc : s.status = .converged) :
    ∀ v ∈ e.exactViols s.probVars, v < p.cntTolerance :=
  (solve_status p e fuel s hx hr).2.1 hc

/-- C21 (converse): a run with at least one penalty round that ends at a point satisfying the constraints says so. -/
theorem C21_converged_complete (p : Params K) (e : Env K) (fuel : ℕ) (s : St K)
    (hx : e.x0.length = e.nVars) (hr : solve p e fuel = some s) (hm : 0 < p.maxMeritCoeffIncreases)
    (hs : ∀ v ∈ e.exactViols s.probVars, v < p.cntTolerance) : s.status = .converged :=
  (solve_status p e fuel s hx hr).2.2 hm hs

/-- C22 is violated: `solve` never reports `kStoppedByCallback` or `kQPSolveFailed`, for any problem, any
callback and any QP solver. -/
theorem C22_violated_never_reported (p : Params K) (e : Env K) (fuel : ℕ) (s : St K)
    (hx : e.x0.length = e.nVars) (hr : solve p e fuel = some s) :
    s.status ≠ .stoppedByCallback ∧ s.status ≠ .qpSolveFailed := by
  rcases (solve_status p e fuel s hx hr).1 with h | h | h | h <;> simp [h]

/-- C22 is violated: on a problem without constraints the status is always `kConverged`, even if every QP fails or
every callback asks to stop. -/
theorem C22_violated_unconstrained_always_converged (p : Params K) (e : Env K) (fuel : ℕ) (s : St K)
    (hx : e.x0.length = e.nVars) (hm : 0 < p.maxMeritCoeffIncreases) (hno : ∀ x, e.exactViols x = [])
    (hr : solve p e fuel = some s) : s.status = .converged :=
  C21_converged_complete p e fuel s hx hr hm (by simp [hno])

/-- C22 (partial): what does hold. A callback that answers "stop" ends the current trust-region loop at once, with
status `kStoppedByCallback` and without touching the best point; a failing QP never changes the best point.
Missing: the two outer loops do not look at this status, so the solver does not stop and does not report it. -/
theorem C22_stop_ends_trust_loop_partial (p : Params K) (e : Env K) (n : ℕ) (s : St K) (f : ℤ)
    (hb : p.minTrustBoxSize ≤ s.box) (y : List K)
    (hq : e.qp (s.overallIteration + 1) s.solverCentre s.solverBox = some y)
    (hcb : false ∈ e.callbacks (s.overallIteration + 1)) :
    ∃ s', trLoop p e (n + 1) s f = some s' ∧ s'.status = .stoppedByCallback ∧ s'.bestVars = s.bestVars ∧
      s'.bestCosts = s.bestCosts ∧ s'.bestViols = s.bestViols ∧ s'.bestExactMerit = s.bestExactMerit ∧
      s'.overallIteration = s.overallIteration + 1 := by
  have hcc : callCallbacks e (s.overallIteration + 1) = false := by
    unfold callCallbacks
    have hfalse : ∀ l : List Bool, l.foldl (· && ·) false = false := by
      intro l; induction l with
      | nil => rfl
      | cons a l ih => simpa using ih
    have : ∀ (l : List Bool) (a : Bool), false ∈ l → l.foldl (· && ·) a = false := by
      intro l
      induction l with
      | nil => intro a h; cases h
      | cons b l ih =>
        intro a h
        rcases List.mem_cons.mp h with h | h
        · simp [← h, hfalse]
        · simpa using ih _ h
    exact this _ _ hcb
  set s0 : St K := { s with overallIteration := s.overallIteration + 1,
                            trustRegionIteration := s.trustRegionIteration + 1 } with hs0
  obtain ⟨g1, g2, g3, g4, g5, g6, g7, g8, g9, g10, g11, -⟩ := solveQP_frame e s0
  have hst : (solveQPProblem e s0).2 = .stoppedByCallback :=
    (solveQP_status e s0).2.2.mpr ⟨by rw [Option.isSome_iff_exists]; exact ⟨y, hq⟩, hcc⟩
  refine ⟨{ (solveQPProblem e s0).1 with status := .stoppedByCallback }, ?_, rfl, g1, g2, g3, g4, g11⟩
  unfold trLoop
  rw [if_pos hb]
  unfold trBody
  simp only
  rw [← hs0, hst]
  simp

/-- C23: within a penalty iteration (the convexification loop) the exact merit of the best point, under the merit
coefficients in force, never increases; the coefficients do not change. -/
theorem C23_merit_monotone (p : Params K) (e : Env K) (fuel k : ℕ) (s s' : St K) (h : Consistent e s)
    (hr : convexLoop p e fuel k s = some s') :
    s'.coeffs = s.coeffs ∧ exactMerit e s.coeffs (best e s') ≤ exactMerit e s.coeffs (best e s) ∧
    Consistent e s' :=
  let ⟨a, b, c⟩ := convexLoop_spec p e fuel k s s' h hr
  ⟨b, c, a⟩

/-- C23: in one SQP step either the best record is untouched, or the best point is replaced once by the answer of a QP
posed with the same best point, whose exact improvement is at least `improve_ratio_threshold` times the predicted
improvement. -/
theorem C23_step_accept_or_keep (p : Params K) (e : Env K) (fuel : ℕ) (s s' : St K) (b : Bool)
    (h : Consistent e s) (hr : stepSQPSolver p e fuel s = some (s', b)) :
    (s'.bestVars = s.bestVars ∧ s'.bestCosts = s.bestCosts ∧ s'.bestViols = s.bestViols ∧
      s'.bestExactMerit = s.bestExactMerit) ∨
    ∃ k c d y, e.qp k c d = some y ∧ s'.bestVars = y ∧
      (0 < p.improveRatioThreshold → 0 ≤ p.minApproxImprove →
        let pred := exactMerit e s.coeffs (best e s) -
          ((e.convexCosts k y).sum + (List.zipWith (· * ·) (e.convexViols k y) s.coeffs).sum)
        0 < pred ∧
        exactMerit e s.coeffs (best e s') ≤ exactMerit e s.coeffs (best e s) - p.improveRatioThreshold * pred) := by
  obtain ⟨-, -, -, -, -, h5⟩ := step_spec p e fuel s s' b h hr
  rcases h5 with h5 | ⟨t, t1, t2, y, hy, hbv, hc, hmi, hm, hacc⟩
  · exact Or.inl ⟨h5.1, h5.2.1, h5.2.2.1, h5.2.2.2.1⟩
  · refine Or.inr ⟨_, _, _, y, hy, hbv, ?_⟩
    intro ha hb
    have := hacc ha hb
    have hcs : t.coeffs = s.coeffs := t2.2.2.2.2
    have hbs : best e t = best e s := by unfold best; rw [t2.1]
    simp only [hcs, hbs] at this
    exact this

/-- The states in which penalty iterations start are consistent, so C23 applies to every penalty iteration of a run. -/
theorem C23_start_states (p : Params K) (e : Env K) (hx : e.x0.length = e.nVars) (s : St K) (h : Consistent e s) :
    Consistent e (init p e) ∧ Consistent e (adjustPenalty p s) :=
  ⟨init_consistent p e hx, (adjust_consistent p e s h).1⟩

/-- C65: every QP of a run is posed with the trust box centred at the best point with the reported box size, and
whenever control returns from a QP solve the problem holds the best point again. -/
theorem C65_trust_box_centred (p : Params K) (e : Env K) (fuel : ℕ) (s : St K)
    (hx : e.x0.length = e.nVars) (hr : solve p e fuel = some s) :
    ∀ ev ∈ s.trace, ev.centre = ev.bestVars.take e.nVars ∧ ev.box = ev.resultsBox ∧
      ev.probVarsAfter = ev.bestVars.take e.nVars := by
  unfold solve at hr
  split at hr
  · cases hr
  · rename_i t ht
    obtain ⟨i1, -⟩ := penaltyLoop_spec p e fuel _ 0 _ t (init_consistent p e hx) rfl ht
    injection hr with hr; subst hr
    split_ifs <;> exact i1.trace

/-! ### Termination (C25) -/

/-- More fuel does not change a finished trust-region loop. -/
theorem trLoop_mono (p : Params K) (e : Env K) (n m : ℕ) (s : St K) (f : ℤ) (s' : St K) (hnm : n ≤ m)
    (h : trLoop p e n s f = some s') : trLoop p e m s f = some s' := by
  induction n generalizing s f m with
  | zero => simp [trLoop] at h
  | succ n ih =>
    obtain ⟨m, rfl⟩ : ∃ k, m = k + 1 := ⟨m - 1, by omega⟩
    unfold trLoop at h ⊢
    split_ifs at h ⊢ with hb
    · cases hbody : trBody p e s f with
      | cont t f' => rw [hbody] at h; exact ih m t f' (by omega) h
      | done t => rw [hbody] at h; exact h
    · exact h

theorem trLoop_after_last_failure (p : Params K) (e : Env K) (s : St K) (f : ℤ) (h : LoopInv e s)
    (hmin : 0 < p.minTrustBoxSize) (hs1 : p.trustShrinkRatio < 1)
    (hf : p.maxQpSolverFailures ≤ f) (hb : s.box = p.minTrustBoxSize) :
    ∃ s', trLoop p e 2 s f = some s' ∧ s'.overallIteration = s.overallIteration + 1 := by
  obtain ⟨b1, b2, b3, b4⟩ := trBody_spec p e s f h
  unfold trLoop
  rw [if_pos (le_of_eq hb.symm)]
  cases hbody : trBody p e s f with
  | done t => rw [hbody] at b2; exact ⟨t, rfl, b2⟩
  | cont t f' =>
    rw [hbody] at b2
    obtain ⟨_, c⟩ := b4 t f' hbody
    have hbox : t.box < p.minTrustBoxSize := by
      rcases c with ⟨_, c⟩ | ⟨c1, c2, _⟩ | ⟨c1, c2, _⟩
      · rw [c, hb]; exact mul_lt_of_lt_one_right hmin hs1
      · omega
      · omega
    refine ⟨t, ?_, b2⟩
    simp only
    unfold trLoop
    rw [if_neg (not_le.mpr hbox)]

/-- C25: if shrinking the box `N` times brings it below `min_trust_box_size`, the trust-region loop ends after at most
`N + 1` QP solves, whatever the QP solver and the callbacks answer. -/
theorem C25_trust_loop_bound (p : Params K) (e : Env K) (hmin : 0 < p.minTrustBoxSize)
    (hs1 : p.trustShrinkRatio < 1) (N : ℕ) (s : St K) (f : ℤ) (h : LoopInv e s)
    (hN : s.box * p.trustShrinkRatio ^ N < p.minTrustBoxSize) :
    ∃ s', trLoop p e (N + 2) s f = some s' ∧ s'.overallIteration ≤ s.overallIteration + (N + 1) := by
  induction N generalizing s f with
  | zero =>
    refine ⟨s, ?_, by omega⟩
    unfold trLoop
    rw [if_neg (not_le.mpr (by simpa using hN))]
  | succ N ih =>
    by_cases hb : p.minTrustBoxSize ≤ s.box
    swap
    · refine ⟨s, ?_, by omega⟩
      unfold trLoop
      rw [if_neg hb]
    obtain ⟨b1, b2, b3, b4⟩ := trBody_spec p e s f h
    have hshr : ∀ t f', trBody p e s f = .cont t f' → t.box = s.box * p.trustShrinkRatio →
        ∃ s', trLoop p e (N + 1 + 2) s f = some s' ∧ s'.overallIteration ≤ s.overallIteration + (N + 1 + 1) := by
      intro t f' hbody hbox
      rw [hbody] at b1 b2
      obtain ⟨s', i1, i2⟩ := ih t f' b1 (by rw [hbox]; rw [pow_succ'] at hN; rwa [mul_assoc])
      refine ⟨s', ?_, ?_⟩
      · rw [trLoop, if_pos hb, hbody]; exact i1
      · have : t.overallIteration = s.overallIteration + 1 := b2
        omega
    cases hbody : trBody p e s f with
    | done t =>
      rw [hbody] at b2
      refine ⟨t, ?_, ?_⟩
      · rw [trLoop, if_pos hb, hbody]
      · have : t.overallIteration = s.overallIteration + 1 := b2
        omega
    | cont t f' =>
      obtain ⟨_, c⟩ := b4 t f' hbody
      rcases c with ⟨_, c⟩ | ⟨c1, c2, c⟩ | ⟨c1, c2, c⟩
      · exact hshr t f' hbody c
      · exact hshr t f' hbody c
      · rw [hbody] at b1 b2
        obtain ⟨s', i1, i2⟩ := trLoop_after_last_failure p e t f' b1 hmin hs1 (le_of_eq c2.symm) c
        refine ⟨s', ?_, ?_⟩
        · rw [trLoop, if_pos hb, hbody]
          exact trLoop_mono p e 2 (N + 2) t f' s' (by omega) i1
        · have : t.overallIteration = s.overallIteration + 1 := b2
          omega

section archimedean
variable [Archimedean K]

theorem exists_shrink_count (p : Params K) (hmin : 0 < p.minTrustBoxSize) (hs0 : 0 ≤ p.trustShrinkRatio)
    (hs1 : p.trustShrinkRatio < 1) (b : K) : ∃ N : ℕ, b * p.trustShrinkRatio ^ N < p.minTrustBoxSize := by
  by_cases hb : b ≤ 0
  · exact ⟨0, by simpa using lt_of_le_of_lt hb hmin⟩
  · push Not at hb
    obtain ⟨N, hN⟩ := exists_pow_lt_of_lt_one (div_pos hmin hb) hs1
    refine ⟨N, ?_⟩
    rw [lt_div_iff₀ hb] at hN
    rwa [mul_comm]

theorem step_terminates (p : Params K) (e : Env K) (hmin : 0 < p.minTrustBoxSize) (hs0 : 0 ≤ p.trustShrinkRatio)
    (hs1 : p.trustShrinkRatio < 1) (s : St K) (h : Consistent e s) :
    ∃ F r, ∀ fuel, F ≤ fuel → stepSQPSolver p e fuel s = some r := by
  set s1 : St K := convexifyAndSend { s with convexifyIteration := s.convexifyIteration + 1 } with hs1'
  have hl : LoopInv e { s1 with trustRegionIteration := 0 } :=
    ⟨⟨h.vars, h.costs, h.viols, h.merit, h.pbox, h.pcoeffs, h.trace⟩, h.vars, h.pbox⟩
  obtain ⟨N, hN⟩ := exists_shrink_count p hmin hs0 hs1 s.box
  obtain ⟨t, ht, _⟩ := C25_trust_loop_bound p e hmin hs1 N _ 0 hl hN
  refine ⟨N + 2, if t.status = .converged then (t, true)
    else if t.box < p.minTrustBoxSize then ({ t with status := .converged }, true) else (t, false), ?_⟩
  intro fuel hf
  have := trLoop_mono p e _ fuel _ _ t hf ht
  unfold stepSQPSolver
  simp only
  rw [← hs1']
  unfold runTrustRegionLoop
  rw [this]
  simp only
  split_ifs <;> rfl

theorem convexLoop_terminates (p : Params K) (e : Env K) (hmin : 0 < p.minTrustBoxSize)
    (hs0 : 0 ≤ p.trustShrinkRatio) (hs1 : p.trustShrinkRatio < 1) (k : ℕ) (s : St K) (h : Consistent e s) :
    ∃ F r, ∀ fuel, F ≤ fuel → convexLoop p e fuel k s = some r := by
  induction k generalizing s with
  | zero => exact ⟨0, s, fun _ _ => rfl⟩
  | succ k ih =>
    have h0 : Consistent e { s with clockReads := s.clockReads + 1 } :=
      ⟨h.vars, h.costs, h.viols, h.merit, h.pbox, h.pcoeffs, h.trace⟩
    obtain ⟨F, ⟨t, b⟩, hF⟩ := step_terminates p e hmin hs0 hs1 _ h0
    by_cases c1 : p.maxTime < e.clock s.clockReads
    · exact ⟨0, _, fun fuel _ => by unfold convexLoop; simp only [c1, if_true]; rfl⟩
    by_cases c2 : p.maxIterations ≤ (s.overallIteration : ℤ)
    · exact ⟨0, _, fun fuel _ => by unfold convexLoop; simp only [c1, c2, if_true, if_false]; rfl⟩
    cases b with
    | true =>
      refine ⟨F, t, fun fuel hf => ?_⟩
      unfold convexLoop
      simp only [c1, c2, if_false, hF fuel hf]
    | false =>
      obtain ⟨i1, _⟩ := step_spec p e F _ _ _ h0 (hF F le_rfl)
      obtain ⟨G, r, hG⟩ := ih t i1
      refine ⟨max F G, r, fun fuel hf => ?_⟩
      unfold convexLoop
      simp only [c1, c2, if_false, hF fuel ((le_max_left _ _).trans hf)]
      exact hG fuel ((le_max_right _ _).trans hf)

theorem penaltyLoop_terminates (p : Params K) (e : Env K) (hmin : 0 < p.minTrustBoxSize)
    (hs0 : 0 ≤ p.trustShrinkRatio) (hs1 : p.trustShrinkRatio < 1) (m i : ℕ) (s : St K) (h : Consistent e s) :
    ∃ F r, ∀ fuel, F ≤ fuel → penaltyLoop p e fuel m i s = some r := by
  induction m generalizing i s with
  | zero => exact ⟨0, s, fun _ _ => rfl⟩
  | succ m ih =>
    have h0 : Consistent e { s with penaltyIteration := i, convexifyIteration := 0 } :=
      ⟨h.vars, h.costs, h.viols, h.merit, h.pbox, h.pcoeffs, h.trace⟩
    obtain ⟨F, t, hF⟩ := convexLoop_terminates p e hmin hs0 hs1 99 _ h0
    obtain ⟨c1, _⟩ := convexLoop_spec p e F 99 _ t h0 (hF F le_rfl)
    by_cases v1 : verifyConvergence p t = true
    · exact ⟨F, _, fun fuel hf => by unfold penaltyLoop; simp only [hF fuel hf, v1, if_true]; rfl⟩
    by_cases v2 : t.status = .iterationLimit ∨ t.status = .timeLimit
    · exact ⟨F, _, fun fuel hf => by
        unfold penaltyLoop; simp only [hF fuel hf, v1, v2, if_true, Bool.false_eq_true, if_false]; rfl⟩
    have c1' : Consistent e { t with status := .running } :=
      ⟨c1.vars, c1.costs, c1.viols, c1.merit, c1.pbox, c1.pcoeffs, c1.trace⟩
    obtain ⟨G, r, hG⟩ := ih (i + 1) _ (adjust_consistent p e _ c1').1
    refine ⟨max F G, r, fun fuel hf => ?_⟩
    unfold penaltyLoop
    simp only [hF fuel ((le_max_left _ _).trans hf), v1, v2, Bool.false_eq_true, if_false]
    exact hG fuel ((le_max_right _ _).trans hf)

/-- C25: every run of `solve` ends (with a result independent of the fuel), whatever the QP solver, the callbacks and
the clock do. -/
theorem C25_solve_terminates (p : Params K) (e : Env K) (hx : e.x0.length = e.nVars)
    (hmin : 0 < p.minTrustBoxSize) (hs0 : 0 ≤ p.trustShrinkRatio) (hs1 : p.trustShrinkRatio < 1) :
    ∃ F s, ∀ fuel, F ≤ fuel → solve p e fuel = some s := by
  obtain ⟨F, t, hF⟩ := penaltyLoop_terminates p e hmin hs0 hs1 p.maxMeritCoeffIncreases 0 _ (init_consistent p e hx)
  refine ⟨F, setVariables e t.bestVars (if t.status = .running then { t with status := .penaltyIterationLimit } else t),
    fun fuel hf => ?_⟩
  unfold solve
  rw [hF fuel hf]
  simp only
  split_ifs <;> rfl

end archimedean

/-! ### Penalty adjustment (C66) -/

/-- C66: with individual inflation, the coefficient of constraint `i` is multiplied by the increase ratio exactly when
its violation exceeds the tolerance and is kept otherwise; best point, costs and violations are kept. -/
theorem C66_inflate_individually (p : Params K) (s : St K) (hind : p.inflateIndividually = true)
    (hlen : s.bestViols.length = s.coeffs.length) :
    (adjustPenalty p s).coeffs.length = s.coeffs.length ∧
    (∀ i (hi : i < s.coeffs.length) (hi' : i < (adjustPenalty p s).coeffs.length) (hv : i < s.bestViols.length),
      (p.cntTolerance < s.bestViols[i] →
        (adjustPenalty p s).coeffs[i] = s.coeffs[i] * p.meritCoeffIncreaseRatio) ∧
      (s.bestViols[i] ≤ p.cntTolerance → (adjustPenalty p s).coeffs[i] = s.coeffs[i])) ∧
    (adjustPenalty p s).bestVars = s.bestVars ∧ (adjustPenalty p s).bestViols = s.bestViols ∧
    (adjustPenalty p s).bestCosts = s.bestCosts := by
  have hc : (adjustPenalty p s).coeffs =
      List.zipWith (fun v c => if p.cntTolerance < v then c * p.meritCoeffIncreaseRatio else c) s.bestViols s.coeffs := by
    change inflate p s = _
    simp [inflate, hind]
  refine ⟨by rw [hc]; simp [hlen], ?_, rfl, rfl, rfl⟩
  intro i hi hi' hv
  have : (adjustPenalty p s).coeffs[i] =
      if p.cntTolerance < s.bestViols[i] then s.coeffs[i] * p.meritCoeffIncreaseRatio else s.coeffs[i] := by
    simp only [hc, List.getElem_zipWith]
  constructor
  · intro h; rw [this, if_pos h]
  · intro h; rw [this, if_neg (not_lt.mpr h)]

/-- C66: after a penalty adjustment the trust region is at least `min_trust_box_size` (for `0 < shrink ≤ 3/2`), so the
next penalty round solves at least one QP, and it is never reduced. -/
theorem C66_box_usable (p : Params K) (s : St K) (hmin : 0 < p.minTrustBoxSize) (hs0 : 0 < p.trustShrinkRatio)
    (hs1 : p.trustShrinkRatio ≤ 3 / 2) :
    p.minTrustBoxSize ≤ (adjustPenalty p s).box ∧ s.box ≤ (adjustPenalty p s).box := by
  change p.minTrustBoxSize ≤ max s.box (p.minTrustBoxSize / p.trustShrinkRatio * (3 / 2)) ∧
    s.box ≤ max s.box (p.minTrustBoxSize / p.trustShrinkRatio * (3 / 2))
  refine ⟨le_max_of_le_right ?_, le_max_left _ _⟩
  rw [div_mul_eq_mul_div, le_div_iff₀ hs0]
  exact mul_le_mul_of_nonneg_left hs1 hmin.le

/-! ### Non-vacuity -/

/-- default parameters of `SQPParameters` (types.h) -/
def defaultParams : Params ℚ :=
  { improveRatioThreshold := 1/4, minTrustBoxSize := 1/10000, minApproxImprove := 1/10000
    minApproxImproveFrac := -1000000, maxIterations := 50, trustShrinkRatio := 1/10, trustExpandRatio := 3/2
    cntTolerance := 1/10000, maxMeritCoeffIncreases := 5, maxQpSolverFailures := 3, meritCoeffIncreaseRatio := 10
    maxTime := 1000, initialMeritErrorCoeff := 10, inflateIndividually := true, initialTrustBoxSize := 1/10 }

/-- one variable, cost `x²`, constraint violation `|x - 1|`; the QP answers with `1` and a slack -/
def exEnv : Env ℚ :=
  { nVars := 1, nCnts := 1, x0 := [3]
    exactCosts := fun x => x.map fun v => v * v
    exactViols := fun x => x.map fun v => |v - 1|
    convexCosts := fun _ x => (x.take 1).map fun v => v * v
    convexViols := fun _ x => (x.take 1).map fun v => |v - 1|
    qp := fun _ _ _ => some [1, 0]
    callbacks := fun _ => [true], clock := fun _ => 0 }

/-- an environment whose QP solver always fails and that has no constraints -/
def failEnv : Env ℚ :=
  { exEnv with nCnts := 0, exactViols := fun _ => [], convexViols := fun _ _ => [], qp := fun _ _ _ => none }

/-- the hypotheses of C21-C25, C65 are met by a run that starts outside and ends at the constrained optimum -/
example : ((solve defaultParams exEnv 10).map fun s => (s.status, s.probVars, s.overallIteration)) =
    some (.converged, [1], 2) := by decide +kernel

/-- the witness for C22: every QP fails and the status is `kConverged` -/
example : ((solve defaultParams failEnv 10).map fun s => (s.status, s.probVars, s.overallIteration)) =
    some (.converged, [3], 5) := by decide +kernel

/-- the witness for C22: the callback says stop after the first QP, yet more QPs are solved and the status is
`kIterationLimit` -/
example : ((solve defaultParams { exEnv with callbacks := fun _ => [false] } 10).map
    fun s => (s.status, s.probVars, s.overallIteration)) = some (.iterationLimit, [3], 50) := by decide +kernel

example : exEnv.x0.length = exEnv.nVars ∧ 0 < defaultParams.minTrustBoxSize ∧ 0 ≤ defaultParams.trustShrinkRatio ∧
    defaultParams.trustShrinkRatio < 1 ∧ 0 < defaultParams.improveRatioThreshold ∧
    0 ≤ defaultParams.minApproxImprove ∧ 0 < defaultParams.maxMeritCoeffIncreases := by
  decide +kernel

end Verif.Sqp
