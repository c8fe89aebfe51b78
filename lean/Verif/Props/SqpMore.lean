import Verif.Props.Sqp

/-!
C87 (time and iteration limits) and C88 (what the trust-region loop does with the answer of a QP) for
`TrustRegionSQPSolver`.
-/

set_option linter.unusedSectionVars false
set_option linter.unusedVariables false

namespace Verif.Sqp

universe u
variable {K : Type u} [Field K] [LinearOrder K] [IsStrictOrderedRing K]

/-! ### C88: the decision taken after a QP -/

/-- Specification: improvement of the merit promised by the convex model for the answer `y`. -/
def predicted (e : Env K) (s : St K) (y : List K) : K :=
  exactMerit e s.coeffs (best e s) - ((e.convexCosts (s.overallIteration + 1) y).sum +
    (List.zipWith (· * ·) (e.convexViols (s.overallIteration + 1) y) s.coeffs).sum)

/-- Specification: true improvement of the merit by the answer `y`. -/
def actual (e : Env K) (s : St K) (y : List K) : K :=
  exactMerit e s.coeffs (best e s) - exactMerit e s.coeffs (y.take e.nVars)

/-- Specification: the model promises too little to go on. -/
def TooLittle (p : Params K) (e : Env K) (s : St K) (y : List K) : Prop :=
  predicted e s y < p.minApproxImprove ∨
    predicted e s y / max |exactMerit e s.coeffs (best e s)| (1 / 10 ^ 12) < p.minApproxImproveFrac

/-- Specification: the step is worse, or improves less than the required share of the promise (a promise of less than
`1e-12` counts as a share of zero). -/
def Poor (p : Params K) (e : Env K) (s : St K) (y : List K) : Prop :=
  actual e s y < 0 ∨
    (if |predicted e s y| < 1 / 10 ^ 12 then 0 else actual e s y / predicted e s y) < p.improveRatioThreshold

theorem callCallbacks_iff (e : Env K) (k : ℕ) : callCallbacks e k = true ↔ ∀ b ∈ e.callbacks k, b = true := by
  unfold callCallbacks
  have : ∀ (l : List Bool) (a : Bool), l.foldl (· && ·) a = true ↔ a = true ∧ ∀ b ∈ l, b = true := by
    intro l
    induction l with
    | nil => intro a; simp
    | cons b l ih => intro a; rw [List.foldl_cons, ih]; simp [and_assoc]
  rw [this]; simp

/-- C88: the complete decision table of one pass through the trust-region loop, from any state the loop can be in, for
every answer of the QP solver and of the callbacks. -/
theorem C88_decision (p : Params K) (e : Env K) (s : St K) (f : ℤ) (h : LoopInv e s) :
    (e.qp (s.overallIteration + 1) s.solverCentre s.solverBox = none →
      (f + 1 < p.maxQpSolverFailures → ∃ s', trBody p e s f = .cont s' (f + 1) ∧ Unchanged s s' ∧
        s'.box = s.box * p.trustShrinkRatio) ∧
      (f + 1 = p.maxQpSolverFailures → ∃ s', trBody p e s f = .cont s' (f + 1) ∧ Unchanged s s' ∧
        s'.box = p.minTrustBoxSize) ∧
      (p.maxQpSolverFailures < f + 1 → ∃ s', trBody p e s f = .done s' ∧ Unchanged s s' ∧ s'.box = s.box ∧
        s'.status = .qpSolveFailed)) ∧
    ∀ y, e.qp (s.overallIteration + 1) s.solverCentre s.solverBox = some y →
      (false ∈ e.callbacks (s.overallIteration + 1) → ∃ s', trBody p e s f = .done s' ∧ Unchanged s s' ∧
        s'.box = s.box ∧ s'.status = .stoppedByCallback) ∧
      ((∀ b ∈ e.callbacks (s.overallIteration + 1), b = true) →
        (TooLittle p e s y → ∃ s', trBody p e s f = .done s' ∧ Unchanged s s' ∧ s'.box = s.box ∧ s'.status = .converged) ∧
        (¬ TooLittle p e s y → Poor p e s y → ∃ s', trBody p e s f = .cont s' f ∧ Unchanged s s' ∧
          s'.box = s.box * p.trustShrinkRatio) ∧
        (¬ TooLittle p e s y → ¬ Poor p e s y → ∃ s', trBody p e s f = .done s' ∧ s'.bestVars = y ∧
          s'.bestCosts = e.exactCosts (y.take e.nVars) ∧ s'.bestViols = e.exactViols (y.take e.nVars) ∧
          s'.bestExactMerit = exactMerit e s.coeffs (y.take e.nVars) ∧ s'.coeffs = s.coeffs ∧
          s'.box = s.box * p.trustExpandRatio ∧ s'.status = .running)) := by
  obtain ⟨s0, hs0⟩ : ∃ s0 : St K, s0 = { s with
      overallIteration := s.overallIteration + 1
      trustRegionIteration := s.trustRegionIteration + 1 } := ⟨_, rfl⟩
  have hbody : trBody p e s f = (
      if (solveQPProblem e s0).2 = .stoppedByCallback then
        .done { (solveQPProblem e s0).1 with status := (solveQPProblem e s0).2 }
      else if (solveQPProblem e s0).2 ≠ .running then
        if f + 1 < p.maxQpSolverFailures then
          .cont (shrink p { (solveQPProblem e s0).1 with status := (solveQPProblem e s0).2 }) (f + 1)
        else if f + 1 = p.maxQpSolverFailures then
          .cont (readBox (solverUpdateBounds (probSetBoxSize p.minTrustBoxSize
            { (solveQPProblem e s0).1 with status := (solveQPProblem e s0).2 }))) (f + 1)
        else .done { (solveQPProblem e s0).1 with status := (solveQPProblem e s0).2 }
      else if (solveQPProblem e s0).1.approxImprove < p.minApproxImprove then
        .done { (solveQPProblem e s0).1 with status := .converged }
      else if (solveQPProblem e s0).1.approxImprove / max |(solveQPProblem e s0).1.bestExactMerit| tiny <
          p.minApproxImproveFrac then .done { (solveQPProblem e s0).1 with status := .converged }
      else if (solveQPProblem e s0).1.exactImprove < 0 ∨ (solveQPProblem e s0).1.improveRatio < p.improveRatioThreshold then
        .cont (shrink p { (solveQPProblem e s0).1 with status := (solveQPProblem e s0).2 }) f
      else .done (accept p e { (solveQPProblem e s0).1 with status := (solveQPProblem e s0).2 })) := by
    rw [hs0]; rfl
  obtain ⟨g1, g2, g3, g4, g5, g6, g7, g8, g9, g10, g11, g12, g13, g14, g15, g16⟩ := solveQP_frame e s0
  obtain ⟨u1, u2, u3⟩ := solveQP_status e s0
  have z1 : s0.overallIteration = s.overallIteration + 1 := by rw [hs0]
  have z2 : s0.solverCentre = s.solverCentre := by rw [hs0]
  have z3 : s0.solverBox = s.solverBox := by rw [hs0]
  have z4 : s0.bestExactMerit = s.bestExactMerit := by rw [hs0]
  have z5 : s0.coeffs = s.coeffs := by rw [hs0]
  have z6 : s0.bestVars = s.bestVars := by rw [hs0]
  have z7 : s0.bestCosts = s.bestCosts := by rw [hs0]
  have z8 : s0.bestViols = s.bestViols := by rw [hs0]
  have z9 : s0.box = s.box := by rw [hs0]
  have z10 : s0.probBox = s.probBox := by rw [hs0]
  have hun : ∀ st, Unchanged s { (solveQPProblem e s0).1 with status := st } := fun st =>
    ⟨g1.trans z6, g2.trans z7, g3.trans z8, g4.trans z4, g5.trans z5⟩
  have hbox : (solveQPProblem e s0).1.box = s.box := g6.trans z9
  have hpb : (solveQPProblem e s0).1.probBox = s.box := g7.trans (z10.trans h.pbox)
  have htiny : (tiny : K) = 1 / 10 ^ 12 := by norm_num [tiny]
  rw [z1, z2, z3] at u1 u2 u3
  refine ⟨fun hq => ?_, fun y hy => ⟨fun hc => ?_, fun hc => ?_⟩⟩
  · have e1 := u1.2 hq
    have n1 : ¬ (solveQPProblem e s0).2 = .stoppedByCallback := by rw [e1]; simp
    have n2 : (solveQPProblem e s0).2 ≠ .running := by rw [e1]; simp
    rw [if_neg n1, if_pos n2] at hbody
    refine ⟨fun hf => ?_, fun hf => ?_, fun hf => ?_⟩
    · rw [if_pos hf] at hbody
      exact ⟨_, hbody, hun (solveQPProblem e s0).2, congrArg (· * p.trustShrinkRatio) hpb⟩
    · rw [if_neg (by omega), if_pos hf] at hbody
      exact ⟨_, hbody, hun (solveQPProblem e s0).2, rfl⟩
    · rw [if_neg (by omega), if_neg (by omega)] at hbody
      exact ⟨_, hbody, hun _, hbox, e1⟩
  · have e1 := u3.2 ⟨by rw [hy]; rfl, by
      by_contra hne
      have := (callCallbacks_iff e _).1 (by simpa using hne) _ hc
      simp at this⟩
    rw [if_pos e1] at hbody
    exact ⟨_, hbody, hun _, hbox, e1⟩
  · have e1 := u2.2 ⟨by rw [hy]; rfl, (callCallbacks_iff e _).2 hc⟩
    obtain ⟨v1, v2, v3, v4, v5, v6, v7⟩ := solveQP_values e s0 y (by rw [z1, z2, z3]; exact hy)
    have hm : (solveQPProblem e s0).1.bestExactMerit = exactMerit e s.coeffs (best e s) := (g4.trans z4).trans h.merit
    have hpred : (solveQPProblem e s0).1.approxImprove = predicted e s y := by
      rw [v5, z4, h.merit, z1, z5]; rfl
    have hact : (solveQPProblem e s0).1.exactImprove = actual e s y := by
      rw [v6, z4, h.merit, z5]; rfl
    rw [hpred, hact, htiny] at v7
    rw [hpred, hact, hm, v7, htiny, if_neg (by rw [e1]; simp), if_neg (by rw [e1]; simp)] at hbody
    refine ⟨fun ht => ?_, fun ht hp => ?_, fun ht hp => ?_⟩
    · by_cases c : predicted e s y < p.minApproxImprove
      · rw [if_pos c] at hbody
        exact ⟨_, hbody, hun _, hbox, rfl⟩
      · rw [if_neg c, if_pos (ht.resolve_left c)] at hbody
        exact ⟨_, hbody, hun _, hbox, rfl⟩
    · rw [if_neg fun c => ht (.inl c), if_neg fun c => ht (.inr c), if_pos (show actual e s y < 0 ∨ _ from hp)] at hbody
      exact ⟨_, hbody, hun (solveQPProblem e s0).2, congrArg (· * p.trustShrinkRatio) hpb⟩
    · rw [if_neg fun c => ht (.inl c), if_neg fun c => ht (.inr c), if_neg (show ¬ (actual e s y < 0 ∨ _) from hp)] at hbody
      exact ⟨_, hbody, v1, v2, v3, by rw [← z5]; exact v4, g5.trans z5, congrArg (· * p.trustExpandRatio) hpb, e1⟩

/-! ### C87: time and iteration limits -/

theorem solveQP_clock (e : Env K) (s : St K) : (solveQPProblem e s).1.clockReads = s.clockReads := (solveQP_frame e s).2.2.2.2.2.2.2.2.2.2.2.1

theorem trBody_clock (p : Params K) (e : Env K) (s : St K) (f : ℤ) :
    (trBody p e s f).st.clockReads = s.clockReads ∧ (trBody p e s f).st.penaltyIteration = s.penaltyIteration ∧
    (trBody p e s f).st.status ≠ .timeLimit ∧ (trBody p e s f).st.status ≠ .iterationLimit := by
  set s0 : St K := { s with overallIteration := s.overallIteration + 1,
                            trustRegionIteration := s.trustRegionIteration + 1 } with hs0
  obtain ⟨g1, g2, g3, g4, g5, g6, g7, g8, g9, g10, g11, g12, g13, g14, g15, g16⟩ := solveQP_frame e s0
  have hst := solveQP_status_cases e s0
  unfold trBody
  simp only []
  rw [← hs0]
  set r := solveQPProblem e s0 with hr
  obtain ⟨r1, r2⟩ := r
  simp only at *
  have a : r1.clockReads = s.clockReads := g12
  have b : r1.penaltyIteration = s.penaltyIteration := g16
  rcases hst with rfl | rfl | rfl
  · rw [if_neg (by simp), if_pos (by simp)]
    split_ifs
    · exact ⟨a, b, by simp [TrOut.st, shrink, readBox, solverUpdateBounds, probScaleBoxSize],
        by simp [TrOut.st, shrink, readBox, solverUpdateBounds, probScaleBoxSize]⟩
    · exact ⟨a, b, by simp [TrOut.st, readBox, solverUpdateBounds, probSetBoxSize],
        by simp [TrOut.st, readBox, solverUpdateBounds, probSetBoxSize]⟩
    · exact ⟨a, b, by simp [TrOut.st], by simp [TrOut.st]⟩
  · rw [if_neg (by simp), if_neg (by simp)]
    split_ifs
    · exact ⟨a, b, by simp [TrOut.st], by simp [TrOut.st]⟩
    · exact ⟨a, b, by simp [TrOut.st], by simp [TrOut.st]⟩
    · exact ⟨a, b, by simp [TrOut.st, shrink, readBox, solverUpdateBounds, probScaleBoxSize],
        by simp [TrOut.st, shrink, readBox, solverUpdateBounds, probScaleBoxSize]⟩
    · exact ⟨a, b, by simp [TrOut.st, accept, readBox, solverUpdateBounds, probScaleBoxSize, setVariables],
        by simp [TrOut.st, accept, readBox, solverUpdateBounds, probScaleBoxSize, setVariables]⟩
  · rw [if_pos rfl]
    exact ⟨a, b, by simp [TrOut.st], by simp [TrOut.st]⟩

theorem trLoop_clock (p : Params K) (e : Env K) (n : ℕ) (s s' : St K) (f : ℤ) (hr : trLoop p e n s f = some s') :
    s'.clockReads = s.clockReads ∧ s'.penaltyIteration = s.penaltyIteration ∧
    (s' = s ∧ s.box < p.minTrustBoxSize ∨ s'.status ≠ .timeLimit ∧ s'.status ≠ .iterationLimit) := by
  induction n generalizing s f with
  | zero => simp [trLoop] at hr
  | succ n ih =>
    unfold trLoop at hr
    split_ifs at hr with hb
    · obtain ⟨b1, b2, b3, b4⟩ := trBody_clock p e s f
      cases hbody : trBody p e s f with
      | cont t f' =>
        rw [hbody] at hr b1 b2 b3 b4
        obtain ⟨i1, i2, i3⟩ := ih t f' hr
        refine ⟨i1.trans b1, i2.trans b2, .inr ?_⟩
        rcases i3 with ⟨rfl, _⟩ | i3
        · exact ⟨b3, b4⟩
        · exact i3
      | done t =>
        rw [hbody] at hr b1 b2 b3 b4
        injection hr with hr; subst hr
        exact ⟨b1, b2, .inr ⟨b3, b4⟩⟩
    · injection hr with hr; subst hr
      exact ⟨rfl, rfl, .inl ⟨rfl, not_le.1 hb⟩⟩

theorem step_clock (p : Params K) (e : Env K) (fuel : ℕ) (s s' : St K) (b : Bool)
    (hr : stepSQPSolver p e fuel s = some (s', b)) :
    s'.clockReads = s.clockReads ∧ s'.penaltyIteration = s.penaltyIteration ∧ s'.status ≠ .timeLimit ∧
      s'.status ≠ .iterationLimit := by
  unfold stepSQPSolver at hr
  simp only at hr
  set s1 : St K := convexifyAndSend { s with convexifyIteration := s.convexifyIteration + 1 } with hs1
  cases ht : runTrustRegionLoop p e fuel s1 with
  | none => rw [ht] at hr; cases hr
  | some t =>
    rw [ht] at hr
    obtain ⟨i1, i2, i3⟩ := trLoop_clock p e fuel _ _ 0 ht
    simp only at hr
    split_ifs at hr with c1 c2
    · cases hr; exact ⟨i1, i2, by simp [c1], by simp [c1]⟩
    · cases hr; exact ⟨i1, i2, by simp, by simp⟩
    · cases hr
      rcases i3 with ⟨rfl, i3⟩ | i3
      · exact absurd i3 c2
      · exact ⟨i1, i2, i3⟩

/-- Specification: every clock reading so far was within the limit. -/
def InTime (p : Params K) (e : Env K) (n : ℕ) : Prop := ∀ k < n, e.clock k ≤ p.maxTime

/-- Specification: the QPs solved between `s` and `s'` (if any) end with those of a step that was begun below the
iteration limit. -/
def LastStep (p : Params K) (e : Env K) (fuel : ℕ) (s s' : St K) : Prop :=
  s'.overallIteration = s.overallIteration ∨
    ∃ s0 s1 b, (s0.overallIteration : ℤ) < p.maxIterations ∧ stepSQPSolver p e fuel s0 = some (s1, b) ∧
      s'.overallIteration = s1.overallIteration

theorem convexLoop_clock (p : Params K) (e : Env K) (fuel : ℕ) (k : ℕ) (s s' : St K)
    (h1 : s.status ≠ .timeLimit) (h2 : s.status ≠ .iterationLimit)
    (ht : InTime p e s.clockReads) (hr : convexLoop p e fuel k s = some s') :
    s'.penaltyIteration = s.penaltyIteration ∧ LastStep p e fuel s s' ∧
    (s'.status = .iterationLimit → p.maxIterations ≤ s'.overallIteration) ∧
    ((s'.status ≠ .timeLimit ∧ InTime p e s'.clockReads) ∨
      (s'.status = .timeLimit ∧ ∃ n, s'.clockReads = n + 1 ∧ InTime p e n ∧ p.maxTime < e.clock n)) := by
  induction k generalizing s with
  | zero => cases hr; exact ⟨rfl, .inl rfl, fun hc => absurd hc h2, .inl ⟨h1, ht⟩⟩
  | succ k ih =>
    unfold convexLoop at hr
    simp only at hr
    split_ifs at hr with c1 c2
    · cases hr
      exact ⟨rfl, .inl rfl, by simp, .inr ⟨rfl, s.clockReads, rfl, ht, c1⟩⟩
    · have ht' : InTime p e (s.clockReads + 1) := by
        intro j hj
        rcases Nat.lt_succ_iff_lt_or_eq.1 hj with hj | rfl
        · exact ht j hj
        · exact not_lt.1 c1
      cases hr
      exact ⟨rfl, .inl rfl, fun _ => c2, .inl ⟨by simp, ht'⟩⟩
    · have ht' : InTime p e (s.clockReads + 1) := by
        intro j hj
        rcases Nat.lt_succ_iff_lt_or_eq.1 hj with hj | rfl
        · exact ht j hj
        · exact not_lt.1 c1
      split at hr
      · cases hr
      · rename_i t hstep
        injection hr with hr; subst hr
        obtain ⟨a1, a2, a3, a4⟩ := step_clock p e fuel _ _ _ hstep
        refine ⟨a2, .inr ⟨{ s with clockReads := s.clockReads + 1 }, _, _, not_le.1 c2, hstep, rfl⟩, fun hc => absurd hc a4, .inl ⟨a3, ?_⟩⟩
        rw [a1]; exact ht'
      · rename_i t hstep
        obtain ⟨a1, a2, a3, a4⟩ := step_clock p e fuel _ _ _ hstep
        obtain ⟨i1, i2, i3, i4⟩ := ih t a3 a4 (by rw [a1]; exact ht') hr
        refine ⟨i1.trans a2, .inr ?_, i3, i4⟩
        rcases i2 with i2 | i2
        · exact ⟨{ s with clockReads := s.clockReads + 1 }, _, _, not_le.1 c2, hstep, i2⟩
        · exact i2

theorem LastStep.trans {p : Params K} {e : Env K} {fuel : ℕ} {a b c : St K} (h : LastStep p e fuel a b)
    (h' : LastStep p e fuel b c) : LastStep p e fuel a c := by
  rcases h' with h' | h'
  · rcases h with h | ⟨s0, s1, t, h1, h2, h3⟩
    · exact .inl (h'.trans h)
    · exact .inr ⟨s0, s1, t, h1, h2, h'.trans h3⟩
  · exact .inr h'

theorem penaltyLoop_clock (p : Params K) (e : Env K) (fuel m i : ℕ) (s s' : St K) (hst : s.status = .running)
    (ht : InTime p e s.clockReads) (hr : penaltyLoop p e fuel m i s = some s') :
    LastStep p e fuel s s' ∧ (s'.status = .iterationLimit → p.maxIterations ≤ s'.overallIteration) ∧
    (s'.status = .running → m = 0 ∨ s'.penaltyIteration + 1 = i + m) ∧
    (InTime p e s'.clockReads ∧ s'.status ≠ .timeLimit ∨
      (s'.status = .timeLimit ∨ s'.status = .converged) ∧
        ∃ n, s'.clockReads = n + 1 ∧ InTime p e n ∧ p.maxTime < e.clock n) := by
  induction m generalizing i s with
  | zero => cases hr; exact ⟨.inl rfl, by simp [hst], fun _ => .inl rfl, .inl ⟨ht, by simp [hst]⟩⟩
  | succ m ih =>
    unfold penaltyLoop at hr
    simp only at hr
    split at hr
    · cases hr
    · rename_i t hconv
      obtain ⟨c0, c1, c2, c3⟩ := convexLoop_clock p e fuel 99 { s with penaltyIteration := i, convexifyIteration := 0 } t (by simp [hst]) (by simp [hst]) ht hconv
      have c1' : LastStep p e fuel s t := c1
      split_ifs at hr with v1 v2
      · injection hr with hr; subst hr
        refine ⟨c1, by simp, by simp, ?_⟩
        rcases c3 with ⟨c3, c4⟩ | ⟨c3, c4⟩
        · exact .inl ⟨c4, by simp⟩
        · exact .inr ⟨.inr rfl, c4⟩
      · injection hr with hr; subst hr
        refine ⟨c1', c2, ?_, ?_⟩
        · intro hc; rcases v2 with v2 | v2 <;> simp [v2] at hc
        · rcases c3 with ⟨c3, c4⟩ | ⟨c3, c4⟩
          · exact .inl ⟨c4, c3⟩
          · exact .inr ⟨.inl c3, c4⟩
      · have htl : t.status ≠ .timeLimit := fun hc => v2 (.inr hc)
        have hit : InTime p e t.clockReads := by
          rcases c3 with ⟨c3, c4⟩ | ⟨c3, c4⟩
          · exact c4
          · exact absurd c3 htl
        obtain ⟨i1, i2, i3, i4⟩ := ih (i + 1) (adjustPenalty p { t with status := .running }) rfl hit hr
        refine ⟨c1'.trans i1, i2, ?_, i4⟩
        intro hc
        right
        rcases i3 hc with rfl | i3
        · simp only [penaltyLoop, Option.some.injEq] at hr
          subst hr
          have c0' : t.penaltyIteration = i := c0
          change t.penaltyIteration + 1 = _
          rw [c0']
        · omega

/-- C87: every clock reading but the last was within `max_time`, so the run ends with the first reading beyond it.  A run
that read a time beyond the limit reports `kTimeLimit`, unless its best point satisfies the constraints (`kConverged`), and
`kTimeLimit` is reported only after such a reading. -/
theorem C87_time_limit (p : Params K) (e : Env K) (fuel : ℕ) (s : St K) (hr : solve p e fuel = some s) :
    (∀ k, k + 1 < s.clockReads → e.clock k ≤ p.maxTime) ∧
    (∀ k < s.clockReads, p.maxTime < e.clock k → k + 1 = s.clockReads ∧ (s.status = .timeLimit ∨ s.status = .converged)) ∧
    (s.status = .timeLimit → ∃ k, k + 1 = s.clockReads ∧ p.maxTime < e.clock k) := by
  unfold solve at hr
  split at hr
  · cases hr
  · rename_i t ht
    obtain ⟨-, -, -, h4⟩ := penaltyLoop_clock p e fuel _ 0 _ t rfl (by intro k hk; simp [init, constraintMeritCoeffChanged, setBoxSize, readBox, probSetBoxSize] at hk) ht
    injection hr with hr
    have e1 : s.clockReads = t.clockReads := by rw [← hr]; simp only [setVariables]; split_ifs <;> rfl
    have e2 : s.status = if t.status = .running then .penaltyIterationLimit else t.status := by
      rw [← hr]; simp only [setVariables]; split_ifs <;> rfl
    rw [e1]
    rcases h4 with ⟨h4, h5⟩ | ⟨h4, n, h5, h6, h7⟩
    · refine ⟨fun k hk => h4 k (by omega), fun k hk hc => absurd hc (not_lt.2 (h4 k hk)), ?_⟩
      intro hc; rw [e2] at hc
      split_ifs at hc with h
      exact absurd hc h5
    · rw [h5]
      refine ⟨fun k hk => h6 k (by omega), ?_, fun _ => ⟨n, rfl, h7⟩⟩
      intro k hk hc
      have hkn : k = n := by
        by_contra hne
        exact absurd hc (not_lt.2 (h6 k (by omega)))
      refine ⟨by rw [hkn], ?_⟩
      rw [e2]
      rcases h4 with h4 | h4 <;> simp [h4]

/-- C87: the QPs of a run end with those of an SQP step that was begun with fewer than `max_iterations` QPs; the status
`kIterationLimit` is reported only when that many QPs were solved, and `kPenaltyIterationLimit` only after the last penalty
round. -/
theorem C87_iteration_limit (p : Params K) (e : Env K) (fuel : ℕ) (s : St K) (hr : solve p e fuel = some s) :
    (s.overallIteration = 0 ∨ ∃ s0 s1 b, (s0.overallIteration : ℤ) < p.maxIterations ∧
      stepSQPSolver p e fuel s0 = some (s1, b) ∧ s.overallIteration = s1.overallIteration) ∧
    (s.status = .iterationLimit → p.maxIterations ≤ s.overallIteration) ∧
    (s.status = .penaltyIterationLimit → p.maxMeritCoeffIncreases = 0 ∨ s.penaltyIteration + 1 = p.maxMeritCoeffIncreases) := by
  unfold solve at hr
  split at hr
  · cases hr
  · rename_i t ht
    have hmem : t.status = .running ∨ t.status ≠ .penaltyIterationLimit := by
      by_cases h : t.status = .running
      · exact .inl h
      · right
        intro hc
        have key : ∀ (m i : ℕ) (a b : St K), a.status = .running → penaltyLoop p e fuel m i a = some b →
            b.status ≠ .penaltyIterationLimit := by
          intro m
          induction m with
          | zero => intro i a b ha hb; cases hb; simp [ha]
          | succ m ih =>
            intro i a b ha hb
            unfold penaltyLoop at hb
            simp only at hb
            split at hb
            · cases hb
            · split_ifs at hb with v1 v2
              · injection hb with hb; subst hb; simp
              · injection hb with hb; subst hb; rcases v2 with v2 | v2 <;> simp [v2]
              · exact ih (i + 1) _ b rfl hb
        exact key _ _ _ _ rfl ht hc
    obtain ⟨h1, h2, h3, -⟩ := penaltyLoop_clock p e fuel _ 0 _ t rfl (by intro k hk; simp [init, constraintMeritCoeffChanged, setBoxSize, readBox, probSetBoxSize] at hk) ht
    injection hr with hr
    have e1 : s.overallIteration = t.overallIteration := by rw [← hr]; simp only [setVariables]; split_ifs <;> rfl
    have e2 : s.status = if t.status = .running then .penaltyIterationLimit else t.status := by
      rw [← hr]; simp only [setVariables]; split_ifs <;> rfl
    have e3 : s.penaltyIteration = t.penaltyIteration := by rw [← hr]; simp only [setVariables]; split_ifs <;> rfl
    rw [e1, e2, e3]
    refine ⟨h1, ?_, ?_⟩
    · intro hc; split_ifs at hc with h
      exact h2 hc
    · intro hc
      rcases hmem with hm | hm
      · simpa using h3 hm
      · split_ifs at hc with h
        · simpa using h3 h
        · exact absurd hc hm

/-! ### C66 -/

/-- C66: without individual inflation all coefficients are multiplied. -/
theorem C66_inflate_all (p : Params K) (s : St K) (hind : p.inflateIndividually = false) :
    (adjustPenalty p s).coeffs = s.coeffs.map (· * p.meritCoeffIncreaseRatio) ∧
    (adjustPenalty p s).bestVars = s.bestVars ∧ (adjustPenalty p s).bestViols = s.bestViols ∧
    (adjustPenalty p s).bestCosts = s.bestCosts := by
  refine ⟨?_, rfl, rfl, rfl⟩
  change inflate p s = _
  simp [inflate, hind]

/-- C66: the merit of the best point is recomputed with the new coefficients, which are also those of the QP. -/
theorem C66_merit_recomputed (p : Params K) (e : Env K) (s : St K) (h : Consistent e s) :
    (adjustPenalty p s).bestExactMerit = exactMerit e (adjustPenalty p s).coeffs (s.bestVars.take e.nVars) ∧
    (adjustPenalty p s).probCoeffs = (adjustPenalty p s).coeffs ∧
    (adjustPenalty p s).probBox = (adjustPenalty p s).box := by
  obtain ⟨h1, _, h3⟩ := adjust_consistent p e s h
  exact ⟨by rw [h1.merit, best, h3], h1.pcoeffs, h1.pbox⟩

/-! ### Non-vacuity -/

/-- A run that is out of time at its third reading: the constraint cannot be met. -/
def lateEnv : Env ℚ :=
  { exEnv with exactViols := fun x => x.map fun v => |v - 1| + 1, clock := fun k => if k < 2 then 0 else 2000 }

example : ((solve defaultParams lateEnv 10).map fun s => (s.status, s.clockReads)) = some (.timeLimit, 3) := by
  decide +kernel

/-- A run that reaches its iteration limit. -/
example : ((solve { defaultParams with maxIterations := 1 } { lateEnv with clock := fun _ => 0 } 10).map fun s =>
    (s.status, s.overallIteration)) = some (.iterationLimit, 1) := by decide +kernel

/-- The start of a trust-region loop meets the hypothesis of `C88_decision`, and its step is accepted. -/
example : LoopInv exEnv (convexifyAndSend (init defaultParams exEnv)) ∧
    ¬ TooLittle defaultParams exEnv (convexifyAndSend (init defaultParams exEnv)) [1, 0] ∧
    ¬ Poor defaultParams exEnv (convexifyAndSend (init defaultParams exEnv)) [1, 0] := by
  have h := init_consistent defaultParams exEnv rfl
  refine ⟨⟨⟨h.vars, h.costs, h.viols, h.merit, h.pbox, h.pcoeffs, h.trace⟩, h.vars, h.pbox⟩, ?_, ?_⟩
  · unfold TooLittle; decide +kernel
  · unfold Poor; decide +kernel

end Verif.Sqp
