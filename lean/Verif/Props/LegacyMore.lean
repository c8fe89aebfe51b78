import Verif.Props.Legacy

/-!
C89 (what the legacy optimizer does with the answer of a QP), C90 (penalty coefficients of the legacy optimizer) and C91
(time and iteration limits of the legacy optimizer), for `BasicTrustRegionSQP`.
-/

set_option linter.unusedSectionVars false
set_option linter.unusedVariables false

namespace Verif.Legacy
open Verif.Sqp (dot)

universe u
variable {K : Type u} [Field K] [LinearOrder K] [IsStrictOrderedRing K]

/-! ### C89 -/

/-- Specification: improvement of the merit promised by the convex model for the answer `y` of the `k`-th QP. -/
def predicted (e : Env K) (s : St K) (k : ℕ) (y : List K) : K :=
  exactMerit e s.coeffs s.x - modelMerit e s.coeffs k y

/-- Specification: true improvement of the merit by the answer `y`. -/
def actual (e : Env K) (s : St K) (y : List K) : K :=
  exactMerit e s.coeffs s.x - exactMerit e s.coeffs (y.take s.x.length)

/-- Specification: IEEE comparison of a quotient with a number. -/
def QuotLt (a b c : K) : Prop := (b = 0 ∧ a < 0) ∨ (b ≠ 0 ∧ a / b < c)

/-- Specification: the model promises too little to go on. -/
def TooLittle (p : Params K) (e : Env K) (s : St K) (y : List K) : Prop :=
  predicted e s s.nQpSolves y < p.minApproxImprove ∨
    QuotLt (predicted e s s.nQpSolves y) (exactMerit e s.coeffs s.x) p.minApproxImproveFrac

/-- Specification: the step is worse, or improves less than the required share of the promise. -/
def Poor (p : Params K) (e : Env K) (s : St K) (y : List K) : Prop :=
  actual e s y < 0 ∨ QuotLt (actual e s y) (predicted e s s.nQpSolves y) p.improveRatioThreshold

theorem divLt_iff (a b c : K) : divLt a b c = true ↔ QuotLt a b c := by
  unfold divLt QuotLt
  split_ifs with h <;> simp [h]

/-- C89: the complete decision table of one pass through the trust-region loop, for every answer of the QP solver. -/
theorem C89_decision (p : Params K) (e : Env K) (s : St K) (f : ℤ) (h : Cons e s) :
    (e.qp s.nQpSolves s.x s.box = none →
      (f + 1 < p.maxQpSolverFailures → ∃ s', trBody p e s f = .cont s' (f + 1) ∧ Unchanged s s' ∧
        s'.box = s.box * p.trustShrinkRatio) ∧
      (f + 1 = p.maxQpSolverFailures → ∃ s', trBody p e s f = .cont s' (f + 1) ∧ Unchanged s s' ∧
        s'.box = p.minTrustBoxSize) ∧
      (p.maxQpSolverFailures < f + 1 → ∃ s', trBody p e s f = .failed s' ∧ Unchanged s s' ∧ s'.box = s.box)) ∧
    ∀ y, e.qp s.nQpSolves s.x s.box = some y →
      (TooLittle p e s y → ∃ s', trBody p e s f = .penalty s' ∧ Unchanged s s' ∧ s'.box = s.box) ∧
      (¬ TooLittle p e s y → Poor p e s y → ∃ s', trBody p e s f = .cont s' f ∧ Unchanged s s' ∧
        s'.box = s.box * p.trustShrinkRatio) ∧
      (¬ TooLittle p e s y → ¬ Poor p e s y → ∃ s', trBody p e s f = .exit s' ∧ s'.x = y.take s.x.length ∧
        s'.costVals = e.exactCosts (y.take s.x.length) ∧ s'.cntViols = e.exactViols (y.take s.x.length) ∧
        s'.coeffs = s.coeffs ∧ s'.box = s.box * p.trustExpandRatio) := by
  have hold : s.costVals.sum + dot s.cntViols s.coeffs = exactMerit e s.coeffs s.x := by rw [h.1, h.2]; rfl
  refine ⟨fun hq => ?_, fun y hq => ?_⟩
  · unfold trBody
    simp only [hq]
    refine ⟨fun hf => ?_, fun hf => ?_, fun hf => ?_⟩
    · rw [if_pos (by omega)]
      exact ⟨_, rfl, ⟨rfl, rfl, rfl, rfl⟩, rfl⟩
    · rw [if_neg (by omega), if_pos (by omega)]
      exact ⟨_, rfl, ⟨rfl, rfl, rfl, rfl⟩, rfl⟩
    · rw [if_neg (by omega), if_neg (by omega)]
      exact ⟨_, rfl, ⟨rfl, rfl, rfl, rfl⟩, rfl⟩
  · have hbody : trBody p e s f = (
        if predicted e s s.nQpSolves y < p.minApproxImprove then
          .penalty { s with nQpSolves := s.nQpSolves + 1, nFuncEvals := s.nFuncEvals + 1 }
        else if divLt (predicted e s s.nQpSolves y) (exactMerit e s.coeffs s.x) p.minApproxImproveFrac then
          .penalty { s with nQpSolves := s.nQpSolves + 1, nFuncEvals := s.nFuncEvals + 1 }
        else if actual e s y < 0 ∨
            divLt (actual e s y) (predicted e s s.nQpSolves y) p.improveRatioThreshold = true then
          .cont { s with nQpSolves := s.nQpSolves + 1, nFuncEvals := s.nFuncEvals + 1
                         box := s.box * p.trustShrinkRatio } f
        else .exit { s with nQpSolves := s.nQpSolves + 1, nFuncEvals := s.nFuncEvals + 1
                            x := y.take s.x.length, costVals := e.exactCosts (y.take s.x.length)
                            cntViols := e.exactViols (y.take s.x.length), box := s.box * p.trustExpandRatio }) := by
      unfold trBody
      simp only [hq, iterUpdate, hold]
      rfl
    refine ⟨fun ht => ?_, fun ht hp => ?_, fun ht hp => ?_⟩
    · by_cases c : predicted e s s.nQpSolves y < p.minApproxImprove
      · rw [if_pos c] at hbody
        exact ⟨_, hbody, ⟨rfl, rfl, rfl, rfl⟩, rfl⟩
      · rw [if_neg c, if_pos ((divLt_iff _ _ _).2 (ht.resolve_left c))] at hbody
        exact ⟨_, hbody, ⟨rfl, rfl, rfl, rfl⟩, rfl⟩
    · rw [if_neg fun c => ht (.inl c), if_neg fun c => ht (.inr ((divLt_iff _ _ _).1 c)),
        if_pos (show actual e s y < 0 ∨ _ from hp.imp id (divLt_iff _ _ _).2)] at hbody
      exact ⟨_, hbody, ⟨rfl, rfl, rfl, rfl⟩, rfl⟩
    · rw [if_neg fun c => ht (.inl c), if_neg fun c => ht (.inr ((divLt_iff _ _ _).1 c)),
        if_neg (show ¬ (actual e s y < 0 ∨ _) from fun c => hp (c.imp id (divLt_iff _ _ _).1))] at hbody
      exact ⟨_, hbody, rfl, rfl, rfl, rfl, rfl⟩

/-! ### C90 -/

/-- Specification: the coefficients after the adjustment, constraint by constraint. -/
def Raised (p : Params K) (viols old new : List K) : Prop :=
  new.length = old.length ∧ ∀ (i : ℕ) (v c : K), viols[i]? = some v → old[i]? = some c →
    new[i]? = some (if p.inflateIndividually = true ∧ ¬ p.cntTolerance < v then c else c * p.meritCoeffIncreaseRatio)

theorem inflate_raised (p : Params K) (s : St K) (hl : s.cntViols.length = s.coeffs.length) :
    Raised p s.cntViols s.coeffs (inflate p s) := by
  unfold inflate
  split_ifs with h
  · refine ⟨by simp [hl], ?_⟩
    intro i v c hv hc
    rw [List.getElem?_zipWith, hv, hc]
    by_cases hlt : p.cntTolerance < v <;> simp [h, hlt]
  · refine ⟨by simp, ?_⟩
    intro i v c hv hc
    rw [List.getElem?_map, hc]
    simp [h]

/-- C90: a round that ends with some violation not below the tolerance is followed by a round (if one is left) that starts
at the same point, with the coefficients raised constraint by constraint, and with a trust region large enough to be
entered. -/
theorem C90_next_round (p : Params K) (e : Env K) (fuel m : ℕ) (s t : St K) (hs : Cons e s ∨ Fresh s)
    (hlen : ∀ x, (e.exactViols x).length = e.nCnts) (hco : s.coeffs.length = e.nCnts)
    (hr : sqpLoop p e fuel fuel 1 s = some (.penalty t)) (v : K) (hv : v ∈ e.exactViols t.x) (hvt : p.cntTolerance ≤ v) :
    ∃ t', meritLoop p e fuel (m + 1) s = meritLoop p e fuel m t' ∧ t'.x = t.x ∧ Cons e t' ∧
      Raised p (e.exactViols t.x) s.coeffs t'.coeffs ∧
      (0 < p.minTrustBoxSize → 0 < p.trustShrinkRatio → p.trustShrinkRatio ≤ 3 / 2 → p.minTrustBoxSize ≤ t'.box) ∧
      t.box ≤ t'.box := by
  obtain ⟨hc, hn⟩ := (sqpLoop_spec p e fuel fuel 1 s _ hs hr).1 t rfl
  have hns : ¬ satisfied p t.cntViols = true := by
    rw [satisfied_iff]
    intro hall
    exact absurd (hall v (by rw [hc.2]; exact hv)) (not_lt.2 hvt)
  refine ⟨nextRound p t, ?_, rfl, hc, ?_, ?_, le_max_left _ _⟩
  · conv_lhs => unfold meritLoop
    rw [hr]
    simp only [hns]
    rfl
  · have := inflate_raised p t (by rw [hc.2, hlen, hn.1, hco])
    rw [hc.2, hn.1] at this
    exact this
  · intro h1 h2 h3
    refine le_trans ?_ (le_max_right _ _)
    rw [div_mul_eq_mul_div, le_div_iff₀ h2]
    exact mul_le_mul_of_nonneg_left h3 h1.le

theorem meritLoop_coeffs (p : Params K) (e : Env K) (fuel m : ℕ) (s : St K) (r : Status) (t : St K)
    (hs : Cons e s ∨ Fresh s) (hlen : ∀ x, (e.exactViols x).length = e.nCnts) (hco : s.coeffs.length = e.nCnts)
    (hr : meritLoop p e fuel m s = some (r, t)) :
    ∃ n ≤ m, (r = .penaltyIterationLimit → n = m) ∧ t.coeffs.length = e.nCnts ∧
      (∀ (i : ℕ) (c : K), s.coeffs[i]? = some c → ∃ k ≤ n, t.coeffs[i]? = some (c * p.meritCoeffIncreaseRatio ^ k) ∧
        (p.inflateIndividually = false → k = n)) := by
  induction m generalizing s with
  | zero =>
    simp only [meritLoop, Option.some.injEq, Prod.mk.injEq] at hr
    obtain ⟨rfl, rfl⟩ := hr
    exact ⟨0, le_refl _, fun _ => rfl, hco, fun i c hc => ⟨0, le_refl _, by simpa using hc, fun _ => rfl⟩⟩
  | succ m ih =>
    unfold meritLoop at hr
    cases hq : sqpLoop p e fuel fuel 1 s with
    | none => rw [hq] at hr; cases hr
    | some o =>
      rw [hq] at hr
      obtain ⟨i1, i2⟩ := sqpLoop_spec p e fuel fuel 1 s o hs hq
      cases o with
      | cleanup r' t' =>
        simp only [Option.some.injEq, Prod.mk.injEq] at hr
        obtain ⟨rfl, rfl⟩ := hr
        have hcc : t'.coeffs = s.coeffs ∧ r' ≠ .penaltyIterationLimit := by
          rcases i2 _ _ rfl with ⟨_, _, j3, j4, _⟩ | ⟨_, j2, _, _, _, j6⟩
          · exact ⟨j3.1, j4⟩
          · exact ⟨j6, by rw [j2]; simp⟩
        refine ⟨0, Nat.zero_le _, fun hc => absurd hc hcc.2, by rw [hcc.1, hco], fun i c hc => ⟨0, le_refl _, ?_, fun _ => rfl⟩⟩
        rw [hcc.1]; simpa using hc
      | penalty t' =>
        simp only at hr
        obtain ⟨hc, hn⟩ := i1 _ rfl
        split_ifs at hr with c
        · simp only [Option.some.injEq, Prod.mk.injEq] at hr
          obtain ⟨rfl, rfl⟩ := hr
          refine ⟨0, Nat.zero_le _, by simp, by rw [hn.1, hco], fun i c hc => ⟨0, le_refl _, ?_, fun _ => rfl⟩⟩
          rw [hn.1]; simpa using hc
        · have hra : Raised p t'.cntViols t'.coeffs (inflate p t') :=
            inflate_raised p t' (by rw [hc.2, hlen, hn.1, hco])
          have hco' : (nextRound p t').coeffs.length = e.nCnts := by
            change (inflate p t').length = _
            rw [hra.1, hn.1, hco]
          obtain ⟨n, hnm, h1, h2, h3⟩ := ih (nextRound p t') (.inl hc) hco' hr
          refine ⟨n + 1, by omega, fun h => by rw [h1 h], h2, fun i c hi => ?_⟩
          have hil : i < e.nCnts := by
            rw [← hco]; exact (List.getElem?_eq_some_iff.1 hi).1
          have hvl : i < t'.cntViols.length := by rw [hc.2, hlen]; exact hil
          have hnew := hra.2 i t'.cntViols[i] c (List.getElem?_eq_getElem hvl) (by rw [hn.1]; exact hi)
          by_cases hb : p.inflateIndividually = true ∧ ¬ p.cntTolerance < t'.cntViols[i]
          · rw [if_pos hb] at hnew
            obtain ⟨k, hk, h4, h5⟩ := h3 i c hnew
            exact ⟨k, by omega, h4, fun hf => by rw [hb.1] at hf; cases hf⟩
          · rw [if_neg hb] at hnew
            obtain ⟨k, hk, h4, h5⟩ := h3 i _ hnew
            refine ⟨k + 1, by omega, ?_, fun hf => by rw [h5 hf]⟩
            rw [h4, pow_succ]; congr 1; ring

/-- C90: whatever happens in a run, the coefficient of every constraint at the end is `initial_merit_error_coeff` times a
power of `merit_coeff_increase_ratio` whose exponent is at most the number of adjustments `n` (exactly `n` when the
coefficients are not raised individually), where `n` is at most `max_merit_coeff_increases` and equal to it when the
penalty limit is reported. -/
theorem C90_coefficients (p : Params K) (e : Env K) (fuel : ℕ) (x0 : List K) (box : K) (r : Result K)
    (hlen : ∀ x, (e.exactViols x).length = e.nCnts)
    (hr : optimize p e fuel (initialState x0 box) = some r) :
    ∃ n ≤ p.maxMeritCoeffIncreases, (r.status = .penaltyIterationLimit → n = p.maxMeritCoeffIncreases) ∧
      r.st.coeffs.length = e.nCnts ∧
      ∀ i < e.nCnts, ∃ k ≤ n, r.st.coeffs[i]? = some (p.initialMeritErrorCoeff * p.meritCoeffIncreaseRatio ^ k) ∧
        (p.inflateIndividually = false → k = n) := by
  unfold optimize at hr
  simp only at hr
  split at hr
  · cases hr
  · rename_i st s hm
    simp only [Option.some.injEq] at hr; subst hr
    obtain ⟨n, h1, h2, h3, h4⟩ := meritLoop_coeffs p e fuel _ _ _ _ (Or.inr ⟨rfl, rfl⟩) hlen (by simp) hm
    refine ⟨n, h1, h2, h3, fun i hi => h4 i _ ?_⟩
    simp [List.getElem?_replicate, hi]

/-! ### C91 -/

/-- Specification: every clock reading so far was within the limit. -/
def InTime (p : Params K) (e : Env K) (n : ℕ) : Prop := ∀ k < n, e.clock k ≤ p.maxTime

theorem InTime.succ {p : Params K} {e : Env K} {n : ℕ} (h : InTime p e n) (hn : ¬ p.maxTime < e.clock n) :
    InTime p e (n + 1) := by
  intro j hj
  rcases Nat.lt_succ_iff_lt_or_eq.1 hj with hj | rfl
  · exact h j hj
  · exact not_lt.1 hn

theorem evalIfNeeded_clock (e : Env K) (s : St K) : (evalIfNeeded e s).clockReads = s.clockReads := by
  unfold evalIfNeeded; split_ifs <;> rfl

theorem sqpLoop_clock (p : Params K) (e : Env K) (fuel n : ℕ) (iter : ℤ) (s : St K) (o : SqpOut K)
    (hs : Cons e s ∨ Fresh s) (ht : InTime p e s.clockReads) (hr : sqpLoop p e fuel n iter s = some o) :
    (∀ t, o = .penalty t → InTime p e t.clockReads ∧ s.clockReads ≤ t.clockReads ∧
      (t.clockReads : ℤ) ≤ s.clockReads + max 1 (p.maxIter - iter + 1)) ∧
    (∀ r t, o = .cleanup r t →
      (t.clockReads : ℤ) ≤ s.clockReads + max 1 (p.maxIter - iter + 1) ∧
      ((InTime p e t.clockReads ∧ r ≠ .timeLimit) ∨
       ((r = .timeLimit ∨ r = .converged) ∧ ∃ k, t.clockReads = k + 1 ∧ InTime p e k ∧ p.maxTime < e.clock k)) ∧
      (r = .scoIterationLimit → max 1 (p.maxIter - iter + 1) = t.clockReads - s.clockReads ∧
        ∃ v ∈ t.cntViols, p.cntTolerance ≤ v)) := by
  induction n generalizing iter s with
  | zero => simp [sqpLoop] at hr
  | succ n ih =>
    unfold sqpLoop at hr
    simp only at hr
    by_cases c1 : p.maxTime < e.clock s.clockReads
    · simp only [c1, if_true, Option.some.injEq] at hr; subst hr
      refine ⟨by simp, ?_⟩
      intro r t heq
      simp only [SqpOut.cleanup.injEq] at heq
      obtain ⟨rfl, rfl⟩ := heq
      refine ⟨?_, .inr ⟨?_, s.clockReads, rfl, ht, c1⟩, ?_⟩
      · push_cast
        have := le_max_left (1 : ℤ) (p.maxIter - iter + 1)
        omega
      · split_ifs <;> simp
      · split_ifs <;> simp
    · simp only [c1, if_false] at hr
      have ht' := ht.succ c1
      obtain ⟨e1, -, -, -, -⟩ := eval_cons e { s with clockReads := s.clockReads + 1 } hs
      have hcl := evalIfNeeded_clock e { s with clockReads := s.clockReads + 1 }
      set s1 := evalIfNeeded e { s with clockReads := s.clockReads + 1 } with hs1
      have hcl' : s1.clockReads = s.clockReads + 1 := hcl
      cases htr : trLoop p e fuel s1 0 with
      | none => rw [htr] at hr; cases hr
      | some o' =>
        rw [htr] at hr
        obtain ⟨t1, t2, t3⟩ := trLoop_spec p e fuel s1 0 o' e1 htr
        have hb := le_max_left (1 : ℤ) (p.maxIter - iter + 1)
        have t2' : o'.st.clockReads = s.clockReads + 1 := by rw [← hcl']; exact t2
        cases o' with
        | cont t f => cases hr
        | penalty t =>
          simp only [Option.some.injEq] at hr; subst hr
          refine ⟨?_, by simp⟩
          intro t' heq; cases heq
          have t2'' : t.clockReads = s.clockReads + 1 := t2'
          rw [t2'']
          exact ⟨ht', by omega, by push_cast; omega⟩
        | failed t =>
          simp only [Option.some.injEq] at hr; subst hr
          refine ⟨by simp, ?_⟩
          intro r t' heq; cases heq
          have t2'' : t.clockReads = s.clockReads + 1 := t2'
          rw [t2'']
          exact ⟨by push_cast; omega, .inl ⟨ht', by simp⟩, by simp⟩
        | exit t =>
          have t2'' : t.clockReads = s.clockReads + 1 := t2'
          simp only at hr
          split_ifs at hr with c2 c3 c4
          · simp only [Option.some.injEq] at hr; subst hr
            refine ⟨?_, by simp⟩
            intro t' heq; cases heq
            rw [t2'']
            exact ⟨ht', by omega, by push_cast; omega⟩
          · simp only [Option.some.injEq] at hr; subst hr
            refine ⟨by simp, ?_⟩
            intro r t' heq; cases heq
            rw [t2'']
            exact ⟨by push_cast; omega, .inl ⟨ht', by simp⟩, by simp⟩
          · simp only [Option.some.injEq] at hr; subst hr
            refine ⟨by simp, ?_⟩
            intro r t' heq; cases heq
            rw [t2'']
            refine ⟨by push_cast; omega, .inl ⟨ht', by simp⟩, fun _ => ⟨?_, ?_⟩⟩
            · rw [max_eq_left (by omega)]; push_cast; omega
            · rw [satisfied_iff] at c4
              push Not at c4
              exact c4
          · obtain ⟨i1, i2⟩ := ih (iter + 1) t (.inl t1) (by rw [t2'']; exact ht') hr
            have hmx : max 1 (p.maxIter - (iter + 1) + 1) = p.maxIter - iter := by
              rw [max_eq_right (by omega)]; ring
            have hmx' : max 1 (p.maxIter - iter + 1) = p.maxIter - iter + 1 := max_eq_right (by omega)
            rw [hmx, t2''] at i1 i2
            rw [hmx']
            push_cast at i1 i2
            refine ⟨fun w hw => ⟨(i1 w hw).1, by have := (i1 w hw).2; omega, by have := (i1 w hw).2; omega⟩, fun r w hw => ?_⟩
            obtain ⟨j1, j2, j3⟩ := i2 r w hw
            refine ⟨by omega, j2, fun h => ⟨?_, (j3 h).2⟩⟩
            have := (j3 h).1
            omega

theorem meritLoop_clock (p : Params K) (e : Env K) (fuel m : ℕ) (s : St K) (r : Status) (t : St K)
    (hs : Cons e s ∨ Fresh s) (ht : InTime p e s.clockReads) (hr : meritLoop p e fuel m s = some (r, t)) :
    (t.clockReads : ℤ) ≤ s.clockReads + m * max 1 p.maxIter ∧
    ((InTime p e t.clockReads ∧ r ≠ .timeLimit) ∨
       ((r = .timeLimit ∨ r = .converged) ∧ ∃ k, t.clockReads = k + 1 ∧ InTime p e k ∧ p.maxTime < e.clock k)) ∧
    (r = .scoIterationLimit → max 1 p.maxIter ≤ t.clockReads - s.clockReads ∧ ∃ v ∈ t.cntViols, p.cntTolerance ≤ v) := by
  induction m generalizing s with
  | zero =>
    simp only [meritLoop, Option.some.injEq, Prod.mk.injEq] at hr
    obtain ⟨rfl, rfl⟩ := hr
    exact ⟨by simp, .inl ⟨ht, by simp⟩, by simp⟩
  | succ m ih =>
    unfold meritLoop at hr
    cases hq : sqpLoop p e fuel fuel 1 s with
    | none => rw [hq] at hr; cases hr
    | some o =>
      rw [hq] at hr
      obtain ⟨i1, i2⟩ := sqpLoop_spec p e fuel fuel 1 s o hs hq
      obtain ⟨k1, k2⟩ := sqpLoop_clock p e fuel fuel 1 s o hs ht hq
      have hmx : p.maxIter - 1 + 1 = p.maxIter := by ring
      rw [hmx] at k1 k2
      have hpos := le_max_left (1 : ℤ) p.maxIter
      have hmul : (0 : ℤ) ≤ m * max 1 p.maxIter := mul_nonneg (by positivity) (by omega)
      have hex : ((m + 1 : ℕ) : ℤ) * max 1 p.maxIter = m * max 1 p.maxIter + max 1 p.maxIter := by push_cast; ring
      rw [hex]
      cases o with
      | cleanup r' t' =>
        simp only [Option.some.injEq, Prod.mk.injEq] at hr
        obtain ⟨rfl, rfl⟩ := hr
        obtain ⟨j1, j2, j3⟩ := k2 _ _ rfl
        exact ⟨by omega, j2, fun h => ⟨(j3 h).1.le, (j3 h).2⟩⟩
      | penalty t' =>
        simp only at hr
        obtain ⟨hc, hn⟩ := i1 _ rfl
        obtain ⟨j1, j0, j2⟩ := k1 _ rfl
        split_ifs at hr with c
        · simp only [Option.some.injEq, Prod.mk.injEq] at hr
          obtain ⟨rfl, rfl⟩ := hr
          exact ⟨by omega, .inl ⟨j1, by simp⟩, by simp⟩
        · obtain ⟨l1, l2, l3⟩ := ih (nextRound p t') (.inl hc) j1 hr
          have hcl : (nextRound p t').clockReads = t'.clockReads := rfl
          rw [hcl] at l1 l3
          refine ⟨by omega, l2, fun h => ⟨?_, (l3 h).2⟩⟩
          have h0 : (s.clockReads : ℤ) ≤ t'.clockReads := by exact_mod_cast j0
          have := (l3 h).1
          omega

/-- C91: every clock reading but the last was within `max_time`, so the run ends with the first reading beyond it.  A run
that read a time beyond the limit reports `OPT_TIME_LIMIT` or `OPT_CONVERGED`, and `OPT_TIME_LIMIT` is reported only after
such a reading. -/
theorem C91_time_limit (p : Params K) (e : Env K) (fuel : ℕ) (x0 : List K) (box : K) (r : Result K)
    (hr : optimize p e fuel (initialState x0 box) = some r) :
    (∀ k, k + 1 < r.st.clockReads → e.clock k ≤ p.maxTime) ∧
    (∀ k < r.st.clockReads, p.maxTime < e.clock k →
      k + 1 = r.st.clockReads ∧ (r.status = .timeLimit ∨ r.status = .converged)) ∧
    (r.status = .timeLimit → ∃ k, k + 1 = r.st.clockReads ∧ p.maxTime < e.clock k) := by
  unfold optimize at hr
  simp only at hr
  split at hr
  · cases hr
  · rename_i st s hm
    simp only [Option.some.injEq] at hr; subst hr
    obtain ⟨-, h, -⟩ := meritLoop_clock p e fuel _ _ _ _ (Or.inr ⟨rfl, rfl⟩) (by intro k hk; simp at hk) hm
    rcases h with ⟨h4, h5⟩ | ⟨h4, n, h5, h6, h7⟩
    · exact ⟨fun k hk => h4 k (by simp only at hk; omega), fun k hk hc => absurd hc (not_lt.2 (h4 k hk)),
        fun hc => absurd hc h5⟩
    · simp only
      rw [h5]
      refine ⟨fun k hk => h6 k (by omega), ?_, fun _ => ⟨n, rfl, h7⟩⟩
      intro k hk hc
      have hkn : k = n := by
        by_contra hne
        exact absurd hc (not_lt.2 (h6 k (by omega)))
      exact ⟨by rw [hkn], h4⟩

/-- C91: the number of SQP iterations of a run (each begins with one clock reading) is at most
`max_merit_coeff_increases * max(1, max_iter)`, and `OPT_SCO_ITERATION_LIMIT` is reported only after at least
`max(1, max_iter)` iterations, with a violation at the returned point that is not below the tolerance. -/
theorem C91_iteration_limit (p : Params K) (e : Env K) (fuel : ℕ) (x0 : List K) (box : K) (r : Result K)
    (hclock : e.clock 0 ≤ p.maxTime) (hm : 0 < p.maxMeritCoeffIncreases)
    (hr : optimize p e fuel (initialState x0 box) = some r) :
    (r.st.clockReads : ℤ) ≤ p.maxMeritCoeffIncreases * max 1 p.maxIter ∧
    (r.status = .scoIterationLimit →
      max 1 p.maxIter ≤ r.st.clockReads ∧ ∃ v ∈ e.exactViols r.st.x, p.cntTolerance ≤ v) := by
  have hc := (C19_results_belong_to_point p e fuel x0 box r hclock hm hr).2.1
  unfold optimize at hr
  simp only at hr
  split at hr
  · cases hr
  · rename_i st s hml
    simp only [Option.some.injEq] at hr; subst hr
    obtain ⟨h1, -, h3⟩ := meritLoop_clock p e fuel _ _ _ _ (Or.inr ⟨rfl, rfl⟩) (by intro k hk; simp at hk) hml
    simp only [Nat.cast_zero, zero_add, sub_zero] at h1 h3
    refine ⟨h1, fun h => ⟨(h3 h).1, ?_⟩⟩
    rw [← hc]
    exact (h3 h).2

/-! ### Non-vacuity -/

/-- the QP answers always `x = 3`, where the violation is 2: all penalty rounds are used -/
example : ((optimize { defaultParams with inflateIndividually := false }
      { exEnv with qp := fun _ _ _ => some [3, 0] } 60 (initialState [3] (1/10))).map
    fun r => (r.status, r.st.coeffs, r.st.clockReads)) = some (.penaltyIterationLimit, [1000000], 5) := by decide +kernel

/-- time limit reached at the third reading with a violated constraint -/
example : ((optimize { defaultParams with inflateIndividually := false }
      { exEnv with qp := fun _ _ _ => some [3, 0], clock := fun k => if k < 2 then 0 else 1001 } 60
      (initialState [3] (1/10))).map
    fun r => (r.status, r.st.coeffs, r.st.clockReads)) = some (.timeLimit, [1000], 3) := by decide +kernel

/-- iteration limit: every step is accepted but the violation stays at least the tolerance -/
example : ((optimize { defaultParams with maxIter := 2 }
      { exEnv with qp := fun k _ _ => some [2 + 1 / (2 + k), 0] } 60 (initialState [3] (1/10))).map
    fun r => (r.status, r.st.coeffs, r.st.clockReads)) = some (.scoIterationLimit, [10], 2) := by decide +kernel

/-- an environment that meets the length hypothesis of C90 -/
example : (∀ x, (({ exEnv with exactViols := fun x => [|x.headD 0 - 1|] } : Env ℚ).exactViols x).length = 1) ∧
    ((optimize defaultParams { exEnv with exactViols := fun x => [|x.headD 0 - 1|], qp := fun _ _ _ => some [3, 0] } 60
      (initialState [3] (1/10))).map fun r => (r.status, r.st.coeffs)) = some (.penaltyIterationLimit, [1000000]) :=
  ⟨fun _ => rfl, by decide +kernel⟩

/-- a round that ends with a violation above the tolerance (hypotheses of C90_next_round) -/
example : (match sqpLoop defaultParams { exEnv with qp := fun _ _ _ => some [3, 0] } 60 60 1
      { initialState [3] (1/10) with coeffs := [10] } with
    | some (.penalty t) => some (t.x, exEnv.exactViols t.x)
    | _ => none) = some ([3], [2]) := by decide +kernel

example : Cons exEnv { initialState [3] (1/10 : ℚ) with costVals := [9], cntViols := [2], coeffs := [10] } := by
  constructor <;> decide +kernel

end Verif.Legacy
