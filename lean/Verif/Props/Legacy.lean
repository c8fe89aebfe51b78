import Verif.Model.Legacy
import Mathlib.Tactic.Ring
import Mathlib.Tactic.Linarith
import Mathlib.Tactic.NormNum
import Mathlib.Tactic.FieldSimp
import Mathlib.Tactic.Positivity
import Mathlib.Algebra.Order.Archimedean.Basic

/-!
C17-C20 (`BasicTrustRegionSQP::optimize`), for every problem, convex-solver behaviour and clock.
-/

set_option linter.unusedSectionVars false
set_option linter.unusedVariables false

namespace Verif.Legacy

open Verif.Sqp (dot maxCoeff)

universe u
variable {K : Type u} [Field K] [LinearOrder K] [IsStrictOrderedRing K]

/-! ### Specification -/

/-- Specification: exact merit of a point. -/
def exactMerit (e : Env K) (μ x : List K) : K :=
  (e.exactCosts x).sum + (List.zipWith (· * ·) (e.exactViols x) μ).sum

/-- Specification: merit of the convex model at the answer `y` of the `k`-th QP. -/
def modelMerit (e : Env K) (μ : List K) (k : ℕ) (y : List K) : K :=
  (e.modelCosts k y).sum + (List.zipWith (· * ·) (e.modelViols k y) μ).sum

/-- Specification: the stored cost and violation vectors are those of the stored point. -/
def Cons (e : Env K) (s : St K) : Prop := s.costVals = e.exactCosts s.x ∧ s.cntViols = e.exactViols s.x

/-- Nothing has been evaluated yet (state after `initialize`). -/
def Fresh (s : St K) : Prop := s.costVals = [] ∧ s.cntViols = []

/-- Specification: the point, its values and the merit coefficients are unchanged. -/
def Unchanged (s s' : St K) : Prop :=
  s'.x = s.x ∧ s'.costVals = s.costVals ∧ s'.cntViols = s.cntViols ∧ s'.coeffs = s.coeffs

/-- Specification: the point was replaced by the answer of a QP whose predicted improvement is at least
`min_approx_improve` and whose exact improvement is non-negative and at least the threshold times the prediction. -/
def Accepted (p : Params K) (e : Env K) (s s' : St K) : Prop :=
  ∃ k y, e.qp k s.x s.box = some y ∧ s'.x = y.take s.x.length ∧ s'.coeffs = s.coeffs ∧
    p.minApproxImprove ≤ exactMerit e s.coeffs s.x - modelMerit e s.coeffs k y ∧
    exactMerit e s.coeffs s'.x ≤ exactMerit e s.coeffs s.x ∧
    (0 < p.minApproxImprove →
      exactMerit e s.coeffs s'.x ≤ exactMerit e s.coeffs s.x -
        p.improveRatioThreshold * (exactMerit e s.coeffs s.x - modelMerit e s.coeffs k y))

def TrOut.st : TrOut K → St K
  | .cont s _ => s
  | .penalty s => s
  | .failed s => s
  | .exit s => s

/-! ### Helper lemmas -/

theorem satisfied_iff (p : Params K) (l : List K) :
    satisfied p l = true ↔ ∀ v ∈ l, v < p.cntTolerance := by
  cases l with
  | nil => simp [satisfied]
  | cons v vs =>
    change decide (vs.foldl max v < p.cntTolerance) = true ↔ _
    rw [decide_eq_true_iff]
    have hge : ∀ (l : List K) (a : K), a ≤ l.foldl max a ∧ ∀ v ∈ l, v ≤ l.foldl max a := by
      intro l
      induction l with
      | nil => intro a; simp
      | cons b l ih =>
        intro a
        obtain ⟨h1, h2⟩ := ih (max a b)
        simp only [List.foldl_cons, List.mem_cons, forall_eq_or_imp]
        exact ⟨(le_max_left _ _).trans h1, (le_max_right _ _).trans h1, h2⟩
    have hlt : ∀ (l : List K) (a : K), a < p.cntTolerance → (∀ w ∈ l, w < p.cntTolerance) →
        l.foldl max a < p.cntTolerance := by
      intro l
      induction l with
      | nil => intro a ha _; simpa using ha
      | cons b l ih =>
        intro a ha hl
        simp only [List.foldl_cons]
        exact ih _ (max_lt ha (hl b (by simp))) (fun w hw => hl w (by simp [hw]))
    constructor
    · intro h w hw
      rcases List.mem_cons.mp hw with rfl | hw
      · exact (hge vs w).1.trans_lt h
      · exact ((hge vs v).2 w hw).trans_lt h
    · intro h
      exact hlt vs v (h v (by simp)) (fun w hw => h w (by simp [hw]))

theorem trBody_spec (p : Params K) (e : Env K) (s : St K) (f : ℤ) (h : Cons e s) :
    Cons e (trBody p e s f).st ∧ (trBody p e s f).st.nQpSolves = s.nQpSolves + 1 ∧
    (trBody p e s f).st.clockReads = s.clockReads ∧
    (Unchanged s (trBody p e s f).st ∨ (∃ t, trBody p e s f = .exit t ∧ Accepted p e s t)) ∧
    (∀ s' f', trBody p e s f = .cont s' f' →
      ((f' = f ∧ s'.box = s.box * p.trustShrinkRatio) ∨
       (f' = f + 1 ∧ f' < p.maxQpSolverFailures ∧ s'.box = s.box * p.trustShrinkRatio) ∨
       (f' = f + 1 ∧ f' = p.maxQpSolverFailures ∧ s'.box = p.minTrustBoxSize))) := by
  unfold trBody
  simp only
  cases hq : e.qp s.nQpSolves s.x s.box with
  | none =>
    simp only
    split_ifs with c1 c2
    · refine ⟨h, rfl, rfl, Or.inl ⟨rfl, rfl, rfl, rfl⟩, ?_⟩
      intro s' f' heq; cases heq
      exact Or.inr (Or.inl ⟨rfl, by omega, rfl⟩)
    · refine ⟨h, rfl, rfl, Or.inl ⟨rfl, rfl, rfl, rfl⟩, ?_⟩
      intro s' f' heq; cases heq
      exact Or.inr (Or.inr ⟨rfl, by omega, rfl⟩)
    · refine ⟨h, rfl, rfl, Or.inl ⟨rfl, rfl, rfl, rfl⟩, ?_⟩
      intro s' f' heq; cases heq
  | some y =>
    simp only
    have hold : s.costVals.sum + dot s.cntViols s.coeffs = exactMerit e s.coeffs s.x := by
      rw [h.1, h.2]; rfl
    split_ifs with c1 c2 c3
    · refine ⟨h, rfl, rfl, Or.inl ⟨rfl, rfl, rfl, rfl⟩, ?_⟩
      intro s' f' heq; cases heq
    · refine ⟨h, rfl, rfl, Or.inl ⟨rfl, rfl, rfl, rfl⟩, ?_⟩
      intro s' f' heq; cases heq
    · refine ⟨h, rfl, rfl, Or.inl ⟨rfl, rfl, rfl, rfl⟩, ?_⟩
      intro s' f' heq; cases heq
      exact Or.inl ⟨rfl, rfl⟩
    · refine ⟨⟨rfl, rfl⟩, rfl, rfl, Or.inr ⟨_, rfl, s.nQpSolves, y, hq, rfl, rfl, ?_, ?_, ?_⟩, ?_⟩
      · simp only [iterUpdate, hold] at c1
        exact not_lt.mp c1
      · push Not at c3
        have := c3.1
        simp only [iterUpdate, hold] at this
        exact sub_nonneg.mp this
      · intro hpos
        push Not at c3
        obtain ⟨c3a, c3b⟩ := c3
        simp only [iterUpdate, hold] at c1 c3a c3b ⊢
        have happ : 0 < exactMerit e s.coeffs s.x - modelMerit e s.coeffs s.nQpSolves y :=
          lt_of_lt_of_le hpos (not_lt.mp c1)
        unfold divLt at c3b
        have hne : (exactMerit e s.coeffs s.x -
            ((e.modelCosts s.nQpSolves y).sum + dot (e.modelViols s.nQpSolves y) s.coeffs)) ≠ 0 := ne_of_gt happ
        rw [if_neg hne] at c3b
        have c4 : p.improveRatioThreshold ≤
            (exactMerit e s.coeffs s.x - exactMerit e s.coeffs (y.take s.x.length)) /
            (exactMerit e s.coeffs s.x - modelMerit e s.coeffs s.nQpSolves y) := by
          by_contra hc
          exact c3b (decide_eq_true (not_le.mp hc))
        rw [le_div_iff₀ happ] at c4
        linarith
      · intro s' f' heq; cases heq

theorem trLoop_not_cont (p : Params K) (e : Env K) (n : ℕ) (s : St K) (f : ℤ) (o : TrOut K)
    (hr : trLoop p e n s f = some o) : ∀ t g, o ≠ .cont t g := by
  induction n generalizing s f with
  | zero => simp [trLoop] at hr
  | succ n ih =>
    unfold trLoop at hr
    split_ifs at hr with hb
    · cases hbody : trBody p e s f with
      | cont t f' => rw [hbody] at hr; exact ih t f' hr
      | penalty t => rw [hbody] at hr; simp only [Option.some.injEq] at hr; subst hr; simp
      | failed t => rw [hbody] at hr; simp only [Option.some.injEq] at hr; subst hr; simp
      | exit t => rw [hbody] at hr; simp only [Option.some.injEq] at hr; subst hr; simp
    · simp only [Option.some.injEq] at hr; subst hr; simp

theorem Unchanged.trans {a b c : St K} (h : Unchanged a b) (h' : Unchanged b c) : Unchanged a c :=
  ⟨h'.1.trans h.1, h'.2.1.trans h.2.1, h'.2.2.1.trans h.2.2.1, h'.2.2.2.trans h.2.2.2⟩

theorem Unchanged.refl (a : St K) : Unchanged a a := ⟨rfl, rfl, rfl, rfl⟩

theorem trLoop_spec (p : Params K) (e : Env K) (n : ℕ) (s : St K) (f : ℤ) (o : TrOut K) (h : Cons e s)
    (hr : trLoop p e n s f = some o) :
    Cons e o.st ∧ o.st.clockReads = s.clockReads ∧
    (Unchanged s o.st ∨ ∃ t, Cons e t ∧ Unchanged s t ∧ Accepted p e t o.st) := by
  induction n generalizing s f with
  | zero => simp [trLoop] at hr
  | succ n ih =>
    unfold trLoop at hr
    split_ifs at hr with hb
    · obtain ⟨b1, b2, b2', b3, b4⟩ := trBody_spec p e s f h
      have hdone : ∀ o', trBody p e s f = o' → o' = o →
          (Cons e o.st ∧ o.st.clockReads = s.clockReads ∧
            (Unchanged s o.st ∨ ∃ t, Cons e t ∧ Unchanged s t ∧ Accepted p e t o.st)) := by
        intro o' h1 h2
        rw [h1, h2] at b1 b2' b3
        refine ⟨b1, b2', ?_⟩
        rcases b3 with b3 | ⟨t, ht, b3⟩
        · exact Or.inl b3
        · subst ht; exact Or.inr ⟨s, h, Unchanged.refl s, b3⟩
      cases hbody : trBody p e s f with
      | cont t f' =>
        rw [hbody] at hr b1 b2' b3
        have hu : Unchanged s t := by
          rcases b3 with b3 | ⟨w, hw, _⟩
          · exact b3
          · cases hw
        obtain ⟨i1, i2, i3⟩ := ih t f' b1 hr
        refine ⟨i1, i2.trans b2', ?_⟩
        rcases i3 with i3 | ⟨w, w1, w2, w3⟩
        · exact Or.inl (hu.trans i3)
        · exact Or.inr ⟨w, w1, hu.trans w2, w3⟩
      | penalty t =>
        rw [hbody] at hr; exact hdone _ hbody (by simpa using hr)
      | failed t =>
        rw [hbody] at hr; exact hdone _ hbody (by simpa using hr)
      | exit t =>
        rw [hbody] at hr; exact hdone _ hbody (by simpa using hr)
    · simp only [Option.some.injEq] at hr; subst hr
      exact ⟨h, rfl, Or.inl (Unchanged.refl s)⟩

theorem eval_cons (e : Env K) (s : St K) (h : Cons e s ∨ Fresh s) :
    Cons e (evalIfNeeded e s) ∧ (evalIfNeeded e s).x = s.x ∧ (evalIfNeeded e s).coeffs = s.coeffs ∧
    (evalIfNeeded e s).box = s.box ∧ (evalIfNeeded e s).clockReads = s.clockReads := by
  unfold evalIfNeeded
  split_ifs with c
  · exact ⟨⟨rfl, rfl⟩, rfl, rfl, rfl, rfl⟩
  · refine ⟨?_, rfl, rfl, rfl, rfl⟩
    rcases h with h | h
    · exact h
    · exact absurd (by simp [h.1, h.2]) c

/-- Specification: `s'` is not worse than `s` for the merit coefficients in force. -/
def NoWorse (e : Env K) (s s' : St K) : Prop :=
  s'.coeffs = s.coeffs ∧ exactMerit e s.coeffs s'.x ≤ exactMerit e s.coeffs s.x

theorem noWorse_of_tr {p : Params K} {e : Env K} {s s' : St K}
    (h : Unchanged s s' ∨ ∃ t, Cons e t ∧ Unchanged s t ∧ Accepted p e t s') : NoWorse e s s' := by
  rcases h with h | ⟨t, _, ht, k, y, _, _, hc, _, hm, _⟩
  · exact ⟨h.2.2.2, by rw [h.1]⟩
  · rw [ht.2.2.2, ht.1] at hm
    exact ⟨hc.trans ht.2.2.2, hm⟩

theorem sqpLoop_spec (p : Params K) (e : Env K) (fuel n : ℕ) (iter : ℤ) (s : St K) (o : SqpOut K)
    (h : Cons e s ∨ Fresh s) (hr : sqpLoop p e fuel n iter s = some o) :
    (∀ t, o = .penalty t → Cons e t ∧ NoWorse e s t) ∧
    (∀ r t, o = .cleanup r t →
      (Cons e t ∧ (r = .converged → ∀ v ∈ t.cntViols, v < p.cntTolerance) ∧ NoWorse e s t ∧
        r ≠ .penaltyIterationLimit ∧ r ≠ .invalid) ∨
      (Fresh t ∧ r = .converged ∧ p.maxTime < e.clock s.clockReads ∧ Fresh s ∧ t.x = s.x ∧ t.coeffs = s.coeffs)) := by
  induction n generalizing iter s with
  | zero => simp [sqpLoop] at hr
  | succ n ih =>
    unfold sqpLoop at hr
    simp only at hr
    by_cases c1 : p.maxTime < e.clock s.clockReads
    · simp only [c1, if_true, Option.some.injEq] at hr; subst hr
      refine ⟨by simp, ?_⟩
      intro r t heq
      simp only [SqpOut.cleanup.injEq] at heq
      obtain ⟨rfl, rfl⟩ := heq
      rcases h with h | h
      · refine Or.inl ⟨h, ?_, ⟨rfl, le_refl _⟩, ?_, ?_⟩
        · intro hc
          split_ifs at hc with hs
          exact (satisfied_iff p _).mp hs
        · split_ifs <;> simp
        · split_ifs <;> simp
      · refine Or.inr ⟨h, ?_, c1, h, rfl, rfl⟩
        rw [if_pos]
        simp [h.2, satisfied]
    · simp only [c1, if_false] at hr
      obtain ⟨e1, e2, e3, e4, e5⟩ := eval_cons e { s with clockReads := s.clockReads + 1 } h
      set s1 := evalIfNeeded e { s with clockReads := s.clockReads + 1 } with hs1
      have hnw : ∀ t, NoWorse e s1 t → NoWorse e s t := by
        intro t ht
        unfold NoWorse at ht ⊢
        rw [e2, e3] at ht
        exact ht
      cases htr : trLoop p e fuel s1 0 with
      | none => rw [htr] at hr; cases hr
      | some o' =>
        rw [htr] at hr
        obtain ⟨t1, t2, t3⟩ := trLoop_spec p e fuel s1 0 o' e1 htr
        cases o' with
        | cont t f => cases hr
        | penalty t =>
          simp only [Option.some.injEq] at hr; subst hr
          refine ⟨?_, by simp⟩
          intro t' heq; cases heq
          exact ⟨t1, hnw _ (noWorse_of_tr t3)⟩
        | failed t =>
          simp only [Option.some.injEq] at hr; subst hr
          refine ⟨by simp, ?_⟩
          intro r t' heq; cases heq
          exact Or.inl ⟨t1, by simp, hnw _ (noWorse_of_tr t3), by simp, by simp⟩
        | exit t =>
          simp only at hr
          split_ifs at hr with c2 c3 c4
          · simp only [Option.some.injEq] at hr; subst hr
            refine ⟨?_, by simp⟩
            intro t' heq; cases heq
            exact ⟨t1, hnw _ (noWorse_of_tr t3)⟩
          · simp only [Option.some.injEq] at hr; subst hr
            refine ⟨by simp, ?_⟩
            intro r t' heq; cases heq
            exact Or.inl ⟨t1, fun _ => (satisfied_iff p _).mp c4, hnw _ (noWorse_of_tr t3), by simp, by simp⟩
          · simp only [Option.some.injEq] at hr; subst hr
            refine ⟨by simp, ?_⟩
            intro r t' heq; cases heq
            exact Or.inl ⟨t1, by simp, hnw _ (noWorse_of_tr t3), by simp, by simp⟩
          · have hnt : NoWorse e s t := hnw _ (noWorse_of_tr t3)
            obtain ⟨i1, i2⟩ := ih (iter + 1) t (Or.inl t1) hr
            have htrans : ∀ w, NoWorse e t w → NoWorse e s w := by
              intro w hw
              unfold NoWorse at hw hnt ⊢
              rw [hnt.1] at hw
              exact ⟨hw.1, hw.2.trans hnt.2⟩
            refine ⟨fun w hw => ⟨(i1 w hw).1, htrans w (i1 w hw).2⟩, ?_⟩
            intro r w hw
            rcases i2 r w hw with ⟨j1, j2, j3, j4⟩ | ⟨j1, j2, j3, j4, j5, j6⟩
            · exact Or.inl ⟨j1, j2, htrans w j3, j4⟩
            · -- t was evaluated, so it is fresh only if its vectors are empty: still consistent
              refine Or.inl ⟨?_, ?_, ?_, ?_, ?_⟩
              · unfold Cons
                rw [j1.1, j1.2, j5]
                exact ⟨j4.1.symm.trans t1.1, j4.2.symm.trans t1.2⟩
              · intro _ v hv; rw [j1.2] at hv; cases hv
              · exact htrans w ⟨j6, by rw [j5]⟩
              · rw [j2]; simp
              · rw [j2]; simp

/-- the state a new merit round starts from -/
def nextRound (p : Params K) (t : St K) : St K :=
  { t with coeffs := inflate p t, box := max t.box (p.minTrustBoxSize / p.trustShrinkRatio * (3 / 2)) }

theorem meritLoop_spec (p : Params K) (e : Env K) (fuel m : ℕ) (s : St K) (r : Status) (t : St K)
    (h : Cons e s ∨ Fresh s) (hr : meritLoop p e fuel m s = some (r, t)) :
    (r ≠ .invalid) ∧
    ((Cons e t ∧ (r = .converged → ∀ v ∈ t.cntViols, v < p.cntTolerance)) ∨
     (Fresh t ∧ Fresh s ∧ t.x = s.x ∧
       ((m = 0 ∧ r = .penaltyIterationLimit) ∨
        (0 < m ∧ r = .converged ∧ p.maxTime < e.clock s.clockReads)))) := by
  induction m generalizing s with
  | zero =>
    simp only [meritLoop, Option.some.injEq, Prod.mk.injEq] at hr
    obtain ⟨rfl, rfl⟩ := hr
    refine ⟨by simp, ?_⟩
    rcases h with h | h
    · exact Or.inl ⟨h, by simp⟩
    · exact Or.inr ⟨h, h, rfl, Or.inl ⟨rfl, rfl⟩⟩
  | succ m ih =>
    unfold meritLoop at hr
    cases hs : sqpLoop p e fuel fuel 1 s with
    | none => rw [hs] at hr; cases hr
    | some o =>
      rw [hs] at hr
      obtain ⟨i1, i2⟩ := sqpLoop_spec p e fuel fuel 1 s o h hs
      cases o with
      | cleanup r' t' =>
        simp only [Option.some.injEq, Prod.mk.injEq] at hr
        obtain ⟨rfl, rfl⟩ := hr
        rcases i2 _ _ rfl with ⟨j1, j2, j3, j4, j5⟩ | ⟨j1, j2, j3, j4, j5, j6⟩
        · exact ⟨j5, Or.inl ⟨j1, j2⟩⟩
        · refine ⟨by rw [j2]; simp, Or.inr ⟨j1, j4, j5, Or.inr ⟨by omega, j2, j3⟩⟩⟩
      | penalty t' =>
        simp only at hr
        split_ifs at hr with c
        · simp only [Option.some.injEq, Prod.mk.injEq] at hr
          obtain ⟨rfl, rfl⟩ := hr
          exact ⟨by simp, Or.inl ⟨(i1 _ rfl).1, fun _ => (satisfied_iff p _).mp c⟩⟩
        · have hc : Cons e (nextRound p t') := (i1 _ rfl).1
          obtain ⟨k1, k2⟩ := ih _ (Or.inl hc) hr
          refine ⟨k1, ?_⟩
          rcases k2 with k2 | ⟨k2, k3, k4, k5⟩
          · exact Or.inl k2
          · refine Or.inl ⟨?_, fun _ v hv => by rw [k2.2] at hv; cases hv⟩
            unfold Cons
            rw [k2.1, k2.2, k4]
            exact ⟨k3.1.symm.trans hc.1, k3.2.symm.trans hc.2⟩

/-! ### Property theorems -/

/-- C17 (partial): if the time limit is not already exceeded at the first clock reading, `OPT_CONVERGED` after
`initialize` implies that every exact violation at the returned point is below `cnt_tolerance`.
Missing: when the very first clock reading exceeds `max_time` (see `C17_violated_on_early_timeout`). -/
theorem C17_converged_sound_partial (p : Params K) (e : Env K) (fuel : ℕ) (x0 : List K) (box : K) (r : Result K)
    (hclock : e.clock 0 ≤ p.maxTime)
    (hr : optimize p e fuel (initialState x0 box) = some r) (hc : r.status = .converged) :
    ∀ v ∈ e.exactViols r.st.x, v < p.cntTolerance := by
  unfold optimize at hr
  simp only at hr
  split at hr
  · cases hr
  · rename_i st s hm
    simp only [Option.some.injEq] at hr; subst hr
    obtain ⟨-, h2⟩ := meritLoop_spec p e fuel _ _ _ _ (Or.inr ⟨rfl, rfl⟩) hm
    rcases h2 with ⟨h2, h3⟩ | ⟨_, _, _, h | h⟩
    · intro v hv; exact h3 hc v (by rw [h2.2]; exact hv)
    · simp only at hc; rw [h.2] at hc; cases hc
    · exact absurd h.2.2 (not_lt.mpr hclock)

/-- C17 is violated: when the first clock reading exceeds `max_time`, `optimize` returns `OPT_CONVERGED` without having
evaluated any constraint, whatever the constraints are. -/
theorem C17_violated_on_early_timeout (p : Params K) (e : Env K) (fuel : ℕ) (x0 : List K) (box : K)
    (hm : 0 < p.maxMeritCoeffIncreases) (hclock : p.maxTime < e.clock 0) :
    ∃ r, optimize p e (fuel + 1) (initialState x0 box) = some r ∧ r.status = .converged ∧
      r.st.x = e.closest x0 ∧ r.st.cntViols = [] ∧ r.st.nFuncEvals = 0 := by
  obtain ⟨m, hm⟩ : ∃ m, p.maxMeritCoeffIncreases = m + 1 := ⟨p.maxMeritCoeffIncreases - 1, by omega⟩
  unfold optimize
  rw [hm]
  simp [meritLoop, sqpLoop, initialState, hclock, satisfied]

/-- C19: after `initialize`, if the first clock reading is within the limit and at least one merit round is allowed, the
reported costs and violations are those of the reported point on every exit path (including solver failure, time-out
and iteration limits), and `total_cost` is their sum. -/
theorem C19_results_belong_to_point (p : Params K) (e : Env K) (fuel : ℕ) (x0 : List K) (box : K) (r : Result K)
    (hclock : e.clock 0 ≤ p.maxTime) (hm : 0 < p.maxMeritCoeffIncreases)
    (hr : optimize p e fuel (initialState x0 box) = some r) :
    r.st.costVals = e.exactCosts r.st.x ∧ r.st.cntViols = e.exactViols r.st.x ∧
    r.totalCost = (e.exactCosts r.st.x).sum ∧ r.status ≠ .invalid := by
  unfold optimize at hr
  simp only at hr
  split at hr
  · cases hr
  · rename_i st s hml
    simp only [Option.some.injEq] at hr; subst hr
    obtain ⟨h1, h2⟩ := meritLoop_spec p e fuel _ _ _ _ (Or.inr ⟨rfl, rfl⟩) hml
    rcases h2 with ⟨h2, h3⟩ | ⟨_, _, _, h | h⟩
    · exact ⟨h2.1, h2.2, by rw [h2.1], h1⟩
    · omega
    · exact absurd h.2.2 (not_lt.mpr hclock)

/-- C19 is violated for a second call of `optimize()` without `initialize`: `getClosestFeasiblePoint` moves the point but
the stored costs are kept.  Here the run stops at the first clock reading; the stored costs are those of the old point
while the reported point is the moved one. -/
theorem C19_violated_on_second_call (p : Params K) (e : Env K) (fuel : ℕ) (s : St K) (h : Cons e s)
    (hm : 0 < p.maxMeritCoeffIncreases) (hclock : p.maxTime < e.clock 0) :
    ∃ r, optimize p e (fuel + 1) s = some r ∧ r.st.x = e.closest s.x ∧ r.st.costVals = e.exactCosts s.x ∧
      r.st.cntViols = e.exactViols s.x := by
  obtain ⟨m, hm⟩ : ∃ m, p.maxMeritCoeffIncreases = m + 1 := ⟨p.maxMeritCoeffIncreases - 1, by omega⟩
  unfold optimize
  rw [hm]
  simp only [meritLoop, sqpLoop, hclock, if_true]
  exact ⟨_, rfl, rfl, h.1, h.2⟩

/-- C18: in the trust-region loop the point is either kept or replaced once, by the answer of a QP posed around the kept
point, whose exact improvement is non-negative and (for positive `min_approx_improve`) at least
`improve_ratio_threshold` times the predicted improvement. -/
theorem C18_accepted_step (p : Params K) (e : Env K) (fuel : ℕ) (s : St K) (f : ℤ) (o : TrOut K) (h : Cons e s)
    (hr : trLoop p e fuel s f = some o) :
    (o.st.x = s.x ∧ o.st.costVals = s.costVals ∧ o.st.cntViols = s.cntViols) ∨
    ∃ k b y, e.qp k s.x b = some y ∧ o.st.x = y.take s.x.length ∧
      let pred := exactMerit e s.coeffs s.x - modelMerit e s.coeffs k y
      p.minApproxImprove ≤ pred ∧
      exactMerit e s.coeffs o.st.x ≤ exactMerit e s.coeffs s.x ∧
      (0 < p.minApproxImprove →
        exactMerit e s.coeffs o.st.x ≤ exactMerit e s.coeffs s.x - p.improveRatioThreshold * pred) := by
  obtain ⟨-, -, h3⟩ := trLoop_spec p e fuel s f o h hr
  rcases h3 with h3 | ⟨t, _, ht, k, y, hq, hx, hc, h1, h2, h4⟩
  · exact Or.inl ⟨h3.1, h3.2.1, h3.2.2.1⟩
  · have hcs := ht.2.2.2
    have hxs := ht.1
    rw [hxs] at hq hx
    rw [hxs, hcs] at h1 h2 h4
    exact Or.inr ⟨k, t.box, y, hq, hx, h1, h2, h4⟩

/-- C18: over a whole merit round (the sqp loop, however it is left) the exact merit under the coefficients in force
never increases. -/
theorem C18_round_monotone (p : Params K) (e : Env K) (fuel n : ℕ) (iter : ℤ) (s t : St K)
    (h : Cons e s) (hr : sqpLoop p e fuel n iter s = some (.penalty t) ∨
      ∃ r, sqpLoop p e fuel n iter s = some (.cleanup r t)) :
    t.coeffs = s.coeffs ∧ exactMerit e s.coeffs t.x ≤ exactMerit e s.coeffs s.x := by
  rcases hr with hr | ⟨r, hr⟩
  · exact ((sqpLoop_spec p e fuel n iter s _ (Or.inl h) hr).1 t rfl).2
  · rcases (sqpLoop_spec p e fuel n iter s _ (Or.inl h) hr).2 r t rfl with h1 | h1
    · exact h1.2.2.1
    · exact ⟨h1.2.2.2.2.2, by rw [h1.2.2.2.2.1]⟩

/-! ### Termination (C20) -/

theorem trLoop_mono (p : Params K) (e : Env K) (n m : ℕ) (s : St K) (f : ℤ) (o : TrOut K) (hnm : n ≤ m)
    (h : trLoop p e n s f = some o) : trLoop p e m s f = some o := by
  induction n generalizing s f m with
  | zero => simp [trLoop] at h
  | succ n ih =>
    obtain ⟨m, rfl⟩ : ∃ k, m = k + 1 := ⟨m - 1, by omega⟩
    unfold trLoop at h ⊢
    split_ifs at h ⊢ with hb
    · cases hbody : trBody p e s f with
      | cont t f' => rw [hbody] at h; exact ih m t f' (by omega) h
      | penalty t => rw [hbody] at h; exact h
      | failed t => rw [hbody] at h; exact h
      | exit t => rw [hbody] at h; exact h
    · exact h

/-- what a body pass that continues does to box and failure counter -/
theorem trBody_cont (p : Params K) (e : Env K) (s : St K) (f : ℤ) (s' : St K) (f' : ℤ)
    (h : trBody p e s f = .cont s' f') :
    s'.nQpSolves = s.nQpSolves + 1 ∧
    ((f' = f ∧ s'.box = s.box * p.trustShrinkRatio) ∨
     (f' = f + 1 ∧ f' < p.maxQpSolverFailures ∧ s'.box = s.box * p.trustShrinkRatio) ∨
     (f' = f + 1 ∧ f' = p.maxQpSolverFailures ∧ s'.box = p.minTrustBoxSize)) := by
  unfold trBody at h
  simp only at h
  cases hq : e.qp s.nQpSolves s.x s.box with
  | none =>
    rw [hq] at h
    simp only at h
    split_ifs at h with c1 c2
    · cases h; exact ⟨rfl, Or.inr (Or.inl ⟨rfl, by omega, rfl⟩)⟩
    · cases h; exact ⟨rfl, Or.inr (Or.inr ⟨rfl, by omega, rfl⟩)⟩
  | some y =>
    rw [hq] at h
    simp only at h
    split_ifs at h with c1 c2 c3
    cases h; exact ⟨rfl, Or.inl ⟨rfl, rfl⟩⟩

theorem trBody_nQp (p : Params K) (e : Env K) (s : St K) (f : ℤ) :
    (trBody p e s f).st.nQpSolves = s.nQpSolves + 1 := by
  unfold trBody
  simp only
  cases hq : e.qp s.nQpSolves s.x s.box with
  | none => simp only; split_ifs <;> rfl
  | some y => simp only; split_ifs <;> rfl

theorem trLoop_done (p : Params K) (e : Env K) (n : ℕ) (s : St K) (f : ℤ) (hb : p.minTrustBoxSize ≤ s.box)
    (hnc : ∀ t g, trBody p e s f ≠ .cont t g) : trLoop p e (n + 1) s f = some (trBody p e s f) := by
  unfold trLoop
  rw [if_pos hb]
  cases hbody : trBody p e s f with
  | cont t g => exact absurd hbody (hnc t g)
  | penalty t => rfl
  | failed t => rfl
  | exit t => rfl

/-- C20: if `N` shrinkings bring the box below the minimum, the trust-region loop makes at most `N + 1` QP solves. -/
theorem C20_trust_loop_bound (p : Params K) (e : Env K) (hmin : 0 < p.minTrustBoxSize)
    (hs1 : p.trustShrinkRatio < 1) (N : ℕ) (s : St K) (f : ℤ)
    (hN : s.box * p.trustShrinkRatio ^ N < p.minTrustBoxSize) :
    ∃ o, trLoop p e (N + 2) s f = some o ∧ o.st.nQpSolves ≤ s.nQpSolves + (N + 1) := by
  induction N generalizing s f with
  | zero =>
    refine ⟨.exit s, ?_, Nat.le_add_right _ _⟩
    unfold trLoop
    rw [if_neg (not_le.mpr (by simpa using hN))]
  | succ N ih =>
    by_cases hb : p.minTrustBoxSize ≤ s.box
    swap
    · refine ⟨.exit s, ?_, Nat.le_add_right _ _⟩
      unfold trLoop
      rw [if_neg hb]
    by_cases hnc : ∀ t g, trBody p e s f ≠ .cont t g
    · refine ⟨_, trLoop_done p e _ s f hb hnc, ?_⟩
      rw [trBody_nQp]; omega
    push Not at hnc
    obtain ⟨t, g, hbody⟩ := hnc
    obtain ⟨q1, c⟩ := trBody_cont p e s f t g hbody
    have hstep : ∀ n, trLoop p e (n + 1) s f = trLoop p e n t g := by
      intro n; rw [trLoop, if_pos hb, hbody]
    have hshr : t.box = s.box * p.trustShrinkRatio →
        ∃ o, trLoop p e (N + 1 + 2) s f = some o ∧ o.st.nQpSolves ≤ s.nQpSolves + (N + 1 + 1) := by
      intro hbox
      obtain ⟨o, i1, i2⟩ := ih t g (by rw [hbox]; rw [pow_succ'] at hN; rwa [mul_assoc])
      refine ⟨o, ?_, by omega⟩
      rw [hstep]; exact i1
    rcases c with ⟨_, c⟩ | ⟨c1, c2, c⟩ | ⟨c1, c2, c⟩
    · exact hshr c
    · exact hshr c
    · -- the box was set to the minimum; one more QP at most
      have hb2 : p.minTrustBoxSize ≤ t.box := le_of_eq c.symm
      by_cases hnc2 : ∀ w h, trBody p e t g ≠ .cont w h
      · refine ⟨trBody p e t g, ?_, ?_⟩
        · rw [hstep]; exact trLoop_done p e _ t g hb2 hnc2
        · rw [trBody_nQp]; omega
      · push Not at hnc2
        obtain ⟨w, h, hbody2⟩ := hnc2
        obtain ⟨q2, d⟩ := trBody_cont p e t g w h hbody2
        have hwb : w.box < p.minTrustBoxSize := by
          rcases d with ⟨_, d⟩ | ⟨d1, d2, d⟩ | ⟨d1, d2, d⟩
          · rw [d, c]; exact mul_lt_of_lt_one_right hmin hs1
          · omega
          · omega
        refine ⟨.exit w, ?_, ?_⟩
        · rw [hstep, trLoop, if_pos hb2, hbody2]
          simp only
          rw [trLoop, if_neg (not_le.mpr hwb)]
        · change w.nQpSolves ≤ _; omega

section archimedean
variable [Archimedean K]

theorem exists_shrink_count (p : Params K) (hmin : 0 < p.minTrustBoxSize)
    (hs1 : p.trustShrinkRatio < 1) (b : K) : ∃ N : ℕ, b * p.trustShrinkRatio ^ N < p.minTrustBoxSize := by
  by_cases hb : b ≤ 0
  · exact ⟨0, by simpa using lt_of_le_of_lt hb hmin⟩
  · push Not at hb
    obtain ⟨N, hN⟩ := exists_pow_lt_of_lt_one (div_pos hmin hb) hs1
    refine ⟨N, ?_⟩
    rw [lt_div_iff₀ hb] at hN
    rwa [mul_comm]

theorem sqpLoop_terminates (p : Params K) (e : Env K) (hmin : 0 < p.minTrustBoxSize)
    (hs1 : p.trustShrinkRatio < 1) (d : ℕ) (iter : ℤ) (s : St K) (hd : p.maxIter - iter < d) :
    ∃ F o, ∀ fuel, F ≤ fuel → ∀ n, d + 1 ≤ n → sqpLoop p e fuel n iter s = some o := by
  induction d generalizing iter s with
  | zero =>
    -- the iteration limit is reached in this pass
    by_cases c1 : p.maxTime < e.clock s.clockReads
    · refine ⟨0, .cleanup (if satisfied p s.cntViols then .converged else .timeLimit)
        { s with clockReads := s.clockReads + 1 }, fun fuel _ n hn => ?_⟩
      obtain ⟨n, rfl⟩ : ∃ k, n = k + 1 := ⟨n - 1, by omega⟩
      unfold sqpLoop
      simp only [c1, if_true]
    · obtain ⟨N, hN⟩ := exists_shrink_count p hmin hs1
        (evalIfNeeded e { s with clockReads := s.clockReads + 1 }).box
      obtain ⟨o, ho, _⟩ := C20_trust_loop_bound p e hmin hs1 N _ 0 hN
      have hc := trLoop_not_cont p e _ _ _ _ ho
      have hlim : p.maxIter ≤ iter := by have := hd; push_cast at this; omega
      cases o with
      | cont t f => exact absurd rfl (hc t f)
      | penalty t =>
        refine ⟨N + 2, .penalty t, fun fuel hf n hn => ?_⟩
        obtain ⟨n, rfl⟩ : ∃ k, n = k + 1 := ⟨n - 1, by omega⟩
        unfold sqpLoop
        simp only [c1, if_false, trLoop_mono p e _ fuel _ _ _ hf ho]
      | failed t =>
        refine ⟨N + 2, .cleanup .failed t, fun fuel hf n hn => ?_⟩
        obtain ⟨n, rfl⟩ : ∃ k, n = k + 1 := ⟨n - 1, by omega⟩
        unfold sqpLoop
        simp only [c1, if_false, trLoop_mono p e _ fuel _ _ _ hf ho]
      | exit t =>
        refine ⟨N + 2, if t.box < p.minTrustBoxSize then .penalty t else
          .cleanup (if satisfied p t.cntViols then .converged else .scoIterationLimit) t, fun fuel hf n hn => ?_⟩
        obtain ⟨n, rfl⟩ : ∃ k, n = k + 1 := ⟨n - 1, by omega⟩
        unfold sqpLoop
        simp only [c1, if_false, trLoop_mono p e _ fuel _ _ _ hf ho, hlim, if_true]
        split_ifs <;> rfl
  | succ d ih =>
    by_cases c1 : p.maxTime < e.clock s.clockReads
    · refine ⟨0, .cleanup (if satisfied p s.cntViols then .converged else .timeLimit)
        { s with clockReads := s.clockReads + 1 }, fun fuel _ n hn => ?_⟩
      obtain ⟨n, rfl⟩ : ∃ k, n = k + 1 := ⟨n - 1, by omega⟩
      unfold sqpLoop
      simp only [c1, if_true]
    · obtain ⟨N, hN⟩ := exists_shrink_count p hmin hs1
        (evalIfNeeded e { s with clockReads := s.clockReads + 1 }).box
      obtain ⟨o, ho, _⟩ := C20_trust_loop_bound p e hmin hs1 N _ 0 hN
      have hc := trLoop_not_cont p e _ _ _ _ ho
      cases o with
      | cont t f => exact absurd rfl (hc t f)
      | penalty t =>
        refine ⟨N + 2, .penalty t, fun fuel hf n hn => ?_⟩
        obtain ⟨n, rfl⟩ : ∃ k, n = k + 1 := ⟨n - 1, by omega⟩
        unfold sqpLoop
        simp only [c1, if_false, trLoop_mono p e _ fuel _ _ _ hf ho]
      | failed t =>
        refine ⟨N + 2, .cleanup .failed t, fun fuel hf n hn => ?_⟩
        obtain ⟨n, rfl⟩ : ∃ k, n = k + 1 := ⟨n - 1, by omega⟩
        unfold sqpLoop
        simp only [c1, if_false, trLoop_mono p e _ fuel _ _ _ hf ho]
      | exit t =>
        obtain ⟨F, o, hF⟩ := ih (iter + 1) t (by push_cast at hd; omega)
        refine ⟨max (N + 2) F, if t.box < p.minTrustBoxSize then .penalty t else if p.maxIter ≤ iter then
          .cleanup (if satisfied p t.cntViols then .converged else .scoIterationLimit) t else o, fun fuel hf n hn => ?_⟩
        obtain ⟨n, rfl⟩ : ∃ k, n = k + 1 := ⟨n - 1, by omega⟩
        unfold sqpLoop
        simp only [c1, if_false, trLoop_mono p e _ fuel _ _ _ ((le_max_left _ _).trans hf) ho]
        split_ifs
        · rfl
        · rfl
        · rfl
        · exact hF fuel ((le_max_right _ _).trans hf) n (by omega)

theorem meritLoop_terminates (p : Params K) (e : Env K) (hmin : 0 < p.minTrustBoxSize)
    (hs1 : p.trustShrinkRatio < 1) (m : ℕ) (s : St K) :
    ∃ F o, ∀ fuel, F ≤ fuel → meritLoop p e fuel m s = some o := by
  induction m generalizing s with
  | zero => exact ⟨0, _, fun _ _ => rfl⟩
  | succ m ih =>
    set d := (p.maxIter).toNat + 1 with hd
    obtain ⟨F, o, hF⟩ := sqpLoop_terminates p e hmin hs1 d 1 s (by omega)
    cases o with
    | cleanup r t =>
      refine ⟨max F (d + 1), (r, t), fun fuel hf => ?_⟩
      unfold meritLoop
      rw [hF fuel ((le_max_left _ _).trans hf) fuel ((le_max_right _ _).trans hf)]
    | penalty t =>
      by_cases c : satisfied p t.cntViols = true
      · refine ⟨max F (d + 1), (.converged, t), fun fuel hf => ?_⟩
        unfold meritLoop
        rw [hF fuel ((le_max_left _ _).trans hf) fuel ((le_max_right _ _).trans hf)]
        simp only [c, if_true]
      · obtain ⟨G, o', hG⟩ := ih (nextRound p t)
        refine ⟨max (max F (d + 1)) G, o', fun fuel hf => ?_⟩
        have h1 : max F (d + 1) ≤ fuel := (le_max_left _ _).trans hf
        unfold meritLoop
        rw [hF fuel ((le_max_left _ _).trans h1) fuel ((le_max_right _ _).trans h1)]
        simp only [c, Bool.false_eq_true, if_false]
        exact hG fuel ((le_max_right _ _).trans hf)

/-- C20: `optimize` returns for every problem, every behaviour of the convex solver and of the clock. -/
theorem C20_optimize_terminates (p : Params K) (e : Env K) (hmin : 0 < p.minTrustBoxSize)
    (hs1 : p.trustShrinkRatio < 1) (s0 : St K) :
    ∃ F r, ∀ fuel, F ≤ fuel → optimize p e fuel s0 = some r := by
  obtain ⟨F, ⟨r, t⟩, hF⟩ := meritLoop_terminates p e hmin hs1 p.maxMeritCoeffIncreases
    { s0 with x := e.closest s0.x, coeffs := List.replicate e.nCnts p.initialMeritErrorCoeff, clockReads := 0 }
  refine ⟨F, ⟨r, t, t.costVals.sum⟩, fun fuel hf => ?_⟩
  unfold optimize
  simp only
  rw [hF fuel hf]

end archimedean

/-! ### Non-vacuity -/

/-- default parameters (optimizers.hpp) -/
def defaultParams : Params ℚ :=
  { improveRatioThreshold := 1/4, minTrustBoxSize := 1/10000, minApproxImprove := 1/10000
    minApproxImproveFrac := -1000000, maxIter := 50, trustShrinkRatio := 1/10, trustExpandRatio := 3/2
    cntTolerance := 1/10000, maxMeritCoeffIncreases := 5, maxQpSolverFailures := 3, meritCoeffIncreaseRatio := 10
    maxTime := 1000, initialMeritErrorCoeff := 10, inflateIndividually := true }

/-- one variable, cost `x²`, violation `|x - 1|` -/
def exEnv : Env ℚ :=
  { nCnts := 1, closest := id
    exactCosts := fun x => x.map fun v => v * v
    exactViols := fun x => x.map fun v => |v - 1|
    modelCosts := fun _ x => (x.take 1).map fun v => v * v
    modelViols := fun _ x => (x.take 1).map fun v => |v - 1|
    qp := fun _ _ _ => some [1, 0]
    clock := fun _ => 0 }

example : ((optimize defaultParams exEnv 60 (initialState [3] (1/10))).map
    fun r => (r.status, r.st.x, r.totalCost, r.st.nQpSolves)) = some (.converged, [1], 1, 2) := by decide +kernel

/-- witness for C17: clock past the limit at the start, constraint violated by 2, status converged -/
example : ((optimize defaultParams { exEnv with clock := fun _ => 1001 } 60 (initialState [3] (1/10))).map
    fun r => (r.status, r.st.x, exEnv.exactViols r.st.x)) = some (.converged, [3], [2]) := by decide +kernel

/-- witness for C19: second call; the point is moved by `closest`, the costs are those of the old point, with no
time-out involved (the QP finds no improvement and there are no constraints): the reported cost is 0, the cost of the
reported point is 1 -/
example : ((optimize defaultParams
      { exEnv with nCnts := 0, exactViols := fun _ => [], modelViols := fun _ _ => []
                   exactCosts := fun x => x.map fun v => 1000 * |v|, modelCosts := fun _ x => x.map fun v => 1000 * |v|
                   closest := fun x => x.map (· - 1/1000), qp := fun _ x _ => some x } 60
      { x := [0], costVals := [0], cntViols := [], nFuncEvals := 1, nQpSolves := 0, box := 1/10, coeffs := [],
        clockReads := 0 }).map fun r => (r.status, r.st.x, r.totalCost)) =
    some (.converged, [-1/1000], 0) := by decide +kernel

example : 0 < defaultParams.minTrustBoxSize ∧ defaultParams.trustShrinkRatio < 1 ∧
    exEnv.clock 0 ≤ defaultParams.maxTime ∧ 0 < defaultParams.minApproxImprove := by decide +kernel

end Verif.Legacy
