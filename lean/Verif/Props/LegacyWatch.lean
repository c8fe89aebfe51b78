import Verif.Model.LegacyWatch
import Verif.Props.Legacy

/-!
C164: what the callbacks of the legacy optimizer see.
-/

set_option linter.unusedSectionVars false
set_option linter.unusedVariables false

namespace Verif.Legacy

open Verif.Sqp (dot)

universe u
variable {K : Type u} [Field K] [LinearOrder K] [IsStrictOrderedRing K]

/-! ### Specification -/

/-- Penalty weights the optimizer may use: one per constraint, each the initial one increased some times. -/
def Weights (p : Params K) (e : Env K) (μ : List K) : Prop :=
  μ.length = e.nCnts ∧ ∀ c ∈ μ, ∃ j : ℕ, c = p.initialMeritErrorCoeff * p.meritCoeffIncreaseRatio ^ j

/-- What may happen between two calls: nothing, or the point was replaced by the answer of a convex problem built at it that is not worse. -/
def Goes (p : Params K) (e : Env K) (x x' : List K) : Prop :=
  x' = x ∨ ∃ μ k b y, Weights p e μ ∧ e.qp k x b = some y ∧ x' = y.take x.length ∧ exactMerit e μ x' ≤ exactMerit e μ x

/-- The costs and violations shown are those of the point shown. -/
def View.Right (e : Env K) (v : View K) : Prop := v.costVals = e.exactCosts v.x ∧ v.cntViols = e.exactViols v.x

/-! ### The recorded calls change nothing -/

theorem sqpLoopW_fst (p : Params K) (e : Env K) (fuel n : ℕ) (iter : ℤ) (s : St K) (calls : List (St K)) :
    (sqpLoopW p e fuel n iter s calls).map (·.1) = sqpLoop p e fuel n iter s := by
  induction n generalizing iter s calls with
  | zero => rfl
  | succ n ih =>
    unfold sqpLoopW sqpLoop
    simp only
    by_cases c1 : p.maxTime < e.clock s.clockReads
    · rw [if_pos c1, if_pos c1]; rfl
    · rw [if_neg c1, if_neg c1]
      cases trLoop p e fuel (evalIfNeeded e { s with clockReads := s.clockReads + 1 }) 0 with
      | none => rfl
      | some o =>
        cases o with
        | cont t f => rfl
        | penalty t => rfl
        | failed t => rfl
        | exit t =>
          simp only
          by_cases c2 : t.box < p.minTrustBoxSize
          · rw [if_pos c2, if_pos c2]; rfl
          · rw [if_neg c2, if_neg c2]
            by_cases c3 : p.maxIter ≤ iter
            · rw [if_pos c3, if_pos c3]; rfl
            · rw [if_neg c3, if_neg c3]; exact ih _ _ _

theorem meritLoopW_fst (p : Params K) (e : Env K) (fuel m : ℕ) (s : St K) (calls : List (St K)) :
    (meritLoopW p e fuel m s calls).map (·.1) = meritLoop p e fuel m s := by
  induction m generalizing s calls with
  | zero => rfl
  | succ m ih =>
    unfold meritLoopW meritLoop
    have h := sqpLoopW_fst p e fuel fuel 1 s calls
    cases hw : sqpLoopW p e fuel fuel 1 s calls with
    | none => rw [hw] at h; rw [← h]; rfl
    | some o =>
      rw [hw] at h
      rw [← h]
      obtain ⟨o, c⟩ := o
      cases o with
      | cleanup r t => rfl
      | penalty t =>
        simp only [Option.map_some]
        split_ifs
        · rfl
        · exact ih _ _

/-! ### Calls are only added -/

theorem ne_of_prefix {α : Type*} {a b : List α} (h : a <+: b) (ha : a ≠ []) : b ≠ [] := by
  rintro rfl
  exact ha (List.prefix_nil.mp h)

theorem sqpLoopW_prefix {p : Params K} {e : Env K} {fuel n : ℕ} {iter : ℤ} {s : St K} {c : List (St K)} {o : SqpOut K}
    {c' : List (St K)} (h : sqpLoopW p e fuel n iter s c = some (o, c')) : c <+: c' := by
  induction n generalizing iter s c with
  | zero => simp [sqpLoopW] at h
  | succ n ih =>
    unfold sqpLoopW at h
    simp only at h
    by_cases c1 : p.maxTime < e.clock s.clockReads
    · rw [if_pos c1] at h
      simp only [Option.some.injEq, Prod.mk.injEq] at h
      rw [h.2]
    · rw [if_neg c1] at h
      split at h
      · cases h
      · cases h
      · simp only [Option.some.injEq, Prod.mk.injEq] at h
        rw [← h.2]; exact List.prefix_append _ _
      · simp only [Option.some.injEq, Prod.mk.injEq] at h
        rw [← h.2]; exact List.prefix_append _ _
      · rename_i t ht
        by_cases c2 : t.box < p.minTrustBoxSize
        · rw [if_pos c2] at h
          simp only [Option.some.injEq, Prod.mk.injEq] at h
          rw [← h.2]; exact List.prefix_append _ _
        · rw [if_neg c2] at h
          by_cases c3 : p.maxIter ≤ iter
          · rw [if_pos c3] at h
            simp only [Option.some.injEq, Prod.mk.injEq] at h
            rw [← h.2]; exact List.prefix_append _ _
          · rw [if_neg c3] at h
            exact (List.prefix_append _ _).trans (ih h)

theorem meritLoopW_prefix {p : Params K} {e : Env K} {fuel m : ℕ} {s : St K} {c : List (St K)} {o : Status × St K}
    {c' : List (St K)} (h : meritLoopW p e fuel m s c = some (o, c')) : c <+: c' := by
  induction m generalizing s c with
  | zero =>
    simp only [meritLoopW, Option.some.injEq, Prod.mk.injEq] at h
    rw [h.2]
  | succ m ih =>
    unfold meritLoopW at h
    cases hs : sqpLoopW p e fuel fuel 1 s c with
    | none => rw [hs] at h; cases h
    | some oc =>
      obtain ⟨o1, c1⟩ := oc
      rw [hs] at h
      have hp := sqpLoopW_prefix hs
      cases o1 with
      | cleanup r t =>
        simp only [Option.some.injEq, Prod.mk.injEq] at h
        rw [← h.2]; exact hp
      | penalty t =>
        simp only at h
        split_ifs at h
        · simp only [Option.some.injEq, Prod.mk.injEq] at h
          rw [← h.2]; exact hp
        · exact hp.trans (ih h)

/-! ### The invariant -/

/-- `calls` were made so far, `s` is the state now, `x0` the first point. -/
structure Seen (p : Params K) (e : Env K) (x0 : List K) (calls : List (St K)) (s : St K) : Prop where
  chain : ∀ (i : ℕ) (v w : St K), calls[i]? = some v → calls[i + 1]? = some w → Goes p e v.x w.x
  last : ∀ v : St K, calls.getLast? = some v → Goes p e v.x s.x
  first : ∀ v : St K, calls[0]? = some v → v.x = x0 ∧ Fresh v ∧ v.nFuncEvals = 0 ∧ v.nQpSolves = 0
  rest : ∀ (i : ℕ) (v : St K), calls[i + 1]? = some v → Cons e v
  now : (calls = [] ∧ s.x = x0 ∧ Fresh s ∧ s.nFuncEvals = 0 ∧ s.nQpSolves = 0) ∨ (calls ≠ [] ∧ Cons e s)
  weights : Weights p e s.coeffs

theorem Seen.congr {p : Params K} {e : Env K} {x0 : List K} {calls : List (St K)} {s t : St K} (h : Seen p e x0 calls s)
    (hx : t.x = s.x) (hc : t.costVals = s.costVals) (hv : t.cntViols = s.cntViols) (hf : t.nFuncEvals = s.nFuncEvals)
    (hq : t.nQpSolves = s.nQpSolves) (hw : Weights p e t.coeffs) : Seen p e x0 calls t := by
  refine ⟨h.chain, fun v hl => by rw [hx]; exact h.last v hl, h.first, h.rest, ?_, hw⟩
  rcases h.now with ⟨n1, n2, n3, n4, n5⟩ | ⟨n1, n2⟩
  · exact Or.inl ⟨n1, hx.trans n2, ⟨hc.trans n3.1, hv.trans n3.2⟩, hf.trans n4, hq.trans n5⟩
  · exact Or.inr ⟨n1, by unfold Cons; rw [hc, hv, hx]; exact n2⟩

/-- The call at line 754. -/
theorem Seen.push {p : Params K} {e : Env K} {x0 : List K} {calls : List (St K)} {s t : St K} (h : Seen p e x0 calls s)
    (hg : Goes p e s.x t.x) (hc : Cons e t) (hw : Weights p e t.coeffs) : Seen p e x0 (calls ++ [s]) t := by
  refine ⟨?_, ?_, ?_, ?_, Or.inr ⟨by simp, hc⟩, hw⟩
  · intro i v w hv hw'
    by_cases hi : i + 1 < calls.length
    · rw [List.getElem?_append_left (by omega)] at hv
      rw [List.getElem?_append_left hi] at hw'
      exact h.chain i v w hv hw'
    · have h2 : i + 1 = calls.length := by
        have := (List.getElem?_eq_some_iff.mp hw').1
        rw [List.length_append, List.length_singleton] at this
        omega
      rw [List.getElem?_append_left (by omega)] at hv
      rw [h2, List.getElem?_append_right (le_refl _)] at hw'
      simp only [Nat.sub_self, List.getElem?_cons_zero, Option.some.injEq] at hw'
      subst hw'
      apply h.last v
      rw [List.getLast?_eq_getElem?, ← h2]
      exact hv
  · intro v hv
    rw [List.getLast?_append, List.getLast?_singleton] at hv
    cases hv
    exact hg
  · intro v hv
    cases hcs : calls with
    | nil =>
      rw [hcs] at hv
      simp only [List.nil_append, List.getElem?_cons_zero, Option.some.injEq] at hv
      subst hv
      rcases h.now with ⟨_, n2⟩ | ⟨n1, _⟩
      · exact n2
      · exact absurd hcs n1
    | cons a l =>
      apply h.first v
      rw [hcs] at hv ⊢
      exact hv
  · intro i v hv
    by_cases hi : i + 1 < calls.length
    · rw [List.getElem?_append_left hi] at hv
      exact h.rest i v hv
    · have h2 : i + 1 = calls.length := by
        have := (List.getElem?_eq_some_iff.mp hv).1
        rw [List.length_append, List.length_singleton] at this
        omega
      rw [h2, List.getElem?_append_right (le_refl _)] at hv
      simp only [Nat.sub_self, List.getElem?_cons_zero, Option.some.injEq] at hv
      subst hv
      rcases h.now with ⟨n1, _⟩ | ⟨_, n2⟩
      · rw [n1] at h2; simp at h2
      · exact n2

theorem goes_of_tr {p : Params K} {e : Env K} {n : ℕ} {s : St K} {f : ℤ} {o : TrOut K} (h : Cons e s)
    (hw : Weights p e s.coeffs) (hr : trLoop p e n s f = some o) :
    Goes p e s.x o.st.x ∧ Cons e o.st ∧ Weights p e o.st.coeffs := by
  obtain ⟨h1, -, h3⟩ := trLoop_spec p e n s f o h hr
  refine ⟨?_, h1, ?_⟩
  · rcases C18_accepted_step p e n s f o h hr with h2 | ⟨k, b, y, a1, a2, -, a4, -⟩
    · exact Or.inl h2.1
    · exact Or.inr ⟨s.coeffs, k, b, y, hw, a1, a2, a4⟩
  · rw [(noWorse_of_tr h3).1]
    exact hw

theorem sqpLoopW_seen (p : Params K) (e : Env K) (fuel n : ℕ) (iter : ℤ) (x0 : List K) (s : St K) (calls : List (St K))
    (o : SqpOut K) (calls' : List (St K)) (h : Seen p e x0 calls s) (hr : sqpLoopW p e fuel n iter s calls = some (o, calls')) :
    (∀ t, o = .penalty t → Seen p e x0 calls' t ∧ calls' ≠ []) ∧
    (∀ r t, o = .cleanup r t → Seen p e x0 calls' t ∧ (e.clock s.clockReads ≤ p.maxTime → calls' ≠ [])) := by
  induction n generalizing iter s calls with
  | zero => simp [sqpLoopW] at hr
  | succ n ih =>
    unfold sqpLoopW at hr
    simp only at hr
    have h' : Seen p e x0 calls { s with clockReads := s.clockReads + 1 } := h.congr rfl rfl rfl rfl rfl h.weights
    by_cases c1 : p.maxTime < e.clock s.clockReads
    · simp only [c1, if_true, Option.some.injEq, Prod.mk.injEq] at hr
      obtain ⟨rfl, rfl⟩ := hr
      refine ⟨by simp, ?_⟩
      intro r t heq
      simp only [SqpOut.cleanup.injEq] at heq
      obtain ⟨-, rfl⟩ := heq
      exact ⟨h', fun hc => absurd c1 (not_lt.mpr hc)⟩
    · simp only [c1, if_false] at hr
      have hcf : Cons e { s with clockReads := s.clockReads + 1 } ∨ Fresh { s with clockReads := s.clockReads + 1 } := by
        rcases h'.now with ⟨_, _, n3, _⟩ | ⟨_, n2⟩
        · exact Or.inr n3
        · exact Or.inl n2
      obtain ⟨e1, e2, e3, e4, e5⟩ := eval_cons e _ hcf
      set s1 := evalIfNeeded e { s with clockReads := s.clockReads + 1 } with hs1
      have hw1 : Weights p e s1.coeffs := by rw [e3]; exact h.weights
      cases htr : trLoop p e fuel s1 0 with
      | none => rw [htr] at hr; cases hr
      | some o' =>
        rw [htr] at hr
        obtain ⟨g1, g2, g3⟩ := goes_of_tr e1 hw1 htr
        rw [e2] at g1
        have hs' : Seen p e x0 (calls ++ [{ s with clockReads := s.clockReads + 1 }]) o'.st := h'.push g1 g2 g3
        have hne : calls ++ [{ s with clockReads := s.clockReads + 1 }] ≠ [] := by simp
        cases o' with
        | cont t f => cases hr
        | penalty t =>
          simp only [Option.some.injEq, Prod.mk.injEq] at hr
          obtain ⟨rfl, rfl⟩ := hr
          refine ⟨fun t' heq => ?_, by simp⟩
          cases heq
          exact ⟨hs', hne⟩
        | failed t =>
          simp only [Option.some.injEq, Prod.mk.injEq] at hr
          obtain ⟨rfl, rfl⟩ := hr
          refine ⟨by simp, fun r t' heq => ?_⟩
          cases heq
          exact ⟨hs', fun _ => hne⟩
        | exit t =>
          simp only at hr
          by_cases c2 : t.box < p.minTrustBoxSize
          · rw [if_pos c2] at hr
            simp only [Option.some.injEq, Prod.mk.injEq] at hr
            obtain ⟨rfl, rfl⟩ := hr
            refine ⟨fun t' heq => ?_, by simp⟩
            cases heq
            exact ⟨hs', hne⟩
          · rw [if_neg c2] at hr
            by_cases c3 : p.maxIter ≤ iter
            · rw [if_pos c3] at hr
              simp only [Option.some.injEq, Prod.mk.injEq] at hr
              obtain ⟨rfl, rfl⟩ := hr
              refine ⟨by simp, fun r t' heq => ?_⟩
              cases heq
              exact ⟨hs', fun _ => hne⟩
            · rw [if_neg c3] at hr
              obtain ⟨i1, i2⟩ := ih (iter + 1) t _ hs' hr
              refine ⟨i1, fun r t' heq => ⟨(i2 r t' heq).1, fun _ hc => ?_⟩⟩
              exact absurd hc (ne_of_prefix (sqpLoopW_prefix hr) hne)

theorem inflate_weights (p : Params K) (e : Env K) (s : St K) (hv : s.cntViols.length = e.nCnts) (h : Weights p e s.coeffs) :
    Weights p e (inflate p s) := by
  unfold inflate
  split_ifs
  · refine ⟨by rw [List.length_zipWith, hv, h.1, min_self], ?_⟩
    intro c hc
    obtain ⟨i, hi, rfl⟩ := List.getElem_of_mem hc
    rw [List.getElem_zipWith]
    obtain ⟨j, hj⟩ := h.2 _ (List.getElem_mem (l := s.coeffs) (by rw [List.length_zipWith] at hi; omega) : s.coeffs[i]'_ ∈ _)
    split_ifs
    · exact ⟨j + 1, by rw [hj, pow_succ, mul_assoc]⟩
    · exact ⟨j, hj⟩
  · refine ⟨by rw [List.length_map, h.1], ?_⟩
    intro c hc
    obtain ⟨c', hc', rfl⟩ := List.mem_map.mp hc
    obtain ⟨j, hj⟩ := h.2 c' hc'
    exact ⟨j + 1, by rw [hj, pow_succ, mul_assoc]⟩

theorem meritLoopW_seen (p : Params K) (e : Env K) (fuel m : ℕ) (x0 : List K) (s : St K) (calls : List (St K)) (r : Status) (t : St K)
    (calls' : List (St K)) (hviols : ∀ x, (e.exactViols x).length = e.nCnts) (h : Seen p e x0 calls s)
    (hr : meritLoopW p e fuel m s calls = some ((r, t), calls')) :
    Seen p e x0 calls' t ∧ (0 < m → e.clock s.clockReads ≤ p.maxTime → calls' ≠ []) := by
  induction m generalizing s calls with
  | zero =>
    simp only [meritLoopW, Option.some.injEq, Prod.mk.injEq] at hr
    obtain ⟨⟨rfl, rfl⟩, rfl⟩ := hr
    exact ⟨h, fun hm => absurd hm (by omega)⟩
  | succ m ih =>
    unfold meritLoopW at hr
    cases hs : sqpLoopW p e fuel fuel 1 s calls with
    | none => rw [hs] at hr; cases hr
    | some oc =>
      obtain ⟨o, c⟩ := oc
      rw [hs] at hr
      obtain ⟨i1, i2⟩ := sqpLoopW_seen p e fuel fuel 1 x0 s calls o c h hs
      cases o with
      | cleanup r' t' =>
        simp only [Option.some.injEq, Prod.mk.injEq] at hr
        obtain ⟨⟨rfl, rfl⟩, rfl⟩ := hr
        exact ⟨(i2 _ _ rfl).1, fun _ => (i2 _ _ rfl).2⟩
      | penalty t' =>
        simp only at hr
        obtain ⟨j1, j2⟩ := i1 _ rfl
        split_ifs at hr with c1
        · simp only [Option.some.injEq, Prod.mk.injEq] at hr
          obtain ⟨⟨rfl, rfl⟩, rfl⟩ := hr
          exact ⟨j1, fun _ _ => j2⟩
        · have hc : Cons e t' := by
            rcases j1.now with ⟨n1, _⟩ | ⟨_, n2⟩
            · exact absurd n1 j2
            · exact n2
          have hw := inflate_weights p e t' (by rw [hc.2]; exact hviols _) j1.weights
          obtain ⟨k1, k2⟩ := ih _ _ (j1.congr (t := nextRound p t') rfl rfl rfl rfl rfl hw) hr
          exact ⟨k1, fun _ _ => ne_of_prefix (meritLoopW_prefix hr) j2⟩

/-- The run of a new or initialized optimizer. -/
theorem optimizeW_seen {p : Params K} {e : Env K} {fuel : ℕ} {x0 : List K} {box : K} {r : Result K} {vs : List (View K)}
    (hviols : ∀ x, (e.exactViols x).length = e.nCnts)
    (hr : optimizeW p e fuel .invalid 0 (initialState x0 box) = some (r, vs)) :
    ∃ calls : List (St K), Seen p e (e.closest x0) calls r.st ∧
      vs = calls.map (view .invalid 0) ++ [view r.status r.totalCost r.st] ∧
      (0 < p.maxMeritCoeffIncreases → e.clock 0 ≤ p.maxTime → calls ≠ []) := by
  unfold optimizeW at hr
  simp only at hr
  split at hr
  · cases hr
  · rename_i st s calls hm
    simp only [Option.some.injEq, Prod.mk.injEq] at hr
    obtain ⟨rfl, rfl⟩ := hr
    have h0 : Seen p e (e.closest x0) []
        { initialState x0 box with x := e.closest x0, coeffs := List.replicate e.nCnts p.initialMeritErrorCoeff, clockReads := 0 } := by
      refine ⟨by simp, by simp, by simp, by simp, Or.inl ⟨rfl, rfl, ⟨rfl, rfl⟩, rfl, rfl⟩, by simp, ?_⟩
      intro c hc
      exact ⟨0, by rw [List.eq_of_mem_replicate hc]; simp⟩
    obtain ⟨h1, h2⟩ := meritLoopW_seen p e fuel _ _ _ _ _ _ _ hviols h0 hm
    exact ⟨calls, h1, rfl, h2⟩

/-! ### Property theorems -/

/-- C164: recording what callbacks are given does not change the run: `optimizeW` returns what `optimize` returns. -/
theorem C164_same_run (p : Params K) (e : Env K) (fuel : ℕ) (r0 : Status) (c0 : K) (s0 : St K) :
    (optimizeW p e fuel r0 c0 s0).map (·.1) = optimize p e fuel s0 := by
  unfold optimizeW optimize
  simp only
  rw [← meritLoopW_fst p e fuel _ _ []]
  cases meritLoopW p e fuel p.maxMeritCoeffIncreases
    { s0 with x := e.closest s0.x, coeffs := List.replicate e.nCnts p.initialMeritErrorCoeff, clockReads := 0 } [] with
  | none => rfl
  | some o => rfl

/-- C164 (partial): the last call shows the returned result with its status and total cost; all calls before show status `INVALID` and total
cost 0; every call but the first shows the costs and violations of the point it shows.  Missing: the first call
(`C164_violated_first_call`). -/
theorem C164_views_partial (p : Params K) (e : Env K) (fuel : ℕ) (x0 : List K) (box : K) (r : Result K) (vs : List (View K))
    (hviols : ∀ x, (e.exactViols x).length = e.nCnts)
    (hr : optimizeW p e fuel .invalid 0 (initialState x0 box) = some (r, vs)) :
    vs.getLast? = some ⟨r.status, (r.st.costVals).sum, r.st.x, r.st.costVals, r.st.cntViols, r.st.nFuncEvals, r.st.nQpSolves⟩ ∧
    (∀ (i : ℕ) (v : View K), i + 1 < vs.length → vs[i]? = some v → v.status = .invalid ∧ v.totalCost = 0) ∧
    (∀ (i : ℕ) (v : View K), 0 < i → vs[i]? = some v → v.Right e) := by
  have htot : r.totalCost = r.st.costVals.sum := by
    have := C164_same_run p e fuel .invalid 0 (initialState x0 box)
    rw [hr] at this
    unfold optimize at this
    simp only [Option.map_some] at this
    split at this
    · cases this
    · simp only [Option.some.injEq] at this
      rw [this]
  obtain ⟨calls, hs, rfl, -⟩ := optimizeW_seen hviols hr
  refine ⟨by simp [view, htot], ?_, ?_⟩
  · intro i v hi hv
    rw [List.length_append, List.length_map, List.length_singleton] at hi
    rw [List.getElem?_append_left (by rw [List.length_map]; omega), List.getElem?_map] at hv
    obtain ⟨s, -, rfl⟩ := Option.map_eq_some_iff.mp hv
    exact ⟨rfl, rfl⟩
  · intro i v hi hv
    by_cases hlt : i < calls.length
    · rw [List.getElem?_append_left (by rw [List.length_map]; omega), List.getElem?_map] at hv
      obtain ⟨s, hs', rfl⟩ := Option.map_eq_some_iff.mp hv
      obtain ⟨j, rfl⟩ : ∃ j, i = j + 1 := ⟨i - 1, by omega⟩
      exact hs.rest j s hs'
    · have hlen := (List.getElem?_eq_some_iff.mp hv).1
      rw [List.length_append, List.length_map, List.length_singleton] at hlen
      have hi2 : i = calls.length := by omega
      subst hi2
      rw [List.getElem?_append_right (by rw [List.length_map]), List.length_map, Nat.sub_self] at hv
      simp only [List.getElem?_cons_zero, Option.some.injEq] at hv
      subst hv
      rcases hs.now with ⟨n1, _⟩ | ⟨_, n2⟩
      · rw [n1] at hi; simp at hi
      · exact n2

/-- C164 is violated by the first call of every run that is not over before it starts: it is made before anything is evaluated, so the vectors
of costs and violations are empty whatever the problem is. -/
theorem C164_violated_first_call (p : Params K) (e : Env K) (fuel : ℕ) (x0 : List K) (box : K) (r : Result K) (vs : List (View K))
    (hviols : ∀ x, (e.exactViols x).length = e.nCnts) (hm : 0 < p.maxMeritCoeffIncreases) (hclock : e.clock 0 ≤ p.maxTime)
    (hr : optimizeW p e fuel .invalid 0 (initialState x0 box) = some (r, vs)) :
    1 < vs.length ∧ vs[0]? = some ⟨.invalid, 0, e.closest x0, [], [], 0, 0⟩ := by
  obtain ⟨calls, hs, rfl, hne⟩ := optimizeW_seen hviols hr
  have hne := hne hm hclock
  obtain ⟨a, l, rfl⟩ := List.exists_cons_of_ne_nil hne
  refine ⟨by simp, ?_⟩
  obtain ⟨f1, ⟨f2, f3⟩, f4, f5⟩ := hs.first a rfl
  simp only [List.map_cons, List.cons_append, List.getElem?_cons_zero, view, f1, f2, f3, f4, f5]

/-- C164: the first point shown is the projected initial point, and from one call to the next the point stays or becomes the answer of a convex
problem built at it, with an exact merit that is not larger under weights the optimizer may use. -/
theorem C164_sequence (p : Params K) (e : Env K) (fuel : ℕ) (x0 : List K) (box : K) (r : Result K) (vs : List (View K))
    (hviols : ∀ x, (e.exactViols x).length = e.nCnts)
    (hr : optimizeW p e fuel .invalid 0 (initialState x0 box) = some (r, vs)) :
    (∃ v : View K, vs[0]? = some v ∧ v.x = e.closest x0) ∧
    (∀ (i : ℕ) (v w : View K), vs[i]? = some v → vs[i + 1]? = some w → Goes p e v.x w.x) := by
  obtain ⟨calls, hs, rfl, -⟩ := optimizeW_seen hviols hr
  constructor
  · cases hc : calls with
    | nil =>
      rcases hs.now with ⟨_, n2, _⟩ | ⟨n1, _⟩
      · exact ⟨_, rfl, n2⟩
      · exact absurd hc n1
    | cons a l => exact ⟨_, rfl, (hs.first a (by rw [hc]; rfl)).1⟩
  · intro i v w hv hw
    have hlen := (List.getElem?_eq_some_iff.mp hw).1
    rw [List.length_append, List.length_map, List.length_singleton] at hlen
    rw [List.getElem?_append_left (by rw [List.length_map]; omega), List.getElem?_map] at hv
    obtain ⟨s, hs', rfl⟩ := Option.map_eq_some_iff.mp hv
    by_cases hlt : i + 1 < calls.length
    · rw [List.getElem?_append_left (by rw [List.length_map]; omega), List.getElem?_map] at hw
      obtain ⟨t, ht', rfl⟩ := Option.map_eq_some_iff.mp hw
      exact hs.chain i s t hs' ht'
    · have hi2 : i + 1 = calls.length := by omega
      rw [hi2, List.getElem?_append_right (by rw [List.length_map]), List.length_map, Nat.sub_self] at hw
      simp only [List.getElem?_cons_zero, Option.some.injEq] at hw
      subst hw
      exact hs.last s (by rw [List.getLast?_eq_getElem?, ← hi2]; exact hs')

/-- C164: every point shown satisfies whatever holds for the projected initial point and for the answers of the convex problems, for example the
bounds of the variables. -/
theorem C164_inside (p : Params K) (e : Env K) (fuel : ℕ) (x0 : List K) (box : K) (r : Result K) (vs : List (View K)) (Q : List K → Prop)
    (hviols : ∀ x, (e.exactViols x).length = e.nCnts) (h0 : Q (e.closest x0))
    (hq : ∀ k x b y, Q x → e.qp k x b = some y → Q (y.take x.length))
    (hr : optimizeW p e fuel .invalid 0 (initialState x0 box) = some (r, vs)) :
    (∀ v ∈ vs, Q v.x) ∧ Q r.st.x := by
  obtain ⟨⟨v0, hv0, hx0⟩, hstep⟩ := C164_sequence p e fuel x0 box r vs hviols hr
  have hall : ∀ (i : ℕ) (v : View K), vs[i]? = some v → Q v.x := by
    intro i
    induction i with
    | zero =>
      intro v hv
      rw [hv0] at hv
      cases hv
      rw [hx0]; exact h0
    | succ i ih =>
      intro w hw
      have hlen := (List.getElem?_eq_some_iff.mp hw).1
      have hv : vs[i]? = some vs[i] := List.getElem?_eq_getElem (by omega)
      rcases hstep i _ w hv hw with hx | ⟨μ, k, b, y, -, hqp, hx, -⟩
      · rw [hx]; exact ih _ hv
      · rw [hx]; exact hq k _ b y (ih _ hv) hqp
  refine ⟨fun v hv => ?_, ?_⟩
  · obtain ⟨i, hi⟩ := List.mem_iff_getElem?.mp hv
    exact hall i v hi
  · have hl := (C164_views_partial p e fuel x0 box r vs hviols hr).1
    rw [List.getLast?_eq_getElem?] at hl
    exact hall _ _ hl

/-- C164: without constraints the total cost of the points shown never increases. -/
theorem C164_cost_descends (p : Params K) (e : Env K) (fuel : ℕ) (x0 : List K) (box : K) (r : Result K) (vs : List (View K))
    (hno : ∀ x, e.exactViols x = []) (hn : e.nCnts = 0)
    (hr : optimizeW p e fuel .invalid 0 (initialState x0 box) = some (r, vs)) (i : ℕ) (v w : View K)
    (hv : vs[i]? = some v) (hw : vs[i + 1]? = some w) :
    (e.exactCosts w.x).sum ≤ (e.exactCosts v.x).sum := by
  rcases (C164_sequence p e fuel x0 box r vs (fun x => by rw [hno, hn]; rfl) hr).2 i v w hv hw with hx | ⟨μ, k, b, y, -, -, -, hm⟩
  · rw [hx]
  · unfold exactMerit at hm
    simpa [hno] using hm

/-! ### Examples -/

/-- `exEnv` with one violation for every point. -/
def exWatch : Env ℚ := { exEnv with exactViols := fun x => [|x.getD 0 0 - 1|] }

/-- A run with three calls: the first shows no costs, the others the costs of their point. -/
example : ((optimizeW defaultParams exWatch 60 .invalid 0 (initialState [3] (1/10))).map fun r =>
    r.2.map fun v => ((v.status, v.totalCost), v.x, v.costVals ++ v.cntViols)) =
    some [((.invalid, 0), [3], []), ((.invalid, 0), [1], [1, 0]), ((.converged, 1), [1], [1, 0])] := by decide +kernel

example : (∀ x, (exWatch.exactViols x).length = exWatch.nCnts) ∧ 0 < defaultParams.maxMeritCoeffIncreases ∧
    exWatch.clock 0 ≤ defaultParams.maxTime := by
  refine ⟨fun x => rfl, ?_, ?_⟩ <;> decide +kernel

/-- No constraints: the cost falls from 9 to 1. -/
example : ((optimizeW defaultParams { exEnv with exactViols := fun _ => [], modelViols := fun _ _ => [], nCnts := 0 } 60 .invalid 0
    (initialState [3] (1/10))).map fun r => r.2.map fun v => exEnv.exactCosts v.x) = some [[9], [1], [1]] := by decide +kernel

end Verif.Legacy
