import Verif.Model.LegacySession
import Verif.Props.Legacy

/-!
C158: one `BasicTrustRegionSQP` used several times.
-/

set_option linter.unusedSectionVars false
set_option linter.unusedVariables false

namespace Verif.Legacy

universe u
variable {K : Type u} [Field K] [LinearOrder K] [IsStrictOrderedRing K]

/-! ### Specification -/

/-- Specification: a history for `n` variables in which vectors have the right length and each `optimize` has an `initialize` of its own.  The flag says
whether there was an `initialize` since the last `optimize`. -/
def Proper (n : Nat) : Bool → List (Call K) → Prop
  | _, [] => True
  | i, .setParameters _ _ :: cs => Proper n i cs
  | _, .init x :: cs => x.length = n ∧ Proper n true cs
  | i, .optimize _ :: cs => i = true ∧ Proper n false cs

/-- Specification: the records of a history, in terms of the calls only: each belongs to one `optimize`, starts from the values of the last `initialize`
(`x`) with the parameters set last (`p`), and its result is the one of a new optimizer with these parameters, initialized with these values, and with some
trust box size, which is the size set last if there was no `optimize` after that (`b`). -/
inductive Recorded (fuel : Nat) : List K → Params K → Option K → List (Call K) → List (Record K) → Prop
  | nil (x p b) : Recorded fuel x p b [] []
  | set (x p b p' b' cs rs) : Recorded fuel x p' (some b') cs rs → Recorded fuel x p b (.setParameters p' b' :: cs) rs
  | init (x p b x' cs rs) : Recorded fuel x' p b cs rs → Recorded fuel x p b (.init x' :: cs) rs
  | opt (x p b cs rs) (r : Record K) : r.params = p → r.start = x → (∀ a, b = some a → r.box = a) →
      optimize p r.env fuel (initialState x r.box) = some r.result → Recorded fuel x p none cs rs → Recorded fuel x p b (.optimize r.env :: cs) (r :: rs)

/-! ### The history -/

theorem run_records (fuel n : Nat) (hn : 0 < n) (cs : List (Call K)) : ∀ (i : Bool) (x : List K) (b : Option K) (s : Optimizer K), Proper n i cs → s.nVars = n →
    (i = true → x.length = n ∧ s.st = initialState x s.st.box) → (∀ a, b = some a → s.st.box = a) →
    s.run fuel cs = .fuel ∨ ∃ s' rs, s.run fuel cs = .ok s' ∧ s'.records = s.records ++ rs ∧ Recorded fuel x s.params b cs rs := by
  induction cs with
  | nil => intro i x b s _ _ _ _; exact .inr ⟨s, [], rfl, by simp, .nil _ _ _⟩
  | cons c cs ih =>
    intro i x b s hp hv hi hb
    cases c with
    | setParameters p b' =>
      have h1 := ih i x (some b') { s with params := p, st := { s.st with box := b' } } hp hv
        (fun h => ⟨(hi h).1, by rw [(hi h).2]; rfl⟩) (fun a ha => by cases ha; rfl)
      rcases h1 with h1 | ⟨s', rs, e1, e2, e3⟩
      · exact .inl h1
      · exact .inr ⟨s', rs, e1, e2, .set _ _ _ _ _ _ _ e3⟩
    | init x' =>
      obtain ⟨hx, hp⟩ := hp
      have hc : s.call fuel (.init x') = .ok { s with st := initialState x' s.st.box } := by
        simp only [Optimizer.call, hx, hv, if_true]
      have h1 := ih true x' b { s with st := initialState x' s.st.box } hp hv (fun _ => ⟨hx, rfl⟩) hb
      simp only [Optimizer.run, hc]
      rcases h1 with h1 | ⟨s', rs, e1, e2, e3⟩
      · exact .inl h1
      · exact .inr ⟨s', rs, e1, e2, .init _ _ _ _ _ _ e3⟩
    | optimize e =>
      obtain ⟨rfl, hp⟩ := hp
      obtain ⟨hx, hs⟩ := hi rfl
      have hne : s.st.x ≠ [] := by
        rw [hs]; show x ≠ []
        rintro rfl; simp at hx; omega
      have hsx : s.st.x = x := by rw [hs]; rfl
      cases ho : optimize s.params e fuel s.st with
      | none => exact .inl (by simp only [Optimizer.run, Optimizer.call, hne, if_false, ho])
      | some r =>
        have hc : s.call fuel (.optimize e) = .ok { s with st := r.st, records := s.records ++ [⟨s.params, s.st.box, e, s.st.x, r⟩] } := by
          simp only [Optimizer.call, hne, if_false, ho]
        have h1 := ih false x none { s with st := r.st, records := s.records ++ [⟨s.params, s.st.box, e, s.st.x, r⟩] } hp hv
          (fun h => by cases h) (fun a h => by cases h)
        simp only [Optimizer.run, hc]
        rcases h1 with h1 | ⟨s', rs, e1, e2, e3⟩
        · exact .inl h1
        · refine .inr ⟨s', _ :: rs, e1, by rw [e2]; simp, .opt _ _ _ _ _ ⟨s.params, s.st.box, e, s.st.x, r⟩ rfl hsx (fun a ha => hb a ha) ?_ e3⟩
          rw [← hs]; exact ho

/-! ### C158 -/

/-- C158: no call of a history throws; each run starts from the parameters set last and the values of its `initialize`, and gives the result of a new optimizer with
these, except that the trust box size is the one the last run left if `setParameters` was not called since.  (Partial: see `C158_violated_stale_box`.) -/
theorem C158_as_new_partial (fuel n : Nat) (hn : 0 < n) (p : Params K) (b : K) {cs : List (Call K)} (h : Proper n false cs) :
    (Optimizer.new n p b).run fuel cs = .fuel ∨ ∃ s', (Optimizer.new n p b).run fuel cs = .ok s' ∧ Recorded fuel [] p (some b) cs s'.records := by
  rcases run_records fuel n hn cs false [] (some b) (Optimizer.new n p b) h rfl (fun h => by cases h) (fun a ha => by cases ha; rfl) with
    h1 | ⟨s', rs, e1, e2, e3⟩
  · exact .inl h1
  · refine .inr ⟨s', e1, ?_⟩
    have : s'.records = rs := e2
    rw [this]; exact e3

theorem Recorded.mem {fuel : Nat} {x : List K} {p : Params K} {b : Option K} {cs : List (Call K)} {rs : List (Record K)} (h : Recorded fuel x p b cs rs) :
    ∀ r ∈ rs, optimize r.params r.env fuel (initialState r.start r.box) = some r.result := by
  induction h with
  | nil => intro r hr; cases hr
  | set _ _ _ _ _ _ _ _ ih => exact ih
  | init _ _ _ _ _ _ _ ih => exact ih
  | opt x p b cs rs r h1 h2 h3 h4 _ ih =>
    intro r' hr
    rcases List.mem_cons.1 hr with rfl | hr
    · rw [h1, h2]; exact h4
    · exact ih r' hr

/-- C158: in a history, a run whose first look at the clock is in time reports the costs and violations of the values it ends with, and `OPT_CONVERGED` only when they
satisfy the constraints. -/
theorem C158_reports (fuel n : Nat) (hn : 0 < n) (p : Params K) (b : K) {cs : List (Call K)} (h : Proper n false cs) {s' : Optimizer K}
    (hr : (Optimizer.new n p b).run fuel cs = .ok s') (r : Record K) (hm : r ∈ s'.records) (hclock : r.env.clock 0 ≤ r.params.maxTime)
    (h0 : 0 < r.params.maxMeritCoeffIncreases) :
    r.result.st.costVals = r.env.exactCosts r.result.st.x ∧ r.result.st.cntViols = r.env.exactViols r.result.st.x ∧
      r.result.totalCost = (r.env.exactCosts r.result.st.x).sum ∧
      (r.result.status = .converged → ∀ v ∈ r.env.exactViols r.result.st.x, v < r.params.cntTolerance) := by
  rcases C158_as_new_partial fuel n hn p b h with h1 | ⟨s1, e1, e2⟩
  · rw [hr] at h1; cases h1
  · rw [hr] at e1; cases e1
    have ho := e2.mem r hm
    obtain ⟨a1, a2, a3, -⟩ := C19_results_belong_to_point _ _ fuel _ _ _ hclock h0 ho
    exact ⟨a1, a2, a3, C17_converged_sound_partial _ _ fuel _ _ _ hclock ho⟩

/-- C158: all calls of a history return. -/
theorem C158_returns [Archimedean K] (n : Nat) (hn : 0 < n) (cs : List (Call K)) : ∀ (s : Optimizer K) (i : Bool), Proper n i cs → s.nVars = n → (i = true → s.st.x.length = n) →
    0 < s.params.minTrustBoxSize ∧ s.params.trustShrinkRatio < 1 →
    (∀ p b, Call.setParameters p b ∈ cs → 0 < p.minTrustBoxSize ∧ p.trustShrinkRatio < 1) → ∃ F s', ∀ fuel, F ≤ fuel → s.run fuel cs = .ok s' := by
  induction cs with
  | nil => intro s i _ _ _ _ _; exact ⟨0, s, fun _ _ => rfl⟩
  | cons c cs ih =>
    intro s i hp hv hx hpar hall
    have hall' : ∀ p b, Call.setParameters p b ∈ cs → 0 < p.minTrustBoxSize ∧ p.trustShrinkRatio < 1 := fun p b hm => hall p b (List.mem_cons_of_mem _ hm)
    cases c with
    | setParameters p b =>
      obtain ⟨F, s', hF⟩ := ih { s with params := p, st := { s.st with box := b } } i hp hv hx (hall p b List.mem_cons_self) hall'
      exact ⟨F, s', hF⟩
    | init x =>
      obtain ⟨hl, hp⟩ := hp
      obtain ⟨F, s', hF⟩ := ih { s with st := initialState x s.st.box } true hp hv (fun _ => hl) hpar hall'
      refine ⟨F, s', fun fuel hf => ?_⟩
      have hc : s.call fuel (.init x) = .ok { s with st := initialState x s.st.box } := by simp only [Optimizer.call, hl, hv, if_true]
      simp only [Optimizer.run, hc]
      exact hF fuel hf
    | optimize e =>
      obtain ⟨rfl, hp⟩ := hp
      have hne : s.st.x ≠ [] := by intro hc; have := hx rfl; rw [hc] at this; simp at this; omega
      obtain ⟨F1, r, hF1⟩ := C20_optimize_terminates s.params e hpar.1 hpar.2 s.st
      obtain ⟨F, s', hF⟩ := ih { s with st := r.st, records := s.records ++ [⟨s.params, s.st.box, e, s.st.x, r⟩] } false hp hv (fun h => by cases h) hpar hall'
      refine ⟨max F1 F, s', fun fuel hf => ?_⟩
      simp only [Optimizer.run, Optimizer.call, hne, if_false, hF1 fuel ((le_max_left _ _).trans hf)]
      exact hF fuel ((le_max_right _ _).trans hf)

theorem maxCoeff_lt (c : K) (v : K) (vs : List K) (h : ∀ a ∈ v :: vs, a < c) : Sqp.maxCoeff v vs < c := by
  unfold Sqp.maxCoeff
  induction vs generalizing v with
  | nil => exact h v List.mem_cons_self
  | cons a l ih =>
    simp only [List.foldl_cons]
    refine ih _ fun b hb => ?_
    rcases List.mem_cons.1 hb with rfl | hb
    · exact max_lt (h v (by simp)) (h a (by simp))
    · exact h b (by simp [hb])

/-- C158 is violated when only `initialize` is called before the next run and the last run left a trust box below `min_trust_box_size`: whatever the costs are, the
next run solves no QP, returns its (feasible) initial values and says `OPT_CONVERGED`. -/
theorem C158_violated_stale_box (fuel : Nat) (s : Optimizer K) (x : List K) (e : Env K) (hx : x.length = s.nVars) (hn : 0 < s.nVars)
    (hbox : s.st.box < s.params.minTrustBoxSize) (h0 : 0 < s.params.maxMeritCoeffIncreases) (hclock : e.clock 0 ≤ s.params.maxTime)
    (hfeas : ∀ v ∈ e.exactViols (e.closest x), v < s.params.cntTolerance) :
    ∃ s' r, s.run (fuel + 1) [.init x, .optimize e] = .ok s' ∧ s'.records = s.records ++ [r] ∧ r.result.status = .converged ∧
      r.result.st.nQpSolves = 0 ∧ r.result.st.x = e.closest x := by
  obtain ⟨m, hm⟩ : ∃ m, s.params.maxMeritCoeffIncreases = m + 1 := ⟨s.params.maxMeritCoeffIncreases - 1, by omega⟩
  have hne : x ≠ [] := by rintro rfl; simp at hx; omega
  have hsat : satisfied s.params (e.exactViols (e.closest x)) = true := by
    unfold satisfied
    cases hv : e.exactViols (e.closest x) with
    | nil => rfl
    | cons v vs =>
      rw [hv] at hfeas
      simp only [decide_eq_true_eq]
      exact maxCoeff_lt _ v vs hfeas
  set r : Result K := ⟨.converged, { x := e.closest x, costVals := e.exactCosts (e.closest x), cntViols := e.exactViols (e.closest x), nFuncEvals := 1, nQpSolves := 0
                                     box := s.st.box, coeffs := List.replicate e.nCnts s.params.initialMeritErrorCoeff, clockReads := 1 },
                       (e.exactCosts (e.closest x)).sum⟩ with hr
  have ho : optimize s.params e (fuel + 1) (initialState x s.st.box) = some r := by
    unfold optimize
    rw [hm, hr]
    simp [meritLoop, sqpLoop, initialState, not_lt.2 hclock, evalIfNeeded, trLoop, not_le.2 hbox, hbox, hsat]
  refine ⟨{ s with st := r.st, records := s.records ++ [⟨s.params, s.st.box, e, x, r⟩] }, ⟨s.params, s.st.box, e, x, r⟩, ?_, rfl, rfl, rfl, rfl⟩
  have hc : s.call (fuel + 1) (.init x) = .ok { s with st := initialState x s.st.box } := by simp only [Optimizer.call, hx, if_true]
  have hd : ({ s with st := initialState x s.st.box } : Optimizer K).call (fuel + 1) (.optimize e) =
      .ok { s with st := r.st, records := s.records ++ [⟨s.params, s.st.box, e, x, r⟩] } := by
    have h1 : (initialState x s.st.box).x = x := rfl
    simp only [Optimizer.call, h1, hne, if_false, ho]
    rfl
  simp only [Optimizer.run]
  rw [hc]
  simp only
  rw [hd]

/-! ### Examples -/

/-- Cost `x²` without constraints; the model of the cost promises `0` at the QP's answer `x / 2`, so that no step is accepted. -/
def staleEnv : Env ℚ :=
  { nCnts := 0, closest := id, exactCosts := fun x => x.map fun v => v * v, exactViols := fun _ => [], modelCosts := fun _ _ => [0], modelViols := fun _ _ => []
    qp := fun _ x _ => some (x.map fun v => v + 1), clock := fun _ => 0 }

/-- One variable; the second and third run use the values of the example environment. -/
def exCalls : List (Call ℚ) :=
  [.init [3], .optimize exEnv, .setParameters defaultParams (1 / 10), .init [3], .optimize staleEnv, .init [5], .optimize exEnv]

example : Proper 1 false exCalls := ⟨rfl, rfl, rfl, rfl, rfl, rfl, trivial⟩

/-- The stale trust box occurs: the second run ends with a box below `min_trust_box_size`; the third, from `7`, solves no QP. -/
example : (match (Optimizer.new 1 defaultParams (1 / 10)).run 60
      [.init [3], .optimize exEnv, .init [3], .optimize staleEnv, .init [7], .optimize { exEnv with nCnts := 0, exactViols := fun _ => [] }] with
    | .ok s => s.records.map fun r => (r.result.status, r.result.st.x, r.result.st.nQpSolves, decide (r.result.st.box < 1 / 10000))
    | _ => []) = [(.converged, [1], 2, false), (.converged, [3], 4, true), (.converged, [7], 0, true)] := by decide +kernel

end Verif.Legacy
