import Verif.Props.SqpRunSim

/-!
Whole runs of `TrustRegionSQPSolver::solve` on a conforming problem.
-/

set_option linter.unusedSectionVars false
set_option linter.unusedVariables false

namespace Verif.SqpRun

open Verif.Sqp (Params Status Env St dot tiny)
open Verif.OsqpEigen (Problem Solver Qp Outcome Fine Consistent Holds posed)

universe u v
variable {K : Type u} {S : Type v} [Field K] [LinearOrder K] [IsStrictOrderedRing K]
variable {P : QPProblem K S} {C : Meaning K S} {o : World K} {p : Params K}

/-- What a run from `s0` guarantees. -/
def SimSolve (P : QPProblem K S) (C : Meaning K S) (o : World K) (s0 : S) (a : Env K → Option (St K)) : Out K S (Run K S) → Prop
  | .fail => False
  | .ok w' => Good P C o w' ∧ ∀ e, Agree C o e w'.log → e.x0 = P.getVariableValues s0 →
      ∃ b g, w'.res.box = List.replicate C.n b ∧ a e = some (abs P w' b g)
  | .fuel w' => Good P C o w' ∧ ∀ e, Agree C o e w'.log → e.x0 = P.getVariableValues s0 → a e = none

theorem solve_sim (L : Lawful P C) (hp : Sane p) (ho : o.Sized) (fuel : Nat) (s0 : S) (hs : C.Inv s0) (qps : Solver K) (hq : Consistent qps)
    (hu : qps.status ≠ .uninitialized → 0 < qps.nVars ∧ (qps.nVars = (P.qp s0).nv → qps.nCnts = (P.qp s0).nc)) : SimSolve P C o s0 (fun e => Sqp.solve p e fuel) (solve P p o fuel s0 qps) := by
  obtain ⟨s, a1, a2⟩ := init_good (o := o) L hp s0 hs qps hq hu
  obtain ⟨z1, z2, z3⟩ := L.sizes s0 hs
  obtain ⟨x1, x2⟩ := L.exact s0 hs
  have hv : P.getVariableValues s = P.getVariableValues s0 := by
    have := a1.vars
    simp only [initialResults] at this
    rw [this, ← z3, List.take_length]
  have hi : ∀ e, Agree C o e [] → e.x0 = P.getVariableValues s0 → ∃ g, Sqp.init p e = abs P { start P p s0 qps with
        prob := s
        res := { initialResults P p s0 with
          box := List.replicate C.n p.initialTrustBoxSize
          bestExactMerit := (initialResults P p s0).bestCosts.sum + dot (initialResults P p s0).bestViols (initialResults P p s0).coeffs } } p.initialTrustBoxSize g := by
    intro e ha hx
    refine ⟨⟨P.getVariableValues s0, List.replicate C.m p.initialMeritErrorCoeff, [], 0, []⟩, ?_⟩
    simp only [Sqp.init, Sqp.constraintMeritCoeffChanged, Sqp.setBoxSize, Sqp.readBox, Sqp.probSetBoxSize, abs, initialResults, start, hx, ha.nCnts,
      ha.costs, ha.viols, x1, x2, z2, hv]
  simp only [solve, a2]
  have hrec := fun g => penaltyLoop_sim L hp ho fuel p.maxMeritCoeffIncreases 0 a1 p.initialTrustBoxSize rfl g
  cases hout : penaltyLoop P p o fuel p.maxMeritCoeffIncreases 0 _ with
  | fail => have := hrec ⟨[], [], [], 0, []⟩; rw [hout] at this; exact this
  | fuel w' =>
    have h0 := hrec ⟨[], [], [], 0, []⟩; rw [hout] at h0
    refine ⟨h0.1, fun e ha hx => ?_⟩
    obtain ⟨g, hg⟩ := hi e (ha.prefix (List.nil_prefix)) hx
    have h1 := hrec g; rw [hout] at h1
    have h2 := h1.2.2 e ha
    simp only at h2
    simp only [Sqp.solve, hg, h2]
  | ok w' =>
    have h0 := hrec ⟨[], [], [], 0, []⟩; rw [hout] at h0
    obtain ⟨g1, -, -⟩ := h0
    obtain ⟨t, b1, b2, b3, b4, b5, b6, b7, b8, b9, b10, b11⟩ := L.setVars w'.prob w'.res.bestVars g1.inv g1.best
    simp only [finish, b1]
    refine ⟨⟨⟨b2, b3, g1.best, b4.trans g1.box, g1.flat, g1.viols, g1.costs, g1.cnts, g1.cons,
      fun hu => by rw [b6.1, b6.2.1]; exact g1.dims hu, g1.len, g1.entries, g1.sent⟩,
      b5.trans g1.mu, g1.coeffs, g1.nonneg, g1.merit⟩, fun e ha hx => ?_⟩
    obtain ⟨g, hg⟩ := hi e (ha.prefix (List.nil_prefix)) hx
    have h1 := hrec g; rw [hout] at h1
    obtain ⟨b', g', hb', hg'⟩ := h1.2.2 e ha
    refine ⟨b', g', hb', ?_⟩
    simp only at hg'
    simp only [Sqp.solve, hg, hg']
    have hst : (abs P w' b' g').status = w'.status := rfl
    simp only [hst, Sqp.setVariables, ha.nVars]
    by_cases hr : w'.status = .running
    · simp only [hr, if_true, abs, b3]
    · simp only [hr, if_false, abs, b3]

/-! ### Every run ends -/

theorem trLoop_mono (n m : Nat) (w : Run K S) (f : ℤ) (w' : Run K S) (hnm : n ≤ m) (h : trLoop P p o n w f = .ok w') :
    trLoop P p o m w f = .ok w' := by
  induction n generalizing w f m with
  | zero => simp [trLoop] at h
  | succ n ih =>
    obtain ⟨m, rfl⟩ : ∃ k, m = k + 1 := ⟨m - 1, by omega⟩
    unfold trLoop at h ⊢
    cases hb : maxOf w.res.box with
    | none => rw [hb] at h; cases h
    | some b =>
      rw [hb] at h
      simp only at h ⊢
      by_cases hle : p.minTrustBoxSize ≤ b
      · rw [if_pos hle] at h ⊢
        cases ht : trBody P p o w f with
        | none => rw [ht] at h; cases h
        | some r =>
          rw [ht] at h
          cases r with
          | cont t f' => exact ih m t f' (by omega) h
          | done t => exact h
      · rw [if_neg hle] at h ⊢; exact h

section archimedean
variable [Archimedean K]

theorem trLoop_ends (L : Lawful P C) (hp : Sane p) (ho : o.Sized) (hmin : 0 < p.minTrustBoxSize) (hs1 : p.trustShrinkRatio < 1)
    {w : Run K S} (h : Loop P C o w) (f : ℤ) : ∃ F w', ∀ fuel, F ≤ fuel → trLoop P p o fuel w f = .ok w' := by
  obtain ⟨b, -, hb⟩ := h.flat
  obtain ⟨N, hN⟩ := Sqp.exists_shrink_count p hmin hp.shrink hs1 b
  have hs := trLoop_sim L hp ho (N + 2) w h b hb f ⟨P.getVariableValues w.prob, w.res.coeffs, P.getVariableValues w.prob, b, []⟩
  cases hout : trLoop P p o (N + 2) w f with
  | fail => rw [hout] at hs; exact hs.elim
  | ok w' => exact ⟨N + 2, w', fun fuel hf => trLoop_mono _ _ w f w' hf hout⟩
  | fuel w' =>
    rw [hout] at hs
    have ha := oracle_agree (C := C) (o := o) [] w'.log
    have h0 := hs.2.2 _ ha
    have hi : Sqp.LoopInv (oracle C o [] w'.log) (abs P w b ⟨P.getVariableValues w.prob, w.res.coeffs, P.getVariableValues w.prob, b, []⟩) :=
      ⟨⟨h.vars, h.costs, h.cnts, by
        have hm := h.merit
        rw [h.costs, h.cnts] at hm
        exact hm, rfl, rfl, by simp [abs]⟩, h.vars, rfl⟩
    obtain ⟨s', e1, -⟩ := Sqp.C25_trust_loop_bound p _ hmin hs1 N _ f hi hN
    have h1 := h0.symm.trans e1
    cases h1

theorem step_ends (L : Lawful P C) (hp : Sane p) (ho : o.Sized) (hmin : 0 < p.minTrustBoxSize) (hs1 : p.trustShrinkRatio < 1)
    {w : Run K S} (h : Good P C o w) : ∃ F r, ∀ fuel, F ≤ fuel → stepSQPSolver P p o fuel w = .ok r := by
  obtain ⟨s, q, a1, a2, a3⟩ := convexifyAndSend_loop (o := o) L
    (w := { w with res := { w.res with convexifyIteration := w.res.convexifyIteration + 1 } }) h.frame
  obtain ⟨F, w', hF⟩ := trLoop_ends L hp ho hmin hs1 (w := { w with prob := s, qps := q, sent := w.sent ++ [P.qp s], res := { w.res with convexifyIteration := w.res.convexifyIteration + 1, trustRegionIteration := 0 } }) a3.frame 0
  have hk : ∀ fuel, F ≤ fuel → stepSQPSolver P p o fuel w = stepEnd p w' := fun fuel hf => by
    simp only [stepSQPSolver, a1, hF fuel hf]
  have hsim := step_sim L hp ho F h (h.flat.choose) h.flat.choose_spec.2 ⟨[], [], [], 0, []⟩
  rw [hk F le_rfl] at hsim
  cases hr : stepEnd p w' with
  | fail => rw [hr] at hsim; exact hsim.elim
  | fuel w2 =>
    exfalso
    unfold stepEnd at hr
    split_ifs at hr
    split at hr
    · cases hr
    · split_ifs at hr
  | ok r => exact ⟨F, r, fun fuel hf => (hk fuel hf).trans hr⟩

theorem convexLoop_ends (L : Lawful P C) (hp : Sane p) (ho : o.Sized) (hmin : 0 < p.minTrustBoxSize) (hs1 : p.trustShrinkRatio < 1)
    (k : Nat) : ∀ {w : Run K S} (_ : Good P C o w), ∃ F r, ∀ fuel, F ≤ fuel → convexLoop P p o fuel k w = .ok r := by
  induction k with
  | zero => intro w h; exact ⟨0, w, fun _ _ => rfl⟩
  | succ k ih =>
    intro w h
    have h0 : Good P C o { w with clockReads := w.clockReads + 1 } := h.frame
    by_cases c1 : p.maxTime < o.clock w.clockReads
    · exact ⟨0, _, fun fuel _ => by simp only [convexLoop, c1, if_true]; rfl⟩
    by_cases c2 : p.maxIterations ≤ (w.res.overallIteration : ℤ)
    · exact ⟨0, _, fun fuel _ => by simp only [convexLoop, c1, c2, if_true, if_false]; rfl⟩
    obtain ⟨F, ⟨t, d⟩, hF⟩ := step_ends L hp ho hmin hs1 h0
    cases d with
    | true => exact ⟨F, t, fun fuel hf => by simp only [convexLoop, c1, c2, if_false, hF fuel hf]⟩
    | false =>
      have hsim := step_sim L hp ho F h0 (h0.flat.choose) h0.flat.choose_spec.2 ⟨[], [], [], 0, []⟩
      rw [hF F le_rfl] at hsim
      obtain ⟨G, r, hG⟩ := ih hsim.1
      refine ⟨max F G, r, fun fuel hf => ?_⟩
      simp only [convexLoop, c1, c2, if_false, hF fuel ((le_max_left _ _).trans hf)]
      exact hG fuel ((le_max_right _ _).trans hf)

theorem penaltyLoop_ends (L : Lawful P C) (hp : Sane p) (ho : o.Sized) (hmin : 0 < p.minTrustBoxSize) (hs1 : p.trustShrinkRatio < 1)
    (m : Nat) : ∀ (i : Nat) {w : Run K S} (_ : Good P C o w), ∃ F r, ∀ fuel, F ≤ fuel → penaltyLoop P p o fuel m i w = .ok r := by
  induction m with
  | zero => intro i w h; exact ⟨0, w, fun _ _ => rfl⟩
  | succ m ih =>
    intro i w h
    have h0 : Good P C o { w with res := { w.res with penaltyIteration := i, convexifyIteration := 0 } } := h.frame
    obtain ⟨F, t, hF⟩ := convexLoop_ends L hp ho hmin hs1 99 h0
    have hsim := convexLoop_sim L hp ho F 99 h0 (h0.flat.choose) h0.flat.choose_spec.2 ⟨[], [], [], 0, []⟩
    rw [hF F le_rfl] at hsim
    by_cases v1 : verifyConvergence p t.res = true
    · exact ⟨F, _, fun fuel hf => by simp only [penaltyLoop, hF fuel hf, v1, if_true]; rfl⟩
    by_cases v2 : t.status = .iterationLimit ∨ t.status = .timeLimit
    · exact ⟨F, t, fun fuel hf => by simp only [penaltyLoop, hF fuel hf, v1, v2, if_true, if_false, Bool.false_eq_true]⟩
    have ht : Good P C o { t with status := .running } := hsim.1.frame
    obtain ⟨w3, d1, d2, -⟩ := adjustPenalty_good L hp ht ht.flat.choose ht.flat.choose_spec.2
    obtain ⟨G, r, hG⟩ := ih (i + 1) d2
    refine ⟨max F G, r, fun fuel hf => ?_⟩
    simp only [penaltyLoop, hF fuel ((le_max_left _ _).trans hf), v1, v2, if_false, Bool.false_eq_true, d1]
    exact hG fuel ((le_max_right _ _).trans hf)

/-- Every run ends, without failing. -/
theorem solve_ends (L : Lawful P C) (hp : Sane p) (ho : o.Sized) (hmin : 0 < p.minTrustBoxSize) (hs1 : p.trustShrinkRatio < 1)
    (s0 : S) (hs : C.Inv s0) (qps : Solver K) (hq : Consistent qps) (hu : qps.status ≠ .uninitialized → 0 < qps.nVars ∧ (qps.nVars = (P.qp s0).nv → qps.nCnts = (P.qp s0).nc)) :
    ∃ F w, ∀ fuel, F ≤ fuel → solve P p o fuel s0 qps = .ok w := by
  obtain ⟨s, a1, a2⟩ := init_good (o := o) L hp s0 hs qps hq hu
  obtain ⟨F, w, hF⟩ := penaltyLoop_ends L hp ho hmin hs1 p.maxMeritCoeffIncreases 0 a1
  have hk : ∀ fuel, F ≤ fuel → solve P p o fuel s0 qps = finish P w := fun fuel hf => by
    simp only [solve, a2, hF fuel hf]
  have hsim := solve_sim L hp ho F s0 hs qps hq hu
  rw [hk F le_rfl] at hsim
  cases hr : finish P w with
  | fail => rw [hr] at hsim; exact hsim.elim
  | fuel w2 =>
    exfalso
    unfold finish at hr
    split at hr <;> cases hr
  | ok r => exact ⟨F, r, fun fuel hf => (hk fuel hf).trans hr⟩

end archimedean

end Verif.SqpRun
