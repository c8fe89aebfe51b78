import Verif.Props.SqpRunMain

/-!
Two runs of `TrustRegionSQPSolver::solve` on the same problem with different QP solver objects (new, or left behind by earlier runs) take the
same course, if OSQP's answers depend on the program only.
-/

set_option linter.unusedSectionVars false
set_option linter.unusedVariables false

namespace Verif.SqpRun

open Verif.Sqp (Params Status Env St dot tiny)
open Verif.OsqpEigen (Problem Solver Qp Outcome Fine Consistent Holds posed)

universe u v
variable {K : Type u} {S : Type v} [Field K] [LinearOrder K] [IsStrictOrderedRing K]

/-- Specification: the same state of a run, up to the QP solver object. -/
def Twin (w w' : Run K S) : Prop := ∃ q, w' = { w with qps := q }

/-- Specification: the same outcome, up to the QP solver object, and not a failure. -/
def TwinOut : Out K S (Run K S) → Out K S (Run K S) → Prop
  | .ok a, .ok b => Twin a b
  | .fuel a, .fuel b => Twin a b
  | _, _ => False

/-- The same for a step. -/
def TwinStep : Out K S (Run K S × Bool) → Out K S (Run K S × Bool) → Prop
  | .ok a, .ok b => Twin a.1 b.1 ∧ a.2 = b.2
  | .fuel a, .fuel b => Twin a b
  | _, _ => False

/-- The same for one pass through the trust-region loop. -/
def TwinTr : TrOut K S → TrOut K S → Prop
  | .cont a f, .cont b g => Twin a b ∧ f = g
  | .done a, .done b => Twin a b
  | _, _ => False

variable {P : QPProblem K S} {C : Meaning K S} {o : World K} {p : Params K}

theorem Twin.rfl' (w : Run K S) : Twin w w := ⟨w.qps, rfl⟩

theorem setBoxSize_twin (b : K) {w w' : Run K S} (h : Twin w w') {r r' : Run K S} (e : setBoxSize P b w = some r) (e' : setBoxSize P b w' = some r') :
    Twin r r' := by
  obtain ⟨q, rfl⟩ := h
  simp only [setBoxSize] at e e'
  cases hs : P.setBoxSize (List.replicate (P.getNumNLPVars w.prob) b) w.prob with
  | none => rw [hs] at e; cases e
  | some s => rw [hs] at e e'; cases e; cases e'; exact ⟨q, rfl⟩

theorem merit_twin {w w' : Run K S} (h : Twin w w') {r r' : Run K S} (e : constraintMeritCoeffChanged P w = some r)
    (e' : constraintMeritCoeffChanged P w' = some r') : Twin r r' := by
  obtain ⟨q, rfl⟩ := h
  simp only [constraintMeritCoeffChanged] at e e'
  cases hs : P.setConstraintMeritCoeff w.res.coeffs w.prob with
  | none => rw [hs] at e; cases e
  | some s =>
    rw [hs] at e e'
    simp only at e e'
    by_cases hl : w.res.bestViols.length = w.res.coeffs.length
    · rw [if_pos hl] at e e'; cases e; cases e'; exact ⟨q, rfl⟩
    · rw [if_neg hl] at e; cases e

theorem sendBounds_twin {w w' : Run K S} (h : Twin w w') {r r' : Run K S} (e : sendBounds P w = some r) (e' : sendBounds P w' = some r') : Twin r r' := by
  obtain ⟨q, rfl⟩ := h
  simp only [sendBounds] at e e'
  split at e
  · cases e
  · split at e'
    · cases e'
    · cases e; cases e'; exact ⟨_, rfl⟩

theorem scaleBox_twin (a : K) {w w' : Run K S} (h : Twin w w') {r r' : Run K S} (e : scaleBox P a w = some r) (e' : scaleBox P a w' = some r') :
    Twin r r' := by
  obtain ⟨q, rfl⟩ := h
  simp only [scaleBox] at e e'
  cases hs : P.scaleBoxSize a w.prob with
  | none => rw [hs] at e; cases e
  | some s => rw [hs] at e e'; exact sendBounds_twin ⟨q, rfl⟩ e e'

theorem minimalBox_twin {w w' : Run K S} (h : Twin w w') {r r' : Run K S} (e : minimalBox P p w = some r) (e' : minimalBox P p w' = some r') :
    Twin r r' := by
  obtain ⟨q, rfl⟩ := h
  simp only [minimalBox] at e e'
  cases hs : P.setBoxSize (List.replicate (P.getNumNLPVars w.prob) p.minTrustBoxSize) w.prob with
  | none => rw [hs] at e; cases e
  | some s => rw [hs] at e e'; exact sendBounds_twin ⟨q, rfl⟩ e e'

theorem accept_twin {w w' : Run K S} (h : Twin w w') {r r' : Run K S} (e : accept P p w = some r) (e' : accept P p w' = some r') : Twin r r' := by
  obtain ⟨q, rfl⟩ := h
  simp only [accept] at e e'
  cases hs : P.setVariables w.res.newVars w.prob with
  | none => rw [hs] at e; cases e
  | some s => rw [hs] at e e'; exact scaleBox_twin _ ⟨q, rfl⟩ e e'

theorem map_cont {x x' : Option (Run K S)} {f : ℤ} {r r' : TrOut K S} (ht : ∀ a a', x = some a → x' = some a' → Twin a a')
    (e : x.map (fun w => TrOut.cont w f) = some r) (e' : x'.map (fun w => TrOut.cont w f) = some r') : TwinTr r r' := by
  cases x with
  | none => cases e
  | some a => cases x' with
    | none => cases e'
    | some a' => cases e; cases e'; exact ⟨ht a a' rfl rfl, rfl⟩

theorem afterFailure_twin {w w' : Run K S} (h : Twin w w') (f : ℤ) {r r' : TrOut K S} (e : afterFailure P p w f = some r)
    (e' : afterFailure P p w' f = some r') : TwinTr r r' := by
  unfold afterFailure at e e'
  by_cases h1 : f + 1 < p.maxQpSolverFailures
  · rw [if_pos h1] at e e'
    exact map_cont (fun a a' ha ha' => scaleBox_twin _ h ha ha') e e'
  · rw [if_neg h1] at e e'
    by_cases h2 : f + 1 = p.maxQpSolverFailures
    · rw [if_pos h2] at e e'
      exact map_cont (fun a a' ha ha' => minimalBox_twin h ha ha') e e'
    · rw [if_neg h2] at e e'
      cases e; cases e'; exact h

theorem afterSuccess_twin {w w' : Run K S} (h : Twin w w') (f : ℤ) {r r' : TrOut K S} (e : afterSuccess P p w f = some r)
    (e' : afterSuccess P p w' f = some r') : TwinTr r r' := by
  have h0 := h
  obtain ⟨q, rfl⟩ := h
  unfold afterSuccess at e e'
  simp only at e'
  by_cases h1 : w.res.approxImprove < p.minApproxImprove
  · rw [if_pos h1] at e e'; cases e; cases e'; exact ⟨q, rfl⟩
  rw [if_neg h1] at e e'
  by_cases h2 : w.res.approxImprove / max |w.res.bestExactMerit| tiny < p.minApproxImproveFrac
  · rw [if_pos h2] at e e'; cases e; cases e'; exact ⟨q, rfl⟩
  rw [if_neg h2] at e e'
  by_cases h3 : w.res.exactImprove < 0 ∨ w.res.improveRatio < p.improveRatioThreshold
  · rw [if_pos h3] at e e'
    exact map_cont (fun a a' ha ha' => scaleBox_twin _ h0 ha ha') e e'
  · rw [if_neg h3] at e e'
    cases hx : accept P p w with
    | none => rw [hx] at e; cases e
    | some a => cases hx' : accept P p { w with qps := q } with
      | none => rw [hx'] at e'; cases e'
      | some a' =>
        rw [hx] at e; rw [hx'] at e'
        cases e; cases e'
        exact accept_twin h0 hx hx'

theorem solve_held (f : Qp K → Option (List K)) (s : Solver K) (q : Problem K) (h : Holds s q) :
    (s.solve true f).1 = f (posed q) ∧ (s.solve true f).2.1 = some (posed q) := by
  have h1 := h.held
  unfold Solver.solve
  cases hw : s.work with
  | some w =>
    simp only [hw] at h1
    simp only [h1]
    cases f (posed q) <;> exact ⟨rfl, rfl⟩
  | none =>
    simp only [hw] at h1
    simp only [h1, if_true]
    cases f (posed q) <;> exact ⟨rfl, rfl⟩

theorem solveQP_twin {w w' : Run K S} (h : Twin w w') {q : Problem K} (hh : Holds w.qps q) (hh' : Holds w'.qps q) (hi : ∀ k, o.initOk k = true)
    {r r' : Run K S × Status} (e : solveQPProblem P o w = some r) (e' : solveQPProblem P o w' = some r') : Twin r.1 r'.1 ∧ r.2 = r'.2 := by
  obtain ⟨s, rfl⟩ := h
  simp only [solveQPProblem] at e e'
  rw [hi] at e e'
  obtain ⟨a1, a2⟩ := solve_held (o.answer w.res.overallIteration) _ _ hh
  obtain ⟨b1, b2⟩ := solve_held (o.answer w.res.overallIteration) _ _ hh'
  rw [a1, a2] at e
  rw [b1, b2] at e'
  cases ha : o.answer w.res.overallIteration (posed q) with
  | none =>
    simp only [ha] at e e'
    cases hs : P.setVariables w.res.bestVars w.prob with
    | none => rw [hs] at e; cases e
    | some s => rw [hs] at e e'; cases e; cases e'; exact ⟨⟨_, rfl⟩, rfl⟩
  | some y =>
    simp only [ha] at e e'
    cases hs : P.setVariables y w.prob with
    | none => rw [hs] at e; cases e
    | some t =>
      simp only [hs] at e e'
      cases hc : P.evaluateConvexCosts y t with
      | none => rw [hc] at e; cases e
      | some cc =>
        simp only [hc] at e e'
        by_cases hl : (P.evaluateConvexConstraintViolations y t).length = w.res.coeffs.length ∧
            (P.getExactConstraintViolations t).length = w.res.coeffs.length
        · rw [if_pos hl] at e e'
          cases hb : P.setVariables w.res.bestVars t with
          | none => rw [hb] at e; cases e
          | some s => rw [hb] at e e'; cases e; cases e'; exact ⟨⟨_, rfl⟩, rfl⟩
        · rw [if_neg hl] at e; cases e

/-- All programs in reach are fine. -/
def AllFine (P : QPProblem K S) (C : Meaning K S) : Prop :=
  ∀ s, C.Inv s → C.Asm s → (∀ b ∈ P.getBoxSize s, 0 ≤ b) → (P.getBoxSize s).length = C.n → Fine (P.qp s)

theorem Good.fine {w : Run K S} (h : Good P C o w) (hF : AllFine P C) : ∀ q ∈ w.sent, Fine q := by
  intro q hq
  obtain ⟨s, a1, a2, a3, a4, rfl⟩ := h.sent q hq
  exact hF s a1 a2 a3 a4

theorem trBody_twin (hF : AllFine P C) (hi : ∀ k, o.initOk k = true) {w w' : Run K S} (h : Twin w w')
    (hw : Loop P C o w) (hw' : Loop P C o w') (f : ℤ) {r r' : TrOut K S} (e : trBody P p o w f = some r) (e' : trBody P p o w' f = some r') : TwinTr r r' := by
  have H := hw.holds (hw.toGood.fine hF)
  have H' := hw'.holds (hw'.toGood.fine hF)
  obtain ⟨s, rfl⟩ := h
  simp only [trBody] at e e'
  split at e
  · cases e
  · rename_i r1 h1
    split at e'
    · cases e'
    · rename_i r2 h2
      obtain ⟨⟨q, t1⟩, t2⟩ := solveQP_twin (w := { w with res := { w.res with overallIteration := w.res.overallIteration + 1, trustRegionIteration := w.res.trustRegionIteration + 1 } }) ⟨s, rfl⟩ H H' hi h1 h2
      rw [← t2] at e'
      by_cases c1 : r1.2 = .stoppedByCallback
      · rw [if_pos c1] at e e'; cases e; cases e'; exact ⟨q, by rw [t1]⟩
      rw [if_neg c1] at e e'
      by_cases c2 : r1.2 ≠ .running
      · rw [if_pos c2] at e e'
        exact afterFailure_twin ⟨q, by rw [t1]⟩ f e e'
      · rw [if_neg c2] at e e'
        exact afterSuccess_twin ⟨q, by rw [t1]⟩ f e e'

theorem trLoop_twin (L : Lawful P C) (hp : Sane p) (ho : o.Sized) (hF : AllFine P C) (hi : ∀ k, o.initOk k = true) (n : Nat) : ∀ (w w' : Run K S),
    Twin w w' → Loop P C o w → Loop P C o w' → ∀ f, TwinOut (trLoop P p o n w f) (trLoop P p o n w' f) := by
  induction n with
  | zero => intro w w' h _ _ f; exact h
  | succ n ih =>
    intro w w' h hw hw' f
    obtain ⟨b, -, hb⟩ := hw.flat
    have hb' : w'.res.box = List.replicate C.n b := by obtain ⟨q, rfl⟩ := h; exact hb
    simp only [trLoop, hb, hb', maxOf_replicate L.pos]
    by_cases c : p.minTrustBoxSize ≤ b
    · simp only [if_pos c]
      obtain ⟨r, a1, -, -, a4, -⟩ := trBody_sim L hp ho hw b hb f
      obtain ⟨r', a1', -, -, a4', -⟩ := trBody_sim L hp ho hw' b hb' f
      have t := trBody_twin hF hi h hw hw' f a1 a1'
      rw [a1, a1']
      cases r with
      | done a => cases r' with
        | done a' => exact t
        | cont a' g => exact t.elim
      | cont a g => cases r' with
        | done a' => exact t.elim
        | cont a' g' =>
          obtain ⟨t1, rfl⟩ := t
          exact ih a a' t1 (a4 _ _ rfl) (a4' _ _ rfl) g
    · simp only [if_neg c]; exact h

theorem convexify_twin {w w' : Run K S} (h : Twin w w') {r r' : Run K S} (e : convexifyAndSend P o w = some r) (e' : convexifyAndSend P o w' = some r') :
    Twin r r' := by
  obtain ⟨q, rfl⟩ := h
  simp only [convexifyAndSend] at e e'
  cases hs : P.convexify w.prob with
  | none => rw [hs] at e; cases e
  | some s =>
    simp only [hs] at e e'
    split at e
    · cases e
    · split at e'
      · cases e'
      · cases e; cases e'; exact ⟨_, rfl⟩

theorem TwinOut.cases {x x' : Out K S (Run K S)} (h : TwinOut x x') :
    (∃ a a', x = .ok a ∧ x' = .ok a' ∧ Twin a a') ∨ (∃ a a', x = .fuel a ∧ x' = .fuel a' ∧ Twin a a') := by
  cases x with
  | fail => exact h.elim
  | ok a => cases x' with
    | ok a' => exact .inl ⟨a, a', rfl, rfl, h⟩
    | fail => exact h.elim
    | fuel a' => exact h.elim
  | fuel a => cases x' with
    | fuel a' => exact .inr ⟨a, a', rfl, rfl, h⟩
    | fail => exact h.elim
    | ok a' => exact h.elim

theorem TwinStep.cases {x x' : Out K S (Run K S × Bool)} (h : TwinStep x x') :
    (∃ a a' d, x = .ok (a, d) ∧ x' = .ok (a', d) ∧ Twin a a') ∨ (∃ a a', x = .fuel a ∧ x' = .fuel a' ∧ Twin a a') := by
  cases x with
  | fail => exact h.elim
  | ok a => cases x' with
    | ok a' =>
      obtain ⟨a, d⟩ := a
      obtain ⟨a', d'⟩ := a'
      obtain ⟨h1, h2⟩ := h
      simp only at h1 h2
      subst h2
      exact .inl ⟨a, a', d, rfl, rfl, h1⟩
    | fail => exact h.elim
    | fuel a' => exact h.elim
  | fuel a => cases x' with
    | fuel a' => exact .inr ⟨a, a', rfl, rfl, h⟩
    | fail => exact h.elim
    | ok a' => exact h.elim

theorem stepEnd_twin {w w' : Run K S} (h : Twin w w') (hb : w.res.box ≠ []) : TwinStep (stepEnd p w) (stepEnd p w') := by
  obtain ⟨q, rfl⟩ := h
  unfold stepEnd
  by_cases c : w.status = .converged
  · rw [if_pos c, if_pos c]; exact ⟨⟨q, rfl⟩, rfl⟩
  · simp only [c, if_false]
    cases hx : w.res.box with
    | nil => exact absurd hx hb
    | cons b l =>
      simp only [maxOf]
      split_ifs
      · exact ⟨⟨q, rfl⟩, rfl⟩
      · exact ⟨⟨q, rfl⟩, rfl⟩

theorem step_twin (L : Lawful P C) (hp : Sane p) (ho : o.Sized) (hF : AllFine P C) (hi : ∀ k, o.initOk k = true) (fuel : Nat) {w w' : Run K S}
    (h : Twin w w') (hw : Good P C o w) (hw' : Good P C o w') : TwinStep (stepSQPSolver P p o fuel w) (stepSQPSolver P p o fuel w') := by
  obtain ⟨s, q1, a1, -, a3⟩ := convexifyAndSend_loop (o := o) L
    (w := { w with res := { w.res with convexifyIteration := w.res.convexifyIteration + 1 } }) hw.frame
  obtain ⟨s', q1', a1', -, a3'⟩ := convexifyAndSend_loop (o := o) L
    (w := { w' with res := { w'.res with convexifyIteration := w'.res.convexifyIteration + 1 } }) hw'.frame
  have t := convexify_twin (by obtain ⟨q, rfl⟩ := h; exact ⟨q, rfl⟩) a1 a1'
  simp only [stepSQPSolver, a1, a1']
  have l1 : Loop P C o { w with prob := s, qps := q1, sent := w.sent ++ [P.qp s], res := { w.res with convexifyIteration := w.res.convexifyIteration + 1, trustRegionIteration := 0 } } := a3.frame
  have l2 : Loop P C o { w' with prob := s', qps := q1', sent := w'.sent ++ [P.qp s'], res := { w'.res with convexifyIteration := w'.res.convexifyIteration + 1, trustRegionIteration := 0 } } := a3'.frame
  have T := trLoop_twin L hp ho hF hi fuel _ _ (by
    obtain ⟨q, hq⟩ := h
    obtain ⟨q2, t⟩ := t
    subst hq
    refine ⟨q1', ?_⟩
    have hss : s' = s := congrArg Run.prob t
    subst hss
    rfl) l1 l2 0
  have hsim := trLoop_sim L hp ho fuel _ l1 l1.flat.choose l1.flat.choose_spec.2 0 ⟨[], [], [], 0, []⟩
  rcases T.cases with ⟨a, a', e, e', ha⟩ | ⟨a, a', e, e', ha⟩
  · rw [e] at hsim
    rw [e, e']
    refine stepEnd_twin ha ?_
    obtain ⟨b, -, hb⟩ := hsim.1.flat
    rw [hb]
    have := L.pos
    intro hc
    rw [List.replicate_eq_nil_iff] at hc
    omega
  · rw [e, e']; exact ha

theorem good_of_step (L : Lawful P C) (hp : Sane p) (ho : o.Sized) {fuel : Nat} {w : Run K S} (h : Good P C o w) {a : Run K S} {d : Bool}
    (e : stepSQPSolver P p o fuel w = .ok (a, d)) : Good P C o a := by
  have hs := step_sim L hp ho fuel h h.flat.choose h.flat.choose_spec.2 ⟨[], [], [], 0, []⟩
  rw [e] at hs; exact hs.1

theorem convexLoop_twin (L : Lawful P C) (hp : Sane p) (ho : o.Sized) (hF : AllFine P C) (hi : ∀ k, o.initOk k = true) (fuel k : Nat) :
    ∀ {w w' : Run K S}, Twin w w' → Good P C o w → Good P C o w' → TwinOut (convexLoop P p o fuel k w) (convexLoop P p o fuel k w') := by
  induction k with
  | zero => intro w w' h _ _; exact h
  | succ k ih =>
    intro w w' h hw hw'
    have g : Good P C o { w with clockReads := w.clockReads + 1 } := hw.frame
    have g' : Good P C o { w' with clockReads := w'.clockReads + 1 } := hw'.frame
    have T := step_twin L hp ho hF hi fuel (by obtain ⟨q, rfl⟩ := h; exact ⟨q, rfl⟩) g g'
    have h1 : w'.clockReads = w.clockReads := by obtain ⟨q, rfl⟩ := h; rfl
    have h2 : w'.res = w.res := by obtain ⟨q, rfl⟩ := h; rfl
    simp only [convexLoop]
    rw [h1, h2]
    rw [h1, h2] at T g'
    by_cases c1 : p.maxTime < o.clock w.clockReads
    · rw [if_pos c1, if_pos c1]; obtain ⟨q, rfl⟩ := h; exact ⟨q, rfl⟩
    rw [if_neg c1, if_neg c1]
    by_cases c2 : p.maxIterations ≤ (w.res.overallIteration : ℤ)
    · rw [if_pos c2, if_pos c2]; obtain ⟨q, rfl⟩ := h; exact ⟨q, rfl⟩
    rw [if_neg c2, if_neg c2]
    rcases T.cases with ⟨a, a', d, e, e', ha⟩ | ⟨a, a', e, e', ha⟩
    · rw [e, e']
      cases d with
      | true => exact ha
      | false => exact ih ha (good_of_step L hp ho g e) (good_of_step L hp ho g' e')
    · rw [e, e']; exact ha

theorem adjust_twin {w w' : Run K S} (h : Twin w w') {r r' : Run K S} (e : adjustPenalty P p w = some r) (e' : adjustPenalty P p w' = some r') :
    Twin r r' := by
  obtain ⟨q, rfl⟩ := h
  simp only [adjustPenalty] at e e'
  cases hi : inflate p w.res with
  | none => rw [hi] at e; cases e
  | some c =>
    cases hb : w.res.box with
    | nil => rw [hi, hb] at e; cases e
    | cons b l =>
      rw [hi, hb] at e e'
      simp only at e e'
      split at e
      · cases e
      · rename_i a ha
        split at e'
        · cases e'
        · rename_i a' ha'
          exact merit_twin (setBoxSize_twin _ ⟨q, rfl⟩ ha ha') e e'

theorem penaltyLoop_twin (L : Lawful P C) (hp : Sane p) (ho : o.Sized) (hF : AllFine P C) (hi : ∀ k, o.initOk k = true) (fuel m : Nat) :
    ∀ (i : Nat) {w w' : Run K S}, Twin w w' → Good P C o w → Good P C o w' → TwinOut (penaltyLoop P p o fuel m i w) (penaltyLoop P p o fuel m i w') := by
  induction m with
  | zero => intro i w w' h _ _; exact h
  | succ m ih =>
    intro i w w' h hw hw'
    have g : Good P C o { w with res := { w.res with penaltyIteration := i, convexifyIteration := 0 } } := hw.frame
    have g' : Good P C o { w' with res := { w'.res with penaltyIteration := i, convexifyIteration := 0 } } := hw'.frame
    have T := convexLoop_twin L hp ho hF hi fuel 99 (by obtain ⟨q, rfl⟩ := h; exact ⟨q, rfl⟩) g g'
    have s1 := convexLoop_sim L hp ho fuel 99 g g.flat.choose g.flat.choose_spec.2 ⟨[], [], [], 0, []⟩
    have s2 := convexLoop_sim L hp ho fuel 99 g' g'.flat.choose g'.flat.choose_spec.2 ⟨[], [], [], 0, []⟩
    simp only [penaltyLoop]
    rcases T.cases with ⟨a, a', e, e', ha⟩ | ⟨a, a', e, e', ha⟩
    · rw [e] at s1 ⊢
      rw [e'] at s2 ⊢
      simp only
      have h1 : a'.res = a.res := by obtain ⟨q, rfl⟩ := ha; rfl
      have h2 : a'.status = a.status := by obtain ⟨q, rfl⟩ := ha; rfl
      rw [h1, h2]
      by_cases v1 : verifyConvergence p a.res = true
      · rw [if_pos v1, if_pos v1]; obtain ⟨q, rfl⟩ := ha; exact ⟨q, rfl⟩
      rw [if_neg v1, if_neg v1]
      by_cases v2 : a.status = .iterationLimit ∨ a.status = .timeLimit
      · rw [if_pos v2, if_pos v2]; exact ha
      rw [if_neg v2, if_neg v2]
      have k1 : Good P C o { a with status := .running } := s1.1.frame
      have k2 : Good P C o { a' with status := .running } := s2.1.frame
      obtain ⟨x, d1, d2, -⟩ := adjustPenalty_good L hp k1 k1.flat.choose k1.flat.choose_spec.2
      obtain ⟨x', d1', d2', -⟩ := adjustPenalty_good L hp k2 k2.flat.choose k2.flat.choose_spec.2
      rw [h1] at d1'
      rw [d1, d1']
      exact ih (i + 1) (adjust_twin (by obtain ⟨q, rfl⟩ := ha; exact ⟨q, rfl⟩) d1 d1') d2 d2'
    · rw [e, e']; exact ha

theorem init_twin (s0 : S) (q q' : Solver K) {r r' : Run K S} (e : init P p s0 q = some r) (e' : init P p s0 q' = some r') : Twin r r' := by
  simp only [init] at e e'
  split at e
  · cases e
  · rename_i a ha
    split at e'
    · cases e'
    · rename_i a' ha'
      exact merit_twin (setBoxSize_twin _ ⟨q', rfl⟩ ha ha') e e'

/-- Two runs on the same problem with different QP solver objects take the same course. -/
theorem solve_twin (L : Lawful P C) (hp : Sane p) (ho : o.Sized) (hF : AllFine P C) (hi : ∀ k, o.initOk k = true) (fuel : Nat) (s0 : S) (hs : C.Inv s0)
    (q q' : Solver K) (hq : Consistent q)
    (hu : q.status ≠ .uninitialized → 0 < q.nVars ∧ (q.nVars = (P.qp s0).nv → q.nCnts = (P.qp s0).nc)) (hq' : Consistent q')
    (hu' : q'.status ≠ .uninitialized → 0 < q'.nVars ∧ (q'.nVars = (P.qp s0).nv → q'.nCnts = (P.qp s0).nc)) :
    TwinOut (solve P p o fuel s0 q) (solve P p o fuel s0 q') := by
  obtain ⟨s, a1, a2⟩ := init_good (o := o) L hp s0 hs q hq hu
  obtain ⟨s', a1', a2'⟩ := init_good (o := o) L hp s0 hs q' hq' hu'
  have T := penaltyLoop_twin L hp ho hF hi fuel p.maxMeritCoeffIncreases 0 (init_twin s0 q q' a2 a2') a1 a1'
  have s1 := penaltyLoop_sim L hp ho fuel p.maxMeritCoeffIncreases 0 a1 a1.flat.choose a1.flat.choose_spec.2 ⟨[], [], [], 0, []⟩
  simp only [solve, a2, a2']
  rcases T.cases with ⟨a, a', e, e', ha⟩ | ⟨a, a', e, e', ha⟩
  · rw [e] at s1 ⊢
    rw [e']
    obtain ⟨t, b1, -⟩ := L.setVars a.prob a.res.bestVars s1.1.inv s1.1.best
    obtain ⟨q, rfl⟩ := ha
    simp only [finish, b1]
    exact ⟨q, rfl⟩
  · rw [e, e']; exact ha

end Verif.SqpRun
