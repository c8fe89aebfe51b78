import Verif.Props.SqpRun
import Verif.Props.Sqp

/-!
A run on a conforming problem never fails, keeps the invariant, and is a run of the optimizer of `Model/Sqp.lean` with suitable
oracles.
-/

set_option linter.unusedSectionVars false
set_option linter.unusedVariables false

namespace Verif.SqpRun

open Verif.Sqp (Params Status Env St dot tiny)
open Verif.OsqpEigen (Problem Solver Qp Outcome Fine Consistent Holds posed)

universe u v
variable {K : Type u} {S : Type v} [Field K] [LinearOrder K] [IsStrictOrderedRing K]
variable {P : QPProblem K S} {C : Meaning K S} {o : World K} {p : Params K}

/-! ### Frame lemmas -/

theorem Good.frame {w w' : Run K S} (h : Good P C o w)
    (e1 : w'.prob = w.prob := by rfl) (e2 : w'.qps = w.qps := by rfl) (e3 : w'.sent = w.sent := by rfl) (e4 : w'.log = w.log := by rfl)
    (e5 : w'.res.bestVars = w.res.bestVars := by rfl) (e6 : w'.res.box = w.res.box := by rfl)
    (e7 : w'.res.bestViols = w.res.bestViols := by rfl) (e8 : w'.res.bestCosts = w.res.bestCosts := by rfl)
    (e9 : w'.res.bestExactMerit = w.res.bestExactMerit := by rfl) (e10 : w'.res.coeffs = w.res.coeffs := by rfl)
    (e11 : w'.res.overallIteration = w.res.overallIteration := by rfl) : Good P C o w' := by
  obtain ⟨⟨h1, h2, h3, h4, h5, h6, h7, h8, h9, h10, h11, h12, h13⟩, h14, h15, h16, h17⟩ := h
  rw [← e1] at h1 h2 h4 h10 h14
  rw [← e5] at h2 h3 h7 h8
  rw [← e6] at h4 h5
  rw [← e7] at h6 h8 h17
  rw [← e8] at h7 h17
  rw [← e2] at h9 h10
  rw [← e4] at h11 h12
  rw [← e11] at h11
  rw [← e3] at h12 h13
  rw [← e10] at h14 h15 h16 h17
  rw [← e9] at h17
  exact ⟨⟨h1, h2, h3, h4, h5, h6, h7, h8, h9, h10, h11, h12, h13⟩, h14, h15, h16, h17⟩

theorem Loop.frame {w w' : Run K S} (h : Loop P C o w)
    (e1 : w'.prob = w.prob := by rfl) (e2 : w'.qps = w.qps := by rfl) (e3 : w'.sent = w.sent := by rfl) (e4 : w'.log = w.log := by rfl)
    (e5 : w'.res.bestVars = w.res.bestVars := by rfl) (e6 : w'.res.box = w.res.box := by rfl)
    (e7 : w'.res.bestViols = w.res.bestViols := by rfl) (e8 : w'.res.bestCosts = w.res.bestCosts := by rfl)
    (e9 : w'.res.bestExactMerit = w.res.bestExactMerit := by rfl) (e10 : w'.res.coeffs = w.res.coeffs := by rfl)
    (e11 : w'.res.overallIteration = w.res.overallIteration := by rfl) : Loop P C o w' := by
  refine ⟨h.toGood.frame e1 e2 e3 e4 e5 e6 e7 e8 e9 e10 e11, ?_, ?_, ?_, ?_, ?_⟩
  · rw [e1]; exact h.asm
  · rw [e1, e5, e6, e10]; exact h.cvx
  · rw [e2]; exact h.ready
  · rw [e1, e2]; exact h.full
  · rw [e1, e2, e3]; exact h.holds

/-! ### Box changes -/

theorem scaleBox_good (L : Lawful P C) {w : Run K S} (h : Good P C o w) (hr : w.qps.status ≠ .uninitialized)
    (hd : w.qps.nVars = (P.qp w.prob).nv ∧ w.qps.nCnts = (P.qp w.prob).nc) (ha : C.Asm w.prob)
    (hh : (∀ p ∈ w.sent, Fine p) → Holds w.qps (P.qp w.prob)) (b a : K) (hb : w.res.box = List.replicate C.n b) (h0 : 0 ≤ a) :
    ∃ s q, scaleBox P a w = some { w with prob := s, qps := q, res := { w.res with box := List.replicate C.n (b * a) }, sent := w.sent ++ [P.qp s] } ∧
      P.getVariableValues s = P.getVariableValues w.prob ∧
      Good P C o { w with prob := s, qps := q, res := { w.res with box := List.replicate C.n (b * a) }, sent := w.sent ++ [P.qp s] } ∧
      (C.Cvx w.prob (w.res.bestVars.take C.n) w.res.box w.res.coeffs →
        Loop P C o { w with prob := s, qps := q, res := { w.res with box := List.replicate C.n (b * a) }, sent := w.sent ++ [P.qp s] }) := by
  obtain ⟨b', hb1, hb2⟩ := h.flat
  have hn := L.pos
  have hbb : b' = b := by
    rw [hb2] at hb
    have := congrArg List.head? hb
    rw [List.head?_replicate, List.head?_replicate, if_neg (by omega), if_neg (by omega)] at this
    exact Option.some.inj this
  subst hbb
  obtain ⟨s, a1, a2⟩ := L.scaleBox w.prob a h.inv (by rw [h.box, hb2]; simp) (by rw [h.box, hb2]; exact replicate_nonneg hb1) h0
  rw [h.box, hb2, List.map_replicate] at a2
  obtain ⟨q, c1, c2, c3⟩ := sendBounds_good L h hr hd ha hh (b' * a) (mul_nonneg hb1 h0) s a2
  exact ⟨s, q, by rw [scaleBox, a1]; exact c1, a2.vars, c2, c3⟩

theorem minimalBox_good (L : Lawful P C) (hp : Sane p) {w : Run K S} (h : Loop P C o w) :
    ∃ s q, minimalBox P p w = some { w with prob := s, qps := q, res := { w.res with box := List.replicate C.n p.minTrustBoxSize }, sent := w.sent ++ [P.qp s] } ∧
      P.getVariableValues s = P.getVariableValues w.prob ∧
      Loop P C o { w with prob := s, qps := q, res := { w.res with box := List.replicate C.n p.minTrustBoxSize }, sent := w.sent ++ [P.qp s] } := by
  obtain ⟨s, a1, a2⟩ := L.setBox w.prob (List.replicate C.n p.minTrustBoxSize) h.inv (by simp) (replicate_nonneg hp.minBox)
  obtain ⟨q, c1, c2, c3⟩ := sendBounds_good L h.toGood h.ready h.full h.asm h.holds p.minTrustBoxSize hp.minBox s a2
  exact ⟨s, q, by rw [minimalBox, (L.sizes _ h.inv).1, a1]; exact c1, a2.vars, c3 h.cvx⟩

/-- The values of an answered QP belong to the answer. -/
structure Scored (C : Meaning K S) (w : Run K S) : Prop where
  len : C.n ≤ w.res.newVars.length
  costs : w.res.newCosts = C.costs (w.res.newVars.take C.n)
  viols : w.res.newViols = C.viols (w.res.newVars.take C.n)
  merit : w.res.newExactMerit = w.res.newCosts.sum + dot w.res.newViols w.res.coeffs

theorem accept_good (L : Lawful P C) (hp : Sane p) {w : Run K S} (h : Loop P C o w) (hs : Scored C w) (b : K)
    (hb : w.res.box = List.replicate C.n b) :
    ∃ s q, accept P p w = some { w with prob := s, qps := q, res := { accepted w.res with box := List.replicate C.n (b * p.trustExpandRatio) }, sent := w.sent ++ [P.qp s] } ∧
      P.getVariableValues s = w.res.newVars.take C.n ∧
      Good P C o { w with prob := s, qps := q, res := { accepted w.res with box := List.replicate C.n (b * p.trustExpandRatio) }, sent := w.sent ++ [P.qp s] } := by
  obtain ⟨t, b1, b2, b3, b4, b5, b6, b7, b8, b9, b10, b11⟩ := L.setVars w.prob w.res.newVars h.inv hs.len
  have hv : w.res.newViols.length = C.m := by rw [hs.viols]; exact L.viols _ (by simp [hs.len])
  have g : Good P C o { w with prob := t, res := accepted w.res } :=
    ⟨⟨b2, b3, hs.len, b4.trans h.box, h.flat, hv, hs.costs, hs.viols, h.cons,
      fun hu => by rw [b6.1, b6.2.1]; exact h.dims hu, h.len, h.entries, h.sent⟩,
      b5.trans h.mu, h.coeffs, h.nonneg, hs.merit⟩
  obtain ⟨s, q, c1, c2, c3, -⟩ := scaleBox_good L g h.ready ⟨h.full.1.trans b6.1.symm, h.full.2.trans b6.2.1.symm⟩ (b10 h.asm) (fun hf => Holds.same (h.holds hf) b6 b7 b8) b p.trustExpandRatio hb hp.expand
  exact ⟨s, q, by simp only [accept, b1]; exact c1, c2.trans b3, c3⟩

/-! ### The oracle model -/

/-- The parts of a state of `Model/Sqp.lean` that are bookkeeping. -/
structure Ghost (K : Type u) where
  probCentre : List K
  probCoeffs : List K
  solverCentre : List K
  solverBox : K
  trace : List (Sqp.QpEvent K)

/-- The state of the oracle model that belongs to a state of a run. -/
def abs (P : QPProblem K S) (w : Run K S) (b : K) (g : Ghost K) : St K :=
  { status := w.status
    bestExactMerit := w.res.bestExactMerit, newExactMerit := w.res.newExactMerit
    bestApproxMerit := w.res.bestApproxMerit, newApproxMerit := w.res.newApproxMerit
    bestVars := w.res.bestVars, newVars := w.res.newVars
    approxImprove := w.res.approxImprove, exactImprove := w.res.exactImprove, improveRatio := w.res.improveRatio
    box := b, coeffs := w.res.coeffs, bestViols := w.res.bestViols, newViols := w.res.newViols
    bestCosts := w.res.bestCosts, newCosts := w.res.newCosts
    penaltyIteration := w.res.penaltyIteration, convexifyIteration := w.res.convexifyIteration
    trustRegionIteration := w.res.trustRegionIteration, overallIteration := w.res.overallIteration
    probVars := P.getVariableValues w.prob, probBox := b, probCentre := g.probCentre, probCoeffs := g.probCoeffs
    solverCentre := g.solverCentre, solverBox := g.solverBox, clockReads := w.clockReads, trace := g.trace }

/-- The oracles answer as the problem and the QP solver did in the calls on record. -/
structure Agree (C : Meaning K S) (o : World K) (e : Env K) (log : List (Entry K S)) : Prop where
  nVars : e.nVars = C.n
  nCnts : e.nCnts = C.m
  costs : e.exactCosts = C.costs
  viols : e.exactViols = C.viols
  callbacks : e.callbacks = o.callbacks
  clock : e.clock = o.clock
  qp : ∀ i en, log[i]? = some en → (∀ c b, e.qp (i + 1) c b = en.answer) ∧
    ∀ y, en.answer = some y → e.convexCosts (i + 1) y = en.convexCosts ∧ e.convexViols (i + 1) y = en.convexViols

theorem Agree.prefix {e : Env K} {l l' : List (Entry K S)} (h : Agree C o e l') (hl : l <+: l') : Agree C o e l := by
  refine ⟨h.nVars, h.nCnts, h.costs, h.viols, h.callbacks, h.clock, fun i en hi => h.qp i en ?_⟩
  obtain ⟨r, rfl⟩ := hl
  rw [List.getElem?_append_left (List.getElem?_eq_some_iff.1 hi).1]
  exact hi

/-- Oracles that agree with a record. -/
def oracle (C : Meaning K S) (o : World K) (x0 : List K) (log : List (Entry K S)) : Env K where
  nVars := C.n
  nCnts := C.m
  x0 := x0
  exactCosts := C.costs
  exactViols := C.viols
  convexCosts k _ := match log[k - 1]? with | some en => en.convexCosts | none => []
  convexViols k _ := match log[k - 1]? with | some en => en.convexViols | none => []
  qp k _ _ := match log[k - 1]? with | some en => en.answer | none => none
  callbacks := o.callbacks
  clock := o.clock

theorem oracle_agree (x0 : List K) (log : List (Entry K S)) : Agree C o (oracle C o x0 log) log :=
  ⟨rfl, rfl, rfl, rfl, rfl, rfl, fun i en hi => by simp [oracle, hi]⟩

/-- The rest of the body of the trust-region loop of the oracle model after the QP was solved. -/
def afterS (p : Params K) (e : Env K) (s : St K) (failures : ℤ) : Sqp.TrOut K :=
  if s.status = .stoppedByCallback then .done s
  else if s.status ≠ .running then
    if failures + 1 < p.maxQpSolverFailures then .cont (Sqp.shrink p s) (failures + 1)
    else if failures + 1 = p.maxQpSolverFailures then
      .cont (Sqp.readBox (Sqp.solverUpdateBounds (Sqp.probSetBoxSize p.minTrustBoxSize s))) (failures + 1)
    else .done s
  else if s.approxImprove < p.minApproxImprove then .done { s with status := .converged }
  else if s.approxImprove / max |s.bestExactMerit| tiny < p.minApproxImproveFrac then .done { s with status := .converged }
  else if s.exactImprove < 0 ∨ s.improveRatio < p.improveRatioThreshold then .cont (Sqp.shrink p s) failures
  else .done (Sqp.accept p e s)

theorem trBody_afterS (p : Params K) (e : Env K) (w : Run K S) (b : K) (g : Ghost K) (f : ℤ) :
    Sqp.trBody p e (abs P w b g) f =
      afterS p e { (Sqp.solveQPProblem e (abs P (bump w) b g)).1 with status := (Sqp.solveQPProblem e (abs P (bump w) b g)).2 } f := rfl

/-- The state in a pass's outcome. -/
def TrOut.run : TrOut K S → Run K S
  | .cont w _ => w
  | .done w => w

/-- The passes agree. -/
def Same (P : QPProblem K S) (C : Meaning K S) (r : TrOut K S) (a : Sqp.TrOut K) : Prop :=
  ∃ b g, r.run.res.box = List.replicate C.n b ∧ a = match r with
    | .cont w f => .cont (abs P w b g) f
    | .done w => .done (abs P w b g)

theorem afterFailure_sim (L : Lawful P C) (hp : Sane p) {w : Run K S} (h : Loop P C o w) (hst : w.status = .qpSolveFailed) (b : K)
    (hb : w.res.box = List.replicate C.n b) (f : ℤ) :
    ∃ r, afterFailure P p w f = some r ∧ r.run.log = w.log ∧ Good P C o r.run ∧ (∀ w' f', r = .cont w' f' → Loop P C o w') ∧
      ∀ (e : Env K) (g : Ghost K), Same P C r (afterS p e (abs P w b g) f) := by
  unfold afterFailure
  by_cases h1 : f + 1 < p.maxQpSolverFailures
  · obtain ⟨s, q, c1, c2, c3, c4⟩ := scaleBox_good L h.toGood h.ready h.full h.asm h.holds b p.trustShrinkRatio hb hp.shrink
    rw [if_pos h1, c1]
    refine ⟨_, rfl, rfl, c3, fun w' f' e => by cases e; exact c4 h.cvx, fun e g => ?_⟩
    refine ⟨b * p.trustShrinkRatio, ⟨P.getVariableValues w.prob, g.probCoeffs, P.getVariableValues w.prob, b * p.trustShrinkRatio, g.trace⟩, rfl, ?_⟩
    simp only [afterS, abs, hst, reduceCtorEq, if_false, ne_eq, not_false_eq_true, if_true, h1, c2]
    rfl
  · by_cases h2 : f + 1 = p.maxQpSolverFailures
    · obtain ⟨s, q, c1, c2, c3⟩ := minimalBox_good L hp h
      rw [if_neg h1, if_pos h2, c1]
      refine ⟨_, rfl, rfl, c3.toGood, fun w' f' e => by cases e; exact c3, fun e g => ?_⟩
      refine ⟨p.minTrustBoxSize, ⟨P.getVariableValues w.prob, g.probCoeffs, P.getVariableValues w.prob, p.minTrustBoxSize, g.trace⟩, rfl, ?_⟩
      simp only [afterS, abs, hst, reduceCtorEq, if_false, ne_eq, not_false_eq_true, if_true, h2, lt_self_iff_false, c2]
      rfl
    · rw [if_neg h1, if_neg h2]
      refine ⟨_, rfl, rfl, h.toGood, fun w' f' e => by (cases e), fun e g => ⟨b, g, hb, ?_⟩⟩
      simp only [afterS, abs, hst, reduceCtorEq, if_false, ne_eq, not_false_eq_true, if_true, h1, h2]

theorem afterSuccess_sim (L : Lawful P C) (hp : Sane p) {w : Run K S} (h : Loop P C o w) (hst : w.status = .running) (hs : Scored C w) (b : K)
    (hb : w.res.box = List.replicate C.n b) (f : ℤ) :
    ∃ r, afterSuccess P p w f = some r ∧ r.run.log = w.log ∧ Good P C o r.run ∧ (∀ w' f', r = .cont w' f' → Loop P C o w') ∧
      ∀ (e : Env K) (g : Ghost K), e.nVars = C.n → Same P C r (afterS p e (abs P w b g) f) := by
  unfold afterSuccess
  by_cases h1 : w.res.approxImprove < p.minApproxImprove
  · rw [if_pos h1]
    refine ⟨_, rfl, rfl, h.toGood.frame, fun w' f' e => by (cases e), fun e g _ => ⟨b, g, hb, ?_⟩⟩
    simp only [afterS, abs, hst, reduceCtorEq, if_false, ne_eq, not_true_eq_false, if_true, h1]
  · by_cases h2 : w.res.approxImprove / max |w.res.bestExactMerit| tiny < p.minApproxImproveFrac
    · rw [if_neg h1, if_pos h2]
      refine ⟨_, rfl, rfl, h.toGood.frame, fun w' f' e => by (cases e), fun e g _ => ⟨b, g, hb, ?_⟩⟩
      simp only [afterS, abs, hst, reduceCtorEq, if_false, ne_eq, not_true_eq_false, if_true, h1, h2]
    · by_cases h3 : w.res.exactImprove < 0 ∨ w.res.improveRatio < p.improveRatioThreshold
      · obtain ⟨s, q, c1, c2, c3, c4⟩ := scaleBox_good L h.toGood h.ready h.full h.asm h.holds b p.trustShrinkRatio hb hp.shrink
        rw [if_neg h1, if_neg h2, if_pos h3, c1]
        refine ⟨_, rfl, rfl, c3, fun w' f' e => by cases e; exact c4 h.cvx, fun e g _ => ?_⟩
        refine ⟨b * p.trustShrinkRatio, ⟨P.getVariableValues w.prob, g.probCoeffs, P.getVariableValues w.prob, b * p.trustShrinkRatio, g.trace⟩, rfl, ?_⟩
        simp only [afterS, abs, hst, reduceCtorEq, if_false, ne_eq, not_true_eq_false, if_true, h1, h2, h3, c2]
        rfl
      · obtain ⟨s, q, c1, c2, c3⟩ := accept_good L hp h hs b hb
        rw [if_neg h1, if_neg h2, if_neg h3, c1]
        refine ⟨_, rfl, rfl, c3, fun w' f' e => by (cases e), fun e g he => ?_⟩
        refine ⟨b * p.trustExpandRatio, ⟨w.res.newVars.take C.n, g.probCoeffs, w.res.newVars.take C.n, b * p.trustExpandRatio, g.trace⟩, rfl, ?_⟩
        simp only [afterS, abs, hst, reduceCtorEq, if_false, ne_eq, not_true_eq_false, if_true, h1, h2, h3, c2]
        rw [← he]
        rfl

/-- One pass through the body of the trust-region loop. -/
theorem trBody_sim (L : Lawful P C) (hp : Sane p) (ho : o.Sized) {w : Run K S} (h : Loop P C o w) (b : K)
    (hb : w.res.box = List.replicate C.n b) (f : ℤ) :
    ∃ r, trBody P p o w f = some r ∧ w.log <+: r.run.log ∧ Good P C o r.run ∧ (∀ w' f', r = .cont w' f' → Loop P C o w') ∧
      ∀ (e : Env K) (g : Ghost K), Agree C o e r.run.log → Same P C r (Sqp.trBody p e (abs P w b g) f) := by
  have hbump : ∀ w1 : Run K S, trBody P p o w f = match solveQPProblem P o (bump w) with
      | none => none
      | some r =>
        if r.2 = .stoppedByCallback then some (.done { r.1 with status := r.2 })
        else if r.2 ≠ .running then afterFailure P p { r.1 with status := r.2 } f
        else afterSuccess P p { r.1 with status := r.2 } f := fun _ => rfl
  rw [hbump w]
  rcases solveQP_loop L ho h with ⟨s, q, en, c1, c2, c3⟩ | ⟨s, q, en, y, c1, c2, c3, c4⟩
  · rw [c1]
    simp only [reduceCtorEq, if_false, ne_eq, not_false_eq_true, if_true]
    obtain ⟨r, a1, a2, a3, a4, a5⟩ := afterFailure_sim L hp
      (w := { bump w with qps := q, prob := s, log := w.log ++ [en], status := .qpSolveFailed }) c3.frame rfl b hb f
    refine ⟨r, a1, ⟨[en], a2.symm⟩, a3, a4, fun e g ha => ?_⟩
    rw [a2] at ha
    obtain ⟨q1, -⟩ := ha.qp w.log.length en (by simp)
    rw [c2, h.len] at q1
    rw [trBody_afterS]
    have hv : P.getVariableValues s = w.res.bestVars.take e.nVars := by rw [ha.nVars]; exact c3.vars
    have : ∃ g', { (Sqp.solveQPProblem e (abs P (bump w) b g)).1 with status := (Sqp.solveQPProblem e (abs P (bump w) b g)).2 } =
        abs P { bump w with qps := q, prob := s, log := w.log ++ [en], status := .qpSolveFailed } b g' := by
      refine ⟨⟨g.probCentre, g.probCoeffs, g.solverCentre, g.solverBox,
        ⟨g.solverCentre, g.solverBox, w.res.bestVars, b, w.res.bestVars.take e.nVars⟩ :: g.trace⟩, ?_⟩
      have hk : (abs P (bump w) b g).overallIteration = w.res.overallIteration + 1 := rfl
      simp only [Sqp.solveQPProblem, Sqp.setVariables, abs, bump, q1, hv]
    obtain ⟨g', hg'⟩ := this
    rw [hg']
    exact a5 e g'
  · rw [c1]
    have key : ∀ (e : Env K) (g : Ghost K) (st : Status), Agree C o e (w.log ++ [en]) → st = (if callCallbacks o (w.res.overallIteration + 1) then .running else .stoppedByCallback) →
        ∃ g', { (Sqp.solveQPProblem e (abs P (bump w) b g)).1 with status := (Sqp.solveQPProblem e (abs P (bump w) b g)).2 } =
          abs P { bump w with
            qps := q, prob := s, log := w.log ++ [en], status := st
            res := scored (bump w).res y en.convexCosts en.convexViols (C.costs (y.take C.n)) (C.viols (y.take C.n)) } b g' := by
      intro e g st ha hst
      obtain ⟨q1, q2⟩ := ha.qp w.log.length en (by simp)
      obtain ⟨q2, q3⟩ := q2 y c2
      rw [c2, h.len] at q1
      rw [h.len] at q2 q3
      have hv : P.getVariableValues s = w.res.bestVars.take e.nVars := by rw [ha.nVars]; exact c4.vars
      refine ⟨⟨g.probCentre, g.probCoeffs, g.solverCentre, g.solverBox,
        ⟨g.solverCentre, g.solverBox, w.res.bestVars, b, w.res.bestVars.take e.nVars⟩ :: g.trace⟩, ?_⟩
      have hk : (abs P (bump w) b g).overallIteration = w.res.overallIteration + 1 := rfl
      have hcb : Sqp.callCallbacks e (w.res.overallIteration + 1) = callCallbacks o (w.res.overallIteration + 1) := by
        simp only [Sqp.callCallbacks, callCallbacks, ha.callbacks]
      subst hst
      simp only [Sqp.solveQPProblem, Sqp.setVariables, abs, bump, q1, q2, q3, hcb, ha.costs, ha.viols, ← ha.nVars]
      cases callCallbacks o (w.res.overallIteration + 1)
      · simp only [hv, Bool.false_eq_true, if_false]
        rfl
      · simp only [hv, if_true]
        rfl
    cases hcb : callCallbacks o (w.res.overallIteration + 1) with
    | false =>
      simp only [hcb, Bool.false_eq_true, if_false, if_true]
      refine ⟨_, rfl, ⟨[en], rfl⟩, c4.toGood.frame, fun w' f' e => by (cases e), fun e g ha => ?_⟩
      obtain ⟨g', hg'⟩ := key e g .stoppedByCallback ha (by rw [hcb]; simp)
      rw [trBody_afterS, hg']
      refine ⟨b, g', hb, ?_⟩
      simp only [afterS, abs, if_true]
    | true =>
      simp only [hcb, if_true, reduceCtorEq, if_false, ne_eq, not_true_eq_false]
      obtain ⟨r, a1, a2, a3, a4, a5⟩ := afterSuccess_sim L hp
        (w := { bump w with
            qps := q, prob := s, log := w.log ++ [en], status := .running
            res := scored (bump w).res y en.convexCosts en.convexViols (C.costs (y.take C.n)) (C.viols (y.take C.n)) })
        c4.frame rfl ⟨c3, rfl, rfl, rfl⟩ b hb f
      refine ⟨r, a1, ⟨[en], a2.symm⟩, a3, a4, fun e g ha => ?_⟩
      rw [a2] at ha
      obtain ⟨g', hg'⟩ := key e g .running ha (by rw [hcb]; simp)
      rw [trBody_afterS, hg']
      exact a5 e g' ha.nVars

/-! ### The loops -/

/-- What a loop started in `w` guarantees; `a` is the same loop of the oracle model. -/
def Sim (P : QPProblem K S) (C : Meaning K S) (o : World K) (w : Run K S) (a : Env K → Option (St K)) : Out K S (Run K S) → Prop
  | .fail => False
  | .ok w' => Good P C o w' ∧ w.log <+: w'.log ∧
      ∀ e, Agree C o e w'.log → ∃ b g, w'.res.box = List.replicate C.n b ∧ a e = some (abs P w' b g)
  | .fuel w' => Good P C o w' ∧ w.log <+: w'.log ∧ ∀ e, Agree C o e w'.log → a e = none

theorem trLoop_sim (L : Lawful P C) (hp : Sane p) (ho : o.Sized) (n : Nat) : ∀ (w : Run K S) (_ : Loop P C o w) (b : K) (_ : w.res.box = List.replicate C.n b)
    (f : ℤ) (g : Ghost K), Sim P C o w (fun e => Sqp.trLoop p e n (abs P w b g) f) (trLoop P p o n w f) := by
  induction n with
  | zero => intro w h b hb f g; exact ⟨h.toGood, List.prefix_rfl, fun e _ => rfl⟩
  | succ n ih =>
    intro w h b hb f g
    have habs : (abs P w b g).box = b := rfl
    simp only [trLoop, hb, maxOf_replicate L.pos, Sqp.trLoop, habs]
    by_cases h1 : p.minTrustBoxSize ≤ b
    · simp only [h1, if_true]
      obtain ⟨r, a1, a2, a3, a4, a5⟩ := trBody_sim L hp ho h b hb f
      rw [a1]
      cases r with
      | done w' =>
        refine ⟨a3, a2, fun e ha => ?_⟩
        obtain ⟨b', g', hb', hg'⟩ := a5 e g ha
        exact ⟨b', g', hb', by simp only [hg']⟩
      | cont w' f' =>
        have hl := a4 w' f' rfl
        obtain ⟨b', -, hb'⟩ := hl.flat
        have hsame : ∀ e, Agree C o e w'.log → ∃ g', Sqp.trBody p e (abs P w b g) f = .cont (abs P w' b' g') f' := by
          intro e ha
          obtain ⟨b'', g', hb'', hg'⟩ := a5 e g ha
          have hb'' : w'.res.box = List.replicate C.n b'' := hb''
          have : b'' = b' := by
            rw [hb'] at hb''
            have hn := L.pos
            have := congrArg List.head? hb''
            rw [List.head?_replicate, List.head?_replicate, if_neg (by omega), if_neg (by omega)] at this
            exact (Option.some.inj this).symm
          exact ⟨g', by rw [← this]; exact hg'⟩
        simp only
        have hrec := fun g' => ih w' hl b' hb' f' g'
        cases hout : trLoop P p o n w' f' with
        | fail => have := hrec g; rw [hout] at this; exact this
        | ok w2 =>
          have h0 := hrec g; rw [hout] at h0
          refine ⟨h0.1, a2.trans h0.2.1, fun e ha => ?_⟩
          obtain ⟨g', hg'⟩ := hsame e (ha.prefix h0.2.1)
          have h0' := hrec g'; rw [hout] at h0'
          obtain ⟨b2, g2, c1, c2⟩ := h0'.2.2 e ha
          exact ⟨b2, g2, c1, by simp only [hg']; exact c2⟩
        | fuel w2 =>
          have h0 := hrec g; rw [hout] at h0
          refine ⟨h0.1, a2.trans h0.2.1, fun e ha => ?_⟩
          obtain ⟨g', hg'⟩ := hsame e (ha.prefix h0.2.1)
          have h0' := hrec g'; rw [hout] at h0'
          simp only [hg']
          exact h0'.2.2 e ha
    · simp only [h1, if_false]
      exact ⟨h.toGood, List.prefix_rfl, fun e _ => ⟨b, g, hb, rfl⟩⟩

theorem convexifyAndSend_loop (L : Lawful P C) {w : Run K S} (h : Good P C o w) :
    ∃ s q, convexifyAndSend P o w = some { w with prob := s, qps := q, sent := w.sent ++ [P.qp s] } ∧
      P.getVariableValues s = P.getVariableValues w.prob ∧
      Loop P C o { w with prob := s, qps := q, sent := w.sent ++ [P.qp s] } := by
  obtain ⟨b, hb1, hb2⟩ := h.flat
  obtain ⟨s, a1, a2, a3, a4, a5, a6, a7⟩ := L.convexify w.prob h.inv (by rw [h.box, hb2]; exact replicate_nonneg hb1)
  obtain ⟨sh1, sh2, -⟩ := L.shaped s a2 a7
  obtain ⟨q, t1, t2, t3, t4, t5, t6⟩ := transfer_shaped (o.inPlace w.clockReads) (o.inPlace' w.clockReads) (P.qp w.prob).nv (P.qp w.prob).nc (P.qp s) sh1
    w.qps h.cons (fun hu => (h.dims hu).2)
  have hsent : ∀ r ∈ w.sent ++ [P.qp s], ∃ s, C.Inv s ∧ C.Asm s ∧ (∀ b ∈ P.getBoxSize s, 0 ≤ b) ∧ (P.getBoxSize s).length = C.n ∧ P.qp s = r := by
    intro r hr
    rcases List.mem_append.1 hr with hr | hr
    · exact h.sent r hr
    · rw [List.mem_singleton] at hr
      subst hr
      exact ⟨s, a2, a7, by rw [a4, h.box, hb2]; exact replicate_nonneg hb1, by rw [a4, h.box, hb2]; simp, rfl⟩
  refine ⟨s, q, by simp only [convexifyAndSend, a1, t1], a3, ⟨⟨⟨a2, a3.trans h.vars, h.best, a4.trans h.box, h.flat, h.viols, h.costs, h.cnts, t2,
    fun _ => ⟨by rw [t3]; exact sh1.pos, fun _ => t4⟩, h.len, fun i e hi => (h.entries i e hi).mono fun p hp => List.mem_append_left _ hp, hsent⟩, a5.trans h.mu, h.coeffs, h.nonneg, h.merit⟩,
    a7, ?_, t5, ⟨t3, t4⟩, fun hf => t6 (hf _ (List.mem_append_right _ (List.mem_singleton.2 rfl)))⟩⟩
  rw [← h.vars, ← h.box, ← h.mu]
  exact a6

/-- What a step guarantees. -/
def SimStep (P : QPProblem K S) (C : Meaning K S) (o : World K) (w : Run K S) (a : Env K → Option (St K × Bool)) : Out K S (Run K S × Bool) → Prop
  | .fail => False
  | .ok w' => Good P C o w'.1 ∧ w.log <+: w'.1.log ∧
      ∀ e, Agree C o e w'.1.log → ∃ b g, w'.1.res.box = List.replicate C.n b ∧ a e = some (abs P w'.1 b g, w'.2)
  | .fuel w' => Good P C o w' ∧ w.log <+: w'.log ∧ ∀ e, Agree C o e w'.log → a e = none

theorem step_sim (L : Lawful P C) (hp : Sane p) (ho : o.Sized) (fuel : Nat) {w : Run K S} (h : Good P C o w) (b : K)
    (hb : w.res.box = List.replicate C.n b) (g : Ghost K) :
    SimStep P C o w (fun e => Sqp.stepSQPSolver p e fuel (abs P w b g)) (stepSQPSolver P p o fuel w) := by
  obtain ⟨s, q, a1, a2, a3⟩ := convexifyAndSend_loop (o := o) L
    (w := { w with res := { w.res with convexifyIteration := w.res.convexifyIteration + 1 } }) h.frame
  simp only [stepSQPSolver, a1]
  have key : ∀ e, Sqp.stepSQPSolver p e fuel (abs P w b g) =
      match Sqp.trLoop p e fuel (abs P { w with prob := s, qps := q, sent := w.sent ++ [P.qp s], res := { w.res with convexifyIteration := w.res.convexifyIteration + 1, trustRegionIteration := 0 } } b
          ⟨P.getVariableValues w.prob, g.probCoeffs, P.getVariableValues w.prob, b, g.trace⟩) 0 with
      | none => none
      | some s =>
        if s.status = .converged then some (s, true)
        else if s.box < p.minTrustBoxSize then some ({ s with status := .converged }, true)
        else some (s, false) := by
    intro e
    simp only [abs, a2]
    rfl
  have hs := trLoop_sim L hp ho fuel { w with prob := s, qps := q, sent := w.sent ++ [P.qp s], res := { w.res with convexifyIteration := w.res.convexifyIteration + 1, trustRegionIteration := 0 } } a3.frame b hb 0
      ⟨P.getVariableValues w.prob, g.probCoeffs, P.getVariableValues w.prob, b, g.trace⟩
  revert hs
  cases trLoop P p o fuel { w with prob := s, qps := q, sent := w.sent ++ [P.qp s], res := { w.res with convexifyIteration := w.res.convexifyIteration + 1, trustRegionIteration := 0 } } 0 with
  | fail => exact fun hs => hs
  | fuel w' =>
    rintro ⟨h1, h2, h3⟩
    refine ⟨h1, h2, fun e ha => ?_⟩
    simp only [key, h3 e ha]
  | ok w' =>
    rintro ⟨h1, h2, h3⟩
    simp only [stepEnd]
    by_cases c1 : w'.status = .converged
    · rw [if_pos c1]
      refine ⟨h1, h2, fun e ha => ?_⟩
      obtain ⟨b', g', hb', hg'⟩ := h3 e ha
      have : (abs P w' b' g').status = .converged := c1
      exact ⟨b', g', hb', by simp only [key, hg', this, if_true]⟩
    · obtain ⟨b2, -, hb2⟩ := h1.flat
      rw [if_neg c1, hb2, maxOf_replicate L.pos]
      have hbe : ∀ b', w'.res.box = List.replicate C.n b' → b' = b2 := by
        intro b' hb'
        rw [hb2] at hb'
        have hn := L.pos
        have := congrArg List.head? hb'
        rw [List.head?_replicate, List.head?_replicate, if_neg (by omega), if_neg (by omega)] at this
        exact (Option.some.inj this).symm
      simp only
      by_cases c2 : b2 < p.minTrustBoxSize
      · rw [if_pos c2]
        refine ⟨h1.frame, h2, fun e ha => ?_⟩
        obtain ⟨b', g', hb', hg'⟩ := h3 e ha
        have e1 := hbe b' hb'
        subst e1
        have : (abs P w' b' g').status ≠ .converged := c1
        have hbx : (abs P w' b' g').box < p.minTrustBoxSize := c2
        refine ⟨b', g', hb', ?_⟩
        simp only [key, hg', this, if_false, hbx, if_true]
        rfl
      · rw [if_neg c2]
        refine ⟨h1, h2, fun e ha => ?_⟩
        obtain ⟨b', g', hb', hg'⟩ := h3 e ha
        have e1 := hbe b' hb'
        subst e1
        have : (abs P w' b' g').status ≠ .converged := c1
        have hbx : ¬ (abs P w' b' g').box < p.minTrustBoxSize := c2
        refine ⟨b', g', hb', ?_⟩
        simp only [key, hg', this, if_false, hbx]

theorem convexLoop_sim (L : Lawful P C) (hp : Sane p) (ho : o.Sized) (fuel k : Nat) : ∀ {w : Run K S} (_ : Good P C o w) (b : K)
    (_ : w.res.box = List.replicate C.n b) (g : Ghost K),
    Sim P C o w (fun e => Sqp.convexLoop p e fuel k (abs P w b g)) (convexLoop P p o fuel k w) := by
  induction k with
  | zero => intro w h b hb g; exact ⟨h, List.prefix_rfl, fun e _ => ⟨b, g, hb, rfl⟩⟩
  | succ k ih =>
    intro w h b hb g
    have key : ∀ e, Agree C o e w.log → Sqp.convexLoop p e fuel (k + 1) (abs P w b g) =
        if p.maxTime < o.clock w.clockReads then some (abs P { w with clockReads := w.clockReads + 1, status := .timeLimit } b g)
        else if p.maxIterations ≤ (w.res.overallIteration : Int) then some (abs P { w with clockReads := w.clockReads + 1, status := .iterationLimit } b g)
        else match Sqp.stepSQPSolver p e fuel (abs P { w with clockReads := w.clockReads + 1 } b g) with
          | none => none
          | some (s, true) => some s
          | some (s, false) => Sqp.convexLoop p e fuel k s := by
      intro e ha
      rw [← ha.clock]
      rfl
    simp only [convexLoop]
    by_cases c1 : p.maxTime < o.clock w.clockReads
    · rw [if_pos c1]
      exact ⟨h.frame, List.prefix_rfl, fun e ha => ⟨b, g, hb, by simp only; rw [key e ha, if_pos c1]⟩⟩
    by_cases c2 : p.maxIterations ≤ (w.res.overallIteration : Int)
    · rw [if_neg c1, if_pos c2]
      exact ⟨h.frame, List.prefix_rfl, fun e ha => ⟨b, g, hb, by simp only; rw [key e ha, if_neg c1, if_pos c2]⟩⟩
    rw [if_neg c1, if_neg c2]
    have hs := step_sim L hp ho fuel (w := { w with clockReads := w.clockReads + 1 }) h.frame b hb g
    revert hs
    cases stepSQPSolver P p o fuel { w with clockReads := w.clockReads + 1 } with
    | fail => exact fun hs => hs
    | fuel w' =>
      rintro ⟨h1, h2, h3⟩
      refine ⟨h1, h2, fun e ha => ?_⟩
      simp only
      rw [key e (ha.prefix h2), if_neg c1, if_neg c2]
      simp only [h3 e ha]
    | ok r =>
      obtain ⟨w', d⟩ := r
      rintro ⟨h1, h2, h3⟩
      simp only at h1 h2 h3
      cases d with
      | true =>
        refine ⟨h1, h2, fun e ha => ?_⟩
        obtain ⟨b', g', hb', hg'⟩ := h3 e ha
        refine ⟨b', g', hb', ?_⟩
        simp only
        rw [key e (ha.prefix h2), if_neg c1, if_neg c2]
        simp only [hg']
      | false =>
        obtain ⟨b2, -, hb2⟩ := h1.flat
        have hbe : ∀ b', w'.res.box = List.replicate C.n b' → b' = b2 := by
          intro b' hb'
          rw [hb2] at hb'
          have hn := L.pos
          have := congrArg List.head? hb'
          rw [List.head?_replicate, List.head?_replicate, if_neg (by omega), if_neg (by omega)] at this
          exact (Option.some.inj this).symm
        have hrec := fun g' => ih h1 b2 hb2 g'
        simp only
        cases hout : convexLoop P p o fuel k w' with
        | fail => have := hrec g; rw [hout] at this; exact this
        | ok w2 =>
          have h0 := hrec g; rw [hout] at h0
          refine ⟨h0.1, h2.trans h0.2.1, fun e ha => ?_⟩
          obtain ⟨b', g', hb', hg'⟩ := h3 e (ha.prefix h0.2.1)
          have e1 := hbe b' hb'
          subst e1
          have h0' := hrec g'; rw [hout] at h0'
          obtain ⟨b3, g3, d1, d2⟩ := h0'.2.2 e ha
          refine ⟨b3, g3, d1, ?_⟩
          simp only
          rw [key e (ha.prefix (h2.trans h0.2.1)), if_neg c1, if_neg c2]
          simp only [hg']
          exact d2
        | fuel w2 =>
          have h0 := hrec g; rw [hout] at h0
          refine ⟨h0.1, h2.trans h0.2.1, fun e ha => ?_⟩
          obtain ⟨b', g', hb', hg'⟩ := h3 e (ha.prefix h0.2.1)
          have e1 := hbe b' hb'
          subst e1
          have h0' := hrec g'; rw [hout] at h0'
          simp only
          rw [key e (ha.prefix (h2.trans h0.2.1)), if_neg c1, if_neg c2]
          simp only [hg']
          exact h0'.2.2 e ha

theorem verify_abs (p : Params K) (w : Run K S) (b : K) (g : Ghost K) : Sqp.verifyConvergence p (abs P w b g) = verifyConvergence p w.res := by
  simp only [Sqp.verifyConvergence, verifyConvergence, abs]
  cases w.res.bestViols with
  | nil => rfl
  | cons v vs => rfl

theorem adjustPenalty_good (L : Lawful P C) (hp : Sane p) {w : Run K S} (h : Good P C o w) (b : K) (hb : w.res.box = List.replicate C.n b) :
    ∃ w', adjustPenalty P p w = some w' ∧ Good P C o w' ∧ w'.log = w.log ∧ ∃ b', w'.res.box = List.replicate C.n b' ∧
      ∀ g, ∃ g', Sqp.adjustPenalty p (abs P w b g) = abs P w' b' g' := by
  have hinf : inflate p w.res = some (Sqp.inflate p (abs P w b ⟨[], [], [], 0, []⟩)) := by
    unfold inflate Sqp.inflate
    cases p.inflateIndividually with
    | true => simp only [if_true]; rw [if_pos (by rw [h.viols, h.coeffs])]; rfl
    | false => simp only [Bool.false_eq_true, if_false]; rfl
  set c := Sqp.inflate p (abs P w b ⟨[], [], [], 0, []⟩) with hc
  have hcl : c.length = C.m := by
    rw [hc, Sqp.inflate]
    split_ifs
    · simp [abs, h.viols, h.coeffs]
    · simp [abs, h.coeffs]
  have hcn : ∀ a ∈ c, 0 ≤ a := by
    intro a ha
    rw [hc, Sqp.inflate] at ha
    split_ifs at ha
    · rw [List.zipWith_eq_zipWith_take_min] at ha
      obtain ⟨i, hi, rfl⟩ := List.mem_iff_getElem.1 ha
      have hi' : i < w.res.coeffs.length := by simp [abs] at hi; omega
      have := h.nonneg _ (List.getElem_mem hi')
      simp only [List.getElem_zipWith, List.getElem_take, abs]
      split_ifs
      · exact mul_nonneg this hp.increase
      · exact this
    · obtain ⟨x, hx, rfl⟩ := List.mem_map.1 ha
      exact mul_nonneg (h.nonneg _ hx) hp.increase
  obtain ⟨b0, hb0, hb0'⟩ := h.flat
  have hn := L.pos
  have hbb : b0 = b := by
    rw [hb0'] at hb
    have := congrArg List.head? hb
    rw [List.head?_replicate, List.head?_replicate, if_neg (by omega), if_neg (by omega)] at this
    exact Option.some.inj this
  subst hbb
  set d := max b0 (p.minTrustBoxSize / p.trustShrinkRatio * (3 / 2)) with hd
  have hdn : 0 ≤ d := le_max_of_le_left hb0
  obtain ⟨s, a1, a2, a3⟩ := setBoxSize_pre (o := o) L (w := { w with res := { w.res with coeffs := c } })
    ⟨h.inv, h.vars, h.best, h.box, h.flat, h.viols, h.costs, h.cnts, h.cons, h.dims, h.len, h.entries, h.sent⟩ d hdn
  obtain ⟨s2, c1, c2, c3⟩ := meritChanged_good L a2 hcl hcn
  have hbox : ∃ l, w.res.box = b0 :: l := by
    rw [hb]
    cases hk : C.n with
    | zero => omega
    | succ n => exact ⟨List.replicate n b0, rfl⟩
  obtain ⟨l, hl⟩ := hbox
  refine ⟨_, ?_, c2, rfl, d, rfl, fun g => ⟨⟨P.getVariableValues w.prob, c, g.solverCentre, g.solverBox, g.trace⟩, ?_⟩⟩
  · unfold adjustPenalty
    rw [hinf, hl]
    simp only
    rw [← hd, a1]
    exact c1
  · have : P.getVariableValues s2 = P.getVariableValues w.prob := c3.trans a3
    simp only [abs, this]
    rfl

theorem penaltyLoop_sim (L : Lawful P C) (hp : Sane p) (ho : o.Sized) (fuel m : Nat) : ∀ (i : Nat) {w : Run K S} (_ : Good P C o w) (b : K)
    (_ : w.res.box = List.replicate C.n b) (g : Ghost K),
    Sim P C o w (fun e => Sqp.penaltyLoop p e fuel m i (abs P w b g)) (penaltyLoop P p o fuel m i w) := by
  induction m with
  | zero => intro i w h b hb g; exact ⟨h, List.prefix_rfl, fun e _ => ⟨b, g, hb, rfl⟩⟩
  | succ m ih =>
    intro i w h b hb g
    have key : ∀ e, Sqp.penaltyLoop p e fuel (m + 1) i (abs P w b g) =
        match Sqp.convexLoop p e fuel 99 (abs P { w with res := { w.res with penaltyIteration := i, convexifyIteration := 0 } } b g) with
        | none => none
        | some s =>
          if Sqp.verifyConvergence p s then some { s with status := .converged }
          else if s.status = .iterationLimit ∨ s.status = .timeLimit then some s
          else Sqp.penaltyLoop p e fuel m (i + 1) (Sqp.adjustPenalty p { s with status := .running }) := fun e => rfl
    simp only [penaltyLoop]
    have hs := convexLoop_sim L hp ho fuel 99 (w := { w with res := { w.res with penaltyIteration := i, convexifyIteration := 0 } }) h.frame b hb g
    revert hs
    cases convexLoop P p o fuel 99 { w with res := { w.res with penaltyIteration := i, convexifyIteration := 0 } } with
    | fail => exact fun hs => hs
    | fuel w' =>
      rintro ⟨h1, h2, h3⟩
      exact ⟨h1, h2, fun e ha => by simp only [key, h3 e ha]⟩
    | ok w' =>
      rintro ⟨h1, h2, h3⟩
      simp only
      by_cases c1 : verifyConvergence p w'.res = true
      · rw [if_pos c1]
        refine ⟨h1.frame, h2, fun e ha => ?_⟩
        obtain ⟨b', g', hb', hg'⟩ := h3 e ha
        refine ⟨b', g', hb', ?_⟩
        simp only [key, hg', verify_abs, c1, if_true]
        rfl
      rw [if_neg c1]
      by_cases c2 : w'.status = .iterationLimit ∨ w'.status = .timeLimit
      · rw [if_pos c2]
        refine ⟨h1, h2, fun e ha => ?_⟩
        obtain ⟨b', g', hb', hg'⟩ := h3 e ha
        refine ⟨b', g', hb', ?_⟩
        have : (abs P w' b' g').status = .iterationLimit ∨ (abs P w' b' g').status = .timeLimit := c2
        simp only [key, hg', verify_abs, c1, if_false, this, if_true, Bool.false_eq_true]
      rw [if_neg c2]
      obtain ⟨b2, -, hb2⟩ := h1.flat
      have hbe : ∀ b', w'.res.box = List.replicate C.n b' → b' = b2 := by
        intro b' hb'
        rw [hb2] at hb'
        have hn := L.pos
        have := congrArg List.head? hb'
        rw [List.head?_replicate, List.head?_replicate, if_neg (by omega), if_neg (by omega)] at this
        exact (Option.some.inj this).symm
      obtain ⟨w3, d1, d2, d3, b3, d4, d5⟩ := adjustPenalty_good L hp (w := { w' with status := .running }) h1.frame b2 hb2
      rw [d1]
      have hrec := fun g' => ih (i + 1) d2 b3 d4 g'
      have hlog : w'.log = w3.log := d3.symm
      have step : ∀ e, Agree C o e w'.log → ∃ g3, Sqp.penaltyLoop p e fuel (m + 1) i (abs P w b g) = Sqp.penaltyLoop p e fuel m (i + 1) (abs P w3 b3 g3) := by
        intro e ha
        obtain ⟨b', g', hb', hg'⟩ := h3 e ha
        have e1 := hbe b' hb'
        subst e1
        obtain ⟨g3, hg3⟩ := d5 g'
        refine ⟨g3, ?_⟩
        have : ¬ ((abs P w' b' g').status = .iterationLimit ∨ (abs P w' b' g').status = .timeLimit) := c2
        simp only [key, hg', verify_abs, c1, if_false, this, Bool.false_eq_true]
        rw [← hg3]
        rfl
      simp only
      cases hout : penaltyLoop P p o fuel m (i + 1) w3 with
      | fail => have := hrec g; rw [hout] at this; exact this
      | ok w2 =>
        have h0 := hrec g; rw [hout] at h0
        have hpre : w'.log <+: w2.log := by have := (h0.2.1); rwa [← hlog] at this
        refine ⟨h0.1, h2.trans hpre, fun e ha => ?_⟩
        obtain ⟨g3, hg3⟩ := step e (ha.prefix hpre)
        have h0' := hrec g3; rw [hout] at h0'
        obtain ⟨b4, g4, e1, e2⟩ := h0'.2.2 e ha
        exact ⟨b4, g4, e1, hg3.trans e2⟩
      | fuel w2 =>
        have h0 := hrec g; rw [hout] at h0
        have hpre : w'.log <+: w2.log := by have := (h0.2.1); rwa [← hlog] at this
        refine ⟨h0.1, h2.trans hpre, fun e ha => ?_⟩
        obtain ⟨g3, hg3⟩ := step e (ha.prefix hpre)
        have h0' := hrec g3; rw [hout] at h0'
        exact hg3.trans (h0'.2.2 e ha)

end Verif.SqpRun
