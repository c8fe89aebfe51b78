import Verif.Props.SqpRunQps

/-!
What a conforming problem object is, and the invariant of a run of `TrustRegionSQPSolver` on it.
-/

set_option linter.unusedSectionVars false
set_option linter.unusedVariables false

namespace Verif.SqpRun

open Verif.Sqp (Params Status Env St dot tiny)
open Verif.OsqpEigen (Problem Solver Qp Outcome Fine Consistent Holds posed)
open Verif.Bounds (Ext)

universe u v
variable {K : Type u} {S : Type v} [Field K] [LinearOrder K] [IsStrictOrderedRing K]

/-! ### Conforming problems -/

/-- What a problem object stands for: numbers of variables and constraints, exact costs and violations as functions of the variables,
the merit coefficients it holds, the usable states, `Cvx s c b μ` "the QP of `s` is the convexification at `c` in the box `b` with
coefficients `μ`", and `Asm s` "the QP of `s` has been assembled". -/
structure Meaning (K : Type u) (S : Type v) where
  n : Nat
  m : Nat
  costs : List K → List K
  viols : List K → List K
  mu : S → List K
  Inv : S → Prop
  Cvx : S → List K → List K → List K → Prop
  Asm : S → Prop

/-- All data of the QP except the bounds agree. -/
def SameMat (p q : Problem K) : Prop :=
  q.nv = p.nv ∧ q.nc = p.nc ∧ q.hessian = p.hessian ∧ q.gradient = p.gradient ∧ q.matrix = p.matrix

/-- A change of the trust box to `b`. -/
structure Boxed (P : QPProblem K S) (C : Meaning K S) (s s' : S) (b : List K) : Prop where
  inv : C.Inv s'
  vars : P.getVariableValues s' = P.getVariableValues s
  box : P.getBoxSize s' = b
  mu : C.mu s' = C.mu s
  mat : SameMat (P.qp s) (P.qp s')
  cvx : ∀ c b0 μ, C.Cvx s c b0 μ → P.getVariableValues s = c → C.Cvx s' c b μ
  asm : C.Asm s → C.Asm s'

/-- A problem object that conforms to the interface. -/
structure Lawful (P : QPProblem K S) (C : Meaning K S) : Prop where
  pos : 0 < C.n
  sizes : ∀ s, C.Inv s → P.getNumNLPVars s = C.n ∧ P.getNumNLPConstraints s = C.m ∧ (P.getVariableValues s).length = C.n
  exact : ∀ s, C.Inv s → P.getExactCosts s = C.costs (P.getVariableValues s) ∧
    P.getExactConstraintViolations s = C.viols (P.getVariableValues s)
  viols : ∀ x, x.length = C.n → (C.viols x).length = C.m
  setVars : ∀ s x, C.Inv s → C.n ≤ x.length → ∃ s', P.setVariables x s = some s' ∧ C.Inv s' ∧ P.getVariableValues s' = x.take C.n ∧
    P.getBoxSize s' = P.getBoxSize s ∧ C.mu s' = C.mu s ∧ SameMat (P.qp s) (P.qp s') ∧ (P.qp s').lower = (P.qp s).lower ∧
    (P.qp s').upper = (P.qp s).upper ∧ (∀ c b μ, C.Cvx s c b μ → C.Cvx s' c b μ) ∧ (C.Asm s → C.Asm s') ∧
    ∀ y, P.evaluateConvexCosts y s' = P.evaluateConvexCosts y s ∧
      P.evaluateConvexConstraintViolations y s' = P.evaluateConvexConstraintViolations y s
  setBox : ∀ s b, C.Inv s → b.length = C.n → (∀ a ∈ b, 0 ≤ a) → ∃ s', P.setBoxSize b s = some s' ∧ Boxed P C s s' b
  scaleBox : ∀ s a, C.Inv s → (P.getBoxSize s).length = C.n → (∀ b ∈ P.getBoxSize s, 0 ≤ b) → 0 ≤ a →
    ∃ s', P.scaleBoxSize a s = some s' ∧ Boxed P C s s' ((P.getBoxSize s).map (· * a))
  setMerit : ∀ s c, C.Inv s → c.length = C.m → (∀ a ∈ c, 0 ≤ a) → ∃ s', P.setConstraintMeritCoeff c s = some s' ∧ C.Inv s' ∧
    P.getVariableValues s' = P.getVariableValues s ∧ P.getBoxSize s' = P.getBoxSize s ∧ C.mu s' = c ∧ SameMat (P.qp s) (P.qp s')
  convexify : ∀ s, C.Inv s → (∀ b ∈ P.getBoxSize s, 0 ≤ b) → ∃ s', P.convexify s = some s' ∧ C.Inv s' ∧ P.getVariableValues s' = P.getVariableValues s ∧
    P.getBoxSize s' = P.getBoxSize s ∧ C.mu s' = C.mu s ∧ C.Cvx s' (P.getVariableValues s) (P.getBoxSize s) (C.mu s) ∧ C.Asm s'
  shaped : ∀ s, C.Inv s → C.Asm s → Shaped (P.qp s) ∧ C.n ≤ (P.qp s).nv ∧ ∀ y, y.length = (P.qp s).nv →
    (∃ cc, P.evaluateConvexCosts y s = some cc) ∧ (P.evaluateConvexConstraintViolations y s).length = C.m

/-- OSQP answers with one value per variable of the program. -/
def World.Sized (o : World K) : Prop := ∀ k q y, o.answer k q = some y → y.length = q.n

/-- Parameters the optimizer can work with. -/
structure Sane (p : Params K) : Prop where
  box : 0 ≤ p.initialTrustBoxSize
  minBox : 0 ≤ p.minTrustBoxSize
  shrink : 0 ≤ p.trustShrinkRatio
  expand : 0 ≤ p.trustExpandRatio
  coeff : 0 ≤ p.initialMeritErrorCoeff
  increase : 0 ≤ p.meritCoeffIncreaseRatio

/-! ### The invariant -/

/-- What is known about the `k`-th call of the QP solver: the problem object is at the best point and its QP is the convexification
there, in the reported box and with the reported coefficients; the program OSQP solved is that QP; an answer is OSQP's answer to it. -/
structure EntryOk (P : QPProblem K S) (C : Meaning K S) (o : World K) (sent : List (Problem K)) (k : Nat) (e : Entry K S) : Prop where
  inv : C.Inv e.prob
  asm : C.Asm e.prob
  vars : P.getVariableValues e.prob = e.res.bestVars.take C.n
  cvx : C.Cvx e.prob (e.res.bestVars.take C.n) e.res.box e.res.coeffs
  iter : e.res.overallIteration = k
  program : (∀ p ∈ sent, Fine p) → (∀ q, e.program = some q → q = posed (P.qp e.prob)) ∧
    (o.initOk k = true → e.program = some (posed (P.qp e.prob)))
  answer : ∀ y, e.answer = some y → y.length = (P.qp e.prob).nv ∧ (∃ q, e.program = some q ∧ o.answer k q = some y) ∧
    P.evaluateConvexCosts y e.prob = some e.convexCosts ∧ P.evaluateConvexConstraintViolations y e.prob = e.convexViols

theorem EntryOk.mono {P : QPProblem K S} {C : Meaning K S} {o : World K} {s s' : List (Problem K)} {k : Nat} {e : Entry K S}
    (h : EntryOk P C o s k e) (hs : ∀ p ∈ s, p ∈ s') : EntryOk P C o s' k e :=
  ⟨h.inv, h.asm, h.vars, h.cvx, h.iter, fun hf => h.program fun p hp => hf p (hs p hp), h.answer⟩

/-- What is known between two QPs, except for the merit coefficients. -/
structure Pre (P : QPProblem K S) (C : Meaning K S) (o : World K) (w : Run K S) : Prop where
  inv : C.Inv w.prob
  vars : P.getVariableValues w.prob = w.res.bestVars.take C.n
  best : C.n ≤ w.res.bestVars.length
  box : P.getBoxSize w.prob = w.res.box
  flat : ∃ b, 0 ≤ b ∧ w.res.box = List.replicate C.n b
  viols : w.res.bestViols.length = C.m
  costs : w.res.bestCosts = C.costs (w.res.bestVars.take C.n)
  cnts : w.res.bestViols = C.viols (w.res.bestVars.take C.n)
  cons : Consistent w.qps
  dims : w.qps.status ≠ .uninitialized → 0 < w.qps.nVars ∧ (w.qps.nVars = (P.qp w.prob).nv → w.qps.nCnts = (P.qp w.prob).nc)
  len : w.log.length = w.res.overallIteration
  entries : ∀ i e, w.log[i]? = some e → EntryOk P C o w.sent (i + 1) e
  sent : ∀ p ∈ w.sent, ∃ s, C.Inv s ∧ C.Asm s ∧ (∀ b ∈ P.getBoxSize s, 0 ≤ b) ∧ (P.getBoxSize s).length = C.n ∧ P.qp s = p

/-- What is known between two QPs. -/
structure Good (P : QPProblem K S) (C : Meaning K S) (o : World K) (w : Run K S) : Prop extends Pre P C o w where
  mu : C.mu w.prob = w.res.coeffs
  coeffs : w.res.coeffs.length = C.m
  nonneg : ∀ a ∈ w.res.coeffs, 0 ≤ a
  merit : w.res.bestExactMerit = w.res.bestCosts.sum + dot w.res.bestViols w.res.coeffs

/-- What is known inside the trust-region loop. -/
structure Loop (P : QPProblem K S) (C : Meaning K S) (o : World K) (w : Run K S) : Prop extends Good P C o w where
  asm : C.Asm w.prob
  cvx : C.Cvx w.prob (w.res.bestVars.take C.n) w.res.box w.res.coeffs
  ready : w.qps.status ≠ .uninitialized
  full : w.qps.nVars = (P.qp w.prob).nv ∧ w.qps.nCnts = (P.qp w.prob).nc
  holds : (∀ p ∈ w.sent, Fine p) → Holds w.qps (P.qp w.prob)

theorem Holds.same {s : Solver K} {p q : Problem K} (h : Holds s p) (hm : SameMat p q) (hl : q.lower = p.lower) (hu : q.upper = p.upper) :
    Holds s q := by
  obtain ⟨e1, e2, e3, e4, e5⟩ := hm
  have : posed q = posed p := by simp only [posed, e1, e2, e3, e4, e5, hl, hu]
  exact ⟨by rw [h.nVars, e1], by rw [h.nCnts, e2], by rw [this]; exact h.held⟩

variable {P : QPProblem K S} {C : Meaning K S} {o : World K} {p : Params K}

theorem replicate_nonneg {n : Nat} {b : K} (hb : 0 ≤ b) : ∀ a ∈ List.replicate n b, 0 ≤ a :=
  fun a ha => by rw [(List.mem_replicate.1 ha).2]; exact hb

theorem maxOf_replicate {n : Nat} (hn : 0 < n) (b : K) : maxOf (List.replicate n b) = some b := by
  have : ∀ n : Nat, (List.replicate n b).foldl max b = b := by
    intro n
    induction n with
    | zero => rfl
    | succ n ih => rw [List.replicate_succ, List.foldl_cons, max_self, ih]
  cases n with
  | zero => omega
  | succ n => rw [List.replicate_succ, maxOf, Sqp.maxCoeff, this]

/-! ### The steps keep the invariant -/

theorem setBoxSize_pre (L : Lawful P C) {w : Run K S} (h : Pre P C o w) (b : K) (hb : 0 ≤ b) :
    ∃ s, setBoxSize P b w = some { w with prob := s, res := { w.res with box := List.replicate C.n b } } ∧
      Pre P C o { w with prob := s, res := { w.res with box := List.replicate C.n b } } ∧
      P.getVariableValues s = P.getVariableValues w.prob := by
  obtain ⟨s, a1, a2⟩ := L.setBox w.prob (List.replicate C.n b) h.inv (by simp) (replicate_nonneg hb)
  refine ⟨s, ?_, ?_, a2.vars⟩
  · rw [setBoxSize, (L.sizes _ h.inv).1, a1]
    simp only [a2.box]
  · exact ⟨a2.inv, a2.vars.trans h.vars, h.best, a2.box, ⟨b, hb, rfl⟩, h.viols, h.costs, h.cnts, h.cons,
      fun hu => by rw [a2.mat.1, a2.mat.2.1]; exact h.dims hu, h.len, h.entries, h.sent⟩

theorem meritChanged_good (L : Lawful P C) {w : Run K S} (h : Pre P C o w)
    (h1 : w.res.coeffs.length = C.m) (h2 : ∀ a ∈ w.res.coeffs, 0 ≤ a) :
    ∃ s, constraintMeritCoeffChanged P w = some { w with prob := s, res := { w.res with bestExactMerit := w.res.bestCosts.sum + dot w.res.bestViols w.res.coeffs } } ∧
      Good P C o { w with prob := s, res := { w.res with bestExactMerit := w.res.bestCosts.sum + dot w.res.bestViols w.res.coeffs } } ∧
      P.getVariableValues s = P.getVariableValues w.prob := by
  obtain ⟨s, a1, a2, a3, a4, a5, a6⟩ := L.setMerit w.prob w.res.coeffs h.inv h1 h2
  refine ⟨s, ?_, ?_, a3⟩
  · simp only [constraintMeritCoeffChanged, a1]
    rw [if_pos (by rw [h.viols, h1])]
  · exact ⟨⟨a2, a3.trans h.vars, h.best, a4.trans h.box, h.flat, h.viols, h.costs, h.cnts, h.cons,
      fun hu => by rw [a6.1, a6.2.1]; exact h.dims hu, h.len, h.entries, h.sent⟩, a5, h1, h2, rfl⟩

/-- The state before line 61. -/
def start (P : QPProblem K S) (p : Params K) (s : S) (qps : Solver K) : Run K S :=
  { status := .running, res := initialResults P p s, prob := s, qps := qps, clockReads := 0, sent := [], log := [] }

theorem init_good (L : Lawful P C) (hp : Sane p) (s0 : S) (hs : C.Inv s0) (qps : Solver K) (hq : Consistent qps) (hu : qps.status ≠ .uninitialized → 0 < qps.nVars ∧ (qps.nVars = (P.qp s0).nv → qps.nCnts = (P.qp s0).nc)) :
    ∃ s, Good P C o { start P p s0 qps with
        prob := s
        res := { initialResults P p s0 with
          box := List.replicate C.n p.initialTrustBoxSize
          bestExactMerit := (initialResults P p s0).bestCosts.sum + dot (initialResults P p s0).bestViols (initialResults P p s0).coeffs } } ∧
      init P p s0 qps = some { start P p s0 qps with
        prob := s
        res := { initialResults P p s0 with
          box := List.replicate C.n p.initialTrustBoxSize
          bestExactMerit := (initialResults P p s0).bestCosts.sum + dot (initialResults P p s0).bestViols (initialResults P p s0).coeffs } } := by
  obtain ⟨z1, z2, z3⟩ := L.sizes s0 hs
  obtain ⟨x1, x2⟩ := L.exact s0 hs
  have hv := L.viols _ z3
  obtain ⟨s1, a1, a2⟩ := L.setBox s0 (List.replicate C.n p.initialTrustBoxSize) hs (by simp) (replicate_nonneg hp.box)
  have e1 : setBoxSize P p.initialTrustBoxSize (start P p s0 qps) =
      some { start P p s0 qps with prob := s1, res := { initialResults P p s0 with box := List.replicate C.n p.initialTrustBoxSize } } := by
    simp only [setBoxSize, start, z1, a1, a2.box]
  obtain ⟨s2, b1, b2, b3⟩ := meritChanged_good (o := o) L
    (w := { start P p s0 qps with prob := s1, res := { initialResults P p s0 with box := List.replicate C.n p.initialTrustBoxSize } })
    ⟨a2.inv, by simp only [initialResults]; rw [a2.vars, ← z3, List.take_length], by simp [initialResults, z3], a2.box, ⟨_, hp.box, rfl⟩,
      by simp only [initialResults]; rw [x2, hv],
      by simp only [initialResults]; rw [x1, ← z3, List.take_length], by simp only [initialResults]; rw [x2, ← z3, List.take_length], hq, fun h => by rw [a2.mat.1, a2.mat.2.1]; exact hu h, rfl, by simp [start], by simp [start]⟩
    (by simp [initialResults, z2]) (by simp only [initialResults]; exact replicate_nonneg hp.coeff)
  refine ⟨s2, b2, ?_⟩
  unfold init
  change (match setBoxSize P p.initialTrustBoxSize (start P p s0 qps) with | none => none | some w => constraintMeritCoeffChanged P w) = _
  rw [e1]
  exact b1

/-- The counters are increased, 271-272. -/
def bump (w : Run K S) : Run K S :=
  { w with res := { w.res with overallIteration := w.res.overallIteration + 1
                               trustRegionIteration := w.res.trustRegionIteration + 1 } }

theorem entries_snoc {w : Run K S} (h : Pre P C o w) (e : Entry K S) (he : EntryOk P C o w.sent (w.log.length + 1) e) :
    ∀ i e', (w.log ++ [e])[i]? = some e' → EntryOk P C o w.sent (i + 1) e' := by
  intro i e' hi
  rcases lt_trichotomy i w.log.length with hlt | heq | hgt
  · rw [List.getElem?_append_left hlt] at hi
    exact h.entries i e' hi
  · subst heq
    simp at hi
    subst hi
    exact he
  · rw [List.getElem?_eq_none (by simp; omega)] at hi
    cases hi

/-- `solveQPProblem` inside the loop. -/
theorem solveQP_loop (L : Lawful P C) (ho : o.Sized) {w : Run K S} (h : Loop P C o w) :
    (∃ s q e, solveQPProblem P o (bump w) = some ({ bump w with qps := q, prob := s, log := w.log ++ [e] }, .qpSolveFailed) ∧
      e.answer = none ∧ Loop P C o { bump w with qps := q, prob := s, log := w.log ++ [e] }) ∨
    (∃ s q e y, solveQPProblem P o (bump w) = some ({ bump w with
          qps := q, prob := s, log := w.log ++ [e]
          res := scored (bump w).res y e.convexCosts e.convexViols (C.costs (y.take C.n)) (C.viols (y.take C.n)) },
        if callCallbacks o (w.res.overallIteration + 1) then .running else .stoppedByCallback) ∧
      e.answer = some y ∧ C.n ≤ y.length ∧ Loop P C o { bump w with
          qps := q, prob := s, log := w.log ++ [e]
          res := scored (bump w).res y e.convexCosts e.convexViols (C.costs (y.take C.n)) (C.viols (y.take C.n)) }) := by
  obtain ⟨a1, a2, a3, a4, a5, a6, a7⟩ := solve_shaped (o.initOk (w.res.overallIteration + 1)) (o.answer (w.res.overallIteration + 1)) w.qps h.cons
  obtain ⟨sh1, sh2, sh3⟩ := L.shaped w.prob h.inv h.asm
  obtain ⟨d1, d2⟩ := h.full
  have hpos := (h.dims h.ready).1
  cases hy : (w.qps.solve (o.initOk (w.res.overallIteration + 1)) (o.answer (w.res.overallIteration + 1))).1 with
  | none =>
    left
    obtain ⟨s, b1, b2, b3, b4, b5, b6, b7, b8, b9, b10, b11⟩ := L.setVars w.prob w.res.bestVars h.inv h.best
    refine ⟨s, (w.qps.solve (o.initOk (w.res.overallIteration + 1)) (o.answer (w.res.overallIteration + 1))).2.2,
      ⟨w.prob, (bump w).res, (w.qps.solve (o.initOk (w.res.overallIteration + 1)) (o.answer (w.res.overallIteration + 1))).2.1, none, [], []⟩,
      ?_, rfl, ?_⟩
    · simp only [solveQPProblem, bump, hy, b1]
    · refine ⟨⟨⟨b2, b3, h.best, b4.trans h.box, h.flat, h.viols, h.costs, h.cnts, a1, fun _ => ⟨by rw [a2]; exact hpos, fun _ => ?_⟩, by simp [bump, h.len], ?_, h.sent⟩, b5.trans h.mu, h.coeffs, h.nonneg, h.merit⟩, b10 h.asm, b9 _ _ _ h.cvx,
        a4 h.ready, ⟨a2.trans (d1.trans b6.1.symm), a3.trans (d2.trans b6.2.1.symm)⟩, fun hf => Holds.same (a5 _ (h.holds hf)).1 b6 b7 b8⟩
      · exact a3.trans (d2.trans b6.2.1.symm)
      · refine entries_snoc h.toPre _ ⟨h.inv, h.asm, h.vars, h.cvx, by simp [bump, h.len], fun hf => ⟨?_, ?_⟩, by simp⟩
        · intro q hq
          exact (a5 _ (h.holds hf)).2 q hq
        · intro hi
          rw [h.len] at hi
          exact a6 _ (h.holds hf) hi
  | some y =>
    right
    obtain ⟨q, q1, q2, q3⟩ := a7 y hy
    have hlen : y.length = (P.qp w.prob).nv := by rw [ho _ _ _ q2, q3, d1]
    obtain ⟨⟨cc, hcc⟩, hcv⟩ := sh3 y hlen
    have hn : C.n ≤ y.length := by rw [hlen]; exact sh2
    obtain ⟨t, b1, b2, b3, b4, b5, b6, b7, b8, b9, b10, b11⟩ := L.setVars w.prob y h.inv hn
    obtain ⟨s, c1, c2, c3, c4, c5, c6, c7, c8, c9, c10, c11⟩ := L.setVars t w.res.bestVars b2 h.best
    obtain ⟨x1, x2⟩ := L.exact t b2
    have hvl := L.viols (y.take C.n) (by simp [hn])
    have hm : SameMat (P.qp w.prob) (P.qp s) :=
      ⟨c6.1.trans b6.1, c6.2.1.trans b6.2.1, c6.2.2.1.trans b6.2.2.1, c6.2.2.2.1.trans b6.2.2.2.1, c6.2.2.2.2.trans b6.2.2.2.2⟩
    refine ⟨s, (w.qps.solve (o.initOk (w.res.overallIteration + 1)) (o.answer (w.res.overallIteration + 1))).2.2,
      ⟨w.prob, (bump w).res, (w.qps.solve (o.initOk (w.res.overallIteration + 1)) (o.answer (w.res.overallIteration + 1))).2.1, some y, cc,
        P.evaluateConvexConstraintViolations y w.prob⟩, y, ?_, rfl, hn, ?_⟩
    · simp only [solveQPProblem, bump, hy, b1, (b11 y).1, (b11 y).2, hcc, x1, x2, b3, c1]
      rw [if_pos ⟨by rw [hcv, h.coeffs], by rw [hvl, h.coeffs]⟩]
      rfl
    · refine ⟨⟨⟨c2, c3, h.best, (c4.trans b4).trans h.box, h.flat, h.viols, h.costs, h.cnts, a1, fun _ => ⟨by rw [a2]; exact hpos, fun _ => ?_⟩, by simp [bump, scored, h.len], ?_, h.sent⟩,
        (c5.trans b5).trans h.mu, h.coeffs, h.nonneg, h.merit⟩, c10 (b10 h.asm), c9 _ _ _ (b9 _ _ _ h.cvx),
        a4 h.ready, ⟨a2.trans (d1.trans hm.1.symm), a3.trans (d2.trans hm.2.1.symm)⟩, fun hf => Holds.same (a5 _ (h.holds hf)).1 hm (c7.trans b7) (c8.trans b8)⟩
      · exact a3.trans (d2.trans hm.2.1.symm)
      · refine entries_snoc h.toPre _ ⟨h.inv, h.asm, h.vars, h.cvx, by simp [bump, h.len], fun hf => ⟨?_, ?_⟩, ?_⟩
        · intro q hq
          exact (a5 _ (h.holds hf)).2 q hq
        · intro hi
          rw [h.len] at hi
          exact a6 _ (h.holds hf) hi
        · intro y' hy'
          have : y = y' := Option.some.inj hy'
          subst this
          exact ⟨hlen, ⟨q, q1, by rw [h.len]; exact q2⟩, hcc, rfl⟩

/-- Sending bounds after the box of the problem changed. -/
theorem sendBounds_good {w : Run K S} (L : Lawful P C) (h : Good P C o w) (hr : w.qps.status ≠ .uninitialized)
    (hd : w.qps.nVars = (P.qp w.prob).nv ∧ w.qps.nCnts = (P.qp w.prob).nc) (ha : C.Asm w.prob)
    (hh : (∀ p ∈ w.sent, Fine p) → Holds w.qps (P.qp w.prob)) (b : K) (hb : 0 ≤ b) (s : S)
    (hs : Boxed P C w.prob s (List.replicate C.n b)) :
    ∃ q, sendBounds P { w with prob := s } = some { w with prob := s, qps := q, res := { w.res with box := List.replicate C.n b }, sent := w.sent ++ [P.qp s] } ∧
      Good P C o { w with prob := s, qps := q, res := { w.res with box := List.replicate C.n b }, sent := w.sent ++ [P.qp s] } ∧
      (C.Cvx w.prob (w.res.bestVars.take C.n) w.res.box w.res.coeffs →
        Loop P C o { w with prob := s, qps := q, res := { w.res with box := List.replicate C.n b }, sent := w.sent ++ [P.qp s] }) := by
  obtain ⟨d1, d2⟩ := hd
  have hpos := (h.dims hr).1
  obtain ⟨sh1, sh2, -⟩ := L.shaped s hs.inv (hs.asm ha)
  obtain ⟨m1, m2, m3, m4, m5⟩ := hs.mat
  obtain ⟨r, a1, a2, a3, a4, a5, a6⟩ := bounds_shaped (P.qp s) w.qps h.cons (by rw [sh1.lower, m2, d2]) (by rw [sh1.upper, m2, d2])
  have good : Good P C o { w with prob := s, qps := r.2, res := { w.res with box := List.replicate C.n b }, sent := w.sent ++ [P.qp s] } := by
    refine ⟨⟨hs.inv, hs.vars.trans h.vars, h.best, hs.box, ⟨b, hb, rfl⟩, h.viols, h.costs, h.cnts, a2, fun _ => ⟨by rw [a3]; exact hpos, fun _ => ?_⟩, h.len, ?_, ?_⟩, hs.mu.trans h.mu, h.coeffs, h.nonneg, h.merit⟩
    · exact a4.trans (d2.trans m2.symm)
    · exact fun i e hi => (h.entries i e hi).mono fun p hp => List.mem_append_left _ hp
    · intro p hp
      rcases List.mem_append.1 hp with hp | hp
      · exact h.sent p hp
      · rw [List.mem_singleton] at hp
        subst hp
        exact ⟨s, hs.inv, hs.asm ha, by rw [hs.box]; exact replicate_nonneg hb, by rw [hs.box]; simp, rfl⟩
  refine ⟨r.2, ?_, good, fun hc => ⟨good, hs.asm ha, hs.cvx _ _ _ hc h.vars, by rw [a5]; exact hr, ⟨a3.trans (d1.trans m1.symm), a4.trans (d2.trans m2.symm)⟩, fun hf => ?_⟩⟩
  · simp only [sendBounds, a1, hs.box]
  · have h1 := hh fun p hp => hf p (List.mem_append_left _ hp)
    have hfs : Fine (P.qp s) := hf (P.qp s) (List.mem_append_right _ (List.mem_singleton.2 rfl))
    have hfs' : Fine ({ P.qp w.prob with lower := (P.qp s).lower, upper := (P.qp s).upper, nNlp := (P.qp s).nNlp, vars := (P.qp s).vars, violations := (P.qp s).violations } : Problem K) := by
      have : ({ P.qp w.prob with lower := (P.qp s).lower, upper := (P.qp s).upper, nNlp := (P.qp s).nNlp, vars := (P.qp s).vars, violations := (P.qp s).violations } : Problem K) = P.qp s := by
        revert m1 m2 m3 m4 m5
        generalize P.qp s = a
        generalize P.qp w.prob = b
        cases a
        cases b
        rintro rfl rfl rfl rfl rfl
        rfl
      rw [this]; exact hfs
    have h2 : Holds w.qps ({ P.qp w.prob with nNlp := (P.qp s).nNlp, vars := (P.qp s).vars, violations := (P.qp s).violations } : Problem K) :=
      Holds.same h1 ⟨rfl, rfl, rfl, rfl, rfl⟩ rfl rfl
    have h3 := a6 _ h2 hfs'
    exact Holds.same h3 ⟨m1, m2, m3, m4, m5⟩ rfl rfl

end Verif.SqpRun
