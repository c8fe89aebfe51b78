import Verif.Model.SqpWatch
import Verif.Props.SqpRunLast
import Verif.Props.SqpRunExample

/-!
C163: what the callbacks of a run of `TrustRegionSQPSolver` are given.
-/

set_option linter.unusedSectionVars false
set_option linter.unusedVariables false

namespace Verif.SqpRun

open Verif.Sqp (Params Status Env St dot tiny)
open Verif.OsqpEigen (Problem Solver Qp Outcome Fine Consistent Holds posed)
open Verif.Bounds (Ext)

universe u v

section general
variable {K : Type u} {S : Type v} [Field K] [LinearOrder K] [IsStrictOrderedRing K]
variable {P : QPProblem K S} {C : Meaning K S} {o : World K} {p : Params K}

/-! ### Specification -/

/-- Specification: after the QP recorded in `e` the best point is `b`: the best point of before, or the answer, if the exact merit of the
answer is not worse and the ratio of improvements is large enough. -/
def MovesTo (P : QPProblem K S) (p : Params K) (e : Entry K S) (b : List K) : Prop :=
  b = e.res.bestVars ∨ ∃ y s r, e.answer = some y ∧ callbackArgs P e.prob e.res y = some (s, r) ∧ b = y ∧ 0 ≤ r.exactImprove ∧
    p.improveRatioThreshold ≤ r.improveRatio

/-- The record of a run that started at `x0`. -/
structure Watch (P : QPProblem K S) (C : Meaning K S) (o : World K) (p : Params K) (x0 : List K) (log : List (Entry K S)) (best : List K) : Prop where
  hist : ∀ e ∈ log, ∃ w, Loop P C o w ∧ e.prob = w.prob ∧ e.res = (bump w).res
  first : ∀ e, log[0]? = some e → e.res.bestVars = x0
  chain : ∀ (i : Nat) e e', log[i]? = some e → log[i + 1]? = some e' → MovesTo P p e e'.res.bestVars
  last : ∀ e, log.getLast? = some e → MovesTo P p e best
  none : log = [] → best = x0

/-! ### The callbacks get the state of the run -/

/-- After the QP solver answered, the state of the run is what the callbacks were given. -/
theorem solveQP_args {w w' : Run K S} {st : Status} (h : solveQPProblem P o w = some (w', st)) :
    ∃ e, w'.log = w.log ++ [e] ∧ e.prob = w.prob ∧ e.res = w.res ∧
      ((e.answer = none ∧ st = .qpSolveFailed ∧ w'.res = w.res) ∨
       (∃ y, e.answer = some y ∧ callbackArgs P w.prob w.res y = some (w'.prob, w'.res) ∧ st ≠ .qpSolveFailed)) := by
  unfold solveQPProblem at h
  simp only at h
  split at h
  · split at h
    · cases h
    · cases h; exact ⟨_, rfl, rfl, rfl, .inl ⟨rfl, rfl, rfl⟩⟩
  · rename_i y hy
    split at h
    · cases h
    · rename_i t ht
      split at h
      · cases h
      · rename_i cc hcc
        split_ifs at h with hl
        · split at h
          · cases h
          · rename_i s hs
            cases h
            refine ⟨_, rfl, rfl, rfl, .inr ⟨y, rfl, ?_, by decide⟩⟩
            simp only [callbackArgs, ht, hcc, hl, and_self, if_true, hs]
        · split at h
          · cases h
          · rename_i s hs
            cases h
            refine ⟨_, rfl, rfl, rfl, .inr ⟨y, rfl, ?_, by decide⟩⟩
            simp only [callbackArgs, ht, hcc, hl, and_self, if_true, hs]

theorem args_best {prob s : S} {r r' : Results K} {y : List K} (h : callbackArgs P prob r y = some (s, r')) :
    r'.bestVars = r.bestVars ∧ r'.newVars = y := by
  unfold callbackArgs at h
  split at h
  · cases h
  · split at h
    · cases h
    · split_ifs at h
      split at h
      · cases h
      · cases h; exact ⟨rfl, rfl⟩

theorem sendBounds_keeps {w w' : Run K S} (h : sendBounds P w = some w') : w'.log = w.log ∧ w'.res.bestVars = w.res.bestVars := by
  unfold sendBounds at h
  split at h
  · cases h
  · cases h; exact ⟨rfl, rfl⟩

theorem scaleBox_keeps {a : K} {w w' : Run K S} (h : scaleBox P a w = some w') : w'.log = w.log ∧ w'.res.bestVars = w.res.bestVars := by
  unfold scaleBox at h
  split at h
  · cases h
  · have := sendBounds_keeps h
    exact this

theorem minimalBox_keeps {w w' : Run K S} (h : minimalBox P p w = some w') : w'.log = w.log ∧ w'.res.bestVars = w.res.bestVars := by
  unfold minimalBox at h
  split at h
  · cases h
  · have := sendBounds_keeps h
    exact this

/-- One pass through the trust-region loop. -/
theorem trBody_movesTo {w : Run K S} {f : ℤ} {r : TrOut K S} (h : trBody P p o w f = some r) :
    ∃ e, r.run.log = w.log ++ [e] ∧ e.prob = w.prob ∧ e.res = (bump w).res ∧ MovesTo P p e r.run.res.bestVars := by
  unfold trBody at h
  split at h
  · cases h
  · rename_i q hq
    obtain ⟨w', st⟩ := q
    obtain ⟨e, e1, e2, e3, e4⟩ := solveQP_args hq
    have hb : w'.res.bestVars = e.res.bestVars := by
      rcases e4 with ⟨-, -, h3⟩ | ⟨y, -, h3, -⟩
      · rw [h3, e3]
      · rw [(args_best h3).1, e3]
    simp only at h
    refine ⟨e, ?_⟩
    split_ifs at h with a1 a2
    · cases h
      exact ⟨e1, e2, e3, .inl hb⟩
    · unfold afterFailure at h
      split_ifs at h
      · rw [Option.map_eq_some_iff] at h
        obtain ⟨x, hx, rfl⟩ := h
        obtain ⟨g1, g2⟩ := scaleBox_keeps hx
        exact ⟨g1.trans e1, e2, e3, .inl (g2.trans hb)⟩
      · rw [Option.map_eq_some_iff] at h
        obtain ⟨x, hx, rfl⟩ := h
        obtain ⟨g1, g2⟩ := minimalBox_keeps hx
        exact ⟨g1.trans e1, e2, e3, .inl (g2.trans hb)⟩
      · cases h
        exact ⟨e1, e2, e3, .inl hb⟩
    · unfold afterSuccess at h
      simp only at h
      split_ifs at h with b1 b2 b3
      · cases h
        exact ⟨e1, e2, e3, .inl hb⟩
      · cases h
        exact ⟨e1, e2, e3, .inl hb⟩
      · rw [Option.map_eq_some_iff] at h
        obtain ⟨x, hx, rfl⟩ := h
        obtain ⟨g1, g2⟩ := scaleBox_keeps hx
        exact ⟨g1.trans e1, e2, e3, .inl (g2.trans hb)⟩
      · rw [Option.map_eq_some_iff] at h
        obtain ⟨x, hx, rfl⟩ := h
        unfold accept at hx
        split at hx
        · cases hx
        · obtain ⟨g1, g2⟩ := scaleBox_keeps hx
          push Not at a2 b3
          rcases e4 with ⟨-, h2, -⟩ | ⟨y, h2, h3, -⟩
          · rw [h2] at a2; cases a2
          · refine ⟨g1.trans e1, e2, e3, .inr ⟨y, w'.prob, w'.res, h2, ?_, g2.trans (args_best h3).2, b3.1, b3.2⟩⟩
            rw [e2, e3]; exact h3

theorem Watch.snoc {x0 : List K} {w : Run K S} (h : Watch P C o p x0 w.log w.res.bestVars) (hl : Loop P C o w) {e : Entry K S} {b : List K}
    (e2 : e.prob = w.prob) (e3 : e.res = (bump w).res) (e4 : MovesTo P p e b) : Watch P C o p x0 (w.log ++ [e]) b := by
  have eb : e.res.bestVars = w.res.bestVars := by rw [e3]; rfl
  refine ⟨?_, ?_, ?_, ?_, ?_⟩
  · intro d hd
    rcases List.mem_append.1 hd with hd | hd
    · exact h.hist d hd
    · rw [List.mem_singleton] at hd; subst hd
      exact ⟨w, hl, e2, e3⟩
  · intro d hd
    cases hlog : w.log with
    | nil =>
      rw [hlog] at hd
      simp at hd; subst hd
      rw [eb]; exact h.none hlog
    | cons a l =>
      rw [hlog] at hd
      simp at hd; subst hd
      exact h.first _ (by rw [hlog]; rfl)
  · intro i d d' hd hd'
    by_cases hi : i + 1 < w.log.length
    · rw [List.getElem?_append_left (by omega)] at hd
      rw [List.getElem?_append_left hi] at hd'
      exact h.chain i d d' hd hd'
    · have hlt : i + 1 < (w.log ++ [e]).length := (List.getElem?_eq_some_iff.1 hd').1
      rw [List.length_append, List.length_singleton] at hlt
      have hi' : i + 1 = w.log.length := by omega
      rw [hi', List.getElem?_concat_length] at hd'
      cases hd'
      rw [List.getElem?_append_left (by omega)] at hd
      rw [eb]
      refine h.last d ?_
      rw [List.getLast?_eq_getElem?, ← hi', Nat.add_sub_cancel]; exact hd
  · intro d hd
    rw [List.getLast?_concat] at hd
    cases hd; exact e4
  · intro hh; simp at hh

/-- The outcome of a loop keeps the record. -/
def Kept (P : QPProblem K S) (C : Meaning K S) (o : World K) (p : Params K) (x0 : List K) : Out K S (Run K S) → Prop
  | .fail => True
  | .ok w => Watch P C o p x0 w.log w.res.bestVars
  | .fuel w => Watch P C o p x0 w.log w.res.bestVars

theorem trLoop_watch (L : Lawful P C) (hp : Sane p) (ho : o.Sized) {x0 : List K} (n : Nat) : ∀ (w : Run K S) (_ : Loop P C o w)
    (_ : Watch P C o p x0 w.log w.res.bestVars) (f : ℤ), Kept P C o p x0 (trLoop P p o n w f) := by
  induction n with
  | zero => intro w _ h _; exact h
  | succ n ih =>
    intro w hl h f
    obtain ⟨b, -, hb⟩ := hl.flat
    simp only [trLoop, hb, maxOf_replicate L.pos]
    by_cases h1 : p.minTrustBoxSize ≤ b
    · simp only [h1, if_true]
      obtain ⟨r, a1, a2, a3, a4, a5⟩ := trBody_sim L hp ho hl b hb f
      obtain ⟨e, e1, e2, e3, e4⟩ := trBody_movesTo a1
      rw [a1]
      cases r with
      | done w' =>
        show Watch P C o p x0 w'.log w'.res.bestVars
        rw [show w'.log = w.log ++ [e] from e1]
        exact h.snoc hl e2 e3 e4
      | cont w' f' =>
        refine ih w' (a4 w' f' rfl) ?_ f'
        rw [show w'.log = w.log ++ [e] from e1]
        exact h.snoc hl e2 e3 e4
    · simp only [h1, if_false]; exact h

/-- The outcome of a step keeps the record. -/
def KeptStep (P : QPProblem K S) (C : Meaning K S) (o : World K) (p : Params K) (x0 : List K) : Out K S (Run K S × Bool) → Prop
  | .fail => True
  | .ok w => Watch P C o p x0 w.1.log w.1.res.bestVars
  | .fuel w => Watch P C o p x0 w.log w.res.bestVars

theorem step_watch (L : Lawful P C) (hp : Sane p) (ho : o.Sized) {x0 : List K} (fuel : Nat) {w : Run K S} (hg : Good P C o w)
    (h : Watch P C o p x0 w.log w.res.bestVars) : KeptStep P C o p x0 (stepSQPSolver P p o fuel w) := by
  obtain ⟨s, q, a1, a2, a3⟩ := convexifyAndSend_loop (o := o) L
    (w := { w with res := { w.res with convexifyIteration := w.res.convexifyIteration + 1 } }) hg.frame
  simp only [stepSQPSolver, a1]
  have hs := trLoop_watch (p := p) L hp ho (x0 := x0) fuel { w with
    prob := s, qps := q, sent := w.sent ++ [P.qp s]
    res := { w.res with convexifyIteration := w.res.convexifyIteration + 1, trustRegionIteration := 0 } } a3.frame h 0
  revert hs
  cases trLoop P p o fuel { w with
    prob := s, qps := q, sent := w.sent ++ [P.qp s]
    res := { w.res with convexifyIteration := w.res.convexifyIteration + 1, trustRegionIteration := 0 } } 0 with
  | fail => exact fun hs => hs
  | fuel w' => exact fun hs => hs
  | ok w' =>
    intro hs
    simp only [stepEnd]
    by_cases c1 : w'.status = .converged
    · rw [if_pos c1]; exact hs
    · rw [if_neg c1]
      cases maxOf w'.res.box with
      | none => trivial
      | some b =>
        simp only
        by_cases c2 : b < p.minTrustBoxSize
        · rw [if_pos c2]; exact hs
        · rw [if_neg c2]; exact hs

theorem convexLoop_watch (L : Lawful P C) (hp : Sane p) (ho : o.Sized) {x0 : List K} (fuel k : Nat) : ∀ {w : Run K S} (_ : Good P C o w)
    (_ : Watch P C o p x0 w.log w.res.bestVars), Kept P C o p x0 (convexLoop P p o fuel k w) := by
  induction k with
  | zero => intro w _ h; exact h
  | succ k ih =>
    intro w hg h
    obtain ⟨b, -, hb⟩ := hg.flat
    simp only [convexLoop]
    by_cases c1 : p.maxTime < o.clock w.clockReads
    · rw [if_pos c1]; exact h
    by_cases c2 : p.maxIterations ≤ (w.res.overallIteration : Int)
    · rw [if_neg c1, if_pos c2]; exact h
    rw [if_neg c1, if_neg c2]
    have hs := step_watch (p := p) L hp ho (x0 := x0) fuel (w := { w with clockReads := w.clockReads + 1 }) hg.frame h
    have hs' := step_sim L hp ho fuel (w := { w with clockReads := w.clockReads + 1 }) hg.frame b hb ⟨[], [], [], 0, []⟩
    revert hs hs'
    cases stepSQPSolver P p o fuel { w with clockReads := w.clockReads + 1 } with
    | fail => exact fun _ _ => trivial
    | fuel w' => exact fun hs _ => hs
    | ok r =>
      obtain ⟨w', d⟩ := r
      rintro hs ⟨h1, -, -⟩
      cases d with
      | true => exact hs
      | false => exact ih h1 hs

theorem setBoxSize_keeps {b : K} {w w' : Run K S} (h : setBoxSize P b w = some w') : w'.log = w.log ∧ w'.res.bestVars = w.res.bestVars := by
  unfold setBoxSize at h
  split at h
  · cases h
  · cases h; exact ⟨rfl, rfl⟩

theorem meritChanged_keeps {w w' : Run K S} (h : constraintMeritCoeffChanged P w = some w') :
    w'.log = w.log ∧ w'.res.bestVars = w.res.bestVars := by
  unfold constraintMeritCoeffChanged at h
  split at h
  · cases h
  · split_ifs at h
    cases h; exact ⟨rfl, rfl⟩

theorem adjust_keeps {w w' : Run K S} (h : adjustPenalty P p w = some w') : w'.log = w.log ∧ w'.res.bestVars = w.res.bestVars := by
  unfold adjustPenalty at h
  split at h
  · split at h
    · cases h
    · rename_i w2 h2
      obtain ⟨a1, a2⟩ := setBoxSize_keeps h2
      obtain ⟨b1, b2⟩ := meritChanged_keeps h
      exact ⟨b1.trans a1, b2.trans a2⟩
  · cases h

theorem penaltyLoop_watch (L : Lawful P C) (hp : Sane p) (ho : o.Sized) {x0 : List K} (fuel m : Nat) : ∀ (i : Nat) {w : Run K S}
    (_ : Good P C o w) (_ : Watch P C o p x0 w.log w.res.bestVars), Kept P C o p x0 (penaltyLoop P p o fuel m i w) := by
  induction m with
  | zero => intro i w _ h; exact h
  | succ m ih =>
    intro i w hg h
    obtain ⟨b, -, hb⟩ := hg.flat
    simp only [penaltyLoop]
    have hs := convexLoop_watch (p := p) L hp ho (x0 := x0) fuel 99
      (w := { w with res := { w.res with penaltyIteration := i, convexifyIteration := 0 } }) hg.frame h
    have hs' := convexLoop_sim L hp ho fuel 99
      (w := { w with res := { w.res with penaltyIteration := i, convexifyIteration := 0 } }) hg.frame b hb ⟨[], [], [], 0, []⟩
    revert hs hs'
    cases convexLoop P p o fuel 99 { w with res := { w.res with penaltyIteration := i, convexifyIteration := 0 } } with
    | fail => exact fun _ _ => trivial
    | fuel w' => exact fun hs _ => hs
    | ok w' =>
      rintro hs ⟨h1, -, -⟩
      simp only
      by_cases c1 : verifyConvergence p w'.res = true
      · rw [if_pos c1]; exact hs
      rw [if_neg c1]
      by_cases c2 : w'.status = .iterationLimit ∨ w'.status = .timeLimit
      · rw [if_pos c2]; exact hs
      rw [if_neg c2]
      obtain ⟨b2, -, hb2⟩ := h1.flat
      obtain ⟨w3, d1, d2, d3, b3, d4, d5⟩ := adjustPenalty_good L hp (w := { w' with status := .running }) h1.frame b2 hb2
      rw [d1]
      refine ih (i + 1) d2 ?_
      obtain ⟨k1, k2⟩ := adjust_keeps d1
      rw [k1, k2]; exact hs

theorem solve_watch (L : Lawful P C) (hp : Sane p) (ho : o.Sized) (fuel : Nat) (s0 : S) (hs : C.Inv s0) (qps : Solver K) (hq : Consistent qps)
    (hu : qps.status ≠ .uninitialized → 0 < qps.nVars ∧ (qps.nVars = (P.qp s0).nv → qps.nCnts = (P.qp s0).nc)) :
    Kept P C o p (P.getVariableValues s0) (solve P p o fuel s0 qps) := by
  obtain ⟨s, a1, a2⟩ := init_good (o := o) L hp s0 hs qps hq hu
  simp only [solve, a2]
  have hw := penaltyLoop_watch (p := p) L hp ho (x0 := P.getVariableValues s0) fuel p.maxMeritCoeffIncreases 0 a1
    ⟨by intro e he; simp [start] at he, by intro e he; simp [start] at he, by intro i e e' he; simp [start] at he, by intro e he; simp [start] at he,
      fun _ => rfl⟩
  revert hw
  cases penaltyLoop P p o fuel p.maxMeritCoeffIncreases 0 _ with
  | fail => exact fun h => h
  | fuel w' => exact fun h => h
  | ok w' =>
    intro h
    simp only [finish]
    cases P.setVariables w'.res.bestVars w'.prob with
    | none => trivial
    | some s => exact h

/-- What the callbacks get after the QP of a state of the run. -/
theorem args_loop (L : Lawful P C) {w : Run K S} (h : Loop P C o w) {y : List K} (hy : y.length = (P.qp w.prob).nv) :
    ∃ s cc cv, callbackArgs P w.prob (bump w).res y = some (s, scored (bump w).res y cc cv (C.costs (y.take C.n)) (C.viols (y.take C.n))) ∧
      C.Inv s ∧ P.getVariableValues s = w.res.bestVars.take C.n ∧ P.evaluateConvexCosts y w.prob = some cc ∧
      P.evaluateConvexConstraintViolations y w.prob = cv := by
  obtain ⟨sh1, sh2, sh3⟩ := L.shaped w.prob h.inv h.asm
  obtain ⟨⟨cc, hcc⟩, hcv⟩ := sh3 y hy
  have hn : C.n ≤ y.length := by rw [hy]; exact sh2
  obtain ⟨t, b1, b2, b3, b4, b5, b6, b7, b8, b9, b10, b11⟩ := L.setVars w.prob y h.inv hn
  obtain ⟨s, c1, c2, c3, -⟩ := L.setVars t w.res.bestVars b2 h.best
  obtain ⟨x1, x2⟩ := L.exact t b2
  refine ⟨s, cc, P.evaluateConvexConstraintViolations y w.prob, ?_, c2, c3, hcc, rfl⟩
  have l1 : (P.evaluateConvexConstraintViolations y t).length = (bump w).res.coeffs.length := by
    rw [(b11 y).2, hcv]; exact h.coeffs.symm
  have l2 : (P.getExactConstraintViolations t).length = (bump w).res.coeffs.length := by
    rw [x2, b3, L.viols _ (by rw [List.length_take]; omega)]; exact h.coeffs.symm
  have c1' : P.setVariables (bump w).res.bestVars t = some s := c1
  rw [(b11 y).2] at l1
  rw [x2, b3] at l2
  simp only [callbackArgs, b1, (b11 y).1, hcc, c1', x1, x2, b3, (b11 y).2]
  rw [if_pos ⟨l1, l2⟩]

end general

/-! ### C163 -/

section trajopt
variable {K : Type u} [Field K] [LinearOrder K] [IsStrictOrderedRing K]
variable {sqrt : K → K} {hash : (Nat → K) → Nat} {junk : Nat → Ext K} {D : Desc K} {p : Params K} {o : World K}
variable {s0 : QpProblem.State K} {qs : Solver K}

theorem run_watch (S : Setting sqrt hash D p o s0 qs) {fuel : Nat} {w : Run K (QpProblem.State K)}
    (h : run sqrt hash junk p o qs fuel s0 = .ok w ∨ run sqrt hash junk p o qs fuel s0 = .fuel w) :
    Watch (trajOpt sqrt hash junk) (meaning sqrt hash junk D) o p (vars s0) w.log w.res.bestVars := by
  have hs := solve_watch (p := p) (trajOpt_lawful S.sqrt junk S.regular) S.sane S.sized fuel s0 S.usable _ S.reusable.1 S.reusable.2
  unfold run at h
  rcases h with h | h <;> (rw [h] at hs; exact hs)

/-- C163: whenever OSQP answered the `k`-th QP, the callbacks are called with a problem that holds the best point so far, and with
results in which the iteration counter is `k`, the new point is the answer, the best and the new costs, violations and merits are those of
the best and the new point, the merit coefficients are those of the QP, and the three figures that decide about the step follow from them. -/
theorem C163_view (S : Setting sqrt hash D p o s0 qs) {fuel : Nat} {w : Run K (QpProblem.State K)}
    (h : run sqrt hash junk p o qs fuel s0 = .ok w ∨ run sqrt hash junk p o qs fuel s0 = .fuel w)
    (k : Nat) (e : Entry K (QpProblem.State K)) (hk : w.log[k]? = some e) (y : List K) (hy : e.answer = some y) :
    ∃ s r, callbackArgs (trajOpt sqrt hash junk) e.prob e.res y = some (s, r) ∧ vars s = r.bestVars.take D.n ∧ r.overallIteration = k + 1 ∧
      r.newVars = y ∧ r.bestVars = e.res.bestVars ∧ r.box = e.res.box ∧ r.coeffs = e.res.coeffs ∧
      r.bestCosts = D.costs (vars s) ∧ r.bestViols = D.viols (vars s) ∧
      r.bestExactMerit = (D.costs (vars s)).sum + dot (D.viols (vars s)) r.coeffs ∧
      r.newCosts = D.costs (y.take D.n) ∧ r.newViols = D.viols (y.take D.n) ∧
      r.newExactMerit = (D.costs (y.take D.n)).sum + dot (D.viols (y.take D.n)) r.coeffs ∧
      r.newApproxMerit = r.newApproxCosts.sum + dot r.newApproxViols r.coeffs ∧
      r.exactImprove = r.bestExactMerit - r.newExactMerit ∧ r.approxImprove = r.bestExactMerit - r.newApproxMerit ∧
      (1 / 10 ^ 12 ≤ |r.approxImprove| → r.improveRatio * r.approxImprove = r.exactImprove) := by
  have hg := run_good S h
  have he := hg.entries k e hk
  obtain ⟨u, hl, e1, e2⟩ := (run_watch S h).hist e (List.mem_of_getElem? hk)
  have hlen := (he.answer y hy).1
  rw [e1] at hlen
  obtain ⟨s, cc, cv, a1, a2, a3, -, -⟩ := args_loop (trajOpt_lawful S.sqrt junk S.regular) hl hlen
  have hv : vars s = u.res.bestVars.take D.n := a3
  rw [e1, e2]
  refine ⟨s, _, a1, hv, ?_, rfl, rfl, rfl, rfl, ?_, ?_, ?_, rfl, rfl, rfl, rfl, rfl, rfl, ?_⟩
  · have := he.iter; rw [e2] at this; exact this
  · rw [hv]; exact hl.costs
  · rw [hv]; exact hl.cnts
  · have h1 : u.res.bestCosts = D.costs (vars s) := by rw [hv]; exact hl.costs
    have h2 : u.res.bestViols = D.viols (vars s) := by rw [hv]; exact hl.cnts
    rw [← h1, ← h2]; exact hl.merit
  · intro ha
    have ht : (tiny : K) = 1 / 10 ^ 12 := by norm_num [tiny]
    have hne : ¬ |(scored (bump u).res y cc cv (D.costs (y.take D.n)) (D.viols (y.take D.n))).approxImprove| < tiny := by
      rw [ht]; exact not_lt.2 ha
    have h0 : (scored (bump u).res y cc cv (D.costs (y.take D.n)) (D.viols (y.take D.n))).approxImprove ≠ 0 := by
      intro h0
      rw [show (meaning sqrt hash junk D).costs = D.costs from rfl, show (meaning sqrt hash junk D).viols = D.viols from rfl,
        show (meaning sqrt hash junk D).n = D.n from rfl, h0, abs_zero] at ha
      exact absurd ha (not_le.2 (by positivity))
    show (if |(scored (bump u).res y cc cv (D.costs (y.take D.n)) (D.viols (y.take D.n))).approxImprove| < tiny then 0
      else (scored (bump u).res y cc cv (D.costs (y.take D.n)) (D.viols (y.take D.n))).exactImprove /
        (scored (bump u).res y cc cv (D.costs (y.take D.n)) (D.viols (y.take D.n))).approxImprove) * _ = _
    rw [if_neg hne]
    exact div_mul_cancel₀ _ h0

/-- C163: seen from the callbacks, the best point starts at the initial variables and only ever moves to the new point shown last, and
only if its exact merit, with the coefficients shown, is not larger; the run ends with such a point. -/
theorem C163_sequence (S : Setting sqrt hash D p o s0 qs) {fuel : Nat} {w : Run K (QpProblem.State K)}
    (h : run sqrt hash junk p o qs fuel s0 = .ok w) :
    (∀ e, w.log[0]? = some e → e.res.bestVars = vars s0) ∧
    (∀ k e (b : List K), w.log[k]? = some e →
      ((∃ e' : Entry K (QpProblem.State K), w.log[k + 1]? = some e' ∧ b = e'.res.bestVars) ∨ (w.log.length = k + 1 ∧ b = w.res.bestVars)) →
      b = e.res.bestVars ∨ (e.answer = some b ∧
        (D.costs (b.take D.n)).sum + dot (D.viols (b.take D.n)) e.res.coeffs ≤
          (D.costs (e.res.bestVars.take D.n)).sum + dot (D.viols (e.res.bestVars.take D.n)) e.res.coeffs)) ∧
    (w.log = [] → w.res.bestVars = vars s0) := by
  have hw := run_watch (junk := junk) S (.inl h)
  refine ⟨hw.first, ?_, hw.none⟩
  intro k e b hk hb
  have hf : MovesTo (trajOpt sqrt hash junk) p e b := by
    rcases hb with ⟨e', he', rfl⟩ | ⟨hn, rfl⟩
    · exact hw.chain k e e' hk he'
    · exact hw.last e (by rw [List.getLast?_eq_getElem?, hn, Nat.add_sub_cancel]; exact hk)
  rcases hf with hf | ⟨y, s, r, h1, h2, rfl, h4, h5⟩
  · exact .inl hf
  · right
    obtain ⟨s', r', c1, c2, c3, c4, c5, c6, c7, c8, c9, c10, c11, c12, c13, c14, c15, c16, c17⟩ := C163_view S (.inl h) k e hk b h1
    rw [h2] at c1
    cases c1
    refine ⟨h1, ?_⟩
    rw [c15, c10, c13, c2, c5, c7] at h4
    linarith

/-- C163: the joint state plotter shows the best point: every waypoint drawn is the slice of the best variables that belongs to the
variable added to the callback, in the order of adding; the library's callbacks never stop the run. -/
theorem C163_drawn (S : Setting sqrt hash D p o s0 qs) {fuel : Nat} {w : Run K (QpProblem.State K)}
    (h : run sqrt hash junk p o qs fuel s0 = .ok w ∨ run sqrt hash junk p o qs fuel s0 = .fuel w)
    (k : Nat) (e : Entry K (QpProblem.State K)) (hk : w.log[k]? = some e) (y : List K) (hy : e.answer = some y)
    (l l' : List (Nat × Nat)) (hl : ∀ v ∈ l ++ l', v.1 + v.2 ≤ D.n) :
    ∃ s r, callbackArgs (trajOpt sqrt hash junk) e.prob e.res y = some (s, r) ∧
      ((Callback.jointState true true l).add [] l').execute (vars s) =
        some ([.trajectory ((l ++ l').map fun v => (r.bestVars.drop v.1).take v.2)], true) := by
  obtain ⟨s, r, c1, c2, -⟩ := C163_view S h k e hk y hy
  refine ⟨s, r, c1, ?_⟩
  rw [c2]
  simp only [Callback.add, Callback.execute, if_true, Option.some.injEq, Prod.mk.injEq, List.cons.injEq, Drawing.trajectory.injEq, and_true]
  refine List.map_congr_left fun v hv => ?_
  have := hl v hv
  rw [List.drop_take, List.take_take, min_eq_left (by omega)]

end trajopt

/-! ### The callbacks of the library -/

/-- Specification: the callback has the objects it uses. -/
def Callback.Equipped : Callback → Prop
  | .clearPlotter p => p = true
  | .waitForInput p => p = true
  | .collision => True
  | .cartesianError _ _ => True
  | .jointState p s _ => p = true → s = true

/-- C163: callbacks of the library let the run go on, unless one of them lacks the object it needs: clearing and waiting need a
plotter, drawing a trajectory needs a state solver. -/
theorem C163_library {K : Type u} (x : List K) (cs : List Callback) :
    ((∃ d, executeAll x cs = some (d, true)) ↔ ∀ c ∈ cs, c.Equipped) ∧ (∀ d, executeAll x cs ≠ some (d, false)) := by
  induction cs with
  | nil => simp [executeAll]
  | cons c cs ih =>
    have hc : (∃ d, c.execute x = some (d, true)) ∧ c.Equipped ∨ c.execute x = none ∧ ¬ c.Equipped := by
      cases c with
      | clearPlotter p => cases p <;> simp [Callback.execute, Callback.Equipped]
      | waitForInput p => cases p <;> simp [Callback.execute, Callback.Equipped]
      | collision => simp [Callback.execute, Callback.Equipped]
      | cartesianError p l => simp [Callback.execute, Callback.Equipped]
      | jointState p s l => cases p <;> cases s <;> simp [Callback.execute, Callback.Equipped]
    obtain ⟨i1, i2⟩ := ih
    simp only [executeAll, List.forall_mem_cons]
    rcases hc with ⟨⟨d, hd⟩, he⟩ | ⟨hd, he⟩
    · rw [hd]
      simp only [he, true_and]
      cases hr : executeAll x cs with
      | none => rw [hr] at i1; simp at i1 ⊢; obtain ⟨c, h1, h2⟩ := i1; exact ⟨c, h1, h2⟩
      | some r =>
        obtain ⟨r1, r2⟩ := r
        cases r2 with
        | false => exact absurd hr (i2 r1)
        | true =>
          rw [hr] at i1
          refine ⟨?_, by simp⟩
          rw [← i1]; simp
    · rw [hd]; simp [he]

/-- C163: what the callbacks draw appears in the order in which the callbacks were added; alone, each draws what its name says. -/
theorem C163_in_order {K : Type u} (x : List K) :
    (∀ (cs cs' : List Callback) (d : List (Drawing K)), executeAll x (cs ++ cs') = some (d, true) ↔
      ∃ d1 d2, executeAll x cs = some (d1, true) ∧ executeAll x cs' = some (d2, true) ∧ d = d1 ++ d2) ∧
    executeAll x [.clearPlotter true] = some ([.clear], true) ∧ executeAll x [.waitForInput true] = some ([.wait], true) ∧
    executeAll x [.collision] = some ([], true) ∧
    (∀ cnts, executeAll x [.cartesianError true cnts] = some (cnts.map .poseError, true)) ∧
    ∀ vars, executeAll x [.jointState true true vars] = some ([.trajectory (vars.map fun v => (x.drop v.1).take v.2)], true) := by
  refine ⟨?_, rfl, rfl, rfl, fun cnts => by simp [executeAll, Callback.execute],
    fun vars => by simp [executeAll, Callback.execute]⟩
  intro cs cs'
  induction cs with
  | nil => intro d; simp [executeAll]
  | cons c cs ih =>
    intro d
    simp only [List.cons_append, executeAll]
    cases hc : c.execute x with
    | none => simp
    | some r =>
      obtain ⟨r1, r2⟩ := r
      simp only
      cases h1 : executeAll x (cs ++ cs') with
      | none =>
        simp only [reduceCtorEq, false_iff]
        rintro ⟨d1, d2, e1, e2, -⟩
        cases h2 : executeAll x cs with
        | none => rw [h2] at e1; simp at e1
        | some q =>
          obtain ⟨q1, q2⟩ := q
          rw [h2] at e1
          simp only [Option.some.injEq, Prod.mk.injEq, Bool.and_eq_true] at e1
          have := (ih (q1 ++ d2)).mpr ⟨q1, d2, by rw [h2, e1.2.2], e2, rfl⟩
          rw [h1] at this
          cases this
      | some q =>
        obtain ⟨q1, q2⟩ := q
        simp only [Option.some.injEq, Prod.mk.injEq, Bool.and_eq_true]
        constructor
        · rintro ⟨rfl, hr, rfl⟩
          obtain ⟨d1, d2, e1, e2, rfl⟩ := (ih q1).mp h1
          exact ⟨r1 ++ d1, d2, by rw [e1]; simp [hr], e2, by simp⟩
        · rintro ⟨d1, d2, e1, e2, rfl⟩
          cases h2 : executeAll x cs with
          | none => rw [h2] at e1; simp at e1
          | some w =>
            obtain ⟨w1, w2⟩ := w
            rw [h2] at e1
            simp only [Option.some.injEq, Prod.mk.injEq, Bool.and_eq_true] at e1
            obtain ⟨rfl, rfl, rfl⟩ := e1
            have := (ih (w1 ++ d2)).mpr ⟨w1, d2, h2, e2, rfl⟩
            rw [h1] at this
            cases this
            simp

example : executeAll [1, 2, (3 : ℚ)] [.clearPlotter true, .jointState true true [(1, 2)], .collision] =
    some ([.clear, .trajectory [[2, 3]]], true) := by decide +kernel

/-- The statements apply to a run whose callbacks are called: the first call shows the problem at `3` and the new point `3`. -/
example : ∃ w e s r, run Real.sqrt (fun _ => 0) (fun _ => .negInf) forkParams forkWorld { warmStarting := false } 1 (fork.setup fun _ => .negInf) = .ok w ∧
    w.log[0]? = some e ∧ callbackArgs (trajOpt Real.sqrt (fun _ => 0) fun _ => .negInf) e.prob e.res [3, 0] = some (s, r) ∧ r.newVars = [3, 0] ∧
    r.overallIteration = 1 ∧ e.res.bestVars = vars (fork.setup fun _ => .negInf) := by
  obtain ⟨w, h1, -, -, -, -, -, -, e, h2, h3⟩ := fork_run
  obtain ⟨s, r, c1, -, c3, c4, -⟩ := C163_view fork_setting (.inl h1) 0 e h2 _ h3
  exact ⟨w, e, s, r, h1, h2, c1, c4, c3, (C163_sequence fork_setting h1).1 e h2⟩

end Verif.SqpRun
