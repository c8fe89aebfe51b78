import Verif.Props.SqpRunProps
import Verif.Props.SqpOptimal

/-!
Why a run of `TrustRegionSQPSolver` ends: the last QP of a converged run (used by C150).
-/

set_option linter.unusedSectionVars false
set_option linter.unusedVariables false

namespace Verif.SqpRun

open Verif.Sqp (Params Status dot tiny tolerance)

universe u v
variable {K : Type u} {S : Type v} [Field K] [LinearOrder K] [IsStrictOrderedRing K] {P : QPProblem K S} {p : Params K} {o : World K}

/-- Specification: one of the QPs of the run was posed at the best point with the box and the merit coefficients the run reports, and its
answer promises at most a small improvement. -/
def Final (p : Params K) (w : Run K S) : Prop :=
  ∃ (k : ℕ) (e : Entry K S) (y : List K), w.log[k]? = some e ∧ e.answer = some y ∧ e.res.bestVars = w.res.bestVars ∧ e.res.box = w.res.box ∧ e.res.coeffs = w.res.coeffs ∧
    w.res.bestExactMerit - (e.convexCosts.sum + dot e.convexViols w.res.coeffs) ≤ tolerance p w.res.bestExactMerit

theorem Final.of_eq {w w' : Run K S} (h : Final p w) (h1 : w'.res = w.res) (h2 : w'.log = w.log) : Final p w' := by
  unfold Final at *
  rw [h1, h2]; exact h

theorem sendBounds_frame {w w' : Run K S} (h : sendBounds P w = some w') :
    w'.status = w.status ∧ w'.res.convexifyIteration = w.res.convexifyIteration := by
  unfold sendBounds at h
  split at h
  · cases h
  · cases h; exact ⟨rfl, rfl⟩

theorem scaleBox_frame {a : K} {w w' : Run K S} (h : scaleBox P a w = some w') :
    w'.status = w.status ∧ w'.res.convexifyIteration = w.res.convexifyIteration := by
  unfold scaleBox at h
  split at h
  · cases h
  · have := sendBounds_frame h
    exact this

theorem minimalBox_frame {w w' : Run K S} (h : minimalBox P p w = some w') :
    w'.status = w.status ∧ w'.res.convexifyIteration = w.res.convexifyIteration := by
  unfold minimalBox at h
  split at h
  · cases h
  · have := sendBounds_frame h
    exact this

theorem accept_frame {w w' : Run K S} (h : accept P p w = some w') :
    w'.status = w.status ∧ w'.res.convexifyIteration = w.res.convexifyIteration := by
  unfold accept at h
  split at h
  · cases h
  · have := scaleBox_frame h
    exact this

/-- What the call of the QP solver leaves. -/
theorem solveQP_cases {w : Run K S} {r : Run K S × Status} (h : solveQPProblem P o w = some r) :
    r.1.res.convexifyIteration = w.res.convexifyIteration ∧ r.2 ≠ .converged ∧
    (r.2 = .running → ∃ (e : Entry K S) (y : List K), r.1.log = w.log ++ [e] ∧ e.answer = some y ∧ e.res.bestVars = r.1.res.bestVars ∧ e.res.box = r.1.res.box ∧
      e.res.coeffs = r.1.res.coeffs ∧
      r.1.res.approxImprove = r.1.res.bestExactMerit - (e.convexCosts.sum + dot e.convexViols r.1.res.coeffs)) := by
  have hst : (if callCallbacks o w.res.overallIteration = true then Status.running else Status.stoppedByCallback) ≠ .converged := by
    split_ifs <;> decide
  unfold solveQPProblem at h
  simp only at h
  split at h
  · split at h
    · cases h
    · cases h; exact ⟨rfl, fun hh => (by cases hh), fun hh => (by cases hh)⟩
  · rename_i y hy
    split at h
    · cases h
    · split at h
      · cases h
      · generalize (if callCallbacks o w.res.overallIteration = true then Status.running else Status.stoppedByCallback) = st at h hst
        split_ifs at h with hl
        split at h
        · cases h
        · cases h
          exact ⟨rfl, hst, fun _ => ⟨_, y, rfl, rfl, rfl, rfl, rfl, rfl⟩⟩

theorem trBody_done {w w' : Run K S} {f : ℤ} (h : trBody P p o w f = some (.done w')) :
    w'.res.convexifyIteration = w.res.convexifyIteration ∧ (w'.status = .converged → Final p w') := by
  unfold trBody at h
  split at h
  · cases h
  · rename_i r hr
    obtain ⟨r, st⟩ := r
    obtain ⟨c1, c2, c3⟩ := solveQP_cases hr
    simp only at c1 c2 c3 h
    split_ifs at h with a1 a2
    · cases h
      exact ⟨c1, fun hc => absurd hc c2⟩
    · unfold afterFailure at h
      split_ifs at h
      · rw [Option.map_eq_some_iff] at h
        obtain ⟨x, -, hx⟩ := h
        cases hx
      · rw [Option.map_eq_some_iff] at h
        obtain ⟨x, -, hx⟩ := h
        cases hx
      · cases h
        exact ⟨c1, fun hc => absurd hc c2⟩
    · push Not at a2
      obtain ⟨e, y, e1, e2, e3, e4, e5, e6⟩ := c3 a2
      have key : r.res.approxImprove < p.minApproxImprove ∨ r.res.approxImprove / max |r.res.bestExactMerit| tiny < p.minApproxImproveFrac →
          Final p { r with status := .converged } := by
        intro hsm
        refine ⟨_, e, y, by rw [show ({ r with status := .converged } : Run K S).log = r.log from rfl, e1]; exact List.getElem?_concat_length,
          e2, e3, e4, e5, ?_⟩
        show r.res.bestExactMerit - (e.convexCosts.sum + dot e.convexViols r.res.coeffs) ≤ tolerance p r.res.bestExactMerit
        rw [← e6]
        rcases hsm with hsm | hsm
        · exact hsm.le.trans (le_max_left _ _)
        · rw [div_lt_iff₀ (lt_max_of_lt_right Sqp.tiny_pos)] at hsm
          exact hsm.le.trans (le_max_right _ _)
      unfold afterSuccess at h
      simp only at h
      split_ifs at h with b1 b2 b3
      · cases h
        exact ⟨c1, fun _ => key (.inl b1)⟩
      · cases h
        exact ⟨c1, fun _ => key (.inr b2)⟩
      · rw [Option.map_eq_some_iff] at h
        obtain ⟨x, -, hx⟩ := h
        cases hx
      · rw [Option.map_eq_some_iff] at h
        obtain ⟨x, hx, hx'⟩ := h
        cases hx'
        obtain ⟨g1, g2⟩ := accept_frame hx
        refine ⟨g2.trans c1, fun hc => ?_⟩
        rw [g1] at hc
        exact absurd hc c2

theorem trBody_cont {w w' : Run K S} {f f' : ℤ} (h : trBody P p o w f = some (.cont w' f')) :
    w'.res.convexifyIteration = w.res.convexifyIteration ∧ w'.status ≠ .converged := by
  unfold trBody at h
  split at h
  · cases h
  · rename_i r hr
    obtain ⟨r, st⟩ := r
    obtain ⟨c1, c2, c3⟩ := solveQP_cases hr
    simp only at c1 c2 c3 h
    split_ifs at h with a1 a2
    · cases h
    · unfold afterFailure at h
      split_ifs at h
      · rw [Option.map_eq_some_iff] at h
        obtain ⟨x, hx, hx'⟩ := h
        cases hx'
        obtain ⟨g1, g2⟩ := scaleBox_frame hx
        exact ⟨g2.trans c1, by rw [g1]; exact c2⟩
      · rw [Option.map_eq_some_iff] at h
        obtain ⟨x, hx, hx'⟩ := h
        cases hx'
        obtain ⟨g1, g2⟩ := minimalBox_frame hx
        exact ⟨g2.trans c1, by rw [g1]; exact c2⟩
      · cases h
    · unfold afterSuccess at h
      simp only at h
      split_ifs at h
      · cases h
      · cases h
      · rw [Option.map_eq_some_iff] at h
        obtain ⟨x, hx, hx'⟩ := h
        cases hx'
        obtain ⟨g1, g2⟩ := scaleBox_frame hx
        exact ⟨g2.trans c1, by rw [g1]; exact c2⟩
      · rw [Option.map_eq_some_iff] at h
        obtain ⟨x, hx, hx'⟩ := h
        cases hx'

theorem trLoop_final (n : ℕ) (w t : Run K S) (f : ℤ) (hs : w.status ≠ .converged) (hr : trLoop P p o n w f = .ok t) :
    t.res.convexifyIteration = w.res.convexifyIteration ∧ (t.status = .converged → Final p t) := by
  induction n generalizing w f with
  | zero => cases hr
  | succ n ih =>
    unfold trLoop at hr
    split at hr
    · cases hr
    · split_ifs at hr
      · split at hr
        · cases hr
        · rename_i w' f' hb
          obtain ⟨b1, b2⟩ := trBody_cont hb
          obtain ⟨i1, i2⟩ := ih w' f' b2 hr
          exact ⟨i1.trans b1, i2⟩
        · rename_i w' hb
          cases hr
          exact trBody_done hb
      · cases hr
        exact ⟨rfl, fun hc => absurd hc hs⟩

theorem convexifyAndSend_frame {w w' : Run K S} (h : convexifyAndSend P o w = some w') : w'.status = w.status ∧ w'.res = w.res := by
  unfold convexifyAndSend at h
  split at h
  · cases h
  · split at h
    · cases h
    · cases h; exact ⟨rfl, rfl⟩

/-- Specification: the trust box a run reports is below the minimum. -/
def Tiny (p : Params K) (w : Run K S) : Prop := ∃ b, maxOf w.res.box = some b ∧ b < p.minTrustBoxSize

theorem step_final (fuel : ℕ) (w t : Run K S) (b : Bool) (hs : w.status ≠ .converged) (hr : stepSQPSolver P p o fuel w = .ok (t, b)) :
    t.res.convexifyIteration = w.res.convexifyIteration + 1 ∧ (b = true → Final p t ∨ Tiny p t) ∧ (b = false → t.status ≠ .converged) := by
  unfold stepSQPSolver at hr
  split at hr
  · cases hr
  · rename_i x hx
    obtain ⟨x1, x2⟩ := convexifyAndSend_frame hx
    split at hr
    · cases hr
    · cases hr
    · rename_i y hy
      obtain ⟨i1, i2⟩ := trLoop_final fuel _ y 0 (by show x.status ≠ _; rw [x1]; exact hs) hy
      have i1' : y.res.convexifyIteration = w.res.convexifyIteration + 1 := by
        rw [i1]
        show x.res.convexifyIteration = _
        rw [x2]
      unfold stepEnd at hr
      split_ifs at hr with c1
      · cases hr; exact ⟨i1', fun _ => .inl (i2 c1), by simp⟩
      · split at hr
        · cases hr
        · rename_i bb hbb
          split_ifs at hr with c2
          · cases hr; exact ⟨i1', fun _ => .inr ⟨bb, hbb, c2⟩, by simp⟩
          · cases hr; exact ⟨i1', by simp, fun _ => c1⟩

theorem convexLoop_final (hclock : ∀ k, o.clock k ≤ p.maxTime) (fuel : ℕ) (k : ℕ) (w t : Run K S) (hs : w.status ≠ .converged)
    (hr : convexLoop P p o fuel k w = .ok t) :
    Final p t ∨ Tiny p t ∨ p.maxIterations ≤ (t.res.overallIteration : ℤ) ∨ t.res.convexifyIteration = w.res.convexifyIteration + k := by
  induction k generalizing w with
  | zero => cases hr; exact .inr (.inr (.inr rfl))
  | succ k ih =>
    unfold convexLoop at hr
    rw [if_neg (not_lt.2 (hclock _))] at hr
    split_ifs at hr with c2
    · cases hr; exact .inr (.inr (.inl c2))
    · split at hr
      · cases hr
      · cases hr
      · rename_i x hstep
        cases hr
        rcases (step_final fuel _ _ _ (by exact hs) hstep).2.1 rfl with i | i
        · exact .inl i
        · exact .inr (.inl i)
      · rename_i x hstep
        obtain ⟨i1, -, i3⟩ := step_final fuel _ _ _ (by exact hs) hstep
        have i1' : x.res.convexifyIteration = w.res.convexifyIteration + 1 := i1
        rcases ih x (i3 rfl) hr with j | j | j | j
        · exact .inl j
        · exact .inr (.inl j)
        · exact .inr (.inr (.inl j))
        · exact .inr (.inr (.inr (by omega)))

theorem setBoxSize_frame {b : K} {w w' : Run K S} (h : setBoxSize P b w = some w') : w'.status = w.status ∧ w'.res.coeffs = w.res.coeffs := by
  unfold setBoxSize at h
  split at h
  · cases h
  · cases h; exact ⟨rfl, rfl⟩

theorem meritChanged_frame {w w' : Run K S} (h : constraintMeritCoeffChanged P w = some w') :
    w'.status = w.status ∧ w'.res.coeffs = w.res.coeffs := by
  unfold constraintMeritCoeffChanged at h
  split at h
  · cases h
  · split_ifs at h
    · cases h; exact ⟨rfl, rfl⟩

theorem adjust_status {w w' : Run K S} (h : adjustPenalty P p w = some w') : w'.status = w.status := by
  unfold adjustPenalty at h
  split at h
  · split at h
    · cases h
    · rename_i x hx
      rw [(meritChanged_frame h).1, (setBoxSize_frame hx).1]
  · cases h

theorem penaltyLoop_final (hclock : ∀ k, o.clock k ≤ p.maxTime) (fuel m i : ℕ) (w t : Run K S) (hs : w.status = .running)
    (hr : penaltyLoop P p o fuel m i w = .ok t) (hc : t.status = .converged) :
    Final p t ∨ Tiny p t ∨ p.maxIterations ≤ (t.res.overallIteration : ℤ) ∨ t.res.convexifyIteration = 99 := by
  induction m generalizing i w with
  | zero => cases hr; rw [hs] at hc; cases hc
  | succ m ih =>
    unfold penaltyLoop at hr
    split at hr
    · cases hr
    · cases hr
    · rename_i x hx
      have key := convexLoop_final hclock fuel 99 _ x (by show w.status ≠ _; rw [hs]; decide) hx
      split_ifs at hr with v1 v2
      · cases hr
        rcases key with j | j | j | j
        · exact .inl (j.of_eq rfl rfl)
        · exact .inr (.inl j)
        · exact .inr (.inr (.inl j))
        · refine .inr (.inr (.inr ?_))
          show x.res.convexifyIteration = 99
          simpa using j
      · cases hr
        rcases v2 with v2 | v2 <;> rw [v2] at hc <;> cases hc
      · split at hr
        · cases hr
        · rename_i y hy
          exact ih (i + 1) y (adjust_status hy) hr

/-- Why a converged run ended. -/
theorem solve_final (hclock : ∀ k, o.clock k ≤ p.maxTime) (fuel : ℕ) (s : S) (qps : OsqpEigen.Solver K) (t : Run K S)
    (hr : solve P p o fuel s qps = .ok t) (hc : t.status = .converged) :
    Final p t ∨ Tiny p t ∨ p.maxIterations ≤ (t.res.overallIteration : ℤ) ∨ t.res.convexifyIteration = 99 := by
  unfold solve at hr
  split at hr
  · cases hr
  · rename_i w hw
    have hst : w.status = .running := by
      unfold init at hw
      split at hw
      · cases hw
      · rename_i x hx
        rw [(meritChanged_frame hw).1, (setBoxSize_frame hx).1]
    split at hr
    · cases hr
    · cases hr
    · rename_i x hx
      unfold finish at hr
      split at hr
      · cases hr
      · rename_i s' _
        cases hr
        have hne : x.status ≠ .running := fun h => by
          simp only [h, if_true] at hc
          cases hc
        rw [if_neg hne] at hc
        rcases penaltyLoop_final hclock fuel _ 0 w x hst hx hc with j | j | j | j
        · exact .inl (j.of_eq rfl rfl)
        · exact .inr (.inl j)
        · exact .inr (.inr (.inl j))
        · exact .inr (.inr (.inr j))

end Verif.SqpRun
