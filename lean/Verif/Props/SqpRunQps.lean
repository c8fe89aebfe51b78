import Verif.Model.SqpRun
import Verif.Props.SqpMore
import Verif.Props.OsqpEigen

/-!
A run of `TrustRegionSQPSolver` on a conforming problem object never fails and is a run of the abstract optimizer of
`Model/Sqp.lean`; every program OSQP is given is the convexified problem at the best point in the reported trust box.
-/

set_option linter.unusedSectionVars false
set_option linter.unusedVariables false

namespace Verif.SqpRun

open Verif.Sqp (Params Status Env St dot tiny)
open Verif.OsqpEigen (Problem Solver Qp Outcome Fine Consistent Holds posed)
open Verif.Bounds (Ext)

universe u v
variable {K : Type u} {S : Type v} [Field K] [LinearOrder K] [IsStrictOrderedRing K]

/-- Specification: a QP solver that can be used for a problem object whose QP has sizes `nv` and `nc` (both zero before the first
convexification): it is new, or it has been used (then it holds the sizes of the last program, with at least one variable) and, if the numbers of
variables agree, so do the numbers of rows. -/
def Reusable (qs : Solver K) (nv nc : Nat) : Prop :=
  Consistent qs ∧ (qs.status ≠ .uninitialized → 0 < qs.nVars ∧ (qs.nVars = nv → qs.nCnts = nc))

/-- A new solver fits every problem. -/
theorem reusable_new (warm : Bool) (nv nc : Nat) : Reusable ({ warmStarting := warm } : Solver K) nv nc :=
  ⟨⟨rfl, rfl, by simp⟩, fun h => absurd rfl h⟩

/-! ### The QP solver: sizes alone suffice for it not to fail -/

/-- Sizes of a QP problem fit. -/
structure Shaped (p : Problem K) : Prop where
  pos : 0 < p.nv
  hessian : p.hessian.rows = p.nv ∧ p.hessian.cols.length = p.nv
  gradient : p.gradient.length = p.nv
  matrix : p.matrix.rows = p.nc ∧ p.matrix.cols.length = p.nv
  lower : p.lower.length = p.nc
  upper : p.upper.length = p.nc
  vars : p.vars.length = p.nNlp
  nlp : p.nNlp ≤ p.nv
  violations : p.nNlp < p.nv → p.violations.length ≤ p.nc

theorem setWarmStart_shaped (p : Problem K) (h : Shaped p) (s : Solver K) (hn : s.nVars = p.nv) :
    ∃ x y, s.setWarmStart p = some { s with x0 := x, y0 := y } := by
  unfold Solver.setWarmStart
  split_ifs with h1 h2
  · exact ⟨_, _, rfl⟩
  · exact absurd ⟨h.vars, by rw [hn]; exact h.nlp, by rw [h.matrix.1, hn]; exact h.violations⟩ h2
  · exact ⟨s.x0, s.y0, rfl⟩

theorem rebuild_shaped (o : Fin 3 → Outcome K) (p : Problem K) (h : Shaped p) (s : Solver K) :
    ∃ s', OsqpEigen.rebuild o p s = some s' ∧ Consistent s' ∧ s'.nVars = p.nv ∧ s'.nCnts = p.nc ∧ s'.status = .initialized := by
  have e1 := (OsqpEigen.sized_iff p.hessian p.nv p.nv).2 h.hessian
  have e2 := (OsqpEigen.sized_iff p.matrix p.nc p.nv).2 h.matrix
  simp only [OsqpEigen.rebuild, Solver.updateHessianMatrix, Solver.clear, Solver.init, e1, if_true, Solver.updateGradient, h.gradient,
    Solver.updateMatrix, e2, Solver.updateBounds, h.lower, h.upper, and_self]
  obtain ⟨x, y, hx⟩ := setWarmStart_shaped p h
    { s with status := .initialized, nVars := p.nv, nCnts := p.nc, x0 := List.replicate p.nv 0, y0 := List.replicate p.nc 0, work := none, started := none,
             data := ⟨p.nv, p.nc, some (OsqpEigen.twice p.hessian), some (OsqpEigen.cutGradient p.gradient), some p.matrix, some (p.lower.map Sco.clampLo, p.upper.map Sco.clampHi)⟩ } rfl
  exact ⟨_, hx, ⟨rfl, rfl, by simp⟩, rfl, rfl, rfl⟩

theorem transfer_shaped (o o' : Fin 3 → Outcome K) (a b : Nat) (p : Problem K) (h : Shaped p) (s : Solver K) (hs : Consistent s)
    (hd : s.status ≠ .uninitialized → s.nVars = a → s.nCnts = b) :
    ∃ s', OsqpEigen.transfer o o' a b p s = some s' ∧ Consistent s' ∧ s'.nVars = p.nv ∧ s'.nCnts = p.nc ∧ s'.status ≠ .uninitialized ∧
      (Fine p → Holds s' p) := by
  have main : ∃ s', OsqpEigen.transfer o o' a b p s = some s' ∧ Consistent s' ∧ s'.nVars = p.nv ∧ s'.nCnts = p.nc ∧
      s'.status ≠ .uninitialized := by
    have reb : ∀ (o' : Fin 3 → Outcome K) (t : Solver K), ∃ s', OsqpEigen.rebuild o' p t = some s' ∧ Consistent s' ∧ s'.nVars = p.nv ∧
        s'.nCnts = p.nc ∧ s'.status ≠ .uninitialized := by
      intro o' t
      obtain ⟨s', a1, a2, a3, a4, a5⟩ := rebuild_shaped o' p h t
      exact ⟨s', a1, a2, a3, a4, by rw [a5]; decide⟩
    unfold OsqpEigen.transfer
    split_ifs with h0
    · exact reb o s
    · push Not at h0
      by_cases d1 : s.nVars = a
      swap
      · have g : OsqpEigen.sized p.hessian s.nVars s.nVars = false := by
          cases e : OsqpEigen.sized p.hessian s.nVars s.nVars with
          | false => rfl
          | true => exact absurd (((OsqpEigen.sized_iff _ _ _).1 e).1.symm.trans (h.hessian.1.trans h0.2.1)) d1
        cases hw : s.work with
        | some w =>
          obtain ⟨wn, wm⟩ := hs.work w hw
          simp only [Solver.updateHessianMatrix, hw, wn, g, Bool.false_eq_true, if_false, Bool.not_false, if_true]
          exact reb _ _
        | none =>
          simp only [Solver.updateHessianMatrix, hw, hs.nVars, g, Bool.false_eq_true, if_false, Bool.not_false, if_true]
          exact reb _ _
      have d2 := hd h0.1 d1
      have nv : p.nv = s.nVars := by rw [d1]; exact h0.2.1
      have nc : p.nc = s.nCnts := by rw [d2]; exact h0.2.2
      have g2 : OsqpEigen.sized p.matrix s.nCnts s.nVars = true :=
        (OsqpEigen.sized_iff _ _ _).2 ⟨by rw [h.matrix.1, nc], by rw [h.matrix.2, nv]⟩
      have g0 : OsqpEigen.sized p.hessian s.nVars s.nVars = true :=
        (OsqpEigen.sized_iff _ _ _).2 ⟨by rw [h.hessian.1, nv], by rw [h.hessian.2, nv]⟩
      have g1 : p.gradient.length = s.nVars := by rw [h.gradient, nv]
      have e1 : p.lower.length = s.nCnts := by rw [h.lower, nc]
      have e2 : p.upper.length = s.nCnts := by rw [h.upper, nc]
      cases hw : s.work with
      | some w =>
        obtain ⟨wn, wm⟩ := hs.work w hw
        simp only [Solver.updateHessianMatrix, hw, wn, g0, if_true]
        cases o 0 with
        | refused w' => simp only [Bool.not_false, if_true]; exact reb _ _
        | done =>
          simp only [Bool.not_true, Bool.false_eq_true, if_false, Solver.updateGradient, wn, g1, if_true]
          cases o 1 with
          | refused w' => simp only [Bool.not_false, if_true]; exact reb _ _
          | done =>
            simp only [Bool.not_true, Bool.false_eq_true, if_false, Solver.updateMatrix, g2, wm, wn, if_true]
            cases o 2 with
            | refused w' => simp only [Bool.not_false, if_true]; exact reb _ _
            | done =>
              simp only [Bool.not_true, Bool.false_eq_true, if_false, Solver.updateBounds, e1, e2, and_self, if_true, wm, true_and]
              by_cases h3 : ((List.zipWith OsqpEigen.ordered (List.map Sco.clampLo p.lower) (List.map Sco.clampHi p.upper)).all fun x =>
                  x == true) = true
              · rw [if_pos h3]
                exact ⟨_, rfl, ⟨hs.nVars, hs.nCnts, fun w' hw' => by rw [← Option.some.inj hw']; exact ⟨rfl, rfl⟩⟩, nv.symm, nc.symm, h0.1⟩
              · rw [if_neg h3]
                exact reb _ _
      | none =>
        have m0 := hs.nVars
        have m1 := hs.nCnts
        simp only [Solver.updateHessianMatrix, hw, m0, g0, if_true, Bool.not_true, Bool.false_eq_true, if_false, Solver.updateGradient, g1,
          Solver.updateMatrix, g2, m1, Solver.updateBounds, e1, e2, and_self]
        exact ⟨_, rfl, ⟨rfl, rfl, by simp⟩, nv.symm, nc.symm, h0.1⟩
  obtain ⟨s', a1, a2, a3, a4, a5⟩ := main
  refine ⟨s', a1, a2, a3, a4, a5, fun hf => ?_⟩
  by_cases hu : s.status = .uninitialized
  · unfold OsqpEigen.transfer at a1
    rw [if_pos (Or.inl hu)] at a1
    obtain ⟨t, b1, -, b3, -⟩ := OsqpEigen.rebuild_ok o p hf s
    rw [a1] at b1; injection b1 with b1; rw [b1]; exact b3
  · obtain ⟨t, b1, -, b3, -⟩ := OsqpEigen.transfer_ok o o' a b p hf s hs (fun e1 e2 e3 => by rw [hd hu (e3.trans e1), e2])
    rw [a1] at b1; injection b1 with b1; rw [b1]; exact b3

theorem bounds_shaped (p : Problem K) (s : Solver K) (hs : Consistent s) (h1 : p.lower.length = s.nCnts) (h2 : p.upper.length = s.nCnts) :
    ∃ r, s.updateBounds p.lower p.upper = some r ∧ Consistent r.2 ∧ r.2.nVars = s.nVars ∧ r.2.nCnts = s.nCnts ∧ r.2.status = s.status ∧
      ∀ q, Holds s q → Fine { q with lower := p.lower, upper := p.upper } → Holds r.2 { q with lower := p.lower, upper := p.upper } := by
  have main : ∃ r, s.updateBounds p.lower p.upper = some r ∧ Consistent r.2 ∧ r.2.nVars = s.nVars ∧ r.2.nCnts = s.nCnts ∧
      r.2.status = s.status := by
    unfold Solver.updateBounds
    rw [if_pos ⟨h1, h2⟩]
    cases hw : s.work with
    | some w =>
      obtain ⟨wn, wm⟩ := hs.work w hw
      simp only
      split_ifs with h3
      · exact ⟨_, rfl, ⟨hs.nVars, hs.nCnts, fun w' hw' => by rw [← Option.some.inj hw']; exact ⟨wn, wm⟩⟩, rfl, rfl, rfl⟩
      · exact ⟨_, rfl, hs, rfl, rfl, rfl⟩
    | none =>
      simp only
      rw [if_pos hs.nCnts.symm]
      exact ⟨_, rfl, ⟨hs.nVars, hs.nCnts, by simp [hw]⟩, rfl, rfl, rfl⟩
  obtain ⟨r, a1, a2, a3, a4, a5⟩ := main
  refine ⟨r, a1, a2, a3, a4, a5, fun q hq hf => ?_⟩
  obtain ⟨t, b1, -, b3, -⟩ := OsqpEigen.bounds_ok q p.lower p.upper hf s hs hq
  rw [a1] at b1; injection b1 with b1; rw [b1]; exact b3

theorem solve_shaped (i : Bool) (f : Qp K → Option (List K)) (s : Solver K) (hs : Consistent s) :
    Consistent (s.solve i f).2.2 ∧ (s.solve i f).2.2.nVars = s.nVars ∧ (s.solve i f).2.2.nCnts = s.nCnts ∧
      (s.status ≠ .uninitialized → (s.solve i f).2.2.status ≠ .uninitialized) ∧
      (∀ p, Holds s p → Holds (s.solve i f).2.2 p ∧ ∀ q, (s.solve i f).2.1 = some q → q = posed p) ∧
      (∀ p, Holds s p → i = true → (s.solve i f).2.1 = some (posed p)) ∧
      ∀ y, (s.solve i f).1 = some y → ∃ q, (s.solve i f).2.1 = some q ∧ f q = some y ∧ q.n = s.nVars := by
  obtain ⟨a1, a2, a3, a4⟩ := OsqpEigen.solve_ok i f s hs
  refine ⟨a1, ?_, ?_, ?_, fun p hp => ⟨(a3 p hp).1, (a3 p hp).2.1⟩, fun p hp hi => (a3 p hp).2.2.1 (.inr hi), ?_⟩
  · unfold Solver.solve
    cases s.work with
    | some w => dsimp only; cases f w <;> rfl
    | none =>
      dsimp only
      cases s.data.qp with
      | none => rfl
      | some w => cases i <;> simp only [Bool.false_eq_true, if_false, if_true] <;> cases f w <;> rfl
  · unfold Solver.solve
    cases s.work with
    | some w => dsimp only; cases f w <;> rfl
    | none =>
      dsimp only
      cases s.data.qp with
      | none => rfl
      | some w => cases i <;> simp only [Bool.false_eq_true, if_false, if_true] <;> cases f w <;> rfl
  · intro h
    unfold Solver.solve
    cases s.work with
    | some w => dsimp only; cases f w <;> simp [h]
    | none =>
      dsimp only
      cases s.data.qp with
      | none => simp
      | some w => cases i <;> simp only [Bool.false_eq_true, if_false, if_true] <;> cases f w <;> simp [h]
  · intro y hy
    have hq : ∀ w, s.data.qp = some w → w.n = s.nVars := by
      intro w hw
      unfold OsqpEigen.Data.qp at hw
      split at hw
      · rw [← Option.some.inj hw]; exact hs.nVars
      · simp at hw
    unfold Solver.solve at hy ⊢
    cases hw : s.work with
    | some w =>
      rw [hw] at hy
      dsimp only at hy ⊢
      cases hf : f w with
      | none => rw [hf] at hy; simp at hy
      | some x => rw [hf] at hy; exact ⟨w, rfl, by rw [hf]; exact hy, (hs.work w hw).1⟩
    | none =>
      rw [hw] at hy
      dsimp only at hy ⊢
      cases hd : s.data.qp with
      | none => rw [hd] at hy; simp at hy
      | some w =>
        rw [hd] at hy
        cases i with
        | false => simp at hy
        | true =>
          simp only [if_true] at hy ⊢
          cases hf : f w with
          | none => rw [hf] at hy; simp at hy
          | some x => rw [hf] at hy; exact ⟨w, rfl, by rw [hf]; exact hy, hq w hd⟩

end Verif.SqpRun
