import Verif.Model.OsqpEigen
import Verif.Props.OsqpRows

/-!
C97: the program that OSQP solves, after any history of transfers, bounds updates and solves.
-/

set_option linter.unusedSectionVars false
set_option linter.unusedVariables false

namespace Verif.OsqpEigen

open Verif.Bounds Verif.Sco Finset

universe u
variable {K : Type u} [Field K] [LinearOrder K] [IsStrictOrderedRing K]

/-! ### Specification -/

/-- Specification: a QP problem with consistent sizes and ordered bounds inside OSQP's range. -/
structure Fine (p : Problem K) : Prop where
  pos : 0 < p.nv
  hessian : p.hessian.rows = p.nv ∧ p.hessian.cols.length = p.nv
  gradient : p.gradient.length = p.nv
  matrix : p.matrix.rows = p.nc ∧ p.matrix.cols.length = p.nv
  lower : p.lower.length = p.nc
  upper : p.upper.length = p.nc
  order : ∀ (i : Nat) (l u : Ext K), p.lower[i]? = some l → p.upper[i]? = some u →
    ∃ a, Within (l, u) a ∧ |a| ≤ osqpInfty
  vars : p.vars.length = p.nNlp
  nlp : p.nNlp ≤ p.nv
  violations : p.nNlp < p.nv → p.violations.length ≤ p.nc

/-- Specification: a program in OSQP's form describes a QP problem: Hessian doubled (OSQP halves it), gradient entries below
`1e-7` zero, same rows, bounds with the same meaning for OSQP. -/
structure Describes (w : Qp K) (p : Problem K) : Prop where
  n : w.n = p.nv
  m : w.m = p.nc
  rowsP : w.P.rows = p.nv
  colsP : w.P.cols.length = p.nv
  hessian : ∀ r c, w.P.entry r c = 2 * p.hessian.entry r c
  gradLen : w.q.length = p.nv
  gradient : ∀ c, w.q.getD c 0 = if |p.gradient.getD c 0| < 1 / 10 ^ 7 then 0 else p.gradient.getD c 0
  matrix : w.A = p.matrix
  lowLen : w.l.length = p.nc
  highLen : w.u.length = p.nc
  lower : ∀ (i : Nat) (l l' : Ext K), w.l[i]? = some l → p.lower[i]? = some l' → ∀ a, LowOk l a ↔ LowOk l' a
  upper : ∀ (i : Nat) (u u' : Ext K), w.u[i]? = some u → p.upper[i]? = some u' → ∀ a, HighOk u a ↔ HighOk u' a

/-- A call that reaches the solver. -/
inductive Event (K : Type u)
  | transfer (o o' : Fin 3 → Outcome K) (prevNv prevNc : Nat) (p : Problem K)
  | bounds (lower upper : List (Ext K))
  | solve (initOk : Bool) (answer : Qp K → Option (List K))

/-- The state after a call; `none` is a failed assertion. -/
def Event.apply (s : Solver K) : Event K → Option (Solver K)
  | .transfer o o' a b p => OsqpEigen.transfer o o' a b p s
  | .bounds l u => (s.updateBounds l u).map Prod.snd
  | .solve i f => some (s.solve i f).2.2

/-- Specification: the problem as the caller knows it after a call. -/
def Event.now : Event K → Option (Problem K) → Option (Problem K)
  | .transfer _ _ _ _ p, _ => some p
  | .bounds l u, c => c.map fun p => { p with lower := l, upper := u }
  | .solve _ _, c => c

/-- Specification: the calls come from one optimizer working on one problem object: problems are fine, the sizes remembered
from before the transfer are those of the problem transferred last, and bounds belong to the current problem. -/
def Legit : Option (Problem K) → List (Event K) → Prop
  | _, [] => True
  | c, e :: es => (match e with
      | .transfer _ _ nv nc p => Fine p ∧ ∀ q, c = some q → nv = q.nv ∧ nc = q.nc
      | .bounds l u => ∃ p, c = some p ∧ Fine { p with lower := l, upper := u }
      | .solve _ _ => True) ∧ Legit (e.now c) es

/-- Specification: the problem known after a history. -/
def current (es : List (Event K)) : Option (Problem K) := es.foldl (fun c e => e.now c) none

/-! ### Invariant -/

/-- The program built from a problem. -/
def posed (p : Problem K) : Qp K :=
  ⟨p.nv, p.nc, twice p.hessian, cutGradient p.gradient, p.matrix, p.lower.map clampLo, p.upper.map clampHi⟩

theorem entry_twice (H : SMat K) (r c : Nat) : (twice H).entry r c = 2 * H.entry r c := by
  have key : ∀ l : List (Nat × K), colEntry (l.map fun q => (q.1, 2 * q.2)) r = 2 * colEntry l r := by
    intro l
    induction l with
    | nil => simp [colEntry]
    | cons q l ih =>
      simp only [colEntry, List.map_cons, List.sum_cons, mul_add] at ih ⊢
      rw [ih]; split_ifs <;> simp
  simp only [SMat.entry, twice, List.getElem?_map]
  cases H.cols[c]? with
  | none => simp [colEntry]
  | some l => simpa using key l

theorem posed_describes (p : Problem K) (h : Fine p) : Describes (posed p) p := by
  refine ⟨rfl, rfl, h.hessian.1, by simpa [posed, twice] using h.hessian.2, entry_twice _, by simpa [posed, cutGradient] using h.gradient,
    ?_, rfl, by simpa [posed] using h.lower, by simpa [posed] using h.upper, ?_, ?_⟩
  · intro c
    simp only [posed, cutGradient, List.getD_eq_getElem?_getD, List.getElem?_map]
    cases p.gradient[c]? <;> simp
  · intro i l l' h1 h2 a
    simp only [posed, List.getElem?_map, h2, Option.map_some, Option.some.injEq] at h1
    rw [← h1]; exact clampLo_ok _ _
  · intro i l l' h1 h2 a
    simp only [posed, List.getElem?_map, h2, Option.map_some, Option.some.injEq] at h1
    rw [← h1]; exact clampHi_ok _ _

theorem ordered_clamp (l u : Ext K) (a : K) (h : Within (l, u) a) (ha : |a| ≤ osqpInfty) :
    ordered (clampLo l) (clampHi u) = true := by
  have h1 := (abs_le.1 ha).1
  have h2 := (abs_le.1 ha).2
  obtain ⟨hl, hu⟩ := h
  cases l <;> cases u <;> simp_all [clampLo, clampHi, ordered]
  all_goals first | (constructor <;> linarith) | linarith | (refine ⟨⟨?_, ?_⟩, ?_, ?_⟩ <;> linarith) | skip

theorem ordered_all (p : Problem K) (h : Fine p) :
    (List.zipWith ordered (p.lower.map clampLo) (p.upper.map clampHi)).all (· == true) = true := by
  rw [List.all_eq_true]
  intro b hb
  obtain ⟨i, hi⟩ := List.getElem?_of_mem hb
  rw [List.getElem?_zipWith] at hi
  simp only [List.getElem?_map] at hi
  cases e1 : p.lower[i]? with
  | none => simp [e1] at hi
  | some l =>
    cases e2 : p.upper[i]? with
    | none => simp [e1, e2] at hi
    | some u =>
      simp only [e1, e2, Option.map_some, Option.some.injEq] at hi
      obtain ⟨a, a1, a2⟩ := h.order i l u e1 e2
      rw [← hi, ordered_clamp l u a a1 a2]; rfl

/-- Sizes agree everywhere. -/
structure Consistent (s : Solver K) : Prop where
  nVars : s.data.nVars = s.nVars
  nCnts : s.data.nCnts = s.nCnts
  work : ∀ w, s.work = some w → w.n = s.nVars ∧ w.m = s.nCnts

/-- The solver holds the program of a problem. -/
structure Holds (s : Solver K) (p : Problem K) : Prop where
  nVars : s.nVars = p.nv
  nCnts : s.nCnts = p.nc
  held : match s.work with
    | some w => w = posed p
    | none => s.data.qp = some (posed p)

theorem sized_iff (M : SMat K) (r c : Nat) : sized M r c = true ↔ M.rows = r ∧ M.cols.length = c := by simp [sized]

theorem setWarmStart_ok (p : Problem K) (h : Fine p) (s : Solver K) (hn : s.nVars = p.nv) :
    ∃ x y, s.setWarmStart p = some { s with x0 := x, y0 := y } := by
  unfold Solver.setWarmStart
  split_ifs with h1 h2
  · exact ⟨_, _, rfl⟩
  · exact absurd ⟨h.vars, by rw [hn]; exact h.nlp, by rw [h.matrix.1, hn]; exact h.violations⟩ h2
  · exact ⟨s.x0, s.y0, rfl⟩

theorem rebuild_ok (o : Fin 3 → Outcome K) (p : Problem K) (h : Fine p) (s : Solver K) :
    ∃ s', rebuild o p s = some s' ∧ Consistent s' ∧ Holds s' p ∧ s'.warmStarting = s.warmStarting ∧ s'.work = none ∧
      s'.status = .initialized := by
  have e1 := (sized_iff p.hessian p.nv p.nv).2 h.hessian
  have e2 := (sized_iff p.matrix p.nc p.nv).2 h.matrix
  simp only [rebuild, Solver.updateHessianMatrix, Solver.clear, Solver.init, e1, if_true, Solver.updateGradient, h.gradient,
    Solver.updateMatrix, e2, Solver.updateBounds, h.lower, h.upper, and_self]
  obtain ⟨x, y, hx⟩ := setWarmStart_ok p h
    { s with status := .initialized, nVars := p.nv, nCnts := p.nc, x0 := List.replicate p.nv 0, y0 := List.replicate p.nc 0, work := none, started := none,
             data := ⟨p.nv, p.nc, some (twice p.hessian), some (cutGradient p.gradient), some p.matrix, some (p.lower.map clampLo, p.upper.map clampHi)⟩ } rfl
  refine ⟨_, hx, ⟨rfl, rfl, by simp⟩, ⟨rfl, rfl, rfl⟩, rfl, rfl, rfl⟩

theorem transfer_ok (o o' : Fin 3 → Outcome K) (a b : Nat) (p : Problem K) (h : Fine p) (s : Solver K) (hs : Consistent s)
    (hd : p.nv = a → p.nc = b → s.nVars = p.nv → s.nCnts = p.nc) :
    ∃ s', transfer o o' a b p s = some s' ∧ Consistent s' ∧ Holds s' p ∧ s'.warmStarting = s.warmStarting ∧
      (s.status ≠ .failed → s'.status = .initialized) := by
  have reb : ∀ t : Solver K, t.warmStarting = s.warmStarting → ∃ s', rebuild o' p t = some s' ∧ Consistent s' ∧ Holds s' p ∧
      s'.warmStarting = s.warmStarting ∧ (s.status ≠ .failed → s'.status = .initialized) := by
    intro t ht
    obtain ⟨s', a1, a2, a3, a4, -, a5⟩ := rebuild_ok o' p h t
    exact ⟨s', a1, a2, a3, a4.trans ht, fun _ => a5⟩
  unfold transfer
  split_ifs with h0
  · obtain ⟨s', a1, a2, a3, a4, -, a5⟩ := rebuild_ok o p h s
    exact ⟨s', a1, a2, a3, a4, fun _ => a5⟩
  · have hst : s.status ≠ .failed → s.status = .initialized := by
      intro hf
      cases e : s.status with
      | uninitialized => exact absurd (Or.inl e) h0
      | initialized => rfl
      | failed => exact absurd e hf
    push Not at h0
    have hd := hd h0.2.1 h0.2.2
    cases hw : s.work with
    | some w =>
      obtain ⟨wn, wm⟩ := hs.work w hw
      simp only [Solver.updateHessianMatrix, hw]
      by_cases g0 : sized p.hessian w.n w.n
      · have nv : p.nv = w.n := by rw [← h.hessian.1]; exact ((sized_iff _ _ _).1 g0).1
        have nc := hd (by rw [nv, wn])
        have g2 : sized p.matrix s.nCnts s.nVars = true := (sized_iff _ _ _).2 ⟨by rw [h.matrix.1, nc], by rw [h.matrix.2, nv, wn]⟩
        have g3 : sized p.matrix w.m w.n = true := by rw [wn, wm]; exact g2
        cases o 0 with
        | refused w' => simp only [g0, if_true, Bool.not_false]; exact reb _ rfl
        | done =>
          simp only [g0, if_true, Bool.not_true, Bool.false_eq_true, if_false, Solver.updateGradient, h.gradient, nv]
          cases o 1 with
          | refused w' => simp only [Bool.not_false, if_true]; exact reb _ rfl
          | done =>
            simp only [Bool.not_true, Bool.false_eq_true, if_false, Solver.updateMatrix, g2, g3, if_true]
            cases o 2 with
            | refused w' => simp only [Bool.not_false, if_true]; exact reb _ rfl
            | done =>
              have e1 : p.lower.length = s.nCnts := by rw [h.lower, nc]
              have e2 : p.upper.length = s.nCnts := by rw [h.upper, nc]
              simp only [Bool.not_true, Bool.false_eq_true, if_false, Solver.updateBounds, e1, e2, and_self, if_true, wm,
                ordered_all p h]
              refine ⟨_, rfl, ⟨hs.nVars, hs.nCnts, ?_⟩, ⟨?_, nc, ?_⟩, rfl, hst⟩
              · intro w' hw'
                rw [← Option.some.inj hw']
                exact ⟨wn, rfl⟩
              · show s.nVars = p.nv
                rw [nv, wn]
              · simp [posed, nv, nc, wm]
      · simp only [g0, Bool.false_eq_true, if_false, Bool.not_false, if_true]; exact reb _ rfl
    | none =>
      simp only [Solver.updateHessianMatrix, hw]
      by_cases g0 : sized p.hessian s.data.nVars s.data.nVars
      · have nv : p.nv = s.data.nVars := by rw [← h.hessian.1]; exact ((sized_iff _ _ _).1 g0).1
        have nc := hd (by rw [nv, hs.nVars])
        have g2 : sized p.matrix s.nCnts s.nVars = true :=
          (sized_iff _ _ _).2 ⟨by rw [h.matrix.1, nc], by rw [h.matrix.2, nv, hs.nVars]⟩
        have g3 : sized p.matrix s.data.nCnts s.data.nVars = true := by rw [hs.nVars, hs.nCnts]; exact g2
        have e1 : p.lower.length = s.nCnts := by rw [h.lower, nc]
        have e2 : p.upper.length = s.nCnts := by rw [h.upper, nc]
        simp only [g0, if_true, Bool.not_true, Bool.false_eq_true, if_false, Solver.updateGradient, h.gradient, nv,
          Solver.updateMatrix, g2, g3, Solver.updateBounds, e1, e2, and_self, if_pos hs.nCnts.symm]
        refine ⟨_, rfl, ⟨hs.nVars, hs.nCnts, by simp⟩, ⟨?_, ?_, ?_⟩, rfl, hst⟩
        · show s.nVars = p.nv
          rw [nv, hs.nVars]
        · exact nc
        · simp [posed, hw, Data.qp, nv, nc, hs.nCnts]
      · simp only [g0, Bool.false_eq_true, if_false, Bool.not_false, if_true]; exact reb _ rfl

/-- A bounds update of the trust-region loop is accepted. -/
theorem bounds_ok (p : Problem K) (l u : List (Ext K)) (h : Fine { p with lower := l, upper := u }) (s : Solver K)
    (hs : Consistent s) (hh : Holds s p) :
    ∃ s', s.updateBounds l u = some (true, s') ∧ Consistent s' ∧ Holds s' { p with lower := l, upper := u } ∧
      s'.warmStarting = s.warmStarting ∧ s'.status = s.status ∧ s'.x0 = s.x0 ∧ s'.y0 = s.y0 ∧ s'.started = s.started := by
  have e1 : l.length = s.nCnts := by rw [hh.nCnts]; exact h.lower
  have e2 : u.length = s.nCnts := by rw [hh.nCnts]; exact h.upper
  have e3 := ordered_all _ h
  unfold Solver.updateBounds
  rw [if_pos ⟨e1, e2⟩]
  have held := hh.held
  cases hw : s.work with
  | some w =>
    obtain ⟨wn, wm⟩ := hs.work w hw
    simp only [hw] at held
    simp only
    rw [if_pos ⟨wm.symm, e3⟩]
    refine ⟨_, rfl, ⟨hs.nVars, hs.nCnts, ?_⟩, ⟨hh.nVars, hh.nCnts, ?_⟩, rfl, rfl, rfl, rfl, rfl⟩
    · intro w' hw'
      rw [← Option.some.inj hw']
      exact ⟨wn, wm⟩
    · simp only [held, posed]
  | none =>
    simp only [hw] at held
    simp only
    rw [if_pos hs.nCnts.symm]
    refine ⟨_, rfl, ⟨hs.nVars, hs.nCnts, by simp [hw]⟩, ⟨hh.nVars, hh.nCnts, ?_⟩, rfl, rfl, rfl, rfl, rfl⟩
    simp only [hw]
    unfold Data.qp at held ⊢
    cases a1 : s.data.hessian <;> cases a2 : s.data.gradient <;> cases a3 : s.data.matrix <;> cases a4 : s.data.bounds <;>
      simp_all [posed]

theorem solve_ok (i : Bool) (f : Qp K → Option (List K)) (s : Solver K) (hs : Consistent s) :
    Consistent (s.solve i f).2.2 ∧ (s.solve i f).2.2.warmStarting = s.warmStarting ∧
      (∀ p, Holds s p → Holds (s.solve i f).2.2 p ∧
        (∀ w, (s.solve i f).2.1 = some w → w = posed p) ∧ ((s.work.isSome ∨ i = true) → (s.solve i f).2.1 = some (posed p)) ∧
        ((s.solve i f).1 = match (s.solve i f).2.1 with | some w => f w | none => none)) ∧
      (s.work = none → s.data.qp = none → (s.solve i f).2.2.work = none ∧ (s.solve i f).2.2.data = s.data ∧
        (s.solve i f).2.2.nVars = s.nVars) := by
  have hq : ∀ w, s.data.qp = some w → w.n = s.nVars ∧ w.m = s.nCnts := by
    intro w hw
    unfold Data.qp at hw
    split at hw
    · rw [← Option.some.inj hw]; exact ⟨hs.nVars, hs.nCnts⟩
    · simp at hw
  unfold Solver.solve
  cases hw : s.work with
  | some w =>
    simp only
    cases hf : f w with
    | some x =>
      refine ⟨hs, rfl, fun p hp => ⟨hp, ?_, ?_, ?_⟩, by simp⟩
      · have := hp.held; simp only [hw] at this; intro v hv; rw [← Option.some.inj hv, this]
      · have := hp.held; simp only [hw] at this; simp [this]
      · simp [hf]
    | none =>
      refine ⟨⟨hs.nVars, hs.nCnts, fun v hv => hs.work v hv⟩, rfl, fun p hp => ⟨⟨hp.nVars, hp.nCnts, hp.held⟩, ?_, ?_, ?_⟩, by simp⟩
      · have := hp.held; simp only [hw] at this; intro v hv; rw [← Option.some.inj hv, this]
      · have := hp.held; simp only [hw] at this; simp [this]
      · simp [hf]
  | none =>
    simp only
    cases hd : s.data.qp with
    | none =>
      refine ⟨⟨hs.nVars, hs.nCnts, by simp⟩, rfl, fun p hp => ?_, by simp⟩
      have := hp.held; simp [hw, hd] at this
    | some w =>
      have held : ∀ p, Holds s p → w = posed p := by
        intro p hp
        have := hp.held; simp only [hw, hd, Option.some.injEq] at this; exact this
      simp only
      cases i with
      | false =>
        simp only [Bool.false_eq_true, if_false]
        exact ⟨⟨hs.nVars, hs.nCnts, by simp⟩, trivial,
          fun p hp => ⟨⟨hp.nVars, hp.nCnts, by simp [hd, held p hp]⟩, by simp, by simp, by simp⟩, by simp⟩
      | true =>
        simp only [if_true]
        cases hf : f w with
        | some x =>
          refine ⟨⟨hs.nVars, hs.nCnts, fun v hv => ?_⟩, rfl, fun p hp => ⟨⟨hp.nVars, hp.nCnts, held p hp⟩, ?_, ?_, ?_⟩, by simp⟩
          · rw [← Option.some.inj hv]; exact hq w hd
          · intro v hv; rw [← Option.some.inj hv]; exact held p hp
          · intro _; rw [← held p hp]
          · simp [hf]
        | none =>
          refine ⟨⟨hs.nVars, hs.nCnts, fun v hv => ?_⟩, rfl, fun p hp => ⟨⟨hp.nVars, hp.nCnts, held p hp⟩, ?_, ?_, ?_⟩, by simp⟩
          · rw [← Option.some.inj hv]; exact hq w hd
          · intro v hv; rw [← Option.some.inj hv]; exact held p hp
          · intro _; rw [← held p hp]
          · simp [hf]

/-- What is known after a history. -/
def Knows (s : Solver K) : Option (Problem K) → Prop
  | some p => Holds s p ∧ Fine p
  | none => s.work = none ∧ s.data.qp = none ∧ s.nVars = 0

theorem run_ok (es : List (Event K)) (c : Option (Problem K)) (s : Solver K) (hs : Consistent s) (hk : Knows s c)
    (hl : Legit c es) : ∃ s', es.foldlM Event.apply s = some s' ∧ Consistent s' ∧ Knows s' (es.foldl (fun c e => e.now c) c) ∧
      s'.warmStarting = s.warmStarting := by
  induction es generalizing c s with
  | nil => exact ⟨s, rfl, hs, hk, rfl⟩
  | cons e es ih =>
    obtain ⟨h1, h2⟩ := hl
    have step : ∃ t, e.apply s = some t ∧ Consistent t ∧ Knows t (e.now c) ∧ t.warmStarting = s.warmStarting := by
      cases e with
      | transfer o o' a b p =>
        obtain ⟨t, a1, a2, a3, a4, -⟩ := transfer_ok o o' a b p h1.1 s hs (by
          intro e1 e2 e3
          cases c with
          | none => have := hk.2.2; have := h1.1.pos; omega
          | some q => obtain ⟨b1, b2⟩ := h1.2 q rfl; rw [hk.1.nCnts, ← b2, e2])
        exact ⟨t, a1, a2, ⟨a3, h1.1⟩, a4⟩
      | bounds l u =>
        obtain ⟨p, rfl, hp⟩ := h1
        obtain ⟨t, a1, a2, a3, a4, -⟩ := bounds_ok p l u hp s hs hk.1
        exact ⟨t, by simp [Event.apply, a1], a2, ⟨a3, hp⟩, a4⟩
      | solve i f =>
        obtain ⟨a1, a2, a3, a4⟩ := solve_ok i f s hs
        refine ⟨_, rfl, a1, ?_, a2⟩
        cases c with
        | none =>
          obtain ⟨b1, b2, b3⟩ := a4 hk.1 hk.2.1
          exact ⟨b1, by rw [b2]; exact hk.2.1, by rw [b3]; exact hk.2.2⟩
        | some p => exact ⟨(a3 p hk.1).1, hk.2⟩
    obtain ⟨t, a1, a2, a3, a4⟩ := step
    obtain ⟨s', b1, b2, b3, b4⟩ := ih _ t a2 a3 h2
    exact ⟨s', by rw [List.foldlM_cons, a1]; exact b1, b2, b3, b4.trans a4⟩

/-- C97: after any legitimate history on a new solver no assertion fails, and the next `solve` poses to OSQP exactly the QP
problem known to the caller (its matrices from the last transfer, its bounds from the last transfer or bounds update), whatever
in-place updates OSQP refused before and whatever earlier solves answered; the result is OSQP's answer to it. Without a
transfer nothing is solved. -/
theorem C97_history (warm : Bool) (es : List (Event K)) (hl : Legit none es) :
    ∃ s, es.foldlM Event.apply ({ warmStarting := warm } : Solver K) = some s ∧
      ∀ (initOk : Bool) (answer : Qp K → Option (List K)), match current es with
        | none => (s.solve initOk answer).1 = none ∧ (s.solve initOk answer).2.1 = none
        | some p => (∀ w, (s.solve initOk answer).2.1 = some w → Describes w p) ∧
            (initOk = true → ∃ w, (s.solve initOk answer).2.1 = some w ∧ Describes w p ∧ (s.solve initOk answer).1 = answer w) ∧
            ∀ x, (s.solve initOk answer).1 = some x → ∃ w, Describes w p ∧ answer w = some x := by
  obtain ⟨s, a1, a2, a3, a4⟩ := run_ok es none ({ warmStarting := warm } : Solver K) ⟨rfl, rfl, by simp⟩ ⟨rfl, rfl, rfl⟩ hl
  refine ⟨s, a1, fun i f => ?_⟩
  change Knows s (current es) at a3
  cases hc : current es with
  | none =>
    rw [hc] at a3
    simp only [Solver.solve, a3.1, a3.2.1, and_self]
  | some p =>
    rw [hc] at a3
    obtain ⟨b1, b2, b3, b4⟩ := (solve_ok i f s a2).2.2.1 p a3.1
    refine ⟨fun w hw => by rw [b2 w hw]; exact posed_describes p a3.2, fun hi => ?_, fun x hx => ?_⟩
    · refine ⟨_, b3 (Or.inr hi), posed_describes p a3.2, ?_⟩
      rw [b4, b3 (Or.inr hi)]
    · rw [hx] at b4
      cases hw : (s.solve i f).2.1 with
      | none => rw [hw] at b4; simp at b4
      | some w => rw [hw] at b4; exact ⟨w, by rw [b2 w hw]; exact posed_describes p a3.2, b4.symm⟩

/-- C97 is violated when one optimizer is used for two problems one after the other: if they have the same number of QP
variables but not of QP rows, and the second one has its QP sizes before its first `convexify` (as `IfoptQPProblem` has), the
transfer of the second problem fails an assertion. -/
theorem C97_violated_other_problem (warm : Bool) (p q : Problem K) (hp : Fine p) (hq : Fine q) (hn : q.nv = p.nv)
    (hc : q.nc ≠ p.nc) (o o' : Fin 3 → Outcome K) (nv nc : Nat) (f : Qp K → Option (List K)) :
    [Event.transfer o o' nv nc p, Event.solve true f, Event.transfer (fun _ => .done) o' q.nv q.nc q].foldlM Event.apply
      ({ warmStarting := warm } : Solver K) = none := by
  have c0 : Consistent ({ warmStarting := warm } : Solver K) := ⟨rfl, rfl, by simp⟩
  obtain ⟨s, a1, a2, a3, -⟩ := transfer_ok o o' nv nc p hp ({ warmStarting := warm } : Solver K) c0 (by
    intro _ _ h; have := hp.pos; simp at h; omega)
  obtain ⟨b1, -, b2, -⟩ := solve_ok true f s a2
  obtain ⟨b3, -⟩ := b2 p a3
  rw [List.foldlM_cons, Event.apply, a1]
  simp only [List.foldlM_cons, List.foldlM_nil, Event.apply, Option.bind_eq_bind, Option.bind_some]
  set t := (s.solve true f).2.2 with ht
  have hw : t.work = some (posed p) ∧ t.status ≠ .uninitialized := by
    have h1 := a3.held
    have hst : s.status = .initialized := by
      have : ({ warmStarting := warm } : Solver K).status ≠ .failed := by simp
      obtain ⟨s2, e1, -, -, -, e2⟩ := transfer_ok o o' nv nc p hp ({ warmStarting := warm } : Solver K) c0 (by
        intro _ _ h; have := hp.pos; simp at h; omega)
      rw [a1] at e1; injection e1 with e1; subst e1; exact e2 this
    rw [ht]
    unfold Solver.solve
    cases hw : s.work with
    | some w =>
      simp only [hw] at h1
      simp only
      cases f w <;> simp [hw, h1, hst]
    | none =>
      simp only [hw] at h1
      simp only [h1, if_true]
      cases f (posed p) <;> simp [hst]
  have h1 : sized q.hessian p.nv p.nv = true := (sized_iff _ _ _).2 (by rw [← hn]; exact hq.hessian)
  have h2 : sized q.matrix t.nCnts t.nVars = false := by
    cases e : sized q.matrix t.nCnts t.nVars with
    | false => rfl
    | true => exact absurd (by rw [← hq.matrix.1, ((sized_iff _ _ _).1 e).1, b3.nCnts]) hc
  have h0 : ¬ (t.status = .uninitialized ∨ q.nv ≠ q.nv ∨ q.nc ≠ q.nc) := by simp [hw.2]
  have : transfer (fun _ => .done) o' q.nv q.nc q t = none := by
    unfold transfer
    rw [if_neg h0]
    simp only [Solver.updateHessianMatrix, hw.1, Solver.updateGradient, Solver.updateMatrix]
    simp only [posed, h1, if_true, Bool.not_true, Bool.false_eq_true, if_false, hq.gradient, hn, h2]
  rw [this]; rfl

/-- C97: bounds that cross are refused by a set-up solver and leave its program as it was. -/
theorem C97_crossed_bounds (s : Solver K) (w : Qp K) (hw : s.work = some w) (lower upper : List (Ext K))
    (hl : lower.length = s.nCnts) (hu : upper.length = s.nCnts) (i : Nat) (a b : K) (ha : lower[i]? = some (.fin a))
    (hb : upper[i]? = some (.fin b)) (hba : b < a) (hr : |a| ≤ osqpInfty) (hr' : |b| ≤ osqpInfty) :
    ∃ s', s.updateBounds lower upper = some (false, s') ∧ s'.work = some w := by
  refine ⟨s, ?_, hw⟩
  unfold Solver.updateBounds
  rw [if_pos ⟨hl, hu⟩, hw]
  simp only
  rw [if_neg]
  rintro ⟨-, h⟩
  have hz : (List.zipWith ordered (lower.map clampLo) (upper.map clampHi))[i]? = some false := by
    simp only [List.getElem?_zipWith, List.getElem?_map, ha, hb, Option.map_some, clampLo, clampHi, ordered]
    congr 1
    rw [abs_le] at hr hr'
    simp only [ordered, decide_eq_false_iff_not, not_le, max_eq_left hr.1, min_eq_left hr'.2]
    exact hba
  have := List.all_eq_true.1 h false (List.mem_of_getElem? hz)
  simp at this

/-- A problem with one variable and no constraint: row `0 <= x <= 1`. -/
def tiny (l : K) : Problem K :=
  { nv := 1, nc := 1, hessian := ⟨1, [[(0, 1)]]⟩, gradient := [-1], matrix := ⟨1, [[(0, 1)]]⟩, lower := [.fin l], upper := [.fin 1],
    nNlp := 1, vars := [0], violations := [] }

/-- The same with a second row. -/
def tiny2 : Problem K :=
  { nv := 1, nc := 2, hessian := ⟨1, [[(0, 1)]]⟩, gradient := [-1], matrix := ⟨2, [[(0, 1), (1, 1)]]⟩,
    lower := [.fin 0, .negInf], upper := [.fin 1, .posInf], nNlp := 1, vars := [0], violations := [] }

theorem tiny_fine (l : K) (h0 : 0 ≤ l) (h1 : l ≤ 1) : Fine (tiny l) := by
  refine ⟨by simp [tiny], ⟨rfl, rfl⟩, rfl, ⟨rfl, rfl⟩, rfl, rfl, ?_, rfl, le_refl _, by simp [tiny]⟩
  intro i lo hi h2 h3
  cases i with
  | succ i => simp [tiny] at h2
  | zero =>
    simp only [tiny, List.getElem?_cons_zero, Option.some.injEq] at h2 h3
    subst h2; subst h3
    refine ⟨1, ⟨h1, le_refl _⟩, ?_⟩
    rw [abs_one]; norm_num [osqpInfty]

theorem tiny2_fine : Fine (tiny2 : Problem K) := by
  refine ⟨by simp [tiny2], ⟨rfl, rfl⟩, rfl, ⟨rfl, rfl⟩, rfl, rfl, ?_, rfl, le_refl _, by simp [tiny2]⟩
  intro i lo hi h2 h3
  have hz : |(0 : K)| ≤ osqpInfty := by rw [abs_zero]; exact infty_pos.le
  match i with
  | 0 =>
    simp only [tiny2, List.getElem?_cons_zero, Option.some.injEq] at h2 h3
    subst h2; subst h3
    exact ⟨0, ⟨le_refl _, zero_le_one⟩, hz⟩
  | 1 =>
    simp only [tiny2, List.getElem?_cons_succ, List.getElem?_cons_zero, Option.some.injEq] at h2 h3
    subst h2; subst h3
    exact ⟨0, ⟨trivial, trivial⟩, hz⟩
  | i + 2 => simp [tiny2] at h2

/-- Histories with refused updates, failed solves and bounds updates are legitimate; the hypotheses of the counterexample
hold. -/
example : Legit none [Event.transfer (fun _ => .done) (fun _ => .done) 0 0 (tiny (0 : ℚ)), .solve false (fun _ => none),
      .solve true (fun _ => none), .bounds [.fin (1 / 2)] [.fin 1],
      .transfer (fun _ => .refused none) (fun _ => .done) 1 1 (tiny (1 / 4)), .solve true (fun w => some w.q)] ∧
    Fine (tiny2 : Problem ℚ) ∧ (tiny2 : Problem ℚ).nv = (tiny (0 : ℚ)).nv ∧ (tiny2 : Problem ℚ).nc ≠ (tiny (0 : ℚ)).nc := by
  refine ⟨⟨⟨tiny_fine _ (le_refl _) zero_le_one, by simp⟩, trivial, trivial, ⟨_, rfl, tiny_fine _ (by norm_num) (by norm_num)⟩,
    ⟨tiny_fine _ (by norm_num) (by norm_num), ?_⟩, trivial, trivial⟩, tiny2_fine, rfl, by decide⟩
  intro q hq
  rw [← Option.some.inj hq]; exact ⟨rfl, rfl⟩

end Verif.OsqpEigen
