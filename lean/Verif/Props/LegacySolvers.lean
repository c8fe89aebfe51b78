import Verif.Model.LegacySolvers
import Verif.Props.OtherSolvers

/-!
C121 (`OSQPModel::optimize` solves the model's current problem) and C122 (`qpOASESModel::optimize`).

Specification of a model as its user sees it: the live variables with their bounds, the live constraints and the objective
(`User`), each call having the obvious effect.
-/

set_option linter.unusedSectionVars false
set_option linter.unusedVariables false

namespace Verif.Sco

open Verif.Bounds (Ext)
open Finset

universe u
variable {K : Type u} [Field K] [LinearOrder K] [IsStrictOrderedRing K]

/-! ### Specification -/

/-- Specification: the contents of a model. -/
structure User (K : Type u) where
  vars : Spec (Ext K × Ext K)
  cnts : Spec (AffExpr K Nat × Bool)
  obj : QuadExpr K Nat

/-- Specification: a new model. -/
def User.empty : User K := ⟨Spec.empty, Spec.empty, QuadExpr.zero⟩

/-- Specification of the calls. -/
def User.step (s : User K) : OsqpOp K → User K
  | .addVar lb ub => { s with vars := s.vars.step (.add (lb, ub)) }
  | .addEqCnt e => { s with cnts := s.cnts.step (.add (e, true)) }
  | .addIneqCnt e => { s with cnts := s.cnts.step (.add (e, false)) }
  | .removeVars ids => { s with vars := s.vars.step (.remove ids) }
  | .removeCnts ids => { s with cnts := s.cnts.step (.remove ids) }
  | .setVarBounds id lb ub => { s with vars := s.vars.step (.set id (lb, ub)) }
  | .setObjectiveAff e => { s with obj := ⟨e, []⟩ }
  | .setObjectiveQuad e => { s with obj := e }
  | .update => s
  | .optimize _ => s

/-- Specification: everything mentioned is a live variable, constants are below the solver's infinity. -/
structure User.Ready (s : User K) (infty : K) : Prop where
  cnts : ∀ q ∈ s.cnts.live, ∀ t ∈ q.2.1.terms, ∃ p, (t.2, p) ∈ s.vars.live
  aff : ∀ t ∈ s.obj.aff.terms, ∃ p, (t.2, p) ∈ s.vars.live
  quad : ∀ t ∈ s.obj.terms, (∃ p, (t.2.1, p) ∈ s.vars.live) ∧ ∃ p, (t.2.2, p) ∈ s.vars.live
  small : ∀ q ∈ s.cnts.live, |q.2.1.constant| < infty

/-- Client contract: handles come from the model, bounds are set on live variables, an affine objective is not set over a
quadratic one (see C15), `optimize` is called on a model that mentions live variables only, and a successful `osqp_solve`
returns a value for every variable. -/
def User.Ok (s : User K) : OsqpOp K → Prop
  | .removeVars ids => s.vars.Ok (.remove ids)
  | .removeCnts ids => s.cnts.Ok (.remove ids)
  | .setVarBounds id lb ub => s.vars.Ok (.set id (lb, ub))
  | .setObjectiveAff _ => s.obj.terms = []
  | .optimize c => s.Ready osqpInfty ∧ (c.ret = true → s.vars.live.length ≤ c.x.length)
  | _ => True

/-- A history obeys the client contract. -/
def User.OkAll (s : User K) : List (OsqpOp K) → Prop
  | [] => True
  | op :: ops => s.Ok op ∧ (s.step op).OkAll ops

/-- Specification: the value OSQP minimises, `1/2 x'Px + q'x` with `P` given by its upper triangle. -/
def OsqpQp.cost (b : OsqpQp K) (x : Nat → K) : K :=
  1 / 2 * (∑ r ∈ range b.P.n, ∑ c ∈ range b.P.n, x r * b.P.csc.entry (min r c) (max r c) * x c) +
    (b.q.map fun p => p.2 * x p.1).sum

/-- Specification: `l <= A x <= u`. -/
def OsqpQp.Holds (b : OsqpQp K) (x : Nat → K) : Prop :=
  ∀ r < b.A.m, ∃ l u, b.l[r]? = some l ∧ b.u[r]? = some u ∧
    LowOk l (∑ c ∈ range b.A.n, b.A.csc.entry r c * x c) ∧ HighOk u (∑ c ∈ range b.A.n, b.A.csc.entry r c * x c)

/-- Specification: the problem is the user's: column `k` is the `k`-th live variable, the cost is the objective up to its
constant, and the rows hold exactly when all constraints and bounds do. -/
def OsqpQp.Means (b : OsqpQp K) (s : User K) : Prop :=
  b.P.n = s.vars.live.length ∧ b.A.n = s.vars.live.length ∧
  ∀ x y : Nat → K, (∀ (k : Nat) (q : Nat × Ext K × Ext K), s.vars.live[k]? = some q → x k = y q.1) →
    b.cost x + s.obj.aff.constant = quadDen s.obj y ∧
    (b.Holds x ↔ (∀ q ∈ s.cnts.live, Satisfies q.2 y) ∧
      ∀ q ∈ s.vars.live, LowOk q.2.1 (y q.1) ∧ HighOk q.2.2 (y q.1))

/-! ### The input -/

theorem csc_upper (M : SMat K) :
    ∀ r c, (eigenToCSC true M).entry r c = if r ≤ c then M.entry r c else 0 := by
  obtain ⟨h1, -⟩ := C06_csc_round_trip true M
  simp only [if_true] at h1
  intro r c
  rw [CSC.entry, h1, ← C06_upper_entries, SMat.entry]

/-- The matrices are consistent in the sense of C63. -/
theorem ok_of_csc (m n : Nat) (up : Bool) (M : SMat K) (h : M.cols.length = n) : (⟨m, n, eigenToCSC up M⟩ : OsqpMat K).Ok := by
  obtain ⟨-, h2, -, -, h5, -⟩ := C06_csc_round_trip up M
  refine ⟨?_, h5⟩
  show (eigenToCSC up M).columnPointers.length = n + 1
  rw [h2]
  cases up <;> simp [SMat.upper, h]

theorem osqpInput_spec (sort : List (Nat × K) → List (Nat × K)) (hsort : IsSort sort)
    (cnts : List (AffExpr K Nat × Bool)) (bounds : List (Ext K × Ext K)) (obj : QuadExpr K Nat)
    (h : ∀ c ∈ cnts, ∀ t ∈ c.1.terms, t.2 < bounds.length) (ha : ∀ t ∈ obj.aff.terms, t.2 < bounds.length)
    (hq : ∀ t ∈ obj.terms, t.2.1 < bounds.length ∧ t.2.2 < bounds.length)
    (hbig : ∀ c ∈ cnts, |c.1.constant| < osqpInfty) :
    ∃ b, osqpInput sort cnts bounds obj = some b ∧ b.P.n = bounds.length ∧ b.A.n = bounds.length ∧
      b.P.Ok ∧ b.A.Ok ∧
      (∀ x, b.cost x + obj.aff.constant = quadDen obj x) ∧
      ∀ x, b.Holds x ↔ (∀ c ∈ cnts, Satisfies c x) ∧
        ∀ (k : Nat) (v : Ext K × Ext K), bounds[k]? = some v → LowOk v.1 (x k) ∧ HighOk v.2 (x k) := by
  obtain ⟨H, g, g1, g2, g3, g4, g5, g6, g7⟩ := C05_quadratic sort hsort obj bounds.length ha hq true false
  obtain ⟨R, r1, r2, r3, r4, r5, r6⟩ := updateConstraints_spec cnts bounds h hbig
  refine ⟨⟨⟨bounds.length, bounds.length, eigenToCSC true H⟩, g, ⟨cnts.length + bounds.length, bounds.length, eigenToCSC false R.A⟩,
    R.l, R.u⟩, ?_, rfl, rfl, ok_of_csc _ _ _ _ g3, ok_of_csc _ _ _ _ r3, ?_, ?_⟩
  · simp only [osqpInput, g1, r1, Option.bind_eq_bind, Option.bind_some]
  · intro x
    rw [← g7 x]
    simp only [OsqpQp.cost, if_true, pairDen, csc_upper, le_max_iff, min_le_iff, le_refl, true_or, or_true]
    congr 3
    apply sum_congr rfl; intro r _
    apply sum_congr rfl; intro c _
    rcases le_total r c with hrc | hrc
    · rw [min_eq_left hrc, max_eq_right hrc]
    · rw [min_eq_right hrc, max_eq_left hrc, g4]
  · intro x
    rw [← r6 x]
    obtain ⟨-, eA⟩ := csc_wf R.A
    simp only [OsqpQp.Holds, Rows.Hold, SMat.rowForm, eA, r2, r3]

/-- C121: the data computed for OSQP exist and are the user's problem. -/
theorem C121_input (sort : List (Nat × K) → List (Nat × K)) (hsort : IsSort sort) (m : OModel K) (u : User K)
    (hv : Sim m.vars u.vars) (hc : Sim m.cnts u.cnts) (ho : m.obj = u.obj) (ready : u.Ready osqpInfty) :
    ∃ m' b, m.update = some m' ∧ m'.osqp sort = some b ∧ b.Means u ∧ b.P.Ok ∧ b.A.Ok ∧
      m'.vars.items.length = u.vars.live.length := by
  obtain ⟨m', cs, q, h1, h2, h3, h4, h5, h6, hk, h7, h8, h9, h10⟩ := handles_spec m hv.inv hc.inv
    (by rw [hc.live, hv.live]; exact ready.cnts) (by rw [ho, hv.live]; exact ready.aff)
    (by rw [ho, hv.live]; exact ready.quad)
  have hlen : (m.vars.live.map Prod.snd).length = m.vars.live.length := by simp
  obtain ⟨b, b1, b2, b3, b4, b5, b6, b7⟩ := osqpInput_spec sort hsort cs (m.vars.live.map Prod.snd) q
    (by rw [hlen]; exact h6) (by rw [hlen]; exact h8) (by rw [hlen]; exact h9)
    (by
      intro c hc'
      obtain ⟨l, hl, e⟩ := hk c hc'
      rw [e]; exact ready.small l (by rw [← hc.live]; exact hl))
  rw [hlen] at b2 b3
  refine ⟨m', b, h1, ?_, ⟨by rw [b2, hv.live], by rw [b3, hv.live], ?_⟩, b4, b5, ?_⟩
  · unfold OModel.osqp
    simp only [h2, h3, h4, Option.bind_eq_bind, Option.bind_some]; exact b1
  · intro x y hxy
    have hA : Agree m x y := by rw [Agree, hv.live]; exact hxy
    obtain ⟨k1, k2⟩ := h10 x y hA
    rw [← ho, ← hv.live, ← hc.live]
    refine ⟨by rw [← h7, b6, k2], ?_⟩
    rw [b7, k1]
    exact and_congr_right' (bounds_live m x y hA fun v a => LowOk v.1 a ∧ HighOk v.2 a)
  · have := congrArg List.length h4
    simpa [hv.live] using this

/-! ### The workspace -/

theorem load_same (w new : OsqpQp K) (hP : SamePattern w.P new.P) (hA : SamePattern w.A new.A) : w.load new = new := by
  obtain ⟨⟨a, b, c, d, e⟩, q, ⟨a2, b2, c2, d2, e2⟩, l, u⟩ := w
  obtain ⟨⟨a', b', c', d', e'⟩, q', ⟨a2', b2', c2', d2', e2'⟩, l', u'⟩ := new
  obtain ⟨h1, h2, h3, h4⟩ := hP
  obtain ⟨h5, h6, h7, h8⟩ := hA
  simp_all [OsqpQp.load]

/-- The workspace of a solved problem holds `P_` and `A_`. -/
def OsqpSession.Synced (s : OsqpSession K) : Prop :=
  ∀ w, s.ws = some w → w.status.ok = true → s.cur = some (w.qp.P, w.qp.A)

/-- Whatever the comparison of two consecutive inputs accepts really has the same pattern. -/
def Detects (cur : Option (OsqpMat K × OsqpMat K)) (new : OsqpQp K) : Prop :=
  ∀ p, cur = some p → sparsityEqual p.1 new.P = true → sparsityEqual p.2 new.A = true →
    SamePattern p.1 new.P ∧ SamePattern p.2 new.A

theorem createOrUpdate_spec (cfg : OsqpConfig) (s : OsqpSession K) (hs : s.Synced) (new : OsqpQp K) (c : OsqpCalls K)
    (hd : cfg.updateWorkspace = true → Detects s.cur new) :
    (∃ w, createOrUpdate cfg s.cur s.ws new c = some (some w, true) ∧ w.qp = new) ∨
    (∃ ws, createOrUpdate cfg s.cur s.ws new c = some (ws, false) ∧ c.setup ≠ .ok ∧ ∀ w, ws = some w → w.status.ok = false) := by
  have tail : ∀ g : Bool, (g = true → ∃ w, s.ws = some w ∧ w.status.ok = true ∧ sparsityEqual w.qp.P new.P = true ∧
      sparsityEqual w.qp.A new.A = true) →
      (∃ w, (if g && s.ws.any (fun w => decide (w.qp.P.n < new.P.n ∨ w.qp.A.m < new.A.m)) then none
        else some (afterSetup new c.setup) : Option (Option (OsqpWs K) × Bool)) = some (some w, true) ∧ w.qp = new) ∨
      (∃ ws, (if g && s.ws.any (fun w => decide (w.qp.P.n < new.P.n ∨ w.qp.A.m < new.A.m)) then none
        else some (afterSetup new c.setup) : Option (Option (OsqpWs K) × Bool)) = some (ws, false) ∧ c.setup ≠ .ok ∧
          ∀ w, ws = some w → w.status.ok = false) := by
    intro g hg
    have hno : (g && s.ws.any (fun w => decide (w.qp.P.n < new.P.n ∨ w.qp.A.m < new.A.m))) = false := by
      cases g with
      | false => rfl
      | true =>
        obtain ⟨w, w1, -, w3, w4⟩ := hg rfl
        simp only [sparsityEqual, Bool.and_eq_true, decide_eq_true_eq] at w3 w4
        simp [w1, w3.1.1.1, w4.1.1.2.1]
    rw [hno]
    cases hset : c.setup with
    | ok => left; exact ⟨⟨new, .unsolved⟩, by simp [afterSetup], rfl⟩
    | invalid => right; exact ⟨none, by simp [afterSetup], by simp, by simp⟩
    | broken => right; exact ⟨some ⟨new, .unsolved⟩, by simp [afterSetup], by simp, by rintro w ⟨⟩; rfl⟩
  unfold createOrUpdate
  cases hws : s.ws with
  | none =>
    have := tail false (by simp)
    rw [hws] at this
    simpa [patternEq] using this
  | some w =>
    cases hok : w.status.ok with
    | false =>
      have := tail false (by simp)
      rw [hws] at this
      simpa [hok, patternEq] using this
    | true =>
      have hcur := hs w hws hok
      rw [hcur] at hd ⊢
      cases hu : cfg.updateWorkspace with
      | false =>
        have := tail (cfg.warmStarting && sparsityEqual w.qp.P new.P && sparsityEqual w.qp.A new.A) (by
          simp only [Bool.and_eq_true]
          rintro ⟨⟨-, h1⟩, h2⟩
          exact ⟨w, hws, hok, h1, h2⟩)
        rw [hws] at this
        have e : ∀ a b d : Bool, (a && (a && b) && (a && b && d)) = (a && b && d) := by decide
        simp only [Option.any_some, hok, Option.map_some, patternEq, Bool.false_and, Bool.and_false, Bool.true_and, Bool.not_false,
          Bool.false_or, Bool.false_eq_true, if_false, e] at this ⊢
        exact this
      | true =>
        simp only [Option.any_some, hok, Option.map_some, patternEq, Bool.true_and, Bool.not_true, Bool.false_and,
          Bool.or_false, Bool.and_true, Bool.true_or]
        by_cases hp : (sparsityEqual w.qp.P new.P && (sparsityEqual w.qp.P new.P && sparsityEqual w.qp.A new.A) && c.updVec && c.updMat) = true
        · rw [if_pos hp]
          simp only [Bool.and_eq_true] at hp
          obtain ⟨d1, d2⟩ := hd hu _ rfl hp.1.1.1 hp.1.1.2.2
          exact Or.inl ⟨_, rfl, load_same _ _ d1 d2⟩
        · rw [if_neg hp]
          have := tail false (by simp)
          rw [hws] at this
          simpa using this

/-- Everything the caller can see of one `optimize`. -/
structure Outcome (s s' : OsqpSession K) (c : OsqpCalls K) (st : CvxStatus) (asked : Option (OsqpQp K)) (u : User K) : Prop where
  means : ∀ b, asked = some b → b.Means u
  called : asked = none → c.setup ≠ .ok ∧ st = .failed ∧ s'.solution = s.solution
  solved : st = .solved ↔ asked.isSome ∧ c.ret = true ∧ (c.status = .solved ∨ c.status = .solvedInaccurate)
  infeasible : st = .infeasible ↔ asked.isSome ∧ c.ret = true ∧
    (c.status = .primalInfeasible ∨ c.status = .primalInfeasibleInaccurate ∨ c.status = .dualInfeasible ∨
      c.status = .dualInfeasibleInaccurate)
  solution : asked.isSome → c.ret = true → s'.solution = c.x.take u.vars.live.length
  kept : c.ret = false → s'.solution = s.solution ∧ st = .failed

/-- The simulation between session and specification. -/
structure SSim (s : OsqpSession K) (u : User K) : Prop where
  vars : Sim s.model.vars u.vars
  cnts : Sim s.model.cnts u.cnts
  obj : s.model.obj = u.obj
  ws : s.Synced

theorem ssim_empty : SSim (OsqpSession.empty : OsqpSession K) User.empty :=
  ⟨sim_empty, sim_empty, rfl, by intro w hw; cases hw⟩

theorem update_sim {m : OModel K} {u : User K} (hv : Sim m.vars u.vars) (hc : Sim m.cnts u.cnts) :
    ∃ m', m.update = some m' ∧ Sim m'.vars u.vars ∧ Sim m'.cnts u.cnts ∧ m'.obj = m.obj := by
  obtain ⟨v, v1, v2⟩ := hv.step .update trivial
  obtain ⟨c, c1, c2⟩ := hc.step .update trivial
  exact ⟨{ m with vars := v, cnts := c }, by simp only [OModel.update]; rw [show m.vars.update = some v from v1]; simp only; rw [show m.cnts.update = some c from c1], v2, c2, rfl⟩

theorem optimize_spec (cfg : OsqpConfig) (sort : List (Nat × K) → List (Nat × K)) (hsort : IsSort sort)
    (s : OsqpSession K) (u : User K) (h : SSim s u) (c : OsqpCalls K) (ok : u.Ok (.optimize c))
    (hd : cfg.updateWorkspace = true → ∀ m new, s.model.update = some m → m.osqp sort = some new → Detects s.cur new) :
    ∃ s' st asked, s.optimize cfg sort c = some (s', st, asked) ∧ SSim s' u ∧ Outcome s s' c st asked u ∧
      ∃ b, s.model.update = some s'.model ∧ s'.model.osqp sort = some b ∧ s'.cur = some (b.P, b.A) := by
  obtain ⟨m, b, h1, h2, h3, -, -, h4⟩ := C121_input sort hsort s.model u h.vars h.cnts h.obj ok.1
  obtain ⟨m', k1, k2, k3, k4⟩ := update_sim h.vars h.cnts
  rw [h1] at k1; injection k1 with k1; subst k1
  rcases createOrUpdate_spec cfg s h.ws b c (fun hu => hd hu m b h1 h2) with ⟨w, w1, w2⟩ | ⟨ws, w1, w2, w3⟩
  · cases hr : c.ret with
    | true =>
      have hx := ok.2 hr
      refine ⟨⟨m, some (b.P, b.A), some ⟨w.qp, c.status⟩, c.x.take m.vars.items.length⟩, c.status.result, some w.qp, ?_,
        ⟨k2, k3, k4.trans h.obj, ?_⟩, ⟨?_, ?_, ?_, ?_, ?_, ?_⟩, ⟨b, h1, h2, rfl⟩⟩
      · simp only [OsqpSession.optimize, h1, h2, w1, hr, if_true, h4, hx]
      · rintro w' ⟨⟩ -; simp only [w2]
      · rintro b' ⟨⟩; rw [w2]; exact h3
      · simp
      · simp only [hr, Option.isSome_some, true_and]
        cases c.status <;> simp [OsqpStatus.result]
      · simp only [hr, Option.isSome_some, true_and]
        cases c.status <;> simp [OsqpStatus.result]
      · intro _ _; rw [← h4]
      · simp [hr]
    | false =>
      refine ⟨⟨m, some (b.P, b.A), some ⟨w.qp, c.status⟩, s.solution⟩, .failed, some w.qp, ?_,
        ⟨k2, k3, k4.trans h.obj, ?_⟩, ⟨?_, ?_, ?_, ?_, ?_, ?_⟩, ⟨b, h1, h2, rfl⟩⟩
      · simp [OsqpSession.optimize, h1, h2, w1, hr]
      · rintro w' ⟨⟩ -; simp only [w2]
      · rintro b' ⟨⟩; rw [w2]; exact h3
      · simp
      · simp [hr]
      · simp [hr]
      · simp [hr]
      · simp
  · refine ⟨⟨m, some (b.P, b.A), ws, s.solution⟩, .failed, none, ?_, ⟨k2, k3, k4.trans h.obj, ?_⟩, ⟨?_, ?_, ?_, ?_, ?_, ?_⟩, ⟨b, h1, h2, rfl⟩⟩
    · simp only [OsqpSession.optimize, h1, h2, w1]
    · intro w' hw' hok
      rw [w3 w' hw'] at hok; cases hok
    · simp
    · intro _; exact ⟨w2, rfl, rfl⟩
    · simp
    · simp
    · simp
    · simp

theorem ssim_step (cfg : OsqpConfig) (sort : List (Nat × K) → List (Nat × K)) (hsort : IsSort sort)
    (s : OsqpSession K) (u : User K) (h : SSim s u) (op : OsqpOp K) (ok : u.Ok op)
    (hd : cfg.updateWorkspace = true → ∀ m new, s.model.update = some m → m.osqp sort = some new → Detects s.cur new) :
    ∃ s', s.step cfg sort op = some s' ∧ SSim s' (u.step op) := by
  cases op with
  | addVar lb ub =>
    obtain ⟨v1, e1, f1⟩ := h.vars.step (.add (Ext.fin (-osqpInfty), Ext.fin osqpInfty)) trivial
    injection e1 with e1
    obtain ⟨v2, e2, f2⟩ := f1.step (.set u.vars.next (lb, ub)) ⟨(u.vars.next, (Ext.fin (-osqpInfty), Ext.fin osqpInfty)), by simp [Spec.step], rfl⟩
    refine ⟨{ s with model := { s.model with vars := v2 } }, ?_, ⟨?_, h.cnts, h.obj, h.ws⟩⟩
    · have : (s.model.vars.add (Ext.fin (-osqpInfty), Ext.fin osqpInfty)).1.setAt u.vars.next (lb, ub) = some v2 := by
        rw [e1]; exact e2
      simp only [OsqpSession.step, OModel.addVar, Store.add_snd, h.vars.next, this, Option.map_some]
    · have e : ((u.vars.step (.add (Ext.fin (-osqpInfty), Ext.fin osqpInfty))).step (.set u.vars.next (lb, ub))).live =
          (u.vars.step (.add (lb, ub))).live := by
        have hlt : ∀ q ∈ u.vars.live, q.1 ≠ u.vars.next := by
          intro q hq
          rw [← h.vars.live] at hq
          obtain ⟨k, r, -, hr, -⟩ := Store.live_mem h.vars.inv (show (q.1, q.2) ∈ s.model.vars.live from hq)
          rw [← h.vars.next]
          intro he
          rw [he, List.getElem?_eq_none (le_refl _)] at hr; cases hr
        simp only [Spec.step, List.map_append, List.map_cons, List.map_nil, if_true]
        congr 1
        conv_rhs => rw [← List.map_id u.vars.live]
        apply List.map_congr_left
        intro q hq
        simp [hlt q hq]
      exact ⟨f2.inv, by rw [f2.live, e]; rfl, by rw [f2.next]; rfl⟩
  | addEqCnt e =>
    obtain ⟨v1, e1, f1⟩ := h.cnts.step (.add (e, true)) trivial
    injection e1 with e1
    exact ⟨_, rfl, ⟨h.vars, by rw [← e1] at f1; exact f1, h.obj, h.ws⟩⟩
  | addIneqCnt e =>
    obtain ⟨v1, e1, f1⟩ := h.cnts.step (.add (e, false)) trivial
    injection e1 with e1
    exact ⟨_, rfl, ⟨h.vars, by rw [← e1] at f1; exact f1, h.obj, h.ws⟩⟩
  | removeVars ids =>
    obtain ⟨v1, e1, f1⟩ := h.vars.step (.remove ids) ok
    injection e1 with e1
    exact ⟨_, rfl, ⟨by rw [← e1] at f1; exact f1, h.cnts, h.obj, h.ws⟩⟩
  | removeCnts ids =>
    obtain ⟨v1, e1, f1⟩ := h.cnts.step (.remove ids) ok
    injection e1 with e1
    exact ⟨_, rfl, ⟨h.vars, by rw [← e1] at f1; exact f1, h.obj, h.ws⟩⟩
  | setVarBounds id lb ub =>
    obtain ⟨v1, e1, f1⟩ := h.vars.step (.set id (lb, ub)) ok
    have e1 : s.model.vars.setAt id (lb, ub) = some v1 := e1
    exact ⟨{ s with model := { s.model with vars := v1 } }, by simp only [OsqpSession.step, e1, Option.map_some], ⟨f1, h.cnts, h.obj, h.ws⟩⟩
  | setObjectiveAff e =>
    refine ⟨_, rfl, ⟨h.vars, h.cnts, ?_, h.ws⟩⟩
    have ok : u.obj.terms = [] := ok
    show (s.model.setObjectiveAff e).obj = _
    simp only [OModel.setObjectiveAff, User.step, h.obj, ok]
  | setObjectiveQuad e => exact ⟨_, rfl, ⟨h.vars, h.cnts, rfl, h.ws⟩⟩
  | update =>
    obtain ⟨m', k1, k2, k3, k4⟩ := update_sim h.vars h.cnts
    exact ⟨{ s with model := m' }, by simp only [OsqpSession.step, k1, Option.map_some], ⟨k2, k3, k4.trans h.obj, h.ws⟩⟩
  | optimize c =>
    obtain ⟨s', st, asked, h1, h2, -, -⟩ := optimize_spec cfg sort hsort s u h c ok hd
    exact ⟨s', by simp only [OsqpSession.step, h1, Option.map_some], h2⟩

/-- In every `optimize` of the history the comparison with the previous matrices tells different patterns apart. -/
def DetectsAll (cfg : OsqpConfig) (sort : List (Nat × K) → List (Nat × K)) (s : OsqpSession K) : List (OsqpOp K) → Prop
  | [] => True
  | op :: ops => (∀ m new, s.model.update = some m → m.osqp sort = some new → Detects s.cur new) ∧
      ∀ s', s.step cfg sort op = some s' → DetectsAll cfg sort s' ops

theorem ssim_run (cfg : OsqpConfig) (sort : List (Nat × K) → List (Nat × K)) (hsort : IsSort sort)
    (s : OsqpSession K) (u : User K) (h : SSim s u) (ops : List (OsqpOp K)) (ok : u.OkAll ops)
    (hd : cfg.updateWorkspace = true → DetectsAll cfg sort s ops) :
    ∃ s', ops.foldlM (OsqpSession.step cfg sort) s = some s' ∧ SSim s' (ops.foldl User.step u) := by
  induction ops generalizing s u with
  | nil => exact ⟨s, rfl, h⟩
  | cons op ops ih =>
    obtain ⟨s1, h1, h2⟩ := ssim_step cfg sort hsort s u h op ok.1 (fun hu => (hd hu).1)
    obtain ⟨s', h3, h4⟩ := ih s1 _ h2 ok.2 (fun hu => (hd hu).2 s1 h1)
    exact ⟨s', by simp [h1, h3], h4⟩

theorem detects_split (cfg : OsqpConfig) (sort : List (Nat × K) → List (Nat × K)) (c : OsqpCalls K) :
    ∀ (l : List (OsqpOp K)) (s : OsqpSession K), DetectsAll cfg sort s (l ++ [.optimize c]) →
      DetectsAll cfg sort s l ∧ ∀ s', l.foldlM (OsqpSession.step cfg sort) s = some s' →
        ∀ m new, s'.model.update = some m → m.osqp sort = some new → Detects s'.cur new := by
  intro l
  induction l with
  | nil => intro s hs; exact ⟨trivial, by rintro s' ⟨⟩; exact hs.1⟩
  | cons op l ih =>
    intro s hs
    refine ⟨⟨hs.1, fun s' hs' => (ih s' (hs.2 s' hs')).1⟩, ?_⟩
    intro s' hs'
    rw [List.foldlM_cons] at hs'
    obtain ⟨s1, e1, e2⟩ := Option.bind_eq_some_iff.1 hs'
    exact (ih s1 (hs.2 s1 e1)).2 s' e2

/-- C121, default configuration (`update_workspace` off): after every history of calls that obeys the client contract,
whatever OSQP answered before, no call hits undefined behaviour, and `optimize` runs the solver on exactly the problem the
model describes now (never on an older one), reports "solved" and "infeasible" exactly when that run does, hands out that
run's solution, and keeps the previous solution if the run fails. -/
theorem C121_every_history (cfg : OsqpConfig) (hcfg : cfg.updateWorkspace = false)
    (sort : List (Nat × K) → List (Nat × K)) (hsort : IsSort sort) (ops : List (OsqpOp K)) (c : OsqpCalls K)
    (ok : (User.empty : User K).OkAll ops) (okc : (ops.foldl User.step User.empty).Ok (.optimize c)) :
    ∃ s s' st asked, ops.foldlM (OsqpSession.step cfg sort) OsqpSession.empty = some s ∧
      s.optimize cfg sort c = some (s', st, asked) ∧ Outcome s s' c st asked (ops.foldl User.step User.empty) := by
  obtain ⟨s, h1, h2⟩ := ssim_run cfg sort hsort _ _ ssim_empty ops ok (by rw [hcfg]; simp)
  obtain ⟨s', st, asked, h3, -, h4, -⟩ := optimize_spec cfg sort hsort s _ h2 c okc (by rw [hcfg]; simp)
  exact ⟨s, s', st, asked, h1, h3, h4⟩

/-- C121 with `update_workspace`: the same provided that, at every `optimize`, matrices of different pattern are told apart
by the comparison (which looks at an eighth of the arrays, C63).  Without this proviso the statement is false
(`C121_violated`). -/
theorem C121_update_workspace_partial (cfg : OsqpConfig) (sort : List (Nat × K) → List (Nat × K)) (hsort : IsSort sort)
    (ops : List (OsqpOp K)) (c : OsqpCalls K) (ok : (User.empty : User K).OkAll ops)
    (okc : (ops.foldl User.step User.empty).Ok (.optimize c))
    (hd : DetectsAll cfg sort OsqpSession.empty (ops ++ [.optimize c])) :
    ∃ s s' st asked, ops.foldlM (OsqpSession.step cfg sort) OsqpSession.empty = some s ∧
      s.optimize cfg sort c = some (s', st, asked) ∧ Outcome s s' c st asked (ops.foldl User.step User.empty) := by
  obtain ⟨d1, d2⟩ := detects_split cfg sort c ops _ hd
  obtain ⟨s, h1, h2⟩ := ssim_run cfg sort hsort _ _ ssim_empty ops ok (fun _ => d1)
  obtain ⟨s', st, asked, h3, -, h4, -⟩ := optimize_spec cfg sort hsort s _ h2 c okc (fun _ => d2 s h1)
  exact ⟨s, s', st, asked, h1, h3, h4⟩

/-! ### The trust region loop -/

/-- Only bounds are changed. -/
def OnlyBounds : OsqpOp K → Prop
  | .setVarBounds _ _ _ => True
  | _ => False

theorem osqpInput_bounds (sort : List (Nat × K) → List (Nat × K)) (cs : List (AffExpr K Nat × Bool)) (q : QuadExpr K Nat)
    (v v' : List (Ext K × Ext K)) (hl : v.length = v'.length) (b b' : OsqpQp K) (h : osqpInput sort cs v q = some b)
    (h' : osqpInput sort cs v' q = some b') : b.P = b'.P ∧ b.A = b'.A := by
  unfold osqpInput at h h'
  simp only [Option.bind_eq_bind, Option.bind_eq_some_iff, updateConstraints, hl] at h h'
  obtain ⟨H, h1, R, h2, h3⟩ := h
  obtain ⟨H', h1', R', h2', h3'⟩ := h'
  rw [h1] at h1'; injection h1' with h1'; subst h1'
  cases ha : affsToEigen (cs.map Prod.fst) v'.length with
  | none => rw [ha] at h2; cases h2
  | some r =>
    rw [ha] at h2 h2'
    injection h2 with h2; injection h2' with h2'
    injection h3 with h3; injection h3' with h3'
    subst h2 h2' h3 h3'
    exact ⟨rfl, rfl⟩

theorem indexOf_live {s s' : Store P} {a : Spec P} (h : Sim s a) (hu : s.update = some s') (k : Nat) (q : Nat × P)
    (hk : a.live[k]? = some q) : s'.indexOf q.1 = some k := by
  obtain ⟨t, t1, t2, t3, t4, t5⟩ := Store.update_spec h.inv
  rw [hu] at t1; injection t1 with t1; subst t1
  have : s'.items[k]? = some (some q.1, q.2) := by
    rw [t5, List.getElem?_map, h.live, hk]; rfl
  obtain ⟨id, r, g1, g2, g3⟩ := t2 k _ this
  injection g1 with g1
  simp [Store.indexOf, g1, g2, g3]

theorem mapM_congr' {α β : Type u} (f g : α → Option β) (l : List α) (h : ∀ a ∈ l, f a = g a) : l.mapM f = l.mapM g := by
  induction l with
  | nil => rfl
  | cons a l ih =>
    rw [List.mapM_cons, List.mapM_cons, h a (by simp), ih fun b hb => h b (by simp [hb])]

/-- The matrices do not depend on the bounds. -/
theorem osqp_bounds (sort : List (Nat × K) → List (Nat × K)) (m m' : OModel K) (u u' : User K)
    (hv : Sim m.vars u.vars) (hc : Sim m.cnts u.cnts) (ho : m.obj = u.obj)
    (hv' : Sim m'.vars u'.vars) (hc' : Sim m'.cnts u'.cnts) (ho' : m'.obj = u'.obj)
    (ready : u.Ready osqpInfty) (e1 : u'.vars.live.map Prod.fst = u.vars.live.map Prod.fst) (e2 : u'.cnts = u.cnts)
    (e3 : u'.obj = u.obj) (n n' : OModel K) (b b' : OsqpQp K) (hn : m.update = some n) (hn' : m'.update = some n')
    (hb : n.osqp sort = some b) (hb' : n'.osqp sort = some b') : b.P = b'.P ∧ b.A = b'.A := by
  have parts : ∀ (m n : OModel K) (u : User K), Sim m.vars u.vars → Sim m.cnts u.cnts → m.update = some n →
      (∀ k q, u.vars.live[k]? = some q → n.vars.indexOf q.1 = some k) ∧
      n.vars.items = u.vars.live.map (fun q => (some q.1, q.2)) ∧ n.cnts.items = u.cnts.live.map (fun q => (some q.1, q.2)) ∧
      n.obj = m.obj := by
    intro m n u hv hc hn
    obtain ⟨v, v1, -, -, -, v5⟩ := Store.update_spec hv.inv
    obtain ⟨c, c1, -, -, -, c5⟩ := Store.update_spec hc.inv
    simp only [OModel.update, v1, c1] at hn
    injection hn with hn
    subst hn
    exact ⟨fun k q hk => indexOf_live hv v1 k q hk, by rw [← hv.live]; exact v5, by rw [← hc.live]; exact c5, rfl⟩
  obtain ⟨a1, a2, a3, a4⟩ := parts m n u hv hc hn
  obtain ⟨a1', a2', a3', a4'⟩ := parts m' n' u' hv' hc' hn'
  have hidx : ∀ j, (∃ p, (j, p) ∈ u.vars.live) → n'.vars.indexOf j = n.vars.indexOf j := by
    rintro j ⟨p, hp⟩
    obtain ⟨k, hk⟩ := List.getElem?_of_mem hp
    rw [a1 k _ hk]
    have : (u'.vars.live.map Prod.fst)[k]? = some j := by rw [e1, List.getElem?_map, hk]; rfl
    rw [List.getElem?_map] at this
    obtain ⟨q, hq, hj⟩ := Option.map_eq_some_iff.1 this
    rw [← hj]; exact a1' k q hq
  have haff : ∀ e : AffExpr K Nat, (∀ t ∈ e.terms, ∃ p, (t.2, p) ∈ u.vars.live) →
      e.toIndices n'.vars.indexOf = e.toIndices n.vars.indexOf := by
    intro e he
    unfold AffExpr.toIndices
    rw [mapM_congr' _ (fun t => (n.vars.indexOf t.2).map fun i => (t.1, i)) e.terms (fun t ht => by rw [hidx _ (he t ht)])]
  have hcs : (n'.cnts.items.mapM fun c => (c.2.1.toIndices n'.vars.indexOf).map fun e => (e, c.2.2)) =
      n.cnts.items.mapM fun c => (c.2.1.toIndices n.vars.indexOf).map fun e => (e, c.2.2) := by
    rw [a3', a3, e2]
    apply mapM_congr'
    intro c hc
    obtain ⟨q, hq, rfl⟩ := List.mem_map.1 hc
    simp only
    rw [haff _ (ready.cnts q hq)]
  have hqd : n'.obj.toIndices n'.vars.indexOf = n.obj.toIndices n.vars.indexOf := by
    rw [a4', a4, ho', ho, e3]
    unfold QuadExpr.toIndices
    rw [haff _ ready.aff, mapM_congr' _ (fun t => (n.vars.indexOf t.2.1).bind fun i => (n.vars.indexOf t.2.2).map fun j => (t.1, i, j))
      u.obj.terms (fun t ht => by rw [hidx _ (ready.quad t ht).1, hidx _ (ready.quad t ht).2])]
  unfold OModel.osqp at hb hb'
  rw [hcs, hqd] at hb'
  simp only [Option.bind_eq_bind, Option.bind_eq_some_iff] at hb hb'
  obtain ⟨cs, c1, q, q1, r1⟩ := hb
  obtain ⟨cs', c1', q', q1', r1'⟩ := hb'
  rw [c1] at c1'; injection c1' with c1'; subst c1'
  rw [q1] at q1'; injection q1' with q1'; subst q1'
  refine osqpInput_bounds sort cs q _ _ ?_ b b' r1 r1'
  have := congrArg List.length e1
  simp only [List.length_map] at this
  rw [a2, a2']; simp [this]

theorem bounds_run (cfg : OsqpConfig) (sort : List (Nat × K) → List (Nat × K)) (ops : List (OsqpOp K))
    (hops : ∀ op ∈ ops, OnlyBounds op) (s : OsqpSession K) (u : User K) (h : SSim s u) (ok : u.OkAll ops) :
    ∃ s', ops.foldlM (OsqpSession.step cfg sort) s = some s' ∧ SSim s' (ops.foldl User.step u) ∧ s'.cur = s.cur ∧
      (ops.foldl User.step u).vars.live.map Prod.fst = u.vars.live.map Prod.fst ∧
      (ops.foldl User.step u).cnts = u.cnts ∧ (ops.foldl User.step u).obj = u.obj := by
  induction ops generalizing s u with
  | nil => exact ⟨s, rfl, h, rfl, rfl, rfl, rfl⟩
  | cons op ops ih =>
    have ho := hops op (by simp)
    cases op with
    | setVarBounds id lb ub =>
      obtain ⟨v1, f0, f1⟩ := h.vars.step (.set id (lb, ub)) ok.1
      have f0 : s.model.vars.setAt id (lb, ub) = some v1 := f0
      obtain ⟨s', k1, k2, k3, k4, k5, k6⟩ := ih (fun o hop => hops o (by simp [hop])) { s with model := { s.model with vars := v1 } }
        (u.step (.setVarBounds id lb ub)) ⟨f1, h.cnts, h.obj, h.ws⟩ ok.2
      refine ⟨s', ?_, k2, k3, ?_, k5, k6⟩
      · rw [List.foldlM_cons]
        have : s.step cfg sort (.setVarBounds id lb ub) = some { s with model := { s.model with vars := v1 } } := by
          simp only [OsqpSession.step, f0, Option.map_some]
        rw [this]; exact k1
      · rw [List.foldl_cons, k4]
        simp only [User.step, Spec.step, List.map_map]
        apply List.map_congr_left
        intro q _
        simp only [Function.comp]; split_ifs <;> rfl
    | _ => exact absurd ho (by simp [OnlyBounds])

/-- C121 in the trust region loop, also with `update_workspace` and without any assumption on the comparison: after an
`optimize`, any changes of bounds and another `optimize`, the second one runs the solver on exactly the problem the model
describes then. (`ops` is any history before; for `update_workspace` it must itself have been told apart.) -/
theorem C121_trust_box_partial (cfg : OsqpConfig) (sort : List (Nat × K) → List (Nat × K)) (hsort : IsSort sort)
    (ops boxes : List (OsqpOp K)) (hboxes : ∀ op ∈ boxes, OnlyBounds op) (c1 c2 : OsqpCalls K)
    (ok : (User.empty : User K).OkAll ops) (ok1 : (ops.foldl User.step User.empty).Ok (.optimize c1))
    (okb : (ops.foldl User.step User.empty).OkAll boxes)
    (ok2 : (boxes.foldl User.step (ops.foldl User.step User.empty)).Ok (.optimize c2))
    (hd : cfg.updateWorkspace = true → DetectsAll cfg sort OsqpSession.empty (ops ++ [.optimize c1])) :
    ∃ s1 s2 s3 st asked, ops.foldlM (OsqpSession.step cfg sort) OsqpSession.empty = some s1 ∧
      (OsqpOp.optimize c1 :: boxes).foldlM (OsqpSession.step cfg sort) s1 = some s2 ∧
      s2.optimize cfg sort c2 = some (s3, st, asked) ∧
      Outcome s2 s3 c2 st asked (boxes.foldl User.step (ops.foldl User.step User.empty)) := by
  have split := fun h => detects_split cfg sort c1 ops OsqpSession.empty h
  obtain ⟨s1, h1, h2⟩ := ssim_run cfg sort hsort _ _ ssim_empty ops ok (fun hu => (split (hd hu)).1)
  obtain ⟨s1', st1, asked1, g1, g2, -, b, g3, g4, g5⟩ := optimize_spec cfg sort hsort s1 _ h2 c1 ok1
    (fun hu => (split (hd hu)).2 s1 h1)
  obtain ⟨s2, k1, k2, k3, k4, k5, k6⟩ := bounds_run cfg sort boxes hboxes s1' _ g2 okb
  obtain ⟨s3, st, asked, j1, -, j3, -⟩ := optimize_spec cfg sort hsort s2 _ k2 c2 ok2 (by
    intro _ m new hm hnew
    obtain ⟨p1, p2⟩ := osqp_bounds sort s1.model s2.model _ _ h2.vars h2.cnts h2.obj k2.vars k2.cnts k2.obj ok1.1 k4 k5 k6
      _ _ b new g3 hm g4 hnew
    intro p hp _ _
    rw [k3, g5] at hp
    injection hp with hp
    subst hp
    rw [← p1, ← p2]
    exact ⟨⟨rfl, rfl, rfl, rfl⟩, ⟨rfl, rfl, rfl, rfl⟩⟩)
  refine ⟨s1, s2, s3, st, asked, h1, ?_, j1, j3⟩
  rw [List.foldlM_cons]
  have : s1.step cfg sort (.optimize c1) = some s1' := by simp only [OsqpSession.step, g1, Option.map_some]
  rw [this]; exact k1

/-! ### Examples and the violation -/

namespace OsqpDemo

/-- Sorting by insertion. -/
def srt : List (Nat × ℚ) → List (Nat × ℚ) := fun l => l.insertionSort fun a b => a.1 ≤ b.1

/-- OSQP solves the problem. -/
def yes (x : List ℚ) : OsqpCalls ℚ := ⟨true, true, .ok, true, .solved, x⟩

/-- Minimise `x0^2 + x1^2 + x2^2` subject to `x1 = 1`, then replace the constraint by `x2 = 1`. -/
def ops : List (OsqpOp ℚ) :=
  [.addVar .negInf .posInf, .addVar .negInf .posInf, .addVar .negInf .posInf, .addEqCnt ⟨-1, [(1, 1)]⟩,
   .setObjectiveQuad ⟨⟨0, []⟩, [(1, 0, 0), (1, 1, 1), (1, 2, 2)]⟩, .optimize (yes [0, 1, 0]), .removeCnts [0],
   .addEqCnt ⟨-1, [(1, 2)]⟩]

/-- What is observed of the second `optimize`: the status, the stored columns of `A` and the limits of its first row. -/
def seen (r : OsqpSession ℚ × CvxStatus × Option (OsqpQp ℚ)) : Bool :=
  match r.2.2 with
  | none => false
  | some b => decide (r.2.1 = .solved ∧ b.A.m = 4 ∧ b.A.n = 3 ∧ b.A.csc.decode = [[(1, 1)], [(0, 1), (2, 1)], [(3, 1)]] ∧
      b.l[0]? = some (.fin 1) ∧ b.u[0]? = some (.fin 1))

theorem live_end : (ops.foldl User.step User.empty).vars.live =
      [(0, (.negInf, .posInf)), (1, (.negInf, .posInf)), (2, (.negInf, .posInf))] ∧
    (ops.foldl User.step User.empty).cnts.live = [(1, (⟨-1, [(1, 2)]⟩, true))] ∧
    (ops.foldl User.step User.empty).obj = ⟨⟨0, []⟩, [(1, 0, 0), (1, 1, 1), (1, 2, 2)]⟩ := ⟨rfl, rfl, rfl⟩

theorem ready (u : User ℚ) (i : Nat) (c : Nat) (hi : i < 3)
    (h1 : u.vars.live = [(0, (.negInf, .posInf)), (1, (.negInf, .posInf)), (2, (.negInf, .posInf))])
    (h2 : u.cnts.live = [(c, (⟨-1, [(1, i)]⟩, true))])
    (h3 : u.obj = ⟨⟨0, []⟩, [(1, 0, 0), (1, 1, 1), (1, 2, 2)]⟩) : u.Ready osqpInfty := by
  refine ⟨?_, ?_, ?_, ?_⟩
  · intro q hq t ht
    rw [h2] at hq
    simp only [List.mem_cons, List.not_mem_nil, or_false] at hq
    subst hq
    simp only [List.mem_cons, List.not_mem_nil, or_false] at ht
    subst ht
    refine ⟨(.negInf, .posInf), ?_⟩
    rw [h1]
    have : i = 0 ∨ i = 1 ∨ i = 2 := by omega
    rcases this with rfl | rfl | rfl <;> simp
  · rw [h3]; simp
  · rw [h3, h1]
    intro t ht
    simp only [List.mem_cons, List.not_mem_nil, or_false] at ht
    rcases ht with rfl | rfl | rfl <;> simp
  · intro q hq
    rw [h2] at hq
    simp only [List.mem_cons, List.not_mem_nil, or_false] at hq
    subst hq
    norm_num [osqpInfty]

/-- The history obeys the client contract. -/
theorem okAll : (User.empty : User ℚ).OkAll ops := by
  refine ⟨trivial, trivial, trivial, trivial, trivial, ⟨ready _ 1 0 (by omega) rfl rfl rfl, ?_⟩, ?_, trivial, trivial⟩
  · intro _; show 3 ≤ 3; exact le_refl 3
  · intro id hid
    simp only [List.mem_cons, List.not_mem_nil, or_false] at hid
    subst hid; decide

theorem okLast : (ops.foldl User.step User.empty).Ok (.optimize (yes [0, 1, 0])) := by
  obtain ⟨h1, h2, h3⟩ := live_end
  exact ⟨ready _ 2 1 (by omega) h1 h2 h3, fun _ => by rw [h1]; exact le_refl 3⟩

theorem run_seen : ((ops.foldlM (OsqpSession.step ⟨true, true⟩ srt) OsqpSession.empty).bind fun s =>
    s.optimize ⟨true, true⟩ srt (yes [0, 1, 0])).any seen = true := by decide +kernel

end OsqpDemo

/-- The hypotheses of `C121_every_history` are met by this history. -/
example : (User.empty : User ℚ).OkAll OsqpDemo.ops ∧
    (OsqpDemo.ops.foldl User.step User.empty).Ok (.optimize (OsqpDemo.yes [0, 1, 0])) ∧ IsSort OsqpDemo.srt :=
  ⟨OsqpDemo.okAll, OsqpDemo.okLast, insertionSort_isSort⟩

/-- The hypothesis of `C121_update_workspace_partial` is met, and not only by runs without a previous solution: solving the
same model twice updates the workspace in place. -/
example : ∀ (b : OsqpQp ℚ), Detects (some (b.P, b.A)) b := by
  rintro b p ⟨⟩ - -
  exact ⟨⟨rfl, rfl, rfl, rfl⟩, ⟨rfl, rfl, rfl, rfl⟩⟩

/-- C121 is violated with `update_workspace`: after the constraint `x1 = 1` was replaced by `x2 = 1`, `optimize` reports
"solved" for a problem that is not the model's; in particular a point that satisfies the model (`x2 = 1`, everything else 0)
is infeasible for the solver, which still demands `x1 = 1`. -/
theorem C121_violated :
    ∃ (ops : List (OsqpOp ℚ)) (c : OsqpCalls ℚ) (sort : List (Nat × ℚ) → List (Nat × ℚ)), IsSort sort ∧
      (User.empty : User ℚ).OkAll ops ∧ (ops.foldl User.step User.empty).Ok (.optimize c) ∧
      ∃ s s' b, ops.foldlM (OsqpSession.step ⟨true, true⟩ sort) OsqpSession.empty = some s ∧
        s.optimize ⟨true, true⟩ sort c = some (s', .solved, some b) ∧ ¬ b.Means (ops.foldl User.step User.empty) ∧
        (∀ x, b.Holds x → x 1 = 1) ∧
        ∃ y : Nat → ℚ, (∀ q ∈ (ops.foldl User.step User.empty).cnts.live, Satisfies q.2 y) ∧ y 1 = 0 := by
  refine ⟨OsqpDemo.ops, OsqpDemo.yes [0, 1, 0], OsqpDemo.srt, insertionSort_isSort, OsqpDemo.okAll, OsqpDemo.okLast, ?_⟩
  have h := OsqpDemo.run_seen
  cases hr : (OsqpDemo.ops.foldlM (OsqpSession.step ⟨true, true⟩ OsqpDemo.srt) OsqpSession.empty).bind (fun s =>
    s.optimize ⟨true, true⟩ OsqpDemo.srt (OsqpDemo.yes [0, 1, 0])) with
  | none => rw [hr] at h; cases h
  | some r =>
    rw [hr] at h
    obtain ⟨s, h1, h2⟩ := Option.bind_eq_some_iff.1 hr
    obtain ⟨s', st, asked⟩ := r
    simp only [Option.any_some, OsqpDemo.seen] at h
    cases asked with
    | none => cases h
    | some b =>
      obtain ⟨e1, e2, e3, e4, e5, e6⟩ := of_decide_eq_true h
      subst e1
      have hrow : ∀ x, b.Holds x → x 1 = 1 := by
        intro x hx
        obtain ⟨l, u, k1, k2, k3, k4⟩ := hx 0 (by rw [e2]; omega)
        have hsum : ∑ c ∈ range b.A.n, b.A.csc.entry 0 c * x c = x 1 := by
          rw [e3]
          simp [sum_range_succ, CSC.entry, e4, colEntry]
        rw [hsum] at k3 k4
        rw [e5] at k1; injection k1 with k1
        rw [e6] at k2; injection k2 with k2
        subst k1 k2
        have big : ¬ (1 : ℚ) ≤ -osqpInfty := by norm_num [osqpInfty]
        have big2 : ¬ (osqpInfty : ℚ) ≤ 1 := by norm_num [osqpInfty]
        exact le_antisymm (k4.resolve_left big2) (k3.resolve_left big)
      obtain ⟨v1, v2, v3⟩ := OsqpDemo.live_end
      have hy : ∀ q ∈ (OsqpDemo.ops.foldl User.step User.empty).cnts.live, Satisfies q.2 (fun k => if k = 2 then (1 : ℚ) else 0) := by
        rw [v2]
        intro q hq
        simp only [List.mem_cons, List.not_mem_nil, or_false] at hq
        subst hq
        simp [Satisfies, affDen]
      refine ⟨s, s', b, h1, h2, ?_, hrow, _, hy, by simp⟩
      intro hm
      have := ((hm.2.2 (fun k => if k = 2 then (1 : ℚ) else 0) (fun k => if k = 2 then (1 : ℚ) else 0) ?_).2.2 ⟨hy, ?_⟩)
      · have := hrow _ this
        simp at this
      · rw [v1]
        intro k q hk
        rcases k with _ | _ | _ | k <;> simp at hk <;> subst hk <;> simp
      · rw [v1]
        intro q hq
        simp only [List.mem_cons, List.not_mem_nil, or_false] at hq
        rcases hq with rfl | rfl | rfl <;> simp [LowOk, HighOk]

/-! ### C122: qpOASES -/

/-- Specification: qpOASES' input is the user's problem. -/
def QInput.Means (infty : K) (b : QInput K) (s : User K) : Prop :=
  ∀ x y : Nat → K, (∀ (k : Nat) (q : Nat × Ext K × Ext K), s.vars.live[k]? = some q → x k = y q.1) →
    b.cost s.vars.live.length x + s.obj.aff.constant = quadDen s.obj y ∧
    (b.Holds infty s.vars.live.length s.cnts.live.length x ↔ (∀ q ∈ s.cnts.live, Satisfies q.2 y) ∧
      ∀ q ∈ s.vars.live, LowIn infty q.2.1 (y q.1) ∧ HighIn infty q.2.2 (y q.1))

/-- Specification: there is an initialised problem of the right sizes. -/
def QpoSession.Hot (s : QpoSession K) (u : User K) : Prop :=
  ∃ p, s.prob = some p ∧ p.init = true ∧ p.nv = u.vars.live.length ∧ p.nc = u.cnts.live.length

/-- Specification: the caller sees this run. -/
structure Reports (s s' : QpoSession K) (st : CvxStatus) (r : QpoRet × Nat × Bool × List K) (n : Nat) : Prop where
  solved : st = .solved ↔ r.1 = .success
  infeasible : st = .infeasible ↔ r.1 = .initInfeasible
  failed : st = .failed ↔ r.1 = .other
  solution : r.1 = .success → s'.solution = r.2.2.2.take n
  kept : r.1 ≠ .success → s'.solution = s.solution

/-- C122: whatever happened before, `optimize` gives qpOASES exactly the model's current problem; the run that counts is the
hot start if the problem is initialised, has the right sizes and the hot start succeeds, and otherwise a cold start of a new
problem; the status and the solution are those of that run.  The cold start has the full budget of 255 working set
recalculations if no hot start was tried (after a failed hot start see `C122_violated_budget`). -/
theorem C122_optimize_partial (sort : List (Nat × K) → List (Nat × K)) (hsort : IsSort sort) (infty : K) (s : QpoSession K) (u : User K)
    (hv : Sim s.model.vars u.vars) (hc : Sim s.model.cnts u.cnts) (ho : s.model.obj = u.obj) (ready : u.Ready infty)
    (c : QpoCalls K) (hlen : ∀ inp k, ((c.hotstart inp k).1 = .success → u.vars.live.length ≤ (c.hotstart inp k).2.2.2.length) ∧
      ((c.init inp k).1 = .success → u.vars.live.length ≤ (c.init inp k).2.2.2.length)) :
    ∃ s' st inp, s.optimize sort infty c = some (s', st) ∧ inp.Means infty u ∧
      Sim s'.model.vars u.vars ∧ Sim s'.model.cnts u.cnts ∧ s'.model.obj = u.obj ∧
      (∃ p, s'.prob = some p ∧ p.nv = u.vars.live.length ∧ p.nc = u.cnts.live.length ∧ p.data = some inp) ∧
      ((s.Hot u ∧ (c.hotstart inp 255).1 = .success ∧ Reports s s' st (c.hotstart inp 255) u.vars.live.length) ∨
        (¬ s.Hot u ∧ Reports s s' st (c.init inp 255) u.vars.live.length) ∨
        (s.Hot u ∧ (c.hotstart inp 255).1 ≠ .success ∧
          Reports s s' st (c.init inp (c.hotstart inp 255).2.1) u.vars.live.length)) := by
  obtain ⟨m', b, b1, b2, -, -, -, -, -, -, -, -, -, b3⟩ := C86_input sort hsort infty s.model hv.inv hc.inv
    (by rw [hc.live, hv.live]; exact ready.cnts) (by rw [ho, hv.live]; exact ready.aff)
    (by rw [ho, hv.live]; exact ready.quad) (by rw [hc.live]; exact ready.small)
  obtain ⟨m, k1, k2, k3, k4⟩ := update_sim hv hc
  rw [b1] at k1; injection k1 with k1; subst k1
  obtain ⟨v, v1, -, -, -, v5⟩ := Store.update_spec hv.inv
  obtain ⟨cc, c1, -, -, -, c5⟩ := Store.update_spec hc.inv
  have hm : m'.vars.items.length = u.vars.live.length ∧ m'.cnts.items.length = u.cnts.live.length := by
    simp only [OModel.update, v1, c1] at b1
    injection b1 with b1
    subst b1
    simp [v5, c5, hv.live, hc.live]
  have hmeans : b.Means infty u := by
    intro x y hxy
    have := b3 x y (by rw [hv.live]; exact hxy)
    rw [hv.live, hc.live, ho] at this
    exact this
  -- the result of a run
  have fin : ∀ (p : QpoProblem K) (r : QpoRet × Nat × Bool × List K),
      (r.1 = .success → u.vars.live.length ≤ r.2.2.2.length) →
      qpoRun (updateSolver s.prob m'.vars.items.length m'.cnts.items.length) b c = (p, r.1, r.2.2.2) →
      ∃ s' st, s.optimize sort infty c = some (s', st) ∧ s'.model = m' ∧ s'.prob = some p ∧
        Reports s s' st r u.vars.live.length := by
    intro p r hr hrun
    obtain ⟨ret, k, i, xs⟩ := r
    simp only at hrun hr
    cases ret with
    | success =>
      refine ⟨⟨m', some p, xs.take m'.vars.items.length⟩, .solved, ?_, rfl, rfl, ⟨by simp, by simp, by simp, ?_, by simp⟩⟩
      · simp only [QpoSession.optimize, b1, b2, hrun]
        rw [if_pos (by rw [hm.1]; exact hr rfl)]
      · intro _; simp only [hm.1]
    | initInfeasible =>
      refine ⟨⟨m', some p, s.solution⟩, .infeasible, ?_, rfl, rfl, ⟨by simp, by simp, by simp, by simp, by simp⟩⟩
      simp only [QpoSession.optimize, b1, b2, hrun]
    | other =>
      refine ⟨⟨m', some p, s.solution⟩, .failed, ?_, rfl, rfl, ⟨by simp, by simp, by simp, by simp, by simp⟩⟩
      simp only [QpoSession.optimize, b1, b2, hrun]
  by_cases hot : s.Hot u
  · obtain ⟨p, p1, p2, p3, p4⟩ := hot
    have hus : updateSolver s.prob m'.vars.items.length m'.cnts.items.length = p := by
      rw [p1, updateSolver, hm.1, hm.2, p3, p4]; simp
    by_cases hs : (c.hotstart b 255).1 = .success
    · obtain ⟨s', st, f1, f2, f3, f4⟩ := fin { p with init := (c.hotstart b 255).2.2.1, data := some b } (c.hotstart b 255)
        (hlen b 255).1 (by rw [hus]; simp [qpoRun, p2, hs])
      exact ⟨s', st, b, f1, hmeans, by rw [f2]; exact k2, by rw [f2]; exact k3, by rw [f2, k4, ho],
        ⟨_, f3, p3, p4, rfl⟩, Or.inl ⟨⟨p, p1, p2, p3, p4⟩, hs, f4⟩⟩
    · obtain ⟨s', st, f1, f2, f3, f4⟩ := fin ⟨p.nv, p.nc, (c.init b (c.hotstart b 255).2.1).2.2.1, some b⟩
        (c.init b (c.hotstart b 255).2.1) (hlen b _).2 (by rw [hus]; simp [qpoRun, p2, hs])
      exact ⟨s', st, b, f1, hmeans, by rw [f2]; exact k2, by rw [f2]; exact k3, by rw [f2, k4, ho],
        ⟨_, f3, p3, p4, rfl⟩, Or.inr (Or.inr ⟨⟨p, p1, p2, p3, p4⟩, hs, f4⟩)⟩
  · obtain ⟨p, q1, q2, q3, q4⟩ : ∃ p, updateSolver s.prob m'.vars.items.length m'.cnts.items.length = p ∧ p.init = false ∧
        p.nv = u.vars.live.length ∧ p.nc = u.cnts.live.length := by
      rw [hm.1, hm.2]
      cases hp : s.prob with
      | none => exact ⟨_, rfl, rfl, rfl, rfl⟩
      | some p =>
        by_cases hsz : u.vars.live.length ≠ p.nv ∨ u.cnts.live.length ≠ p.nc
        · exact ⟨⟨u.vars.live.length, u.cnts.live.length, false, none⟩, by rw [updateSolver, if_pos hsz], rfl, rfl, rfl⟩
        · refine ⟨p, by rw [updateSolver, if_neg hsz], ?_, ?_, ?_⟩
          · cases hi : p.init with
            | false => rfl
            | true => exact absurd ⟨p, hp, hi, by push Not at hsz; exact hsz.1.symm, by push Not at hsz; exact hsz.2.symm⟩ hot
          · push Not at hsz; exact hsz.1.symm
          · push Not at hsz; exact hsz.2.symm
    obtain ⟨s', st, f1, f2, f3, f4⟩ := fin ⟨p.nv, p.nc, (c.init b 255).2.2.1, some b⟩ (c.init b 255) (hlen b 255).2
      (by rw [q1]; simp [qpoRun, q2])
    exact ⟨s', st, b, f1, hmeans, by rw [f2]; exact k2, by rw [f2]; exact k3, by rw [f2, k4, ho],
      ⟨_, f3, q3, q4, rfl⟩, Or.inr (Or.inl ⟨hot, f4⟩)⟩

namespace QpoDemo

/-- One variable in `[0, 3]` with `x^2 - 2x` and `x <= 2`. -/
def model : OModel ℚ :=
  ⟨(Store.empty.add (.fin 0, .fin 3)).1, (Store.empty.add (⟨-2, [(1, 0)]⟩, false)).1, ⟨⟨0, [(-2, 0)]⟩, [(1, 0, 0)]⟩⟩

def user : User ℚ := ⟨⟨1, [(0, (.fin 0, .fin 3))]⟩, ⟨1, [(0, (⟨-2, [(1, 0)]⟩, false))]⟩, ⟨⟨0, [(-2, 0)]⟩, [(1, 0, 0)]⟩⟩

theorem simV : Sim model.vars user.vars := ⟨Store.add_inv Store.inv_empty _, rfl, rfl⟩
theorem simC : Sim model.cnts user.cnts := ⟨Store.add_inv Store.inv_empty _, rfl, rfl⟩

theorem ready : user.Ready (10 ^ 20) := by
  refine ⟨?_, ?_, ?_, ?_⟩
  · intro q hq t ht
    simp only [user, List.mem_cons, List.not_mem_nil, or_false] at hq
    subst hq
    simp only [List.mem_cons, List.not_mem_nil, or_false] at ht
    subst ht
    exact ⟨_, List.mem_cons_self⟩
  · intro t ht
    simp only [user, List.mem_cons, List.not_mem_nil, or_false] at ht
    subst ht
    exact ⟨_, List.mem_cons_self⟩
  · intro t ht
    simp only [user, List.mem_cons, List.not_mem_nil, or_false] at ht
    subst ht
    exact ⟨⟨_, List.mem_cons_self⟩, ⟨_, List.mem_cons_self⟩⟩
  · intro q hq
    simp only [user, List.mem_cons, List.not_mem_nil, or_false] at hq
    subst hq
    norm_num

/-- A solver that needs three recalculations from a cold start and whose hot start gives up at once. -/
def calls : QpoCalls ℚ where
  hotstart _ _ := (.other, 0, true, [])
  init _ k := if 3 ≤ k then (.success, 3, true, [1]) else (.other, k, false, [])

end QpoDemo

/-- The hypotheses of `C122_optimize_partial` are met, with a problem that is initialised. -/
example : Sim QpoDemo.model.vars QpoDemo.user.vars ∧ Sim QpoDemo.model.cnts QpoDemo.user.cnts ∧
    QpoDemo.model.obj = QpoDemo.user.obj ∧ QpoDemo.user.Ready (10 ^ 20) ∧
    (⟨QpoDemo.model, some ⟨1, 1, true, none⟩, []⟩ : QpoSession ℚ).Hot QpoDemo.user ∧
    ∀ inp k, ((QpoDemo.calls.hotstart inp k).1 = .success → QpoDemo.user.vars.live.length ≤ (QpoDemo.calls.hotstart inp k).2.2.2.length) ∧
      ((QpoDemo.calls.init inp k).1 = .success → QpoDemo.user.vars.live.length ≤ (QpoDemo.calls.init inp k).2.2.2.length) := by
  refine ⟨QpoDemo.simV, QpoDemo.simC, rfl, QpoDemo.ready, ⟨_, rfl, rfl, rfl, rfl⟩, ?_⟩
  intro inp k
  refine ⟨by simp [QpoDemo.calls], ?_⟩
  simp only [QpoDemo.calls, QpoDemo.user]
  split_ifs <;> simp

/-- C122 is violated: the cold start after a failed hot start does not get the budget of 255 recalculations but the number
the hot start used up, so the same model with the same solver is solved by a fresh `qpOASESModel` and fails in one that has
an initialised problem. -/
theorem C122_violated_budget :
    ∃ (sort : List (Nat × ℚ) → List (Nat × ℚ)) (m : OModel ℚ) (c : QpoCalls ℚ) (p : QpoProblem ℚ) (r r' : QpoSession ℚ), IsSort sort ∧
      QpoSession.optimize sort (10 ^ 20) ⟨m, none, []⟩ c = some (r, .solved) ∧ r.solution = [1] ∧
      QpoSession.optimize sort (10 ^ 20) ⟨m, some p, []⟩ c = some (r', .failed) := by
  refine ⟨OsqpDemo.srt, QpoDemo.model, QpoDemo.calls, ⟨1, 1, true, none⟩, ?_⟩
  have hlen : ∀ inp k, ((QpoDemo.calls.hotstart inp k).1 = .success → QpoDemo.user.vars.live.length ≤ (QpoDemo.calls.hotstart inp k).2.2.2.length) ∧
      ((QpoDemo.calls.init inp k).1 = .success → QpoDemo.user.vars.live.length ≤ (QpoDemo.calls.init inp k).2.2.2.length) := by
    intro inp k
    refine ⟨by simp [QpoDemo.calls], ?_⟩
    simp only [QpoDemo.calls, QpoDemo.user]
    split_ifs <;> simp
  obtain ⟨r, st, inp, h1, -, -, -, -, -, h2⟩ := C122_optimize_partial OsqpDemo.srt insertionSort_isSort (10 ^ 20)
    ⟨QpoDemo.model, none, []⟩ QpoDemo.user QpoDemo.simV QpoDemo.simC rfl QpoDemo.ready QpoDemo.calls hlen
  obtain ⟨r', st', inp', g1, -, -, -, -, -, g2⟩ := C122_optimize_partial OsqpDemo.srt insertionSort_isSort (10 ^ 20)
    ⟨QpoDemo.model, some ⟨1, 1, true, none⟩, []⟩ QpoDemo.user QpoDemo.simV QpoDemo.simC rfl QpoDemo.ready QpoDemo.calls hlen
  have hcold : ¬ (⟨QpoDemo.model, none, []⟩ : QpoSession ℚ).Hot QpoDemo.user := by rintro ⟨p, hp, -⟩; cases hp
  have hhot : (⟨QpoDemo.model, some ⟨1, 1, true, none⟩, []⟩ : QpoSession ℚ).Hot QpoDemo.user := ⟨_, rfl, rfl, rfl, rfl⟩
  have e1 : st = .solved ∧ r.solution = [1] := by
    rcases h2 with ⟨h, -⟩ | ⟨-, h⟩ | ⟨h, -⟩
    · exact absurd h hcold
    · exact ⟨h.solved.2 rfl, h.solution rfl⟩
    · exact absurd h hcold
  have e2 : st' = .failed := by
    rcases g2 with ⟨-, h, -⟩ | ⟨h, -⟩ | ⟨-, -, h⟩
    · cases h
    · exact absurd hhot h
    · exact h.failed.2 rfl
  exact ⟨r, r', insertionSort_isSort, by rw [h1, e1.1], e1.2, by rw [g1, e2]⟩

end Verif.Sco
