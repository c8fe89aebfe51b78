import Verif.Model.SqpSession
import Verif.Props.SqpRunRange
import Verif.Props.SqpTwin

/-!
C156, C157: one `TrustRegionSQPSolver` used for several problems, several times.

The specification of a history (`Follows`) speaks about the calls, the values the variables of each problem have, and the functions of the
problems (`Desc`); it does not know the QP solver.
-/

set_option linter.unusedSectionVars false
set_option linter.unusedVariables false

namespace Verif.SqpRun

open Verif.Bounds Verif.SqpExprs
open Verif.QpProblem
open Verif.Sqp (Params)
open Verif.OsqpEigen (Solver Consistent Fine)

universe u
variable {K : Type u} [Field K] [LinearOrder K] [IsStrictOrderedRing K]

/-! ### Specification -/

/-- Specification: a history in which each call is about a problem that exists, `setVariables` gets enough values, the parameters are usable, OSQP's
answers have the right length, and `solve` is called for a problem that was not solved before (not in `solved`) or that was solved last (`last`). -/
def Legit (Ds : List (Desc K)) : Option Nat → List Nat → List (Op K) → Prop
  | _, _, [] => True
  | last, solved, .set k x :: ops => (∃ D, Ds[k]? = some D ∧ D.n ≤ x.length) ∧ Legit Ds last solved ops
  | last, solved, .solve k p o :: ops =>
    k < Ds.length ∧ Sane p ∧ o.Sized ∧ (k ∉ solved ∨ last = some k) ∧ Legit Ds (some k) (k :: solved) ops

/-- Specification: a report tells the truth about the variables the run leaves in the problem. -/
structure Report.Right (D : Desc K) (r : Report K) : Prop where
  costs : r.final.res.bestCosts = D.costs (vars r.final.prob)
  viols : r.final.res.bestViols = D.viols (vars r.final.prob)
  merit : r.final.res.bestExactMerit = (D.costs (vars r.final.prob)).sum + Sqp.dot (D.viols (vars r.final.prob)) r.final.res.coeffs
  best : r.final.res.bestVars.take D.n = vars r.final.prob
  converged : 0 < r.p.maxMeritCoeffIncreases → (r.final.status = .converged ↔ ∀ c ∈ D.merit, violationOf c (vars r.final.prob) < r.p.cntTolerance)
  bounds : D.InRange → ∀ ε, r.o.Accurate ε → vars r.final.prob = vars r.start ∨ ∀ (i : Nat) lb ub x, D.varBounds[i]? = some (lb, ub) →
    (vars r.final.prob)[i]? = some x → (∀ l, lb = some l → l - ε ≤ x) ∧ ∀ u, ub = some u → x ≤ u + ε

/-- Specification: `rs` are the reports of the history `ops`, which takes the variables of the problems from `v` to `v'`: `setVariables` puts
values into its problem, `solve` starts from the values its problem has, makes one right report and leaves the values it reports; the other
problems keep theirs. -/
inductive Follows (Ds : List (Desc K)) : List (Op K) → List (Report K) → (Nat → List K) → (Nat → List K) → Prop
  | nil (v) : Follows Ds [] [] v v
  | set (k x ops rs v v' D) : Ds[k]? = some D → Follows Ds ops rs (Function.update v k (x.take D.n)) v' → Follows Ds (.set k x :: ops) rs v v'
  | solve (r ops rs v v' D) : Ds[r.k]? = some D → vars r.start = v r.k → r.Right D →
      Follows Ds ops rs (Function.update v r.k (vars r.final.prob)) v' → Follows Ds (.solve r.k r.p r.o :: ops) (r :: rs) v v'

/-- The variables of the problems. -/
def Session.values (s : Session K) (k : Nat) : List K := ((s.problems[k]?).map vars).getD []

/-- Specification: a new optimizer and problems that have been set up. -/
structure Session.New (hash : (Nat → K) → Nat) (Ds : List (Desc K)) (s : Session K) : Prop where
  problems : List.Forall₂ (fun D t => Usable hash D t ∧ t.nQpVars = 0) Ds s.problems
  qps : ∃ warm, s.qps = { warmStarting := warm }
  reports : s.reports = []

/-! ### The invariant -/

/-- What holds between two calls. -/
structure Session.Inv (hash : (Nat → K) → Nat) (Ds : List (Desc K)) (last : Option Nat) (solved : List Nat) (s : Session K) : Prop where
  len : s.problems.length = Ds.length
  usable : ∀ (k : Nat) (t : State K) (D : Desc K), s.problems[k]? = some t → Ds[k]? = some D → Usable hash D t
  fresh : ∀ (k : Nat) (t : State K), s.problems[k]? = some t → k ∉ solved → t.nQpVars = 0
  cons : Consistent s.qps
  pos : s.qps.status ≠ .uninitialized → 0 < s.qps.nVars
  last : ∀ (k : Nat) (t : State K), last = some k → s.problems[k]? = some t → Reusable s.qps t.nQpVars t.nQpCnts

variable {sqrt : K → K} {hash : (Nat → K) → Nat} {junk : Nat → Ext K} {Ds : List (Desc K)}

theorem Session.New.inv {s : Session K} (h : s.New hash Ds) : s.Inv hash Ds none [] := by
  obtain ⟨warm, hq⟩ := h.qps
  refine ⟨h.problems.length_eq.symm, fun k t D hk hD => ?_, fun k t hk _ => ?_, ?_, ?_, (fun k t hl => by cases hl)⟩
  · have h1 := List.forall₂_iff_get.1 h.problems
    obtain ⟨l1, e1⟩ := List.getElem?_eq_some_iff.1 hk
    obtain ⟨l2, e2⟩ := List.getElem?_eq_some_iff.1 hD
    have := (h1.2 k l2 l1).1
    simpa [e1, e2] using this
  · have h1 := List.forall₂_iff_get.1 h.problems
    obtain ⟨l1, e1⟩ := List.getElem?_eq_some_iff.1 hk
    have := (h1.2 k (by rw [h1.1]; exact l1) l1).2
    simpa [e1] using this
  · rw [hq]; exact (reusable_new warm 0 0).1
  · rw [hq]; intro hc; exact absurd rfl hc

/-- The setting of the next run. -/
theorem Session.Inv.setting {last : Option Nat} {solved : List Nat} {s : Session K} (h : s.Inv hash Ds last solved)
    (hsqrt : ∀ a : K, 0 ≤ a → sqrt a * sqrt a = a) (hR : ∀ D ∈ Ds, D.Regular hash) {k : Nat} {t : State K} {D : Desc K} (hk : s.problems[k]? = some t)
    (hD : Ds[k]? = some D) {p : Params K} {o : World K} (hp : Sane p) (ho : o.Sized) (hl : k ∉ solved ∨ last = some k) :
    Setting sqrt hash D p o t s.qps := by
  refine ⟨hsqrt, hR D (List.mem_of_getElem? hD), h.usable k t D hk hD, hp, ho, ?_⟩
  rcases hl with hl | hl
  · refine ⟨h.cons, fun hu => ⟨h.pos hu, fun he => ?_⟩⟩
    have h1 := h.fresh k t hk hl
    have h2 := h.pos hu
    omega
  · exact h.last k t hl hk

theorem getElem?_set_cases {α : Type*} {l : List α} {k j : Nat} {a b : α} (h : (l.set k a)[j]? = some b) : (j = k ∧ b = a) ∨ (j ≠ k ∧ l[j]? = some b) := by
  rw [List.getElem?_set] at h
  by_cases e : k = j
  · rw [if_pos e] at h
    split_ifs at h
    · exact .inl ⟨e.symm, (Option.some.inj h).symm⟩
  · rw [if_neg e] at h; exact .inr ⟨fun h => e h.symm, h⟩

/-- `setVariables` keeps the invariant. -/
theorem step_set (hsqrt : ∀ a : K, 0 ≤ a → sqrt a * sqrt a = a) (hR : ∀ D ∈ Ds, D.Regular hash) {last : Option Nat} {solved : List Nat} {s : Session K}
    (h : s.Inv hash Ds last solved) (fuel : Nat) {k : Nat} {x : List K} {D : Desc K} (hD : Ds[k]? = some D) (hx : D.n ≤ x.length) :
    ∃ s', s.step sqrt hash junk fuel (.set k x) = .ok s' ∧ s'.Inv hash Ds last solved ∧ s'.reports = s.reports ∧
      s'.values = Function.update s.values k (x.take D.n) := by
  obtain ⟨t, ht⟩ : ∃ t, s.problems[k]? = some t := by
    have : k < s.problems.length := by rw [h.len]; exact (List.getElem?_eq_some_iff.1 hD).1
    exact ⟨_, List.getElem?_eq_getElem this⟩
  have U := h.usable k t D ht hD
  have L := trajOpt_lawful hsqrt junk (hR D (List.mem_of_getElem? hD))
  obtain ⟨t', b1, b2, b3, b4, b5, b6, -⟩ := L.setVars t x U hx
  have m1 : t'.nQpVars = t.nQpVars := b6.1
  have m2 : t'.nQpCnts = t.nQpCnts := b6.2.1
  refine ⟨{ s with problems := s.problems.set k t' }, by simp only [Session.step, ht, b1], ⟨?_, ?_, ?_, h.cons, h.pos, ?_⟩, rfl, ?_⟩
  · simp [h.len]
  · intro j t1 D1 hj hD1
    rcases getElem?_set_cases hj with ⟨rfl, rfl⟩ | ⟨-, hj⟩
    · rw [hD] at hD1; cases hD1; exact b2
    · exact h.usable j t1 D1 hj hD1
  · intro j t1 hj hs
    rcases getElem?_set_cases hj with ⟨rfl, rfl⟩ | ⟨-, hj⟩
    · rw [m1]; exact h.fresh j t ht hs
    · exact h.fresh j t1 hj hs
  · intro j t1 hl hj
    rcases getElem?_set_cases hj with ⟨rfl, rfl⟩ | ⟨-, hj⟩
    · rw [m1, m2]; exact h.last j t hl ht
    · exact h.last j t1 hl hj
  · funext j
    have hlt : k < s.problems.length := (List.getElem?_eq_some_iff.1 ht).1
    by_cases e : j = k
    · subst e
      simp only [Session.values, Function.update_self, List.getElem?_set, if_true, hlt]
      exact b3
    · rw [Function.update_of_ne e]
      simp only [Session.values, List.getElem?_set, if_neg (fun h => e (Eq.symm h))]

/-- `solve` keeps the invariant and makes a right report. -/
theorem step_solve (hsqrt : ∀ a : K, 0 ≤ a → sqrt a * sqrt a = a) (hR : ∀ D ∈ Ds, D.Regular hash) {last : Option Nat} {solved : List Nat} {s : Session K}
    (h : s.Inv hash Ds last solved) (fuel : Nat) {k : Nat} {D : Desc K} (hD : Ds[k]? = some D) {p : Params K} {o : World K} (hp : Sane p) (ho : o.Sized)
    (hl : k ∉ solved ∨ last = some k) :
    (∃ w, s.step sqrt hash junk fuel (.solve k p o) = .fuel w) ∨
    ∃ r s', s.step sqrt hash junk fuel (.solve k p o) = .ok s' ∧ s'.Inv hash Ds (some k) (k :: solved) ∧ s'.reports = s.reports ++ [r] ∧ r.k = k ∧ r.p = p ∧
      r.o = o ∧ vars r.start = s.values k ∧ r.Right D ∧ s'.values = Function.update s.values k (vars r.final.prob) ∧
      Setting sqrt hash D p o r.start s.qps ∧ run sqrt hash junk p o s.qps fuel r.start = .ok r.final := by
  obtain ⟨t, ht⟩ : ∃ t, s.problems[k]? = some t := by
    have : k < s.problems.length := by rw [h.len]; exact (List.getElem?_eq_some_iff.1 hD).1
    exact ⟨_, List.getElem?_eq_getElem this⟩
  have S := h.setting hsqrt hR ht hD hp ho hl
  have hlt : k < s.problems.length := (List.getElem?_eq_some_iff.1 ht).1
  cases hrun : run sqrt hash junk p o s.qps fuel t with
  | fail => exact absurd hrun (C130_never_fails S junk fuel)
  | fuel w => exact .inl ⟨w, by
      have hrun' : SqpRun.solve (trajOpt sqrt hash junk) p o fuel t s.qps = .fuel w := hrun
      simp only [Session.step, ht, hrun']⟩
  | ok w =>
    right
    have hrun' : SqpRun.solve (trajOpt sqrt hash junk) p o fuel t s.qps = .ok w := hrun
    have G := run_good S (.inl hrun)
    obtain ⟨r1, r2, r3, r4⟩ := C131_results S hrun
    refine ⟨⟨k, p, o, t, w⟩, { problems := s.problems.set k w.prob, qps := w.qps, reports := s.reports ++ [⟨k, p, o, t, w⟩] },
      by simp only [Session.step, ht, hrun'], ⟨?_, ?_, ?_, G.cons, fun hu => (G.dims hu).1, ?_⟩, rfl, rfl, rfl, rfl, ?_, ?_, ?_, S, hrun⟩
    · simp [h.len]
    · intro j t1 D1 hj hD1
      rcases getElem?_set_cases hj with ⟨rfl, rfl⟩ | ⟨-, hj⟩
      · rw [hD] at hD1; cases hD1; exact G.inv
      · exact h.usable j t1 D1 hj hD1
    · intro j t1 hj hs
      rcases getElem?_set_cases hj with ⟨rfl, rfl⟩ | ⟨-, hj⟩
      · exact absurd (List.mem_cons_self) hs
      · exact h.fresh j t1 hj (fun hc => hs (List.mem_cons_of_mem _ hc))
    · intro j t1 hlj hj
      cases hlj
      rcases getElem?_set_cases hj with ⟨-, rfl⟩ | ⟨hne, -⟩
      · exact ⟨G.cons, G.dims⟩
      · exact absurd rfl hne
    · simp only [Session.values, ht]; rfl
    · exact ⟨r2, r3, r4, r1.symm, fun hr => C131_converged_iff S hrun hr,
        fun hin ε ha => C132_within_bounds S hrun (moderate_of_range S hin G) ha⟩
    · funext j
      by_cases e : j = k
      · subst e
        simp only [Session.values, Function.update_self, List.getElem?_set, if_true, hlt]; rfl
      · rw [Function.update_of_ne e]
        simp only [Session.values, List.getElem?_set, if_neg (fun h => e (Eq.symm h))]

/-- The whole history. -/
theorem session_ok (hsqrt : ∀ a : K, 0 ≤ a → sqrt a * sqrt a = a) (hR : ∀ D ∈ Ds, D.Regular hash) (fuel : Nat) (ops : List (Op K)) :
    ∀ (last : Option Nat) (solved : List Nat) (s : Session K), s.Inv hash Ds last solved → Legit Ds last solved ops →
    (∃ w, s.run sqrt hash junk fuel ops = .fuel w) ∨ ∃ s' rs, s.run sqrt hash junk fuel ops = .ok s' ∧ s'.reports = s.reports ++ rs ∧
      Follows Ds ops rs s.values s'.values ∧
      ∀ r ∈ rs, ∃ D q, Ds[r.k]? = some D ∧ Setting sqrt hash D r.p r.o r.start q ∧ run sqrt hash junk r.p r.o q fuel r.start = .ok r.final := by
  induction ops with
  | nil => intro last solved s h _; exact .inr ⟨s, [], rfl, by simp, .nil _, by simp⟩
  | cons op ops ih =>
    intro last solved s h hl
    cases op with
    | set k x =>
      obtain ⟨⟨D, hD, hx⟩, hl⟩ := hl
      obtain ⟨s1, e1, i1, r1, v1⟩ := step_set (junk := junk) hsqrt hR h fuel hD hx
      rcases ih last solved s1 i1 hl with ⟨w, hw⟩ | ⟨s', rs, a1, a2, a3, a4⟩
      · exact .inl ⟨w, by simp only [Session.run, e1]; exact hw⟩
      · refine .inr ⟨s', rs, by simp only [Session.run, e1]; exact a1, by rw [a2, r1], ?_, a4⟩
        rw [v1] at a3
        exact .set k x ops rs _ _ D hD a3
    | solve k p o =>
      obtain ⟨hk, hp, ho, hkl, hl⟩ := hl
      have hD := List.getElem?_eq_getElem hk
      rcases step_solve (junk := junk) hsqrt hR h fuel hD hp ho hkl with ⟨w, hw⟩ | ⟨r, s1, e1, i1, r1, rfl, rfl, rfl, r2, r3, v1, S, hrun⟩
      · exact .inl ⟨w, by simp only [Session.run, hw]⟩
      · rcases ih _ _ s1 i1 hl with ⟨w, hw⟩ | ⟨s', rs, a1, a2, a3, a4⟩
        · exact .inl ⟨w, by simp only [Session.run, e1]; exact hw⟩
        · refine .inr ⟨s', r :: rs, by simp only [Session.run, e1]; exact a1, by rw [a2, r1]; simp, ?_, ?_⟩
          · rw [v1] at a3
            exact .solve r ops rs _ _ _ hD r2 r3 a3
          · intro r' hr'
            rcases List.mem_cons.1 hr' with rfl | hr'
            · exact ⟨_, s.qps, hD, S, hrun⟩
            · exact a4 r' hr'

/-! ### C156 -/

/-- C156: no call of a history fails, whatever OSQP, callbacks and clock do. -/
theorem C156_never_fails (hsqrt : ∀ a : K, 0 ≤ a → sqrt a * sqrt a = a) (hR : ∀ D ∈ Ds, D.Regular hash) (junk : Nat → Ext K) (fuel : Nat) {s : Session K}
    (h : s.New hash Ds) {ops : List (Op K)} (hl : Legit Ds none [] ops) : s.run sqrt hash junk fuel ops ≠ .fail := by
  rcases session_ok (junk := junk) hsqrt hR fuel ops none [] s h.inv hl with ⟨w, hw⟩ | ⟨s', rs, a1, -⟩
  · rw [hw]; simp
  · rw [a1]; simp

theorem session_mono [Archimedean K] (hsqrt : ∀ a : K, 0 ≤ a → sqrt a * sqrt a = a) (hR : ∀ D ∈ Ds, D.Regular hash) (junk : Nat → Ext K) (ops : List (Op K)) :
    ∀ (last : Option Nat) (solved : List Nat) (s : Session K), s.Inv hash Ds last solved → Legit Ds last solved ops →
    (∀ k p o, Op.solve k p o ∈ ops → 0 < p.minTrustBoxSize ∧ p.trustShrinkRatio < 1) →
    ∃ F s', ∀ fuel, F ≤ fuel → s.run sqrt hash junk fuel ops = .ok s' := by
  induction ops with
  | nil => intro last solved s h _ _; exact ⟨0, s, fun _ _ => rfl⟩
  | cons op ops ih =>
    intro last solved s h hl hp1
    cases op with
    | set k x =>
      obtain ⟨⟨D, hD, hx⟩, hl⟩ := hl
      obtain ⟨s1, e1, i1, -⟩ := step_set (junk := junk) hsqrt hR h 0 hD hx
      obtain ⟨F, s', hF⟩ := ih last solved s1 i1 hl (fun k p o hm => hp1 k p o (List.mem_cons_of_mem _ hm))
      refine ⟨F, s', fun fuel hf => ?_⟩
      have e2 : s.step sqrt hash junk fuel (.set k x) = .ok s1 := e1
      simp only [Session.run, e2]; exact hF fuel hf
    | solve k p o =>
      obtain ⟨hk, hp, ho, hkl, hl⟩ := hl
      have hD := List.getElem?_eq_getElem hk
      obtain ⟨t, ht⟩ : ∃ t, s.problems[k]? = some t := ⟨_, List.getElem?_eq_getElem (by rw [h.len]; exact hk)⟩
      have S := h.setting hsqrt hR ht hD hp ho hkl
      obtain ⟨q1, q2⟩ := hp1 k p o List.mem_cons_self
      obtain ⟨F, w, hF⟩ := C130_returns S junk q1 q2
      have he : ∀ fuel, F ≤ fuel → s.step sqrt hash junk fuel (.solve k p o) =
          .ok { problems := s.problems.set k w.prob, qps := w.qps, reports := s.reports ++ [⟨k, p, o, t, w⟩] } := fun fuel hf => by
        have hr : SqpRun.solve (trajOpt sqrt hash junk) p o fuel t s.qps = .ok w := hF fuel hf
        simp only [Session.step, ht, hr]
      rcases step_solve (junk := junk) hsqrt hR h F hD hp ho hkl with ⟨w', hw'⟩ | ⟨r, s1, e1, i1, -⟩
      · rw [he F le_rfl] at hw'; cases hw'
      · rw [he F le_rfl] at e1
        cases e1
        obtain ⟨F2, s', hF2⟩ := ih _ _ _ i1 hl (fun k p o hm => hp1 k p o (List.mem_cons_of_mem _ hm))
        refine ⟨max F F2, s', fun fuel hf => ?_⟩
        simp only [Session.run, he fuel ((le_max_left _ _).trans hf)]
        exact hF2 fuel ((le_max_right _ _).trans hf)

/-- C156: all calls return. -/
theorem C156_returns [Archimedean K] (hsqrt : ∀ a : K, 0 ≤ a → sqrt a * sqrt a = a) (hR : ∀ D ∈ Ds, D.Regular hash) (junk : Nat → Ext K) {s : Session K}
    (h : s.New hash Ds) {ops : List (Op K)} (hl : Legit Ds none [] ops)
    (hp : ∀ k p o, Op.solve k p o ∈ ops → 0 < p.minTrustBoxSize ∧ p.trustShrinkRatio < 1) :
    ∃ F s', ∀ fuel, F ≤ fuel → s.run sqrt hash junk fuel ops = .ok s' :=
  session_mono hsqrt hR junk ops none [] s h.inv hl hp

/-- C156: each `solve` of the history starts from the values its problem has at that moment, reports the truth about the values it leaves there, and
touches no other problem. -/
theorem C156_history (hsqrt : ∀ a : K, 0 ≤ a → sqrt a * sqrt a = a) (hR : ∀ D ∈ Ds, D.Regular hash) (junk : Nat → Ext K) (fuel : Nat) {s s' : Session K}
    (h : s.New hash Ds) {ops : List (Op K)} (hl : Legit Ds none [] ops) (hr : s.run sqrt hash junk fuel ops = .ok s') :
    Follows Ds ops s'.reports s.values s'.values := by
  rcases session_ok (junk := junk) hsqrt hR fuel ops none [] s h.inv hl with ⟨w, hw⟩ | ⟨s1, rs, a1, a2, a3, -⟩
  · rw [hr] at hw; cases hw
  · rw [hr] at a1; cases a1
    rw [h.reports, List.nil_append] at a2
    rw [a2]; exact a3

/-! ### C157 -/

theorem trajOpt_allFine (hsqrt : ∀ a : K, 0 ≤ a → sqrt a * sqrt a = a) {D : Desc K} (R : D.Regular hash) (hin : D.InRange) (junk : Nat → Ext K) :
    AllFine (trajOpt sqrt hash junk) (meaning sqrt hash junk D) :=
  fun s h1 h2 _ _ => built_fine hsqrt R h1 h2 (built_moderate hsqrt hin s h1 h2)

/-- C157: if OSQP can set up every program and its answer depends on the program (and the number of the call) only, two runs on the same problem with two QP
solvers, new or used, end with the same status, results and problem. -/
theorem C157_any_solver {D : Desc K} {p : Params K} {o : World K} {s0 : State K} {q q' : Solver K} (S : Setting sqrt hash D p o s0 q)
    (S' : Setting sqrt hash D p o s0 q') (hin : D.InRange) (hi : ∀ k, o.initOk k = true) (junk : Nat → Ext K) (fuel : Nat) {w : Run K (State K)}
    (h : run sqrt hash junk p o q fuel s0 = .ok w) :
    ∃ w', run sqrt hash junk p o q' fuel s0 = .ok w' ∧ w'.status = w.status ∧ w'.res = w.res ∧ w'.prob = w.prob ∧ w'.log = w.log := by
  have T := solve_twin (trajOpt_lawful S.sqrt junk S.regular) S.sane S.sized (trajOpt_allFine S.sqrt S.regular hin junk) hi fuel s0 S.usable q q'
    S.reusable.1 S.reusable.2 S'.reusable.1 S'.reusable.2
  have h' : SqpRun.solve (trajOpt sqrt hash junk) p o fuel s0 q = .ok w := h
  rw [h'] at T
  rcases T.cases with ⟨a, a', e, e', ⟨x, rfl⟩⟩ | ⟨a, a', e, -, -⟩
  · cases e; exact ⟨_, e', rfl, rfl, rfl, rfl⟩
  · cases e

/-- C157: every report of a history is the one a new optimizer gives for the problem as it was before that call. -/
theorem C157_as_new (hsqrt : ∀ a : K, 0 ≤ a → sqrt a * sqrt a = a) (hR : ∀ D ∈ Ds, D.Regular hash) (hin : ∀ D ∈ Ds, D.InRange) (junk : Nat → Ext K)
    (fuel : Nat) {s s' : Session K} (h : s.New hash Ds) {ops : List (Op K)} (hl : Legit Ds none [] ops) (hr : s.run sqrt hash junk fuel ops = .ok s')
    (hi : ∀ k p o, Op.solve k p o ∈ ops → ∀ i, o.initOk i = true) (warm : Bool) :
    ∀ r ∈ s'.reports, ∃ w, run sqrt hash junk r.p r.o { warmStarting := warm } fuel r.start = .ok w ∧ r.final.status = w.status ∧
      r.final.res = w.res ∧ r.final.prob = w.prob := by
  rcases session_ok (junk := junk) hsqrt hR fuel ops none [] s h.inv hl with ⟨w, hw⟩ | ⟨s1, rs, a1, a2, a3, a4⟩
  · rw [hr] at hw; cases hw
  · rw [hr] at a1; cases a1
    rw [h.reports, List.nil_append] at a2
    intro r hrm
    rw [a2] at hrm
    obtain ⟨D, q, b1, S, b2⟩ := a4 r hrm
    have hop : Op.solve r.k r.p r.o ∈ ops := by
      clear a4 hi hl hr h a2
      generalize s.values = v at a3
      generalize s'.values = v' at a3
      induction a3 with
      | nil => cases hrm
      | set k x ops rs v v' D _ _ ih => exact List.mem_cons_of_mem _ (ih hrm)
      | solve r' ops rs v v' D _ _ _ _ ih =>
        rcases List.mem_cons.1 hrm with rfl | hm
        · exact List.mem_cons_self
        · exact List.mem_cons_of_mem _ (ih hm)
    have S' : Setting sqrt hash D r.p r.o r.start { warmStarting := warm } := ⟨S.sqrt, S.regular, S.usable, S.sane, S.sized, reusable_new _ _ _⟩
    obtain ⟨w, e1, e2, e3, e4, -⟩ := C157_any_solver S S' (hin D (List.mem_of_getElem? b1)) (hi _ _ _ hop) junk fuel b2
    exact ⟨w, e1, e2.symm, e3.symm, e4.symm⟩

/-! ### Coming back to an earlier problem -/

/-- One variable at `3` in `[0, 10]` with the constraint `x = 1`: three QP variables and four QP rows. -/
def sessionA : State ℚ :=
  { nVars := 1, varBounds := [(some 0, some 10)], x := fun i => if i = 0 then 3 else 0, upd := fun _ => 0
    cnts := [lineComp 1 0 1 ⟨.fin 1, .fin 1, .equality⟩] }

/-- The same with the constraints `x ≤ 1` and `x ≤ 2`: three QP variables and five QP rows. -/
def sessionB : State ℚ :=
  { sessionA with cnts := [lineComp 1 0 1 ⟨.negInf, .fin 1, .upperBound⟩, lineComp 1 0 1 ⟨.negInf, .fin 2, .upperBound⟩] }

/-- OSQP answers `1` for the variable and `0` for the slacks to every program. -/
def sessionWorld : World ℚ :=
  { initOk := fun _ => true, answer := fun _ q => some ((List.range q.n).map fun i => if i = 0 then 1 else 0), inPlace := fun _ _ => .done
    inPlace' := fun _ _ => .done, callbacks := fun _ => [], clock := fun _ => 0 }

/-- A new optimizer and the two problems. -/
def sessionStart : Session ℚ := ⟨[sessionA.setup fun _ => .negInf, sessionB.setup fun _ => .negInf], { warmStarting := true }, []⟩

/-- A run returned. -/
def Out.Done {K : Type u} {S α : Type*} : Out K S α → Bool
  | .ok _ => true
  | _ => false


/-- C156 is violated when the optimizer comes back to a problem it solved before another one: with the same number of QP variables but not of QP rows,
an assertion fails in `updateLinearConstraintsMatrix`, because the sizes of the problem did not change since its own last QP.  The histories without the
third call, and with a call of `solve` for the same problem instead, return. -/
theorem C156_violated_coming_back :
    (sessionStart.run (fun a => a) (fun _ => 0) (fun _ => .negInf) 40
      [.solve 0 Sqp.defaultParams sessionWorld, .solve 1 Sqp.defaultParams sessionWorld, .solve 0 Sqp.defaultParams sessionWorld]).Failed = true ∧
    (sessionStart.run (fun a => a) (fun _ => 0) (fun _ => .negInf) 40
      [.solve 0 Sqp.defaultParams sessionWorld, .solve 1 Sqp.defaultParams sessionWorld, .solve 1 Sqp.defaultParams sessionWorld]).Done = true := by
  exact ⟨by decide +kernel, by decide +kernel⟩

/-! ### Examples -/

/-- Two problems: `tied` (one constraint) and `tame` (none). -/
noncomputable def exSession : Session ℝ := ⟨[tied.setup fun _ => .negInf, tame.setup fun _ => .negInf], { warmStarting := true }, []⟩

/-- The number of calls of `solve`. -/
def solves : List (Op ℝ) → Nat
  | [] => 0
  | .set _ _ :: ops => solves ops
  | .solve _ _ _ :: ops => solves ops + 1

theorem Follows.length {Ds : List (Desc ℝ)} {ops : List (Op ℝ)} {rs : List (Report ℝ)} {v v' : Nat → List ℝ} (h : Follows Ds ops rs v v') :
    rs.length = solves ops := by
  induction h with
  | nil => rfl
  | set _ _ _ _ _ _ _ _ _ ih => exact ih
  | solve _ _ _ _ _ _ _ _ _ _ ih => exact congrArg (· + 1) ih

/-- Solve the first, move it, solve it twice, then the second one. -/
noncomputable def exOps : List (Op ℝ) :=
  [.solve 0 niceParams niceWorld, .set 0 [5], .solve 0 niceParams niceWorld, .solve 0 niceParams niceWorld, .set 1 [7, 8], .solve 1 niceParams niceWorld]

theorem exSession_new : exSession.New (fun _ => 0) [descOf tied, descOf tame] :=
  ⟨.cons ⟨(tied_setting true).usable, rfl⟩ (.cons ⟨(tame_setting true).usable, rfl⟩ .nil), ⟨true, rfl⟩, rfl⟩

theorem exOps_legit : Legit [descOf tied, descOf tame] none [] exOps :=
  ⟨by simp, nice_sane, niceWorld_sized, .inl (by simp), ⟨_, rfl, by simp [descOf, tied, tame]⟩, by simp, nice_sane, niceWorld_sized, .inr rfl,
    by simp, nice_sane, niceWorld_sized, .inr rfl, ⟨_, rfl, by simp [descOf, tame]⟩, by simp, nice_sane, niceWorld_sized, .inl (by simp), trivial⟩

theorem tied_inRange : (descOf tied).InRange := by
  refine ⟨⟨10, by norm_num [Sco.osqpInfty], ?_⟩, ?_⟩
  · intro b hb
    simp only [descOf, tied, tame, List.mem_singleton] at hb
    exact ⟨0, 10, hb, by norm_num, le_refl _⟩
  · intro c hc x u x' u' p hp b hb
    simp only [descOf, tied, tame, List.nil_append, List.append_nil, List.mem_singleton] at hc
    subst hc
    simp only [lineComp, List.zip_cons_cons, List.zip_nil_right, List.mem_singleton] at hp hb
    subst hp; subst hb
    refine ⟨fun l hl => ?_, fun l hl => ?_⟩ <;> (cases hl; simp [dot]; norm_num [Sco.osqpInfty])

theorem tame_inRange : (descOf tame).InRange := by
  refine ⟨⟨10, by norm_num [Sco.osqpInfty], ?_⟩, ?_⟩
  · intro b hb
    simp only [descOf, tame, List.mem_singleton] at hb
    exact ⟨0, 10, hb, by norm_num, le_refl _⟩
  · intro c hc
    simp [descOf, tame] at hc

/-- C156 and C157 apply to the example. -/
example : ∃ fuel s', exSession.run Real.sqrt (fun _ => 0) (fun _ => .negInf) fuel exOps = .ok s' ∧
    Follows [descOf tied, descOf tame] exOps s'.reports exSession.values s'.values ∧ s'.reports.length = 4 ∧
    ∀ r ∈ s'.reports, ∃ w, run Real.sqrt (fun _ => 0) (fun _ => .negInf) r.p r.o { warmStarting := false } fuel r.start = .ok w ∧ r.final.res = w.res := by
  have hR : ∀ D ∈ [descOf tied, descOf tame], D.Regular (fun _ => 0) := by
    intro D hD
    simp only [List.mem_cons, List.not_mem_nil, or_false] at hD
    rcases hD with rfl | rfl
    · exact (tied_setting true).regular
    · exact (tame_setting true).regular
  have hI : ∀ D ∈ [descOf tied, descOf tame], D.InRange := by
    intro D hD
    simp only [List.mem_cons, List.not_mem_nil, or_false] at hD
    rcases hD with rfl | rfl
    · exact tied_inRange
    · exact tame_inRange
  have hO : ∀ k p o, Op.solve k p o ∈ exOps → p = niceParams ∧ o = niceWorld := by
    intro k p o h
    simp only [exOps, List.mem_cons, List.not_mem_nil, or_false, Op.solve.injEq, reduceCtorEq, false_or] at h
    rcases h with ⟨-, h⟩ | ⟨-, h⟩ | ⟨-, h⟩ | ⟨-, h⟩ <;> exact h
  obtain ⟨F, s', hF⟩ := C156_returns (fun _ h => Real.mul_self_sqrt h) hR (fun _ => .negInf) exSession_new exOps_legit (fun k p o h => by
    rw [(hO k p o h).1]; norm_num [niceParams])
  have hfol := C156_history (fun _ h => Real.mul_self_sqrt h) hR (fun _ => .negInf) F exSession_new exOps_legit (hF F le_rfl)
  refine ⟨F, s', hF F le_rfl, hfol, ?_, fun r hr => ?_⟩
  · rw [hfol.length]; rfl
  · obtain ⟨w, e1, -, e2, -⟩ := C157_as_new (fun _ h => Real.mul_self_sqrt h) hR hI (fun _ => .negInf) F exSession_new exOps_legit (hF F le_rfl)
      (fun k p o h i => by rw [(hO k p o h).2]; rfl) false r hr
    exact ⟨w, e1, e2⟩

end Verif.SqpRun
