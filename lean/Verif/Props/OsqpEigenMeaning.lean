import Verif.Props.OsqpEigen
import Verif.Props.QpEval

/-!
C98 (meaning of the program given to OSQP), C99 (warm start) and C100 (solver status).
-/

set_option linter.unusedSectionVars false
set_option linter.unusedVariables false

namespace Verif.OsqpEigen

open Verif.Bounds Verif.Sco Finset

universe u
variable {K : Type u} [Field K] [LinearOrder K] [IsStrictOrderedRing K]

/-! ### Specification -/

/-- Specification: what OSQP minimises. -/
def Qp.value (w : Qp K) (z : Nat → K) : K :=
  1 / 2 * (∑ r ∈ range w.n, ∑ c ∈ range w.n, z r * w.P.entry r c * z c) + ∑ c ∈ range w.n, w.q.getD c 0 * z c

/-- Specification: OSQP's rows hold. -/
def Qp.Feasible (w : Qp K) (z : Nat → K) : Prop :=
  ∀ r < w.m, ∃ l u, w.l[r]? = some l ∧ w.u[r]? = some u ∧ LowOk l (w.A.rowForm r z) ∧ HighOk u (w.A.rowForm r z)

/-- Specification: the objective of a QP problem. -/
def Problem.value (p : Problem K) (z : Nat → K) : K :=
  (∑ r ∈ range p.nv, ∑ c ∈ range p.nv, z r * p.hessian.entry r c * z c) + ∑ c ∈ range p.nv, p.gradient.getD c 0 * z c

/-- Specification: the rows of a QP problem hold. -/
def Problem.Feasible (p : Problem K) (z : Nat → K) : Prop :=
  ∀ r < p.nc, ∃ l u, p.lower[r]? = some l ∧ p.upper[r]? = some u ∧ Within (l, u) (p.matrix.rowForm r z)

/-- Specification: all finite bounds are inside OSQP's range. -/
def Problem.Moderate (p : Problem K) : Prop :=
  (∀ l, .fin l ∈ p.lower → |l| < osqpInfty) ∧ ∀ u, .fin u ∈ p.upper → |u| < osqpInfty

/-! ### C98 -/

theorem value_eq (w : Qp K) (p : Problem K) (h : Describes w p) (z : Nat → K) :
    w.value z = p.value z - ∑ c ∈ range p.nv, (if |p.gradient.getD c 0| < 1 / 10 ^ 7 then p.gradient.getD c 0 else 0) * z c := by
  have e1 : ∑ r ∈ range p.nv, ∑ c ∈ range p.nv, z r * w.P.entry r c * z c =
      2 * ∑ r ∈ range p.nv, ∑ c ∈ range p.nv, z r * p.hessian.entry r c * z c := by
    rw [mul_sum]
    refine sum_congr rfl fun r _ => ?_
    rw [mul_sum]
    refine sum_congr rfl fun c _ => ?_
    rw [h.hessian]; ring
  have e2 : ∑ c ∈ range p.nv, w.q.getD c 0 * z c = ∑ c ∈ range p.nv, p.gradient.getD c 0 * z c -
      ∑ c ∈ range p.nv, (if |p.gradient.getD c 0| < 1 / 10 ^ 7 then p.gradient.getD c 0 else 0) * z c := by
    rw [← sum_sub_distrib]
    refine sum_congr rfl fun c _ => ?_
    rw [h.gradient]
    split_ifs <;> ring
  unfold Qp.value Problem.value
  rw [h.n, e1, e2]; ring

/-- C98, objective: OSQP minimises the objective of the QP problem up to `1e-7` times the size of the point, and exactly when
no gradient entry lies strictly between `-1e-7` and `1e-7` without being zero. -/
theorem C98_objective_partial (w : Qp K) (p : Problem K) (h : Describes w p) (z : Nat → K) :
    |w.value z - p.value z| ≤ 1 / 10 ^ 7 * ∑ c ∈ range p.nv, |z c| ∧
    ((∀ g ∈ p.gradient, g = 0 ∨ 1 / 10 ^ 7 ≤ |g|) → w.value z = p.value z) := by
  rw [value_eq w p h z]
  constructor
  · rw [sub_sub_cancel_left, abs_neg, mul_sum]
    refine (abs_sum_le_sum_abs _ _).trans (sum_le_sum fun c _ => ?_)
    rw [abs_mul]
    refine mul_le_mul_of_nonneg_right ?_ (abs_nonneg _)
    split_ifs with hs
    · exact hs.le
    · rw [abs_zero]; positivity
  · intro hg
    rw [sum_eq_zero, sub_zero]
    intro c _
    split_ifs with hs
    · have : p.gradient.getD c 0 = 0 := by
        rw [List.getD_eq_getElem?_getD] at hs ⊢
        cases e : p.gradient[c]? with
        | none => rfl
        | some g =>
          rw [e] at hs
          rcases hg g (List.mem_of_getElem? e) with h0 | h0
          · simpa using h0
          · exact absurd hs (not_lt.2 h0)
      rw [this, zero_mul]
    · rw [zero_mul]

/-- C98, rows: OSQP's feasible points are those of the QP problem when its finite bounds are inside OSQP's range. -/
theorem C98_feasible (w : Qp K) (p : Problem K) (hf : Fine p) (h : Describes w p) (hm : p.Moderate) (z : Nat → K) :
    w.Feasible z ↔ p.Feasible z := by
  unfold Qp.Feasible Problem.Feasible
  rw [h.m, h.matrix]
  refine forall_congr' fun r => forall_congr' fun hr => ?_
  have e1 := List.getElem?_eq_getElem (l := w.l) (i := r) (by rw [h.lowLen]; exact hr)
  have e2 := List.getElem?_eq_getElem (l := w.u) (i := r) (by rw [h.highLen]; exact hr)
  have e3 := List.getElem?_eq_getElem (l := p.lower) (i := r) (by rw [hf.lower]; exact hr)
  have e4 := List.getElem?_eq_getElem (l := p.upper) (i := r) (by rw [hf.upper]; exact hr)
  have key := C14_ordinary_bounds (p.lower[r]'(by rw [hf.lower]; exact hr), p.upper[r]'(by rw [hf.upper]; exact hr))
    (p.matrix.rowForm r z) (fun l hl => (abs_lt.1 (hm.1 l (by rw [← hl]; exact List.getElem_mem _))).1)
    (fun u hu => (abs_lt.1 (hm.2 u (by rw [← hu]; exact List.getElem_mem _))).2)
  rw [e1, e2, e3, e4]
  constructor
  · rintro ⟨l, u, d1, d2, h1, h2⟩
    injection d1 with d1; injection d2 with d2; subst d1; subst d2
    refine ⟨_, _, rfl, rfl, key.1 ⟨(h.lower r _ _ e1 e3 _).1 h1, (h.upper r _ _ e2 e4 _).1 h2⟩⟩
  · rintro ⟨l, u, d1, d2, h1⟩
    injection d1 with d1; injection d2 with d2; subst d1; subst d2
    obtain ⟨h2, h3⟩ := key.2 h1
    exact ⟨_, _, rfl, rfl, (h.lower r _ _ e1 e3 _).2 h2, (h.upper r _ _ e2 e4 _).2 h3⟩

/-- C98 is violated by small gradient entries: OSQP does not see them. -/
theorem C98_violated_small_gradient (w : Qp K) (p : Problem K) (h : Describes w p) (c : Nat) (hc : c < p.nv)
    (h0 : p.gradient.getD c 0 ≠ 0) (h1 : |p.gradient.getD c 0| < 1 / 10 ^ 7) :
    ∃ z, w.value z ≠ p.value z ∧ w.q.getD c 0 = 0 := by
  refine ⟨fun i => if i = c then 1 else 0, ?_, by rw [h.gradient, if_pos h1]⟩
  rw [value_eq w p h]
  have : ∑ i ∈ range p.nv, (if |p.gradient.getD i 0| < 1 / 10 ^ 7 then p.gradient.getD i 0 else 0) * (if i = c then (1 : K) else 0) =
      p.gradient.getD c 0 := by
    rw [sum_eq_single c]
    · rw [if_pos h1, if_pos rfl, mul_one]
    · intro b _ hb; rw [if_neg hb, mul_zero]
    · intro hn; exact absurd (mem_range.2 hc) hn
  rw [this]
  intro e
  exact h0 (by linarith [sub_eq_self.1 e])

/-! ### `TrajOptQPProblem` -/

/-- What the solver sees of a `TrajOptQPProblem`. -/
def ofState (s : QpProblem.State K) : Problem K :=
  { nv := s.nQpVars, nc := s.nQpCnts, hessian := s.hessian, gradient := s.gradient, matrix := s.matrix, lower := s.lower,
    upper := s.upper, nNlp := s.nVars, vars := (List.range s.nVars).map s.x,
    violations := s.evaluateConvexConstraintViolations s.x }

/-- A QP built by `convexify` is fine for the solver: every finite bound inside OSQP's range, some point in the trust box. -/
theorem C98_fine {s s' : QpProblem.State K} (h : QpProblem.Live s) (sqrt : K → K)
    (hsqrt : ∀ a : K, 0 ≤ a → sqrt a * sqrt a = a) (junk : Nat → Ext K) (hc : s.convexify sqrt junk = some s')
    (hpos : 0 < s'.nVars) (hm : (ofState s').Moderate) (x : Nat → K) (hx : QpProblem.InBox s' x)
    (hv : s'.meritInfos.length ≤ s'.nQpCnts) : Fine (ofState s') := by
  obtain ⟨t, outs, iv, head, a1, a2, a3, a4⟩ := QpProblem.convexified h sqrt hsqrt junk hc
  obtain ⟨z, -, z2, -⟩ := (QpProblem.C26_slack_exact h sqrt hsqrt junk hc).2.2 x hx
  have hout : outs.length = t.nPen + t.nMerit := by rw [a2.laid.length, a2.rowsLen]
  have n1 := a2.nQpVars
  have n2 := a2.nQpCnts
  have n3 := a2.frame.1
  refine ⟨?_, a2.hessDim, ?_, ⟨a2.matrixRows, a2.matrixCols⟩, ?_, ?_, ?_, by simp [ofState], ?_, ?_⟩
  · show 0 < s'.nQpVars
    omega
  · show s'.gradient.length = s'.nQpVars
    rw [a2.gradient, List.length_append, a2.headLen]; omega
  · show s'.lower.length = s'.nQpCnts
    rw [a2.lower]; simp only [List.length_append, List.length_map, List.length_replicate, a2.ivLen, hout]; omega
  · show s'.upper.length = s'.nQpCnts
    rw [a2.upper]; simp only [List.length_append, List.length_map, List.length_replicate, a2.ivLen, hout]; omega
  · intro i l u h1 h2
    have hi : i < s'.matrix.rows := by
      have := (List.getElem?_eq_some_iff.1 h1).1
      rw [a2.matrixRows]
      have e : s'.lower.length = s'.nQpCnts := by
        rw [a2.lower]; simp only [List.length_append, List.length_map, List.length_replicate, a2.ivLen, hout]; omega
      rw [← e]; exact this
    obtain ⟨l', u', e1, e2, e3⟩ := z2 i hi
    have d1 : l' = l := Option.some.inj (e1.symm.trans h1)
    have d2 : u' = u := Option.some.inj (e2.symm.trans h2)
    subst d1; subst d2
    have ml := hm.1
    have mu := hm.2
    have hl := List.mem_of_getElem? h1
    have hu := List.mem_of_getElem? h2
    obtain ⟨w1, w2⟩ := e3
    cases l' with
    | posInf => exact absurd w1 (by simp [Within])
    | fin a =>
      have g1 := ml a hl
      cases u' with
      | negInf => exact absurd w2 (by simp [Within])
      | posInf =>
        exact ⟨a, ⟨le_refl _, trivial⟩, g1.le⟩
      | fin b =>
        exact ⟨a, ⟨le_refl _, le_trans w1 w2⟩, g1.le⟩
    | negInf =>
      cases u' with
      | negInf => exact absurd w2 (by simp [Within])
      | posInf => exact ⟨0, ⟨trivial, trivial⟩, by rw [abs_zero]; exact infty_pos.le⟩
      | fin b =>
        exact ⟨b, ⟨trivial, le_refl _⟩, (mu b hu).le⟩
  · show s'.nVars ≤ s'.nQpVars
    omega
  · intro _
    show (s'.evaluateConvexConstraintViolations s'.x).length ≤ s'.nQpCnts
    rw [QpProblem.C76_convex_violations h sqrt hsqrt junk hc, List.length_zipWith]
    exact (min_le_left _ _).trans hv

/-- C98 for `TrajOptQPProblem`: the program describing the problem after `convexify` has the feasible points and, up to
`1e-7` times the size of the point, the objective of its QP. -/
theorem C98_trajopt_partial {s s' : QpProblem.State K} (h : QpProblem.Live s) (sqrt : K → K)
    (hsqrt : ∀ a : K, 0 ≤ a → sqrt a * sqrt a = a) (junk : Nat → Ext K) (hc : s.convexify sqrt junk = some s')
    (hm : (ofState s').Moderate) (hf : Fine (ofState s')) (w : Qp K) (hw : Describes w (ofState s')) (z : Nat → K) :
    (w.Feasible z ↔ QpProblem.QpFeasible s' z) ∧
    |w.value z - QpProblem.qpObjective s' z| ≤ 1 / 10 ^ 7 * ∑ c ∈ range s'.nQpVars, |z c| := by
  refine ⟨?_, (C98_objective_partial w _ hw z).1⟩
  rw [C98_feasible w _ hf hw hm z]
  unfold Problem.Feasible QpProblem.QpFeasible
  rw [show s'.matrix.rows = (ofState s').nc from hf.matrix.1]
  rfl

/-- C98, minimisers: when no gradient entry is lost, a minimiser of OSQP's program minimises smooth cost plus weighted
violation of the linearised rows over the trust box. -/
theorem C98_minimiser_partial {s s' : QpProblem.State K} (h : QpProblem.Live s) (sqrt : K → K)
    (hsqrt : ∀ a : K, 0 ≤ a → sqrt a * sqrt a = a) (junk : Nat → Ext K) (hc : s.convexify sqrt junk = some s')
    (hm : (ofState s').Moderate) (hf : Fine (ofState s')) (hg : ∀ g ∈ s'.gradient, g = 0 ∨ 1 / 10 ^ 7 ≤ |g|)
    (w : Qp K) (hw : Describes w (ofState s')) (z : Nat → K) (hz : w.Feasible z)
    (hmin : ∀ y, w.Feasible y → w.value z ≤ w.value y) :
    QpProblem.InBox s' z ∧ ∀ x, QpProblem.InBox s' x →
      QpProblem.smoothCost s' z + QpProblem.penaltyOf (QpProblem.problemRows (QpProblem.usedMerit s'.meritInfos s'.meritCoeff) s') z ≤
        QpProblem.smoothCost s' x + QpProblem.penaltyOf (QpProblem.problemRows (QpProblem.usedMerit s'.meritInfos s'.meritCoeff) s') x := by
  have e : ∀ y, w.value y = QpProblem.qpObjective s' y := fun y => (C98_objective_partial w _ hw y).2 hg
  have f : ∀ y, w.Feasible y ↔ QpProblem.QpFeasible s' y := fun y => (C98_trajopt_partial h sqrt hsqrt junk hc hm hf w hw y).1
  obtain ⟨a1, -, a2⟩ := QpProblem.C26_minimiser h sqrt hsqrt junk hc z ((f z).1 hz) fun y hy => by
    rw [← e, ← e]; exact hmin y ((f y).2 hy)
  exact ⟨a1, a2⟩

/-- One variable at `3` in `[0, 10]` with the squared cost `(2 - x)^2`. -/
def lone : QpProblem.State K :=
  { nVars := 1, varBounds := [(some 0, some 10)], x := fun _ => 3, upd := fun _ => 0,
    squared := [QpProblem.lineComp 1 0 1 ⟨.fin 2, .fin 2, .equality⟩] }

theorem lone_live (junk : Nat → Ext K) : QpProblem.Live ((lone : QpProblem.State K).setup junk) := by
  refine (QpProblem.setup_live (s := lone) ⟨?_, by simp [lone], by simp [lone], rfl, ?_⟩ rfl junk).1
  · intro c hc
    simp only [lone, List.append_nil, List.mem_singleton] at hc
    subst hc; exact QpProblem.lineComp_obj 1 0 1 zero_le_one 2
  · intro b hb
    simp only [lone, List.mem_singleton] at hb
    subst hb; intro l u h1 h2
    simp at h1 h2; subst h1; subst h2; norm_num

/-- The hypotheses of C98 hold for it. -/
example : ∃ s' : QpProblem.State ℝ, ((lone : QpProblem.State ℝ).setup fun _ => .negInf).convexify Real.sqrt (fun _ => .negInf) =
    some s' ∧ (ofState s').Moderate ∧ Fine (ofState s') ∧ Describes (posed (ofState s')) (ofState s') := by
  have hsq : ∀ a : ℝ, 0 ≤ a → Real.sqrt a * Real.sqrt a = a := fun _ h => Real.mul_self_sqrt h
  have hl := lone_live (K := ℝ) fun _ => .negInf
  obtain ⟨s', outs, iv, head, c1, -, a2, -⟩ := hl.convexify Real.sqrt hsq fun _ => .negInf
  have n1 : outs = [] := List.length_eq_zero_iff.1 (a2.laid.length.trans a2.rowsLen)
  obtain ⟨lo, hi, e1, e2⟩ := a2.iv 0 (1 / 10) (some 0) (some 10) rfl rfl
  have e3 : lo = 29 / 10 ∧ hi = 31 / 10 := by
    have : trustInterval (1 / 10 : ℝ) 3 (some 0) (some 10) = some (29 / 10, 31 / 10) := by
      norm_num [trustInterval, stdClamp, ltLo, gtHi, maxLo, minHi]
    have e1' : trustInterval (1 / 10 : ℝ) 3 (some 0) (some 10) = some (lo, hi) := e1
    rw [this] at e1'
    injection e1' with e1'; injection e1' with h1 h2; exact ⟨h1.symm, h2.symm⟩
  have e4 : iv = [(29 / 10, 31 / 10)] := by
    have hlen : iv.length = 1 := a2.ivLen
    match iv, hlen with
    | [q], _ => simp at e2; rw [e2, e3.1, e3.2]
  have low : s'.lower = [.fin (29 / 10)] := by rw [a2.lower, n1, e4]; rfl
  have upp : s'.upper = [.fin (31 / 10)] := by rw [a2.upper, n1, e4]; rfl
  have hm : (ofState s').Moderate := by
    constructor
    · intro l hl
      have : Ext.fin l ∈ s'.lower := hl
      rw [low, List.mem_singleton] at this
      injection this with this; subst this
      rw [abs_of_pos (by norm_num)]; norm_num [osqpInfty]
    · intro l hl
      have : Ext.fin l ∈ s'.upper := hl
      rw [upp, List.mem_singleton] at this
      injection this with this; subst this
      rw [abs_of_pos (by norm_num)]; norm_num [osqpInfty]
  have hf := C98_fine hl Real.sqrt hsq _ c1 (by rw [a2.frame.1]; exact Nat.one_pos) hm (fun _ => 3)
    (by
      rw [QpProblem.inBox_frame a2]
      intro i b lb ub h1 h2
      have hi0 : i = 0 := by
        have h1' : ([1 / 10] : List ℝ)[i]? = some b := h1
        have := (List.getElem?_eq_some_iff.1 h1').1; simpa using this
      subst hi0
      have h1' : (1 / 10 : ℝ) = b := Option.some.inj h1
      have h2' : ((some 0, some 10) : Lo ℝ × Hi ℝ) = (lb, ub) := Option.some.inj h2
      injection h2' with h3 h4
      subst h1'; subst h3; subst h4
      exact ⟨lo, hi, e1, by rw [e3.1]; norm_num, by rw [e3.2]; norm_num⟩)
    (by rw [a2.frame.2.2.2.2.2.1]; exact Nat.zero_le _)
  exact ⟨s', c1, hm, hf, posed_describes _ hf⟩

/-! ### C99 -/

theorem coeffAt_eq (M : SMat K) (r c : Nat) : coeffAt M r c = M.entry r c := by
  simp only [coeffAt, SMat.entry, colEntry, List.getD_eq_getElem?_getD]

/-- The slack of a column whose noticeable entries in the first rows all belong to row `k`, or to none. -/
theorem slackStart_one (vs : List K) (M : SMat K) (c k : Nat) (v : K) (hv : vs[k]? = some v)
    (hk : 1 / 10 ^ 14 < |M.entry k c|) (ho : ∀ r, r ≠ k → r < vs.length → |M.entry r c| ≤ 1 / 10 ^ 14) :
    slackStart vs M c = max 0 (v / M.entry k c) := by
  have gen : ∀ (l : List K) (n : Nat) (acc : K), n + l.length = vs.length → (l.zipIdx n).foldl (fun acc v =>
      let c := coeffAt M v.2 c
      if 1 / 10 ^ 14 < |c| then max 0 (v.1 / c) else acc) acc =
        if n ≤ k then (match l[k - n]? with | some v => max 0 (v / M.entry k c) | none => acc) else acc := by
    intro l
    induction l with
    | nil => intro n acc _; simp
    | cons a l ih =>
      intro n acc hn
      simp only [List.length_cons] at hn
      rw [List.zipIdx_cons, List.foldl_cons, ih _ _ (by omega)]
      simp only [coeffAt_eq]
      by_cases h1 : n = k
      · subst h1
        rw [if_pos hk]; simp
      · rw [if_neg (not_lt.2 (ho n h1 (by omega)))]
        by_cases h2 : n ≤ k
        · rw [if_pos (by omega), if_pos h2]
          have : k - n = (k - (n + 1)) + 1 := by omega
          rw [this, List.getElem?_cons_succ]
        · rw [if_neg (by omega), if_neg h2]
  have := gen vs 0 0 (by omega)
  simp only [Nat.zero_le, if_true, Nat.sub_zero, hv] at this
  exact this

theorem slackStart_zero (vs : List K) (M : SMat K) (c : Nat) (h : ∀ v ∈ vs, v = 0) : slackStart vs M c = 0 := by
  have gen : ∀ (l : List K) (n : Nat), (∀ v ∈ l, v = 0) → (l.zipIdx n).foldl (fun acc v =>
      let c := coeffAt M v.2 c
      if 1 / 10 ^ 14 < |c| then max 0 (v.1 / c) else acc) 0 = 0 := by
    intro l
    induction l with
    | nil => intro n _; rfl
    | cons a l ih =>
      intro n hl
      rw [List.zipIdx_cons, List.foldl_cons]
      simp only [hl a (by simp), zero_div, max_self, ite_self]
      exact ih (n + 1) fun v hv => hl v (by simp [hv])
  exact gen vs 0 h

theorem slackStart_neg (vs : List K) (M : SMat K) (c : Nat) (hv : ∀ v ∈ vs, 0 ≤ v)
    (hc : ∀ r < vs.length, M.entry r c ≤ 0) :
    slackStart vs M c = 0 := by
  have gen : ∀ (l : List K) (n : Nat), n + l.length = vs.length → (∀ v ∈ l, 0 ≤ v) → (l.zipIdx n).foldl (fun acc v =>
      let c := coeffAt M v.2 c
      if 1 / 10 ^ 14 < |c| then max 0 (v.1 / c) else acc) 0 = 0 := by
    intro l
    induction l with
    | nil => intro n _ _; rfl
    | cons a l ih =>
      intro n hn hl
      simp only [List.length_cons] at hn
      rw [List.zipIdx_cons, List.foldl_cons]
      have : max 0 (a / coeffAt M n c) = 0 :=
        max_eq_left (div_nonpos_of_nonneg_of_nonpos (hl a (by simp)) (by rw [coeffAt_eq]; exact hc n (by omega)))
      simp only [this, ite_self]
      exact ih (n + 1) (by omega) fun v hv => hl v (by simp [hv])
  exact gen vs 0 (by omega) hv

theorem slackStart_nonneg (vs : List K) (M : SMat K) (c : Nat) : 0 ≤ slackStart vs M c := by
  have gen : ∀ (l : List (K × Nat)) (acc : K), 0 ≤ acc → 0 ≤ l.foldl (fun acc v =>
      let c := coeffAt M v.2 c
      if 1 / 10 ^ 14 < |c| then max 0 (v.1 / c) else acc) acc := by
    intro l
    induction l with
    | nil => intro acc h; exact h
    | cons a l ih =>
      intro acc h
      rw [List.foldl_cons]
      apply ih
      simp only
      split_ifs
      · exact le_max_left _ _
      · exact h
  exact gen _ 0 (le_refl _)

/-- The starting point of a rebuild. -/
theorem rebuild_start (o : Fin 3 → Outcome K) (p : Problem K) (h : Fine p) (s : Solver K) (hw : s.warmStarting = true) :
    ∃ s', rebuild o p s = some s' ∧ s'.x0 = p.vars ++ (List.range (p.nv - p.nNlp)).map
        (fun j => slackStart p.violations p.matrix (p.nNlp + j)) ∧ s'.y0 = List.replicate p.nc 0 := by
  have e1 := (sized_iff p.hessian p.nv p.nv).2 h.hessian
  have e2 := (sized_iff p.matrix p.nc p.nv).2 h.matrix
  simp only [rebuild, Solver.updateHessianMatrix, Solver.clear, Solver.init, e1, if_true, Solver.updateGradient, h.gradient,
    Solver.updateMatrix, e2, Solver.updateBounds, h.lower, h.upper, and_self, Solver.setWarmStart, hw]
  rw [if_pos ⟨h.vars, h.nlp, by rw [h.matrix.1]; exact h.violations⟩]
  exact ⟨_, rfl, rfl, rfl⟩

/-- C99: a rebuild with warm starting stores as starting point the current values of the variables followed by non-negative
slacks, with zero multipliers and the right sizes, and the first solve hands exactly that to OSQP; without warm starting
nothing is handed over. -/
theorem C99_start (o : Fin 3 → Outcome K) (p : Problem K) (h : Fine p) (s : Solver K) :
    ∃ s', rebuild o p s = some s' ∧
      (∀ f : Qp K → Option (List K), (s'.solve true f).2.2.started = if s.warmStarting then some (s'.x0, s'.y0) else none) ∧
      (s.warmStarting = true → s'.x0.length = p.nv ∧ s'.x0.take p.nNlp = p.vars ∧ (∀ v ∈ s'.x0.drop p.nNlp, 0 ≤ v) ∧
        s'.y0 = List.replicate p.nc 0) := by
  obtain ⟨s', a1, a2, a3, a4, a5, -⟩ := rebuild_ok o p h s
  refine ⟨s', a1, fun f => ?_, fun hw => ?_⟩
  · have held := a3.held
    rw [a5] at held
    simp only at held
    simp only [Solver.solve, a5, held, if_true, a4]
    cases f (posed p) <;> simp
  · obtain ⟨s2, b1, b2, b3⟩ := rebuild_start o p h s hw
    rw [a1] at b1; injection b1 with b1; subst b1
    have := h.vars
    have := h.nlp
    rw [b2]
    refine ⟨by simp [h.vars]; omega, List.take_left' h.vars, ?_, b3⟩
    rw [List.drop_left' h.vars]
    intro v hv
    obtain ⟨j, -, rfl⟩ := List.mem_map.1 hv
    exact slackStart_nonneg _ _ _

/-- C99, satisfied constraints: when all reported violations are zero, all slacks start at zero. -/
theorem C99_satisfied (o : Fin 3 → Outcome K) (p : Problem K) (h : Fine p) (s : Solver K) (hw : s.warmStarting = true)
    (hv : ∀ v ∈ p.violations, v = 0) : ∃ s', rebuild o p s = some s' ∧ s'.x0 = p.vars ++ List.replicate (p.nv - p.nNlp) 0 := by
  obtain ⟨s', a1, a2, -⟩ := rebuild_start o p h s hw
  refine ⟨s', a1, ?_⟩
  rw [a2]
  congr 1
  rw [List.eq_replicate_iff]
  refine ⟨by simp, ?_⟩
  intro b hb
  obtain ⟨j, -, rfl⟩ := List.mem_map.1 hb
  exact slackStart_zero _ _ _ hv

/-- C99, partial: a slack that occurs in a single row, with coefficient `1`, and whose row number is the number of the
violated constraint starts at exactly the violation. -/
theorem C99_slack_partial (o : Fin 3 → Outcome K) (p : Problem K) (h : Fine p) (s : Solver K) (hw : s.warmStarting = true)
    (k c : Nat) (v : K) (hv : p.violations[k]? = some v) (h0 : 0 ≤ v) (hc : p.nNlp ≤ c) (hc' : c < p.nv)
    (hk : p.matrix.entry k c = 1) (ho : ∀ r, r ≠ k → r < p.violations.length → p.matrix.entry r c = 0) :
    ∃ s', rebuild o p s = some s' ∧ s'.x0[c]? = some v := by
  obtain ⟨s', a1, a2, -⟩ := rebuild_start o p h s hw
  refine ⟨s', a1, ?_⟩
  rw [a2, List.getElem?_append_right (by rw [h.vars]; exact hc), h.vars, List.getElem?_map, List.getElem?_range (by omega)]
  simp only [Option.map_some, Option.some.injEq]
  rw [Nat.add_sub_cancel' hc, slackStart_one p.violations p.matrix c k v hv (by rw [hk, abs_one]; norm_num)
    (fun r hr hr' => by rw [ho r hr hr', abs_zero]; positivity), hk, div_one, max_eq_right h0]

/-- C99 is violated by upper bounds: their slack enters the row with coefficient `-1` and violations are not negative, so
the quotient is never positive and the slack starts at zero however large the violation; the starting point then breaks the
row (the other slacks of the row, if any, are of the same kind). -/
theorem C99_violated_upper (o : Fin 3 → Outcome K) (p : Problem K) (h : Fine p) (s : Solver K) (hw : s.warmStarting = true)
    (hv : ∀ v ∈ p.violations, 0 ≤ v) (k : Nat) (hk : k < p.nc) (u : K) (hu : p.upper[k]? = some (.fin u))
    (hc : ∀ c, p.nNlp ≤ c → p.matrix.entry k c ≠ 0 → ∀ r < p.violations.length, p.matrix.entry r c ≤ 0)
    (hx : u < ∑ c ∈ range p.nNlp, p.matrix.entry k c * p.vars.getD c 0) :
    ∃ s', rebuild o p s = some s' ∧ ¬ p.Feasible (fun i => s'.x0.getD i 0) := by
  obtain ⟨s', a1, a2, -⟩ := rebuild_start o p h s hw
  refine ⟨s', a1, fun hf => ?_⟩
  obtain ⟨l, u', e1, e2, -, e3⟩ := hf k hk
  rw [hu] at e2; injection e2 with e2; subst e2
  have hn := h.nlp
  have e : p.matrix.rowForm k (fun i => s'.x0.getD i 0) = ∑ c ∈ range p.nNlp, p.matrix.entry k c * p.vars.getD c 0 := by
    rw [SMat.rowForm, h.matrix.2, ← Nat.add_sub_cancel' hn, sum_range_add]
    have z : ∀ j ∈ range (p.nv - p.nNlp), p.matrix.entry k (p.nNlp + j) * s'.x0.getD (p.nNlp + j) 0 = 0 := by
      intro j hj
      by_cases h0 : p.matrix.entry k (p.nNlp + j) = 0
      · rw [h0, zero_mul]
      · rw [List.getD_eq_getElem?_getD, a2, List.getElem?_append_right (by rw [h.vars]; omega), h.vars, List.getElem?_map,
          Nat.add_sub_cancel_left, List.getElem?_range (mem_range.1 hj)]
        simp only [Option.map_some, Option.getD_some]
        rw [slackStart_neg _ _ _ hv (hc _ (by omega) h0), mul_zero]
    rw [sum_eq_zero z, add_zero]
    refine sum_congr rfl fun c hc' => ?_
    rw [List.getD_eq_getElem?_getD, List.getD_eq_getElem?_getD, a2,
      List.getElem?_append_left (by rw [h.vars]; exact mem_range.1 hc')]
  rw [e] at e3
  exact absurd e3 (not_le.2 hx)

/-- One variable at `2` with the row `x - t <= 1`: violated by one, yet the slack starts at zero. -/
def over : Problem K :=
  { nv := 2, nc := 3, hessian := ⟨2, [[], []]⟩, gradient := [0, 10], matrix := ⟨3, [[(0, 1), (1, 1)], [(0, -1), (2, 1)]]⟩,
    lower := [.negInf, .fin 0, .fin 0], upper := [.fin 1, .fin 3, .posInf], nNlp := 1, vars := [2], violations := [1] }

theorem over_fine : Fine (over : Problem K) := by
  refine ⟨by simp [over], ⟨rfl, rfl⟩, rfl, ⟨rfl, rfl⟩, rfl, rfl, ?_, rfl, by simp [over], by simp [over]⟩
  intro i lo hi h2 h3
  have hz : |(0 : K)| ≤ osqpInfty := by rw [abs_zero]; exact infty_pos.le
  match i with
  | 0 =>
    simp only [over, List.getElem?_cons_zero, Option.some.injEq] at h2 h3
    subst h2; subst h3
    exact ⟨0, ⟨trivial, zero_le_one⟩, hz⟩
  | 1 =>
    simp only [over, List.getElem?_cons_succ, List.getElem?_cons_zero, Option.some.injEq] at h2 h3
    subst h2; subst h3
    exact ⟨0, ⟨le_refl _, by norm_num⟩, hz⟩
  | 2 =>
    simp only [over, List.getElem?_cons_succ, List.getElem?_cons_zero, Option.some.injEq] at h2 h3
    subst h2; subst h3
    exact ⟨0, ⟨le_refl _, trivial⟩, hz⟩
  | i + 3 => simp [over] at h2

/-- The hypotheses of the counterexample hold for it. -/
example : Fine (over : Problem ℚ) ∧ (∀ v ∈ (over : Problem ℚ).violations, 0 ≤ v) ∧
    (∀ c, (over : Problem ℚ).nNlp ≤ c → (over : Problem ℚ).matrix.entry 0 c ≠ 0 →
      ∀ r < (over : Problem ℚ).violations.length, (over : Problem ℚ).matrix.entry r c ≤ 0) ∧
    (1 : ℚ) < ∑ c ∈ range (over : Problem ℚ).nNlp, (over : Problem ℚ).matrix.entry 0 c * (over : Problem ℚ).vars.getD c 0 := by
  refine ⟨over_fine, by simp [over], ?_, by simp [over, SMat.entry, colEntry]⟩
  intro c hc h0 r hr
  have hr : r = 0 := by simp [over] at hr; omega
  subst hr
  match c with
  | 0 => simp [over] at hc
  | 1 => simp [over, SMat.entry, colEntry]
  | c + 2 => simp [over, SMat.entry, colEntry]

/-- C99 is violated by `TrajOptQPProblem`: the violation of constraint set `k` is used for row `k` of the matrix, but the
rows of the costs come first and sets may have any number of rows.  Here set `0` (`x = 5` at `x = 1`, violated by `4`) is row
`1`; all slacks start at zero, and the row misses its bounds by `4` (the square root is only asked for `1`). -/
theorem C99_violated_index :
    (match ((QpProblem.demo : QpProblem.State ℚ).setup fun _ => .negInf).convexify (fun a => a) (fun _ => .negInf) with
      | none => none
      | some s' => match rebuild (fun _ => .done) (ofState s') ({} : Solver ℚ) with
        | none => none
        | some t => some ((ofState s').violations, t.x0, (ofState s').lower[1]? == some (.fin 5),
            coeffAt s'.matrix 1 0, coeffAt s'.matrix 1 2)) = some ([4, 0], [1, 0, 0, 0], true, 1, 1) := by
  decide +kernel

/-! ### C100 -/

/-- C100: a failed solve is reported by the status. -/
theorem C100_failed (i : Bool) (f : Qp K → Option (List K)) (s : Solver K) (h : (s.solve i f).1 = none) :
    (s.solve i f).2.2.status = .failed := by
  unfold Solver.solve at h ⊢
  cases hw : s.work with
  | some w =>
    simp only [hw] at h ⊢
    cases hf : f w <;> simp [hf] at h ⊢
  | none =>
    simp only [hw] at h ⊢
    cases hd : s.data.qp with
    | none => rfl
    | some w =>
      simp only [hd] at h ⊢
      cases i with
      | false => rfl
      | true =>
        simp only [if_true] at h ⊢
        cases hf : f w <;> simp [hf] at h ⊢

theorem solve_status (i : Bool) (f : Qp K → Option (List K)) (s : Solver K) (h : (s.solve i f).1 ≠ none) :
    (s.solve i f).2.2.status = s.status := by
  unfold Solver.solve at h ⊢
  cases hw : s.work with
  | some w =>
    simp only [hw] at h ⊢
    cases hf : f w <;> simp [hf] at h ⊢
  | none =>
    simp only [hw] at h ⊢
    cases hd : s.data.qp with
    | none => simp [hd] at h
    | some w =>
      simp only [hd] at h ⊢
      cases i with
      | false => simp at h
      | true =>
        simp only [if_true] at h ⊢
        cases hf : f w <;> simp [hf] at h ⊢

/-- C100, partial: after a transfer to a solver that has not failed since its last rebuild, or one that rebuilds, a successful
solve leaves the status "initialized". -/
theorem C100_success_partial (o o' : Fin 3 → Outcome K) (a b : Nat) (p : Problem K) (h : Fine p) (s : Solver K)
    (hs : Consistent s) (hd : p.nv = a → p.nc = b → s.nVars = p.nv → s.nCnts = p.nc)
    (hst : s.status ≠ .failed ∨ p.nv ≠ a ∨ p.nc ≠ b) :
    ∃ s', transfer o o' a b p s = some s' ∧ ∀ (i : Bool) (f : Qp K → Option (List K)),
      ((s'.solve i f).2.2.status = .initialized ↔ (s'.solve i f).1 ≠ none) := by
  have key : ∃ s', transfer o o' a b p s = some s' ∧ s'.status = .initialized := by
    rcases hst with h1 | h1
    · obtain ⟨s', a1, -, -, -, a2⟩ := transfer_ok o o' a b p h s hs hd
      exact ⟨s', a1, a2 h1⟩
    · unfold transfer
      rw [if_pos (Or.inr h1)]
      obtain ⟨s', a1, -, -, -, -, a2⟩ := rebuild_ok o p h s
      exact ⟨s', a1, a2⟩
  obtain ⟨s', a1, a2⟩ := key
  refine ⟨s', a1, fun i f => ⟨fun hi hn => ?_, fun hn => ?_⟩⟩
  · rw [C100_failed i f s' hn] at hi; simp at hi
  · rw [solve_status i f s' hn, a2]

/-- C100 is violated after a failure: once a solve has failed, a later transfer of the same sizes that OSQP accepts in place
leaves the status "failed", also after the next solve succeeded. -/
theorem C100_violated_sticky (o' : Fin 3 → Outcome K) (p q : Problem K) (hp : Fine p) (hq : Fine q) (hn : q.nv = p.nv)
    (hc : q.nc = p.nc) (s : Solver K) (hs : Consistent s) (hh : Holds s p) (i : Bool) (f : Qp K → Option (List K))
    (hi : s.work.isSome = true) (hf : (s.solve i f).1 = none) (g : Qp K → Option (List K)) (x : List K)
    (hg : g (posed q) = some x) :
    ∃ t, transfer (fun _ => .done) o' p.nv p.nc q (s.solve i f).2.2 = some t ∧ (t.solve i g).1 = some x ∧
      (t.solve i g).2.2.status = .failed := by
  have hfail := C100_failed i f s hf
  obtain ⟨b1, -, b2, -⟩ := solve_ok i f s hs
  obtain ⟨b3, -, b4, -⟩ := b2 p hh
  set r := (s.solve i f).2.2 with hr
  have hwork : r.work = some (posed p) := by
    rw [hr]; unfold Solver.solve
    have held := hh.held
    cases hw : s.work with
    | none => simp [hw] at hi
    | some w =>
      simp only [hw] at held
      simp only
      cases f w <;> simp [hw, held]
  have h1 : sized q.hessian p.nv p.nv = true := (sized_iff _ _ _).2 (by rw [← hn]; exact hq.hessian)
  have h2 : sized q.matrix r.nCnts r.nVars = true :=
    (sized_iff _ _ _).2 ⟨by rw [hq.matrix.1, hc, b3.nCnts], by rw [hq.matrix.2, hn, b3.nVars]⟩
  have h3 : sized q.matrix p.nc p.nv = true := by rw [← b3.nCnts, ← b3.nVars]; exact h2
  have h0 : ¬ (r.status = .uninitialized ∨ q.nv ≠ p.nv ∨ q.nc ≠ p.nc) := by rw [hfail]; simp [hn, hc]
  have e1 : q.lower.length = r.nCnts := by rw [hq.lower, hc, b3.nCnts]
  have e2 : q.upper.length = r.nCnts := by rw [hq.upper, hc, b3.nCnts]
  refine ⟨{ r with work := some (posed q) }, ?_, ?_, ?_⟩
  · unfold transfer
    rw [if_neg h0]
    simp only [Solver.updateHessianMatrix, hwork, Solver.updateGradient, Solver.updateMatrix, Solver.updateBounds]
    simp only [posed, h1, if_true, Bool.not_true, Bool.false_eq_true, if_false, hq.gradient, hn, h2, h3, e1, e2, and_self,
      if_pos (And.intro b3.nCnts (ordered_all q hq)), hc]
  · simp only [Solver.solve, hg]
  · simp only [Solver.solve, hg]; exact hfail

/-- C100 on data: the QP `tiny` is transferred, its solve fails, the next transfer is accepted in place, its solve succeeds, and
the status is still "failed". -/
example : (match transfer (fun _ => .done) (fun _ => .done) 0 0 (tiny (0 : ℚ)) {} with
      | none => none
      | some s => match transfer (fun _ => .done) (fun _ => .done) 1 1 (tiny (1 / 2)) (s.solve true fun _ => none).2.2 with
        | none => none
        | some t => some ((s.solve true fun _ => none).1, (t.solve true fun _ => some [1]).1,
            (t.solve true fun _ => some [1]).2.2.status)) = some (none, some [1], .failed) := by
  decide +kernel

end Verif.OsqpEigen
