import Verif.Props.SqpIfoptLawful
import Verif.Props.SqpRunProps

/-!
C133, C134 and C135: whole runs of `TrustRegionSQPSolver` on an `IfoptQPProblem` with an `OSQPEigenSolver`.
-/

set_option linter.unusedSectionVars false
set_option linter.unusedVariables false

namespace Verif.SqpIfopt

open Verif.Bounds Verif.Sco Verif.IfoptQp
open Verif.QpProblem (sides writeSeg Proper penaltyOf tripForm)
open Verif.SqpRun (QPProblem World Results Entry Run Out Lawful Meaning Boxed Sane EntryOk Good SimSolve abs oracle oracle_agree ifopt ofIfopt ext
  solve solve_sim solve_ends Reusable reusable_new best_origin violB_ge)
open Verif.Sqp (Params Status Env St)
open Verif.OsqpEigen (Problem Fine Qp Solver posed)

universe u
variable {K : Type u} [Field K] [LinearOrder K] [IsStrictOrderedRing K]

/-! ### Specification -/

/-- Specification: a run starts with an `IfoptQPProblem` for `D` that has been set up, an `OSQPEigenSolver` that is new or has been
used before (see `Reusable`), parameters without negative
numbers where sizes and weights are expected, and a QP library that answers with one value per variable. -/
structure Setting (sqrt : K → K) (D : Desc K) (p : Params K) (o : World K) (s0 : State K) (qs : Solver K) : Prop where
  sqrt : ∀ a : K, 0 ≤ a → sqrt a * sqrt a = a
  pos : 0 < D.n
  usable : Usable D s0
  sane : Sane p
  sized : o.Sized
  reusable : Reusable qs s0.nQpVars s0.nQpCnts

/-- The variables a problem object holds. -/
def vars (s : State K) : List K := (List.range s.nVars).map s.x

/-- A run from `s0` with the QP solver `qs`. -/
def run (sqrt : K → K) (p : Params K) (o : World K) (qs : Solver K) (fuel : Nat) (s0 : State K) : Out K (State K) (Run K (State K)) :=
  solve (ifopt sqrt) p o fuel s0 qs

/-- Specification: `r` is the problem convexified at `x` in the box `b` with the merit coefficients `μ`. -/
def ConvexifiedAt (sqrt : K → K) (D : Desc K) (x b μ : List K) (r : State K) : Prop :=
  ∃ t, Usable D t ∧ t.x = ext x ∧ t.box = b ∧ t.meritCoeff = μ ∧ t.convexify sqrt = some r

/-- The problem described by the sets added so far. -/
def descOf (s : State K) : Desc K := ⟨s.nVars, s.varBounds, s.costs, s.costSets, s.cnts⟩

/-- `setup` gives a usable problem. -/
theorem setup_usable {s : State K} (h : Described s) (ht : ∀ i, s.nVars ≤ i → s.x i = 0) : ∃ s0, s.setup = some s0 ∧ Usable (descOf s) s0 := by
  obtain ⟨s0, a1, a2⟩ := h.setup
  refine ⟨s0, a1, ?_⟩
  simp only [State.setup] at a1
  split at a1
  · cases a1
  · cases a1
    refine ⟨a2, rfl, rfl, rfl, rfl, rfl, ?_, ht⟩
    intro a ha
    rw [(List.mem_replicate.1 ha).2]; norm_num

/-! ### Facts about a run -/

section
variable {sqrt : K → K} {D : Desc K} {p : Params K} {o : World K} {s0 : State K} {qs : Solver K}

theorem Setting.lawful (S : Setting sqrt D p o s0 qs) : Lawful (ifopt sqrt) (meaning sqrt D) := ifopt_lawful S.sqrt S.pos ⟨s0, S.usable⟩

theorem run_sim (S : Setting sqrt D p o s0 qs) (fuel : Nat) :
    SimSolve (ifopt sqrt) (meaning sqrt D) o s0 (fun e => Sqp.solve p e fuel) (run sqrt p o qs fuel s0) :=
  solve_sim S.lawful S.sane S.sized fuel s0 S.usable _ S.reusable.1 S.reusable.2

theorem run_good (S : Setting sqrt D p o s0 qs) {fuel : Nat} {w : Run K (State K)}
    (h : run sqrt p o qs fuel s0 = .ok w ∨ run sqrt p o qs fuel s0 = .fuel w) : Good (ifopt sqrt) (meaning sqrt D) o w := by
  have hs := run_sim S fuel
  rcases h with h | h <;> rw [h] at hs <;> exact hs.1

/-- The state of the oracle model that belongs to a finished run. -/
theorem run_oracle (S : Setting sqrt D p o s0 qs) {fuel : Nat} {w : Run K (State K)} (h : run sqrt p o qs fuel s0 = .ok w) :
    ∃ b g, w.res.box = List.replicate D.n b ∧ Sqp.solve p (oracle (meaning sqrt D) o (vars s0) w.log) fuel = some (abs (ifopt sqrt) w b g) := by
  have hs := run_sim S fuel
  rw [h] at hs
  exact hs.2 _ (oracle_agree _ _) rfl

theorem x0_length (S : Setting sqrt D p o s0 qs) (log : List (Entry K (State K))) :
    (oracle (meaning sqrt D) o (vars s0) log).x0.length = (oracle (meaning sqrt D) o (vars s0) log).nVars := by
  show ((List.range s0.nVars).map s0.x).length = D.n
  simp [S.usable.nVars]

/-! ### C133 -/

/-- C133: nothing fails: no assertion, exception, index out of range or mismatch of sizes, for any answers of OSQP, any callbacks and any
clock. -/
theorem C133_never_fails (S : Setting sqrt D p o s0 qs) (fuel : Nat) : run sqrt p o qs fuel s0 ≠ .fail := by
  intro h
  have hs := run_sim S fuel
  rw [h] at hs
  exact hs

/-- C133: the optimizer returns. -/
theorem C133_returns [Archimedean K] (S : Setting sqrt D p o s0 qs) (hmin : 0 < p.minTrustBoxSize) (hs1 : p.trustShrinkRatio < 1) :
    ∃ F w, ∀ fuel, F ≤ fuel → run sqrt p o qs fuel s0 = .ok w :=
  solve_ends S.lawful S.sane S.sized hmin hs1 s0 S.usable _ S.reusable.1 S.reusable.2

/-- Specification: the finite bounds of all programs of a run are inside OSQP's range. -/
def Moderate (w : Run K (State K)) : Prop := (∀ q ∈ w.sent, q.Moderate) ∧ ∀ e ∈ w.log, (ofIfopt e.prob).Moderate

/-- The program of the `k`-th call. -/
theorem entry_program (S : Setting sqrt D p o s0 qs) {w : Run K (State K)} (hg : Good (ifopt sqrt) (meaning sqrt D) o w)
    (hm : Moderate w) (k : Nat) (e : Entry K (State K)) (hk : w.log[k]? = some e) :
    ∃ t r, Usable D t ∧ t.x = ext (e.res.bestVars.take D.n) ∧ t.box = e.res.box ∧ t.meritCoeff = e.res.coeffs ∧ t.convexify sqrt = some r ∧
      (ofIfopt r).Moderate ∧ Fine (ofIfopt r) ∧ (∀ a ∈ e.res.box, 0 ≤ a) ∧ (∀ q, e.program = some q → q = posed (ofIfopt r)) ∧
      (o.initOk (k + 1) = true → e.program = some (posed (ofIfopt r))) := by
  have he := hg.entries k e hk
  have hsent : ∀ q ∈ w.sent, Fine q := by
    intro q hq
    obtain ⟨s, a1, a2, -, -, rfl⟩ := hg.sent q hq
    exact built_fine S.sqrt S.pos a1 a2 (hm.1 _ hq)
  obtain ⟨e1, e2⟩ := he.program hsent
  obtain ⟨b0, t, r, t1, t2, t3, t4, t5, t6, t7, t8⟩ := he.cvx
  have hpr : posed (ofIfopt r) = posed ((ifopt sqrt).qp e.prob) := by
    show _ = posed (ofIfopt e.prob)
    simp only [posed, ofIfopt, t6.nQpVars, t6.nQpCnts, t6.hessian, t6.gradient, t6.matrix, t7, t8]
  have hmod : (ofIfopt r).Moderate := by
    have := hm.2 e (List.mem_of_getElem? hk)
    unfold OsqpEigen.Problem.Moderate ofIfopt at this ⊢
    simp only [t7, t8] at this
    exact this
  obtain ⟨r', c1, c2, -, -, -, -, c3⟩ := S.lawful.convexify t t1 (by rw [show (ifopt sqrt).getBoxSize t = t.box from rfl, t3]; exact b0)
  have hrr : r' = r := Option.some.inj (c1.symm.trans t5)
  subst hrr
  refine ⟨t, r', t1, t2, t3, t4, t5, hmod, built_fine S.sqrt S.pos c2 c3 hmod, b0, ?_, ?_⟩
  · rw [hpr]; exact e1
  · rw [hpr]; exact e2

/-- OSQP's program for an `IfoptQPProblem`. -/
theorem program_means {t r : State K} (hl : Live t) (hsqrt : ∀ a : K, 0 ≤ a → sqrt a * sqrt a = a) (hc : t.convexify sqrt = some r)
    (hm : (ofIfopt r).Moderate) (hf : Fine (ofIfopt r)) (q : Qp K) (hq : OsqpEigen.Describes q (ofIfopt r)) (z : Nat → K) :
    (q.Feasible z ↔ IfoptQp.Feasible r z) ∧ |q.value z - objective r z| ≤ 1 / 10 ^ 7 * ∑ c ∈ Finset.range r.nQpVars, |z c| ∧
      ((∀ g ∈ r.gradient, g = 0 ∨ 1 / 10 ^ 7 ≤ |g|) → q.value z = objective r z) := by
  refine ⟨?_, (OsqpEigen.C98_objective_partial q _ hq z).1, (OsqpEigen.C98_objective_partial q _ hq z).2⟩
  rw [OsqpEigen.C98_feasible q _ hf hq hm z]
  unfold OsqpEigen.Problem.Feasible IfoptQp.Feasible QpProblem.RowsHold
  rw [show r.matrix.rows = (ofIfopt r).nc from hf.matrix.1]
  rfl

/-- C133, up to gradient entries below `1e-7`: the `k`-th program given to OSQP is the problem convexified at the best point of that
moment in the trust box and with the merit coefficients reported at that moment, and what the optimizer takes as the answer is OSQP's answer
to that program. -/
theorem C133_programs_partial (S : Setting sqrt D p o s0 qs) {fuel : Nat} {w : Run K (State K)}
    (h : run sqrt p o qs fuel s0 = .ok w ∨ run sqrt p o qs fuel s0 = .fuel w) (hm : Moderate w)
    (k : Nat) (e : Entry K (State K)) (hk : w.log[k]? = some e) :
    e.res.overallIteration = k + 1 ∧ vars e.prob = e.res.bestVars.take D.n ∧ (o.initOk (k + 1) = true → e.program ≠ none) ∧
    (∀ y, e.answer = some y → ∃ q, e.program = some q ∧ o.answer (k + 1) q = some y) ∧
    ∃ r, ConvexifiedAt sqrt D (e.res.bestVars.take D.n) e.res.box e.res.coeffs r ∧ ∀ q, e.program = some q →
      (∀ z, (q.Feasible z ↔ IfoptQp.Feasible r z) ∧ |q.value z - objective r z| ≤ 1 / 10 ^ 7 * ∑ c ∈ Finset.range r.nQpVars, |z c|) ∧
      ((∀ g ∈ r.gradient, g = 0 ∨ 1 / 10 ^ 7 ≤ |g|) → ∀ z, q.Feasible z → (∀ y, q.Feasible y → q.value z ≤ q.value y) →
        InTrust r z ∧ ∀ x, InTrust r x → smooth r z + penaltyOf (problemRows r) z ≤ smooth r x + penaltyOf (problemRows r) x) := by
  have hg := run_good S h
  have he := hg.entries k e hk
  obtain ⟨t, r, t1, t2, t3, t4, t5, t6, t7, t8, t9, t10⟩ := entry_program S hg hm k e hk
  refine ⟨he.iter, he.vars, fun hi => by rw [t10 hi]; simp, fun y hy => (he.answer y hy).2.1, r, ⟨t, t1, t2, t3, t4, t5⟩, ?_⟩
  intro q hq
  have hd := OsqpEigen.posed_describes _ t7
  rw [← t9 q hq] at hd
  have key := program_means t1.live S.sqrt t5 t6 t7 q hd
  refine ⟨fun z => ⟨(key z).1, (key z).2.1⟩, fun hgr z hz hmin => ?_⟩
  obtain ⟨a1, -, a2⟩ := C79_minimiser sqrt S.sqrt t1.live t1.merit t5 z ((key z).1.1 hz) fun y hy => by
    rw [← (key z).2.2 hgr, ← (key y).2.2 hgr]; exact hmin y ((key y).1.2 hy)
  exact ⟨a1, a2⟩

/-! ### C134 -/

/-- C134: what a finished run reports belongs to the variables it leaves in the problem. -/
theorem C134_results (S : Setting sqrt D p o s0 qs) {fuel : Nat} {w : Run K (State K)} (h : run sqrt p o qs fuel s0 = .ok w) :
    vars w.prob = w.res.bestVars.take D.n ∧ w.res.bestCosts = D.costsAt (vars w.prob) ∧ w.res.bestViols = D.viols (vars w.prob) ∧
      w.res.bestExactMerit = (D.costsAt (vars w.prob)).sum + Sqp.dot (D.viols (vars w.prob)) w.res.coeffs := by
  have hg := run_good S (.inl h)
  have hv : vars w.prob = w.res.bestVars.take D.n := hg.vars
  have h1 : w.res.bestCosts = D.costsAt (vars w.prob) := by rw [hv]; exact hg.costs
  have h2 : w.res.bestViols = D.viols (vars w.prob) := by rw [hv]; exact hg.cnts
  refine ⟨hv, h1, h2, ?_⟩
  rw [← h1, ← h2]; exact hg.merit

/-- C134: the optimizer says `kConverged` exactly when the violation of every row of every constraint set at the returned variables is below
`cnt_tolerance`. -/
theorem C134_converged_iff (S : Setting sqrt D p o s0 qs) {fuel : Nat} {w : Run K (State K)} (h : run sqrt p o qs fuel s0 = .ok w)
    (hr : 0 < p.maxMeritCoeffIncreases) : w.status = .converged ↔ ∀ c ∈ D.cnts, ∀ v ∈ rowViols c (vars w.prob), v < p.cntTolerance := by
  obtain ⟨b, g, -, h2⟩ := run_oracle S h
  have hx := x0_length S w.log
  have hv : ∀ v, v ∈ (oracle (meaning sqrt D) o (vars s0) w.log).exactViols (abs (ifopt sqrt) w b g).probVars ↔
      ∃ c ∈ D.cnts, v ∈ rowViols c (vars w.prob) := by
    intro v
    show v ∈ D.cnts.flatMap (fun c => rowViols c (vars w.prob)) ↔ _
    exact List.mem_flatMap
  constructor
  · intro hc c hcm v hvm
    exact Sqp.C21_converged_sound p _ fuel _ hx h2 hc _ ((hv _).2 ⟨c, hcm, hvm⟩)
  · intro hc
    refine Sqp.C21_converged_complete p _ fuel _ hx h2 hr fun v hv' => ?_
    obtain ⟨c, c1, c2⟩ := (hv v).1 hv'
    exact hc c c1 v c2

/-- C134: when the optimizer says `kConverged`, every row of every constraint set is within `cnt_tolerance` of its bounds at the returned
variables; conversely, when every row is strictly within `cnt_tolerance`, it says `kConverged`. -/
theorem C134_converged_rows (S : Setting sqrt D p o s0 qs) {fuel : Nat} {w : Run K (State K)} (h : run sqrt p o qs fuel s0 = .ok w)
    (hr : 0 < p.maxMeritCoeffIncreases) (ht : 0 < p.cntTolerance) : w.status = .converged ↔
      ∀ c ∈ D.cnts, ∀ (i : Nat) v b, (c.ask (ext (vars w.prob))).values[i]? = some v → (c.ask (ext (vars w.prob))).bounds[i]? = some b →
        (∀ l, b.lower = .fin l → l - p.cntTolerance < v) ∧ ∀ u, b.upper = .fin u → v < u + p.cntTolerance := by
  rw [C134_converged_iff S h hr]
  have hg := run_good S (.inl h)
  have hU : Usable D w.prob := hg.inv
  refine forall_congr' fun c => forall_congr' fun hc => ?_
  have hp := (hU.live.described.cnts c (by rw [hU.cnts]; exact hc)).proper (ext (vars w.prob))
  constructor
  · intro hv i v b hi hb
    have hm : violB v (sides b) ∈ rowViols c (vars w.prob) := by
      refine List.mem_of_getElem? (i := i) ?_
      rw [rowViols, calcBoundsViolations, List.getElem?_zipWith_eq_some]
      exact ⟨v, sides b, hi, by rw [List.getElem?_map, hb]; rfl, rfl⟩
    have hlt := hv _ hm
    obtain ⟨-, k1, k2⟩ := violB_ge (hp _ (List.mem_of_getElem? hb)) v
    exact ⟨fun l hl => by have := k1 l hl; linarith, fun u hu => by have := k2 u hu; linarith⟩
  · intro hv v hvm
    obtain ⟨i, hi⟩ := List.mem_iff_getElem?.1 hvm
    rw [rowViols, calcBoundsViolations, List.getElem?_zipWith_eq_some] at hi
    obtain ⟨x, y, hx, hy, rfl⟩ := hi
    rw [List.getElem?_map, Option.map_eq_some_iff] at hy
    obtain ⟨b, hb, rfl⟩ := hy
    obtain ⟨k1, k2⟩ := hv i x b hx hb
    rcases hp b (List.mem_of_getElem? hb) with ⟨l, u, rfl, -⟩ | ⟨l, rfl⟩ | ⟨u, rfl⟩
    · have := k1 l rfl; have := k2 u rfl
      simp only [violB, sides]; split_ifs
      · rw [abs_lt]; constructor <;> linarith
      · rw [abs_lt]; constructor <;> linarith
      · exact ht
    · have := k1 l rfl
      simp only [violB, sides]; split_ifs
      · rw [abs_lt]; constructor <;> linarith
      · exact ht
    · have := k2 u rfl
      simp only [violB, sides]; split_ifs
      · rw [abs_lt]; constructor <;> linarith
      · exact ht

/-! ### C135 -/

/-- A point that satisfies the program up to `ε` is in the variable bounds up to `ε`. -/
theorem answer_bounds (S : Setting sqrt D p o s0 qs) {t r : State K} (t1 : Usable D t) (hb : ∀ a ∈ t.box, 0 ≤ a) (t5 : t.convexify sqrt = some r)
    (hm : (ofIfopt r).Moderate) {ε : K} {z : Nat → K}
    (ha : ∀ (k : Nat) l u, (posed (ofIfopt r)).l[k]? = some l → (posed (ofIfopt r)).u[k]? = some u →
      LowOk l ((posed (ofIfopt r)).A.rowForm k z + ε) ∧ HighOk u ((posed (ofIfopt r)).A.rowForm k z - ε))
    (i : Nat) (lb : Lo K) (ub : Hi K) (hi : D.varBounds[i]? = some (lb, ub)) :
    (∀ l, lb = some l → l - ε ≤ z i) ∧ ∀ u, ub = some u → z i ≤ u + ε := by
  obtain ⟨outs, iv, head, a⟩ := convexified sqrt S.sqrt t1.live t5
  obtain ⟨-, -, -, -, -, -, c1, c2⟩ := convexified_usable S.sqrt t1 t5
  have hvb : t.varBounds[i]? = some (lb, ub) := by rw [t1.varBounds]; exact hi
  have hlt : i < t.nVars := by
    rw [← t1.live.described.varBounds]; exact (List.getElem?_eq_some_iff.1 hvb).1
  have hval : Valid (lb, ub) := t1.live.described.valid _ (List.mem_of_getElem? hvb)
  have hnn : 0 ≤ t.box.getD i 0 := hb _ (by
    rw [List.getD_eq_getElem?_getD, List.getElem?_eq_getElem (by rw [t1.live.box]; exact hlt)]; exact List.getElem_mem _)
  have hgd : t.varBounds.getD i (none, none) = (lb, ub) := by rw [List.getD_eq_getElem?_getD, hvb]; rfl
  have hpl := (problemRows_facts t1.live).1
  set lo := (boxOf (t.box.getD i 0) (t.x i) (lb, ub)).1 with hlo
  set hi' := (boxOf (t.box.getD i 0) (t.x i) (lb, ub)).2 with hhi
  have l1 : r.lower[t.nCnts + i]? = some (.fin lo) := by
    rw [c1, low, List.getElem?_append_left (by simp [hpl, hlt]), List.getElem?_append_right (by simp [hpl]),
      List.length_map, hpl, Nat.add_sub_cancel_left, List.getElem?_map, List.getElem?_range hlt]
    simp only [Option.map_some, hgd, hlo]
  have l2 : r.upper[t.nCnts + i]? = some (.fin hi') := by
    rw [c2, upp, List.getElem?_append_left (by simp [hpl, hlt]), List.getElem?_append_right (by simp [hpl]),
      List.length_map, hpl, Nat.add_sub_cancel_left, List.getElem?_map, List.getElem?_range hlt]
    simp only [Option.map_some, hgd, hhi]
  have hz : tripForm (outs.flatMap (·.trips)) (t.nCnts + i) z = 0 := by
    apply QpProblem.tripForm_zero
    intro q hq
    have := (a.layout.laid.range (n := t.nVars) (le_refl _) a.layout.jac q hq).2.1
    rw [a.layout.rowsLen] at this
    omega
  have hrow : r.matrix.rowForm (t.nCnts + i) z = z i := by
    rw [a.layout.matrix, hz, if_pos (by omega), zero_add, Nat.add_sub_cancel_left]
  have := ha (t.nCnts + i) (clampLo (.fin lo)) (clampHi (.fin hi'))
    (by simp [posed, ofIfopt, l1]) (by simp [posed, ofIfopt, l2])
  rw [clampLo_ok, clampHi_ok] at this
  change LowOk (.fin lo) (r.matrix.rowForm _ z + ε) ∧ HighOk (.fin hi') (r.matrix.rowForm _ z - ε) at this
  rw [hrow] at this
  have m1 := (abs_lt.1 (hm.1 lo (List.mem_of_getElem? l1))).1
  have m2 := (abs_lt.1 (hm.2 hi' (List.mem_of_getElem? l2))).2
  obtain ⟨k1, k2⟩ := this
  have k1 : lo ≤ z i + ε := k1.resolve_left (not_le.2 m1)
  have k2 : z i - ε ≤ hi' := k2.resolve_left (not_le.2 m2)
  have hll : ∀ l, lb = some l → l ≤ lo := by
    rintro l rfl; rw [hlo]; simp [boxOf, maxLo]
  have huu : ∀ u, ub = some u → hi' ≤ u := by
    rintro u rfl; rw [hhi]; simp [boxOf, minHi]
  exact ⟨fun l hl => by have := hll l hl; linarith, fun u hu => by have := huu u hu; linarith⟩

/-- C135: if OSQP's answers satisfy their programs up to `ε`, then the variables a run returns are the initial ones or satisfy the bounds of the
variables up to `ε`. -/
theorem C135_within_bounds (S : Setting sqrt D p o s0 qs) {fuel : Nat} {w : Run K (State K)} (h : run sqrt p o qs fuel s0 = .ok w)
    (hm : Moderate w) {ε : K} (ha : o.Accurate ε) :
    vars w.prob = vars s0 ∨ ∀ (i : Nat) lb ub x, D.varBounds[i]? = some (lb, ub) → (vars w.prob)[i]? = some x →
      (∀ l, lb = some l → l - ε ≤ x) ∧ ∀ u, ub = some u → x ≤ u + ε := by
  obtain ⟨b, g, -, h2⟩ := run_oracle S h
  have hx := x0_length S w.log
  have hg := run_good S (.inl h)
  have hv : vars w.prob = w.res.bestVars.take D.n := hg.vars
  rcases best_origin p _ fuel _ hx h2 with h3 | ⟨k, c, d, h3⟩
  · left
    have : w.res.bestVars = vars s0 := h3
    rw [hv, this]
    exact List.take_of_length_le (by rw [show (vars s0).length = D.n from hx])
  · right
    have h3' : (oracle (meaning sqrt D) o (vars s0) w.log).qp k c d = some w.res.bestVars := h3
    cases hk : w.log[k - 1]? with
    | none => simp only [oracle, hk] at h3'; cases h3'
    | some e =>
      simp only [oracle, hk] at h3'
      obtain ⟨-, ⟨q, q1, q2⟩, -, -⟩ := (hg.entries _ e hk).answer _ h3'
      obtain ⟨t, r, t1, t2, t3, t4, t5, t6, t7, t8, t9, t10⟩ := entry_program S hg hm _ e hk
      have hq := t9 q q1
      subst hq
      intro i lb ub x hi hxi
      have key := answer_bounds S t1 (by rw [t3]; exact t8) t5 t6 (z := ext w.res.bestVars) (fun k l u hl hu => ha _ _ _ q2 k l u hl hu) i lb ub hi
      have hx' : ext w.res.bestVars i = x := by
        rw [hv, List.getElem?_take] at hxi
        split_ifs at hxi
        simp [ext, hxi]
      rw [hx'] at key
      exact key

/-- Without constraints, and with all variable bounds finite and inside OSQP's range, every program of every run is. -/
theorem run_moderate (S : Setting sqrt D p o s0 qs) (h2 : D.cnts = []) {M : K} (hM : M < osqpInfty)
    (hb : ∀ b ∈ D.varBounds, ∃ l u, b = (some l, some u) ∧ -M ≤ l ∧ u ≤ M) {w : Run K (State K)}
    (hg : Good (ifopt sqrt) (meaning sqrt D) o w) : Moderate w := by
  have key : ∀ s, Usable D s → Built sqrt D s → (ofIfopt s).Moderate := by
    rintro s hs ⟨t, r, y, d, t1, t2, t3, t4, t5, t6, t7⟩
    have hrows : problemRows t = [] := List.length_eq_zero_iff.1 (by rw [rows_length t1, Desc.m, h2]; rfl)
    have hiv : ∀ i < t.nVars, -M ≤ (boxOf (d.getD i 0) (y i) (t.varBounds.getD i (none, none))).1 ∧
        (boxOf (d.getD i 0) (y i) (t.varBounds.getD i (none, none))).1 ≤ (boxOf (d.getD i 0) (y i) (t.varBounds.getD i (none, none))).2 ∧
        (boxOf (d.getD i 0) (y i) (t.varBounds.getD i (none, none))).2 ≤ M := by
      intro i hi
      have hmem : t.varBounds.getD i (none, none) ∈ t.varBounds := by
        rw [List.getD_eq_getElem?_getD, List.getElem?_eq_getElem (by rw [t1.live.described.varBounds]; exact hi)]; exact List.getElem_mem _
      have hval := t1.live.described.valid _ hmem
      have hd : 0 ≤ d.getD i 0 := t5 _ (by
        have := t1.nVars
        rw [List.getD_eq_getElem?_getD, List.getElem?_eq_getElem (by omega)]; exact List.getElem_mem _)
      obtain ⟨l, u, e, g1, g2⟩ := hb _ (by rw [← t1.varBounds]; exact hmem)
      rw [e] at hval ⊢
      have hlu := hval l u rfl rfl
      simp only [boxOf, maxLo, minHi]
      refine ⟨g1.trans (le_max_right _ _), ?_, (min_le_right _ _).trans g2⟩
      have c1 : l ≤ max (min (y i) u) l := le_max_right _ _
      have c2 : max (min (y i) u) l ≤ u := max_le (min_le_right _ _) hlu
      exact max_le (le_min (by linarith) (by linarith)) (le_min (by linarith) hlu)
    constructor
    · intro l hl
      have hl' : Ext.fin l ∈ s.lower := hl
      rw [t6, low, hrows] at hl'
      simp only [List.map_nil, List.nil_append, List.mem_append, List.mem_map, List.mem_range, List.mem_replicate] at hl'
      have hM0 : 0 ≤ M := by
        obtain ⟨x1, x2, x3⟩ := hiv 0 (by rw [t1.nVars]; exact S.pos); linarith
      rcases hl' with ⟨i, hi, e⟩ | ⟨-, e⟩
      · injection e with e
        obtain ⟨x1, x2, x3⟩ := hiv i hi
        rw [abs_lt, ← e]; constructor <;> linarith
      · injection e with e
        rw [e, abs_zero]; linarith
    · intro l hl
      have hl' : Ext.fin l ∈ s.upper := hl
      rw [t7, upp, hrows] at hl'
      simp only [List.map_nil, List.nil_append, List.mem_append, List.mem_map, List.mem_range, List.mem_replicate] at hl'
      rcases hl' with ⟨i, hi, e⟩ | ⟨-, e⟩
      · injection e with e
        obtain ⟨x1, x2, x3⟩ := hiv i hi
        rw [abs_lt, ← e]; constructor <;> linarith
      · cases e
  constructor
  · intro q hq
    obtain ⟨s, a1, a2, -, -, rfl⟩ := hg.sent q hq
    exact key s a1 a2
  · intro e he
    obtain ⟨i, hi⟩ := List.mem_iff_getElem?.1 he
    have := hg.entries i e hi
    exact key e.prob this.inv this.asm

end

/-! ### Examples -/

/-- One variable at `3` in `[0, 10]` with the squared cost `(x - 2)^2`. -/
noncomputable def tame : State ℝ :=
  { nVars := 1, varBounds := [(some 0, some 10)], x := fun i => if i = 0 then 3 else 0
    costs := [(true, lineSet 1 0 1 ⟨.fin 2, .fin 2, .equality⟩)], costSets := [lineSet 1 0 1 ⟨.fin 2, .fin 2, .equality⟩] }

/-- The same with the constraint `x <= 1`. -/
noncomputable def tied : State ℝ := { tame with cnts := [lineSet 1 0 1 ⟨.negInf, .fin 1, .upperBound⟩] }

theorem tame_described : Described tame := by
  refine ⟨by simp [tame], ?_, ?_, rfl, ?_⟩
  · intro c hc
    simp only [tame, List.mem_singleton] at hc
    subst hc; exact lineSet_cost 1 0 1 _
  · intro c hc
    simp only [tame, List.mem_singleton] at hc
    subst hc; exact lineSet_cost 1 0 1 _
  · intro b hb
    simp only [tame, List.mem_singleton] at hb
    subst hb; intro l u h1 h2
    simp at h1 h2; subst h1; subst h2; norm_num

theorem tied_described : Described tied := by
  refine ⟨?_, tame_described.costSets, tame_described.costs, rfl, tame_described.valid⟩
  intro c hc
  simp only [tied, List.mem_singleton] at hc
  subst hc; exact lineSet_cnt 1 0 1 _ (.inr (.inr ⟨_, rfl⟩))

theorem tame_tail : ∀ i, tame.nVars ≤ i → tame.x i = 0 := by
  intro i hi
  have : i ≠ 0 := by have : 1 ≤ i := hi; omega
  simp [tame, this]

/-- C133 and C134 apply to a problem with a constraint: the run ends, and then the report is right. -/
example : ∃ s0, tied.setup = some s0 ∧ ∃ F w, ∀ fuel, F ≤ fuel → run Real.sqrt SqpRun.niceParams SqpRun.niceWorld { warmStarting := true } fuel s0 = .ok w ∧
    (w.status = .converged ↔ ∀ c ∈ tied.cnts, ∀ v ∈ rowViols c (vars w.prob), v < 1 / 10000) := by
  obtain ⟨s0, a1, a2⟩ := setup_usable tied_described tame_tail
  have S : Setting Real.sqrt (descOf tied) SqpRun.niceParams SqpRun.niceWorld s0 { warmStarting := true } :=
    ⟨fun _ h => Real.mul_self_sqrt h, Nat.one_pos, a2, SqpRun.nice_sane, SqpRun.niceWorld_sized, reusable_new _ _ _⟩
  obtain ⟨F, w, h⟩ := C133_returns S (by norm_num [SqpRun.niceParams]) (by norm_num [SqpRun.niceParams])
  exact ⟨s0, a1, F, w, fun fuel hf => ⟨h fuel hf, C134_converged_iff S (h fuel hf) (by norm_num [SqpRun.niceParams])⟩⟩

/-- C133 and C135 apply to a run whose programs are all in range. -/
example : ∃ s0 fuel w, tame.setup = some s0 ∧ run Real.sqrt SqpRun.niceParams SqpRun.niceWorld { warmStarting := true } fuel s0 = .ok w ∧ Moderate w ∧
    SqpRun.niceWorld.Accurate 0 := by
  obtain ⟨s0, a1, a2⟩ := setup_usable tame_described tame_tail
  have S : Setting Real.sqrt (descOf tame) SqpRun.niceParams SqpRun.niceWorld s0 { warmStarting := true } :=
    ⟨fun _ h => Real.mul_self_sqrt h, Nat.one_pos, a2, SqpRun.nice_sane, SqpRun.niceWorld_sized, reusable_new _ _ _⟩
  obtain ⟨F, w, h⟩ := C133_returns S (by norm_num [SqpRun.niceParams]) (by norm_num [SqpRun.niceParams])
  refine ⟨s0, F, w, a1, h F (le_refl _), ?_, SqpRun.niceWorld_accurate⟩
  refine run_moderate S rfl (M := 10) (by norm_num [osqpInfty]) ?_ (run_good S (.inl (h F (le_refl _))))
  intro b hb
  simp only [descOf, tame, List.mem_singleton] at hb
  exact ⟨0, 10, hb, by norm_num, le_refl _⟩

end Verif.SqpIfopt
