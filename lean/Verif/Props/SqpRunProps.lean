import Verif.Props.SqpRunLawful

/-!
C130, C131 and C132: whole runs of `TrustRegionSQPSolver` on a `TrajOptQPProblem` with an `OSQPEigenSolver`.
-/

set_option linter.unusedSectionVars false
set_option linter.unusedVariables false

namespace Verif.SqpRun

open Verif.Bounds Verif.Sco Verif.QpProblem
open Verif.Sqp (Params Status Env St)
open Verif.OsqpEigen (Problem Fine Qp Solver posed)

universe u
variable {K : Type u} [Field K] [LinearOrder K] [IsStrictOrderedRing K]

/-! ### Specification -/

/-- Specification: a run starts with a `TrajOptQPProblem` for `D` that has been set up, an `OSQPEigenSolver` that is new or has been
used before (see `Reusable`), parameters without negative
numbers where sizes and weights are expected, and a QP library that answers with one value per variable. -/
structure Setting (sqrt : K → K) (hash : (Nat → K) → Nat) (D : Desc K) (p : Params K) (o : World K) (s0 : State K) (qs : Solver K) : Prop where
  sqrt : ∀ a : K, 0 ≤ a → sqrt a * sqrt a = a
  regular : D.Regular hash
  usable : Usable hash D s0
  sane : Sane p
  sized : o.Sized
  reusable : Reusable qs s0.nQpVars s0.nQpCnts

/-- The variables a problem object holds. -/
def vars (s : State K) : List K := (List.range s.nVars).map s.x

/-- A run from `s0` with the QP solver `qs`. -/
def run (sqrt : K → K) (hash : (Nat → K) → Nat) (junk : Nat → Ext K) (p : Params K) (o : World K) (qs : Solver K) (fuel : Nat) (s0 : State K) :
    Out K (State K) (Run K (State K)) :=
  solve (trajOpt sqrt hash junk) p o fuel s0 qs

/-- Specification: `r` is the problem convexified at `x` in the box `b` with the merit coefficients `μ`. -/
def ConvexifiedAt (sqrt : K → K) (junk : Nat → Ext K) (hash : (Nat → K) → Nat) (D : Desc K) (x b μ : List K) (r : State K) : Prop :=
  ∃ t, Usable hash D t ∧ t.x = ext x ∧ t.box = b ∧ t.meritCoeff = μ ∧ t.convexify sqrt junk = some r

/-- Specification: OSQP's answers satisfy the rows of the program up to `ε`. -/
def World.Accurate (o : World K) (ε : K) : Prop := ∀ k q y, o.answer k q = some y → ∀ (r : Nat) l u, q.l[r]? = some l → q.u[r]? = some u →
  LowOk l (q.A.rowForm r (ext y) + ε) ∧ HighOk u (q.A.rowForm r (ext y) - ε)

/-! ### Setup gives a usable problem -/

/-- The problem described by the sets added so far. -/
def descOf (s : State K) : Desc K :=
  ⟨s.nVars, s.varBounds, s.squared ++ s.dynSquared, s.hinge ++ s.dynHinge ++ s.absolute ++ s.dynAbsolute, s.cnts ++ s.dynCnts⟩

theorem setup_usable (hash : (Nat → K) → Nat) {s : State K} (h : Described s) (hi : s.initialized = false) (ht : ∀ i, s.nVars ≤ i → s.x i = 0) (junk : Nat → Ext K) :
    Usable hash (descOf s) (s.setup junk) := by
  obtain ⟨l, -⟩ := setup_live h hi junk
  have hi' : s.setupLists.initialized = false := hi
  refine ⟨l, ?_, ?_, ?_, ?_, ?_, ?_, ?_⟩ <;>
    (unfold State.setup State.update; rw [hi', Bool.false_and, if_neg (by simp)])
  · rfl
  · rfl
  · rfl
  · rfl
  · rfl
  · exact ht
  · rfl

/-! ### Facts about a run -/

section
variable {sqrt : K → K} {hash : (Nat → K) → Nat} {junk : Nat → Ext K} {D : Desc K} {p : Params K} {o : World K} {s0 : State K} {qs : Solver K}

theorem run_sim (S : Setting sqrt hash D p o s0 qs) (fuel : Nat) :
    SimSolve (trajOpt sqrt hash junk) (meaning sqrt hash junk D) o s0 (fun e => Sqp.solve p e fuel) (run sqrt hash junk p o qs fuel s0) :=
  solve_sim (trajOpt_lawful S.sqrt junk S.regular) S.sane S.sized fuel s0 S.usable _ S.reusable.1 S.reusable.2

theorem run_good (S : Setting sqrt hash D p o s0 qs) {fuel : Nat} {w : Run K (State K)}
    (h : run sqrt hash junk p o qs fuel s0 = .ok w ∨ run sqrt hash junk p o qs fuel s0 = .fuel w) :
    Good (trajOpt sqrt hash junk) (meaning sqrt hash junk D) o w := by
  have hs := run_sim (junk := junk) S fuel
  rcases h with h | h <;> rw [h] at hs <;> exact hs.1

theorem sent_fine (S : Setting sqrt hash D p o s0 qs) {w : Run K (State K)} (hg : Good (trajOpt sqrt hash junk) (meaning sqrt hash junk D) o w)
    (hm : ∀ q ∈ w.sent, q.Moderate) : ∀ q ∈ w.sent, Fine q := by
  intro q hq
  obtain ⟨s, a1, a2, -, -, rfl⟩ := hg.sent q hq
  exact built_fine S.sqrt S.regular a1 a2 (hm _ hq)

theorem best_origin (p : Params K) (e : Env K) (fuel : Nat) (s : St K) (hx : e.x0.length = e.nVars) (hr : Sqp.solve p e fuel = some s) :
    s.bestVars = e.x0 ∨ ∃ k c d, e.qp k c d = some s.bestVars := by
  have conv : ∀ (k : Nat) (s s' : St K), Sqp.Consistent e s → Sqp.convexLoop p e fuel k s = some s' →
      s'.bestVars = s.bestVars ∨ ∃ k c d, e.qp k c d = some s'.bestVars := by
    intro k
    induction k with
    | zero => intro s s' _ h; simp [Sqp.convexLoop] at h; subst h; exact .inl rfl
    | succ k ih =>
      intro s s' hc h
      unfold Sqp.convexLoop at h
      simp only at h
      split_ifs at h
      · cases h; exact .inl rfl
      · cases h; exact .inl rfl
      · have hc1 : Sqp.Consistent e { s with clockReads := s.clockReads + 1 } :=
          ⟨hc.vars, hc.costs, hc.viols, hc.merit, hc.pbox, hc.pcoeffs, hc.trace⟩
        have hkey : ∀ s1 b, Sqp.stepSQPSolver p e fuel { s with clockReads := s.clockReads + 1 } = some (s1, b) →
            Sqp.Consistent e s1 ∧ (s1.bestVars = s.bestVars ∨ ∃ k c d, e.qp k c d = some s1.bestVars) := by
          intro s1 b h1
          refine ⟨(Sqp.step_spec p e fuel _ s1 b hc1 h1).1, ?_⟩
          rcases Sqp.C23_step_accept_or_keep p e fuel _ s1 b hc1 h1 with h2 | ⟨k, c, d, y, h2, h3, -⟩
          · exact .inl h2.1
          · exact .inr ⟨k, c, d, by rw [h3]; exact h2⟩
        split at h
        · cases h
        · rename_i s1 h1
          cases h
          exact (hkey _ _ h1).2
        · rename_i s1 h1
          obtain ⟨g1, g2⟩ := hkey _ _ h1
          rcases ih s1 s' g1 h with h3 | h3
          · rw [h3]; exact g2
          · exact .inr h3
  have pen : ∀ (m i : Nat) (s s' : St K), Sqp.Consistent e s → s.status = .running → Sqp.penaltyLoop p e fuel m i s = some s' →
      s'.bestVars = s.bestVars ∨ ∃ k c d, e.qp k c d = some s'.bestVars := by
    intro m
    induction m with
    | zero => intro i s s' _ _ h; simp [Sqp.penaltyLoop] at h; subst h; exact .inl rfl
    | succ m ih =>
      intro i s s' hc hs h
      unfold Sqp.penaltyLoop at h
      simp only at h
      have hc1 : Sqp.Consistent e { s with penaltyIteration := i, convexifyIteration := 0 } :=
        ⟨hc.vars, hc.costs, hc.viols, hc.merit, hc.pbox, hc.pcoeffs, hc.trace⟩
      split at h
      · cases h
      · rename_i s1 h1
        have k1 := conv _ _ _ hc1 h1
        have k2 := (Sqp.convexLoop_spec p e fuel _ _ _ hc1 h1).1
        split_ifs at h
        · cases h; exact k1
        · cases h; exact k1
        · have hc2 : Sqp.Consistent e { s1 with status := .running } :=
            ⟨k2.vars, k2.costs, k2.viols, k2.merit, k2.pbox, k2.pcoeffs, k2.trace⟩
          obtain ⟨j1, j2, j3⟩ := Sqp.adjust_consistent p e _ hc2
          have := ih (i + 1) _ s' j1 (by rfl) h
          rcases this with h3 | h3
          · rw [h3, j3]; exact k1
          · exact .inr h3
  unfold Sqp.solve at hr
  split at hr
  · cases hr
  · rename_i t ht
    have := pen _ _ _ _ (Sqp.init_consistent p e hx) rfl ht
    injection hr with hr
    have e1 : s.bestVars = t.bestVars := by rw [← hr]; simp only [Sqp.setVariables]; split_ifs <;> rfl
    rw [e1]
    exact this

/-- The state of the oracle model that belongs to a finished run. -/
theorem run_oracle (S : Setting sqrt hash D p o s0 qs) {fuel : Nat} {w : Run K (State K)} (h : run sqrt hash junk p o qs fuel s0 = .ok w) :
    ∃ b g, w.res.box = List.replicate D.n b ∧ Sqp.solve p (oracle (meaning sqrt hash junk D) o (vars s0) w.log) fuel = some (abs (trajOpt sqrt hash junk) w b g) := by
  have hs := run_sim (junk := junk) S fuel
  rw [h] at hs
  exact hs.2 _ (oracle_agree _ _) rfl

theorem x0_length (S : Setting sqrt hash D p o s0 qs) (log : List (Entry K (State K))) :
    (oracle (meaning sqrt hash junk D) o (vars s0) log).x0.length = (oracle (meaning sqrt hash junk D) o (vars s0) log).nVars := by
  show ((List.range s0.nVars).map s0.x).length = D.n
  simp [S.usable.nVars]

/-! ### C130 -/

/-- C130: nothing fails: no assertion, exception, index out of range or mismatch of sizes, for any answers of OSQP, any callbacks and any
clock. -/
theorem C130_never_fails (S : Setting sqrt hash D p o s0 qs) (junk : Nat → Ext K) (fuel : Nat) : run sqrt hash junk p o qs fuel s0 ≠ .fail := by
  intro h
  have hs := run_sim (junk := junk) S fuel
  rw [h] at hs
  exact hs

/-- C130: the optimizer returns. -/
theorem C130_returns [Archimedean K] (S : Setting sqrt hash D p o s0 qs) (junk : Nat → Ext K) (hmin : 0 < p.minTrustBoxSize) (hs1 : p.trustShrinkRatio < 1) :
    ∃ F w, ∀ fuel, F ≤ fuel → run sqrt hash junk p o qs fuel s0 = .ok w :=
  solve_ends (trajOpt_lawful S.sqrt junk S.regular) S.sane S.sized hmin hs1 s0 S.usable _ S.reusable.1 S.reusable.2

/-- Specification: the finite bounds of all programs of a run are inside OSQP's range. -/
def Run.Moderate (w : Run K (State K)) : Prop := (∀ q ∈ w.sent, q.Moderate) ∧ ∀ e ∈ w.log, (OsqpEigen.ofState e.prob).Moderate

/-- The program of the `k`-th call. -/
theorem entry_program (S : Setting sqrt hash D p o s0 qs) {w : Run K (State K)} (hg : Good (trajOpt sqrt hash junk) (meaning sqrt hash junk D) o w)
    (hm : w.Moderate) (k : Nat) (e : Entry K (State K)) (hk : w.log[k]? = some e) :
    ∃ t r, Usable hash D t ∧ t.x = ext (e.res.bestVars.take D.n) ∧ t.box = e.res.box ∧ t.meritCoeff = e.res.coeffs ∧ t.convexify sqrt junk = some r ∧
      (OsqpEigen.ofState r).Moderate ∧ Fine (OsqpEigen.ofState r) ∧ (∀ a ∈ e.res.box, 0 ≤ a) ∧ (∀ q, e.program = some q → q = posed (OsqpEigen.ofState r)) ∧
      (o.initOk (k + 1) = true → e.program = some (posed (OsqpEigen.ofState r))) := by
  have he := hg.entries k e hk
  obtain ⟨e1, e2⟩ := he.program (sent_fine S hg hm.1)
  obtain ⟨b0, t, r, t1, t2, t3, t4, t5, t6⟩ := he.cvx
  have hpr : posed (OsqpEigen.ofState r) = posed ((trajOpt sqrt hash junk).qp e.prob) := by
    show _ = posed (OsqpEigen.ofState e.prob)
    simp only [posed, OsqpEigen.ofState, t6.nQpVars, t6.nQpCnts, t6.hessian, t6.gradient, t6.matrix, t6.lower, t6.upper]
  have hmod : (OsqpEigen.ofState r).Moderate := by
    have := hm.2 e (List.mem_of_getElem? hk)
    unfold OsqpEigen.Problem.Moderate OsqpEigen.ofState at this ⊢
    simp only [t6.lower, t6.upper] at this
    exact this
  obtain ⟨r', c1, c2, -, -, -, -, c3⟩ := (trajOpt_lawful S.sqrt junk S.regular).convexify t t1 (by rw [show (trajOpt sqrt hash junk).getBoxSize t = t.box from rfl, t3]; exact b0)
  have hrr : r' = r := Option.some.inj (c1.symm.trans t5)
  subst hrr
  refine ⟨t, r', t1, t2, t3, t4, t5, hmod, built_fine S.sqrt S.regular c2 c3 hmod, b0, ?_, ?_⟩
  · rw [hpr]; exact e1
  · rw [hpr]; exact e2

/-- C130, up to gradient entries below `1e-7`: the `k`-th program given to OSQP is the problem convexified at the best point of that
moment in the trust box and with the merit coefficients reported at that moment, and what the optimizer takes as the answer is OSQP's answer
to that program. -/
theorem C130_programs_partial (S : Setting sqrt hash D p o s0 qs) {fuel : Nat} {w : Run K (State K)}
    (h : run sqrt hash junk p o qs fuel s0 = .ok w ∨ run sqrt hash junk p o qs fuel s0 = .fuel w) (hm : w.Moderate)
    (k : Nat) (e : Entry K (State K)) (hk : w.log[k]? = some e) :
    e.res.overallIteration = k + 1 ∧ vars e.prob = e.res.bestVars.take D.n ∧ (o.initOk (k + 1) = true → e.program ≠ none) ∧
    (∀ y, e.answer = some y → ∃ q, e.program = some q ∧ o.answer (k + 1) q = some y) ∧
    ∃ r, ConvexifiedAt sqrt junk hash D (e.res.bestVars.take D.n) e.res.box e.res.coeffs r ∧ ∀ q, e.program = some q →
      (∀ z, (q.Feasible z ↔ QpFeasible r z) ∧ |q.value z - qpObjective r z| ≤ 1 / 10 ^ 7 * ∑ c ∈ Finset.range r.nQpVars, |z c|) ∧
      ((∀ g ∈ r.gradient, g = 0 ∨ 1 / 10 ^ 7 ≤ |g|) → ∀ z, q.Feasible z → (∀ y, q.Feasible y → q.value z ≤ q.value y) →
        InBox r z ∧ ∀ x, InBox r x → smoothCost r z + penaltyOf (problemRows (usedMerit r.meritInfos r.meritCoeff) r) z ≤
          smoothCost r x + penaltyOf (problemRows (usedMerit r.meritInfos r.meritCoeff) r) x) := by
  have hg := run_good S h
  have he := hg.entries k e hk
  obtain ⟨t, r, t1, t2, t3, t4, t5, t6, t7, t8, t9, t10⟩ := entry_program S hg hm k e hk
  refine ⟨he.iter, he.vars, fun hi => by rw [t10 hi]; simp, fun y hy => (he.answer y hy).2.1, r, ⟨t, t1, t2, t3, t4, t5⟩, ?_⟩
  intro q hq
  have hd := OsqpEigen.posed_describes _ t7
  rw [← t9 q hq] at hd
  exact ⟨fun z => OsqpEigen.C98_trajopt_partial t1.live sqrt S.sqrt junk t5 t6 t7 q hd z,
    fun hgr z hz hmin => OsqpEigen.C98_minimiser_partial t1.live sqrt S.sqrt junk t5 t6 t7 hgr q hd z hz hmin⟩

/-! ### C131 -/

/-- C131: what a finished run reports belongs to the variables it leaves in the problem. -/
theorem C131_results (S : Setting sqrt hash D p o s0 qs) {fuel : Nat} {w : Run K (State K)} (h : run sqrt hash junk p o qs fuel s0 = .ok w) :
    vars w.prob = w.res.bestVars.take D.n ∧ w.res.bestCosts = D.costs (vars w.prob) ∧ w.res.bestViols = D.viols (vars w.prob) ∧
      w.res.bestExactMerit = (D.costs (vars w.prob)).sum + Sqp.dot (D.viols (vars w.prob)) w.res.coeffs := by
  have hg := run_good S (.inl h)
  have hv : vars w.prob = w.res.bestVars.take D.n := hg.vars
  have h1 : w.res.bestCosts = D.costs (vars w.prob) := by rw [hv]; exact hg.costs
  have h2 : w.res.bestViols = D.viols (vars w.prob) := by rw [hv]; exact hg.cnts
  refine ⟨hv, h1, h2, ?_⟩
  rw [← h1, ← h2]; exact hg.merit

/-- C131: the optimizer says `kConverged` exactly when the violation of every constraint set at the returned variables is below
`cnt_tolerance`. -/
theorem C131_converged_iff (S : Setting sqrt hash D p o s0 qs) {fuel : Nat} {w : Run K (State K)} (h : run sqrt hash junk p o qs fuel s0 = .ok w)
    (hr : 0 < p.maxMeritCoeffIncreases) : w.status = .converged ↔ ∀ c ∈ D.merit, violationOf c (vars w.prob) < p.cntTolerance := by
  obtain ⟨b, g, -, h2⟩ := run_oracle S h
  have hx := x0_length (junk := junk) S w.log
  have hv : ∀ v, v ∈ (oracle (meaning sqrt hash junk D) o (vars s0) w.log).exactViols (abs (trajOpt sqrt hash junk) w b g).probVars ↔
      ∃ c ∈ D.merit, violationOf c (vars w.prob) = v := by
    intro v
    show v ∈ D.merit.map (fun c => violationOf c (vars w.prob)) ↔ _
    exact List.mem_map
  constructor
  · intro hc c hcm
    exact Sqp.C21_converged_sound p _ fuel _ hx h2 hc _ ((hv _).2 ⟨c, hcm, rfl⟩)
  · intro hc
    refine Sqp.C21_converged_complete p _ fuel _ hx h2 hr fun v hv' => ?_
    obtain ⟨c, c1, rfl⟩ := (hv v).1 hv'
    exact hc c c1

theorem violB_ge {b : Bounds K} (hp : Proper b) (v : K) : 0 ≤ violB v (sides b) ∧ (∀ l, b.lower = .fin l → l - v ≤ violB v (sides b)) ∧
    ∀ u, b.upper = .fin u → v - u ≤ violB v (sides b) := by
  rcases hp with ⟨l, u, rfl, hlu⟩ | ⟨l, rfl⟩ | ⟨u, rfl⟩
  · refine ⟨?_, fun l' hl => ?_, fun u' hu => ?_⟩
    · simp only [violB, sides]; split_ifs <;> first | exact abs_nonneg _ | exact le_refl _
    · injection hl with hl; subst hl
      simp only [violB, sides]; split_ifs
      · rw [abs_sub_comm]; exact le_abs_self _
      · exact (by linarith : _ ≤ (0 : K)).trans (abs_nonneg _)
      · linarith
    · injection hu with hu; subst hu
      simp only [violB, sides]; split_ifs
      · exact (by linarith : _ ≤ (0 : K)).trans (abs_nonneg _)
      · exact le_abs_self _
      · linarith
  · refine ⟨?_, fun l' hl => ?_, (fun u' hu => by cases hu)⟩
    · simp only [violB, sides]; split_ifs <;> first | exact abs_nonneg _ | exact le_refl _
    · injection hl with hl; subst hl
      simp only [violB, sides]; split_ifs
      · rw [abs_sub_comm]; exact le_abs_self _
      · linarith
  · refine ⟨?_, (fun u' hu => by cases hu), fun l' hl => ?_⟩
    · simp only [violB, sides]; split_ifs <;> first | exact abs_nonneg _ | exact le_refl _
    · injection hl with hl; subst hl
      simp only [violB, sides]; split_ifs
      · exact le_abs_self _
      · linarith

theorem le_sum_of_getElem {l : List K} (h : ∀ a ∈ l, 0 ≤ a) {i : Nat} {a : K} (hi : l[i]? = some a) : a ≤ l.sum := by
  exact List.single_le_sum h a (List.mem_of_getElem? hi)

/-- C131: when the optimizer says `kConverged`, every row of every constraint set is within `cnt_tolerance` of its bounds at the returned
variables. -/
theorem C131_converged_rows (S : Setting sqrt hash D p o s0 qs) {fuel : Nat} {w : Run K (State K)} (h : run sqrt hash junk p o qs fuel s0 = .ok w)
    (hc : w.status = .converged) (c : Comp K) (hcm : c ∈ D.merit) (i : Nat) (v : K) (b : Bounds K) (hi : (at' c (vars w.prob)).values[i]? = some v)
    (hb : (at' c (vars w.prob)).bounds[i]? = some b) :
    (∀ l, b.lower = .fin l → l - p.cntTolerance < v) ∧ ∀ u, b.upper = .fin u → v < u + p.cntTolerance := by
  obtain ⟨b', g, -, h2⟩ := run_oracle S h
  have hx := x0_length (junk := junk) S w.log
  have hlt : violationOf c (vars w.prob) < p.cntTolerance :=
    Sqp.C21_converged_sound p _ fuel _ hx h2 hc _ (List.mem_map.2 ⟨c, hcm, rfl⟩)
  have hg := run_good S (.inl h)
  have hU : Usable hash D w.prob := hg.inv
  have hf := hU.live.finM c (by rw [hU.merit]; exact hcm)
  have hprop : ∀ b ∈ (at' c (vars w.prob)).bounds, Proper b := (hf.2 _ _).proper
  have hnn : ∀ a ∈ calcBoundsViolations (at' c (vars w.prob)).values ((at' c (vars w.prob)).bounds.map sides), 0 ≤ a := by
    intro a ha
    obtain ⟨j, hj⟩ := List.mem_iff_getElem?.1 ha
    rw [calcBoundsViolations, List.getElem?_zipWith_eq_some] at hj
    obtain ⟨x, y, -, hy, rfl⟩ := hj
    rw [List.getElem?_map, Option.map_eq_some_iff] at hy
    obtain ⟨bb, hbb, rfl⟩ := hy
    exact (violB_ge (hprop _ (List.mem_of_getElem? hbb)) x).1
  have hle : violB v (sides b) ≤ violationOf c (vars w.prob) := by
    refine le_sum_of_getElem hnn (i := i) ?_
    rw [calcBoundsViolations, List.getElem?_zipWith_eq_some]
    exact ⟨v, sides b, hi, by rw [List.getElem?_map, hb]; rfl, rfl⟩
  obtain ⟨-, k1, k2⟩ := violB_ge (hprop _ (List.mem_of_getElem? hb)) v
  exact ⟨fun l hl => by have := k1 l hl; linarith, fun u hu => by have := k2 u hu; linarith⟩

/-! ### C132 -/

/-- A point that satisfies the program up to `ε` is in the variable bounds up to `ε`. -/
theorem answer_bounds (S : Setting sqrt hash D p o s0 qs) {t r : State K} (t1 : Usable hash D t) (hb : ∀ a ∈ t.box, 0 ≤ a) (t5 : t.convexify sqrt junk = some r)
    (hm : (OsqpEigen.ofState r).Moderate) {ε : K} {z : Nat → K}
    (ha : ∀ (k : Nat) l u, (posed (OsqpEigen.ofState r)).l[k]? = some l → (posed (OsqpEigen.ofState r)).u[k]? = some u →
      LowOk l ((posed (OsqpEigen.ofState r)).A.rowForm k z + ε) ∧ HighOk u ((posed (OsqpEigen.ofState r)).A.rowForm k z - ε))
    (i : Nat) (lb : Lo K) (ub : Hi K) (hi : D.varBounds[i]? = some (lb, ub)) :
    (∀ l, lb = some l → l - ε ≤ z i) ∧ ∀ u, ub = some u → z i ≤ u + ε := by
  obtain ⟨r', outs, iv, head, c1, c2, c3, -, -⟩ := t1.live.convexify sqrt S.sqrt junk
  have hrr : r' = r := Option.some.inj (c1.symm.trans t5)
  subst hrr
  have g : (t.update junk).nVars = t.nVars ∧ (t.update junk).varBounds = t.varBounds ∧ (t.update junk).box = t.box := by
    unfold State.update; split_ifs <;> exact ⟨rfl, rfl, rfl⟩
  have hvb : (t.update junk).varBounds[i]? = some (lb, ub) := by rw [g.2.1, t1.varBounds]; exact hi
  have hlt : i < (t.update junk).nVars := by
    rw [← c2.varBounds]; exact (List.getElem?_eq_some_iff.1 hvb).1
  have hbx := List.getElem?_eq_getElem (l := (t.update junk).box) (i := i) (by rw [c2.box]; exact hlt)
  obtain ⟨lo, hi', e1, e2⟩ := c3.iv i _ lb ub hbx hvb
  have hval : Valid (lb, ub) := t1.live.valid _ (by rw [t1.varBounds]; exact List.mem_of_getElem? hi)
  have hnn : 0 ≤ (t.update junk).box[i]'(by rw [c2.box]; exact hlt) := hb _ (by rw [← g.2.2]; exact List.getElem_mem _)
  obtain ⟨lo2, hi2, f1, xi, -, -, -, f2, f3, f4⟩ := C16_trust_interval _ ((t.update junk).x i) lb ub hval hnn
  rw [e1] at f1
  injection f1 with f1; injection f1 with f1 f1'
  subst f1; subst f1'
  have i1 : Inside lo (lb, ub) := ((f4 lo).1 ⟨le_refl _, f2.trans f3⟩).1
  have i2 : Inside hi' (lb, ub) := ((f4 hi').1 ⟨f2.trans f3, le_refl _⟩).1
  have hol : outs.length = (t.update junk).nPen + (t.update junk).nMerit := by rw [c3.laid.length, c3.rowsLen]
  have l1 : r'.lower[(t.update junk).nPen + (t.update junk).nMerit + i]? = some (.fin lo) := by
    rw [c3.lower, List.getElem?_append_left (by simp [hol, c3.ivLen, hlt]), List.getElem?_append_right (by simp [hol]),
      List.length_map, hol, Nat.add_sub_cancel_left, List.getElem?_map, e2]; rfl
  have l2 : r'.upper[(t.update junk).nPen + (t.update junk).nMerit + i]? = some (.fin hi') := by
    rw [c3.upper, List.getElem?_append_left (by simp [hol, c3.ivLen, hlt]), List.getElem?_append_right (by simp [hol]),
      List.length_map, hol, Nat.add_sub_cancel_left, List.getElem?_map, e2]; rfl
  have hz : tripForm (outs.flatMap (·.trips)) ((t.update junk).nPen + (t.update junk).nMerit + i) z = 0 := by
    apply tripForm_zero
    intro q hq
    have := (c3.laid.range (n := (t.update junk).nVars) (le_refl _) c3.jac q hq).2.1
    rw [c3.rowsLen] at this
    omega
  have hrow : r'.matrix.rowForm ((t.update junk).nPen + (t.update junk).nMerit + i) z = z i := by
    rw [c3.matrix, hz, if_pos (by rw [c3.nQpVars]; omega), zero_add, Nat.add_sub_cancel_left]
  have := ha ((t.update junk).nPen + (t.update junk).nMerit + i) (clampLo (.fin lo)) (clampHi (.fin hi'))
    (by simp [posed, OsqpEigen.ofState, l1]) (by simp [posed, OsqpEigen.ofState, l2])
  rw [clampLo_ok, clampHi_ok] at this
  change LowOk (.fin lo) (r'.matrix.rowForm _ z + ε) ∧ HighOk (.fin hi') (r'.matrix.rowForm _ z - ε) at this
  rw [hrow] at this
  have m1 := (abs_lt.1 (hm.1 lo (List.mem_of_getElem? l1))).1
  have m2 := (abs_lt.1 (hm.2 hi' (List.mem_of_getElem? l2))).2
  obtain ⟨k1, k2⟩ := this
  have k1 : lo ≤ z i + ε := k1.resolve_left (not_le.2 m1)
  have k2 : z i - ε ≤ hi' := k2.resolve_left (not_le.2 m2)
  exact ⟨fun l hl => by have := i1.1 l hl; linarith, fun u hu => by have := i2.2 u hu; linarith⟩

/-- C132: if OSQP's answers satisfy their programs up to `ε`, then the variables a run returns are the initial ones or satisfy the bounds of the
variables up to `ε`. -/
theorem C132_within_bounds (S : Setting sqrt hash D p o s0 qs) {fuel : Nat} {w : Run K (State K)} (h : run sqrt hash junk p o qs fuel s0 = .ok w)
    (hm : w.Moderate) {ε : K} (ha : o.Accurate ε) :
    vars w.prob = vars s0 ∨ ∀ (i : Nat) lb ub x, D.varBounds[i]? = some (lb, ub) → (vars w.prob)[i]? = some x →
      (∀ l, lb = some l → l - ε ≤ x) ∧ ∀ u, ub = some u → x ≤ u + ε := by
  obtain ⟨b, g, -, h2⟩ := run_oracle S h
  have hx := x0_length (junk := junk) S w.log
  have hg := run_good S (.inl h)
  have hv : vars w.prob = w.res.bestVars.take D.n := hg.vars
  rcases best_origin p _ fuel _ hx h2 with h3 | ⟨k, c, d, h3⟩
  · left
    have : w.res.bestVars = vars s0 := h3
    rw [hv, this]
    exact List.take_of_length_le (by rw [show (vars s0).length = D.n from hx])
  · right
    have h3' : (oracle (meaning sqrt hash junk D) o (vars s0) w.log).qp k c d = some w.res.bestVars := h3
    cases hk : w.log[k - 1]? with
    | none => simp only [oracle, hk] at h3'; cases h3'
    | some e =>
      simp only [oracle, hk] at h3'
      obtain ⟨-, ⟨q, q1, q2⟩, -, -⟩ := (hg.entries _ e hk).answer _ h3'
      obtain ⟨t, r, t1, t2, t3, t4, t5, t6, t7, t8, t9, t10⟩ := entry_program S hg hm _ e hk
      have hq := t9 q q1
      subst hq
      intro i lb ub x hi hxi
      have key := answer_bounds S t1 (by rw [t3]; exact t8) t5 t6 (z := ext w.res.bestVars) (fun k l u hl hu => ha _ _ _ q2 k l u hl hu) i lb ub hi
      have hx' : ext w.res.bestVars i = x := by
        rw [hv, List.getElem?_take] at hxi
        split_ifs at hxi
        simp [ext, hxi]
      rw [hx'] at key
      exact key

/-- Without penalty costs and constraints, and with all variable bounds finite and inside OSQP's range, every program of every run is. -/
theorem run_moderate (S : Setting sqrt hash D p o s0 qs) (h1 : D.penalty = []) (h2 : D.merit = []) {M : K} (hM : M < osqpInfty)
    (hb : ∀ b ∈ D.varBounds, ∃ l u, b = (some l, some u) ∧ -M ≤ l ∧ u ≤ M) {w : Run K (State K)}
    (hg : Good (trajOpt sqrt hash junk) (meaning sqrt hash junk D) o w) : w.Moderate := by
  have key : ∀ s, Usable hash D s → Built sqrt junk hash D s → (OsqpEigen.ofState s).Moderate := by
    rintro s hs ⟨t, u, u', y, d, t1, t2, t3, t4, t5, t6⟩
    obtain ⟨r, rows, outs, iv0, head, iv, c1, c2, c3, c4, c5, e1, e2, e3, e4, e5⟩ := built_layout S.sqrt t1 t2 t3 t4
    have gp : (t.update junk).penalty = [] ∧ (t.update junk).merit = [] := by
      have : (t.update junk).penalty = t.penalty ∧ (t.update junk).merit = t.merit := by unfold State.update; split_ifs <;> exact ⟨rfl, rfl⟩
      rw [this.1, this.2, t1.penalty, t1.merit]; exact ⟨h1, h2⟩
    have fr := c3.frame
    have hout : outs = [] := by
      apply List.length_eq_zero_iff.1
      rw [c3.laid.length, c3.rowsLen, ← fr.2.2.2.2.2.2.2.1, ← fr.2.2.2.2.2.2.2.2.1, c4.nPen, c4.nMerit]
      obtain ⟨u0, k1, k2, k3, -⟩ := c4.cached
      rw [fr.2.2.2.2.2.2.2.2.2.2.1, gp.1] at k2
      rw [fr.2.2.2.2.2.2.2.2.2.2.2.1, gp.2] at k3
      rw [List.forall₂_nil_right_iff.1 k2, List.forall₂_nil_right_iff.1 k3]; rfl
    subst hout
    have hiv : ∀ q ∈ iv, -M ≤ q.1 ∧ q.1 ≤ q.2 ∧ q.2 ≤ M := by
      intro q hq
      obtain ⟨i, hi⟩ := List.mem_iff_getElem?.1 hq
      obtain ⟨k, k1, k2⟩ := mapM_get _ _ _ e1 _ _ hi
      simp only at k2
      split at k2
      · rename_i b lb ub hd hvb
        obtain ⟨f1, f2, -⟩ := core_frame t2
        have hvb' : (lb, ub) ∈ t.varBounds := by
          have g : (t.update junk).varBounds = t.varBounds := by unfold State.update; split_ifs <;> rfl
          rw [← g, ← f2]; exact List.mem_of_getElem? hvb
        obtain ⟨lo, hi', z1, xi, -, -, -, z2, z3, z4⟩ := C16_trust_interval b (y k) lb ub (t1.live.valid _ hvb') (t6 b (List.mem_of_getElem? hd))
        obtain ⟨l, v, hlv, g1, g2⟩ := hb (lb, ub) (by rw [← t1.varBounds]; exact hvb')
        injection hlv with hl hv
        rw [z1] at k2
        cases k2
        have i1 := ((z4 lo).1 ⟨le_refl _, z2.trans z3⟩).1.1 l hl
        have i2 := ((z4 hi').1 ⟨z2.trans z3, le_refl _⟩).1.2 v hv
        exact ⟨g1.trans i1, z2.trans z3, i2.trans g2⟩
      · cases k2
    constructor
    · intro l hl
      have hl' : Ext.fin l ∈ s.lower := hl
      rw [e3] at hl'
      simp at hl'
      obtain ⟨a, ha⟩ := hl'
      obtain ⟨x1, x2, x3⟩ := hiv _ ha
      rw [abs_lt]; simp only at x1 x2 x3; constructor <;> linarith
    · intro l hl
      have hl' : Ext.fin l ∈ s.upper := hl
      rw [e4] at hl'
      simp at hl'
      obtain ⟨a, ha⟩ := hl'
      obtain ⟨x1, x2, x3⟩ := hiv _ ha
      rw [abs_lt]; simp only at x1 x2 x3; constructor <;> linarith
  constructor
  · intro q hq
    obtain ⟨s, a1, a2, -, -, rfl⟩ := hg.sent q hq
    exact key s a1 a2
  · intro e he
    obtain ⟨i, hi⟩ := List.mem_iff_getElem?.1 he
    have := hg.entries i e hi
    exact key e.prob this.inv this.asm

end

/-! ### The squared costs must not lose all of their rows -/

/-- A squared cost whose only row, `x = 2`, exists when `2 ≤ x` at the last update. -/
def fading : Comp ℚ := ⟨true, fun x u => if u 0 < 2 then ⟨[], ⟨1, []⟩, [], [], 0⟩
  else ⟨[x 0], ⟨1, [[(0, 1)]]⟩, [1], [⟨.fin 2, .fin 2, .equality⟩], 1⟩⟩

/-- One variable at `3` in `[0, 10]`. -/
def fadingState : State ℚ :=
  { nVars := 1, varBounds := [(some 0, some 10)], x := fun i => if i = 0 then 3 else 0, upd := fun _ => 0, dynSquared := [fading] }

/-- OSQP answers `3/2` to every program. -/
def fadingWorld : World ℚ :=
  { initOk := fun _ => true, answer := fun _ q => some (List.replicate q.n (3 / 2)), inPlace := fun _ _ => .done, inPlace' := fun _ _ => .done
    callbacks := fun _ => [], clock := fun _ => 0 }

def fadingParams : Params ℚ := { Sqp.defaultParams with initialTrustBoxSize := 2 }

/-- A hash that tells the two cases apart. -/
def fadingHash : (Nat → ℚ) → Nat := fun u => if u 0 < 2 then 0 else 1

/-- The run failed. -/
def Out.Failed {K : Type u} {S α : Type*} : Out K S α → Bool
  | .fail => true
  | _ => false

/-- C130 does not hold without `Regular.rows`: an accepted step to a point where the only squared cost has no rows makes the next evaluation of
the convex costs use an expression of the old size.  (`sqrt` is only applied to the weight 1.) -/
theorem C130_violated_lost_rows :
    (run (fun a => a) fadingHash (fun _ => .negInf) fadingParams fadingWorld { warmStarting := false } 20 (fadingState.setup fun _ => .negInf)).Failed = true ∧
    Described fadingState ∧ fadingWorld.Sized ∧ Sane fadingParams ∧
    ∀ x u, fadingHash u = fadingHash x → fading.ask x u = fading.ask x x := by
  refine ⟨by decide +kernel, ⟨?_, by simp [fadingState], by simp [fadingState], rfl, ?_⟩, ?_, ?_, ?_⟩
  · intro c hc
    simp only [fadingState, List.nil_append, List.mem_singleton] at hc
    subst hc
    refine ⟨⟨fun x u => ?_, fun x u => ?_, fun h => by cases h⟩, fun x u => ?_⟩
    · simp only [fading, Comp.rowsAt]; split_ifs <;> rfl
    · simp only [fading, Comp.rowsAt]; split_ifs <;> rfl
    · simp only [fading]
      split_ifs
      · exact ⟨rfl, rfl, rfl, rfl, rfl, by simp, by simp, by simp [infoOf]⟩
      · exact ⟨rfl, rfl, rfl, rfl, rfl, by simp [fadingState], by simp, by simp [infoOf]⟩
  · intro b hb
    simp only [fadingState, List.mem_singleton] at hb
    subst hb; intro l u h1 h2
    simp at h1 h2; subst h1; subst h2; norm_num
  · intro k q y hy
    simp only [fadingWorld, Option.some.injEq] at hy
    rw [← hy]; simp
  · constructor <;> norm_num [fadingParams, Sqp.defaultParams]
  · intro x u h
    simp only [fadingHash] at h
    simp only [fading]
    split_ifs at h ⊢ <;> first | rfl | omega

/-! ### Examples -/

/-- One variable at `3` in `[0, 10]` with the squared cost `(x - 2)^2`. -/
noncomputable def tame : State ℝ :=
  { nVars := 1, varBounds := [(some 0, some 10)], x := fun i => if i = 0 then 3 else 0, upd := fun _ => 0,
    squared := [lineComp 1 0 1 ⟨.fin 2, .fin 2, .equality⟩] }

/-- The same with the constraint `x = 1`. -/
noncomputable def tied : State ℝ := { tame with cnts := [lineComp 1 0 1 ⟨.fin 1, .fin 1, .equality⟩] }

/-- OSQP answers with a point that satisfies the program if there is one. -/
noncomputable def niceWorld : World ℝ :=
  open Classical in
  { initOk := fun _ => true
    answer := fun _ q => if h : ∃ y : List ℝ, y.length = q.n ∧ ∀ (r : Nat) l u, q.l[r]? = some l → q.u[r]? = some u →
        LowOk l (q.A.rowForm r (ext y)) ∧ HighOk u (q.A.rowForm r (ext y)) then some h.choose else none
    inPlace := fun _ _ => .done, inPlace' := fun _ _ => .refused none
    callbacks := fun k => [decide (k < 100)], clock := fun k => k }

theorem niceWorld_sized : niceWorld.Sized := by
  intro k q y hy
  simp only [niceWorld] at hy
  split_ifs at hy with h
  cases hy
  exact h.choose_spec.1

theorem niceWorld_accurate : niceWorld.Accurate 0 := by
  intro k q y hy r l u h1 h2
  simp only [niceWorld] at hy
  split_ifs at hy with h
  cases hy
  rw [add_zero, sub_zero]
  exact h.choose_spec.2 r l u h1 h2

noncomputable def niceParams : Params ℝ :=
  { improveRatioThreshold := 1 / 4, minTrustBoxSize := 1 / 10000, minApproxImprove := 1 / 10000, minApproxImproveFrac := -1000000, maxIterations := 50
    trustShrinkRatio := 1 / 10, trustExpandRatio := 3 / 2, cntTolerance := 1 / 10000, maxMeritCoeffIncreases := 5, maxQpSolverFailures := 3
    meritCoeffIncreaseRatio := 10, maxTime := 1000, initialMeritErrorCoeff := 10, inflateIndividually := true, initialTrustBoxSize := 1 / 10 }

theorem nice_sane : Sane niceParams := by constructor <;> norm_num [niceParams]

theorem tied_setting (warm : Bool) : Setting Real.sqrt (fun _ => 0) (descOf tied) niceParams niceWorld (tied.setup fun _ => .negInf) { warmStarting := warm } := by
  refine ⟨fun _ h => Real.mul_self_sqrt h, ⟨Nat.one_pos, ?_, .inr fun u => ?_, fun u => ?_⟩, setup_usable _ ⟨?_, by simp [tied, tame], ?_, rfl, ?_⟩ rfl ?_ _, nice_sane,
    niceWorld_sized, reusable_new _ _ _⟩
  · intro c hc x u _
    simp only [descOf, tied, tame, List.append_nil, List.nil_append, List.mem_append, List.mem_singleton] at hc
    rcases hc with rfl | rfl <;> rfl
  · simp [descOf, tied, tame, Comp.rowsAt, lineComp]
  · simp [descOf, tied, tame, Comp.rowsAt, lineComp]
  · intro c hc
    simp only [tied, tame, List.append_nil, List.mem_singleton] at hc
    subst hc; exact lineComp_obj 1 0 1 zero_le_one 2
  · intro c hc
    simp only [tied, tame, List.append_nil, List.mem_singleton] at hc
    subst hc; exact lineComp_cnt 1 Nat.one_pos 1 0 1 zero_le_one _ (.inl ⟨1, 1, rfl, le_refl _⟩)
  · intro b hb
    simp only [tied, tame, List.mem_singleton] at hb
    subst hb; intro l u h1 h2
    simp at h1 h2; subst h1; subst h2; norm_num
  · intro i hi
    have : i ≠ 0 := by have : 1 ≤ i := hi; omega
    simp [tied, tame, this]

theorem tame_setting (warm : Bool) : Setting Real.sqrt (fun _ => 0) (descOf tame) niceParams niceWorld (tame.setup fun _ => .negInf) { warmStarting := warm } := by
  refine ⟨fun _ h => Real.mul_self_sqrt h, ⟨Nat.one_pos, ?_, .inr fun u => ?_, fun u => ?_⟩, setup_usable _ ⟨?_, by simp [tame], by simp [tame], rfl, ?_⟩ rfl ?_ _, nice_sane,
    niceWorld_sized, reusable_new _ _ _⟩
  · intro c hc x u _
    simp only [descOf, tame, List.append_nil, List.mem_singleton] at hc
    subst hc; rfl
  · simp [descOf, tame, Comp.rowsAt, lineComp]
  · simp [descOf, tame, Comp.rowsAt, lineComp]
  · intro c hc
    simp only [tame, List.append_nil, List.mem_singleton] at hc
    subst hc; exact lineComp_obj 1 0 1 zero_le_one 2
  · intro b hb
    simp only [tame, List.mem_singleton] at hb
    subst hb; intro l u h1 h2
    simp at h1 h2; subst h1; subst h2; norm_num
  · intro i hi
    have : i ≠ 0 := by have : 1 ≤ i := hi; omega
    simp [tame, this]

/-- C130 and C131 apply to a problem with a constraint: the run ends, and then the report is right. -/
example : ∃ F w, ∀ fuel, F ≤ fuel → run Real.sqrt (fun _ => 0) (fun _ => .negInf) niceParams niceWorld { warmStarting := true } fuel (tied.setup fun _ => .negInf) = .ok w ∧
    (w.status = .converged ↔ ∀ c ∈ (descOf tied).merit, violationOf c (vars w.prob) < 1 / 10000) := by
  obtain ⟨F, w, h⟩ := C130_returns (tied_setting true) (fun _ => .negInf) (by norm_num [niceParams]) (by norm_num [niceParams])
  exact ⟨F, w, fun fuel hf => ⟨h fuel hf, C131_converged_iff (tied_setting true) (h fuel hf) (by norm_num [niceParams])⟩⟩

/-- C130 and C132 apply to a run whose programs are all in range. -/
example : ∃ fuel w, run Real.sqrt (fun _ => 0) (fun _ => .negInf) niceParams niceWorld { warmStarting := true } fuel (tame.setup fun _ => .negInf) = .ok w ∧ w.Moderate ∧
    niceWorld.Accurate 0 := by
  obtain ⟨F, w, h⟩ := C130_returns (tame_setting true) (fun _ => .negInf) (by norm_num [niceParams]) (by norm_num [niceParams])
  refine ⟨F, w, h F (le_refl _), ?_, niceWorld_accurate⟩
  refine run_moderate (tame_setting true) rfl rfl (M := 10) (by norm_num [osqpInfty]) ?_ (run_good (tame_setting true) (.inl (h F (le_refl _))))
  intro b hb
  simp only [descOf, tame, List.mem_singleton] at hb
  exact ⟨0, 10, hb, by norm_num, le_refl _⟩

end Verif.SqpRun
