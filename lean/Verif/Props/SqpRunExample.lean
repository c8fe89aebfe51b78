import Verif.Props.SqpRunOptimal

/-!
A run to which C150 applies, evaluated by hand: OSQP gets one program, and the run converges.
-/

set_option linter.unusedSimpArgs false

namespace Verif.SqpRun
open Verif.Bounds Verif.Sco Verif.SqpExprs
open Verif.QpProblem hiding below above
open Verif.Optimal
open Verif.Sqp (Params Status tolerance)
open Verif.OsqpEigen (Problem Fine Qp Solver posed)

/-! ### Example -/

/-- One variable at `3` in `[0, 10]` with the squared costs `(x - 2)^2` and `(x - 4)^2` and the constraint `5/2 ≤ x`. -/
noncomputable def fork : State ℝ :=
  { nVars := 1, varBounds := [(some 0, some 10)], x := fun i => if i = 0 then 3 else 0, upd := fun _ => 0,
    squared := [lineComp 1 0 1 ⟨.fin 2, .fin 2, .equality⟩, lineComp 1 0 1 ⟨.fin 4, .fin 4, .equality⟩]
    cnts := [lineComp 1 0 1 ⟨.fin (5 / 2), .posInf, .lowerBound⟩] }

noncomputable def forkParams : Params ℝ := { niceParams with initialTrustBoxSize := 1 }

/-- The QP of the first convexification. -/
noncomputable def forkQp : Qp ℝ :=
  ⟨2, 3, ⟨2, [[(0, 4)], []]⟩, [-12, 10], ⟨3, [[(0, 1), (1, 1)], [(0, 1), (2, 1)]]⟩, [.fin (5 / 2), .fin 2, .fin 0], [.fin osqpInfty, .fin 4, .fin osqpInfty]⟩

/-- OSQP solves that program and fails for any other. -/
noncomputable def forkWorld : World ℝ :=
  open Classical in
  { initOk := fun _ => true
    answer := fun _ q => if q = forkQp then some [3, 0] else none
    inPlace := fun _ _ => .done, inPlace' := fun _ _ => .refused none, callbacks := fun _ => [], clock := fun _ => 0 }

/-- After `init`. -/
noncomputable def forkInit : State ℝ :=
  { fork with
    upd := fun i => if i = 0 then 3 else 0
    objective := fork.squared, merit := fork.cnts
    objInfos := [⟨1, [1], [⟨.fin 2, .fin 2, .equality⟩]⟩, ⟨1, [1], [⟨.fin 4, .fin 4, .equality⟩]⟩]
    meritInfos := [⟨1, [1], [⟨.fin (5 / 2), .posInf, .lowerBound⟩]⟩]
    nObj := 2, nMerit := 1, box := [1], target := [0, 0], constant := [0], meritCoeff := [10]
    lower := [.negInf, .fin 2], upper := [.negInf, .fin 4], initialized := true, nDynPrev := some 0 }

theorem fork_box : (fork.setup fun _ => .negInf).setBoxSize [1] = some forkInit := by
  norm_num [fork, State.setup, State.setupLists, State.update, State.setBoxSize, lineComp, refresh, totalRows, dynCount, State.ask, Snap.rows, resize,
    State.updateNLPVariableBounds, State.boxBounds, trustInterval, stdClamp, ltLo, gtHi, maxLo, minHi, writeSeg, forkInit, List.range_succ,
    List.replicate_succ]

/-- After `convexify`. -/
noncomputable def forkConvex : State ℝ :=
  { forkInit with
    nSlack := 1, nQpVars := 2, nQpCnts := 3, target := [2, 4], constant := [0]
    lower := [.fin (5 / 2), .fin 2, .fin 0], upper := [.posInf, .fin 4, .posInf]
    gradient := [-12, 10], hessian := ⟨2, [[(0, 2)], []]⟩, matrix := ⟨3, [[(0, 1), (1, 1)], [(0, 1), (2, 1)]]⟩
    sqObjective := ⟨[4, 16], ⟨1, [[(0, -4)], [(0, -8)]]⟩, [⟨1, [[(0, -1)]]⟩, ⟨1, [[(0, -1)]]⟩], [-12], ⟨1, [[(0, 2)]]⟩⟩ }

theorem fork_convex : forkInit.convexify Real.sqrt (fun _ => .negInf) = some forkConvex := by
  norm_num [forkInit, fork, State.convexify, State.convexifyCore, State.update, termsOut, rowsOut, rowOut, addScalar, State.sqObjectiveOf, objectiveLoop, objectiveOne, lineComp,
    refresh, totalRows, dynCount, State.ask, Snap.rows, resize, conservativeResize, setFromTriplets, SMat.addTriplet, mapAdd, SMat.triplets, thr,
    State.updateNLPVariableBounds, State.boxBounds, trustInterval, stdClamp, ltLo, gtHi, maxLo, minHi, writeSeg, forkConvex, List.range_succ, Aff.create,
    Aff.square, finLower, dot, SqpExprs.at', colSums, gramTriplets, scaleRow, List.zipIdx, List.replicate_succ]

theorem fork_setVariables : forkConvex.setVariables (fun _ => 0) (fun i => if i < 1 then ([3, 0] : List ℝ).getD i 0 else 0) = forkConvex := by
  norm_num [State.setVariables, forkConvex, forkInit, fork]
  funext i
  by_cases h : i = 0
  · simp [h]
  · have : ¬ i < 1 := by omega
    simp [h]

theorem fork_setVariables' : forkConvex.setVariables (fun _ => 0) (fun i => if i < 1 then ([3] : List ℝ).getD i 0 else 0) = forkConvex := by
  norm_num [State.setVariables, forkConvex, forkInit, fork]
  funext i
  by_cases h : i = 0
  · simp [h]
  · have : ¬ i < 1 := by omega
    simp [h]

noncomputable abbrev forkProb : QPProblem ℝ (State ℝ) := trajOpt Real.sqrt (fun _ => 0) (fun _ => .negInf)

/-- The results after `init`. -/
noncomputable def forkRes : Results ℝ :=
  { bestExactMerit := 2, newExactMerit := 0, bestApproxMerit := 0, newApproxMerit := 0
    bestVars := [3], newVars := [], approxImprove := 0, exactImprove := 0, improveRatio := 0, box := [1], coeffs := [10]
    bestViols := [0], newViols := [], bestApproxViols := [], newApproxViols := [], bestCosts := [1, 1], newCosts := [], bestApproxCosts := [], newApproxCosts := []
    penaltyIteration := 0, convexifyIteration := 0, trustRegionIteration := 0, overallIteration := 0 }

theorem fork_init : init forkProb forkParams (fork.setup fun _ => .negInf) { warmStarting := false } = 
    some { status := .running, res := forkRes, prob := forkInit, qps := { warmStarting := false }, clockReads := 0, sent := [], log := [] } := by
  have h1 : forkProb.setBoxSize (List.replicate (forkProb.getNumNLPVars (fork.setup fun _ => .negInf)) forkParams.initialTrustBoxSize) (fork.setup fun _ => .negInf) =
      some forkInit := fork_box
  have h2 : forkProb.setConstraintMeritCoeff [10] forkInit = some forkInit := by
    simp [trajOpt, State.setConstraintMeritCoeff, forkInit, fork]
  have h3 : initialResults forkProb forkParams (fork.setup fun _ => .negInf) = { forkRes with bestExactMerit := 0 } := by
    norm_num [initialResults, forkRes, trajOpt, fork, State.setup, State.setupLists, State.update, forkParams, niceParams, List.range_succ,
      State.getExactCosts, State.getExactConstraintViolations, State.ask, lineComp, calcBoundsViolations, sides, violB]
  unfold init setBoxSize
  rw [h3]
  simp only [h1, constraintMeritCoeffChanged]
  simp only [forkRes, h2]
  norm_num [Sqp.dot, trajOpt, forkInit]

/-- The QP solver after the transfer. -/
noncomputable def forkSolver : Solver ℝ :=
  { status := .initialized, nVars := 2, nCnts := 3, x0 := [0, 0], y0 := [0, 0, 0], warmStarting := false
    data := { nVars := 2, nCnts := 3, hessian := some forkQp.P, gradient := some forkQp.q, matrix := some forkQp.A, bounds := some (forkQp.l, forkQp.u) } }

theorem fork_transfer : OsqpEigen.transfer (fun _ => .done) (fun _ => .refused none) 0 0 (forkProb.qp forkConvex) { warmStarting := false } = some forkSolver := by
  norm_num [OsqpEigen.transfer, OsqpEigen.rebuild, Solver.clear, Solver.init, Solver.updateHessianMatrix, Solver.updateGradient, Solver.updateMatrix,
    Solver.updateBounds, Solver.setWarmStart, OsqpEigen.sized, OsqpEigen.twice, OsqpEigen.cutGradient, trajOpt, forkConvex, forkSolver, forkQp,
    List.replicate_succ, clampLo, clampHi, osqpInfty]

theorem fork_solve : forkSolver.solve true (forkWorld.answer 1) = (some [3, 0], some forkQp, { forkSolver with work := some forkQp }) := by
  simp [Solver.solve, forkSolver, OsqpEigen.Data.qp, forkWorld, forkQp]

theorem fork_values : forkConvex.evaluateConvexCosts (fun i => ([3, 0] : List ℝ).getD i 0) = some [1, 1] ∧
    forkConvex.evaluateConvexConstraintViolations (fun i => ([3, 0] : List ℝ).getD i 0) = [0] ∧
    forkConvex.getExactCosts = [1, 1] ∧ forkConvex.getExactConstraintViolations = [0] := by
  refine ⟨?_, ?_, ?_, ?_⟩ <;>
  norm_num [State.evaluateConvexCosts, State.evaluateConvexConstraintViolations, State.getExactCosts, State.getExactConstraintViolations, forkConvex, forkInit, fork,
    State.convexViolations, State.convexViolation, Quad.values, quadPart, dot, segmentSums, calcBoundsViolations, sides, violB, State.ask, lineComp, rowMul, List.range_succ]
  simp

/-- The results before the QP. -/
noncomputable def forkStep : Results ℝ := { forkRes with convexifyIteration := 1, trustRegionIteration := 1, overallIteration := 1 }

/-- The optimizer after `init`. -/
noncomputable def forkStart : Run ℝ (State ℝ) :=
  { status := .running, res := forkRes, prob := forkInit, qps := { warmStarting := false }, clockReads := 0, sent := [], log := [] }

/-- The optimizer before the QP. -/
noncomputable def forkBefore : Run ℝ (State ℝ) :=
  { status := .running, res := { forkRes with convexifyIteration := 1 }, prob := forkConvex, qps := forkSolver, clockReads := 1
    sent := [forkProb.qp forkConvex], log := [] }

/-- The optimizer after the QP. -/
noncomputable def forkAfter (st : Status) : Run ℝ (State ℝ) :=
  { status := st, res := scored forkStep [3, 0] [1, 1] [0] [1, 1] [0], prob := forkConvex, qps := { forkSolver with work := some forkQp }
    clockReads := 1, sent := [forkProb.qp forkConvex], log := [⟨forkConvex, forkStep, some forkQp, some [3, 0], [1, 1], [0]⟩] }

theorem fork_send : convexifyAndSend forkProb forkWorld { forkStart with clockReads := 1, res := { forkRes with convexifyIteration := 1 } } = some forkBefore := by
  have h1 : forkProb.convexify forkInit = some forkConvex := fork_convex
  have h2 : OsqpEigen.transfer (forkWorld.inPlace 1) (forkWorld.inPlace' 1) (forkProb.qp forkInit).nv (forkProb.qp forkInit).nc (forkProb.qp forkConvex)
      { warmStarting := false } = some forkSolver := fork_transfer
  simp only [convexifyAndSend, forkStart, h1, h2, List.nil_append]
  rfl

theorem fork_set (l : List ℝ) (h : l = [3, 0] ∨ l = [3]) : forkProb.setVariables l forkConvex = some forkConvex := by
  have hn : forkConvex.nVars = 1 := rfl
  simp only [trajOpt, hn]
  rcases h with rfl | rfl
  · rw [if_pos (by simp)]
    exact congrArg some fork_setVariables
  · rw [if_pos (by simp)]
    exact congrArg some fork_setVariables'

theorem fork_qp : solveQPProblem forkProb forkWorld { forkBefore with res := forkStep } = some (forkAfter .running, .running) := by
  obtain ⟨v1, v2, v3, v4⟩ := fork_values
  have h1 : forkSolver.solve (forkWorld.initOk forkStep.overallIteration) (forkWorld.answer forkStep.overallIteration) =
    (some [3, 0], some forkQp, { forkSolver with work := some forkQp }) := fork_solve
  have h2 : forkStep.bestVars = [3] := rfl
  have h3 : callCallbacks forkWorld forkStep.overallIteration = true := rfl
  have s1 := fork_set [3, 0] (.inl rfl)
  have s2 := fork_set [3] (.inr rfl)
  have s3 : forkProb.evaluateConvexCosts [3, 0] forkConvex = some [1, 1] := by
    simp only [trajOpt]
    rw [if_pos (show ([3, 0] : List ℝ).length = forkConvex.nQpVars from rfl)]; exact v1
  have s4 : forkProb.evaluateConvexConstraintViolations [3, 0] forkConvex = [0] := v2
  have s5 : forkProb.getExactCosts forkConvex = [1, 1] := v3
  have s6 : forkProb.getExactConstraintViolations forkConvex = [0] := v4
  simp only [solveQPProblem, forkBefore, h1, h2, h3, s1, s2, s3, s4, s5, s6, if_true, List.nil_append]
  rfl

theorem fork_body : trBody forkProb forkParams forkWorld forkBefore 0 = some (.done (forkAfter .converged)) := by
  unfold trBody
  rw [show ({ forkBefore with res := { forkBefore.res with overallIteration := forkBefore.res.overallIteration + 1, trustRegionIteration := forkBefore.res.trustRegionIteration + 1 } } : Run ℝ (State ℝ)) =
    { forkBefore with res := forkStep } from rfl, fork_qp]
  simp only [reduceCtorEq, if_false, ne_eq, not_true_eq_false, afterSuccess]
  rw [if_pos]
  · rfl
  · norm_num [forkAfter, scored, Sqp.dot, forkStep, forkRes, forkParams, niceParams]

theorem fork_step : stepSQPSolver forkProb forkParams forkWorld 1 { forkStart with clockReads := 1 } = .ok (forkAfter .converged, true) := by
  have hb : forkParams.minTrustBoxSize ≤ (1 : ℝ) := by norm_num [forkParams, niceParams]
  unfold stepSQPSolver
  have h : convexifyAndSend forkProb forkWorld ({ forkStart with clockReads := 1, res := { forkStart.res with convexifyIteration := forkStart.res.convexifyIteration + 1 } }) = some forkBefore := fork_send
  rw [h]
  have e : ({ forkBefore with res := { forkBefore.res with trustRegionIteration := 0 } } : Run ℝ (State ℝ)) = forkBefore := rfl
  simp only
  rw [e]
  simp only [trLoop]
  rw [show maxOf forkBefore.res.box = some 1 from rfl]
  simp only [if_pos hb, fork_body]
  simp [stepEnd, forkAfter]

/-- The run converges after one QP. -/
theorem fork_run : ∃ w, run Real.sqrt (fun _ => 0) (fun _ => .negInf) forkParams forkWorld { warmStarting := false } 1 (fork.setup fun _ => .negInf) = .ok w ∧
    w.status = .converged ∧ w.res.overallIteration = 1 ∧ w.res.convexifyIteration = 1 ∧ w.res.box = List.replicate 1 1 ∧ vars w.prob = [3] ∧ w.res.coeffs = [10] ∧
    ∃ e : Entry ℝ (State ℝ), w.log[0]? = some e ∧ e.answer = some [3, 0] := by
  refine ⟨forkAfter .converged, ?_, rfl, rfl, rfl, rfl, ?_, rfl, _, rfl, rfl⟩
  · have hcl : ¬ forkParams.maxTime < forkWorld.clock 0 := by norm_num [forkParams, niceParams, forkWorld]
    have hit : ¬ forkParams.maxIterations ≤ ((0 : ℕ) : ℤ) := by norm_num [forkParams, niceParams]
    have hver : verifyConvergence forkParams (forkAfter .converged).res = true := by
      norm_num [verifyConvergence, forkAfter, scored, forkStep, forkRes, maxOf, Sqp.maxCoeff, forkParams, niceParams]
    have hcv : convexLoop forkProb forkParams forkWorld 1 99 forkStart = .ok (forkAfter .converged) := by
      unfold convexLoop
      rw [if_neg (show ¬ forkParams.maxTime < forkWorld.clock forkStart.clockReads from hcl),
        if_neg (show ¬ forkParams.maxIterations ≤ (forkStart.res.overallIteration : ℤ) from hit)]
      rw [show ({ forkStart with clockReads := forkStart.clockReads + 1 } : Run ℝ (State ℝ)) = { forkStart with clockReads := 1 } from rfl, fork_step]
    have hpen : penaltyLoop forkProb forkParams forkWorld 1 forkParams.maxMeritCoeffIncreases 0 forkStart = .ok (forkAfter .converged) := by
      rw [show forkParams.maxMeritCoeffIncreases = 4 + 1 from rfl]
      unfold penaltyLoop
      rw [show ({ forkStart with res := { forkStart.res with penaltyIteration := 0, convexifyIteration := 0 } } : Run ℝ (State ℝ)) = forkStart from rfl, hcv]
      simp only [hver, if_true]
      rfl
    unfold run solve
    rw [fork_init]
    rw [show ({ status := .running, res := forkRes, prob := forkInit, qps := { warmStarting := false }, clockReads := 0, sent := [], log := [] } : Run ℝ (State ℝ)) = forkStart from rfl]
    simp only
    rw [hpen]
    simp only [finish]
    rw [show forkProb.setVariables (forkAfter .converged).res.bestVars (forkAfter .converged).prob = some forkConvex from fork_set [3] (.inr rfl)]
    rfl
  · norm_num [vars, forkAfter, forkConvex, forkInit, fork, List.range_succ]

theorem fork_setting : Setting Real.sqrt (fun _ => 0) (descOf fork) forkParams forkWorld (fork.setup fun _ => .negInf) { warmStarting := false } := by
  refine ⟨fun _ h => Real.mul_self_sqrt h, ⟨Nat.one_pos, ?_, .inr fun u => ?_, fun u => ?_⟩, setup_usable _ ⟨?_, by simp [fork], ?_, rfl, ?_⟩ rfl ?_ _,
    by constructor <;> norm_num [forkParams, niceParams], ?_, reusable_new _ _ _⟩
  · intro c hc x u _
    simp only [descOf, fork, List.append_nil, List.mem_append, List.mem_cons, List.not_mem_nil, or_false] at hc
    rcases hc with (rfl | rfl) | rfl <;> rfl
  · simp [descOf, fork, Comp.rowsAt, lineComp]
  · simp [descOf, fork, Comp.rowsAt, lineComp]
  · intro c hc
    simp only [fork, List.append_nil, List.mem_cons, List.not_mem_nil, or_false] at hc
    rcases hc with rfl | rfl
    · exact lineComp_obj 1 0 1 zero_le_one 2
    · exact lineComp_obj 1 0 1 zero_le_one 4
  · intro c hc
    simp only [fork, List.append_nil, List.mem_singleton] at hc
    subst hc; exact lineComp_cnt 1 Nat.one_pos 1 0 1 zero_le_one _ (.inr (.inl ⟨5 / 2, rfl⟩))
  · intro b hb
    simp only [fork, List.mem_singleton] at hb
    subst hb; intro l u h1 h2
    simp at h1 h2; subst h1; subst h2; norm_num
  · intro i hi
    have : i ≠ 0 := by have : 1 ≤ i := hi; omega
    simp [fork, this]
  · intro k q y hy
    simp only [forkWorld] at hy
    split_ifs at hy with h
    cases hy
    rw [h]; rfl

/-- The rows of the example. -/
def forkRow (b : Bounds ℝ) : Row ℝ := { weight := 1, jac := [(0, 1)], constant := 0, bound := b }

theorem line_affine (b : Bounds ℝ) : AffineSet (lineComp 1 0 1 b) [forkRow b] := by
  constructor <;> simp [lineComp, forkRow, valueAt, dot]
  norm_num

theorem fork_affine : (descOf fork).Affine
    [[forkRow ⟨.fin 2, .fin 2, .equality⟩], [forkRow ⟨.fin 4, .fin 4, .equality⟩]] []
    [[forkRow ⟨.fin (5 / 2), .posInf, .lowerBound⟩]] := by
  refine ⟨.cons (line_affine _) (.cons (line_affine _) .nil), .nil, .cons (line_affine _) .nil, ?_, by simp, by simp [forkRow], by simp⟩
  intro L hL ρ hρ
  simp only [List.mem_cons, List.not_mem_nil, or_false] at hL
  rcases hL with rfl | rfl
  · rw [List.mem_singleton.1 hρ]; exact ⟨2, rfl⟩
  · rw [List.mem_singleton.1 hρ]; exact ⟨4, rfl⟩

theorem fork_range : (descOf fork).InRange := by
  refine ⟨⟨10, by norm_num [osqpInfty], fun b hb => ?_⟩, ?_⟩
  · simp only [descOf, fork, List.mem_singleton] at hb
    exact ⟨0, 10, hb, by norm_num, le_refl _⟩
  · intro c hc x u x' u' p hp b hb
    simp only [descOf, fork, List.append_nil, List.nil_append, List.mem_singleton] at hc
    subst hc
    simp only [lineComp, List.zip_cons_cons, List.zip_nil_right, List.mem_singleton] at hp hb
    subst hp; subst hb
    refine ⟨fun l hl => ?_, fun l hl => by cases hl⟩
    cases hl
    norm_num [dot, osqpInfty, abs_of_pos]

theorem fork_solves : forkWorld.Solves 0 := by
  intro k q y hy
  simp only [forkWorld] at hy
  split_ifs at hy with h
  cases hy
  subst h
  have hval : ∀ z, forkQp.value z = 2 * z 0 ^ 2 - 12 * z 0 + 10 * z 1 := by
    intro z
    simp [Qp.value, forkQp, Finset.sum_range_succ, SMat.entry, colEntry]
    ring
  constructor
  · intro r hr
    have hr : r < 3 := hr
    rcases (by omega : r = 0 ∨ r = 1 ∨ r = 2) with rfl | rfl | rfl
    all_goals
      refine ⟨_, _, rfl, rfl, ?_, ?_⟩ <;>
        norm_num [LowOk, HighOk, forkQp, SMat.rowForm, ext, colEntry, SMat.entry, osqpInfty, Finset.sum_range_succ]
  · intro z hz
    obtain ⟨l, u, h1, h2, h3, -⟩ := hz 2 (by show 2 < 3; omega)
    cases h1
    have h3' : 0 ≤ z 1 := by
      refine Or.resolve_left (a := (osqpInfty : ℝ) ≤ 0) ?_ (by norm_num [osqpInfty])
      simpa [LowOk, forkQp, SMat.rowForm, colEntry, SMat.entry, Finset.sum_range_succ] using h3
    rw [hval, hval]
    simp only [ext, List.getD_cons_zero, List.getD_cons_succ]
    nlinarith [sq_nonneg (z 0 - 3)]

/-- The hypotheses of C150 hold for the run: the cost of `3` is `2`, that of any `z` in the bounds is at least `2` up to the bound. -/
example : ∃ w, run Real.sqrt (fun _ => 0) (fun _ => .negInf) forkParams forkWorld { warmStarting := false } 1 (fork.setup fun _ => .negInf) = .ok w ∧ vars w.prob = [3] ∧
    ∀ z d, (descOf fork).Within z → Near d [3] z → (descOf fork).meritOf [10] [3] ≤ (descOf fork).meritOf [10] z +
      (tolerance forkParams ((descOf fork).meritOf [10] [3]) + (0 + dropped 1 10)) * max 1 (d / 1) := by
  obtain ⟨w, h1, h2, h3, h4, h5, h6, h7, -⟩ := fork_run
  refine ⟨w, h1, h6, ?_⟩
  have := (C150_merit_optimal_partial fork_setting fork_affine fork_range (B := 10) (fun b hb => ?_) fork_solves ?_ (by norm_num [forkParams, niceParams])
    (by norm_num [forkParams, niceParams]) (by norm_num [forkParams, niceParams]) (fun k => by norm_num [forkParams, niceParams, forkWorld]) h1 h2
    (by rw [h3]; norm_num [forkParams, niceParams]) (by rw [h4]; norm_num) h5 (by norm_num [forkParams, niceParams])).2
  · rw [h6, h7] at this
    exact this
  · simp only [descOf, fork, List.mem_singleton] at hb
    exact ⟨0, 10, hb, by norm_num, le_refl _⟩
  · have : vars (fork.setup fun _ => .negInf) = [3] := by
      norm_num [vars, fork, State.setup, State.setupLists, State.update, List.range_succ]
    rw [this]
    exact .cons (by norm_num [Inside]) .nil

/-- And those of the statement about costs: the cost of the result exceeds that of `7/2` by at most the bound. -/
example : ∃ w, run Real.sqrt (fun _ => 0) (fun _ => .negInf) forkParams forkWorld { warmStarting := false } 1 (fork.setup fun _ => .negInf) = .ok w ∧
    ((descOf fork).costs (vars w.prob)).sum ≤ ((descOf fork).costs [7 / 2]).sum +
      (tolerance forkParams ((descOf fork).meritOf w.res.coeffs (vars w.prob)) + (0 + dropped (descOf fork).n 10)) * max 1 (1 / 2 / 1) := by
  obtain ⟨w, h1, h2, h3, h4, h5, h6, h7, -⟩ := fork_run
  refine ⟨w, h1, C150_cost_optimal_partial fork_setting fork_affine fork_range (fun b hb => ?_) fork_solves ?_ (by norm_num [forkParams, niceParams])
    (by norm_num [forkParams, niceParams]) (by norm_num [forkParams, niceParams]) (fun k => by norm_num [forkParams, niceParams, forkWorld]) h1 h2
    (by rw [h3]; norm_num [forkParams, niceParams]) (by rw [h4]; norm_num) h5 (by norm_num [forkParams, niceParams]) [7 / 2] (1 / 2) ?_ ?_ ?_⟩
  · simp only [descOf, fork, List.mem_singleton] at hb
    exact ⟨0, 10, hb, by norm_num, le_refl _⟩
  · have : vars (fork.setup fun _ => .negInf) = [3] := by
      norm_num [vars, fork, State.setup, State.setupLists, State.update, List.range_succ]
    rw [this]
    exact .cons (by norm_num [Inside]) .nil
  · exact .cons (by norm_num [Inside]) .nil
  · rw [h6]
    exact .cons (by norm_num [abs_le]) .nil
  · intro c hc
    simp only [descOf, fork, List.append_nil, List.mem_singleton] at hc
    subst hc
    norm_num [violationOf, at', lineComp, calcBoundsViolations, sides, violB, ext]

end Verif.SqpRun
