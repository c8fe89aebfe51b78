import Verif.Model.ParamEq
import Verif.Props.Yaml
import Mathlib.Tactic.Linarith
import Mathlib.Tactic.NormNum

/-!
C162: comparison of solver parameters.
-/

set_option linter.unusedSectionVars false
set_option linter.unusedVariables false

namespace Verif.ParamEq

universe u
variable {K : Type u} [Field K] [LinearOrder K] [IsStrictOrderedRing K]

open Verif.Yaml (almostEq almostEq_iff Close)

/-! ### Specification -/

/-- The real settings of the legacy optimizer. -/
def LegacyAll.reals (p : LegacyAll K) : List K :=
  [p.base.improveRatioThreshold, p.base.minTrustBoxSize, p.base.minApproxImprove, p.base.minApproxImproveFrac, p.base.trustShrinkRatio,
    p.base.trustExpandRatio, p.base.cntTolerance, (p.base.maxMeritCoeffIncreases : K), p.base.meritCoeffIncreaseRatio, p.base.maxTime,
    p.base.initialMeritErrorCoeff, p.trustBoxSize]

/-- Its other settings. -/
def LegacyAll.others (p : LegacyAll K) : ℤ × ℤ × Bool × Bool × String × ℤ :=
  (p.base.maxIter, p.base.maxQpSolverFailures, p.base.inflateIndividually, p.logResults, p.logDir, p.numThreads)

/-- The real settings of the SQP solver. -/
def SqpAll.reals (p : SqpAll K) : List K :=
  [p.base.improveRatioThreshold, p.base.minTrustBoxSize, p.base.minApproxImprove, p.base.minApproxImproveFrac, p.base.trustShrinkRatio,
    p.base.trustExpandRatio, p.base.cntTolerance, (p.base.maxMeritCoeffIncreases : K), p.base.meritCoeffIncreaseRatio, p.base.maxTime,
    p.base.initialMeritErrorCoeff, p.base.initialTrustBoxSize]

def SqpAll.others (p : SqpAll K) : ℤ × ℤ × Bool × Bool × String :=
  (p.base.maxIterations, p.base.maxQpSolverFailures, p.base.inflateIndividually, p.logResults, p.logDir)

/-! ### Proofs -/

theorem close_refl {feps deps : K} (h : 0 ≤ feps) (a : K) : Close feps deps a a := .inl (by simpa using h)

theorem close_symm {feps deps a b : K} (h : Close feps deps a b) : Close feps deps b a := by
  unfold Close at *
  rw [abs_sub_comm b a]
  rcases h with h | h | h
  · exact .inl h
  · exact .inr (.inr h)
  · exact .inr (.inl h)

theorem close_zero {a b : K} : Close 0 0 a b ↔ a = b := by
  unfold Close
  simp only [zero_mul, or_self, abs_nonpos_iff, sub_eq_zero]

theorem eqLegacy_iff {feps deps : K} (hd : 0 ≤ deps) (p q : LegacyAll K) :
    eqLegacy feps deps p q = true ↔ List.Forall₂ (Close feps deps) p.reals q.reals ∧ p.others = q.others := by
  simp only [eqLegacy, Bool.and_eq_true, decide_eq_true_eq, almostEq_iff hd, LegacyAll.reals, LegacyAll.others, List.forall₂_cons,
    List.Forall₂.nil, and_true, Prod.mk.injEq]
  tauto

theorem eqSqp_iff {feps deps : K} (hd : 0 ≤ deps) (p q : SqpAll K) :
    eqSqp feps deps p q = true ↔ List.Forall₂ (Close feps deps) p.reals q.reals ∧ p.others = q.others := by
  simp only [eqSqp, Bool.and_eq_true, decide_eq_true_eq, almostEq_iff hd, SqpAll.reals, SqpAll.others, List.forall₂_cons,
    List.Forall₂.nil, and_true, Prod.mk.injEq]
  tauto

/-- C162: parameters of the legacy optimizer compare equal exactly if every number agrees up to the tolerance and everything else agrees. -/
theorem C162_legacy {feps deps : K} (hd : 0 ≤ deps) (p q : LegacyAll K) :
    (eqLegacy feps deps p q = true ↔ List.Forall₂ (Close feps deps) p.reals q.reals ∧ p.others = q.others) ∧
      (neLegacy feps deps p q = true ↔ ¬ eqLegacy feps deps p q = true) :=
  ⟨eqLegacy_iff hd p q, by simp [neLegacy]⟩

/-- C162: the same for the SQP solver. -/
theorem C162_sqp {feps deps : K} (hd : 0 ≤ deps) (p q : SqpAll K) :
    (eqSqp feps deps p q = true ↔ List.Forall₂ (Close feps deps) p.reals q.reals ∧ p.others = q.others) ∧
      (neSqp feps deps p q = true ↔ ¬ eqSqp feps deps p q = true) :=
  ⟨eqSqp_iff hd p q, by simp [neSqp]⟩

/-- C162: no setting is forgotten: without tolerance the comparison is equality. -/
theorem C162_exact (p q : LegacyAll K) (r s : SqpAll K) :
    (eqLegacy 0 0 p q = true ↔ p = q) ∧ (eqSqp 0 0 r s = true ↔ r = s) := by
  constructor
  · obtain ⟨⟨a1, a2, a3, a4, a5, a6, a7, a8, a9, a10, a11, a12, a13, a14⟩, a15, a16, a17, a18⟩ := p
    obtain ⟨⟨b1, b2, b3, b4, b5, b6, b7, b8, b9, b10, b11, b12, b13, b14⟩, b15, b16, b17, b18⟩ := q
    rw [eqLegacy_iff le_rfl]
    simp only [LegacyAll.reals, LegacyAll.others, List.forall₂_cons, List.Forall₂.nil, and_true, Prod.mk.injEq, close_zero, Nat.cast_inj,
      LegacyAll.mk.injEq, Legacy.Params.mk.injEq]
    tauto
  · obtain ⟨⟨a1, a2, a3, a4, a5, a6, a7, a8, a9, a10, a11, a12, a13, a14, a15⟩, a16, a17⟩ := r
    obtain ⟨⟨b1, b2, b3, b4, b5, b6, b7, b8, b9, b10, b11, b12, b13, b14, b15⟩, b16, b17⟩ := s
    rw [eqSqp_iff le_rfl]
    simp only [SqpAll.reals, SqpAll.others, List.forall₂_cons, List.Forall₂.nil, and_true, Prod.mk.injEq, close_zero, Nat.cast_inj,
      SqpAll.mk.injEq, Sqp.Params.mk.injEq]
    tauto

theorem forall₂_refl' {R : K → K → Prop} (h : ∀ a, R a a) (l : List K) : List.Forall₂ R l l := by
  induction l with
  | nil => exact .nil
  | cons a l ih => exact .cons (h a) ih

theorem forall₂_symm' {R : K → K → Prop} (h : ∀ a b, R a b → R b a) {l m : List K} (hl : List.Forall₂ R l m) : List.Forall₂ R m l := by
  induction hl with
  | nil => exact .nil
  | cons hab _ ih => exact .cons (h _ _ hab) ih

/-- C162: every parameter set equals itself, and the order of the operands does not matter. -/
theorem C162_refl_symm {feps deps : K} (hf : 0 ≤ feps) (hd : 0 ≤ deps) (p q : LegacyAll K) (r s : SqpAll K) :
    eqLegacy feps deps p p = true ∧ eqLegacy feps deps p q = eqLegacy feps deps q p ∧
      eqSqp feps deps r r = true ∧ eqSqp feps deps r s = eqSqp feps deps s r := by
  refine ⟨(eqLegacy_iff hd p p).2 ⟨forall₂_refl' (close_refl hf) _, rfl⟩, ?_, (eqSqp_iff hd r r).2 ⟨forall₂_refl' (close_refl hf) _, rfl⟩, ?_⟩
  · rw [Bool.eq_iff_iff, eqLegacy_iff hd, eqLegacy_iff hd]
    exact ⟨fun h => ⟨forall₂_symm' (fun _ _ => close_symm) h.1, h.2.symm⟩, fun h => ⟨forall₂_symm' (fun _ _ => close_symm) h.1, h.2.symm⟩⟩
  · rw [Bool.eq_iff_iff, eqSqp_iff hd, eqSqp_iff hd]
    exact ⟨fun h => ⟨forall₂_symm' (fun _ _ => close_symm) h.1, h.2.symm⟩, fun h => ⟨forall₂_symm' (fun _ _ => close_symm) h.1, h.2.symm⟩⟩

/-- C162: parameter sets whose constraint tolerances both lie in an interval of length `feps` compare equal, although one accepts a
constraint violation that the other rejects. So equal parameters do not mean equal verdicts. -/
theorem C162_tolerance_violated {feps deps : K} (hf : 0 ≤ feps) (hd : 0 ≤ deps) (p : LegacyAll K) (r : SqpAll K) (s : Sqp.St K) (t t' : K)
    (h : t < t') (h' : t' - t ≤ feps) :
    (∃ q q' : LegacyAll K, q = { p with base := { p.base with cntTolerance := t } } ∧ q' = { p with base := { p.base with cntTolerance := t' } } ∧
      eqLegacy feps deps q q' = true ∧ Legacy.satisfied q.base [t] = false ∧ Legacy.satisfied q'.base [t] = true) ∧
    ∃ q q' : SqpAll K, q = { r with base := { r.base with cntTolerance := t } } ∧ q' = { r with base := { r.base with cntTolerance := t' } } ∧
      eqSqp feps deps q q' = true ∧ Sqp.verifyConvergence q.base { s with bestViols := [t] } = false ∧
      Sqp.verifyConvergence q'.base { s with bestViols := [t] } = true := by
  have hc : Close feps deps t t' := .inl (by rw [abs_sub_comm, abs_of_pos (by linarith)]; exact h')
  constructor
  · refine ⟨_, _, rfl, rfl, (eqLegacy_iff hd _ _).2 ⟨?_, rfl⟩, ?_, ?_⟩
    · simp [LegacyAll.reals, hc, close_refl hf]
    · simp [Legacy.satisfied, Sqp.maxCoeff]
    · simp [Legacy.satisfied, Sqp.maxCoeff, h]
  · refine ⟨_, _, rfl, rfl, (eqSqp_iff hd _ _).2 ⟨?_, rfl⟩, ?_, ?_⟩
    · simp [SqpAll.reals, hc, close_refl hf]
    · simp [Sqp.verifyConvergence, Sqp.maxCoeff]
    · simp [Sqp.verifyConvergence, Sqp.maxCoeff, h]

/-- C162: the comparison is not transitive: for every parameter set there are two others, each next to the following one. -/
theorem C162_transitive_violated {feps deps : K} (hf : 0 < feps) (hd : 0 ≤ deps) (hs : deps * (2 * feps) < 2 * feps) (p : LegacyAll K) :
    ∃ a b c : LegacyAll K, eqLegacy feps deps a b = true ∧ eqLegacy feps deps b c = true ∧ eqLegacy feps deps a c = false := by
  refine ⟨{ p with trustBoxSize := 0 }, { p with trustBoxSize := feps }, { p with trustBoxSize := 2 * feps }, ?_, ?_, ?_⟩
  · refine (eqLegacy_iff hd _ _).2 ⟨?_, rfl⟩
    have : Close feps deps 0 feps := .inl (by simp [abs_of_pos hf])
    simp [LegacyAll.reals, this, close_refl hf.le]
  · refine (eqLegacy_iff hd _ _).2 ⟨?_, rfl⟩
    have : Close feps deps feps (2 * feps) := .inl (by rw [show feps - 2 * feps = -feps by ring, abs_neg, abs_of_pos hf])
    simp [LegacyAll.reals, this, close_refl hf.le]
  · rw [← Bool.not_eq_true, eqLegacy_iff hd]
    rintro ⟨h, -⟩
    simp only [LegacyAll.reals, List.forall₂_cons] at h
    have hc := h.2.2.2.2.2.2.2.2.2.2.2.1
    unfold Close at hc
    have h2 : |(0 : K) - 2 * feps| = 2 * feps := by rw [zero_sub, abs_neg, abs_of_pos (by linarith)]
    rw [h2, abs_zero, abs_of_pos (show 0 < 2 * feps by linarith)] at hc
    rcases hc with hc | hc | hc
    · linarith
    · rw [mul_zero] at hc; linarith
    · linarith

/-- The tolerances of the code meet the hypotheses; 1e-8 and 1e-7 are tolerances that cannot be told apart. -/
example : (0 : ℚ) < 1 / 2 ^ 23 ∧ (0 : ℚ) ≤ 1 / 2 ^ 52 ∧ (1 / 2 ^ 52 : ℚ) * (2 * (1 / 2 ^ 23)) < 2 * (1 / 2 ^ 23) ∧
    (1 / 10 ^ 8 : ℚ) < 1 / 10 ^ 7 ∧ (1 / 10 ^ 7 : ℚ) - 1 / 10 ^ 8 ≤ 1 / 2 ^ 23 := by norm_num

/-- The defaults of the legacy optimizer (with zero for the lowest double). -/
def defaults : LegacyAll ℚ := ⟨⟨1 / 4, 1 / 10 ^ 4, 1 / 10 ^ 4, 0, 50, 1 / 10, 3 / 2, 1 / 10 ^ 4, 5, 3, 10, 10 ^ 6, 10, true⟩, 1 / 10, false, "/tmp", 0⟩

example : eqLegacy (1 / 2 ^ 23) (1 / 2 ^ 52) defaults { defaults with trustBoxSize := 1 / 10 + 1 / 10 ^ 8 } = true ∧
    eqLegacy (1 / 2 ^ 23) (1 / 2 ^ 52) defaults { defaults with trustBoxSize := 1 / 100 } = false ∧
    eqLegacy (1 / 2 ^ 23) (1 / 2 ^ 52) defaults { defaults with numThreads := 1 } = false := by decide +kernel

end Verif.ParamEq
