import Verif.Props.LegacyMore
import Mathlib.Tactic.Linarith
import Mathlib.Tactic.Positivity
import Mathlib.Tactic.FieldSimp

/-!
C147: what "converged because improvement was small" of the trust-region optimiser (`sco::BasicTrustRegionSQP`) means for convex
problems: the returned point is optimal up to the tolerance and the distance in units of the trust box.
-/

set_option linter.unusedSectionVars false
set_option linter.unusedVariables false

namespace Verif.Optimal

universe u
variable {K : Type u} [Field K] [LinearOrder K] [IsStrictOrderedRing K]

/-! ### Specification -/

/-- Specification: the point at fraction `t` of the way from `x` to `z`. -/
def seg (t : K) (x z : List K) : List K := List.zipWith (fun a b => a + t * (b - a)) x z

/-- Specification: no coordinate differs by more than `d`. -/
def Near (d : K) (x z : List K) : Prop := List.Forall₂ (fun a b => |b - a| ≤ d) x z

/-- Specification: `f` is convex on the convex set `S`. -/
def ConvexOn (S : List K → Prop) (f : List K → K) : Prop :=
  ∀ x z t, S x → S z → 0 ≤ t → t ≤ 1 → S (seg t x z) ∧ f (seg t x z) ≤ (1 - t) * f x + t * f z

/-! ### Convexity -/

theorem near_seg {d t : K} {x z : List K} (h : Near d x z) (h0 : 0 ≤ t) : Near (t * d) x (seg t x z) := by
  unfold Near seg at *
  induction h with
  | nil => exact .nil
  | @cons a b l m hab _ ih =>
    refine .cons ?_ ih
    rw [add_sub_cancel_left, abs_mul, abs_of_nonneg h0]
    exact mul_le_mul_of_nonneg_left hab h0

theorem near_self (d : K) (hd : 0 ≤ d) (x : List K) : Near d x x := by
  unfold Near
  induction x with
  | nil => exact .nil
  | cons a l ih => exact .cons (by simpa using hd) ih

theorem Near.mono {d d' : K} {x z : List K} (h : Near d x z) (hd : d ≤ d') : Near d' x z := h.imp fun _ _ hab => hab.trans hd

/-- A point that is within `ε` of the minimum on a box is within `ε` times the distance, in units of the box, of every value. -/
theorem global_of_local {S : List K → Prop} {f : List K → K} (hf : ConvexOn S f) {x : List K} (hx : S x) {r ε : K} (hr : 0 < r)
    (hloc : ∀ w, S w → Near r x w → f x - ε ≤ f w) {z : List K} (hz : S z) {D : K} (hD : Near D x z) :
    f x ≤ f z + ε * max 1 (D / r) := by
  have hε : 0 ≤ ε := by
    have := hloc x hx (near_self r hr.le x)
    linarith
  by_cases hDr : D ≤ r
  · have := hloc z hz (hD.mono hDr)
    have h1 : ε * 1 ≤ ε * max 1 (D / r) := mul_le_mul_of_nonneg_left (le_max_left _ _) hε
    linarith
  · push Not at hDr
    have hD0 : 0 < D := hr.trans hDr
    have ht0 : 0 < r / D := div_pos hr hD0
    have ht1 : r / D ≤ 1 := (div_le_one hD0).2 hDr.le
    obtain ⟨s1, s2⟩ := hf x z (r / D) hx hz ht0.le ht1
    have hn : Near r x (seg (r / D) x z) := by
      have := near_seg hD ht0.le
      rwa [div_mul_cancel₀ _ hD0.ne'] at this
    have h1 := hloc _ s1 hn
    have h2 : r / D * (f x - f z) ≤ ε := by linarith
    have h3 : f x - f z ≤ ε * (D / r) := by
      have : f x - f z = (r / D * (f x - f z)) * (D / r) := by field_simp
      rw [this]
      exact mul_le_mul_of_nonneg_right h2 (div_pos hD0 hr).le
    have h4 : ε * (D / r) ≤ ε * max 1 (D / r) := mul_le_mul_of_nonneg_left (le_max_right _ _) hε
    linarith

/-- The same with a convex function `m` in place of `f` near the point: what `m` exceeds the value at the point by is added. -/
theorem global_of_model {S : List K → Prop} {m : List K → K} (hm : ConvexOn S m) {x : List K} (hx : S x) {r ε v : K} (hr : 0 < r)
    (hloc : ∀ w, S w → Near r x w → v - ε ≤ m w) {z : List K} (hz : S z) {D : K} (hD : Near D x z) :
    v ≤ m z + (ε + max 0 (m x - v)) * max 1 (D / r) := by
  have hg : 0 ≤ max 0 (m x - v) := le_max_left _ _
  have hgx : m x - v ≤ max 0 (m x - v) := le_max_right _ _
  have hε : 0 ≤ ε + max 0 (m x - v) := by
    have := hloc x hx (near_self r hr.le x)
    linarith
  by_cases hDr : D ≤ r
  · have := hloc z hz (hD.mono hDr)
    have h1 : (ε + max 0 (m x - v)) * 1 ≤ (ε + max 0 (m x - v)) * max 1 (D / r) := mul_le_mul_of_nonneg_left (le_max_left _ _) hε
    linarith
  · push Not at hDr
    have hD0 : 0 < D := hr.trans hDr
    have ht0 : 0 < r / D := div_pos hr hD0
    have ht1 : r / D ≤ 1 := (div_le_one hD0).2 hDr.le
    obtain ⟨s1, s2⟩ := hm x z (r / D) hx hz ht0.le ht1
    have hn : Near r x (seg (r / D) x z) := by
      have := near_seg hD ht0.le
      rwa [div_mul_cancel₀ _ hD0.ne'] at this
    have h1 := hloc _ s1 hn
    have h2 : r / D * (v - m z) ≤ ε + max 0 (m x - v) := by
      have e1 : (1 - r / D) * (m x - v) ≤ (1 - r / D) * max 0 (m x - v) := mul_le_mul_of_nonneg_left hgx (by linarith)
      have e2 : (1 - r / D) * max 0 (m x - v) ≤ 1 * max 0 (m x - v) := mul_le_mul_of_nonneg_right (by linarith) hg
      linarith
    have h3 : v - m z ≤ (ε + max 0 (m x - v)) * (D / r) := by
      have : v - m z = (r / D * (v - m z)) * (D / r) := by field_simp
      rw [this]
      exact mul_le_mul_of_nonneg_right h2 (div_pos hD0 hr).le
    have h4 : (ε + max 0 (m x - v)) * (D / r) ≤ (ε + max 0 (m x - v)) * max 1 (D / r) := mul_le_mul_of_nonneg_left (le_max_right _ _) hε
    linarith

theorem ConvexOn.add {S : List K → Prop} {f g : List K → K} (hf : ConvexOn S f) (hg : ConvexOn S g) : ConvexOn S fun x => f x + g x := by
  intro x z t hx hz h0 h1
  obtain ⟨a, b⟩ := hf x z t hx hz h0 h1
  obtain ⟨_, c⟩ := hg x z t hx hz h0 h1
  exact ⟨a, by linarith⟩

theorem ConvexOn.smul {S : List K → Prop} {f : List K → K} (hf : ConvexOn S f) {c : K} (hc : 0 ≤ c) : ConvexOn S fun x => f x * c := by
  intro x z t hx hz h0 h1
  obtain ⟨a, b⟩ := hf x z t hx hz h0 h1
  refine ⟨a, ?_⟩
  have := mul_le_mul_of_nonneg_right b hc
  linarith

theorem ConvexOn.sum {S : List K → Prop} {g : List K → K} (hg : ConvexOn S g) (fs : List (List K → K)) (h : ∀ f ∈ fs, ConvexOn S f) :
    ConvexOn S fun x => g x + (fs.map fun f => f x).sum := by
  induction fs generalizing g with
  | nil => simpa using hg
  | cons f fs ih =>
    have := ih (hg.add (h f List.mem_cons_self)) fun a ha => h a (List.mem_cons_of_mem _ ha)
    simpa [add_assoc] using this

end Verif.Optimal

namespace Verif.Legacy

open Verif.Sqp (dot maxCoeff)
open Verif.Optimal

universe u
variable {K : Type u} [Field K] [LinearOrder K] [IsStrictOrderedRing K]

/-! ### The last QP -/

/-- Specification: the last QP, posed around `x` with the box of size `r`, was answered by `y` and predicts too small an improvement
to go on. -/
def Small (p : Params K) (e : Env K) (μ x : List K) (k : ℕ) (y : List K) : Prop :=
  exactMerit e μ x - modelMerit e μ k y < p.minApproxImprove ∨
    divLt (exactMerit e μ x - modelMerit e μ k y) (exactMerit e μ x) p.minApproxImproveFrac = true

def Last (p : Params K) (e : Env K) (t : St K) : Prop :=
  ∃ k y, e.qp k t.x t.box = some y ∧ p.minTrustBoxSize ≤ t.box ∧ Small p e t.coeffs t.x k y

theorem trBody_penalty (p : Params K) (e : Env K) (s t : St K) (f : ℤ) (h : Cons e s) (hb : p.minTrustBoxSize ≤ s.box)
    (hr : trBody p e s f = .penalty t) : Last p e t := by
  unfold trBody at hr
  simp only at hr
  cases hq : e.qp s.nQpSolves s.x s.box with
  | none =>
    rw [hq] at hr
    simp only at hr
    split_ifs at hr
  | some y =>
    rw [hq] at hr
    simp only at hr
    have hold : s.costVals.sum + dot s.cntViols s.coeffs = exactMerit e s.coeffs s.x := by
      rw [h.1, h.2]; rfl
    split_ifs at hr with c1 c2
    · cases hr
      refine ⟨s.nQpSolves, y, hq, hb, Or.inl ?_⟩
      simp only [iterUpdate, hold] at c1
      exact c1
    · cases hr
      refine ⟨s.nQpSolves, y, hq, hb, Or.inr ?_⟩
      simp only [iterUpdate, hold] at c2
      exact c2

theorem trLoop_penalty (p : Params K) (e : Env K) (n : ℕ) (s t : St K) (f : ℤ) (h : Cons e s)
    (hr : trLoop p e n s f = some (.penalty t)) : Last p e t := by
  induction n generalizing s f with
  | zero => simp [trLoop] at hr
  | succ n ih =>
    unfold trLoop at hr
    split_ifs at hr with hb
    · obtain ⟨b1, -⟩ := trBody_spec p e s f h
      cases hbody : trBody p e s f with
      | cont w g =>
        rw [hbody] at hr b1
        exact ih w g b1 hr
      | penalty w =>
        rw [hbody] at hr
        simp only [Option.some.injEq, TrOut.penalty.injEq] at hr
        subst hr
        exact trBody_penalty p e s w f h hb hbody
      | failed w => rw [hbody] at hr; simp at hr
      | exit w => rw [hbody] at hr; simp at hr
    · simp at hr

theorem trLoop_count (p : Params K) (e : Env K) (n : ℕ) (s : St K) (f : ℤ) (o : TrOut K) (h : Cons e s)
    (hr : trLoop p e n s f = some o) : s.nQpSolves ≤ o.st.nQpSolves ∧ (p.minTrustBoxSize ≤ s.box → s.nQpSolves + 1 ≤ o.st.nQpSolves) := by
  induction n generalizing s f with
  | zero => simp [trLoop] at hr
  | succ n ih =>
    unfold trLoop at hr
    split_ifs at hr with hb
    · obtain ⟨b1, b2, -⟩ := trBody_spec p e s f h
      cases hbody : trBody p e s f with
      | cont w g =>
        rw [hbody] at hr b1 b2
        obtain ⟨i, -⟩ := ih w g b1 hr
        have b2' : w.nQpSolves = s.nQpSolves + 1 := b2
        exact ⟨by omega, fun _ => by omega⟩
      | penalty w =>
        rw [hbody] at hr b2
        simp only [Option.some.injEq] at hr
        subst hr
        exact ⟨by omega, fun _ => by omega⟩
      | failed w =>
        rw [hbody] at hr b2
        simp only [Option.some.injEq] at hr
        subst hr
        exact ⟨by omega, fun _ => by omega⟩
      | exit w =>
        rw [hbody] at hr b2
        simp only [Option.some.injEq] at hr
        subst hr
        exact ⟨by omega, fun _ => by omega⟩
    · simp only [Option.some.injEq] at hr
      subst hr
      exact ⟨le_refl _, fun hb' => absurd hb' hb⟩

theorem sqpLoop_reason (p : Params K) (e : Env K) (hclock : ∀ k, e.clock k ≤ p.maxTime) (fuel n : ℕ) (iter : ℤ) (s : St K) (o : SqpOut K)
    (h : Cons e s ∨ Fresh s) (hi : iter - 1 ≤ s.nQpSolves) (hr : sqpLoop p e fuel n iter s = some o) :
    (∀ t, o = .penalty t → Cons e t ∧ (Last p e t ∨ t.box < p.minTrustBoxSize)) ∧
    (∀ r t, o = .cleanup r t → r = .converged → p.maxIter ≤ t.nQpSolves) := by
  induction n generalizing iter s with
  | zero => simp [sqpLoop] at hr
  | succ n ih =>
    unfold sqpLoop at hr
    simp only at hr
    rw [if_neg (not_lt.2 (hclock _))] at hr
    obtain ⟨e1, e2, e3, e4, e5⟩ := eval_cons e { s with clockReads := s.clockReads + 1 } h
    have e6 : (evalIfNeeded e { s with clockReads := s.clockReads + 1 }).nQpSolves = s.nQpSolves := by
      unfold evalIfNeeded
      split_ifs <;> rfl
    set s1 := evalIfNeeded e { s with clockReads := s.clockReads + 1 } with hs1
    cases htr : trLoop p e fuel s1 0 with
    | none => rw [htr] at hr; cases hr
    | some o' =>
      rw [htr] at hr
      obtain ⟨t1, -⟩ := trLoop_spec p e fuel s1 0 o' e1 htr
      obtain ⟨n1, n2⟩ := trLoop_count p e fuel s1 0 o' e1 htr
      cases o' with
      | cont t f => cases hr
      | penalty t =>
        simp only [Option.some.injEq] at hr; subst hr
        refine ⟨?_, by simp⟩
        intro t' heq; cases heq
        exact ⟨t1, Or.inl (trLoop_penalty p e fuel s1 t 0 e1 htr)⟩
      | failed t =>
        simp only [Option.some.injEq] at hr; subst hr
        refine ⟨by simp, ?_⟩
        intro r t' heq hc; cases heq; cases hc
      | exit t =>
        simp only at hr
        have hbig : ¬ t.box < p.minTrustBoxSize → s1.nQpSolves + 1 ≤ t.nQpSolves := by
          intro hb
          by_cases hb1 : p.minTrustBoxSize ≤ s1.box
          · exact n2 hb1
          · exfalso
            cases fuel with
            | zero => simp [trLoop] at htr
            | succ fuel =>
              unfold trLoop at htr
              rw [if_neg hb1] at htr
              simp only [Option.some.injEq, TrOut.exit.injEq] at htr
              rw [← htr] at hb
              exact hb1 (not_lt.1 hb)
        split_ifs at hr with c2 c3 c4
        · simp only [Option.some.injEq] at hr; subst hr
          refine ⟨?_, by simp⟩
          intro t' heq; cases heq
          exact ⟨t1, Or.inr c2⟩
        · simp only [Option.some.injEq] at hr; subst hr
          refine ⟨by simp, ?_⟩
          intro r t' heq hc; cases heq
          have := hbig c2
          omega
        · simp only [Option.some.injEq] at hr; subst hr
          refine ⟨by simp, ?_⟩
          intro r t' heq hc; cases heq; cases hc
        · have := hbig c2
          exact ih (iter + 1) t (Or.inl t1) (by omega) hr

theorem meritLoop_reason (p : Params K) (e : Env K) (hclock : ∀ k, e.clock k ≤ p.maxTime) (fuel m : ℕ) (s t : St K)
    (h : Cons e s ∨ Fresh s) (hr : meritLoop p e fuel m s = some (.converged, t)) :
    (Cons e t ∧ (Last p e t ∨ t.box < p.minTrustBoxSize)) ∨ p.maxIter ≤ t.nQpSolves := by
  induction m generalizing s with
  | zero => simp [meritLoop] at hr
  | succ m ih =>
    unfold meritLoop at hr
    cases hs : sqpLoop p e fuel fuel 1 s with
    | none => rw [hs] at hr; cases hr
    | some o =>
      rw [hs] at hr
      obtain ⟨i1, i2⟩ := sqpLoop_reason p e hclock fuel fuel 1 s o h (by omega) hs
      cases o with
      | cleanup r' t' =>
        simp only [Option.some.injEq, Prod.mk.injEq] at hr
        obtain ⟨rfl, rfl⟩ := hr
        exact Or.inr (i2 _ _ rfl rfl)
      | penalty t' =>
        simp only at hr
        split_ifs at hr with c
        · simp only [Option.some.injEq, Prod.mk.injEq] at hr
          obtain ⟨-, rfl⟩ := hr
          exact Or.inl (i1 _ rfl)
        · exact ih (nextRound p t') (Or.inl (i1 _ rfl).1) hr

/-- Specification: the tolerance of the two convergence tests at a point of merit `m`. -/
def tolerance (p : Params K) (m : K) : K := max p.minApproxImprove (p.minApproxImproveFrac * m)

theorem small_le {p : Params K} {e : Env K} {μ x : List K} {k : ℕ} {y : List K} (h : Small p e μ x k y) (hm : 0 ≤ exactMerit e μ x)
    (ha : 0 ≤ exactMerit e μ x - modelMerit e μ k y) : exactMerit e μ x - modelMerit e μ k y ≤ tolerance p (exactMerit e μ x) := by
  rcases h with h | h
  · exact h.le.trans (le_max_left _ _)
  · unfold divLt at h
    by_cases h0 : exactMerit e μ x = 0
    · rw [if_pos h0, decide_eq_true_iff] at h
      exact absurd h (not_lt.2 ha)
    · rw [if_neg h0, decide_eq_true_iff, div_lt_iff₀ (lt_of_le_of_ne hm (Ne.symm h0))] at h
      exact h.le.trans (le_max_right _ _)

/-- C147: a run that reports convergence within the time limit, with fewer QPs than the iteration limit and a trust box that is still
at least the minimum, ended with a QP around the returned point whose answer `y` predicts at most a small improvement. If the merit is
convex and non-negative and the QP's answer is, by its model, no worse than any point of the box (the model of a convex function lies
below it, and the answer minimises it), then no point `z` has a smaller merit than the returned point by more than the tolerance
times the distance of `z` in units of the final box. -/
theorem C147_merit_optimal_partial (p : Params K) (e : Env K) (hmin : 0 < p.minTrustBoxSize) (fuel : ℕ) (x0 : List K) (box : K) (r : Result K)
    (hclock : ∀ k, e.clock k ≤ p.maxTime) (hr : optimize p e fuel (initialState x0 box) = some r) (hc : r.status = .converged)
    (hiter : (r.st.nQpSolves : ℤ) < p.maxIter) (hbox : p.minTrustBoxSize ≤ r.st.box) :
    ∃ k y, e.qp k r.st.x r.st.box = some y ∧
      ∀ S : List K → Prop, ConvexOn S (exactMerit e r.st.coeffs) → S r.st.x → 0 ≤ exactMerit e r.st.coeffs r.st.x →
        (∀ w, S w → Near r.st.box r.st.x w → modelMerit e r.st.coeffs k y ≤ exactMerit e r.st.coeffs w) →
        ∀ z D, S z → Near D r.st.x z →
          exactMerit e r.st.coeffs r.st.x ≤ exactMerit e r.st.coeffs z +
            tolerance p (exactMerit e r.st.coeffs r.st.x) * max 1 (D / r.st.box) := by
  unfold optimize at hr
  simp only at hr
  split at hr
  · cases hr
  · rename_i st s hm
    simp only [Option.some.injEq] at hr; subst hr
    simp only at hc hiter hbox ⊢
    subst hc
    rcases meritLoop_reason p e hclock fuel _ _ _ (Or.inr ⟨rfl, rfl⟩) hm with ⟨-, ⟨k, y, h1, h2, h3⟩ | h⟩ | h
    · refine ⟨k, y, h1, fun S hS hx hpos hlow z D hz hD => ?_⟩
      refine global_of_local hS hx (hmin.trans_le hbox) (fun w hw hn => ?_) hz hD
      have hx' := hlow _ hx (near_self _ (hmin.trans_le hbox).le _)
      have := small_le h3 hpos (by linarith)
      have := hlow w hw hn
      linarith
    · exact absurd h (not_lt.2 hbox)
    · omega

theorem small_le' {p : Params K} {e : Env K} {μ x : List K} {k : ℕ} {y : List K} (h : Small p e μ x k y) (hm : 0 ≤ exactMerit e μ x)
    (hp : 0 ≤ p.minApproxImprove) : exactMerit e μ x - modelMerit e μ k y ≤ tolerance p (exactMerit e μ x) := by
  by_cases ha : 0 ≤ exactMerit e μ x - modelMerit e μ k y
  · exact small_le h hm ha
  · push Not at ha
    exact ha.le.trans (hp.trans (le_max_left _ _))

/-- C147 (models): the same when the QP minimises a convex function `m` of the variables other than the merit: the amount by which `m`
exceeds the merit at the returned point is added to the tolerance. -/
theorem C147_model_optimal_partial (p : Params K) (e : Env K) (hmin : 0 < p.minTrustBoxSize) (happ : 0 ≤ p.minApproxImprove) (fuel : ℕ)
    (x0 : List K) (box : K) (r : Result K)
    (hclock : ∀ k, e.clock k ≤ p.maxTime) (hr : optimize p e fuel (initialState x0 box) = some r) (hc : r.status = .converged)
    (hiter : (r.st.nQpSolves : ℤ) < p.maxIter) (hbox : p.minTrustBoxSize ≤ r.st.box) :
    ∃ k y, e.qp k r.st.x r.st.box = some y ∧
      ∀ (S : List K → Prop) (m : List K → K), ConvexOn S m → S r.st.x → 0 ≤ exactMerit e r.st.coeffs r.st.x →
        (∀ w, S w → Near r.st.box r.st.x w → modelMerit e r.st.coeffs k y ≤ m w) →
        ∀ z D, S z → Near D r.st.x z →
          exactMerit e r.st.coeffs r.st.x ≤ m z + (tolerance p (exactMerit e r.st.coeffs r.st.x) +
            max 0 (m r.st.x - exactMerit e r.st.coeffs r.st.x)) * max 1 (D / r.st.box) := by
  unfold optimize at hr
  simp only at hr
  split at hr
  · cases hr
  · rename_i st s hm
    simp only [Option.some.injEq] at hr; subst hr
    simp only at hc hiter hbox ⊢
    subst hc
    rcases meritLoop_reason p e hclock fuel _ _ _ (Or.inr ⟨rfl, rfl⟩) hm with ⟨-, ⟨k, y, h1, h2, h3⟩ | h⟩ | h
    · refine ⟨k, y, h1, fun S m hS hx hpos hlow z D hz hD => ?_⟩
      refine global_of_model hS hx (hmin.trans_le hbox) (fun w hw hn => ?_) hz hD
      have := small_le' h3 hpos happ
      have := hlow w hw hn
      linarith
    · exact absurd h (not_lt.2 hbox)
    · omega

/-! ### Costs of feasible points -/

/-- Specification: the exact costs and violations are given by these functions. -/
structure Terms (e : Env K) (costs cnts : List (List K → K)) : Prop where
  count : cnts.length = e.nCnts
  costs : ∀ x, e.exactCosts x = costs.map fun f => f x
  cnts : ∀ x, e.exactViols x = cnts.map fun f => f x

theorem merit_eq {e : Env K} {costs cnts : List (List K → K)} (h : Terms e costs cnts) (μ x : List K) :
    exactMerit e μ x = (costs.map fun f => f x).sum + (((cnts.zip μ).map fun c => fun x => c.1 x * c.2).map fun f => f x).sum := by
  unfold exactMerit
  rw [h.costs, h.cnts]
  congr 2
  rw [List.map_map]
  induction cnts generalizing μ with
  | nil => simp
  | cons c cnts ih =>
    cases μ with
    | nil => simp
    | cons a μ =>
      simp only [List.map_cons, List.zipWith_cons_cons, List.zip_cons_cons, Function.comp]
      congr 1
      have : ∀ (l : List (List K → K)) (μ : List K), List.zipWith (· * ·) (l.map fun f => f x) μ =
          (l.zip μ).map ((fun f => f x) ∘ fun c => fun x => c.1 x * c.2) := by
        intro l
        induction l with
        | nil => simp
        | cons b l ihl =>
          intro μ
          cases μ with
          | nil => simp
          | cons d μ => simp [ihl]
      exact this cnts μ

theorem merit_convex {e : Env K} {costs cnts : List (List K → K)} (h : Terms e costs cnts) {μ : List K} (hμ : ∀ c ∈ μ, 0 ≤ c)
    {S : List K → Prop} (hS : ConvexOn S fun _ => 0) (h1 : ∀ f ∈ costs, ConvexOn S f) (h2 : ∀ f ∈ cnts, ConvexOn S f) :
    ConvexOn S (exactMerit e μ) := by
  have hm : exactMerit e μ = fun x => (0 + (costs.map fun f => f x).sum) + (((cnts.zip μ).map fun c => fun x => c.1 x * c.2).map fun f => f x).sum := by
    funext x
    rw [merit_eq h, zero_add]
  rw [hm]
  refine ConvexOn.sum (ConvexOn.sum hS costs h1) _ ?_
  intro f hf
  obtain ⟨c, hc, rfl⟩ := List.mem_map.1 hf
  exact (h2 c.1 (List.of_mem_zip hc).1).smul (hμ c.2 (List.of_mem_zip hc).2)

theorem merit_ge {e : Env K} {costs cnts : List (List K → K)} (h : Terms e costs cnts) {μ : List K} (hμ : ∀ c ∈ μ, 0 ≤ c) (x : List K)
    (hx : ∀ f ∈ cnts, 0 ≤ f x) : (e.exactCosts x).sum ≤ exactMerit e μ x := by
  rw [merit_eq h, ← h.costs]
  refine le_add_of_nonneg_right (List.sum_nonneg ?_)
  intro v hv
  obtain ⟨f, hf, rfl⟩ := List.mem_map.1 hv
  obtain ⟨c, hc, rfl⟩ := List.mem_map.1 hf
  exact mul_nonneg (hx c.1 (List.of_mem_zip hc).1) (hμ c.2 (List.of_mem_zip hc).2)

theorem merit_feasible {e : Env K} {costs cnts : List (List K → K)} (h : Terms e costs cnts) (μ z : List K) (hz : ∀ f ∈ cnts, f z = 0) :
    exactMerit e μ z = (e.exactCosts z).sum := by
  rw [merit_eq h, ← h.costs]
  refine add_eq_left.2 (List.sum_eq_zero ?_)
  intro v hv
  obtain ⟨f, hf, rfl⟩ := List.mem_map.1 hv
  obtain ⟨c, hc, rfl⟩ := List.mem_map.1 hf
  simp [hz c.1 (List.of_mem_zip hc).1]

theorem coeffs_nonneg {p : Params K} {e : Env K} {costs cnts : List (List K → K)} (h : Terms e costs cnts) {fuel : ℕ} {x0 : List K} {box : K}
    {r : Result K} (hr : optimize p e fuel (initialState x0 box) = some r) (h1 : 0 ≤ p.initialMeritErrorCoeff)
    (h2 : 0 ≤ p.meritCoeffIncreaseRatio) : ∀ c ∈ r.st.coeffs, 0 ≤ c := by
  obtain ⟨n, -, -, hl, hco⟩ := C90_coefficients p e fuel x0 box r (fun x => by rw [h.cnts, List.length_map, h.count]) hr
  intro c hc
  obtain ⟨i, hi⟩ := List.getElem?_of_mem hc
  obtain ⟨k, -, hk, -⟩ := hco i (by rw [← hl]; exact (List.getElem?_eq_some_iff.1 hi).1)
  rw [hi] at hk
  injection hk with hk
  rw [hk]
  positivity

theorem totalCost_eq {p : Params K} {e : Env K} {fuel : ℕ} {x0 : List K} {box : K} {r : Result K} (hclock : ∀ k, e.clock k ≤ p.maxTime)
    (hr : optimize p e fuel (initialState x0 box) = some r) (hc : r.status = .converged) : r.totalCost = (e.exactCosts r.st.x).sum := by
  have hmm : 0 < p.maxMeritCoeffIncreases := by
    by_contra h0
    have h0' : p.maxMeritCoeffIncreases = 0 := by omega
    unfold optimize at hr
    rw [h0'] at hr
    simp only [meritLoop, Option.some.injEq] at hr
    rw [← hr] at hc
    cases hc
  exact (C19_results_belong_to_point p e fuel x0 box r (hclock 0) hmm hr).2.2.1

/-- C147 (costs): in such a run of a problem with convex costs and convex violations that are never negative, the total cost reported
exceeds that of any point `z` that satisfies the constraints by at most the tolerance times the distance in units of the final box. -/
theorem C147_cost_optimal_partial (p : Params K) (e : Env K) (hmin : 0 < p.minTrustBoxSize) (hinit : 0 ≤ p.initialMeritErrorCoeff)
    (hratio : 0 ≤ p.meritCoeffIncreaseRatio) (costs cnts : List (List K → K)) (ht : Terms e costs cnts)
    (fuel : ℕ) (x0 : List K) (box : K) (r : Result K)
    (hclock : ∀ k, e.clock k ≤ p.maxTime) (hr : optimize p e fuel (initialState x0 box) = some r) (hc : r.status = .converged)
    (hiter : (r.st.nQpSolves : ℤ) < p.maxIter) (hbox : p.minTrustBoxSize ≤ r.st.box) :
    ∃ k y, e.qp k r.st.x r.st.box = some y ∧
      ∀ S : List K → Prop, ConvexOn S (fun _ => 0) → (∀ f ∈ costs, ConvexOn S f ∧ ∀ x, S x → 0 ≤ f x) →
        (∀ f ∈ cnts, ConvexOn S f ∧ ∀ x, S x → 0 ≤ f x) → S r.st.x →
        (∀ w, S w → Near r.st.box r.st.x w → modelMerit e r.st.coeffs k y ≤ exactMerit e r.st.coeffs w) →
        ∀ z D, S z → (∀ f ∈ cnts, f z = 0) → Near D r.st.x z →
          r.totalCost ≤ (costs.map fun f => f z).sum + tolerance p (exactMerit e r.st.coeffs r.st.x) * max 1 (D / r.st.box) := by
  obtain ⟨k, y, h1, h2⟩ := C147_merit_optimal_partial p e hmin fuel x0 box r hclock hr hc hiter hbox
  have hμ := coeffs_nonneg ht hr hinit hratio
  refine ⟨k, y, h1, fun S hS hcs hcn hx hlow z D hz hfz hD => ?_⟩
  have hge := merit_ge ht hμ r.st.x fun f hf => (hcn f hf).2 _ hx
  have hpos : 0 ≤ (e.exactCosts r.st.x).sum := by
    rw [ht.costs]
    refine List.sum_nonneg fun v hv => ?_
    obtain ⟨f, hf, rfl⟩ := List.mem_map.1 hv
    exact (hcs f hf).2 _ hx
  have key := h2 S (merit_convex ht hμ hS (fun f hf => (hcs f hf).1) fun f hf => (hcn f hf).1) hx (hpos.trans hge) hlow z D hz hD
  rw [merit_feasible ht _ z hfz, ht.costs z] at key
  have htot := totalCost_eq hclock hr hc
  rw [htot]
  exact hge.trans key

/-! ### Problems whose convexification is exact -/

/-- Specification: every QP is solved and its model predicts the exact costs and violations at the answer, as for costs and constraints
that are built from affine functions of the variables. -/
structure Exact (e : Env K) : Prop where
  solved : ∀ k x b, ∃ y, e.qp k x b = some y
  predicts : ∀ k x b y, e.qp k x b = some y →
    e.modelCosts k y = e.exactCosts (y.take x.length) ∧ e.modelViols k y = e.exactViols (y.take x.length)

/-- Sensible parameters. -/
structure Sensible (p : Params K) : Prop where
  min : 0 < p.minTrustBoxSize
  approx : 0 ≤ p.minApproxImprove
  threshold : p.improveRatioThreshold ≤ 1
  expand : 1 ≤ p.trustExpandRatio

theorem trBody_exact {p : Params K} {e : Env K} (hp : Sensible p) (he : Exact e) (s : St K) (f : ℤ) (h : Cons e s)
    (hb : p.minTrustBoxSize ≤ s.box) : (∃ t, trBody p e s f = .penalty t ∧ t.x = s.x ∧ t.box = s.box) ∨
      ∃ t y, trBody p e s f = .exit t ∧ e.qp s.nQpSolves s.x s.box = some y ∧ t.x = y.take s.x.length ∧ s.box ≤ t.box := by
  obtain ⟨y, hy⟩ := he.solved s.nQpSolves s.x s.box
  obtain ⟨h1, h2⟩ := he.predicts _ _ _ _ hy
  unfold trBody
  simp only [hy]
  by_cases c1 : (iterUpdate e { s with nQpSolves := s.nQpSolves + 1 } s.nQpSolves y).approxImprove < p.minApproxImprove
  · rw [if_pos c1]
    exact Or.inl ⟨_, rfl, rfl, rfl⟩
  rw [if_neg c1]
  by_cases c2 : divLt (iterUpdate e { s with nQpSolves := s.nQpSolves + 1 } s.nQpSolves y).approxImprove
      (iterUpdate e { s with nQpSolves := s.nQpSolves + 1 } s.nQpSolves y).oldMerit p.minApproxImproveFrac = true
  · rw [if_pos c2]
    exact Or.inl ⟨_, rfl, rfl, rfl⟩
  rw [if_neg c2]
  have heq : (iterUpdate e { s with nQpSolves := s.nQpSolves + 1 } s.nQpSolves y).exactImprove =
      (iterUpdate e { s with nQpSolves := s.nQpSolves + 1 } s.nQpSolves y).approxImprove := by
    simp only [iterUpdate, h1, h2]
  have hge := hp.approx.trans (not_lt.1 c1)
  rw [if_neg]
  · refine Or.inr ⟨_, y, rfl, rfl, rfl, ?_⟩
    show s.box ≤ s.box * p.trustExpandRatio
    exact le_mul_of_one_le_right (hp.min.le.trans hb) hp.expand
  · rw [heq]
    rintro (h' | h')
    · exact absurd h' (not_lt.2 hge)
    · unfold divLt at h'
      by_cases h0 : (iterUpdate e { s with nQpSolves := s.nQpSolves + 1 } s.nQpSolves y).approxImprove = 0
      · rw [if_pos h0, decide_eq_true_iff, h0] at h'
        exact lt_irrefl _ h'
      · rw [if_neg h0, decide_eq_true_iff, div_self h0] at h'
        exact absurd h' (not_lt.2 hp.threshold)

/-- C147 (no step is rejected): in a problem whose convexification is exact every answer of a QP that promises enough is accepted at
once and the trust box never shrinks: the loop makes a single QP. -/
theorem C147_exact_accepts (p : Params K) (e : Env K) (hp : Sensible p) (he : Exact e) (n : ℕ) (s : St K) (o : TrOut K) (h : Cons e s)
    (hb : p.minTrustBoxSize ≤ s.box) (hr : trLoop p e n s 0 = some o) :
    s.box ≤ o.st.box ∧ o.st.nQpSolves = s.nQpSolves + 1 ∧ (o.st.x = s.x ∨ ∃ y, e.qp s.nQpSolves s.x s.box = some y ∧ o.st.x = y.take s.x.length) := by
  cases n with
  | zero => simp [trLoop] at hr
  | succ n =>
    unfold trLoop at hr
    rw [if_pos hb] at hr
    have hn := (trBody_spec p e s 0 h).2.1
    rcases trBody_exact hp he s 0 h hb with ⟨t, h1, h2, h3⟩ | ⟨t, y, h1, h2, h3, h4⟩
    · rw [h1] at hr hn
      simp only [Option.some.injEq] at hr
      subst hr
      exact ⟨h3.ge, hn, Or.inl h2⟩
    · rw [h1] at hr hn
      simp only [Option.some.injEq] at hr
      subst hr
      exact ⟨h4, hn, Or.inr ⟨y, h2, h3⟩⟩

theorem sqpLoop_exact {p : Params K} {e : Env K} (hp : Sensible p) (he : Exact e) (fuel n : ℕ) (iter : ℤ) (s : St K) (o : SqpOut K)
    (h : Cons e s ∨ Fresh s) (hb : p.minTrustBoxSize ≤ s.box) (hr : sqpLoop p e fuel n iter s = some o) :
    (∀ t, o = .penalty t → p.minTrustBoxSize ≤ t.box) ∧ ∀ r t, o = .cleanup r t → p.minTrustBoxSize ≤ t.box := by
  induction n generalizing iter s with
  | zero => simp [sqpLoop] at hr
  | succ n ih =>
    unfold sqpLoop at hr
    simp only at hr
    by_cases c1 : p.maxTime < e.clock s.clockReads
    · simp only [c1, if_true, Option.some.injEq] at hr; subst hr
      refine ⟨by simp, ?_⟩
      intro r t heq; cases heq
      exact hb
    · simp only [c1, if_false] at hr
      obtain ⟨e1, e2, e3, e4, e5⟩ := eval_cons e { s with clockReads := s.clockReads + 1 } h
      set s1 := evalIfNeeded e { s with clockReads := s.clockReads + 1 } with hs1
      have hb1 : p.minTrustBoxSize ≤ s1.box := by rw [e4]; exact hb
      cases htr : trLoop p e fuel s1 0 with
      | none => rw [htr] at hr; cases hr
      | some o' =>
        rw [htr] at hr
        obtain ⟨t1, -⟩ := trLoop_spec p e fuel s1 0 o' e1 htr
        have hle := hb1.trans (C147_exact_accepts p e hp he fuel s1 o' e1 hb1 htr).1
        cases o' with
        | cont t f => cases hr
        | penalty t =>
          simp only [Option.some.injEq] at hr; subst hr
          refine ⟨?_, by simp⟩
          intro t' heq; cases heq
          exact hle
        | failed t =>
          simp only [Option.some.injEq] at hr; subst hr
          refine ⟨by simp, ?_⟩
          intro r t' heq; cases heq
          exact hle
        | exit t =>
          simp only at hr
          have hle' : p.minTrustBoxSize ≤ t.box := hle
          rw [if_neg (not_lt.2 hle')] at hr
          split_ifs at hr with c3 c4
          · simp only [Option.some.injEq] at hr; subst hr
            refine ⟨by simp, ?_⟩
            intro r t' heq; cases heq
            exact hle
          · simp only [Option.some.injEq] at hr; subst hr
            refine ⟨by simp, ?_⟩
            intro r t' heq; cases heq
            exact hle
          · exact ih (iter + 1) t (Or.inl t1) hle hr

theorem meritLoop_exact {p : Params K} {e : Env K} (hp : Sensible p) (he : Exact e) (fuel m : ℕ) (s t : St K) (r : Status)
    (h : Cons e s ∨ Fresh s) (hb : p.minTrustBoxSize ≤ s.box) (hr : meritLoop p e fuel m s = some (r, t)) : p.minTrustBoxSize ≤ t.box := by
  induction m generalizing s with
  | zero =>
    simp only [meritLoop, Option.some.injEq, Prod.mk.injEq] at hr
    obtain ⟨-, rfl⟩ := hr
    exact hb
  | succ m ih =>
    unfold meritLoop at hr
    cases hs : sqpLoop p e fuel fuel 1 s with
    | none => rw [hs] at hr; cases hr
    | some o =>
      rw [hs] at hr
      obtain ⟨i1, i2⟩ := sqpLoop_exact hp he fuel fuel 1 s o h hb hs
      cases o with
      | cleanup r' t' =>
        simp only [Option.some.injEq, Prod.mk.injEq] at hr
        obtain ⟨rfl, rfl⟩ := hr
        exact i2 _ _ rfl
      | penalty t' =>
        simp only at hr
        split_ifs at hr with c
        · simp only [Option.some.injEq, Prod.mk.injEq] at hr
          obtain ⟨-, rfl⟩ := hr
          exact i1 _ rfl
        · exact ih (nextRound p t') (Or.inl ((sqpLoop_spec p e fuel fuel 1 s _ h hs).1 t' rfl).1)
            ((i1 t' rfl).trans (le_max_left _ _)) hr

/-- C147 (exact problems): when costs and violations are convex and non-negative, their convexification is exact and every QP is
solved, a run that reports convergence before its limits is optimal among all feasible points, up to the tolerance times the distance
in units of the final box, provided the last QP's answer is a minimiser of the merit on the box. The box never falls below the
minimum. -/
theorem C147_exact_optimal_partial (p : Params K) (e : Env K) (hp : Sensible p) (he : Exact e) (hinit : 0 ≤ p.initialMeritErrorCoeff)
    (hratio : 0 ≤ p.meritCoeffIncreaseRatio) (costs cnts : List (List K → K)) (ht : Terms e costs cnts)
    (fuel : ℕ) (x0 : List K) (box : K) (hstart : p.minTrustBoxSize ≤ box) (r : Result K)
    (hclock : ∀ k, e.clock k ≤ p.maxTime) (hr : optimize p e fuel (initialState x0 box) = some r) (hc : r.status = .converged)
    (hiter : (r.st.nQpSolves : ℤ) < p.maxIter) :
    p.minTrustBoxSize ≤ r.st.box ∧ ∃ k y, e.qp k r.st.x r.st.box = some y ∧
      ∀ S : List K → Prop, ConvexOn S (fun _ => 0) → (∀ f ∈ costs, ConvexOn S f ∧ ∀ x, S x → 0 ≤ f x) →
        (∀ f ∈ cnts, ConvexOn S f ∧ ∀ x, S x → 0 ≤ f x) → S r.st.x →
        (∀ w, S w → Near r.st.box r.st.x w → exactMerit e r.st.coeffs (y.take r.st.x.length) ≤ exactMerit e r.st.coeffs w) →
        ∀ z D, S z → (∀ f ∈ cnts, f z = 0) → Near D r.st.x z →
          r.totalCost ≤ (costs.map fun f => f z).sum + tolerance p (exactMerit e r.st.coeffs r.st.x) * max 1 (D / r.st.box) := by
  have hbox : p.minTrustBoxSize ≤ r.st.box := by
    have hr' := hr
    unfold optimize at hr'
    simp only at hr'
    split at hr'
    · cases hr'
    · rename_i st s hm
      simp only [Option.some.injEq] at hr'; subst hr'
      exact meritLoop_exact hp he fuel _ _ _ _ (Or.inr ⟨rfl, rfl⟩) (by exact hstart) hm
  obtain ⟨k, y, h1, h2⟩ := C147_cost_optimal_partial p e hp.min hinit hratio costs cnts ht fuel x0 box r hclock hr hc hiter hbox
  refine ⟨hbox, k, y, h1, fun S hS hcs hcn hx hlow => h2 S hS hcs hcn hx fun w hw hn => ?_⟩
  obtain ⟨p1, p2⟩ := he.predicts _ _ _ _ h1
  have : modelMerit e r.st.coeffs k y = exactMerit e r.st.coeffs (y.take r.st.x.length) := by
    unfold modelMerit exactMerit
    rw [p1, p2]
  rw [this]
  exact hlow w hw hn

/-- C147, violated for negative costs: while the merit is negative and `min_approx_improve_frac` positive, the test of the relative
improvement stops the optimiser however large the predicted improvement is: the quotient is negative. -/
theorem C147_negative_merit_violated (p : Params K) (e : Env K) (s : St K) (f : ℤ) (h : Cons e s) (hfrac : 0 ≤ p.minApproxImproveFrac)
    (hneg : exactMerit e s.coeffs s.x < 0) (y : List K) (hy : e.qp s.nQpSolves s.x s.box = some y)
    (hgood : 0 < exactMerit e s.coeffs s.x - modelMerit e s.coeffs s.nQpSolves y) :
    ∃ t, trBody p e s f = .penalty t ∧ t.x = s.x := by
  have hold : s.costVals.sum + dot s.cntViols s.coeffs = exactMerit e s.coeffs s.x := by
    rw [h.1, h.2]; rfl
  unfold trBody
  simp only [hy]
  by_cases c1 : (iterUpdate e { s with nQpSolves := s.nQpSolves + 1 } s.nQpSolves y).approxImprove < p.minApproxImprove
  · rw [if_pos c1]
    exact ⟨_, rfl, rfl⟩
  rw [if_neg c1, if_pos]
  · exact ⟨_, rfl, rfl⟩
  · simp only [iterUpdate, hold]
    unfold divLt
    rw [if_neg hneg.ne, decide_eq_true_iff]
    refine lt_of_lt_of_le ?_ hfrac
    exact div_neg_of_pos_of_neg hgood hneg

end Verif.Legacy

/-! ### Example -/

namespace Verif.Legacy.OptDemo

open Verif.Optimal Verif.Legacy

/-- One variable, the cost `(x - 3)²` and the constraint `x ≤ 1`; the solver returns the minimiser of the penalised problem on the
box for every penalty of at least 4. -/
def env : Env ℚ where
  nCnts := 1
  closest := id
  exactCosts := fun x => [(x.getD 0 0 - 3) ^ 2]
  exactViols := fun x => [max 0 (x.getD 0 0 - 1)]
  qp := fun _ x b => match x with
    | [] => some []
    | a :: _ => some [max (a - b) (min (a + b) 1)]
  modelCosts := fun _ y => [(y.getD 0 0 - 3) ^ 2]
  modelViols := fun _ y => [max 0 (y.getD 0 0 - 1)]
  clock := fun _ => 0

def params : Params ℚ where
  improveRatioThreshold := 1/4
  minTrustBoxSize := 1/10000
  minApproxImprove := 1/10000
  minApproxImproveFrac := 1/10000
  maxIter := 50
  trustShrinkRatio := 1/10
  trustExpandRatio := 3/2
  cntTolerance := 1/10000
  maxMeritCoeffIncreases := 5
  maxQpSolverFailures := 3
  meritCoeffIncreaseRatio := 10
  maxTime := 10
  initialMeritErrorCoeff := 10
  inflateIndividually := true

/-- The run: from 0 with a box of 2/5 over 2/5 to the optimum 1, in three QPs. -/
theorem run : ∃ r, optimize params env 20 (initialState [0] (2/5)) = some r ∧ r.status = .converged ∧ r.st.x = [1] ∧ r.st.nQpSolves = 3 ∧
    r.st.box = 9/10 ∧ r.st.coeffs = [10] ∧ r.totalCost = 4 := by
  have h : (optimize params env 20 (initialState [0] (2/5))).map (fun r => (r.status, r.st.x, r.st.nQpSolves, r.st.box, r.st.coeffs,
      r.totalCost)) = some (.converged, [1], 3, 9/10, [10], 4) := by decide +kernel
  cases hr : optimize params env 20 (initialState [0] (2/5)) with
  | none => rw [hr] at h; cases h
  | some r =>
    rw [hr] at h
    simp only [Option.map_some, Option.some.injEq, Prod.mk.injEq] at h
    exact ⟨r, rfl, h⟩

theorem terms : Terms env [fun x => (x.getD 0 0 - 3) ^ 2] [fun x => max 0 (x.getD 0 0 - 1)] := ⟨rfl, fun _ => rfl, fun _ => rfl⟩

theorem exact : Exact env := by
  refine ⟨fun k x b => ?_, fun k x b y h => ?_⟩
  · cases x <;> exact ⟨_, rfl⟩
  · cases x with
    | nil => simp only [env, Option.some.injEq] at h; subst h; exact ⟨rfl, rfl⟩
    | cons a l => simp only [env, Option.some.injEq] at h; subst h; simp [env]

/-- The lists of one number. -/
def One (x : List ℚ) : Prop := ∃ a, x = [a]

theorem one_seg {t : ℚ} {x z : List ℚ} (hx : One x) (hz : One z) : One (seg t x z) := by
  obtain ⟨a, rfl⟩ := hx
  obtain ⟨b, rfl⟩ := hz
  exact ⟨_, rfl⟩

theorem cost_convex : ConvexOn One fun x => (x.getD 0 0 - 3) ^ 2 := by
  rintro _ _ t ⟨a, rfl⟩ ⟨b, rfl⟩ h0 h1
  refine ⟨one_seg ⟨a, rfl⟩ ⟨b, rfl⟩, ?_⟩
  simp only [seg, List.zipWith_cons_cons, List.getD_cons_zero]
  nlinarith [mul_nonneg (mul_nonneg h0 (sub_nonneg.2 h1)) (sq_nonneg (a - b))]

theorem cnt_convex : ConvexOn One fun x => max 0 (x.getD 0 0 - 1) := by
  rintro _ _ t ⟨a, rfl⟩ ⟨b, rfl⟩ h0 h1
  refine ⟨one_seg ⟨a, rfl⟩ ⟨b, rfl⟩, ?_⟩
  simp only [seg, List.zipWith_cons_cons, List.getD_cons_zero]
  have h1' := sub_nonneg.2 h1
  have ma := mul_le_mul_of_nonneg_left (le_max_right 0 (a - 1)) h1'
  have mb := mul_le_mul_of_nonneg_left (le_max_right 0 (b - 1)) h0
  have na := mul_nonneg h1' (le_max_left 0 (a - 1))
  have nb := mul_nonneg h0 (le_max_left 0 (b - 1))
  exact max_le (by linarith) (by linarith)

theorem merit_one (w : ℚ) : 4 ≤ (w - 3) ^ 2 + max 0 (w - 1) * 10 := by
  rcases max_choice 0 (w - 1) with h | h
  · have := (max_eq_left_iff.1 h)
    rw [h]; nlinarith
  · have := (max_eq_right_iff.1 h)
    rw [h]; nlinarith [sq_nonneg (w - 1)]

/-- non-vacuity for C147: the run meets all hypotheses, and the conclusion says that 4 is the smallest cost of a feasible point up to
the tolerance. -/
example (a D : ℚ) (ha : a ≤ 1) (hD : |a - 1| ≤ D) : 4 ≤ (a - 3) ^ 2 + 4/10000 * max 1 (D / (9/10)) := by
  obtain ⟨r, h1, h2, h3, h4, h5, h6, h7⟩ := run
  obtain ⟨-, k, y, q1, q2⟩ := C147_exact_optimal_partial params env
    ⟨by norm_num [params], by norm_num [params], by norm_num [params], by norm_num [params]⟩ exact (by norm_num [params])
    (by norm_num [params]) _ _ terms 20 [0] (2/5) (by norm_num [params]) r (fun _ => by norm_num [params, env]) h1 h2
    (by rw [h4]; decide)
  rw [h3, h5] at q1
  simp only [env, Option.some.injEq] at q1
  rw [h3, h5, h6, h7] at q2
  have hm : ∀ w : ℚ, exactMerit env [10] [w] = (w - 3) ^ 2 + max 0 (w - 1) * 10 := fun w => by
    simp [exactMerit, env, Verif.Sqp.dot]
  have := q2 One (fun x z t hx hz _ _ => ⟨one_seg hx hz, by simp⟩)
    (by simp only [List.mem_singleton, forall_eq]; exact ⟨cost_convex, fun x _ => sq_nonneg _⟩)
    (by simp only [List.mem_singleton, forall_eq]; exact ⟨cnt_convex, fun x _ => le_max_left _ _⟩) ⟨1, rfl⟩
    (by
      rintro _ ⟨w, rfl⟩ -
      rw [← q1, hm]
      show exactMerit env [10] [max (1 - 9/10 : ℚ) (min (1 + 9/10) 1)] ≤ _
      rw [hm]
      refine le_trans ?_ (merit_one w)
      norm_num) [a] D ⟨a, rfl⟩
    (by simp only [List.mem_singleton, forall_eq, List.getD_cons_zero]; exact max_eq_left (by linarith)) (.cons hD .nil)
  have ht : tolerance params (exactMerit env [10] [1]) = 4/10000 := by
    rw [hm]; norm_num [tolerance, params]
  rw [ht] at this
  simpa using this

/-- The same variable with the cost `x - 1`, no constraint, and a solver that finds -99. -/
def negEnv : Env ℚ where
  nCnts := 0
  closest := id
  exactCosts := fun x => [x.getD 0 0 - 1]
  exactViols := fun _ => []
  qp := fun _ _ _ => some [-99]
  modelCosts := fun _ y => [y.getD 0 0 - 1]
  modelViols := fun _ _ => []
  clock := fun _ => 0

/-- non-vacuity for the negative merit: the QP promises an improvement from -1 to -100, yet the optimiser stops at -1. -/
example : ∃ t, trBody params negEnv ⟨[0], [-1], [], 0, 0, 100, [], 0⟩ 0 = .penalty t ∧ t.x = [0] :=
  C147_negative_merit_violated params negEnv ⟨[0], [-1], [], 0, 0, 100, [], 0⟩ 0 ⟨by decide +kernel, rfl⟩ (by norm_num [params])
    (by norm_num [exactMerit, negEnv, Verif.Sqp.dot]) [-99] rfl (by norm_num [exactMerit, modelMerit, negEnv, Verif.Sqp.dot])

end Verif.Legacy.OptDemo
