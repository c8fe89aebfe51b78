import Verif.Props.SqpRunLast
import Verif.Props.SqpRunRange
import Mathlib.Tactic.Linarith
import Mathlib.Tactic.Positivity

/-!
C150: how good the result of a converged `TrustRegionSQPSolver` is on problems whose sets are affine: linearization is exact, the QP
given to OSQP is the problem in the trust box, and the problem is convex.
-/

set_option linter.unusedSectionVars false
set_option linter.unusedVariables false

namespace Verif.SqpRun

open Verif.Bounds Verif.Sco Verif.SqpExprs
open Verif.QpProblem hiding below above
open Verif.Optimal
open Verif.Sqp (Params Status tolerance)
open Verif.OsqpEigen (Problem Fine Qp Solver posed)
open Finset (range sum_congr mul_sum abs_sum_le_sum_abs sum_le_sum sum_sub_distrib sum_eq_zero mem_range)

universe u
variable {K : Type u} [Field K] [LinearOrder K] [IsStrictOrderedRing K]

/-! ### Specification -/

/-- Specification: the value of a row. -/
def valueAt (ρ : Row K) (x : Nat → K) : K := ρ.constant + dot ρ.jac x

/-- Specification: the target of a row with an equality. -/
def target (ρ : Row K) : K := match ρ.bound.lower with | .fin t => t | _ => 0

/-- Specification: weighted squares of the errors of some rows. -/
def sqOf (L : List (Row K)) (x : Nat → K) : K := (L.map fun ρ => ρ.weight * (target ρ - valueAt ρ x) ^ 2).sum

/-- Specification: total distance of some rows from their bounds. -/
def gapOf (L : List (Row K)) (x : Nat → K) : K := (L.map fun ρ => gap ρ.bound (valueAt ρ x)).sum

/-- Specification: a set consists of these affine rows, whatever the variables and the last update. -/
structure AffineSet (c : Comp K) (L : List (Row K)) : Prop where
  values : ∀ x u, (c.ask x u).values = L.map fun ρ => valueAt ρ x
  jac : ∀ x u, (c.ask x u).jac.rows = L.map (·.jac)
  coeffs : ∀ x u, (c.ask x u).coeffs = L.map (·.weight)
  bounds : ∀ x u, (c.ask x u).bounds = L.map (·.bound)
  entries : ∀ ρ ∈ L, ∀ q ∈ ρ.jac, q.2 = 0 ∨ 1 / 10 ^ 7 ≤ |q.2|

/-- Specification: all sets of a problem are affine: squared costs with targets, penalty costs and constraints of weight one. -/
structure Desc.Affine (D : Desc K) (O P M : List (List (Row K))) : Prop where
  objective : List.Forall₂ AffineSet D.objective O
  penalty : List.Forall₂ AffineSet D.penalty P
  merit : List.Forall₂ AffineSet D.merit M
  targets : ∀ L ∈ O, ∀ ρ ∈ L, ∃ t, ρ.bound = ⟨.fin t, .fin t, .equality⟩
  unitP : ∀ L ∈ P, ∀ ρ ∈ L, ρ.weight = 1
  unitM : ∀ L ∈ M, ∀ ρ ∈ L, ρ.weight = 1
  rows : ∀ L ∈ M, L ≠ []

/-- Specification: a vector in the bounds of the variables. -/
def Desc.Within (D : Desc K) (x : List K) : Prop := List.Forall₂ Inside x D.varBounds

/-- Specification: OSQP's answers satisfy the rows of the program and are optimal up to `η`. -/
def World.Solves (o : World K) (η : K) : Prop := ∀ k q y, o.answer k q = some y →
  q.Feasible (ext y) ∧ ∀ z, q.Feasible z → q.value (ext y) ≤ q.value z + η

/-- Specification: the merit of a vector. -/
def Desc.meritOf (D : Desc K) (μ x : List K) : K := (D.costs x).sum + Sqp.dot (D.viols x) μ

/-- Specification: what dropping numbers below `1e-7` from the QP can cost when `n` variables are at most `M`. -/
def dropped (n : Nat) (M : K) : K := 2 / 10 ^ 7 * ((n * M) ^ 2 + n * M)

/-! ### The QP in terms of the rows -/

theorem zipWith_maps {α β γ δ ε ζ : Type*} (f : β × γ → δ × ε → ζ) (a : α → β) (b : α → γ) (c : α → δ) (d : α → ε) (l : List α) :
    List.zipWith f ((l.map a).zip (l.map b)) ((l.map c).zip (l.map d)) = l.map fun x => f (a x, b x) (c x, d x) := by
  induction l with
  | nil => rfl
  | cons x l ih => simp [ih]

theorem zip3 {α β γ : Type*} {R : α → β → Prop} {T : β → γ → Prop} {as : List α} {bs : List β} {cs : List γ} (h1 : List.Forall₂ R as bs)
    (h2 : List.Forall₂ T bs cs) : List.Forall₂ (fun p c => R p.1 p.2 ∧ T p.2 c) (as.zip bs) cs := by
  induction h1 generalizing cs with
  | nil => cases h2; exact .nil
  | cons a _ ih =>
    cases h2 with
    | cons b h2 => exact .cons ⟨a, b⟩ (ih h2)

theorem map_eq_map {α β γ : Type*} {R : α → β → Prop} {f : α → γ} {g : β → γ} {as : List α} {bs : List β} (h : List.Forall₂ R as bs)
    (hfg : ∀ a b, b ∈ bs → R a b → f a = g b) : as.map f = bs.map g := by
  induction h with
  | nil => rfl
  | cons a _ ih =>
    rw [List.map_cons, List.map_cons, hfg _ _ List.mem_cons_self a, ih fun a b hb => hfg a b (List.mem_cons_of_mem _ hb)]

theorem affine_sq {c : Comp K} {L : List (Row K)} (h : AffineSet c L) {u0 : Nat → K} {i : Info K} (hi : Fits u0 i c) (x0 u x : Nat → K) :
    (sqValues x0 i (c.ask x0 u) x).sum = sqOf L x := by
  obtain ⟨x1, u1, rfl, -⟩ := hi
  unfold sqValues sqOf
  rw [show (infoOf (c.ask x1 u1)).bounds = (c.ask x1 u1).bounds from rfl, h.values, h.jac, h.coeffs, h.bounds, zipWith_maps]
  refine congrArg List.sum (List.map_congr_left fun ρ _ => ?_)
  have e : valueAt ρ x0 + dot ρ.jac (x - x0) = valueAt ρ x := by
    simp only [valueAt, dot_sub]; ring
  simp only [e, target]
  rfl

theorem affine_rows {c : Comp K} {L : List (Row K)} (h : AffineSet c L) (hu : ∀ ρ ∈ L, ρ.weight = 1) {u0 : Nat → K} {i : Info K}
    (hi : Fits u0 i c) (mc : K) (x0 u x : Nat → K) : penaltyOf (setRows mc x0 i (c.ask x0 u)) x = gapOf L x * mc := by
  obtain ⟨x1, u1, rfl, -⟩ := hi
  unfold setRows penaltyOf gapOf
  rw [show (infoOf (c.ask x1 u1)).bounds = (c.ask x1 u1).bounds from rfl, show (infoOf (c.ask x1 u1)).coeffs = (c.ask x1 u1).coeffs from rfl,
    h.values, h.jac, h.coeffs, h.bounds, zipWith_maps, List.map_map, ← List.sum_map_mul_right]
  refine congrArg List.sum (List.map_congr_left fun ρ hρ => ?_)
  simp only [Function.comp_apply, valueAt]
  rw [keep_id _ (h.entries ρ hρ), hu ρ hρ, add_sub_cancel_right]
  ring

theorem affine_lin {c : Comp K} {L : List (Row K)} (h : AffineSet c L) {u0 : Nat → K} {i : Info K}
    (hi : Fits u0 i c) (x0 u x : Nat → K) : linViolation x0 i (c.ask x0 u) x = gapOf L x := by
  obtain ⟨x1, u1, rfl, -⟩ := hi
  unfold linViolation gapOf
  rw [show (infoOf (c.ask x1 u1)).bounds = (c.ask x1 u1).bounds from rfl, h.values, h.jac, h.bounds]
  have : ∀ L' : List (Row K), (∀ ρ ∈ L', ∀ q ∈ ρ.jac, q.2 = 0 ∨ 1 / 10 ^ 7 ≤ |q.2|) →
      List.zipWith (fun (p : K × List (Nat × K)) b => gap b (p.1 - dot p.2 x0 + dot (keep p.2) x))
        ((L'.map fun ρ => valueAt ρ x0).zip (L'.map (·.jac))) (L'.map (·.bound)) = L'.map fun ρ => gap ρ.bound (valueAt ρ x) := by
    intro L' hL'
    induction L' with
    | nil => rfl
    | cons ρ L' ih =>
      rw [List.map_cons, List.map_cons, List.map_cons, List.map_cons, List.zip_cons_cons, List.zipWith_cons_cons,
        ih fun ρ' h' => hL' ρ' (List.mem_cons_of_mem _ h')]
      congr 1
      simp only [valueAt]
      rw [keep_id _ (hL' ρ List.mem_cons_self), add_sub_cancel_right]
  rw [this L h.entries]

theorem penaltyOf_append (a b : List (Row K)) (x : Nat → K) : penaltyOf (a ++ b) x = penaltyOf a x + penaltyOf b x := by
  simp [penaltyOf]

theorem affine_pen {is : List (Info K)} {cs : List (Comp K)} {Ls : List (List (Row K))} {u0 : Nat → K} (h1 : List.Forall₂ (Fits u0) is cs)
    (h2 : List.Forall₂ AffineSet cs Ls) (hu : ∀ L ∈ Ls, ∀ ρ ∈ L, ρ.weight = 1) (x0 u x : Nat → K) :
    penaltyOf ((is.zip cs).flatMap fun p => setRows 1 x0 p.1 (p.2.ask x0 u)) x = (Ls.map fun L => gapOf L x).sum := by
  have h := zip3 h1 h2
  clear h1 h2
  generalize is.zip cs = l at h
  induction h with
  | nil => simp [penaltyOf]
  | @cons p L l Ls a _ ih =>
    rw [List.flatMap_cons, penaltyOf_append, ih fun L' h' => hu L' (List.mem_cons_of_mem _ h'), List.map_cons, List.sum_cons,
      affine_rows a.2 (hu L List.mem_cons_self) a.1, mul_one]

theorem affine_merit {is : List (Info K)} {cs : List (Comp K)} {Ls : List (List (Row K))} {u0 : Nat → K} (h1 : List.Forall₂ (Fits u0) is cs)
    (h2 : List.Forall₂ AffineSet cs Ls) (hu : ∀ L ∈ Ls, ∀ ρ ∈ L, ρ.weight = 1) (x0 u x : Nat → K) (mu : Nat → K) (m : List K) (j : Nat)
    (hm : m.length = Ls.length) (hmu : ∀ k a, m[k]? = some a → mu (j + k) = a) :
    penaltyOf (((is.zip cs).zipIdx j).flatMap fun p => setRows (mu p.2) x0 p.1.1 (p.1.2.ask x0 u)) x =
      Sqp.dot (Ls.map fun L => gapOf L x) m := by
  have h := zip3 h1 h2
  clear h1 h2
  generalize is.zip cs = l at h
  induction h generalizing j m with
  | nil => simp [penaltyOf, Sqp.dot]
  | @cons p L l Ls a _ ih =>
    cases m with
    | nil => simp at hm
    | cons a' m =>
      have e := ih (fun L' h' => hu L' (List.mem_cons_of_mem _ h')) m (j + 1) (by simpa using hm) fun k b hk => by
        rw [show j + 1 + k = j + (k + 1) by omega]; exact hmu (k + 1) b (by simpa using hk)
      rw [List.zipIdx_cons, List.flatMap_cons, penaltyOf_append, e, affine_rows a.2 (hu L List.mem_cons_self) a.1,
        show mu j = a' from hmu 0 a' rfl]
      simp [Sqp.dot]

/-! ### The problem in terms of the rows -/

theorem affine_viol {c : Comp K} {L : List (Row K)} (h : AffineSet c L) (hp : ∀ ρ ∈ L, Proper ρ.bound) (x : List K) :
    violationOf c x = gapOf L (ext x) := by
  unfold violationOf gapOf at' calcBoundsViolations
  rw [h.values, h.bounds]
  refine congrArg List.sum ?_
  clear h
  induction L with
  | nil => rfl
  | cons ρ L ih =>
    have := ih fun ρ' h' => hp ρ' (List.mem_cons_of_mem _ h')
    simp only [List.map_cons, List.zipWith_cons_cons] at this ⊢
    rw [this, violB_gap _ (hp ρ List.mem_cons_self)]

theorem gap_target {b : Bounds K} {t : K} (h : b = ⟨.fin t, .fin t, .equality⟩) (v : K) : gap b v = |v - t| := by
  subst h
  simp only [gap, QpProblem.below, QpProblem.above]
  rcases le_total v t with h | h
  · rw [max_eq_right (by linarith), max_eq_left (by linarith), abs_of_nonpos (by linarith)]; ring
  · rw [max_eq_left (by linarith), max_eq_right (by linarith), abs_of_nonneg (by linarith)]; ring

theorem affine_cost {c : Comp K} {L : List (Row K)} (h : AffineSet c L) (ht : ∀ ρ ∈ L, ∃ t, ρ.bound = ⟨.fin t, .fin t, .equality⟩) (x : List K) :
    (List.zipWith (fun e w => e * e * w) (calcBoundsViolations (at' c x).values ((at' c x).bounds.map sides)) (at' c x).coeffs).sum =
      sqOf L (ext x) := by
  unfold sqOf at' calcBoundsViolations
  rw [h.values, h.bounds, h.coeffs]
  refine congrArg List.sum ?_
  clear h
  induction L with
  | nil => rfl
  | cons ρ L ih =>
    have := ih fun ρ' h' => ht ρ' (List.mem_cons_of_mem _ h')
    simp only [List.map_cons, List.zipWith_cons_cons] at this ⊢
    rw [this]
    congr 1
    obtain ⟨t, ht⟩ := ht ρ List.mem_cons_self
    have hp : Proper ρ.bound := .inl ⟨t, t, ht, le_rfl⟩
    rw [violB_gap _ hp, gap_target ht, abs_mul_abs_self]
    simp only [target, ht]
    ring

/-- The merit in terms of the rows. -/
def rowMerit (O P M : List (List (Row K))) (μ : List K) (x : Nat → K) : K :=
  (O.map fun L => sqOf L x).sum + (P.map fun L => gapOf L x).sum + Sqp.dot (M.map fun L => gapOf L x) μ

theorem forall₂_right {α β : Type*} {R : α → β → Prop} {as : List α} {bs : List β} (h : List.Forall₂ R as bs) {b : β} (hb : b ∈ bs) :
    ∃ a ∈ as, R a b := by
  induction h with
  | nil => cases hb
  | @cons a b' as bs h _ ih =>
    rcases List.mem_cons.1 hb with rfl | hb
    · exact ⟨a, List.mem_cons_self, h⟩
    · obtain ⟨a', h1, h2⟩ := ih hb
      exact ⟨a', List.mem_cons_of_mem _ h1, h2⟩

section
variable {sqrt : K → K} {hash : (Nat → K) → Nat} {junk : Nat → Ext K} {D : Desc K} {p : Params K} {o : World K} {s0 : State K}
  {O P M : List (List (Row K))}

theorem affine_proper (hU : Usable hash D s0) (A : D.Affine O P M) : ∀ L ∈ P ++ M, ∀ ρ ∈ L, Proper ρ.bound := by
  intro L hL ρ hρ
  have key : ∀ c, c ∈ s0.penalty ++ s0.merit → AffineSet c L → Proper ρ.bound := by
    intro c hc hA
    have hf : CntFine s0.nVars c := by
      rcases List.mem_append.1 hc with hc | hc
      · exact hU.live.finP c hc
      · exact hU.live.finM c hc
    refine (hf.2 0 0).proper _ ?_
    show ρ.bound ∈ (c.ask 0 0).bounds
    rw [hA.bounds]
    exact List.mem_map_of_mem hρ
  rcases List.mem_append.1 hL with hL | hL
  · obtain ⟨c, c1, c2⟩ := forall₂_right A.penalty hL
    exact key c (by rw [hU.penalty]; exact List.mem_append.2 (.inl c1)) c2
  · obtain ⟨c, c1, c2⟩ := forall₂_right A.merit hL
    exact key c (by rw [hU.merit]; exact List.mem_append.2 (.inr c1)) c2

theorem affine_nonneg (hU : Usable hash D s0) (A : D.Affine O P M) : ∀ L ∈ O, ∀ ρ ∈ L, 0 ≤ ρ.weight := by
  intro L hL ρ hρ
  obtain ⟨c, c1, c2⟩ := forall₂_right A.objective hL
  refine ((hU.live.finO c (by rw [hU.objective]; exact c1)).2 0 0).nonneg _ ?_
  rw [c2.coeffs]
  exact List.mem_map_of_mem hρ

theorem affine_viols (hU : Usable hash D s0) (A : D.Affine O P M) (x : List K) : D.viols x = M.map fun L => gapOf L (ext x) :=
  map_eq_map A.merit fun c L hL h => affine_viol h (fun ρ hρ => affine_proper hU A L (List.mem_append.2 (.inr hL)) ρ hρ) x

theorem affine_costs (hU : Usable hash D s0) (A : D.Affine O P M) (x : List K) :
    D.costs x = (O.map fun L => sqOf L (ext x)) ++ P.map fun L => gapOf L (ext x) := by
  unfold Desc.costs
  congr 1
  · exact map_eq_map A.objective fun c L hL h => affine_cost h (A.targets L hL) x
  · exact map_eq_map A.penalty fun c L hL h => affine_viol h (fun ρ hρ => affine_proper hU A L (List.mem_append.2 (.inl hL)) ρ hρ) x

theorem affine_merits (hU : Usable hash D s0) (A : D.Affine O P M) (μ x : List K) : D.meritOf μ x = rowMerit O P M μ (ext x) := by
  unfold Desc.meritOf rowMerit
  rw [affine_costs hU A, affine_viols hU A, List.sum_append]

/-! ### What OSQP minimises -/

/-- Dropping small numbers changes the objective by at most this. -/
def err (n : Nat) (z : Nat → K) : K := 1 / 10 ^ 7 * ((∑ c ∈ range n, |z c|) ^ 2 + ∑ c ∈ range n, |z c|)

theorem err_le {n : Nat} {z : Nat → K} {M : K} (h : ∀ c < n, |z c| ≤ M) : 2 * err n z ≤ dropped n M := by
  have h1 : ∑ c ∈ range n, |z c| ≤ n * M := by
    have := Finset.sum_le_card_nsmul (range n) (fun c => |z c|) M fun c hc => h c (mem_range.1 hc)
    simpa using this
  have h0 : 0 ≤ ∑ c ∈ range n, |z c| := Finset.sum_nonneg fun _ _ => abs_nonneg _
  have h2 : (∑ c ∈ range n, |z c|) ^ 2 ≤ (n * M) ^ 2 := pow_le_pow_left₀ h0 h1 2
  unfold err dropped
  have : (0 : K) < 1 / 10 ^ 7 := by positivity
  have h3 := mul_le_mul_of_nonneg_left (add_le_add h2 h1) this.le
  have e : (2 : K) / 10 ^ 7 = 2 * (1 / 10 ^ 7) := by ring
  rw [e, mul_assoc]
  linarith

/-- An answer to the program is optimal for the linearised problem in the trust box, up to what is dropped. -/
theorem qp_optimal (hsqrt : ∀ a : K, 0 ≤ a → sqrt a * sqrt a = a) {t r : State K} (ht : Live t) (hc : t.convexify sqrt junk = some r)
    (hm : (OsqpEigen.ofState r).Moderate) (hf : Fine (OsqpEigen.ofState r)) (hs : ∀ g ∈ r.gradient.drop r.nVars, g = 0 ∨ 1 / 10 ^ 7 ≤ |g|)
    {η : K} {y : Nat → K} (hy : (posed (OsqpEigen.ofState r)).Feasible y)
    (ho : ∀ z, (posed (OsqpEigen.ofState r)).Feasible z → (posed (OsqpEigen.ofState r)).value y ≤ (posed (OsqpEigen.ofState r)).value z + η) :
    QpFeasible r y ∧ InBox r y ∧ ∀ w, InBox r w →
      squaredModel r y + penaltyOf (problemRows (usedMerit r.meritInfos r.meritCoeff) r) y ≤
        squaredModel r w + penaltyOf (problemRows (usedMerit r.meritInfos r.meritCoeff) r) w + (η + err r.nVars y + err r.nVars w) := by
  have hd := OsqpEigen.posed_describes _ hf
  have hfe : ∀ z, (posed (OsqpEigen.ofState r)).Feasible z ↔ QpFeasible r z := fun z =>
    (OsqpEigen.C98_trajopt_partial ht sqrt hsqrt junk hc hm hf _ hd z).1
  obtain ⟨b1, b2, b3⟩ := C26_slack_exact ht sqrt hsqrt junk hc
  obtain ⟨k, H, c1, c2, -⟩ := C74_objective_partial ht sqrt hsqrt junk hc
  obtain ⟨t', outs, iv, head, -, a2, -⟩ := convexified ht sqrt hsqrt junk hc
  have hle : r.nVars ≤ r.nQpVars := by rw [a2.frame.1, a2.nQpVars]; omega
  have hmin : (0 : K) < 1 / 10 ^ 7 := by positivity
  -- the linear part
  have hlin : ∀ z, |(posed (OsqpEigen.ofState r)).value z - qpObjective r z| ≤ 1 / 10 ^ 7 * ∑ c ∈ range r.nVars, |z c| := by
    intro z
    have e := OsqpEigen.value_eq _ _ hd z
    have e' : (OsqpEigen.ofState r).value z = qpObjective r z := rfl
    rw [e, e', sub_sub_cancel_left, abs_neg]
    have hsum : ∑ c ∈ range (OsqpEigen.ofState r).nv, (if |(OsqpEigen.ofState r).gradient.getD c 0| < 1 / 10 ^ 7 then (OsqpEigen.ofState r).gradient.getD c 0 else 0) * z c =
        ∑ c ∈ range r.nVars, (if |r.gradient.getD c 0| < 1 / 10 ^ 7 then r.gradient.getD c 0 else 0) * z c := by
      symm
      refine Finset.sum_subset (Finset.range_subset_range.2 hle) fun c hc hc' => ?_
      have hcn : r.nVars ≤ c := by simpa using hc'
      have : (if |r.gradient.getD c 0| < 1 / 10 ^ 7 then r.gradient.getD c 0 else 0) = 0 := by
        split_ifs with hsm
        · rw [List.getD_eq_getElem?_getD] at hsm ⊢
          cases e : r.gradient[c]? with
          | none => rfl
          | some g =>
            rw [e] at hsm
            have hg : g ∈ r.gradient.drop r.nVars := by
              refine List.mem_of_getElem? (i := c - r.nVars) ?_
              rw [List.getElem?_drop, Nat.add_sub_cancel' hcn, e]
            rcases hs g hg with h0 | h0
            · simpa using h0
            · exact absurd hsm (not_lt.2 h0)
        · rfl
      rw [this, zero_mul]
    rw [hsum, mul_sum]
    refine (abs_sum_le_sum_abs _ _).trans (sum_le_sum fun c _ => ?_)
    rw [abs_mul]
    refine mul_le_mul_of_nonneg_right ?_ (abs_nonneg _)
    split_ifs with hs
    · exact hs.le
    · rw [abs_zero]; exact hmin.le
  -- the quadratic part
  have hquad : ∀ z, |squaredModel r z - (k + smoothCost r z)| ≤ 1 / 10 ^ 7 * (∑ c ∈ range r.nVars, |z c|) ^ 2 := by
    intro z
    have e : squaredModel r z - (k + smoothCost r z) =
        ∑ a ∈ range r.nVars, ∑ c ∈ range r.nVars, (z a * H a c * z c - z a * r.hessian.entry a c * z c) := by
      simp only [sum_sub_distrib]
      rw [c1, smoothCost]; ring
    rw [e, sq, Finset.sum_mul_sum, mul_sum]
    refine (abs_sum_le_sum_abs _ _).trans (sum_le_sum fun a _ => ?_)
    rw [mul_sum]
    refine (abs_sum_le_sum_abs _ _).trans (sum_le_sum fun c _ => ?_)
    rw [c2]
    split_ifs with hs
    · rw [mul_zero, zero_mul, sub_zero, abs_mul, abs_mul]
      have := mul_le_mul_of_nonneg_right hs.le (mul_nonneg (abs_nonneg (z a)) (abs_nonneg (z c)))
      linarith
    · rw [sub_self, abs_zero]
      positivity
  have hy' := (hfe y).1 hy
  obtain ⟨b2', b2''⟩ := b2 y hy'
  refine ⟨hy', b2', fun w hw => ?_⟩
  obtain ⟨z, z1, z2, z3⟩ := b3 w hw
  have g1 := (abs_le.1 (hlin y)).1
  have g2 := (abs_le.1 (hlin z)).2
  have g3 := (abs_le.1 (hquad y)).2
  have g4 := (abs_le.1 (hquad w)).1
  have g5 := ho z ((hfe z).2 z2)
  have hsm : smoothCost r z = smoothCost r w := by
    unfold smoothCost
    congr 1
    · exact sum_congr rfl fun a ha => sum_congr rfl fun c hc => by rw [z1 a (mem_range.1 ha), z1 c (mem_range.1 hc)]
    · exact sum_congr rfl fun c hc => by rw [z1 c (mem_range.1 hc)]
  have hab : ∑ c ∈ range r.nVars, |z c| = ∑ c ∈ range r.nVars, |w c| := sum_congr rfl fun c hc => by rw [z1 c (mem_range.1 hc)]
  rw [hab] at g2
  rw [b1] at g1 g2
  rw [z3, hsm] at g2
  unfold err
  linarith

end
end Verif.SqpRun
