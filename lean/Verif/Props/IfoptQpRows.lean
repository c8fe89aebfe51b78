import Verif.Model.IfoptQp
import Verif.Props.QpLayout
import Verif.Props.QpEval

/-!
What `IfoptQPProblem::convexify` stores (used by C30, C79-C83).
-/

set_option linter.unusedSectionVars false
set_option linter.unusedVariables false

namespace Verif.IfoptQp

open Verif.Bounds Verif.Sco Verif.SqpExprs Finset
open Verif.QpProblem (thr sides writeSeg rowMul Penalty Row Proper gap keep penaltyOf linCost tripForm RowsHold Layout
  Laid RowOut)

universe u
variable {K : Type u} [Field K] [LinearOrder K] [IsStrictOrderedRing K]

/-! ### Specification -/

/-- Specification: a constraint set with fixed, proper bounds whose answers fit together. -/
structure CntFine (n : Nat) (c : CSet K) : Prop where
  values : ∀ x, (c.ask x).values.length = (c.ask x).jac.rows.length
  bounds : ∀ x, (c.ask x).bounds.length = (c.ask x).jac.rows.length
  fixed : ∀ x y, (c.ask x).bounds = (c.ask y).bounds
  range : ∀ x, ∀ r ∈ (c.ask x).jac.rows, ∀ q ∈ r, q.1 < n
  proper : ∀ x, ∀ b ∈ (c.ask x).bounds, Proper b

/-- Specification: a cost set whose answers fit together. -/
structure CostFine (n : Nat) (c : CSet K) : Prop where
  values : ∀ x, (c.ask x).values.length = (c.ask x).jac.rows.length
  bounds : ∀ x, (c.ask x).bounds.length = (c.ask x).jac.rows.length
  coeffs : ∀ x, (c.ask x).coeffs.length = (c.ask x).jac.rows.length
  range : ∀ x, ∀ r ∈ (c.ask x).jac.rows, ∀ q ∈ r, q.1 < n

/-- Specification: a problem made of well-formed sets. -/
structure Described (s : State K) : Prop where
  cnts : ∀ c ∈ s.cnts, CntFine s.nVars c
  costSets : ∀ c ∈ s.costSets, CostFine s.nVars c
  costs : ∀ c ∈ s.costs, CostFine s.nVars c.2
  varBounds : s.varBounds.length = s.nVars
  valid : ∀ b ∈ s.varBounds, Valid b

/-- Specification: a problem that was set up. -/
structure Live (s : State K) : Prop where
  described : Described s
  types : s.types = s.cntBounds.map (·.type)
  nCnts : s.nCnts = s.types.length
  nCosts : s.nCosts = s.costs.length
  slacks : ∃ k, slackCount s.types = some k ∧ s.nQpVars = s.nVars + k ∧ s.nQpCnts = s.nCnts + s.nVars + k
  lower : s.lower.length = s.nQpCnts
  upper : s.upper.length = s.nQpCnts
  box : s.box.length = s.nVars
  merit : s.meritCoeff.length = s.nCnts

/-- Specification: the linearised constraint rows weighted by the merit coefficients. -/
def problemRows (s : State K) : List (Row K) :=
  List.zipWith (fun mv jb => ⟨mv.1, mv.2 - dot (keep jb.1) s.x, jb.1, jb.2⟩) (s.meritCoeff.zip s.cntValues)
    (s.cntJac.zip s.cntBounds)

/-- Specification: within the bounds of the variables, and within the trust box around the closest point to the current
one in these bounds. -/
def InTrust (s : State K) (z : Nat → K) : Prop :=
  ∀ (i : Nat) b v, s.box[i]? = some b → s.varBounds[i]? = some v →
    Inside (z i) v ∧ ∃ xc, Inside xc v ∧ (∀ y, Inside y v → |xc - s.x i| ≤ |y - s.x i|) ∧ |z i - xc| ≤ b

/-! ### Trust box -/

theorem boxOf_iff (b x : K) (v : Lo K × Hi K) (hv : Valid v) (z : K) :
    ((boxOf b x v).1 ≤ z ∧ z ≤ (boxOf b x v).2) ↔
      Inside z v ∧ ∃ xc, Inside xc v ∧ (∀ y, Inside y v → |xc - x| ≤ |y - x|) ∧ |z - xc| ≤ b := by
  obtain ⟨lb, ub⟩ := v
  set xc := maxLo (minHi x ub) lb with hxc
  have hin : Inside xc (lb, ub) := by
    constructor
    · rintro l rfl; simp only [hxc, maxLo]; exact le_max_right _ _
    · rintro u rfl
      simp only [hxc]
      cases lb with
      | none => exact min_le_right _ _
      | some l => exact max_le (min_le_right _ _) (hv l u rfl rfl)
  have hcl : ∀ y, Inside y (lb, ub) → |xc - x| ≤ |y - x| ∧ (|y - x| ≤ |xc - x| → y = xc) := by
    intro y hy
    rcases lb with _ | l <;> rcases ub with _ | u
    · simp only [hxc, maxLo, minHi, sub_self, abs_zero]
      exact ⟨abs_nonneg _, fun h => by have := abs_eq_zero.1 (le_antisymm h (abs_nonneg _)); linarith⟩
    · have h2 := hy.2 u rfl
      simp only [hxc, maxLo, minHi]
      rcases le_total x u with h | h
      · rw [min_eq_left h]; simp only [sub_self, abs_zero]
        exact ⟨abs_nonneg _, fun h => by have := abs_eq_zero.1 (le_antisymm h (abs_nonneg _)); linarith⟩
      · rw [min_eq_right h, abs_of_nonpos (by linarith : u - x ≤ 0), abs_of_nonpos (by linarith : y - x ≤ 0)]
        exact ⟨by linarith, fun h => by linarith⟩
    · have h1 := hy.1 l rfl
      simp only [hxc, maxLo, minHi]
      rcases le_total x l with h | h
      · rw [max_eq_right h, abs_of_nonneg (by linarith : 0 ≤ l - x), abs_of_nonneg (by linarith : 0 ≤ y - x)]
        exact ⟨by linarith, fun h => by linarith⟩
      · rw [max_eq_left h]; simp only [sub_self, abs_zero]
        exact ⟨abs_nonneg _, fun h => by have := abs_eq_zero.1 (le_antisymm h (abs_nonneg _)); linarith⟩
    · have h1 := hy.1 l rfl
      have h2 := hy.2 u rfl
      have h3 : l ≤ u := hv l u rfl rfl
      simp only [hxc, maxLo, minHi]
      rcases le_total x u with h | h
      · rw [min_eq_left h]
        rcases le_total x l with h' | h'
        · rw [max_eq_right h', abs_of_nonneg (by linarith : 0 ≤ l - x), abs_of_nonneg (by linarith : 0 ≤ y - x)]
          exact ⟨by linarith, fun h => by linarith⟩
        · rw [max_eq_left h']; simp only [sub_self, abs_zero]
          exact ⟨abs_nonneg _, fun h => by have := abs_eq_zero.1 (le_antisymm h (abs_nonneg _)); linarith⟩
      · rw [min_eq_right h, max_eq_left h3, abs_of_nonpos (by linarith : u - x ≤ 0), abs_of_nonpos (by linarith : y - x ≤ 0)]
        exact ⟨by linarith, fun h => by linarith⟩
  have e1 : ∀ a, maxLo a lb ≤ z ↔ a ≤ z ∧ ∀ l, lb = some l → l ≤ z := by
    intro a; cases lb <;> simp [maxLo]
  have e2 : ∀ a, z ≤ minHi a ub ↔ z ≤ a ∧ ∀ u, ub = some u → z ≤ u := by
    intro a; cases ub <;> simp [minHi]
  have e3 : ((boxOf b x (lb, ub)).1 ≤ z ∧ z ≤ (boxOf b x (lb, ub)).2) ↔ Inside z (lb, ub) ∧ |z - xc| ≤ b := by
    simp only [boxOf, ← hxc, e1, e2, Inside, abs_le]
    constructor
    · rintro ⟨⟨a1, a2⟩, b1, b2⟩; exact ⟨⟨a2, b2⟩, by linarith, by linarith⟩
    · rintro ⟨⟨a1, a2⟩, b1, b2⟩; exact ⟨⟨by linarith, a1⟩, by linarith, a2⟩
  rw [e3]
  constructor
  · rintro ⟨a, b⟩; exact ⟨a, xc, hin, fun y hy => (hcl y hy).1, b⟩
  · rintro ⟨a, y, b1, b2, b3⟩
    have := (hcl y b1).2 (b2 xc hin)
    subst this; exact ⟨a, b3⟩

/-! ### Slack columns -/

theorem jacTriplets_row (rows : List (List (Nat × K))) (row : Nat) :
    ∀ t ∈ jacTriplets row rows, row ≤ t.1 ∧ t.1 < row + rows.length ∧ ∃ r ∈ rows, ∃ q ∈ r, t.2.1 = q.1 := by
  induction rows generalizing row with
  | nil => simp [jacTriplets]
  | cons r rows ih =>
    intro t ht
    rcases List.mem_append.1 ht with ht | ht
    · obtain ⟨q, hq, rfl⟩ := List.mem_map.1 ht
      exact ⟨le_refl _, by simp, r, by simp, q, hq, rfl⟩
    · obtain ⟨a, b, r', h1, q, h2, h3⟩ := ih _ t ht
      exact ⟨by omega, by simp; omega, r', by simp [h1], q, h2, h3⟩

/-- The triplets of `linearizeConstraints` are those of the rows, in another order. -/
theorem slack_trips {row var : Nat} {rs : List (Row K)} {os : List (RowOut K)} (h : Laid row var rs os) :
    ∃ sl, slackTriplets row var (rs.map (·.bound.type)) = some sl ∧
      (∀ r z, tripForm (jacTriplets row (rs.map (·.jac)) ++ sl) r z = tripForm (os.flatMap (·.trips)) r z) ∧
      ∀ t ∈ sl, row ≤ t.1 ∧ t.1 < row + rs.length ∧ t.2.1 < var + (os.flatMap (·.grad)).length := by
  induction h with
  | nil => exact ⟨[], rfl, by simp [jacTriplets], by simp⟩
  | @cons row var r o rs os h1 h2 ih =>
    obtain ⟨sl, a1, a2, a3⟩ := ih
    unfold QpProblem.rowOut at h1
    simp only [List.map_cons, slackTriplets, jacTriplets]
    cases hb : r.bound.type <;> simp only [hb] at h1 ⊢ <;> first | (simp at h1; done) | skip
    all_goals
      injection h1 with h1
      have e1 : o.grad.length = _ := congrArg (fun o => o.grad.length) h1.symm
      have e2 : o.trips = _ := congrArg (fun o => o.trips) h1.symm
      simp only [List.length_cons, List.length_nil, Nat.zero_add] at e1
      rw [e1] at a1
      norm_num at a1
      rw [a1]
      refine ⟨_, rfl, ?_, ?_⟩
      · intro k z
        rw [List.flatMap_cons, QpProblem.tripForm_append (o.trips), ← a2, e2]
        simp only [QpProblem.tripForm, List.map_append, List.sum_append, List.map_cons, List.sum_cons, List.map_nil,
          List.sum_nil]
        ring
      · intro t ht
        rw [e1] at a3
        simp only [List.flatMap_cons, List.length_append, e1, List.length_cons]
        rcases List.mem_cons.1 ht with rfl | ht
        · exact ⟨le_refl _, by simp, by simp only; omega⟩
        · first
          | (rcases List.mem_cons.1 ht with rfl | ht
             · exact ⟨le_refl _, by simp, by simp only; omega⟩
             · obtain ⟨b1, b2, b3⟩ := a3 t ht
               exact ⟨by omega, by omega, by omega⟩)
          | (obtain ⟨b1, b2, b3⟩ := a3 t ht
             exact ⟨by omega, by omega, by omega⟩)

theorem slack_count {row var : Nat} {rs : List (Row K)} {os : List (RowOut K)} (h : Laid row var rs os) :
    slackCount (rs.map (·.bound.type)) = some (os.flatMap (·.grad)).length ∧
      slackGrad (rs.map (·.bound.type)) (rs.map (·.weight)) = some (os.flatMap (·.grad)) := by
  induction h with
  | nil => exact ⟨rfl, rfl⟩
  | @cons row var r o rs os h1 h2 ih =>
    obtain ⟨a, b⟩ := ih
    unfold QpProblem.rowOut at h1
    simp only [List.map_cons, slackCount, slackGrad, a, b]
    cases hb : r.bound.type <;> simp only [hb] at h1 ⊢ <;> first | (simp at h1; done) | skip
    all_goals
      injection h1 with h1; subst h1
      simp [slacksOf, List.replicate, List.flatMap_cons]
      try omega

/-! ### What is linearised -/

theorem Described.lengths {s : State K} (h : Described s) :
    s.cntValues.length = s.cntJac.length ∧ s.cntBounds.length = s.cntJac.length := by
  have h := h.cnts
  unfold State.cntValues State.cntBounds State.cntJac
  revert h
  generalize s.cnts = l
  intro h
  induction l with
  | nil => exact ⟨rfl, rfl⟩
  | cons c l ih =>
    obtain ⟨a, b⟩ := ih fun c' hc' => h c' (by simp [hc'])
    have hc := h c (by simp)
    simp only [List.flatMap_cons, List.length_append, a, b, hc.values s.x, hc.bounds s.x, and_self]

theorem Described.proper {s : State K} (h : Described s) : ∀ b ∈ s.cntBounds, Proper b := by
  intro b hb
  obtain ⟨c, hc, hb⟩ := List.mem_flatMap.1 hb
  exact (h.cnts c hc).proper _ b hb

theorem Described.range {s : State K} (h : Described s) : ∀ r ∈ s.cntJac, ∀ q ∈ r, q.1 < s.nVars := by
  intro r hr
  obtain ⟨c, hc, hr⟩ := List.mem_flatMap.1 hr
  exact (h.cnts c hc).range _ r hr

theorem Described.bounds_fixed {s : State K} (h : Described s) (x : Nat → K) :
    (s.setVariables x).cntBounds = s.cntBounds := by
  unfold State.cntBounds
  exact QpProblem.flatMap_congr_mem fun c hc => (h.cnts c hc).fixed _ _

theorem Live.rowLengths {s : State K} (h : Live s) : s.meritCoeff.length = s.cntJac.length ∧
    s.cntValues.length = s.cntJac.length ∧ s.cntBounds.length = s.cntJac.length ∧ s.nCnts = s.cntJac.length := by
  obtain ⟨a, b⟩ := h.described.lengths
  have : s.nCnts = s.cntJac.length := by rw [h.nCnts, h.types, List.length_map, b]
  exact ⟨by rw [h.merit, this], a, b, this⟩

theorem problemRows_facts {s : State K} (h : Live s) :
    (problemRows s).length = s.nCnts ∧ (problemRows s).map (·.bound) = s.cntBounds ∧
      (problemRows s).map (·.jac) = s.cntJac ∧ (problemRows s).map (·.weight) = s.meritCoeff ∧
      (problemRows s).map (·.constant) = List.zipWith (fun v j => v - dot (keep j) s.x) s.cntValues s.cntJac := by
  obtain ⟨a, b, c, d⟩ := h.rowLengths
  refine ⟨by simp [problemRows, a, b, c, d], ?_, ?_, ?_, ?_⟩
  all_goals
    apply List.ext_getElem
    · simp [problemRows, a, b, c]
    · intro i h1 h2
      simp [problemRows]

end Verif.IfoptQp
