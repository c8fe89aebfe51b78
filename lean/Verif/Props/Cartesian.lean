import Verif.Model.Cartesian
import Verif.Props.JointConstraints
import Mathlib.Tactic.FieldSimp
import Mathlib.Algebra.BigOperators.Fin

/-!
C105 (`CartPosConstraint`: rows, bounds, satisfaction), C106 (its Jacobian), C107 (legacy Cartesian pose terms).
-/

set_option linter.unusedSectionVars false
set_option linter.unusedVariables false

namespace Verif.Cartesian

open Verif.Bounds hiding Fin
open Verif.JointConstraints (Accepts AllAccepted Current insertRow rowDot insertRow_some forall₂_map)
open Finset (sum_congr)

universe u v w
variable {Name : Type u} {T : Type w} {K : Type v} {n : Nat} [Field K] [LinearOrder K] [IsStrictOrderedRing K]

/-! ### Specification -/

/-- Specification: pose of the frame fixed to a link at an offset. -/
def frame [Mul T] (arm : Arm Name T K n) (link : Name) (offset : T) (q : Fin n → K) : T := arm.fk q link * offset

/-- Specification: the pose error of a pair of frames.  The error is that of the moving frame seen from the other one; when both
move it is that of the source seen from the target. -/
def poseError [Mul T] (P : Poses T K) (arm : Arm Name T K n) (source target : Name) (so dst : T) (q : Fin n → K) : Fin 6 → K :=
  if arm.active target = true ∧ arm.active source = false then P.error (frame arm source so q) (frame arm target dst q)
  else P.error (frame arm target dst q) (frame arm source so q)

/-- Specification: links that are not active do not move. -/
def Static (arm : Arm Name T K n) : Prop := ∀ l, arm.active l = false → ∀ q q', arm.fk q l = arm.fk q' l

/-- Specification: the difference functions of the pose library return the difference of the errors at these poses (they differ
where the rotation error wraps around). -/
def DiffAt (P : Poses T K) (a a' b b' : T) : Prop :=
  (∀ i, P.diff a b b' i = P.error a b' i - P.error a b i) ∧ ∀ i, P.diffBoth a a' b b' i = P.error a' b' i - P.error a b i

/-! ### C105 -/

theorem kindOf_none (arm : Arm Name T K n) (s t : Name) :
    kindOf arm s t = none ↔ arm.active s = false ∧ arm.active t = false := by
  unfold kindOf
  cases hs : arm.active s <;> cases ht : arm.active t <;> simp

/-- C105: the constructor fails exactly when a link does not exist, there are not six bounds and six coefficients, or neither
link moves (or the group has no joints). -/
theorem C105_rejects (isZero : K → Bool) (arm : Arm Name T K n) (index : Nat) (coeffs : List K) (bounds : List (Bounds K))
    (source target : Name) (so dst : T) (split : Bool) :
    CartPos.new isZero arm index coeffs bounds source target so dst split = none ↔
      n = 0 ∨ arm.has source = false ∨ arm.has target = false ∨ bounds.length ≠ 6 ∨ coeffs.length ≠ 6 ∨
        (arm.active source = false ∧ arm.active target = false) := by
  rw [← kindOf_none]
  unfold CartPos.new
  cases hk : kindOf arm source target <;> by_cases h0 : n = 0 <;> cases h1 : arm.has source <;> cases h2 : arm.has target <;>
    by_cases h3 : bounds.length = 6 <;> by_cases h4 : coeffs.length = 6 <;> simp [h0, h3, h4]

/-- What a successful construction returns. -/
theorem new_some {isZero : K → Bool} {arm : Arm Name T K n} {index : Nat} {coeffs : List K} {bounds : List (Bounds K)}
    {source target : Name} {so dst : T} {split : Bool} {c : CartPos Name T K n}
    (h : CartPos.new isZero arm index coeffs bounds source target so dst split = some c) :
    bounds.length = 6 ∧ coeffs.length = 6 ∧ ∃ kind, kindOf arm source target = some kind ∧
      ∃ rows, rows = (List.finRange 6).flatMap (fun i : Fin 6 =>
        rowsOf isZero split (coeffs.getD i 0) (bounds.getD i default0) i) ∧
      c = ⟨arm, index, source, target, so, dst, kind, rows.map (·.1), rows.map (·.2.1), rows.map (·.2.2), true⟩ := by
  unfold CartPos.new at h
  split at h
  · simp at h
  · split at h
    · simp at h
    · split at h
      · simp at h
      · split at h
        · simp at h
        · rename_i hb
          split at h
          · simp at h
          · rename_i hc
            split at h
            · simp at h
            · rename_i kind hk
              injection h with h
              exact ⟨not_not.1 hb, not_not.1 hc, kind, hk, _, rfl, h.symm⟩

theorem values_eq [Mul T] {isZero : K → Bool} {arm : Arm Name T K n} {index : Nat} {coeffs : List K} {bounds : List (Bounds K)}
    {source target : Name} {so dst : T} {split : Bool} {c : CartPos Name T K n}
    (h : CartPos.new isZero arm index coeffs bounds source target so dst split = some c) (P : Poses T K) (q : Fin n → K) :
    c.values P q = c.indices.map (poseError P arm source target so dst q) := by
  obtain ⟨_, _, kind, hk, rows, _, rfl⟩ := new_some h
  unfold CartPos.values CartPos.errorFunction poseError
  unfold kindOf at hk
  cases hs : arm.active source <;> cases ht : arm.active target <;> simp only [hs, ht] at hk
  · simp at hk
  all_goals
    simp at hk
    subst hk
    simp [CartPos.sourceTf, CartPos.targetTf, frame]

theorem accepts_split (b : Bounds K) (v : K) :
    Accepts b v ↔ Accepts (Bounds.mk' b.lower .posInf) v ∧ Accepts (Bounds.mk' .negInf b.upper) v := by
  simp [Accepts, Bounds.mk', JointConstraints.AboveLower, JointConstraints.BelowUpper]

theorem rowsOf_accept (isZero : K → Bool) (split : Bool) (c : K) (b : Bounds K) (i : Fin 6) (e : Fin 6 → K) :
    (∀ t ∈ rowsOf isZero split c b i, Accepts t.2.2 (e t.1)) ↔ (isZero c = false → Accepts b (e i)) := by
  unfold rowsOf
  cases isZero c <;> simp only [Bool.not_false, if_true, Bool.not_true, Bool.false_eq_true, if_false, List.not_mem_nil,
    false_imp_iff, implies_true, Bool.true_eq_false, true_imp_iff]
  split
  · rw [accepts_split b]
    simp only [List.mem_cons, List.not_mem_nil, or_false, forall_eq_or_imp, forall_eq]
  · simp only [List.mem_singleton, forall_eq]

/-- C105: whatever the handling of range bounds, the values lie within the constraint's bounds exactly when every component of
the pose error whose coefficient is not zero lies within the bounds given for it. -/
theorem C105_satisfied [Mul T] (isZero : K → Bool) (arm : Arm Name T K n) (index : Nat) (coeffs : List K) (bounds : List (Bounds K))
    (source target : Name) (so dst : T) (split : Bool) (c : CartPos Name T K n)
    (h : CartPos.new isZero arm index coeffs bounds source target so dst split = some c) (P : Poses T K) (q : Fin n → K) :
    AllAccepted c.bounds (c.values P q) ↔
      ∀ (i : Fin 6) (k : K) (b : Bounds K), coeffs[i.val]? = some k → bounds[i.val]? = some b → isZero k = false →
        Accepts b (poseError P arm source target so dst q i) := by
  rw [values_eq h]
  obtain ⟨hb, hc, kind, hk, rows, hr, rfl⟩ := new_some h
  simp only [AllAccepted, List.map_map]
  rw [forall₂_map]
  subst hr
  simp only [List.mem_flatMap, List.mem_finRange, true_and, forall_exists_index]
  rw [forall_comm]
  apply forall_congr'
  intro i
  rw [show (∀ (t : Fin 6 × K × Bounds K), t ∈ rowsOf isZero split (coeffs.getD i 0) (bounds.getD i default0) i →
      Accepts t.2.2 ((poseError P arm source target so dst q ∘ fun x => x.1) t)) ↔ _ from
    rowsOf_accept isZero split (coeffs.getD i 0) (bounds.getD i default0) i (poseError P arm source target so dst q)]
  have h1 : coeffs[i.val]? = some (coeffs[i.val]'(by omega)) := List.getElem?_eq_getElem _
  have h2 : bounds[i.val]? = some (bounds[i.val]'(by omega)) := List.getElem?_eq_getElem _
  simp only [List.getD_eq_getElem?_getD, h1, h2, Option.getD_some, Option.some.injEq]
  exact ⟨fun h k b hk hb hz => by subst hk hb; exact h hz, fun h hz => h _ _ rfl rfl hz⟩

theorem rows_coeff (isZero : K → Bool) (split : Bool) (coeffs : List K) (bounds : List (Bounds K)) (l : List (Fin 6)) :
    (l.flatMap fun i : Fin 6 => rowsOf isZero split (coeffs.getD i 0) (bounds.getD i default0) i).map (·.2.1) =
      ((l.flatMap fun i : Fin 6 => rowsOf isZero split (coeffs.getD i 0) (bounds.getD i default0) i).map (·.1)).map
        fun i : Fin 6 => coeffs.getD i.val 0 := by
  induction l with
  | nil => rfl
  | cons a l ih =>
    simp only [List.flatMap_cons, List.map_append]
    rw [ih]
    congr 1
    unfold rowsOf
    split
    · split <;> rfl
    · rfl

/-- C105: the values are the selected components of the error, in order, each with the coefficient given for it; a component is
selected exactly when its coefficient is not zero; with splitting no range bound is left. -/
theorem C105_rows [Mul T] (isZero : K → Bool) (arm : Arm Name T K n) (index : Nat) (coeffs : List K) (bounds : List (Bounds K))
    (source target : Name) (so dst : T) (split : Bool) (c : CartPos Name T K n)
    (h : CartPos.new isZero arm index coeffs bounds source target so dst split = some c) (P : Poses T K) (q : Fin n → K) :
    ∃ sel : List (Fin 6), sel.Pairwise (· ≤ ·) ∧ (∀ i : Fin 6, i ∈ sel ↔ ∃ k, coeffs[i.val]? = some k ∧ isZero k = false) ∧
      c.values P q = sel.map (poseError P arm source target so dst q) ∧
      c.coeffs = sel.map (fun i => coeffs.getD i.val 0) ∧ c.bounds.length = sel.length ∧
      (split = true → ∀ b ∈ c.bounds, b.type ≠ .rangeBound) ∧
      (split = false → sel.Pairwise (· < ·) ∧ ∀ (r : Nat) (i : Fin 6), sel[r]? = some i → c.bounds[r]? = bounds[i.val]?) := by
  rw [values_eq h]
  obtain ⟨hb, hc, kind, hk, rows, hr, rfl⟩ := new_some h
  refine ⟨rows.map (·.1), ?_, ?_, rfl, ?_, by simp, ?_, ?_⟩
  · subst hr
    rw [List.map_flatMap, List.pairwise_flatMap]
    refine ⟨fun i _ => ?_, ?_⟩
    · unfold rowsOf
      split
      · split <;> simp
      · simp
    · refine List.Pairwise.imp ?_ (List.pairwise_lt_finRange 6)
      intro a b hab x hx y hy
      have hm : ∀ (i x : Fin 6), x ∈ (rowsOf isZero split (coeffs.getD i 0) (bounds.getD i default0) i).map (·.1) → x = i := by
        intro i x hx
        unfold rowsOf at hx
        split at hx
        · split at hx <;> simpa using hx
        · simp at hx
      rw [hm a x hx, hm b y hy]
      exact le_of_lt hab
  · intro i
    have h1 : coeffs[i.val]? = some (coeffs[i.val]'(by omega)) := List.getElem?_eq_getElem _
    subst hr
    simp only [List.map_flatMap, List.mem_flatMap, List.mem_finRange, true_and]
    have hm : ∀ j : Fin 6, i ∈ (rowsOf isZero split (coeffs.getD j 0) (bounds.getD j default0) j).map (·.1) ↔
        i = j ∧ isZero (coeffs.getD j 0) = false := by
      intro j
      unfold rowsOf
      cases isZero (coeffs.getD j 0) <;> simp only [Bool.not_false, if_true, Bool.not_true, Bool.false_eq_true, if_false,
        List.map_nil, List.not_mem_nil, Bool.true_eq_false, and_false, and_true]
      split
      · simp only [List.map_cons, List.map_nil, List.mem_cons, List.not_mem_nil, or_false, or_self]
      · simp only [List.map_cons, List.map_nil, List.mem_singleton]
    simp only [hm, h1, Option.some.injEq, exists_eq_left', exists_eq_left]
    simp [List.getD_eq_getElem?_getD, h1]
  · rw [hr]
    exact rows_coeff isZero split coeffs bounds (List.finRange 6)
  · intro hs b hb'
    subst hr hs
    simp only [List.mem_map, List.mem_flatMap, List.mem_finRange, true_and] at hb'
    obtain ⟨t, ⟨i, ht⟩, rfl⟩ := hb'
    unfold rowsOf at ht
    split at ht
    · split at ht
      · simp only [List.mem_cons, List.not_mem_nil, or_false] at ht
        rcases ht with rfl | rfl
        · exact JointConstraints.type_half_lower _
        · exact JointConstraints.type_half_upper _
      · rename_i hn
        simp only [List.mem_singleton] at ht
        subst ht
        simpa using hn
    · simp at ht
  · intro hs
    subst hs
    have hone : ∀ i : Fin 6, rowsOf isZero false (coeffs.getD i 0) (bounds.getD i default0) i =
        if isZero (coeffs.getD i 0) = false then [(i, coeffs.getD i 0, bounds.getD i default0)] else [] := by
      intro i
      unfold rowsOf
      cases isZero (coeffs.getD i 0) <;> simp
    have hall : rows = ((List.finRange 6).filter fun i : Fin 6 => !isZero (coeffs.getD i 0)).map
        fun i : Fin 6 => (i, coeffs.getD i 0, bounds.getD i default0) := by
      rw [hr]
      simp only [hone]
      generalize List.finRange 6 = l
      induction l with
      | nil => rfl
      | cons a l ih =>
        rw [List.flatMap_cons, ih, List.filter_cons]
        cases isZero (coeffs.getD a 0) <;> simp
    have hsel : rows.map (·.1) = (List.finRange 6).filter fun i : Fin 6 => !isZero (coeffs.getD i 0) := by
      rw [hall, List.map_map]
      exact List.map_id _
    constructor
    · rw [hsel]
      exact (List.pairwise_lt_finRange 6).filter _
    · intro r i hri
      rw [hsel] at hri
      rw [hall, List.getElem?_map, List.getElem?_map, hri]
      have h2 : bounds[i.val]? = some (bounds[i.val]'(by omega)) := List.getElem?_eq_getElem _
      simp [List.getD_eq_getElem?_getD, h2]

/-- C105: without coefficients and bounds the constraint holds exactly where the pose error vanishes. -/
theorem C105_exact [Mul T] (isZero : K → Bool) (h1 : isZero 1 = false) (arm : Arm Name T K n) (index : Nat)
    (source target : Name) (so dst : T) (split : Bool) (c : CartPos Name T K n)
    (h : CartPos.newExact isZero arm index source target so dst split = some c) (P : Poses T K) (q : Fin n → K) :
    AllAccepted c.bounds (c.values P q) ↔ poseError P arm source target so dst q = 0 := by
  rw [C105_satisfied isZero arm index _ _ source target so dst split c h, funext_iff]
  apply forall_congr'
  intro i
  have hi : ∀ {α : Type v} (a : α), (List.replicate 6 a)[i.val]? = some a := fun a => by
    rw [List.getElem?_replicate, if_pos i.isLt]
  simp only [hi, Option.some.injEq]
  constructor
  · intro h
    have := h _ _ rfl rfl h1
    simp only [Accepts, default0, Bounds.mk', JointConstraints.AboveLower, JointConstraints.BelowUpper] at this
    exact le_antisymm this.2 this.1
  · intro h k b hk hb hz
    subst hk hb
    simp [Accepts, default0, Bounds.mk', JointConstraints.AboveLower, JointConstraints.BelowUpper, h]

/-- C105: `setTargetPose` is construction with another target offset. -/
theorem C105_set_target (isZero : K → Bool) (arm : Arm Name T K n) (index : Nat) (coeffs : List K) (bounds : List (Bounds K))
    (source target : Name) (so dst dst' : T) (split : Bool) (c : CartPos Name T K n)
    (h : CartPos.new isZero arm index coeffs bounds source target so dst split = some c) :
    CartPos.new isZero arm index coeffs bounds source target so dst' split = some (c.setTargetPose dst') := by
  have hok : CartPos.new isZero arm index coeffs bounds source target so dst' split ≠ none := by
    rw [Ne, C105_rejects isZero arm index coeffs bounds source target so dst' split,
      ← C105_rejects isZero arm index coeffs bounds source target so dst split, h]
    simp
  obtain ⟨c', hc'⟩ := Option.ne_none_iff_exists'.1 hok
  rw [hc']
  obtain ⟨_, _, k, hk, r, hr, rfl⟩ := new_some h
  obtain ⟨_, _, k', hk', r', hr', rfl⟩ := new_some hc'
  have := hk.symm.trans hk'
  injection this with this
  subst this hr hr'
  rfl

/-! ### C106 -/

theorem perturb_update (q : Fin n → K) (j : Fin n) (e : K) : perturb q j e = Function.update q j (q j + e) := by
  funext k
  by_cases h : k = j
  · subst h; simp [perturb]
  · simp [perturb, h]

theorem rowDot_block (index : Nat) (f : Fin n → K) (d : Nat → K) :
    rowDot ((List.finRange n).map fun j : Fin n => (index + j.val, f j)) d = ∑ j, f j * d (index + j.val) := by
  simp only [rowDot, List.map_map]
  rw [← List.sum_ofFn, List.ofFn_eq_map]
  rfl

theorem insertRow_block (numVars index : Nat) (f : Fin n → K) (h : index + n ≤ numVars) :
    insertRow numVars ((List.finRange n).map fun j : Fin n => (index + j.val, f j)) =
      some ((List.finRange n).map fun j : Fin n => (index + j.val, f j)) := by
  apply insertRow_some
  · rw [List.pairwise_map]
    refine (List.pairwise_lt_finRange n).imp ?_
    intro a b hab
    simp only
    have : a.val < b.val := hab
    omega
  · intro q hq
    simp only [List.mem_map, List.mem_finRange, true_and] at hq
    obtain ⟨j, rfl⟩ := hq
    simp only
    omega

/-- C106: with numeric differentiation (the default) and whenever both links move, row `r` of the Jacobian is the difference
quotient of value `r` in every joint, stored in the columns of the constraint's variable. -/
theorem C106_numeric [Mul T] (isZero : K → Bool) (arm : Arm Name T K n) (index : Nat) (coeffs : List K) (bounds : List (Bounds K))
    (source target : Name) (so dst : T) (split : Bool) (c : CartPos Name T K n)
    (h : CartPos.new isZero arm index coeffs bounds source target so dst split = some c) (numeric : Bool)
    (hnum : numeric = true ∨ (arm.active source = true ∧ arm.active target = true)) (P : Poses T K) (hst : Static arm) (numVars : Nat)
    (hv : index + n ≤ numVars) (q : Fin n → K)
    (hd : ∀ j : Fin n, let q' := Function.update q j (q j + 1 / 10 ^ 5)
      DiffAt P (frame arm target dst q) (frame arm target dst q') (frame arm source so q) (frame arm source so q') ∧
      DiffAt P (frame arm source so q) (frame arm source so q') (frame arm target dst q) (frame arm target dst q')) :
    ∃ rows, ({ c with numeric := numeric } : CartPos Name T K n).jacobian P numVars q = some rows ∧
      rows.length = (c.values P q).length ∧
      ∀ (r : Nat) (row : List (Nat × K)), rows[r]? = some row → ∀ d : Nat → K,
        rowDot row d = ∑ j : Fin n,
          ((c.values P (Function.update q j (q j + 1 / 10 ^ 5))).getD r 0 - (c.values P q).getD r 0) / (1 / 10 ^ 5) *
            d (index + j.val) := by
  have hval := values_eq h P
  have hlen : (c.values P q).length = c.indices.length := by rw [hval]; simp
  obtain ⟨_, _, kind, hk, rs, _, rfl⟩ := new_some h
  have hcond : (numeric || decide (kind = Kind.bothActive)) = true := by
    rcases hnum with hn | ⟨h1, h2⟩
    · simp [hn]
    · simp only [kindOf, h1, h2, Bool.and_self, if_true, Option.some.injEq] at hk
      simp [← hk]
  unfold CartPos.jacobian
  simp only
  rw [if_pos hcond]
  rw [JointConstraints.mapM_range_some _ _ _ fun r _ => insertRow_block numVars index _ hv]
  refine ⟨_, rfl, by rw [hlen]; simp, ?_⟩
  intro r row hrow d
  simp only [List.getElem?_map] at hrow
  by_cases hr : r < (rs.map (·.1)).length
  · rw [List.getElem?_range hr] at hrow
    injection hrow with hrow
    subst hrow
    rw [rowDot_block]
    apply sum_congr rfl
    intro j _
    congr 2
    rw [perturb_update, show (eps : K) = 1 / 10 ^ 5 from rfl]
    obtain ⟨h1, h2⟩ := hd j
    simp only [hval]
    have hget : ∀ f : Fin 6 → K, ((rs.map (·.1)).map f).getD r 0 = f ((rs.map (·.1))[r]'hr) := by
      intro f
      rw [List.getD_eq_getElem?_getD, List.getElem?_map, List.getElem?_eq_getElem hr]
      rfl
    unfold CartPos.errorDiff poseError
    unfold kindOf at hk
    cases hs : arm.active source <;> cases ht : arm.active target <;> simp only [hs, ht] at hk
    · simp at hk
    all_goals
      simp at hk
      subst hk
      simp only [hget]
      simp only [CartPos.sourceTf, CartPos.targetTf]
    · have e : frame arm source so (Function.update q j (q j + 1 / 10 ^ 5)) = frame arm source so q := by
        unfold frame; rw [hst source hs _ q]
      simp only [and_self, if_true, e]
      exact h2.1 _
    · have e : frame arm target dst (Function.update q j (q j + 1 / 10 ^ 5)) = frame arm target dst q := by
        unfold frame; rw [hst target ht _ q]
      simp only [Bool.false_eq_true, false_and, if_false, e]
      exact h1.1 _
    · simp only [Bool.true_eq_false, and_false, if_false]
      exact h1.2 _
  · rw [List.getElem?_eq_none (by simpa using hr)] at hrow
    simp at hrow

/-- C106 fails without numeric differentiation when one link moves: six entries are assigned to a block of three. -/
theorem C106_violated_analytic [Mul T] (isZero : K → Bool) (arm : Arm Name T K n) (index : Nat) (coeffs : List K)
    (bounds : List (Bounds K)) (source target : Name) (so dst : T) (split : Bool) (c : CartPos Name T K n)
    (h : CartPos.new isZero arm index coeffs bounds source target so dst split = some c)
    (hone : ¬(arm.active source = true ∧ arm.active target = true)) (P : Poses T K) (numVars : Nat) (q : Fin n → K) :
    ({ c with numeric := false } : CartPos Name T K n).jacobian P numVars q = none := by
  obtain ⟨_, _, kind, hk, rs, _, rfl⟩ := new_some h
  have : kind ≠ .bothActive := by
    rintro rfl
    unfold kindOf at hk
    cases hs : arm.active source <;> cases ht : arm.active target <;> simp_all
  simp [CartPos.jacobian, this]

/-! ### C107 -/

/-- Specification: the component of the error lies within its tolerances; without tolerances it vanishes. -/
def InBand (lower upper : List K) (i : Nat) (e : K) : Prop :=
  if lower = [] then e = 0 else lower.getD i 0 ≤ e ∧ e ≤ upper.getD i 0

/-- Specification: signed distance of a number from an interval. -/
def beyond (lo hi e : K) : K := e - max lo (min e hi)

/-- Specification: the pose error of the legacy fixed-frame term: of the target seen from the source when the target moves, else of
the source seen from the target. -/
def fixedError [Mul T] (P : Poses T K) (c : Legacy Name T K n) (q : Fin n → K) : Fin 6 → K :=
  if c.arm.active c.target = true then P.error (frame c.arm c.source c.sourceOffset q) (frame c.arm c.target c.targetOffset q)
  else P.error (frame c.arm c.target c.targetOffset q) (frame c.arm c.source c.sourceOffset q)

/-- Specification: the pose error of the legacy dynamic term: of the source seen from the target. -/
def dynamicErrorSpec [Mul T] (P : Poses T K) (c : Legacy Name T K n) (q : Fin n → K) : Fin 6 → K :=
  P.error (frame c.arm c.target c.targetOffset q) (frame c.arm c.source c.sourceOffset q)

/-- Specification: what the constructors require. -/
structure Proper (c : Legacy Name T K n) : Prop where
  few : c.indices.length ≤ 6
  sizes : c.lower.length = c.upper.length
  ordered : ∀ (i : Nat) (lo hi : K), c.lower[i]? = some lo → c.upper[i]? = some hi → lo ≤ hi

theorem valid_iff (c : Legacy Name T K n) : c.valid = true ↔ Proper c := by
  have hz : ((c.lower.zip c.upper).any fun p => decide (p.2 < p.1)) = false ↔
      ∀ (i : Nat) (lo hi : K), c.lower[i]? = some lo → c.upper[i]? = some hi → lo ≤ hi := by
    rw [List.any_eq_false]
    constructor
    · intro h i lo hi h1 h2
      have := h (lo, hi) (List.mem_of_getElem? (i := i) (by rw [List.getElem?_zip_eq_some]; exact ⟨h1, h2⟩))
      simpa using this
    · intro h p hp
      obtain ⟨i, hi⟩ := List.mem_iff_getElem?.1 hp
      rw [List.getElem?_zip_eq_some] at hi
      simpa using h i _ _ hi.1 hi.2
  unfold Legacy.valid validTolerances
  simp only [Bool.and_eq_true, decide_eq_true_eq, Bool.not_eq_true', hz]
  exact ⟨fun ⟨a, b, c⟩ => ⟨a, b, c⟩, fun ⟨a, b, c⟩ => ⟨a, b, c⟩⟩

/-- C107: the legacy pose terms reject more than six indices, tolerances of different sizes and inverted tolerances. -/
theorem C107_rejects [Mul T] (close : List K → List K → Bool) (P : Poses T K) (c : Legacy Name T K n) (h : ¬Proper c) (q : Fin n → K) :
    c.dynamicError close P q = none ∧ c.poseError close P q = none ∧ c.dynamicJac P q = none ∧ c.poseJac P q = none := by
  rw [← valid_iff] at h
  simp [Legacy.dynamicError, Legacy.poseError, Legacy.dynamicJac, Legacy.poseJac, h]

theorem pick_eq (l : List Nat) (e : Fin 6 → K) (h : ∀ i ∈ l, i < 6) :
    pick l e = some (l.map fun i => if hi : i < 6 then e ⟨i, hi⟩ else 0) := by
  unfold pick
  induction l with
  | nil => rfl
  | cons a l ih =>
    rw [List.mapM_cons, ih fun i hi => h i (by simp [hi])]
    simp [h a (by simp)]

theorem tolerance_beyond {lo hi : K} (h : lo ≤ hi) (e : K) : applyTolerance e lo hi = beyond lo hi e := by
  unfold applyTolerance beyond
  split
  · rename_i h1
    rw [min_eq_left (le_of_lt (lt_of_lt_of_le h1 h)), max_eq_left (le_of_lt h1)]
  · rename_i h1
    push Not at h1
    split
    · rename_i h2
      rw [min_eq_right (le_of_lt h2), max_eq_right h]
    · rename_i h2
      push Not at h2
      rw [min_eq_left h2, max_eq_right h1, sub_self]

theorem beyond_zero {lo hi : K} (h : lo ≤ hi) (e : K) : beyond lo hi e = 0 ↔ lo ≤ e ∧ e ≤ hi := by
  unfold beyond
  rw [sub_eq_zero]
  constructor
  · intro h1
    refine ⟨by rw [h1]; exact le_max_left _ _, ?_⟩
    rw [h1]
    exact max_le h (min_le_right _ _)
  · rintro ⟨h1, h2⟩
    rw [min_eq_left h2, max_eq_right h1]

/-- The toleranced error as a function of the raw one. -/
def banded (c : Legacy Name T K n) (i : Nat) (e : K) : K :=
  if c.lower = [] then e else beyond (c.lower.getD i 0) (c.upper.getD i 0) e

/-- Specification: no tolerances, or six that are told apart. -/
def Told (close : List K → List K → Bool) (c : Legacy Name T K n) : Prop :=
  (c.lower = [] ∧ c.upper = []) ∨ (c.lower.length = 6 ∧ c.upper.length = 6 ∧ close c.lower c.upper = false)

theorem lower_le {c : Legacy Name T K n} (hp : Proper c) (h1 : c.lower.length = 6) (h2 : c.upper.length = 6) (i : Nat) (hi : i < 6) :
    c.lower.getD i 0 ≤ c.upper.getD i 0 := by
  have g1 : c.lower[i]? = some (c.lower[i]'(by omega)) := List.getElem?_eq_getElem _
  have g2 : c.upper[i]? = some (c.upper[i]'(by omega)) := List.getElem?_eq_getElem _
  rw [List.getD_eq_getElem?_getD, List.getD_eq_getElem?_getD, g1, g2]
  exact hp.ordered i _ _ g1 g2

theorem tolerated_eq (close : List K → List K → Bool) (c : Legacy Name T K n) (hp : Proper c) (ht : Told close c) (e : Fin 6 → K) :
    tolerated close c e = some fun i : Fin 6 => banded c i (e i) := by
  unfold tolerated Legacy.plain
  rcases ht with ⟨h1, h2⟩ | ⟨h1, h2, h3⟩
  · simp [h1, h2, banded]
  · have n1 : c.lower ≠ [] := by intro h; rw [h] at h1; simp at h1
    have : c.lower.isEmpty = false := by simpa using n1
    rw [this, h3]
    simp only [Bool.false_and, Bool.or_self, Bool.false_eq_true, if_false]
    rw [if_pos ⟨h1, h2⟩]
    congr 1
    funext i
    rw [banded, if_neg n1, tolerance_beyond (lower_le hp h1 h2 i i.isLt)]

theorem banded_zero (close : List K → List K → Bool) (c : Legacy Name T K n) (hp : Proper c) (ht : Told close c) (i : Nat) (hi : i < 6) (e : K) :
    banded c i e = 0 ↔ InBand c.lower c.upper i e := by
  unfold banded InBand
  rcases ht with ⟨h1, h2⟩ | ⟨h1, h2, h3⟩
  · simp [h1]
  · have n1 : c.lower ≠ [] := by intro h; rw [h] at h1; simp at h1
    rw [if_neg n1, if_neg n1, beyond_zero (lower_le hp h1 h2 i hi)]

/-- The errors of both legacy terms: the selected components, moved by the tolerances. -/
theorem legacy_errors [Mul T] (close : List K → List K → Bool) (P : Poses T K) (c : Legacy Name T K n) (hp : Proper c)
    (hi : ∀ i ∈ c.indices, i < 6) (ht : Told close c) (q : Fin n → K) :
    c.dynamicError close P q = some (c.indices.map fun i => if h : i < 6 then banded c i (dynamicErrorSpec P c q ⟨i, h⟩) else 0) ∧
    c.poseError close P q = some (c.indices.map fun i => if h : i < 6 then banded c i (fixedError P c q ⟨i, h⟩) else 0) := by
  constructor
  · unfold Legacy.dynamicError
    rw [if_pos ((valid_iff c).2 hp), tolerated_eq close c hp ht]
    exact pick_eq _ _ hi
  · unfold Legacy.poseError
    rw [if_pos ((valid_iff c).2 hp), tolerated_eq close c hp ht]
    simp only
    rw [pick_eq _ _ hi]
    congr 2

/-- C107: without tolerances, or with six tolerances that are told apart, the error of the dynamic pose term vanishes exactly when
every selected component of the pose error is within its tolerances, and its rows are the distances from the tolerance bands. -/
theorem C107_dynamic_partial [Mul T] (close : List K → List K → Bool) (P : Poses T K) (c : Legacy Name T K n) (hp : Proper c)
    (hi : ∀ i ∈ c.indices, i < 6) (ht : Told close c) (q : Fin n → K) :
    ∃ e, c.dynamicError close P q = some e ∧ e.length = c.indices.length ∧
      ((∀ x ∈ e, x = 0) ↔ ∀ (i : Nat) (h : i < 6), i ∈ c.indices → InBand c.lower c.upper i (dynamicErrorSpec P c q ⟨i, h⟩)) ∧
      ∀ (r i : Nat) (h : i < 6), c.indices[r]? = some i → e[r]? = some (if c.lower = [] then dynamicErrorSpec P c q ⟨i, h⟩
        else beyond (c.lower.getD i 0) (c.upper.getD i 0) (dynamicErrorSpec P c q ⟨i, h⟩)) := by
  refine ⟨_, (legacy_errors close P c hp hi ht q).1, by simp, ?_, ?_⟩
  · simp only [List.mem_map, forall_exists_index, and_imp, forall_apply_eq_imp_iff₂]
    constructor
    · intro h i h6 hm
      have := h i hm
      rw [dif_pos h6] at this
      exact (banded_zero close c hp ht i h6 _).1 this
    · intro h i hm
      rw [dif_pos (hi i hm)]
      exact (banded_zero close c hp ht i (hi i hm) _).2 (h i (hi i hm) hm)
  · intro r i h6 hr
    rw [List.getElem?_map, hr]
    simp [h6, banded]

/-- C107: the same for the pose term with a fixed frame. -/
theorem C107_pose_partial [Mul T] (close : List K → List K → Bool) (P : Poses T K) (c : Legacy Name T K n) (hp : Proper c)
    (hi : ∀ i ∈ c.indices, i < 6) (ht : Told close c) (q : Fin n → K) :
    ∃ e, c.poseError close P q = some e ∧ e.length = c.indices.length ∧
      ((∀ x ∈ e, x = 0) ↔ ∀ (i : Nat) (h : i < 6), i ∈ c.indices → InBand c.lower c.upper i (fixedError P c q ⟨i, h⟩)) ∧
      ∀ (r i : Nat) (h : i < 6), c.indices[r]? = some i → e[r]? = some (if c.lower = [] then fixedError P c q ⟨i, h⟩
        else beyond (c.lower.getD i 0) (c.upper.getD i 0) (fixedError P c q ⟨i, h⟩)) := by
  refine ⟨_, (legacy_errors close P c hp hi ht q).2, by simp, ?_, ?_⟩
  · simp only [List.mem_map, forall_exists_index, and_imp, forall_apply_eq_imp_iff₂]
    constructor
    · intro h i h6 hm
      have := h i hm
      rw [dif_pos h6] at this
      exact (banded_zero close c hp ht i h6 _).1 this
    · intro h i hm
      rw [dif_pos (hi i hm)]
      exact (banded_zero close c hp ht i (hi i hm) _).2 (h i (hi i hm) hm)
  · intro r i h6 hr
    rw [List.getElem?_map, hr]
    simp [h6, banded]

/-- C107 fails for tolerances whose lower and upper sides are considered equal: they are ignored, so the error is the raw pose
error.  At a pose whose error is the tolerance asked for (not zero), the term reports an error. -/
theorem C107_violated_equal [Mul T] (close : List K → List K → Bool) (P : Poses T K) (c : Legacy Name T K n) (hp : Proper c)
    (hi : ∀ i ∈ c.indices, i < 6) (hc : close c.lower c.upper = true) (q : Fin n → K) :
    c.dynamicError close P q = some (c.indices.map fun i => if h : i < 6 then dynamicErrorSpec P c q ⟨i, h⟩ else 0) ∧
    c.poseError close P q = some (c.indices.map fun i => if h : i < 6 then fixedError P c q ⟨i, h⟩ else 0) ∧
    ∀ (i : Nat) (h : i < 6), i ∈ c.indices → dynamicErrorSpec P c q ⟨i, h⟩ = c.lower.getD i 0 → c.lower.getD i 0 ≠ 0 →
      ∃ e, c.dynamicError close P q = some e ∧ ∃ x ∈ e, x ≠ 0 := by
  have hd : c.dynamicError close P q = some (c.indices.map fun i => if h : i < 6 then dynamicErrorSpec P c q ⟨i, h⟩ else 0) := by
    unfold Legacy.dynamicError tolerated Legacy.plain
    rw [if_pos ((valid_iff c).2 hp), hc, Bool.or_true, if_pos rfl]
    exact pick_eq _ _ hi
  refine ⟨hd, ?_, ?_⟩
  · unfold Legacy.poseError tolerated Legacy.plain
    rw [if_pos ((valid_iff c).2 hp), hc, Bool.or_true, if_pos rfl]
    simp only
    rw [pick_eq _ _ hi]
    congr 2
  · intro i h6 hm he hn
    refine ⟨_, hd, c.lower.getD i 0, ?_, hn⟩
    rw [List.mem_map]
    exact ⟨i, hm, by rw [dif_pos h6, he]⟩

/-- Specification: the toleranced difference functions of the pose library return the difference of the toleranced errors. -/
def DiffTolAt (P : Poses T K) (c : Legacy Name T K n) (a a' b b' : T) : Prop :=
  (∀ i, P.diffTol a b b' c.lower c.upper i = banded c i (P.error a b' i) - banded c i (P.error a b i)) ∧
  ∀ i, P.diffBothTol a a' b b' c.lower c.upper i = banded c i (P.error a' b' i) - banded c i (P.error a b i)

theorem mapM_finRange_some {α : Type*} (m : Nat) (f : Fin m → Option α) (g : Fin m → α) (h : ∀ j, f j = some (g j)) :
    (List.finRange m).mapM f = some ((List.finRange m).map g) := by
  generalize List.finRange m = l
  induction l with
  | nil => rfl
  | cons a l ih => rw [List.mapM_cons, h a, ih]; rfl

/-- C107: column `j` of the Jacobian of the dynamic pose term is the difference quotient of its error in joint `j`. -/
theorem C107_dynamic_jac_partial [Mul T] (close : List K → List K → Bool) (P : Poses T K) (c : Legacy Name T K n) (hp : Proper c)
    (hi : ∀ i ∈ c.indices, i < 6) (ht : Told close c) (q : Fin n → K)
    (hd : ∀ j : Fin n, let q' := Function.update q j (q j + 1 / 10 ^ 5)
      DiffTolAt P c (frame c.arm c.target c.targetOffset q) (frame c.arm c.target c.targetOffset q')
        (frame c.arm c.source c.sourceOffset q) (frame c.arm c.source c.sourceOffset q')) :
    ∃ cols, c.dynamicJac P q = some cols ∧ cols.length = n ∧
      ∀ (j : Fin n) (e e' : List K), c.dynamicError close P q = some e →
        c.dynamicError close P (Function.update q j (q j + 1 / 10 ^ 5)) = some e' →
        cols[j.val]? = some (List.zipWith (fun x' x => (x' - x) / (1 / 10 ^ 5)) e' e) := by
  unfold Legacy.dynamicJac
  rw [if_pos ((valid_iff c).2 hp)]
  simp only [pick_eq _ _ hi, Option.map_some]
  rw [mapM_finRange_some _ _ _ fun j => rfl]
  refine ⟨_, rfl, by simp, ?_⟩
  intro j e e' he he'
  rw [(legacy_errors close P c hp hi ht _).1] at he he'
  injection he with he
  injection he' with he'
  subst he he'
  rw [List.getElem?_map, show (List.finRange n)[j.val]? = some j by simp]
  simp only [Option.map_some, Option.some.injEq, List.map_map]
  rw [List.zipWith_map_left, List.zipWith_map_right, List.zipWith_self]
  apply List.map_congr_left
  intro i hm
  simp only [Function.comp, dif_pos (hi i hm), perturb_update, show (eps : K) = 1 / 10 ^ 5 from rfl]
  congr 1
  exact (hd j).2 ⟨i, hi i hm⟩

/-- C107: when exactly one of the two frames moves, column `j` of the Jacobian of the pose term is the difference quotient of its
error in joint `j`. -/
theorem C107_pose_jac_partial [Mul T] (close : List K → List K → Bool) (P : Poses T K) (c : Legacy Name T K n) (hp : Proper c)
    (hi : ∀ i ∈ c.indices, i < 6) (ht : Told close c) (hst : Static c.arm)
    (hone : c.arm.active c.target = true → c.arm.active c.source = false) (q : Fin n → K)
    (hd : ∀ j : Fin n, let q' := Function.update q j (q j + 1 / 10 ^ 5)
      DiffTolAt P c (frame c.arm c.target c.targetOffset q) (frame c.arm c.target c.targetOffset q')
        (frame c.arm c.source c.sourceOffset q) (frame c.arm c.source c.sourceOffset q') ∧
      DiffTolAt P c (frame c.arm c.source c.sourceOffset q) (frame c.arm c.source c.sourceOffset q')
        (frame c.arm c.target c.targetOffset q) (frame c.arm c.target c.targetOffset q')) :
    ∃ cols, c.poseJac P q = some cols ∧ cols.length = n ∧
      ∀ (j : Fin n) (e e' : List K), c.poseError close P q = some e →
        c.poseError close P (Function.update q j (q j + 1 / 10 ^ 5)) = some e' →
        cols[j.val]? = some (List.zipWith (fun x' x => (x' - x) / (1 / 10 ^ 5)) e' e) := by
  unfold Legacy.poseJac
  rw [if_pos ((valid_iff c).2 hp)]
  simp only [pick_eq _ _ hi, Option.map_some]
  rw [mapM_finRange_some _ _ _ fun j => rfl]
  refine ⟨_, rfl, by simp, ?_⟩
  intro j e e' he he'
  rw [(legacy_errors close P c hp hi ht _).2] at he he'
  injection he with he
  injection he' with he'
  subst he he'
  rw [List.getElem?_map, show (List.finRange n)[j.val]? = some j by simp]
  simp only [Option.map_some, Option.some.injEq, List.map_map]
  rw [List.zipWith_map_left, List.zipWith_map_right, List.zipWith_self]
  apply List.map_congr_left
  intro i hm
  simp only [Function.comp, dif_pos (hi i hm), perturb_update, show (eps : K) = 1 / 10 ^ 5 from rfl]
  congr 1
  unfold fixedError
  obtain ⟨d1, d2⟩ := hd j
  by_cases hact : c.arm.active c.target = true
  · simp only [hact, if_true]
    have e : frame c.arm c.source c.sourceOffset (Function.update q j (q j + 1 / 10 ^ 5)) =
        frame c.arm c.source c.sourceOffset q := by
      unfold frame; rw [hst c.source (hone hact) _ q]
    rw [e]
    exact d2.1 ⟨i, hi i hm⟩
  · simp only [hact, if_false]
    have e : frame c.arm c.target c.targetOffset (Function.update q j (q j + 1 / 10 ^ 5)) =
        frame c.arm c.target c.targetOffset q := by
      unfold frame; rw [hst c.target (by simpa using hact) _ q]
    rw [e]
    exact d1.1 ⟨i, hi i hm⟩

/-- C107 fails when both frames move: the Jacobian leaves out the motion of the source.  Where joint `j` moves the two frames
together, so that the error does not change, the column is that of the target moving alone. -/
theorem C107_violated_both_active [Mul T] (close : List K → List K → Bool) (P : Poses T K) (c : Legacy Name T K n) (hp : Proper c)
    (hi : ∀ i ∈ c.indices, i < 6) (hlo : c.lower = []) (hup : c.upper = []) (hact : c.arm.active c.target = true)
    (q : Fin n → K) (j : Fin n) (q' : Fin n → K) (hq : q' = Function.update q j (q j + 1 / 10 ^ 5))
    (hd : DiffTolAt P c (frame c.arm c.source c.sourceOffset q) (frame c.arm c.source c.sourceOffset q')
      (frame c.arm c.target c.targetOffset q) (frame c.arm c.target c.targetOffset q'))
    (hsame : fixedError P c q' = fixedError P c q) (i : Nat) (h6 : i < 6) (hm : i ∈ c.indices)
    (hmove : P.error (frame c.arm c.source c.sourceOffset q) (frame c.arm c.target c.targetOffset q') ⟨i, h6⟩ ≠
      P.error (frame c.arm c.source c.sourceOffset q) (frame c.arm c.target c.targetOffset q) ⟨i, h6⟩) :
    c.poseError close P q' = c.poseError close P q ∧
      ∃ cols col, c.poseJac P q = some cols ∧ cols[j.val]? = some col ∧ ∃ x ∈ col, x ≠ 0 := by
  constructor
  · have ht : Told close c := Or.inl ⟨hlo, hup⟩
    rw [(legacy_errors close P c hp hi ht _).2, (legacy_errors close P c hp hi ht _).2, hsame]
  · unfold Legacy.poseJac
    rw [if_pos ((valid_iff c).2 hp)]
    simp only [pick_eq _ _ hi, Option.map_some]
    rw [mapM_finRange_some _ _ _ fun j => rfl]
    refine ⟨_, _, rfl, by rw [List.getElem?_map, show (List.finRange n)[j.val]? = some j by simp]; rfl, ?_⟩
    simp only [List.map_map, List.mem_map, exists_exists_and_eq_and]
    refine ⟨i, hm, ?_⟩
    simp only [Function.comp, dif_pos h6, perturb_update, show (eps : K) = 1 / 10 ^ 5 from rfl, hact, if_true, ← hq]
    have := hd.1 ⟨i, h6⟩
    rw [show P.diffTol (c.sourceTf q) (c.targetTf q) (c.targetTf q') c.lower c.upper ⟨i, h6⟩ = _ from this]
    simp only [banded, hlo, if_true]
    exact div_ne_zero (sub_ne_zero.2 hmove) (by positivity)

/-- C107: the term infos select exactly the components whose coefficient exceeds 1e-5 in size, each with its own coefficient; a
pose term built from them is satisfied when all of these are within tolerance. -/
theorem C107_rows (coeffs : Fin 6 → K) :
    ((termRows coeffs).map (·.1)).Pairwise (· < ·) ∧ (termRows coeffs).length ≤ 6 ∧
      ∀ (i : Nat) (k : K), (i, k) ∈ termRows coeffs ↔ ∃ h : i < 6, k = coeffs ⟨i, h⟩ ∧ 1 / 10 ^ 5 < |coeffs ⟨i, h⟩| := by
  refine ⟨?_, ?_, ?_⟩
  · have hf : (termRows coeffs).map (·.1) = ((List.finRange 6).filter fun i => 1 / 10 ^ 5 < |coeffs i|).map Fin.val := by
      unfold termRows
      generalize List.finRange 6 = l
      induction l with
      | nil => rfl
      | cons a l ih =>
        rw [List.filterMap_cons, List.filter_cons]
        by_cases h : 1 / 10 ^ 5 < |coeffs a|
        · simp only [h, if_true, List.map_cons, ih, decide_true]
        · simp only [h, if_false, ih, decide_false, Bool.false_eq_true]
    rw [hf, List.pairwise_map]
    exact ((List.pairwise_lt_finRange 6).filter _).imp id
  · have := List.length_filterMap_le (fun i : Fin 6 => if 1 / 10 ^ 5 < |coeffs i| then some (i.val, coeffs i) else none) (List.finRange 6)
    simpa [termRows] using this
  · intro i k
    simp only [termRows, List.mem_filterMap, List.mem_finRange, true_and]
    constructor
    · rintro ⟨j, hj⟩
      split at hj
      · rename_i h
        injection hj with hj
        injection hj with h1 h2
        subst h1 h2
        exact ⟨j.isLt, rfl, h⟩
      · simp at hj
    · rintro ⟨h, rfl, h2⟩
      exact ⟨⟨i, h⟩, by rw [if_pos h2]⟩

/-! ### Non-vacuity -/

namespace Demo

/-- Sliders along one axis; poses are positions on it.  Link 1 rides on joint 0, link 2 on joint 1, link 0 is fixed. -/
def arm : Arm Nat (Multiplicative ℚ) ℚ 2 where
  has := fun l => decide (l ≤ 2)
  active := fun l => decide (l = 1 ∨ l = 2)
  fk := fun q l => Multiplicative.ofAdd (if l = 1 then q 0 else if l = 2 then q 0 + q 1 else 0)

def gapError (a b : Multiplicative ℚ) : Fin 6 → ℚ := fun i => if i = 0 then b.toAdd - a.toAdd else 0

def tol (lo hi : List ℚ) (i : Fin 6) (e : ℚ) : ℚ := if lo = [] then e else beyond (lo.getD i 0) (hi.getD i 0) e

def poses : Poses (Multiplicative ℚ) ℚ where
  error := gapError
  diff := fun a b b' i => gapError a b' i - gapError a b i
  diffBoth := fun a a' b b' i => gapError a' b' i - gapError a b i
  diffTol := fun a b b' lo hi i => tol lo hi i (gapError a b' i) - tol lo hi i (gapError a b i)
  diffBothTol := fun a a' b b' lo hi i => tol lo hi i (gapError a' b' i) - tol lo hi i (gapError a b i)

theorem static : Static arm := by
  intro l hl q q'
  have h1 : l ≠ 1 := by rintro rfl; simp [arm] at hl
  have h2 : l ≠ 2 := by rintro rfl; simp [arm] at hl
  simp [arm, h1, h2]

theorem diffs (a a' b b' : Multiplicative ℚ) : DiffAt poses a a' b b' := ⟨fun _ => rfl, fun _ => rfl⟩

def isZero (k : ℚ) : Bool := decide (|k| ≤ 1 / 10 ^ 6)

/-- Position within [-1, 2] along the first axis, weight 5; the other components are not constrained. -/
def made (split : Bool) : Option (CartPos Nat (Multiplicative ℚ) ℚ 2) :=
  CartPos.new isZero arm 3 [5, 0, 0, 0, 0, 0] (Bounds.mk' (.fin (-1)) (.fin 2) :: List.replicate 5 default0) 1 0
    (Multiplicative.ofAdd 0) (Multiplicative.ofAdd 1) split

/-- The legacy term for links `s` and `t` with the same selection. -/
def legacy (s t : Nat) (lo hi : List ℚ) : Legacy Nat (Multiplicative ℚ) ℚ 2 :=
  ⟨arm, s, t, Multiplicative.ofAdd 0, Multiplicative.ofAdd 1, [0], lo, hi⟩

theorem proper (s t : Nat) : Proper (legacy s t [] []) := ⟨by simp [legacy], rfl, by simp [legacy]⟩

end Demo

/-- non-vacuity for C105 and C106: the constructors succeed, splitting gives two rows, and the values follow the slider. -/
example : (∃ c, Demo.made true = some c ∧ c.bounds.length = 2 ∧ ∀ q, c.values Demo.poses q = [q 0 - 1, q 0 - 1]) ∧
    (∃ c, Demo.made false = some c ∧ c.bounds.length = 1) ∧ Static Demo.arm ∧
    (∀ a a' b b', DiffAt Demo.poses a a' b b') := by
  refine ⟨⟨_, rfl, by decide +kernel, fun q => ?_⟩, ⟨_, rfl, by decide +kernel⟩, Demo.static, Demo.diffs⟩
  have hz : Demo.isZero 5 = false ∧ Demo.isZero 0 = true := by decide +kernel
  have ht : (Bounds.mk' (.fin (-1)) (.fin 2) : Bounds ℚ).type = .rangeBound := by decide +kernel
  simp [CartPos.values, CartPos.errorFunction, rowsOf, hz, ht, List.finRange_succ, CartPos.sourceTf, CartPos.targetTf, Demo.arm, Demo.poses,
    Demo.gapError]

/-- non-vacuity for C107: the hypotheses hold with and without tolerances. -/
example : Proper (Demo.legacy 1 0 [] []) ∧ Told (fun a b => decide (a = b)) (Demo.legacy 1 0 [] []) ∧
    Proper (Demo.legacy 1 0 (List.replicate 6 (-1)) (List.replicate 6 2)) ∧
    Told (fun a b => decide (a = b)) (Demo.legacy 1 0 (List.replicate 6 (-1)) (List.replicate 6 2)) ∧
    (∀ i ∈ (Demo.legacy 1 0 [] []).indices, i < 6) ∧
    (∀ a a' b b', DiffTolAt Demo.poses (Demo.legacy 1 0 (List.replicate 6 (-1)) (List.replicate 6 2)) a a' b b') := by
  refine ⟨Demo.proper 1 0, Or.inl ⟨rfl, rfl⟩, ⟨by decide, rfl, ?_⟩, Or.inr ⟨rfl, rfl, by decide +kernel⟩, by decide,
    fun a a' b b' => ⟨fun _ => rfl, fun _ => rfl⟩⟩
  intro i lo hi h1 h2
  have h1 := List.mem_of_getElem? h1
  have h2 := List.mem_of_getElem? h2
  simp only [Demo.legacy, List.mem_replicate] at h1 h2
  rw [h1.2, h2.2]
  norm_num

/-- non-vacuity for C107_violated_equal: the user asks for an error of exactly one. -/
example : Proper (Demo.legacy 1 0 (List.replicate 6 1) (List.replicate 6 1)) ∧
    dynamicErrorSpec Demo.poses (Demo.legacy 1 0 (List.replicate 6 1) (List.replicate 6 1)) (fun _ => 2) 0 = 1 := by
  refine ⟨⟨by decide, rfl, ?_⟩, by decide +kernel⟩
  intro i lo hi h1 h2
  have h1 := List.mem_of_getElem? h1
  have h2 := List.mem_of_getElem? h2
  simp only [Demo.legacy, List.mem_replicate] at h1 h2
  rw [h1.2, h2.2]

/-- non-vacuity for C107_violated_both_active: joint 0 carries both links. -/
example : ∃ q q' : Fin 2 → ℚ, q' = Function.update q 0 (q 0 + 1 / 10 ^ 5) ∧
    fixedError Demo.poses (Demo.legacy 2 1 [] []) q' = fixedError Demo.poses (Demo.legacy 2 1 [] []) q ∧
    (Demo.legacy 2 1 [] []).arm.active 1 = true ∧ ∃ h : 0 < 6,
    Demo.poses.error (frame Demo.arm 2 (Multiplicative.ofAdd 0) q) (frame Demo.arm 1 (Multiplicative.ofAdd 1) q') ⟨0, h⟩ ≠
      Demo.poses.error (frame Demo.arm 2 (Multiplicative.ofAdd 0) q) (frame Demo.arm 1 (Multiplicative.ofAdd 1) q) ⟨0, h⟩ := by
  refine ⟨fun _ => 0, _, rfl, ?_, rfl, by decide, by decide +kernel⟩
  funext i
  revert i
  decide +kernel

end Verif.Cartesian
