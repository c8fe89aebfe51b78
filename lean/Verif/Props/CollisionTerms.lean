import Verif.Model.CollisionTerms
import Verif.Props.ErrFunc
import Mathlib.LinearAlgebra.CrossProduct
import Mathlib.Analysis.Calculus.Deriv.Add
import Mathlib.Analysis.Calculus.Deriv.Mul
import Mathlib.Analysis.SpecialFunctions.Trigonometric.Deriv

/-!
C101 (value of the legacy collision terms), C102 (their convexification), C103 (meaning of a satisfied collision constraint) and
C104 (the linearised distance is the derivative of the gap along the contact normal).
-/

set_option linter.unusedSectionVars false
set_option linter.unusedVariables false

namespace Verif.CollisionTerms

open Verif.Sco Verif.Collision Finset

universe u v
variable {Name : Type u} {K : Type v} [Field K] [LinearOrder K] [IsStrictOrderedRing K] {n : Nat}

/-! ### Specification -/

/-- Specification: what the contact checker promises about contact times. -/
def Timed (h : Hit Name K) : Prop := ∀ i, h.c.cc i ≠ .none → 0 ≤ h.time i ∧ h.time i ≤ 1

/-- Specification: how much a motion of the given time step moves the contact point of link `i`. -/
def share (h : Hit Name K) (late : Bool) (i : Fin 2) : K :=
  if h.c.cc i = .none then 1 else if late then h.time i else 1 - h.time i

/-- Specification: vector from the link origin to its contact point, in world coordinates at the given time step. -/
def arm (h : Hit Name K) (late : Bool) (i : Fin 2) : Fin 3 → K := fun a =>
  ∑ b, (if h.c.cc i = .none ∨ late = false then h.rot i else h.ccRot i) a b * h.point i b

/-- Specification: velocity of the contact point of link `i` when joint `j` moves with unit speed. -/
def velocity (g : Group Name K n) (q : Fin n → K) (h : Hit Name K) (late : Bool) (i : Fin 2) (j : Fin n) : Fin 3 → K :=
  (fun a => g.linear q (h.link i) a j) + crossProduct (fun a => g.angular q (h.link i) a j) (arm h late i)

/-- Specification: how fast link `i` opens the gap along the contact normal when joint `j` moves: the normal points from link 0
to link 1. -/
def rate (g : Group Name K n) (q : Fin n → K) (h : Hit Name K) (late : Bool) (i : Fin 2) (j : Fin n) : K :=
  (if i = 0 then -1 else 1) * ∑ a, h.normal a * velocity g q h late i j a

/-- Specification: the time steps whose variables a term may move. -/
def Kind.steps : Kind → List Bool
  | .bothFree => [false, true]
  | .startFree => [false]
  | .endFree => [true]
  | .single => [false]

def Term.varsOf (t : Term Name K n) (late : Bool) : Fin n → Nat := if late then t.vars1 else t.vars0

/-- Specification: change of the distance when the variables of one time step move from `x` to `y`. -/
def Term.change (t : Term Name K n) (x y : Nat → K) (h : Hit Name K) (late : Bool) : K :=
  ∑ i : Fin 2, if t.group.active (h.link i) then
    share h late i * ∑ j, rate t.group (getVec x (t.varsOf late)) h late i j * (y (t.varsOf late j) - x (t.varsOf late j))
  else 0

/-- Specification: first-order model of the contact distance at `y`, built at `x`. -/
def Term.distanceAt (t : Term Name K n) (x y : Nat → K) (h : Hit Name K) : K :=
  h.c.distance + (t.kind.steps.map fun late => t.change x y h late).sum

/-- Specification: a contact that the free states of the term can influence. -/
def Relevant (k : Kind) (h : Hit Name K) : Prop :=
  match k with
  | .endFree => ∃ i, h.c.cc i = .time1 ∨ h.c.cc i = .between
  | .startFree => ∃ i, h.c.cc i = .time0 ∨ h.c.cc i = .between
  | _ => True

variable [LinearOrder Name]

/-- The clearance the user asked for between the two links of a contact. -/
def Config.needed (cfg : Config Name K) (h : Hit Name K) : K := cfg.margin (orderedPair (h.link 0) (h.link 1))

/-- The coefficient the user gave the two links of a contact. -/
def Config.weight (cfg : Config Name K) (h : Hit Name K) : K := cfg.coeff.get (h.link 0) (h.link 1)

/-- Specification: the contact is filed under the pair of its links. -/
def Filed (m : HitMap Name K) : Prop := ∀ p ∈ m, ∀ h ∈ p.2, p.1 = orderedPair (h.link 0) (h.link 1)

/-- Specification: every contact involves a link of the joint group (only those are active in the contact manager). -/
def Touching (t : Term Name K n) (m : HitMap Name K) : Prop :=
  ∀ p ∈ m, ∀ h ∈ p.2, ∃ i, t.group.active (h.link i) = true

/-- Specification: the contacts a term has to consider. -/
def Counted (t : Term Name K n) (key : Name × Name) (h : Hit Name K) : Prop :=
  key ∉ t.cfg.coeff.zero ∧ Relevant t.kind h

/-! ### Expressions -/

theorem contract_eq (g : Group Name K n) (q : Fin n → K) (h : Hit Name K) (late : Bool) (i : Fin 2) (j : Fin n)
    (R : Fin 3 → Fin 3 → K) (hR : R = if h.c.cc i = .none ∨ late = false then h.rot i else h.ccRot i) :
    contract h.normal (rotate R (h.point i)) (g.linear q (h.link i)) (g.angular q (h.link i)) j =
      ∑ a, h.normal a * velocity g q h late i j a := by
  simp only [Fin.sum_univ_three, velocity, Pi.add_apply, contract, cross_apply, arm, ← hR, cross, rotate]
  simp

/-- The gradient computed for a link, in the terms of the specification. -/
def expected (g : Group Name K n) (q : Fin n → K) (h : Hit Name K) (late : Bool) (i : Fin 2) : LinkGradient K n :=
  if g.active (h.link i) then ⟨true, rate g q h late i, share h late i⟩ else ⟨false, fun _ => 0, 1⟩

theorem linkGradient_eq (debug : Bool) (g : Group Name K n) (q : Fin n → K) (h : Hit Name K) (late : Bool) (i : Fin 2)
    (ht : debug = true → Timed h) : linkGradient debug g q h late i = some (expected g q h late i) := by
  unfold linkGradient expected
  by_cases ha : g.active (h.link i) = true
  · simp only [ha, if_true]
    by_cases hc : h.c.cc i = .none
    · rw [if_pos hc]
      congr 2
      · funext j
        rw [rate, contract_eq g q h late i j (h.rot i) (by simp [hc])]
      · simp [share, hc]
    · rw [if_neg hc]
      have hd : ¬ ((debug && !decide (0 ≤ h.time i ∧ h.time i ≤ 1)) = true) := by
        intro hd
        simp only [Bool.and_eq_true, Bool.not_eq_true', decide_eq_false_iff_not] at hd
        exact hd.2 (ht hd.1 i hc)
      rw [if_neg hd]
      cases late with
      | false =>
        simp only [Bool.false_eq_true, if_false]
        congr 2
        · funext j
          rw [rate, contract_eq g q h false i j (h.rot i) (by simp)]
        · simp [share, hc]
      | true =>
        simp only [if_true]
        congr 2
        · funext j
          rw [rate, contract_eq g q h true i j (h.ccRot i) (by simp [hc])]
        · simp [share, hc]
  · simp only [ha, Bool.false_eq_true, if_false]

/-- The expression pushed for a contact. -/
def hitExpr (g : Group Name K n) (vars : Fin n → Nat) (x : Nat → K) (late : Bool) (h : Hit Name K) : AffExpr K Nat :=
  addLink (getVec x vars) vars (addLink (getVec x vars) vars AffExpr.zero (expected g (getVec x vars) h late 0))
    (expected g (getVec x vars) h late 1)

theorem den_inc (a b : AffExpr K Nat) (z : Nat → K) : affDen (a.inc b) z = affDen a z + affDen b z := by
  simp only [affDen, AffExpr.inc, linDen, List.map_append, List.sum_append]; ring

theorem den_incConst (a : AffExpr K Nat) (c : K) (z : Nat → K) : affDen (a.incConst c) z = affDen a z + c := by
  simp only [affDen, AffExpr.incConst]; ring

theorem den_ofConst (c : K) (z : Nat → K) : affDen (AffExpr.ofConst c : AffExpr K Nat) z = c := by
  simp [affDen, AffExpr.ofConst, linDen]

theorem den_dec (a b : AffExpr K Nat) (z : Nat → K) : affDen (a.dec b) z = affDen a z - affDen b z := by
  rw [AffExpr.dec, den_inc, affDen_scale]; ring

theorem addLink_den (q : Fin n → K) (vars : Fin n → Nat) (e : AffExpr K Nat) (l : LinkGradient K n) (y : Nat → K) :
    affDen (addLink q vars e l) y =
      affDen e y + if l.has then l.scale * ∑ j, l.gradient j * (y (vars j) - q j) else 0 := by
  unfold addLink
  by_cases h : l.has = true
  · simp only [h, if_true]
    rw [den_incConst, den_inc]
    have : affDen (varDot (fun j => l.scale * l.gradient j) vars) y = ∑ j, l.scale * l.gradient j * y (vars j) := by
      simp only [affDen, varDot, linDen_finRange, zero_add]
    rw [this, dot_eq, mul_sum]
    simp only [mul_sub, sum_sub_distrib, mul_sum, mul_neg, ← mul_assoc]
    ring
  · simp only [h, Bool.false_eq_true, if_false, add_zero]

theorem hitExpr_den (g : Group Name K n) (vars : Fin n → Nat) (x : Nat → K) (late : Bool) (h : Hit Name K) (y : Nat → K) :
    affDen (hitExpr g vars x late h) y = ∑ i : Fin 2, if g.active (h.link i) then
      share h late i * ∑ j, rate g (getVec x vars) h late i j * (y (vars j) - x (vars j)) else 0 := by
  unfold hitExpr
  rw [addLink_den, addLink_den, Fin.sum_univ_two]
  have h0 : affDen (AffExpr.zero : AffExpr K Nat) y = 0 := by simp [affDen, AffExpr.zero, linDen]
  rw [h0, zero_add]
  congr 1 <;> · unfold expected; split_ifs <;> simp_all [getVec]

theorem addLink_terms (q : Fin n → K) (vars : Fin n → Nat) (e : AffExpr K Nat) (l : LinkGradient K n) :
    (addLink q vars e l).terms = e.terms ++
      if l.has then (List.finRange n).map fun j => (l.scale * l.gradient j, vars j) else [] := by
  unfold addLink
  cases l.has <;> simp [AffExpr.incConst, AffExpr.inc, varDot]

theorem hitExpr_terms (g : Group Name K n) (vars : Fin n → Nat) (x : Nat → K) (late : Bool) (h : Hit Name K)
    {t : K × Nat} (ht : t ∈ (hitExpr g vars x late h).terms) :
    ∃ i j, g.active (h.link i) = true ∧ t = (share h late i * rate g (getVec x vars) h late i j, vars j) := by
  unfold hitExpr at ht
  rw [addLink_terms, addLink_terms] at ht
  simp only [List.mem_append] at ht
  have key : ∀ i, t ∈ (if (expected g (getVec x vars) h late i).has then (List.finRange n).map fun j =>
      ((expected g (getVec x vars) h late i).scale * (expected g (getVec x vars) h late i).gradient j, vars j) else []) →
      ∃ i j, g.active (h.link i) = true ∧ t = (share h late i * rate g (getVec x vars) h late i j, vars j) := by
    intro i hi
    unfold expected at hi
    by_cases ha : g.active (h.link i) = true
    · simp only [ha, if_true, List.mem_map, List.mem_finRange, true_and] at hi
      obtain ⟨j, rfl⟩ := hi
      exact ⟨i, j, ha, rfl⟩
    · simp [ha] at hi
  rcases ht with (ht | ht) | ht
  · simp [AffExpr.zero] at ht
  · exact key 0 ht
  · exact key 1 ht

/-- Sum of the absolute values of the variables of a time step. -/
def size (vars : Fin n → Nat) (y : Nat → K) : K := ∑ j, |y (vars j)|

def termSize (e : AffExpr K Nat) (y : Nat → K) : K := (e.terms.map fun t => |y t.2|).sum

theorem termSize_hit (g : Group Name K n) (vars : Fin n → Nat) (x : Nat → K) (late : Bool) (h : Hit Name K) (y : Nat → K) :
    termSize (hitExpr g vars x late h) y ≤ 2 * size vars y := by
  have key : ∀ l : LinkGradient K n, (((if l.has then (List.finRange n).map fun j => (l.scale * l.gradient j, vars j)
      else []) : List (K × Nat)).map fun t => |y t.2|).sum ≤ size vars y := by
    intro l
    have hn : 0 ≤ size vars y := sum_nonneg fun _ _ => abs_nonneg _
    cases l.has with
    | false => simpa using hn
    | true =>
      simp only [if_true, List.map_map, size, Fin.sum_univ_def]
      exact le_of_eq rfl
  unfold termSize hitExpr
  rw [addLink_terms, addLink_terms]
  simp only [List.map_append, List.sum_append]
  have h0 : (((AffExpr.zero : AffExpr K Nat).terms).map fun t => |y t.2|).sum = 0 := by simp [AffExpr.zero]
  rw [h0]
  linarith [key (expected g (getVec x vars) h late 0), key (expected g (getVec x vars) h late 1)]

theorem cleanup_error (e : AffExpr K Nat) (y : Nat → K) :
    |affDen e.cleanup y - affDen e y| ≤ 1 / 10000000 * termSize e y := by
  rw [← C01_aff_value, ← C01_aff_value]
  refine (C03_cleanup_error e y).trans (mul_le_mul_of_nonneg_left ?_ (by positivity))
  unfold termSize
  have : ∀ l : List (K × Nat), ((l.filter fun t => decide (|t.1| ≤ (1 : K) / 10000000)).map fun t => |y t.2|).sum ≤
      (l.map fun t => |y t.2|).sum := by
    intro l
    induction l with
    | nil => simp
    | cons a l ih =>
      rw [List.filter_cons]
      split
      · simp only [List.map_cons, List.sum_cons]; linarith
      · simp only [List.map_cons, List.sum_cons]; linarith [abs_nonneg (y a.2)]
  exact this _

theorem cleanup_exact (e : AffExpr K Nat) (y : Nat → K) (h : ∀ t ∈ e.terms, t.1 = 0 ∨ (1 : K) / 10000000 < |t.1|) :
    affDen e.cleanup y = affDen e y := by
  simp only [affDen, AffExpr.cleanup]
  congr 1
  generalize e.terms = l at h
  induction l with
  | nil => rfl
  | cons a l ih =>
    have ih := ih fun t ht => h t (List.mem_cons_of_mem _ ht)
    rw [List.filter_cons]
    split
    · simp only [linDen, List.map_cons, List.sum_cons] at ih ⊢; rw [ih]
    · rename_i hn
      rcases h a (by simp) with h0 | h0
      · simp only [linDen, List.map_cons, List.sum_cons] at ih ⊢; rw [ih, h0]; ring
      · exact absurd (decide_eq_true (show cleanupEps < |a.1| from h0)) hn

theorem cleanup_below {n0 : Nat} {e : AffExpr K Nat} (h : e.Below n0) : e.cleanup.Below n0 := fun t ht =>
  h t (List.mem_filter.1 ht).1

theorem hitExpr_below {n0 : Nat} (g : Group Name K n) {vars : Fin n → Nat} (x : Nat → K) (late : Bool) (h : Hit Name K)
    (hv : ∀ j, vars j < n0) : (hitExpr g vars x late h).Below n0 := by
  intro t ht
  obtain ⟨i, j, -, rfl⟩ := hitExpr_terms g vars x late h ht
  exact hv j

/-! ### Rows -/

/-- The expression of a contact's row. -/
def Term.expr (t : Term Name K n) (x : Nat → K) (h : Hit Name K) : AffExpr K Nat :=
  match t.kind with
  | .single => (hitExpr t.group t.vars0 x false h).incConst h.c.distance
  | .startFree => ((AffExpr.ofConst h.c.distance).inc (hitExpr t.group t.vars0 x false h)).cleanup
  | .endFree => ((AffExpr.ofConst h.c.distance).inc (hitExpr t.group t.vars1 x true h)).cleanup
  | .bothFree => (((AffExpr.ofConst h.c.distance).inc (hitExpr t.group t.vars0 x false h)).inc
      (hitExpr t.group t.vars1 x true h)).cleanup

theorem mapM_some {α β : Type*} (f : α → Option β) (k : α → β) (l : List α) (h : ∀ a ∈ l, f a = some (k a)) :
    l.mapM f = some (l.map k) := by
  induction l with
  | nil => rfl
  | cons a l ih =>
    rw [List.mapM_cons, h a (by simp), ih fun b hb => h b (List.mem_cons_of_mem _ hb)]
    rfl

theorem toRows_eq (debug : Bool) (g : Group Name K n) (cfg : Config Name K) (vars : Fin n → Nat) (x : Nat → K) (late : Bool)
    (hs : List (Hit Name K)) (ht : ∀ h ∈ hs, Timed h) (ha : ∀ h ∈ hs, ∃ i, g.active (h.link i) = true) :
    toRows debug g cfg vars x late hs = some (hs.map fun h => ⟨hitExpr g vars x late h, cfg.needed h, cfg.weight h⟩) := by
  unfold toRows
  rw [mapM_some _ (fun h => some ⟨hitExpr g vars x late h, cfg.needed h, cfg.weight h⟩)]
  · simp [List.filterMap_map]
  · intro h hh
    have hex : distanceExpr debug g vars x late h = some (some (hitExpr g vars x late h)) := by
      unfold distanceExpr
      simp only [linkGradient_eq debug g _ h late _ fun _ => ht h hh]
      have : ((expected g (getVec x vars) h late 0).has || (expected g (getVec x vars) h late 1).has) = true := by
        obtain ⟨i, hi⟩ := ha h hh
        have hx : (expected g (getVec x vars) h late i).has = true := by simp [expected, hi]
        match i with
        | 0 => simp [hx]
        | 1 => simp [hx]
      rw [this]
      rfl
    rw [hex, Config.weight, Config.needed, ← Config.coeffOf, ← Config.marginOf]

theorem zipWith_self {α β γ : Type*} (f : β → α → γ) (k : α → β) (l : List α) :
    List.zipWith f (l.map k) l = l.map fun a => f (k a) a := by
  induction l with
  | nil => rfl
  | cons a l ih => simp [ih]

theorem zip_map {α β γ : Type*} (f : α → β) (k : α → γ) (l : List α) :
    (l.map f).zip (l.map k) = l.map fun a => (f a, k a) := by
  induction l with
  | nil => rfl
  | cons a l ih => simp [ih]

theorem rows_eq (t : Term Name K n) (x : Nat → K) (hs : List (Hit Name K)) (ht : ∀ h ∈ hs, Timed h)
    (ha : ∀ h ∈ hs, ∃ i, t.group.active (h.link i) = true) :
    t.rows x hs = some (hs.map fun h => ⟨t.expr x h, t.cfg.needed h, t.cfg.weight h⟩) := by
  unfold Term.rows Term.expr
  cases t.kind with
  | single =>
    simp only [rowsSingle, toRows_eq t.debug t.group t.cfg t.vars0 x false hs ht ha]
    simp [zipWith_self]
  | startFree =>
    simp only [rowsOne, toRows_eq t.debug t.group t.cfg t.vars0 x false hs ht ha]
    simp [zipWith_self]
  | endFree =>
    simp only [rowsOne, toRows_eq t.debug t.group t.cfg t.vars1 x true hs ht ha]
    simp [zipWith_self]
  | bothFree =>
    simp only [rowsBoth, toRows_eq t.debug t.group t.cfg t.vars0 x false hs ht ha,
      toRows_eq t.debug t.group t.cfg t.vars1 x true hs ht ha, zip_map]
    simp [zipWith_self]

/-- Specification: no entry of the linearised distance falls under the clean-up threshold 1e-7. -/
def Noticeable (t : Term Name K n) (x : Nat → K) (h : Hit Name K) : Prop :=
  ∀ late ∈ t.kind.steps, ∀ i, t.group.active (h.link i) = true → ∀ j,
    share h late i * rate t.group (getVec x (t.varsOf late)) h late i j = 0 ∨
      (1 : K) / 10000000 < |share h late i * rate t.group (getVec x (t.varsOf late)) h late i j|

theorem change_eq (t : Term Name K n) (x y : Nat → K) (h : Hit Name K) (late : Bool) :
    t.change x y h late = affDen (hitExpr t.group (t.varsOf late) x late h) y := (hitExpr_den _ _ _ _ _ _).symm

theorem termSize_inc (a b : AffExpr K Nat) (y : Nat → K) : termSize (a.inc b) y = termSize a y + termSize b y := by
  simp [termSize, AffExpr.inc]

theorem termSize_ofConst (c : K) (y : Nat → K) : termSize (AffExpr.ofConst c : AffExpr K Nat) y = 0 := by
  simp [termSize, AffExpr.ofConst]

/-- Specification: how far the clean-up may move the linearised distance at `y`. -/
def Term.slop (t : Term Name K n) (y : Nat → K) : K :=
  if t.kind = .single then 0 else 1 / 10000000 * (t.kind.steps.map fun late => 2 * ∑ j, |y (t.varsOf late j)|).sum

theorem expr_error (t : Term Name K n) (x y : Nat → K) (h : Hit Name K) :
    |affDen (t.expr x h) y - t.distanceAt x y h| ≤ t.slop y := by
  have e0 := termSize_hit t.group t.vars0 x false h y
  have e1 := termSize_hit t.group t.vars1 x true h y
  unfold Term.expr Term.distanceAt Term.slop
  cases t.kind with
  | single =>
    simp only [Kind.steps, List.map_cons, List.map_nil, List.sum_cons, List.sum_nil, change_eq, if_true, den_incConst]
    simp only [Term.varsOf, Bool.false_eq_true, if_false]
    rw [add_zero, add_comm, sub_self, abs_zero]
  | startFree =>
    simp only [Kind.steps, List.map_cons, List.map_nil, List.sum_cons, List.sum_nil, change_eq, reduceCtorEq, if_false]
    simp only [Term.varsOf, Bool.false_eq_true, if_false, add_zero]
    have hc := cleanup_error ((AffExpr.ofConst h.c.distance).inc (hitExpr t.group t.vars0 x false h)) y
    rw [den_inc, den_ofConst, termSize_inc, termSize_ofConst, zero_add] at hc
    exact hc.trans (mul_le_mul_of_nonneg_left e0 (by positivity))
  | endFree =>
    simp only [Kind.steps, List.map_cons, List.map_nil, List.sum_cons, List.sum_nil, change_eq, reduceCtorEq, if_false]
    simp only [Term.varsOf, if_true, add_zero]
    have hc := cleanup_error ((AffExpr.ofConst h.c.distance).inc (hitExpr t.group t.vars1 x true h)) y
    rw [den_inc, den_ofConst, termSize_inc, termSize_ofConst, zero_add] at hc
    exact hc.trans (mul_le_mul_of_nonneg_left e1 (by positivity))
  | bothFree =>
    simp only [Kind.steps, List.map_cons, List.map_nil, List.sum_cons, List.sum_nil, change_eq, reduceCtorEq, if_false]
    simp only [Term.varsOf, if_true, Bool.false_eq_true, if_false, add_zero]
    have hc := cleanup_error (((AffExpr.ofConst h.c.distance).inc (hitExpr t.group t.vars0 x false h)).inc
      (hitExpr t.group t.vars1 x true h)) y
    rw [den_inc, den_inc, den_ofConst, termSize_inc, termSize_inc, termSize_ofConst, zero_add] at hc
    rw [← add_assoc]
    exact hc.trans (mul_le_mul_of_nonneg_left (add_le_add e0 e1) (by positivity))

theorem expr_exact (t : Term Name K n) (x y : Nat → K) (h : Hit Name K) (hn : t.kind = .single ∨ Noticeable t x h) :
    affDen (t.expr x h) y = t.distanceAt x y h := by
  by_cases hk : t.kind = .single
  · have := expr_error t x y h
    rw [Term.slop, if_pos hk] at this
    exact sub_eq_zero.1 (abs_nonpos_iff.1 this)
  · have hn : Noticeable t x h := hn.resolve_left hk
    unfold Noticeable at hn
    unfold Term.expr Term.distanceAt
    have terms : ∀ late ∈ t.kind.steps, ∀ u ∈ (hitExpr t.group (t.varsOf late) x late h).terms,
        u.1 = 0 ∨ (1 : K) / 10000000 < |u.1| := by
      intro late hl u hu
      obtain ⟨i, j, ha, rfl⟩ := hitExpr_terms _ _ _ _ _ hu
      exact hn late hl i ha j
    cases hkk : t.kind with
    | single => exact absurd hkk hk
    | startFree =>
      rw [hkk] at terms
      simp only [Kind.steps, List.map_cons, List.map_nil, List.sum_cons, List.sum_nil, change_eq, add_zero]
      rw [cleanup_exact, den_inc, den_ofConst]; · rfl
      intro u hu
      simp only [AffExpr.inc, AffExpr.ofConst, List.nil_append] at hu
      exact terms false (by simp [Kind.steps]) u hu
    | endFree =>
      rw [hkk] at terms
      simp only [Kind.steps, List.map_cons, List.map_nil, List.sum_cons, List.sum_nil, change_eq, add_zero]
      rw [cleanup_exact, den_inc, den_ofConst]; · rfl
      intro u hu
      simp only [AffExpr.inc, AffExpr.ofConst, List.nil_append] at hu
      exact terms true (by simp [Kind.steps]) u hu
    | bothFree =>
      rw [hkk] at terms
      simp only [Kind.steps, List.map_cons, List.map_nil, List.sum_cons, List.sum_nil, change_eq, add_zero]
      rw [cleanup_exact, den_inc, den_inc, den_ofConst, add_assoc]; · rfl
      intro u hu
      simp only [AffExpr.inc, AffExpr.ofConst, List.nil_append, List.mem_append] at hu
      rcases hu with hu | hu
      · exact terms false (by simp [Kind.steps]) u hu
      · exact terms true (by simp [Kind.steps]) u hu

theorem expr_below {n0 : Nat} (t : Term Name K n) (x : Nat → K) (h : Hit Name K)
    (hv : ∀ late ∈ t.kind.steps, ∀ j, t.varsOf late j < n0) : (t.expr x h).Below n0 := by
  have inc : ∀ a b : AffExpr K Nat, a.Below n0 → b.Below n0 → (a.inc b).Below n0 := by
    intro a b ha hb u hu
    simp only [AffExpr.inc, List.mem_append] at hu
    exact hu.elim (ha u) (hb u)
  have hc : (AffExpr.ofConst h.c.distance : AffExpr K Nat).Below n0 := by intro u hu; simp [AffExpr.ofConst] at hu
  unfold Term.expr
  cases hk : t.kind with
  | single =>
    rw [hk] at hv
    exact hitExpr_below t.group x false h (hv false (by simp [Kind.steps]))
  | startFree =>
    rw [hk] at hv
    exact cleanup_below (inc _ _ hc (hitExpr_below t.group x false h (hv false (by simp [Kind.steps]))))
  | endFree =>
    rw [hk] at hv
    exact cleanup_below (inc _ _ hc (hitExpr_below t.group x true h (hv true (by simp [Kind.steps]))))
  | bothFree =>
    rw [hk] at hv
    exact cleanup_below (inc _ _ (inc _ _ hc (hitExpr_below t.group x false h (hv false (by simp [Kind.steps]))))
      (hitExpr_below t.group x true h (hv true (by simp [Kind.steps]))))

/-! ### The filter -/

/-- Specification: a contact does not mix a link at the fixed state with a link away from it. -/
def Clear (k : Kind) (h : Hit Name K) : Prop :=
  match k with
  | .endFree => (∃ i, h.c.cc i = .time0) ↔ ¬ Relevant .endFree h
  | .startFree => (∃ i, h.c.cc i = .time1) ↔ ¬ Relevant .startFree h
  | _ => True

theorem kept_iff (k : Kind) (hk : k ≠ .single) (margin buffer : K) (h : Hit Name K) :
    (!isInvalid margin buffer k.fixed0 k.fixed1 h.c) = true ↔ h.c.distance ≤ margin + buffer ∧ Relevant k h := by
  unfold isInvalid Relevant
  by_cases hd : margin + buffer < h.c.distance
  · simp [hd]
  · have hd' : h.c.distance ≤ margin + buffer := not_lt.1 hd
    cases k with
    | single => exact absurd rfl hk
    | bothFree => simp [hd, hd', Kind.fixed0, Kind.fixed1]
    | startFree =>
      simp only [hd, hd', Kind.fixed0, Kind.fixed1, Fin.exists_fin_two]
      cases h0 : h.c.cc 0 <;> cases h1 : h.c.cc 1 <;> simp
    | endFree =>
      simp only [hd, hd', Kind.fixed0, Kind.fixed1, Fin.exists_fin_two]
      cases h0 : h.c.cc 0 <;> cases h1 : h.c.cc 1 <;> simp

theorem member_iff (cfg : Config Name K) (k : Kind) (margin : K) (h : Hit Name K) (hc : Clear k h) :
    (!memberInvalid cfg k margin h) = true ↔ h.c.distance ≤ margin + cfg.buffer ∧ Relevant k h := by
  unfold memberInvalid
  cases k with
  | single => simp [Relevant]
  | bothFree => simp [Relevant]
  | startFree =>
    unfold Clear at hc
    simp only [Fin.exists_fin_two] at hc
    simp only [Bool.not_or, Bool.and_eq_true, Bool.not_eq_true', decide_eq_false_iff_not, not_lt]
    constructor
    · rintro ⟨⟨a, b⟩, c⟩
      exact ⟨c, by_contra fun hr => (hc.2 hr).elim a b⟩
    · rintro ⟨a, b⟩
      have := fun hh => (hc.1 hh) b
      exact ⟨⟨fun e => this (Or.inl e), fun e => this (Or.inr e)⟩, a⟩
  | endFree =>
    unfold Clear at hc
    simp only [Fin.exists_fin_two] at hc
    simp only [Bool.not_or, Bool.and_eq_true, Bool.not_eq_true', decide_eq_false_iff_not, not_lt]
    constructor
    · rintro ⟨⟨a, b⟩, c⟩
      exact ⟨c, by_contra fun hr => (hc.2 hr).elim a b⟩
    · rintro ⟨a, b⟩
      have := fun hh => (hc.1 hh) b
      exact ⟨⟨fun e => this (Or.inl e), fun e => this (Or.inr e)⟩, a⟩

open Classical in
/-- The contacts that survive the filter. -/
noncomputable def Term.keep (t : Term Name K n) (key : Name × Name) (h : Hit Name K) : Bool :=
  decide (Counted t key h ∧ h.c.distance ≤ t.cfg.margin key + t.cfg.buffer)

theorem keep_iff (t : Term Name K n) (key : Name × Name) (h : Hit Name K) :
    t.keep key h = true ↔ Counted t key h ∧ h.c.distance ≤ t.cfg.margin key + t.cfg.buffer := by
  unfold Term.keep
  exact @decide_eq_true_iff _ (_)

theorem filterPair_eq (t : Term Name K n) (key : Name × Name) (hs : List (Hit Name K))
    (hd : t.debug = true → ∀ h ∈ hs, Clear t.kind h) : t.filterPair key hs = some (hs.filter (t.keep key)) := by
  unfold Term.filterPair
  by_cases hz : key ∈ t.cfg.coeff.zero
  · rw [if_pos hz]
    congr 1
    exact (List.filter_eq_nil_iff.2 fun h _ => by simp [Term.keep, Counted, hz]).symm
  · rw [if_neg hz]
    have hkeep : ∀ h, t.keep key h = true ↔ h.c.distance ≤ t.cfg.margin key + t.cfg.buffer ∧ Relevant t.kind h := by
      intro h
      rw [keep_iff, Counted]
      tauto
    have other : ∀ k, k = t.kind → k ≠ .single →
        (if t.debug && decide ((hs.filter fun h => !memberInvalid t.cfg k (t.cfg.margin key) h).length ≠
            (hs.filter fun h => !isInvalid (t.cfg.margin key) t.cfg.buffer k.fixed0 k.fixed1 h.c).length) then none
          else some (hs.filter fun h => !isInvalid (t.cfg.margin key) t.cfg.buffer k.fixed0 k.fixed1 h.c)) =
        some (hs.filter (t.keep key)) := by
      intro k hk hs1
      have e1 : (hs.filter fun h => !isInvalid (t.cfg.margin key) t.cfg.buffer k.fixed0 k.fixed1 h.c) =
          hs.filter (t.keep key) := by
        apply List.filter_congr
        intro h _
        rw [Bool.eq_iff_iff, kept_iff k hs1, hkeep, hk]
      rw [e1]
      split
      · rename_i hx
        exfalso
        simp only [Bool.and_eq_true, decide_eq_true_eq] at hx
        apply hx.2
        congr 1
        apply List.filter_congr
        intro h hh
        rw [Bool.eq_iff_iff, member_iff t.cfg k _ h (hk ▸ hd hx.1 h hh), hkeep, hk]
      · rfl
    cases hk : t.kind with
    | single =>
      simp only
      congr 1
      apply List.filter_congr
      intro h _
      rw [Bool.eq_iff_iff, hkeep, hk]
      simp [Relevant]
    | bothFree => exact other _ hk.symm (by simp)
    | startFree => exact other _ hk.symm (by simp)
    | endFree => exact other _ hk.symm (by simp)

/-- Specification: in debug builds no contact may mix a link at the fixed state with one away from it. -/
def Unmixed (t : Term Name K n) (m : HitMap Name K) : Prop := t.debug = true → ∀ p ∈ m, ∀ h ∈ p.2, Clear t.kind h

theorem hits_eq (t : Term Name K n) (m : HitMap Name K) (hd : Unmixed t m) :
    t.hits m = some (m.flatMap fun p => p.2.filter (t.keep p.1)) := by
  unfold Term.hits
  rw [mapM_some _ (fun p => p.2.filter (t.keep p.1)) m fun p hp => filterPair_eq t p.1 p.2 fun hb h hh => hd hb p hp h hh]
  simp [List.flatMap]

/-! ### C101 -/

theorem pospart_max (v : K) : (if 0 < v then v else 0) = max v 0 := by
  split_ifs with h
  · rw [max_eq_left h.le]
  · rw [max_eq_right (not_lt.1 h)]

open Classical in
/-- Specification: sum over the contacts a term has to consider. -/
noncomputable def Term.total (t : Term Name K n) (m : HitMap Name K) (f : Hit Name K → K) : K :=
  (m.map fun p => (p.2.map fun h => if Counted t p.1 h then f h else 0).sum).sum

/-- Specification: penalty of a contact. -/
def penalty (t : Term Name K n) (h : Hit Name K) (d : K) : K := t.cfg.weight h * max 0 (t.cfg.needed h - d)

theorem foldl_sum {α : Type*} (f : α → K) (l : List α) (a : K) : l.foldl (fun s h => s + f h) a = a + (l.map f).sum := by
  induction l generalizing a with
  | nil => simp
  | cons b l ih => rw [List.foldl_cons, ih]; simp [add_assoc]

/-- Contacts beyond margin plus buffer contribute nothing. -/
theorem total_eq (t : Term Name K n) (m : HitMap Name K) (f : Hit Name K → K)
    (hz : ∀ p ∈ m, ∀ h ∈ p.2, t.cfg.margin p.1 + t.cfg.buffer < h.c.distance → f h = 0) :
    ((m.flatMap fun p => p.2.filter (t.keep p.1)).map f).sum = t.total m f := by
  classical
  unfold Term.total
  rw [List.map_flatMap]
  induction m with
  | nil => rfl
  | cons p m ih =>
    rw [List.flatMap_cons, List.sum_append, ih fun q hq => hz q (List.mem_cons_of_mem _ hq), List.map_cons, List.sum_cons]
    congr 1
    have hp := hz p (by simp)
    generalize p.2 = l at hp
    induction l with
    | nil => rfl
    | cons h l ih =>
      have ih := ih fun k hk => hp k (List.mem_cons_of_mem _ hk)
      rw [List.filter_cons]
      by_cases hc : Counted t p.1 h
      · by_cases hd : h.c.distance ≤ t.cfg.margin p.1 + t.cfg.buffer
        · have : t.keep p.1 h = true := by rw [keep_iff]; exact ⟨hc, hd⟩
          rw [if_pos this]
          simp only [List.map_cons, List.sum_cons, if_pos hc, ih]
        · have : ¬ t.keep p.1 h = true := by rw [keep_iff]; exact fun hh => hd hh.2
          rw [if_neg this, ih]
          simp only [List.map_cons, List.sum_cons, if_pos hc, hp h (by simp) (not_le.1 hd), zero_add]
      · have : ¬ t.keep p.1 h = true := by rw [keep_iff]; exact fun hh => hc hh.1
        rw [if_neg this, ih]
        simp only [List.map_cons, List.sum_cons, if_neg hc, zero_add]

theorem beyond (t : Term Name K n) (m : HitMap Name K) (hf : Filed m) (hb : 0 ≤ t.cfg.buffer) :
    ∀ p ∈ m, ∀ h ∈ p.2, t.cfg.margin p.1 + t.cfg.buffer < h.c.distance → max 0 (t.cfg.needed h - h.c.distance) = 0 := by
  intro p hp h hh hd
  rw [Config.needed, ← hf p hp h hh]
  exact max_eq_left (by linarith)

/-- C101: the collision cost is the sum, over all contacts of pairs with a nonzero coefficient that the free states can influence,
of the coefficient times the depth below the margin. -/
theorem C101_value_partial (t : Term Name K n) (m : HitMap Name K) (hf : Filed m) (hb : 0 ≤ t.cfg.buffer) (hu : Unmixed t m) :
    t.costValue m = some (t.total m fun h => t.cfg.weight h * max 0 (t.cfg.needed h - h.c.distance)) := by
  unfold Term.costValue
  rw [hits_eq t m hu]
  simp only [pospart_max]
  rw [foldl_sum, zero_add, ← total_eq]
  · congr 2
    apply List.map_congr_left
    intro h _
    rw [max_comm, mul_comm, Config.weight, Config.needed, Config.coeffOf, Config.marginOf]
  · intro p hp h hh hd
    rw [beyond t m hf hb p hp h hh hd, mul_zero]

/-- C101: the constraint's violation is the same sum. -/
theorem C101_violation_partial (t : Term Name K n) (m : HitMap Name K) (hf : Filed m) (hb : 0 ≤ t.cfg.buffer) (hu : Unmixed t m) :
    t.cntViolation m = some (t.total m fun h => max 0 (t.cfg.weight h * max 0 (t.cfg.needed h - h.c.distance))) := by
  unfold Term.cntViolation Term.cntValue
  rw [hits_eq t m hu]
  simp only [pospart_max, List.map_map]
  rw [show (fun (x1 x2 : K) => x1 + x2) = fun s h => s + id h from rfl, foldl_sum, zero_add, List.map_id, ← total_eq]
  · congr 2
    apply List.map_congr_left
    intro h _
    simp only [Function.comp]
    rw [max_comm, mul_comm, max_comm _ (0 : K), Config.weight, Config.needed, Config.coeffOf, Config.marginOf]
  · intro p hp h hh hd
    rw [beyond t m hf hb p hp h hh hd, mul_zero, max_self]

/-- C101 fails in debug builds when the start state is fixed and a contact has one link at the start state and the other further
along: the two filters disagree and the assertion stops the program. -/
theorem C101_violated_end_free (t : Term Name K n) (hk : t.kind = .endFree) (hdb : t.debug = true) (h : Hit Name K)
    (h0 : h.c.cc 0 = .time0) (h1 : h.c.cc 1 = .between ∨ h.c.cc 1 = .time1)
    (key : Name × Name) (hz : key ∉ t.cfg.coeff.zero) (hd : h.c.distance ≤ t.cfg.margin key + t.cfg.buffer) :
    t.costValue [(key, [h])] = none ∧ t.cntViolation [(key, [h])] = none := by
  have hx : t.hits [(key, [h])] = none := by
    have hm : memberInvalid t.cfg .endFree (t.cfg.margin key) h = true := by simp [memberInvalid, h0]
    have hi : isInvalid (t.cfg.margin key) t.cfg.buffer Kind.endFree.fixed0 Kind.endFree.fixed1 h.c = false := by
      have := (kept_iff .endFree (by simp) (t.cfg.margin key) t.cfg.buffer h).2 ⟨hd, 1, h1.symm⟩
      simpa using this
    have : t.filterPair key [h] = none := by
      unfold Term.filterPair
      rw [if_neg hz, hk, hdb]
      simp [hm, hi]
    simp [Term.hits, this]
  simp [Term.costValue, Term.cntViolation, Term.cntValue, hx]

/-- C101 fails in debug builds for a fixed end state in the same way. -/
theorem C101_violated_start_free (t : Term Name K n) (hk : t.kind = .startFree) (hdb : t.debug = true) (h : Hit Name K)
    (h0 : h.c.cc 0 = .time1) (h1 : h.c.cc 1 = .between ∨ h.c.cc 1 = .time0)
    (key : Name × Name) (hz : key ∉ t.cfg.coeff.zero) (hd : h.c.distance ≤ t.cfg.margin key + t.cfg.buffer) :
    t.costValue [(key, [h])] = none ∧ t.cntViolation [(key, [h])] = none := by
  have hx : t.hits [(key, [h])] = none := by
    have hm : memberInvalid t.cfg .startFree (t.cfg.margin key) h = true := by simp [memberInvalid, h0]
    have hi : isInvalid (t.cfg.margin key) t.cfg.buffer Kind.startFree.fixed0 Kind.startFree.fixed1 h.c = false := by
      have := (kept_iff .startFree (by simp) (t.cfg.margin key) t.cfg.buffer h).2 ⟨hd, 1, h1.symm⟩
      simpa using this
    have : t.filterPair key [h] = none := by
      unfold Term.filterPair
      rw [if_neg hz, hk, hdb]
      simp [hm, hi]
    simp [Term.hits, this]
  simp [Term.costValue, Term.cntViolation, Term.cntValue, hx]

/-- C101 fails for a negative buffer: contacts inside the margin but outside margin plus buffer count nothing. -/
theorem C101_violated_negative_buffer (t : Term Name K n) (hr : t.debug = false) (h : Hit Name K) (key : Name × Name)
    (hd : t.cfg.margin key + t.cfg.buffer < h.c.distance) : t.costValue [(key, [h])] = some 0 := by
  unfold Term.costValue
  rw [hits_eq t _ (fun hb => absurd hb (by simp [hr]))]
  have : t.keep key h = false := by
    rw [← Bool.not_eq_true, keep_iff]
    exact fun hh => absurd hd (not_lt.2 hh.2)
  simp [List.flatMap_cons, this]

/-! ### C102 -/

/-- The kept contacts. -/
noncomputable def Term.kept (t : Term Name K n) (m : HitMap Name K) : List (Hit Name K) :=
  m.flatMap fun p => p.2.filter (t.keep p.1)

/-- C102: convexifying the cost and adding its constraints to the model always succeeds and represents, at every value of the
existing variables, the sum of the penalties of the linearised distances, each off by no more than the clean-up threshold allows. -/
theorem C102_cost_partial (mdl : OModel K) (hv : mdl.vars.Inv) (hc : mdl.cnts.Inv) (t : Term Name K n) (m : HitMap Name K)
    (x : Nat → K) (hu : Unmixed t m) (ht : ∀ p ∈ m, ∀ h ∈ p.2, Timed h) (ha : Touching t m)
    (hvars : ∀ late ∈ t.kind.steps, ∀ j, t.varsOf late j < mdl.vars.reps.length)
    (hpos : ∀ p ∈ m, ∀ h ∈ p.2, 0 ≤ t.cfg.weight h) :
    ∃ L : Hit Name K → (Nat → K) → K,
      (∀ h y, |L h y - t.distanceAt x y h| ≤ t.slop y) ∧
      (∀ h, t.kind = .single ∨ Noticeable t x h → ∀ y, L h y = t.distanceAt x y h) ∧
      ∃ s s', t.costConvex x m mdl = some s ∧ ConvexObjective.addConstraintsToModel s = some s' ∧
        ∀ y, PartialMin s'.1 mdl.vars.reps.length mdl.cnts.reps.length s'.2.quad y
          ((t.kept m).map fun h => t.cfg.weight h * max 0 (t.cfg.needed h - L h y)).sum := by
  refine ⟨fun h y => affDen (t.expr x h) y, fun h y => expr_error t x y h, fun h hn y => expr_exact t x y h hn, ?_⟩
  have mem : ∀ h ∈ t.kept m, ∃ p ∈ m, h ∈ p.2 := by
    intro h hh
    obtain ⟨p, hp, hh⟩ := List.mem_flatMap.1 hh
    exact ⟨p, hp, (List.mem_filter.1 hh).1⟩
  have hr := rows_eq t x (t.kept m) (fun h hh => by obtain ⟨p, hp, hq⟩ := mem h hh; exact ht p hp h hq)
    (fun h hh => by obtain ⟨p, hp, hq⟩ := mem h hh; exact ha p hp h hq)
  have hg := good_foldlM (n0 := mdl.vars.reps.length) (m0 := mdl)
    (fun s (r : Row K) => ConvexObjective.addHinge s ((AffExpr.ofConst r.margin).dec r.expr) r.coeff)
    (fun r y => r.coeff * max 0 (affDen ((AffExpr.ofConst r.margin).dec r.expr) y))
    ((t.kept m).map fun h => ⟨t.expr x h, t.cfg.needed h, t.cfg.weight h⟩) (by
      intro r hr
      obtain ⟨h, hh, rfl⟩ := List.mem_map.1 hr
      obtain ⟨p, hp, hq⟩ := mem h hh
      refine good_hinge ?_ (hpos p hp h hq)
      intro u hu
      have hb := expr_below t x h hvars
      simp only [AffExpr.dec, AffExpr.ofConst, List.nil_append, AffExpr.scale] at hu
      obtain ⟨w, hw, rfl⟩ := List.mem_map.1 hu
      exact hb w hw)
  obtain ⟨s, s', h1, h2, h3⟩ := program hv hc hg
  refine ⟨s, s', ?_, h2, fun y => ?_⟩
  · unfold Term.costConvex
    rw [hits_eq t m hu]
    simp only
    rw [show (m.flatMap fun p => p.2.filter (t.keep p.1)) = t.kept m from rfl, hr]
    exact h1
  · have := h3 y
    simpa only [List.map_map, Function.comp_def, den_dec, den_ofConst] using this

/-- C102: where no entry is lost to the clean-up, the model is exact. -/
theorem C102_exact_partial (mdl : OModel K) (hv : mdl.vars.Inv) (hc : mdl.cnts.Inv) (t : Term Name K n) (m : HitMap Name K)
    (x : Nat → K) (hu : Unmixed t m) (ht : ∀ p ∈ m, ∀ h ∈ p.2, Timed h) (ha : Touching t m)
    (hvars : ∀ late ∈ t.kind.steps, ∀ j, t.varsOf late j < mdl.vars.reps.length)
    (hpos : ∀ p ∈ m, ∀ h ∈ p.2, 0 ≤ t.cfg.weight h)
    (hn : t.kind = .single ∨ ∀ p ∈ m, ∀ h ∈ p.2, Noticeable t x h) :
    ∃ s s', t.costConvex x m mdl = some s ∧ ConvexObjective.addConstraintsToModel s = some s' ∧
      ∀ y, PartialMin s'.1 mdl.vars.reps.length mdl.cnts.reps.length s'.2.quad y
        ((t.kept m).map fun h => t.cfg.weight h * max 0 (t.cfg.needed h - t.distanceAt x y h)).sum := by
  obtain ⟨L, -, hL, s, s', h1, h2, h3⟩ := C102_cost_partial mdl hv hc t m x hu ht ha hvars hpos
  refine ⟨s, s', h1, h2, fun y => ?_⟩
  have := h3 y
  rwa [List.map_congr_left (fun h hh => ?_)] at this
  obtain ⟨p, hp, hh⟩ := List.mem_flatMap.1 hh
  rw [hL h (hn.imp id fun hn => hn p hp h (List.mem_filter.1 hh).1)]

theorem distanceAt_self (t : Term Name K n) (x : Nat → K) (h : Hit Name K) : t.distanceAt x x h = h.c.distance := by
  simp [Term.distanceAt, Term.change]

/-- C102: at the point of linearisation the model has the value of the cost. -/
theorem C102_touch_partial (mdl : OModel K) (hv : mdl.vars.Inv) (hc : mdl.cnts.Inv) (t : Term Name K n) (m : HitMap Name K)
    (x : Nat → K) (hf : Filed m) (hb : 0 ≤ t.cfg.buffer) (hu : Unmixed t m) (ht : ∀ p ∈ m, ∀ h ∈ p.2, Timed h) (ha : Touching t m)
    (hvars : ∀ late ∈ t.kind.steps, ∀ j, t.varsOf late j < mdl.vars.reps.length)
    (hpos : ∀ p ∈ m, ∀ h ∈ p.2, 0 ≤ t.cfg.weight h)
    (hn : t.kind = .single ∨ ∀ p ∈ m, ∀ h ∈ p.2, Noticeable t x h) :
    ∃ s s' v, t.costConvex x m mdl = some s ∧ ConvexObjective.addConstraintsToModel s = some s' ∧ t.costValue m = some v ∧
      PartialMin s'.1 mdl.vars.reps.length mdl.cnts.reps.length s'.2.quad x v := by
  obtain ⟨s, s', h1, h2, h3⟩ := C102_exact_partial mdl hv hc t m x hu ht ha hvars hpos hn
  refine ⟨s, s', _, h1, h2, C101_value_partial t m hf hb hu, ?_⟩
  have := h3 x
  simp only [distanceAt_self] at this
  rwa [Term.kept, total_eq] at this
  intro p hp h hh hd
  rw [beyond t m hf hb p hp h hh hd, mul_zero]

theorem foldl_addIneq (es : List (AffExpr K Nat)) (c : ConvexConstraints K) :
    (es.foldl ConvexConstraints.addIneq c).ineqs = c.ineqs ++ es ∧ (es.foldl ConvexConstraints.addIneq c).eqs = c.eqs := by
  induction es generalizing c with
  | nil => simp
  | cons e es ih => rw [List.foldl_cons]; refine ⟨?_, (ih _).2⟩; rw [(ih _).1]; simp [ConvexConstraints.addIneq]

/-- C102: the constraint's linear model: its violation is the sum over the kept contacts of coefficient times depth of the
linearised distance. -/
theorem C102_constraint_partial (t : Term Name K n) (m : HitMap Name K) (x : Nat → K) (hu : Unmixed t m)
    (ht : ∀ p ∈ m, ∀ h ∈ p.2, Timed h) (ha : Touching t m) :
    ∃ L : Hit Name K → (Nat → K) → K,
      (∀ h y, |L h y - t.distanceAt x y h| ≤ t.slop y) ∧
      (∀ h, t.kind = .single ∨ Noticeable t x h → ∀ y, L h y = t.distanceAt x y h) ∧
      ∃ c, t.cntConvex x m = some c ∧ c.eqs = [] ∧ c.ineqs.length = (t.kept m).length ∧
        ∀ y, c.violation y = ((t.kept m).map fun h => max 0 (t.cfg.weight h * (t.cfg.needed h - L h y))).sum := by
  refine ⟨fun h y => affDen (t.expr x h) y, fun h y => expr_error t x y h, fun h hn y => expr_exact t x y h hn, ?_⟩
  have mem : ∀ h ∈ t.kept m, ∃ p ∈ m, h ∈ p.2 := by
    intro h hh
    obtain ⟨p, hp, hh⟩ := List.mem_flatMap.1 hh
    exact ⟨p, hp, (List.mem_filter.1 hh).1⟩
  have hr := rows_eq t x (t.kept m) (fun h hh => by obtain ⟨p, hp, hq⟩ := mem h hh; exact ht p hp h hq)
    (fun h hh => by obtain ⟨p, hp, hq⟩ := mem h hh; exact ha p hp h hq)
  have hfold : ∀ (l : List (Row K)) (c : ConvexConstraints K),
      l.foldl (fun c r => c.addIneq (((AffExpr.ofConst r.margin).dec r.expr).scale r.coeff)) c =
        (l.map fun r => ((AffExpr.ofConst r.margin).dec r.expr).scale r.coeff).foldl ConvexConstraints.addIneq c := by
    intro l c; rw [List.foldl_map]
  have e1 : t.cntConvex x m = some (((t.kept m).map fun h =>
      ((AffExpr.ofConst (t.cfg.needed h)).dec (t.expr x h)).scale (t.cfg.weight h)).foldl ConvexConstraints.addIneq
        ConvexConstraints.new) := by
    unfold Term.cntConvex
    rw [hits_eq t m hu]
    simp only
    rw [show (m.flatMap fun p => p.2.filter (t.keep p.1)) = t.kept m from rfl, hr]
    simp only [hfold, List.map_map, Function.comp_def]
  obtain ⟨f1, f2⟩ := foldl_addIneq ((t.kept m).map fun h =>
      ((AffExpr.ofConst (t.cfg.needed h)).dec (t.expr x h)).scale (t.cfg.weight h)) (ConvexConstraints.new : ConvexConstraints K)
  refine ⟨_, e1, by rw [f2]; rfl, by rw [f1]; simp [ConvexConstraints.new], fun y => ?_⟩
  rw [violation_eq, violationSpec, f1, f2]
  simp only [ConvexConstraints.new, List.map_nil, List.sum_nil, zero_add, List.nil_append, List.map_map, Function.comp_def,
    affDen_scale, den_dec, den_ofConst]
  simp only [mul_comm]

/-! ### C103 -/

theorem sum_zero_iff {α : Type*} (f : α → K) (l : List α) (h : ∀ a ∈ l, 0 ≤ f a) :
    (l.map f).sum = 0 ↔ ∀ a ∈ l, f a = 0 := by
  induction l with
  | nil => simp
  | cons a l ih =>
    have hs : 0 ≤ (l.map f).sum := List.sum_nonneg (by
      intro b hb
      obtain ⟨c, hc, rfl⟩ := List.mem_map.1 hb
      exact h c (List.mem_cons_of_mem _ hc))
    rw [List.map_cons, List.sum_cons, add_eq_zero_iff_of_nonneg (h a (by simp)) hs, ih fun b hb => h b (List.mem_cons_of_mem _ hb)]
    simp

/-- C103: with positive coefficients and a nonnegative buffer, the collision constraint reports no violation exactly when every
contact that the free states can influence, of a pair with a nonzero coefficient, keeps its margin. -/
theorem C103_satisfied_partial (t : Term Name K n) (m : HitMap Name K) (hf : Filed m) (hb : 0 ≤ t.cfg.buffer) (hu : Unmixed t m)
    (hpos : ∀ p ∈ m, ∀ h ∈ p.2, Counted t p.1 h → 0 < t.cfg.weight h) :
    t.cntViolation m = some 0 ↔ ∀ p ∈ m, ∀ h ∈ p.2, Counted t p.1 h → t.cfg.needed h ≤ h.c.distance := by
  classical
  rw [C101_violation_partial t m hf hb hu, Option.some_inj]
  unfold Term.total
  have n1 : ∀ p ∈ m, ∀ h ∈ p.2, 0 ≤ (if Counted t p.1 h then
      max 0 (t.cfg.weight h * max 0 (t.cfg.needed h - h.c.distance)) else 0) := by
    intro p _ h _
    split
    · exact le_max_left _ _
    · exact le_refl _
  rw [sum_zero_iff]
  · apply forall_congr'; intro p
    apply forall_congr'; intro hp
    rw [sum_zero_iff _ _ (n1 p hp)]
    apply forall_congr'; intro h
    apply forall_congr'; intro hh
    by_cases hc : Counted t p.1 h
    · rw [if_pos hc]
      have hk := hpos p hp h hh hc
      rw [max_eq_right (mul_nonneg hk.le (le_max_left _ _)), mul_eq_zero]
      constructor
      · rintro (h0 | h0)
        · exact absurd h0 hk.ne'
        · intro _; linarith [max_eq_left_iff.1 h0]
      · intro hd
        exact Or.inr (max_eq_left (by linarith [hd hc]))
    · rw [if_neg hc]
      exact ⟨fun _ hh => absurd hh hc, fun _ => rfl⟩
  · intro p hp
    apply List.sum_nonneg
    intro b hb
    obtain ⟨h, hh, rfl⟩ := List.mem_map.1 hb
    exact n1 p hp h hh

/-- C103: the same for the cost: it is zero exactly when every such contact keeps its margin. -/
theorem C103_cost_zero_partial (t : Term Name K n) (m : HitMap Name K) (hf : Filed m) (hb : 0 ≤ t.cfg.buffer) (hu : Unmixed t m)
    (hpos : ∀ p ∈ m, ∀ h ∈ p.2, Counted t p.1 h → 0 < t.cfg.weight h) :
    t.costValue m = some 0 ↔ ∀ p ∈ m, ∀ h ∈ p.2, Counted t p.1 h → t.cfg.needed h ≤ h.c.distance := by
  rw [← C103_satisfied_partial t m hf hb hu hpos, C101_violation_partial t m hf hb hu, C101_value_partial t m hf hb hu]
  classical
  have : t.total m (fun h => max 0 (t.cfg.weight h * max 0 (t.cfg.needed h - h.c.distance))) =
      t.total m fun h => t.cfg.weight h * max 0 (t.cfg.needed h - h.c.distance) := by
    unfold Term.total
    congr 1
    apply List.map_congr_left
    intro p hp
    congr 1
    apply List.map_congr_left
    intro h hh
    by_cases hc : Counted t p.1 h
    · simp only [if_pos hc]
      exact max_eq_right (mul_nonneg (hpos p hp h hh hc).le (le_max_left _ _))
    · simp only [if_neg hc]
  rw [this]

/-! ### C104 -/

section
variable {Link : Type u} [LinearOrder Link]

/-- Specification: position and rotation of every link. -/
abbrev Kinematics (Link : Type u) (n : Nat) := Link → (Fin n → ℝ) → (Fin 3 → ℝ) × (Fin 3 → Fin 3 → ℝ)

/-- Specification: the group's Jacobian is that of the link poses: the origin moves with the linear part, every axis of the link
frame turns with the angular part. -/
def IsJacobian (g : Group Link ℝ n) (fk : Kinematics Link n) : Prop :=
  ∀ (l : Link) (q d : Fin n → ℝ), g.active l = true →
    (∀ a, HasDerivAt (fun s : ℝ => (fk l (fun j => q j + s * d j)).1 a) (∑ j, g.linear q l a j * d j) 0) ∧
    ∀ a b, HasDerivAt (fun s : ℝ => (fk l (fun j => q j + s * d j)).2 a b)
      (∑ j, crossProduct (fun c => g.angular q l c j) (fun c => (fk l q).2 c b) a * d j) 0

/-- Specification: world coordinates of a point given in the frame of a link. -/
def world (fk : Kinematics Link n) (l : Link) (q : Fin n → ℝ) (p : Fin 3 → ℝ) : Fin 3 → ℝ :=
  fun a => (fk l q).1 a + ∑ b, (fk l q).2 a b * p b

/-- Specification: the contact point of link `i`; on a swept link it is interpolated between the two states. Links outside the
group do not move. -/
def contactPoint (t : Term Link ℝ n) (fk : Kinematics Link n) (fixed : Link → Fin 3 → ℝ) (h : Hit Link ℝ) (i : Fin 2)
    (z : Nat → ℝ) : Fin 3 → ℝ := fun a =>
  if t.group.active (h.link i) then
    if h.c.cc i = .none then world fk (h.link i) (getVec z t.vars0) (h.point i) a
    else (1 - h.time i) * world fk (h.link i) (getVec z t.vars0) (h.point i) a +
      h.time i * world fk (h.link i) (getVec z t.vars1) (h.point i) a
  else fixed (h.link i) a

/-- Specification: the gap between the two contact points along the contact normal. -/
def gap (t : Term Link ℝ n) (fk : Kinematics Link n) (fixed : Link → Fin 3 → ℝ) (h : Hit Link ℝ) (z : Nat → ℝ) : ℝ :=
  ∑ a, h.normal a * (contactPoint t fk fixed h 1 z a - contactPoint t fk fixed h 0 z a)

/-- Specification: the contact was found at the variables `x`: its frames are those of the links there, and its links are swept
exactly in terms over two states. -/
def FoundAt (t : Term Link ℝ n) (fk : Kinematics Link n) (h : Hit Link ℝ) (x : Nat → ℝ) : Prop :=
  ∀ i, t.group.active (h.link i) = true →
    h.rot i = (fk (h.link i) (getVec x t.vars0)).2 ∧
    (t.kind ≠ .single → h.ccRot i = (fk (h.link i) (getVec x t.vars1)).2) ∧
    (h.c.cc i = .none ↔ t.kind = .single)

theorem world_deriv {g : Group Link ℝ n} {fk : Kinematics Link n} (hj : IsJacobian g fk) {l : Link} (ha : g.active l = true)
    (q d : Fin n → ℝ) (p : Fin 3 → ℝ) (a : Fin 3) :
    HasDerivAt (fun s : ℝ => world fk l (fun j => q j + s * d j) p a)
      (∑ j, (g.linear q l a j + crossProduct (fun c => g.angular q l c j) (fun c => ∑ b, (fk l q).2 c b * p b) a) * d j) 0 := by
  obtain ⟨h1, h2⟩ := hj l q d ha
  have h3 : HasDerivAt (fun s : ℝ => ∑ b, (fk l (fun j => q j + s * d j)).2 a b * p b)
      (∑ b, (∑ j, crossProduct (fun c => g.angular q l c j) (fun c => (fk l q).2 c b) a * d j) * p b) 0 :=
    HasDerivAt.fun_sum fun b _ => (h2 a b).mul_const (p b)
  have h4 := (h1 a).add h3
  refine h4.congr_deriv ?_
  simp only [add_mul, sum_add_distrib, sum_mul]
  congr 1
  rw [sum_comm]
  apply sum_congr rfl
  intro j _
  have hx : ∀ (u : Fin 3 → ℝ) (b : Fin 3), crossProduct u (fun c => (fk l q).2 c b) a * d j * p b =
      (crossProduct u (fun c => (fk l q).2 c b) a * p b) * d j := fun u b => by ring
  simp only [hx, ← sum_mul]
  congr 1
  simp only [cross_apply, Fin.sum_univ_three]
  match a with
  | 0 => simp; ring
  | 1 => simp; ring
  | 2 => simp; ring

/-- Velocity of the contact point of link `i` caused by the motion of one state from `x` towards `y`. -/
noncomputable def drift (t : Term Link ℝ n) (h : Hit Link ℝ) (x y : Nat → ℝ) (late : Bool) (i : Fin 2) (a : Fin 3) : ℝ :=
  ∑ j, velocity t.group (getVec x (t.varsOf late)) h late i j a * (y (t.varsOf late j) - x (t.varsOf late j))

theorem change_drift (t : Term Link ℝ n) (x y : Nat → ℝ) (h : Hit Link ℝ) (late : Bool) :
    t.change x y h late = ∑ i : Fin 2, if t.group.active (h.link i) then
      (if i = 0 then -1 else 1) * ∑ a, h.normal a * (share h late i * drift t h x y late i a) else 0 := by
  unfold Term.change
  apply sum_congr rfl
  intro i _
  split
  · have : ∀ j, rate t.group (getVec x (t.varsOf late)) h late i j * (y (t.varsOf late j) - x (t.varsOf late j)) =
        (if i = 0 then -1 else 1) * ∑ a, h.normal a * (velocity t.group (getVec x (t.varsOf late)) h late i j a *
          (y (t.varsOf late j) - x (t.varsOf late j))) := by
      intro j
      rw [rate, mul_assoc, sum_mul]
      congr 1
      exact sum_congr rfl fun a _ => by ring
    simp only [this, ← mul_sum]
    rw [sum_comm]
    simp only [← mul_sum, drift]
    rw [mul_left_comm]
    congr 1
    rw [mul_sum]
    exact sum_congr rfl fun a _ => by ring
  · rfl

theorem drift_zero (t : Term Link ℝ n) (h : Hit Link ℝ) (x y : Nat → ℝ) (late : Bool) (i : Fin 2) (a : Fin 3)
    (hs : ∀ j, y (t.varsOf late j) = x (t.varsOf late j)) : drift t h x y late i a = 0 := by
  simp [drift, hs]

theorem point_deriv (t : Term Link ℝ n) (fk : Kinematics Link n) (hj : IsJacobian t.group fk) (fixed : Link → Fin 3 → ℝ)
    (h : Hit Link ℝ) (x y : Nat → ℝ) (hf : FoundAt t fk h x) (i : Fin 2) (a : Fin 3) :
    HasDerivAt (fun s : ℝ => contactPoint t fk fixed h i (fun k => x k + s * (y k - x k)) a)
      (if t.group.active (h.link i) then
        (if h.c.cc i = .none then drift t h x y false i a
          else (1 - h.time i) * drift t h x y false i a + h.time i * drift t h x y true i a) else 0) 0 := by
  unfold contactPoint
  by_cases ha : t.group.active (h.link i) = true
  · simp only [ha, if_true]
    obtain ⟨r0, r1, rc⟩ := hf i ha
    have d0 : HasDerivAt (fun s : ℝ => world fk (h.link i) (getVec (fun k => x k + s * (y k - x k)) t.vars0) (h.point i) a)
        (drift t h x y false i a) 0 := by
      refine (world_deriv hj ha (getVec x t.vars0) (fun j => y (t.vars0 j) - x (t.vars0 j)) (h.point i) a).congr_deriv ?_
      have e : arm h false i = fun c => ∑ b, (fk (h.link i) (getVec x t.vars0)).2 c b * h.point i b := by
        funext c; simp [arm, r0]
      simp only [drift, velocity, e, Pi.add_apply, Term.varsOf, Bool.false_eq_true, if_false]
    by_cases hc : h.c.cc i = .none
    · simp only [hc, if_true]
      exact d0
    · simp only [hc, if_false]
      have d1 : HasDerivAt (fun s : ℝ => world fk (h.link i) (getVec (fun k => x k + s * (y k - x k)) t.vars1) (h.point i) a)
          (drift t h x y true i a) 0 := by
        refine (world_deriv hj ha (getVec x t.vars1) (fun j => y (t.vars1 j) - x (t.vars1 j)) (h.point i) a).congr_deriv ?_
        have := r1 fun e => hc (rc.2 e)
        have e : arm h true i = fun c => ∑ b, (fk (h.link i) (getVec x t.vars1)).2 c b * h.point i b := by
          funext c; simp [arm, hc, this]
        simp only [drift, velocity, e, Pi.add_apply, Term.varsOf, if_true]
      exact (d0.const_mul _).add (d1.const_mul _)
  · simp only [ha, Bool.false_eq_true, if_false]
    exact hasDerivAt_const _ _

/-- The slope of the linearised distance is the derivative of the gap. -/
theorem gap_deriv (t : Term Link ℝ n) (fk : Kinematics Link n) (hj : IsJacobian t.group fk) (fixed : Link → Fin 3 → ℝ)
    (h : Hit Link ℝ) (x y : Nat → ℝ) (hf : FoundAt t fk h x)
    (hm : t.kind ≠ .single → ∀ late ∉ t.kind.steps, ∀ j, y (t.varsOf late j) = x (t.varsOf late j)) :
    HasDerivAt (fun s : ℝ => gap t fk fixed h (fun k => x k + s * (y k - x k))) (t.distanceAt x y h - h.c.distance) 0 := by
  have hd := point_deriv t fk hj fixed h x y hf
  have hg : HasDerivAt (fun s : ℝ => gap t fk fixed h (fun k => x k + s * (y k - x k))) _ 0 :=
    HasDerivAt.fun_sum fun a _ => ((hd 1 a).sub (hd 0 a)).const_mul (h.normal a)
  refine hg.congr_deriv ?_
  rw [Term.distanceAt, add_sub_cancel_left]
  simp only [mul_sub, sum_sub_distrib]
  have key : ∀ i : Fin 2, (∑ a, h.normal a * (if t.group.active (h.link i) then
        (if h.c.cc i = .none then drift t h x y false i a
          else (1 - h.time i) * drift t h x y false i a + h.time i * drift t h x y true i a) else 0)) =
      if t.group.active (h.link i) then (t.kind.steps.map fun late => ∑ a, h.normal a * (share h late i * drift t h x y late i a)).sum
      else 0 := by
    intro i
    by_cases ha : t.group.active (h.link i) = true
    · simp only [ha, if_true]
      obtain ⟨-, -, rc⟩ := hf i ha
      have hno := fun hk : t.kind ≠ .single => mt rc.1 hk
      have z := fun hk late hl a => drift_zero t h x y late i a (hm hk late hl)
      cases hk : t.kind with
      | single =>
        have hc := rc.2 hk
        simp [hc, Kind.steps, share]
      | startFree =>
        have hc := hno (by simp [hk])
        have z1 := fun a => z (by simp [hk]) true (by simp [hk, Kind.steps]) a
        simp [hc, Kind.steps, share, z1]
      | endFree =>
        have hc := hno (by simp [hk])
        have z0 := fun a => z (by simp [hk]) false (by simp [hk, Kind.steps]) a
        simp [hc, Kind.steps, share, z0]
      | bothFree =>
        have hc := hno (by simp [hk])
        simp [hc, Kind.steps, share, mul_add, sum_add_distrib]
    · simp [ha]
  rw [key 1, key 0]
  simp only [change_drift, Fin.sum_univ_two]
  have e01 : ¬ ((1 : Fin 2) = 0) := by decide
  simp only [if_neg e01, if_true]
  generalize ha1 : t.group.active (h.link 1) = a1
  generalize ha0 : t.group.active (h.link 0) = a0
  cases t.kind <;> cases a0 <;> cases a1 <;>
    simp only [Kind.steps, List.map_cons, List.map_nil, List.sum_cons, List.sum_nil, if_true, Bool.false_eq_true, if_false] <;> ring

/-- C104: the distance expressions of the convexified collision terms are first-order correct: in every direction of the free
variables, the slope of a contact's expression is the derivative of the gap between the contact points along the contact normal. -/
theorem C104_derivative_partial (t : Term Link ℝ n) (fk : Kinematics Link n) (hj : IsJacobian t.group fk) (fixed : Link → Fin 3 → ℝ)
    (x y : Nat → ℝ) (hs : List (Hit Link ℝ)) (ht : ∀ h ∈ hs, Timed h) (ha : ∀ h ∈ hs, ∃ i, t.group.active (h.link i) = true)
    (hf : ∀ h ∈ hs, FoundAt t fk h x) (hn : t.kind = .single ∨ ∀ h ∈ hs, Noticeable t x h)
    (hm : t.kind ≠ .single → ∀ late ∉ t.kind.steps, ∀ j, y (t.varsOf late j) = x (t.varsOf late j)) :
    ∃ rs, t.rows x hs = some rs ∧ rs.length = hs.length ∧
      ∀ (i : Nat) (r : Row ℝ) (h : Hit Link ℝ), rs[i]? = some r → hs[i]? = some h →
        affDen r.expr x = h.c.distance ∧
        HasDerivAt (fun s : ℝ => gap t fk fixed h (fun k => x k + s * (y k - x k))) (affDen r.expr y - affDen r.expr x) 0 := by
  refine ⟨_, rows_eq t x hs ht ha, by simp, ?_⟩
  intro i r h hr hh
  have hmem := List.mem_of_getElem? hh
  rw [List.getElem?_map, hh] at hr
  injection hr with hr
  subst hr
  have e := fun z => expr_exact t x z h (hn.imp id fun hn => hn h hmem)
  simp only [e, distanceAt_self]
  exact ⟨trivial, gap_deriv t fk hj fixed h x y (hf h hmem) hm⟩

end

/-! ### Non-vacuity -/

namespace Demo

/-- A slider carrying link 1 along the first axis, over two states (variables 0 and 1). -/
def term (k : Kind) (debug : Bool) : Term Nat ℚ 1 where
  group := ⟨fun l => l == 1, fun _ _ a _ => if a = 0 then 1 else 0, fun _ _ _ _ => 0⟩
  cfg := ⟨fun _ => 1/10, 1/20, ⟨20, [], []⟩⟩
  kind := k
  vars0 := fun _ => 0
  vars1 := fun _ => 1
  debug := debug

/-- Link 1, a quarter of the way along the motion, is 1/20 away from the fixed link 0. -/
def hit (cc : CCType) : Hit Nat ℚ where
  c := ⟨1/20, ![.none, cc], fun _ => 0, fun _ => 0⟩
  link := ![0, 1]
  time := fun _ => 1/4
  normal := ![1, 0, 0]
  point := fun _ _ => 0
  rot := fun _ a b => if a = b then 1 else 0
  ccRot := fun _ a b => if a = b then 1 else 0

def hits (cc : CCType) : HitMap Nat ℚ := [((0, 1), [hit cc])]

theorem in_hits {cc : CCType} {p : (Nat × Nat) × List (Hit Nat ℚ)} (hp : p ∈ hits cc) : p = ((0, 1), [hit cc]) := by
  simpa [hits] using hp

theorem filed (cc : CCType) : Filed (hits cc) := by
  intro p hp h hh
  rw [in_hits hp] at hh ⊢
  rw [List.mem_singleton.1 hh]
  rfl

theorem unmixed (k : Kind) : Unmixed (term k true) (hits .between) := by
  intro _ p hp h hh
  rw [in_hits hp] at hh
  rw [List.mem_singleton.1 hh]
  cases k <;> simp [Clear, term, hit, Relevant, Fin.exists_fin_two]

theorem timed (cc : CCType) : ∀ p ∈ hits cc, ∀ h ∈ p.2, Timed h := by
  intro p hp h hh
  rw [in_hits hp] at hh
  rw [List.mem_singleton.1 hh]
  intro i _
  norm_num [hit]

theorem touching (k : Kind) (d : Bool) (cc : CCType) : Touching (term k d) (hits cc) := by
  intro p hp h hh
  rw [in_hits hp] at hh
  rw [List.mem_singleton.1 hh]
  exact ⟨1, by simp [term, hit]⟩

theorem noticeable (k : Kind) (x : Nat → ℚ) : Noticeable (term k true) x (hit .between) := by
  intro late _ i hi j
  match i, hi with
  | 0, hi => simp [term, hit] at hi
  | 1, _ =>
    right
    cases late <;>
      simp [share, rate, velocity, hit, term, Fin.sum_univ_three, crossProduct, arm, abs_of_pos] <;> norm_num [abs_of_pos]

end Demo

/-- non-vacuity for C101 and C103: every hypothesis holds for a contact half inside its margin, whose cost is 1. -/
example : Filed (Demo.hits .between) ∧ 0 ≤ (Demo.term .bothFree true).cfg.buffer ∧
    Unmixed (Demo.term .bothFree true) (Demo.hits .between) ∧
    (∀ p ∈ Demo.hits .between, ∀ h ∈ p.2, 0 < (Demo.term .bothFree true).cfg.weight h) ∧
    (Demo.term .bothFree true).costValue (Demo.hits .between) = some 1 := by
  refine ⟨Demo.filed _, by norm_num [Demo.term], Demo.unmixed _, ?_, by decide +kernel⟩
  intro p hp h hh
  rw [Demo.in_hits hp] at hh
  rw [List.mem_singleton.1 hh]
  decide +kernel

/-- non-vacuity for C101_violated_end_free: the slider touches a second slider that has already left the start state. -/
example : ∃ h : Hit Nat ℚ, h.c.cc 0 = .time0 ∧ h.c.cc 1 = .between ∧
    h.c.distance ≤ (Demo.term .endFree true).cfg.margin (0, 1) + (Demo.term .endFree true).cfg.buffer ∧
    (Demo.term .endFree true).costValue [((0, 1), [h])] = none ∧
    (Demo.term .endFree false).costValue [((0, 1), [h])] = some 1 :=
  ⟨{ Demo.hit .between with c := ⟨1/20, ![.time0, .between], fun _ => 0, fun _ => 0⟩ }, rfl, rfl, by decide +kernel,
    by decide +kernel, by decide +kernel⟩

/-- non-vacuity for C102: a model with the term's two variables; the linearised distance moves with both states. -/
example : ∃ mdl : OModel ℚ, mdl.vars.Inv ∧ mdl.cnts.Inv ∧
    Unmixed (Demo.term .bothFree true) (Demo.hits .between) ∧ (∀ p ∈ Demo.hits .between, ∀ h ∈ p.2, Timed h) ∧
    Touching (Demo.term .bothFree true) (Demo.hits .between) ∧
    (∀ late ∈ (Demo.term .bothFree true).kind.steps, ∀ j, (Demo.term .bothFree true).varsOf late j < mdl.vars.reps.length) ∧
    (∀ p ∈ Demo.hits .between, ∀ h ∈ p.2, Noticeable (Demo.term .bothFree true) (fun _ => 0) h) ∧
    (Demo.term .bothFree true).distanceAt (fun _ => 0) (fun k => k + 1) (Demo.hit .between) = 1/20 + 3/4 * 1 + 1/4 * 2 := by
  obtain ⟨m, h1, h2, h3, h4, h5, _⟩ := addVar_spec (m := (OModel.empty : OModel ℚ)) Store.inv_empty .negInf .posInf
  obtain ⟨m', g1, g2, g3, g4, g5, _⟩ := addVar_spec h2 .negInf .posInf
  refine ⟨m', g2, by rw [g5, h5]; exact Store.inv_empty, Demo.unmixed _, Demo.timed _, Demo.touching _ _ _, ?_, ?_, by decide +kernel⟩
  · have hl : m'.vars.reps.length = 2 := by rw [g4, h4]; rfl
    intro late _ j
    rw [hl]
    cases late <;> simp [Demo.term, Term.varsOf]
  · intro p hp h hh
    rw [Demo.in_hits hp] at hh
    rw [List.mem_singleton.1 hh]
    exact Demo.noticeable _ _

namespace Demo

/-- Link 1 turns about the third axis. -/
noncomputable def turning : Kinematics Nat 1 := fun _ q =>
  (fun _ => 0, fun a b => ![![Real.cos (q 0), -Real.sin (q 0), 0], ![Real.sin (q 0), Real.cos (q 0), 0], ![0, 0, 1]] a b)

noncomputable def pivot : Term Nat ℝ 1 where
  group := ⟨fun l => l == 1, fun _ _ _ _ => 0, fun _ _ a _ => if a = 2 then 1 else 0⟩
  cfg := ⟨fun _ => 1/10, 1/20, ⟨20, [], []⟩⟩
  kind := .single
  vars0 := fun _ => 0
  vars1 := fun _ => 1
  debug := true

/-- A point at distance one from the axis, approaching link 0 along the second axis. -/
noncomputable def swing (q : ℝ) : Hit Nat ℝ where
  c := ⟨1/20, fun _ => .none, fun _ => 0, fun _ => 0⟩
  link := ![0, 1]
  time := fun _ => 0
  normal := ![0, 1, 0]
  point := fun _ => ![1, 0, 0]
  rot := fun _ => (turning 1 fun _ => q).2
  ccRot := fun _ => (turning 1 fun _ => q).2

theorem turning_jacobian : IsJacobian pivot.group turning := by
  intro l q d _
  have hp : HasDerivAt (fun s : ℝ => q 0 + s * d 0) (d 0) 0 := by
    simpa using ((hasDerivAt_id (0 : ℝ)).mul_const (d 0)).const_add (q 0)
  have hc : HasDerivAt (fun s : ℝ => Real.cos (q 0 + s * d 0)) (-Real.sin (q 0) * d 0) 0 := by
    simpa using hp.cos
  have hs : HasDerivAt (fun s : ℝ => Real.sin (q 0 + s * d 0)) (Real.cos (q 0) * d 0) 0 := by
    simpa using hp.sin
  refine ⟨fun a => by simpa [pivot, turning] using hasDerivAt_const (0 : ℝ) (0 : ℝ), fun a b => ?_⟩
  simp only [cross_apply, Fin.sum_univ_one, pivot, turning]
  match a, b with
  | 0, 0 => simpa using hc
  | 0, 1 => simpa using hs.fun_neg
  | 0, 2 => simpa using hasDerivAt_const (0 : ℝ) (0 : ℝ)
  | 1, 0 => simpa using hs
  | 1, 1 => simpa using hc
  | 1, 2 => simpa using hasDerivAt_const (0 : ℝ) (0 : ℝ)
  | 2, 0 => simpa using hasDerivAt_const (0 : ℝ) (0 : ℝ)
  | 2, 1 => simpa using hasDerivAt_const (0 : ℝ) (0 : ℝ)
  | 2, 2 => simpa using hasDerivAt_const (0 : ℝ) (1 : ℝ)

end Demo

/-- non-vacuity for C104: every hypothesis holds for a point swinging about an axis, and the gap does change. -/
example (q : ℝ) : IsJacobian Demo.pivot.group Demo.turning ∧ Timed (Demo.swing q) ∧
    (∃ i, Demo.pivot.group.active ((Demo.swing q).link i) = true) ∧ FoundAt Demo.pivot Demo.turning (Demo.swing q) (fun _ => q) ∧
    ∀ y : Nat → ℝ, Demo.pivot.distanceAt (fun _ => q) y (Demo.swing q) = 1/20 + Real.cos q * (y 0 - q) := by
  refine ⟨Demo.turning_jacobian, fun i hi => absurd rfl hi, ⟨1, rfl⟩, fun i _ => ⟨rfl, fun h => absurd rfl h, by simp [Demo.swing, Demo.pivot]⟩, ?_⟩
  intro y
  simp [Term.distanceAt, Term.change, Demo.pivot, Demo.swing, Demo.turning, rate, velocity, arm, share, cross_apply, Kind.steps,
    Fin.sum_univ_three, Term.varsOf]

end Verif.CollisionTerms
