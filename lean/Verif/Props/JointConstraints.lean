import Verif.Model.JointConstraints
import Verif.Props.Bounds
import Mathlib.Tactic.Ring

/-!
C37: joint velocity / acceleration / jerk constraints.  C38: splitting of range bounds in `JointPosConstraint`.
-/

set_option linter.unusedSectionVars false
set_option linter.unusedVariables false

namespace Verif.JointConstraints

open Verif.Bounds
open Verif.VarSets (Var)

universe u
variable {K : Type u} [Field K] [LinearOrder K] [IsStrictOrderedRing K]

/-! ### Specification -/

/-- The position variables as they stand when the optimization vector is `x`: variable `s` occupies the coordinates
`idx[s] .. idx[s] + dof` of `x` (C39). -/
def readVars (idx : List Nat) (dof : Nat) (x : Nat → K) : List (Var K) :=
  idx.map fun i => ⟨i, (List.range dof).map fun k => x (i + k), List.replicate dof (none, none)⟩

/-- Joint `k` at timestep `s`. -/
def traj (idx : List Nat) (x : Nat → K) (k s : Nat) : K := x (idx.getD s 0 + k)

/-- Forward difference of a sequence. -/
def delta (f : Nat → K) : Nat → K := fun s => f (s + 1) - f s

/-- Product of a sparse row with a dense vector. -/
def rowDot (row : List (Nat × K)) (d : Nat → K) : K := (row.map fun q => q.2 * d q.1).sum

/-- Coefficient vectors the constructors document: none, one, or one per joint; all positive. -/
def CoeffsOk (dof : Nat) (coeffs : List K) : Prop :=
  (∀ c ∈ coeffs, 0 < c) ∧ (coeffs.length = 0 ∨ coeffs.length = 1 ∨ coeffs.length = dof)

/-- The coefficient of joint `k`. -/
def coeffAt (dflt : K) (coeffs : List K) (k : Nat) : K :=
  match coeffs with
  | [] => dflt
  | [c] => c
  | _ => coeffs.getD k 0

/-- The timesteps occupy increasing, in-range coordinates. -/
def Ordered (idx : List Nat) (dof n : Nat) : Prop := idx.Pairwise (· < ·) ∧ ∀ i ∈ idx, i + dof ≤ n

/-! ### Helpers -/

theorem mapM_range_some {α : Type*} (n : Nat) (g : Nat → Option α) (h : Nat → α) (hg : ∀ i, i < n → g i = some (h i)) :
    (List.range n).mapM g = some ((List.range n).map h) := by
  have key : ∀ l : List Nat, (∀ i ∈ l, g i = some (h i)) → l.mapM g = some (l.map h) := by
    intro l
    induction l with
    | nil => intro _; rfl
    | cons a l ih => intro hl; simp [List.mapM_cons, hl a (by simp), ih fun i hi => hl i (by simp [hi])]
  exact key _ fun i hi => hg i (List.mem_range.1 hi)

/-- Rows laid out block by block. -/
def grid {α : Type*} (n dof : Nat) (f : Nat → Nat → α) : List α :=
  ((List.range n).map fun i => (List.range dof).map (f i)).flatten

theorem grid_length {α : Type*} (n dof : Nat) (f : Nat → Nat → α) : (grid n dof f).length = n * dof := by
  unfold grid
  induction n with
  | zero => simp
  | succ n ih => rw [List.range_succ, List.map_append, List.flatten_append, List.length_append, ih]; simp; ring

theorem grid_get {α : Type*} (n dof : Nat) (f : Nat → Nat → α) (i k : Nat) (hi : i < n) (hk : k < dof) :
    (grid n dof f)[i * dof + k]? = some (f i k) := by
  induction n with
  | zero => omega
  | succ n ih =>
    have e : grid (n + 1) dof f = grid n dof f ++ (List.range dof).map (f n) := by
      simp [grid, List.range_succ]
    rw [e]
    have hl := grid_length n dof f
    by_cases h : i < n
    · rw [List.getElem?_append_left, ih h]
      rw [hl]
      calc i * dof + k < i * dof + dof := by omega
        _ = (i + 1) * dof := by ring
        _ ≤ n * dof := Nat.mul_le_mul_right _ h
    · have : i = n := by omega
      subst this
      rw [List.getElem?_append_right (by omega), hl, Nat.add_sub_cancel_left, List.getElem?_map,
        List.getElem?_range hk]
      rfl

theorem q_read (idx : List Nat) (dof : Nat) (x : Nat → K) (cs : List K) (bs : List (Bounds K)) (i : Nat)
    (hi : i < idx.length) :
    (⟨dof, readVars idx dof x, cs, bs⟩ : Diff K).q i = some ((List.range dof).map fun k => traj idx x k i) := by
  simp [Diff.q, readVars, traj, List.getElem?_eq_getElem hi, List.getD_eq_getElem?_getD]

theorem col_read (idx : List Nat) (dof : Nat) (x : Nat → K) (cs : List K) (bs : List (Bounds K)) (i : Nat)
    (hi : i < idx.length) : (⟨dof, readVars idx dof x, cs, bs⟩ : Diff K).col i = some (idx.getD i 0) := by
  simp [Diff.col, readVars, List.getElem?_eq_getElem hi, List.getD_eq_getElem?_getD]

theorem zip_range {α β γ : Type*} (f : α → β → γ) (dof : Nat) (a : Nat → α) (b : Nat → β) :
    List.zipWith f ((List.range dof).map a) ((List.range dof).map b) = (List.range dof).map fun k => f (a k) (b k) := by
  rw [List.zipWith_map, List.zipWith_self]

theorem expand_ok (dof groups : Nat) (dflt : K) (coeffs : List K) (h : CoeffsOk dof coeffs) :
    ∃ cs, expandCoeffs dof groups dflt coeffs = some cs ∧ cs = grid groups dof fun _ k => coeffAt dflt coeffs k := by
  have hconst : ∀ c : K, List.replicate (dof * groups) c = grid groups dof fun _ _ => c := by
    intro c
    have : ∀ n, grid n dof (fun _ _ => c) = List.replicate (n * dof) c := by
      intro n
      rw [List.eq_replicate_iff]
      refine ⟨grid_length _ _ _, ?_⟩
      intro b hb
      simp only [grid, List.mem_flatten, List.mem_map] at hb
      obtain ⟨l, ⟨i, _, rfl⟩, hb⟩ := hb
      simp only [List.mem_map] at hb
      obtain ⟨_, _, rfl⟩ := hb
      rfl
    rw [this, Nat.mul_comm]
  have hall : coeffs.length = dof → (List.replicate groups coeffs).flatten =
      grid groups dof fun _ k => coeffs.getD k 0 := by
    intro hl
    unfold grid
    congr 1
    have : (List.range dof).map (fun k => coeffs.getD k 0) = coeffs := by
      apply List.ext_getElem
      · simp [hl]
      · intro i h1 h2; simp [List.getD_eq_getElem?_getD, List.getElem?_eq_getElem h2]
    simp only [this]
    rw [List.map_const', List.length_range]
  unfold expandCoeffs
  rw [if_neg (not_not.2 h.1)]
  match coeffs, h with
  | [], h =>
    by_cases hd : dof = 0
    · simp only [hd, if_true]
      refine ⟨_, rfl, ?_⟩
      rw [hall (by simp [hd])]
      subst hd; simp [grid]
    · simp only [hd, if_false]
      exact ⟨_, rfl, hconst dflt⟩
  | [c], h =>
    by_cases hd : dof = 1
    · simp only [hd, if_true]
      refine ⟨_, rfl, ?_⟩
      subst hd
      rw [hall rfl]
      simp [grid, coeffAt]
    · simp only [hd, if_false]
      exact ⟨_, rfl, hconst c⟩
  | a :: b :: l, h =>
    have hl : (a :: b :: l).length = dof := by
      rcases h.2 with h | h | h
      · simp at h
      · simp at h
      · exact h
    simp only [hl, if_true]
    exact ⟨_, rfl, hall hl⟩

theorem bounds_grid (targets : List K) (groups : Nat) :
    targetBounds targets groups = grid groups targets.length fun _ k =>
      Bounds.mk' (.fin (targets.getD k 0)) (.fin (targets.getD k 0)) := by
  unfold targetBounds grid
  congr 1
  rw [List.map_const', List.length_range]
  congr 1
  apply List.ext_getElem
  · simp
  · intro i h1 h2
    simp only [List.length_map] at h1
    simp [List.getD_eq_getElem?_getD, List.getElem?_eq_getElem h1]

theorem idx_lt {idx : List Nat} {dof n : Nat} (h : Ordered idx dof n) (i j : Nat) (hij : i < j) (hj : j < idx.length) :
    idx.getD i 0 < idx.getD j 0 := by
  simp only [List.getD_eq_getElem?_getD, List.getElem?_eq_getElem hj, List.getElem?_eq_getElem (hij.trans hj),
    Option.getD_some]
  exact List.pairwise_iff_getElem.1 h.1 i j _ _ hij

theorem idx_range {idx : List Nat} {dof n : Nat} (h : Ordered idx dof n) (j : Nat) (hj : j < idx.length) :
    idx.getD j 0 + dof ≤ n := by
  simp only [List.getD_eq_getElem?_getD, List.getElem?_eq_getElem hj, Option.getD_some]
  exact h.2 _ (List.getElem_mem hj)

/-- Everything a difference constraint promises.  `rows` timesteps; row `i * dof + k` is the difference `D` of joint
`k` starting at timestep `start i`. -/
def Promise (new : List (Var K) → Option (Diff K)) (values : Diff K → Option (List K))
    (jac : Diff K → Nat → Option (List (List (Nat × K)))) (idx : List Nat) (targets coeffs : List K) (dflt : K)
    (nv rows : Nat) (start : Nat → Nat) (D : (Nat → K) → Nat → K) : Prop :=
  ∃ J : List (List (Nat × K)), J.length = rows * targets.length ∧
    (∀ x : Nat → K, ∃ c v, new (readVars idx targets.length x) = some c ∧ values c = some v ∧ jac c nv = some J ∧
      v.length = rows * targets.length ∧ c.coeffs.length = rows * targets.length ∧
      c.bounds.length = rows * targets.length ∧
      ∀ i, i < rows → ∀ k, k < targets.length →
        v[i * targets.length + k]? = some (D (traj idx x k) (start i)) ∧
        c.coeffs[i * targets.length + k]? = some (coeffAt dflt coeffs k) ∧
        c.bounds[i * targets.length + k]? =
          some (Bounds.mk' (.fin (targets.getD k 0)) (.fin (targets.getD k 0)))) ∧
    (∀ row ∈ J, row.Pairwise (fun a b => a.1 < b.1) ∧ ∀ q ∈ row, q.1 < nv) ∧
    ∀ x d : Nat → K, ∀ i, i < rows → ∀ k, k < targets.length → ∃ row, J[i * targets.length + k]? = some row ∧
      D (traj idx (x + d) k) (start i) = D (traj idx x k) (start i) + rowDot row d

/-- Common part of the three proofs. -/
theorem promise_of {new : List (Var K) → Option (Diff K)} {values : Diff K → Option (List K)}
    {jac : Diff K → Nat → Option (List (List (Nat × K)))} {idx : List Nat} {targets coeffs : List K} {dflt : K}
    {nv rows : Nat} {start : Nat → Nat} {D : (Nat → K) → Nat → K} (row : Nat → Nat → List (Nat × K))
    (hnew : ∀ x, ∃ c, new (readVars idx targets.length x) = some c ∧
      c.coeffs = (grid rows targets.length fun _ k => coeffAt dflt coeffs k) ∧
      c.bounds = targetBounds targets rows ∧
      values c = some (grid rows targets.length fun i k => D (traj idx x k) (start i)) ∧
      jac c nv = some (grid rows targets.length row))
    (hrow : ∀ i, i < rows → ∀ k, k < targets.length →
      (row i k).Pairwise (fun a b => a.1 < b.1) ∧ ∀ q ∈ row i k, q.1 < nv)
    (hdot : ∀ x d : Nat → K, ∀ i, i < rows → ∀ k, k < targets.length →
      D (traj idx (x + d) k) (start i) = D (traj idx x k) (start i) + rowDot (row i k) d) :
    Promise new values jac idx targets coeffs dflt nv rows start D := by
  refine ⟨grid rows targets.length row, grid_length _ _ _, ?_, ?_, ?_⟩
  · intro x
    obtain ⟨c, h1, h2, h3, h4, h5⟩ := hnew x
    refine ⟨c, _, h1, h4, h5, grid_length _ _ _, by rw [h2]; exact grid_length _ _ _,
      by rw [h3, bounds_grid]; exact grid_length _ _ _, ?_⟩
    intro i hi k hk
    refine ⟨grid_get _ _ _ i k hi hk, by rw [h2]; exact grid_get _ _ _ i k hi hk,
      by rw [h3, bounds_grid]; exact grid_get _ _ _ i k hi hk⟩
  · intro r hr
    simp only [grid, List.mem_flatten, List.mem_map] at hr
    obtain ⟨l, ⟨i, hi, rfl⟩, hr⟩ := hr
    simp only [List.mem_map] at hr
    obtain ⟨k, hk, rfl⟩ := hr
    exact hrow i (List.mem_range.1 hi) k (List.mem_range.1 hk)
  · intro x d i hi k hk
    exact ⟨_, grid_get _ _ _ i k hi hk, hdot x d i hi k hk⟩

theorem insertRow_some (n : Nat) : ∀ l : List (Nat × K), l.Pairwise (fun a b => a.1 < b.1) → (∀ q ∈ l, q.1 < n) →
    insertRow n l = some l := by
  intro l
  induction l with
  | nil => intro _ _; rfl
  | cons q l ih =>
    intro hp hr
    cases l with
    | nil => simp [insertRow, hr q (by simp)]
    | cons q' l =>
      rw [insertRow, if_pos ((List.pairwise_cons.1 hp).1 q' (by simp)), ih (List.pairwise_cons.1 hp).2
        (fun p hp => hr p (by simp only [List.mem_cons] at hp ⊢; exact Or.inr hp))]
      rfl

/-- C37, velocity: values are first differences, the Jacobian is exact, coefficients and bounds are per joint. -/
theorem C37_velocity (targets coeffs : List K) (idx : List Nat) (nv : Nat) (hn : 2 ≤ idx.length)
    (hc : CoeffsOk targets.length coeffs) (ho : Ordered idx targets.length nv) :
    Promise (fun vs => newVel targets vs coeffs) Diff.velValues Diff.velJac idx targets coeffs 5 nv (idx.length - 1)
      (fun i => i) delta := by
  refine promise_of (fun i k => [(idx.getD i 0 + k, -1), (idx.getD (i + 1) 0 + k, 1)]) ?_ ?_ ?_
  · intro x
    obtain ⟨cs, hcs, hg⟩ := expand_ok targets.length (idx.length - 1) 5 coeffs hc
    refine ⟨⟨targets.length, readVars idx targets.length x, cs, targetBounds targets (idx.length - 1)⟩, ?_, hg, rfl,
      ?_, ?_⟩
    · have : (readVars idx targets.length x).length = idx.length := by simp [readVars]
      simp only [newVel, this]
      rw [if_neg (by omega), hcs]; rfl
    · unfold Diff.velValues
      have : (readVars idx targets.length x).length = idx.length := by simp [readVars]
      simp only [this]
      rw [mapM_range_some _ _ fun i => (List.range targets.length).map fun k => delta (traj idx x k) i]
      · rfl
      · intro i hi
        simp only [Diff.velStep, q_read idx _ x cs _ i (by omega), q_read idx _ x cs _ (i + 1) (by omega), zip_range]
        rfl
    · unfold Diff.velJac
      have : (readVars idx targets.length x).length = idx.length := by simp [readVars]
      simp only [this]
      rw [mapM_range_some _ _ fun i => (List.range targets.length).map fun k =>
        [(idx.getD i 0 + k, (-1 : K)), (idx.getD (i + 1) 0 + k, 1)]]
      · rfl
      · intro i hi
        simp only [Diff.velJacStep, col_read idx _ x cs _ i (by omega), col_read idx _ x cs _ (i + 1) (by omega)]
        apply mapM_range_some
        intro k hk
        have h1 := idx_lt ho i (i + 1) (by omega) (by omega)
        have h2 := idx_range ho (i + 1) (by omega)
        apply insertRow_some
        · simp [-List.getD_eq_getElem?_getD]; omega
        · simp [-List.getD_eq_getElem?_getD]; omega
  · intro i hi k hk
    have h1 := idx_lt ho i (i + 1) (by omega) (by omega)
    have h2 := idx_range ho (i + 1) (by omega)
    constructor
    · simp [-List.getD_eq_getElem?_getD]; omega
    · simp [-List.getD_eq_getElem?_getD]; omega
  · intro x d i hi k hk
    simp only [delta, traj, rowDot, Pi.add_apply, List.map_cons, List.map_nil, List.sum_cons, List.sum_nil]
    ring

/-- C37, acceleration: values are second differences, forward ones up to the last two timesteps, which repeat the
differences starting two steps earlier; the Jacobian is exact. -/
theorem C37_acceleration (targets coeffs : List K) (idx : List Nat) (nv : Nat) (hn : 4 ≤ idx.length)
    (hc : CoeffsOk targets.length coeffs) (ho : Ordered idx targets.length nv) :
    Promise (fun vs => newAcc targets vs coeffs) Diff.accValues Diff.accJac idx targets coeffs 1 nv idx.length
      (fun i => if i + 2 < idx.length then i else i - 2) (fun f => delta (delta f)) := by
  set st : Nat → Nat := fun i => if i + 2 < idx.length then i else i - 2 with hst
  have hst' : ∀ i, i < idx.length → st i + 2 < idx.length := by
    intro i hi; simp only [hst]; split_ifs <;> omega
  refine promise_of (fun i k => [(idx.getD (st i) 0 + k, 1), (idx.getD (st i + 1) 0 + k, -2),
    (idx.getD (st i + 2) 0 + k, 1)]) ?_ ?_ ?_
  · intro x
    obtain ⟨cs, hcs, hg⟩ := expand_ok targets.length idx.length 1 coeffs hc
    have hlen : (readVars idx targets.length x).length = idx.length := by simp [readVars]
    refine ⟨⟨targets.length, readVars idx targets.length x, cs, targetBounds targets idx.length⟩, ?_, hg, rfl, ?_, ?_⟩
    · simp only [newAcc, hlen]
      rw [if_neg (by omega), hcs]; rfl
    · unfold Diff.accValues
      simp only [hlen]
      rw [mapM_range_some _ _ fun i => (List.range targets.length).map fun k => delta (delta (traj idx x k)) (st i)]
      · rfl
      · intro i hi
        simp only [Diff.accStep, hlen]
        by_cases h : i < idx.length - 2
        · have e : st i = i := by simp only [hst]; rw [if_pos (by omega)]
          rw [if_pos h, q_read idx _ x cs _ i (by omega), q_read idx _ x cs _ (i + 1) (by omega),
            q_read idx _ x cs _ (i + 2) (by omega), e]
          simp only [acc3, List.map_map, zip_range, Option.some.injEq]
          apply List.map_congr_left
          intro k _
          simp only [delta, Function.comp]; ring
        · have e : st i = i - 2 := by simp only [hst]; rw [if_neg (by omega)]
          rw [if_neg h, q_read idx _ x cs _ i (by omega), q_read idx _ x cs _ (i - 1) (by omega),
            q_read idx _ x cs _ (i - 2) (by omega), e]
          simp only [acc3, List.map_map, zip_range, Option.some.injEq]
          apply List.map_congr_left
          intro k _
          simp only [delta, Function.comp, show i - 2 + 1 = i - 1 by omega, show i - 1 + 1 = i by omega]; ring
    · unfold Diff.accJac
      simp only [hlen]
      rw [mapM_range_some _ _ fun i => (List.range targets.length).map fun k =>
        [(idx.getD (st i) 0 + k, (1 : K)), (idx.getD (st i + 1) 0 + k, -2), (idx.getD (st i + 2) 0 + k, 1)]]
      · rfl
      · intro i hi
        simp only [Diff.accJacStep, hlen]
        have q1 := idx_lt ho (st i) (st i + 1) (by omega) (by have := hst' i hi; omega)
        have q2 := idx_lt ho (st i + 1) (st i + 2) (by omega) (hst' i hi)
        have q3 := idx_range ho (st i + 2) (hst' i hi)
        have hins : (List.range targets.length).mapM (fun k => insertRow nv [(idx.getD (st i) 0 + k, (1 : K)),
            (idx.getD (st i + 1) 0 + k, -2), (idx.getD (st i + 2) 0 + k, 1)]) =
            some ((List.range targets.length).map fun k => [(idx.getD (st i) 0 + k, (1 : K)),
            (idx.getD (st i + 1) 0 + k, -2), (idx.getD (st i + 2) 0 + k, 1)]) := by
          apply mapM_range_some
          intro k hk
          apply insertRow_some
          · simp [-List.getD_eq_getElem?_getD]; omega
          · simp [-List.getD_eq_getElem?_getD]; omega
        by_cases h : i < idx.length - 2
        · have e : st i = i := by simp only [hst]; rw [if_pos (by omega)]
          rw [e] at hins ⊢
          rw [if_pos h, col_read idx _ x cs _ i (by omega), col_read idx _ x cs _ (i + 1) (by omega),
            col_read idx _ x cs _ (i + 2) (by omega)]
          exact hins
        · have e : st i = i - 2 := by simp only [hst]; rw [if_neg (by omega)]
          rw [e] at hins ⊢
          rw [show i - 2 + 2 = i by omega, show i - 2 + 1 = i - 1 by omega] at *
          rw [if_neg h, col_read idx _ x cs _ i (by omega), col_read idx _ x cs _ (i - 1) (by omega),
            col_read idx _ x cs _ (i - 2) (by omega)]
          exact hins
  · intro i hi k hk
    have q1 := idx_lt ho (st i) (st i + 1) (by omega) (by have := hst' i hi; omega)
    have q2 := idx_lt ho (st i + 1) (st i + 2) (by omega) (hst' i hi)
    have q3 := idx_range ho (st i + 2) (hst' i hi)
    constructor
    · simp [-List.getD_eq_getElem?_getD]; omega
    · simp [-List.getD_eq_getElem?_getD]; omega
  · intro x d i hi k hk
    simp only [delta, traj, rowDot, Pi.add_apply, List.map_cons, List.map_nil, List.sum_cons, List.sum_nil]
    ring

/-- C37, jerk: values are third differences, forward ones up to the last three timesteps, which repeat the differences
starting three steps earlier; the Jacobian is exact. -/
theorem C37_jerk (targets coeffs : List K) (idx : List Nat) (nv : Nat) (hn : 6 ≤ idx.length)
    (hc : CoeffsOk targets.length coeffs) (ho : Ordered idx targets.length nv) :
    Promise (fun vs => newJerk targets vs coeffs) Diff.jerkValues Diff.jerkJac idx targets coeffs 1 nv idx.length
      (fun i => if i + 3 < idx.length then i else i - 3) (fun f => delta (delta (delta f))) := by
  set st : Nat → Nat := fun i => if i + 3 < idx.length then i else i - 3 with hst
  have hst' : ∀ i, i < idx.length → st i + 3 < idx.length := by
    intro i hi; simp only [hst]; split_ifs <;> omega
  refine promise_of (fun i k => [(idx.getD (st i) 0 + k, -1), (idx.getD (st i + 1) 0 + k, 3),
    (idx.getD (st i + 2) 0 + k, -3), (idx.getD (st i + 3) 0 + k, 1)]) ?_ ?_ ?_
  · intro x
    obtain ⟨cs, hcs, hg⟩ := expand_ok targets.length idx.length 1 coeffs hc
    have hlen : (readVars idx targets.length x).length = idx.length := by simp [readVars]
    refine ⟨⟨targets.length, readVars idx targets.length x, cs, targetBounds targets idx.length⟩, ?_, hg, rfl, ?_, ?_⟩
    · simp only [newJerk, hlen]
      rw [if_neg (by omega), hcs]; rfl
    · unfold Diff.jerkValues
      simp only [hlen]
      rw [mapM_range_some _ _ fun i => (List.range targets.length).map fun k =>
        delta (delta (delta (traj idx x k))) (st i)]
      · rfl
      · intro i hi
        simp only [Diff.jerkStep, hlen]
        by_cases h : i < idx.length - 3
        · have e : st i = i := by simp only [hst]; rw [if_pos (by omega)]
          rw [if_pos h, q_read idx _ x cs _ i (by omega), q_read idx _ x cs _ (i + 1) (by omega),
            q_read idx _ x cs _ (i + 2) (by omega), q_read idx _ x cs _ (i + 3) (by omega), e]
          simp only [jerkF, List.map_map, zip_range, Option.some.injEq]
          apply List.map_congr_left
          intro k _
          simp only [delta, Function.comp]; ring
        · have e : st i = i - 3 := by simp only [hst]; rw [if_neg (by omega)]
          rw [if_neg h, q_read idx _ x cs _ i (by omega), q_read idx _ x cs _ (i - 1) (by omega),
            q_read idx _ x cs _ (i - 2) (by omega), q_read idx _ x cs _ (i - 3) (by omega), e]
          simp only [jerkB, List.map_map, zip_range, Option.some.injEq]
          apply List.map_congr_left
          intro k _
          simp only [delta, Function.comp, show i - 3 + 1 = i - 2 by omega, show i - 2 + 1 = i - 1 by omega,
            show i - 1 + 1 = i by omega]; ring
    · unfold Diff.jerkJac
      simp only [hlen]
      rw [mapM_range_some _ _ fun i => (List.range targets.length).map fun k =>
        [(idx.getD (st i) 0 + k, (-1 : K)), (idx.getD (st i + 1) 0 + k, 3), (idx.getD (st i + 2) 0 + k, -3),
          (idx.getD (st i + 3) 0 + k, 1)]]
      · rfl
      · intro i hi
        simp only [Diff.jerkJacStep, hlen]
        have q0 := idx_lt ho (st i) (st i + 1) (by omega) (by have := hst' i hi; omega)
        have q1 := idx_lt ho (st i + 1) (st i + 2) (by omega) (by have := hst' i hi; omega)
        have q2 := idx_lt ho (st i + 2) (st i + 3) (by omega) (hst' i hi)
        have q3 := idx_range ho (st i + 3) (hst' i hi)
        have hins : (List.range targets.length).mapM (fun k => insertRow nv [(idx.getD (st i) 0 + k, (-1 : K)),
            (idx.getD (st i + 1) 0 + k, 3), (idx.getD (st i + 2) 0 + k, -3), (idx.getD (st i + 3) 0 + k, 1)]) =
            some ((List.range targets.length).map fun k => [(idx.getD (st i) 0 + k, (-1 : K)),
            (idx.getD (st i + 1) 0 + k, 3), (idx.getD (st i + 2) 0 + k, -3), (idx.getD (st i + 3) 0 + k, 1)]) := by
          apply mapM_range_some
          intro k hk
          apply insertRow_some
          · simp [-List.getD_eq_getElem?_getD]; omega
          · simp [-List.getD_eq_getElem?_getD]; omega
        by_cases h : i < idx.length - 3
        · have e : st i = i := by simp only [hst]; rw [if_pos (by omega)]
          rw [e] at hins ⊢
          rw [if_pos h, col_read idx _ x cs _ i (by omega), col_read idx _ x cs _ (i + 1) (by omega),
            col_read idx _ x cs _ (i + 2) (by omega), col_read idx _ x cs _ (i + 3) (by omega)]
          exact hins
        · have e : st i = i - 3 := by simp only [hst]; rw [if_neg (by omega)]
          rw [e] at hins ⊢
          rw [show i - 3 + 3 = i by omega, show i - 3 + 2 = i - 1 by omega, show i - 3 + 1 = i - 2 by omega] at *
          rw [if_neg h, col_read idx _ x cs _ i (by omega), col_read idx _ x cs _ (i - 1) (by omega),
            col_read idx _ x cs _ (i - 2) (by omega), col_read idx _ x cs _ (i - 3) (by omega)]
          exact hins
  · intro i hi k hk
    have q0 := idx_lt ho (st i) (st i + 1) (by omega) (by have := hst' i hi; omega)
    have q1 := idx_lt ho (st i + 1) (st i + 2) (by omega) (by have := hst' i hi; omega)
    have q2 := idx_lt ho (st i + 2) (st i + 3) (by omega) (hst' i hi)
    have q3 := idx_range ho (st i + 3) (hst' i hi)
    constructor
    · simp [-List.getD_eq_getElem?_getD]; omega
    · simp [-List.getD_eq_getElem?_getD]; omega
  · intro x d i hi k hk
    simp only [delta, traj, rowDot, Pi.add_apply, List.map_cons, List.map_nil, List.sum_cons, List.sum_nil]
    ring

theorem mapM_none {α β : Type*} (f : α → Option β) (l : List α) (a : α) (ha : a ∈ l) (h : f a = none) :
    l.mapM f = none := by
  induction l with
  | nil => simp at ha
  | cons b l ih =>
    rw [List.mapM_cons]
    rcases List.mem_cons.1 ha with rfl | ha
    · simp [h]
    · rw [ih ha]; cases f b <;> rfl

/-- The variables have to be passed in increasing coordinate order: two consecutive ones out of order break the ordered
insertion into the Jacobian (undefined without asserts), although the values are still computed. -/
theorem C37_order_required (dof : Nat) (idx : List Nat) (x : Nat → K) (cs : List K) (bs : List (Bounds K)) (nv s : Nat)
    (hs : s + 1 < idx.length) (hd : 0 < dof) (h : idx.getD (s + 1) 0 ≤ idx.getD s 0) :
    (⟨dof, readVars idx dof x, cs, bs⟩ : Diff K).velJac nv = none ∧
    ∃ v, (⟨dof, readVars idx dof x, cs, bs⟩ : Diff K).velValues = some v := by
  have hlen : (readVars idx dof x).length = idx.length := by simp [readVars]
  constructor
  · unfold Diff.velJac
    rw [mapM_none _ _ s (by simp [hlen]; omega)]
    · rfl
    · simp only [Diff.velJacStep, col_read idx dof x cs bs s (by omega), col_read idx dof x cs bs (s + 1) hs]
      apply mapM_none _ _ 0 (by simp [hd])
      simp only [insertRow, Nat.add_zero]
      rw [if_neg (by omega)]
  · unfold Diff.velValues
    simp only [hlen]
    rw [mapM_range_some _ _ fun i => (List.range dof).map fun k => delta (traj idx x k) i]
    · exact ⟨_, rfl⟩
    · intro i hi
      simp only [Diff.velStep, q_read idx _ x cs _ i (by omega), q_read idx _ x cs _ (i + 1) (by omega), zip_range]
      rfl

/-- Four timesteps of two joints, with a gap after each. -/
example : Ordered [0, 3, 6, 9] 2 12 := by unfold Ordered; decide
example : CoeffsOk 2 [(3 : ℚ), 4] := ⟨by simp, Or.inr (Or.inr rfl)⟩
example : ((newVel [(0 : ℚ), 0] (readVars [0, 3, 6, 9] 2 fun i => (i : ℚ) ^ 2) [3, 4]).bind fun c =>
    (c.velValues).map fun v => (v, c.coeffs)) = some ([9, 15, 27, 33, 45, 51], [3, 4, 3, 4, 3, 4]) := by decide +kernel
example : ((newAcc [(0 : ℚ)] (readVars [0, 1, 2, 3] 1 fun i => (i : ℚ) ^ 3) []).bind fun c => c.accValues) =
    some [6, 12, 6, 12] := by decide +kernel
example : ((newJerk [(0 : ℚ)] (readVars [0, 1, 2, 3, 4, 5] 1 fun i => (i : ℚ) ^ 4) [7]).bind fun c => c.jerkValues) =
    some [36, 60, 84, 36, 60, 84] := by decide +kernel

/-! ### C38 -/

/-- `v` is not below the lower side. -/
def AboveLower (l : Ext K) (v : K) : Prop :=
  match l with
  | .negInf => True
  | .fin a => a ≤ v
  | .posInf => False

/-- `v` is not above the upper side. -/
def BelowUpper (u : Ext K) (v : K) : Prop :=
  match u with
  | .negInf => False
  | .fin a => v ≤ a
  | .posInf => True

/-- The bounds accept the value. -/
def Accepts (b : Bounds K) (v : K) : Prop := AboveLower b.lower v ∧ BelowUpper b.upper v

/-- Every value accepted by its bounds. -/
def AllAccepted (bs : List (Bounds K)) (vs : List K) : Prop := List.Forall₂ Accepts bs vs

/-- The type is up to date (C32). -/
def Current (b : Bounds K) : Prop := b.type = typeOf b.lower b.upper

theorem type_half_lower (l : Ext K) : (Bounds.mk' l .posInf).type ≠ .rangeBound := by
  have h : isFinite (.posInf : Ext K) = false := rfl
  simp only [Bounds.mk', typeOf, h]
  rcases hl : isFinite l <;> simp

theorem type_half_upper (u : Ext K) : (Bounds.mk' .negInf u).type ≠ .rangeBound := by
  have h : isFinite (.negInf : Ext K) = false := rfl
  simp only [Bounds.mk', typeOf, h]
  rcases hl : isFinite u <;> simp

theorem splitLoop_ok (coeffs : List K) (bs : List (Bounds K)) (i : Nat) (h : i + bs.length ≤ coeffs.length) :
    ∃ l, splitLoop coeffs bs i = some l ∧ (∀ t ∈ l, t.1.type ≠ .rangeBound) ∧
      (∀ t ∈ l, i ≤ t.2.1 ∧ t.2.1 < i + bs.length ∧ coeffs[t.2.1]? = some t.2.2) ∧
      ∀ jp : Nat → K, (∀ t ∈ l, Accepts t.1 (jp t.2.1)) ↔ ∀ (j : Nat) (b : Bounds K), bs[j]? = some b → Accepts b (jp (i + j)) := by
  induction bs generalizing i with
  | nil => exact ⟨[], rfl, by simp, by simp, by simp⟩
  | cons b bs ih =>
    simp only [List.length_cons] at h
    obtain ⟨l, a1, a2, a3, a4⟩ := ih (i + 1) (by omega)
    have hc : coeffs[i]? = some (coeffs[i]'(by omega)) := List.getElem?_eq_getElem _
    have hj : ∀ (jp : Nat → K), (∀ (j : Nat) (b' : Bounds K), (b :: bs)[j]? = some b' → Accepts b' (jp (i + j))) ↔
        Accepts b (jp i) ∧ ∀ (j : Nat) (b' : Bounds K), bs[j]? = some b' → Accepts b' (jp (i + 1 + j)) := by
      intro jp
      constructor
      · intro h
        refine ⟨h 0 b rfl, fun j b' hb' => ?_⟩
        have := h (j + 1) b' (by simpa using hb')
        rwa [show i + 1 + j = i + (j + 1) by omega]
      · rintro ⟨h0, h1⟩ j b' hb'
        cases j with
        | zero => simp only [List.getElem?_cons_zero, Option.some.injEq] at hb'; subst hb'; exact h0
        | succ j =>
          have := h1 j b' (by simpa using hb')
          rwa [show i + (j + 1) = i + 1 + j by omega]
    unfold splitLoop
    rw [hc, a1]
    simp only
    by_cases hb : b.type = .rangeBound
    · rw [if_pos hb]
      refine ⟨_, rfl, ?_, ?_, ?_⟩
      · simp only [List.mem_cons, forall_eq_or_imp]
        exact ⟨type_half_lower _, type_half_upper _, a2⟩
      · simp only [List.mem_cons, forall_eq_or_imp, List.length_cons]
        refine ⟨⟨le_rfl, by omega, hc⟩, ⟨le_rfl, by omega, hc⟩, fun t ht => ?_⟩
        obtain ⟨q1, q2, q3⟩ := a3 t ht
        exact ⟨by omega, by omega, q3⟩
      · intro jp
        rw [hj, ← a4 jp]
        simp only [List.mem_cons, forall_eq_or_imp, Accepts, Bounds.mk', AboveLower, BelowUpper]
        tauto
    · rw [if_neg hb]
      refine ⟨_, rfl, ?_, ?_, ?_⟩
      · simp only [List.mem_cons, forall_eq_or_imp]
        exact ⟨hb, a2⟩
      · simp only [List.mem_cons, forall_eq_or_imp, List.length_cons]
        refine ⟨⟨le_rfl, by omega, hc⟩, fun t ht => ?_⟩
        obtain ⟨q1, q2, q3⟩ := a3 t ht
        exact ⟨by omega, by omega, q3⟩
      · intro jp
        rw [hj, ← a4 jp]
        simp only [List.mem_cons, forall_eq_or_imp]

theorem mapM_getElem (l : List Nat) (jp : List K) (h : ∀ i ∈ l, i < jp.length) :
    l.mapM (fun i => jp[i]?) = some (l.map fun i => jp.getD i 0) := by
  induction l with
  | nil => rfl
  | cons a l ih =>
    rw [List.mapM_cons, List.getElem?_eq_getElem (h a (by simp)), ih fun i hi => h i (by simp [hi])]
    simp [List.getD_eq_getElem?_getD, List.getElem?_eq_getElem (h a (by simp))]

theorem forall₂_map {α β γ : Type*} (R : α → β → Prop) (f : γ → α) (g : γ → β) (l : List γ) :
    List.Forall₂ R (l.map f) (l.map g) ↔ ∀ t ∈ l, R (f t) (g t) := by
  induction l with
  | nil => simp
  | cons a l ih => simp [ih]

/-- C38, the part that holds: with one coefficient per joint, splitting leaves no range-bound row and accepts exactly
the joint positions the original bounds accept; each row carries the coefficient of its joint and its Jacobian row
selects that joint. -/
theorem C38_split_partial (bs : List (Bounds K)) (coeffs : List K) (hc : ∀ c ∈ coeffs, 0 < c)
    (hl : coeffs.length = bs.length) (index nv : Nat) (hn : index + bs.length ≤ nv) :
    ∃ c : JointPos K, JointPos.newBounds bs coeffs true = some c ∧ (∀ b ∈ c.bounds, b.type ≠ .rangeBound) ∧
      c.coeffs.length = c.bounds.length ∧ c.indices.length = c.bounds.length ∧
      (∀ r i : Nat, c.indices[r]? = some i → c.coeffs[r]? = coeffs[i]?) ∧
      (∀ jp : List K, jp.length = bs.length → ∃ v, c.getValues jp = some v ∧ (AllAccepted c.bounds v ↔ AllAccepted bs jp) ∧
        ∀ r i : Nat, c.indices[r]? = some i → v[r]? = jp[i]?) ∧
      ∃ J, c.getJacobian index nv = some J ∧ J = c.indices.map fun i => [(index + i, 1)] := by
  obtain ⟨l, a1, a2, a3, a4⟩ := splitLoop_ok coeffs bs 0 (by omega)
  refine ⟨⟨l.map (·.2.2), l.map (·.1), l.map (·.2.1)⟩, ?_, ?_, by simp, by simp, ?_, ?_, ?_⟩
  · unfold JointPos.newBounds
    rw [if_neg (not_not.2 hc)]
    match coeffs, hl with
    | [], hl => simp [a1]
    | [c], hl => simp [a1]
    | c :: c' :: cs, hl =>
      simp only [hl, if_true, a1, Option.map_some]
  · intro b hb
    simp only [List.mem_map] at hb
    obtain ⟨t, ht, rfl⟩ := hb
    exact a2 t ht
  · intro r i h
    simp only [List.getElem?_map, Option.map_eq_some_iff] at h ⊢
    obtain ⟨t, ht, rfl⟩ := h
    rw [ht]
    exact (a3 t (List.mem_of_getElem? ht)).2.2.symm
  · intro jp hjp
    refine ⟨_, mapM_getElem _ jp (by
      intro i hi
      simp only [List.mem_map] at hi
      obtain ⟨t, ht, rfl⟩ := hi
      have := (a3 t ht).2.1
      omega), ?_, ?_⟩
    · rw [AllAccepted, List.map_map, forall₂_map, AllAccepted]
      have := a4 fun i => jp.getD i 0
      simp only [Function.comp]
      rw [this, List.forall₂_iff_get]
      constructor
      · intro h
        refine ⟨hjp.symm, fun i q1 q2 => ?_⟩
        have := h i _ (List.getElem?_eq_getElem q1)
        simpa [List.getD_eq_getElem?_getD, List.getElem?_eq_getElem q2] using this
      · rintro ⟨_, h⟩ i b hb
        obtain ⟨q1, rfl⟩ := List.getElem?_eq_some_iff.1 hb
        have := h i q1 (by omega)
        simpa [List.getD_eq_getElem?_getD, List.getElem?_eq_getElem (show i < jp.length by omega)] using this
    · intro r i h
      simp only [List.getElem?_map, Option.map_eq_some_iff] at h ⊢
      obtain ⟨t, ht, rfl⟩ := h
      rw [ht]
      have := (a3 t (List.mem_of_getElem? ht)).2.1
      simp [List.getD_eq_getElem?_getD, List.getElem?_eq_getElem (show t.2.1 < jp.length by omega)]
  · refine ⟨_, ?_, rfl⟩
    unfold JointPos.getJacobian
    simp only
    have : ∀ m : List Nat, (∀ i ∈ m, i < bs.length) →
        m.mapM (fun i => insertRow nv [(index + i, (1 : K))]) = some (m.map fun i => [(index + i, 1)]) := by
      intro m
      induction m with
      | nil => intro _; rfl
      | cons a m ih =>
        intro h
        rw [List.mapM_cons, ih fun i hi => h i (by simp [hi])]
        have := h a (by simp)
        simp [insertRow, show index + a < nv by omega]
    apply this
    intro i hi
    simp only [List.mem_map] at hi
    obtain ⟨t, ht, rfl⟩ := hi
    have := (a3 t ht).2.1
    omega

theorem splitLoop_short (coeffs : List K) (bs : List (Bounds K)) (i : Nat) (h : i ≤ coeffs.length)
    (h2 : coeffs.length < i + bs.length) : splitLoop coeffs bs i = none := by
  induction bs generalizing i with
  | nil => simp at h2; omega
  | cons b bs ih =>
    unfold splitLoop
    simp only [List.length_cons] at h2
    by_cases hi : i < coeffs.length
    · rw [List.getElem?_eq_getElem hi, ih (i + 1) (by omega) (by omega)]
    · rw [List.getElem?_eq_none (by omega)]

/-- C38 is violated: with the coefficient vectors that are documented to be replicated (none at all, or a single one
for several joints) the default splitting mode reads past the end of the coefficients. -/
theorem C38_violated (bs : List (Bounds K)) (coeffs : List K) (hc : ∀ c ∈ coeffs, 0 < c) (h1 : coeffs.length ≤ 1)
    (h2 : coeffs.length < bs.length) : JointPos.newBounds bs coeffs true = none := by
  have hs := splitLoop_short coeffs bs 0 (Nat.zero_le _) (by omega)
  unfold JointPos.newBounds
  rw [if_neg (not_not.2 hc)]
  match coeffs, h1 with
  | [], _ => simp [hs]
  | [c], _ => simp [hs]

/-- Without splitting the documented replication works: the constraint keeps the bounds it was given. -/
theorem C38_keep (bs : List (Bounds K)) (coeffs : List K) (hc : CoeffsOk bs.length coeffs) :
    ∃ c : JointPos K, JointPos.newBounds bs coeffs false = some c ∧ c.bounds = bs ∧
      (∀ k, k < bs.length → c.coeffs[k]? = some (coeffAt 1 coeffs k)) ∧
      ∀ jp : List K, jp.length = bs.length → c.getValues jp = some jp := by
  have hvals : ∀ jp : List K, jp.length = bs.length →
      (List.range bs.length).mapM (fun i => jp[i]?) = some jp := by
    intro jp hjp
    rw [mapM_getElem _ jp (by intro i hi; rw [hjp]; exact List.mem_range.1 hi)]
    congr 1
    apply List.ext_getElem
    · simp [hjp]
    · intro i q1 q2; simp [List.getD_eq_getElem?_getD, List.getElem?_eq_getElem q2]
  unfold JointPos.newBounds
  rw [if_neg (not_not.2 hc.1)]
  match coeffs, hc with
  | [], _ =>
    exact ⟨_, rfl, rfl, fun k hk => by simp [List.getElem?_replicate, hk, coeffAt], hvals⟩
  | [c], _ =>
    exact ⟨_, rfl, rfl, fun k hk => by simp [List.getElem?_replicate, hk, coeffAt], hvals⟩
  | a :: b :: l, hc =>
    have hl : (a :: b :: l).length = bs.length := by
      rcases hc.2 with h | h | h
      · simp at h
      · simp at h
      · exact h
    simp only [hl, if_true]
    refine ⟨_, rfl, rfl, fun k hk => ?_, hvals⟩
    rw [← hl] at hk
    simp only [coeffAt, List.getD_eq_getElem?_getD, List.getElem?_eq_getElem hk, Option.getD_some]

/-- From a target: every joint is pinned to its target value; a single coefficient is replicated. -/
theorem C38_target (target coeffs : List K) (hc : ∀ c ∈ coeffs, 0 < c)
    (hl : coeffs.length = 1 ∨ coeffs.length = target.length) :
    ∃ c : JointPos K, JointPos.newTarget target coeffs = some c ∧ c.coeffs.length = target.length ∧
      ∀ jp : List K, jp.length = target.length → c.getValues jp = some jp ∧ (AllAccepted c.bounds jp ↔ jp = target) := by
  have hcs : ∀ cs : List K, ∀ jp : List K, jp.length = target.length →
      (⟨cs, target.map fun t => Bounds.mk' (.fin t) (.fin t), List.range target.length⟩ : JointPos K).getValues jp =
        some jp ∧ (AllAccepted (target.map fun t => Bounds.mk' (.fin t) (.fin t)) jp ↔ jp = target) := by
    intro cs jp hjp
    constructor
    · unfold JointPos.getValues
      simp only
      rw [mapM_getElem _ jp (by intro i hi; rw [hjp]; exact List.mem_range.1 hi)]
      congr 1
      apply List.ext_getElem
      · simp [hjp]
      · intro i q1 q2; simp [List.getD_eq_getElem?_getD, List.getElem?_eq_getElem q2]
    · rw [AllAccepted, List.forall₂_iff_get]
      constructor
      · rintro ⟨_, h⟩
        apply List.ext_getElem hjp
        intro i q1 q2
        have := h i (by simp; omega) q1
        simp only [List.get_eq_getElem, List.getElem_map, Accepts, Bounds.mk', AboveLower, BelowUpper] at this
        exact le_antisymm this.2 this.1
      · rintro rfl
        refine ⟨by simp, fun i q1 q2 => ?_⟩
        simp only [List.get_eq_getElem, List.getElem_map, Accepts, Bounds.mk', AboveLower, BelowUpper]
        exact ⟨le_rfl, le_rfl⟩
  unfold JointPos.newTarget
  rw [if_neg (not_not.2 hc)]
  match coeffs, hl with
  | [], hl =>
    simp at hl
    have : target = [] := List.length_eq_zero_iff.1 hl.symm
    subst this
    exact ⟨_, rfl, rfl, hcs _⟩
  | [c], _ =>
    simp only [List.length_replicate, ne_eq, not_true, if_false]
    exact ⟨_, rfl, by simp, hcs _⟩
  | a :: b :: l, hl =>
    have hl' : (a :: b :: l).length = target.length := by
      rcases hl with h | h
      · simp at h
      · exact h
    simp only [hl', ne_eq, not_true, if_false]
    exact ⟨_, rfl, hl', hcs _⟩

/-- A range, an equality and a one-sided bound. -/
def demoBounds : List (Bounds ℚ) := [Bounds.mk' (.fin 0) (.fin 1), Bounds.mk' (.fin 2) (.fin 2), Bounds.mk' .negInf (.fin 5)]

example : (JointPos.newBounds demoBounds [1, 2, 3] true).map (fun c => (c.indices, c.coeffs, c.bounds.map (·.type))) =
    some ([0, 0, 1, 2], [1, 1, 2, 3], [.lowerBound, .upperBound, .equality, .upperBound]) := by decide +kernel
example : (JointPos.newBounds demoBounds [7] true).isNone ∧ (JointPos.newBounds demoBounds [] true).isNone ∧
    (JointPos.newBounds demoBounds [7] false).isSome := by decide +kernel

end Verif.JointConstraints
