import Verif.Model.IfoptPlan
import Verif.Props.JointConstraints
import Verif.Props.VarSets
import Verif.Props.QpRows

/-!
The rows of the joint constraints of a planning problem, for C136 to C138.
-/

set_option linter.unusedSectionVars false
set_option linter.unusedVariables false

namespace Verif.IfoptPlan

open Verif.Bounds Verif.JointConstraints
open Verif.VarSets (Var VarSpec NodesVariables)
open Verif.QpProblem (Snap Comp Penalty State sides Proper)

universe u
variable {K : Type u} [Field K] [LinearOrder K] [IsStrictOrderedRing K]

/-! ### Specification of the terms -/

/-- Specification: how far `v` is below `l`. -/
def below (l : Ext K) (v : K) : K := match l with | .fin a => max (a - v) 0 | _ => 0

/-- Specification: how far `v` is above `u`. -/
def above (u : Ext K) (v : K) : K := match u with | .fin a => max (v - a) 0 | _ => 0

/-- Specification: how far `v` is outside of the bounds. -/
def miss (b : Bounds K) (v : K) : K := below b.lower v + above b.upper v

/-- Specification: the rate of change of a trajectory `q` (step, joint) per step. -/
def rate (q : Nat → Nat → K) (s k : Nat) : K := q (s + 1) k - q s k

/-- Specification: the first step of the stencil used at step `i` of `T` when `w` more steps are needed: `i` itself, or `w` steps earlier near
the end. -/
def stencil (w T i : Nat) : Nat := if i + w < T then i else i - w

/-- Specification: what a term demands of the trajectory `q` with `T` steps: a list of (weight, distance from the demanded value or interval). -/
def Term.gaps (T : Nat) (q : Nat → Nat → K) : Term K → List (K × K)
  | .target s t cs => t.zipIdx.map fun (v, k) => (coeffAt 1 cs k, |q s k - v|)
  | .limits s bs cs => bs.zipIdx.map fun (b, k) => (coeffAt 1 cs k, miss b (q s k))
  | .vel t cs => (List.range (T - 1)).flatMap fun s => t.zipIdx.map fun (v, k) => (coeffAt 5 cs k, |rate q s k - v|)
  | .acc t cs => (List.range T).flatMap fun i => t.zipIdx.map fun (v, k) => (coeffAt 1 cs k, |rate (rate q) (stencil 2 T i) k - v|)
  | .jerk t cs => (List.range T).flatMap fun i => t.zipIdx.map fun (v, k) => (coeffAt 1 cs k, |rate (rate (rate q)) (stencil 3 T i) k - v|)

/-- Specification: total distance from what is demanded. -/
def Term.error (T : Nat) (q : Nat → Nat → K) (t : Term K) : K := ((t.gaps T q).map (·.2)).sum

/-- Specification: weighted sum of squares of the distances. -/
def Term.squares (T : Nat) (q : Nat → Nat → K) (t : Term K) : K := ((t.gaps T q).map fun g => g.1 * g.2 ^ 2).sum

/-- Specification: a number that is not taken for infinity. -/
def Fin20 (v : K) : Prop := |v| < 10 ^ 20

/-- Specification: bounds a user may ask for: an interval or a half line. -/
def Fair (b : Bounds K) : Prop :=
  (∃ l u, b = Bounds.mk' (.fin l) (.fin u) ∧ l ≤ u ∧ Fin20 l ∧ Fin20 u) ∨ (∃ l, b = Bounds.mk' (.fin l) .posInf ∧ Fin20 l) ∨
    ∃ u, b = Bounds.mk' .negInf (.fin u) ∧ Fin20 u

/-- Specification: a term that fits a robot with `dof` joints and a trajectory of `T` steps. -/
def Term.Ok (dof T : Nat) : Term K → Prop
  | .target s t cs => s < T ∧ t.length = dof ∧ (∀ c ∈ cs, 0 < c) ∧ (cs.length = 1 ∨ cs.length = dof) ∧ ∀ v ∈ t, Fin20 v
  | .limits s bs cs => s < T ∧ bs.length = dof ∧ (∀ c ∈ cs, 0 < c) ∧ cs.length = dof ∧ ∀ b ∈ bs, Fair b
  | .vel t cs => 2 ≤ T ∧ t.length = dof ∧ CoeffsOk dof cs ∧ ∀ v ∈ t, Fin20 v
  | .acc t cs => 4 ≤ T ∧ t.length = dof ∧ CoeffsOk dof cs ∧ ∀ v ∈ t, Fin20 v
  | .jerk t cs => 6 ≤ T ∧ t.length = dof ∧ CoeffsOk dof cs ∧ ∀ v ∈ t, Fin20 v

/-- Specification: the penalty suits the term: squared and absolute costs need targets, hinge costs need limits. -/
def Term.Suits : Term K → Option Penalty → Prop
  | _, none => True
  | .limits _ bs _, some .hinge => ∀ b ∈ bs, b.type ≠ .equality
  | _, some .hinge => False
  | .limits _ bs _, some _ => ∀ b ∈ bs, b.type = .equality
  | _, some _ => True

/-! ### Rows -/

/-- A row: value, coefficient, bounds. -/
abbrev Row (K : Type u) := K × K × Bounds K

/-- `s` consists of the rows `L`. -/
structure Shape (n : Nat) (s : Snap K) (L : List (Row K)) : Prop where
  values : s.values = L.map (·.1)
  coeffs : s.coeffs = L.map (·.2.1)
  bounds : s.bounds = L.map (·.2.2)
  count : s.count = L.length
  cols : s.jac.cols = n
  jac : s.jac.rows.length = L.length
  range : ∀ r ∈ s.jac.rows, ∀ q ∈ r, q.1 < n

/-- The values are the Jacobian times the variables: the constraints are linear. -/
def Lin (x : Nat → K) (s : Snap K) : Prop := ∀ p ∈ s.values.zip s.jac.rows, p.1 = SqpExprs.dot p.2 x

/-- Bounds that pin a value. -/
def pin (t : K) : Bounds K := Bounds.mk' (.fin t) (.fin t)

/-- The rows of a split bound. -/
def splitB (v c : K) (b : Bounds K) : List (Row K) :=
  if b.type = .rangeBound then [(v, c, Bounds.mk' b.lower .posInf), (v, c, Bounds.mk' .negInf b.upper)] else [(v, c, b)]

def diffRows (rows dof : Nat) (dflt : K) (t cs : List K) (f : Nat → Nat → K) : List (Row K) :=
  grid rows dof fun i k => (f i k, coeffAt dflt cs k, pin (t.getD k 0))

/-- The rows of a term. -/
def Term.rows (dof T : Nat) (q : Nat → Nat → K) : Term K → List (Row K)
  | .target s t cs => t.zipIdx.map fun (v, k) => (q s k, coeffAt 1 cs k, pin v)
  | .limits s bs cs => bs.zipIdx.flatMap fun (b, k) => splitB (q s k) (coeffAt 1 cs k) b
  | .vel t cs => diffRows (T - 1) dof 5 t cs fun s k => rate q s k
  | .acc t cs => diffRows T dof 1 t cs fun i k => rate (rate q) (stencil 2 T i) k
  | .jerk t cs => diffRows T dof 1 t cs fun i k => rate (rate (rate q)) (stencil 3 T i) k

theorem eq_grid {α : Type*} (n dof : Nat) (hd : 0 < dof) (f : Nat → Nat → α) (l : List α) (hl : l.length = n * dof)
    (h : ∀ i, i < n → ∀ k, k < dof → l[i * dof + k]? = some (f i k)) : l = grid n dof f := by
  apply List.ext_getElem?
  intro j
  by_cases hj : j < n * dof
  · have e : j = j / dof * dof + j % dof := by rw [Nat.mul_comm]; exact (Nat.div_add_mod j dof).symm
    have h1 : j / dof < n := (Nat.div_lt_iff_lt_mul hd).2 hj
    have h2 : j % dof < dof := Nat.mod_lt _ hd
    rw [e, h _ h1 _ h2, grid_get _ _ _ _ _ h1 h2]
  · rw [List.getElem?_eq_none (by omega), List.getElem?_eq_none (by rw [grid_length]; omega)]

theorem grid_map {α β : Type*} (n dof : Nat) (f : Nat → Nat → α) (g : α → β) : (grid n dof f).map g = grid n dof fun i k => g (f i k) := by
  unfold grid
  rw [List.map_flatten, List.map_map]
  congr 1
  refine List.map_congr_left fun i _ => ?_
  simp

theorem mem_grid {α : Type*} {n dof : Nat} {f : Nat → Nat → α} {a : α} : a ∈ grid n dof f ↔ ∃ i < n, ∃ k < dof, f i k = a := by
  unfold grid
  simp only [List.mem_flatten, List.mem_map, List.mem_range]
  constructor
  · rintro ⟨l, ⟨i, hi, rfl⟩, h⟩
    simp only [List.mem_map, List.mem_range] at h
    obtain ⟨k, hk, rfl⟩ := h
    exact ⟨i, hi, k, hk, rfl⟩
  · rintro ⟨i, hi, k, hk, rfl⟩
    exact ⟨_, ⟨i, hi, rfl⟩, by simp only [List.mem_map, List.mem_range]; exact ⟨k, hk, rfl⟩⟩

/-! ### The variables are read by index and value only -/

/-- The same variables, as far as constraints can tell. -/
def Same (vs ws : List (Var K)) : Prop := vs.map (fun v => (v.index, v.values)) = ws.map fun v => (v.index, v.values)

theorem Same.length {vs ws : List (Var K)} (h : Same vs ws) : vs.length = ws.length := by
  have := congrArg List.length h; simpa using this

theorem Same.get {vs ws : List (Var K)} (h : Same vs ws) (i : Nat) :
    (vs[i]?.map fun v => (v.index, v.values)) = ws[i]?.map fun v => (v.index, v.values) := by
  have := congrArg (fun l => l[i]?) h
  simpa using this

theorem q_same {vs ws : List (Var K)} (h : Same vs ws) (d : Nat) (cs : List K) (bs : List (Bounds K)) :
    (⟨d, vs, cs, bs⟩ : Diff K).q = (⟨d, ws, cs, bs⟩ : Diff K).q := by
  funext i
  have := h.get i
  unfold Diff.q
  simp only
  cases h1 : vs[i]? <;> cases h2 : ws[i]? <;> simp_all

theorem col_same {vs ws : List (Var K)} (h : Same vs ws) (d : Nat) (cs : List K) (bs : List (Bounds K)) :
    (⟨d, vs, cs, bs⟩ : Diff K).col = (⟨d, ws, cs, bs⟩ : Diff K).col := by
  funext i
  have := h.get i
  unfold Diff.col
  simp only
  cases h1 : vs[i]? <;> cases h2 : ws[i]? <;> simp_all

theorem vel_same {vs ws : List (Var K)} (h : Same vs ws) (n : Nat) (t cs : List K) :
    (newVel t vs cs).bind (diffSnap Diff.velValues Diff.velJac n) = (newVel t ws cs).bind (diffSnap Diff.velValues Diff.velJac n) := by
  unfold newVel
  rw [h.length]
  by_cases hl : ws.length < 2
  · rw [if_pos hl, if_pos hl]
  rw [if_neg hl, if_neg hl]
  cases expandCoeffs t.length (ws.length - 1) 5 cs with
  | none => rfl
  | some c =>
    simp only [Option.map_some, Option.bind_some, diffSnap]
    have hq := q_same h t.length c (targetBounds t (ws.length - 1))
    have hc := col_same h t.length c (targetBounds t (ws.length - 1))
    have e1 : (⟨t.length, vs, c, targetBounds t (ws.length - 1)⟩ : Diff K).velValues = (⟨t.length, ws, c, targetBounds t (ws.length - 1)⟩ : Diff K).velValues := by
      unfold Diff.velValues Diff.velStep
      rw [hq, h.length]
    have e2 : (⟨t.length, vs, c, targetBounds t (ws.length - 1)⟩ : Diff K).velJac n = (⟨t.length, ws, c, targetBounds t (ws.length - 1)⟩ : Diff K).velJac n := by
      unfold Diff.velJac Diff.velJacStep
      rw [hc, h.length]
    rw [e1, e2]

theorem acc_same {vs ws : List (Var K)} (h : Same vs ws) (n : Nat) (t cs : List K) :
    (newAcc t vs cs).bind (diffSnap Diff.accValues Diff.accJac n) = (newAcc t ws cs).bind (diffSnap Diff.accValues Diff.accJac n) := by
  unfold newAcc
  rw [h.length]
  by_cases hl : ws.length < 4
  · rw [if_pos hl, if_pos hl]
  rw [if_neg hl, if_neg hl]
  cases expandCoeffs t.length ws.length 1 cs with
  | none => rfl
  | some c =>
    simp only [Option.map_some, Option.bind_some, diffSnap]
    have hq := q_same h t.length c (targetBounds t ws.length)
    have hc := col_same h t.length c (targetBounds t ws.length)
    have e1 : (⟨t.length, vs, c, targetBounds t ws.length⟩ : Diff K).accValues = (⟨t.length, ws, c, targetBounds t ws.length⟩ : Diff K).accValues := by
      unfold Diff.accValues Diff.accStep
      rw [hq, h.length]
    have e2 : (⟨t.length, vs, c, targetBounds t ws.length⟩ : Diff K).accJac n = (⟨t.length, ws, c, targetBounds t ws.length⟩ : Diff K).accJac n := by
      unfold Diff.accJac Diff.accJacStep
      rw [hc, h.length]
    rw [e1, e2]

theorem jerk_same {vs ws : List (Var K)} (h : Same vs ws) (n : Nat) (t cs : List K) :
    (newJerk t vs cs).bind (diffSnap Diff.jerkValues Diff.jerkJac n) = (newJerk t ws cs).bind (diffSnap Diff.jerkValues Diff.jerkJac n) := by
  unfold newJerk
  rw [h.length]
  by_cases hl : ws.length < 6
  · rw [if_pos hl, if_pos hl]
  rw [if_neg hl, if_neg hl]
  cases expandCoeffs t.length ws.length 1 cs with
  | none => rfl
  | some c =>
    simp only [Option.map_some, Option.bind_some, diffSnap]
    have hq := q_same h t.length c (targetBounds t ws.length)
    have hc := col_same h t.length c (targetBounds t ws.length)
    have e1 : (⟨t.length, vs, c, targetBounds t ws.length⟩ : Diff K).jerkValues = (⟨t.length, ws, c, targetBounds t ws.length⟩ : Diff K).jerkValues := by
      unfold Diff.jerkValues Diff.jerkStep
      rw [hq, h.length]
    have e2 : (⟨t.length, vs, c, targetBounds t ws.length⟩ : Diff K).jerkJac n = (⟨t.length, ws, c, targetBounds t ws.length⟩ : Diff K).jerkJac n := by
      unfold Diff.jerkJac Diff.jerkJacStep
      rw [hc, h.length]
    rw [e1, e2]

theorem snap_same {vs ws : List (Var K)} (h : Same vs ws) (n : Nat) (t : Term K) : t.snap n vs = t.snap n ws := by
  have hp : ∀ (s : Nat) (c : Option (JointPos K)), (match vs[s]?, c with | some v, some c => posSnap n v c | _, _ => none) =
      (match ws[s]?, c with | some v, some c => posSnap n v c | _, _ => none) := by
    intro s c
    have := h.get s
    cases h1 : vs[s]? <;> cases h2 : ws[s]? <;> rw [h1, h2] at this <;> simp at this
    cases c with
    | none => rfl
    | some c =>
      simp only [posSnap]
      rw [this.1, this.2]
  cases t with
  | target s t cs => exact hp s _
  | limits s bs cs => exact hp s _
  | vel t cs => exact vel_same h n t cs
  | acc t cs => exact acc_same h n t cs
  | jerk t cs => exact jerk_same h n t cs

/-! ### The rows of the difference constraints -/

theorem promise_shape {new : List (Var K) → Option (Diff K)} {values : Diff K → Option (List K)}
    {jac : Diff K → Nat → Option (List (List (Nat × K)))} {idx : List Nat} {targets coeffs : List K} {dflt : K}
    {nv rows : Nat} {start : Nat → Nat} {D : (Nat → K) → Nat → K} (hd : 0 < targets.length)
    (h : Promise new values jac idx targets coeffs dflt nv rows start D) (h0 : ∀ i, D (fun _ => 0) i = 0) (x : Nat → K) :
    ∃ s, (new (readVars idx targets.length x)).bind (diffSnap values jac nv) = some s ∧
      Shape nv s (diffRows rows targets.length dflt targets coeffs fun i k => D (traj idx x k) (start i)) ∧ Lin x s := by
  obtain ⟨J, j1, j2, j3, j4⟩ := h
  obtain ⟨c, v, a1, a2, a3, a4, a5, a6, a7⟩ := j2 x
  refine ⟨⟨v, ⟨nv, J⟩, c.coeffs, c.bounds, v.length⟩, by simp [a1, diffSnap, a2, a3], ?_⟩
  refine ⟨⟨?_, ?_, ?_, ?_, rfl, ?_, fun r hr => (j3 r hr).2⟩, ?_⟩
  · rw [diffRows, grid_map]
    exact eq_grid _ _ hd _ _ a4 fun i hi k hk => (a7 i hi k hk).1
  · rw [diffRows, grid_map]
    exact eq_grid _ _ hd _ _ a5 fun i hi k hk => (a7 i hi k hk).2.1
  · rw [diffRows, grid_map]
    exact eq_grid _ _ hd _ _ a6 fun i hi k hk => (a7 i hi k hk).2.2
  · rw [diffRows, grid_length]; exact a4
  · rw [diffRows, grid_length]; exact j1
  · rintro ⟨a, r⟩ hp
    obtain ⟨j, hj⟩ := List.mem_iff_getElem?.1 hp
    rw [List.getElem?_zip_eq_some] at hj
    obtain ⟨h1, h2⟩ := hj
    have hlt : j < rows * targets.length := by rw [← a4]; exact (List.getElem?_eq_some_iff.1 h1).1
    have e : j = j / targets.length * targets.length + j % targets.length := by rw [Nat.mul_comm]; exact (Nat.div_add_mod j _).symm
    have g1 : j / targets.length < rows := (Nat.div_lt_iff_lt_mul hd).2 hlt
    have g2 : j % targets.length < targets.length := Nat.mod_lt _ hd
    obtain ⟨row, r1, r2⟩ := j4 0 x _ g1 _ g2
    have v1 := (a7 _ g1 _ g2).1
    rw [← e] at r1 v1
    rw [show (⟨v, ⟨nv, J⟩, c.coeffs, c.bounds, v.length⟩ : Snap K).values = v from rfl, v1] at h1
    rw [show (⟨v, ⟨nv, J⟩, c.coeffs, c.bounds, v.length⟩ : Snap K).jac.rows = J from rfl, r1] at h2
    injection h1 with h1; injection h2 with h2
    subst h1; subst h2
    rw [zero_add, show traj idx (0 : Nat → K) (j % targets.length) = fun _ => 0 from rfl, h0, zero_add] at r2
    exact r2

/-! ### The rows of the position constraints -/

theorem readVars_get (idx : List Nat) (dof : Nat) (x : Nat → K) (s : Nat) (hs : s < idx.length) :
    (readVars idx dof x)[s]? = some ⟨idx.getD s 0, (List.range dof).map fun k => x (idx.getD s 0 + k), List.replicate dof (none, none)⟩ := by
  simp [readVars, List.getD_eq_getElem?_getD, List.getElem?_eq_getElem hs]

theorem jac_some (ids : List Nat) (index n dof : Nat) (hn : index + dof ≤ n) (hi : ∀ i ∈ ids, i < dof) :
    ids.mapM (fun i => insertRow n [(index + i, (1 : K))]) = some (ids.map fun i => [(index + i, 1)]) := by
  induction ids with
  | nil => rfl
  | cons a m ih =>
    rw [List.mapM_cons, ih fun i h => hi i (by simp [h])]
    have := hi a (by simp)
    simp [insertRow, show index + a < n by omega]

/-- A position constraint whose rows are `M` (joint, coefficient, bounds). -/
theorem pos_shape (idx : List Nat) (n dof s : Nat) (x : Nat → K) (hs : s < idx.length) (hn : ∀ i ∈ idx, i + dof ≤ n)
    (M : List (Bounds K × Nat × K)) (hM : ∀ m ∈ M, m.2.1 < dof) (v : Var K) (hv : (readVars idx dof x)[s]? = some v) :
    ∃ r, posSnap n v ⟨M.map (·.2.2), M.map (·.1), M.map (·.2.1)⟩ = some r ∧
      Shape n r (M.map fun m => (traj idx x m.2.1 s, m.2.2, m.1)) ∧ Lin x r := by
  rw [readVars_get idx dof x s hs] at hv
  injection hv with hv
  subst hv
  have hd : ∀ i ∈ M.map (fun m => m.2.1), i < dof := by
    intro i hi; simp only [List.mem_map] at hi; obtain ⟨m, hm, rfl⟩ := hi; exact hM m hm
  have hin : idx.getD s 0 + dof ≤ n := by
    rw [List.getD_eq_getElem?_getD, List.getElem?_eq_getElem hs]; exact hn _ (List.getElem_mem _)
  unfold posSnap JointPos.getValues JointPos.getJacobian
  simp only
  rw [mapM_getElem _ _ (by intro i hi; simpa using hd i hi), jac_some _ _ _ _ hin hd]
  refine ⟨_, rfl, ?_⟩
  have hval : (M.map (fun m => m.2.1)).map (fun i => ((List.range dof).map fun k => x (idx.getD s 0 + k)).getD i 0) =
      M.map fun m => traj idx x m.2.1 s := by
    rw [List.map_map]
    refine List.map_congr_left fun m hm => ?_
    simp only [Function.comp, traj, List.getD_eq_getElem?_getD, List.getElem?_map, List.getElem?_range (hM m hm), Option.map_some, Option.getD_some]
  refine ⟨⟨?_, ?_, ?_, ?_, rfl, ?_, ?_⟩, ?_⟩
  · simp only [hval, List.map_map]; rfl
  · simp only [List.map_map]; rfl
  · simp only [List.map_map]; rfl
  · simp
  · simp
  · intro r hr q hq
    simp only [List.mem_map] at hr
    obtain ⟨i, ⟨m, hm, rfl⟩, rfl⟩ := hr
    simp only [List.mem_singleton] at hq
    subst hq
    have := hM m hm
    show idx.getD s 0 + m.2.1 < n
    omega
  · rintro ⟨a, r⟩ hp
    simp only [hval, List.map_map, List.zip_map', List.mem_map, Prod.mk.injEq] at hp
    obtain ⟨m, -, rfl, rfl⟩ := hp
    simp [SqpExprs.dot, traj]

theorem splitLoop_eq (cs : List K) (bs : List (Bounds K)) (i : Nat) (h : i + bs.length ≤ cs.length) :
    ∃ M, splitLoop cs bs i = some M ∧ (∀ m ∈ M, m.2.1 < i + bs.length) ∧ ∀ f : Nat → K,
      (M.map fun m => ((f m.2.1, m.2.2, m.1) : Row K)) = (bs.zipIdx i).flatMap fun (b, k) => splitB (f k) (cs.getD k 0) b := by
  induction bs generalizing i with
  | nil => exact ⟨[], rfl, by simp, by simp⟩
  | cons b bs ih =>
    simp only [List.length_cons] at h
    obtain ⟨M, a1, a2, a3⟩ := ih (i + 1) (by omega)
    have hc : cs[i]? = some (cs[i]'(by omega)) := List.getElem?_eq_getElem _
    have hg : cs.getD i 0 = cs[i]'(by omega) := by rw [List.getD_eq_getElem?_getD, hc]; rfl
    unfold splitLoop
    rw [hc, a1]
    simp only
    by_cases hb : b.type = .rangeBound
    · rw [if_pos hb]
      refine ⟨_, rfl, ?_, fun f => ?_⟩
      · intro m hm
        simp only [List.mem_cons] at hm
        rcases hm with rfl | rfl | hm
        · show i < _; simp
        · show i < _; simp
        · have := a2 m hm; simp only [List.length_cons]; omega
      · rw [List.zipIdx_cons, List.flatMap_cons, List.map_cons, List.map_cons, a3 f]
        simp only [splitB, if_pos hb, hg]; rfl
    · rw [if_neg hb]
      refine ⟨_, rfl, ?_, fun f => ?_⟩
      · intro m hm
        simp only [List.mem_cons] at hm
        rcases hm with rfl | hm
        · show i < _; simp
        · have := a2 m hm; simp only [List.length_cons]; omega
      · rw [List.zipIdx_cons, List.flatMap_cons, List.map_cons, a3 f]
        simp only [splitB, if_neg hb, hg]; rfl

theorem coeffAt_full (d : K) (cs : List K) (k : Nat) (hk : k < cs.length) : coeffAt d cs k = cs.getD k 0 := by
  match cs, hk with
  | [c], hk => simp only [List.length_cons, List.length_nil] at hk; have : k = 0 := by omega
               subst this; rfl
  | c :: c' :: cs, hk => rfl

/-- What a term that fits answers: its rows. -/
theorem term_shape {dof : Nat} (hd : 0 < dof) {idx : List Nat} {n : Nat} (ho : Ordered idx dof n) (x : Nat → K) {t : Term K}
    (ht : t.Ok dof idx.length) : ∃ s, t.snap n (readVars idx dof x) = some s ∧ Shape n s (t.rows dof idx.length fun s k => traj idx x k s) ∧ Lin x s := by
  cases t with
  | target s t cs =>
    obtain ⟨h1, rfl, h3, h4, -⟩ := ht
    obtain ⟨v, hv⟩ : ∃ v, (readVars idx t.length x)[s]? = some v := ⟨_, readVars_get idx _ x s h1⟩
    have hM : ∃ cs', JointPos.newTarget t cs = some ⟨cs', t.map pin, List.range t.length⟩ ∧ cs'.length = t.length ∧
        ∀ k, k < t.length → cs'[k]? = some (coeffAt 1 cs k) := by
      unfold JointPos.newTarget
      rw [if_neg (not_not.2 h3)]
      match cs, h4 with
      | [], h4 => simp at h4; omega
      | [c], _ =>
        simp only [List.length_replicate, ne_eq, not_true, if_false]
        exact ⟨_, rfl, by simp, fun k hk => by simp [List.getElem?_replicate, hk, coeffAt]⟩
      | a :: b :: l, h4 =>
        have hl : (a :: b :: l).length = t.length := by rcases h4 with h | h
                                                        · simp at h
                                                        · exact h
        simp only [hl, ne_eq, not_true, if_false]
        refine ⟨_, rfl, hl, fun k hk => ?_⟩
        rw [← hl] at hk
        rw [coeffAt_full _ _ _ hk, List.getD_eq_getElem?_getD, List.getElem?_eq_getElem hk]; rfl
    obtain ⟨cs', b1, b2, b3⟩ := hM
    set M : List (Bounds K × Nat × K) := t.zipIdx.map fun (w, k) => (pin w, k, coeffAt 1 cs k) with hMdef
    have e1 : M.map (·.2.2) = cs' := by
      apply List.ext_getElem?
      intro k
      simp only [hMdef, List.map_map, List.getElem?_map, List.getElem?_zipIdx]
      by_cases hk : k < t.length
      · rw [b3 k hk, List.getElem?_eq_getElem hk]; simp
      · rw [List.getElem?_eq_none (by omega), List.getElem?_eq_none (by omega)]; rfl
    have e2 : M.map (·.1) = t.map pin := by
      apply List.ext_getElem?
      intro k
      simp only [hMdef, List.map_map, List.getElem?_map, List.getElem?_zipIdx]
      cases t[k]? <;> rfl
    have e3 : M.map (·.2.1) = List.range t.length := by
      apply List.ext_getElem?
      intro k
      simp only [hMdef, List.map_map, List.getElem?_map, List.getElem?_zipIdx]
      by_cases hk : k < t.length
      · rw [List.getElem?_eq_getElem hk, List.getElem?_range hk]; simp
      · rw [List.getElem?_eq_none (by omega), List.getElem?_eq_none (by simp; omega)]; rfl
    have hM : ∀ m ∈ M, m.2.1 < t.length := by
      intro m hm
      have : m.2.1 ∈ M.map (fun m => m.2.1) := List.mem_map_of_mem hm
      rw [e3] at this; exact List.mem_range.1 this
    obtain ⟨r, r1, r2, r3⟩ := pos_shape idx n t.length s x h1 ho.2 M hM v hv
    rw [e1, e2, e3] at r1
    refine ⟨r, ?_, ?_, r3⟩
    · simp only [Term.snap, hv, b1]; exact r1
    · have : (t.zipIdx.map fun (w, k) => (((traj idx x k s), coeffAt 1 cs k, pin w) : Row K)) = M.map fun m => (traj idx x m.2.1 s, m.2.2, m.1) := by
        rw [hMdef, List.map_map]; rfl
      show Shape n r (t.zipIdx.map fun (w, k) => (((traj idx x k s), coeffAt 1 cs k, pin w) : Row K))
      rw [this]; exact r2
  | limits s bs cs =>
    obtain ⟨h1, rfl, h3, h4, h5⟩ := ht
    obtain ⟨v, hv⟩ : ∃ v, (readVars idx bs.length x)[s]? = some v := ⟨_, readVars_get idx _ x s h1⟩
    obtain ⟨M, a1, a2, a3⟩ := splitLoop_eq cs bs 0 (by omega)
    have hb : JointPos.newBounds bs cs true = some ⟨M.map (·.2.2), M.map (·.1), M.map (·.2.1)⟩ := by
      unfold JointPos.newBounds
      rw [if_neg (not_not.2 h3)]
      match cs, h4 with
      | [], h4 => simp [a1]
      | [c], h4 => simp [a1]
      | c :: c' :: cs, h4 => simp only [h4, if_true, a1, Option.map_some]
    obtain ⟨r, r1, r2, r3⟩ := pos_shape idx n bs.length s x h1 ho.2 M (fun m hm => by have := a2 m hm; omega) v hv
    refine ⟨r, ?_, ?_, r3⟩
    · simp only [Term.snap, hv, hb]; exact r1
    · rw [a3 fun k => traj idx x k s] at r2
      have : (bs.zipIdx.flatMap fun (b, k) => splitB (traj idx x k s) (cs.getD k 0) b) =
          bs.zipIdx.flatMap fun (b, k) => splitB (traj idx x k s) (coeffAt 1 cs k) b := by
        apply List.flatMap_congr
        rintro ⟨b, k⟩ hbk
        have hk : k < bs.length := by
          have := List.mem_zipIdx hbk; omega
        show splitB _ (cs.getD k 0) b = splitB _ (coeffAt 1 cs k) b
        rw [coeffAt_full 1 cs k (by omega)]
      rw [this] at r2
      exact r2
  | vel t cs =>
    obtain ⟨h1, rfl, h3, -⟩ := ht
    exact promise_shape hd (C37_velocity t cs idx n h1 h3 ho) (fun i => by simp [delta]) x
  | acc t cs =>
    obtain ⟨h1, rfl, h3, -⟩ := ht
    exact promise_shape hd (C37_acceleration t cs idx n h1 h3 ho) (fun i => by simp [delta]) x
  | jerk t cs =>
    obtain ⟨h1, rfl, h3, -⟩ := ht
    exact promise_shape hd (C37_jerk t cs idx n h1 h3 ho) (fun i => by simp [delta]) x

/-! ### Facts about the rows -/

theorem fin20 {v : K} (h : Fin20 v) : isFinite (.fin v) = true := by
  obtain ⟨h1, h2⟩ := abs_lt.1 h
  simp [isFinite, h1, h2]

theorem pin_eq {t : K} (h : Fin20 t) : pin t = ⟨.fin t, .fin t, .equality⟩ := by
  simp [pin, Bounds.mk', typeOf, fin20 h, narrow]

theorem lower_eq {l : K} (h : Fin20 l) : Bounds.mk' (.fin l) .posInf = ⟨.fin l, .posInf, .lowerBound⟩ := by
  have : isFinite (.posInf : Ext K) = false := rfl
  simp [Bounds.mk', typeOf, fin20 h, this]

theorem upper_eq {u : K} (h : Fin20 u) : Bounds.mk' .negInf (.fin u) = ⟨.negInf, .fin u, .upperBound⟩ := by
  have : isFinite (.negInf : Ext K) = false := rfl
  simp [Bounds.mk', typeOf, fin20 h, this]

theorem range_type {l u : K} (h : Fin20 l) (h' : Fin20 u) :
    (Bounds.mk' (.fin l) (.fin u)).type = .rangeBound ∨ Bounds.mk' (.fin l) (.fin u) = ⟨.fin l, .fin u, .equality⟩ := by
  by_cases hn : |u - l| < 1 / 10 ^ 8
  · right; simp only [Bounds.mk', typeOf, fin20 h, fin20 h', narrow]; simp [hn]
    simpa using hn
  · left; simp only [Bounds.mk', typeOf, fin20 h, fin20 h', narrow]; simp [hn]
    exact not_lt.1 (by simpa using hn)

/-- Weight and violation of a row. -/
def wv (r : Row K) : K × K := (r.2.1, violB r.1 (sides r.2.2))

theorem viol_pin (v t : K) (h : Fin20 t) : violB v (sides (pin t)) = |v - t| := by
  rw [pin_eq h]
  simp only [violB, sides]
  split_ifs with h1 h2
  · rfl
  · rfl
  · have : v = t := le_antisymm (not_lt.1 h2) (not_lt.1 h1)
    rw [this, sub_self, abs_zero]

theorem viol_lower (v l : K) (h : Fin20 l) : violB v (sides (Bounds.mk' (.fin l) .posInf)) = max (l - v) 0 := by
  rw [lower_eq h]
  simp only [violB, sides]
  split_ifs with h1
  · rw [abs_of_neg (by linarith), max_eq_left (by linarith)]; ring
  · rw [max_eq_right (by linarith)]

theorem viol_upper (v u : K) (h : Fin20 u) : violB v (sides (Bounds.mk' .negInf (.fin u))) = max (v - u) 0 := by
  rw [upper_eq h]
  simp only [violB, sides]
  split_ifs with h1
  · rw [abs_of_pos (by linarith), max_eq_left (by linarith)]
  · rw [max_eq_right (by linarith)]

theorem viol_both (v l u : K) (h : l ≤ u) : violB v (some l, some u) = max (l - v) 0 + max (v - u) 0 := by
  simp only [violB]
  split_ifs with h1 h2
  · rw [abs_of_neg (by linarith), max_eq_left (by linarith), max_eq_right (by linarith)]; ring
  · rw [abs_of_pos (by linarith), max_eq_right (by linarith), max_eq_left (by linarith)]; ring
  · rw [max_eq_right (by linarith), max_eq_right (by linarith)]; ring

theorem split_sum (v c : K) {b : Bounds K} (h : Fair b) : (((splitB v c b).map wv).map (·.2)).sum = miss b v := by
  rcases h with ⟨l, u, rfl, hlu, h1, h2⟩ | ⟨l, rfl, h1⟩ | ⟨u, rfl, h1⟩
  · unfold splitB
    rcases range_type h1 h2 with h3 | h3
    · rw [if_pos h3]
      have e1 := viol_lower v l h1
      have e2 := viol_upper v u h2
      simp only [Bounds.mk'] at e1 e2
      simp only [Bounds.mk', List.map_cons, List.map_nil, wv, List.sum_cons, List.sum_nil, e1, e2, miss, below, above]; ring
    · rw [h3, if_neg (by simp)]
      simp only [List.map_cons, List.map_nil, wv, List.sum_cons, List.sum_nil, sides, viol_both v l u hlu, miss, below, above]; ring
  · rw [splitB, if_neg (by rw [lower_eq h1]; simp)]
    simp only [List.map_cons, List.map_nil, wv, List.sum_cons, List.sum_nil, viol_lower v l h1]
    simp [miss, below, above, Bounds.mk']
  · rw [splitB, if_neg (by rw [upper_eq h1]; simp)]
    simp only [List.map_cons, List.map_nil, wv, List.sum_cons, List.sum_nil, viol_upper v u h1]
    simp [miss, below, above, Bounds.mk']

theorem zipIdx_range {α β : Type*} (d : α) (l : List α) (g : α → Nat → β) :
    (List.range l.length).map (fun k => g (l.getD k d) k) = l.zipIdx.map fun (v, k) => g v k := by
  apply List.ext_getElem?
  intro k
  simp only [List.getElem?_map, List.getElem?_zipIdx]
  by_cases hk : k < l.length
  · rw [List.getElem?_range hk, List.getElem?_eq_getElem hk]
    simp [List.getD_eq_getElem?_getD, List.getElem?_eq_getElem hk]
  · rw [List.getElem?_eq_none (by simp; omega), List.getElem?_eq_none (by omega)]; rfl

theorem getD_fin {t : List K} (h : ∀ v ∈ t, Fin20 v) {k : Nat} (hk : k < t.length) : Fin20 (t.getD k 0) := by
  rw [List.getD_eq_getElem?_getD, List.getElem?_eq_getElem hk]; exact h _ (List.getElem_mem _)

theorem diff_gaps (rows : Nat) (dflt : K) (t cs : List K) (f : Nat → Nat → K) (h : ∀ v ∈ t, Fin20 v) :
    (diffRows rows t.length dflt t cs f).map wv = (List.range rows).flatMap fun i => t.zipIdx.map fun (v, k) => (coeffAt dflt cs k, |f i k - v|) := by
  rw [diffRows, grid_map, grid, VarSets.flatten_map_eq]
  apply List.flatMap_congr
  intro i _
  rw [← zipIdx_range 0 t fun v k => (coeffAt dflt cs k, |f i k - v|)]
  refine List.map_congr_left fun k hk => ?_
  simp only [wv, viol_pin _ _ (getD_fin h (List.mem_range.1 hk))]

/-- Whether every row of a term belongs to one demand. -/
def Term.Single : Term K → Prop
  | .limits _ bs _ => ∀ b ∈ bs, b.type = .equality
  | _ => True

theorem rows_gaps {dof T : Nat} (q : Nat → Nat → K) {t : Term K} (ht : t.Ok dof T) (hs : t.Single) : (t.rows dof T q).map wv = t.gaps T q := by
  cases t with
  | target s t cs =>
    obtain ⟨h1, rfl, h3, h4, h5⟩ := ht
    simp only [Term.rows, Term.gaps, List.map_map]
    refine List.map_congr_left ?_
    rintro ⟨v, k⟩ hv
    have : v ∈ t := by have := List.fst_mem_of_mem_zipIdx hv; exact this
    simp only [Function.comp, wv, viol_pin _ _ (h5 v this)]
  | limits s bs cs =>
    obtain ⟨h1, rfl, h3, h4, h5⟩ := ht
    simp only [Term.rows, Term.gaps, List.map_flatMap]
    rw [← VarSets.flatten_map_eq, List.map_congr_left (g := fun bk : Bounds K × Nat => [(coeffAt 1 cs bk.2, miss bk.1 (q s bk.2))])]
    · rw [VarSets.flatten_map_eq]
      generalize bs.zipIdx = l
      induction l with
      | nil => rfl
      | cons a l ih => rw [List.flatMap_cons, ih]; rfl
    · rintro ⟨b, k⟩ hb
      have hm : b ∈ bs := List.fst_mem_of_mem_zipIdx hb
      have key := split_sum (q s k) (coeffAt 1 cs k) (h5 b hm)
      have he : b.type ≠ .rangeBound := by rw [hs b hm]; simp
      simp only [splitB, if_neg he, List.map_cons, List.map_nil, List.sum_cons, List.sum_nil, add_zero] at key ⊢
      rw [← key]; rfl
  | vel t cs => obtain ⟨h1, rfl, h3, h4⟩ := ht; exact diff_gaps _ _ _ _ _ h4
  | acc t cs => obtain ⟨h1, rfl, h3, h4⟩ := ht; exact diff_gaps _ _ _ _ _ h4
  | jerk t cs => obtain ⟨h1, rfl, h3, h4⟩ := ht; exact diff_gaps _ _ _ _ _ h4

theorem sum_flatMap {α : Type*} (f : α → List K) (l : List α) : (l.flatMap f).sum = (l.map fun a => (f a).sum).sum := by
  induction l with
  | nil => rfl
  | cons a l ih => rw [List.flatMap_cons, List.sum_append, ih, List.map_cons, List.sum_cons]

theorem rows_error {dof T : Nat} (q : Nat → Nat → K) {t : Term K} (ht : t.Ok dof T) : (((t.rows dof T q).map wv).map (·.2)).sum = t.error T q := by
  cases t with
  | limits s bs cs =>
    obtain ⟨h1, rfl, h3, h4, h5⟩ := ht
    simp only [Term.rows, Term.error, Term.gaps, List.map_flatMap, List.map_map]
    rw [sum_flatMap]
    congr 1
    refine List.map_congr_left ?_
    rintro ⟨b, k⟩ hb
    have := split_sum (q s k) (coeffAt 1 cs k) (h5 b (List.fst_mem_of_mem_zipIdx hb))
    rw [List.map_map] at this
    exact this
  | target s t cs => rw [rows_gaps q ht trivial]; rfl
  | vel t cs => rw [rows_gaps q ht trivial]; rfl
  | acc t cs => rw [rows_gaps q ht trivial]; rfl
  | jerk t cs => rw [rows_gaps q ht trivial]; rfl

theorem split_proper (v c : K) {b : Bounds K} (h : Fair b) : ∀ r ∈ splitB v c b, Proper r.2.2 := by
  rcases h with ⟨l, u, rfl, hlu, h1, h2⟩ | ⟨l, rfl, h1⟩ | ⟨u, rfl, h1⟩
  · unfold splitB
    rcases range_type h1 h2 with h3 | h3
    · rw [if_pos h3]
      intro r hr
      simp only [List.mem_cons, List.not_mem_nil, or_false] at hr
      rcases hr with rfl | rfl
      · exact .inr (.inl ⟨l, lower_eq h1⟩)
      · exact .inr (.inr ⟨u, upper_eq h2⟩)
    · rw [h3, if_neg (by simp)]
      intro r hr
      rw [List.mem_singleton] at hr; subst hr
      exact .inl ⟨l, u, rfl, hlu⟩
  · rw [splitB, if_neg (by rw [lower_eq h1]; simp)]
    intro r hr
    rw [List.mem_singleton] at hr; subst hr
    exact .inr (.inl ⟨l, lower_eq h1⟩)
  · rw [splitB, if_neg (by rw [upper_eq h1]; simp)]
    intro r hr
    rw [List.mem_singleton] at hr; subst hr
    exact .inr (.inr ⟨u, upper_eq h1⟩)

theorem coeffAt_pos {d : K} (hd : 0 < d) {cs : List K} {dof k : Nat} (hc : ∀ c ∈ cs, 0 < c) (hk : k < dof)
    (hl : cs.length = 0 ∨ cs.length = 1 ∨ cs.length = dof) : 0 < coeffAt d cs k := by
  match cs, hl with
  | [], _ => exact hd
  | [c], _ => exact hc c (by simp)
  | c :: c' :: cs, hl =>
    have hk' : k < (c :: c' :: cs).length := by
      rcases hl with h | h | h
      · simp at h
      · simp at h
      · omega
    show 0 < (c :: c' :: cs).getD k 0
    rw [List.getD_eq_getElem?_getD, List.getElem?_eq_getElem hk']
    exact hc _ (List.getElem_mem _)

/-- Coefficients are positive and bounds are of the kinds the QP can express. -/
theorem rows_ok {dof T : Nat} (q : Nat → Nat → K) {t : Term K} (ht : t.Ok dof T) : ∀ r ∈ t.rows dof T q, 0 < r.2.1 ∧ Proper r.2.2 := by
  have hdiff : ∀ (n : Nat) (dflt : K) (t cs : List K) (f : Nat → Nat → K), 0 < dflt → t.length = dof → CoeffsOk dof cs → (∀ v ∈ t, Fin20 v) →
      ∀ r ∈ diffRows n dof dflt t cs f, 0 < r.2.1 ∧ Proper r.2.2 := by
    intro n dflt t cs f hd hl hc hv r hr
    obtain ⟨i, hi, k, hk, rfl⟩ := mem_grid.1 hr
    exact ⟨coeffAt_pos hd hc.1 hk hc.2, .inl ⟨_, _, pin_eq (getD_fin hv (by omega)), le_refl _⟩⟩
  cases t with
  | target s t cs =>
    obtain ⟨h1, h2, h3, h4, h5⟩ := ht
    intro r hr
    simp only [Term.rows, List.mem_map] at hr
    obtain ⟨⟨v, k⟩, hv, rfl⟩ := hr
    have hk := List.mem_zipIdx hv
    exact ⟨coeffAt_pos one_pos h3 (dof := dof) (by omega) (.inr h4), .inl ⟨_, _, pin_eq (h5 v (List.fst_mem_of_mem_zipIdx hv)), le_refl _⟩⟩
  | limits s bs cs =>
    obtain ⟨h1, h2, h3, h4, h5⟩ := ht
    intro r hr
    simp only [Term.rows, List.mem_flatMap] at hr
    obtain ⟨⟨b, k⟩, hb, hr⟩ := hr
    have hk := List.mem_zipIdx hb
    refine ⟨?_, split_proper _ _ (h5 b (List.fst_mem_of_mem_zipIdx hb)) r hr⟩
    have hc : r.2.1 = coeffAt 1 cs k := by
      simp only [splitB] at hr
      split_ifs at hr <;> simp only [List.mem_cons, List.not_mem_nil, or_false] at hr
      · rcases hr with rfl | rfl <;> rfl
      · subst hr; rfl
    rw [hc]
    exact coeffAt_pos one_pos h3 (dof := dof) (by omega) (.inr (.inr h4))
  | vel t cs => obtain ⟨h1, h2, h3, h4⟩ := ht; exact hdiff _ _ _ _ _ (by norm_num) h2 h3 h4
  | acc t cs => obtain ⟨h1, h2, h3, h4⟩ := ht; exact hdiff _ _ _ _ _ one_pos h2 h3 h4
  | jerk t cs => obtain ⟨h1, h2, h3, h4⟩ := ht; exact hdiff _ _ _ _ _ one_pos h2 h3 h4

/-- The finite bounds of all rows. -/
def Small (b : Bounds K) : Prop := (∀ l, b.lower = .fin l → Fin20 l) ∧ ∀ u, b.upper = .fin u → Fin20 u

theorem small_mk {l u : Ext K} (h1 : ∀ a, l = .fin a → Fin20 a) (h2 : ∀ a, u = .fin a → Fin20 a) : Small (Bounds.mk' l u) := ⟨h1, h2⟩

theorem fair_small {b : Bounds K} (h : Fair b) : Small b := by
  rcases h with ⟨l, u, rfl, -, h1, h2⟩ | ⟨l, rfl, h1⟩ | ⟨u, rfl, h2⟩
  · exact small_mk (fun a e => by cases e; exact h1) (fun a e => by cases e; exact h2)
  · exact small_mk (fun a e => by cases e; exact h1) (fun a e => by cases e)
  · exact small_mk (fun a e => by cases e) (fun a e => by cases e; exact h2)

theorem rows_small {dof T : Nat} (q : Nat → Nat → K) {t : Term K} (ht : t.Ok dof T) : ∀ r ∈ t.rows dof T q, Small r.2.2 := by
  have hpin : ∀ {v : K}, Fin20 v → Small (pin v) := fun h => small_mk (fun a e => by cases e; exact h) (fun a e => by cases e; exact h)
  have hdiff : ∀ (n : Nat) (dflt : K) (t cs : List K) (f : Nat → Nat → K), t.length = dof → (∀ v ∈ t, Fin20 v) →
      ∀ r ∈ diffRows n dof dflt t cs f, Small r.2.2 := by
    intro n dflt t cs f hl hv r hr
    obtain ⟨i, hi, k, hk, rfl⟩ := mem_grid.1 hr
    exact hpin (getD_fin hv (by omega))
  cases t with
  | target s t cs =>
    obtain ⟨h1, h2, h3, h4, h5⟩ := ht
    intro r hr
    simp only [Term.rows, List.mem_map] at hr
    obtain ⟨⟨v, k⟩, hv, rfl⟩ := hr
    exact hpin (h5 v (List.fst_mem_of_mem_zipIdx hv))
  | limits s bs cs =>
    obtain ⟨h1, h2, h3, h4, h5⟩ := ht
    intro r hr
    simp only [Term.rows, List.mem_flatMap] at hr
    obtain ⟨⟨b, k⟩, hb, hr⟩ := hr
    have hs := fair_small (h5 b (List.fst_mem_of_mem_zipIdx hb))
    simp only [splitB] at hr
    split_ifs at hr <;> simp only [List.mem_cons, List.not_mem_nil, or_false] at hr
    · rcases hr with rfl | rfl
      · exact small_mk hs.1 (fun a e => by cases e)
      · exact small_mk (fun a e => by cases e) hs.2
    · subst hr; exact hs
  | vel t cs => obtain ⟨h1, h2, h3, h4⟩ := ht; exact hdiff _ _ _ _ _ h2 h4
  | acc t cs => obtain ⟨h1, h2, h3, h4⟩ := ht; exact hdiff _ _ _ _ _ h2 h4
  | jerk t cs => obtain ⟨h1, h2, h3, h4⟩ := ht; exact hdiff _ _ _ _ _ h2 h4

/-- Coefficients and bounds do not depend on the trajectory. -/
theorem rows_fixed (dof T : Nat) (q q' : Nat → Nat → K) (t : Term K) : (t.rows dof T q).map (·.2) = (t.rows dof T q').map (·.2) := by
  cases t with
  | target s t cs => simp only [Term.rows, List.map_map]; rfl
  | limits s bs cs =>
    simp only [Term.rows, List.map_flatMap]
    apply List.flatMap_congr
    rintro ⟨b, k⟩ _
    simp only [splitB]
    split_ifs <;> rfl
  | vel t cs => simp only [Term.rows, diffRows, grid_map]
  | acc t cs => simp only [Term.rows, diffRows, grid_map]
  | jerk t cs => simp only [Term.rows, diffRows, grid_map]

theorem rows_length (dof T : Nat) (q q' : Nat → Nat → K) (t : Term K) : (t.rows dof T q).length = (t.rows dof T q').length := by
  have := congrArg List.length (rows_fixed dof T q q' t); simpa using this

/-- A term has rows. -/
theorem rows_pos {dof T : Nat} (hd : 0 < dof) (q : Nat → Nat → K) {t : Term K} (ht : t.Ok dof T) : 0 < (t.rows dof T q).length := by
  cases t with
  | target s t cs => obtain ⟨h1, h2, -⟩ := ht; simp [Term.rows]; omega
  | limits s bs cs =>
    obtain ⟨h1, h2, -⟩ := ht
    cases bs with
    | nil => simp at h2; omega
    | cons b bs =>
      simp only [Term.rows, List.zipIdx_cons, List.flatMap_cons, List.length_append, splitB]
      split_ifs <;> simp <;> omega
  | vel t cs => obtain ⟨h1, h2, -⟩ := ht; simp only [Term.rows, diffRows, grid_length]; exact Nat.mul_pos (by omega) hd
  | acc t cs => obtain ⟨h1, h2, -⟩ := ht; simp only [Term.rows, diffRows, grid_length]; exact Nat.mul_pos (by omega) hd
  | jerk t cs => obtain ⟨h1, h2, -⟩ := ht; simp only [Term.rows, diffRows, grid_length]; exact Nat.mul_pos (by omega) hd

/-- All rows of a term used as squared or absolute cost are equalities. -/
theorem rows_eq {dof T : Nat} (q : Nat → Nat → K) {t : Term K} (ht : t.Ok dof T) (hs : t.Single) :
    ∀ r ∈ t.rows dof T q, ∃ l u, r.2.2 = ⟨.fin l, .fin u, .equality⟩ := by
  intro r hr
  have hp := (rows_ok q ht r hr).2
  have ht' : r.2.2.type = .equality := by
    have hdiff : ∀ (n : Nat) (dflt : K) (t cs : List K) (f : Nat → Nat → K), t.length = dof → (∀ v ∈ t, Fin20 v) →
        r ∈ diffRows n dof dflt t cs f → r.2.2.type = .equality := by
      intro n dflt t cs f hl hv hr
      obtain ⟨i, hi, k, hk, rfl⟩ := mem_grid.1 hr
      show (pin _).type = _
      rw [pin_eq (getD_fin hv (by omega))]
    cases t with
    | target s t cs =>
      simp only [Term.rows, List.mem_map] at hr
      obtain ⟨⟨v, k⟩, hv, rfl⟩ := hr
      show (pin _).type = _
      rw [pin_eq (ht.2.2.2.2 v (List.fst_mem_of_mem_zipIdx hv))]
    | limits s bs cs =>
      simp only [Term.rows, List.mem_flatMap] at hr
      obtain ⟨⟨b, k⟩, hb, hr⟩ := hr
      have hbt := hs b (List.fst_mem_of_mem_zipIdx hb)
      simp only [splitB, hbt] at hr
      rw [if_neg (by simp), List.mem_singleton] at hr
      subst hr; exact hbt
    | vel t cs => exact hdiff _ _ _ _ _ ht.2.1 ht.2.2.2 hr
    | acc t cs => exact hdiff _ _ _ _ _ ht.2.1 ht.2.2.2 hr
    | jerk t cs => exact hdiff _ _ _ _ _ ht.2.1 ht.2.2.2 hr
  rcases hp with ⟨l, u, h, -⟩ | ⟨l, h⟩ | ⟨u, h⟩
  · exact ⟨l, u, h⟩
  · rw [h] at ht'; cases ht'
  · rw [h] at ht'; cases ht'

/-- All rows of a term used as hinge cost are inequalities. -/
theorem rows_ineq {dof T : Nat} (q : Nat → Nat → K) {s : Nat} {bs : List (Bounds K)} {cs : List K} (ht : (Term.limits s bs cs).Ok dof T)
    (hs : ∀ b ∈ bs, b.type ≠ .equality) :
    ∀ r ∈ (Term.limits s bs cs).rows dof T q, r.2.2.type = .lowerBound ∨ r.2.2.type = .upperBound := by
  intro r hr
  simp only [Term.rows, List.mem_flatMap] at hr
  obtain ⟨⟨b, k⟩, hb, hr⟩ := hr
  have hm := List.fst_mem_of_mem_zipIdx hb
  have hne := hs b hm
  rcases ht.2.2.2.2 b hm with ⟨l, u, rfl, hlu, h1, h2⟩ | ⟨l, rfl, h1⟩ | ⟨u, rfl, h1⟩
  · rcases range_type h1 h2 with h3 | h3
    · simp only [splitB, if_pos h3, List.mem_cons, List.not_mem_nil, or_false] at hr
      rcases hr with rfl | rfl
      · left; show (Bounds.mk' (.fin l) .posInf).type = _; rw [lower_eq h1]
      · right; show (Bounds.mk' .negInf (.fin u)).type = _; rw [upper_eq h2]
    · rw [h3] at hne; exact absurd rfl hne
  · have e := lower_eq h1
    simp only [splitB, e] at hr
    rw [if_neg (by simp), List.mem_singleton] at hr
    subst hr; exact .inl rfl
  · have e := upper_eq h1
    simp only [splitB, e] at hr
    rw [if_neg (by simp), List.mem_singleton] at hr
    subst hr; exact .inr rfl

end Verif.IfoptPlan
