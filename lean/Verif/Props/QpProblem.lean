import Verif.Props.QpAssembly
import Verif.Props.JointConstraints

/-!
C26 (slack columns), C27 (linearised rows), C28 (merit coefficients) for the QP built by `TrajOptQPProblem::convexify`.
-/

set_option linter.unusedSectionVars false
set_option linter.unusedVariables false

namespace Verif.QpProblem

open Verif.Bounds Verif.Sco Verif.SqpExprs Finset

universe u
variable {K : Type u} [Field K] [LinearOrder K] [IsStrictOrderedRing K]

/-! ### Specification -/

/-- Specification: the merit coefficient that set `i` gets: the entry counted by the sets with rows before it. -/
def usedMerit (infos : List (Info K)) (m : List K) (i : Nat) : K :=
  m.getD ((infos.take i).countP fun j => decide (j.rows ≠ 0)) 0

/-- Specification: the weighted linearised rows of the problem, penalty costs first, then constraints, where constraint
set `i` is weighted by `mu i`. -/
def problemRows (mu : Nat → K) (s : State K) : List (Row K) :=
  ((s.penInfos.zip s.penalty).flatMap fun p => setRows 1 s.x p.1 (s.ask p.2)) ++
    (s.meritInfos.zip s.merit).zipIdx.flatMap fun p => setRows (mu p.2) s.x p.1.1 (s.ask p.1.2)

/-- Specification: a point satisfies the rows of the QP. -/
def QpFeasible (s : State K) (z : Nat → K) : Prop :=
  ∀ r < s.matrix.rows, ∃ l u, s.lower[r]? = some l ∧ s.upper[r]? = some u ∧ Within (l, u) (s.matrix.rowForm r z)

/-- Specification: the objective of the QP (the solver receives twice the Hessian and halves it). -/
def qpObjective (s : State K) (z : Nat → K) : K :=
  ∑ r ∈ range s.nQpVars, ∑ c ∈ range s.nQpVars, z r * s.hessian.entry r c * z c +
    ∑ c ∈ range s.nQpVars, s.gradient.getD c 0 * z c

/-- Specification: the sum of the squared costs linearised at the current point. -/
def squaredModel (s : State K) (x : Nat → K) : K :=
  ((s.objInfos.zip s.objective).map fun p => (sqValues s.x p.1 (s.ask p.2) x).sum).sum

/-- Specification: the point is in the trust box intersected with the variable bounds (see C16). -/
def InBox (s : State K) (x : Nat → K) : Prop :=
  ∀ (i : Nat) b lb ub, s.box[i]? = some b → s.varBounds[i]? = some (lb, ub) →
    ∃ lo hi, trustInterval b (s.x i) lb ub = some (lo, hi) ∧ lo ≤ x i ∧ x i ≤ hi

/-! ### From the terms to the rows of the problem -/

theorem setRows_empty (mc : K) (x0 : Nat → K) (n : Nat) (i : Info K) (s : Snap K) (h : CntOk n i s) (h0 : i.rows = 0) :
    setRows mc x0 i s = [] := by
  apply List.length_eq_zero_iff.1; rw [setRows_length mc x0 n i s h, h0]

theorem termRows_pen (x0 : Nat → K) (n : Nat) (l : List (Info K × Snap K)) (rest : List (Bool × Info K × Snap K))
    (merits : List K) (h : ∀ t ∈ l, CntOk n t.1 t.2) :
    termRows x0 merits (l.map (fun t => (false, t.1, t.2)) ++ rest) =
      (l.flatMap fun p => setRows 1 x0 p.1 p.2) ++ termRows x0 merits rest := by
  induction l with
  | nil => rfl
  | cons t l ih =>
    have ih := ih fun t' ht' => h t' (by simp [ht'])
    simp only [List.map_cons, List.cons_append, termRows, List.flatMap_cons]
    by_cases h0 : t.1.rows = 0
    · rw [if_pos h0, ih, setRows_empty 1 x0 n t.1 t.2 (h t (by simp)) h0]; rfl
    · rw [if_neg h0]; simp only [Bool.false_eq_true, if_false]; rw [ih, List.append_assoc]

theorem termRows_merit (x0 : Nat → K) (n : Nat) (l : List (Info K × Snap K)) (merits : List K)
    (h : ∀ t ∈ l, CntOk n t.1 t.2) :
    termRows x0 merits (l.map fun t => (true, t.1, t.2)) =
      l.zipIdx.flatMap fun p => setRows (usedMerit (l.map Prod.fst) merits p.2) x0 p.1.1 p.1.2 := by
  have key : ∀ (l pre : List (Info K × Snap K)) (merits : List K), (∀ t ∈ l, CntOk n t.1 t.2) →
      termRows x0 (merits.drop (pre.countP fun t => decide (t.1.rows ≠ 0))) (l.map fun t => (true, t.1, t.2)) =
      (l.zipIdx pre.length).flatMap fun p =>
        setRows (usedMerit ((pre ++ l).map Prod.fst) merits p.2) x0 p.1.1 p.1.2 := by
    intro l
    induction l with
    | nil => intro pre merits _; rfl
    | cons t l ih =>
      intro pre merits h
      have ih := ih (pre ++ [t]) merits fun t' ht' => h t' (by simp [ht'])
      have e : pre ++ [t] ++ l = pre ++ t :: l := by simp
      rw [e, List.countP_append, List.length_append, List.length_singleton] at ih
      simp only [List.map_cons, termRows, List.zipIdx_cons, List.flatMap_cons]
      have hu : usedMerit ((pre ++ t :: l).map Prod.fst) merits pre.length =
          merits.getD (pre.countP fun t => decide (t.1.rows ≠ 0)) 0 := by
        rw [usedMerit, List.map_append, List.take_left' (by simp), List.countP_map]; rfl
      have hm : (pre ++ t :: l).map Prod.fst = pre.map Prod.fst ++ t.1 :: l.map Prod.fst := by simp
      by_cases h0 : t.1.rows = 0
      · rw [if_pos h0, setRows_empty _ x0 n t.1 t.2 (h t (by simp)) h0, List.nil_append, ← ih]
        simp [h0]
      · rw [if_neg h0, hu]
        simp only [if_true]
        have h1 : (merits.drop (pre.countP fun t => decide (t.1.rows ≠ 0))).headD 0 =
            merits.getD (pre.countP fun t => decide (t.1.rows ≠ 0)) 0 := by
          rw [List.headD_eq_head?_getD, List.head?_drop, List.getD_eq_getElem?_getD]
        rw [h1, List.tail_drop, ← ih]
        simp [h0]
  simpa using key l [] merits h

/-- What `convexify` stores. -/
structure Assembled (s s' : State K) (rows : List (Row K)) (outs : List (RowOut K)) (iv : List (K × K)) (head : List K) :
    Prop where
  laid : Laid 0 s.nVars rows outs
  rowsLen : rows.length = s.nPen + s.nMerit
  jac : ∀ r ∈ rows, ∀ q ∈ r.jac, q.1 < s.nVars
  proper : ∀ r ∈ rows, Proper r.bound ∧ 0 ≤ r.weight
  nSlack : s'.nSlack = (outs.flatMap (·.grad)).length
  nQpVars : s'.nQpVars = s.nVars + (outs.flatMap (·.grad)).length
  nQpCnts : s'.nQpCnts = s.nPen + s.nMerit + s'.nQpVars
  lower : s'.lower = outs.map (·.lower) ++ iv.map (fun i => .fin i.1) ++
    List.replicate (outs.flatMap (·.grad)).length (.fin 0)
  upper : s'.upper = outs.map (·.upper) ++ iv.map (fun i => .fin i.2) ++
    List.replicate (outs.flatMap (·.grad)).length .posInf
  ivLen : iv.length = s.nVars
  iv : ∀ (i : Nat) b lb ub, s.box[i]? = some b → s.varBounds[i]? = some (lb, ub) →
    ∃ lo hi, trustInterval b (s.x i) lb ub = some (lo, hi) ∧ iv[i]? = some (lo, hi)
  constant : s'.constant = rows.map (·.constant)
  matrixRows : s'.matrix.rows = s'.nQpCnts
  matrixCols : s'.matrix.cols.length = s'.nQpVars
  matrix : ∀ r z, s'.matrix.rowForm r z = tripForm (outs.flatMap (·.trips)) r z +
    if s.nPen + s.nMerit ≤ r ∧ r < s.nPen + s.nMerit + s'.nQpVars then z (r - (s.nPen + s.nMerit)) else 0
  entry : ∀ r c, s'.matrix.entry r c = tsum (outs.flatMap (·.trips)) r c +
    tsum ((List.range s'.nQpVars).map fun i => (s.nMerit + s.nPen + i, i, (1 : K))) r c
  gradient : s'.gradient = head ++ outs.flatMap (·.grad)
  headLen : head.length = s.nVars
  hessOut : ∀ r c, s.nVars ≤ r ∨ s.nVars ≤ c → s'.hessian.entry r c = 0
  obj : ∃ (k : K) (H : Nat → Nat → K), (∀ x, k + ∑ c ∈ range s.nVars, head.getD c 0 * x c +
      ∑ r ∈ range s.nVars, ∑ c ∈ range s.nVars, x r * H r c * x c = squaredModel s x) ∧
    ∀ r c, s'.hessian.entry r c = if |H r c| < 1 / 10 ^ 7 then 0 else H r c
  sq : s.nObj ≠ 0 → SqAll s.nVars s.x (s.objInfos.zip (s.objective.map s.ask)) s'.sqObjective
  frame : s'.nVars = s.nVars ∧ s'.x = s.x ∧ s'.upd = s.upd ∧ s'.objInfos = s.objInfos ∧ s'.penInfos = s.penInfos ∧
    s'.meritInfos = s.meritInfos ∧ s'.nObj = s.nObj ∧ s'.nPen = s.nPen ∧ s'.nMerit = s.nMerit ∧
    s'.objective = s.objective ∧ s'.penalty = s.penalty ∧ s'.merit = s.merit ∧ s'.meritCoeff = s.meritCoeff ∧
    s'.box = s.box ∧ s'.varBounds = s.varBounds
  flags : s'.initialized = s.initialized ∧ s'.hasDyn = s.hasDyn ∧ s'.nDyn = s.nDyn ∧ s'.nDynPrev = s.nDynPrev ∧
    s'.cnts = s.cnts ∧ s'.dynCnts = s.dynCnts ∧ s'.target.length = s.target.length ∧ s'.squared = s.squared ∧
    s'.dynSquared = s.dynSquared ∧ s'.hinge = s.hinge ∧ s'.dynHinge = s.dynHinge ∧ s'.absolute = s.absolute ∧
    s'.dynAbsolute = s.dynAbsolute
  hessDim : s'.hessian.rows = s'.nQpVars ∧ s'.hessian.cols.length = s'.nQpVars

theorem writeSeg_length {α : Type u} {l l' seg : List α} {pos : Nat} (h : writeSeg l pos seg = some l') :
    l'.length = l.length := by
  unfold writeSeg at h
  split_ifs at h with h1
  injection h with h; subst h
  simp only [List.length_append, List.length_take, List.length_drop]; omega

theorem objectiveOne_length {sqrt : K → K} {x : Nat → K} {t t' : List K} {row : Nat} {i : Info K} {s : Snap K} {q : Quad K}
    (h : objectiveOne sqrt x t row i s = some (t', q)) : t'.length = t.length := by
  unfold objectiveOne at h
  cases h1 : i.bounds.mapM finLower with
  | none => simp [h1] at h
  | some ts =>
    simp only [h1] at h
    cases h2 : writeSeg t row ts with
    | none => simp [h2] at h
    | some t2 =>
      simp only [h2] at h
      cases h3 : Aff.create s.values s.jac x with
      | none => simp [h3] at h
      | some a =>
        simp only [h3] at h
        split_ifs at h with h4
        cases h5 : Aff.square sqrt (⟨List.zipWith (fun t c => t - c) (List.take s.rows (List.drop row t2)) a.constants,
          ⟨a.linear.cols, a.linear.rows.map (scaleRow (-1))⟩⟩ : Aff K) s.coeffs with
        | none => simp [h5] at h
        | some q' =>
          simp only [h5, Option.some.injEq, Prod.mk.injEq] at h
          rw [← h.1, writeSeg_length h2]

theorem objectiveLoop_length {sqrt : K → K} {x : Nat → K} (l : List (Info K × Snap K)) {t t' : List K} {row : Nat}
    {qs : List (Quad K)} (h : objectiveLoop sqrt x t row l = some (t', qs)) : t'.length = t.length := by
  induction l generalizing t t' row qs with
  | nil => simp only [objectiveLoop, Option.some.injEq, Prod.mk.injEq] at h; rw [h.1]
  | cons p l ih =>
    obtain ⟨i, s⟩ := p
    simp only [objectiveLoop] at h
    cases h1 : objectiveOne sqrt x t row i s with
    | none => simp [h1] at h
    | some r =>
      obtain ⟨t1, q⟩ := r
      simp only [h1] at h
      cases h2 : objectiveLoop sqrt x t1 (row + s.rows) l with
      | none => simp [h2] at h
      | some r2 =>
        obtain ⟨t2, qs2⟩ := r2
        simp only [h2, Option.some.injEq, Prod.mk.injEq] at h
        rw [← h.1, ih h2, objectiveOne_length h1]

theorem sqObjectiveOf_length {sqrt : K → K} {s : State K} {t : List K} {q : Quad K}
    (h : s.sqObjectiveOf sqrt = some (t, q)) : t.length = s.target.length := by
  unfold State.sqObjectiveOf at h
  split_ifs at h with h0
  · simp only [Option.some.injEq, Prod.mk.injEq] at h; rw [h.1]
  · cases h1 : objectiveLoop sqrt s.x s.target 0 (s.objInfos.zip (s.objective.map s.ask)) with
    | none => simp [h1] at h
    | some r =>
      obtain ⟨t1, qs⟩ := r
      simp only [h1] at h
      split_ifs at h with h2
      cases h3 : setFromTriplets s.nVars s.nVars (qs.flatMap fun q => q.objQuadratic.triplets) with
      | none => simp [h3] at h
      | some H =>
        simp only [h3, Option.some.injEq, Prod.mk.injEq] at h
        rw [← h.1, objectiveLoop_length _ h1]

theorem tripForm_diag (m n r : Nat) (z : Nat → K) :
    tripForm ((List.range n).map fun i => (m + i, i, (1 : K))) r z = if m ≤ r ∧ r < m + n then z (r - m) else 0 := by
  induction n with
  | zero => rw [if_neg (by omega)]; rfl
  | succ n ih =>
    rw [List.range_succ, List.map_append, tripForm_append, ih]
    simp only [tripForm, List.map_cons, List.map_nil, List.sum_cons, List.sum_nil, add_zero, one_mul]
    by_cases h : m + n = r
    · subst h
      rw [if_neg (by omega), if_pos rfl, if_pos (by omega)]; simp
    · rw [if_neg h]
      by_cases h2 : m ≤ r ∧ r < m + n
      · rw [if_pos h2, if_pos (by omega), add_zero]
      · rw [if_neg h2, if_neg (by omega), add_zero]

theorem thr_eq (v : K) : thr v = if |v| < 1 / 10 ^ 7 then 0 else v := rfl

theorem thr_zero : thr (0 : K) = 0 := by rw [thr_eq]; split_ifs <;> rfl

theorem colEntry_thr (col : List (Nat × K)) (hinc : Increasing col) (r : Nat) :
    colEntry (col.map fun q => (q.1, thr q.2)) r = thr (colEntry col r) := by
  induction col with
  | nil => simp [colEntry, thr_zero]
  | cons q col ih =>
    obtain ⟨h1, h2⟩ := List.pairwise_cons.1 hinc
    have ih := ih h2
    simp only [colEntry, List.map_cons, List.sum_cons] at ih ⊢
    by_cases hq : q.1 = r
    · have z1 : (col.map fun q => if q.1 = r then q.2 else 0).sum = 0 := by
        apply List.sum_eq_zero
        intro a ha
        obtain ⟨p, hp, rfl⟩ := List.mem_map.1 ha
        have := h1 p hp
        rw [if_neg (by omega)]
      rw [z1, thr_zero] at ih
      rw [ih, z1, if_pos hq, if_pos hq, add_zero, add_zero]
    · rw [if_neg hq, if_neg hq, zero_add, zero_add, ih]

/-- `convexify` succeeds on a ready problem. -/
theorem convexify_ok (sqrt : K → K) (hsqrt : ∀ a : K, 0 ≤ a → sqrt a * sqrt a = a) (junk : Nat → Ext K) (s : State K)
    (h : Ready s) : ∃ s' outs iv head, s.convexifyCore sqrt junk = some s' ∧
      Assembled s s' (problemRows (usedMerit s.meritInfos s.meritCoeff) s) outs iv head := by
  have fp : List.Forall₂ (fun i sn => CntOk s.nVars i sn) s.penInfos (s.penalty.map s.ask) := by
    rw [List.forall₂_map_right_iff]; exact h.pen
  have fm : List.Forall₂ (fun i sn => CntOk s.nVars i sn) s.meritInfos (s.merit.map s.ask) := by
    rw [List.forall₂_map_right_iff]; exact h.merit
  have tp := zip_forall fp
  have tm := zip_forall fm
  have mapfst : ∀ (l : List (Info K)) (l' : List (Snap K)), l.length = l'.length → (l.zip l').map Prod.fst = l :=
    fun l l' hl => by rw [List.map_fst_zip]; omega
  set terms := (s.penInfos.zip (s.penalty.map s.ask)).map (fun t => (false, t.1, t.2)) ++
    (s.meritInfos.zip (s.merit.map s.ask)).map (fun t => (true, t.1, t.2)) with hterms
  have hall : ∀ t ∈ terms, CntOk s.nVars t.2.1 t.2.2 := by
    intro t ht
    rcases List.mem_append.1 ht with ht | ht <;> obtain ⟨p, hp, rfl⟩ := List.mem_map.1 ht
    · exact tp p hp
    · exact tm p hp
  have hcount : terms.countP (fun t => t.1 && decide (t.2.1.rows ≠ 0)) ≤ s.meritCoeff.length := by
    rw [hterms, List.countP_append, List.countP_map, List.countP_map]
    have : (s.penInfos.zip (s.penalty.map s.ask)).countP ((fun t => t.1 && decide (t.2.1.rows ≠ 0)) ∘
        fun t : Info K × Snap K => (false, t.1, t.2)) = 0 := by
      rw [List.countP_eq_zero]; simp
    rw [this, Nat.zero_add]
    refine le_trans List.countP_le_length ?_
    rw [h.meritCoeff]; simp
  obtain ⟨bs, a1, a2, a3, a4⟩ := termsOut_ok s.x s.nVars terms s.meritCoeff 0 s.nVars hall hcount
  have hrows : termRows s.x s.meritCoeff terms = problemRows (usedMerit s.meritInfos s.meritCoeff) s := by
    rw [hterms, termRows_pen s.x s.nVars _ _ _ tp, termRows_merit s.x s.nVars _ _ tm, problemRows,
      mapfst _ _ fm.length_eq, List.zip_map_right, List.flatMap_map, List.zip_map_right, List.zipIdx_map, List.flatMap_map]
    rfl
  rw [hrows] at a2 a3 a4
  set rows := problemRows (usedMerit s.meritInfos s.meritCoeff) s with hrowsdef
  set outs := bs.flatMap (·.outs) with houts
  have hlen : rows.length = s.nPen + s.nMerit := by
    rw [a4, hterms, List.map_append, List.sum_append, h.nPen, h.nMerit]
    congr 1
    · conv_rhs => rw [← mapfst _ _ fp.length_eq]
      rw [List.map_map, List.map_map]; rfl
    · conv_rhs => rw [← mapfst _ _ fm.length_eq]
      rw [List.map_map, List.map_map]; rfl
  have hmem : ∀ r ∈ rows, ∃ (mc : K) (i : Info K) (sn : Snap K), 0 ≤ mc ∧ CntOk s.nVars i sn ∧ r ∈ setRows mc s.x i sn := by
    intro r hr
    rcases List.mem_append.1 hr with hr | hr
    · obtain ⟨p, hp, hr⟩ := List.mem_flatMap.1 hr
      exact ⟨1, _, _, zero_le_one, zip_forall h.pen p hp, hr⟩
    · obtain ⟨p, hp, hr⟩ := List.mem_flatMap.1 hr
      refine ⟨_, _, _, ?_, zip_forall h.merit p.1 (List.fst_mem_of_mem_zipIdx hp), hr⟩
      rw [usedMerit, List.getD_eq_getElem?_getD]
      cases hg : s.meritCoeff[List.countP (fun j => decide (j.rows ≠ 0)) (List.take p.2 s.meritInfos)]? with
      | none => exact le_refl _
      | some v => exact h.meritNonneg v (List.mem_of_getElem? hg)
  have hset : ∀ (mc : K) (i : Info K) (sn : Snap K), CntOk s.nVars i sn → ∀ r ∈ setRows mc s.x i sn,
      (∀ q ∈ r.jac, q.1 < s.nVars) ∧ Proper r.bound ∧ (0 ≤ mc → 0 ≤ r.weight) := by
    intro mc i sn ho r hr
    obtain ⟨k, hk, rfl⟩ := List.mem_iff_getElem.1 hr
    simp only [setRows, List.getElem_zipWith, List.getElem_zip]
    exact ⟨ho.range _ (List.getElem_mem _), ho.proper _ (List.getElem_mem _),
      fun hmc => mul_nonneg hmc (ho.nonneg _ (List.getElem_mem _))⟩
  have hjac : ∀ r ∈ rows, ∀ q ∈ r.jac, q.1 < s.nVars := by
    intro r hr
    obtain ⟨mc, i, sn, b1, b2, b3⟩ := hmem r hr
    exact (hset mc i sn b2 r b3).1
  have hproper : ∀ r ∈ rows, Proper r.bound ∧ 0 ≤ r.weight := by
    intro r hr
    obtain ⟨mc, i, sn, b1, b2, b3⟩ := hmem r hr
    exact ⟨(hset mc i sn b2 r b3).2.1, (hset mc i sn b2 r b3).2.2 b1⟩
  -- the trust box
  have hbox : ∀ i, i < s.nVars → ∃ iv : K × K, (match s.box[i]?, s.varBounds[i]? with
      | some b, some (lb, ub) => trustInterval b (s.x i) lb ub
      | _, _ => none) = some iv := by
    intro i hi
    have e1 := List.getElem?_eq_getElem (l := s.box) (i := i) (by rw [h.box]; exact hi)
    have hi2 : i < s.varBounds.length := by rw [h.varBounds]; exact hi
    have e2 := List.getElem?_eq_getElem (l := s.varBounds) (i := i) hi2
    rw [e1, e2]
    have hv := h.valid _ (List.getElem_mem hi2)
    generalize s.varBounds[i] = vb at hv ⊢
    obtain ⟨lb, ub⟩ := vb
    simp only at hv ⊢
    exact ⟨_, by rw [trustInterval, stdClamp_eq _ lb ub hv]; rfl⟩
  choose! ivf hivf using hbox
  have hiv : s.boxBounds = some ((List.range s.nVars).map ivf) :=
    Verif.JointConstraints.mapM_range_some _ _ _ hivf
  set iv := (List.range s.nVars).map ivf with hivdef
  have hivlen : iv.length = s.nVars := by simp [hivdef]
  have hivspec : ∀ (i : Nat) b lb ub, s.box[i]? = some b → s.varBounds[i]? = some (lb, ub) →
      ∃ lo hi, trustInterval b (s.x i) lb ub = some (lo, hi) ∧ iv[i]? = some (lo, hi) := by
    intro i b lb ub e1 e2
    have hi : i < s.nVars := by rw [← h.box]; exact (List.getElem?_eq_some_iff.1 e1).1
    have := hivf i hi
    rw [e1, e2] at this
    exact ⟨(ivf i).1, (ivf i).2, this, by rw [hivdef, List.getElem?_map, List.getElem?_range hi]; rfl⟩
  -- the objective
  have hobj : ∃ target sq, s.sqObjectiveOf sqrt = some (target, sq) ∧
      (s.nObj ≠ 0 → SqAll s.nVars s.x (s.objInfos.zip (s.objective.map s.ask)) sq) := by
    by_cases h0 : s.nObj = 0
    · exact ⟨s.target, s.sqObjective, by rw [State.sqObjectiveOf, if_pos h0], fun hn => absurd h0 hn⟩
    · obtain ⟨t, q, b1, b2⟩ := sqObjective_ok sqrt hsqrt s h h0
      exact ⟨t, q, b1, fun _ => b2⟩
  obtain ⟨target, sq, o1, o2⟩ := hobj
  set head := if s.nObj = 0 then List.replicate s.nVars 0 else sq.objLinear with hhead
  have hheadLen : head.length = s.nVars := by
    rw [hhead]; split_ifs with h0
    · simp
    · exact (o2 h0).lin
  set nS := (outs.flatMap (·.grad)).length with hnS
  set ht := if s.nObj = 0 then [] else sq.objQuadratic.triplets.map fun t => (t.1, t.2.1, thr t.2.2) with hht
  have hhtr : ∀ t ∈ ht, t.1 < s.nVars ∧ t.2.1 < s.nVars := by
    intro t htm
    rw [hht] at htm
    split_ifs at htm with h0
    · simp at htm
    · obtain ⟨t', h1, rfl⟩ := List.mem_map.1 htm
      have := triplets_range (o2 h0).wf t' h1
      rw [(o2 h0).rows, (o2 h0).cols] at this
      exact this
  obtain ⟨Hm, H1, H2, H3, H4, H5, -⟩ := setFromTriplets_spec (s.nVars + nS) (s.nVars + nS) ht
    (fun t htm => by obtain ⟨a, b⟩ := hhtr t htm; exact ⟨by omega, by omega⟩)
  set diag := (List.range (s.nVars + nS)).map fun i => (s.nMerit + s.nPen + i, i, (1 : K)) with hdiag
  have hrange : ∀ t ∈ outs.flatMap (·.trips) ++ diag, t.1 < s.nPen + s.nMerit + (s.nVars + nS) ∧ t.2.1 < s.nVars + nS := by
    intro t htm
    rcases List.mem_append.1 htm with htm | htm
    · obtain ⟨_, b, c⟩ := a2.range (n := s.nVars) (le_refl _) hjac t htm
      exact ⟨by omega, c⟩
    · obtain ⟨i, hi, rfl⟩ := List.mem_map.1 htm
      have := List.mem_range.1 hi
      exact ⟨by simp; omega, this⟩
  obtain ⟨M, M1, -, -, -, -, -⟩ := setFromTriplets_spec _ _ _ hrange
  obtain ⟨M2, M3, M5, M4⟩ := rowForm_triplets _ _ _ hrange M M1
  -- the bounds
  have hol : outs.length = s.nPen + s.nMerit := by rw [a2.length, hlen]
  obtain ⟨lo1, lw1, lw2⟩ := bounds_layout junk s.lower (outs.map (·.lower)) (iv.map fun i => .fin i.1) s.nVars nS (.fin 0)
    (by simp [hol]; exact h.lower) (by simp [hivlen])
  obtain ⟨up1, uw1, uw2⟩ := bounds_layout junk s.upper (outs.map (·.upper)) (iv.map fun i => .fin i.2) s.nVars nS .posInf
    (by simp [hol]; exact h.upper) (by simp [hivlen])
  have hc : writeSeg s.constant 0 (bs.flatMap (·.constants)) = some (rows.map (·.constant)) := by
    rw [a3, writeSeg_zero _ _ (by rw [List.length_map, hlen, h.constant])]
    rw [List.drop_of_length_le (by rw [List.length_map, hlen, h.constant]), List.append_nil]
  simp only [List.length_map, hol] at lw2 uw2
  refine ⟨{ s with nSlack := nS, nQpVars := s.nVars + nS, nQpCnts := s.nPen + s.nMerit + (s.nVars + nS),
                   constant := rows.map (·.constant),
                   lower := outs.map (·.lower) ++ iv.map (fun i => .fin i.1) ++ List.replicate nS (.fin 0),
                   upper := outs.map (·.upper) ++ iv.map (fun i => .fin i.2) ++ List.replicate nS .posInf,
                   target := target, sqObjective := sq, gradient := head ++ outs.flatMap (·.grad), hessian := Hm,
                   matrix := M }, outs, iv, head, ?_, ?_⟩
  · unfold State.convexifyCore
    simp only [← hterms, a1, hc, ← houts, lw1, uw1, o1, ← hnS, ← hhead, ← hht, H1, ← hdiag, M1]
    simp only [State.updateNLPVariableBounds]
    have : State.boxBounds ({ s with nSlack := nS, nQpVars := s.nVars + nS, nQpCnts := s.nPen + s.nMerit + (s.nVars + nS), constant := rows.map (·.constant), lower := (conservativeResize junk (s.nPen + s.nMerit + (s.nVars + nS)) lo1).take (s.nPen + s.nMerit + (s.nVars + nS) - nS) ++ List.replicate nS (.fin 0), upper := (conservativeResize junk (s.nPen + s.nMerit + (s.nVars + nS)) up1).take (s.nPen + s.nMerit + (s.nVars + nS) - nS) ++ List.replicate nS .posInf, target := target, sqObjective := sq, gradient := head ++ outs.flatMap (·.grad), hessian := Hm, matrix := M } : State K) = some iv := hiv
    rw [this]
    simp only
    rw [show s.nMerit + s.nPen = s.nPen + s.nMerit from Nat.add_comm _ _, lw2, uw2]
  · refine ⟨a2, hlen, hjac, hproper, rfl, rfl, rfl, rfl, rfl, hivlen, hivspec, rfl, M2, M3, ?_, ?_, rfl, hheadLen, ?_, ?_,
      o2, ⟨rfl, rfl, rfl, rfl, rfl, rfl, rfl, rfl, rfl, rfl, rfl, rfl, rfl, rfl, rfl⟩,
      ⟨rfl, rfl, rfl, rfl, rfl, rfl, sqObjectiveOf_length o1, rfl, rfl, rfl, rfl, rfl, rfl⟩, ⟨H3, H4⟩⟩
    · intro r z
      simp only
      rw [M4, tripForm_append, hdiag, tripForm_diag, Nat.add_comm s.nMerit s.nPen]
    · intro r c
      simp only
      rw [M5, tsum_append]
    · intro r c hrc
      simp only
      rw [H5]
      apply List.sum_eq_zero
      intro a ha
      obtain ⟨t, htm, rfl⟩ := List.mem_map.1 ha
      obtain ⟨b1, b2⟩ := hhtr t htm
      rw [if_neg (by omega)]
    · simp only
      by_cases h0 : s.nObj = 0
      · refine ⟨0, fun _ _ => 0, fun x => ?_, fun r c => ?_⟩
        · have z : squaredModel s x = 0 := by
            apply List.sum_eq_zero
            intro a ha
            obtain ⟨p, hp, rfl⟩ := List.mem_map.1 ha
            have hok := zip_forall h.obj p hp
            have hr : p.1.rows = 0 := by
              have : p.1.rows ≤ (s.objInfos.map (·.rows)).sum :=
                List.single_le_sum (by simp) _ (List.mem_map_of_mem (List.of_mem_zip hp).1)
              rw [← h.nObj, h0] at this; omega
            have : sqValues s.x p.1 (s.ask p.2) x = [] := by
              apply List.length_eq_zero_iff.1
              simp [sqValues, hok.jac, hok.coeffs, hok.bounds, ← hok.rows, hr]
            rw [this]; rfl
          rw [z, hhead, if_pos h0]
          have : ∀ c ∈ range s.nVars, (List.replicate s.nVars (0 : K)).getD c 0 * x c = 0 := by
            intro c _
            rw [List.getD_eq_getElem?_getD, List.getElem?_replicate]
            split_ifs <;> simp
          rw [sum_eq_zero this]; simp
        · rw [H5, hht, if_pos h0]; simp [tsum]
      · have ha := o2 h0
        refine ⟨sq.constants.sum, sq.objQuadratic.entry, fun x => ?_, fun r c => ?_⟩
        · rw [hhead, if_neg h0, ha.total x, squaredModel, List.zip_map_right, List.map_map]
          rfl
        · rw [H5, hht, if_neg h0]
          have e : (sq.objQuadratic.triplets.map fun t => (t.1, t.2.1, thr t.2.2)) =
              (⟨sq.objQuadratic.rows, sq.objQuadratic.cols.map fun col => col.map fun q => (q.1, thr q.2)⟩ : SMat K).triplets := by
            simp only [SMat.triplets, List.map_flatMap, List.map_map, List.zipIdx_map, List.flatMap_map, Prod.map]
            rfl
          rw [e, tsum_triplets, SMat.entry, SMat.entry, List.getElem?_map]
          cases hc : sq.objQuadratic.cols[c]? with
          | none => simp [colEntry]
          | some col => exact colEntry_thr col (ha.wf.inc col (List.mem_of_getElem? hc)) r

/-! ### C26 -/

/-- Specification: the cost of the slack variables. -/
def slackCost (s : State K) (z : Nat → K) : K :=
  ∑ i ∈ range s.nSlack, s.gradient.getD (s.nVars + i) 0 * z (s.nVars + i)

/-- Specification: the part of the objective in the variables of the problem. -/
def smoothCost (s : State K) (x : Nat → K) : K :=
  ∑ r ∈ range s.nVars, ∑ c ∈ range s.nVars, x r * s.hessian.entry r c * x c +
    ∑ c ∈ range s.nVars, s.gradient.getD c 0 * x c

theorem inBox_iff {s s' : State K} {rows : List (Row K)} {outs : List (RowOut K)} {iv : List (K × K)} {head : List K}
    (hr : Ready s) (h : Assembled s s' rows outs iv head) (x : Nat → K) :
    InBox s x ↔ ∀ (i : Nat) lo hi, iv[i]? = some (lo, hi) → lo ≤ x i ∧ x i ≤ hi := by
  constructor
  · intro hb i lo hi hi'
    have hlt : i < s.nVars := by rw [← h.ivLen]; exact (List.getElem?_eq_some_iff.1 hi').1
    have e1 := List.getElem?_eq_getElem (l := s.box) (i := i) (by rw [hr.box]; exact hlt)
    have e2 := List.getElem?_eq_getElem (l := s.varBounds) (i := i) (by rw [hr.varBounds]; exact hlt)
    obtain ⟨l1, h1, a, b, c⟩ := hb i _ _ _ e1 e2
    obtain ⟨l2, h2, a', b'⟩ := h.iv i _ _ _ e1 e2
    rw [hi'] at b'
    rw [a] at a'
    simp only [Option.some.injEq, Prod.mk.injEq] at a' b'
    rw [b'.1, b'.2, ← a'.1, ← a'.2]
    exact ⟨b, c⟩
  · intro hb i b lb ub e1 e2
    obtain ⟨lo, hi, a, c⟩ := h.iv i b lb ub e1 e2
    exact ⟨lo, hi, a, hb i lo hi c⟩

theorem feasible_iff {s s' : State K} {rows : List (Row K)} {outs : List (RowOut K)} {iv : List (K × K)} {head : List K}
    (h : Assembled s s' rows outs iv head) (z : Nat → K) :
    QpFeasible s' z ↔ AllWithin 0 (outs.flatMap (·.trips)) outs z ∧
      (∀ (i : Nat) lo hi, iv[i]? = some (lo, hi) → lo ≤ z i ∧ z i ≤ hi) ∧
      ∀ i, s.nVars ≤ i → i < s.nVars + (outs.flatMap (·.grad)).length → 0 ≤ z i := by
  have hol : outs.length = s.nPen + s.nMerit := by rw [h.laid.length, h.rowsLen]
  have hz : ∀ r, s.nPen + s.nMerit ≤ r → tripForm (outs.flatMap (·.trips)) r z = 0 := by
    intro r hr
    apply tripForm_zero
    intro t ht
    have := (h.laid.range (n := s.nVars) (le_refl _) h.jac t ht).2.1
    rw [h.rowsLen] at this
    omega
  have f1 : ∀ r, r < s.nPen + s.nMerit → s'.matrix.rowForm r z = tripForm (outs.flatMap (·.trips)) r z := by
    intro r hr; rw [h.matrix, if_neg (by omega), add_zero]
  have f2 : ∀ i, i < s'.nQpVars → s'.matrix.rowForm (s.nPen + s.nMerit + i) z = z i := by
    intro i hi
    rw [h.matrix, hz _ (by omega), if_pos (by omega), zero_add, Nat.add_sub_cancel_left]
  have l1 : ∀ k, k < s.nPen + s.nMerit → s'.lower[k]? = (outs[k]?).map (·.lower) ∧ s'.upper[k]? = (outs[k]?).map (·.upper) := by
    intro k hk
    rw [h.lower, h.upper, List.append_assoc, List.append_assoc, List.getElem?_append_left (by simp [hol, hk]),
      List.getElem?_append_left (by simp [hol, hk]), List.getElem?_map, List.getElem?_map]
    exact ⟨rfl, rfl⟩
  have l2 : ∀ i, i < s.nVars → s'.lower[s.nPen + s.nMerit + i]? = (iv[i]?).map (fun p => Ext.fin p.1) ∧
      s'.upper[s.nPen + s.nMerit + i]? = (iv[i]?).map (fun p => Ext.fin p.2) := by
    intro i hi
    have e1 : s'.lower[s.nPen + s.nMerit + i]? = (iv[i]?).map (fun p => Ext.fin p.1) := by
      rw [h.lower, List.getElem?_append_left (by simp [hol, h.ivLen, hi]), List.getElem?_append_right (by simp [hol]),
        List.length_map, hol, Nat.add_sub_cancel_left, List.getElem?_map]
    have e2 : s'.upper[s.nPen + s.nMerit + i]? = (iv[i]?).map (fun p => Ext.fin p.2) := by
      rw [h.upper, List.getElem?_append_left (by simp [hol, h.ivLen, hi]), List.getElem?_append_right (by simp [hol]),
        List.length_map, hol, Nat.add_sub_cancel_left, List.getElem?_map]
    exact ⟨e1, e2⟩
  have l3 : ∀ i, s.nVars ≤ i → i < s.nVars + (outs.flatMap (·.grad)).length →
      s'.lower[s.nPen + s.nMerit + i]? = some (.fin 0) ∧ s'.upper[s.nPen + s.nMerit + i]? = some .posInf := by
    intro i hi hi2
    rw [h.lower, h.upper, List.getElem?_append_right (by simp [hol, h.ivLen, hi]),
      List.getElem?_append_right (by simp [hol, h.ivLen, hi]), List.getElem?_replicate, List.getElem?_replicate]
    have : s.nPen + s.nMerit + i - (outs.map (·.lower) ++ iv.map fun p => Ext.fin p.1).length <
        (outs.flatMap (·.grad)).length := by simp only [List.length_append, List.length_map, hol, h.ivLen]; omega
    have h2 : s.nPen + s.nMerit + i - (outs.map (·.upper) ++ iv.map fun p => Ext.fin p.2).length <
        (outs.flatMap (·.grad)).length := by simp only [List.length_append, List.length_map, hol, h.ivLen]; omega
    rw [if_pos this, if_pos h2]; exact ⟨rfl, rfl⟩
  have nq := h.nQpVars
  have nc := h.nQpCnts
  constructor
  · intro hf
    refine ⟨?_, ?_, ?_⟩
    · intro k o ho
      have hk : k < s.nPen + s.nMerit := by rw [← hol]; exact (List.getElem?_eq_some_iff.1 ho).1
      obtain ⟨l, u, a, b, c⟩ := hf k (by rw [h.matrixRows, nc]; omega)
      rw [(l1 k hk).1, ho] at a
      rw [(l1 k hk).2, ho] at b
      rw [f1 k hk, ← Option.some.inj a, ← Option.some.inj b] at c
      rw [Nat.zero_add]; exact c
    · intro i lo hi hi'
      have hk : i < s.nVars := by rw [← h.ivLen]; exact (List.getElem?_eq_some_iff.1 hi').1
      obtain ⟨l, u, a, b, c⟩ := hf (s.nPen + s.nMerit + i) (by rw [h.matrixRows, nc, nq]; omega)
      rw [(l2 i hk).1, hi'] at a
      rw [(l2 i hk).2, hi'] at b
      rw [f2 i (by rw [nq]; omega), ← Option.some.inj a, ← Option.some.inj b] at c
      exact c
    · intro i hi hi2
      obtain ⟨l, u, a, b, c⟩ := hf (s.nPen + s.nMerit + i) (by rw [h.matrixRows, nc, nq]; omega)
      rw [(l3 i hi hi2).1] at a
      rw [f2 i (by rw [nq]; omega), ← Option.some.inj a] at c
      exact c.1
  · rintro ⟨g1, g2, g3⟩ r hr
    rw [h.matrixRows, nc, nq] at hr
    by_cases c1 : r < s.nPen + s.nMerit
    · have ho := List.getElem?_eq_getElem (l := outs) (i := r) (by rw [hol]; exact c1)
      refine ⟨_, _, (l1 r c1).1.trans (by rw [ho]; rfl), (l1 r c1).2.trans (by rw [ho]; rfl), ?_⟩
      rw [f1 r c1]
      have := g1 r _ ho
      rw [Nat.zero_add] at this; exact this
    · obtain ⟨i, rfl⟩ : ∃ i, r = s.nPen + s.nMerit + i := ⟨r - (s.nPen + s.nMerit), by omega⟩
      rw [f2 i (by rw [nq]; omega)]
      by_cases c2 : i < s.nVars
      · have ho := List.getElem?_eq_getElem (l := iv) (i := i) (by rw [h.ivLen]; exact c2)
        refine ⟨_, _, (l2 i c2).1.trans (by rw [ho]; rfl), (l2 i c2).2.trans (by rw [ho]; rfl), ?_⟩
        exact g2 i _ _ ho
      · obtain ⟨e1, e2⟩ := l3 i (by omega) (by omega)
        exact ⟨_, _, e1, e2, g3 i (by omega) (by omega), trivial⟩

theorem slackCost_eq {s s' : State K} {rows : List (Row K)} {outs : List (RowOut K)} {iv : List (K × K)} {head : List K}
    (h : Assembled s s' rows outs iv head) (z : Nat → K) : slackCost s' z = linCost s.nVars (outs.flatMap (·.grad)) z := by
  rw [slackCost, linCost_sum, h.nSlack, h.frame.1]
  refine sum_congr rfl fun i hi => ?_
  rw [h.gradient, List.getD_eq_getElem?_getD, List.getElem?_append_right (by rw [h.headLen]; omega), h.headLen,
    Nat.add_sub_cancel_left, List.getD_eq_getElem?_getD]

theorem qpObjective_split {s s' : State K} {rows : List (Row K)} {outs : List (RowOut K)} {iv : List (K × K)}
    {head : List K} (h : Assembled s s' rows outs iv head) (z : Nat → K) :
    qpObjective s' z = smoothCost s' z + slackCost s' z := by
  have hn : s'.nQpVars = s'.nVars + s'.nSlack := by rw [h.nQpVars, h.nSlack, h.frame.1]
  have ho : ∀ r c, s'.nVars ≤ r ∨ s'.nVars ≤ c → s'.hessian.entry r c = 0 := by rw [h.frame.1]; exact h.hessOut
  have e : ∑ r ∈ range (s'.nVars + s'.nSlack), ∑ c ∈ range (s'.nVars + s'.nSlack), z r * s'.hessian.entry r c * z c =
      ∑ r ∈ range s'.nVars, ∑ c ∈ range s'.nVars, z r * s'.hessian.entry r c * z c := by
    rw [sum_range_add]
    have h2 : ∀ r ∈ range s'.nSlack, ∑ c ∈ range (s'.nVars + s'.nSlack),
        z (s'.nVars + r) * s'.hessian.entry (s'.nVars + r) c * z c = 0 := by
      intro r _
      exact sum_eq_zero fun c _ => by rw [ho _ _ (Or.inl (Nat.le_add_right _ _))]; ring
    rw [sum_eq_zero h2, add_zero]
    refine sum_congr rfl fun r _ => ?_
    rw [sum_range_add]
    have h3 : ∀ c ∈ range s'.nSlack, z r * s'.hessian.entry r (s'.nVars + c) * z (s'.nVars + c) = 0 :=
      fun c _ => by rw [ho _ _ (Or.inr (Nat.le_add_right _ _))]; ring
    rw [sum_eq_zero h3, add_zero]
  rw [qpObjective, smoothCost, slackCost, hn, e, sum_range_add, add_assoc]

theorem problemRows_frame {s s' : State K} {rows : List (Row K)} {outs : List (RowOut K)} {iv : List (K × K)}
    {head : List K} (h : Assembled s s' rows outs iv head) (mu : Nat → K) : problemRows mu s' = problemRows mu s := by
  obtain ⟨-, a1, a2, -, a3, a4, -, -, -, -, a5, a6, -⟩ := h.frame
  have e : s'.ask = s.ask := by funext c; simp only [State.ask, a1, a2]
  simp only [problemRows, a1, a3, a4, a5, a6, e]

theorem inBox_frame {s s' : State K} {rows : List (Row K)} {outs : List (RowOut K)} {iv : List (K × K)}
    {head : List K} (h : Assembled s s' rows outs iv head) (x : Nat → K) : InBox s' x ↔ InBox s x := by
  obtain ⟨-, a1, -, -, -, -, -, -, -, -, -, -, -, a2, a3⟩ := h.frame
  simp only [InBox, a1, a2, a3]

/-- Feasible points are in the trust box and their slacks cost at least the weighted violation of the linearised rows. -/
theorem slack_lower {s s' : State K} {rows : List (Row K)} {outs : List (RowOut K)} {iv : List (K × K)} {head : List K}
    (hr : Ready s) (h : Assembled s s' rows outs iv head) (z : Nat → K) (hz : QpFeasible s' z) :
    InBox s z ∧ penaltyOf rows z ≤ slackCost s' z := by
  obtain ⟨a1, a2, a3⟩ := (feasible_iff h z).1 hz
  refine ⟨(inBox_iff hr h z).2 a2, ?_⟩
  rw [slackCost_eq h]
  exact h.laid.lower (le_refl _) h.jac h.proper z a3 a1

/-- Every point of the trust box extends to a feasible point whose slacks cost exactly the weighted violation. -/
theorem slack_attain {s s' : State K} {rows : List (Row K)} {outs : List (RowOut K)} {iv : List (K × K)} {head : List K}
    (hr : Ready s) (h : Assembled s s' rows outs iv head) (x : Nat → K) (hx : InBox s x) :
    ∃ z, (∀ i < s.nVars, z i = x i) ∧ QpFeasible s' z ∧ slackCost s' z = penaltyOf rows x := by
  obtain ⟨z, z1, z2, z3, z4⟩ := h.laid.attain (le_refl _) h.jac (fun r hr => (h.proper r hr).1) x
  refine ⟨z, z1, (feasible_iff h z).2 ⟨z3, ?_, z2⟩, by rw [slackCost_eq h, z4]⟩
  intro i lo hi hi'
  have hlt : i < s.nVars := by rw [← h.ivLen]; exact (List.getElem?_eq_some_iff.1 hi').1
  rw [z1 i hlt]
  exact (inBox_iff hr h x).1 hx i lo hi hi'

/-! ### Rows without slacks -/

/-- Specification: a row of the constraint matrix times the variables of the problem. -/
def varPart (s : State K) (r : Nat) (x : Nat → K) : K := ∑ c ∈ range s.nVars, s.matrix.entry r c * x c

theorem Laid.rowValue {row var n : Nat} {rs : List (Row K)} {os : List (RowOut K)} (h : Laid row var rs os) (hn : n ≤ var)
    (hj : ∀ r ∈ rs, ∀ q ∈ r.jac, q.1 < n) (z : Nat → K) (hz : ∀ i, n ≤ i → z i = 0) (k : Nat) (r : Row K)
    (hk : rs[k]? = some r) : tripForm (os.flatMap (·.trips)) (row + k) z = dot (keep r.jac) z := by
  induction h generalizing k with
  | nil => simp at hk
  | @cons row var r' o rs os h1 h2 ih =>
    have hjr : ∀ q ∈ r'.jac, q.1 < var := fun q hq => lt_of_lt_of_le (hj r' (by simp) q hq) hn
    have hrest := h2.range (n := n) (by omega) fun r hr => hj r (by simp [hr])
    rw [List.flatMap_cons, tripForm_append]
    cases k with
    | zero =>
      simp only [List.getElem?_cons_zero, Option.some.injEq] at hk
      subst hk
      rw [Nat.add_zero, tripForm_zero (os.flatMap (·.trips)) row z fun t ht => by have := hrest t ht; omega, add_zero]
      unfold rowOut at h1
      cases hb : r'.bound.type <;> simp only [hb] at h1 <;> first | (simp at h1; done) | skip
      all_goals
        injection h1 with h1; subst h1
        rw [tripForm_append, tripForm_keep]
        simp [tripForm, hz var hn, hz (var + 1) (by omega)]
    | succ k =>
      simp only [List.getElem?_cons_succ] at hk
      rw [tripForm_zero o.trips _ z fun t ht => by have := (rowOut_shape h1 hjr).1 t ht; omega, zero_add]
      have := ih (by omega) (fun r hr => hj r (by simp [hr])) k hk
      rw [show row + (k + 1) = row + 1 + k by omega]; exact this

theorem varPart_eq {s s' : State K} {rows : List (Row K)} {outs : List (RowOut K)} {iv : List (K × K)} {head : List K}
    (h : Assembled s s' rows outs iv head) (k : Nat) (r : Row K) (hk : rows[k]? = some r) (x : Nat → K) :
    varPart s' k x = dot (keep r.jac) x := by
  have hlt : k < s.nPen + s.nMerit := by rw [← h.rowsLen]; exact (List.getElem?_eq_some_iff.1 hk).1
  have hjr : ∀ q ∈ r.jac, q.1 < s.nVars := h.jac r (List.mem_of_getElem? hk)
  set z : Nat → K := fun i => if i < s.nVars then x i else 0 with hz
  have e1 : varPart s' k x = s'.matrix.rowForm k z := by
    rw [SMat.rowForm, h.matrixCols, h.nQpVars, sum_range_add, varPart, h.frame.1]
    have : ∀ c ∈ range (outs.flatMap (·.grad)).length, s'.matrix.entry k (s.nVars + c) * z (s.nVars + c) = 0 :=
      fun c _ => by simp [hz]
    rw [sum_eq_zero this, add_zero]
    refine sum_congr rfl fun c hc => ?_
    simp [hz, mem_range.1 hc]
  rw [e1, h.matrix, if_neg (by omega), add_zero]
  have := h.laid.rowValue (le_refl _) h.jac z (fun i hi => by simp [hz]; omega) k r hk
  rw [Nat.zero_add] at this
  rw [this]
  exact dot_congr s.nVars _ (keep_lt _ _ hjr) _ _ fun i hi => by simp [hz, hi]

/-- The slack costs, row by row. -/
theorem Laid.grad {row var : Nat} {rs : List (Row K)} {os : List (RowOut K)} (h : Laid row var rs os) :
    os.flatMap (·.grad) = rs.flatMap fun r => List.replicate (if r.bound.type = .equality then 2 else 1) r.weight := by
  induction h with
  | nil => rfl
  | @cons row var r o rs os h1 h2 ih =>
    rw [List.flatMap_cons, List.flatMap_cons, ih]
    congr 1
    unfold rowOut at h1
    cases hb : r.bound.type <;> simp only [hb] at h1 <;> first | (simp at h1; done) | skip
    all_goals injection h1 with h1; subst h1; rfl

end Verif.QpProblem
