import Verif.Props.QpProps

/-!
C74-C77: the values reported by `TrajOptQPProblem` (convex costs, convex constraint violations, exact costs) and the QP.
-/

set_option linter.unusedSectionVars false
set_option linter.unusedVariables false

namespace Verif.QpProblem

open Verif.Bounds Verif.Sco Verif.SqpExprs Finset

universe u
variable {K : Type u} [Field K] [LinearOrder K] [IsStrictOrderedRing K]

/-! ### C74: the objective -/

/-- C74, without Hessian entries in `(0, 1e-7)`: the smooth part of the QP objective is the sum of the squared linearised
errors up to a constant. -/
theorem C74_objective_partial {s s' : State K} (h : Live s) (sqrt : K → K) (hsqrt : ∀ a : K, 0 ≤ a → sqrt a * sqrt a = a)
    (junk : Nat → Ext K) (hc : s.convexify sqrt junk = some s') :
    ∃ (k : K) (H : Nat → Nat → K),
      (∀ x, squaredModel s' x = k + ∑ c ∈ range s'.nVars, s'.gradient.getD c 0 * x c +
        ∑ r ∈ range s'.nVars, ∑ c ∈ range s'.nVars, x r * H r c * x c) ∧
      (∀ r c, s'.hessian.entry r c = if |H r c| < 1 / 10 ^ 7 then 0 else H r c) ∧
      ((∀ r c, H r c = 0 ∨ 1 / 10 ^ 7 ≤ |H r c|) → ∀ x, squaredModel s' x = k + smoothCost s' x) := by
  obtain ⟨t, outs, iv, head, a1, a2, a3, a4⟩ := convexified h sqrt hsqrt junk hc
  obtain ⟨k, H, b1, b2⟩ := a2.obj
  have e : ∀ x, squaredModel s' x = squaredModel t x := by
    intro x
    obtain ⟨-, c1, c2, c3, -, -, -, -, -, c4, -⟩ := a2.frame
    have e : s'.ask = t.ask := by funext c; simp only [State.ask, c1, c2]
    simp only [squaredModel, c1, c3, c4, e]
  have hg : ∀ c ∈ range s'.nVars, s'.gradient.getD c 0 = head.getD c 0 := by
    intro c hc
    rw [a2.gradient, List.getD_eq_getElem?_getD, List.getElem?_append_left, List.getD_eq_getElem?_getD]
    rw [a2.headLen, ← a2.frame.1]; exact mem_range.1 hc
  have f : ∀ x : Nat → K, ∑ c ∈ range s'.nVars, s'.gradient.getD c 0 * x c = ∑ c ∈ range s'.nVars, head.getD c 0 * x c :=
    fun x => sum_congr rfl fun c hc => by rw [hg c hc]
  refine ⟨k, H, fun x => ?_, b2, fun hH x => ?_⟩
  · rw [e, f, a2.frame.1, b1 x]
  · rw [e, ← b1 x, smoothCost, f, a2.frame.1]
    have : ∀ r c, s'.hessian.entry r c = H r c := by
      intro r c
      rw [b2]
      rcases hH r c with h0 | h1
      · rw [h0]; split_ifs <;> rfl
      · rw [if_neg (not_lt.2 h1)]
    simp only [this]; ring

/-- The squared cost `(x - 5)^2 / 10^8` with `x = 1`. -/
def flatDemo : State ℚ :=
  { nVars := 1, varBounds := [(none, none)], x := fun _ => 1, upd := fun _ => 0,
    squared := [lineComp 1 0 (1 / 10 ^ 8) ⟨.fin 5, .fin 5, .equality⟩] }

/-- C74 is violated by small weights: the cost loses its curvature, what remains is a linear objective (with slope
`-10 / 10^8`) without a minimum. -/
theorem C74_violated_small_hessian :
    ((flatDemo.setup fun _ => .negInf).convexify (fun _ => 1 / 10 ^ 4) (fun _ => .negInf)).map (fun s' =>
      (s'.hessian.cols, s'.gradient)) = some ([[(0, 0)]], [-10 / 10 ^ 8]) ∧
    ((1 / 10 ^ 4 : ℚ) * (1 / 10 ^ 4) = 1 / 10 ^ 8) := by decide +kernel

/-! ### Sparse rows -/

theorem rowMul_eq (M : SMat K) (n r : Nat) (z : Nat → K) (hn : n ≤ M.cols.length) :
    rowMul M n r z = ∑ c ∈ range n, M.entry r c * z c := by
  unfold rowMul
  induction n with
  | zero => rfl
  | succ n ih =>
    have hlt : n < M.cols.length := hn
    rw [List.take_succ_eq_append_getElem hlt, List.zipIdx_append, List.map_append, List.sum_append, ih (by omega),
      sum_range_succ]
    congr 1
    have : (M.cols.take n).length = n := by rw [List.length_take]; omega
    simp only [List.zipIdx_cons, List.zipIdx_nil, List.map_cons, List.map_nil, List.sum_cons, List.sum_nil, add_zero, this,
      Nat.zero_add]
    rw [SMat.entry, List.getElem?_eq_getElem hlt]
    rfl

/-- Values of blocks of rows. -/
theorem convexViolations_blocks (s : State K) (n : Nat) (z : Nat → K) (R : List (Row K)) (f : Row K → K)
    (hval : ∀ (k : Nat) r, R[k]? = some r → s.constant.getD k 0 + rowMul s.matrix n k z = f r)
    (blocks : List (Info K × List (Row K))) (pre suf : List (Row K)) (hR : R = pre ++ (blocks.flatMap Prod.snd ++ suf))
    (hb : ∀ b ∈ blocks, b.2.map (·.bound) = b.1.bounds ∧ b.2.length = b.1.rows) :
    s.convexViolations n z pre.length (blocks.map Prod.fst) =
      blocks.map fun b => (b.2.map fun r => violB (f r) (sides r.bound)).sum := by
  induction blocks generalizing pre with
  | nil => rfl
  | cons b blocks ih =>
    obtain ⟨i, rs⟩ := b
    obtain ⟨h1, h2⟩ := hb (i, rs) (by simp)
    simp only at h1 h2
    have ih := ih (pre ++ rs) (by rw [hR]; simp) fun b hb' => hb b (by simp [hb'])
    simp only [List.map_cons, State.convexViolations]
    by_cases h0 : i.rows = 0
    · have : rs = [] := List.length_eq_zero_iff.1 (by rw [h2, h0])
      subst this
      rw [if_pos h0]
      simpa using ih
    · rw [if_neg h0]
      rw [List.length_append, h2] at ih
      rw [ih]
      congr 1
      rw [State.convexViolation, calcBoundsViolations, ← h1]
      have e : ((List.range i.rows).map fun k => s.constant.getD (pre.length + k) 0 + rowMul s.matrix n (pre.length + k) z) =
          rs.map f := by
        apply List.ext_getElem
        · simp [h2]
        · intro k k1 k2
          simp only [List.getElem_map, List.getElem_range]
          have hk : k < rs.length := by simpa using k2
          apply hval
          rw [hR, List.getElem?_append_right (by omega), Nat.add_sub_cancel_left, List.flatMap_cons, List.append_assoc,
            List.getElem?_append_left hk, List.getElem?_eq_getElem hk]
      rw [e, List.map_map]
      congr 1
      clear ih hb h1 h2 hR hval e h0
      induction rs with
      | nil => rfl
      | cons r rs ih2 => simp only [List.map_cons, List.zipWith_cons_cons, ih2, Function.comp_apply]

theorem violB_gap (b : Bounds K) (hb : Proper b) (a : K) : violB a (sides b) = gap b a := by
  rcases hb with ⟨l, u, rfl, hlu⟩ | ⟨l, rfl⟩ | ⟨u, rfl⟩
  · simp only [violB, sides, gap, below, above]
    split_ifs with h1 h2
    · rw [max_eq_right (by linarith), max_eq_left (by linarith), abs_of_neg (by linarith)]; ring
    · rw [max_eq_left (by linarith), max_eq_right (by linarith), abs_of_pos (by linarith)]; ring
    · push Not at h1 h2
      rw [max_eq_left (by linarith), max_eq_left (by linarith)]; ring
  · simp only [violB, sides, gap, below, above]
    split_ifs with h1
    · rw [max_eq_right (by linarith), abs_of_neg (by linarith)]; ring
    · push Not at h1
      rw [max_eq_left (by linarith)]; ring
  · simp only [violB, sides, gap, below, above]
    split_ifs with h1
    · rw [max_eq_right (by linarith), abs_of_pos (by linarith)]; ring
    · push Not at h1
      rw [max_eq_left (by linarith)]; ring

/-- Specification: the violation of the linearised rows of a set at `z` (small entries dropped from the matrix). -/
def linViolation (x0 : Nat → K) (i : Info K) (s : Snap K) (z : Nat → K) : K :=
  (List.zipWith (fun (p : K × List (Nat × K)) b => gap b (p.1 - dot p.2 x0 + dot (keep p.2) z))
    (s.values.zip s.jac.rows) i.bounds).sum

theorem setRows_bounds (mc : K) (x0 : Nat → K) (n : Nat) (i : Info K) (s : Snap K) (h : CntOk n i s) :
    (setRows mc x0 i s).map (·.bound) = i.bounds := by
  rw [setRows, List.map_zipWith]
  apply List.ext_getElem
  · simp [h.jac, h.coeffs, h.bounds, h.rows]
  · intro k h1 h2
    simp

theorem setRows_violation (mc : K) (x0 z : Nat → K) (n : Nat) (i : Info K) (s : Snap K) (h : CntOk n i s) :
    ((setRows mc x0 i s).map fun r => violB (r.constant + dot (keep r.jac) z) (sides r.bound)).sum =
      linViolation x0 i s z := by
  rw [setRows, linViolation, List.map_zipWith]
  congr 1
  apply List.ext_getElem
  · simp [h.jac, h.coeffs, h.bounds, h.rows]
  · intro k h1 h2
    simp only [List.getElem_zipWith, List.getElem_zip]
    exact violB_gap _ (h.proper _ (List.getElem_mem _)) _

/-- C76: the reported convex violation of each constraint set is the unweighted violation of its linearised rows,
whatever the slacks and the merit coefficients. -/
theorem C76_convex_violations {s s' : State K} (h : Live s) (sqrt : K → K) (hsqrt : ∀ a : K, 0 ≤ a → sqrt a * sqrt a = a)
    (junk : Nat → Ext K) (hc : s.convexify sqrt junk = some s') (z : Nat → K) :
    s'.evaluateConvexConstraintViolations z =
      List.zipWith (fun i c => linViolation s'.x i (s'.ask c) z) s'.meritInfos s'.merit := by
  obtain ⟨t, outs, iv, head, a1, a2, a3, a4⟩ := convexified h sqrt hsqrt junk hc
  have hr := ready_of_current a3 a4
  set mu := usedMerit s'.meritInfos s'.meritCoeff with hmu
  set pre := (s'.penInfos.zip s'.penalty).flatMap fun p => setRows 1 s'.x p.1 (s'.ask p.2) with hpre
  set blocks := (s'.meritInfos.zip s'.merit).zipIdx.map fun p => (p.1.1, setRows (mu p.2) s'.x p.1.1 (s'.ask p.1.2)) with hbl
  have hz : ∀ (l : List (Info K)) (l' : List (Comp K)), l.length = l'.length → (l.zip l').map Prod.fst = l :=
    fun l l' hl => by rw [List.map_fst_zip]; omega
  have hlen : pre.length = s'.nPen := by
    rw [hpre, List.length_flatMap, hr.nPen]
    conv_rhs => rw [← hz _ _ hr.pen.length_eq, List.map_map]
    congr 1
    exact List.map_congr_left fun p hp => setRows_length 1 s'.x s'.nVars _ _ (zip_forall hr.pen p hp)
  have hfst : blocks.map Prod.fst = s'.meritInfos := by
    rw [hbl, List.map_map]
    conv_rhs => rw [← hz _ _ hr.merit.length_eq]
    have : (s'.meritInfos.zip s'.merit) = (s'.meritInfos.zip s'.merit).zipIdx.map Prod.fst := by simp
    conv_rhs => rw [this, List.map_map]
    rfl
  have hn : s'.nVars ≤ s'.matrix.cols.length := by rw [a2.matrixCols, a2.nQpVars, a2.frame.1]; omega
  have key := convexViolations_blocks s' s'.nVars z (problemRows mu s') (fun r => r.constant + dot (keep r.jac) z) ?_
    blocks pre [] ?_ ?_
  · rw [State.evaluateConvexConstraintViolations, ← hlen, ← hfst, key, hfst, hbl, List.map_map]
    have : ∀ p ∈ (s'.meritInfos.zip s'.merit).zipIdx, ((fun b : Info K × List (Row K) => (b.2.map fun r =>
        violB (r.constant + dot (keep r.jac) z) (sides r.bound)).sum) ∘ fun p : (Info K × Comp K) × Nat =>
          (p.1.1, setRows (mu p.2) s'.x p.1.1 (s'.ask p.1.2))) p =
        ((fun p : Info K × Comp K => linViolation s'.x p.1 (s'.ask p.2) z) ∘ Prod.fst) p := by
      intro p hp
      exact setRows_violation _ _ _ s'.nVars _ _ (zip_forall hr.merit p.1 (List.fst_mem_of_mem_zipIdx hp))
    rw [List.map_congr_left this, ← List.map_map]
    simp [List.zip, List.map_zipWith]
  · intro k r hk
    rw [rowMul_eq _ _ _ _ hn, a2.constant, List.getD_eq_getElem?_getD, List.getElem?_map, hk]
    simp only [Option.map_some, Option.getD_some]
    congr 1
    exact varPart_eq a2 k r hk z
  · rw [problemRows, List.append_nil, hbl, List.flatMap_map]
  · intro b hb
    obtain ⟨p, hp, rfl⟩ := List.mem_map.1 hb
    have ho := zip_forall hr.merit p.1 (List.fst_mem_of_mem_zipIdx hp)
    exact ⟨setRows_bounds _ _ s'.nVars _ _ ho, setRows_length _ _ s'.nVars _ _ ho⟩

/-! ### C75: the convex costs -/

theorem segmentSums_flatMap {α : Type*} (l : List α) (f : α → List K) :
    segmentSums (l.map fun a => (f a).length) (l.flatMap f) = l.map fun a => (f a).sum := by
  induction l with
  | nil => rfl
  | cons a l ih =>
    simp only [List.map_cons, List.flatMap_cons, segmentSums]
    rw [List.take_left, List.drop_left, ih]

theorem convexViolations_length (s : State K) (n : Nat) (z : Nat → K) (row : Nat) (is : List (Info K)) :
    (s.convexViolations n z row is).length = is.length := by
  induction is generalizing row with
  | nil => rfl
  | cons i is ih => unfold State.convexViolations; split_ifs <;> simp [ih]

/-- C75, squared costs: the reported convex cost is the sum of the weighted squared linearised errors at the point. -/
theorem C75_squared_partial {s s' : State K} (h : Live s) (sqrt : K → K) (hsqrt : ∀ a : K, 0 ≤ a → sqrt a * sqrt a = a)
    (junk : Nat → Ext K) (hc : s.convexify sqrt junk = some s') (h0 : s'.nObj ≠ 0) (z : Nat → K) :
    ∃ pen, pen.length = s'.penInfos.length ∧ s'.evaluateConvexCosts z = some
      (List.zipWith (fun i c => (sqValues s'.x i (s'.ask c) z).sum) s'.objInfos s'.objective ++ pen) := by
  obtain ⟨t, outs, iv, head, a1, a2, a3, a4⟩ := convexified h sqrt hsqrt junk hc
  have hr := ready_of_current a3 a4
  obtain ⟨-, c1, c2, c3, -, -, c5, -, -, c4, -⟩ := a2.frame
  have hq := a2.sq (by rw [← c5]; exact h0)
  have e : s'.ask = t.ask := by funext c; simp only [State.ask, c1, c2]
  rw [a2.frame.1.symm, ← c1, ← c3, ← c4, ← e] at hq
  have hz : ∀ (l : List (Info K)) (l' : List (Comp K)), l.length = l'.length → (l.zip (l'.map s'.ask)).map Prod.fst = l :=
    fun l l' hl => by rw [List.map_fst_zip]; simp; omega
  have hlens : s'.objInfos.map (·.rows) =
      (s'.objInfos.zip (s'.objective.map s'.ask)).map fun t => (sqValues s'.x t.1 t.2 z).length := by
    conv_lhs => rw [← hz _ _ hr.obj.length_eq, List.map_map]
    refine List.map_congr_left fun p hp => ?_
    have fo : List.Forall₂ (fun i sn => ObjOk s'.nVars i sn) s'.objInfos (s'.objective.map s'.ask) := by
      rw [List.forall₂_map_right_iff]; exact hr.obj
    have ho := zip_forall fo p hp
    simp [sqValues, ho.jac, ho.coeffs, ho.bounds, ← ho.rows]
  refine ⟨s'.convexViolations s'.nQpVars z 0 s'.penInfos, convexViolations_length _ _ _ _ _, ?_⟩
  have hne : s'.objInfos ≠ [] := by
    intro hn
    apply h0
    rw [hr.nObj, hn]; rfl
  unfold State.evaluateConvexCosts
  rw [if_neg hne, if_pos ?_]
  · rw [hq.vals z]
    simp only
    rw [hlens, segmentSums_flatMap]
    congr 2
    simp [List.zip, List.map_zipWith, List.zipWith_map_right]
  · rw [hq.len, hr.nObj]
    congr 1
    conv_rhs => rw [← hz _ _ hr.obj.length_eq, List.map_map]
    rfl

theorem Laid.bounds {row var n : Nat} {rs : List (Row K)} {os : List (RowOut K)} (h : Laid row var rs os) (hn : n ≤ var)
    (hj : ∀ r ∈ rs, ∀ q ∈ r.jac, q.1 < n) (k : Nat) (r : Row K) (hk : rs[k]? = some r) :
    ∃ o, os[k]? = some o ∧ o.lower = addScalar r.bound.lower (-r.constant) ∧
      o.upper = addScalar r.bound.upper (-r.constant) := by
  induction h generalizing k with
  | nil => simp at hk
  | @cons row var r' o rs os h1 h2 ih =>
    cases k with
    | zero =>
      simp only [List.getElem?_cons_zero, Option.some.injEq] at hk
      subst hk
      have := rowOut_shape h1 fun q hq => lt_of_lt_of_le (hj r' (by simp) q hq) hn
      exact ⟨o, rfl, this.2.1, this.2.2⟩
    | succ k =>
      simp only [List.getElem?_cons_succ] at hk ⊢
      exact ih (by omega) (fun r hr => hj r (by simp [hr])) k hk

theorem within_violation (b : Bounds K) (hb : Proper b) (c a : K)
    (h : Within (addScalar b.lower (-c), addScalar b.upper (-c)) a) : violB (c + a) (sides b) = 0 := by
  rw [violB_gap b hb]
  rcases hb with ⟨l, u, rfl, hlu⟩ | ⟨l, rfl⟩ | ⟨u, rfl⟩
  · obtain ⟨h1, h2⟩ := h
    simp only [addScalar] at h1 h2
    simp only [gap, below, above]
    rw [max_eq_left (by linarith), max_eq_left (by linarith), add_zero]
  · obtain ⟨h1, h2⟩ := h
    simp only [addScalar] at h1 h2
    simp only [gap, below, above]
    rw [max_eq_left (by linarith), add_zero]
  · obtain ⟨h1, h2⟩ := h
    simp only [addScalar] at h1 h2
    simp only [gap, below, above]
    rw [max_eq_left (by linarith), add_zero]

theorem pen_blocks {s s' : State K} {outs : List (RowOut K)} {iv : List (K × K)} {head : List K} {t : State K}
    (a2 : Assembled t s' (problemRows (usedMerit s'.meritInfos s'.meritCoeff) s') outs iv head) (hr : Ready s')
    (z : Nat → K) (f : Row K → K)
    (hval : ∀ (k : Nat) r, (problemRows (usedMerit s'.meritInfos s'.meritCoeff) s')[k]? = some r →
      s'.constant.getD k 0 + rowMul s'.matrix s'.nQpVars k z = f r) :
    s'.convexViolations s'.nQpVars z 0 s'.penInfos = (s'.penInfos.zip s'.penalty).map fun p =>
      ((setRows 1 s'.x p.1 (s'.ask p.2)).map fun r => violB (f r) (sides r.bound)).sum := by
  have hz : ∀ (l : List (Info K)) (l' : List (Comp K)), l.length = l'.length → (l.zip l').map Prod.fst = l :=
    fun l l' hl => by rw [List.map_fst_zip]; omega
  have key := convexViolations_blocks s' s'.nQpVars z _ f hval
    ((s'.penInfos.zip s'.penalty).map fun p => (p.1, setRows 1 s'.x p.1 (s'.ask p.2))) []
    ((s'.meritInfos.zip s'.merit).zipIdx.flatMap fun p =>
      setRows (usedMerit s'.meritInfos s'.meritCoeff p.2) s'.x p.1.1 (s'.ask p.1.2)) ?_ ?_
  · rw [List.map_map, List.map_map] at key
    have e : (s'.penInfos.zip s'.penalty).map (Prod.fst ∘ fun p => (p.1, setRows 1 s'.x p.1 (s'.ask p.2))) = s'.penInfos :=
      hz _ _ hr.pen.length_eq
    rw [e] at key
    exact key
  · rw [problemRows, List.flatMap_map]; rfl
  · intro b hb
    obtain ⟨p, hp, rfl⟩ := List.mem_map.1 hb
    have ho := zip_forall hr.pen p hp
    exact ⟨setRows_bounds _ _ s'.nVars _ _ ho, setRows_length _ _ s'.nVars _ _ ho⟩

/-- C75, penalty costs, when the slacks are zero: the reported convex cost is the violation of the linearised rows. -/
theorem C75_penalty_partial {s s' : State K} (h : Live s) (sqrt : K → K) (hsqrt : ∀ a : K, 0 ≤ a → sqrt a * sqrt a = a)
    (junk : Nat → Ext K) (hc : s.convexify sqrt junk = some s') (z : Nat → K) (hz : ∀ i, s'.nVars ≤ i → z i = 0) :
    s'.convexViolations s'.nQpVars z 0 s'.penInfos =
      List.zipWith (fun i c => linViolation s'.x i (s'.ask c) z) s'.penInfos s'.penalty := by
  obtain ⟨t, outs, iv, head, a1, a2, a3, a4⟩ := convexified h sqrt hsqrt junk hc
  have hr := ready_of_current a3 a4
  rw [pen_blocks (s := s) a2 hr z (fun r => r.constant + dot (keep r.jac) z) ?_]
  · rw [List.zip, List.map_zipWith]
    apply List.ext_getElem
    · simp
    · intro k h1 h2
      simp only [List.getElem_zipWith]
      have hk : k < (s'.penInfos.zip s'.penalty).length := by simpa using h1
      have ho := zip_forall hr.pen _ (List.getElem_mem hk)
      rw [List.getElem_zip] at ho
      exact setRows_violation _ _ _ s'.nVars _ _ ho
  · intro k r hk
    rw [rowMul_eq _ _ _ _ (by rw [a2.matrixCols]), a2.constant, List.getD_eq_getElem?_getD, List.getElem?_map, hk]
    simp only [Option.map_some, Option.getD_some]
    congr 1
    rw [← varPart_eq a2 k r hk z, varPart, a2.nQpVars, sum_range_add, a2.frame.1]
    have : ∀ c ∈ range (outs.flatMap (·.grad)).length, s'.matrix.entry k (t.nVars + c) * z (t.nVars + c) = 0 :=
      fun c _ => by rw [hz _ (by rw [a2.frame.1]; omega), mul_zero]
    rw [sum_eq_zero this, add_zero]

/-- C75 is violated for penalty costs: at every feasible point of the QP, in particular at its solution, the reported
convex cost of every hinge and absolute cost is zero, however large the cost of the linearised problem is there. -/
theorem C75_violated_penalty_zero {s s' : State K} (h : Live s) (sqrt : K → K)
    (hsqrt : ∀ a : K, 0 ≤ a → sqrt a * sqrt a = a)
    (junk : Nat → Ext K) (hc : s.convexify sqrt junk = some s') (z : Nat → K) (hz : QpFeasible s' z) :
    s'.convexViolations s'.nQpVars z 0 s'.penInfos = List.replicate s'.penInfos.length 0 := by
  obtain ⟨t, outs, iv, head, a1, a2, a3, a4⟩ := convexified h sqrt hsqrt junk hc
  have hr := ready_of_current a3 a4
  obtain ⟨f1, -, -⟩ := (feasible_iff a2 z).1 hz
  have hrow : ∀ (k : Nat) r, (problemRows (usedMerit s'.meritInfos s'.meritCoeff) s')[k]? = some r →
      violB (s'.constant.getD k 0 + rowMul s'.matrix s'.nQpVars k z) (sides r.bound) = 0 := by
    intro k r hk
    have hlt : k < t.nPen + t.nMerit := by rw [← a2.rowsLen]; exact (List.getElem?_eq_some_iff.1 hk).1
    obtain ⟨o, o1, o2, o3⟩ := a2.laid.bounds (le_refl _) a2.jac k r hk
    have hw := f1 k o o1
    rw [Nat.zero_add, o2, o3] at hw
    have e : rowMul s'.matrix s'.nQpVars k z = s'.matrix.rowForm k z := by
      rw [rowMul_eq _ _ _ _ (by rw [a2.matrixCols]), SMat.rowForm, a2.matrixCols]
    rw [e, a2.matrix, if_neg (by omega), add_zero, a2.constant, List.getD_eq_getElem?_getD, List.getElem?_map, hk]
    exact within_violation _ (a2.proper r (List.mem_of_getElem? hk)).1 _ _ hw
  -- induct over the sets
  have gen : ∀ (is : List (Info K)) (bs : List (List (Row K))) (pre suf : List (Row K)),
      List.Forall₂ (fun i b => b.map (·.bound) = i.bounds ∧ b.length = i.rows) is bs →
      problemRows (usedMerit s'.meritInfos s'.meritCoeff) s' = pre ++ (bs.flatten ++ suf) →
      s'.convexViolations s'.nQpVars z pre.length is = List.replicate is.length 0 := by
    intro is bs pre suf hf
    induction hf generalizing pre with
    | nil => intro _; rfl
    | @cons i b is bs h1 _ ih =>
      intro hR
      have ih := ih (pre ++ b) (by rw [hR]; simp)
      unfold State.convexViolations
      rw [List.length_cons, List.replicate_succ]
      split_ifs with h0
      · have : b = [] := List.length_eq_zero_iff.1 (by rw [h1.2, h0])
        subst this
        rw [List.append_nil] at ih
        rw [ih]
      · rw [List.length_append, h1.2] at ih
        rw [ih]
        congr 1
        rw [State.convexViolation, calcBoundsViolations]
        apply List.sum_eq_zero
        intro a ha
        obtain ⟨k, hk, rfl⟩ := List.mem_iff_getElem.1 ha
        simp only [List.getElem_zipWith, List.getElem_map, List.getElem_range]
        have hkb : k < b.length := by rw [h1.2]; simp at hk; omega
        have hb : i.bounds[k]'(by rw [← h1.1]; simpa using hkb) = (b[k]).bound := by simp [← h1.1]
        rw [hb]
        apply hrow
        rw [hR, List.getElem?_append_right (by omega), Nat.add_sub_cancel_left, List.flatten_cons, List.append_assoc,
          List.getElem?_append_left hkb, List.getElem?_eq_getElem hkb]
  refine gen s'.penInfos ((s'.penInfos.zip s'.penalty).map fun p => setRows 1 s'.x p.1 (s'.ask p.2)) []
    ((s'.meritInfos.zip s'.merit).zipIdx.flatMap fun p =>
      setRows (usedMerit s'.meritInfos s'.meritCoeff p.2) s'.x p.1.1 (s'.ask p.1.2)) ?_ ?_
  · rw [List.forall₂_iff_get]
    have hl := hr.pen.length_eq
    refine ⟨by simp; omega, fun k h1 h2 => ?_⟩
    have hk : k < (s'.penInfos.zip s'.penalty).length := by simpa using h2
    have ho := zip_forall hr.pen _ (List.getElem_mem hk)
    simp only [List.get_eq_getElem, List.getElem_map, List.getElem_zip] at ho ⊢
    exact ⟨setRows_bounds _ _ s'.nVars _ _ ho, setRows_length _ _ s'.nVars _ _ ho⟩
  · rw [problemRows, List.flatMap_def]; rfl

/-- C75 is violated, a run of the API: the hinge cost `3 * max 0 (x - 1/2)` at `x = 1`, where it is `3/2`: the reported
convex cost with the slack that makes the QP feasible is `0`. -/
def hingeDemo : State ℚ :=
  { nVars := 1, varBounds := [(none, none)], x := fun _ => 1, upd := fun _ => 0,
    hinge := [lineComp 1 0 3 ⟨.negInf, .fin (1 / 2), .upperBound⟩] }

theorem C75_violated_witness :
    ((hingeDemo.setup fun _ => .negInf).convexify id (fun _ => .negInf)).bind (fun s' =>
      s'.evaluateConvexCosts fun i => if i = 0 then 1 else 1 / 2) = some [0] ∧
    ((hingeDemo.setup fun _ => .negInf).convexify id (fun _ => .negInf)).map (fun s' => s'.gradient) = some [0, 3] := by
  decide +kernel

/-! ### C77: exact penalty costs and their weights -/

/-- Specification: the weighted violation of a set at its current values. -/
def weightedViolation (s : Snap K) : K :=
  (List.zipWith (fun (p : K × K) b => p.1 * gap b p.2) (s.coeffs.zip s.values) s.bounds).sum

theorem exact_zip (vs ws : List K) (bs : List (Bounds K)) (h1 : ws.length = vs.length)
    (hb : ∀ b ∈ bs, Proper b) (hw : ∀ w ∈ ws, w = 1) :
    (calcBoundsViolations vs (bs.map sides)).sum =
      (List.zipWith (fun (p : K × K) b => p.1 * gap b p.2) (ws.zip vs) bs).sum := by
  unfold calcBoundsViolations
  congr 1
  apply List.ext_getElem
  · simp [h1]
  · intro k k1 k2
    simp only [List.getElem_zipWith, List.getElem_map, List.getElem_zip]
    rw [hw _ (List.getElem_mem _), one_mul, violB_gap _ (hb _ (List.getElem_mem _))]

/-- C77 when all coefficients are one: the exact cost of a hinge or absolute cost is the weighted violation. -/
theorem C77_exact_cost_partial {s : State K} (h : Live s) (hw : ∀ c ∈ s.penalty, ∀ w ∈ (s.ask c).coeffs, w = 1) :
    s.getExactCosts.drop s.objective.length = s.penalty.map fun c => weightedViolation (s.ask c) := by
  rw [State.getExactCosts, List.drop_left' (by simp)]
  refine List.map_congr_left fun c hc => ?_
  have ho := (h.finP c hc).2 s.x s.upd
  exact exact_zip _ _ _ (by rw [State.ask]; exact ho.coeffs.trans ho.rows) ho.proper (hw c hc)

/-- C77 for squared costs: the exact cost is the weighted sum of the squared violations. -/
theorem C77_exact_squared {s : State K} (h : Live s) (hb : ∀ c ∈ s.objective, ∀ b ∈ (s.ask c).bounds, Proper b) :
    s.getExactCosts.take s.objective.length = s.objective.map fun c =>
      (List.zipWith (fun (p : K × K) b => p.1 * gap b p.2 ^ 2) ((s.ask c).coeffs.zip (s.ask c).values) (s.ask c).bounds).sum := by
  rw [State.getExactCosts, List.take_left' (by simp)]
  refine List.map_congr_left fun c hc => ?_
  have ho := (h.finO c hc).2 s.x s.upd
  have hl : (s.ask c).coeffs.length = (s.ask c).values.length := ho.coeffs
  unfold calcBoundsViolations
  congr 1
  apply List.ext_getElem
  · simp only [List.length_zipWith, List.length_map, List.length_zip]; omega
  · intro k k1 k2
    simp only [List.getElem_zipWith, List.getElem_map, List.getElem_zip]
    rw [violB_gap _ (hb c hc _ (List.getElem_mem _))]
    ring

example : Live ((demo : State ℚ).setup fun _ => .negInf) ∧
    (∀ c ∈ ((demo : State ℚ).setup fun _ => .negInf).objective,
      ∀ b ∈ (((demo : State ℚ).setup fun _ => .negInf).ask c).bounds, Proper b) ∧
    ((demo : State ℚ).setup fun _ => .negInf).getExactCosts.take 1 = [1] := by
  refine ⟨demo_live _, ?_, by decide +kernel⟩
  intro c hc b hb
  have e : c = lineComp 1 0 1 ⟨.fin 2, .fin 2, .equality⟩ := by
    have : c ∈ [lineComp (1 : ℚ) 0 1 ⟨.fin 2, .fin 2, .equality⟩] := hc
    simpa using this
  subst e
  have : b ∈ [(⟨.fin 2, .fin 2, .equality⟩ : Bounds ℚ)] := hb
  rw [List.mem_singleton] at this
  subst this
  exact .inl ⟨2, 2, rfl, le_rfl⟩

/-- C77 is violated: the coefficients of penalty costs do not enter the exact cost (they do enter the QP, C28). -/
theorem C77_violated_unweighted (a k w : K) (u x : K) :
    State.getExactCosts (
      { nVars := 1, varBounds := [(none, none)], x := fun _ => x, upd := fun _ => x,
        penalty := [lineComp a k w ⟨.negInf, .fin u, .upperBound⟩] } : State K) = [Max.max 0 (a * x + k - u)] := by
  have := violB_gap (⟨.negInf, .fin u, .upperBound⟩ : Bounds K) (.inr (.inr ⟨u, rfl⟩)) (a * x + k)
  simp only [gap, below, above, zero_add] at this
  simp [State.getExactCosts, lineComp, State.ask, calcBoundsViolations, this]

end Verif.QpProblem
