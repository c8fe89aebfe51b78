import Verif.Props.QpRows

/-!
`TrajOptQPProblem::convexify` succeeds on well-formed problems; what it produces (used by C26-C29).
-/

set_option linter.unusedSectionVars false
set_option linter.unusedVariables false

namespace Verif.QpProblem

open Verif.Bounds Verif.Sco Verif.SqpExprs Finset

universe u
variable {K : Type u} [Field K] [LinearOrder K] [IsStrictOrderedRing K]

/-- A cached description of a constraint-like term fits what the term answers. -/
structure CntOk (n : Nat) (i : Info K) (s : Snap K) : Prop where
  rows : i.rows = s.values.length
  jac : s.jac.rows.length = s.values.length
  coeffs : i.coeffs.length = i.rows
  bounds : i.bounds.length = i.rows
  range : ∀ r ∈ s.jac.rows, ∀ q ∈ r, q.1 < n
  nonneg : ∀ c ∈ i.coeffs, 0 ≤ c
  proper : ∀ b ∈ i.bounds, Proper b

/-- A cached description of a squared cost fits what the cost answers. -/
structure ObjOk (n : Nat) (i : Info K) (s : Snap K) : Prop where
  rows : i.rows = s.values.length
  jac : s.jac.rows.length = s.values.length
  coeffs : s.coeffs.length = s.values.length
  bounds : i.bounds.length = i.rows
  cols : s.jac.cols = n
  range : ∀ r ∈ s.jac.rows, ∀ q ∈ r, q.1 < n
  nonneg : ∀ c ∈ s.coeffs, 0 ≤ c
  proper : ∀ b ∈ i.bounds, ∃ l u, b = ⟨.fin l, .fin u, .equality⟩

/-- The problem is ready to be convexified: cached sizes agree with what the sets answer now. -/
structure Ready (s : State K) : Prop where
  obj : List.Forall₂ (fun i c => ObjOk s.nVars i (s.ask c)) s.objInfos s.objective
  pen : List.Forall₂ (fun i c => CntOk s.nVars i (s.ask c)) s.penInfos s.penalty
  merit : List.Forall₂ (fun i c => CntOk s.nVars i (s.ask c)) s.meritInfos s.merit
  nObj : s.nObj = (s.objInfos.map (·.rows)).sum
  nPen : s.nPen = (s.penInfos.map (·.rows)).sum
  nMerit : s.nMerit = (s.meritInfos.map (·.rows)).sum
  target : s.target.length = s.nObj
  constant : s.constant.length = s.nPen + s.nMerit
  lower : s.nPen + s.nMerit ≤ s.lower.length
  upper : s.nPen + s.nMerit ≤ s.upper.length
  meritCoeff : s.meritCoeff.length = s.merit.length
  meritNonneg : ∀ m ∈ s.meritCoeff, 0 ≤ m
  box : s.box.length = s.nVars
  varBounds : s.varBounds.length = s.nVars
  valid : ∀ b ∈ s.varBounds, Valid b

/-! ### Rows of the constraint-like terms -/

/-- Specification: the linearised rows of a set at `x0`, weighted with `mc` times the cached coefficients. -/
def setRows (mc : K) (x0 : Nat → K) (i : Info K) (s : Snap K) : List (Row K) :=
  List.zipWith (fun p q => ⟨mc * q.1, p.1 - dot p.2 x0, p.2, q.2⟩) (s.values.zip s.jac.rows) (i.coeffs.zip i.bounds)

theorem setRows_length (mc : K) (x0 : Nat → K) (n : Nat) (i : Info K) (s : Snap K) (h : CntOk n i s) :
    (setRows mc x0 i s).length = i.rows := by
  simp [setRows, h.jac, h.coeffs, h.bounds, h.rows]

theorem rowOut_ok (w : K) (row var : Nat) (j : List (Nat × K)) (b : Bounds K) (k : K) (hb : Proper b) :
    ∃ o, rowOut w row var j b k = some o := by
  rcases hb with ⟨l, u, rfl, hlu⟩ | ⟨l, rfl⟩ | ⟨u, rfl⟩ <;> exact ⟨_, rfl⟩

theorem rowsOut_ok (mc : K) (x0 : Nat → K) (row var : Nat) (js : List (List (Nat × K))) (bs : List (Bounds K)) (cs vs : List K)
    (h1 : bs.length = js.length) (h2 : cs.length = js.length) (h3 : vs.length = js.length) (hb : ∀ b ∈ bs, Proper b) :
    ∃ outs, rowsOut mc row var js bs cs (List.zipWith (fun v r => v - dot r x0) vs js) = some outs ∧
      Laid row var (List.zipWith (fun (p : K × List (Nat × K)) (q : K × Bounds K) => (⟨mc * q.1, p.1 - dot p.2 x0, p.2, q.2⟩ : Row K))
        (vs.zip js) (cs.zip bs)) outs := by
  induction js generalizing row var bs cs vs with
  | nil => exact ⟨[], by simp [rowsOut], by simpa using Laid.nil row var⟩
  | cons j js ih =>
    cases bs with
    | nil => simp at h1
    | cons b bs => cases cs with
      | nil => simp at h2
      | cons c cs => cases vs with
        | nil => simp at h3
        | cons v vs =>
          obtain ⟨o, ho⟩ := rowOut_ok (mc * c) row var j b (v - dot j x0) (hb b (by simp))
          obtain ⟨outs, a1, a2⟩ := ih (row + 1) (var + o.grad.length) bs cs vs (by simpa using h1) (by simpa using h2)
            (by simpa using h3) fun b' hb' => hb b' (by simp [hb'])
          refine ⟨o :: outs, ?_, ?_⟩
          · simp only [List.zipWith_cons_cons, rowsOut, ho, a1]
          · simp only [List.zip_cons_cons, List.zipWith_cons_cons]
            exact .cons ho a2

/-- The rows of all terms, merit coefficients handed out in order to the sets with rows. -/
def termRows (x0 : Nat → K) : List K → List (Bool × Info K × Snap K) → List (Row K)
  | _, [] => []
  | merits, (m, i, s) :: l =>
    if i.rows = 0 then termRows x0 merits l
    else setRows (if m then merits.headD 0 else 1) x0 i s ++ termRows x0 (if m then merits.tail else merits) l

theorem termsOut_ok (x0 : Nat → K) (n : Nat) (terms : List (Bool × Info K × Snap K)) (merits : List K) (row var : Nat)
    (h : ∀ t ∈ terms, CntOk n t.2.1 t.2.2) (hm : terms.countP (fun t => t.1 && decide (t.2.1.rows ≠ 0)) ≤ merits.length) :
    ∃ bs, termsOut x0 merits row var terms = some bs ∧
      Laid row var (termRows x0 merits terms) (bs.flatMap (·.outs)) ∧
      bs.flatMap (·.constants) = (termRows x0 merits terms).map (·.constant) ∧
      (termRows x0 merits terms).length = (terms.map fun t => t.2.1.rows).sum := by
  induction terms generalizing merits row var with
  | nil => exact ⟨[], rfl, by simpa [termRows] using Laid.nil row var, rfl, rfl⟩
  | cons t terms ih =>
    obtain ⟨m, i, s⟩ := t
    have hi : CntOk n i s := h (m, i, s) (by simp)
    by_cases h0 : i.rows = 0
    · obtain ⟨bs, a1, a2, a3, a4⟩ := ih merits row var (fun t ht => h t (by simp [ht])) (by simpa [h0] using hm)
      refine ⟨bs, by simp only [termsOut, h0, if_true, a1], ?_, ?_, ?_⟩
      · simpa only [termRows, h0, if_true] using a2
      · simpa only [termRows, h0, if_true] using a3
      · simpa only [termRows, h0, if_true, List.map_cons, List.sum_cons, Nat.zero_add] using a4
    · have hmc : ∃ mc merits', (if m then merits.head? else some 1) = some mc ∧
          (if m then merits.tail else merits) = merits' ∧ mc = (if m then merits.headD 0 else 1) ∧
          terms.countP (fun t => t.1 && decide (t.2.1.rows ≠ 0)) ≤ merits'.length := by
        cases m with
        | false => exact ⟨1, merits, rfl, rfl, rfl, by simpa [h0] using hm⟩
        | true =>
          cases merits with
          | nil => simp [h0] at hm
          | cons a l =>
            refine ⟨a, l, rfl, rfl, rfl, ?_⟩
            rw [List.countP_cons_of_pos (by simp [h0])] at hm
            simpa using hm
      obtain ⟨mc, merits', b1, b2, b3, b4⟩ := hmc
      obtain ⟨outs, c1, c2⟩ := rowsOut_ok mc x0 row var s.jac.rows i.bounds i.coeffs s.values
        (by rw [hi.bounds, hi.rows, hi.jac]) (by rw [hi.coeffs, hi.rows, hi.jac]) (by rw [hi.jac]) hi.proper
      obtain ⟨bs, a1, a2, a3, a4⟩ := ih merits' (row + i.rows) (var + (outs.map fun o => o.grad.length).sum)
        (fun t ht => h t (by simp [ht])) b4
      refine ⟨⟨List.zipWith (fun v r => v - dot r x0) s.values s.jac.rows, outs⟩ :: bs, ?_, ?_, ?_, ?_⟩
      · simp only [termsOut, h0, if_false]
        rw [if_pos ⟨hi.rows.symm, by rw [hi.jac, hi.rows]⟩]
        simp only [b1, c1, b2, a1]
      · simp only [termRows, h0, if_false, b2, ← b3, List.flatMap_cons]
        refine Laid.append c2 ?_
        have hl : (setRows mc x0 i s).length = i.rows := setRows_length mc x0 n i s hi
        rw [hl, List.length_flatMap]
        exact a2
      · simp only [termRows, h0, if_false, b2, ← b3, List.flatMap_cons, List.map_append, a3]
        congr 1
        simp only [setRows, List.map_zipWith]
        have : ∀ (vs : List K) (js : List (List (Nat × K))) (qs : List (K × Bounds K)), vs.length = js.length →
            qs.length = js.length → List.zipWith (fun v r => v - dot r x0) vs js =
              List.zipWith (fun (p : K × List (Nat × K)) (q : K × Bounds K) => p.1 - dot p.2 x0) (vs.zip js) qs := by
          intro vs
          induction vs with
          | nil => intro js qs _ _; simp
          | cons v vs ih =>
            intro js qs h1 h2
            cases js with
            | nil => simp at h1
            | cons j js => cases qs with
              | nil => simp at h2
              | cons q qs => simp [ih js qs (by simpa using h1) (by simpa using h2)]
        exact this _ _ _ (by rw [hi.jac]) (by simp [hi.coeffs, hi.bounds, hi.rows, hi.jac])
      · simp only [termRows, h0, if_false, b2, ← b3, List.length_append, List.map_cons, List.sum_cons]
        rw [setRows_length mc x0 n i s hi, a4]

/-! ### Array segments -/

theorem writeSeg_zero {α : Type u} (l seg : List α) (h : seg.length ≤ l.length) :
    writeSeg l 0 seg = some (seg ++ l.drop seg.length) := by simp [writeSeg, h]

theorem writeSeg_mid {α : Type u} (a b seg c : List α) (h : seg.length = b.length) :
    writeSeg (a ++ b ++ c) a.length seg = some (a ++ seg ++ c) := by
  have : a.length + seg.length ≤ (a ++ b ++ c).length := by simp [h]
  rw [writeSeg, if_pos this]
  have h1 : (a ++ b ++ c).take a.length = a := by simp
  have h2 : (a ++ b ++ c).drop (a.length + seg.length) = c := by
    rw [h, ← List.length_append, List.drop_left]
  rw [h1, h2]

/-- The layout of the bounds vectors: rows, trust box, slack bounds. -/
theorem bounds_layout (junk : Nat → Ext K) (l seg box : List (Ext K)) (n nSlack : Nat) (v : Ext K)
    (h1 : seg.length ≤ l.length) (hb : box.length = n) :
    ∃ l1, writeSeg l 0 seg = some l1 ∧
      writeSeg ((conservativeResize junk (seg.length + (n + nSlack)) l1).take (seg.length + (n + nSlack) - nSlack) ++
        List.replicate nSlack v) seg.length box = some (seg ++ box ++ List.replicate nSlack v) := by
  refine ⟨_, writeSeg_zero l seg h1, ?_⟩
  obtain ⟨rest, hrest⟩ : ∃ rest, (conservativeResize junk (seg.length + (n + nSlack)) (seg ++ l.drop seg.length)) =
      seg ++ rest ∧ rest.length = n + nSlack := by
    refine ⟨(l.drop seg.length).take (n + nSlack) ++ (List.range (seg.length + (n + nSlack) -
      (seg ++ l.drop seg.length).length)).map junk, ?_, ?_⟩
    · rw [conservativeResize, List.take_append, List.take_of_length_le (by omega)]
      simp
    · simp; omega
  rw [hrest.1]
  have : (seg ++ rest).take (seg.length + (n + nSlack) - nSlack) = seg ++ rest.take n := by
    rw [show seg.length + (n + nSlack) - nSlack = seg.length + n by omega, List.take_append,
      List.take_of_length_le (by omega)]
    simp
  rw [this]
  exact writeSeg_mid seg (rest.take n) box _ (by rw [hb, List.length_take, hrest.2]; omega)

/-! ### The squared costs -/

/-- Specification: weighted squares of `target - (linearised value at x)` of a squared cost. -/
def sqValues (x0 : Nat → K) (i : Info K) (s : Snap K) (x : Nat → K) : List K :=
  List.zipWith (fun (p : K × List (Nat × K)) (q : K × Bounds K) =>
    q.1 * ((match q.2.lower with | .fin t => t | _ => 0) - (p.1 + dot p.2 (x - x0))) ^ 2)
    (s.values.zip s.jac.rows) (s.coeffs.zip i.bounds)

/-- Sizes and shape of a square. -/
theorem square_shape (sqrt : K → K) (e : Aff K) (w : List K) (Q : Quad K) (h : e.square sqrt w = some Q)
    (hc : ∀ r ∈ e.linear.rows, ∀ q ∈ r, q.1 < e.linear.cols) :
    Q.constants.length = e.constants.length ∧ Q.linear.rows.length = e.constants.length ∧
      Q.quadratic.length = e.constants.length ∧ Q.objLinear.length = e.linear.cols ∧ Q.objQuadratic.Wf ∧
      Q.objQuadratic.rows = e.linear.cols ∧ Q.objQuadratic.cols.length = e.linear.cols := by
  unfold Aff.square at h
  simp only at h
  split_ifs at h with hl
  · have hrange : ∀ t ∈ gramTriplets (List.zipWith (fun r s => scaleRow s r) e.linear.rows (w.map sqrt)),
        t.1 < e.linear.cols ∧ t.2.1 < e.linear.cols := by
      have hzip : ∀ r ∈ List.zipWith (fun r s => scaleRow s r) e.linear.rows (w.map sqrt), ∀ q ∈ r,
          q.1 < e.linear.cols := by
        intro r hr'
        rw [List.mem_iff_getElem] at hr'
        obtain ⟨i, hi, rfl⟩ := hr'
        rw [List.getElem_zipWith]
        intro q hq
        simp only [scaleRow, List.mem_map] at hq
        obtain ⟨p, hp, rfl⟩ := hq
        exact hc _ (List.getElem_mem _) p hp
      intro t ht
      simp only [gramTriplets, List.mem_flatMap, List.mem_map] at ht
      obtain ⟨r, hr', a, ha, b, hb, rfl⟩ := ht
      exact ⟨hzip r hr' a ha, hzip r hr' b hb⟩
    obtain ⟨H, q1, q2, q3, q4, q5, q6⟩ := setFromTriplets_spec e.linear.cols e.linear.cols _ hrange
    rw [q1] at h
    simp only [Option.some.injEq] at h
    subst h
    refine ⟨by simp [hl.2], by simp [hl.1, hl.2], by simp [hl.1, hl.2], by simp [colSums], q2, q3, q4⟩

/-- What the objective loop stores for one squared cost. -/
structure SqOk (n : Nat) (x0 : Nat → K) (i : Info K) (s : Snap K) (q : Quad K) : Prop where
  len1 : q.constants.length = s.values.length
  len2 : q.linear.rows.length = s.values.length
  len3 : q.quadratic.length = s.values.length
  len4 : q.objLinear.length = n
  wf : q.objQuadratic.Wf
  rows : q.objQuadratic.rows = n
  cols : q.objQuadratic.cols.length = n
  vals : ∀ x, q.values x = some (sqValues x0 i s x)
  total : ∀ x, q.constants.sum + ∑ c ∈ range n, q.objLinear.getD c 0 * x c +
    ∑ r ∈ range n, ∑ c ∈ range n, x r * q.objQuadratic.entry r c * x c = (sqValues x0 i s x).sum

theorem mapM_lower (bs : List (Bounds K)) (h : ∀ b ∈ bs, ∃ l u, b = ⟨.fin l, .fin u, .equality⟩) :
    bs.mapM finLower =
      some (bs.map fun b => match b.lower with | .fin a => a | _ => 0) := by
  induction bs with
  | nil => rfl
  | cons b bs ih =>
    obtain ⟨l, u, rfl⟩ := h b (by simp)
    rw [List.mapM_cons, ih fun b' hb' => h b' (by simp [hb'])]
    rfl

theorem objectiveOne_ok (sqrt : K → K) (hsqrt : ∀ a : K, 0 ≤ a → sqrt a * sqrt a = a) (x0 : Nat → K) (n : Nat)
    (i : Info K) (s : Snap K) (h : ObjOk n i s) (target : List K) (row : Nat) (hrow : row + i.rows ≤ target.length) :
    ∃ target' q, objectiveOne sqrt x0 target row i s = some (target', q) ∧ target'.length = target.length ∧
      SqOk n x0 i s q := by
  set ts := i.bounds.map fun b => (match b.lower with | .fin a => a | _ => 0 : K) with hts
  have hl : ts.length = i.rows := by simp [hts, h.bounds]
  have hw : writeSeg target row ts = some (target.take row ++ ts ++ target.drop (row + ts.length)) := by
    rw [writeSeg, if_pos (by rw [hl]; exact hrow)]
  have hseg : ((target.take row ++ ts ++ target.drop (row + ts.length)).drop row).take s.rows = ts := by
    have : (target.take row).length = row := by rw [List.length_take]; omega
    rw [List.append_assoc, List.drop_append_of_le_length (by omega), List.drop_of_length_le (by omega), List.nil_append,
      List.take_append_of_le_length (by simp [Snap.rows, hl, h.rows]), List.take_of_length_le (by simp [Snap.rows, hl, h.rows])]
  have hcr : Aff.create s.values s.jac x0 = some ⟨List.zipWith (fun v r => v - dot r x0) s.values s.jac.rows, s.jac⟩ := by
    rw [Aff.create, if_pos h.jac.symm]
  set a : Aff K := ⟨List.zipWith (fun t c => t - c) ts (List.zipWith (fun v r => v - dot r x0) s.values s.jac.rows),
    ⟨s.jac.cols, s.jac.rows.map (scaleRow (-1))⟩⟩ with ha
  have hcl : a.constants.length = s.values.length := by simp [ha, hl, h.rows, h.jac]
  have hcols : ∀ r ∈ a.linear.rows, ∀ q ∈ r, q.1 < a.linear.cols := by
    intro r hr q hq
    obtain ⟨r', hr', rfl⟩ := List.mem_map.1 hr
    simp only [scaleRow, List.mem_map] at hq
    obtain ⟨p, hp, rfl⟩ := hq
    simp only [ha, h.cols]
    exact h.range r' hr' p hp
  obtain ⟨Q, q1, q2⟩ := C31_square sqrt a s.coeffs (by rw [hcl, h.coeffs]) (by rw [hcl]; simp [ha, h.jac])
    (fun c hc => hsqrt c (h.nonneg c hc)) hcols
  obtain ⟨p1, p2, p3, p4, p5, p6, p7⟩ := square_shape sqrt a s.coeffs Q q1 hcols
  have hn : a.linear.cols = n := h.cols
  have hsv : ∀ x av, a.values x = some av → weightedSquares s.coeffs av = sqValues x0 i s x := by
    intro x av hav
    rw [Aff.values, if_pos (by rw [hcl]; simp [ha, h.jac])] at hav
    injection hav with hav
    subst hav
    simp only [ha, sqValues]
    have main : ∀ (ws : List K) (bs : List (Bounds K)) (vs : List K) (js : List (List (Nat × K))),
        ws.length = vs.length → bs.length = vs.length → js.length = vs.length →
        weightedSquares ws (List.zipWith (fun c r => c + dot r x)
          (List.zipWith (fun t c => t - c) (bs.map fun b => (match b.lower with | .fin a => a | _ => 0 : K))
            (List.zipWith (fun v r => v - dot r x0) vs js)) (js.map (scaleRow (-1)))) =
        List.zipWith (fun (p : K × List (Nat × K)) (q : K × Bounds K) =>
          q.1 * ((match q.2.lower with | .fin t => t | _ => 0) - (p.1 + dot p.2 (x - x0))) ^ 2)
          (vs.zip js) (ws.zip bs) := by
      intro ws
      induction ws with
      | nil => intro bs vs js _ _ _; simp [weightedSquares]
      | cons w ws ih =>
        intro bs vs js h1 h2 h3
        cases vs with
        | nil => simp at h1
        | cons v vs => cases bs with
          | nil => simp at h2
          | cons b bs => cases js with
            | nil => simp at h3
            | cons j js =>
              simp only [List.map_cons, List.zipWith_cons_cons, weightedSquares, List.zip_cons_cons]
              rw [ih bs vs js (by simpa using h1) (by simpa using h2) (by simpa using h3), dot_scale, dot_sub]
              congr 1
              ring
    exact main _ _ _ _ h.coeffs (by rw [h.bounds, h.rows]) h.jac
  refine ⟨target.take row ++ ts ++ target.drop (row + ts.length), Q, ?_, ?_, ⟨by rw [p1, hcl], by rw [p2, hcl], by rw [p3, hcl], by rw [p4, hn], p5, by rw [p6, hn],
    by rw [p7, hn], fun x => ?_, fun x => ?_⟩⟩
  · unfold objectiveOne
    rw [mapM_lower i.bounds h.proper]
    simp only [← hts, hw, hcr, hseg]
    rw [if_pos (by simp [hl, h.rows, h.jac])]
    rw [ha] at q1
    rw [q1]
  · simp only [List.length_append, List.length_take, List.length_drop]; omega
  · obtain ⟨av, v, a1, a2, a3, a4⟩ := q2 x
    rw [a2, a3, hsv x av a1]
  · obtain ⟨av, v, a1, a2, a3, a4⟩ := q2 x
    rw [hn] at a4
    rw [a4, a3, hsv x av a1]

theorem objectiveLoop_ok (sqrt : K → K) (hsqrt : ∀ a : K, 0 ≤ a → sqrt a * sqrt a = a) (x0 : Nat → K) (n : Nat)
    (terms : List (Info K × Snap K)) (h : ∀ t ∈ terms, ObjOk n t.1 t.2) (target : List K) (row : Nat)
    (hrow : row + (terms.map fun t => t.1.rows).sum ≤ target.length) :
    ∃ target' qs, objectiveLoop sqrt x0 target row terms = some (target', qs) ∧
      List.Forall₂ (fun t q => SqOk n x0 t.1 t.2 q) terms qs := by
  induction terms generalizing target row with
  | nil => exact ⟨target, [], rfl, .nil⟩
  | cons t terms ih =>
    have ht := h t (by simp)
    simp only [List.map_cons, List.sum_cons] at hrow
    obtain ⟨target', q, a1, a2, a3⟩ := objectiveOne_ok sqrt hsqrt x0 n t.1 t.2 ht target row (by omega)
    obtain ⟨target'', qs, b1, b2⟩ := ih (fun t' ht' => h t' (by simp [ht'])) target' (row + t.2.rows)
      (by rw [a2, Snap.rows, ← ht.rows]; omega)
    exact ⟨target'', q :: qs, by simp only [objectiveLoop, a1, b1], .cons a3 b2⟩

theorem zip_forall {α β : Type u} {P : α → β → Prop} {l : List α} {l' : List β} (h : List.Forall₂ P l l') :
    ∀ t ∈ l.zip l', P t.1 t.2 := by
  induction h with
  | nil => simp
  | cons a _ ih =>
    intro t ht
    simp only [List.zip_cons_cons, List.mem_cons] at ht
    rcases ht with rfl | ht
    · exact a
    · exact ih t ht

/-- What the assembled squared objective is. -/
structure SqAll (n : Nat) (x0 : Nat → K) (terms : List (Info K × Snap K)) (q : Quad K) : Prop where
  len : q.constants.length = (terms.map fun t => t.1.rows).sum
  lin : q.objLinear.length = n
  wf : q.objQuadratic.Wf
  rows : q.objQuadratic.rows = n
  cols : q.objQuadratic.cols.length = n
  vals : ∀ x, q.values x = some (terms.flatMap fun t => sqValues x0 t.1 t.2 x)
  total : ∀ x, q.constants.sum + ∑ c ∈ range n, q.objLinear.getD c 0 * x c +
    ∑ r ∈ range n, ∑ c ∈ range n, x r * q.objQuadratic.entry r c * x c =
      (terms.map fun t => (sqValues x0 t.1 t.2 x).sum).sum

theorem quad_values_eq (e : Quad K) (x : Nat → K) (h1 : e.linear.rows.length = e.constants.length)
    (h2 : e.quadratic.length = e.constants.length) :
    e.values x = some (List.zipWith (fun a Q => a + quadPart Q x)
      (List.zipWith (fun c r => c + dot r x) e.constants e.linear.rows) e.quadratic) := by
  unfold Quad.values
  rw [if_pos h1.symm]
  simp only
  by_cases h0 : e.quadratic = []
  · rw [if_pos h0]
    have : e.constants = [] := by
      rw [h0] at h2; exact List.length_eq_zero_iff.1 h2.symm
    simp [h0, this]
  · rw [if_neg h0, if_pos (by simp [h1, h2])]

theorem sqObjective_ok (sqrt : K → K) (hsqrt : ∀ a : K, 0 ≤ a → sqrt a * sqrt a = a) (s : State K) (h : Ready s)
    (hn : s.nObj ≠ 0) : ∃ target q, s.sqObjectiveOf sqrt = some (target, q) ∧
      SqAll s.nVars s.x (s.objInfos.zip (s.objective.map s.ask)) q := by
  have hf : List.Forall₂ (fun i sn => ObjOk s.nVars i sn) s.objInfos (s.objective.map s.ask) := by
    rw [List.forall₂_map_right_iff]; exact h.obj
  have hterm := zip_forall hf
  have hsum : ((s.objInfos.zip (s.objective.map s.ask)).map fun t => t.1.rows).sum = s.nObj := by
    rw [h.nObj]
    congr 1
    have : ((s.objInfos.zip (s.objective.map s.ask)).map fun t => t.1.rows) =
        ((s.objInfos.zip (s.objective.map s.ask)).map Prod.fst).map (·.rows) := by simp [List.map_map, Function.comp_def]
    rw [this, List.map_fst_zip]
    rw [hf.length_eq]
  set terms := s.objInfos.zip (s.objective.map s.ask) with hterms
  obtain ⟨target, qs, a1, a2⟩ := objectiveLoop_ok sqrt hsqrt s.x s.nVars terms hterm s.target 0
    (by rw [hsum, h.target, Nat.zero_add])
  -- sizes
  have hlens : ∀ f : Quad K → Nat, (∀ t ∈ terms, ∀ q, SqOk s.nVars s.x t.1 t.2 q → f q = t.1.rows) →
      (qs.map f).sum = s.nObj := by
    intro f hf'
    rw [← hsum]
    clear a1 hsum
    clear_value terms
    clear hterms
    induction a2 with
    | nil => rfl
    | @cons t q ts qs h1 h2 ih =>
      simp only [List.map_cons, List.sum_cons]
      rw [hf' t (by simp) q h1, ih (fun t' ht' => hterm t' (by simp [ht'])) fun t' ht' => hf' t' (by simp [ht'])]
  have l1 := hlens (fun q => q.constants.length) fun t ht q hq => by rw [hq.len1, (hterm t ht).rows]
  have hq : ∀ q ∈ qs, q.objLinear.length = s.nVars ∧ q.objQuadratic.Wf ∧ q.objQuadratic.rows = s.nVars ∧
      q.objQuadratic.cols.length = s.nVars := by
    intro q hq
    obtain ⟨k, hk, rfl⟩ := List.mem_iff_getElem.1 hq
    have := (List.forall₂_iff_get.1 a2).2 k (by rw [a2.length_eq]; exact hk) hk
    exact ⟨this.len4, this.wf, this.rows, this.cols⟩
  have hrange : ∀ t ∈ qs.flatMap (fun q => q.objQuadratic.triplets), t.1 < s.nVars ∧ t.2.1 < s.nVars := by
    intro t ht
    obtain ⟨q, hq', ht⟩ := List.mem_flatMap.1 ht
    obtain ⟨_, w, r, c⟩ := hq q hq'
    have := triplets_range w t ht
    rw [r, c] at this; exact this
  obtain ⟨H, b1, b2, b3, b4, b5, b6⟩ := setFromTriplets_spec s.nVars s.nVars _ hrange
  refine ⟨target, ⟨qs.flatMap (·.constants), ⟨s.nVars, qs.flatMap fun q => q.linear.rows⟩, qs.flatMap (·.quadratic),
    (List.range s.nVars).map fun c => (qs.map fun q => q.objLinear.getD c 0).sum, H⟩, ?_, ?_⟩
  · rw [State.sqObjectiveOf, if_neg hn, ← hterms, a1]
    simp only [l1, if_true, b1]
  · have hent : ∀ r c, H.entry r c = (qs.map fun q => q.objQuadratic.entry r c).sum := by
      intro r c
      rw [b5]
      clear_value terms
      clear a2 a1 l1 b1 b2 b3 b4 b5 b6 hrange hlens hq
      induction qs with
      | nil => simp [tsum]
      | cons q qs ih => rw [List.flatMap_cons, tsum_append, tsum_triplets, ih]; simp
    refine ⟨?_, by simp, b2, b3, b4, fun x => ?_, fun x => ?_⟩
    · rw [hsum, ← l1]; simp [List.length_flatMap]
    · rw [quad_values_eq]
      · simp only [Option.some.injEq]
        clear_value terms
        clear l1 b1 b2 b3 b4 b5 b6 hrange hlens hq hent a1 hsum hterms hterm
        induction a2 with
        | nil => rfl
        | @cons t q ts qs h1 h2 ih =>
          have hv := h1.vals x
          rw [quad_values_eq q x (by rw [h1.len2, h1.len1]) (by rw [h1.len3, h1.len1])] at hv
          injection hv with hv
          simp only [List.flatMap_cons]
          rw [List.zipWith_append (by rw [h1.len1, h1.len2]), List.zipWith_append (by simp [h1.len1, h1.len2, h1.len3]),
            ih, hv]
      · simp only [List.length_flatMap]
        rw [hlens (fun q => q.linear.rows.length) fun t ht q hq => by rw [hq.len2, (hterm t ht).rows]]
        exact l1.symm
      · simp only [List.length_flatMap]
        rw [hlens (fun q => q.quadratic.length) fun t ht q hq => by rw [hq.len3, (hterm t ht).rows]]
        exact l1.symm
    · simp only [hent]
      have e1 : ∀ c ∈ range s.nVars, ((List.range s.nVars).map fun c => (qs.map fun q => q.objLinear.getD c 0).sum).getD c 0 * x c =
          (qs.map fun q => q.objLinear.getD c 0 * x c).sum := by
        intro c hc
        rw [List.sum_map_mul_right]
        congr 1
        rw [List.getD_eq_getElem?_getD, List.getElem?_map, List.getElem?_range (mem_range.1 hc)]
        rfl
      rw [sum_congr rfl e1]
      clear_value terms
      clear l1 b1 b2 b3 b4 b5 b6 hrange hlens hq hent a1 hsum hterms hterm e1
      induction a2 with
      | nil => simp
      | @cons t q ts qs h1 h2 ih =>
        simp only [List.flatMap_cons, List.sum_append, List.map_cons, List.sum_cons, sum_add_distrib, mul_add, add_mul]
        rw [← ih, ← h1.total x]
        ring

end Verif.QpProblem
