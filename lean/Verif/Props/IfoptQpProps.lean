import Verif.Props.IfoptQp

/-!
C80 (the QP predicts the exact costs), C81 (rejected costs), C82 (call histories), C83 (convex constraint violations) and
C84 (box size) for `IfoptQPProblem`.
-/

set_option linter.unusedSectionVars false
set_option linter.unusedVariables false

namespace Verif.IfoptQp

open Verif.Bounds Verif.Sco Verif.SqpExprs Finset
open Verif.QpProblem (thr sides writeSeg rowMul Penalty Row Proper gap keep penaltyOf linCost tripForm RowsHold Layout
  Laid RowOut)

universe u
variable {K : Type u} [Field K] [LinearOrder K] [IsStrictOrderedRing K]

/-! ### C80 -/

theorem slope_cols (ts : List (Term K)) (n : Nat) (h : ∀ t ∈ ts, ∀ q ∈ t.jac, q.1 < n) (d : Nat → K) :
    ∑ c ∈ range n, (ts.map fun t => 2 * (t.weight * t.error) * at' t.jac c).sum * d c = slope ts d := by
  induction ts with
  | nil => simp [slope]
  | cons t ts ih =>
    simp only [List.map_cons, List.sum_cons, add_mul, sum_add_distrib, slope]
    rw [ih fun t' ht' => h t' (by simp [ht']), slope, dot_entries n _ (h t (by simp)), mul_sum]
    congr 1
    exact sum_congr rfl fun c _ => by ring

/-- The change of the smooth part between the current point and any other. -/
theorem smooth_change {s s' : State K} {outs : List (RowOut K)} {iv : List (K × K)} {head : List K} (hl : Live s)
    (h : Assembled s s' outs iv head) (x : Nat → K) :
    smooth s' x - smooth s' s.x = slope s.terms (x - s.x) +
      ∑ r ∈ range s.nVars, ∑ c ∈ range s.nVars, (x - s.x) r * s'.hessian.entry r c * (x - s.x) c := by
  have hlin : ∀ y : Nat → K, ∑ c ∈ range s.nVars, s'.gradient.getD c 0 * y c = slope s.terms y -
      2 * ∑ r ∈ range s.nVars, ∑ c ∈ range s.nVars, y r * s'.hessian.entry r c * s.x c := by
    intro y
    rw [← slope_cols s.terms s.nVars (terms_range hl.described) y, mul_sum, ← sum_sub_distrib]
    refine sum_congr rfl fun c hc => ?_
    have hc := mem_range.1 hc
    rw [h.gradient, List.getD_eq_getElem?_getD, List.getElem?_append_left (by rw [h.headLen]; exact hc),
      ← List.getD_eq_getElem?_getD, h.head c hc, sub_mul, mul_assoc 2, sum_mul]
    congr 2
    exact sum_congr rfl fun i _ => by ring
  have hs : ∑ r ∈ range s.nVars, ∑ c ∈ range s.nVars, s.x r * s'.hessian.entry r c * x c =
      ∑ r ∈ range s.nVars, ∑ c ∈ range s.nVars, x r * s'.hessian.entry r c * s.x c := by
    rw [sum_comm]
    refine sum_congr rfl fun r _ => sum_congr rfl fun c _ => ?_
    rw [h.hess, h.hess, gaussNewton_symm]; ring
  have hd : ∑ r ∈ range s.nVars, ∑ c ∈ range s.nVars, (x - s.x) r * s'.hessian.entry r c * (x - s.x) c =
      ∑ r ∈ range s.nVars, ∑ c ∈ range s.nVars, x r * s'.hessian.entry r c * x c -
      ∑ r ∈ range s.nVars, ∑ c ∈ range s.nVars, x r * s'.hessian.entry r c * s.x c -
      ∑ r ∈ range s.nVars, ∑ c ∈ range s.nVars, s.x r * s'.hessian.entry r c * x c +
      ∑ r ∈ range s.nVars, ∑ c ∈ range s.nVars, s.x r * s'.hessian.entry r c * s.x c := by
    rw [← sum_sub_distrib, ← sum_sub_distrib, ← sum_add_distrib]
    refine sum_congr rfl fun r _ => ?_
    rw [← sum_sub_distrib, ← sum_sub_distrib, ← sum_add_distrib]
    refine sum_congr rfl fun c _ => ?_
    simp only [Pi.sub_apply]; ring
  have hsl : slope s.terms (x - s.x) = slope s.terms x - slope s.terms s.x := by
    unfold slope
    induction s.terms with
    | nil => simp
    | cons t ts ih =>
      have e : dot t.jac (x - s.x) = dot t.jac x - dot t.jac s.x := dot_sub _ _ _
      simp only [List.map_cons, List.sum_cons, ih, e]; ring
  rw [smooth, smooth, h.nVars, hlin, hlin, hd, hs, hsl]
  ring

/-- Specification: no entry of the Gauss-Newton matrix is small but non-zero. -/
def NoSmall (s : State K) : Prop := ∀ r c, gaussNewton s.terms r c = 0 ∨ 1 / 10 ^ 7 ≤ |gaussNewton s.terms r c|

/-- C80, first part: if no entry of the Gauss-Newton matrix is between zero and `1e-7` and the coefficients are
non-negative, the QP objective (without slacks) changes exactly like the weighted sum of squared linearised errors. -/
theorem C80_gauss_newton_partial (sqrt : K → K) (hsqrt : ∀ a : K, 0 ≤ a → sqrt a * sqrt a = a) {s s' : State K} (h : Live s)
    (hw : ∀ t ∈ s.terms, 0 ≤ t.weight) (hn : NoSmall s) (hc : s.convexify sqrt = some s') (x : Nat → K) :
    (objective s' x - slackPart s' x) - (objective s' s.x - slackPart s' s.x) =
      squares s.terms (x - s.x) - squares s.terms 0 := by
  obtain ⟨outs, iv, head, a⟩ := convexified sqrt hsqrt h hc
  have he : ∀ r c, s'.hessian.entry r c = gaussNewton s.terms r c := by
    intro r c
    rw [a.hess, QpProblem.thr_eq]
    rcases hn r c with h0 | h0
    · rw [h0]; split_ifs <;> rfl
    · rw [if_neg (not_lt.2 h0)]
  rw [objective_split h a, objective_split h a, squares_expand s.terms hw s.nVars (terms_range h.described)]
  have := smooth_change h a x
  simp only [he] at this
  linear_combination this

/-- Specification: a cost set with fixed targets and values affine in the variables, all coefficients equal to `w`. -/
structure AffineTarget (w : K) (x0 : Nat → K) (c : CSet K) : Prop where
  affine : ∀ y, (c.ask y).values = List.zipWith (fun v j => v + dot j (y - x0)) (c.ask x0).values (c.ask x0).jac.rows
  fixed : ∀ y, (c.ask y).bounds = (c.ask x0).bounds
  target : ∀ b ∈ (c.ask x0).bounds, ∃ t, b.lower = .fin t ∧ b.upper = .fin t
  coeffs : ∀ a ∈ (c.ask x0).coeffs, a = w

theorem errB_target (x t : K) : errB x (some t, some t) = x - t := by
  simp only [errB]
  split_ifs with h1 h2
  · rfl
  · rfl
  · have : x = t := le_antisymm (not_lt.1 h2) (not_lt.1 h1)
    rw [this, sub_self]

/-- The exact value of such a cost. -/
theorem squared_value {s : State K} (w : K) (c : CSet K) (hf : CostFine s.nVars c) (ht : AffineTarget w s.x c) (x : Nat → K) :
    ∃ v, (s.setVariables x).costValue (true, c) = some v ∧ squares (termsOf (c.ask s.x)) (x - s.x) = w * v := by
  have e1 := hf.values s.x
  have e2 := hf.bounds s.x
  have e3 := hf.coeffs s.x
  have e4 : (c.ask x).values.length = (c.ask x).bounds.length := by rw [hf.values, hf.bounds]
  have hones : (IfoptCosts.Cost.newOnes (c.ask x).values.length : IfoptCosts.Cost K).weights =
      List.replicate (c.ask x).values.length 1 := by
    simp [IfoptCosts.Cost.newOnes, IfoptCosts.Cost.new]
  have hval : (s.setVariables x).costValue (true, c) = some (List.zipWith (fun w e => w * (e * e))
      (IfoptCosts.Cost.newOnes (c.ask x).values.length : IfoptCosts.Cost K).weights
      (calcBoundsErrors (c.ask x).values ((c.ask x).bounds.map sides))).sum := by
    simp only [State.costValue, State.setVariables, if_true, IfoptCosts.Cost.squared]
    exact if_pos ⟨by simp [e4], by rw [hones]; simp⟩
  refine ⟨_, hval, ?_⟩
  rw [hones]
  simp only [squares, calcBoundsErrors]
  have hlen : (c.ask x).values.length = (c.ask s.x).jac.rows.length := by rw [ht.affine x]; simp [e1]
  have key : (termsOf (c.ask s.x)).map (fun t => t.weight * (t.error + dot t.jac (x - s.x)) ^ 2) =
      (List.zipWith (fun w e => w * (e * e)) (List.replicate (c.ask x).values.length 1)
        (List.zipWith errB (c.ask x).values ((c.ask x).bounds.map sides))).map fun v => w * v := by
    apply List.ext_getElem
    · simp [termsOf, e1, e2, e3, hlen, ht.fixed x]
    · intro i i1 i2
      have hb : i < (c.ask s.x).bounds.length := by
        simp [termsOf, e1, e2, e3] at i1; omega
      obtain ⟨t, t1, t2⟩ := ht.target _ (List.getElem_mem hb)
      have hsides : sides ((c.ask s.x).bounds[i]) = (some t, some t) := by simp [sides, t1, t2]
      have hcoef : (c.ask s.x).coeffs[i]'(by omega) = w := ht.coeffs _ (List.getElem_mem _)
      simp only [termsOf, List.getElem_map, List.getElem_zipWith, List.getElem_zip, List.getElem_replicate, ht.affine x,
        ht.fixed x, hsides, errB_target, hcoef]
      ring
  rw [key, List.sum_map_mul_left, List.map_id']

/-- The exact costs of a problem made of such costs. -/
theorem exact_sum {s : State K} (h : Described s) (w : K) (ht : ∀ c ∈ s.costSets, AffineTarget w s.x c)
    (hsq : s.costs = s.costSets.map fun c => (true, c)) (x : Nat → K) :
    ∃ vs, (s.setVariables x).getExactCosts = some vs ∧ squares s.terms (x - s.x) = w * vs.sum := by
  have e : (s.setVariables x).getExactCosts = (s.costSets.map fun c => (true, c)).mapM (s.setVariables x).costValue := by
    rw [← hsq]; rfl
  rw [e, State.terms]
  have hc := h.costSets
  revert hc ht
  generalize s.costSets = l
  intro ht hc
  induction l with
  | nil => exact ⟨[], rfl, by simp [squares]⟩
  | cons c l ih =>
    obtain ⟨vs, v1, v2⟩ := ih (fun c' hc' => ht c' (by simp [hc'])) fun c' hc' => hc c' (by simp [hc'])
    obtain ⟨v, a1, a2⟩ := squared_value w c (hc c (by simp)) (ht c (by simp)) x
    refine ⟨v :: vs, by simp [List.mapM_cons, a1, v1], ?_⟩
    have : squares ((c :: l).flatMap fun c => termsOf (c.ask s.x)) (x - s.x) =
        squares (termsOf (c.ask s.x)) (x - s.x) + squares (l.flatMap fun c => termsOf (c.ask s.x)) (x - s.x) := by
      simp [squares]
    rw [this, a2, v2, List.sum_cons]; ring

/-- C80 as the code does it: for affine squared costs whose coefficients are all `w`, the QP objective changes `w` times
as much as the exact costs that the solver reads. -/
theorem C80_common_weight (sqrt : K → K) (hsqrt : ∀ a : K, 0 ≤ a → sqrt a * sqrt a = a) {s s' : State K} (h : Live s)
    (w : K) (hw : 0 ≤ w) (ht : ∀ c ∈ s.costSets, AffineTarget w s.x c) (hsq : s.costs = s.costSets.map fun c => (true, c))
    (hn : NoSmall s) (hc : s.convexify sqrt = some s') (x : Nat → K) :
    ∃ a b, (s'.setVariables x).getExactCosts = some a ∧ s'.getExactCosts = some b ∧
      (objective s' x - slackPart s' x) - (objective s' s.x - slackPart s' s.x) = w * (a.sum - b.sum) := by
  obtain ⟨outs, iv, head, as⟩ := convexified sqrt hsqrt h hc
  have hwt : ∀ t ∈ s.terms, 0 ≤ t.weight := by
    intro t htm
    obtain ⟨c, hcm, htm⟩ := List.mem_flatMap.1 htm
    obtain ⟨i, hi, rfl⟩ := List.mem_iff_getElem.1 htm
    simp only [termsOf, List.getElem_zipWith, List.getElem_zip]
    rw [(ht c hcm).coeffs _ (List.getElem_mem _)]; exact hw
  obtain ⟨a, a1, a2⟩ := exact_sum h.described w ht hsq x
  obtain ⟨b, b1, b2⟩ := exact_sum h.described w ht hsq s.x
  rw [sub_self] at b2
  refine ⟨a, b, by rw [as.exact, a1], ?_, ?_⟩
  · have := as.exact s.x
    have e : s'.getExactCosts = (s.setVariables s.x).getExactCosts := by rw [as.frame]; rfl
    rw [e, b1]
  · rw [C80_gauss_newton_partial sqrt hsqrt h hwt hn hc x, a2, b2]; ring

/-- C80, the part that holds: affine squared costs with unit coefficients (and no small entries of the Gauss-Newton
matrix).  Missing: other coefficients, absolute costs, see below. -/
theorem C80_exact_partial (sqrt : K → K) (hsqrt : ∀ a : K, 0 ≤ a → sqrt a * sqrt a = a) {s s' : State K} (h : Live s)
    (ht : ∀ c ∈ s.costSets, AffineTarget 1 s.x c) (hsq : s.costs = s.costSets.map fun c => (true, c))
    (hn : NoSmall s) (hc : s.convexify sqrt = some s') (x : Nat → K) :
    ∃ a b, (s'.setVariables x).getExactCosts = some a ∧ s'.getExactCosts = some b ∧
      (objective s' x - slackPart s' x) - (objective s' s.x - slackPart s' s.x) = a.sum - b.sum := by
  obtain ⟨a, b, a1, b1, e⟩ := C80_common_weight sqrt hsqrt h 1 zero_le_one ht hsq hn hc x
  exact ⟨a, b, a1, b1, by rw [e, one_mul]⟩

/-- C80 is violated by every affine problem whose coefficients are all some `w` other than one: at every point where the
exact costs change, the QP predicts another change. -/
theorem C80_violated_weights (sqrt : K → K) (hsqrt : ∀ a : K, 0 ≤ a → sqrt a * sqrt a = a) {s s' : State K} (h : Live s)
    (w : K) (hw : 0 ≤ w) (hw1 : w ≠ 1) (ht : ∀ c ∈ s.costSets, AffineTarget w s.x c)
    (hsq : s.costs = s.costSets.map fun c => (true, c)) (hn : NoSmall s) (hc : s.convexify sqrt = some s') (x : Nat → K)
    (a b : List K) (ha : (s'.setVariables x).getExactCosts = some a) (hb : s'.getExactCosts = some b) (hne : a.sum ≠ b.sum) :
    (objective s' x - slackPart s' x) - (objective s' s.x - slackPart s' s.x) ≠ a.sum - b.sum := by
  obtain ⟨a', b', a1, b1, e⟩ := C80_common_weight sqrt hsqrt h w hw ht hsq hn hc x
  rw [ha] at a1; rw [hb] at b1
  injection a1 with a1; injection b1 with b1; subst a1; subst b1
  rw [e]
  intro he
  have : (w - 1) * (a.sum - b.sum) = 0 := by linear_combination he
  rcases mul_eq_zero.1 this with q | q
  · exact hw1 (by linarith)
  · exact hne (by linarith)

/-! ### Examples -/

/-- One row `a * x0 + k` with coefficient `w`. -/
def lineSet (a k w : K) (b : Bounds K) : CSet K :=
  ⟨false, fun x => ⟨[a * x 0 + k], ⟨1, [[(0, a)]]⟩, [w], [b]⟩⟩

theorem lineSet_cost (a k w : K) (b : Bounds K) : CostFine 1 (lineSet a k w b) :=
  ⟨fun _ => rfl, fun _ => rfl, fun _ => rfl, fun _ => by simp [lineSet]⟩

theorem lineSet_cnt (a k w : K) (b : Bounds K) (hb : Proper b) : CntFine 1 (lineSet a k w b) :=
  ⟨fun _ => rfl, fun _ => rfl, fun _ _ => rfl, fun _ => by simp [lineSet], fun _ => by simpa [lineSet] using hb⟩

theorem lineSet_affine (a k w t : K) (ty : BType) (x0 : Nat → K) : AffineTarget w x0 (lineSet a k w ⟨.fin t, .fin t, ty⟩) :=
  ⟨fun y => by simp [lineSet, dot]; ring, fun _ => rfl, by simp [lineSet], by simp [lineSet]⟩

/-- One variable at `3` in `[0, 10]`, the squared costs `x^2` and `(x - 1)^2` with coefficient `w`, and the constraint
`x <= 2`. -/
def demo (w : K) : State K :=
  { nVars := 1, varBounds := [(some 0, some 10)], x := fun _ => 3,
    costs := [(true, lineSet 1 0 w ⟨.fin 0, .fin 0, .equality⟩), (true, lineSet 1 0 w ⟨.fin 1, .fin 1, .equality⟩)],
    costSets := [lineSet 1 0 w ⟨.fin 0, .fin 0, .equality⟩, lineSet 1 0 w ⟨.fin 1, .fin 1, .equality⟩],
    cnts := [lineSet 1 0 1 ⟨.negInf, .fin 2, .upperBound⟩] }

theorem demo_described (w : K) : Described (demo w) where
  cnts := by
    intro c hc
    simp only [demo, List.mem_singleton] at hc
    subst hc; exact lineSet_cnt 1 0 1 _ (.inr (.inr ⟨_, rfl⟩))
  costSets := by
    intro c hc
    simp only [demo, List.mem_cons, List.not_mem_nil, or_false] at hc
    rcases hc with rfl | rfl <;> exact lineSet_cost 1 0 w _
  costs := by
    intro c hc
    simp only [demo, List.mem_cons, List.not_mem_nil, or_false] at hc
    rcases hc with rfl | rfl <;> exact lineSet_cost 1 0 w _
  varBounds := rfl
  valid := by
    intro b hb
    simp only [demo, List.mem_singleton] at hb
    subst hb; intro l u h1 h2
    simp only [Option.some.injEq] at h1 h2
    rw [← h1, ← h2]; norm_num

/-! ### C82 -/

theorem slackCount_some (l : List BType) (h : ∀ t ∈ l, t ≠ .unbounded ∧ t ≠ .rangeBound) : ∃ k, slackCount l = some k := by
  induction l with
  | nil => exact ⟨0, rfl⟩
  | cons t l ih =>
    obtain ⟨k, hk⟩ := ih fun t' ht' => h t' (by simp [ht'])
    have := h t (by simp)
    cases t <;> simp_all [slackCount, slacksOf]

theorem slackCount_none (l : List BType) (t : BType) (ht : t ∈ l) (h : t = .unbounded ∨ t = .rangeBound) :
    slackCount l = none := by
  induction l with
  | nil => simp at ht
  | cons t' l ih =>
    rcases List.mem_cons.1 ht with rfl | ht
    · rcases h with rfl | rfl <;> simp [slackCount, slacksOf]
    · simp only [slackCount, ih ht]
      cases slacksOf t' <;> rfl

/-- C82, `setup`: it throws exactly when some constraint row is unbounded or bounded on both sides. -/
theorem C82_setup_throws_iff (s : State K) :
    s.setup = none ↔ ∃ b ∈ s.cntBounds, b.type = .unbounded ∨ b.type = .rangeBound := by
  simp only [State.setup]
  constructor
  · intro h
    by_contra hn
    push Not at hn
    obtain ⟨k, hk⟩ := slackCount_some (s.cntBounds.map (·.type)) (by
      intro t ht
      obtain ⟨b, hb, rfl⟩ := List.mem_map.1 ht
      exact hn b hb)
    rw [hk] at h
    simp at h
  · rintro ⟨b, hb, ht⟩
    rw [slackCount_none (s.cntBounds.map (·.type)) b.type (List.mem_map.2 ⟨b, hb, rfl⟩) ht]

theorem Described.setup {s : State K} (h : Described s) : ∃ s', s.setup = some s' ∧ Live s' := by
  have hp : ∀ b ∈ s.cntBounds, b.type ≠ .unbounded ∧ b.type ≠ .rangeBound := by
    intro b hb
    rcases h.proper b hb with ⟨l, u, rfl, -⟩ | ⟨l, rfl⟩ | ⟨u, rfl⟩ <;> simp
  obtain ⟨k, hk⟩ := slackCount_some (s.cntBounds.map (·.type)) (by
    intro t ht
    obtain ⟨b, hb, rfl⟩ := List.mem_map.1 ht
    exact hp b hb)
  simp only [State.setup, hk]
  exact ⟨_, rfl, ⟨h.cnts, h.costSets, h.costs, h.varBounds, h.valid⟩, rfl, rfl, rfl, ⟨k, hk, rfl, rfl⟩, by simp, by simp,
    by simp, by simp⟩

theorem Live.setVariables {s : State K} (h : Live s) (x : Nat → K) : Live (s.setVariables x) :=
  ⟨⟨h.described.cnts, h.described.costSets, h.described.costs, h.described.varBounds, h.described.valid⟩,
    by rw [h.described.bounds_fixed]; exact h.types, h.nCnts, h.nCosts, h.slacks, h.lower, h.upper, h.box, h.merit⟩

theorem writeSeg_ok {α : Type u} (l seg : List α) (pos : Nat) (h : pos + seg.length ≤ l.length) :
    ∃ l', writeSeg l pos seg = some l' ∧ l'.length = l.length := by
  have : writeSeg l pos seg = some (l.take pos ++ seg ++ l.drop (pos + seg.length)) := by rw [writeSeg, if_pos h]
  exact ⟨_, this, QpProblem.writeSeg_length this⟩

theorem Live.newBox {s : State K} (h : Live s) (b : List K) (hb : b.length = s.nVars) :
    ∃ l u, ({ s with box := b } : State K).varBoundsOf s.lower s.upper = some (l, u) ∧
      Live ({ s with box := b, lower := l, upper := u } : State K) := by
  obtain ⟨k, k1, k2, k3⟩ := h.slacks
  unfold State.varBoundsOf
  rw [if_pos ⟨hb, h.described.varBounds⟩]
  obtain ⟨l, l1, l2⟩ := writeSeg_ok s.lower (((List.range s.nVars).map fun i => boxOf (b.getD i 0) (s.x i)
    (s.varBounds.getD i (none, none))).map fun i => Ext.fin i.1) s.nCnts (by simp [h.lower]; omega)
  obtain ⟨u, u1, u2⟩ := writeSeg_ok s.upper (((List.range s.nVars).map fun i => boxOf (b.getD i 0) (s.x i)
    (s.varBounds.getD i (none, none))).map fun i => Ext.fin i.2) s.nCnts (by simp [h.upper]; omega)
  refine ⟨l, u, by simp only [l1, u1], ⟨h.described.cnts, h.described.costSets, h.described.costs, h.described.varBounds,
    h.described.valid⟩, h.types, h.nCnts, h.nCosts, h.slacks, ?_, ?_, hb, h.merit⟩
  · rw [l2]; exact h.lower
  · rw [u2]; exact h.upper

/-- Calls that a caller may make. -/
inductive Op (K : Type u)
  | setup
  | setVariables (x : Nat → K)
  | convexify
  | setBoxSize (b : List K)
  | scaleBoxSize (a : K)
  | setConstraintMeritCoeff (m : List K)

/-- One call. -/
def Op.apply (sqrt : K → K) (s : State K) : Op K → Option (State K)
  | .setup => s.setup
  | .setVariables x => some (s.setVariables x)
  | .convexify => s.convexify sqrt
  | .setBoxSize b => s.setBoxSize b
  | .scaleBoxSize a => s.scaleBoxSize a
  | .setConstraintMeritCoeff m => s.setConstraintMeritCoeff m

/-- Specification: arguments of the documented size. -/
def Op.Fits (nVars nCnts : Nat) : Op K → Prop
  | .setBoxSize b => b.length = nVars
  | .setConstraintMeritCoeff m => m.length = nCnts
  | _ => True

theorem Op.ok (sqrt : K → K) (hsqrt : ∀ a : K, 0 ≤ a → sqrt a * sqrt a = a) {s : State K} (h : Live s) (op : Op K)
    (hf : op.Fits s.nVars s.nCnts) :
    ∃ s', op.apply sqrt s = some s' ∧ Live s' ∧ s'.nVars = s.nVars ∧ s'.nCnts = s.nCnts ∧ s'.cnts = s.cnts ∧
      s'.costs = s.costs ∧ s'.costSets = s.costSets := by
  cases op with
  | setup =>
    obtain ⟨s', a1, a2⟩ := h.described.setup
    refine ⟨s', a1, a2, ?_⟩
    have hn := h.nCnts
    rw [h.types] at hn
    simp only [State.setup] at a1
    obtain ⟨k, k1, -⟩ := h.slacks
    rw [h.types] at k1
    simp only [k1, Option.some.injEq] at a1
    rw [← a1]
    exact ⟨rfl, hn.symm, rfl, rfl, rfl⟩
  | setVariables x => exact ⟨_, rfl, h.setVariables x, rfl, rfl, rfl, rfl, rfl⟩
  | convexify =>
    obtain ⟨s', outs, iv, head, a1, a2⟩ := convexify_ok sqrt hsqrt h
    refine ⟨s', a1, a2.live h, ?_⟩
    rw [a2.frame]; exact ⟨rfl, rfl, rfl, rfl, rfl⟩
  | setBoxSize b =>
    obtain ⟨l, u, a1, a2⟩ := h.newBox b hf
    refine ⟨_, ?_, a2, rfl, rfl, rfl, rfl, rfl⟩
    simp only [Op.Fits] at hf
    simp only [Op.apply, State.setBoxSize]
    rw [if_pos hf, a1]; rfl
  | scaleBoxSize a =>
    obtain ⟨l, u, a1, a2⟩ := h.newBox (s.box.map (· * a)) (by rw [List.length_map, h.box])
    refine ⟨_, ?_, a2, rfl, rfl, rfl, rfl, rfl⟩
    simp only [Op.apply, State.scaleBoxSize]
    rw [a1]; rfl
  | setConstraintMeritCoeff m =>
    simp only [Op.Fits] at hf
    refine ⟨{ s with meritCoeff := m }, by simp only [Op.apply, State.setConstraintMeritCoeff]; rw [if_pos hf], ?_, rfl, rfl,
      rfl, rfl, rfl⟩
    exact ⟨⟨h.described.cnts, h.described.costSets, h.described.costs, h.described.varBounds, h.described.valid⟩, h.types,
      h.nCnts, h.nCosts, h.slacks, h.lower, h.upper, h.box, hf⟩

/-- C82: on a problem of well-formed sets `setup` succeeds, and afterwards every sequence of calls with arguments of the
documented size runs to the end; the problem keeps its sets and can be set up again at any time. -/
theorem C82_histories (sqrt : K → K) (hsqrt : ∀ a : K, 0 ≤ a → sqrt a * sqrt a = a) {s : State K} (h : Described s) :
    ∃ s0, s.setup = some s0 ∧ Live s0 ∧ ∀ ops : List (Op K), (∀ op ∈ ops, op.Fits s0.nVars s0.nCnts) →
      ∃ s', ops.foldlM (Op.apply sqrt) s0 = some s' ∧ Live s' ∧ s'.cnts = s0.cnts ∧ s'.costs = s0.costs := by
  obtain ⟨s0, a1, a2⟩ := h.setup
  refine ⟨s0, a1, a2, ?_⟩
  have key : ∀ (ops : List (Op K)) (t : State K), Live t → t.nVars = s0.nVars → t.nCnts = s0.nCnts → t.cnts = s0.cnts →
      t.costs = s0.costs → (∀ op ∈ ops, op.Fits s0.nVars s0.nCnts) →
      ∃ s', ops.foldlM (Op.apply sqrt) t = some s' ∧ Live s' ∧ s'.cnts = s0.cnts ∧ s'.costs = s0.costs := by
    intro ops
    induction ops with
    | nil => intro t h1 h2 h3 h4 h5 _; exact ⟨t, rfl, h1, h4, h5⟩
    | cons op ops ih =>
      intro t h1 h2 h3 h4 h5 hf
      obtain ⟨t', b1, b2, b3, b4, b5, b6, b7⟩ := Op.ok sqrt hsqrt h1 op (by rw [h2, h3]; exact hf op (by simp))
      obtain ⟨s', c⟩ := ih t' b2 (by rw [b3, h2]) (by rw [b4, h3]) (by rw [b5, h4]) (by rw [b6, h5])
        fun op' ho => hf op' (by simp [ho])
      exact ⟨s', by rw [List.foldlM_cons, b1]; exact c.1, c.2⟩
  exact fun ops hf => key ops s0 a2 rfl rfl rfl rfl hf

/-- A set handed to the problem. -/
inductive Add (K : Type u)
  | cnt (c : CSet K)
  | cost (c : CSet K) (p : Penalty)

/-- One such call; an exception leaves what the call left behind. -/
def Add.apply (s : State K) : Add K → State K
  | .cnt c => (s.addConstraintSet c).getD s
  | .cost c p => (s.addCostSet c p).1

/-- Specification: a well-formed set. -/
def Add.Fine (n : Nat) : Add K → Prop
  | .cnt c => CntFine n c
  | .cost c _ => CostFine n c

/-- C82, construction: whatever well-formed sets are handed to a problem, also ones it rejects, `setup` succeeds. -/
theorem C82_construction (adds : List (Add K)) {s : State K} (h : Described s) (hf : ∀ a ∈ adds, a.Fine s.nVars) :
    ∃ s', (adds.foldl Add.apply s).setup = some s' ∧ Live s' := by
  have key : ∀ (adds : List (Add K)) (s : State K), Described s → (∀ a ∈ adds, a.Fine s.nVars) →
      Described (adds.foldl Add.apply s) := by
    intro adds
    induction adds with
    | nil => intro s h _; exact h
    | cons a adds ih =>
      intro s h hf
      have hfa := hf a (by simp)
      have hnext : Described (a.apply s) ∧ (a.apply s).nVars = s.nVars := by
        cases a with
        | cnt c =>
          cases hd : c.dynamic with
          | true => simp only [Add.apply, State.addConstraintSet, hd, if_true, Option.getD_none]; exact ⟨h, trivial⟩
          | false =>
            simp only [Add.apply, State.addConstraintSet, hd, Bool.false_eq_true, if_false, Option.getD_some]
            refine ⟨⟨?_, h.costSets, h.costs, h.varBounds, h.valid⟩, trivial⟩
            intro c' hc'
            rcases List.mem_append.1 hc' with hc' | hc'
            · exact h.cnts c' hc'
            · rw [List.mem_singleton.1 hc']; exact hfa
        | cost c p =>
          have hset : ∀ c' ∈ s.costSets ++ [c], CostFine s.nVars c' := by
            intro c' hc'
            rcases List.mem_append.1 hc' with hc' | hc'
            · exact h.costSets c' hc'
            · rw [List.mem_singleton.1 hc']; exact hfa
          have hcost : ∀ b, ∀ c' ∈ s.costs ++ [(b, c)], CostFine s.nVars c'.2 := by
            intro b c' hc'
            rcases List.mem_append.1 hc' with hc' | hc'
            · exact h.costs c' hc'
            · rw [List.mem_singleton.1 hc']; exact hfa
          cases hd : c.dynamic with
          | true => simp only [Add.apply, State.addCostSet, hd, if_true]; exact ⟨h, trivial⟩
          | false =>
            cases p with
            | squared =>
              simp only [Add.apply, State.addCostSet, hd, Bool.false_eq_true, if_false]
              exact ⟨⟨h.cnts, hset, hcost true, h.varBounds, h.valid⟩, trivial⟩
            | absolute =>
              simp only [Add.apply, State.addCostSet, hd, Bool.false_eq_true, if_false]
              exact ⟨⟨h.cnts, hset, hcost false, h.varBounds, h.valid⟩, trivial⟩
            | hinge =>
              simp only [Add.apply, State.addCostSet, hd, Bool.false_eq_true, if_false]
              exact ⟨⟨h.cnts, hset, h.costs, h.varBounds, h.valid⟩, trivial⟩
      simp only [List.foldl_cons]
      exact ih _ hnext.1 fun a' ha' => by rw [hnext.2]; exact hf a' (by simp [ha'])
  exact (key adds s h hf).setup

/-- A problem of two costs and a constraint in use, over the reals. -/
example : ∃ s0, (demo (1 : ℝ)).setup = some s0 ∧ Live s0 ∧
    ∃ s', [Op.convexify, .setBoxSize [1], .setVariables fun _ => 2, .setConstraintMeritCoeff [5], .convexify].foldlM
      (Op.apply Real.sqrt) s0 = some s' := by
  obtain ⟨s0, a, b, c⟩ := C82_histories Real.sqrt (fun _ h => Real.mul_self_sqrt h) (demo_described (1 : ℝ))
  have e1 : s0.nVars = 1 ∧ s0.nCnts = 1 := by
    have : s0 = _ := (Option.some.inj a).symm
    rw [this]; exact ⟨rfl, rfl⟩
  obtain ⟨s', d, -⟩ := c [Op.convexify, .setBoxSize [1], .setVariables fun _ => 2, .setConstraintMeritCoeff [5], .convexify]
    (by rw [e1.1, e1.2]; simp [Op.Fits])
  exact ⟨s0, a, b, s', d⟩

/-! ### Witnesses -/

/-- Values of `demo` with coefficient one: with two costs, going from `3` to `1` the total convex cost falls by 24, the QP
objective by 12 (the cost `9 + 4 = 13` falls to `1`). -/
theorem C30_violated_witness :
    ((demo (1 : ℚ)).setup.bind (·.convexify fun a => a)).map (fun s' =>
      (s'.evaluateTotalConvexCost (fun _ => 1) - s'.evaluateTotalConvexCost (fun _ => 3),
        s'.quadTerm s'.hessian (fun _ => 1) + s'.linTerm s'.gradient (fun _ => 1) -
          (s'.quadTerm s'.hessian (fun _ => 3) + s'.linTerm s'.gradient (fun _ => 3)))) = some (-24, -12) := by
  decide +kernel

/-- The problem with one absolute cost `|x|` at `x = 10`. -/
def absDemo : State ℚ :=
  ((({ nVars := 1, varBounds := [(none, none)], x := fun _ => 10 } : State ℚ).addCostSet
    (lineSet 1 0 1 ⟨.fin 0, .fin 0, .equality⟩) .absolute).1)

/-- C80 is violated by absolute costs: `|x|` falls by `1` from `10` to `9`, the QP objective is `x^2` and falls by `19`. -/
theorem C80_violated_absolute :
    (absDemo.setup.bind (·.convexify fun a => a)).map (fun s' =>
      (s'.getExactCosts, (s'.setVariables fun _ => 9).getExactCosts,
        s'.quadTerm s'.hessian (fun _ => 9) + s'.linTerm s'.gradient (fun _ => 9) -
          (s'.quadTerm s'.hessian (fun _ => 10) + s'.linTerm s'.gradient (fun _ => 10)))) =
      some (some [10], some [9], -19) := by decide +kernel

/-! ### C83 -/

/-- C83: the convex violations are the violations of the linearised rows, whatever the slacks and merit coefficients. -/
theorem C83_convex_violations (sqrt : K → K) (hsqrt : ∀ a : K, 0 ≤ a → sqrt a * sqrt a = a) {s s' : State K} (h : Live s)
    (hc : s.convexify sqrt = some s') (z : Nat → K) :
    s'.evaluateConvexConstraintViolations z =
      (problemRows s').map fun r => gap r.bound (r.constant + dot (keep r.jac) z) := by
  obtain ⟨outs, iv, head, a⟩ := convexified sqrt hsqrt h hc
  have hl' := a.live h
  obtain ⟨p1, p2, p3, p4, p5⟩ := problemRows_facts hl'
  have hn : s'.nCnts = s.nCnts := by rw [a.frame]
  have hb : s'.cntBounds.length = s'.nCnts := by rw [← p2, List.length_map, p1]
  unfold State.evaluateConvexConstraintViolations calcBoundsViolations
  apply List.ext_getElem
  · simp [p1, hb]
  · intro i i1 i2
    have hi : i < (problemRows s').length := by simpa using i2
    have hi' : i < (problemRows s).length := by rw [← a.rows]; exact hi
    have hm : i < s'.nCnts := by rw [← p1]; exact hi
    have h0 : s.nCnts ≠ 0 := by omega
    have hcc := a.cntConstant h0
    have hrow : (problemRows s')[i] = (problemRows s)[i] := by simp only [a.rows]
    have hbi : s'.cntBounds[i]'(by omega) = ((problemRows s')[i]).bound := by simp [← p2]
    have hv := a.layout.varPart i _ (List.getElem?_eq_getElem hi') z
    simp only [List.getElem_zipWith, List.getElem_map, List.getElem_range, hbi]
    rw [QpProblem.violB_gap _ (hl'.described.proper _ (by rw [← p2]; exact List.mem_map_of_mem (List.getElem_mem hi)))]
    rw [QpProblem.rowMul_eq _ _ _ _ (by rw [a.nVars]; have := a.layout.matrixCols; omega), a.nVars, hv, hcc,
      List.getD_eq_getElem?_getD, List.getElem?_map, List.getElem?_eq_getElem hi', hrow]
    simp

/-- C83: at the current point they are the exact violations. -/
theorem C83_current (sqrt : K → K) (hsqrt : ∀ a : K, 0 ≤ a → sqrt a * sqrt a = a) {s s' : State K} (h : Live s)
    (hc : s.convexify sqrt = some s') : s'.evaluateConvexConstraintViolations s'.x = s'.getExactConstraintViolations := by
  obtain ⟨outs, iv, head, a⟩ := convexified sqrt hsqrt h hc
  have hl' := a.live h
  obtain ⟨p1, p2, p3, p4, p5⟩ := problemRows_facts hl'
  obtain ⟨ml, vl, bl, nl⟩ := hl'.rowLengths
  rw [C83_convex_violations sqrt hsqrt h hc]
  unfold State.getExactConstraintViolations calcBoundsViolations
  apply List.ext_getElem
  · simp [p1, vl, bl, nl]
  · intro i i1 i2
    have hi : i < (problemRows s').length := by simpa using i1
    have hm : i < s'.cntBounds.length := by rw [bl, ← nl, ← p1]; exact hi
    have hp := hl'.described.proper _ (List.getElem_mem hm)
    simp only [List.getElem_zipWith, List.getElem_map]
    rw [QpProblem.violB_gap _ hp]
    simp only [problemRows, List.getElem_zipWith, List.getElem_zip, sub_add_cancel]

/-! ### C84 -/

/-- The parts of `convexify` that do not read the trust box. -/
theorem convexify_parts (sqrt : K → K) {s s' : State K} (hc : s.convexify sqrt = some s') :
    s.hessianOf sqrt = some s'.hessian ∧ s.gradientOf s'.hessian = some s'.gradient ∧ s.matrixOf = some s'.matrix ∧
      s.costConstantOf s'.hessian s'.gradient = some s'.costConstant ∧ s.cntConstantOf s'.matrix = some s'.cntConstant := by
  unfold State.convexify at hc
  simp only [Option.bind_eq_bind, Option.bind_eq_some_iff, Option.some.injEq] at hc
  obtain ⟨H, h1, g, h2, M, h3, cc, h4, kc, h5, b, -, b2, -, b3, -, rfl⟩ := hc
  exact ⟨h1, h2, h3, h4, h5⟩

/-- The bounds after `convexify`. -/
theorem convexify_bounds (sqrt : K → K) (hsqrt : ∀ a : K, 0 ≤ a → sqrt a * sqrt a = a) {s s' : State K} (h : Live s)
    (hc : s.convexify sqrt = some s') :
    s'.lower = (problemRows s).map (fun r => addScalar r.bound.lower (-r.constant)) ++
      ((List.range s.nVars).map fun i => Ext.fin (boxOf (s.box.getD i 0) (s.x i) (s.varBounds.getD i (none, none))).1) ++
      List.replicate (s.nQpVars - s.nVars) (.fin 0) ∧
    s'.upper = (problemRows s).map (fun r => addScalar r.bound.upper (-r.constant)) ++
      ((List.range s.nVars).map fun i => Ext.fin (boxOf (s.box.getD i 0) (s.x i) (s.varBounds.getD i (none, none))).2) ++
      List.replicate (s.nQpVars - s.nVars) .posInf := by
  obtain ⟨outs, iv, head, a⟩ := convexified sqrt hsqrt h hc
  have hiv : iv = (List.range s.nVars).map fun i => boxOf (s.box.getD i 0) (s.x i) (s.varBounds.getD i (none, none)) := by
    apply List.ext_getElem
    · simp [a.layout.ivLen]
    · intro i i1 i2
      have hi : i < s.nVars := by simpa using i2
      have e1 := List.getElem?_eq_getElem (l := s.box) (i := i) (by rw [h.box]; exact hi)
      have e2 := List.getElem?_eq_getElem (l := s.varBounds) (i := i) (by rw [h.described.varBounds]; exact hi)
      have := a.ivs i _ _ e1 e2
      rw [List.getElem?_eq_getElem i1] at this
      rw [Option.some.inj this]
      simp [List.getD_eq_getElem?_getD, e1, e2]
  have hk : s.nQpVars - s.nVars = (outs.flatMap (·.grad)).length := by have := a.nQpVars; omega
  obtain ⟨b1, b2⟩ := a.layout.laid.rowBounds (le_refl _) a.layout.jac
  rw [a.layout.lower, a.layout.upper, b1, b2, hk, hiv, List.map_map, List.map_map]
  exact ⟨rfl, rfl⟩

/-- C84: changing the trust box after `convexify` gives exactly the QP (and everything else in the problem) that
`convexify` gives after the same change. -/
theorem C84_box_commutes (sqrt : K → K) (hsqrt : ∀ a : K, 0 ≤ a → sqrt a * sqrt a = a) {s : State K} (h : Live s)
    (b : List K) (hb : b.length = s.nVars) :
    ∃ s', (s.convexify sqrt).bind (·.setBoxSize b) = some s' ∧ (s.setBoxSize b).bind (·.convexify sqrt) = some s' := by
  obtain ⟨s', outs, iv, head, c1, a⟩ := convexify_ok sqrt hsqrt h
  obtain ⟨l, u, d1, d2⟩ := h.newBox b hb
  have e1 : s.setBoxSize b = some { s with box := b, lower := l, upper := u } := by
    simp only [State.setBoxSize]; rw [if_pos hb, d1]; rfl
  obtain ⟨s2, outs2, iv2, head2, c2, a2⟩ := convexify_ok sqrt hsqrt d2
  obtain ⟨p1, p2, p3, p4, p5⟩ := convexify_parts sqrt c1
  obtain ⟨q1, q2, q3, q4, q5⟩ := convexify_parts sqrt c2
  have r1 : s2.hessian = s'.hessian := Option.some.inj (q1.symm.trans p1)
  have r2 : s2.gradient = s'.gradient := by
    rw [r1] at q2; exact Option.some.inj (q2.symm.trans p2)
  have r3 : s2.matrix = s'.matrix := Option.some.inj (q3.symm.trans p3)
  have r4 : s2.costConstant = s'.costConstant := by
    rw [r1, r2] at q4; exact Option.some.inj (q4.symm.trans p4)
  have r5 : s2.cntConstant = s'.cntConstant := by
    rw [r3] at q5; exact Option.some.inj (q5.symm.trans p5)
  obtain ⟨b1, b2⟩ := convexify_bounds sqrt hsqrt h c1
  obtain ⟨b3, b4⟩ := convexify_bounds sqrt hsqrt d2 c2
  have hn : s'.nVars = s.nVars := a.nVars
  have hx : s'.x = s.x := a.x
  have hv : s'.varBounds = s.varBounds := by rw [a.frame]
  have hm : s'.nCnts = s.nCnts := by rw [a.frame]
  have hlen : s.nCnts = (problemRows s).length := (problemRows_facts h).1.symm
  refine ⟨s2, ?_, by rw [e1]; exact c2⟩
  rw [c1]
  simp only [Option.bind_some, State.setBoxSize]
  rw [if_pos (by rw [hn]; exact hb)]
  have hw : ({ s' with box := b } : State K).varBoundsOf s'.lower s'.upper = some (s2.lower, s2.upper) := by
    unfold State.varBoundsOf
    rw [if_pos ⟨by rw [hn]; exact hb, by rw [hv, hn]; exact h.described.varBounds⟩]
    simp only [hn, hx, hv, hm, List.map_map]
    have w1 := QpProblem.writeSeg_mid ((problemRows s).map (fun r => addScalar r.bound.lower (-r.constant)))
      ((List.range s.nVars).map fun i => Ext.fin (boxOf (s.box.getD i 0) (s.x i) (s.varBounds.getD i (none, none))).1)
      ((List.range s.nVars).map fun i => Ext.fin (boxOf (b.getD i 0) (s.x i) (s.varBounds.getD i (none, none))).1)
      (List.replicate (s.nQpVars - s.nVars) (.fin 0)) (by simp)
    have w2 := QpProblem.writeSeg_mid ((problemRows s).map (fun r => addScalar r.bound.upper (-r.constant)))
      ((List.range s.nVars).map fun i => Ext.fin (boxOf (s.box.getD i 0) (s.x i) (s.varBounds.getD i (none, none))).2)
      ((List.range s.nVars).map fun i => Ext.fin (boxOf (b.getD i 0) (s.x i) (s.varBounds.getD i (none, none))).2)
      (List.replicate (s.nQpVars - s.nVars) .posInf) (by simp)
    rw [List.length_map, ← hlen] at w1 w2
    rw [b1, b2, b3, b4]
    simp only [Function.comp_def]
    rw [w1, w2]
    rfl
  rw [hw, a2.frame, r1, r2, r3, r4, r5, a.frame]
  rfl

theorem scale_eq {s : State K} (h : Live s) (a : K) : s.scaleBoxSize a = s.setBoxSize (s.box.map (· * a)) := by
  simp only [State.scaleBoxSize, State.setBoxSize]
  rw [if_pos (by rw [List.length_map, h.box])]

/-- C84 for `scaleBoxSize`. -/
theorem C84_scale_commutes (sqrt : K → K) (hsqrt : ∀ a : K, 0 ≤ a → sqrt a * sqrt a = a) {s : State K} (h : Live s) (a : K) :
    ∃ s', (s.convexify sqrt).bind (·.scaleBoxSize a) = some s' ∧ (s.scaleBoxSize a).bind (·.convexify sqrt) = some s' ∧
      s'.box = s.box.map (· * a) := by
  obtain ⟨s', e1, e2⟩ := C84_box_commutes sqrt hsqrt h (s.box.map (· * a)) (by rw [List.length_map, h.box])
  obtain ⟨t, outs, iv, head, c1, as⟩ := convexify_ok sqrt hsqrt h
  refine ⟨s', ?_, by rw [scale_eq h]; exact e2, ?_⟩
  · rw [c1] at e1 ⊢
    have hb : t.box = s.box := by rw [as.frame]
    simp only [Option.bind_some] at e1 ⊢
    rw [scale_eq (as.live h), hb]; exact e1
  · rw [c1] at e1
    simp only [Option.bind_some, State.setBoxSize] at e1
    split_ifs at e1
    obtain ⟨q, -, rfl⟩ := Option.map_eq_some_iff.1 e1
    rfl

/-! ### C81 -/

/-- C81: an accepted cost adds its rows to the QP and its value to the exact costs. -/
theorem C81_accepted (s : State K) (c : CSet K) (p : Penalty) (hc : c.dynamic = false) (hp : p = .squared ∨ p = .absolute) :
    (s.addCostSet c p).2 = true ∧ (s.addCostSet c p).1.terms = s.terms ++ termsOf (c.ask s.x) ∧
      ∃ b, (s.addCostSet c p).1.costs = s.costs ++ [(b, c)] ∧ (b = true ↔ p = .squared) := by
  rcases hp with rfl | rfl <;> simp [State.addCostSet, hc, State.terms]

/-- C81, the part that holds: a dynamic cost or constraint set is rejected and leaves no trace. -/
theorem C81_rejected_partial (s : State K) (c : CSet K) (p : Penalty) (hc : c.dynamic = true) :
    s.addCostSet c p = (s, false) ∧ s.addConstraintSet c = none := by
  simp [State.addCostSet, State.addConstraintSet, hc]

/-- C81 is violated by every other hinge cost: the call throws, the exact costs do not know the cost, but the QP has its
rows (squared) from then on. -/
theorem C81_violated_hinge (s : State K) (c : CSet K) (hc : c.dynamic = false) :
    (s.addCostSet c .hinge).2 = false ∧ (s.addCostSet c .hinge).1.costs = s.costs ∧
      (s.addCostSet c .hinge).1.terms = s.terms ++ termsOf (c.ask s.x) ∧ (s.addCostSet c .hinge).1.costSets = s.costSets ++ [c] := by
  simp [State.addCostSet, hc, State.terms]

/-- C35 seen through `IfoptQPProblem`: the total exact cost is the sum of the exact costs only when all costs but the first
cancel. -/
theorem C35_violated_total_exact (s : State K) (v : K) (vs : List K) (h : s.getExactCosts = some (v :: vs)) :
    s.getTotalExactCost = some (v :: vs).sum ↔ vs.sum = 0 := by
  rw [State.getTotalExactCost, h]
  simp [eq_comm]

/-- C35: two costs `x^2` and `(x - 1)^2` at `x = 10`: exact costs 100 and 81, total 100. -/
theorem C35_violated_total_witness :
    let s : State ℚ := ((({ nVars := 1, varBounds := [(none, none)], x := fun _ => 10 } : State ℚ).addCostSet
      (lineSet 1 0 1 ⟨.fin 0, .fin 0, .equality⟩) .squared).1.addCostSet (lineSet 1 (-1) 1 ⟨.fin 0, .fin 0, .equality⟩) .squared).1
    s.getExactCosts = some [100, 81] ∧ s.getTotalExactCost = some 100 := by
  refine ⟨by decide +kernel, by decide +kernel⟩

/-- The problem without costs at `x = 10`. -/
def bareDemo : State ℚ := { nVars := 1, varBounds := [(none, none)], x := fun _ => 10 }

/-- C81: the rejected hinge cost `x <= 0` makes the QP of a problem without costs minimise `x^2`. -/
theorem C81_violated_witness :
    let t := bareDemo.addCostSet (lineSet 1 0 1 ⟨.negInf, .fin 0, .upperBound⟩) .hinge
    t.2 = false ∧ (t.1.setup.bind (·.convexify fun a => a)).map (fun s' => (s'.getExactCosts, s'.gradient, s'.hessian.cols)) =
      some (some [], [0], [[(0, 1)]]) ∧
    (bareDemo.setup.bind (·.convexify fun a => a)).map (fun s' => (s'.getExactCosts, s'.gradient, s'.hessian.cols)) =
      some (some [], [0], [[]]) := ⟨by decide +kernel, by decide +kernel, by decide +kernel⟩

/-! ### The hypotheses are met -/

theorem demo_live (w : K) : ∃ s0, (demo w).setup = some s0 ∧ Live s0 ∧ s0.costSets = (demo w).costSets ∧
    s0.costs = (demo w).costs ∧ s0.x = (demo w).x ∧ s0.nVars = 1 ∧ ∀ m ∈ s0.meritCoeff, 0 ≤ m := by
  obtain ⟨s0, a1, a2⟩ := (demo_described w).setup
  refine ⟨s0, a1, a2, ?_⟩
  rw [← Option.some.inj a1]
  refine ⟨rfl, rfl, rfl, rfl, ?_⟩
  intro m hm
  rw [(List.mem_replicate.1 hm).2]; norm_num

theorem demo_noSmall {s0 : State K} (h : s0.costSets = (demo (1 : K)).costSets) : NoSmall s0 := by
  intro r c
  simp only [gaussNewton, State.terms, h, demo, lineSet, termsOf]
  by_cases hr : r = 0
  · by_cases hc : c = 0
    · subst hr; subst hc; right
      norm_num [at']
    · left; simp [at', Ne.symm hc]
  · left; simp [at', Ne.symm hr]

/-- C79, C30, C80, C83 and C84 have instances: the problem `demo` set up over the reals. -/
example : ∃ s s' : State ℝ, (demo 1).setup = some s ∧ s.convexify Real.sqrt = some s' ∧
    (∃ z, (∀ i < s'.nVars, z i = s'.x i) ∧ Feasible s' z ∧ slackPart s' z = penaltyOf (problemRows s') s'.x) ∧
    (∃ a b, (s'.setVariables fun _ => 1).getExactCosts = some a ∧ s'.getExactCosts = some b ∧
      (objective s' (fun _ => 1) - slackPart s' fun _ => 1) - (objective s' s.x - slackPart s' s.x) = a.sum - b.sum) ∧
    s'.evaluateConvexConstraintViolations s'.x = s'.getExactConstraintViolations := by
  have hsq : ∀ a : ℝ, 0 ≤ a → Real.sqrt a * Real.sqrt a = a := fun _ h => Real.mul_self_sqrt h
  obtain ⟨s, a1, a2, a3, a4, a5, a6, a7⟩ := demo_live (1 : ℝ)
  obtain ⟨s', outs, iv, head, c1, as⟩ := convexify_ok Real.sqrt hsq a2
  refine ⟨s, s', a1, c1, ?_, ?_, C83_current Real.sqrt hsq a2 c1⟩
  · refine (C79_slack_exact Real.sqrt hsq a2 a7 c1).2.2 s'.x ?_
    have e : s.x = fun _ => 3 := a5
    intro i b v h1 h2
    have hb : s'.box = [1 / 10] := by rw [as.frame]; rw [← Option.some.inj a1]; rfl
    have hv : s'.varBounds = [(some 0, some 10)] := by rw [as.frame]; rw [← Option.some.inj a1]; rfl
    rw [hb] at h1; rw [hv] at h2
    have hi : i = 0 := by have := (List.getElem?_eq_some_iff.1 h1).1; simpa using this
    subst hi
    simp only [List.getElem?_cons_zero, Option.some.injEq] at h1 h2
    subst h1; subst h2
    rw [as.x, e]
    refine ⟨⟨?_, ?_⟩, 3, ⟨?_, ?_⟩, ?_, ?_⟩
    · rintro l h; simp only [Option.some.injEq] at h; rw [← h]; norm_num
    · rintro l h; simp only [Option.some.injEq] at h; rw [← h]; norm_num
    · rintro l h; simp only [Option.some.injEq] at h; rw [← h]; norm_num
    · rintro l h; simp only [Option.some.injEq] at h; rw [← h]; norm_num
    · intro y _; simp
    · norm_num
  · refine C80_exact_partial Real.sqrt hsq a2 ?_ ?_ (demo_noSmall a3) c1 _
    · rw [a3]; intro c hc
      simp only [demo, List.mem_cons, List.not_mem_nil, or_false] at hc
      rcases hc with rfl | rfl <;> exact lineSet_affine 1 0 1 _ _ _
    · rw [a4, a3]; rfl

end Verif.IfoptQp
