import Verif.Props.QpSession
import Mathlib.Analysis.Real.Sqrt

/-!
C26, C27, C28, C74-C77: what the QP built by `TrajOptQPProblem` says about the costs and constraints it was built from.
-/

set_option linter.unusedSectionVars false
set_option linter.unusedVariables false

namespace Verif.QpProblem

open Verif.Bounds Verif.Sco Verif.SqpExprs Finset

universe u
variable {K : Type u} [Field K] [LinearOrder K] [IsStrictOrderedRing K]

/-- A problem in use was convexified: what `convexify` stores, in terms of the resulting problem only. -/
theorem convexified {s s' : State K} (h : Live s) (sqrt : K → K) (hsqrt : ∀ a : K, 0 ≤ a → sqrt a * sqrt a = a)
    (junk : Nat → Ext K) (hc : s.convexify sqrt junk = some s') :
    ∃ t outs iv head, Ready t ∧ Assembled t s' (problemRows (usedMerit s'.meritInfos s'.meritCoeff) s') outs iv head ∧
      Live s' ∧ Current s' := by
  obtain ⟨s'', outs, iv, head, a1, a2, a3, a4⟩ := h.convexify sqrt hsqrt junk
  rw [hc] at a1; injection a1 with a1; subst a1
  refine ⟨s.update junk, outs, iv, head, a2, ?_, a4⟩
  rw [problemRows_frame a3, a3.frame.2.2.2.2.2.1, a3.frame.2.2.2.2.2.2.2.2.2.2.2.2.1]
  exact a3

/-! ### Example sets -/

/-- One row `a * x0 + k`. -/
def lineComp (a k w : K) (b : Bounds K) : Comp K :=
  ⟨false, fun x _ => ⟨[a * x 0 + k], ⟨1, [[(0, a)]]⟩, [w], [b], 1⟩⟩

/-- A dynamic set that currently has no rows. -/
def emptyComp : Comp K := ⟨true, fun _ _ => ⟨[], ⟨1, []⟩, [], [], 0⟩⟩

theorem lineComp_sized (a k w : K) (b : Bounds K) : Sized (lineComp a k w b) :=
  ⟨fun _ _ => rfl, fun _ _ => rfl, fun _ _ _ => rfl⟩

theorem lineComp_cnt (n : Nat) (hn : 0 < n) (a k w : K) (hw : 0 ≤ w) (b : Bounds K) (hb : Proper b) :
    CntFine n (lineComp a k w b) :=
  ⟨lineComp_sized a k w b, fun _ _ => ⟨rfl, rfl, rfl, rfl, by simp [lineComp, hn], by simpa [lineComp, infoOf] using hw,
    by simpa [lineComp, infoOf] using hb⟩⟩

theorem lineComp_obj (a k w : K) (hw : 0 ≤ w) (l : K) : ObjFine 1 (lineComp a k w ⟨.fin l, .fin l, .equality⟩) :=
  ⟨lineComp_sized a k w _, fun _ _ => ⟨rfl, rfl, rfl, rfl, rfl, by simp [lineComp], by simpa [lineComp] using hw,
    by simp [lineComp, infoOf]⟩⟩

theorem emptyComp_cnt (n : Nat) : CntFine n (emptyComp (K := K)) :=
  ⟨⟨fun _ _ => rfl, fun _ _ => rfl, fun _ _ _ => rfl⟩, fun _ _ => ⟨rfl, rfl, rfl, rfl, by simp [emptyComp],
    by simp [emptyComp, infoOf], by simp [emptyComp, infoOf]⟩⟩

/-- A problem with one variable at `1`, the squared cost `(2 - x)^2`, the hinge cost `3 * max 0 (x - 1/2)`, a dynamic
constraint set without rows and the constraint `x = 5`. -/
def demo : State K :=
  { nVars := 1, varBounds := [(none, none)], x := fun _ => 1, upd := fun _ => 0,
    squared := [lineComp 1 0 1 ⟨.fin 2, .fin 2, .equality⟩],
    hinge := [lineComp 1 0 3 ⟨.negInf, .fin (1 / 2), .upperBound⟩],
    dynHinge := [],
    cnts := [lineComp 1 0 1 ⟨.fin 5, .fin 5, .equality⟩], dynCnts := [emptyComp] }

theorem demo_described : Described (demo : State K) where
  obj := by
    intro c hc
    simp only [demo, List.append_nil, List.mem_singleton] at hc
    subst hc; exact lineComp_obj 1 0 1 zero_le_one 2
  pen := by
    intro c hc
    simp only [demo, List.append_nil, List.mem_singleton] at hc
    subst hc; exact lineComp_cnt 1 Nat.one_pos 1 0 3 (by norm_num) _ (.inr (.inr ⟨_, rfl⟩))
  merit := by
    intro c hc
    simp only [demo, List.cons_append, List.nil_append, List.mem_cons, List.not_mem_nil, or_false] at hc
    rcases hc with rfl | rfl
    · exact lineComp_cnt 1 Nat.one_pos 1 0 1 zero_le_one _ (.inl ⟨_, _, rfl, le_refl _⟩)
    · exact emptyComp_cnt 1
  varBounds := rfl
  valid := by
    intro b hb
    simp only [demo, List.mem_singleton] at hb
    subst hb; intro l u h; simp at h

theorem demo_live (junk : Nat → Ext K) : Live ((demo : State K).setup junk) :=
  (setup_live demo_described rfl junk).1

/-- The hypotheses used below hold over the reals. -/
example : (∀ a : ℝ, 0 ≤ a → Real.sqrt a * Real.sqrt a = a) ∧ Live ((demo : State ℝ).setup fun _ => .negInf) ∧
    ∃ s', ((demo : State ℝ).setup fun _ => .negInf).convexify Real.sqrt (fun _ => .negInf) = some s' :=
  ⟨fun _ h => Real.mul_self_sqrt h, demo_live _, by
    obtain ⟨s', -, -, -, a, -⟩ := (demo_live (K := ℝ) _).convexify Real.sqrt (fun _ h => Real.mul_self_sqrt h) fun _ => .negInf
    exact ⟨s', a⟩⟩

/-! ### C26 -/

/-- C26: after `convexify`, minimising over the slack variables leaves the smooth part plus the weighted violation of the
linearised rows: feasible points of the QP lie in the trust box and pay at least the violation for their slacks, and
every point of the trust box can be completed to a feasible point paying exactly that. -/
theorem C26_slack_exact {s s' : State K} (h : Live s) (sqrt : K → K) (hsqrt : ∀ a : K, 0 ≤ a → sqrt a * sqrt a = a)
    (junk : Nat → Ext K) (hc : s.convexify sqrt junk = some s') :
    (∀ z, qpObjective s' z = smoothCost s' z + slackCost s' z) ∧
    (∀ z, QpFeasible s' z → InBox s' z ∧
      penaltyOf (problemRows (usedMerit s'.meritInfos s'.meritCoeff) s') z ≤ slackCost s' z) ∧
    ∀ x, InBox s' x → ∃ z, (∀ i < s'.nVars, z i = x i) ∧ QpFeasible s' z ∧
      slackCost s' z = penaltyOf (problemRows (usedMerit s'.meritInfos s'.meritCoeff) s') x := by
  obtain ⟨t, outs, iv, head, a1, a2, -⟩ := convexified h sqrt hsqrt junk hc
  refine ⟨qpObjective_split a2, fun z hz => ?_, fun x hx => ?_⟩
  · rw [inBox_frame a2]; exact slack_lower a1 a2 z hz
  · rw [inBox_frame a2] at hx
    rw [a2.frame.1]
    exact slack_attain a1 a2 x hx

theorem linCost_congr (var : Nat) (g : List K) (y z : Nat → K) (h : ∀ i, var ≤ i → y i = z i) :
    linCost var g y = linCost var g z := by
  induction g generalizing var with
  | nil => rfl
  | cons a g ih => rw [linCost, linCost, h var (le_refl _), ih (var + 1) fun i hi => h i (by omega)]

/-- C26, minimisers: a minimiser of the QP minimises smooth cost plus weighted violation over the trust box. -/
theorem C26_minimiser {s s' : State K} (h : Live s) (sqrt : K → K) (hsqrt : ∀ a : K, 0 ≤ a → sqrt a * sqrt a = a)
    (junk : Nat → Ext K) (hc : s.convexify sqrt junk = some s') (z : Nat → K) (hz : QpFeasible s' z)
    (hmin : ∀ y, QpFeasible s' y → qpObjective s' z ≤ qpObjective s' y) :
    InBox s' z ∧ slackCost s' z = penaltyOf (problemRows (usedMerit s'.meritInfos s'.meritCoeff) s') z ∧
    ∀ x, InBox s' x →
      smoothCost s' z + penaltyOf (problemRows (usedMerit s'.meritInfos s'.meritCoeff) s') z ≤
      smoothCost s' x + penaltyOf (problemRows (usedMerit s'.meritInfos s'.meritCoeff) s') x := by
  obtain ⟨b1, b2, b3⟩ := C26_slack_exact h sqrt hsqrt junk hc
  have hcongr : ∀ x y : Nat → K, (∀ i < s'.nVars, y i = x i) → smoothCost s' y = smoothCost s' x := by
    intro x y hxy
    unfold smoothCost
    congr 1
    · exact sum_congr rfl fun r hr => sum_congr rfl fun c hc => by rw [hxy r (mem_range.1 hr), hxy c (mem_range.1 hc)]
    · exact sum_congr rfl fun c hc => by rw [hxy c (mem_range.1 hc)]
  have key : ∀ x, InBox s' x → smoothCost s' z + slackCost s' z ≤
      smoothCost s' x + penaltyOf (problemRows (usedMerit s'.meritInfos s'.meritCoeff) s') x := by
    intro x hx
    obtain ⟨y, y1, y2, y3⟩ := b3 x hx
    have := hmin y y2
    rw [b1 z, b1 y, hcongr x y y1, y3] at this
    exact this
  obtain ⟨c1, c2⟩ := b2 z hz
  refine ⟨c1, le_antisymm ?_ c2, fun x hx => ?_⟩
  · have := key z c1; linarith
  · have := key x hx; linarith

/-! ### C27 -/

/-- Specification: current values and Jacobian rows of the penalty costs and the constraints, in order. -/
def problemLin (s : State K) : List (K × List (Nat × K)) :=
  (s.penalty ++ s.merit).flatMap fun c => (s.ask c).values.zip (s.ask c).jac.rows

theorem flatMap_zipIdx {α β : Type*} (l : List α) (f : α → List β) (k : Nat) :
    (l.zipIdx k).flatMap (fun p => f p.1) = l.flatMap f := by
  induction l generalizing k with
  | nil => rfl
  | cons a l ih => rw [List.zipIdx_cons, List.flatMap_cons, List.flatMap_cons, ih]

theorem flatMap_zip {α β γ : Type*} (l : List α) (l' : List β) (h : l.length = l'.length) (f : β → List γ) :
    (l.zip l').flatMap (fun p => f p.2) = l'.flatMap f := by
  conv_rhs => rw [← List.map_snd_zip (l₁ := l) (l₂ := l') (by omega)]
  rw [List.flatMap_map]

theorem flatMap_congr_mem {α β : Type*} {l : List α} {f g : α → List β} (h : ∀ a ∈ l, f a = g a) :
    l.flatMap f = l.flatMap g := by
  induction l with
  | nil => rfl
  | cons a l ih => rw [List.flatMap_cons, List.flatMap_cons, h a (by simp), ih fun b hb => h b (by simp [hb])]

theorem setRows_lin (mc : K) (x0 : Nat → K) (n : Nat) (i : Info K) (s : Snap K) (h : CntOk n i s) :
    (setRows mc x0 i s).map (fun r => (r.constant, r.jac)) =
      (s.values.zip s.jac.rows).map fun p => (p.1 - dot p.2 x0, p.2) := by
  rw [setRows, List.map_zipWith]
  apply List.ext_getElem
  · simp [h.jac, h.coeffs, h.bounds, h.rows]
  · intro k h1 h2
    simp

theorem problemRows_lin {s : State K} (h : Ready s) (mu : Nat → K) :
    (problemRows mu s).map (fun r => (r.constant, r.jac)) = (problemLin s).map fun p => (p.1 - dot p.2 s.x, p.2) := by
  rw [problemRows, problemLin, List.flatMap_append, List.map_append, List.map_append, List.map_flatMap, List.map_flatMap,
    List.map_flatMap, List.map_flatMap]
  congr 1
  · rw [← flatMap_zip _ _ h.pen.length_eq]
    exact flatMap_congr_mem fun p hp => setRows_lin 1 s.x s.nVars _ _ (zip_forall h.pen p hp)
  · rw [← flatMap_zip _ _ h.merit.length_eq]
    conv_rhs => rw [← flatMap_zipIdx _ _ 0]
    exact flatMap_congr_mem fun p hp => setRows_lin _ s.x s.nVars _ _ (zip_forall h.merit p.1 (List.fst_mem_of_mem_zipIdx hp))

/-- C27: what row `k` of the QP says at `x`: the linearisation, except that small entries are missing in the matrix but
present in the constant. -/
theorem C27_qp_row {s s' : State K} (h : Live s) (sqrt : K → K) (hsqrt : ∀ a : K, 0 ≤ a → sqrt a * sqrt a = a)
    (junk : Nat → Ext K) (hc : s.convexify sqrt junk = some s') (k : Nat) (v : K) (j : List (Nat × K))
    (hk : (problemLin s')[k]? = some (v, j)) (x : Nat → K) :
    s'.constant.getD k 0 + varPart s' k x = v + dot (keep j) x - dot j s'.x := by
  obtain ⟨t, outs, iv, head, a1, a2, a3, a4⟩ := convexified h sqrt hsqrt junk hc
  have hl := problemRows_lin (ready_of_current a3 a4) (usedMerit s'.meritInfos s'.meritCoeff)
  have hk' := congrArg (fun l => l[k]?) hl
  simp only [List.getElem?_map, hk, Option.map_some] at hk'
  obtain ⟨r, hr, he⟩ := Option.map_eq_some_iff.1 hk'
  simp only [Prod.mk.injEq] at he
  rw [varPart_eq a2 k r hr, a2.constant, List.getD_eq_getElem?_getD, List.getElem?_map, hr]
  simp only [Option.map_some, Option.getD_some, he.1, he.2]
  ring

theorem keep_id (j : List (Nat × K)) (h : ∀ q ∈ j, q.2 = 0 ∨ 1 / 10 ^ 7 ≤ |q.2|) : keep j = j := by
  rw [keep]
  conv_rhs => rw [← List.map_id j]
  refine List.map_congr_left fun q hq => ?_
  rcases h q hq with h0 | h1
  · rw [h0]; split_ifs <;> simp [← h0]
  · rw [if_neg (not_lt.2 h1)]; rfl

/-- C27 for the QP, without entries in `(0, 1e-7)`: exact at the expansion point, and everywhere for affine functions. -/
theorem C27_qp_exact_partial {s s' : State K} (h : Live s) (sqrt : K → K) (hsqrt : ∀ a : K, 0 ≤ a → sqrt a * sqrt a = a)
    (junk : Nat → Ext K) (hc : s.convexify sqrt junk = some s') (k : Nat) (v : K) (j : List (Nat × K))
    (hk : (problemLin s')[k]? = some (v, j)) (hj : ∀ q ∈ j, q.2 = 0 ∨ 1 / 10 ^ 7 ≤ |q.2|) :
    s'.constant.getD k 0 + varPart s' k s'.x = v ∧
    ∀ F : (Nat → K) → K, F s'.x = v → (∀ x, F x = F s'.x + dot j (x - s'.x)) →
      ∀ x, s'.constant.getD k 0 + varPart s' k x = F x := by
  have e := C27_qp_row h sqrt hsqrt junk hc k v j hk
  rw [keep_id j hj] at e
  refine ⟨by rw [e]; ring, fun F h1 h2 x => ?_⟩
  rw [e, h2, h1, dot_sub]; ring

/-- C27 is violated for rows with small entries: the value at the expansion point is missed by exactly their share. -/
theorem C27_violated_small_entries {s s' : State K} (h : Live s) (sqrt : K → K)
    (hsqrt : ∀ a : K, 0 ≤ a → sqrt a * sqrt a = a)
    (junk : Nat → Ext K) (hc : s.convexify sqrt junk = some s') (k : Nat) (v : K) (j : List (Nat × K))
    (hk : (problemLin s')[k]? = some (v, j)) (hj : dot (keep j) s'.x ≠ dot j s'.x) :
    s'.constant.getD k 0 + varPart s' k s'.x ≠ v := by
  rw [C27_qp_row h sqrt hsqrt junk hc k v j hk]
  intro he
  exact hj (by linarith)

/-- A constraint `x / 10^8 = 0` at `x = 10^9`: its value is `10`, the QP row says `0`. -/
def smallDemo : State ℚ :=
  { nVars := 1, varBounds := [(none, none)], x := fun _ => 10 ^ 9, upd := fun _ => 0,
    cnts := [lineComp (1 / 10 ^ 8) 0 1 ⟨.fin 0, .fin 0, .equality⟩] }

theorem C27_violated_witness :
    ((smallDemo.setup fun _ => .negInf).convexify id (fun _ => .negInf)).map (fun s' =>
      ((s'.ask (lineComp (1 / 10 ^ 8) 0 1 ⟨.fin 0, .fin 0, .equality⟩)).values, s'.constant, s'.matrix.cols)) =
      some ([10], [0], [[(0, 0), (1, 1)], [(0, 1), (2, 1)], [(0, -1), (3, 1)]]) := by decide +kernel

/-! ### C28 -/

/-- Specification: the weights of the slacks of a set, equality rows having two. -/
def setWeights (mc : K) (i : Info K) : List K :=
  (i.coeffs.zip i.bounds).flatMap fun p => List.replicate (if p.2.type = .equality then 2 else 1) (mc * p.1)

/-- Specification: the weights of all slacks when constraint set `i` is weighted by `mu i`. -/
def slackWeights (mu : Nat → K) (s : State K) : List K :=
  s.penInfos.flatMap (setWeights 1) ++ s.meritInfos.zipIdx.flatMap fun p => setWeights (mu p.2) p.1

theorem setRows_weights (mc : K) (x0 : Nat → K) (n : Nat) (i : Info K) (s : Snap K) (h : CntOk n i s) :
    (setRows mc x0 i s).flatMap (fun r => List.replicate (if r.bound.type = .equality then 2 else 1) r.weight) =
      setWeights mc i := by
  have : (setRows mc x0 i s).map (fun r => (r.weight, r.bound)) = (i.coeffs.zip i.bounds).map fun p => (mc * p.1, p.2) := by
    rw [setRows, List.map_zipWith]
    apply List.ext_getElem
    · simp [h.jac, h.coeffs, h.bounds, h.rows]
    · intro k h1 h2
      simp
  have e1 : (setRows mc x0 i s).flatMap (fun r => List.replicate (if r.bound.type = .equality then 2 else 1) r.weight) =
      ((setRows mc x0 i s).map (fun r => (r.weight, r.bound))).flatMap fun p =>
        List.replicate (if p.2.type = .equality then 2 else 1) p.1 := by rw [List.flatMap_map]
  rw [e1, this, List.flatMap_map, setWeights]

theorem flatMap_flatMap' {α β γ : Type*} (l : List α) (f : α → List β) (g : β → List γ) :
    (l.flatMap f).flatMap g = l.flatMap fun a => (f a).flatMap g := by
  induction l with
  | nil => rfl
  | cons a l ih => rw [List.flatMap_cons, List.flatMap_append, ih, List.flatMap_cons]

theorem rows_weights {s : State K} (h : Ready s) (mu : Nat → K) :
    (problemRows mu s).flatMap (fun r => List.replicate (if r.bound.type = .equality then 2 else 1) r.weight) =
      slackWeights mu s := by
  rw [problemRows, slackWeights, List.flatMap_append, flatMap_flatMap', flatMap_flatMap']
  have hz : ∀ (l : List (Info K)) (l' : List (Comp K)), l.length = l'.length → (l.zip l').map Prod.fst = l :=
    fun l l' hl => by rw [List.map_fst_zip]; omega
  congr 1
  · conv_rhs => rw [← hz _ _ h.pen.length_eq]
    rw [List.flatMap_map]
    exact flatMap_congr_mem fun p hp => setRows_weights 1 s.x s.nVars _ _ (zip_forall h.pen p hp)
  · conv_rhs => rw [← hz _ _ h.merit.length_eq, List.zipIdx_map, List.flatMap_map]
    exact flatMap_congr_mem fun p hp =>
      setRows_weights _ s.x s.nVars _ _ (zip_forall h.merit p.1 (List.fst_mem_of_mem_zipIdx hp))

/-- C28, what happens: the slack weights are the cached coefficients times a merit coefficient, set `i` getting the entry
numbered by the constraint sets *with rows* before it. -/
theorem C28_weights {s s' : State K} (h : Live s) (sqrt : K → K) (hsqrt : ∀ a : K, 0 ≤ a → sqrt a * sqrt a = a)
    (junk : Nat → Ext K) (hc : s.convexify sqrt junk = some s') :
    s'.gradient.drop s'.nVars = slackWeights (usedMerit s'.meritInfos s'.meritCoeff) s' := by
  obtain ⟨t, outs, iv, head, a1, a2, a3, a4⟩ := convexified h sqrt hsqrt junk hc
  rw [a2.gradient, a2.frame.1, ← a2.headLen, List.drop_left, a2.laid.grad, rows_weights (ready_of_current a3 a4)]

/-- C28: the coefficients in force are those given last: after `setConstraintMeritCoeff(m)` the next `convexify` uses `m`. -/
theorem C28_given_coefficients {s s1 s' : State K} (h : Live s) (m : List K) (h0 : ∀ a ∈ m, 0 ≤ a)
    (hm : s.setConstraintMeritCoeff m = some s1) (sqrt : K → K) (hsqrt : ∀ a : K, 0 ≤ a → sqrt a * sqrt a = a)
    (junk : Nat → Ext K) (hc : s1.convexify sqrt junk = some s') :
    s'.gradient.drop s'.nVars = slackWeights (usedMerit s'.meritInfos m) s' := by
  have hlen : m.length = s.cnts.length + s.dynCnts.length := by
    by_contra hne
    rw [State.setConstraintMeritCoeff, if_neg hne] at hm; cases hm
  obtain ⟨a1, a2⟩ := h.setMerit m hlen h0
  rw [a1] at hm; injection hm with hm; subst hm
  obtain ⟨s'', outs, iv, head, b1, b2, b3, -⟩ := a2.convexify sqrt hsqrt junk
  rw [hc] at b1; injection b1 with b1; subst b1
  have hcoef : s'.meritCoeff = m := by
    refine b3.frame.2.2.2.2.2.2.2.2.2.2.2.2.1.trans ?_
    unfold State.update
    split_ifs <;> rfl
  rw [C28_weights a2 sqrt hsqrt junk hc, hcoef]

example : ∃ s1 : State ℝ, ((demo : State ℝ).setup fun _ => .negInf).setConstraintMeritCoeff [3, 4] = some s1 ∧ Live s1 :=
  ⟨_, ((demo_live _).setMerit [3, 4] rfl (by simp)).1, ((demo_live _).setMerit [3, 4] rfl (by simp)).2⟩

/-- C28 when no constraint set without rows comes before one with rows: every set is weighted by its own coefficient. -/
theorem C28_own_coefficient_partial {s s' : State K} (h : Live s) (sqrt : K → K)
    (hsqrt : ∀ a : K, 0 ≤ a → sqrt a * sqrt a = a)
    (junk : Nat → Ext K) (hc : s.convexify sqrt junk = some s')
    (hne : ∀ (i k : Nat) a b, i < k → s'.meritInfos[i]? = some a → s'.meritInfos[k]? = some b → b.rows ≠ 0 → a.rows ≠ 0) :
    s'.gradient.drop s'.nVars = slackWeights (fun i => s'.meritCoeff.getD i 0) s' := by
  obtain ⟨t, outs, iv, head, a1, a2, a3, a4⟩ := convexified h sqrt hsqrt junk hc
  have hr := ready_of_current a3 a4
  rw [C28_weights h sqrt hsqrt junk hc, slackWeights, slackWeights]
  congr 1
  refine flatMap_congr_mem fun p hp => ?_
  obtain ⟨i, k⟩ := p
  have hk : s'.meritInfos[k]? = some i := by
    have := List.mem_zipIdx_iff_getElem?.1 hp
    exact this
  by_cases h0 : i.rows = 0
  · have hi : i.coeffs = [] := by
      have hm := (List.forall₂_iff_get.1 hr.merit)
      have hlt := (List.getElem?_eq_some_iff.1 hk).1
      have := hm.2 k hlt (by rw [← hm.1]; exact hlt)
      have e : s'.meritInfos.get ⟨k, hlt⟩ = i := (List.getElem?_eq_some_iff.1 hk).2
      rw [e] at this
      exact List.length_eq_zero_iff.1 (by rw [this.coeffs, h0])
    simp [setWeights, hi]
  · have hall : (s'.meritInfos.take k).countP (fun j => decide (j.rows ≠ 0)) = k := by
      have hlen : (s'.meritInfos.take k).length = k := by
        rw [List.length_take]; have := (List.getElem?_eq_some_iff.1 hk).1; omega
      conv_rhs => rw [← hlen]
      rw [List.countP_eq_length]
      intro a ha
      obtain ⟨m, hm, rfl⟩ := List.mem_iff_getElem.1 ha
      have hmk : m < k := by rw [hlen] at hm; exact hm
      simp only [decide_eq_true_eq]
      refine hne m k _ i hmk ?_ hk h0
      rw [List.getElem_take, List.getElem?_eq_getElem]
    simp only [usedMerit, hall]

/-- C28 is violated: with an empty constraint set in front, set `1` is weighted by the coefficient of set `0`. -/
theorem C28_violated_shift (e i : Info K) (rest : List (Info K)) (m : List K) (h : e.rows = 0) :
    usedMerit (e :: i :: rest) m 1 = m.getD 0 0 := by
  simp [usedMerit, h]

/-- A constraint set without rows and the constraint `x = 5`. -/
def shiftDemo : State ℚ :=
  { nVars := 1, varBounds := [(none, none)], x := fun _ => 1, upd := fun _ => 0,
    cnts := [⟨false, (emptyComp : Comp ℚ).ask⟩, lineComp 1 0 1 ⟨.fin 5, .fin 5, .equality⟩] }

/-- C28 is violated by a run of the API: coefficients `1` and `7`, and the slacks of the second set cost `1`. -/
theorem C28_violated_witness :
    (((shiftDemo.setup fun _ => .negInf).setConstraintMeritCoeff [1, 7]).bind
      fun s => s.convexify id (fun _ => .negInf)).map (·.gradient) = some [0, 1, 1] := by decide +kernel

end Verif.QpProblem
