import Verif.Props.SqpRunAffine

/-!
C150: converged runs of `TrustRegionSQPSolver` on affine problems are near-optimal.
-/

set_option linter.unusedSectionVars false
set_option linter.unusedVariables false

namespace Verif.Sqp

universe u
variable {K : Type u} [Field K] [LinearOrder K] [IsStrictOrderedRing K]

theorem inflate_ge (p : Params K) (hratio : 1 ≤ p.meritCoeffIncreaseRatio) {a : K} (ha : 0 ≤ a) (s : St K) (h : ∀ c ∈ s.coeffs, a ≤ c) :
    ∀ c ∈ inflate p s, a ≤ c := by
  have key : ∀ c, a ≤ c → a ≤ c * p.meritCoeffIncreaseRatio := fun c hc => by
    have := mul_le_mul_of_nonneg_left hratio (ha.trans hc)
    linarith
  unfold inflate
  split_ifs
  · generalize s.bestViols = v
    generalize s.coeffs = l at h
    induction l generalizing v with
    | nil => simp
    | cons b l ih =>
      cases v with
      | nil => simp
      | cons b' v =>
        intro c hc
        rw [List.zipWith_cons_cons] at hc
        rcases List.mem_cons.1 hc with rfl | hc
        · have := h b List.mem_cons_self
          split_ifs
          · exact key _ this
          · exact this
        · exact ih v (fun c hc => h c (List.mem_cons_of_mem _ hc)) c hc
  · intro c hc
    obtain ⟨b, hb, rfl⟩ := List.mem_map.1 hc
    exact key _ (h b hb)

theorem penaltyLoop_ge (p : Params K) (e : Env K) (hratio : 1 ≤ p.meritCoeffIncreaseRatio) {a : K} (ha : 0 ≤ a) (fuel m i : ℕ) (s t : St K)
    (h : Consistent e s) (hs : ∀ c ∈ s.coeffs, a ≤ c) (hr : penaltyLoop p e fuel m i s = some t) : ∀ c ∈ t.coeffs, a ≤ c := by
  induction m generalizing i s with
  | zero => cases hr; exact hs
  | succ m ih =>
    unfold penaltyLoop at hr
    simp only at hr
    have h0 : Consistent e { s with penaltyIteration := i, convexifyIteration := 0 } :=
      ⟨h.vars, h.costs, h.viols, h.merit, h.pbox, h.pcoeffs, h.trace⟩
    split at hr
    · cases hr
    · rename_i w hconv
      obtain ⟨c1, c2, -⟩ := convexLoop_spec p e fuel 99 _ w h0 hconv
      have hw : ∀ c ∈ w.coeffs, a ≤ c := by rw [c2]; exact hs
      split_ifs at hr with v1 v2
      · injection hr with hr; subst hr; exact hw
      · injection hr with hr; subst hr; exact hw
      · have c1' : Consistent e { w with status := .running } :=
          ⟨c1.vars, c1.costs, c1.viols, c1.merit, c1.pbox, c1.pcoeffs, c1.trace⟩
        exact ih (i + 1) _ (adjust_consistent p e _ c1').1 (inflate_ge p hratio ha _ hw) hr

/-- Merit coefficients never fall below the initial one. -/
theorem coeffs_ge (p : Params K) (e : Env K) (hx0 : e.x0.length = e.nVars) (hinit : 0 ≤ p.initialMeritErrorCoeff)
    (hratio : 1 ≤ p.meritCoeffIncreaseRatio) (fuel : ℕ) (s : St K) (hr : solve p e fuel = some s) :
    ∀ c ∈ s.coeffs, p.initialMeritErrorCoeff ≤ c := by
  unfold solve at hr
  split at hr
  · cases hr
  · rename_i t ht
    injection hr with hr
    have := penaltyLoop_ge p e hratio hinit fuel _ 0 _ t (init_consistent p e hx0) (fun c hc => by
      have hc' : c ∈ List.replicate e.nCnts p.initialMeritErrorCoeff := hc
      exact ((List.mem_replicate.1 hc').2).ge) ht
    subst hr
    split_ifs <;> exact this

end Verif.Sqp

namespace Verif.SqpRun

open Verif.Bounds Verif.Sco Verif.SqpExprs
open Verif.QpProblem hiding below above
open Verif.Optimal
open Verif.Sqp (Params Status tolerance)
open Verif.OsqpEigen (Problem Fine Qp Solver posed)

universe u
variable {K : Type u} [Field K] [LinearOrder K] [IsStrictOrderedRing K]

/-! ### Convexity -/

theorem ext_seg {x z : List K} (hl : x.length = z.length) (t : K) (i : Nat) : ext (seg t x z) i = (1 - t) * ext x i + t * ext z i := by
  unfold ext seg
  simp only [List.getD_eq_getElem?_getD, List.getElem?_zipWith]
  by_cases hi : i < x.length
  · rw [List.getElem?_eq_getElem hi, List.getElem?_eq_getElem (hl ▸ hi)]
    simp only [Option.getD_some]
    ring
  · rw [List.getElem?_eq_none (by omega), List.getElem?_eq_none (by omega)]
    simp

theorem value_seg (ρ : Row K) {x z : List K} (hl : x.length = z.length) (t : K) :
    valueAt ρ (ext (seg t x z)) = (1 - t) * valueAt ρ (ext x) + t * valueAt ρ (ext z) := by
  have key : ∀ j : List (Nat × K), dot j (ext (seg t x z)) = (1 - t) * dot j (ext x) + t * dot j (ext z) := by
    intro j
    induction j with
    | nil => simp [dot]
    | cons q j ih =>
      simp only [dot, List.map_cons, List.sum_cons] at ih ⊢
      rw [ih, ext_seg hl]; ring
  unfold valueAt
  rw [key]; ring

theorem within_seg {D : Desc K} {x z : List K} (hx : D.Within x) (hz : D.Within z) {t : K} (h0 : 0 ≤ t) (h1 : t ≤ 1) : D.Within (seg t x z) := by
  unfold Desc.Within seg at *
  generalize D.varBounds = B at *
  induction hx generalizing z with
  | nil => cases hz; exact .nil
  | @cons a b l B ha _ ih =>
    cases hz with
    | @cons a' _ l' _ ha' hz =>
      refine .cons ⟨fun v hv => ?_, fun v hv => ?_⟩ (ih hz)
      · have e1 := ha.1 v hv
        have e2 := ha'.1 v hv
        nlinarith
      · have e1 := ha.2 v hv
        have e2 := ha'.2 v hv
        nlinarith

theorem gap_convex (b : Bounds K) (a c t : K) (h0 : 0 ≤ t) (h1 : t ≤ 1) : gap b ((1 - t) * a + t * c) ≤ (1 - t) * gap b a + t * gap b c := by
  have h1' : 0 ≤ 1 - t := by linarith
  have e1 : QpProblem.below b.lower ((1 - t) * a + t * c) ≤ (1 - t) * QpProblem.below b.lower a + t * QpProblem.below b.lower c := by
    cases b.lower with
    | fin l =>
      show max 0 _ ≤ (1 - t) * max 0 _ + t * max 0 _
      refine max_le (add_nonneg (mul_nonneg h1' (le_max_left _ _)) (mul_nonneg h0 (le_max_left _ _))) ?_
      have g1 := mul_le_mul_of_nonneg_left (le_max_right 0 (l - a)) h1'
      have g2 := mul_le_mul_of_nonneg_left (le_max_right 0 (l - c)) h0
      linarith
    | _ => simp [QpProblem.below]
  have e2 : QpProblem.above b.upper ((1 - t) * a + t * c) ≤ (1 - t) * QpProblem.above b.upper a + t * QpProblem.above b.upper c := by
    cases b.upper with
    | fin l =>
      show max 0 _ ≤ (1 - t) * max 0 _ + t * max 0 _
      refine max_le (add_nonneg (mul_nonneg h1' (le_max_left _ _)) (mul_nonneg h0 (le_max_left _ _))) ?_
      have g1 := mul_le_mul_of_nonneg_left (le_max_right 0 (a - l)) h1'
      have g2 := mul_le_mul_of_nonneg_left (le_max_right 0 (c - l)) h0
      linarith
    | _ => simp [QpProblem.above]
  unfold gap
  linarith

theorem sq_convex (w T a c t : K) (hw : 0 ≤ w) (h0 : 0 ≤ t) (h1 : t ≤ 1) :
    w * (T - ((1 - t) * a + t * c)) ^ 2 ≤ (1 - t) * (w * (T - a) ^ 2) + t * (w * (T - c) ^ 2) := by
  have e : (1 - t) * (w * (T - a) ^ 2) + t * (w * (T - c) ^ 2) - w * (T - ((1 - t) * a + t * c)) ^ 2 = w * (t * (1 - t) * (a - c) ^ 2) := by ring
  have : 0 ≤ w * (t * (1 - t) * (a - c) ^ 2) := mul_nonneg hw (mul_nonneg (mul_nonneg h0 (by linarith)) (sq_nonneg _))
  linarith

/-- `f` is convex between two points. -/
def Cvx (t : K) (x z : List K) (f : (Nat → K) → K) : Prop := f (ext (seg t x z)) ≤ (1 - t) * f (ext x) + t * f (ext z)

theorem Cvx.sum {α : Type*} {t : K} {x z : List K} (l : List α) (f : α → (Nat → K) → K) (h : ∀ a ∈ l, Cvx t x z (f a)) :
    Cvx t x z fun y => (l.map fun a => f a y).sum := by
  unfold Cvx at *
  induction l with
  | nil => simp
  | cons a l ih =>
    have e1 := h a List.mem_cons_self
    have e2 := ih fun b hb => h b (List.mem_cons_of_mem _ hb)
    simp only [List.map_cons, List.sum_cons]
    linarith

theorem Cvx.dot {α : Type*} {t : K} {x z : List K} (l : List α) (f : α → (Nat → K) → K) (h : ∀ a ∈ l, Cvx t x z (f a)) (μ : List K)
    (hμ : ∀ a ∈ μ, 0 ≤ a) : Cvx t x z fun y => Sqp.dot (l.map fun a => f a y) μ := by
  unfold Cvx Sqp.dot at *
  induction l generalizing μ with
  | nil => simp
  | cons a l ih =>
    cases μ with
    | nil => simp
    | cons m μ =>
      have e1 := mul_le_mul_of_nonneg_right (h a List.mem_cons_self) (hμ m List.mem_cons_self)
      have e2 := ih (fun b hb => h b (List.mem_cons_of_mem _ hb)) μ fun b hb => hμ b (List.mem_cons_of_mem _ hb)
      simp only [List.map_cons, List.zipWith_cons_cons, List.sum_cons] at e2 ⊢
      linarith

theorem rowMerit_convex (D : Desc K) {O P M : List (List (Row K))} (hO : ∀ L ∈ O, ∀ ρ ∈ L, 0 ≤ ρ.weight) {μ : List K} (hμ : ∀ a ∈ μ, 0 ≤ a) :
    ConvexOn D.Within fun x => rowMerit O P M μ (ext x) := by
  intro x z t hx hz h0 h1
  have hl : x.length = z.length := hx.length_eq.trans hz.length_eq.symm
  refine ⟨within_seg hx hz h0 h1, ?_⟩
  have hg : ∀ L : List (Row K), Cvx t x z (gapOf L) := fun L => Cvx.sum L _ fun ρ _ => by
    unfold Cvx
    simp only [value_seg ρ hl]
    exact gap_convex _ _ _ _ h0 h1
  have hs : ∀ L ∈ O, Cvx t x z (sqOf L) := fun L hL => Cvx.sum L _ fun ρ hρ => by
    unfold Cvx
    simp only [value_seg ρ hl]
    exact sq_convex _ _ _ _ _ (hO L hL ρ hρ) h0 h1
  have e1 : Cvx t x z fun y => (O.map fun L => sqOf L y).sum := Cvx.sum O _ hs
  have e2 : Cvx t x z fun y => (P.map fun L => gapOf L y).sum := Cvx.sum P _ fun L _ => hg L
  have e3 : Cvx t x z fun y => Sqp.dot (M.map fun L => gapOf L y) μ := Cvx.dot M _ (fun L _ => hg L) μ hμ
  unfold Cvx at e1 e2 e3
  unfold rowMerit
  linarith

/-! ### The last QP -/

theorem within_get {D : Desc K} {x : List K} (h : D.Within x) {i : Nat} {b : Lo K × Hi K} (hi : D.varBounds[i]? = some b) : Inside (ext x i) b := by
  unfold Desc.Within at h
  generalize D.varBounds = B at *
  induction h generalizing i with
  | nil => simp at hi
  | cons a _ ih =>
    cases i with
    | zero => simp at hi; subst hi; exact a
    | succ i => exact ih (by simpa using hi)

theorem near_get {d : K} {x z : List K} (h : Near d x z) (hd : 0 ≤ d) (i : Nat) : |ext z i - ext x i| ≤ d := by
  unfold Near at h
  induction h generalizing i with
  | nil => simpa [ext] using hd
  | cons a _ ih =>
    cases i with
    | zero => exact a
    | succ i => exact ih i

section
variable {sqrt : K → K} {hash : (Nat → K) → Nat} {junk : Nat → Ext K} {D : Desc K} {p : Params K} {o : World K} {s0 : State K} {qs : Solver K}
  {O P M : List (List (Row K))}

/-- What the answer of a QP says about the problem. -/
theorem answer_optimal (S : Setting sqrt hash D p o s0 qs) (A : D.Affine O P M) {B : K}
    (hB : ∀ b ∈ D.varBounds, ∃ l u, b = (some l, some u) ∧ -B ≤ l ∧ u ≤ B) {η : K} (ho : o.Solves η)
    {w : Run K (State K)} (hg : Good (trajOpt sqrt hash junk) (meaning sqrt hash junk D) o w)
    (hm : w.Moderate) (k : Nat) (e : Entry K (State K)) (y : List K) (hk : w.log[k]? = some e) (hy : e.answer = some y)
    (hμ : ∀ a ∈ e.res.coeffs, 1 / 10 ^ 7 ≤ a) (hlen : e.res.coeffs.length = D.merit.length) {b : K} (hb : 0 ≤ b) (hbox : e.res.box = List.replicate D.n b)
    (hx : D.Within (e.res.bestVars.take D.n)) :
    ∀ z, D.Within z → Near b (e.res.bestVars.take D.n) z →
      e.convexCosts.sum + Sqp.dot e.convexViols e.res.coeffs ≤ D.meritOf e.res.coeffs z + (η + dropped D.n B) := by
  have he := hg.entries k e hk
  obtain ⟨e1, -⟩ := he.program (sent_fine S hg hm.1)
  obtain ⟨b0, t, r, t1, t2, t3, t4, t5, t6⟩ := he.cvx
  have hpr : posed (OsqpEigen.ofState r) = posed ((trajOpt sqrt hash junk).qp e.prob) := by
    show _ = posed (OsqpEigen.ofState e.prob)
    simp only [posed, OsqpEigen.ofState, t6.nQpVars, t6.nQpCnts, t6.hessian, t6.gradient, t6.matrix, t6.lower, t6.upper]
  have hmod : (OsqpEigen.ofState r).Moderate := by
    have := hm.2 e (List.mem_of_getElem? hk)
    unfold OsqpEigen.Problem.Moderate OsqpEigen.ofState at this ⊢
    simp only [t6.lower, t6.upper] at this
    exact this
  obtain ⟨r', c1, c2, -, -, -, -, c3⟩ := (trajOpt_lawful S.sqrt junk S.regular).convexify t t1 (by rw [show (trajOpt sqrt hash junk).getBoxSize t = t.box from rfl, t3]; exact b0)
  have hrr : r' = r := Option.some.inj (c1.symm.trans t5)
  subst hrr
  have hfine := built_fine S.sqrt S.regular c2 c3 hmod
  obtain ⟨a1, ⟨q, q1, q2⟩, a3, a4⟩ := he.answer y hy
  have hq : q = posed (OsqpEigen.ofState r') := (e1 q q1).trans hpr.symm
  subst hq
  obtain ⟨s1, s2⟩ := ho _ _ _ q2
  have hU : Usable hash D r' := c2
  obtain ⟨-, -, -, -, -, -, hl, hcur⟩ := convexified t1.live sqrt S.sqrt junk t5
  have hrd := ready_of_current hl hcur
  have hrx : r'.x = ext (e.res.bestVars.take D.n) := by
    have : r'.x = t.x := by
      obtain ⟨r2, outs', iv', head', d1, -, d3, -⟩ := t1.live.convexify sqrt S.sqrt junk
      have : r2 = r' := Option.some.inj (d1.symm.trans t5)
      subst this
      rw [d3.frame.2.1]
      unfold State.update; split_ifs <;> rfl
    rw [this, t2]; rfl
  have hrbox : r'.box = List.replicate D.n b ∧ r'.meritCoeff = e.res.coeffs := by
    obtain ⟨r2, outs', iv', head', d1, -, d3, -⟩ := t1.live.convexify sqrt S.sqrt junk
    have : r2 = r' := Option.some.inj (d1.symm.trans t5)
    subst this
    have g : (t.update junk).box = t.box ∧ (t.update junk).meritCoeff = t.meritCoeff := by unfold State.update; split_ifs <;> exact ⟨rfl, rfl⟩
    have f := d3.frame
    refine ⟨?_, ?_⟩
    · rw [f.2.2.2.2.2.2.2.2.2.2.2.2.2.1, g.1, t3, hbox]
    · rw [f.2.2.2.2.2.2.2.2.2.2.2.2.1, g.2, t4]
  -- the rows
  have hused : ∀ (j : Nat) a, e.res.coeffs[j]? = some a → usedMerit r'.meritInfos r'.meritCoeff j = a := by
    intro j a hj
    have hjl : j < r'.meritInfos.length := by
      have h1 := (List.getElem?_eq_some_iff.1 hj).1
      rw [hcur.2.2.length_eq, hU.merit, ← hlen]; exact h1
    have hall : (r'.meritInfos.take j).countP (fun j => decide (j.rows ≠ 0)) = j := by
      have hl' : (r'.meritInfos.take j).length = j := by rw [List.length_take]; omega
      conv_rhs => rw [← hl']
      rw [List.countP_eq_length]
      intro i hi
      have hi := List.mem_of_mem_take hi
      have h3 := zip3 hcur.2.2 (hU.merit ▸ A.merit)
      obtain ⟨n, hn, rfl⟩ := List.mem_iff_getElem.1 hi
      have hok := (List.forall₂_iff_get.1 hrd.merit).2 n hn (by rw [← hcur.2.2.length_eq]; exact hn)
      have hA := (List.forall₂_iff_get.1 (hU.merit ▸ A.merit : List.Forall₂ AffineSet r'.merit M)).2 n (by rw [← hcur.2.2.length_eq]; exact hn)
        (by rw [← (hU.merit ▸ A.merit : List.Forall₂ AffineSet r'.merit M).length_eq, ← hcur.2.2.length_eq]; exact hn)
      simp only [decide_eq_true_eq]
      intro h0
      have := hok.rows
      rw [show r'.meritInfos.get ⟨n, hn⟩ = r'.meritInfos[n] from rfl, h0, State.ask, hA.values, List.length_map] at this
      exact A.rows _ (List.get_mem _ _) (List.length_eq_zero_iff.1 this.symm)
    rw [usedMerit, hall, hrbox.2, List.getD_eq_getElem?_getD, hj]; rfl
  have hpen : ∀ x, penaltyOf (problemRows (usedMerit r'.meritInfos r'.meritCoeff) r') x =
      (P.map fun L => gapOf L x).sum + Sqp.dot (M.map fun L => gapOf L x) e.res.coeffs := by
    intro x
    unfold problemRows
    rw [penaltyOf_append]
    congr 1
    · exact affine_pen hcur.2.1 (hU.penalty ▸ A.penalty) A.unitP r'.x r'.upd x
    · refine affine_merit hcur.2.2 (hU.merit ▸ A.merit) A.unitM r'.x r'.upd x _ _ 0 (by rw [hlen, A.merit.length_eq]) fun j a hj => ?_
      rw [Nat.zero_add]; exact hused j a hj
  have hsq : ∀ x, squaredModel r' x = (O.map fun L => sqOf L x).sum := by
    intro x
    unfold squaredModel
    exact congrArg List.sum (map_eq_map (zip3 hcur.1 (hU.objective ▸ A.objective : List.Forall₂ AffineSet r'.objective O)) fun pr L _ h => affine_sq h.2 h.1 r'.x r'.upd x)
  -- slack weights are not dropped
  have hslack : ∀ g ∈ r'.gradient.drop r'.nVars, g = 0 ∨ 1 / 10 ^ 7 ≤ |g| := by
    intro g hgr
    right
    rw [C28_weights t1.live sqrt S.sqrt junk t5, ← rows_weights hrd] at hgr
    obtain ⟨row, hrow, hgr⟩ := List.mem_flatMap.1 hgr
    have hgr := (List.mem_replicate.1 hgr).2
    subst hgr
    have hw1 : ∀ (mc : K) (i : Info K) (c : Comp K) (L : List (Row K)), Fits r'.upd i c → AffineSet c L → (∀ ρ ∈ L, ρ.weight = 1) →
        row ∈ setRows mc r'.x i (r'.ask c) → row.weight = mc := by
      rintro mc i c L ⟨x1, u1, rfl, -⟩ hA h1 hr
      unfold setRows at hr
      rw [show (infoOf (c.ask x1 u1)).bounds = (c.ask x1 u1).bounds from rfl, show (infoOf (c.ask x1 u1)).coeffs = (c.ask x1 u1).coeffs from rfl,
        State.ask, hA.values, hA.jac, hA.coeffs, hA.bounds, zipWith_maps] at hr
      obtain ⟨ρ, hρ, rfl⟩ := List.mem_map.1 hr
      simp only
      rw [h1 ρ hρ, mul_one]
    have pair : ∀ {is : List (Info K)} {cs : List (Comp K)} {Ls : List (List (Row K))}, List.Forall₂ (Fits r'.upd) is cs → List.Forall₂ AffineSet cs Ls →
        ∀ pr ∈ is.zip cs, ∃ L ∈ Ls, Fits r'.upd pr.1 pr.2 ∧ AffineSet pr.2 L := by
      intro is cs Ls h1 h2 pr hp
      have h := zip3 h1 h2
      clear h1 h2
      generalize is.zip cs = l at h hp
      induction h with
      | nil => cases hp
      | cons a _ ih =>
        rcases List.mem_cons.1 hp with rfl | hp
        · exact ⟨_, List.mem_cons_self, a⟩
        · obtain ⟨L, l1, l2⟩ := ih hp
          exact ⟨L, List.mem_cons_of_mem _ l1, l2⟩
    unfold problemRows at hrow
    rcases List.mem_append.1 hrow with hrow | hrow
    · obtain ⟨pr, p1, p2⟩ := List.mem_flatMap.1 hrow
      obtain ⟨L, l1, l2, l3⟩ := pair hcur.2.1 (hU.penalty ▸ A.penalty) pr p1
      rw [hw1 1 _ _ L l2 l3 (A.unitP L l1) p2, abs_one]
      norm_num
    · obtain ⟨⟨pr, j⟩, p1, p2⟩ := List.mem_flatMap.1 hrow
      obtain ⟨L, l1, l2, l3⟩ := pair hcur.2.2 (hU.merit ▸ A.merit) pr (List.fst_mem_of_mem_zipIdx p1)
      rw [hw1 _ _ _ L l2 l3 (A.unitM L l1) p2]
      have hj : j < e.res.coeffs.length := by
        have := (List.getElem?_eq_some_iff.1 (List.mem_zipIdx_iff_getElem?.1 p1)).1
        rw [hlen, ← hU.merit]
        simp only [List.length_zip] at this
        omega
      rw [hused j _ (List.getElem?_eq_getElem hj)]
      have := hμ _ (List.getElem_mem hj)
      rwa [abs_of_nonneg (le_trans (by positivity) this)]
  obtain ⟨f1, f2, f3⟩ := qp_optimal S.sqrt t1.live t5 hmod hfine hslack s1 s2
  -- the answer and other points are bounded
  have hvb : r'.varBounds.length = D.n := by rw [hU.live.varBounds, hU.nVars]
  have hbd : ∀ z : Nat → K, InBox r' z → 2 * err D.n z ≤ dropped D.n B := by
    intro z hz
    refine err_le fun c hc => ?_
    have h1 := List.getElem?_eq_getElem (l := r'.varBounds) (i := c) (by rw [hvb]; exact hc)
    have hbc : r'.box[c]? = some b := by rw [hrbox.1, List.getElem?_replicate, if_pos hc]
    obtain ⟨l, v, hlv, g1, g2⟩ := hB _ (by rw [← hU.varBounds]; exact List.mem_of_getElem? h1)
    rw [hlv] at h1
    obtain ⟨lo, hi, i1, i2, i3⟩ := hz c b _ _ hbc h1
    obtain ⟨lo2, hi2, z1, xi, -, -, -, z2, z3, z4⟩ := C16_trust_interval b (r'.x c) (some l) (some v)
      (hU.live.valid _ (List.mem_of_getElem? h1)) hb
    rw [i1] at z1
    injection z1 with z1; injection z1 with z1 z1'
    subst z1; subst z1'
    have := ((z4 (z c)).1 ⟨i2, i3⟩).1
    rw [abs_le]
    exact ⟨g1.trans (this.1 l rfl), (this.2 v rfl).trans g2⟩
  intro z hz hnear
  have hzbox : InBox r' (ext z) := by
    intro i b' lb ub hb' hi
    rw [hrbox.1] at hb'
    obtain ⟨-, rfl⟩ := List.mem_replicate.1 (List.mem_of_getElem? hb')
    rw [hU.varBounds] at hi
    obtain ⟨lo, hi', z1, xi, -, -, z5, z2, z3, z4⟩ := C16_trust_interval b' (r'.x i) lb ub
      (hU.live.valid _ (by rw [hU.varBounds]; exact List.mem_of_getElem? hi)) hb
    have hxi : xi = r'.x i := z5 (by rw [hrx]; exact within_get hx hi)
    refine ⟨lo, hi', z1, (z4 (ext z i)).2 ⟨within_get hz hi, ?_⟩⟩
    rw [hxi, hrx]
    exact near_get hnear hb i
  have hfin := f3 (ext z) hzbox
  rw [hsq, hpen, hsq, hpen, hU.nVars] at hfin
  have g1 := hbd _ f2
  have g2 := hbd _ hzbox
  -- the values reported for the answer
  have hcv : e.convexViols = M.map fun L => gapOf L (ext y) := by
    rw [← a4]
    show e.prob.evaluateConvexConstraintViolations (ext y) = _
    rw [t6.cnts (he.inv.nVars.trans hU.nVars.symm), C76_convex_violations t1.live sqrt S.sqrt junk t5, ← List.map_uncurry_zip_eq_zipWith]
    exact map_eq_map (zip3 hcur.2.2 (hU.merit ▸ A.merit : List.Forall₂ AffineSet r'.merit M)) fun pr L _ h => affine_lin h.2 h.1 r'.x r'.upd (ext y)
  have hcc : e.convexCosts.sum = (O.map fun L => sqOf L (ext y)).sum := by
    have a3' : (if y.length = e.prob.nQpVars then e.prob.evaluateConvexCosts (ext y) else none) = some e.convexCosts := a3
    rw [if_pos (by rw [a1]; rfl), t6.costs] at a3'
    have hz0 := C75_violated_penalty_zero t1.live sqrt S.sqrt junk t5 (ext y) f1
    by_cases h0 : r'.objInfos = []
    · have hO : O = [] := by
        have h1 := hcur.1.length_eq
        rw [h0, hU.objective, A.objective.length_eq] at h1
        exact List.length_eq_zero_iff.1 h1.symm
      simp only [State.evaluateConvexCosts, if_pos h0, hz0, Option.some.injEq] at a3'
      rw [← a3', hO]; simp
    · have hn : r'.nObj ≠ 0 := by
        intro hn
        unfold State.evaluateConvexCosts at a3'
        rcases S.regular.rows with hR | hR
        · have h1 := hcur.1.length_eq
          rw [hU.objective, hR] at h1
          exact h0 (List.length_eq_zero_iff.1 h1)
        · have := hR r'.upd
          have e2 : r'.objInfos.map (·.rows) = D.objective.map (·.rowsAt r'.upd) := by
            rw [← hU.objective]
            refine map_eq_map hcur.1 fun i c hc hfit => ?_
            have hok := objOk_of_fits (hU.live.finO c hc) r'.x hfit
            rw [hok.rows]
            exact ((hU.live.finO c hc).1).rows _ _
          rw [← e2, ← hl.nObj, hn] at this
          omega
      obtain ⟨pen, hpl, hpe⟩ := C75_squared_partial t1.live sqrt S.sqrt junk t5 hn (ext y)
      rw [hpe] at a3'
      have hpen0 : pen.sum = 0 := by
        unfold State.evaluateConvexCosts at hpe
        simp only [if_neg h0] at hpe
        split_ifs at hpe with hlen'
        split at hpe
        · cases hpe
        · rename_i v hv
          rw [hz0] at hpe
          injection hpe with hpe
          have hl1 : (segmentSums (r'.objInfos.map (·.rows)) v).length = (List.zipWith (fun i c => (sqValues r'.x i (r'.ask c) (ext y)).sum) r'.objInfos r'.objective).length := by
            have := congrArg List.length hpe
            simp only [List.length_append, List.length_replicate] at this
            omega
          have := (List.append_inj hpe hl1).2
          rw [← this]; simp
      injection a3' with a3'
      rw [← a3', List.sum_append, hpen0, add_zero, ← List.map_uncurry_zip_eq_zipWith]
      exact congrArg List.sum (map_eq_map (zip3 hcur.1 (hU.objective ▸ A.objective : List.Forall₂ AffineSet r'.objective O)) fun pr L _ h => affine_sq h.2 h.1 r'.x r'.upd (ext y))
  rw [hcv, hcc, affine_merits hU A]
  unfold rowMerit
  have hgn : 0 ≤ (P.map fun L => gapOf L (ext y)).sum := by
    refine List.sum_nonneg fun a ha => ?_
    obtain ⟨L, hL, rfl⟩ := List.mem_map.1 ha
    refine List.sum_nonneg fun a ha => ?_
    obtain ⟨ρ, hρ, rfl⟩ := List.mem_map.1 ha
    rw [← violB_gap _ (affine_proper hU A L (List.mem_append.2 (.inl hL)) ρ hρ)]
    exact (violB_ge (affine_proper hU A L (List.mem_append.2 (.inl hL)) ρ hρ) _).1
  linarith

theorem solves_accurate {η : K} (ho : o.Solves η) {y : List K} {k : Nat} {q : Qp K} (h : o.answer k q = some y) (r : Nat) (l u : Ext K)
    (hr : r < q.m) (hl : q.l[r]? = some l) (hu : q.u[r]? = some u) : LowOk l (q.A.rowForm r (ext y)) ∧ HighOk u (q.A.rowForm r (ext y)) := by
  obtain ⟨l', u', h1, h2, h3, h4⟩ := (ho k q y h).1 r hr
  rw [hl] at h1; rw [hu] at h2
  cases h1; cases h2
  exact ⟨h3, h4⟩

/-- The variables a run returns are in their bounds. -/
theorem result_within (S : Setting sqrt hash D p o s0 qs) {η : K} (ho : o.Solves η) (h0 : D.Within (vars s0)) {fuel : Nat}
    {w : Run K (State K)} (h : run sqrt hash junk p o qs fuel s0 = .ok w) (hm : w.Moderate) : D.Within (vars w.prob) := by
  obtain ⟨b, g, -, h2⟩ := run_oracle S h
  have hx := x0_length (junk := junk) S w.log
  have hg := run_good S (.inl h)
  have hv : vars w.prob = w.res.bestVars.take D.n := hg.vars
  rcases best_origin p _ fuel _ hx h2 with h3 | ⟨k, c, d, h3⟩
  · have : w.res.bestVars = vars s0 := h3
    rw [hv, this, List.take_of_length_le (by rw [show (vars s0).length = D.n from hx])]
    exact h0
  · have h3' : (oracle (meaning sqrt hash junk D) o (vars s0) w.log).qp k c d = some w.res.bestVars := h3
    cases hk : w.log[k - 1]? with
    | none => simp only [oracle, hk] at h3'; cases h3'
    | some e =>
      simp only [oracle, hk] at h3'
      obtain ⟨-, ⟨q, q1, q2⟩, -, -⟩ := (hg.entries _ e hk).answer _ h3'
      obtain ⟨t, r, t1, t2, t3, t4, t5, t6, t7, t8, t9, t10⟩ := entry_program S hg hm _ e hk
      have hq := t9 q q1
      subst hq
      have hlen : (vars w.prob).length = D.varBounds.length := by
        have hU : Usable hash D w.prob := hg.inv
        rw [← hU.varBounds, hU.live.varBounds, vars, List.length_map, List.length_range]
      refine List.forall₂_iff_get.2 ⟨hlen, fun i h1 h2 => ?_⟩
      have hi := List.getElem?_eq_getElem h2
      have key := answer_bounds S t1 (by rw [t3]; exact t8) t5 t6 (ε := 0) (z := ext w.res.bestVars) (fun k l u hl hu => by
        rw [add_zero, sub_zero]
        refine solves_accurate ho q2 k l u ?_ hl hu
        have := (List.getElem?_eq_some_iff.1 hl).1
        simpa [posed, t7.lower] using this) i _ _ hi
      have hx' : ext w.res.bestVars i = (vars w.prob)[i] := by
        have hxi := List.getElem?_eq_getElem h1
        simp only [hv] at hxi
        rw [List.getElem?_take] at hxi
        split_ifs at hxi
        simp [ext, hxi, hv]
      rw [hx'] at key
      simp only [sub_zero, add_zero] at key
      exact key

/-- C150 (merit): if a run on an affine problem returns `kConverged` without having exceeded the time limit, the iteration limit, its 99
convexifications or the minimum box, and OSQP's answers solve their programs up to `η`, then the merit of the returned variables exceeds the
merit of any vector in the variable bounds by at most (the convergence tolerance, plus `η`, plus what the QP loses by dropping numbers below
`1e-7`) times the distance in units of the final trust box. -/
theorem C150_merit_optimal_partial (S : Setting sqrt hash D p o s0 qs) (A : D.Affine O P M) (hD : D.InRange) {B : K}
    (hB : ∀ b ∈ D.varBounds, ∃ l u, b = (some l, some u) ∧ -B ≤ l ∧ u ≤ B) {η : K} (ho : o.Solves η) (h0 : D.Within (vars s0))
    (hμ : 1 / 10 ^ 7 ≤ p.initialMeritErrorCoeff) (hratio : 1 ≤ p.meritCoeffIncreaseRatio) (hmin : 0 < p.minTrustBoxSize)
    (hclock : ∀ k, o.clock k ≤ p.maxTime) {fuel : Nat} {w : Run K (State K)} (h : run sqrt hash junk p o qs fuel s0 = .ok w)
    (hc : w.status = .converged) (hiter : (w.res.overallIteration : ℤ) < p.maxIterations) (hconv : w.res.convexifyIteration < 99) {b : K}
    (hbox : w.res.box = List.replicate D.n b) (hb : p.minTrustBoxSize ≤ b) :
    D.Within (vars w.prob) ∧ ∀ z d, D.Within z → Near d (vars w.prob) z →
      D.meritOf w.res.coeffs (vars w.prob) ≤ D.meritOf w.res.coeffs z +
        (tolerance p (D.meritOf w.res.coeffs (vars w.prob)) + (η + dropped D.n B)) * max 1 (d / b) := by
  have hg := run_good S (.inl h)
  have hm := moderate_of_range S hD hg
  have hin := result_within S ho h0 h hm
  have hv : vars w.prob = w.res.bestVars.take D.n := hg.vars
  have hb0 : 0 < b := hmin.trans_le hb
  have hU : Usable hash D w.prob := hg.inv
  obtain ⟨-, -, -, hmerit⟩ := C131_results S h
  have hco : ∀ a ∈ w.res.coeffs, 1 / 10 ^ 7 ≤ a := by
    obtain ⟨b', g, -, h2⟩ := run_oracle S h
    intro a ha
    exact hμ.trans (Sqp.coeffs_ge p _ (x0_length (junk := junk) S w.log) (le_trans (by positivity) hμ) hratio fuel _ h2 a ha)
  refine ⟨hin, fun z d hz hd => ?_⟩
  rcases solve_final hclock fuel s0 _ w h hc with ⟨k, e, y, k1, k2, k3, k4, k5, k6⟩ | ⟨b', h1, h2⟩ | h1 | h1
  · have key := answer_optimal (junk := junk) S A hB ho hg hm k e y k1 k2 (by rw [k5]; exact hco) (by rw [k5]; exact hg.coeffs) hb0.le
      (by rw [k4]; exact hbox) (by rw [k3, ← hv]; exact hin)
    rw [k3, k5, ← hv] at key
    change w.res.bestExactMerit = D.meritOf w.res.coeffs (vars w.prob) at hmerit
    rw [hmerit] at k6
    have hcvx : ConvexOn D.Within fun x => D.meritOf w.res.coeffs x := by
      have := rowMerit_convex (P := P) (M := M) D (affine_nonneg S.usable A) (μ := w.res.coeffs) fun a ha => le_trans (by positivity) (hco a ha)
      simp only [affine_merits hU A]
      exact this
    refine global_of_local hcvx hin hb0 (fun v hv' hn => ?_) hz hd
    have := key v hv' hn
    linarith
  · rw [hbox, maxOf_replicate S.regular.pos] at h1
    cases h1
    exact absurd h2 (not_lt.2 hb)
  · omega
  · omega

/-- C150 (cost): in such a run, the total cost of the returned variables exceeds that of any vector in the variable bounds that satisfies all
constraints by at most the same number. -/
theorem C150_cost_optimal_partial (S : Setting sqrt hash D p o s0 qs) (A : D.Affine O P M) (hD : D.InRange) {B : K}
    (hB : ∀ b ∈ D.varBounds, ∃ l u, b = (some l, some u) ∧ -B ≤ l ∧ u ≤ B) {η : K} (ho : o.Solves η) (h0 : D.Within (vars s0))
    (hμ : 1 / 10 ^ 7 ≤ p.initialMeritErrorCoeff) (hratio : 1 ≤ p.meritCoeffIncreaseRatio) (hmin : 0 < p.minTrustBoxSize)
    (hclock : ∀ k, o.clock k ≤ p.maxTime) {fuel : Nat} {w : Run K (State K)} (h : run sqrt hash junk p o qs fuel s0 = .ok w)
    (hc : w.status = .converged) (hiter : (w.res.overallIteration : ℤ) < p.maxIterations) (hconv : w.res.convexifyIteration < 99) {b : K}
    (hbox : w.res.box = List.replicate D.n b) (hb : p.minTrustBoxSize ≤ b) (z : List K) (d : K) (hz : D.Within z) (hd : Near d (vars w.prob) z)
    (hfeas : ∀ c ∈ D.merit, violationOf c z = 0) :
    (D.costs (vars w.prob)).sum ≤ (D.costs z).sum +
      (tolerance p (D.meritOf w.res.coeffs (vars w.prob)) + (η + dropped D.n B)) * max 1 (d / b) := by
  have key := (C150_merit_optimal_partial S A hD hB ho h0 hμ hratio hmin hclock h hc hiter hconv hbox hb).2 z d hz hd
  have hg := run_good S (.inl h)
  have hU : Usable hash D w.prob := hg.inv
  have e1 : D.meritOf w.res.coeffs z = (D.costs z).sum := by
    unfold Desc.meritOf Sqp.dot
    have : ∀ (l : List (Comp K)) (μ : List K), (∀ c ∈ l, violationOf c z = 0) → (List.zipWith (· * ·) (l.map fun c => violationOf c z) μ).sum = 0 := by
      intro l
      induction l with
      | nil => simp
      | cons c l ih =>
        intro μ hl
        cases μ with
        | nil => simp
        | cons a μ =>
          rw [List.map_cons, List.zipWith_cons_cons, List.sum_cons, ih μ fun c hc => hl c (List.mem_cons_of_mem _ hc), hl c List.mem_cons_self]
          simp
    rw [Desc.viols, this D.merit _ hfeas, add_zero]
  have e2 : 0 ≤ Sqp.dot (D.viols (vars w.prob)) w.res.coeffs := by
    unfold Sqp.dot
    refine List.sum_nonneg fun a ha => ?_
    obtain ⟨j, hj⟩ := List.mem_iff_getElem?.1 ha
    rw [List.getElem?_zipWith_eq_some] at hj
    obtain ⟨x, m, hx, hm', rfl⟩ := hj
    refine mul_nonneg ?_ (hg.nonneg m (List.mem_of_getElem? hm'))
    rw [affine_viols hU A, List.getElem?_map, Option.map_eq_some_iff] at hx
    obtain ⟨L, hL, rfl⟩ := hx
    refine List.sum_nonneg fun a ha => ?_
    obtain ⟨ρ, hρ, rfl⟩ := List.mem_map.1 ha
    have hp := affine_proper hU A L (List.mem_append.2 (.inr (List.mem_of_getElem? hL))) ρ hρ
    rw [← violB_gap _ hp]
    exact (violB_ge hp _).1
  have e3 : D.meritOf w.res.coeffs (vars w.prob) = (D.costs (vars w.prob)).sum + Sqp.dot (D.viols (vars w.prob)) w.res.coeffs := rfl
  linarith

end
end Verif.SqpRun
