import Verif.Props.SqpRunTrajOpt

/-!
`TrajOptQPProblem` with conforming cost and constraint sets is a conforming problem object for the optimizer.
-/

set_option linter.unusedSectionVars false
set_option linter.unusedVariables false

namespace Verif.SqpRun

open Verif.Bounds Verif.Sco Verif.QpProblem
open Verif.OsqpEigen (Problem Fine)

universe u
variable {K : Type u} [Field K] [LinearOrder K] [IsStrictOrderedRing K]

/-! ### Specification -/

/-- Specification: an optimization problem: number of variables, their bounds, cost sets and constraint sets. -/
structure Desc (K : Type u) where
  n : Nat
  varBounds : List (Lo K × Hi K)
  objective : List (Comp K)
  penalty : List (Comp K)
  merit : List (Comp K)

/-- A vector as a function. -/
def ext (l : List K) : Nat → K := fun i => l.getD i 0

/-- Specification: what a set answers at `x` after `update()` there. -/
def at' (c : Comp K) (x : List K) : Snap K := c.ask (ext x) (ext x)

/-- Specification: the violation of a set at `x`. -/
def violationOf (c : Comp K) (x : List K) : K := (calcBoundsViolations (at' c x).values ((at' c x).bounds.map sides)).sum

/-- Specification: the costs at `x`. -/
def Desc.costs (D : Desc K) (x : List K) : List K :=
  (D.objective.map fun c => (List.zipWith (fun e w => e * e * w)
    (calcBoundsViolations (at' c x).values ((at' c x).bounds.map sides)) (at' c x).coeffs).sum) ++ D.penalty.map fun c => violationOf c x

/-- Specification: the constraint violations at `x`. -/
def Desc.viols (D : Desc K) (x : List K) : List K := D.merit.map fun c => violationOf c x

/-- What is assumed about the sets, besides being well behaved (`Live`): different points do not have the same hash as far as the sets can
tell, the squared costs do not lose all of their rows, and there are not too many constraint sets without rows. -/
structure Desc.Regular (hash : (Nat → K) → Nat) (D : Desc K) : Prop where
  pos : 0 < D.n
  faithful : ∀ c ∈ D.objective ++ D.penalty ++ D.merit, ∀ x u, hash u = hash x → c.ask x u = c.ask x x
  rows : D.objective = [] ∨ ∀ u, 0 < (D.objective.map (·.rowsAt u)).sum
  warm : ∀ u, D.merit.length ≤ (D.merit.map (·.rowsAt u)).sum + D.n

/-- A `TrajOptQPProblem` for `D` that has been set up and used since. -/
structure Usable (hash : (Nat → K) → Nat) (D : Desc K) (s : State K) : Prop where
  live : Live s
  nVars : s.nVars = D.n
  varBounds : s.varBounds = D.varBounds
  objective : s.objective = D.objective
  penalty : s.penalty = D.penalty
  merit : s.merit = D.merit
  tail : ∀ i, D.n ≤ i → s.x i = 0
  upd : hash s.upd = hash s.x

/-- The QP of `s` is the one `convexify` builds at `c` in the box `b` with the coefficients `μ`. -/
def ConvexAt (sqrt : K → K) (junk : Nat → Ext K) (hash : (Nat → K) → Nat) (D : Desc K) (s : State K) (c b μ : List K) : Prop :=
  (∀ a ∈ b, 0 ≤ a) ∧ ∃ t r, Usable hash D t ∧ t.x = ext c ∧ t.box = b ∧ t.meritCoeff = μ ∧ t.convexify sqrt junk = some r ∧ Like r s

/-- The QP of `s` was built by `convexify`, up to the variable bounds. -/
def Built (sqrt : K → K) (junk : Nat → Ext K) (hash : (Nat → K) → Nat) (D : Desc K) (s : State K) : Prop :=
  ∃ t u u' y d, Usable hash D t ∧ (t.update junk).core sqrt junk = some u ∧ u.rebound y d = some u' ∧ Like u' s ∧
    d.length = D.n ∧ ∀ a ∈ d, 0 ≤ a

/-- What a `TrajOptQPProblem` stands for. -/
def meaning (sqrt : K → K) (hash : (Nat → K) → Nat) (junk : Nat → Ext K) (D : Desc K) : Meaning K (State K) where
  n := D.n
  m := D.merit.length
  costs := D.costs
  viols := D.viols
  mu s := s.meritCoeff
  Inv := Usable hash D
  Cvx := ConvexAt sqrt junk hash D
  Asm := Built sqrt junk hash D

/-! ### Lemmas -/

theorem ext_values {hash : (Nat → K) → Nat} {D : Desc K} {s : State K} (h : Usable hash D s) : ext ((List.range s.nVars).map s.x) = s.x := by
  funext i
  unfold ext
  rw [List.getD_eq_getElem?_getD, List.getElem?_map]
  by_cases hi : i < s.nVars
  · rw [List.getElem?_range hi]; rfl
  · rw [List.getElem?_eq_none (by simpa using hi)]
    simp only [Option.map_none, Option.getD_none]
    exact (h.tail i (by rw [← h.nVars]; omega)).symm

theorem ask_values {hash : (Nat → K) → Nat} {D : Desc K} (R : D.Regular hash) {s : State K} (h : Usable hash D s) {c : Comp K}
    (hc : c ∈ D.objective ++ D.penalty ++ D.merit) : s.ask c = at' c ((List.range s.nVars).map s.x) := by
  rw [at', ext_values h, State.ask]
  exact R.faithful c hc _ _ h.upd

theorem exact_costs {hash : (Nat → K) → Nat} {D : Desc K} (R : D.Regular hash) {s : State K} (h : Usable hash D s) :
    s.getExactCosts = D.costs ((List.range s.nVars).map s.x) := by
  unfold State.getExactCosts Desc.costs
  rw [h.objective, h.penalty]
  congr 1
  · refine List.map_congr_left fun c hc => ?_
    rw [ask_values R h (by simp [hc])]
  · refine List.map_congr_left fun c hc => ?_
    rw [ask_values R h (by simp [hc])]
    rfl

theorem exact_viols {hash : (Nat → K) → Nat} {D : Desc K} (R : D.Regular hash) {s : State K} (h : Usable hash D s) :
    s.getExactConstraintViolations = D.viols ((List.range s.nVars).map s.x) := by
  unfold State.getExactConstraintViolations Desc.viols
  rw [h.merit]
  refine List.map_congr_left fun c hc => ?_
  rw [ask_values R h (by simp [hc])]
  rfl

theorem setVariables_frame (hash : (Nat → K) → Nat) (s : State K) (x : Nat → K) : ∃ u k, s.setVariables hash x = { s with x := x, upd := u, nDyn := k } ∧
    (hash u = hash x ∨ hash s.x = hash x ∧ u = s.upd) := by
  unfold State.setVariables
  split_ifs with h
  · exact ⟨s.upd, s.nDyn, rfl, .inr ⟨h, rfl⟩⟩
  · exact ⟨x, _, rfl, .inl rfl⟩

theorem _root_.Verif.QpProblem.Like.trans_frame {r s : State K} (h : Like r s) (x u : Nat → K) (k : Nat) : Like r { s with x := x, upd := u, nDyn := k } :=
  ⟨h.nQpVars, h.nQpCnts, h.hessian, h.gradient, h.matrix, h.lower, h.upper, h.constant, h.sqObjective, h.objInfos, h.penInfos, h.meritInfos,
    h.nObj, h.nPen, h.nMerit⟩

theorem mapM_get {α β : Type*} (f : α → Option β) (l : List α) (r : List β) (h : l.mapM f = some r) (i : Nat) (b : β) (hb : r[i]? = some b) :
    ∃ a, l[i]? = some a ∧ f a = some b := by
  induction l generalizing r i with
  | nil => simp at h; subst h; simp at hb
  | cons a l ih =>
    rw [List.mapM_cons] at h
    cases ha : f a with
    | none => rw [ha] at h; cases h
    | some c =>
      rw [ha] at h
      cases hm : l.mapM f with
      | none => rw [hm] at h; cases h
      | some bs =>
        rw [hm] at h
        cases h
        cases i with
        | zero => simp at hb; subst hb; exact ⟨a, rfl, ha⟩
        | succ i => simp at hb; obtain ⟨a', h1, h2⟩ := ih bs hm i hb; exact ⟨a', by simpa using h1, h2⟩

/-- `convexify` ends with the variable bounds. -/
theorem convexify_core {hash : (Nat → K) → Nat} {D : Desc K} {sqrt : K → K} {junk : Nat → Ext K} {t r : State K} (h : Usable hash D t)
    (hc : t.convexify sqrt junk = some r) : ∃ u, (t.update junk).core sqrt junk = some u ∧ u.rebound u.x u.box = some r ∧
      u.nVars = D.n ∧ u.varBounds = D.varBounds ∧ u.x = t.x ∧ u.box = t.box := by
  rw [State.convexify, if_pos h.live.init, convexifyCore_eq, Option.bind_eq_some_iff] at hc
  obtain ⟨u, h1, h2⟩ := hc
  obtain ⟨f1, f2, f3, f4, f5, f6⟩ := core_frame h1
  have g : (t.update junk).nVars = t.nVars ∧ (t.update junk).varBounds = t.varBounds ∧ (t.update junk).x = t.x ∧ (t.update junk).box = t.box := by
    unfold State.update; split_ifs <;> exact ⟨rfl, rfl, rfl, rfl⟩
  exact ⟨u, h1, h2, f1.trans (g.1.trans h.nVars), f2.trans (g.2.1.trans h.varBounds), f3.trans g.2.2.1, f4.trans g.2.2.2⟩

/-- `convexify` in another box. -/
theorem convexify_box {hash : (Nat → K) → Nat} {D : Desc K} {sqrt : K → K} {junk : Nat → Ext K} {t u : State K} (h : Usable hash D t)
    (hc : (t.update junk).core sqrt junk = some u) (b : List K) :
    ({ t with box := b } : State K).convexify sqrt junk = u.rebound u.x b := by
  rw [State.convexify, if_pos (by exact h.live.init), convexifyCore_eq, update_box, core_box, hc]
  rfl

/-- What a built QP looks like. -/
theorem built_layout {hash : (Nat → K) → Nat} {D : Desc K} {sqrt : K → K} (hsqrt : ∀ a : K, 0 ≤ a → sqrt a * sqrt a = a) {junk : Nat → Ext K}
    {t u u' s : State K} {y : Nat → K} {d : List K} (h : Usable hash D t) (hc : (t.update junk).core sqrt junk = some u)
    (hr : u.rebound y d = some u') (hl : Like u' s) :
    ∃ r rows outs iv0 head iv, t.convexify sqrt junk = some r ∧ Ready (t.update junk) ∧ Assembled (t.update junk) r rows outs iv0 head ∧ Live r ∧ Current r ∧
      ({ u with x := y, box := d } : State K).boxBounds = some iv ∧ iv.length = D.n ∧
      s.lower = outs.map (·.lower) ++ iv.map (fun i => .fin i.1) ++ List.replicate (outs.flatMap (·.grad)).length (.fin 0) ∧
      s.upper = outs.map (·.upper) ++ iv.map (fun i => .fin i.2) ++ List.replicate (outs.flatMap (·.grad)).length .posInf ∧
      Like { r with lower := s.lower, upper := s.upper } s := by
  obtain ⟨r, outs, iv0, head, c1, c2, c3, c4, c5⟩ := h.live.convexify sqrt hsqrt junk
  obtain ⟨u1, d1, d2, d3, d4, d5, d6⟩ := convexify_core h c1
  rw [hc] at d1
  cases d1
  obtain ⟨iv, lo, hi, e1, e2, e3, rfl⟩ := updateNLP_shape hr
  obtain ⟨iv1, lo1, hi1, g1, g2, g3, rfl⟩ := updateNLP_shape d2
  have l1 := boxBounds_length e1
  have l2 := boxBounds_length g1
  have fr := c3.frame
  have hout : outs.length = u.nMerit + u.nPen := by
    rw [c3.laid.length, c3.rowsLen, ← fr.2.2.2.2.2.2.2.1, ← fr.2.2.2.2.2.2.2.2.1]; exact Nat.add_comm _ _
  have hn0 : (t.update junk).nVars = D.n := by rw [← fr.1]; exact d3
  have hiv : iv.length = iv0.length := by rw [c3.ivLen, l1, hn0]; exact d3
  have w1 := writeSeg_again g2 (b := iv.map fun i => Ext.fin i.1) (by simp only [List.length_map, l1, l2])
  have w2 := writeSeg_again g3 (b := iv.map fun i => Ext.fin i.2) (by simp only [List.length_map, l1, l2])
  have low : s.lower = lo := hl.lower
  have upp : s.upper = hi := hl.upper
  have v1 := writeSeg_mid (outs.map (·.lower)) (iv0.map fun i => Ext.fin i.1) (iv.map fun i => Ext.fin i.1) (List.replicate (outs.flatMap (·.grad)).length (.fin 0)) (by simp [hiv])
  have v2 := writeSeg_mid (outs.map (·.upper)) (iv0.map fun i => Ext.fin i.2) (iv.map fun i => Ext.fin i.2) (List.replicate (outs.flatMap (·.grad)).length .posInf) (by simp [hiv])
  rw [List.length_map, hout] at v1 v2
  have q1 : lo1 = _ := c3.lower
  have q2 : hi1 = _ := c3.upper
  rw [← q1] at v1
  rw [← q2] at v2
  refine ⟨_, _, outs, iv0, head, iv, c1, c2, c3, c4, c5, e1, by rw [l1]; exact d3, ?_, ?_, ?_⟩
  · rw [low]; exact Option.some.inj (e2.symm.trans (w1.symm.trans v1))
  · rw [upp]; exact Option.some.inj (e3.symm.trans (w2.symm.trans v2))
  · exact ⟨hl.nQpVars, hl.nQpCnts, hl.hessian, hl.gradient, hl.matrix, rfl, rfl, hl.constant, hl.sqObjective, hl.objInfos, hl.penInfos,
      hl.meritInfos, hl.nObj, hl.nPen, hl.nMerit⟩

/-- Changing the box of a usable problem. -/
theorem box_lawful {hash : (Nat → K) → Nat} {D : Desc K} {sqrt : K → K} {junk : Nat → Ext K} {s : State K} (h : Usable hash D s) {b : List K}
    (hb : b.length = D.n) (h0 : ∀ a ∈ b, 0 ≤ a) :
    ∃ s', ({ s with box := b } : State K).updateNLPVariableBounds = some s' ∧ Boxed (trajOpt sqrt hash junk) (meaning sqrt hash junk D) s s' b := by
  have hbs : b.length = s.nVars := by rw [hb, h.nVars]
  obtain ⟨lo, hi, a1, a2, a3⟩ := updateNLP_some { s with box := b } hbs h.live.varBounds h.live.valid h.live.lower h.live.upper
  obtain ⟨s'', b1, b2, -⟩ := h.live.withBox b hbs
  rw [a1] at b1
  cases b1
  refine ⟨_, a1, ⟨⟨b2, h.nVars, h.varBounds, h.objective, h.penalty, h.merit, h.tail, h.upd⟩, rfl, rfl, rfl, ⟨rfl, rfl, rfl, rfl, rfl⟩, ?_, ?_⟩⟩
  · rintro c b0 μ ⟨-, t, r, t1, t2, t3, t4, t5, t6⟩ hv
    obtain ⟨u, u1, u2, u3, u4, u5, u6⟩ := convexify_core t1 t5
    obtain ⟨lo', hi', u'', w1, w2, w3⟩ := rebound_again u2 t6 (h.nVars.trans u3.symm) (h.varBounds.trans u4.symm) hbs h.live.varBounds h.live.valid
    rw [a1] at w1
    have hx : s.x = u.x := by
      have : (List.range s.nVars).map s.x = c := hv
      rw [u5, t2, ← this, ext_values h]
    refine ⟨h0, { t with box := b }, u'', ⟨?_, t1.nVars, t1.varBounds, t1.objective, t1.penalty, t1.merit, t1.tail, t1.upd⟩, t2, rfl, t4, ?_, ?_⟩
    · have hl := t1.live
      exact ⟨hl.init, hl.finO, hl.finP, hl.finM, hl.cached, hl.nDyn, hl.hasDyn, hl.nObj, hl.nPen, hl.nMerit, hl.target, hl.constant, hl.lower, hl.upper,
        hl.lists, hl.meritCoeff, hl.meritNonneg, by rw [hb]; exact t1.nVars.symm, hl.varBounds, hl.valid⟩
    · rw [convexify_box t1 u1 b, ← hx]; exact w2
    · cases w1; exact w3
  · rintro ⟨t, u, u', y, d, t1, t2, t3, t4, t5, t6⟩
    have g : u.nVars = D.n ∧ u.varBounds = D.varBounds := by
      obtain ⟨f1, f2, -⟩ := core_frame t2
      have g : (t.update junk).nVars = t.nVars ∧ (t.update junk).varBounds = t.varBounds := by
        unfold State.update; split_ifs <;> exact ⟨rfl, rfl⟩
      exact ⟨f1.trans (g.1.trans t1.nVars), f2.trans (g.2.trans t1.varBounds)⟩
    obtain ⟨lo', hi', u'', w1, w2, w3⟩ := rebound_again t3 t4 (h.nVars.trans g.1.symm) (h.varBounds.trans g.2.symm) hbs h.live.varBounds h.live.valid
    rw [a1] at w1
    refine ⟨t, u, u'', s.x, b, t1, t2, w2, ?_, hb, h0⟩
    cases w1; exact w3

/-- `TrajOptQPProblem` conforms. -/
theorem trajOpt_lawful {sqrt : K → K} (hsqrt : ∀ a : K, 0 ≤ a → sqrt a * sqrt a = a) {hash : (Nat → K) → Nat} (junk : Nat → Ext K) {D : Desc K}
    (R : D.Regular hash) : Lawful (trajOpt sqrt hash junk) (meaning sqrt hash junk D) where
  pos := R.pos
  sizes s h := ⟨h.nVars, congrArg List.length h.merit, by
    show ((List.range s.nVars).map s.x).length = D.n
    simp [h.nVars]⟩
  exact s h := ⟨exact_costs R h, exact_viols R h⟩
  viols x _ := by simp [meaning, Desc.viols]
  setVars s x h hx := by
    have hx' : D.n ≤ x.length := hx
    obtain ⟨u, k, e1, e2⟩ := setVariables_frame hash s fun i => if i < s.nVars then x.getD i 0 else 0
    have hl := h.live.setVariables hash fun i => if i < s.nVars then x.getD i 0 else 0
    rw [e1] at hl
    refine ⟨{ s with x := fun i => if i < s.nVars then x.getD i 0 else 0, upd := u, nDyn := k }, ?_, ?_, ?_, rfl, rfl, ⟨rfl, rfl, rfl, rfl, rfl⟩, rfl, rfl, ?_, ?_, ?_⟩
    · show (if s.nVars ≤ x.length then some (s.setVariables hash fun i => if i < s.nVars then x.getD i 0 else 0) else none) = _
      rw [if_pos (by rw [h.nVars]; exact hx'), e1]
    · refine ⟨hl, h.nVars, h.varBounds, h.objective, h.penalty, h.merit, ?_, ?_⟩
      · intro i hi
        simp only
        rw [if_neg (by rw [h.nVars]; omega)]
      · rcases e2 with e2 | ⟨e2, rfl⟩
        · exact e2
        · exact h.upd.trans e2
    · show (List.range s.nVars).map (fun i => if i < s.nVars then x.getD i 0 else 0) = x.take D.n
      rw [h.nVars]
      apply List.ext_getElem
      · simp [hx']
      · intro i h1 h2
        have hi : i < D.n := by simpa using h1
        have hi2 : i < x.length := by omega
        simp [hi, hi2]
    · rintro c b μ ⟨p0, t, r, t1, t2, t3, t4, t5, t6⟩
      exact ⟨p0, t, r, t1, t2, t3, t4, t5, t6.trans_frame _ _ _⟩
    · rintro ⟨t, u1, u', y, d, t1, t2, t3, t4, t5, t6⟩
      exact ⟨t, u1, u', y, d, t1, t2, t3, t4.trans_frame _ _ _, t5, t6⟩
    · intro y
      have hk := (Like.refl s).trans_frame (fun i => if i < s.nVars then x.getD i 0 else 0) u k
      constructor
      · show (if y.length = s.nQpVars then ({ s with x := _, upd := u, nDyn := k } : State K).evaluateConvexCosts _ else none) = if y.length = s.nQpVars then s.evaluateConvexCosts _ else none
        rw [hk.costs]
      · exact hk.cnts rfl _
  setBox s b h hb h0 := by
    obtain ⟨s', a1, a2⟩ := box_lawful (sqrt := sqrt) (junk := junk) h hb h0
    refine ⟨s', ?_, a2⟩
    show s.setBoxSize b = some s'
    rw [State.setBoxSize, if_pos (by rw [h.nVars]; exact hb), a1]
  scaleBox s a h hb h0 ha := by
    have hb' : s.box.length = D.n := hb
    have h0' : ∀ b ∈ s.box, 0 ≤ b := h0
    exact box_lawful (sqrt := sqrt) (junk := junk) h (b := s.box.map (· * a)) (by rw [List.length_map]; exact hb') fun b hb => by
      obtain ⟨c, hc, rfl⟩ := List.mem_map.1 hb
      exact mul_nonneg (h0' c hc) ha
  setMerit s c h hc h0 := by
    have hc' : c.length = s.cnts.length + s.dynCnts.length := by
      rw [← List.length_append, ← h.live.lists.2.2, h.merit]; exact hc
    obtain ⟨a1, a2⟩ := h.live.setMerit c hc' h0
    exact ⟨_, a1, ⟨a2, h.nVars, h.varBounds, h.objective, h.penalty, h.merit, h.tail, h.upd⟩, rfl, rfl, rfl, ⟨rfl, rfl, rfl, rfl, rfl⟩⟩
  convexify s h h0 := by
    obtain ⟨r, outs, iv0, head, c1, c2, c3, c4, c5⟩ := h.live.convexify sqrt hsqrt junk
    obtain ⟨u, d1, d2, d3, d4, d5, d6⟩ := convexify_core h c1
    have fr := c3.frame
    have g : (s.update junk).nVars = s.nVars ∧ (s.update junk).varBounds = s.varBounds ∧ (s.update junk).x = s.x ∧ (s.update junk).box = s.box ∧
        (s.update junk).objective = s.objective ∧ (s.update junk).penalty = s.penalty ∧ (s.update junk).merit = s.merit ∧
        (s.update junk).upd = s.upd ∧ (s.update junk).meritCoeff = s.meritCoeff := by
      unfold State.update; split_ifs <;> exact ⟨rfl, rfl, rfl, rfl, rfl, rfl, rfl, rfl, rfl⟩
    obtain ⟨g1, g2, g3, g4, g5, g6, g7, g8, g9⟩ := g
    obtain ⟨f1, f2, f3, f4, f5, f6, f7, f8, f9, f10, f11, f12, f13, f14, f15⟩ := fr
    have hx : r.x = s.x := f2.trans g3
    have hbx : r.box = s.box := f14.trans g4
    refine ⟨r, c1, ⟨c4, f1.trans (g1.trans h.nVars), f15.trans (g2.trans h.varBounds), f10.trans (g5.trans h.objective), f11.trans (g6.trans h.penalty),
      f12.trans (g7.trans h.merit), by rw [hx]; exact h.tail, by rw [hx, f3, g8]; exact h.upd⟩, ?_, hbx, f13.trans g9, ?_, ?_⟩
    · show (List.range r.nVars).map r.x = (List.range s.nVars).map s.x
      rw [hx, f1, g1]
    · exact ⟨h0, s, r, h, (ext_values h).symm, rfl, rfl, c1, Like.refl r⟩
    · exact ⟨s, u, r, u.x, u.box, h, d1, d2, Like.refl r, by rw [d6, h.live.box]; exact h.nVars, by rw [d6]; exact h0⟩
  shaped s h := by
    rintro ⟨t, u, u', y, d, t1, t2, t3, t4, t5, t6⟩
    obtain ⟨r, rows, outs, iv0, head, iv, c1, c2, c3, c4, c5, e1, e2, e3, e4, e5⟩ := built_layout hsqrt t1 t2 t3 t4
    obtain ⟨f1, f2, f3, f4, f5, f6, f7, f8, f9, f10, f11, f12, f13, f14, f15⟩ := c3.frame
    obtain ⟨u1, u2⟩ := t1.live.update junk
    have g : (t.update junk).nVars = t.nVars ∧ (t.update junk).objective = t.objective ∧ (t.update junk).merit = t.merit := by
      unfold State.update; split_ifs <;> exact ⟨rfl, rfl, rfl⟩
    have hn : (t.update junk).nVars = D.n := g.1.trans t1.nVars
    have hob : (t.update junk).objective = D.objective := g.2.1.trans t1.objective
    have hme : (t.update junk).merit = D.merit := g.2.2.trans t1.merit
    have hout : outs.length = (t.update junk).nPen + (t.update junk).nMerit := by rw [c3.laid.length, c3.rowsLen]
    have n1 := c3.nQpVars
    have n2 := c3.nQpCnts
    have hmi : s.meritInfos.length = D.merit.length := by rw [e5.meritInfos]; show r.meritInfos.length = _; rw [f6, c2.merit.length_eq, hme]
    have hmr : (t.update junk).nMerit = (D.merit.map (·.rowsAt (t.update junk).upd)).sum := by
      rw [c2.nMerit, sum_rows (fun c hc => (u1.finM c hc).1) u2.2.2, hme]
    have hvl : ∀ z, (s.evaluateConvexConstraintViolations z).length = D.merit.length := by
      intro z; rw [State.evaluateConvexConstraintViolations, convexViolations_length, hmi]
    have qv : s.nQpVars = r.nQpVars := e5.nQpVars
    have qc : s.nQpCnts = r.nQpCnts := e5.nQpCnts
    refine ⟨⟨?_, ?_, ?_, ?_, ?_, ?_, ?_, ?_, ?_⟩, ?_, ?_⟩
    · show 0 < s.nQpVars
      have := R.pos
      omega
    · show s.hessian.rows = s.nQpVars ∧ s.hessian.cols.length = s.nQpVars
      rw [e5.hessian, qv]; exact c3.hessDim
    · show s.gradient.length = s.nQpVars
      rw [e5.gradient, qv]
      show r.gradient.length = _
      rw [c3.gradient, List.length_append, c3.headLen]; omega
    · show s.matrix.rows = s.nQpCnts ∧ s.matrix.cols.length = s.nQpVars
      rw [e5.matrix, qc, qv]; exact ⟨c3.matrixRows, c3.matrixCols⟩
    · show s.lower.length = s.nQpCnts
      rw [e3]; simp only [List.length_append, List.length_map, List.length_replicate, e2, hout]; omega
    · show s.upper.length = s.nQpCnts
      rw [e4]; simp only [List.length_append, List.length_map, List.length_replicate, e2, hout]; omega
    · show ((List.range s.nVars).map s.x).length = s.nVars
      simp
    · show s.nVars ≤ s.nQpVars
      rw [h.nVars]; omega
    · intro _
      show (s.evaluateConvexConstraintViolations s.x).length ≤ s.nQpCnts
      rw [hvl]
      have := R.warm (t.update junk).upd
      omega
    · show D.n ≤ s.nQpVars
      omega
    · intro y hy
      refine ⟨?_, hvl _⟩
      have hy' : y.length = s.nQpVars := hy
      have hev : s.evaluateConvexCosts (fun i => y.getD i 0) = r.evaluateConvexCosts (fun i => y.getD i 0) := by
        rw [e5.costs]
        have : Like r { r with lower := s.lower, upper := s.upper } → True := fun _ => trivial
        unfold State.evaluateConvexCosts
        have : ∀ n row (z : Nat → K) is, ({ r with lower := s.lower, upper := s.upper } : State K).convexViolations n z row is = r.convexViolations n z row is := by
          intro n row z is
          induction is generalizing row with
          | nil => rfl
          | cons i is ih => simp only [State.convexViolations, ih, State.convexViolation]
        simp only [this]
      show ∃ cc, (if y.length = s.nQpVars then s.evaluateConvexCosts (fun i => y.getD i 0) else none) = some cc
      rw [if_pos hy', hev]
      rcases R.rows with h0 | h0
      · have : r.objInfos = [] := by
          rw [f4]
          have := c2.obj.length_eq
          rw [hob, h0] at this
          exact List.length_eq_zero_iff.1 this
        exact ⟨_, by unfold State.evaluateConvexCosts; simp only; rw [if_pos this]⟩
      · have hno : r.nObj ≠ 0 := by
          rw [f7, c2.nObj, sum_rows (fun c hc => (u1.finO c hc).1) u2.1, hob]
          have := h0 (t.update junk).upd
          omega
        obtain ⟨pen, -, hp⟩ := C75_squared_partial t1.live sqrt hsqrt junk c1 hno fun i => y.getD i 0
        exact ⟨_, hp⟩

/-! ### Bounds inside OSQP's range -/

theorem order_of {p : Problem K} (hm : p.Moderate) {i : Nat} {l u : Ext K} (h1 : p.lower[i]? = some l) (h2 : p.upper[i]? = some u)
    (h : ∃ a, Within (l, u) a) : ∃ a, Within (l, u) a ∧ |a| ≤ osqpInfty := by
  obtain ⟨a, w1, w2⟩ := h
  have hl := List.mem_of_getElem? h1
  have hu := List.mem_of_getElem? h2
  cases l with
  | posInf => exact absurd w1 (by simp [Within])
  | fin a =>
    have g1 := hm.1 a hl
    cases u with
    | negInf => exact absurd w2 (by simp [Within])
    | posInf => exact ⟨a, ⟨le_refl _, trivial⟩, g1.le⟩
    | fin b => exact ⟨a, ⟨le_refl _, le_trans w1 w2⟩, g1.le⟩
  | negInf =>
    cases u with
    | negInf => exact absurd w2 (by simp [Within])
    | posInf => exact ⟨0, ⟨trivial, trivial⟩, by rw [abs_zero]; exact infty_pos.le⟩
    | fin b => exact ⟨b, ⟨trivial, le_refl _⟩, (hm.2 b hu).le⟩

/-- A built QP with finite bounds inside OSQP's range is fine for the QP solver. -/
theorem built_fine {sqrt : K → K} (hsqrt : ∀ a : K, 0 ≤ a → sqrt a * sqrt a = a) {hash : (Nat → K) → Nat} {junk : Nat → Ext K} {D : Desc K}
    (R : D.Regular hash) {s : State K} (h : Usable hash D s) (hb : Built sqrt junk hash D s) (hm : ((trajOpt sqrt hash junk).qp s).Moderate) :
    Fine ((trajOpt sqrt hash junk).qp s) := by
  obtain ⟨sh, -, -⟩ := (trajOpt_lawful hsqrt junk R).shaped s h hb
  obtain ⟨t, u, u', y, d, t1, t2, t3, t4, t5, t6⟩ := hb
  obtain ⟨r, rows, outs, iv0, head, iv, c1, c2, c3, c4, c5, e1, e2, e3, e4, e5⟩ := built_layout hsqrt t1 t2 t3 t4
  refine ⟨sh.pos, sh.hessian, sh.gradient, sh.matrix, sh.lower, sh.upper, ?_, sh.vars, sh.nlp, sh.violations⟩
  intro i l v h1 h2
  refine order_of hm h1 h2 ?_
  have h1' : s.lower[i]? = some l := h1
  have h2' : s.upper[i]? = some v := h2
  rw [e3] at h1'
  rw [e4] at h2'
  by_cases hi : i < outs.length
  · rw [List.append_assoc, List.getElem?_append_left (by simpa using hi), List.getElem?_map] at h1' h2'
    have hi2 : i < rows.length := by rw [← c3.laid.length]; exact hi
    have hrow := List.getElem?_eq_getElem hi2
    obtain ⟨ro, o1, o2, o3⟩ := c3.laid.bounds (le_refl _) c3.jac i _ hrow
    rw [o1] at h1' h2'
    simp only [Option.map_some, Option.some.injEq] at h1' h2'
    obtain ⟨pr, -⟩ := c3.proper _ (List.getElem_mem hi2)
    rw [← h1', ← h2', o2, o3]
    generalize rows[i] = row at pr
    rcases pr with ⟨a, b, hb, hab⟩ | ⟨a, hb⟩ | ⟨b, hb⟩ <;> rw [hb] <;> simp only [addScalar]
    · exact ⟨a + -row.constant, le_refl _, by linarith⟩
    · exact ⟨a + -row.constant, le_refl _, trivial⟩
    · exact ⟨b + -row.constant, trivial, le_refl _⟩
  · by_cases hi2 : i < outs.length + D.n
    · rw [List.append_assoc, List.getElem?_append_right (by simpa using hi), List.getElem?_append_left (by simp [e2]; omega), List.getElem?_map] at h1' h2'
      simp only [List.length_map] at h1' h2'
      cases hq : iv[i - outs.length]? with
      | none => rw [hq] at h1'; simp at h1'
      | some q =>
        rw [hq] at h1' h2'
        simp only [Option.map_some, Option.some.injEq] at h1' h2'
        rw [← h1', ← h2']
        obtain ⟨k, k1, k2⟩ := mapM_get _ _ _ e1 _ _ hq
        simp only at k2
        split at k2
        · rename_i b lb ub hd hvb
          obtain ⟨f1, f2, -⟩ := core_frame t2
          have hvb' : (lb, ub) ∈ t.varBounds := by
            have g : (t.update junk).varBounds = t.varBounds := by unfold State.update; split_ifs <;> rfl
            rw [← g, ← f2]; exact List.mem_of_getElem? hvb
          obtain ⟨lo, hi', z1, xi, -, -, -, z2, z3, -⟩ := C16_trust_interval b (y k) lb ub (t1.live.valid _ hvb') (t6 b (List.mem_of_getElem? hd))
          rw [z1] at k2
          cases k2
          exact ⟨xi, z2, z3⟩
        · cases k2
    · rw [List.getElem?_append_right (by simp [e2]; omega)] at h1' h2'
      rw [List.getElem?_replicate] at h1' h2'
      split_ifs at h1' h2'
      cases h1'; cases h2'
      exact ⟨0, le_refl _, trivial⟩

end Verif.SqpRun
