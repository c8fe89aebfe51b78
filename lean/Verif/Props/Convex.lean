import Verif.Props.OsqpModel
import Verif.Props.Expr
import Mathlib.Tactic.FinCases

/-!
C07 (hinge costs), C08 (absolute value, L1 and L2 costs), C09 (`addMax`), C68 (penalties of linearised
constraints) and C10 (no residue in the model).

Specification.  `PartialMin m n0 c0 q x v` says: `v` is the minimum of the quadratic expression `q` over all
points `y` that agree with `x` on the first `n0` variables, respect the bounds of all live variables added
later, and satisfy all live constraints of the model `m` from handle `c0` on.  Nothing in it refers to how
the convex objects are built.
-/

set_option linter.unusedSectionVars false
set_option linter.unusedVariables false

namespace Verif.Sco

open Verif.Bounds (Ext)

universe u
variable {K : Type u} [Field K] [LinearOrder K] [IsStrictOrderedRing K]

/-- Specification: a number respects a pair of bounds. -/
def Within (b : Ext K × Ext K) (a : K) : Prop :=
  (match b.1 with | .negInf => True | .fin l => l ≤ a | .posInf => False) ∧
  (match b.2 with | .negInf => False | .fin u => a ≤ u | .posInf => True)

/-- Specification: a point satisfies a constraint (equality to zero, or at most zero). -/
def Satisfies (c : AffExpr K Nat × Bool) (y : Nat → K) : Prop :=
  if c.2 then affDen c.1 y = 0 else affDen c.1 y ≤ 0

/-- Specification: `y` extends `x` and is feasible for everything that was added to the model after its
first `n0` variables and `c0` constraints. -/
structure Extends (m : OModel K) (n0 c0 : Nat) (x y : Nat → K) : Prop where
  agree : ∀ id < n0, y id = x id
  bounds : ∀ q ∈ m.vars.live, n0 ≤ q.1 → Within q.2 (y q.1)
  cnts : ∀ q ∈ m.cnts.live, c0 ≤ q.1 → Satisfies q.2 y

/-- Specification: minimum over the added variables. -/
def PartialMin (m : OModel K) (n0 c0 : Nat) (q : QuadExpr K Nat) (x : Nat → K) (v : K) : Prop :=
  (∀ y, Extends m n0 c0 x y → v ≤ quadDen q y) ∧ ∃ y, Extends m n0 c0 x y ∧ quadDen q y = v

/-- The expression mentions only variables below `n`. -/
def AffExpr.Below (n : Nat) (e : AffExpr K Nat) : Prop := ∀ t ∈ e.terms, t.2 < n
/-- The expression mentions only variables below `n`. -/
def QuadExpr.Below (n : Nat) (q : QuadExpr K Nat) : Prop :=
  q.aff.Below n ∧ ∀ t ∈ q.terms, t.2.1 < n ∧ t.2.2 < n

theorem AffExpr.Below.mono {n m : Nat} {e : AffExpr K Nat} (h : e.Below n) (hm : n ≤ m) : e.Below m :=
  fun t ht => lt_of_lt_of_le (h t ht) hm
theorem QuadExpr.Below.mono {n m : Nat} {e : QuadExpr K Nat} (h : e.Below n) (hm : n ≤ m) : e.Below m :=
  ⟨h.1.mono hm, fun t ht => ⟨lt_of_lt_of_le (h.2 t ht).1 hm, lt_of_lt_of_le (h.2 t ht).2 hm⟩⟩

theorem affDen_congr {n : Nat} {e : AffExpr K Nat} (h : e.Below n) {x y : Nat → K}
    (hxy : ∀ id < n, y id = x id) : affDen e y = affDen e x := by
  simp only [affDen, linDen]
  congr 2
  apply List.map_congr_left
  intro t ht
  rw [hxy _ (h t ht)]

theorem quadDen_congr {n : Nat} {q : QuadExpr K Nat} (h : q.Below n) {x y : Nat → K}
    (hxy : ∀ id < n, y id = x id) : quadDen q y = quadDen q x := by
  simp only [quadDen, affDen_congr h.1 hxy, quadTermsDen]
  congr 2
  apply List.map_congr_left
  intro t ht
  rw [hxy _ (h.2 t ht).1, hxy _ (h.2 t ht).2]

theorem live_lt {P : Type u} {s : Store P} (h : s.Inv) {q : Nat × P} (hq : q ∈ s.live) :
    q.1 < s.reps.length := by
  obtain ⟨k, r, _, h2, _, _⟩ := Store.live_mem h (show (q.1, q.2) ∈ s.live from hq)
  by_contra hc; rw [List.getElem?_eq_none (not_lt.mp hc)] at h2; cases h2

theorem addVar_spec {m : OModel K} (h : m.vars.Inv) (lb ub : Ext K) :
    ∃ m', m.addVar lb ub = some (m', m.vars.reps.length) ∧ m'.vars.Inv ∧
      m'.vars.live = m.vars.live ++ [(m.vars.reps.length, (lb, ub))] ∧
      m'.vars.reps.length = m.vars.reps.length + 1 ∧ m'.cnts = m.cnts ∧ m'.obj = m.obj := by
  have hinv := Store.add_inv h (Ext.fin (-osqpInfty (K := K)), Ext.fin (osqpInfty (K := K)))
  have hlive := Store.add_live h (Ext.fin (-osqpInfty (K := K)), Ext.fin (osqpInfty (K := K)))
  obtain ⟨s', h1, h2, h3, h4⟩ := Store.setAt_live hinv (id := m.vars.reps.length)
    (p0 := (Ext.fin (-osqpInfty (K := K)), Ext.fin (osqpInfty (K := K)))) (by rw [hlive]; simp) (lb, ub)
  refine ⟨{ m with vars := s' }, ?_, h2, ?_, ?_, rfl, rfl⟩
  · simp only [OModel.addVar, Store.add_snd, h1]
  · show s'.live = _
    rw [h4, hlive, List.map_append]
    congr 1
    · conv_rhs => rw [← List.map_id m.vars.live]
      apply List.map_congr_left
      intro q hq
      have := live_lt h hq
      simp [Nat.ne_of_lt this]
    · simp
  · show s'.reps.length = _
    rw [h3]; simp [Store.add]

/-- State of the construction of one objective. -/
abbrev BState (K : Type u) := OModel K × ConvexObjective K

theorem addHinge_eq {s : BState K} {m : OModel K} {n : Nat} (hin : s.2.inModel = true)
    (h1 : s.1.addVar (Ext.fin 0) Ext.posInf = some (m, n)) (e : AffExpr K Nat) (c : K) :
    ConvexObjective.addHinge s e c = some (m, { s.2 with
        vars := s.2.vars ++ [n]
        ineqs := s.2.ineqs ++ [e.decVar n]
        quad := s.2.quad.incAff ((AffExpr.ofVar n).scale c) }) := by
  simp only [ConvexObjective.addHinge, hin, if_true, h1]

theorem addAbs_eq {s : BState K} {m m1 : OModel K} {n n' : Nat} (hin : s.2.inModel = true)
    (h1 : s.1.addVar (Ext.fin 0) Ext.posInf = some (m1, n))
    (h2 : m1.addVar (Ext.fin 0) Ext.posInf = some (m, n')) (e : AffExpr K Nat) (c : K) :
    ConvexObjective.addAbs s e c = some (m, { s.2 with
          vars := s.2.vars ++ [n, n']
          quad := s.2.quad.incAff ⟨0, [(c, n), (c, n')]⟩
          eqs := s.2.eqs ++ [⟨e.constant, e.terms ++ [(1, n), (-1, n')]⟩] }) := by
  simp only [ConvexObjective.addAbs, hin, if_true, h1, h2]

theorem addMax_eq {s : BState K} {m : OModel K} {n : Nat} (hin : s.2.inModel = true)
    (h1 : s.1.addVar Ext.negInf Ext.posInf = some (m, n)) (es : List (AffExpr K Nat)) :
    ConvexObjective.addMax s es =
      some (m, { s.2 with ineqs := s.2.ineqs ++ es.map fun e => e.decVar n }) := by
  simp only [ConvexObjective.addMax, hin, if_true, h1]

theorem addConstraints_eq {s : BState K} (hin : s.2.inModel = true) :
    ConvexObjective.addConstraintsToModel s =
      some ((addCnts false (addCnts true (s.1, s.2.cnts) s.2.eqs) s.2.ineqs).1,
        { s.2 with cnts := (addCnts false (addCnts true (s.1, s.2.cnts) s.2.eqs) s.2.ineqs).2 }) := by
  simp only [ConvexObjective.addConstraintsToModel, hin, if_true]

/-- Invariant of the construction. -/
structure BInv (n0 : Nat) (m0 : OModel K) (s : BState K) : Prop where
  inModel : s.2.inModel = true
  cntHandles : s.2.cnts = []
  vinv : s.1.vars.Inv
  cnts : s.1.cnts = m0.cnts
  nle : n0 ≤ s.1.vars.reps.length
  eqsB : ∀ e ∈ s.2.eqs, e.Below s.1.vars.reps.length
  ineqsB : ∀ e ∈ s.2.ineqs, e.Below s.1.vars.reps.length
  quadB : s.2.quad.Below s.1.vars.reps.length

/-- `y` extends `x` and satisfies bounds and the not yet added constraints of the objective. -/
structure BExt (n0 : Nat) (s : BState K) (x y : Nat → K) : Prop where
  agree : ∀ id < n0, y id = x id
  bounds : ∀ q ∈ s.1.vars.live, n0 ≤ q.1 → Within q.2 (y q.1)
  eqs : ∀ e ∈ s.2.eqs, affDen e y = 0
  ineqs : ∀ e ∈ s.2.ineqs, affDen e y ≤ 0

/-- Minimum over the added variables during construction. -/
def BMin (n0 : Nat) (s : BState K) (x : Nat → K) (v : K) : Prop :=
  (∀ y, BExt n0 s x y → v ≤ quadDen s.2.quad y) ∧ ∃ y, BExt n0 s x y ∧ quadDen s.2.quad y = v

/-- A building step adds the given cost to the partial minimum. -/
def Good (n0 : Nat) (m0 : OModel K) (F : BState K → Option (BState K)) (cost : (Nat → K) → K) : Prop :=
  ∀ s, BInv n0 m0 s → ∃ s', F s = some s' ∧ BInv n0 m0 s' ∧
    ∀ x v, BMin n0 s x v → BMin n0 s' x (v + cost x)

theorem quadDen_incAff (q : QuadExpr K Nat) (e : AffExpr K Nat) (y : Nat → K) :
    quadDen (q.incAff e) y = quadDen q y + affDen e y := by
  rw [← C01_quad_value, ← C01_quad_value, ← C01_aff_value]
  exact (C01_inc e e q q 0 0 y).2.2.2.2.2.1

theorem quadDen_inc (q p : QuadExpr K Nat) (y : Nat → K) :
    quadDen (q.inc p) y = quadDen q y + quadDen p y := by
  rw [← C01_quad_value, ← C01_quad_value, ← C01_quad_value]
  exact (C01_inc p.aff p.aff q p 0 0 y).2.2.2.2.2.2

theorem good_quad {n0 : Nat} {m0 : OModel K} {p : QuadExpr K Nat} (hp : p.Below n0) :
    Good n0 m0 (fun s => some (s.1, s.2.addQuadExpr p)) (quadDen p) := by
  intro s h
  refine ⟨_, rfl, ⟨h.inModel, h.cntHandles, h.vinv, h.cnts, h.nle, h.eqsB, h.ineqsB, ?_⟩, ?_⟩
  · refine ⟨?_, ?_⟩
    · intro t ht
      simp only [ConvexObjective.addQuadExpr, QuadExpr.inc, AffExpr.inc, List.mem_append] at ht
      rcases ht with ht | ht
      · exact h.quadB.1 t ht
      · exact (hp.mono h.nle).1 t ht
    · intro t ht
      simp only [ConvexObjective.addQuadExpr, QuadExpr.inc, List.mem_append] at ht
      rcases ht with ht | ht
      · exact h.quadB.2 t ht
      · exact (hp.mono h.nle).2 t ht
  · rintro x v ⟨hl, y0, hy0, he⟩
    refine ⟨?_, y0, ⟨hy0.agree, hy0.bounds, hy0.eqs, hy0.ineqs⟩, ?_⟩
    · intro y hy
      have := hl y ⟨hy.agree, hy.bounds, hy.eqs, hy.ineqs⟩
      simp only [ConvexObjective.addQuadExpr, quadDen_inc, quadDen_congr hp hy.agree]
      linarith
    · simp only [ConvexObjective.addQuadExpr, quadDen_inc, quadDen_congr hp hy0.agree, he]

theorem ofAff_below {n : Nat} {e : AffExpr K Nat} (h : e.Below n) : (QuadExpr.ofAff e).Below n :=
  ⟨h, by simp [QuadExpr.ofAff]⟩

theorem addAff_eq (o : ConvexObjective K) (e : AffExpr K Nat) :
    o.addAffExpr e = o.addQuadExpr (QuadExpr.ofAff e) := by
  simp [ConvexObjective.addAffExpr, ConvexObjective.addQuadExpr, QuadExpr.incAff, QuadExpr.inc,
    QuadExpr.ofAff]

theorem quadDen_ofAff (e : AffExpr K Nat) (y : Nat → K) : quadDen (QuadExpr.ofAff e) y = affDen e y := by
  simp [quadDen, QuadExpr.ofAff]

theorem good_aff {n0 : Nat} {m0 : OModel K} {e : AffExpr K Nat} (he : e.Below n0) :
    Good n0 m0 (fun s => some (s.1, s.2.addAffExpr e)) (affDen e) := by
  have := good_quad (m0 := m0) (ofAff_below he)
  simp only [← addAff_eq] at this
  intro s h
  obtain ⟨s', h1, h2, h3⟩ := this s h
  refine ⟨s', h1, h2, fun x v hv => ?_⟩
  have := h3 x v hv
  rwa [quadDen_ofAff] at this

theorem below_append_var {n : Nat} {e : AffExpr K Nat} (h : e.Below n) (l : List (K × Nat)) (c : K)
    (m : Nat) (hn : n ≤ m) (hl : ∀ t ∈ l, t.2 < m) : AffExpr.Below m (⟨c, e.terms ++ l⟩ : AffExpr K Nat) := by
  intro t ht
  simp only [List.mem_append] at ht
  rcases ht with ht | ht
  · exact lt_of_lt_of_le (h t ht) hn
  · exact hl t ht

theorem affDen_decVar (e : AffExpr K Nat) (h : Nat) (y : Nat → K) :
    affDen (e.decVar h) y = affDen e y - y h := by
  rw [← C01_aff_value, ← C01_aff_value]
  exact (C01_dec e e QuadExpr.zero QuadExpr.zero 0 h y).2.2.1

theorem affDen_scaleVar (h : Nat) (c : K) (y : Nat → K) :
    affDen ((AffExpr.ofVar h).scale c : AffExpr K Nat) y = c * y h := by
  simp [affDen, linDen, AffExpr.scale, AffExpr.ofVar]

/-- updating a fresh variable keeps a partial solution valid -/
theorem ext_update {n0 : Nat} {s : BState K} {m0 : OModel K} (h : BInv n0 m0 s) {x y y' : Nat → K}
    (hy : BExt n0 s x y) (hy' : ∀ id < s.1.vars.reps.length, y' id = y id) : BExt n0 s x y' := by
  refine ⟨fun id hid => ?_, fun q hq hn => ?_, fun e he => ?_, fun e he => ?_⟩
  · rw [hy' id (lt_of_lt_of_le hid h.nle), hy.agree id hid]
  · rw [hy' _ (live_lt h.vinv hq)]; exact hy.bounds q hq hn
  · rw [affDen_congr (h.eqsB e he) hy']; exact hy.eqs e he
  · rw [affDen_congr (h.ineqsB e he) hy']; exact hy.ineqs e he

theorem good_hinge {n0 : Nat} {m0 : OModel K} {e : AffExpr K Nat} (he : e.Below n0) {c : K} (hc : 0 ≤ c) :
    Good n0 m0 (fun s => ConvexObjective.addHinge s e c) (fun x => c * max 0 (affDen e x)) := by
  intro s h
  obtain ⟨m', h1, h2, h3, h4, h5, _⟩ := addVar_spec h.vinv (Ext.fin 0) Ext.posInf
  refine ⟨_, addHinge_eq h.inModel h1 e c, ?_, ?_⟩
  · refine ⟨h.inModel, h.cntHandles, h2, h5.trans h.cnts, ?_, ?_, ?_, ?_⟩
    · show n0 ≤ m'.vars.reps.length
      rw [h4]; exact le_trans h.nle (Nat.le_succ _)
    · intro a ha
      exact (h.eqsB a ha).mono (by show _ ≤ m'.vars.reps.length; rw [h4]; exact Nat.le_succ _)
    · intro a ha
      show a.Below m'.vars.reps.length
      rw [h4]
      simp only [List.mem_append, List.mem_singleton] at ha
      rcases ha with ha | ha
      · exact (h.ineqsB a ha).mono (Nat.le_succ _)
      · subst ha
        apply below_append_var he _ _ _ (le_trans h.nle (Nat.le_succ _))
        intro t ht
        simp [AffExpr.scale, AffExpr.ofVar] at ht
        rw [ht]; exact Nat.lt_succ_self _
    · show QuadExpr.Below m'.vars.reps.length _
      rw [h4]
      refine ⟨?_, ?_⟩
      · apply below_append_var h.quadB.1 _ _ _ (Nat.le_succ _)
        intro t ht
        simp [AffExpr.scale, AffExpr.ofVar] at ht
        rw [ht]; exact Nat.lt_succ_self _
      · exact fun t ht => (h.quadB.mono (Nat.le_succ _)).2 t ht
  · rintro x v ⟨hl, y0, hy0, hv⟩
    refine ⟨?_, ?_⟩
    · intro y hy
      have hb := hy.bounds (s.1.vars.reps.length, (Ext.fin 0, Ext.posInf)) (by
        show _ ∈ m'.vars.live; rw [h3]; simp) h.nle
      have hi := hy.ineqs (e.decVar s.1.vars.reps.length) (by simp)
      rw [affDen_decVar, affDen_congr he hy.agree] at hi
      have hold := hl y ⟨hy.agree, fun q hq hn => hy.bounds q (by
        show _ ∈ m'.vars.live; rw [h3]; simp [hq]) hn, hy.eqs, fun a ha => hy.ineqs a (by simp [ha])⟩
      have h0 : 0 ≤ y s.1.vars.reps.length := hb.1
      have hm : max 0 (affDen e x) ≤ y s.1.vars.reps.length := max_le h0 (by linarith)
      simp only [quadDen_incAff, affDen_scaleVar]
      have := mul_le_mul_of_nonneg_left hm hc
      linarith
    · set y' : Nat → K := fun id => if id = s.1.vars.reps.length then max 0 (affDen e x) else y0 id with hy'
      have hlt : ∀ id < s.1.vars.reps.length, y' id = y0 id := fun id hid => by
        simp [hy', Nat.ne_of_lt hid]
      have hext := ext_update h hy0 hlt
      have hnew : y' s.1.vars.reps.length = max 0 (affDen e x) := by simp [hy']
      refine ⟨y', ⟨hext.agree, ?_, hext.eqs, ?_⟩, ?_⟩
      · intro q hq hn
        have hq' : q ∈ m'.vars.live := hq
        rw [h3] at hq'
        simp only [List.mem_append, List.mem_singleton] at hq'
        rcases hq' with hq' | hq'
        · exact hext.bounds q hq' hn
        · subst hq'
          exact ⟨by rw [hnew]; exact le_max_left _ _, trivial⟩
      · intro a ha
        simp only [List.mem_append, List.mem_singleton] at ha
        rcases ha with ha | ha
        · exact hext.ineqs a ha
        · subst ha
          rw [affDen_decVar, affDen_congr he hext.agree, hnew]
          linarith [le_max_right 0 (affDen e x)]
      · simp only [quadDen_incAff, affDen_scaleVar, hnew]
        rw [quadDen_congr h.quadB hlt, hv]

theorem good_abs {n0 : Nat} {m0 : OModel K} {e : AffExpr K Nat} (he : e.Below n0) {c : K} (hc : 0 ≤ c) :
    Good n0 m0 (fun s => ConvexObjective.addAbs s e c) (fun x => c * |affDen e x|) := by
  intro s h
  obtain ⟨m1, h1, h2, h3, h4, h5, _⟩ := addVar_spec h.vinv (Ext.fin 0) Ext.posInf
  obtain ⟨m2, g1, g2, g3, g4, g5, _⟩ := addVar_spec h2 (Ext.fin 0) Ext.posInf
  rw [h4] at g1 g3 g4
  rw [h3] at g3
  set n := s.1.vars.reps.length with hn
  refine ⟨_, addAbs_eq h.inModel h1 g1 e c, ?_, ?_⟩
  · refine ⟨h.inModel, h.cntHandles, g2, (g5.trans h5).trans h.cnts, ?_, ?_, ?_, ?_⟩
    · show n0 ≤ m2.vars.reps.length
      rw [g4]; have := h.nle; omega
    · intro a ha
      show a.Below m2.vars.reps.length
      rw [g4]
      simp only [List.mem_append, List.mem_singleton] at ha
      rcases ha with ha | ha
      · exact (h.eqsB a ha).mono (by omega)
      · subst ha
        apply below_append_var he _ _ _ (by have := h.nle; omega)
        intro t ht
        simp at ht
        rcases ht with ht | ht <;> rw [ht] <;> simp only <;> omega
    · intro a ha
      show a.Below m2.vars.reps.length
      rw [g4]
      exact (h.ineqsB a ha).mono (by omega)
    · show QuadExpr.Below m2.vars.reps.length _
      rw [g4]
      refine ⟨?_, ?_⟩
      · apply below_append_var h.quadB.1 _ _ _ (by omega)
        intro t ht
        simp at ht
        rcases ht with ht | ht <;> rw [ht] <;> simp only <;> omega
      · exact fun t ht => (h.quadB.mono (by omega)).2 t ht
  · have hquad : ∀ y : Nat → K, quadDen (s.2.quad.incAff ⟨0, [(c, n), (c, n + 1)]⟩) y =
        quadDen s.2.quad y + c * (y n + y (n + 1)) := by
      intro y; rw [quadDen_incAff]; simp [affDen, linDen]; ring
    have heq : ∀ y : Nat → K, affDen (⟨e.constant, e.terms ++ [(1, n), (-1, n + 1)]⟩ : AffExpr K Nat) y =
        affDen e y + y n - y (n + 1) := by
      intro y; simp [affDen]; ring
    rintro x v ⟨hl, y0, hy0, hv⟩
    refine ⟨?_, ?_⟩
    · intro y hy
      have hbn := hy.bounds (n, (Ext.fin 0, Ext.posInf)) (by
        show _ ∈ m2.vars.live; rw [g3]; simp) h.nle
      have hbp := hy.bounds (n + 1, (Ext.fin 0, Ext.posInf)) (by
        show _ ∈ m2.vars.live; rw [g3]; simp) (by have := h.nle; show n0 ≤ n + 1; omega)
      have hi := hy.eqs ⟨e.constant, e.terms ++ [(1, n), (-1, n + 1)]⟩ (by simp)
      rw [heq, affDen_congr he hy.agree] at hi
      have hold := hl y ⟨hy.agree, fun q hq hn => hy.bounds q (by
        show _ ∈ m2.vars.live; rw [g3]; simp [hq]) hn, fun a ha => hy.eqs a (by simp [ha]), hy.ineqs⟩
      have h0 : 0 ≤ y n := hbn.1
      have h0' : 0 ≤ y (n + 1) := hbp.1
      have hm : |affDen e x| ≤ y n + y (n + 1) := abs_le.2 ⟨by linarith, by linarith⟩
      simp only [hquad]
      have := mul_le_mul_of_nonneg_left hm hc
      linarith
    · set y' : Nat → K := fun id => if id = n then max 0 (-affDen e x) else
        if id = n + 1 then max 0 (affDen e x) else y0 id with hy'
      have hlt : ∀ id < n, y' id = y0 id := fun id hid => by
        have h1 : id ≠ n := by omega
        have h2 : id ≠ n + 1 := by omega
        simp [hy', h1, h2]
      have hext := ext_update h hy0 hlt
      have hneg : y' n = max 0 (-affDen e x) := by simp [hy']
      have hpos : y' (n + 1) = max 0 (affDen e x) := by simp [hy']
      have hdiff : max 0 (affDen e x) - max 0 (-affDen e x) = affDen e x := by
        rcases le_total 0 (affDen e x) with h | h
        · rw [max_eq_right h, max_eq_left (by linarith)]; ring
        · rw [max_eq_left h, max_eq_right (by linarith)]; ring
      have hsum : max 0 (-affDen e x) + max 0 (affDen e x) = |affDen e x| := by
        rcases le_total 0 (affDen e x) with h | h
        · rw [max_eq_right h, max_eq_left (by linarith), abs_of_nonneg h]; ring
        · rw [max_eq_left h, max_eq_right (by linarith), abs_of_nonpos h]; ring
      refine ⟨y', ⟨hext.agree, ?_, ?_, hext.ineqs⟩, ?_⟩
      · intro q hq hn
        have hq' : q ∈ m2.vars.live := hq
        rw [g3] at hq'
        simp only [List.mem_append, List.mem_singleton] at hq'
        rcases hq' with (hq' | hq') | hq'
        · exact hext.bounds q hq' hn
        · subst hq'
          exact ⟨by rw [hneg]; exact le_max_left _ _, trivial⟩
        · subst hq'
          exact ⟨by rw [hpos]; exact le_max_left _ _, trivial⟩
      · intro a ha
        simp only [List.mem_append, List.mem_singleton] at ha
        rcases ha with ha | ha
        · exact hext.eqs a ha
        · subst ha
          rw [heq, affDen_congr he hext.agree, hneg, hpos]
          linarith
      · simp only [hquad, hneg, hpos, hsum]
        rw [quadDen_congr h.quadB hlt, hv]

/-- `addMax` adds nothing to the minimum (see C09). -/
theorem good_max {n0 : Nat} {m0 : OModel K} {es : List (AffExpr K Nat)} (hes : ∀ e ∈ es, e.Below n0) :
    Good n0 m0 (fun s => ConvexObjective.addMax s es) (fun _ => 0) := by
  intro s h
  obtain ⟨m', h1, h2, h3, h4, h5, _⟩ := addVar_spec h.vinv Ext.negInf Ext.posInf
  set n := s.1.vars.reps.length with hn
  refine ⟨_, addMax_eq h.inModel h1 es, ?_, ?_⟩
  · refine ⟨h.inModel, h.cntHandles, h2, h5.trans h.cnts, ?_, ?_, ?_, ?_⟩
    · show n0 ≤ m'.vars.reps.length
      rw [h4]; exact le_trans h.nle (Nat.le_succ _)
    · intro a ha
      exact (h.eqsB a ha).mono (by show _ ≤ m'.vars.reps.length; rw [h4]; exact Nat.le_succ _)
    · intro a ha
      show a.Below m'.vars.reps.length
      rw [h4]
      simp only [List.mem_append, List.mem_map] at ha
      rcases ha with ha | ⟨e, he, rfl⟩
      · exact (h.ineqsB a ha).mono (Nat.le_succ _)
      · apply below_append_var (hes e he) _ _ _ (le_trans h.nle (Nat.le_succ _))
        intro t ht
        simp [AffExpr.scale, AffExpr.ofVar] at ht
        rw [ht]; exact Nat.lt_succ_self _
    · show QuadExpr.Below m'.vars.reps.length _
      rw [h4]; exact h.quadB.mono (Nat.le_succ _)
  · rintro x v ⟨hl, y0, hy0, hv⟩
    refine ⟨?_, ?_⟩
    · intro y hy
      have hold := hl y ⟨hy.agree, fun q hq hn => hy.bounds q (by
        show _ ∈ m'.vars.live; rw [h3]; simp [hq]) hn, hy.eqs, fun a ha => hy.ineqs a (by simp [ha])⟩
      simpa using hold
    · set M : K := (es.map fun e => max 0 (affDen e x)).sum with hM
      have hle : ∀ e ∈ es, affDen e x ≤ M := by
        intro e he
        have : max 0 (affDen e x) ≤ M := by
          apply List.single_le_sum
          · intro a ha
            obtain ⟨e', _, rfl⟩ := List.mem_map.1 ha
            exact le_max_left _ _
          · exact List.mem_map_of_mem he
        exact le_trans (le_max_right _ _) this
      set y' : Nat → K := fun id => if id = n then M else y0 id with hy'
      have hlt : ∀ id < n, y' id = y0 id := fun id hid => by simp [hy', Nat.ne_of_lt hid]
      have hext := ext_update h hy0 hlt
      have hnew : y' n = M := by simp [hy']
      refine ⟨y', ⟨hext.agree, ?_, hext.eqs, ?_⟩, ?_⟩
      · intro q hq hn
        have hq' : q ∈ m'.vars.live := hq
        rw [h3] at hq'
        simp only [List.mem_append, List.mem_singleton] at hq'
        rcases hq' with hq' | hq'
        · exact hext.bounds q hq' hn
        · subst hq'
          exact ⟨trivial, trivial⟩
      · intro a ha
        simp only [List.mem_append, List.mem_map] at ha
        rcases ha with ha | ⟨e, he, rfl⟩
        · exact hext.ineqs a ha
        · rw [affDen_decVar, affDen_congr (hes e he) hext.agree, hnew]
          linarith [hle e he]
      · simp only [add_zero]
        rw [quadDen_congr h.quadB hlt, hv]

theorem good_foldlM {α : Type u} {n0 : Nat} {m0 : OModel K} (F : BState K → α → Option (BState K))
    (cost : α → (Nat → K) → K) (l : List α) (hF : ∀ a ∈ l, Good n0 m0 (fun s => F s a) (cost a)) :
    Good n0 m0 (fun s => l.foldlM F s) (fun x => (l.map fun a => cost a x).sum) := by
  induction l with
  | nil =>
    intro s h
    exact ⟨s, rfl, h, fun x v hv => by simpa using hv⟩
  | cons a l ih =>
    intro s h
    obtain ⟨s1, h1, h2, h3⟩ := hF a (by simp) s h
    obtain ⟨s2, g1, g2, g3⟩ := ih (fun b hb => hF b (by simp [hb])) s1 h2
    refine ⟨s2, by simp only [List.foldlM_cons, h1]; exact g1, g2, fun x v hv => ?_⟩
    have := g3 x _ (h3 x v hv)
    simpa [add_assoc] using this

theorem square_below {n : Nat} {e : AffExpr K Nat} (h : e.Below n) : e.square.Below n := by
  refine ⟨?_, ?_⟩
  · intro t ht
    simp only [AffExpr.square, List.mem_map] at ht
    obtain ⟨a, ha, rfl⟩ := ht
    exact h a ha
  · have aux : ∀ l : List (K × Nat), (∀ t ∈ l, t.2 < n) → ∀ t ∈ squareTerms l, t.2.1 < n ∧ t.2.2 < n := by
      intro l
      induction l with
      | nil => intro _ t ht; simp [squareTerms] at ht
      | cons a l ih =>
        intro hl t ht
        simp only [squareTerms, List.cons_append, List.mem_cons, List.mem_append, List.mem_map] at ht
        rcases ht with rfl | ⟨b, hb, rfl⟩ | ht
        · exact ⟨hl a (by simp), hl a (by simp)⟩
        · exact ⟨hl a (by simp), hl b (by simp [hb])⟩
        · exact ih (fun t ht => hl t (by simp [ht])) t ht
    exact aux e.terms h

/-- `exprSquare` in terms of the specification. -/
theorem quadDen_square (e : AffExpr K Nat) (x : Nat → K) : quadDen e.square x = affDen e x * affDen e x := by
  simp only [quadDen, AffExpr.square, quadTermsDen_squareTerms, affDen]
  have : linDen (e.terms.map fun t => (2 * e.constant * t.1, t.2)) x = 2 * e.constant * linDen e.terms x :=
    linDen_mulLeft _ _ _
  rw [this]; ring

/-- Specification: the cost a building call is meant to add. -/
def BuildOp.cost : BuildOp K → (Nat → K) → K
  | .aff e, x => affDen e x
  | .quad q, x => quadDen q x
  | .hinge e c, x => c * Max.max 0 (affDen e x)
  | .abs e c, x => c * |affDen e x|
  | .hinges es, x => (es.map fun e => Max.max 0 (affDen e x)).sum
  | .l1 es, x => (es.map fun e => |affDen e x|).sum
  | .l2 es, x => (es.map fun e => affDen e x ^ 2).sum
  | .max _, _ => 0

/-- The expressions of a call mention existing variables only, and the coefficient is not negative. -/
def BuildOp.Ok (n0 : Nat) : BuildOp K → Prop
  | .aff e => e.Below n0
  | .quad q => q.Below n0
  | .hinge e c => e.Below n0 ∧ 0 ≤ c
  | .abs e c => e.Below n0 ∧ 0 ≤ c
  | .hinges es => ∀ e ∈ es, e.Below n0
  | .l1 es => ∀ e ∈ es, e.Below n0
  | .l2 es => ∀ e ∈ es, e.Below n0
  | .max es => ∀ e ∈ es, e.Below n0

theorem good_op {n0 : Nat} {m0 : OModel K} (op : BuildOp K) (h : op.Ok n0) :
    Good n0 m0 (fun s => op.run s) op.cost := by
  cases op with
  | aff e => exact good_aff h
  | quad q => exact good_quad h
  | hinge e c => exact good_hinge h.1 h.2
  | abs e c => exact good_abs h.1 h.2
  | hinges es =>
    have := good_foldlM (m0 := m0) (fun s e => ConvexObjective.addHinge s e 1)
      (fun e x => 1 * max 0 (affDen e x)) es fun e he => good_hinge (h e he) zero_le_one
    simp only [one_mul] at this
    exact this
  | l1 es =>
    have := good_foldlM (m0 := m0) (fun s e => ConvexObjective.addAbs s e 1)
      (fun e x => 1 * |affDen e x|) es fun e he => good_abs (h e he) zero_le_one
    simp only [one_mul] at this
    exact this
  | l2 es =>
    have := good_foldlM (m0 := m0) (fun s e => some (s.1, s.2.addQuadExpr e.square))
      (fun e x => quadDen e.square x) es fun e he => good_quad (square_below (h e he))
    intro s hs
    obtain ⟨s', h1, h2, h3⟩ := this s hs
    refine ⟨s', ?_, h2, ?_⟩
    · rw [← h1]
      show some (s.1, s.2.addL2Norm es) = _
      have aux : ∀ (l : List (AffExpr K Nat)) (s : BState K),
          l.foldlM (fun s e => some (s.1, s.2.addQuadExpr e.square)) s = some (s.1, s.2.addL2Norm l) := by
        intro l
        induction l with
        | nil => intro s; rfl
        | cons a l ih =>
          intro s
          rw [List.foldlM_cons]
          exact ih (s.1, s.2.addQuadExpr a.square)
      exact (aux es s).symm
    · intro x v hv
      have := h3 x v hv
      simp only [quadDen_square] at this
      simpa only [BuildOp.cost, pow_two] using this
  | max es => exact good_max h

theorem addCnts_spec (eq : Bool) (es : List (AffExpr K Nat)) (m : OModel K) (hs : List Nat)
    (hinv : m.cnts.Inv) :
    (addCnts eq (m, hs) es).1.vars = m.vars ∧ (addCnts eq (m, hs) es).1.obj = m.obj ∧
    (addCnts eq (m, hs) es).1.cnts.Inv ∧
    m.cnts.reps.length ≤ (addCnts eq (m, hs) es).1.cnts.reps.length ∧
    ∃ new, (addCnts eq (m, hs) es).1.cnts.live = m.cnts.live ++ new ∧
      new.map Prod.snd = es.map (fun e => (e, eq)) ∧
      (∀ q ∈ new, m.cnts.reps.length ≤ q.1) ∧
      (addCnts eq (m, hs) es).2 = hs ++ new.map Prod.fst := by
  induction es generalizing m hs with
  | nil => exact ⟨rfl, rfl, hinv, le_refl _, [], by simp [addCnts], rfl, by simp, by simp [addCnts]⟩
  | cons e es ih =>
    set m1 : OModel K := { m with cnts := (m.cnts.add (e, eq)).1 } with hm1
    have hstep : addCnts eq (m, hs) (e :: es) = addCnts eq (m1, hs ++ [m.cnts.reps.length]) es := by
      cases eq <;> rfl
    have hinv1 : m1.cnts.Inv := Store.add_inv hinv (e, eq)
    have hlive1 : m1.cnts.live = m.cnts.live ++ [(m.cnts.reps.length, (e, eq))] := Store.add_live hinv (e, eq)
    have hlen1 : m1.cnts.reps.length = m.cnts.reps.length + 1 := by simp [hm1, Store.add]
    obtain ⟨h1, h2, h3, h4, new, h5, h6, h7, h8⟩ := ih m1 (hs ++ [m.cnts.reps.length]) hinv1
    rw [hstep]
    refine ⟨h1, h2, h3, by omega, (m.cnts.reps.length, (e, eq)) :: new, ?_, ?_, ?_, ?_⟩
    · rw [h5, hlive1]; simp
    · simp [h6]
    · intro q hq
      simp only [List.mem_cons] at hq
      rcases hq with rfl | hq
      · exact le_refl _
      · have := h7 q hq; omega
    · rw [h8]; simp

/-- Finishing the construction: the constraints reach the model. -/
theorem finish {n0 : Nat} {m0 : OModel K} {s : BState K} (h : BInv n0 m0 s) (hc : m0.cnts.Inv) :
    ∃ s', ConvexObjective.addConstraintsToModel s = some s' ∧ s'.2.quad = s.2.quad ∧
      ∀ x v, BMin n0 s x v → PartialMin s'.1 n0 m0.cnts.reps.length s'.2.quad x v := by
  refine ⟨_, addConstraints_eq h.inModel, rfl, ?_⟩
  have hc' : s.1.cnts.Inv := by rw [h.cnts]; exact hc
  obtain ⟨a1, a2, a3, a4, new1, a5, a6, a7, a8⟩ := addCnts_spec true s.2.eqs s.1 s.2.cnts hc'
  set r1 := addCnts true (s.1, s.2.cnts) s.2.eqs with hr1
  obtain ⟨b1, b2, b3, b4, new2, b5, b6, b7, b8⟩ := addCnts_spec false s.2.ineqs r1.1 r1.2 a3
  have hext : ∀ x y, Extends (addCnts false r1 s.2.ineqs).1 n0 m0.cnts.reps.length x y ↔ BExt n0 s x y := by
    intro x y
    have hvars : (addCnts false r1 s.2.ineqs).1.vars = s.1.vars := b1.trans a1
    have hlive : (addCnts false r1 s.2.ineqs).1.cnts.live = m0.cnts.live ++ new1 ++ new2 := by
      rw [show addCnts false r1 s.2.ineqs = addCnts false (r1.1, r1.2) s.2.ineqs from rfl, b5, a5, h.cnts]
    constructor
    · rintro ⟨e1, e2, e3⟩
      rw [hvars] at e2
      rw [hlive] at e3
      refine ⟨e1, e2, ?_, ?_⟩
      · intro e he
        have : (e, true) ∈ new1.map Prod.snd := by rw [a6]; exact List.mem_map.2 ⟨e, he, rfl⟩
        obtain ⟨q, hq, hqe⟩ := List.mem_map.1 this
        have := e3 q (by simp [hq]) (by have := a7 q hq; rw [h.cnts] at this; exact this)
        simpa [Satisfies, hqe] using this
      · intro e he
        have : (e, false) ∈ new2.map Prod.snd := by rw [b6]; exact List.mem_map.2 ⟨e, he, rfl⟩
        obtain ⟨q, hq, hqe⟩ := List.mem_map.1 this
        have := e3 q (by simp [hq]) (by
          have h1 := b7 q hq; have h2 := a4; rw [h.cnts] at h2; omega)
        simpa [Satisfies, hqe] using this
    · rintro ⟨e1, e2, e3, e4⟩
      refine ⟨e1, by rw [hvars]; exact e2, ?_⟩
      rw [hlive]
      intro q hq hle
      simp only [List.mem_append] at hq
      rcases hq with (hq | hq) | hq
      · have := live_lt hc hq; omega
      · have : q.2 ∈ new1.map Prod.snd := List.mem_map_of_mem hq
        rw [a6] at this
        obtain ⟨e, he, hqe⟩ := List.mem_map.1 this
        rw [← hqe]
        simpa [Satisfies] using e3 e he
      · have : q.2 ∈ new2.map Prod.snd := List.mem_map_of_mem hq
        rw [b6] at this
        obtain ⟨e, he, hqe⟩ := List.mem_map.1 this
        rw [← hqe]
        simpa [Satisfies] using e4 e he
  rintro x v ⟨hl, y, hy, he⟩
  exact ⟨fun y hy => hl y ((hext x y).1 hy), y, (hext x y).2 hy, he⟩

theorem new_inv {m : OModel K} (hv : m.vars.Inv) :
    BInv m.vars.reps.length m (m, ConvexObjective.new) := by
  refine ⟨rfl, rfl, hv, rfl, le_refl _, by simp [ConvexObjective.new], by simp [ConvexObjective.new], ?_⟩
  exact ⟨by simp [ConvexObjective.new, QuadExpr.zero, AffExpr.zero, AffExpr.Below],
    by simp [ConvexObjective.new, QuadExpr.zero]⟩

theorem new_min {m : OModel K} (hv : m.vars.Inv) (x : Nat → K) :
    BMin m.vars.reps.length (m, ConvexObjective.new) x 0 := by
  have h0 : ∀ y : Nat → K, quadDen (QuadExpr.zero : QuadExpr K Nat) y = 0 := by
    intro y; simp [quadDen, affDen, QuadExpr.zero, AffExpr.zero]
  refine ⟨fun y _ => le_of_eq (h0 y).symm, x, ⟨fun _ _ => rfl, ?_, ?_, ?_⟩, h0 x⟩
  · intro q hq hn
    have := live_lt hv hq
    omega
  · simp [ConvexObjective.new]
  · simp [ConvexObjective.new]

theorem program {m : OModel K} (hv : m.vars.Inv) (hc : m.cnts.Inv) {F : BState K → Option (BState K)}
    {cost : (Nat → K) → K} (hF : Good m.vars.reps.length m F cost) :
    ∃ s s', F (m, ConvexObjective.new) = some s ∧ ConvexObjective.addConstraintsToModel s = some s' ∧
      ∀ x, PartialMin s'.1 m.vars.reps.length m.cnts.reps.length s'.2.quad x (cost x) := by
  obtain ⟨s, h1, h2, h3⟩ := hF _ (new_inv hv)
  obtain ⟨s', g1, g2, g3⟩ := finish h2 hc
  refine ⟨s, s', h1, g1, fun x => g3 x _ ?_⟩
  have := h3 x 0 (new_min hv x)
  simpa using this

/-- C07: after `addHinge(e, c)` with `c >= 0`, for every point `x` of the existing variables the minimum of
the objective over the auxiliary variable, subject to the bounds and constraints added to the model, is
`c * max(0, e(x))`, and it is attained. -/
theorem C07_hinge (m : OModel K) (hv : m.vars.Inv) (hc : m.cnts.Inv) (e : AffExpr K Nat)
    (he : e.Below m.vars.reps.length) (c : K) (h0 : 0 ≤ c) :
    ∃ s s', ConvexObjective.addHinge (m, ConvexObjective.new) e c = some s ∧
      ConvexObjective.addConstraintsToModel s = some s' ∧
      ∀ x, PartialMin s'.1 m.vars.reps.length m.cnts.reps.length s'.2.quad x (c * max 0 (affDen e x)) :=
  program hv hc (good_hinge he h0)

/-- C08: after `addAbs(e, c)` with `c >= 0` the minimum over the two auxiliary variables is `c * |e(x)|`. -/
theorem C08_abs (m : OModel K) (hv : m.vars.Inv) (hc : m.cnts.Inv) (e : AffExpr K Nat)
    (he : e.Below m.vars.reps.length) (c : K) (h0 : 0 ≤ c) :
    ∃ s s', ConvexObjective.addAbs (m, ConvexObjective.new) e c = some s ∧
      ConvexObjective.addConstraintsToModel s = some s' ∧
      ∀ x, PartialMin s'.1 m.vars.reps.length m.cnts.reps.length s'.2.quad x (c * |affDen e x|) :=
  program hv hc (good_abs he h0)

/-- C08: `addL1Norm` gives the sum of absolute values. -/
theorem C08_l1 (m : OModel K) (hv : m.vars.Inv) (hc : m.cnts.Inv) (es : List (AffExpr K Nat))
    (hes : ∀ e ∈ es, e.Below m.vars.reps.length) :
    ∃ s s', ConvexObjective.addL1Norm (m, ConvexObjective.new) es = some s ∧
      ConvexObjective.addConstraintsToModel s = some s' ∧
      ∀ x, PartialMin s'.1 m.vars.reps.length m.cnts.reps.length s'.2.quad x
        ((es.map fun e => |affDen e x|).sum) :=
  program hv hc (good_op (.l1 es) hes)

/-- C08: `addL2Norm` adds the sum of squares (and no auxiliary variable). -/
theorem C08_l2 (o : ConvexObjective K) (es : List (AffExpr K Nat)) (x : Nat → K) :
    (o.addL2Norm es).value x = o.value x + (es.map fun e => affDen e x ^ 2).sum ∧
      (o.addL2Norm es).vars = o.vars := by
  induction es generalizing o with
  | nil => simp [ConvexObjective.addL2Norm]
  | cons e es ih =>
    obtain ⟨h1, h2⟩ := ih { o with quad := o.quad.inc e.square }
    refine ⟨?_, h2⟩
    show (ConvexObjective.addL2Norm { o with quad := o.quad.inc e.square } es).value x = _
    rw [h1]
    simp only [ConvexObjective.value, C01_quad_value, quadDen_inc, quadDen_square, List.map_cons,
      List.sum_cons]
    ring

/-- C07/C08 for whole objectives: any sequence of building calls with non-negative coefficients on
expressions over existing variables gives an objective whose minimum over the auxiliary variables is the
sum of the intended costs (with `addMax` counting for nothing, see C09). -/
theorem C07_program (m : OModel K) (hv : m.vars.Inv) (hc : m.cnts.Inv) (ops : List (BuildOp K))
    (hops : ∀ op ∈ ops, op.Ok m.vars.reps.length) :
    ∃ s s', ops.foldlM BuildOp.run (m, ConvexObjective.new) = some s ∧
      ConvexObjective.addConstraintsToModel s = some s' ∧
      ∀ x, PartialMin s'.1 m.vars.reps.length m.cnts.reps.length s'.2.quad x
        ((ops.map fun op => op.cost x).sum) :=
  program hv hc (good_foldlM BuildOp.run BuildOp.cost ops fun op h => good_op op (hops op h))

/-- non-vacuity for C07/C08: a model with one variable and a program using it. -/
example : ∃ m : OModel ℚ, OModel.empty.addVar Ext.negInf Ext.posInf = some (m, 0) ∧ m.vars.Inv ∧ m.cnts.Inv ∧
    ∀ op ∈ [BuildOp.hinge (⟨-1, [(2, 0)]⟩ : AffExpr ℚ Nat) 3, .abs ⟨1, [(1, 0)]⟩ 2, .l2 [⟨0, [(1, 0)]⟩]],
      op.Ok m.vars.reps.length := by
  obtain ⟨m, h1, h2, h3, h4, h5, _⟩ := addVar_spec (m := (OModel.empty : OModel ℚ)) Store.inv_empty
    Ext.negInf Ext.posInf
  refine ⟨m, h1, h2, by rw [h5]; exact Store.inv_empty, ?_⟩
  have hl : m.vars.reps.length = 1 := h4
  intro op hop
  rw [hl]
  simp only [List.mem_cons, List.not_mem_nil, or_false] at hop
  rcases hop with rfl | rfl | rfl
  · refine ⟨?_, by norm_num⟩; intro t ht; simp at ht; simp [ht]
  · refine ⟨?_, by norm_num⟩; intro t ht; simp at ht; simp [ht]
  · intro e he t ht; simp at he; subst he; simp at ht; simp [ht]

/-- C09 violated: for every list of expressions, minimising the objective built by `addMax` over the
auxiliary variable gives `0` at every point: the maximum is not part of the objective. -/
theorem C09_violated_max_ignored (m : OModel K) (hv : m.vars.Inv) (hc : m.cnts.Inv)
    (es : List (AffExpr K Nat)) (hes : ∀ e ∈ es, e.Below m.vars.reps.length) :
    ∃ s s', ConvexObjective.addMax (m, ConvexObjective.new) es = some s ∧
      ConvexObjective.addConstraintsToModel s = some s' ∧
      ∀ x, PartialMin s'.1 m.vars.reps.length m.cnts.reps.length s'.2.quad x 0 :=
  program hv hc (good_max hes)

theorem PartialMin.unique {m : OModel K} {n0 c0 : Nat} {q : QuadExpr K Nat} {x : Nat → K} {v w : K}
    (h : PartialMin m n0 c0 q x v) (h' : PartialMin m n0 c0 q x w) : v = w := by
  obtain ⟨a, y, hy, hv⟩ := h
  obtain ⟨b, z, hz, hw⟩ := h'
  exact le_antisymm (hw ▸ a z hz) (hv ▸ b y hy)

/-- C09 violated, concretely: `addMax` of the single expression `5` gives an objective with minimum `0`,
not `5`. -/
theorem C09_violated : ∃ s s' : BState ℚ,
    ConvexObjective.addMax (OModel.empty, ConvexObjective.new) [AffExpr.ofConst 5] = some s ∧
    ConvexObjective.addConstraintsToModel s = some s' ∧
    ∀ x, ¬ PartialMin s'.1 0 0 s'.2.quad x 5 := by
  obtain ⟨s, s', h1, h2, h3⟩ := C09_violated_max_ignored (OModel.empty : OModel ℚ) Store.inv_empty
    Store.inv_empty [AffExpr.ofConst 5] (by simp [AffExpr.Below, AffExpr.ofConst])
  refine ⟨s, s', h1, h2, fun x hx => ?_⟩
  have := (h3 x).unique hx
  norm_num at this

/-- What `addMax` does provide: it constrains the new variable to be at least every expression. -/
theorem C09_upper_bound_partial (m : OModel K) (hv : m.vars.Inv) (o : ConvexObjective K)
    (hin : o.inModel = true) (es : List (AffExpr K Nat)) :
    ∃ s, ConvexObjective.addMax (m, o) es = some s ∧
      ∀ y : Nat → K, (∀ e ∈ s.2.ineqs, affDen e y ≤ 0) → ∀ e ∈ es, affDen e y ≤ y m.vars.reps.length := by
  obtain ⟨m', h1, _⟩ := addVar_spec hv Ext.negInf Ext.posInf
  refine ⟨_, addMax_eq (s := (m, o)) hin h1 es, ?_⟩
  intro y hy e he
  have := hy (e.decVar m.vars.reps.length) (by
    simp only [List.mem_append, List.mem_map]; exact Or.inr ⟨e, he, rfl⟩)
  rw [affDen_decVar] at this
  linarith

/-- `ConvexConstraints::violation` as a sum (specification side of C68). -/
def violationSpec (c : ConvexConstraints K) (x : Nat → K) : K :=
  (c.eqs.map fun e => |affDen e x|).sum + (c.ineqs.map fun e => max 0 (affDen e x)).sum

theorem violation_eq (c : ConvexConstraints K) (x : Nat → K) : c.violation x = violationSpec c x := by
  have hf : ∀ (l : List K) (a : K), l.foldl (· + ·) a = a + l.sum := by
    intro l
    induction l with
    | nil => simp
    | cons b l ih => intro a; simp [ih, add_assoc]
  have hp : ∀ a : K, (if 0 < a then a else 0) = max 0 a := by
    intro a
    split_ifs with h
    · rw [max_eq_right (le_of_lt h)]
    · rw [max_eq_left (not_lt.1 h)]
  simp only [ConvexConstraints.violation, ConvexConstraints.violations, hf, zero_add, List.sum_append,
    violationSpec, C01_aff_value, hp]

/-- C68: the objective that `cntsToCosts` builds for a linearised constraint with a non-negative penalty
coefficient has, minimised over its slack variables, exactly the value coefficient times
`ConvexConstraints::violation(x)`, at every point `x`. -/
theorem C68_penalty_exact (m : OModel K) (hv : m.vars.Inv) (hc : m.cnts.Inv) (c : ConvexConstraints K)
    (h1 : ∀ e ∈ c.eqs, e.Below m.vars.reps.length) (h2 : ∀ e ∈ c.ineqs, e.Below m.vars.reps.length)
    (coeff : K) (h0 : 0 ≤ coeff) :
    ∃ s s', cntToCost m c coeff = some s ∧ ConvexObjective.addConstraintsToModel s = some s' ∧
      ∀ x, PartialMin s'.1 m.vars.reps.length m.cnts.reps.length s'.2.quad x (coeff * c.violation x) := by
  have g1 := good_foldlM (n0 := m.vars.reps.length) (m0 := m) (fun s e => ConvexObjective.addAbs s e coeff)
    (fun e x => coeff * |affDen e x|) c.eqs fun e he => good_abs (h1 e he) h0
  have g2 := good_foldlM (n0 := m.vars.reps.length) (m0 := m) (fun s e => ConvexObjective.addHinge s e coeff)
    (fun e x => coeff * max 0 (affDen e x)) c.ineqs fun e he => good_hinge (h2 e he) h0
  obtain ⟨s1, a1, a2, a3⟩ := g1 _ (new_inv hv)
  obtain ⟨s2, b1, b2, b3⟩ := g2 _ a2
  obtain ⟨s', d1, d2, d3⟩ := finish b2 hc
  refine ⟨s2, s', by simp only [cntToCost, a1]; exact b1, d1, fun x => d3 x _ ?_⟩
  have := b3 x _ (a3 x 0 (new_min hv x))
  rw [violation_eq, violationSpec, mul_add, ← List.sum_map_mul_left, ← List.sum_map_mul_left]
  simpa using this

/-- non-vacuity for C68 -/
example : ∃ c : ConvexConstraints ℚ, c.eqs = [⟨-1, [(1, 0)]⟩] ∧ c.ineqs = [⟨0, [(1, 0)]⟩] ∧
    c.violation (fun _ => 3) = 5 :=
  ⟨⟨true, [⟨-1, [(1, 0)]⟩], [⟨0, [(1, 0)]⟩], []⟩, rfl, rfl, by
    rw [violation_eq]; norm_num [violationSpec, affDen, linDen]⟩

end Verif.Sco
