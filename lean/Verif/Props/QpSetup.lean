import Verif.Props.QpEval

/-!
C29 (repeated `setup`) and C78 (no sequence of calls fails) for `TrajOptQPProblem`.
-/

set_option linter.unusedSectionVars false
set_option linter.unusedVariables false

namespace Verif.QpProblem

open Verif.Bounds Verif.Sco Verif.SqpExprs Finset

universe u
variable {K : Type u} [Field K] [LinearOrder K] [IsStrictOrderedRing K]

/-! ### Histories of calls -/

/-- The calls of the API. -/
inductive Call (K : Type u)
  | addConstraint (c : Comp K)
  | addCost (c : Comp K) (p : Penalty)
  | setup
  | setVariables (x : Nat → K)
  | convexify
  | setBox (b : List K)
  | scaleBox (a : K)
  | setMerit (m : List K)

def Call.run (sqrt : K → K) (hash : (Nat → K) → Nat) (junk : Nat → Ext K) (s : State K) : Call K → Option (State K)
  | .addConstraint c => some (s.addConstraintSet c)
  | .addCost c p => s.addCostSet c p
  | .setup => some (s.setup junk)
  | .setVariables x => some (s.setVariables hash x)
  | .convexify => s.convexify sqrt junk
  | .setBox b => s.setBoxSize b
  | .scaleBox a => s.scaleBoxSize a
  | .setMerit m => s.setConstraintMeritCoeff m

/-- The documented use: well-behaved sets whose bounds fit the penalty; arguments of the right size; `setup` only for a
problem that was extended since the last `setup`, the other calls only after `setup`. -/
def Call.Ok (s : State K) : Call K → Prop
  | .addConstraint c => CntFine s.nVars c
  | .addCost c .squared => ObjFine s.nVars c
  | .addCost c .absolute => CntFine s.nVars c ∧ ∀ x u, ∀ b ∈ (c.ask x u).bounds, b.type = .equality
  | .addCost c .hinge => CntFine s.nVars c ∧ ∀ x u, ∀ b ∈ (c.ask x u).bounds, b.type = .lowerBound ∨ b.type = .upperBound
  | .setup => s.initialized = false
  | .setVariables _ => True
  | .convexify => s.initialized = true
  | .setBox b => s.initialized = true ∧ b.length = s.nVars
  | .scaleBox _ => s.initialized = true
  | .setMerit m => s.initialized = true ∧ m.length = s.cnts.length + s.dynCnts.length ∧ ∀ a ∈ m, 0 ≤ a

/-- A new problem. -/
def fresh (n : Nat) (vb : List (Lo K × Hi K)) (x : Nat → K) : State K :=
  { nVars := n, varBounds := vb, x := x, upd := x }

/-- States reached by documented calls. -/
inductive Reach (sqrt : K → K) (hash : (Nat → K) → Nat) (junk : Nat → Ext K) : State K → Prop
  | start (n : Nat) (vb : List (Lo K × Hi K)) (x : Nat → K) : vb.length = n → (∀ b ∈ vb, Valid b) →
      Reach sqrt hash junk (fresh n vb x)
  | step {s s' : State K} (c : Call K) : Reach sqrt hash junk s → c.Ok s → c.run sqrt hash junk s = some s' →
      Reach sqrt hash junk s'

/-- The invariant of all histories. -/
def Inv (s : State K) : Prop := Described s ∧ (s.initialized = true → Live s)

theorem described_of {s s' : State K} (h : Described s) (e : s'.nVars = s.nVars ∧ s'.varBounds = s.varBounds ∧
    s'.squared = s.squared ∧ s'.dynSquared = s.dynSquared ∧ s'.hinge = s.hinge ∧ s'.dynHinge = s.dynHinge ∧
    s'.absolute = s.absolute ∧ s'.dynAbsolute = s.dynAbsolute ∧ s'.cnts = s.cnts ∧ s'.dynCnts = s.dynCnts) : Described s' := by
  obtain ⟨e1, e2, e3, e4, e5, e6, e7, e8, e9, e10⟩ := e
  exact ⟨by rw [e1, e3, e4]; exact h.obj, by rw [e1, e5, e6, e7, e8]; exact h.pen, by rw [e1, e9, e10]; exact h.merit,
    by rw [e1, e2]; exact h.varBounds, by rw [e2]; exact h.valid⟩

theorem forall_snoc {α : Type*} {P : α → Prop} {pre mid post : List α} {a : α} (h : ∀ c ∈ pre ++ mid ++ post, P c) (ha : P a) :
    ∀ c ∈ pre ++ (mid ++ [a]) ++ post, P c := by
  intro c hc
  simp only [List.mem_append, List.mem_singleton] at hc h
  rcases hc with (hc | hc | rfl) | hc
  · exact h c (.inl (.inl hc))
  · exact h c (.inl (.inr hc))
  · exact ha
  · exact h c (.inr hc)

theorem update_keeps (s : State K) (junk : Nat → Ext K) : (s.update junk).nVars = s.nVars ∧
    (s.update junk).varBounds = s.varBounds ∧ (s.update junk).squared = s.squared ∧
    (s.update junk).dynSquared = s.dynSquared ∧ (s.update junk).hinge = s.hinge ∧ (s.update junk).dynHinge = s.dynHinge ∧
    (s.update junk).absolute = s.absolute ∧ (s.update junk).dynAbsolute = s.dynAbsolute ∧
    (s.update junk).cnts = s.cnts ∧ (s.update junk).dynCnts = s.dynCnts := by
  unfold State.update
  split_ifs <;> exact ⟨rfl, rfl, rfl, rfl, rfl, rfl, rfl, rfl, rfl, rfl⟩

theorem step_inv (sqrt : K → K) (hsqrt : ∀ a : K, 0 ≤ a → sqrt a * sqrt a = a) (hash : (Nat → K) → Nat)
    (junk : Nat → Ext K) (s : State K) (h : Inv s) (c : Call K) (hc : c.Ok s) :
    ∃ s', c.run sqrt hash junk s = some s' ∧ Inv s' := by
  obtain ⟨hd, hl⟩ := h
  cases c with
  | addConstraint c =>
    refine ⟨_, rfl, ?_⟩
    unfold State.addConstraintSet
    split_ifs with hdyn
    · refine ⟨⟨hd.obj, hd.pen, ?_, hd.varBounds, hd.valid⟩, by simp⟩
      simpa using forall_snoc (pre := s.cnts) (mid := s.dynCnts) (post := []) (by simpa using hd.merit) hc
    · refine ⟨⟨hd.obj, hd.pen, ?_, hd.varBounds, hd.valid⟩, by simp⟩
      simpa using forall_snoc (pre := []) (mid := s.cnts) (post := s.dynCnts) (by simpa using hd.merit) hc
  | addCost c p =>
    cases p with
    | squared =>
      have hb : ∀ b ∈ (s.ask c).bounds, b.type = .equality := by
        intro b hb
        obtain ⟨l, u, rfl⟩ := (hc.2 s.x s.upd).proper b hb
        rfl
      simp only [Call.run, State.addCostSet, if_pos hb]
      refine ⟨_, rfl, ?_⟩
      split_ifs with hdyn
      · refine ⟨⟨?_, hd.pen, hd.merit, hd.varBounds, hd.valid⟩, by simp⟩
        simpa using forall_snoc (pre := s.squared) (mid := s.dynSquared) (post := []) (by simpa using hd.obj) hc
      · refine ⟨⟨?_, hd.pen, hd.merit, hd.varBounds, hd.valid⟩, by simp⟩
        simpa using forall_snoc (pre := []) (mid := s.squared) (post := s.dynSquared) (by simpa using hd.obj) hc
    | absolute =>
      have hb := hc.2 s.x s.upd
      change ∀ b ∈ (s.ask c).bounds, _ at hb
      simp only [Call.run, State.addCostSet, if_pos hb]
      refine ⟨_, rfl, ?_⟩
      split_ifs with hdyn
      · refine ⟨⟨hd.obj, ?_, hd.merit, hd.varBounds, hd.valid⟩, by simp⟩
        simpa using forall_snoc (pre := s.hinge ++ s.dynHinge ++ s.absolute) (mid := s.dynAbsolute) (post := [])
          (by simpa using hd.pen) hc.1
      · refine ⟨⟨hd.obj, ?_, hd.merit, hd.varBounds, hd.valid⟩, by simp⟩
        simpa using forall_snoc (pre := s.hinge ++ s.dynHinge) (mid := s.absolute) (post := s.dynAbsolute)
          (by simpa using hd.pen) hc.1
    | hinge =>
      have hb := hc.2 s.x s.upd
      change ∀ b ∈ (s.ask c).bounds, _ at hb
      simp only [Call.run, State.addCostSet, if_pos hb]
      refine ⟨_, rfl, ?_⟩
      split_ifs with hdyn
      · refine ⟨⟨hd.obj, ?_, hd.merit, hd.varBounds, hd.valid⟩, by simp⟩
        simpa using forall_snoc (pre := s.hinge) (mid := s.dynHinge) (post := s.absolute ++ s.dynAbsolute)
          (by simpa using hd.pen) hc.1
      · refine ⟨⟨hd.obj, ?_, hd.merit, hd.varBounds, hd.valid⟩, by simp⟩
        simpa using forall_snoc (pre := []) (mid := s.hinge) (post := s.dynHinge ++ s.absolute ++ s.dynAbsolute)
          (by simpa using hd.pen) hc.1
  | setup =>
    refine ⟨_, rfl, ?_, fun _ => (setup_live hd hc junk).1⟩
    have := update_keeps s.setupLists junk
    exact described_of hd this
  | setVariables x =>
    refine ⟨_, rfl, ?_, fun hi => ?_⟩
    · refine described_of hd ?_
      unfold State.setVariables
      split_ifs <;> exact ⟨rfl, rfl, rfl, rfl, rfl, rfl, rfl, rfl, rfl, rfl⟩
    · have : s.initialized = true := by
        unfold State.setVariables at hi
        split_ifs at hi <;> exact hi
      exact (hl this).setVariables hash x
  | convexify =>
    obtain ⟨s', outs, iv, head, a1, a2, a3, a4, a5⟩ := (hl hc).convexify sqrt hsqrt junk
    refine ⟨s', a1, ?_, fun _ => a4⟩
    obtain ⟨d1, d2, d3, d4, d5, d6, d7, d8, d9, d10, d11, d12, d13⟩ := a3.flags
    obtain ⟨e1, e2, e3, e4, e5, e6, e7, e8, e9, e10⟩ := update_keeps s junk
    have f := a3.frame
    exact described_of hd ⟨f.1.trans e1, f.2.2.2.2.2.2.2.2.2.2.2.2.2.2.trans e2, d8.trans e3, d9.trans e4, d10.trans e5,
      d11.trans e6, d12.trans e7, d13.trans e8, d5.trans e9, d6.trans e10⟩
  | setBox b =>
    obtain ⟨hi, hb⟩ := hc
    have hv := hl hi
    obtain ⟨lo, up, a1, a2, a3⟩ := updateNLP_some { s with box := b } hb hv.varBounds hv.valid hv.lower hv.upper
    obtain ⟨s', c1, c2, -⟩ := hv.withBox b hb
    rw [a1] at c1; injection c1 with c1
    refine ⟨s', ?_, ?_, fun _ => c2⟩
    · simp only [Call.run, State.setBoxSize, if_pos hb]; rw [a1, c1]
    · subst c1; exact described_of hd ⟨rfl, rfl, rfl, rfl, rfl, rfl, rfl, rfl, rfl, rfl⟩
  | scaleBox a =>
    have hv := hl hc
    have hb : (s.box.map (· * a)).length = s.nVars := by simp [hv.box]
    obtain ⟨lo, up, a1, a2, a3⟩ := updateNLP_some { s with box := s.box.map (· * a) } hb hv.varBounds hv.valid hv.lower hv.upper
    obtain ⟨s', c1, c2, -⟩ := hv.withBox _ hb
    rw [a1] at c1; injection c1 with c1
    refine ⟨s', ?_, ?_, fun _ => c2⟩
    · simp only [Call.run, State.scaleBoxSize]; rw [a1, c1]
    · subst c1; exact described_of hd ⟨rfl, rfl, rfl, rfl, rfl, rfl, rfl, rfl, rfl, rfl⟩
  | setMerit m =>
    obtain ⟨hi, hm, h0⟩ := hc
    obtain ⟨a1, a2⟩ := (hl hi).setMerit m hm h0
    exact ⟨_, a1, described_of hd ⟨rfl, rfl, rfl, rfl, rfl, rfl, rfl, rfl, rfl, rfl⟩, fun _ => a2⟩

theorem reach_inv (sqrt : K → K) (hsqrt : ∀ a : K, 0 ≤ a → sqrt a * sqrt a = a) (hash : (Nat → K) → Nat)
    (junk : Nat → Ext K) (s : State K) (h : Reach sqrt hash junk s) : Inv s := by
  induction h with
  | start n vb x h1 h2 =>
    exact ⟨⟨by simp [fresh], by simp [fresh], by simp [fresh], h1, h2⟩, by simp [fresh]⟩
  | step c _ hc hr ih =>
    obtain ⟨s'', a1, a2⟩ := step_inv sqrt hsqrt hash junk _ ih c hc
    rw [hr] at a1; injection a1 with a1; subst a1; exact a2

/-- C78: no documented sequence of calls runs into an exception or undefined behaviour, in particular dynamic sets may
change their size between any two calls. -/
theorem C78_no_failure (sqrt : K → K) (hsqrt : ∀ a : K, 0 ≤ a → sqrt a * sqrt a = a) (hash : (Nat → K) → Nat)
    (junk : Nat → Ext K) (s : State K) (h : Reach sqrt hash junk s) (c : Call K) (hc : c.Ok s) :
    ∃ s', c.run sqrt hash junk s = some s' := by
  obtain ⟨s', a, -⟩ := step_inv sqrt hsqrt hash junk s (reach_inv sqrt hsqrt hash junk s h) c hc
  exact ⟨s', a⟩

/-- Histories exist: two sets are added, the problem is set up, moved, weighted and convexified twice. -/
example : ∃ s : State ℝ, Reach Real.sqrt (fun _ => 0) (fun _ => .negInf) s ∧ s.initialized = true ∧ s.merit ≠ [] := by
  have hs : ∀ a : ℝ, 0 ≤ a → Real.sqrt a * Real.sqrt a = a := fun _ h => Real.mul_self_sqrt h
  have r0 := Reach.start (sqrt := Real.sqrt) (hash := fun _ => 0) (junk := fun _ => .negInf) 1 [((none : Lo ℝ), (none : Hi ℝ))]
    (fun _ => 1) rfl (by intro b hb; simp only [List.mem_singleton] at hb; subst hb; intro l u h; simp at h)
  have r1 := Reach.step (.addConstraint (lineComp 1 0 1 ⟨.fin 5, .fin 5, .equality⟩)) r0
    (lineComp_cnt 1 Nat.one_pos 1 0 1 zero_le_one _ (.inl ⟨_, _, rfl, le_refl _⟩)) rfl
  have r2 := Reach.step .setup r1 rfl rfl
  obtain ⟨s', hs'⟩ := C78_no_failure Real.sqrt hs _ _ _ r2 .convexify rfl
  have hi := reach_inv Real.sqrt hs _ _ _ r2
  have r3 := Reach.step .convexify r2 rfl hs'
  refine ⟨_, r2, rfl, ?_⟩
  have : (State.setup (fun _ => Ext.negInf) ((fresh 1 [((none : Lo ℝ), (none : Hi ℝ))] fun _ => 1).addConstraintSet
    (lineComp 1 0 1 ⟨.fin 5, .fin 5, .equality⟩))).merit = [lineComp 1 0 1 ⟨.fin 5, .fin 5, .equality⟩] := rfl
  rw [this]; simp

/-! ### C29 -/

/-- C29 for a problem that was extended since its last `setup` (or never set up): after `setup` and whatever documented
calls follow, the problem consists of exactly the sets added so far, and its cached sizes, coefficients and bounds are
those of the sets whenever a QP is built. -/
theorem C29_setup_partial (sqrt : K → K) (hsqrt : ∀ a : K, 0 ≤ a → sqrt a * sqrt a = a) (hash : (Nat → K) → Nat)
    (junk : Nat → Ext K) (s : State K) (h : Reach sqrt hash junk s) (hi : s.initialized = true) :
    s.objective = s.squared ++ s.dynSquared ∧
    s.penalty = s.hinge ++ s.dynHinge ++ s.absolute ++ s.dynAbsolute ∧ s.merit = s.cnts ++ s.dynCnts ∧
    ∀ s', s.convexify sqrt junk = some s' →
      s'.objective = s.objective ∧ s'.penalty = s.penalty ∧ s'.merit = s.merit ∧
      s'.nPen + s'.nMerit = ((s'.penalty ++ s'.merit).map fun c => (s'.ask c).values.length).sum ∧
      s'.nQpCnts = ((s'.penalty ++ s'.merit).map fun c => (s'.ask c).values.length).sum + s'.nQpVars := by
  have hl := (reach_inv sqrt hsqrt hash junk s h).2 hi
  refine ⟨hl.lists.1, hl.lists.2.1, hl.lists.2.2, fun s' hc => ?_⟩
  obtain ⟨s'', outs, iv, head, a1, a2, a3, a4, a5⟩ := hl.convexify sqrt hsqrt junk
  rw [hc] at a1; injection a1 with a1; subst a1
  have f := a3.frame
  have hu : (s.update junk).objective = s.objective ∧ (s.update junk).penalty = s.penalty ∧ (s.update junk).merit = s.merit := by
    unfold State.update; split_ifs <;> exact ⟨rfl, rfl, rfl⟩
  have hr := ready_of_current a4 a5
  have hsum : ∀ {is : List (Info K)} {cs : List (Comp K)}, List.Forall₂ (fun i c => CntOk s'.nVars i (s'.ask c)) is cs →
      (is.map (·.rows)).sum = (cs.map fun c => (s'.ask c).values.length).sum := by
    intro is cs hf
    induction hf with
    | nil => rfl
    | cons h1 _ ih => simp only [List.map_cons, List.sum_cons, ih, h1.rows]
  have e1 : s'.nPen + s'.nMerit = ((s'.penalty ++ s'.merit).map fun c => (s'.ask c).values.length).sum := by
    rw [List.map_append, List.sum_append, hr.nPen, hr.nMerit, hsum hr.pen, hsum hr.merit]
  refine ⟨f.2.2.2.2.2.2.2.2.2.1.trans hu.1, f.2.2.2.2.2.2.2.2.2.2.1.trans hu.2.1, f.2.2.2.2.2.2.2.2.2.2.2.1.trans hu.2.2,
    e1, ?_⟩
  rw [← e1, a3.nQpCnts, f.2.2.2.2.2.2.2.1, f.2.2.2.2.2.2.2.2.1]

theorem termsOut_empty (x : Nat → K) (m : List K) (row var : Nat) (l : List (Bool × Info K × Snap K))
    (h : ∀ t ∈ l, t.2.1.rows = 0) : termsOut x m row var l = some [] := by
  induction l with
  | nil => rfl
  | cons t l ih =>
    obtain ⟨b, i, s⟩ := t
    have : i.rows = 0 := h (b, i, s) (by simp)
    rw [termsOut, if_pos this]
    exact ih fun t ht => h t (by simp [ht])

/-- C29 is violated: a second `setup` in a row on a problem without dynamic sets (here without squared costs) removes all
constraints and penalty costs from the QP: no slacks, empty rows, while the old row bounds stay. -/
theorem C29_violated_rows_vanish (sqrt : K → K) (junk junk' : Nat → Ext K) (s : State K) (h : Live s)
    (hdyn : ∀ c ∈ s.sets, c.dynamic = false) (hobj : s.objective = []) :
    ∃ s', (s.setup junk).convexify sqrt junk' = some s' ∧ s'.nSlack = 0 ∧ s'.penalty = s.penalty ∧ s'.merit = s.merit ∧
      s'.nPen = s.nPen ∧ s'.nMerit = s.nMerit ∧
      (∀ r < s.nPen + s.nMerit, ∀ c, s'.matrix.entry r c = 0) ∧ s'.matrix.rows = s.nPen + s.nMerit + s.nVars ∧
      s'.lower.take (s.nPen + s.nMerit) = s.lower.take (s.nPen + s.nMerit) ∧
      s'.upper.take (s.nPen + s.nMerit) = s.upper.take (s.nPen + s.nMerit) := by
  obtain ⟨l1, l2, l3⟩ := h.lists
  have sp : ∀ c ∈ s.penalty, Sized c := fun c hc => (h.finP c hc).1
  have sm : ∀ c ∈ s.merit, Sized c := fun c hc => (h.finM c hc).1
  have hd : s.setupLists.hasDyn = false := by
    have : s.setupLists.hasDyn = s.sets.any (·.dynamic) := by
      rw [State.sets, l1, l2, l3]; rfl
    rw [this, List.any_eq_false]
    intro c hc; rw [hdyn c hc]; simp
  have hin : s.setupLists.initialized = true := h.init
  have hset : s.setup junk = s.setupLists := by
    rw [State.setup, State.update, hin, hd]
    simp only [Bool.not_false, Bool.true_or, Bool.and_self, if_true]
    rw [← hin]
  have hupd : s.setupLists.update junk' = s.setupLists := by
    rw [State.update, hin, hd]; simp
  obtain ⟨u0, c1, c2, c3, c4⟩ := h.cached
  have stat : ∀ c ∈ s.sets, ∀ u u', c.rowsAt u = c.rowsAt u' := fun c hc => (h.sized c hc).static (hdyn c hc)
  have np : s.setupLists.nPen = s.nPen := by
    have : s.setupLists.nPen = totalRows { s with upd := s.x } s.penalty := by rw [l2]; rfl
    rw [this, totalRows_eq _ _ sp, h.nPen, sum_rows sp c2]
    congr 1
    exact List.map_congr_left fun c hc => stat c (by simp [State.sets, hc]) _ _
  have nm : s.setupLists.nMerit = s.nMerit := by
    have : s.setupLists.nMerit = totalRows { s with upd := s.x } s.merit := by rw [l3]; rfl
    rw [this, totalRows_eq _ _ sm, h.nMerit, sum_rows sm c3]
    congr 1
    exact List.map_congr_left fun c hc => stat c (by simp [State.sets, hc]) _ _
  have no : s.setupLists.nObj = 0 := by
    have : s.setupLists.nObj = totalRows { s with upd := s.x } s.objective := by rw [l1]; rfl
    rw [this, hobj]; rfl
  have hterms : termsOut s.setupLists.x s.setupLists.meritCoeff 0 s.setupLists.nVars
      ((s.setupLists.penInfos.zip (s.setupLists.penalty.map s.setupLists.ask)).map (fun t => (false, t.1, t.2)) ++
        (s.setupLists.meritInfos.zip (s.setupLists.merit.map s.setupLists.ask)).map (fun t => (true, t.1, t.2))) = some [] := by
    apply termsOut_empty
    intro t ht
    have hz : ∀ (i : Info K) (l : Nat), i ∈ List.replicate l (⟨0, [], []⟩ : Info K) → i.rows = 0 := by
      intro i l hi; rw [List.eq_of_mem_replicate hi]
    rcases List.mem_append.1 ht with ht | ht
    · obtain ⟨p, hp, rfl⟩ := List.mem_map.1 ht
      exact hz _ _ (List.of_mem_zip hp).1
    · obtain ⟨p, hp, rfl⟩ := List.mem_map.1 ht
      exact hz _ _ (List.of_mem_zip hp).1
  have hw : ∀ {α : Type u} (l : List α), writeSeg l 0 ([] : List α) = some l := by
    intro α l; simp [writeSeg]
  have hbox : s.setupLists.box.length = s.setupLists.nVars := by simp [State.setupLists]
  have hlen : s.nPen + s.nMerit + s.nVars ≤ s.lower.length := by have := h.lower; omega
  have hlen2 : s.nPen + s.nMerit + s.nVars ≤ s.upper.length := by have := h.upper; omega
  have hcr : ∀ l : List (Ext K), s.nPen + s.nMerit + s.nVars ≤ l.length →
      conservativeResize junk' (s.nPen + s.nMerit + s.nVars) l = l.take (s.nPen + s.nMerit + s.nVars) := by
    intro l hl
    rw [conservativeResize, Nat.sub_eq_zero_of_le hl]; simp
  set diag := (List.range s.nVars).map fun i => (s.nMerit + s.nPen + i, i, (1 : K)) with hdiag
  obtain ⟨Hm, H1, -, -, -, -, -⟩ := setFromTriplets_spec (K := K) s.nVars s.nVars [] (by simp)
  have hrange : ∀ t ∈ diag, t.1 < s.nPen + s.nMerit + s.nVars ∧ t.2.1 < s.nVars := by
    intro t ht
    obtain ⟨i, hi, rfl⟩ := List.mem_map.1 ht
    have := List.mem_range.1 hi
    exact ⟨by simp; omega, this⟩
  obtain ⟨M, M1, -, M3, -, M5, -⟩ := setFromTriplets_spec _ _ _ hrange
  set t : State K := { s.setupLists with
    nObj := 0, nPen := s.nPen, nMerit := s.nMerit, nSlack := 0, nQpVars := s.nVars, nQpCnts := s.nPen + s.nMerit + s.nVars,
    lower := s.lower.take (s.nPen + s.nMerit + s.nVars), upper := s.upper.take (s.nPen + s.nMerit + s.nVars),
    gradient := List.replicate s.nVars 0, hessian := Hm, matrix := M } with ht
  have hcore : s.setupLists.convexifyCore sqrt junk' = t.updateNLPVariableBounds := by
    unfold State.convexifyCore
    have hsq : s.setupLists.sqObjectiveOf sqrt = some (s.setupLists.target, s.setupLists.sqObjective) := by
      rw [State.sqObjectiveOf, if_pos no]
    have e1 : s.setupLists.nVars = s.nVars := rfl
    have e2 : s.setupLists.lower = s.lower := rfl
    have e3 : s.setupLists.upper = s.upper := rfl
    have e4 : s.setupLists.constant = s.constant := rfl
    rw [e1] at hterms
    simp only [e1, hterms, List.flatMap_nil, List.map_nil, hw, hsq, List.length_nil, Nat.add_zero, np, nm, no, if_true, e2, e3,
      hcr _ hlen, hcr _ hlen2, Nat.sub_zero, List.take_take, Nat.min_self, List.replicate_zero, List.append_nil, H1, ← hdiag,
      List.nil_append, M1]
    rfl
  obtain ⟨lo, hi, b1, b2, b3⟩ := updateNLP_some t hbox h.varBounds h.valid
    (by show s.nVars + s.nPen + s.nMerit ≤ (s.lower.take _).length; rw [List.length_take]; omega)
    (by show s.nVars + s.nPen + s.nMerit ≤ (s.upper.take _).length; rw [List.length_take]; omega)
  obtain ⟨iv, v1, v2⟩ := boxBounds_some t hbox h.varBounds h.valid
  have hb := b1
  unfold State.updateNLPVariableBounds at hb
  simp only [v1] at hb
  have tl : t.lower = s.lower.take (s.nPen + s.nMerit + s.nVars) := rfl
  have tu : t.upper = s.upper.take (s.nPen + s.nMerit + s.nVars) := rfl
  have tm : t.nMerit + t.nPen = s.nPen + s.nMerit := Nat.add_comm _ _
  have tn : iv.length = s.nVars := v2
  have wl : ∀ (l seg : List (Ext K)), s.nPen + s.nMerit + s.nVars ≤ l.length → seg.length = s.nVars →
      ∃ l', writeSeg (l.take (s.nPen + s.nMerit + s.nVars)) (s.nPen + s.nMerit) seg = some l' ∧
        l'.take (s.nPen + s.nMerit) = l.take (s.nPen + s.nMerit) := by
    intro l seg hl hs
    refine ⟨_, by rw [writeSeg, if_pos (by rw [List.length_take, hs]; omega)], ?_⟩
    rw [List.append_assoc, List.take_left' (by simp; omega), List.take_take]
    congr 1; omega
  obtain ⟨lo', w1, w2⟩ := wl s.lower (iv.map fun i => Ext.fin i.1) hlen (by simp [tn])
  obtain ⟨hi', w3, w4⟩ := wl s.upper (iv.map fun i => Ext.fin i.2) hlen2 (by simp [tn])
  rw [tl, tu, tm, w1, w3] at hb
  refine ⟨{ t with lower := lo', upper := hi' }, ?_, rfl, ?_, ?_, rfl, rfl, ?_, M3, w2, w4⟩
  · rw [hset, State.convexify, if_pos hin, hupd, hcore, b1, ← hb]
  · exact l2.symm
  · exact l3.symm
  · intro r hr c
    show M.entry r c = 0
    rw [M5]
    apply List.sum_eq_zero
    intro a ha
    obtain ⟨q, hq, rfl⟩ := List.mem_map.1 ha
    obtain ⟨i, hi, rfl⟩ := List.mem_map.1 hq
    rw [if_neg (by simp only; omega)]

/-- C29 is violated: if a row of the last QP did not allow zero (say `x = 5` linearised anywhere), the QP after a second
`setup` has no feasible point at all. -/
theorem C29_violated_infeasible (sqrt : K → K) (junk junk' : Nat → Ext K) (s : State K) (h : Live s)
    (hdyn : ∀ c ∈ s.sets, c.dynamic = false) (hobj : s.objective = []) (r : Nat) (hr : r < s.nPen + s.nMerit) (l : K)
    (hl : s.lower[r]? = some (.fin l)) (h0 : 0 < l) :
    ∃ s', (s.setup junk).convexify sqrt junk' = some s' ∧ ∀ z, ¬ QpFeasible s' z := by
  obtain ⟨s', a1, -, -, -, -, -, a2, a3, a4, -⟩ := C29_violated_rows_vanish sqrt junk junk' s h hdyn hobj
  refine ⟨s', a1, fun z hz => ?_⟩
  obtain ⟨lo, up, b1, b2, b3, -⟩ := hz r (by rw [a3]; omega)
  have e : s'.lower[r]? = some (.fin l) := by
    have := congrArg (fun l => l[r]?) a4
    simp only [List.getElem?_take, if_pos hr] at this
    rw [this, hl]
  rw [e] at b1; injection b1 with b1; subst b1
  have z0 : s'.matrix.rowForm r z = 0 := sum_eq_zero fun c _ => by rw [a2 r hr c, zero_mul]
  rw [z0] at b3
  simp only at b3
  linarith

/-- The constraint `x = 5` at `x = 1`. -/
def againDemo : State ℚ :=
  { nVars := 1, varBounds := [(none, none)], x := fun _ => 1, upd := fun _ => 0,
    cnts := [lineComp 1 0 1 ⟨.fin 5, .fin 5, .equality⟩] }

/-- The lower bound of the first row, when finite. -/
def State.firstLower (s : State ℚ) : ℚ := match (s.lower[0]? : Option (Ext ℚ)) with
  | some (.fin v) => v
  | _ => 0

/-- C29 is violated by a run of the API: the QP of the first `setup` has the row `x + s⁺ - s⁻ = 5`, that of the second has
`0 = 5`. -/
theorem C29_violated_witness :
    ((againDemo.setup fun _ => .negInf).convexify id (fun _ => .negInf)).map (fun s' =>
      (s'.firstLower :: s'.gradient, s'.matrix.cols)) =
        some ([5, 0, 10, 10], [[(0, 1), (1, 1)], [(0, 1), (2, 1)], [(0, -1), (3, 1)]]) ∧
    (((againDemo.setup fun _ => .negInf).convexify id (fun _ => .negInf)).bind fun s' =>
      (s'.setup fun _ => .negInf).convexify id (fun _ => .negInf)).map (fun s' => (s'.firstLower :: s'.gradient, s'.matrix.cols)) =
        some ([5, 0], [[(1, 1)]]) := by decide +kernel

example (junk : Nat → Ext K) : Live ((fresh 1 [((none : Lo K), (none : Hi K))] fun _ => 1).addConstraintSet
    (lineComp 1 0 1 ⟨.fin 5, .fin 5, .equality⟩) |>.setup junk) := by
  refine (setup_live ⟨?_, ?_, ?_, rfl, ?_⟩ rfl junk).1
  · intro c hc; simp [fresh, State.addConstraintSet, lineComp] at hc
  · intro c hc; simp [fresh, State.addConstraintSet, lineComp] at hc
  · intro c hc
    have : c = lineComp 1 0 1 ⟨.fin 5, .fin 5, .equality⟩ := by
      simpa [fresh, State.addConstraintSet, lineComp] using hc
    subst this
    exact lineComp_cnt 1 Nat.one_pos 1 0 1 zero_le_one _ (.inl ⟨_, _, rfl, le_refl _⟩)
  · intro b hb
    have : b = (none, none) := by simpa [fresh, State.addConstraintSet, lineComp] using hb
    subst this; intro l u h; simp at h

end Verif.QpProblem
