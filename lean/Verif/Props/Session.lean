import Verif.Props.Convex

/-!
C10: convexification leaves no residue in the solver model.

A *session* is an arbitrary interleaving of: creating convex objectives and constraints, building them,
adding them to the model, destroying them, and `update()`.  The objects that are alive at the same time may
be built and destroyed in any order.
-/

set_option linter.unusedSectionVars false
set_option linter.unusedVariables false

namespace Verif.Sco

open Verif.Bounds (Ext)

universe u
variable {K : Type u} [Field K] [LinearOrder K] [IsStrictOrderedRing K]

/-- The model together with the convex objects created on it. -/
structure Sess (K : Type u) where
  m : OModel K
  objs : List (ConvexObjective K)
  cons : List (ConvexConstraints K)

/-- What a user of the model can do. -/
inductive Act (K : Type u)
  | newObj
  | build (i : Nat) (op : BuildOp K)
  | addObj (i : Nat)
  | killObj (i : Nat)
  | newCon
  | conEq (i : Nat) (e : AffExpr K Nat)
  | conIneq (i : Nat) (e : AffExpr K Nat)
  | addCon (i : Nat)
  | killCon (i : Nat)
  | update

/-- One action; `none` if it refers to an object that does not exist or is undefined. -/
def Sess.step (σ : Sess K) : Act K → Option (Sess K)
  | .newObj => some { σ with objs := σ.objs ++ [ConvexObjective.new] }
  | .build i op => match σ.objs[i]? with
    | none => none
    | some o => match op.run (σ.m, o) with
      | none => none
      | some s => some { σ with m := s.1, objs := σ.objs.set i s.2 }
  | .addObj i => match σ.objs[i]? with
    | none => none
    | some o => match ConvexObjective.addConstraintsToModel (σ.m, o) with
      | none => none
      | some s => some { σ with m := s.1, objs := σ.objs.set i s.2 }
  | .killObj i => match σ.objs[i]? with
    | none => none
    | some o => some { σ with m := (ConvexObjective.destroy (σ.m, o)).1,
                              objs := σ.objs.set i (ConvexObjective.destroy (σ.m, o)).2 }
  | .newCon => some { σ with cons := σ.cons ++ [ConvexConstraints.new] }
  | .conEq i e => match σ.cons[i]? with
    | none => none
    | some c => some { σ with cons := σ.cons.set i (c.addEq e) }
  | .conIneq i e => match σ.cons[i]? with
    | none => none
    | some c => some { σ with cons := σ.cons.set i (c.addIneq e) }
  | .addCon i => match σ.cons[i]? with
    | none => none
    | some c => match ConvexConstraints.addConstraintsToModel (σ.m, c) with
      | none => none
      | some s => some { σ with m := s.1, cons := σ.cons.set i s.2 }
  | .killCon i => match σ.cons[i]? with
    | none => none
    | some c => some { σ with m := (ConvexConstraints.destroy (σ.m, c)).1,
                              cons := σ.cons.set i (ConvexConstraints.destroy (σ.m, c)).2 }
  | .update => match σ.m.update with
    | none => none
    | some m => some { σ with m := m }

/-- The action does not use `addMax`. -/
def Act.noMax : Act K → Prop
  | .build _ (.max _) => False
  | _ => True

/-- One family of entries relative to its contents `s0` before the session: old entries untouched, every
new live entry is owned. -/
structure SInv {P : Type u} (s0 s : Store P) (own : Nat → Prop) : Prop where
  inv : s.Inv
  len : s0.reps.length ≤ s.reps.length
  base : s.live.filter (fun q => decide (q.1 < s0.reps.length)) = s0.live
  owned : ∀ q ∈ s.live, s0.reps.length ≤ q.1 → own q.1

theorem SInv.mono {P : Type u} {s0 s : Store P} {own own' : Nat → Prop} (h : SInv s0 s own)
    (hm : ∀ q ∈ s.live, own q.1 → own' q.1) : SInv s0 s own' :=
  ⟨h.inv, h.len, h.base, fun q hq hn => hm q hq (h.owned q hq hn)⟩

theorem SInv.append {P : Type u} {s0 s s' : Store P} {own own' : Nat → Prop} (h : SInv s0 s own)
    (hinv : s'.Inv) (hlen : s.reps.length ≤ s'.reps.length) (new : List (Nat × P))
    (hl : s'.live = s.live ++ new) (hn : ∀ q ∈ new, s.reps.length ≤ q.1 ∧ own' q.1)
    (hm : ∀ id, own id → own' id) : SInv s0 s' own' := by
  refine ⟨hinv, le_trans h.len hlen, ?_, ?_⟩
  · rw [hl, List.filter_append, h.base]
    have : new.filter (fun q => decide (q.1 < s0.reps.length)) = [] := by
      rw [List.filter_eq_nil_iff]
      intro q hq
      have h1 := (hn q hq).1
      have h2 := h.len
      simp; omega
    rw [this, List.append_nil]
  · intro q hq hle
    rw [hl, List.mem_append] at hq
    rcases hq with hq | hq
    · exact hm _ (h.owned q hq hle)
    · exact (hn q hq).2

theorem SInv.remove {P : Type u} {s0 s : Store P} {own own' : Nat → Prop} (h : SInv s0 s own)
    (ids : List Nat) (hids : ∀ id ∈ ids, s0.reps.length ≤ id) (hm : ∀ id, own id → id ∉ ids → own' id) :
    SInv s0 (s.remove ids) own' := by
  refine ⟨Store.remove_inv h.inv ids, ?_, ?_, ?_⟩
  · simp only [Store.remove, Store.mark_length]; exact h.len
  · rw [Store.remove_live, List.filter_filter, ← h.base]
    apply List.filter_congr
    intro q hq
    by_cases hlt : q.1 < s0.reps.length
    · have : q.1 ∉ ids := fun hc => by have := hids _ hc; omega
      simp [hlt, this]
    · simp [hlt]
  · intro q hq hle
    rw [Store.remove_live, List.mem_filter] at hq
    exact hm _ (h.owned q hq.1 hle) (by simpa using hq.2)

/-- The session invariant. -/
structure SessInv (m0 : OModel K) (σ : Sess K) : Prop where
  vars : SInv m0.vars σ.m.vars fun id => ∃ (i : Nat) (o : ConvexObjective K), σ.objs[i]? = some o ∧ o.inModel = true ∧ id ∈ o.vars
  cnts : SInv m0.cnts σ.m.cnts fun id =>
    (∃ (i : Nat) (o : ConvexObjective K), σ.objs[i]? = some o ∧ o.inModel = true ∧ id ∈ o.cnts) ∨
    (∃ (i : Nat) (c : ConvexConstraints K), σ.cons[i]? = some c ∧ c.inModel = true ∧ id ∈ c.cnts)
  objVars : ∀ (i : Nat) (o : ConvexObjective K), σ.objs[i]? = some o → ∀ id ∈ o.vars, m0.vars.reps.length ≤ id
  objCnts : ∀ (i : Nat) (o : ConvexObjective K), σ.objs[i]? = some o → ∀ id ∈ o.cnts, m0.cnts.reps.length ≤ id
  conCnts : ∀ (i : Nat) (c : ConvexConstraints K), σ.cons[i]? = some c → ∀ id ∈ c.cnts, m0.cnts.reps.length ≤ id

/-- A building call only adds variables, and remembers all of them. -/
structure Grow (s s' : BState K) : Prop where
  inModel : s'.2.inModel = s.2.inModel
  ocnts : s'.2.cnts = s.2.cnts
  cnts : s'.1.cnts = s.1.cnts
  inv : s'.1.vars.Inv
  len : s.1.vars.reps.length ≤ s'.1.vars.reps.length
  new : ∃ new, s'.1.vars.live = s.1.vars.live ++ new ∧ s'.2.vars = s.2.vars ++ new.map Prod.fst ∧
    ∀ q ∈ new, s.1.vars.reps.length ≤ q.1

theorem Grow.refl {s : BState K} (h : s.1.vars.Inv) : Grow s s :=
  ⟨rfl, rfl, rfl, h, le_refl _, [], by simp, by simp, by simp⟩

theorem Grow.trans {s s' s'' : BState K} (h : Grow s s') (h' : Grow s' s'') : Grow s s'' := by
  obtain ⟨new, a1, a2, a3⟩ := h.new
  obtain ⟨new', b1, b2, b3⟩ := h'.new
  refine ⟨h'.inModel.trans h.inModel, h'.ocnts.trans h.ocnts, h'.cnts.trans h.cnts, h'.inv,
    le_trans h.len h'.len, new ++ new', ?_, ?_, ?_⟩
  · rw [b1, a1, List.append_assoc]
  · rw [b2, a2]; simp
  · intro q hq
    rw [List.mem_append] at hq
    rcases hq with hq | hq
    · exact a3 q hq
    · exact le_trans h.len (b3 q hq)

theorem grow_hinge {s s' : BState K} (h : s.1.vars.Inv) {e : AffExpr K Nat} {c : K}
    (hr : ConvexObjective.addHinge s e c = some s') : Grow s s' := by
  cases hin : s.2.inModel with
  | false => simp [ConvexObjective.addHinge, hin] at hr
  | true =>
    obtain ⟨m', h1, h2, h3, h4, h5, _⟩ := addVar_spec h (Ext.fin 0) Ext.posInf
    rw [addHinge_eq hin h1] at hr
    injection hr with hr; subst hr
    exact ⟨hin ▸ rfl, rfl, h5, h2, by show _ ≤ m'.vars.reps.length; omega, _, h3, by simp, by simp⟩

theorem grow_abs {s s' : BState K} (h : s.1.vars.Inv) {e : AffExpr K Nat} {c : K}
    (hr : ConvexObjective.addAbs s e c = some s') : Grow s s' := by
  cases hin : s.2.inModel with
  | false => simp [ConvexObjective.addAbs, hin] at hr
  | true =>
    obtain ⟨m', h1, h2, h3, h4, h5, _⟩ := addVar_spec h (Ext.fin 0) Ext.posInf
    obtain ⟨m2, g1, g2, g3, g4, g5, _⟩ := addVar_spec h2 (Ext.fin 0) Ext.posInf
    rw [addAbs_eq hin h1 g1] at hr
    injection hr with hr; subst hr
    refine ⟨hin ▸ rfl, rfl, g5.trans h5, g2, by show _ ≤ m2.vars.reps.length; omega,
      [(s.1.vars.reps.length, (Ext.fin 0, Ext.posInf)), (m'.vars.reps.length, (Ext.fin 0, Ext.posInf))],
      ?_, by simp, ?_⟩
    · show m2.vars.live = _
      rw [g3, h3]; simp
    · intro q hq
      simp only [List.mem_cons, List.not_mem_nil, or_false] at hq
      rcases hq with rfl | rfl
      · exact le_refl _
      · show _ ≤ m'.vars.reps.length; omega

theorem grow_foldlM {α : Type u} (F : BState K → α → Option (BState K))
    (hF : ∀ s s' a, s.1.vars.Inv → F s a = some s' → Grow s s') (l : List α) {s s' : BState K}
    (h : s.1.vars.Inv) (hr : l.foldlM F s = some s') : Grow s s' := by
  induction l generalizing s with
  | nil => simp at hr; subst hr; exact Grow.refl h
  | cons a l ih =>
    rw [List.foldlM_cons] at hr
    cases ha : F s a with
    | none => simp [ha] at hr
    | some s1 =>
      simp only [ha] at hr
      have g := hF s s1 a h ha
      exact g.trans (ih g.inv hr)

theorem l2_fields (o : ConvexObjective K) (es : List (AffExpr K Nat)) :
    (o.addL2Norm es).inModel = o.inModel ∧ (o.addL2Norm es).cnts = o.cnts ∧
      (o.addL2Norm es).vars = o.vars := by
  induction es generalizing o with
  | nil => exact ⟨rfl, rfl, rfl⟩
  | cons e es ih => exact ih { o with quad := o.quad.inc e.square }

theorem grow_op {s s' : BState K} (h : s.1.vars.Inv) (op : BuildOp K) (hop : ∀ es, op ≠ .max es)
    (hr : op.run s = some s') : Grow s s' := by
  cases op with
  | aff e =>
    injection hr with hr; subst hr
    exact ⟨rfl, rfl, rfl, h, le_refl _, [], by simp, by simp [ConvexObjective.addAffExpr], by simp⟩
  | quad q =>
    injection hr with hr; subst hr
    exact ⟨rfl, rfl, rfl, h, le_refl _, [], by simp, by simp [ConvexObjective.addQuadExpr], by simp⟩
  | hinge e c => exact grow_hinge h hr
  | abs e c => exact grow_abs h hr
  | hinges es => exact grow_foldlM _ (fun s s' a hi hr => grow_hinge hi hr) es h hr
  | l1 es => exact grow_foldlM _ (fun s s' a hi hr => grow_abs hi hr) es h hr
  | l2 es =>
    injection hr with hr; subst hr
    obtain ⟨h1, h2, h3⟩ := l2_fields s.2 es
    exact ⟨h1, h2, rfl, h, le_refl _, [], by simp, by simp [h3], by simp⟩
  | max es => exact absurd rfl (hop es)

/-- Replacing an object by one that is still in the model and owns more keeps ownership. -/
theorem own_set {α : Type u} {l : List α} {i : Nat} {o o' : α} (h : l[i]? = some o) (p : α → Prop)
    (hp : p o → p o') (he : ∃ (j : Nat) (a : α), l[j]? = some a ∧ p a) : ∃ (j : Nat) (a : α), (l.set i o')[j]? = some a ∧ p a := by
  have hlt : i < l.length := by
    by_contra hc; rw [List.getElem?_eq_none (not_lt.mp hc)] at h; cases h
  obtain ⟨j, a, hj, ha⟩ := he
  by_cases hij : i = j
  · subst hij
    rw [h] at hj; injection hj with hj; subst hj
    exact ⟨i, o', by rw [List.getElem?_set_self hlt], hp ha⟩
  · exact ⟨j, a, by rw [List.getElem?_set_ne hij]; exact hj, ha⟩

theorem set_forall {α : Type u} {l : List α} {i : Nat} {o o' : α} (h : l[i]? = some o) {p : α → Prop}
    (hp : p o') (hl : ∀ (j : Nat) (a : α), l[j]? = some a → p a) : ∀ (j : Nat) (a : α), (l.set i o')[j]? = some a → p a := by
  have hlt : i < l.length := by
    by_contra hc; rw [List.getElem?_eq_none (not_lt.mp hc)] at h; cases h
  intro j a ha
  by_cases hij : i = j
  · subst hij
    rw [List.getElem?_set_self hlt] at ha
    injection ha with ha; subst ha; exact hp
  · rw [List.getElem?_set_ne hij] at ha; exact hl j a ha

theorem own_append {α : Type u} {l : List α} (b : α) (p : α → Prop)
    (he : ∃ (j : Nat) (a : α), l[j]? = some a ∧ p a) : ∃ (j : Nat) (a : α), (l ++ [b])[j]? = some a ∧ p a := by
  obtain ⟨j, a, hj, ha⟩ := he
  have hlt : j < l.length := by
    by_contra hc; rw [List.getElem?_eq_none (not_lt.mp hc)] at hj; cases hj
  exact ⟨j, a, by rw [List.getElem?_append_left hlt]; exact hj, ha⟩

theorem append_forall {α : Type u} {l : List α} {b : α} {p : α → Prop} (hb : p b)
    (hl : ∀ (j : Nat) (a : α), l[j]? = some a → p a) : ∀ (j : Nat) (a : α), (l ++ [b])[j]? = some a → p a := by
  intro j a ha
  have : a ∈ l ++ [b] := List.mem_of_getElem? ha
  rw [List.mem_append] at this
  rcases this with h | h
  · obtain ⟨k, hk⟩ := List.getElem?_of_mem h
    exact hl k a hk
  · simp at h; subst h; exact hb

/-- Ownership after an object has been destroyed: entries of the destroyed object are gone. -/
theorem own_kill {α : Type u} {l : List α} {i : Nat} {o o' : α} (h : l[i]? = some o) (p : α → Prop)
    (hp : ¬ p o) (he : ∃ (j : Nat) (a : α), l[j]? = some a ∧ p a) : ∃ (j : Nat) (a : α), (l.set i o')[j]? = some a ∧ p a := by
  obtain ⟨j, a, hj, ha⟩ := he
  by_cases hij : i = j
  · subst hij
    rw [h] at hj; injection hj with hj; subst hj
    exact absurd ha hp
  · exact ⟨j, a, by rw [List.getElem?_set_ne hij]; exact hj, ha⟩

/-- Effect of the two loops of `addConstraintsToModel`. -/
theorem addBoth_spec (m : OModel K) (hs : List Nat) (es fs : List (AffExpr K Nat)) (h : m.cnts.Inv) :
    (addCnts false (addCnts true (m, hs) es) fs).1.vars = m.vars ∧
    (addCnts false (addCnts true (m, hs) es) fs).1.cnts.Inv ∧
    m.cnts.reps.length ≤ (addCnts false (addCnts true (m, hs) es) fs).1.cnts.reps.length ∧
    ∃ new, (addCnts false (addCnts true (m, hs) es) fs).1.cnts.live = m.cnts.live ++ new ∧
      (∀ q ∈ new, m.cnts.reps.length ≤ q.1) ∧
      (addCnts false (addCnts true (m, hs) es) fs).2 = hs ++ new.map Prod.fst := by
  obtain ⟨a1, a2, a3, a4, new1, a5, a6, a7, a8⟩ := addCnts_spec true es m hs h
  set r1 := addCnts true (m, hs) es with hr1
  obtain ⟨b1, b2, b3, b4, new2, b5, b6, b7, b8⟩ := addCnts_spec false fs r1.1 r1.2 a3
  refine ⟨b1.trans a1, b3, le_trans a4 b4, new1 ++ new2, ?_, ?_, ?_⟩
  · rw [show addCnts false r1 fs = addCnts false (r1.1, r1.2) fs from rfl, b5, a5, List.append_assoc]
  · intro q hq
    rw [List.mem_append] at hq
    rcases hq with hq | hq
    · exact a7 q hq
    · exact le_trans a4 (b7 q hq)
  · rw [show addCnts false r1 fs = addCnts false (r1.1, r1.2) fs from rfl, b8, a8]; simp

theorem update_eq {m m' : OModel K} (h : m.update = some m') :
    m.vars.update = some m'.vars ∧ m.cnts.update = some m'.cnts ∧ m'.obj = m.obj := by
  simp only [OModel.update] at h
  cases hv : m.vars.update with
  | none => simp [hv] at h
  | some v =>
    cases hc : m.cnts.update with
    | none => simp [hv, hc] at h
    | some c => simp [hv, hc] at h; subst h; exact ⟨rfl, rfl, rfl⟩

theorem SInv.update {P : Type u} {s0 s s' : Store P} {own : Nat → Prop} (h : SInv s0 s own)
    (hu : s.update = some s') : SInv s0 s' own := by
  obtain ⟨s1, h1, h2, h3, h4, _⟩ := Store.update_spec h.inv
  rw [hu] at h1; injection h1 with h1; subst h1
  exact ⟨h2, by rw [h4]; exact h.len, by rw [h3]; exact h.base, by rw [h3]; exact h.owned⟩

theorem SessInv.step {m0 : OModel K} {σ σ' : Sess K} (h : SessInv m0 σ) (a : Act K) (ha : a.noMax)
    (hr : σ.step a = some σ') : SessInv m0 σ' := by
  cases a with
  | newObj =>
    injection hr with hr; subst hr
    refine ⟨h.vars.mono fun q _ ho => own_append _ (fun o : ConvexObjective K => o.inModel = true ∧ q.1 ∈ o.vars) ho,
      h.cnts.mono fun q _ ho => ho.imp (own_append _ (fun o : ConvexObjective K => o.inModel = true ∧ q.1 ∈ o.cnts)) id,
      ?_, ?_, h.conCnts⟩
    · exact append_forall (p := fun o : ConvexObjective K => ∀ id ∈ o.vars, m0.vars.reps.length ≤ id)
        (by simp [ConvexObjective.new]) h.objVars
    · exact append_forall (p := fun o : ConvexObjective K => ∀ id ∈ o.cnts, m0.cnts.reps.length ≤ id)
        (by simp [ConvexObjective.new]) h.objCnts
  | build i op =>
    simp only [Sess.step] at hr
    cases ho : σ.objs[i]? with
    | none => simp [ho] at hr
    | some o =>
      simp only [ho] at hr
      cases hop : op.run (σ.m, o) with
      | none => simp [hop] at hr
      | some s =>
        simp only [hop, Option.some.injEq] at hr
        subst hr
        have g : Grow (σ.m, o) s := grow_op h.vars.inv op (by
          intro es he; subst he; exact ha) hop
        obtain ⟨new, n1, n2, n3⟩ := g.new
        refine ⟨?_, ?_, ?_, ?_, h.conCnts⟩
        · refine h.vars.append g.inv g.len new n1 ?_ ?_
          · intro q hq
            refine ⟨n3 q hq, i, s.2, ?_, ?_, ?_⟩
            · have hlt : i < σ.objs.length := by
                by_contra hc; rw [List.getElem?_eq_none (not_lt.mp hc)] at ho; cases ho
              show (σ.objs.set i s.2)[i]? = _
              rw [List.getElem?_set_self hlt]
            · cases hin : o.inModel with
              | true => exact g.inModel.trans hin
              | false =>
                exfalso
                -- a dead object cannot have added a variable
                cases op with
                | aff e => injection hop with hop; subst hop; simp [ConvexObjective.addAffExpr] at n2; simp [n2] at hq
                | quad e => injection hop with hop; subst hop; simp [ConvexObjective.addQuadExpr] at n2; simp [n2] at hq
                | hinge e c => simp [BuildOp.run, ConvexObjective.addHinge, hin] at hop
                | abs e c => simp [BuildOp.run, ConvexObjective.addAbs, hin] at hop
                | hinges es =>
                  cases es with
                  | nil =>
                    simp [BuildOp.run, ConvexObjective.addHinges] at hop; subst hop
                    simp at n2; simp [n2] at hq
                  | cons e es =>
                    simp [BuildOp.run, ConvexObjective.addHinges, ConvexObjective.addHinge, hin] at hop
                | l1 es =>
                  cases es with
                  | nil =>
                    simp [BuildOp.run, ConvexObjective.addL1Norm] at hop; subst hop
                    simp at n2; simp [n2] at hq
                  | cons e es =>
                    simp [BuildOp.run, ConvexObjective.addL1Norm, ConvexObjective.addAbs, hin] at hop
                | l2 es =>
                  injection hop with hop; subst hop
                  have := (l2_fields o es).2.2
                  simp [this] at n2; simp [n2] at hq
                | max es => exact ha
            · rw [n2]; simp only [List.mem_append]
              exact Or.inr (List.mem_map_of_mem hq)
          · intro id hid
            refine own_set ho (fun o => o.inModel = true ∧ id ∈ o.vars) ?_ hid
            rintro ⟨p1, p2⟩
            exact ⟨g.inModel.trans p1, by rw [n2]; simp only [List.mem_append]; exact Or.inl p2⟩
        · have := h.cnts
          rw [show σ.m.cnts = s.1.cnts from g.cnts.symm] at this
          refine this.mono fun q _ hq => hq.imp (fun hq => ?_) id
          refine own_set ho (fun o => o.inModel = true ∧ q.1 ∈ o.cnts) ?_ hq
          rintro ⟨p1, p2⟩
          exact ⟨g.inModel.trans p1, by rw [g.ocnts]; exact p2⟩
        · refine set_forall ho (p := fun o => ∀ id ∈ o.vars, m0.vars.reps.length ≤ id) ?_ h.objVars
          intro id hid
          rw [n2, List.mem_append] at hid
          rcases hid with hid | hid
          · exact h.objVars i o ho id hid
          · obtain ⟨q, hq, rfl⟩ := List.mem_map.1 hid
            exact le_trans h.vars.len (n3 q hq)
        · refine set_forall ho (p := fun o => ∀ id ∈ o.cnts, m0.cnts.reps.length ≤ id) ?_ h.objCnts
          rw [g.ocnts]; exact h.objCnts i o ho
  | addObj i =>
    simp only [Sess.step] at hr
    cases ho : σ.objs[i]? with
    | none => simp [ho] at hr
    | some o =>
      simp only [ho] at hr
      cases hin : o.inModel with
      | false => simp [ConvexObjective.addConstraintsToModel, hin] at hr
      | true =>
        rw [addConstraints_eq (s := (σ.m, o)) hin] at hr
        simp only [Option.some.injEq] at hr
        subst hr
        have hlt : i < σ.objs.length := by
          by_contra hc; rw [List.getElem?_eq_none (not_lt.mp hc)] at ho; cases ho
        obtain ⟨b1, b2, b3, new, b4, b5, b6⟩ := addBoth_spec σ.m o.cnts o.eqs o.ineqs h.cnts.inv
        refine ⟨?_, ?_, ?_, ?_, h.conCnts⟩
        · have := h.vars
          rw [← b1] at this
          refine this.mono fun q _ hq => ?_
          exact own_set ho (fun o => o.inModel = true ∧ q.1 ∈ o.vars) (fun hp => hp) hq
        · refine h.cnts.append b2 b3 new b4 ?_ ?_
          · intro q hq
            refine ⟨b5 q hq, Or.inl ⟨i, _, List.getElem?_set_self hlt, hin, ?_⟩⟩
            show q.1 ∈ (addCnts false (addCnts true (σ.m, o.cnts) o.eqs) o.ineqs).2
            rw [b6, List.mem_append]
            exact Or.inr (List.mem_map_of_mem hq)
          · intro id hid
            refine hid.imp (fun hid => ?_) (fun hid => hid)
            refine own_set ho (fun o => o.inModel = true ∧ id ∈ o.cnts) ?_ hid
            rintro ⟨p1, p2⟩
            refine ⟨p1, ?_⟩
            show id ∈ (addCnts false (addCnts true (σ.m, o.cnts) o.eqs) o.ineqs).2
            rw [b6, List.mem_append]; exact Or.inl p2
        · exact set_forall ho (p := fun o => ∀ id ∈ o.vars, m0.vars.reps.length ≤ id)
            (h.objVars i o ho) h.objVars
        · refine set_forall ho (p := fun o => ∀ id ∈ o.cnts, m0.cnts.reps.length ≤ id) ?_ h.objCnts
          intro id hid
          have hid' : id ∈ (addCnts false (addCnts true (σ.m, o.cnts) o.eqs) o.ineqs).2 := hid
          rw [b6, List.mem_append] at hid'
          rcases hid' with hid' | hid'
          · exact h.objCnts i o ho id hid'
          · obtain ⟨q, hq, rfl⟩ := List.mem_map.1 hid'
            exact le_trans h.cnts.len (b5 q hq)
  | killObj i =>
    simp only [Sess.step] at hr
    cases ho : σ.objs[i]? with
    | none => simp [ho] at hr
    | some o =>
      simp only [ho, Option.some.injEq] at hr
      subst hr
      cases hin : o.inModel with
      | false =>
        have e : ConvexObjective.destroy (σ.m, o) = (σ.m, o) := by simp [ConvexObjective.destroy, hin]
        simp only [e]
        have e2 : σ.objs.set i o = σ.objs := by
          apply List.ext_getElem?
          intro j
          by_cases hij : i = j
          · subst hij
            have hlt : i < σ.objs.length := by
              by_contra hc; rw [List.getElem?_eq_none (not_lt.mp hc)] at ho; cases ho
            rw [List.getElem?_set_self hlt, ho]
          · rw [List.getElem?_set_ne hij]
        rw [e2]
        exact ⟨h.vars, h.cnts, h.objVars, h.objCnts, h.conCnts⟩
      | true =>
        have e : ConvexObjective.destroy (σ.m, o) =
            ((σ.m.removeCnts o.cnts).removeVars o.vars, { o with inModel := false }) := by
          simp [ConvexObjective.destroy, hin]
        simp only [e]
        refine ⟨?_, ?_, ?_, ?_, h.conCnts⟩
        · refine h.vars.remove o.vars (h.objVars i o ho) ?_
          intro id hid hnot
          exact own_kill ho (fun o => o.inModel = true ∧ id ∈ o.vars) (fun hp => hnot hp.2) hid
        · refine h.cnts.remove o.cnts (h.objCnts i o ho) ?_
          intro id hid hnot
          refine hid.imp (fun hid => ?_) (fun hid => hid)
          exact own_kill ho (fun o => o.inModel = true ∧ id ∈ o.cnts) (fun hp => hnot hp.2) hid
        · exact set_forall ho (p := fun o => ∀ id ∈ o.vars, m0.vars.reps.length ≤ id)
            (h.objVars i o ho) h.objVars
        · exact set_forall ho (p := fun o => ∀ id ∈ o.cnts, m0.cnts.reps.length ≤ id)
            (h.objCnts i o ho) h.objCnts
  | newCon =>
    injection hr with hr; subst hr
    refine ⟨h.vars, h.cnts.mono fun q _ ho => ho.imp (fun h => h)
      (own_append _ (fun o : ConvexConstraints K => o.inModel = true ∧ q.1 ∈ o.cnts)), h.objVars, h.objCnts, ?_⟩
    exact append_forall (p := fun o : ConvexConstraints K => ∀ id ∈ o.cnts, m0.cnts.reps.length ≤ id)
      (by simp [ConvexConstraints.new]) h.conCnts
  | conEq i e =>
    simp only [Sess.step] at hr
    cases ho : σ.cons[i]? with
    | none => simp [ho] at hr
    | some c =>
      simp only [ho, Option.some.injEq] at hr
      subst hr
      refine ⟨h.vars, h.cnts.mono fun q _ hq => hq.imp (fun h => h) fun hq =>
        own_set ho (fun o => o.inModel = true ∧ q.1 ∈ o.cnts) (fun hp => hp) hq, h.objVars, h.objCnts, ?_⟩
      exact set_forall ho (p := fun o => ∀ id ∈ o.cnts, m0.cnts.reps.length ≤ id)
        (h.conCnts i c ho) h.conCnts
  | conIneq i e =>
    simp only [Sess.step] at hr
    cases ho : σ.cons[i]? with
    | none => simp [ho] at hr
    | some c =>
      simp only [ho, Option.some.injEq] at hr
      subst hr
      refine ⟨h.vars, h.cnts.mono fun q _ hq => hq.imp (fun h => h) fun hq =>
        own_set ho (fun o => o.inModel = true ∧ q.1 ∈ o.cnts) (fun hp => hp) hq, h.objVars, h.objCnts, ?_⟩
      exact set_forall ho (p := fun o => ∀ id ∈ o.cnts, m0.cnts.reps.length ≤ id)
        (h.conCnts i c ho) h.conCnts
  | addCon i =>
    simp only [Sess.step] at hr
    cases ho : σ.cons[i]? with
    | none => simp [ho] at hr
    | some o =>
      simp only [ho] at hr
      cases hin : o.inModel with
      | false => simp [ConvexConstraints.addConstraintsToModel, hin] at hr
      | true =>
        have e : ConvexConstraints.addConstraintsToModel (σ.m, o) =
            some ((addCnts false (addCnts true (σ.m, o.cnts) o.eqs) o.ineqs).1,
              { o with cnts := (addCnts false (addCnts true (σ.m, o.cnts) o.eqs) o.ineqs).2 }) := by
          simp only [ConvexConstraints.addConstraintsToModel, hin, if_true]
        rw [e] at hr
        simp only [Option.some.injEq] at hr
        subst hr
        have hlt : i < σ.cons.length := by
          by_contra hc; rw [List.getElem?_eq_none (not_lt.mp hc)] at ho; cases ho
        obtain ⟨b1, b2, b3, new, b4, b5, b6⟩ := addBoth_spec σ.m o.cnts o.eqs o.ineqs h.cnts.inv
        refine ⟨?_, ?_, h.objVars, h.objCnts, ?_⟩
        · have := h.vars
          rw [← b1] at this
          exact this
        · refine h.cnts.append b2 b3 new b4 ?_ ?_
          · intro q hq
            refine ⟨b5 q hq, Or.inr ⟨i, _, List.getElem?_set_self hlt, hin, ?_⟩⟩
            show q.1 ∈ (addCnts false (addCnts true (σ.m, o.cnts) o.eqs) o.ineqs).2
            rw [b6, List.mem_append]
            exact Or.inr (List.mem_map_of_mem hq)
          · intro id hid
            refine hid.imp (fun hid => hid) (fun hid => ?_)
            refine own_set ho (fun o => o.inModel = true ∧ id ∈ o.cnts) ?_ hid
            rintro ⟨p1, p2⟩
            refine ⟨p1, ?_⟩
            show id ∈ (addCnts false (addCnts true (σ.m, o.cnts) o.eqs) o.ineqs).2
            rw [b6, List.mem_append]; exact Or.inl p2
        · refine set_forall ho (p := fun o => ∀ id ∈ o.cnts, m0.cnts.reps.length ≤ id) ?_ h.conCnts
          intro id hid
          have hid' : id ∈ (addCnts false (addCnts true (σ.m, o.cnts) o.eqs) o.ineqs).2 := hid
          rw [b6, List.mem_append] at hid'
          rcases hid' with hid' | hid'
          · exact h.conCnts i o ho id hid'
          · obtain ⟨q, hq, rfl⟩ := List.mem_map.1 hid'
            exact le_trans h.cnts.len (b5 q hq)
  | killCon i =>
    simp only [Sess.step] at hr
    cases ho : σ.cons[i]? with
    | none => simp [ho] at hr
    | some o =>
      simp only [ho, Option.some.injEq] at hr
      subst hr
      cases hin : o.inModel with
      | false =>
        have e : ConvexConstraints.destroy (σ.m, o) = (σ.m, o) := by simp [ConvexConstraints.destroy, hin]
        simp only [e]
        have e2 : σ.cons.set i o = σ.cons := by
          apply List.ext_getElem?
          intro j
          by_cases hij : i = j
          · subst hij
            have hlt : i < σ.cons.length := by
              by_contra hc; rw [List.getElem?_eq_none (not_lt.mp hc)] at ho; cases ho
            rw [List.getElem?_set_self hlt, ho]
          · rw [List.getElem?_set_ne hij]
        rw [e2]
        exact ⟨h.vars, h.cnts, h.objVars, h.objCnts, h.conCnts⟩
      | true =>
        have e : ConvexConstraints.destroy (σ.m, o) =
            (σ.m.removeCnts o.cnts, { o with inModel := false }) := by
          simp [ConvexConstraints.destroy, hin]
        simp only [e]
        refine ⟨h.vars, ?_, h.objVars, h.objCnts, ?_⟩
        · refine h.cnts.remove o.cnts (h.conCnts i o ho) ?_
          intro id hid hnot
          refine hid.imp (fun hid => hid) (fun hid => ?_)
          exact own_kill ho (fun o => o.inModel = true ∧ id ∈ o.cnts) (fun hp => hnot hp.2) hid
        · exact set_forall ho (p := fun o => ∀ id ∈ o.cnts, m0.cnts.reps.length ≤ id)
            (h.conCnts i o ho) h.conCnts
  | update =>
    simp only [Sess.step] at hr
    cases hu : σ.m.update with
    | none => simp [hu] at hr
    | some m =>
      simp only [hu, Option.some.injEq] at hr
      subst hr
      obtain ⟨h1, h2, _⟩ := update_eq hu
      exact ⟨h.vars.update h1, h.cnts.update h2, h.objVars, h.objCnts, h.conCnts⟩

theorem SessInv.run {m0 : OModel K} {σ σ' : Sess K} (h : SessInv m0 σ) (as : List (Act K))
    (ha : ∀ a ∈ as, a.noMax) (hr : as.foldlM Sess.step σ = some σ') : SessInv m0 σ' := by
  induction as generalizing σ with
  | nil => simp at hr; subst hr; exact h
  | cons a as ih =>
    rw [List.foldlM_cons] at hr
    cases hs : σ.step a with
    | none => simp [hs] at hr
    | some σ1 =>
      simp only [hs] at hr
      exact ih (h.step a (ha a (by simp)) hs) (fun b hb => ha b (by simp [hb])) hr

theorem sinv_start {P : Type u} {s : Store P} (h : s.Inv) (own : Nat → Prop) : SInv s s own := by
  refine ⟨h, le_refl _, ?_, ?_⟩
  · rw [List.filter_eq_self]
    intro q hq; simpa using live_lt h hq
  · intro q hq hn; have := live_lt h hq; omega

theorem SInv.finish {P : Type u} {s0 s : Store P} {own : Nat → Prop} (h : SInv s0 s own)
    (hn : ∀ id, ¬ own id) : s.live = s0.live := by
  rw [← h.base, eq_comm, List.filter_eq_self]
  intro q hq
  by_contra hc
  exact hn _ (h.owned q hq (by simpa using hc))

/-- C10: take any model, run any interleaving of creating, building, adding and destroying convex
objectives and constraints and of `update()` on it (without `addMax`, see `C10_violated_by_addMax`).  When
all created objects have been destroyed and `update()` is called, the model's variable vector (with bounds)
and constraint vector (with expressions and types) contain exactly what was live before, in the same order,
and each entry's index is its position. -/
theorem C10_no_residue_partial (m0 : OModel K) (hv : m0.vars.Inv) (hc : m0.cnts.Inv) (as : List (Act K))
    (ha : ∀ a ∈ as, a.noMax) (σ : Sess K) (hr : as.foldlM Sess.step ⟨m0, [], []⟩ = some σ)
    (ho : ∀ o ∈ σ.objs, o.inModel = false) (hk : ∀ c ∈ σ.cons, c.inModel = false) :
    ∃ m', σ.m.update = some m' ∧
      m'.vars.items = m0.vars.live.map (fun q => (some q.1, q.2)) ∧
      m'.cnts.items = m0.cnts.live.map (fun q => (some q.1, q.2)) ∧
      (∀ (k : Nat) q, m0.vars.live[k]? = some q → m'.vars.indexOf q.1 = some k) ∧
      (∀ (k : Nat) q, m0.cnts.live[k]? = some q → m'.cnts.indexOf q.1 = some k) := by
  have start : SessInv m0 ⟨m0, [], []⟩ :=
    ⟨sinv_start hv _, sinv_start hc _, by simp, by simp, by simp⟩
  have h := start.run as ha hr
  have lv : σ.m.vars.live = m0.vars.live := h.vars.finish (by
    rintro id ⟨i, o, h1, h2, _⟩
    rw [ho o (List.mem_of_getElem? h1)] at h2; cases h2)
  have lc : σ.m.cnts.live = m0.cnts.live := h.cnts.finish (by
    rintro id (⟨i, o, h1, h2, _⟩ | ⟨i, o, h1, h2, _⟩)
    · rw [ho o (List.mem_of_getElem? h1)] at h2; cases h2
    · rw [hk o (List.mem_of_getElem? h1)] at h2; cases h2)
  obtain ⟨v, a1, a2, a3, a4, a5⟩ := Store.update_spec h.vars.inv
  obtain ⟨c, b1, b2, b3, b4, b5⟩ := Store.update_spec h.cnts.inv
  have idx : ∀ {P : Type u} {s : Store P} (_ : s.Inv) {l : List (Nat × P)}
      (_ : s.items = l.map (fun q => (some q.1, q.2))) (k : Nat) (q : Nat × P), l[k]? = some q →
      s.indexOf q.1 = some k := by
    intro P s hs l hl k q hq
    have : s.items[k]? = some (some q.1, q.2) := by rw [hl, List.getElem?_map, hq]; rfl
    obtain ⟨id, r, g1, g2, g3⟩ := hs k _ this
    injection g1 with g1
    simp [Store.indexOf, g1, g2, g3]
  rw [lv] at a5
  rw [lc] at b5
  refine ⟨{ σ.m with vars := v, cnts := c }, ?_, a5, b5, idx a2 a5, idx b2 b5⟩
  simp [OModel.update, a1, b1]

/-- C10, leak of `addMax`: creating an objective with `addMax`, adding it, destroying it and updating
leaves a variable behind. -/
theorem C10_violated_by_addMax :
    ∃ σ m', ([.newObj, .build 0 (.max [AffExpr.ofConst 5]), .addObj 0, .killObj 0] : List (Act ℚ)).foldlM
        Sess.step ⟨OModel.empty, [], []⟩ = some σ ∧
      (∀ o ∈ σ.objs, o.inModel = false) ∧ σ.m.update = some m' ∧ m'.vars.live.length = 1 ∧
      (OModel.empty : OModel ℚ).vars.live.length = 0 := by
  refine ⟨_, _, rfl, ?_, rfl, rfl, rfl⟩
  intro o ho
  have h : o = _ := List.mem_singleton.1 ho
  rw [h]; rfl

/-- non-vacuity for C10: two objectives and one constraint alive at the same time, destroyed in a different
order, with an `update()` in between. -/
example : ∃ σ, ([.newObj, .newCon, .build 0 (.hinge ⟨0, [(1, 0)]⟩ 2), .newObj, .conEq 0 ⟨1, [(1, 0)]⟩, .addObj 0,
    .addCon 0, .build 1 (.abs ⟨3, [(2, 0)]⟩ 1), .killObj 0, .update, .addObj 1, .killCon 0, .killObj 1] :
    List (Act ℚ)).foldlM Sess.step ⟨OModel.empty, [], []⟩ = some σ ∧ (∀ o ∈ σ.objs, o.inModel = false) ∧
    (∀ o ∈ σ.cons, o.inModel = false) := by
  have key : ∀ (l : List (Act ℚ)) (σ : Sess ℚ), l.foldlM Sess.step ⟨OModel.empty, [], []⟩ = some σ →
      σ.objs.all (fun o => !o.inModel) = true → σ.cons.all (fun o => !o.inModel) = true →
      ∃ σ, l.foldlM Sess.step ⟨OModel.empty, [], []⟩ = some σ ∧ (∀ o ∈ σ.objs, o.inModel = false) ∧
        (∀ o ∈ σ.cons, o.inModel = false) := by
    intro l σ h1 h2 h3
    refine ⟨σ, h1, fun o ho => ?_, fun o ho => ?_⟩
    · simpa using List.all_eq_true.1 h2 o ho
    · simpa using List.all_eq_true.1 h3 o ho
  exact key _ _ rfl rfl rfl

end Verif.Sco
