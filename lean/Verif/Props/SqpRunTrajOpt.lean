import Verif.Props.SqpRunMain
import Verif.Props.OsqpEigenMeaning
import Verif.Props.QpEval

/-!
`TrajOptQPProblem` conforms to the interface the optimizer relies on.
-/

set_option linter.unusedSectionVars false
set_option linter.unusedVariables false

namespace Verif.QpProblem

open Verif.Bounds Verif.Sco Verif.SqpExprs

universe u
variable {K : Type u} [Field K] [LinearOrder K] [IsStrictOrderedRing K]

/-! ### `convexify` up to the variable bounds -/

/-- `convexifyCore` before the call of `updateNLPVariableBounds`. -/
def State.core (sqrt : K → K) (junk : Nat → Ext K) (s : State K) : Option (State K) :=
  let terms := (s.penInfos.zip (s.penalty.map s.ask)).map (fun t => (false, t.1, t.2)) ++
    (s.meritInfos.zip (s.merit.map s.ask)).map (fun t => (true, t.1, t.2))
  match termsOut s.x s.meritCoeff 0 s.nVars terms with
  | none => none
  | some bs =>
    let outs := bs.flatMap (·.outs)
    let grad := outs.flatMap (·.grad)
    let nSlack := grad.length
    let nQpVars := s.nVars + nSlack
    let nQpCnts := s.nPen + s.nMerit + nQpVars
    match writeSeg s.constant 0 (bs.flatMap (·.constants)), writeSeg s.lower 0 (outs.map (·.lower)),
      writeSeg s.upper 0 (outs.map (·.upper)) with
    | some constant, some lower, some upper =>
      let lower := conservativeResize junk nQpCnts lower
      let upper := conservativeResize junk nQpCnts upper
      let lower := lower.take (nQpCnts - nSlack) ++ List.replicate nSlack (.fin 0)
      let upper := upper.take (nQpCnts - nSlack) ++ List.replicate nSlack .posInf
      match s.sqObjectiveOf sqrt with
      | none => none
      | some (target, sq) =>
        let gradHead := if s.nObj = 0 then List.replicate s.nVars 0 else sq.objLinear
        let hessTrips := if s.nObj = 0 then [] else sq.objQuadratic.triplets.map fun t => (t.1, t.2.1, thr t.2.2)
        let diag := (List.range nQpVars).map fun i => (s.nMerit + s.nPen + i, i, (1 : K))
        match setFromTriplets nQpVars nQpVars hessTrips,
          setFromTriplets nQpCnts nQpVars (outs.flatMap (·.trips) ++ diag) with
        | some hessian, some matrix =>
          some { s with nSlack := nSlack, nQpVars := nQpVars, nQpCnts := nQpCnts, constant := constant, lower := lower,
                        upper := upper, target := target, sqObjective := sq, gradient := gradHead ++ grad,
                        hessian := hessian, matrix := matrix }
        | _, _ => none
    | _, _, _ => none

theorem convexifyCore_eq (sqrt : K → K) (junk : Nat → Ext K) (s : State K) :
    s.convexifyCore sqrt junk = (s.core sqrt junk).bind State.updateNLPVariableBounds := by
  unfold State.convexifyCore State.core
  simp only
  cases termsOut s.x s.meritCoeff 0 s.nVars _ with
  | none => rfl
  | some bs =>
    simp only
    cases writeSeg s.constant 0 _ <;> try simp only [Option.bind_none]
    cases writeSeg s.lower 0 _ <;> try simp only [Option.bind_none]
    cases writeSeg s.upper 0 _ <;> try simp only [Option.bind_none]
    cases s.sqObjectiveOf sqrt with
    | none => rfl
    | some r =>
      obtain ⟨target, sq⟩ := r
      simp only
      cases setFromTriplets (K := K) _ _ _ <;> try simp only [Option.bind_none]
      cases setFromTriplets (K := K) _ _ _ <;> simp only [Option.bind_none, Option.bind_some]

theorem core_box (sqrt : K → K) (junk : Nat → Ext K) (s : State K) (b : List K) :
    ({ s with box := b } : State K).core sqrt junk = (s.core sqrt junk).map fun u => { u with box := b } := by
  have e : ({ s with box := b } : State K).sqObjectiveOf sqrt = s.sqObjectiveOf sqrt := rfl
  have e2 : ({ s with box := b } : State K).ask = s.ask := rfl
  unfold State.core
  simp only [e, e2]
  cases termsOut s.x s.meritCoeff 0 s.nVars _ with
  | none => rfl
  | some bs =>
    simp only
    cases writeSeg s.constant 0 _ <;> try simp only [Option.map_none]
    cases writeSeg s.lower 0 _ <;> try simp only [Option.map_none]
    cases writeSeg s.upper 0 _ <;> try simp only [Option.map_none]
    cases s.sqObjectiveOf sqrt with
    | none => rfl
    | some r =>
      obtain ⟨target, sq⟩ := r
      simp only
      cases setFromTriplets (K := K) _ _ _ <;> try simp only [Option.map_none]
      cases setFromTriplets (K := K) _ _ _ <;> simp only [Option.map_none, Option.map_some]

theorem core_frame {sqrt : K → K} {junk : Nat → Ext K} {s u : State K} (h : s.core sqrt junk = some u) :
    u.nVars = s.nVars ∧ u.varBounds = s.varBounds ∧ u.x = s.x ∧ u.box = s.box ∧ u.nPen = s.nPen ∧ u.nMerit = s.nMerit := by
  unfold State.core at h
  simp only at h
  cases h1 : termsOut s.x s.meritCoeff 0 s.nVars _ with
  | none => rw [h1] at h; cases h
  | some bs =>
    rw [h1] at h
    simp only at h
    split at h
    · split at h
      · cases h
      · split at h
        · cases h; exact ⟨rfl, rfl, rfl, rfl, rfl, rfl⟩
        · cases h
    · cases h

theorem update_box (junk : Nat → Ext K) (s : State K) (b : List K) :
    ({ s with box := b } : State K).update junk = { s.update junk with box := b } := by
  unfold State.update
  have e : ∀ cs, totalRows ({ s with box := b } : State K) cs = totalRows s cs := fun _ => rfl
  have e2 : refresh s.initialized ({ s with box := b } : State K) = refresh s.initialized s := rfl
  simp only [e, e2]
  split_ifs <;> rfl

/-! ### Writing the variable bounds twice -/

theorem writeSeg_again {α : Type u} {l l' : List α} {pos : Nat} {a b : List α} (h : writeSeg l pos a = some l') (hab : b.length = a.length) :
    writeSeg l' pos b = writeSeg l pos b := by
  unfold writeSeg at h
  split_ifs at h with h1
  cases h
  unfold writeSeg
  have hl : (l.take pos ++ a ++ l.drop (pos + a.length)).length = l.length := by
    simp only [List.length_append, List.length_take, List.length_drop]; omega
  rw [hl, if_pos (by rw [hab]; exact h1), if_pos (by rw [hab]; exact h1)]
  have hp : (l.take pos).length = pos := by simp; omega
  have e1 : (l.take pos ++ a ++ l.drop (pos + a.length)).take pos = l.take pos := by
    rw [List.append_assoc, List.take_append_of_le_length (by omega), List.take_of_length_le (by omega)]
  have e2 : (l.take pos ++ a ++ l.drop (pos + a.length)).drop (pos + a.length) = l.drop (pos + a.length) := by
    rw [List.drop_append_of_le_length (by simp; omega), List.drop_of_length_le (by simp), List.nil_append]
  rw [hab, e1, e2]

/-- The bounds for the centre `y` and the box `d` written over those of `u`. -/
def State.rebound (u : State K) (y : Nat → K) (d : List K) : Option (State K) := ({ u with x := y, box := d } : State K).updateNLPVariableBounds

/-- The fields the QP and the convex functions are made of. -/
structure Like (r s : State K) : Prop where
  nQpVars : s.nQpVars = r.nQpVars
  nQpCnts : s.nQpCnts = r.nQpCnts
  hessian : s.hessian = r.hessian
  gradient : s.gradient = r.gradient
  matrix : s.matrix = r.matrix
  lower : s.lower = r.lower
  upper : s.upper = r.upper
  constant : s.constant = r.constant
  sqObjective : s.sqObjective = r.sqObjective
  objInfos : s.objInfos = r.objInfos
  penInfos : s.penInfos = r.penInfos
  meritInfos : s.meritInfos = r.meritInfos
  nObj : s.nObj = r.nObj
  nPen : s.nPen = r.nPen
  nMerit : s.nMerit = r.nMerit

theorem Like.refl (s : State K) : Like s s := ⟨rfl, rfl, rfl, rfl, rfl, rfl, rfl, rfl, rfl, rfl, rfl, rfl, rfl, rfl, rfl⟩

theorem Like.violations {r s : State K} (h : Like r s) (n row : Nat) (z : Nat → K) (is : List (Info K)) :
    s.convexViolations n z row is = r.convexViolations n z row is := by
  induction is generalizing row with
  | nil => rfl
  | cons i is ih => simp only [State.convexViolations, ih, State.convexViolation, h.constant, h.matrix]

theorem Like.cnts {r s : State K} (h : Like r s) (hn : s.nVars = r.nVars) (z : Nat → K) :
    s.evaluateConvexConstraintViolations z = r.evaluateConvexConstraintViolations z := by
  rw [State.evaluateConvexConstraintViolations, State.evaluateConvexConstraintViolations, h.violations, h.nPen, h.meritInfos, hn]

theorem Like.costs {r s : State K} (h : Like r s) (z : Nat → K) : s.evaluateConvexCosts z = r.evaluateConvexCosts z := by
  simp only [State.evaluateConvexCosts, h.violations, h.nQpVars, h.penInfos, h.objInfos, h.sqObjective, h.nObj]

theorem updateNLP_shape {s s' : State K} (h : s.updateNLPVariableBounds = some s') :
    ∃ iv lo hi, s.boxBounds = some iv ∧ writeSeg s.lower (s.nMerit + s.nPen) (iv.map fun i => Ext.fin i.1) = some lo ∧
      writeSeg s.upper (s.nMerit + s.nPen) (iv.map fun i => Ext.fin i.2) = some hi ∧ s' = { s with lower := lo, upper := hi } := by
  unfold State.updateNLPVariableBounds at h
  split at h
  · cases h
  · rename_i iv hiv
    split at h
    · rename_i lo hi h1 h2
      cases h
      exact ⟨iv, lo, hi, hiv, h1, h2, rfl⟩
    · cases h

theorem boxBounds_length {s : State K} {iv : List (K × K)} (h : s.boxBounds = some iv) : iv.length = s.nVars := by
  have : ∀ (l : List Nat) (f : Nat → Option (K × K)) iv, l.mapM f = some iv → iv.length = l.length := by
    intro l f
    induction l with
    | nil => intro iv h; simp at h; subst h; rfl
    | cons a l ih =>
      intro iv h
      rw [List.mapM_cons] at h
      cases ha : f a with
      | none => rw [ha] at h; cases h
      | some b =>
        rw [ha] at h
        cases hm : l.mapM f with
        | none => rw [hm] at h; cases h
        | some bs => rw [hm] at h; cases h; simp [ih bs hm]
  have h2 := this (List.range s.nVars) _ iv h
  simpa using h2

/-- Bounds that were written over `u` can be written over. -/
theorem rebound_again {u u' s : State K} {y : Nat → K} {d b : List K} (h : u.rebound y d = some u') (hl : Like u' s)
    (hn : s.nVars = u.nVars) (hv : s.varBounds = u.varBounds) (hb : b.length = s.nVars) (hvl : s.varBounds.length = s.nVars)
    (hval : ∀ v ∈ s.varBounds, Valid v) :
    ∃ lo hi u'', ({ s with box := b } : State K).updateNLPVariableBounds = some { s with box := b, lower := lo, upper := hi } ∧
      u.rebound s.x b = some u'' ∧ Like u'' { s with box := b, lower := lo, upper := hi } := by
  obtain ⟨iv, lo, hi, a1, a2, a3, rfl⟩ := updateNLP_shape h
  have e1 := boxBounds_length a1
  have hpm : s.nPen = u.nPen := hl.nPen
  have hmm : s.nMerit = u.nMerit := hl.nMerit
  have hlo : s.lower = lo := hl.lower
  have hhi : s.upper = hi := hl.upper
  obtain ⟨iv', c1, c2⟩ := boxBounds_some ({ s with box := b } : State K) hb hvl hval
  have c1' : ({ u with x := s.x, box := b } : State K).boxBounds = some iv' := by
    rw [← c1]
    unfold State.boxBounds
    simp only [hn, hv]
  have w1 : writeSeg lo (u.nMerit + u.nPen) (iv'.map fun i => Ext.fin i.1) = writeSeg u.lower (u.nMerit + u.nPen) (iv'.map fun i => Ext.fin i.1) :=
    writeSeg_again a2 (by simp only [List.length_map, c2, e1]; exact hn)
  have w2 : writeSeg hi (u.nMerit + u.nPen) (iv'.map fun i => Ext.fin i.2) = writeSeg u.upper (u.nMerit + u.nPen) (iv'.map fun i => Ext.fin i.2) :=
    writeSeg_again a3 (by simp only [List.length_map, c2, e1]; exact hn)
  have l1 : u.nMerit + u.nPen + u.nVars ≤ u.lower.length := by
    unfold writeSeg at a2
    split_ifs at a2 with hh
    simpa [e1] using hh
  have l2 : u.nMerit + u.nPen + u.nVars ≤ u.upper.length := by
    unfold writeSeg at a3
    split_ifs at a3 with hh
    simpa [e1] using hh
  obtain ⟨lo', b1, -⟩ := writeSeg_some u.lower (u.nMerit + u.nPen) (iv'.map fun i => Ext.fin i.1) (by simp [c2, hn]; omega)
  obtain ⟨hi', b2, -⟩ := writeSeg_some u.upper (u.nMerit + u.nPen) (iv'.map fun i => Ext.fin i.2) (by simp [c2, hn]; omega)
  refine ⟨lo', hi', { u with x := s.x, box := b, lower := lo', upper := hi' }, ?_, ?_, ?_⟩
  · unfold State.updateNLPVariableBounds
    rw [c1]
    simp only [hpm, hmm, hlo, hhi, w1, w2, b1, b2]
  · simp only [State.rebound, State.updateNLPVariableBounds, c1', b1, b2]
  · exact ⟨hl.nQpVars, hl.nQpCnts, hl.hessian, hl.gradient, hl.matrix, rfl, rfl, hl.constant, hl.sqObjective, hl.objInfos, hl.penInfos,
      hl.meritInfos, hl.nObj, hl.nPen, hl.nMerit⟩

end Verif.QpProblem
