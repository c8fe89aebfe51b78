import Verif.Props.SqpRunProps

/-!
When all programs of a run have bounds inside OSQP's range: the hypothesis `Run.Moderate` of C130 and C132.
-/

set_option linter.unusedSectionVars false
set_option linter.unusedVariables false

namespace Verif.SqpRun

open Verif.Bounds Verif.SqpExprs
open Verif.QpProblem
open Verif.Sco (osqpInfty)
open Verif.Sqp (Params)
open Verif.OsqpEigen (Solver)

universe u
variable {K : Type u} [Field K] [LinearOrder K] [IsStrictOrderedRing K]

/-- Specification: the variables have finite bounds, and the bounds of all rows, moved by what the linearization adds, are inside OSQP's
range. -/
structure Desc.InRange (D : Desc K) : Prop where
  vars : ∃ M, M < osqpInfty ∧ ∀ b ∈ D.varBounds, ∃ l u, b = (some l, some u) ∧ -M ≤ l ∧ u ≤ M
  rows : ∀ c ∈ D.penalty ++ D.merit, ∀ x u x' u', ∀ p ∈ (c.ask x u).values.zip (c.ask x u).jac.rows, ∀ b ∈ (c.ask x' u').bounds,
    (∀ l, b.lower = .fin l → |l - (p.1 - dot p.2 x)| < osqpInfty) ∧ ∀ l, b.upper = .fin l → |l - (p.1 - dot p.2 x)| < osqpInfty

theorem setRows_mem {mc : K} {x0 : Nat → K} {i : Info K} {s : Snap K} {r : Row K} (h : r ∈ setRows mc x0 i s) :
    ∃ p ∈ s.values.zip s.jac.rows, r.constant = p.1 - dot p.2 x0 ∧ r.bound ∈ i.bounds := by
  unfold setRows at h
  obtain ⟨k, hk⟩ := List.mem_iff_getElem?.1 h
  rw [List.getElem?_zipWith] at hk
  cases h1 : (s.values.zip s.jac.rows)[k]? with
  | none => rw [h1] at hk; cases hk
  | some p =>
    cases h2 : (i.coeffs.zip i.bounds)[k]? with
    | none => rw [h1, h2] at hk; cases hk
    | some q =>
      rw [h1, h2] at hk
      simp only [Option.some.injEq] at hk
      subst hk
      refine ⟨p, List.mem_of_getElem? h1, rfl, ?_⟩
      obtain ⟨a, b⟩ := q
      exact (List.of_mem_zip (List.mem_of_getElem? h2)).2

theorem rows_range {mu : Nat → K} {s : State K} {u0 : Nat → K} (h1 : List.Forall₂ (Fits u0) s.penInfos s.penalty)
    (h2 : List.Forall₂ (Fits u0) s.meritInfos s.merit) {r : Row K} (hr : r ∈ problemRows mu s) :
    ∃ c ∈ s.penalty ++ s.merit, ∃ x' u', ∃ p ∈ (s.ask c).values.zip (s.ask c).jac.rows, r.constant = p.1 - dot p.2 s.x ∧
      r.bound ∈ (c.ask x' u').bounds := by
  have fit : ∀ {is : List (Info K)} {cs : List (Comp K)}, List.Forall₂ (Fits u0) is cs → ∀ p ∈ is.zip cs, Fits u0 p.1 p.2 := by
    intro is cs h
    induction h with
    | nil => intro p hp; cases hp
    | cons a _ ih =>
      intro p hp
      rw [List.zip_cons_cons] at hp
      rcases List.mem_cons.1 hp with rfl | hp
      · exact a
      · exact ih p hp
  unfold problemRows at hr
  rcases List.mem_append.1 hr with hr | hr
  · obtain ⟨⟨i, c⟩, hp, hr⟩ := List.mem_flatMap.1 hr
    obtain ⟨p, p1, p2, p3⟩ := setRows_mem hr
    obtain ⟨x', u1, e, -⟩ := fit h1 _ hp
    refine ⟨c, List.mem_append.2 (.inl (List.of_mem_zip hp).2), x', u1, p, p1, p2, ?_⟩
    simp only at e p3
    rw [e] at p3; exact p3
  · obtain ⟨⟨⟨i, c⟩, k⟩, hp, hr⟩ := List.mem_flatMap.1 hr
    obtain ⟨p, p1, p2, p3⟩ := setRows_mem hr
    have hp := List.fst_mem_of_mem_zipIdx hp
    obtain ⟨x', u1, e, -⟩ := fit h2 _ hp
    refine ⟨c, List.mem_append.2 (.inr (List.of_mem_zip hp).2), x', u1, p, p1, p2, ?_⟩
    simp only at e p3
    rw [e] at p3; exact p3

section
variable {sqrt : K → K} {hash : (Nat → K) → Nat} {junk : Nat → Ext K} {p : Params K} {o : World K} {s0 : State K} {qs : Solver K} {D : Desc K}

/-- Every program built for a problem in range is in range. -/
theorem built_moderate (hsqrt : ∀ a : K, 0 ≤ a → sqrt a * sqrt a = a) (hD : D.InRange) :
    ∀ s, Usable hash D s → Built sqrt junk hash D s → (OsqpEigen.ofState s).Moderate := by
  obtain ⟨M, hM, hb⟩ := hD.vars
  rintro s hs ⟨t, u, u', y, d, t1, t2, t3, t4, t5, t6⟩
  obtain ⟨r, rows, outs, iv0, head, iv, c1, c2, c3, c4, c5, e1, e2, e3, e4, e5⟩ := built_layout hsqrt t1 t2 t3 t4
  have hiv : ∀ q ∈ iv, -M ≤ q.1 ∧ q.1 ≤ q.2 ∧ q.2 ≤ M := by
    intro q hq
    obtain ⟨i, hi⟩ := List.mem_iff_getElem?.1 hq
    obtain ⟨k, k1, k2⟩ := mapM_get _ _ _ e1 _ _ hi
    simp only at k2
    split at k2
    · rename_i b lb ub hd hvb
      obtain ⟨f1, f2, -⟩ := core_frame t2
      have hvb' : (lb, ub) ∈ t.varBounds := by
        have g : (t.update junk).varBounds = t.varBounds := by unfold State.update; split_ifs <;> rfl
        rw [← g, ← f2]; exact List.mem_of_getElem? hvb
      obtain ⟨lo, hi', z1, xi, -, -, -, z2, z3, z4⟩ := C16_trust_interval b (y k) lb ub (t1.live.valid _ hvb') (t6 b (List.mem_of_getElem? hd))
      obtain ⟨l, v, hlv, g1, g2⟩ := hb (lb, ub) (by rw [← t1.varBounds]; exact hvb')
      injection hlv with hl hv
      rw [z1] at k2
      cases k2
      have i1 := ((z4 lo).1 ⟨le_refl _, z2.trans z3⟩).1.1 l hl
      have i2 := ((z4 hi').1 ⟨z2.trans z3, le_refl _⟩).1.2 v hv
      exact ⟨g1.trans i1, z2.trans z3, i2.trans g2⟩
    · cases k2
  obtain ⟨r', outs', iv0', head', d1, -, d3, -⟩ := t1.live.convexify sqrt hsqrt junk
  have hrr : r' = r := Option.some.inj (d1.symm.trans c1)
  subst hrr
  have hlen : outs.length = outs'.length := by rw [c3.laid.length, d3.laid.length, c3.rowsLen, d3.rowsLen]
  have elo : outs.map (·.lower) = outs'.map (·.lower) := by
    have := c3.lower.symm.trans d3.lower
    rw [List.append_assoc, List.append_assoc] at this
    exact (List.append_inj this (by simp [hlen])).1
  have eup : outs.map (·.upper) = outs'.map (·.upper) := by
    have := c3.upper.symm.trans d3.upper
    rw [List.append_assoc, List.append_assoc] at this
    exact (List.append_inj this (by simp [hlen])).1
  have lv := (t1.live.update junk).1
  obtain ⟨u0, -, k2, k3, -⟩ := lv.cached
  have gp : (t.update junk).penalty = D.penalty ∧ (t.update junk).merit = D.merit := by
    have : (t.update junk).penalty = t.penalty ∧ (t.update junk).merit = t.merit := by unfold State.update; split_ifs <;> exact ⟨rfl, rfl⟩
    rw [this.1, this.2, t1.penalty, t1.merit]; exact ⟨rfl, rfl⟩
  have hout : ∀ out ∈ outs', (∀ l, out.lower = .fin l → |l| < osqpInfty) ∧ ∀ l, out.upper = .fin l → |l| < osqpInfty := by
    intro out ho
    obtain ⟨k, hk⟩ := List.mem_iff_getElem?.1 ho
    have hlt : k < (problemRows (usedMerit (t.update junk).meritInfos (t.update junk).meritCoeff) (t.update junk)).length := by
      rw [← d3.laid.length]; exact (List.getElem?_eq_some_iff.1 hk).1
    obtain ⟨o', o1, o2, o3⟩ := d3.laid.bounds (le_refl _) d3.jac k _ (List.getElem?_eq_getElem hlt)
    rw [hk] at o1; injection o1 with o1; subst o1
    obtain ⟨c, hc, x', u', pr, p1, p2, p3⟩ := rows_range k2 k3 (List.getElem_mem hlt)
    rw [gp.1, gp.2] at hc
    obtain ⟨q1, q2⟩ := hD.rows c hc _ _ x' u' pr p1 _ p3
    constructor
    · intro l hl
      rw [o2] at hl
      cases hbl : (problemRows (usedMerit (t.update junk).meritInfos (t.update junk).meritCoeff) (t.update junk))[k].bound.lower with
      | fin a =>
        rw [hbl] at hl
        simp only [addScalar, Ext.fin.injEq] at hl
        rw [← hl, p2, ← sub_eq_add_neg]
        exact q1 a hbl
      | negInf => rw [hbl] at hl; simp [addScalar] at hl
      | posInf => rw [hbl] at hl; simp [addScalar] at hl
    · intro l hl
      rw [o3] at hl
      cases hbl : (problemRows (usedMerit (t.update junk).meritInfos (t.update junk).meritCoeff) (t.update junk))[k].bound.upper with
      | fin a =>
        rw [hbl] at hl
        simp only [addScalar, Ext.fin.injEq] at hl
        rw [← hl, p2, ← sub_eq_add_neg]
        exact q2 a hbl
      | negInf => rw [hbl] at hl; simp [addScalar] at hl
      | posInf => rw [hbl] at hl; simp [addScalar] at hl
  have h0 : |(0 : K)| < osqpInfty := by rw [abs_zero]; exact Sco.infty_pos
  constructor
  · intro l hl
    have hl' : Ext.fin l ∈ s.lower := hl
    rw [e3, elo] at hl'
    rcases List.mem_append.1 hl' with hl' | hl'
    · rcases List.mem_append.1 hl' with hl' | hl'
      · obtain ⟨out, ho, ho2⟩ := List.mem_map.1 hl'
        exact (hout out ho).1 l ho2
      · obtain ⟨q, hq, hq2⟩ := List.mem_map.1 hl'
        injection hq2 with hq2
        obtain ⟨x1, x2, x3⟩ := hiv _ hq
        rw [← hq2, abs_lt]; constructor <;> linarith
    · have := (List.mem_replicate.1 hl').2
      injection this with this
      rw [this]; exact h0
  · intro l hl
    have hl' : Ext.fin l ∈ s.upper := hl
    rw [e4, eup] at hl'
    rcases List.mem_append.1 hl' with hl' | hl'
    · rcases List.mem_append.1 hl' with hl' | hl'
      · obtain ⟨out, ho, ho2⟩ := List.mem_map.1 hl'
        exact (hout out ho).2 l ho2
      · obtain ⟨q, hq, hq2⟩ := List.mem_map.1 hl'
        injection hq2 with hq2
        obtain ⟨x1, x2, x3⟩ := hiv _ hq
        rw [← hq2, abs_lt]; constructor <;> linarith
    · have := (List.mem_replicate.1 hl').2
      cases this

/-- Every program of every run on a problem in range is in range. -/
theorem moderate_of_range (S : Setting sqrt hash D p o s0 qs) (hD : D.InRange) {w : Run K (State K)}
    (hg : Good (trajOpt sqrt hash junk) (meaning sqrt hash junk D) o w) : w.Moderate := by
  have key := built_moderate (hash := hash) (junk := junk) S.sqrt hD
  constructor
  · intro q hq
    obtain ⟨s, a1, a2, -, -, rfl⟩ := hg.sent q hq
    exact key s a1 a2
  · intro e he
    obtain ⟨i, hi⟩ := List.mem_iff_getElem?.1 he
    have := hg.entries i e hi
    exact key e.prob this.inv this.asm

end
end Verif.SqpRun
