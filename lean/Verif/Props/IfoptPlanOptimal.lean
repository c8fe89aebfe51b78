import Verif.Props.IfoptPlan
import Verif.Props.SqpRunExample

/-!
C150 for the plans of C136: a converged run on a joint trajectory problem gives nearly the cheapest trajectory within the limits that satisfies
all constraints.
-/

set_option linter.unusedSectionVars false
set_option linter.unusedVariables false

namespace Verif.IfoptPlan

open Verif.Bounds Verif.JointConstraints
open Verif.VarSets (Var VarSpec NodesVariables)
open Verif.QpProblem (Snap Comp Penalty State sides Proper Described)
open Verif.OsqpEigen (Solver)
open Verif.SqpRun (Reusable reusable_new Setting Usable Desc World Run Sane run vars ext violationOf descOf AffineSet valueAt dropped)
open Verif.Sqp (Params tolerance)
open Verif.Optimal (Near)

universe u
variable {K : Type u} [Field K] [LinearOrder K] [IsStrictOrderedRing K]

/-! ### The Jacobians of the terms -/

theorem insertRow_eq {n : Nat} : ∀ {l r : List (Nat × K)}, insertRow n l = some r → r = l := by
  intro l
  induction l with
  | nil => intro r h; simp [insertRow] at h; exact h
  | cons q l ih =>
    intro r h
    cases l with
    | nil => unfold insertRow at h; split_ifs at h; injection h with h; exact h.symm
    | cons q' l =>
      unfold insertRow at h
      split_ifs at h
      rw [Option.map_eq_some_iff] at h
      obtain ⟨r', h1, rfl⟩ := h
      rw [ih h1]

theorem mem_of_mapM {α β : Type*} (g : α → Option β) : ∀ (l : List α) (r : List β), l.mapM g = some r → ∀ b ∈ r, ∃ a ∈ l, g a = some b := by
  intro l
  induction l with
  | nil => intro r h b hb; simp at h; subst h; simp at hb
  | cons a l ih =>
    intro r h b hb
    rw [List.mapM_cons] at h
    cases h1 : g a with
    | none => simp [h1] at h
    | some b1 =>
      cases h2 : l.mapM g with
      | none => simp [h1, h2] at h
      | some r1 =>
        simp [h1, h2] at h
        subst h
        rcases List.mem_cons.1 hb with rfl | hb
        · exact ⟨a, List.mem_cons_self, h1⟩
        · obtain ⟨a', h3, h4⟩ := ih r1 h2 b hb
          exact ⟨a', List.mem_cons_of_mem _ h3, h4⟩

/-- Rows inserted one by one have the entries given. -/
theorem inserted {n m : Nat} {f : Nat → List (Nat × K)} {l : List (List (Nat × K))} (h : (List.range m).mapM (fun k => insertRow n (f k)) = some l) :
    ∀ r ∈ l, ∃ k, r = f k := by
  intro r hr
  obtain ⟨k, -, hk⟩ := mem_of_mapM _ _ _ h r hr
  exact ⟨k, insertRow_eq hk⟩

/-- Every entry is at least one. -/
def Big (J : List (List (Nat × K))) : Prop := ∀ r ∈ J, ∀ q ∈ r, 1 ≤ |q.2|

theorem big_flatten {m : Nat} {step : Nat → Option (List (List (Nat × K)))} {J : List (List (Nat × K))} (hs : ∀ i l, step i = some l → Big l)
    (h : ((List.range m).mapM step).map List.flatten = some J) : Big J := by
  rw [Option.map_eq_some_iff] at h
  obtain ⟨L, h1, rfl⟩ := h
  intro r hr
  obtain ⟨l, hl, hr⟩ := List.mem_flatten.1 hr
  obtain ⟨i, -, hi⟩ := mem_of_mapM _ _ _ h1 l hl
  exact hs i l hi r hr

theorem vel_big (c : Diff K) (n : Nat) {J : List (List (Nat × K))} (h : c.velJac n = some J) : Big J := by
  refine big_flatten (fun i l hl => ?_) h
  unfold Diff.velJacStep at hl
  split at hl
  · intro r hr q hq
    obtain ⟨k, rfl⟩ := inserted hl r hr
    simp only [List.mem_cons, List.not_mem_nil, or_false] at hq
    rcases hq with rfl | rfl <;> simp
  · cases hl

theorem acc_big (c : Diff K) (n : Nat) {J : List (List (Nat × K))} (h : c.accJac n = some J) : Big J := by
  refine big_flatten (fun i l hl => ?_) h
  unfold Diff.accJacStep at hl
  have two : (1 : K) ≤ |(-2 : K)| := by rw [abs_neg, abs_two]; norm_num
  split_ifs at hl <;> split at hl
  · intro r hr q hq
    obtain ⟨k, rfl⟩ := inserted hl r hr
    simp only [List.mem_cons, List.not_mem_nil, or_false] at hq
    rcases hq with rfl | rfl | rfl <;> simp
  · cases hl
  · intro r hr q hq
    obtain ⟨k, rfl⟩ := inserted hl r hr
    simp only [List.mem_cons, List.not_mem_nil, or_false] at hq
    rcases hq with rfl | rfl | rfl <;> simp
  · cases hl

theorem jerk_big (c : Diff K) (n : Nat) {J : List (List (Nat × K))} (h : c.jerkJac n = some J) : Big J := by
  refine big_flatten (fun i l hl => ?_) h
  unfold Diff.jerkJacStep at hl
  have h3 : (1 : K) ≤ |(3 : K)| := by rw [abs_of_pos (by norm_num)]; norm_num
  split_ifs at hl <;> split at hl
  · intro r hr q hq
    obtain ⟨k, rfl⟩ := inserted hl r hr
    simp only [List.mem_cons, List.not_mem_nil, or_false] at hq
    rcases hq with rfl | rfl | rfl | rfl <;> simp [h3]
  · cases hl
  · intro r hr q hq
    obtain ⟨k, rfl⟩ := inserted hl r hr
    simp only [List.mem_cons, List.not_mem_nil, or_false] at hq
    rcases hq with rfl | rfl | rfl | rfl <;> simp [h3]
  · cases hl

theorem diffSnap_jac {values : Diff K → Option (List K)} {jac : Diff K → Nat → Option (List (List (Nat × K)))} {n : Nat} {c : Diff K} {s : Snap K}
    (h : diffSnap values jac n c = some s) : jac c n = some s.jac.rows := by
  unfold diffSnap at h
  split at h
  · next h2 => injection h with h; rw [h2, ← h]
  · cases h

theorem posSnap_jac {n : Nat} {v : Var K} {c : JointPos K} {s : Snap K} (h : posSnap n v c = some s) : c.getJacobian v.index n = some s.jac.rows := by
  unfold posSnap at h
  split at h
  · next h2 => injection h with h; rw [h2, ← h]
  · cases h

theorem snap_big {n : Nat} {vs : List (Var K)} {t : Term K} {s : Snap K} (h : t.snap n vs = some s) : Big s.jac.rows := by
  have hpos : ∀ (v : Var K) (c : JointPos K), posSnap n v c = some s → Big s.jac.rows := by
    intro v c hp r hr q hq
    obtain ⟨i, -, hi⟩ := mem_of_mapM _ _ _ (posSnap_jac hp) r hr
    rw [insertRow_eq hi] at hq
    simp only [List.mem_singleton] at hq
    subst hq; simp
  unfold Term.snap at h
  split at h
  · split at h
    · exact hpos _ _ h
    · cases h
  · split at h
    · exact hpos _ _ h
    · cases h
  · rw [Option.bind_eq_some_iff] at h
    obtain ⟨c, -, h⟩ := h
    exact vel_big c n (diffSnap_jac h)
  · rw [Option.bind_eq_some_iff] at h
    obtain ⟨c, -, h⟩ := h
    exact acc_big c n (diffSnap_jac h)
  · rw [Option.bind_eq_some_iff] at h
    obtain ⟨c, -, h⟩ := h
    exact jerk_big c n (diffSnap_jac h)

/-- The same places in the vector of all variables. -/
def Placed (vs ws : List (Var K)) : Prop := vs.map (·.index) = ws.map (·.index)

theorem Placed.length {vs ws : List (Var K)} (h : Placed vs ws) : vs.length = ws.length := by
  have := congrArg List.length h; simpa using this

theorem Placed.get {vs ws : List (Var K)} (h : Placed vs ws) (i : Nat) : (vs[i]?.map (·.index)) = ws[i]?.map (·.index) := by
  have := congrArg (fun l => l[i]?) h
  simpa using this

theorem Placed.col {c d : Diff K} (h : Placed c.vars d.vars) : c.col = d.col := by
  funext i
  exact h.get i

theorem snap_jac_const {n : Nat} {vs ws : List (Var K)} (h : Placed vs ws) {t : Term K} {s s' : Snap K} (h1 : t.snap n vs = some s)
    (h2 : t.snap n ws = some s') : s.jac.rows = s'.jac.rows := by
  have hpos : ∀ (i : Nat) (c : Option (JointPos K)), (match vs[i]?, c with | some v, some c => posSnap n v c | _, _ => none) = some s →
      (match ws[i]?, c with | some v, some c => posSnap n v c | _, _ => none) = some s' → s.jac.rows = s'.jac.rows := by
    intro i c e1 e2
    have hg := h.get i
    cases hv : vs[i]? with
    | none => simp [hv] at e1
    | some v =>
      cases hw : ws[i]? with
      | none => simp [hw] at e2
      | some w =>
        rw [hv, hw] at hg
        simp only [Option.map_some, Option.some.injEq] at hg
        cases c with
        | none => simp [hv] at e1
        | some c =>
          simp only [hv, hw] at e1 e2
          have a := posSnap_jac e1
          have b := posSnap_jac e2
          rw [hg, b] at a
          injection a with a
          exact a.symm
  cases t with
  | target i t cs => exact hpos i _ h1 h2
  | limits i bs cs => exact hpos i _ h1 h2
  | vel t cs =>
    simp only [Term.snap, Option.bind_eq_some_iff] at h1 h2
    obtain ⟨c, c1, c2⟩ := h1
    obtain ⟨d, d1, d2⟩ := h2
    have a := diffSnap_jac c2
    have b := diffSnap_jac d2
    unfold newVel at c1 d1
    split_ifs at c1
    split_ifs at d1
    rw [Option.map_eq_some_iff] at c1 d1
    obtain ⟨c', -, rfl⟩ := c1
    obtain ⟨d', -, rfl⟩ := d1
    unfold Diff.velJac Diff.velJacStep at a b
    rw [Placed.col (d := ⟨t.length, ws, d', targetBounds t (ws.length - 1)⟩) h] at a
    simp only [h.length] at a
    rw [b] at a
    injection a with a
    exact a.symm
  | acc t cs =>
    simp only [Term.snap, Option.bind_eq_some_iff] at h1 h2
    obtain ⟨c, c1, c2⟩ := h1
    obtain ⟨d, d1, d2⟩ := h2
    have a := diffSnap_jac c2
    have b := diffSnap_jac d2
    unfold newAcc at c1 d1
    split_ifs at c1
    split_ifs at d1
    rw [Option.map_eq_some_iff] at c1 d1
    obtain ⟨c', -, rfl⟩ := c1
    obtain ⟨d', -, rfl⟩ := d1
    unfold Diff.accJac Diff.accJacStep at a b
    rw [Placed.col (d := ⟨t.length, ws, d', targetBounds t ws.length⟩) h] at a
    simp only [h.length] at a
    rw [b] at a
    injection a with a
    exact a.symm
  | jerk t cs =>
    simp only [Term.snap, Option.bind_eq_some_iff] at h1 h2
    obtain ⟨c, c1, c2⟩ := h1
    obtain ⟨d, d1, d2⟩ := h2
    have a := diffSnap_jac c2
    have b := diffSnap_jac d2
    unfold newJerk at c1 d1
    split_ifs at c1
    split_ifs at d1
    rw [Option.map_eq_some_iff] at c1 d1
    obtain ⟨c', -, rfl⟩ := c1
    obtain ⟨d', -, rfl⟩ := d1
    unfold Diff.jerkJac Diff.jerkJacStep at a b
    rw [Placed.col (d := ⟨t.length, ws, d', targetBounds t ws.length⟩) h] at a
    simp only [h.length] at a
    rw [b] at a
    injection a with a
    exact a.symm

/-! ### Weights and bounds -/

/-- Specification: the term gives all its errors the weight one. -/
def Term.Unit (T : Nat) (t : Term K) : Prop := ∀ g ∈ t.gaps T fun _ _ => 0, g.1 = 1

/-- Specification: the term is not made from bounds. -/
def Term.Aimed : Term K → Prop
  | .limits _ _ _ => False
  | _ => True

theorem zip_at {α : Type*} {t : List α} {k : Nat} (hk : k < t.length) : ∃ v, (v, k) ∈ t.zipIdx :=
  ⟨t[k], List.mk_mem_zipIdx_iff_getElem?.2 (List.getElem?_eq_getElem hk)⟩

theorem rows_unit {dof T : Nat} {q : Nat → Nat → K} {t : Term K} (ht : t.Ok dof T) (hu : t.Unit T) : ∀ r ∈ t.rows dof T q, r.2.1 = 1 := by
  intro r hr
  cases t with
  | target s t cs =>
    simp only [Term.rows, List.mem_map] at hr
    obtain ⟨⟨v, k⟩, hv, rfl⟩ := hr
    exact hu (coeffAt 1 cs k, |0 - v|) (List.mem_map.2 ⟨(v, k), hv, rfl⟩)
  | limits s bs cs =>
    simp only [Term.rows, List.mem_flatMap] at hr
    obtain ⟨⟨b, k⟩, hb, hr⟩ := hr
    have := hu (coeffAt 1 cs k, miss b 0) (List.mem_map.2 ⟨(b, k), hb, rfl⟩)
    unfold splitB at hr
    split_ifs at hr <;> simp only [List.mem_cons, List.not_mem_nil, or_false] at hr
    · rcases hr with rfl | rfl <;> exact this
    · subst hr; exact this
  | vel t cs =>
    obtain ⟨i, hi, k, hk, rfl⟩ := mem_grid.1 hr
    obtain ⟨v, hv⟩ := zip_at (show k < t.length by rw [ht.2.1]; exact hk)
    exact hu (coeffAt 5 cs k, |rate (fun _ _ => 0) i k - v|) (List.mem_flatMap.2 ⟨i, List.mem_range.2 hi, List.mem_map.2 ⟨(v, k), hv, rfl⟩⟩)
  | acc t cs =>
    obtain ⟨i, hi, k, hk, rfl⟩ := mem_grid.1 hr
    obtain ⟨v, hv⟩ := zip_at (show k < t.length by rw [ht.2.1]; exact hk)
    exact hu (coeffAt 1 cs k, |rate (rate fun _ _ => 0) (stencil 2 T i) k - v|) (List.mem_flatMap.2 ⟨i, List.mem_range.2 hi, List.mem_map.2 ⟨(v, k), hv, rfl⟩⟩)
  | jerk t cs =>
    obtain ⟨i, hi, k, hk, rfl⟩ := mem_grid.1 hr
    obtain ⟨v, hv⟩ := zip_at (show k < t.length by rw [ht.2.1]; exact hk)
    exact hu (coeffAt 1 cs k, |rate (rate (rate fun _ _ => 0)) (stencil 3 T i) k - v|) (List.mem_flatMap.2 ⟨i, List.mem_range.2 hi, List.mem_map.2 ⟨(v, k), hv, rfl⟩⟩)

theorem rows_aimed {dof T : Nat} {q : Nat → Nat → K} {t : Term K} (ht : t.Ok dof T) (ha : t.Aimed) :
    ∀ r ∈ t.rows dof T q, ∃ v, r.2.2 = ⟨.fin v, .fin v, .equality⟩ := by
  intro r hr
  cases t with
  | target s t cs =>
    simp only [Term.rows, List.mem_map] at hr
    obtain ⟨⟨v, k⟩, hv, rfl⟩ := hr
    exact ⟨v, pin_eq (ht.2.2.2.2 v (List.fst_mem_of_mem_zipIdx hv))⟩
  | limits s bs cs => exact ha.elim
  | vel t cs =>
    obtain ⟨i, hi, k, hk, rfl⟩ := mem_grid.1 hr
    exact ⟨_, pin_eq (getD_fin ht.2.2.2 (by rw [ht.2.1]; exact hk))⟩
  | acc t cs =>
    obtain ⟨i, hi, k, hk, rfl⟩ := mem_grid.1 hr
    exact ⟨_, pin_eq (getD_fin ht.2.2.2 (by rw [ht.2.1]; exact hk))⟩
  | jerk t cs =>
    obtain ⟨i, hi, k, hk, rfl⟩ := mem_grid.1 hr
    exact ⟨_, pin_eq (getD_fin ht.2.2.2 (by rw [ht.2.1]; exact hk))⟩

/-! ### The sets of a plan are affine -/

section
variable {dof : Nat} {P : Plan K} {nv : NodesVariables K}

/-- The affine rows of a term. -/
def affineOf (dof : Nat) (P : Plan K) (nv : NodesVariables K) (t : Term K) : List (QpProblem.Row K) :=
  List.zipWith (fun (r : Row K) j => { weight := r.2.1, constant := 0, jac := j, bound := r.2.2 }) (t.rows dof P.pos.length fun _ _ => 0)
    ((t.comp P.pos nv).ask (fun _ => 0) fun _ => 0).jac.rows

theorem answer_more (h : P.Ok dof) (hb : VarSets.build P.nodes = some nv) {t : Term K} (ht : t.Ok dof P.pos.length) (x : Nat → K) :
    ∃ s vs, t.answer P.pos nv x = some s ∧ t.snap nv.nDim vs = some s ∧ vs.map (·.index) = starts P.pos nv := by
  obtain ⟨nv', a1, ⟨vs, a2, a3⟩, -⟩ := set_same h hb ((List.range nv.nDim).map x) (by simp)
  obtain ⟨s, b1, -⟩ := answer_shape h hb ht x
  refine ⟨s, vs, b1, ?_, ?_⟩
  · unfold Term.answer at b1
    rw [a1] at b1
    simp only [a2] at b1
    exact b1
  · have := congrArg (fun l : List (Nat × List K) => l.map (·.1)) a3
    simp only [List.map_map, readVars] at this
    rw [show (fun v : Var K => v.index) = (fun p : Nat × List K => p.1) ∘ fun v : Var K => (v.index, v.values) from rfl, this]
    conv_rhs => rw [← List.map_id (starts P.pos nv)]
    rfl

theorem comp_affine (h : P.Ok dof) (hb : VarSets.build P.nodes = some nv) {t : Term K} (ht : t.Ok dof P.pos.length) :
    AffineSet (t.comp P.pos nv) (affineOf dof P nv t) := by
  obtain ⟨s0, vs0, c1, c2, c3⟩ := answer_more h hb ht fun _ => 0
  obtain ⟨s0', d1, d2, -⟩ := answer_shape h hb ht fun _ => 0
  rw [c1] at d1; injection d1 with d1; subst d1
  have hJ : ((t.comp P.pos nv).ask (fun _ => 0) fun _ => 0) = s0 := by simp [Term.comp, c1]
  have hlen : (t.rows dof P.pos.length fun _ _ => 0).length = s0.jac.rows.length := by rw [d2.jac]; exact rows_length _ _ _ _ _
  have hz : ∀ (l : List (Row K)) (J : List (List (Nat × K))), l.length = J.length →
      let L : List (QpProblem.Row K) := List.zipWith (fun (r : Row K) j => { weight := r.2.1, constant := 0, jac := j, bound := r.2.2 }) l J
      L.map (·.jac) = J ∧ L.map (·.weight) = l.map (·.2.1) ∧ L.map (·.bound) = l.map (·.2.2) ∧
        ∀ x, L.map (fun ρ => valueAt ρ x) = J.map fun j => SqpExprs.dot j x := by
    intro l
    induction l with
    | nil => intro J hl; cases J with
      | nil => simp
      | cons j J => simp at hl
    | cons r l ih =>
      intro J hl
      cases J with
      | nil => simp at hl
      | cons j J =>
        obtain ⟨i1, i2, i3, i4⟩ := ih J (by simpa using hl)
        refine ⟨?_, ?_, ?_, fun x => ?_⟩
        · simp only [List.zipWith_cons_cons, List.map_cons]; rw [i1]
        · simp only [List.zipWith_cons_cons, List.map_cons]; rw [i2]
        · simp only [List.zipWith_cons_cons, List.map_cons]; rw [i3]
        · simp only [List.zipWith_cons_cons, List.map_cons]; rw [i4 x]; simp [valueAt]
  obtain ⟨z1, z2, z3, z4⟩ := hz _ _ hlen
  have hjac : ∀ x u, ((t.comp P.pos nv).ask x u).jac.rows = s0.jac.rows := by
    intro x u
    obtain ⟨s, vs, e1, e2, e3⟩ := answer_more h hb ht x
    simp only [Term.comp, e1, Option.getD_some]
    exact snap_jac_const (show Placed vs vs0 from e3.trans c3.symm) e2 c2
  unfold affineOf
  rw [hJ]
  refine ⟨fun x u => ?_, fun x u => ?_, fun x u => ?_, fun x u => ?_, ?_⟩
  · rw [z4 x, ← hjac x u]
    obtain ⟨s, e1, e2, e3⟩ := answer_shape h hb ht x
    simp only [Term.comp, e1, Option.getD_some]
    have hl : s.values.length = s.jac.rows.length := by rw [e2.values, e2.jac, List.length_map]
    apply List.ext_getElem?
    intro i
    rw [List.getElem?_map]
    by_cases hi : i < s.values.length
    · have hi' : i < s.jac.rows.length := by omega
      rw [List.getElem?_eq_getElem hi, List.getElem?_eq_getElem hi', Option.map_some]
      congr 1
      refine e3 (s.values[i], s.jac.rows[i]) (List.mem_iff_getElem?.2 ⟨i, ?_⟩)
      rw [List.getElem?_zip_eq_some]
      exact ⟨List.getElem?_eq_getElem hi, List.getElem?_eq_getElem hi'⟩
    · rw [List.getElem?_eq_none (by omega), List.getElem?_eq_none (by omega)]; rfl
  · rw [z1]; exact hjac x u
  · rw [z2, (comp_shape h hb ht x u).coeffs]
    have := congrArg (fun l : List (K × Bounds K) => l.map (·.1)) (rows_fixed dof P.pos.length (trajOf P nv x) (fun _ _ => 0) t)
    rw [List.map_map, List.map_map] at this
    exact this
  · rw [z3, (comp_shape h hb ht x u).bounds]
    have := congrArg (fun l : List (K × Bounds K) => l.map (·.2)) (rows_fixed dof P.pos.length (trajOf P nv x) (fun _ _ => 0) t)
    rw [List.map_map, List.map_map] at this
    exact this
  · intro ρ hρ q hq
    right
    have : ρ.jac ∈ s0.jac.rows := by
      rw [← z1]; exact List.mem_map_of_mem hρ
    exact le_trans (by norm_num) (snap_big c2 _ this q hq)

theorem affine_row {t : Term K} {ρ : QpProblem.Row K} (hρ : ρ ∈ affineOf dof P nv t) :
    ∃ r ∈ t.rows dof P.pos.length fun _ _ => 0, ρ.weight = r.2.1 ∧ ρ.bound = r.2.2 := by
  unfold affineOf at hρ
  obtain ⟨i, hi⟩ := List.mem_iff_getElem?.1 hρ
  rw [List.getElem?_zipWith_eq_some] at hi
  obtain ⟨r, j, h1, -, rfl⟩ := hi
  exact ⟨r, List.mem_of_getElem? h1, rfl, rfl⟩

theorem plan_affine (h : P.Ok dof) (hb : VarSets.build P.nodes = some nv) (ha : ∀ t ∈ P.terms (some .squared), t.Aimed)
    (hu : ∀ q, q ≠ some .squared → ∀ t ∈ P.terms q, t.Unit P.pos.length) :
    (descOf (filled P nv)).Affine ((P.terms (some .squared)).map (affineOf dof P nv))
      (((P.terms (some .hinge)) ++ (P.terms (some .absolute))).map (affineOf dof P nv)) ((P.terms none).map (affineOf dof P nv)) := by
  have hmer : (descOf (filled P nv)).merit = comps P nv none := by simp [descOf, filled, empty]
  have hobj : (descOf (filled P nv)).objective = comps P nv (some .squared) := by simp [descOf, filled, empty]
  have hpen : (descOf (filled P nv)).penalty = comps P nv (some .hinge) ++ comps P nv (some .absolute) := by simp [descOf, filled, empty]
  have hF : ∀ l : List (Term K), (∀ t ∈ l, t.Ok dof P.pos.length) →
      List.Forall₂ AffineSet (l.map (·.comp P.pos nv)) (l.map (affineOf dof P nv)) := by
    intro l hl
    rw [List.forall₂_map_left_iff, List.forall₂_map_right_iff, List.forall₂_same]
    exact fun t ht => comp_affine h hb (hl t ht)
  refine ⟨?_, ?_, ?_, ?_, ?_, ?_, ?_⟩
  · rw [hobj]; exact hF _ fun t ht => (terms_mem h ht).1
  · rw [hpen, comps, comps, ← List.map_append]
    refine hF _ fun t ht => ?_
    rcases List.mem_append.1 ht with ht | ht
    · exact (terms_mem h ht).1
    · exact (terms_mem h ht).1
  · rw [hmer]; exact hF _ fun t ht => (terms_mem h ht).1
  · intro L hL ρ hρ
    obtain ⟨t, ht, rfl⟩ := List.mem_map.1 hL
    obtain ⟨r, r1, -, r2⟩ := affine_row hρ
    rw [r2]
    exact rows_aimed (terms_mem h ht).1 (ha t ht) r r1
  · intro L hL ρ hρ
    obtain ⟨t, ht, rfl⟩ := List.mem_map.1 hL
    obtain ⟨r, r1, r2, -⟩ := affine_row hρ
    rw [r2]
    rcases List.mem_append.1 ht with ht | ht
    · exact rows_unit (terms_mem h ht).1 (hu _ (by simp) t ht) r r1
    · exact rows_unit (terms_mem h ht).1 (hu _ (by simp) t ht) r r1
  · intro L hL ρ hρ
    obtain ⟨t, ht, rfl⟩ := List.mem_map.1 hL
    obtain ⟨r, r1, r2, -⟩ := affine_row hρ
    rw [r2]
    exact rows_unit (terms_mem h ht).1 (hu _ (by simp) t ht) r r1
  · intro L hL
    obtain ⟨t, ht, rfl⟩ := List.mem_map.1 hL
    have hpos := rows_pos h.hdof (fun _ _ => (0 : K)) (terms_mem h ht).1
    have hl := (comp_shape h hb (terms_mem h ht).1 (fun _ => 0) fun _ => 0).jac
    intro he
    have := congrArg List.length he
    unfold affineOf at this
    rw [List.length_zipWith, hl, rows_length _ _ (trajOf P nv fun _ => 0) (fun _ _ => 0), List.length_nil] at this
    omega

/-- The costs of a vector are the costs of the trajectory read from it. -/
theorem costs_read (h : P.Ok dof) (hb : VarSets.build P.nodes = some nv) {x : List K} (hx : x.length = nv.nDim) {nx : NodesVariables K}
    (hs : nv.setVariables x = some nx) : (descOf (filled P nv)).costs x = P.costs (joint P.pos nx) := by
  have hobj : (descOf (filled P nv)).objective = comps P nv (some .squared) := by simp [descOf, filled, empty]
  have hpen : (descOf (filled P nv)).penalty = comps P nv (some .hinge) ++ comps P nv (some .absolute) := by simp [descOf, filled, empty]
  have herr : ∀ q, (comps P nv q).map (fun c => violationOf c x) = (P.terms q).map (·.error P.pos.length (joint P.pos nx)) := by
    intro q
    rw [comps, List.map_map]
    refine List.map_congr_left fun t ht => ?_
    exact (term_reads h hb hx hs (terms_mem h ht).1).1
  rw [Desc.costs, hobj, hpen, List.map_append, herr, herr, Plan.costs, List.append_assoc]
  congr 1
  rw [comps, List.map_map]
  refine List.map_congr_left fun t ht => ?_
  exact (term_reads h hb hx hs (terms_mem h ht).1).2 (single_of (by simp) (terms_mem h ht).2)

end

/-! ### Theorem -/

section
variable {dof : Nat} {P : Plan K} {sqrt : K → K} {hash : (Nat → K) → Nat} {junk : Nat → Ext K} {p : Params K} {o : World K}

/-- C150 (plans): take a plan whose squared costs have targets, whose other costs and constraints have weight one and whose variables have bounds
in `[-B, B]`.  If solving it returns `kConverged` without having exceeded the time limit, the iteration limit, the 99 convexifications or the
minimum box, and OSQP's answers solve their programs up to `η`, then the total cost of the trajectory the user reads exceeds that of any other
assignment of the variables within their bounds that satisfies all constraints by at most (the convergence tolerance, plus `η`, plus what the QP
loses by dropping numbers below `1e-7`) times the distance in units of the final trust box. -/
theorem C150_plan_partial (hsqrt : ∀ a : K, 0 ≤ a → sqrt a * sqrt a = a) (hp : Sane p) (ho : o.Sized) (h : P.Ok dof)
    (ha : ∀ t, (t, some .squared) ∈ P.adds → t.Aimed) (hu : ∀ t q, (t, q) ∈ P.adds → q ≠ some .squared → t.Unit P.pos.length) {B : K}
    (hB : B < Sco.osqpInfty) (hlim : ∀ v ∈ P.nodes.flatten, ∀ b ∈ v.bounds, ∃ l u, b = (some l, some u) ∧ -B ≤ l ∧ u ≤ B) {η : K} (hη : o.Solves η)
    (hμ : 1 / 10 ^ 7 ≤ p.initialMeritErrorCoeff) (hratio : 1 ≤ p.meritCoeffIncreaseRatio) (hmin : 0 < p.minTrustBoxSize)
    (hclock : ∀ k, o.clock k ≤ p.maxTime) {qs : Solver K} {fuel : Nat} {w : Run K (State K)} {nv' : NodesVariables K}
    (hw : Planned sqrt hash junk p o qs fuel P w nv') (hc : w.status = .converged) (hiter : (w.res.overallIteration : ℤ) < p.maxIterations)
    (hconv : w.res.convexifyIteration < 99) {nv : NodesVariables K} (hnv : VarSets.build P.nodes = some nv) {b : K}
    (hbox : w.res.box = List.replicate nv.nDim b) (hb : p.minTrustBoxSize ≤ b) (z : List K) (d : K) (hz : List.Forall₂ Inside z nv.bounds)
    (hd : Near d (vars w.prob) z) {nz : NodesVariables K} (hnz : nv.setVariables z = some nz)
    (hfeas : ∀ t, (t, none) ∈ P.adds → t.error P.pos.length (joint P.pos nz) = 0) :
    (P.costs (joint P.pos nv')).sum ≤ (P.costs (joint P.pos nz)).sum +
      (tolerance p w.res.bestExactMerit + (η + dropped nv.nDim B)) * max 1 (d / b) := by
  obtain ⟨nv0, hb0, S, h2, h3, hl⟩ := planned_facts hsqrt hp ho h hw
  rw [hnv] at hb0; injection hb0 with hb0; subst hb0
  have hmem : ∀ {q t}, t ∈ P.terms q → (t, q) ∈ P.adds := by
    intro q t ht
    simp only [Plan.terms, List.mem_map, List.mem_filter, decide_eq_true_eq] at ht
    obtain ⟨⟨t', q'⟩, ⟨h1, rfl⟩, rfl⟩ := ht
    exact h1
  have A := plan_affine h hnv (fun t ht => ha t (hmem ht)) fun q hq t ht => hu t q (hmem ht) hq
  have hD := filled_range h hnv ⟨B, hB, hlim⟩
  have hlb : nv.bounds.length = nv.nDim := (VarSets.C39_layout P.nodes [] nv ⟨nv, hnv, by simp, rfl⟩).2.2.2.1
  have hlz : z.length = nv.nDim := by rw [hz.length_eq, hlb]
  have hbd : ∀ b ∈ (descOf (filled P nv)).varBounds, ∃ l u, b = (some l, some u) ∧ -B ≤ l ∧ u ≤ B := by
    intro b hb'
    obtain ⟨hi, ha, -⟩ := VarSets.build_inv _ _ hnv
    have hb' : b ∈ nv.bounds := hb'
    rw [hi.bounds, List.mem_flatMap] at hb'
    obtain ⟨v, hv, hbv⟩ := hb'
    have : (v.size, v.bounds) ∈ VarSets.asked P.nodes := by rw [← ha]; exact List.mem_map_of_mem hv
    simp only [VarSets.asked, List.mem_map, Prod.mk.injEq] at this
    obtain ⟨sp, h3, h4, h5⟩ := this
    exact hlim sp h3 b (by rw [h5]; exact hbv)
  have h0 : (descOf (filled P nv)).Within (vars ((filled P nv).setup junk)) := by
    have hx0 : ((filled P nv).setup junk).x = fun i => nv.values.getD i 0 := by
      unfold State.setup State.update
      rw [show (filled P nv).setupLists.initialized = false from rfl, Bool.false_and, if_neg (by simp)]
      rfl
    have hn : ((filled P nv).setup junk).nVars = nv.nDim := S.usable.nVars
    rw [vars, hn, hx0, vars_initial hnv]
    refine List.forall₂_iff_get.2 ⟨?_, fun i h1 h2 => ?_⟩
    · rw [values_length hnv]; exact hlb.symm
    · exact (VarSets.C39_initial P.nodes nv hnv fun n hn v hv => (h.specs v (List.mem_flatten.2 ⟨n, hn, hv⟩)).2.2.2).2 i h1 h2
  have hf : ∀ c ∈ (descOf (filled P nv)).merit, violationOf c z = 0 := by
    intro c hc'
    have hmer : (descOf (filled P nv)).merit = comps P nv none := by simp [descOf, filled, empty]
    rw [hmer] at hc'
    obtain ⟨t, ht, rfl⟩ := comps_mem hc'
    rw [(term_reads h hnv hlz hnz (terms_mem h ht).1).1]
    exact hfeas t (hmem ht)
  have key := SqpRun.C150_cost_optimal_partial S A hD hbd hη h0 hμ hratio hmin hclock h2 hc hiter hconv hbox hb z d hz hd hf
  obtain ⟨-, -, -, hm⟩ := SqpRun.C131_results S h2
  rw [costs_read h hnv hl h3, costs_read h hnv hlz hnz] at key
  rw [hm]
  exact key

end

/-! ### Example -/

/-- One joint at `3` in `[0, 10]`, squared costs with the targets `2` and `4`, and the constraint to stay above `5/2`: the problem of
`SqpRunExample`. -/
noncomputable def forkPlan : Plan ℝ :=
  { nodes := [[⟨1, [3], [(some 0, some 10)]⟩]], pos := [0]
    adds := [(.target 0 [2] [1], some .squared), (.target 0 [4] [1], some .squared), (.limits 0 [Bounds.mk' (.fin (5 / 2)) .posInf] [1], none)] }

/-- The variables of the example. -/
noncomputable def forkVars (x : ℝ) : NodesVariables ℝ := ⟨[⟨[⟨0, [x], [(some 0, some 10)]⟩], 1⟩], [x], [(some 0, some 10)], 1⟩

theorem forkPlan_build : VarSets.build forkPlan.nodes = some (forkVars 3) := by
  norm_num [VarSets.build, forkPlan, VarSets.buildNode, VarSets.Node.addVar, VarSets.Var.new, VarSets.Node.new, VarSets.NodesVariables.new,
    VarSets.NodesVariables.addNode, VarSets.Node.incrementIndex, VarSets.Node.getValues, VarSets.Node.getBounds, getClosestValidPoint, clampB, minHi, maxLo, forkVars]

theorem forkPlan_set (x y : ℝ) : (forkVars x).setVariables [y] = some (forkVars y) := by
  simp [forkVars, VarSets.NodesVariables.setVariables, VarSets.Node.setVariables, VarSets.Var.setVariables]

theorem forkPlan_target (v : ℝ) (h : Fin20 v) : (Term.target 0 [v] [1]).comp [0] (forkVars 3) = QpProblem.lineComp 1 0 1 ⟨.fin v, .fin v, .equality⟩ := by
  have e := pin_eq h
  unfold pin at e
  unfold Term.comp Term.answer QpProblem.lineComp
  congr 1
  funext x u
  have : (List.range (forkVars 3).nDim).map x = [x 0] := rfl
  rw [this, forkPlan_set]
  simp [picked, forkVars, VarSets.NodesVariables.vars, Term.snap, JointPos.newTarget, posSnap, JointPos.getValues, JointPos.getJacobian, insertRow, e]

theorem forkPlan_limit (v : ℝ) (h : Fin20 v) : (Term.limits 0 [Bounds.mk' (.fin v) .posInf] [1]).comp [0] (forkVars 3) =
    QpProblem.lineComp 1 0 1 ⟨.fin v, .posInf, .lowerBound⟩ := by
  have e := lower_eq h
  unfold Term.comp Term.answer QpProblem.lineComp
  congr 1
  funext x u
  have : (List.range (forkVars 3).nDim).map x = [x 0] := rfl
  rw [this, forkPlan_set, e]
  simp [picked, forkVars, VarSets.NodesVariables.vars, Term.snap, JointPos.newBounds, splitLoop, posSnap, JointPos.getValues, JointPos.getJacobian, insertRow]

theorem forkPlan_ok : forkPlan.Ok 1 := by
  have f2 : Fin20 (2 : ℝ) := by norm_num [Fin20]
  have f4 : Fin20 (4 : ℝ) := by norm_num [Fin20]
  have f5 : Fin20 (5 / 2 : ℝ) := by norm_num [Fin20, abs_of_pos]
  refine ⟨Nat.one_pos, by simp [forkPlan], ?_, by simp [forkPlan], ?_, ?_⟩
  · intro v hv
    simp only [forkPlan, List.flatten_cons, List.flatten_nil, List.append_nil, List.mem_singleton] at hv
    subst hv
    refine ⟨Nat.one_pos, rfl, rfl, fun b hb => ?_⟩
    simp only [List.mem_singleton] at hb
    subst hb
    intro l u h1 h2; simp at h1 h2; subst h1; subst h2; norm_num
  · intro p hp
    simp only [forkPlan, List.mem_singleton] at hp
    subst hp; exact ⟨_, rfl, rfl⟩
  · intro a ha
    simp only [forkPlan, List.mem_cons, List.not_mem_nil, or_false] at ha
    rcases ha with rfl | rfl | rfl
    · exact ⟨⟨by simp [forkPlan], rfl, by simp, by simp, by simp [f2]⟩, trivial⟩
    · exact ⟨⟨by simp [forkPlan], rfl, by simp, by simp, by simp [f4]⟩, trivial⟩
    · refine ⟨⟨by simp [forkPlan], rfl, by simp, rfl, ?_⟩, trivial⟩
      intro b hb
      simp only [List.mem_singleton] at hb
      subst hb
      exact .inr (.inl ⟨5 / 2, rfl, f5⟩)

theorem forkPlan_state : (filled forkPlan (forkVars 3)).setup (fun _ => .negInf) = SqpRun.fork.setup fun _ => .negInf := by
  have f2 : Fin20 (2 : ℝ) := by norm_num [Fin20]
  have f4 : Fin20 (4 : ℝ) := by norm_num [Fin20]
  have f5 : Fin20 (5 / 2 : ℝ) := by norm_num [Fin20, abs_of_pos]
  have h1 : comps forkPlan (forkVars 3) (some .squared) = SqpRun.fork.squared := by
    have := forkPlan_target 2 f2
    have := forkPlan_target 4 f4
    simp_all [comps, Plan.terms, forkPlan, SqpRun.fork]
  have h2 : comps forkPlan (forkVars 3) none = SqpRun.fork.cnts := by
    have := forkPlan_limit (5 / 2) f5
    simp_all [comps, Plan.terms, forkPlan, SqpRun.fork]
  have h3 : comps forkPlan (forkVars 3) (some .hinge) = [] := by simp [comps, Plan.terms, forkPlan]
  have h4 : comps forkPlan (forkVars 3) (some .absolute) = [] := by simp [comps, Plan.terms, forkPlan]
  have h5 : (fun i => (forkVars 3).values.getD i 0) = fun i : Nat => if i = 0 then (3 : ℝ) else 0 := by
    funext i
    cases i <;> simp [forkVars]
  have h6 : filled forkPlan (forkVars 3) = { SqpRun.fork with upd := fun i => if i = 0 then 3 else 0 } := by
    unfold filled empty
    rw [h1, h2, h3, h4, h5]
    rfl
  rw [h6]
  rfl

/-- The hypotheses of C150 hold for the plan: the trajectory is at `3`, and its cost exceeds that of `7/2` by at most the bound. -/
example : ∃ w, Planned Real.sqrt (fun _ => 0) (fun _ => .negInf) SqpRun.forkParams SqpRun.forkWorld { warmStarting := false } 1 forkPlan w (forkVars 3) ∧
    w.status = .converged ∧ (forkPlan.costs (joint [0] (forkVars 3))).sum ≤ (forkPlan.costs (joint [0] (forkVars (7 / 2)))).sum +
      (tolerance SqpRun.forkParams w.res.bestExactMerit + (0 + dropped 1 10)) * max 1 (1 / 2 / 1) := by
  obtain ⟨w, h1, h2, h3, h4, h5, h6, h7, -⟩ := SqpRun.fork_run
  obtain ⟨nv, hb, hpr⟩ := problem_ok forkPlan_ok
  rw [forkPlan_build] at hb
  injection hb with hb
  subst hb
  have hw : Planned Real.sqrt (fun _ => 0) (fun _ => .negInf) SqpRun.forkParams SqpRun.forkWorld { warmStarting := false } 1 forkPlan w (forkVars 3) :=
    ⟨_, _, hpr, by rw [forkPlan_state]; exact h1, by rw [h6]; exact forkPlan_set 3 3, reusable_new _ _ _⟩
  have S := SqpRun.fork_setting
  refine ⟨w, hw, h2, C150_plan_partial S.sqrt S.sane S.sized forkPlan_ok ?_ ?_ (B := 10) (by norm_num [Sco.osqpInfty]) ?_ SqpRun.fork_solves
    (by norm_num [SqpRun.forkParams, SqpRun.niceParams]) (by norm_num [SqpRun.forkParams, SqpRun.niceParams]) (by norm_num [SqpRun.forkParams, SqpRun.niceParams])
    (fun k => by norm_num [SqpRun.forkParams, SqpRun.niceParams, SqpRun.forkWorld]) hw h2 (by rw [h3]; norm_num [SqpRun.forkParams, SqpRun.niceParams])
    (by rw [h4]; norm_num) forkPlan_build h5 (by norm_num [SqpRun.forkParams, SqpRun.niceParams]) [7 / 2] (1 / 2) ?_ ?_ (forkPlan_set 3 (7 / 2)) ?_⟩
  · intro t ht
    simp only [forkPlan, List.mem_cons, Prod.mk.injEq, reduceCtorEq, and_false, List.not_mem_nil, or_false, and_true] at ht
    rcases ht with rfl | rfl <;> trivial
  · intro t q ht hq
    simp only [forkPlan, List.mem_cons, Prod.mk.injEq, List.not_mem_nil, or_false] at ht
    rcases ht with ⟨rfl, rfl⟩ | ⟨rfl, rfl⟩ | ⟨rfl, rfl⟩
    · exact absurd rfl hq
    · exact absurd rfl hq
    · intro g hg
      simp only [Term.gaps, List.zipIdx_cons, List.zipIdx_nil, List.map_cons, List.map_nil, List.mem_singleton] at hg
      subst hg; rfl
  · intro v hv b hb
    simp only [forkPlan, List.flatten_cons, List.flatten_nil, List.append_nil, List.mem_singleton] at hv
    subst hv
    simp only [List.mem_singleton] at hb
    exact ⟨0, 10, hb, by norm_num, le_refl _⟩
  · exact .cons (by norm_num [Inside]) .nil
  · rw [h6]; exact .cons (by norm_num [abs_le]) .nil
  · intro t ht
    simp only [forkPlan, List.mem_cons, Prod.mk.injEq, reduceCtorEq, and_false, List.not_mem_nil, or_false, and_true, false_or] at ht
    subst ht
    norm_num [Term.error, Term.gaps, forkPlan, miss, below, above, joint, forkVars, VarSets.NodesVariables.vars, Bounds.mk']

end Verif.IfoptPlan
