import Verif.Props.QpProblem

/-!
C26-C29 for every sequence of calls on a `TrajOptQPProblem`.
-/

set_option linter.unusedSectionVars false
set_option linter.unusedVariables false

namespace Verif.QpProblem

open Verif.Bounds Verif.Sco Verif.SqpExprs Finset

universe u
variable {K : Type u} [Field K] [LinearOrder K] [IsStrictOrderedRing K]

/-! ### Specification of well-behaved sets -/

/-- The description of a set taken from its answers. -/
def infoOf (s : Snap K) : Info K := ⟨s.rows, s.coeffs, s.bounds⟩

/-- Number of rows of a set after `update()` at `u`. -/
def Comp.rowsAt (c : Comp K) (u : Nat → K) : Nat := (c.ask u u).values.length

/-- The number of rows changes in `update()` only, is what `update()` returns, and does not change for sets that are not
dynamic. -/
structure Sized (c : Comp K) : Prop where
  count : ∀ x u, (c.ask x u).count = c.rowsAt u
  rows : ∀ x u, (c.ask x u).values.length = c.rowsAt u
  static : c.dynamic = false → ∀ u u', c.rowsAt u = c.rowsAt u'

/-- A well-behaved constraint or penalty cost. -/
def CntFine (n : Nat) (c : Comp K) : Prop := Sized c ∧ ∀ x u, CntOk n (infoOf (c.ask x u)) (c.ask x u)

/-- A well-behaved squared cost. -/
def ObjFine (n : Nat) (c : Comp K) : Prop := Sized c ∧ ∀ x u, ObjOk n (infoOf (c.ask x u)) (c.ask x u)

/-- A description taken at some earlier point when the set had as many rows as after an `update()` at `u0`. -/
def Fits (u0 : Nat → K) (i : Info K) (c : Comp K) : Prop :=
  ∃ x1 u1, i = infoOf (c.ask x1 u1) ∧ c.rowsAt u1 = c.rowsAt u0

/-- Rows of the dynamic sets after an `update()` at `u`. -/
def dynRows (cs : List (Comp K)) (u : Nat → K) : Nat := (cs.map fun c => if c.dynamic then c.rowsAt u else 0).sum

/-- All sets of a problem that has been set up. -/
def State.sets (s : State K) : List (Comp K) := s.objective ++ s.penalty ++ s.merit

/-- A problem that has been set up and used since. -/
structure Live (s : State K) : Prop where
  init : s.initialized = true
  finO : ∀ c ∈ s.objective, ObjFine s.nVars c
  finP : ∀ c ∈ s.penalty, CntFine s.nVars c
  finM : ∀ c ∈ s.merit, CntFine s.nVars c
  cached : ∃ u0, List.Forall₂ (Fits u0) s.objInfos s.objective ∧ List.Forall₂ (Fits u0) s.penInfos s.penalty ∧
    List.Forall₂ (Fits u0) s.meritInfos s.merit ∧ s.nDynPrev = some (dynRows s.sets u0)
  nDyn : s.nDyn = dynRows s.sets s.upd
  hasDyn : s.hasDyn = s.sets.any (·.dynamic)
  nObj : s.nObj = (s.objInfos.map (·.rows)).sum
  nPen : s.nPen = (s.penInfos.map (·.rows)).sum
  nMerit : s.nMerit = (s.meritInfos.map (·.rows)).sum
  target : s.target.length = s.nObj
  constant : s.constant.length = s.nPen + s.nMerit
  lower : s.nVars + s.nPen + s.nMerit ≤ s.lower.length
  upper : s.nVars + s.nPen + s.nMerit ≤ s.upper.length
  lists : s.objective = s.squared ++ s.dynSquared ∧
    s.penalty = s.hinge ++ s.dynHinge ++ s.absolute ++ s.dynAbsolute ∧ s.merit = s.cnts ++ s.dynCnts
  meritCoeff : s.meritCoeff.length = s.merit.length
  meritNonneg : ∀ m ∈ s.meritCoeff, 0 ≤ m
  box : s.box.length = s.nVars
  varBounds : s.varBounds.length = s.nVars
  valid : ∀ b ∈ s.varBounds, Valid b

/-! ### Lemmas -/

theorem cntOk_of_fits {n : Nat} {c : Comp K} (h : CntFine n c) {i : Info K} {u : Nat → K} (x : Nat → K)
    (hf : Fits u i c) : CntOk n i (c.ask x u) := by
  obtain ⟨x1, u1, rfl, hr⟩ := hf
  have h1 := h.2 x1 u1
  have h2 := h.2 x u
  exact ⟨by rw [h1.rows, h.1.rows, h.1.rows, hr], h2.jac, h1.coeffs, h1.bounds, h2.range, h1.nonneg, h1.proper⟩

theorem objOk_of_fits {n : Nat} {c : Comp K} (h : ObjFine n c) {i : Info K} {u : Nat → K} (x : Nat → K)
    (hf : Fits u i c) : ObjOk n i (c.ask x u) := by
  obtain ⟨x1, u1, rfl, hr⟩ := hf
  have h1 := h.2 x1 u1
  have h2 := h.2 x u
  exact ⟨by rw [h1.rows, h.1.rows, h.1.rows, hr], h2.jac, h2.coeffs, h1.bounds, h2.cols, h2.range, h2.nonneg, h1.proper⟩

theorem fits_rows {c : Comp K} (h : Sized c) {i : Info K} {u : Nat → K} (hf : Fits u i c) : i.rows = c.rowsAt u := by
  obtain ⟨x1, u1, rfl, hr⟩ := hf
  rw [← hr, ← h.rows x1 u1]; rfl

theorem forall₂_mem {α β : Type*} {R S : α → β → Prop} {l : List α} {l' : List β} (h : List.Forall₂ R l l')
    (hi : ∀ a, ∀ b ∈ l', R a b → S a b) : List.Forall₂ S l l' := by
  induction h with
  | nil => exact .nil
  | cons h1 _ ih => exact .cons (hi _ _ (by simp) h1) (ih fun a b hb => hi a b (by simp [hb]))

theorem sum_rows {u : Nat → K} {is : List (Info K)} {cs : List (Comp K)} (hc : ∀ c ∈ cs, Sized c)
    (h : List.Forall₂ (Fits u) is cs) : (is.map (·.rows)).sum = (cs.map (·.rowsAt u)).sum := by
  induction h with
  | nil => rfl
  | @cons i c is cs h1 _ ih =>
    simp only [List.map_cons, List.sum_cons]
    rw [fits_rows (hc c (by simp)) h1, ih fun c' hc' => hc c' (by simp [hc'])]

theorem totalRows_eq (s : State K) (cs : List (Comp K)) (hc : ∀ c ∈ cs, Sized c) :
    totalRows s cs = (cs.map (·.rowsAt s.upd)).sum := by
  rw [totalRows]
  congr 1
  exact List.map_congr_left fun c h => (hc c h).rows _ _

theorem dynCount_eq (s : State K) (cs : List (Comp K)) (hc : ∀ c ∈ cs, Sized c) : dynCount s cs = dynRows cs s.upd := by
  rw [dynCount, dynRows]
  congr 1
  exact List.map_congr_left fun c h => by rw [State.ask, (hc c h).count]

theorem fits_refresh (s : State K) {u0 : Nat → K} {is : List (Info K)} {cs : List (Comp K)} (hc : ∀ c ∈ cs, Sized c)
    (h : List.Forall₂ (Fits u0) is cs) : List.Forall₂ (Fits s.upd) (List.zipWith (refresh true s) cs is) cs := by
  induction h with
  | nil => exact .nil
  | @cons i c is cs h1 _ ih =>
    refine .cons ?_ (ih fun c' hc' => hc c' (by simp [hc']))
    cases hd : c.dynamic with
    | true => exact ⟨s.x, s.upd, by simp [refresh, hd, infoOf, State.ask], rfl⟩
    | false =>
      obtain ⟨x1, u1, a, b⟩ := h1
      exact ⟨x1, u1, by simp [refresh, hd, a], (hc c (by simp)).static hd _ _⟩

theorem fits_fresh (s : State K) (is : List (Info K)) (cs : List (Comp K)) (hl : is.length = cs.length) :
    List.Forall₂ (Fits s.upd) (List.zipWith (refresh false s) cs is) cs := by
  induction cs generalizing is with
  | nil => simp
  | cons c cs ih =>
    cases is with
    | nil => simp at hl
    | cons i is => exact .cons ⟨s.x, s.upd, by simp [refresh, infoOf, State.ask], rfl⟩ (ih is (by simpa using hl))

theorem dynRows_append (a b : List (Comp K)) (u : Nat → K) : dynRows (a ++ b) u = dynRows a u + dynRows b u := by
  simp [dynRows]

theorem fits_quiet {u0 u : Nat → K} {is : List (Info K)} {cs : List (Comp K)} (hc : ∀ c ∈ cs, Sized c)
    (hq : cs.any (·.dynamic) = false ∨ dynRows cs u0 = 0 ∧ dynRows cs u = 0) (h : List.Forall₂ (Fits u0) is cs) :
    List.Forall₂ (Fits u) is cs := by
  refine forall₂_mem h fun i c hm ⟨x1, u1, a, b⟩ => ⟨x1, u1, a, ?_⟩
  rw [b]
  cases hd : c.dynamic with
  | false => exact (hc c hm).static hd _ _
  | true =>
    rcases hq with hq | ⟨h1, h2⟩
    · have := List.any_eq_false.1 hq c hm
      exact absurd hd this
    · have key : ∀ v, dynRows cs v = 0 → c.rowsAt v = 0 := by
        intro v hv
        have : (if c.dynamic then c.rowsAt v else 0) ≤ dynRows cs v :=
          List.single_le_sum (by simp) _ (List.mem_map_of_mem hm)
        rw [hd, hv] at this
        simpa using this
      rw [key u0 h1, key u h2]

/-- The caches are those of the current point. -/
def Current (s : State K) : Prop :=
  List.Forall₂ (Fits s.upd) s.objInfos s.objective ∧ List.Forall₂ (Fits s.upd) s.penInfos s.penalty ∧
    List.Forall₂ (Fits s.upd) s.meritInfos s.merit

theorem ready_of_current {s : State K} (h : Live s) (hc : Current s) : Ready s where
  obj := forall₂_mem hc.1 fun i c hm hf => objOk_of_fits (h.finO c hm) s.x hf
  pen := forall₂_mem hc.2.1 fun i c hm hf => cntOk_of_fits (h.finP c hm) s.x hf
  merit := forall₂_mem hc.2.2 fun i c hm hf => cntOk_of_fits (h.finM c hm) s.x hf
  nObj := h.nObj
  nPen := h.nPen
  nMerit := h.nMerit
  target := h.target
  constant := h.constant
  lower := by have := h.lower; omega
  upper := by have := h.upper; omega
  meritCoeff := h.meritCoeff
  meritNonneg := h.meritNonneg
  box := h.box
  varBounds := h.varBounds
  valid := h.valid

theorem resize_length (junk : Nat → Ext K) (n : Nat) (l : List (Ext K)) : (resize junk n l).length = n := by
  unfold resize; split_ifs with h
  · exact h
  · simp

theorem Live.sized {s : State K} (h : Live s) : ∀ c ∈ s.sets, Sized c := by
  intro c hc
  rcases List.mem_append.1 hc with hc | hc
  · rcases List.mem_append.1 hc with hc | hc
    · exact (h.finO c hc).1
    · exact (h.finP c hc).1
  · exact (h.finM c hc).1

/-- `update` brings the caches up to date. -/
theorem Live.update {s : State K} (h : Live s) (junk : Nat → Ext K) :
    Live (s.update junk) ∧ Current (s.update junk) := by
  obtain ⟨u0, c1, c2, c3, c4⟩ := h.cached
  have so : ∀ c ∈ s.objective, Sized c := fun c hc => (h.finO c hc).1
  have sp : ∀ c ∈ s.penalty, Sized c := fun c hc => (h.finP c hc).1
  have sm : ∀ c ∈ s.merit, Sized c := fun c hc => (h.finM c hc).1
  unfold State.update
  split_ifs with hq
  · refine ⟨h, ?_⟩
    rw [h.init] at hq
    have hq' : s.sets.any (·.dynamic) = false ∨ dynRows s.sets u0 = 0 ∧ dynRows s.sets s.upd = 0 := by
      rw [← h.hasDyn, ← h.nDyn]
      simp only [Bool.true_and, Bool.or_eq_true, Bool.not_eq_true', Bool.and_eq_true, beq_iff_eq, c4,
        Option.some.injEq] at hq
      exact hq
    have part : ∀ cs : List (Comp K), (∀ c ∈ cs, c ∈ s.sets) → dynRows cs u0 ≤ dynRows s.sets u0 →
        dynRows cs s.upd ≤ dynRows s.sets s.upd →
        cs.any (·.dynamic) = false ∨ dynRows cs u0 = 0 ∧ dynRows cs s.upd = 0 := by
      intro cs hcs l1 l2
      rcases hq' with hq' | ⟨h1, h2⟩
      · left
        rw [List.any_eq_false] at hq' ⊢
        exact fun c hc => hq' c (hcs c hc)
      · right; exact ⟨by omega, by omega⟩
    have e : ∀ v, dynRows s.sets v = dynRows s.objective v + dynRows s.penalty v + dynRows s.merit v := by
      intro v; rw [State.sets, dynRows_append, dynRows_append]
    refine ⟨fits_quiet so (part _ ?_ ?_ ?_) c1, fits_quiet sp (part _ ?_ ?_ ?_) c2, fits_quiet sm (part _ ?_ ?_ ?_) c3⟩
    · intro c hc; simp [State.sets, hc]
    · rw [e]; omega
    · rw [e]; omega
    · intro c hc; simp [State.sets, hc]
    · rw [e]; omega
    · rw [e]; omega
    · intro c hc; simp [State.sets, hc]
    · rw [e]; omega
    · rw [e]; omega
  · have f1 := fits_refresh s so c1
    have f2 := fits_refresh s sp c2
    have f3 := fits_refresh s sm c3
    rw [h.init]
    refine ⟨⟨rfl, h.finO, h.finP, h.finM, ⟨s.upd, f1, f2, f3, ?_⟩, h.nDyn, h.hasDyn, ?_, ?_, ?_, ?_, ?_, ?_, ?_,
      h.lists, h.meritCoeff, h.meritNonneg, h.box, h.varBounds, h.valid⟩, f1, f2, f3⟩
    · simp only; rw [h.nDyn]; rfl
    · simp only; rw [totalRows_eq s _ so, sum_rows so f1]
    · simp only; rw [totalRows_eq s _ sp, sum_rows sp f2]
    · simp only; rw [totalRows_eq s _ sm, sum_rows sm f3]
    · simp
    · simp
    · simp [resize_length]
    · simp [resize_length]

/-! ### Setup -/

/-- The sets added so far are well behaved and so are the variable bounds. -/
structure Described (s : State K) : Prop where
  obj : ∀ c ∈ s.squared ++ s.dynSquared, ObjFine s.nVars c
  pen : ∀ c ∈ s.hinge ++ s.dynHinge ++ s.absolute ++ s.dynAbsolute, CntFine s.nVars c
  merit : ∀ c ∈ s.cnts ++ s.dynCnts, CntFine s.nVars c
  varBounds : s.varBounds.length = s.nVars
  valid : ∀ b ∈ s.varBounds, Valid b

theorem setup_live {s : State K} (h : Described s) (hi : s.initialized = false) (junk : Nat → Ext K) :
    Live (s.setup junk) ∧ Current (s.setup junk) := by
  have so : ∀ c ∈ s.squared ++ s.dynSquared, Sized c := fun c hc => (h.obj c hc).1
  have sp : ∀ c ∈ s.hinge ++ s.dynHinge ++ s.absolute ++ s.dynAbsolute, Sized c := fun c hc => (h.pen c hc).1
  have sm : ∀ c ∈ s.cnts ++ s.dynCnts, Sized c := fun c hc => (h.merit c hc).1
  have hi' : s.setupLists.initialized = false := hi
  have eo : s.setupLists.objective = s.squared ++ s.dynSquared := rfl
  have ep : s.setupLists.penalty = s.hinge ++ s.dynHinge ++ s.absolute ++ s.dynAbsolute := rfl
  have em : s.setupLists.merit = s.cnts ++ s.dynCnts := rfl
  have f1 := fits_fresh s.setupLists s.setupLists.objInfos s.setupLists.objective (by simp [State.setupLists])
  have f2 := fits_fresh s.setupLists s.setupLists.penInfos s.setupLists.penalty (by simp [State.setupLists])
  have f3 := fits_fresh s.setupLists s.setupLists.meritInfos s.setupLists.merit (by simp [State.setupLists])
  have hall : ∀ c ∈ s.squared ++ s.dynSquared ++ (s.hinge ++ s.dynHinge ++ s.absolute ++ s.dynAbsolute) ++
      (s.cnts ++ s.dynCnts), Sized c := by
    intro c hc
    rcases List.mem_append.1 hc with hc | hc
    · rcases List.mem_append.1 hc with hc | hc
      · exact so c hc
      · exact sp c hc
    · exact sm c hc
  have hd : s.setupLists.nDyn = dynRows s.setupLists.sets s.setupLists.upd := dynCount_eq { s with upd := s.x } _ hall
  unfold State.setup State.update
  rw [hi', Bool.false_and, if_neg (by simp)]
  refine ⟨⟨rfl, h.obj, h.pen, h.merit, ⟨s.setupLists.upd, f1, f2, f3, congrArg some hd⟩, hd, rfl, ?_, ?_, ?_, ?_, ?_, ?_,
    ?_, ?_, ?_, ?_, ?_, h.varBounds, h.valid⟩, f1, f2, f3⟩
  · exact (totalRows_eq _ _ so).trans (sum_rows so f1).symm
  · exact (totalRows_eq _ _ sp).trans (sum_rows sp f2).symm
  · exact (totalRows_eq _ _ sm).trans (sum_rows sm f3).symm
  · simp
  · simp
  · simp [resize_length]
  · simp [resize_length]
  · exact ⟨rfl, rfl, rfl⟩
  · simp [State.setupLists]
  · intro m hm
    have : m = 10 := by simpa [State.setupLists] using (List.mem_replicate.1 hm).2
    rw [this]; norm_num
  · simp [State.setupLists]

/-! ### The other calls -/

theorem writeSeg_some {α : Type u} (l : List α) (pos : Nat) (seg : List α) (h : pos + seg.length ≤ l.length) :
    ∃ l', writeSeg l pos seg = some l' ∧ l'.length = l.length := by
  refine ⟨_, by rw [writeSeg, if_pos h], ?_⟩
  simp only [List.length_append, List.length_take, List.length_drop]; omega

theorem boxBounds_some (s : State K) (h1 : s.box.length = s.nVars) (h2 : s.varBounds.length = s.nVars)
    (h3 : ∀ b ∈ s.varBounds, Valid b) : ∃ iv, s.boxBounds = some iv ∧ iv.length = s.nVars := by
  have hbox : ∀ i, i < s.nVars → ∃ iv : K × K, (match s.box[i]?, s.varBounds[i]? with
      | some b, some (lb, ub) => trustInterval b (s.x i) lb ub
      | _, _ => none) = some iv := by
    intro i hi
    have e1 := List.getElem?_eq_getElem (l := s.box) (i := i) (by rw [h1]; exact hi)
    have hi2 : i < s.varBounds.length := by rw [h2]; exact hi
    have e2 := List.getElem?_eq_getElem (l := s.varBounds) (i := i) hi2
    rw [e1, e2]
    have hv := h3 _ (List.getElem_mem hi2)
    generalize s.varBounds[i] = vb at hv ⊢
    obtain ⟨lb, ub⟩ := vb
    simp only at hv ⊢
    exact ⟨_, by rw [trustInterval, stdClamp_eq _ lb ub hv]; rfl⟩
  choose! ivf hivf using hbox
  exact ⟨(List.range s.nVars).map ivf, Verif.JointConstraints.mapM_range_some _ _ _ hivf, by simp⟩

theorem updateNLP_some (s : State K) (h1 : s.box.length = s.nVars) (h2 : s.varBounds.length = s.nVars)
    (h3 : ∀ b ∈ s.varBounds, Valid b) (hl : s.nVars + s.nPen + s.nMerit ≤ s.lower.length)
    (hu : s.nVars + s.nPen + s.nMerit ≤ s.upper.length) :
    ∃ lo hi, s.updateNLPVariableBounds = some { s with lower := lo, upper := hi } ∧ lo.length = s.lower.length ∧
      hi.length = s.upper.length := by
  obtain ⟨iv, a1, a2⟩ := boxBounds_some s h1 h2 h3
  obtain ⟨lo, b1, b2⟩ := writeSeg_some s.lower (s.nMerit + s.nPen) (iv.map fun i => Ext.fin i.1) (by simp [a2]; omega)
  obtain ⟨hi, c1, c2⟩ := writeSeg_some s.upper (s.nMerit + s.nPen) (iv.map fun i => Ext.fin i.2) (by simp [a2]; omega)
  exact ⟨lo, hi, by simp only [State.updateNLPVariableBounds, a1, b1, c1], b2, c2⟩

/-- `convexify` succeeds on a live problem and leaves it live. -/
theorem Live.convexify {s : State K} (h : Live s) (sqrt : K → K) (hsqrt : ∀ a : K, 0 ≤ a → sqrt a * sqrt a = a)
    (junk : Nat → Ext K) : ∃ s' outs iv head, s.convexify sqrt junk = some s' ∧
      Ready (s.update junk) ∧ Assembled (s.update junk) s'
        (problemRows (usedMerit (s.update junk).meritInfos (s.update junk).meritCoeff) (s.update junk)) outs iv head ∧
      Live s' ∧ Current s' := by
  obtain ⟨h1, h2⟩ := h.update junk
  have hr := ready_of_current h1 h2
  obtain ⟨s', outs, iv, head, a1, a2⟩ := convexify_ok sqrt hsqrt junk _ hr
  refine ⟨s', outs, iv, head, by rw [State.convexify, if_pos h.init]; exact a1, hr, a2, ?_⟩
  generalize s.update junk = t at h1 h2 hr a1 a2
  clear h s
  obtain ⟨b1, b2, b3, b4, b5, b6, b7, b8, b9, b10, b11, b12, b13, b14, b15⟩ := a2.frame
  obtain ⟨d1, d2, d3, d4, d5, d6, d7, d8, d9, d10, d11, d12, d13⟩ := a2.flags
  have es : s'.sets = t.sets := by simp only [State.sets, b10, b11, b12]
  have hol : outs.length = t.nPen + t.nMerit := by rw [a2.laid.length, a2.rowsLen]
  refine ⟨⟨?_, ?_, ?_, ?_, ?_, ?_, ?_, ?_, ?_, ?_, ?_, ?_, ?_, ?_, ?_, ?_, ?_, ?_, ?_, ?_⟩, ?_⟩
  · rw [d1, h1.init]
  · rw [b10, b1]; exact h1.finO
  · rw [b11, b1]; exact h1.finP
  · rw [b12, b1]; exact h1.finM
  · rw [b4, b5, b6, b10, b11, b12, d4, es]; exact h1.cached
  · rw [d3, es, b3]; exact h1.nDyn
  · rw [d2, es]; exact h1.hasDyn
  · rw [b7, b4]; exact h1.nObj
  · rw [b8, b5]; exact h1.nPen
  · rw [b9, b6]; exact h1.nMerit
  · rw [d7, b7]; exact h1.target
  · rw [a2.constant, List.length_map, a2.rowsLen, b8, b9]
  · rw [a2.lower, b1, b8, b9]; simp [hol, a2.ivLen]; omega
  · rw [a2.upper, b1, b8, b9]; simp [hol, a2.ivLen]; omega
  · rw [b10, b11, b12, d5, d6, d8, d9, d10, d11, d12, d13]; exact h1.lists
  · rw [b13, b12]; exact h1.meritCoeff
  · rw [b13]; exact h1.meritNonneg
  · rw [b14, b1]; exact h1.box
  · rw [b15, b1]; exact h1.varBounds
  · rw [b15]; exact h1.valid
  · rw [Current, b4, b5, b6, b10, b11, b12, b3]; exact h2

theorem Live.setVariables {s : State K} (h : Live s) (hash : (Nat → K) → Nat) (x : Nat → K) :
    Live (s.setVariables hash x) := by
  unfold State.setVariables
  split_ifs with hh
  · exact ⟨h.init, h.finO, h.finP, h.finM, h.cached, h.nDyn, h.hasDyn, h.nObj, h.nPen, h.nMerit, h.target, h.constant,
      h.lower, h.upper, h.lists, h.meritCoeff, h.meritNonneg, h.box, h.varBounds, h.valid⟩
  · exact ⟨h.init, h.finO, h.finP, h.finM, h.cached, dynCount_eq { s with x := x, upd := x } _ h.sized, h.hasDyn, h.nObj,
      h.nPen, h.nMerit, h.target, h.constant, h.lower, h.upper, h.lists, h.meritCoeff, h.meritNonneg, h.box,
      h.varBounds, h.valid⟩

theorem Live.withBox {s : State K} (h : Live s) (b : List K) (hb : b.length = s.nVars) :
    ∃ s', ({ s with box := b } : State K).updateNLPVariableBounds = some s' ∧ Live s' ∧ s'.nVars = s.nVars ∧
      s'.cnts = s.cnts ∧ s'.dynCnts = s.dynCnts := by
  obtain ⟨lo, hi, a1, a2, a3⟩ := updateNLP_some { s with box := b } hb h.varBounds h.valid h.lower h.upper
  refine ⟨_, a1, ⟨h.init, h.finO, h.finP, h.finM, h.cached, h.nDyn, h.hasDyn, h.nObj, h.nPen, h.nMerit, h.target, h.constant,
      ?_, ?_, h.lists, h.meritCoeff, h.meritNonneg, hb, h.varBounds, h.valid⟩, rfl, rfl, rfl⟩
  · simp only; rw [a2]; exact h.lower
  · simp only; rw [a3]; exact h.upper

theorem Live.setMerit {s : State K} (h : Live s) (m : List K) (hm : m.length = s.cnts.length + s.dynCnts.length)
    (h0 : ∀ a ∈ m, 0 ≤ a) : s.setConstraintMeritCoeff m = some { s with meritCoeff := m } ∧
      Live { s with meritCoeff := m } :=
  ⟨by rw [State.setConstraintMeritCoeff, if_pos hm],
    ⟨h.init, h.finO, h.finP, h.finM, h.cached, h.nDyn, h.hasDyn, h.nObj, h.nPen, h.nMerit, h.target, h.constant,
      h.lower, h.upper, h.lists, by rw [h.lists.2.2, List.length_append]; exact hm, h0, h.box, h.varBounds, h.valid⟩⟩

end Verif.QpProblem
