import Verif.Props.IfoptPlanRows
import Verif.Props.SqpRunRange

/-!
C136, C137 and C138: joint trajectory planning with `trajopt_ifopt` and `trajopt_sqp`, from the nodes a user builds to the trajectory the user
reads.
-/

set_option linter.unusedSectionVars false
set_option linter.unusedVariables false

namespace Verif.IfoptPlan

open Verif.Bounds Verif.JointConstraints
open Verif.VarSets (Var VarSpec NodesVariables)
open Verif.QpProblem (Snap Comp Penalty State sides Proper CntFine ObjFine Sized CntOk ObjOk infoOf Described)
open Verif.OsqpEigen (Solver)
open Verif.SqpRun (Reusable reusable_new Setting Usable Desc World Run Sane run vars ext at' violationOf descOf)
open Verif.Sqp (Params)

universe u
variable {K : Type u} [Field K] [LinearOrder K] [IsStrictOrderedRing K]

/-! ### Specification -/

/-- Specification: a planning problem that fits together: variables with at least one coordinate and bounds that are not crossed, position
variables in order and with `dof` coordinates, terms that fit and penalties that suit them. -/
structure Plan.Ok (dof : Nat) (P : Plan K) : Prop where
  hdof : 0 < dof
  nonempty : P.nodes.flatten ≠ []
  specs : ∀ v ∈ P.nodes.flatten, 0 < v.nNames ∧ v.values.length = v.nNames ∧ v.bounds.length = v.nNames ∧ ∀ b ∈ v.bounds, Valid b
  order : P.pos.Pairwise (· < ·)
  size : ∀ p ∈ P.pos, ∃ v, P.nodes.flatten[p]? = some v ∧ v.nNames = dof
  terms : ∀ a ∈ P.adds, a.1.Ok dof P.pos.length ∧ a.1.Suits a.2

/-- Specification: every variable has finite bounds inside OSQP's range. -/
def Plan.Limited (P : Plan K) : Prop :=
  ∃ M, M < Sco.osqpInfty ∧ ∀ v ∈ P.nodes.flatten, ∀ b ∈ v.bounds, ∃ l u, b = (Option.some l, Option.some u) ∧ -M ≤ l ∧ u ≤ M

/-- Specification: joint `k` at step `s`, as the user reads it from the variables. -/
def joint (pos : List Nat) (nv : NodesVariables K) (s k : Nat) : K :=
  match (pos[s]?).bind fun p => nv.vars[p]? with
  | some v => v.values.getD k 0
  | none => 0

/-- Specification: the terms added with a penalty type, or as constraints. -/
def Plan.terms (P : Plan K) (p : Option Penalty) : List (Term K) := (P.adds.filter fun a => a.2 = p).map (·.1)

/-- Specification: the costs of a plan for a trajectory, in the order in which the results list them: squared, hinge, absolute. -/
def Plan.costs (P : Plan K) (q : Nat → Nat → K) : List K :=
  ((P.terms (some .squared)).map (·.squares P.pos.length q)) ++ ((P.terms (some .hinge)).map (·.error P.pos.length q)) ++
    (P.terms (some .absolute)).map (·.error P.pos.length q)

/-! ### Building the variables -/

theorem mapM_some {α β : Type*} (f : α → Option β) (g : α → β) : ∀ l : List α, (∀ a ∈ l, f a = some (g a)) → l.mapM f = some (l.map g) := by
  intro l
  induction l with
  | nil => intro _; rfl
  | cons a l ih => intro h; simp [List.mapM_cons, h a (by simp), ih fun b hb => h b (by simp [hb])]

theorem mapM_exists {α β : Type*} (f : α → Option β) : ∀ l : List α, (∀ a ∈ l, ∃ b, f a = some b) → ∃ m, l.mapM f = some m := by
  intro l
  induction l with
  | nil => intro _; exact ⟨[], rfl⟩
  | cons a l ih =>
    intro h
    obtain ⟨b, hb⟩ := h a (by simp)
    obtain ⟨m, hm⟩ := ih fun b hb => h b (by simp [hb])
    exact ⟨b :: m, by simp [List.mapM_cons, hb, hm]⟩

theorem buildNode_ok (l : List (VarSpec K)) (h : ∀ v ∈ l, v.values.length = v.nNames ∧ v.bounds.length = v.nNames) : ∃ n, VarSets.buildNode l = some n := by
  have key : ∀ (l : List (VarSpec K)) (n0 : VarSets.Node K), (∀ v ∈ l, v.values.length = v.nNames ∧ v.bounds.length = v.nNames) →
      ∃ n, l.foldlM VarSets.Node.addVar n0 = some n := by
    intro l
    induction l with
    | nil => intro n0 _; exact ⟨n0, rfl⟩
    | cons a l ih =>
      intro n0 h
      obtain ⟨h1, h2⟩ := h a (by simp)
      obtain ⟨n, hn⟩ := ih ⟨n0.vars ++ [⟨n0.length, getClosestValidPoint a.values a.bounds, a.bounds⟩], n0.length + a.nNames⟩
        fun v hv => h v (by simp [hv])
      refine ⟨n, ?_⟩
      rw [List.foldlM_cons]
      simp only [VarSets.Node.addVar, VarSets.Var.new, h1, h2, ne_eq, not_true, if_false, Option.bind_eq_bind, Option.bind_some]
      exact hn
  exact key l _ h

theorem build_ok (l : List (List (VarSpec K))) (h : ∀ v ∈ l.flatten, v.values.length = v.nNames ∧ v.bounds.length = v.nNames) :
    ∃ nv, VarSets.build l = some nv := by
  obtain ⟨ns, hns⟩ := mapM_exists VarSets.buildNode l fun n hn => buildNode_ok n fun v hv => h v (List.mem_flatten.2 ⟨n, hn, hv⟩)
  have h2 := VarSets.mapM_forall₂' (P := VarSets.NodeInv) (fun a b hab => VarSets.buildNode_inv a b hab) l ns hns
  obtain ⟨a1, a2, a3, a4, a5⟩ := VarSets.addNode_fold ns l h2 (⟨[], [], [], 0⟩ : NodesVariables K) trivial rfl rfl
  unfold VarSets.build
  rw [hns]
  simp only [NodesVariables.new]
  set s := ns.foldl NodesVariables.addNode (⟨[], [], [], 0⟩ : NodesVariables K) with hs
  have hl : (s.nodes.flatMap VarSets.Node.getValues).length = s.bounds.length := by
    have e : s.nodes.flatMap VarSets.Node.getValues = s.vars.flatMap Var.values := by
      simp only [NodesVariables.vars]; rw [List.flatMap_assoc]; rfl
    rw [e, a3, List.length_flatMap, List.length_flatMap]
    congr 1
    refine List.map_congr_left fun v hv => ?_
    obtain ⟨pre, post, e⟩ := List.append_of_mem hv
    exact (VarSets.chain_index a1 pre post v e).2.symm
  rw [if_pos hl]
  exact ⟨_, rfl⟩

/-- The `p`-th variable. -/
def var (nv : NodesVariables K) (p : Nat) : Var K := (nv.vars[p]?).getD ⟨0, [], []⟩

/-- Where the position variables start. -/
def starts (pos : List Nat) (nv : NodesVariables K) : List Nat := pos.map fun p => (var nv p).index

section
variable {dof : Nat} {P : Plan K} {nv : NodesVariables K}

theorem var_asked (hb : VarSets.build P.nodes = some nv) {p : Nat} {v : VarSpec K} (hp : P.nodes.flatten[p]? = some v) :
    ∃ w, nv.vars[p]? = some w ∧ w.size = v.nNames ∧ w.bounds = v.bounds := by
  obtain ⟨-, ha, -⟩ := VarSets.build_inv _ _ hb
  have := congrArg (fun l => l[p]?) ha
  simp only [VarSets.asked, List.getElem?_map, hp, Option.map_some, Option.map_eq_some_iff, Prod.mk.injEq] at this
  obtain ⟨w, h1, h2, h3⟩ := this
  exact ⟨w, h1, h2, h3⟩

theorem pos_var (h : P.Ok dof) (hb : VarSets.build P.nodes = some nv) {p : Nat} (hp : p ∈ P.pos) :
    nv.vars[p]? = some (var nv p) ∧ (var nv p).size = dof := by
  obtain ⟨v, h1, h2⟩ := h.size p hp
  obtain ⟨w, w1, w2, -⟩ := var_asked hb h1
  unfold var
  rw [w1]
  exact ⟨rfl, w2.trans h2⟩

theorem split_at {α : Type*} {l : List α} {p : Nat} {a : α} (h : l[p]? = some a) : l = l.take p ++ a :: l.drop (p + 1) := by
  obtain ⟨hp, rfl⟩ := List.getElem?_eq_some_iff.1 h
  rw [List.getElem_cons_drop]
  exact (List.take_append_drop p l).symm

theorem starts_apart (h : P.Ok dof) (hb : VarSets.build P.nodes = some nv) :
    (starts P.pos nv).Pairwise (fun a b => a + dof ≤ b) ∧ ∀ i ∈ starts P.pos nv, i + dof ≤ nv.nDim := by
  obtain ⟨hi, -, -⟩ := VarSets.build_inv _ _ hb
  have hidx : ∀ (p : Nat) (v : Var K), nv.vars[p]? = some v → v.index = VarSets.sizes (nv.vars.take p) := by
    intro p v hv
    have := (VarSets.chain_index hi.chain _ _ v (split_at hv)).1
    omega
  have hle : ∀ (p : Nat) (v : Var K) (p' : Nat), nv.vars[p]? = some v → p < p' → VarSets.sizes (nv.vars.take p) + v.size ≤ VarSets.sizes (nv.vars.take p') := by
    intro p v p' hv hlt
    have e : nv.vars.take p' = nv.vars.take p ++ v :: (nv.vars.drop (p + 1)).take (p' - (p + 1)) := by
      conv_lhs => rw [split_at hv]
      have hl : (nv.vars.take p).length = p := by
        rw [List.length_take, Nat.min_eq_left]
        exact le_of_lt (List.getElem?_eq_some_iff.1 hv).1
      rw [List.take_append, hl, List.take_of_length_le (by omega)]
      congr 1
      rw [show p' - p = (p' - (p + 1)) + 1 by omega, List.take_succ_cons]
    rw [e, VarSets.sizes_append, VarSets.sizes_cons]
    omega
  constructor
  · unfold starts
    rw [List.pairwise_map]
    refine h.order.imp_of_mem fun {a b} ha hb' hab => ?_
    obtain ⟨a1, a2⟩ := pos_var h hb ha
    obtain ⟨b1, b2⟩ := pos_var h hb hb'
    rw [hidx _ _ a1, hidx _ _ b1]
    have := hle a _ b a1 hab
    omega
  · intro i hi'
    simp only [starts, List.mem_map] at hi'
    obtain ⟨p, hp, rfl⟩ := hi'
    obtain ⟨a1, a2⟩ := pos_var h hb hp
    rw [hidx _ _ a1, hi.dim]
    have := hle p _ (nv.vars.length) a1 (List.getElem?_eq_some_iff.1 a1).1
    rw [List.take_length] at this
    omega

theorem starts_ordered (h : P.Ok dof) (hb : VarSets.build P.nodes = some nv) : Ordered (starts P.pos nv) dof nv.nDim := by
  obtain ⟨h1, h2⟩ := starts_apart h hb
  have := h.hdof
  exact ⟨h1.imp fun {a b} hab => by omega, h2⟩

theorem nDim_pos (h : P.Ok dof) (hb : VarSets.build P.nodes = some nv) : 0 < nv.nDim := by
  obtain ⟨hi, -, -⟩ := VarSets.build_inv _ _ hb
  obtain ⟨v, l, e⟩ := List.exists_cons_of_ne_nil h.nonempty
  obtain ⟨w, w1, w2, -⟩ := var_asked (p := 0) (v := v) hb (by rw [e]; rfl)
  have := (h.specs v (by rw [e]; simp)).1
  rw [hi.dim, split_at w1, VarSets.sizes_append, VarSets.sizes_cons]
  omega

/-- Setting the variables and what the constraints then see. -/
theorem set_same (h : P.Ok dof) (hb : VarSets.build P.nodes = some nv) (x : List K) (hx : x.length = nv.nDim) :
    ∃ nv', nv.setVariables x = some nv' ∧ (∃ vs, picked P.pos nv' = some vs ∧ Same vs (readVars (starts P.pos nv) dof (ext x))) ∧
      (∀ s k, s < P.pos.length → k < dof → joint P.pos nv' s k = traj (starts P.pos nv) (ext x) k s) ∧
      ∀ (p : Nat) (v : Var K), nv.vars[p]? = some v → ∃ v', nv'.vars[p]? = some v' ∧ v'.values = VarSets.slice x v.index v.size := by
  obtain ⟨hi, ha, -⟩ := VarSets.build_inv _ _ hb
  obtain ⟨nv', a1, a2, a3, a4, a5⟩ := VarSets.C39_set_get P.nodes [] nv ⟨nv, hb, by simp, rfl⟩
    (fun n hn v hv => (h.specs v (List.mem_flatten.2 ⟨n, hn, hv⟩)).1) x hx
  have hget : ∀ (p : Nat) (v : Var K), nv.vars[p]? = some v → ∃ v', nv'.vars[p]? = some v' ∧ v'.index = v.index ∧ v'.values = VarSets.slice x v.index v.size := by
    intro p v hv
    have e1 := congrArg (fun l => l[p]?) a4
    have e2 := congrArg (fun l => l[p]?) a5
    simp only [List.getElem?_map, hv, Option.map_some, Option.map_eq_some_iff] at e1 e2
    obtain ⟨v', h1, h2⟩ := e1
    obtain ⟨v'', h3, h4⟩ := e2
    rw [h1] at h3; injection h3 with h3; subst h3
    exact ⟨v', h1, h2, h4⟩
  have hslice : ∀ p ∈ P.pos, VarSets.slice x (var nv p).index (var nv p).size = (List.range dof).map fun k => ext x ((var nv p).index + k) := by
    intro p hp
    have hr := (starts_ordered h hb).2 (var nv p).index (List.mem_map_of_mem hp)
    rw [(pos_var h hb hp).2]
    apply List.ext_getElem?
    intro k
    simp only [VarSets.slice, List.getElem?_take, List.getElem?_drop, List.getElem?_map]
    by_cases hk : k < dof
    · rw [if_pos hk, List.getElem?_range hk]
      simp only [Option.map_some, ext, List.getD_eq_getElem?_getD]
      rw [List.getElem?_eq_getElem (by omega)]; rfl
    · rw [if_neg hk, List.getElem?_eq_none (by simpa using hk)]; rfl
  refine ⟨nv', a1, ⟨P.pos.map (var nv'), mapM_some _ _ _ ?_, ?_⟩, ?_, ?_⟩
  · intro p hp
    obtain ⟨v', h1, -⟩ := hget p _ (pos_var h hb hp).1
    simp [var, h1]
  · unfold Same readVars starts
    rw [List.map_map, List.map_map, List.map_map]
    refine List.map_congr_left fun p hp => ?_
    obtain ⟨v', h1, h2, h3⟩ := hget p _ (pos_var h hb hp).1
    rw [hslice p hp] at h3
    simp only [Function.comp, var, h1, Option.getD_some, h2, h3]
  · intro s k hs hk
    have hp : P.pos[s]? = some (P.pos[s]) := List.getElem?_eq_getElem hs
    have hm : P.pos[s] ∈ P.pos := List.getElem_mem hs
    obtain ⟨v', h1, h2, h3⟩ := hget _ _ (pos_var h hb hm).1
    rw [hslice _ hm] at h3
    simp only [joint, hp, Option.bind_some, h1, h3, traj, starts]
    simp [List.getD_eq_getElem?_getD, List.getElem?_map, List.getElem?_range hk, hp]
  · intro p v hv
    obtain ⟨v', h1, h2, h3⟩ := hget p v hv
    exact ⟨v', h1, h3⟩

/-! ### What the constraint sets answer -/

theorem ext_range (n : Nat) (x : Nat → K) (i : Nat) (hi : i < n) : ext ((List.range n).map x) i = x i := by
  simp [ext, List.getD_eq_getElem?_getD, List.getElem?_range hi]

/-- The trajectory in the vector `x`. -/
def trajOf (P : Plan K) (nv : NodesVariables K) (x : Nat → K) (s k : Nat) : K := traj (starts P.pos nv) (ext ((List.range nv.nDim).map x)) k s

theorem starts_length : (starts P.pos nv).length = P.pos.length := by simp [starts]

theorem answer_shape (h : P.Ok dof) (hb : VarSets.build P.nodes = some nv) {t : Term K} (ht : t.Ok dof P.pos.length) (x : Nat → K) :
    ∃ s, t.answer P.pos nv x = some s ∧ Shape nv.nDim s (t.rows dof P.pos.length (trajOf P nv x)) ∧
      Lin x s := by
  obtain ⟨nv', a1, ⟨vs, a2, a3⟩, -⟩ := set_same h hb ((List.range nv.nDim).map x) (by simp)
  obtain ⟨s, b1, b2, b3⟩ := term_shape h.hdof (starts_ordered h hb) (ext ((List.range nv.nDim).map x)) (t := t) (by rw [starts_length]; exact ht)
  rw [starts_length] at b2
  refine ⟨s, ?_, b2, ?_⟩
  swap
  · intro p hp
    rw [b3 p hp]
    unfold SqpExprs.dot
    congr 1
    refine List.map_congr_left fun c hc => ?_
    rw [ext_range _ _ _ (b2.range p.2 (List.of_mem_zip (show (p.1, p.2) ∈ _ from hp)).2 c hc)]
  unfold Term.answer
  rw [a1]
  simp only [a2]
  rw [snap_same a3, b1]

theorem comp_shape (h : P.Ok dof) (hb : VarSets.build P.nodes = some nv) {t : Term K} (ht : t.Ok dof P.pos.length) (x u : Nat → K) :
    Shape nv.nDim ((t.comp P.pos nv).ask x u) (t.rows dof P.pos.length (trajOf P nv x)) := by
  obtain ⟨s, h1, h2, -⟩ := answer_shape h hb ht x
  simp only [Term.comp, h1, Option.getD_some]
  exact h2

theorem comp_rows (h : P.Ok dof) (hb : VarSets.build P.nodes = some nv) {t : Term K} (ht : t.Ok dof P.pos.length) (u : Nat → K) :
    (t.comp P.pos nv).rowsAt u = (t.rows dof P.pos.length fun _ _ => 0).length := by
  rw [Comp.rowsAt, (comp_shape h hb ht u u).values, List.length_map]
  exact rows_length _ _ _ _ _

theorem comp_sized (h : P.Ok dof) (hb : VarSets.build P.nodes = some nv) {t : Term K} (ht : t.Ok dof P.pos.length) : Sized (t.comp P.pos nv) := by
  refine ⟨fun x u => ?_, fun x u => ?_, fun _ u u' => ?_⟩
  · rw [(comp_shape h hb ht x u).count, comp_rows h hb ht]; exact rows_length _ _ _ _ _
  · rw [(comp_shape h hb ht x u).values, List.length_map, comp_rows h hb ht]; exact rows_length _ _ _ _ _
  · rw [comp_rows h hb ht, comp_rows h hb ht]

theorem comp_cnt (h : P.Ok dof) (hb : VarSets.build P.nodes = some nv) {t : Term K} (ht : t.Ok dof P.pos.length) :
    CntFine nv.nDim (t.comp P.pos nv) := by
  refine ⟨comp_sized h hb ht, fun x u => ?_⟩
  have hs := comp_shape h hb ht x u
  refine ⟨rfl, by rw [hs.jac, hs.values, List.length_map], ?_, ?_, hs.range, ?_, ?_⟩
  · simp only [infoOf, QpProblem.Snap.rows, hs.coeffs, hs.values, List.length_map]
  · simp only [infoOf, QpProblem.Snap.rows, hs.bounds, hs.values, List.length_map]
  · intro c hc
    simp only [infoOf, hs.coeffs, List.mem_map] at hc
    obtain ⟨r, hr, rfl⟩ := hc
    exact (rows_ok _ ht r hr).1.le
  · intro c hc
    simp only [infoOf, hs.bounds, List.mem_map] at hc
    obtain ⟨r, hr, rfl⟩ := hc
    exact (rows_ok _ ht r hr).2

theorem comp_obj (h : P.Ok dof) (hb : VarSets.build P.nodes = some nv) {t : Term K} (ht : t.Ok dof P.pos.length) (hsng : t.Single) :
    ObjFine nv.nDim (t.comp P.pos nv) := by
  refine ⟨comp_sized h hb ht, fun x u => ?_⟩
  have hs := comp_shape h hb ht x u
  refine ⟨rfl, by rw [hs.jac, hs.values, List.length_map], ?_, ?_, hs.cols, hs.range, ?_, ?_⟩
  · simp only [hs.coeffs, hs.values, List.length_map]
  · simp only [infoOf, QpProblem.Snap.rows, hs.bounds, hs.values, List.length_map]
  · intro c hc
    simp only [hs.coeffs, List.mem_map] at hc
    obtain ⟨r, hr, rfl⟩ := hc
    exact (rows_ok _ ht r hr).1.le
  · intro c hc
    simp only [infoOf, hs.bounds, List.mem_map] at hc
    obtain ⟨r, hr, rfl⟩ := hc
    exact rows_eq _ ht hsng r hr

theorem shape_violations {n : Nat} {s : Snap K} {L : List (Row K)} (h : Shape n s L) :
    calcBoundsViolations s.values (s.bounds.map sides) = (L.map wv).map (·.2) := by
  rw [calcBoundsViolations, h.values, h.bounds]
  clear h
  induction L with
  | nil => rfl
  | cons r L ih => simp only [List.map_cons, List.zipWith_cons_cons, ih, wv]

theorem shape_squares {n : Nat} {s : Snap K} {L : List (Row K)} (h : Shape n s L) :
    (List.zipWith (fun e w => e * e * w) (calcBoundsViolations s.values (s.bounds.map sides)) s.coeffs).sum = ((L.map wv).map fun g => g.1 * g.2 ^ 2).sum := by
  rw [shape_violations h, h.coeffs]
  clear h
  congr 1
  induction L with
  | nil => rfl
  | cons r L ih =>
    simp only [List.map_cons, List.zipWith_cons_cons, ih, wv]
    congr 1; ring

/-- The demands of a term read the trajectory at its own steps and joints only. -/
theorem gaps_congr {T : Nat} {q q' : Nat → Nat → K} (hq : ∀ s k, s < T → k < dof → q s k = q' s k) {t : Term K} (ht : t.Ok dof T) :
    t.gaps T q = t.gaps T q' := by
  have hz : ∀ {α : Type u} {l : List α} {a : α} {k : Nat}, l.length = dof → (a, k) ∈ l.zipIdx → k < dof := by
    intro α l a k hl hm
    have := List.mem_zipIdx hm; omega
  have hst : ∀ w T i, w < T → i < T → stencil w T i + w < T := by
    intro w T i h1 h2; unfold stencil; split_ifs <;> omega
  cases t with
  | target s t cs =>
    refine List.map_congr_left ?_
    rintro ⟨v, k⟩ hm
    show (_, |q s k - v|) = (_, |q' s k - v|)
    rw [hq s k ht.1 (hz ht.2.1 hm)]
  | limits s bs cs =>
    refine List.map_congr_left ?_
    rintro ⟨v, k⟩ hm
    show (_, miss v (q s k)) = (_, miss v (q' s k))
    rw [hq s k ht.1 (hz ht.2.1 hm)]
  | vel t cs =>
    apply List.flatMap_congr
    intro s hs
    have hs := List.mem_range.1 hs
    refine List.map_congr_left ?_
    rintro ⟨v, k⟩ hm
    have hk := hz ht.2.1 hm
    show (_, |rate q s k - v|) = (_, |rate q' s k - v|)
    simp only [rate]
    rw [hq s k (by omega) hk, hq (s + 1) k (by omega) hk]
  | acc t cs =>
    apply List.flatMap_congr
    intro i hi
    have hi := List.mem_range.1 hi
    have := hst 2 T i (by have := ht.1; omega) hi
    refine List.map_congr_left ?_
    rintro ⟨v, k⟩ hm
    have hk := hz ht.2.1 hm
    show (_, |rate (rate q) (stencil 2 T i) k - v|) = (_, |rate (rate q') (stencil 2 T i) k - v|)
    simp only [rate]
    rw [hq (stencil 2 T i) k (by omega) hk, hq (stencil 2 T i + 1) k (by omega) hk, hq (stencil 2 T i + 1 + 1) k (by omega) hk]
  | jerk t cs =>
    apply List.flatMap_congr
    intro i hi
    have hi := List.mem_range.1 hi
    have := hst 3 T i (by have := ht.1; omega) hi
    refine List.map_congr_left ?_
    rintro ⟨v, k⟩ hm
    have hk := hz ht.2.1 hm
    show (_, |rate (rate (rate q)) (stencil 3 T i) k - v|) = (_, |rate (rate (rate q')) (stencil 3 T i) k - v|)
    simp only [rate]
    rw [hq (stencil 3 T i) k (by omega) hk, hq (stencil 3 T i + 1) k (by omega) hk, hq (stencil 3 T i + 1 + 1) k (by omega) hk,
      hq (stencil 3 T i + 1 + 1 + 1) k (by omega) hk]

/-! ### The problem object -/

/-- The constraint sets made for the terms. -/
def comps (P : Plan K) (nv : NodesVariables K) (p : Option Penalty) : List (Comp K) := (P.terms p).map (·.comp P.pos nv)

/-- The problem before anything is added. -/
def empty (nv : NodesVariables K) : State K :=
  { nVars := nv.nDim, varBounds := nv.bounds, x := fun i => nv.values.getD i 0, upd := fun i => nv.values.getD i 0 }

theorem single_of {t : Term K} {p : Penalty} (hp : p ≠ .hinge) (h : t.Suits (some p)) : t.Single := by
  cases t <;> cases p <;> first | exact trivial | exact h | exact absurd rfl hp

theorem add_ok (h : P.Ok dof) (hb : VarSets.build P.nodes = some nv) (a : Term K × Option Penalty) (ha : a ∈ P.adds) (s : State K) :
    add P.pos nv s a = some (match a.2 with
      | some .squared => { s with squared := s.squared ++ [a.1.comp P.pos nv], initialized := false }
      | some .absolute => { s with absolute := s.absolute ++ [a.1.comp P.pos nv], initialized := false }
      | some .hinge => { s with hinge := s.hinge ++ [a.1.comp P.pos nv], initialized := false }
      | none => { s with cnts := s.cnts ++ [a.1.comp P.pos nv], initialized := false }) := by
  obtain ⟨h1, h2⟩ := h.terms a ha
  obtain ⟨t, p⟩ := a
  obtain ⟨r, a1, -, -⟩ := answer_shape h hb h1 s.x
  have hsh := comp_shape h hb h1 s.x s.upd
  unfold add
  simp only [a1]
  have hdyn : (t.comp P.pos nv).dynamic = false := rfl
  cases p with
  | none => simp only [State.addConstraintSet, hdyn, Bool.false_eq_true, if_false]
  | some p =>
    have heq : t.Single → ∀ b ∈ (s.ask (t.comp P.pos nv)).bounds, b.type = .equality := by
      intro hs b hb'
      have hb' : b ∈ ((t.comp P.pos nv).ask s.x s.upd).bounds := hb'
      rw [hsh.bounds, List.mem_map] at hb'
      obtain ⟨r, hr, rfl⟩ := hb'
      obtain ⟨l, u, e⟩ := rows_eq _ h1 hs r hr
      rw [e]
    cases p with
    | squared =>
      simp only [State.addCostSet]
      rw [if_pos (heq (single_of (by simp) h2)), hdyn]
      simp
    | absolute =>
      simp only [State.addCostSet]
      rw [if_pos (heq (single_of (by simp) h2)), hdyn]
      simp
    | hinge =>
      simp only [State.addCostSet]
      rw [if_pos, hdyn]
      · simp
      · intro b hb'
        have hb' : b ∈ ((t.comp P.pos nv).ask s.x s.upd).bounds := hb'
        rw [hsh.bounds, List.mem_map] at hb'
        obtain ⟨r, hr, rfl⟩ := hb'
        cases t with
        | limits st bs cs => exact rows_ineq _ h1 h2 r hr
        | _ => exact absurd h2 id

/-- The problem with all costs and constraints. -/
def filled (P : Plan K) (nv : NodesVariables K) : State K :=
  { empty nv with squared := comps P nv (some .squared), hinge := comps P nv (some .hinge), absolute := comps P nv (some .absolute),
                  cnts := comps P nv none }

theorem problem_ok (h : P.Ok dof) : ∃ nv, VarSets.build P.nodes = some nv ∧ P.problem = some (nv, filled P nv) := by
  obtain ⟨nv, hb⟩ := build_ok P.nodes fun v hv => ⟨(h.specs v hv).2.1, (h.specs v hv).2.2.1⟩
  refine ⟨nv, hb, ?_⟩
  have key : ∀ (l : List (Term K × Option Penalty)) (s : State K), s.initialized = false → (∀ a ∈ l, a ∈ P.adds) →
      l.foldlM (add P.pos nv) s = some { s with
        squared := s.squared ++ (((l.filter fun a => a.2 = some .squared).map (·.1)).map (·.comp P.pos nv))
        hinge := s.hinge ++ (((l.filter fun a => a.2 = some .hinge).map (·.1)).map (·.comp P.pos nv))
        absolute := s.absolute ++ (((l.filter fun a => a.2 = some .absolute).map (·.1)).map (·.comp P.pos nv))
        cnts := s.cnts ++ (((l.filter fun a => a.2 = none).map (·.1)).map (·.comp P.pos nv)) } := by
    intro l
    induction l with
    | nil => intro s hs _; simp
    | cons a l ih =>
      intro s hs hl
      rw [List.foldlM_cons, add_ok h hb a (hl a (by simp)) s]
      simp only [Option.bind_eq_bind, Option.bind_some]
      obtain ⟨t, p⟩ := a
      rw [ih _ (by cases p with
        | none => rfl
        | some p => cases p <;> rfl) fun b hb => hl b (by simp [hb])]
      cases p with
      | none => simp [hs]
      | some p => cases p <;> simp [hs]
  unfold Plan.problem
  rw [hb]
  simp only
  have := key P.adds (empty nv) rfl fun a ha => ha
  unfold empty at this
  rw [this]
  simp [filled, empty, comps, Plan.terms]

theorem terms_mem {p : Option Penalty} {t : Term K} (h : P.Ok dof) (ht : t ∈ P.terms p) : t.Ok dof P.pos.length ∧ t.Suits p := by
  simp only [Plan.terms, List.mem_map, List.mem_filter, decide_eq_true_eq] at ht
  obtain ⟨a, ⟨ha, rfl⟩, rfl⟩ := ht
  exact h.terms a ha

theorem comps_mem {p : Option Penalty} {c : Comp K} (hc : c ∈ comps P nv p) : ∃ t ∈ P.terms p, t.comp P.pos nv = c := by
  simpa [comps] using hc

theorem filled_described (h : P.Ok dof) (hb : VarSets.build P.nodes = some nv) : Described (filled P nv) := by
  refine ⟨?_, ?_, ?_, ?_, ?_⟩
  · intro c hc
    simp only [filled, empty, List.append_nil] at hc
    obtain ⟨t, ht, rfl⟩ := comps_mem hc
    obtain ⟨h1, h2⟩ := terms_mem h ht
    exact comp_obj h hb h1 (single_of (by simp) h2)
  · intro c hc
    simp only [filled, empty, List.append_nil, List.mem_append] at hc
    rcases hc with hc | hc <;>
    · obtain ⟨t, ht, rfl⟩ := comps_mem hc
      exact comp_cnt h hb (terms_mem h ht).1
  · intro c hc
    simp only [filled, empty, List.append_nil] at hc
    obtain ⟨t, ht, rfl⟩ := comps_mem hc
    exact comp_cnt h hb (terms_mem h ht).1
  · have := (VarSets.C39_layout P.nodes [] nv ⟨nv, hb, by simp, rfl⟩).2.2.2.1
    exact this
  · intro b hb'
    obtain ⟨hi, ha, -⟩ := VarSets.build_inv _ _ hb
    have hb' : b ∈ nv.bounds := hb'
    rw [hi.bounds, List.mem_flatMap] at hb'
    obtain ⟨v, hv, hbv⟩ := hb'
    have : (v.size, v.bounds) ∈ VarSets.asked P.nodes := by rw [← ha]; exact List.mem_map_of_mem hv
    simp only [VarSets.asked, List.mem_map, Prod.mk.injEq] at this
    obtain ⟨sp, h1, h2, h3⟩ := this
    exact (h.specs sp h1).2.2.2 b (by rw [h3]; exact hbv)

theorem filled_range (h : P.Ok dof) (hb : VarSets.build P.nodes = some nv) (hl : P.Limited) : (descOf (filled P nv)).InRange := by
  constructor
  · obtain ⟨M, h1, h2⟩ := hl
    refine ⟨M, h1, fun b hb' => ?_⟩
    obtain ⟨hi, ha, -⟩ := VarSets.build_inv _ _ hb
    have hb' : b ∈ nv.bounds := hb'
    rw [hi.bounds, List.mem_flatMap] at hb'
    obtain ⟨v, hv, hbv⟩ := hb'
    have : (v.size, v.bounds) ∈ VarSets.asked P.nodes := by rw [← ha]; exact List.mem_map_of_mem hv
    simp only [VarSets.asked, List.mem_map, Prod.mk.injEq] at this
    obtain ⟨sp, h3, h4, h5⟩ := this
    exact h2 sp h3 b (by rw [h5]; exact hbv)
  · intro c hc x u x' u' p hp b hb'
    have hc : ∃ t : Term K, t.Ok dof P.pos.length ∧ t.comp P.pos nv = c := by
      simp only [descOf, filled, empty, List.append_nil, List.mem_append] at hc
      rcases hc with (hc | hc) | hc <;>
      · obtain ⟨t, ht, rfl⟩ := comps_mem hc
        exact ⟨t, (terms_mem h ht).1, rfl⟩
    obtain ⟨t, ht, rfl⟩ := hc
    obtain ⟨s, a1, -, a3⟩ := answer_shape h hb ht x
    have hp : p ∈ s.values.zip s.jac.rows := by simpa only [Term.comp, a1, Option.getD_some] using hp
    have e0 : p.1 - SqpExprs.dot p.2 x = 0 := by rw [a3 p hp, sub_self]
    rw [(comp_shape h hb ht x' u').bounds, List.mem_map] at hb'
    obtain ⟨r, hr, rfl⟩ := hb'
    have hs := rows_small _ ht r hr
    have key : ∀ a : K, Fin20 a → |a - (p.1 - SqpExprs.dot p.2 x)| < Sco.osqpInfty := by
      intro a ha
      rw [e0, sub_zero]
      exact lt_trans ha (by norm_num [Sco.osqpInfty])
    exact ⟨fun l hl => key l (hs.1 l hl), fun l hl => key l (hs.2 l hl)⟩

theorem values_length (hb : VarSets.build P.nodes = some nv) : nv.values.length = nv.nDim :=
  (VarSets.C39_layout P.nodes [] nv ⟨nv, hb, by simp, rfl⟩).2.2.1

theorem plan_setting {sqrt : K → K} (hsqrt : ∀ a : K, 0 ≤ a → sqrt a * sqrt a = a) (hash : (Nat → K) → Nat) (junk : Nat → Ext K) {p : Params K}
    (hp : Sane p) {o : World K} (ho : o.Sized) (h : P.Ok dof) (hb : VarSets.build P.nodes = some nv) {qs : Solver K} (hqs : Reusable qs 0 0) :
    Setting sqrt hash (descOf (filled P nv)) p o ((filled P nv).setup junk) qs := by
  have hobj : (descOf (filled P nv)).objective = comps P nv (some .squared) := by simp [descOf, filled, empty]
  have hmer : (descOf (filled P nv)).merit = comps P nv none := by simp [descOf, filled, empty]
  have hcs : ∀ p, ∀ c ∈ comps P nv p, ∀ u, 0 < c.rowsAt u := by
    intro p c hc u
    obtain ⟨t, ht, rfl⟩ := comps_mem hc
    rw [comp_rows h hb (terms_mem h ht).1]
    exact rows_pos h.hdof _ (terms_mem h ht).1
  refine ⟨hsqrt, ⟨nDim_pos h hb, ?_, ?_, ?_⟩, SqpRun.setup_usable hash (filled_described h hb) rfl ?_ junk, hp, ho, hqs⟩
  · intro c hc x u _
    simp only [descOf, filled, empty, List.append_nil, List.mem_append] at hc
    rcases hc with (hc | hc | hc) | hc <;>
    · obtain ⟨t, ht, rfl⟩ := comps_mem hc
      rfl
  · rw [hobj]
    cases hl : comps P nv (some .squared) with
    | nil => exact .inl rfl
    | cons c l =>
      right
      intro u
      have := hcs _ c (by rw [hl]; simp) u
      rw [List.map_cons, List.sum_cons]; omega
  · intro u
    rw [hmer]
    have key : ∀ l : List (Comp K), (∀ c ∈ l, 0 < c.rowsAt u) → l.length ≤ (l.map (·.rowsAt u)).sum := by
      intro l
      induction l with
      | nil => intro _; exact Nat.le_refl _
      | cons c l ih =>
        intro hl
        have h1 := ih fun c hc => hl c (by simp [hc])
        have h2 := hl c (by simp)
        rw [List.map_cons, List.sum_cons, List.length_cons]; omega
    have := key (comps P nv none) fun c hc => hcs _ c hc u
    omega
  · intro i hi
    have hi : nv.nDim ≤ i := hi
    show nv.values.getD i 0 = 0
    rw [List.getD_eq_getElem?_getD, List.getElem?_eq_none (by rw [values_length hb]; exact hi)]; rfl

/-- What the solver reads of a term at the variables `x`, in terms of the trajectory the user reads. -/
theorem term_reads (h : P.Ok dof) (hb : VarSets.build P.nodes = some nv) {x : List K} (hx : x.length = nv.nDim) {nv' : NodesVariables K}
    (hs : nv.setVariables x = some nv') {t : Term K} (ht : t.Ok dof P.pos.length) :
    violationOf (t.comp P.pos nv) x = t.error P.pos.length (joint P.pos nv') ∧
    (t.Single → (List.zipWith (fun e w => e * e * w) (calcBoundsViolations (at' (t.comp P.pos nv) x).values
      ((at' (t.comp P.pos nv) x).bounds.map sides)) (at' (t.comp P.pos nv) x).coeffs).sum = t.squares P.pos.length (joint P.pos nv')) := by
  have hsh := comp_shape h hb ht (ext x) (ext x)
  have hext : (List.range nv.nDim).map (ext x) = x := by
    apply List.ext_getElem?
    intro i
    rw [List.getElem?_map]
    by_cases hi : i < nv.nDim
    · rw [List.getElem?_range hi, List.getElem?_eq_getElem (by omega)]
      simp [ext, List.getD_eq_getElem?_getD, List.getElem?_eq_getElem (show i < x.length by omega)]
    · rw [List.getElem?_eq_none (by simpa using hi), List.getElem?_eq_none (by omega)]; rfl
  obtain ⟨nv'', a1, -, a3, -⟩ := set_same h hb x hx
  rw [hs] at a1; injection a1 with a1; subst a1
  have hq : ∀ s k, s < P.pos.length → k < dof → trajOf P nv (ext x) s k = joint P.pos nv' s k := by
    intro s k h1 h2
    rw [a3 s k h1 h2, trajOf, hext]
  constructor
  · unfold violationOf at'
    rw [shape_violations hsh, rows_error _ ht, Term.error, gaps_congr hq ht]; rfl
  · intro hsng
    unfold at'
    rw [shape_squares hsh, rows_gaps _ ht hsng, gaps_congr hq ht]; rfl

end

/-! ### Theorems -/

section
variable {dof : Nat} {P : Plan K} {sqrt : K → K} {hash : (Nat → K) → Nat} {junk : Nat → Ext K} {p : Params K} {o : World K}

/-- Specification: a plan handed to the optimizer: the problem was built from `P`, `w` is a finished run with the QP solver `qs`, new or
used before, and `nv'` are the variables afterwards. -/
def Planned (sqrt : K → K) (hash : (Nat → K) → Nat) (junk : Nat → Ext K) (p : Params K) (o : World K) (qs : Solver K) (fuel : Nat) (P : Plan K)
    (w : Run K (State K)) (nv' : NodesVariables K) : Prop :=
  ∃ nv s, P.problem = some (nv, s) ∧ run sqrt hash junk p o qs fuel (s.setup junk) = .ok w ∧ nv.setVariables (vars w.prob) = some nv' ∧
    Reusable qs 0 0

/-- C136: every plan that fits together is accepted and solved: variables and constraints are built without an exception, the solver does not
fail and returns, and the variables can be read afterwards. -/
theorem C136_planned [Archimedean K] (hsqrt : ∀ a : K, 0 ≤ a → sqrt a * sqrt a = a) (hp : Sane p) (ho : o.Sized) (h : P.Ok dof)
    {qs : Solver K} (hqs : Reusable qs 0 0) (hmin : 0 < p.minTrustBoxSize) (hs1 : p.trustShrinkRatio < 1) :
    ∃ F w nv', ∀ fuel, F ≤ fuel → Planned sqrt hash junk p o qs fuel P w nv' := by
  obtain ⟨nv, hb, hpr⟩ := problem_ok h
  have S := plan_setting hsqrt hash junk hp ho h hb hqs
  obtain ⟨F, w, hw⟩ := SqpRun.C130_returns S junk hmin hs1
  have hg := SqpRun.run_good S (.inl (hw F (le_refl _)))
  have hl : (vars w.prob).length = nv.nDim := by
    have hU : Usable hash (descOf (filled P nv)) w.prob := hg.inv
    have : w.prob.nVars = nv.nDim := hU.nVars
    simp [vars, this]
  obtain ⟨nv', h1, -⟩ := set_same h hb _ hl
  exact ⟨F, w, nv', fun fuel hf => ⟨nv, _, hpr, hw fuel hf, h1, hqs⟩⟩

/-- Facts about a planned run. -/
theorem planned_facts (hsqrt : ∀ a : K, 0 ≤ a → sqrt a * sqrt a = a) (hp : Sane p) (ho : o.Sized) (h : P.Ok dof) {qs : Solver K} {fuel : Nat}
    {w : Run K (State K)} {nv' : NodesVariables K} (hw : Planned sqrt hash junk p o qs fuel P w nv') :
    ∃ nv, VarSets.build P.nodes = some nv ∧ Setting sqrt hash (descOf (filled P nv)) p o ((filled P nv).setup junk) qs ∧
      run sqrt hash junk p o qs fuel ((filled P nv).setup junk) = .ok w ∧ nv.setVariables (vars w.prob) = some nv' ∧
      (vars w.prob).length = nv.nDim := by
  obtain ⟨nv, hb, hpr⟩ := problem_ok h
  obtain ⟨nv1, s1, h1, h2, h3, h4⟩ := hw
  rw [hpr] at h1
  injection h1 with h1
  injection h1 with e1 e2
  subst e1; subst e2
  have S := plan_setting hsqrt hash junk hp ho h hb h4
  have hg := SqpRun.run_good S (.inl h2)
  have hl : (vars w.prob).length = nv.nDim := by
    have hU : Usable hash (descOf (filled P nv)) w.prob := hg.inv
    have : w.prob.nVars = nv.nDim := hU.nVars
    simp [vars, this]
  exact ⟨nv, hb, S, h2, h3, hl⟩

theorem vars_initial {P : Plan K} {nv : NodesVariables K} (hb : VarSets.build P.nodes = some nv) :
    (List.range nv.nDim).map (fun i => nv.values.getD i 0) = nv.values := by
  have hl := values_length hb
  apply List.ext_getElem?
  intro j
  rw [List.getElem?_map]
  by_cases hj : j < nv.nDim
  · rw [List.getElem?_range hj, List.getElem?_eq_getElem (by omega)]
    simp [List.getD_eq_getElem?_getD, List.getElem?_eq_getElem (show j < nv.values.length by omega)]
  · rw [List.getElem?_eq_none (by simpa using hj), List.getElem?_eq_none (by omega)]; rfl

/-- Bounds on the vector of all variables as bounds on what the user reads. -/
theorem limits_read {dof : Nat} {P : Plan K} {nv : NodesVariables K} (h : P.Ok dof) (hb : VarSets.build P.nodes = some nv) {x : List K} (hl : x.length = nv.nDim)
    {nv' : NodesVariables K} (h3 : nv.setVariables x = some nv') {ε : K} (hε : 0 ≤ ε)
    (h4 : x = nv.values ∨ ∀ (i : Nat) lb ub y, nv.bounds[i]? = some (lb, ub) → x[i]? = some y →
      (∀ l, lb = some l → l - ε ≤ y) ∧ ∀ u, ub = some u → y ≤ u + ε) {i : Nat} {v : VarSpec K} (hv : P.nodes.flatten[i]? = some v) :
    ∃ u, nv'.vars[i]? = some u ∧ u.values.length = v.nNames ∧ ∀ (k : Nat) lb ub x, v.bounds[k]? = some (lb, ub) → u.values[k]? = some x →
      (∀ l, lb = some l → l - ε ≤ x) ∧ ∀ u, ub = some u → x ≤ u + ε := by
  obtain ⟨var0, w1, w2, w3⟩ := var_asked hb hv
  obtain ⟨nv'', a1, -, -, a4⟩ := set_same h hb _ hl
  rw [h3] at a1; injection a1 with a1; subst a1
  obtain ⟨u, u1, u2⟩ := a4 i var0 w1
  obtain ⟨l1, l2, l3, l4, -, l5⟩ := VarSets.C39_layout P.nodes [] nv ⟨nv, hb, by simp, rfl⟩
  obtain ⟨-, l6⟩ := l5 _ _ var0 (split_at w1)
  have hend : var0.index + var0.size ≤ nv.nDim := by
    have e := (l5 _ _ var0 (split_at w1)).1
    rw [l2]
    conv_rhs => rw [split_at w1, VarSets.sizes_append, VarSets.sizes_cons]
    omega
  refine ⟨u, u1, ?_, ?_⟩
  · rw [u2, VarSets.slice, List.length_take, List.length_drop, ← w2]; omega
  intro k lb ub y hk hx
  have hks : k < var0.size := by
    rw [w2]
    have := (h.specs v (List.mem_of_getElem? hv)).2.2.1
    rw [← this]; exact (List.getElem?_eq_some_iff.1 hk).1
  have hbd : nv.bounds[var0.index + k]? = some (lb, ub) := by rw [(l6 k hks).2, w3, hk]
  have hxv : x[var0.index + k]? = some y := by
    rw [u2, VarSets.slice, List.getElem?_take, if_pos hks, List.getElem?_drop] at hx
    exact hx
  rcases h4 with h5 | h5
  · rw [h5] at hxv
    obtain ⟨q1, q2⟩ := List.getElem?_eq_some_iff.1 hxv
    obtain ⟨q3, q4⟩ := List.getElem?_eq_some_iff.1 hbd
    have := (VarSets.C39_initial P.nodes nv hb fun n hn v hv => (h.specs v (List.mem_flatten.2 ⟨n, hn, hv⟩)).2.2.2).2 _ q1 q3
    rw [q2, q4] at this
    exact ⟨fun l hl => by have := this.1 l hl; linarith, fun u hu => by have := this.2 u hu; linarith⟩
  · exact h5 _ lb ub y hbd hxv

/-- C136: whatever the status, every coordinate of every variable the user reads afterwards is within the bounds the user gave for it, up to the
accuracy of OSQP. -/
theorem C136_limits (hsqrt : ∀ a : K, 0 ≤ a → sqrt a * sqrt a = a) (hp : Sane p) (ho : o.Sized) (h : P.Ok dof) {qs : Solver K} {fuel : Nat}
    {w : Run K (State K)} {nv' : NodesVariables K} (hw : Planned sqrt hash junk p o qs fuel P w nv') (hlim : P.Limited) {ε : K} (hε : 0 ≤ ε)
    (ha : o.Accurate ε) (i : Nat) (v : VarSpec K) (hv : P.nodes.flatten[i]? = some v) :
    ∃ u, nv'.vars[i]? = some u ∧ u.values.length = v.nNames ∧ ∀ (k : Nat) lb ub x, v.bounds[k]? = some (lb, ub) → u.values[k]? = some x →
      (∀ l, lb = some l → l - ε ≤ x) ∧ ∀ u, ub = some u → x ≤ u + ε := by
  obtain ⟨nv, hb, S, h2, h3, hl⟩ := planned_facts hsqrt hp ho h hw
  have hm := SqpRun.moderate_of_range S (filled_range h hb hlim) (SqpRun.run_good S (.inl h2))
  refine limits_read h hb hl h3 hε ?_ hv
  rcases SqpRun.C132_within_bounds S h2 hm ha with h5 | h5
  · left
    have hx0 : ((filled P nv).setup junk).x = fun i => nv.values.getD i 0 := by
      unfold State.setup State.update
      rw [show (filled P nv).setupLists.initialized = false from rfl, Bool.false_and, if_neg (by simp)]
      rfl
    have hn : ((filled P nv).setup junk).nVars = nv.nDim := S.usable.nVars
    rw [h5, vars, hn, hx0]
    exact vars_initial hb
  · exact .inr h5

/-- C137: the status is `kConverged` exactly when, for every constraint, the total distance of the returned trajectory from what the constraint
demands is below `cnt_tolerance`. -/
theorem C137_converged (hsqrt : ∀ a : K, 0 ≤ a → sqrt a * sqrt a = a) (hp : Sane p) (ho : o.Sized) (h : P.Ok dof) {qs : Solver K} {fuel : Nat}
    {w : Run K (State K)} {nv' : NodesVariables K} (hw : Planned sqrt hash junk p o qs fuel P w nv') (hr : 0 < p.maxMeritCoeffIncreases) :
    w.status = .converged ↔ ∀ t, (t, none) ∈ P.adds → t.error P.pos.length (joint P.pos nv') < p.cntTolerance := by
  obtain ⟨nv, hb, S, h2, h3, hl⟩ := planned_facts hsqrt hp ho h hw
  rw [SqpRun.C131_converged_iff S h2 hr]
  have hmer : (descOf (filled P nv)).merit = comps P nv none := by simp [descOf, filled, empty]
  rw [hmer]
  have hmem : ∀ t, t ∈ P.terms none ↔ (t, none) ∈ P.adds := by
    intro t
    simp only [Plan.terms, List.mem_map, List.mem_filter, decide_eq_true_eq]
    constructor
    · rintro ⟨⟨t', p'⟩, ⟨h1, rfl⟩, rfl⟩; exact h1
    · intro h1; exact ⟨(t, none), ⟨h1, rfl⟩, rfl⟩
  constructor
  · intro hc t ht
    rw [← (term_reads h hb hl h3 (terms_mem h ((hmem t).2 ht)).1).1]
    exact hc _ (by simp only [comps, List.mem_map]; exact ⟨t, (hmem t).2 ht, rfl⟩)
  · intro hc c hcm
    obtain ⟨t, ht, rfl⟩ := comps_mem hcm
    rw [(term_reads h hb hl h3 (terms_mem h ht).1).1]
    exact hc t ((hmem t).1 ht)

theorem gaps_nonneg (T : Nat) (q : Nat → Nat → K) (t : Term K) : ∀ g ∈ t.gaps T q, 0 ≤ g.2 := by
  have hb : ∀ (l : Ext K) v, 0 ≤ below l v := by intro l v; cases l <;> simp [below]
  have hu : ∀ (l : Ext K) v, 0 ≤ above l v := by intro l v; cases l <;> simp [above]
  intro g hg
  cases t <;> simp only [Term.gaps, List.mem_map, List.mem_flatMap] at hg
  · obtain ⟨⟨v, k⟩, -, rfl⟩ := hg; exact abs_nonneg _
  · obtain ⟨⟨v, k⟩, -, rfl⟩ := hg; exact add_nonneg (hb _ _) (hu _ _)
  all_goals obtain ⟨i, -, ⟨v, k⟩, -, rfl⟩ := hg; exact abs_nonneg _

theorem gap_le (T : Nat) (q : Nat → Nat → K) (t : Term K) {g : K × K} (hg : g ∈ t.gaps T q) : g.2 ≤ t.error T q := by
  have key : ∀ l : List (K × K), (∀ g ∈ l, 0 ≤ g.2) → g ∈ l → g.2 ≤ (l.map (·.2)).sum := by
    intro l
    induction l with
    | nil => intro _ h; cases h
    | cons a l ih =>
      intro h0 h
      have hs : 0 ≤ (l.map (·.2)).sum := List.sum_nonneg (by
        intro y hy; simp only [List.mem_map] at hy; obtain ⟨z, hz, rfl⟩ := hy; exact h0 z (by simp [hz]))
      have ha := h0 a (by simp)
      rw [List.map_cons, List.sum_cons]
      rcases List.mem_cons.1 h with rfl | h
      · linarith
      · have := ih (fun g hg => h0 g (by simp [hg])) h; linarith
  exact key _ (gaps_nonneg T q t) hg

/-- C137: after `kConverged` every joint that was given a target or limits at a step has it, and every step has the demanded velocity, each up to
`cnt_tolerance`. -/
theorem C137_reached (hsqrt : ∀ a : K, 0 ≤ a → sqrt a * sqrt a = a) (hp : Sane p) (ho : o.Sized) (h : P.Ok dof) {qs : Solver K} {fuel : Nat}
    {w : Run K (State K)} {nv' : NodesVariables K} (hw : Planned sqrt hash junk p o qs fuel P w nv') (hr : 0 < p.maxMeritCoeffIncreases)
    (hc : w.status = .converged) :
    (∀ s t cs, (Term.target s t cs, none) ∈ P.adds → ∀ (k : Nat) v, t[k]? = some v → |joint P.pos nv' s k - v| < p.cntTolerance) ∧
    (∀ s bs cs, (Term.limits s bs cs, none) ∈ P.adds → ∀ (k : Nat) b, bs[k]? = some b →
      (∀ l, b.lower = .fin l → l - p.cntTolerance < joint P.pos nv' s k) ∧ ∀ u, b.upper = .fin u → joint P.pos nv' s k < u + p.cntTolerance) ∧
    ∀ t cs, (Term.vel t cs, none) ∈ P.adds → ∀ (s k : Nat) v, s + 1 < P.pos.length → t[k]? = some v →
      |joint P.pos nv' (s + 1) k - joint P.pos nv' s k - v| < p.cntTolerance := by
  have key := (C137_converged hsqrt hp ho h hw hr).1 hc
  refine ⟨?_, ?_, ?_⟩
  · intro s t cs ht k v hv
    refine lt_of_le_of_lt (gap_le _ _ _ (g := (coeffAt 1 cs k, |joint P.pos nv' s k - v|)) ?_) (key _ ht)
    simp only [Term.gaps, List.mem_map]
    exact ⟨(v, k), List.mk_mem_zipIdx_iff_getElem?.2 hv, rfl⟩
  · intro s bs cs ht k b hb
    have hlt : miss b (joint P.pos nv' s k) < p.cntTolerance :=
      lt_of_le_of_lt (gap_le _ _ _ (g := (coeffAt 1 cs k, miss b (joint P.pos nv' s k))) (by
        simp only [Term.gaps, List.mem_map]
        exact ⟨(b, k), List.mk_mem_zipIdx_iff_getElem?.2 hb, rfl⟩)) (key _ ht)
    have hb : ∀ (l : Ext K) v, 0 ≤ below l v := by intro l v; cases l <;> simp [below]
    have hu : ∀ (l : Ext K) v, 0 ≤ above l v := by intro l v; cases l <;> simp [above]
    constructor
    · intro l hl
      have h1 : l - joint P.pos nv' s k ≤ below b.lower (joint P.pos nv' s k) := by rw [hl]; exact le_max_left _ _
      have := hu b.upper (joint P.pos nv' s k)
      unfold miss at hlt; linarith
    · intro u hu'
      have h1 : joint P.pos nv' s k - u ≤ above b.upper (joint P.pos nv' s k) := by rw [hu']; exact le_max_left _ _
      have := hb b.lower (joint P.pos nv' s k)
      unfold miss at hlt; linarith
  · intro t cs ht s k v hs hv
    refine lt_of_le_of_lt (gap_le _ _ _ (g := (coeffAt 5 cs k, |rate (joint P.pos nv') s k - v|)) ?_) (key _ ht)
    simp only [Term.gaps, List.mem_flatMap, List.mem_map, List.mem_range]
    exact ⟨s, by omega, (v, k), List.mk_mem_zipIdx_iff_getElem?.2 hv, rfl⟩

/-- C138: the costs in the results are the costs of the trajectory the user reads: for squared costs the weighted sums of squares, for hinge and
absolute costs the sums of the distances. -/
theorem C138_costs (hsqrt : ∀ a : K, 0 ≤ a → sqrt a * sqrt a = a) (hp : Sane p) (ho : o.Sized) (h : P.Ok dof) {qs : Solver K} {fuel : Nat}
    {w : Run K (State K)} {nv' : NodesVariables K} (hw : Planned sqrt hash junk p o qs fuel P w nv') :
    w.res.bestCosts = P.costs (joint P.pos nv') ∧
    w.res.bestViols = (P.terms none).map (·.error P.pos.length (joint P.pos nv')) := by
  obtain ⟨nv, hb, S, h2, h3, hl⟩ := planned_facts hsqrt hp ho h hw
  obtain ⟨-, r1, r2, -⟩ := SqpRun.C131_results S h2
  have hmer : (descOf (filled P nv)).merit = comps P nv none := by simp [descOf, filled, empty]
  have hobj : (descOf (filled P nv)).objective = comps P nv (some .squared) := by simp [descOf, filled, empty]
  have hpen : (descOf (filled P nv)).penalty = comps P nv (some .hinge) ++ comps P nv (some .absolute) := by simp [descOf, filled, empty]
  have herr : ∀ q, (comps P nv q).map (fun c => violationOf c (vars w.prob)) = (P.terms q).map (·.error P.pos.length (joint P.pos nv')) := by
    intro q
    rw [comps, List.map_map]
    refine List.map_congr_left fun t ht => ?_
    exact (term_reads h hb hl h3 (terms_mem h ht).1).1
  constructor
  · rw [r1, Desc.costs, hobj, hpen, List.map_append, herr, herr, Plan.costs, List.append_assoc]
    congr 1
    rw [comps, List.map_map]
    refine List.map_congr_left fun t ht => ?_
    exact (term_reads h hb hl h3 (terms_mem h ht).1).2 (single_of (by simp) (terms_mem h ht).2)
  · rw [r2, Desc.viols, hmer, herr]

end

/-! ### Example -/

/-- Two joints in `[-3, 3]`, three nodes with positions and, in between, one further variable: start at `(0, 0)`, stay below `1` with the first
joint at step 1, end at `(1, 2)`; squared velocities and hinge limits as costs. -/
noncomputable def demo : Plan ℝ :=
  { nodes := [[⟨2, [0, 0], [(some (-3), some 3), (some (-3), some 3)]⟩, ⟨1, [1], [(some 0, some 10)]⟩],
              [⟨2, [5, 0], [(some (-3), some 3), (some (-3), some 3)]⟩], [⟨2, [1, 1], [(some (-3), some 3), (some (-3), some 3)]⟩]]
    pos := [0, 2, 3]
    adds := [(.vel [0, 0] [], some .squared), (.target 0 [0, 0] [1], none), (.target 2 [1, 2] [1, 2], none),
             (.limits 1 [Bounds.mk' .negInf (.fin 1), Bounds.mk' (.fin (-2)) (.fin 2)] [1, 1], none),
             (.limits 2 [Bounds.mk' .negInf (.fin 1), Bounds.mk' (.fin (-2)) .posInf] [1, 3], some .hinge)] }

theorem demo_ok : demo.Ok 2 := by
  have f0 : Fin20 (0 : ℝ) := by norm_num [Fin20]
  have f1 : Fin20 (1 : ℝ) := by norm_num [Fin20]
  have f2 : Fin20 (2 : ℝ) := by norm_num [Fin20]
  have f3 : Fin20 (-2 : ℝ) := by norm_num [Fin20]
  refine ⟨by norm_num, by simp [demo], ?_, by simp [demo], ?_, ?_⟩
  · intro v hv
    simp only [demo, List.flatten_cons, List.flatten_nil, List.append_nil, List.cons_append, List.nil_append, List.mem_cons, List.not_mem_nil, or_false] at hv
    have v3 : Valid ((some (-3), some 3) : Lo ℝ × Hi ℝ) := by
      intro l u h1 h2; simp at h1 h2; subst h1; subst h2; norm_num
    have v10 : Valid ((some 0, some 10) : Lo ℝ × Hi ℝ) := by
      intro l u h1 h2; simp at h1 h2; subst h1; subst h2; norm_num
    rcases hv with rfl | rfl | rfl | rfl <;> simp [v3, v10]
  · intro p hp
    simp only [demo, List.mem_cons, List.not_mem_nil, or_false] at hp
    rcases hp with rfl | rfl | rfl <;> simp [demo]
  · intro a ha
    simp only [demo, List.mem_cons, List.not_mem_nil, or_false] at ha
    rcases ha with rfl | rfl | rfl | rfl | rfl
    · exact ⟨⟨by simp [demo], rfl, ⟨by simp, by simp⟩, by simp [f0]⟩, trivial⟩
    · exact ⟨⟨by simp [demo], rfl, by simp, by simp, by simp [f0]⟩, trivial⟩
    · exact ⟨⟨by simp [demo], rfl, by simp, by simp, by simp [f1, f2]⟩, trivial⟩
    · refine ⟨⟨by simp [demo], rfl, by simp, by simp, ?_⟩, trivial⟩
      intro b hb
      simp only [List.mem_cons, List.not_mem_nil, or_false] at hb
      rcases hb with rfl | rfl
      · exact .inr (.inr ⟨1, rfl, f1⟩)
      · exact .inl ⟨-2, 2, rfl, by norm_num, f3, f2⟩
    · refine ⟨⟨by simp [demo], rfl, by simp, by simp, ?_⟩, ?_⟩
      · intro b hb
        simp only [List.mem_cons, List.not_mem_nil, or_false] at hb
        rcases hb with rfl | rfl
        · exact .inr (.inr ⟨1, rfl, f1⟩)
        · exact .inr (.inl ⟨-2, rfl, f3⟩)
      · intro b hb
        simp only [List.mem_cons, List.not_mem_nil, or_false] at hb
        rcases hb with rfl | rfl
        · rw [upper_eq f1]; simp
        · rw [lower_eq f3]; simp

theorem demo_limited : demo.Limited := by
  refine ⟨10, by norm_num [Sco.osqpInfty], ?_⟩
  intro v hv b hb
  simp only [demo, List.flatten_cons, List.flatten_nil, List.append_nil, List.cons_append, List.nil_append, List.mem_cons, List.not_mem_nil, or_false] at hv
  rcases hv with rfl | rfl | rfl | rfl <;> simp at hb <;> subst hb
  · exact ⟨-3, 3, rfl, by norm_num, by norm_num⟩
  · exact ⟨0, 10, rfl, by norm_num, by norm_num⟩
  · exact ⟨-3, 3, rfl, by norm_num, by norm_num⟩
  · exact ⟨-3, 3, rfl, by norm_num, by norm_num⟩

/-- C136, C137 and C138 apply to the example: it is solved, ends within the limits, and the report is right. -/
example : ∃ fuel w nv', Planned Real.sqrt (fun _ => 0) (fun _ => .negInf) SqpRun.niceParams SqpRun.niceWorld { warmStarting := true } fuel demo w nv' ∧ demo.Limited ∧
    SqpRun.niceWorld.Accurate 0 ∧ 0 < SqpRun.niceParams.maxMeritCoeffIncreases ∧
    (w.status = .converged → |joint [0, 2, 3] nv' 2 1 - 2| < 1 / 10000) := by
  obtain ⟨F, w, nv', h⟩ := C136_planned (hash := fun _ => 0) (junk := fun _ => .negInf) (fun _ h => Real.mul_self_sqrt h) SqpRun.nice_sane
    SqpRun.niceWorld_sized demo_ok (reusable_new true 0 0) (by norm_num [SqpRun.niceParams]) (by norm_num [SqpRun.niceParams])
  refine ⟨F, w, nv', h F (le_refl _), demo_limited, SqpRun.niceWorld_accurate, by norm_num [SqpRun.niceParams], fun hc => ?_⟩
  exact (C137_reached (fun _ h => Real.mul_self_sqrt h) SqpRun.nice_sane SqpRun.niceWorld_sized demo_ok (h F (le_refl _)) (by norm_num [SqpRun.niceParams]) hc).1
    2 [1, 2] [1, 2] (by simp [demo]) 1 2 rfl

end Verif.IfoptPlan
