import Verif.Props.IfoptScene
import Verif.Props.CollisionJac

/-!
C141: collision constraints with one row per contact in whole runs of the SQP solver.  C142: collision constraints with a fixed number of rows.
-/

set_option linter.unusedSectionVars false
set_option linter.unusedVariables false

namespace Verif.IfoptPlan

open Verif.Bounds Verif.JointConstraints
open Verif.VarSets (Var VarSpec NodesVariables)
open Verif.QpProblem (Snap Comp Penalty State sides Proper)
open Verif.SqpRun (World Run Sane run vars ext at' violationOf)
open Verif.Sqp (Params)
open Verif.OsqpEigen (Solver)
open Verif.Collision (RawMap Raw Evaluator GSet Data Con DynCon Jac DynIs calcCollisions calcCollisionData zeros1 zeros2 flat inReach Near NearFree depth
  ForFreeEnd Considered Delivered Unclassified SortsBy)

universe u
variable {K : Type u} [Field K] [LinearOrder K] [IsStrictOrderedRing K]
variable {Name : Type} [LinearOrder Name] {n : Nat}

/-! ### Specification -/

/-- Specification: the variables after `setVariables` with the vector `x`. -/
def readAt (nv : NodesVariables K) (x : Nat → K) : NodesVariables K := (nv.setVariables ((List.range nv.nDim).map x)).getD nv

/-- Specification: the joint position of step `s` for the vector `x`. -/
def posAt (P : Plan K) (nv : NodesVariables K) (s : Nat) (x : Nat → K) : Fin n → K := fun j => joint P.pos (readAt nv x) s j.val

/-- Specification: the position of step `s` the user reads from the variables. -/
def stepOf (P : Plan K) (nv : NodesVariables K) (s : Nat) : Fin n → K := fun j => joint P.pos nv s j.val

open Classical in
/-- Specification: by how much the contacts that count are inside their margins in total; pairs with coefficient zero are left out. -/
noncomputable def penetration (ev : Evaluator Name K) (counts : Raw (Fin n) K → Prop) (raw : RawMap Name (Fin n) K) : K :=
  (raw.map fun p => if p.1 ∈ ev.coeff.zero then 0
    else ((p.2.filter fun r => decide (counts r)).map fun r => max 0 (ev.margin p.1 - r.c.distance)).sum).sum

/-- Specification: as costs, collision sets are accepted as hinge costs. -/
def OneSided (p : Option Penalty) : Prop := p = none ∨ p = some .hinge

/-- Specification: coefficients of the pairs in contact are not negative, and every contact involves a link of the group. -/
structure ContactsOk (ev : Evaluator Name K) (raw : RawMap Name (Fin n) K) : Prop where
  active : ∀ p ∈ raw, ∀ r ∈ p.2, ∃ i, r.active i = true
  nonneg : ∀ p ∈ raw, p.1 ∉ ev.coeff.zero → 0 ≤ ev.coeff.get p.1.1 p.1.2

/-! ### Reading positions -/

section
variable {P : Plan K} {nv : NodesVariables K}

theorem position_at (h : P.Ok n) (hb : VarSets.build P.nodes = some nv) {s : Nat} (hs : s < P.pos.length) (x : Nat → K) :
    position (n := n) P.pos nv s x = some (posAt P nv s x) := by
  obtain ⟨nv', h1, h2⟩ := position_joint h hb hs x
  rw [h2]
  unfold posAt readAt
  rw [h1]; rfl

theorem posAt_ext (nv : NodesVariables K) {x : List K} (hx : x.length = nv.nDim) {nv' : NodesVariables K} (hset : nv.setVariables x = some nv') (s : Nat) :
    (posAt P nv s (ext x) : Fin n → K) = stepOf P nv' s := by
  unfold posAt readAt stepOf
  rw [range_ext hx, hset]; rfl

theorem testAt_eq (h : P.Ok n) (hb : VarSets.build P.nodes = some nv) {s : Nat} (hs : s < P.pos.length) (ev : Evaluator Name K)
    (sort : List (GSet Name (Fin n) K) → List (GSet Name (Fin n) K)) (tests : (Fin n → K) → RawMap Name (Fin n) K) (rows : Nat) :
    testAt ev sort tests P.pos nv s rows = fun x => calcCollisions ev sort rows (tests (posAt P nv s x)) := by
  funext x
  simp only [testAt, position_at h hb hs x]

theorem testBetween_eq (h : P.Ok n) (hb : VarSets.build P.nodes = some nv) {s s' : Nat} (hs : s < P.pos.length) (hs' : s' < P.pos.length) (ev : Evaluator Name K)
    (sort : List (GSet Name (Fin n) K) → List (GSet Name (Fin n) K)) (tests : (Fin n → K) → (Fin n → K) → RawMap Name (Fin n) K) (fixed0 fixed1 : Bool) (rows : Nat) :
    testBetween ev sort tests P.pos nv s s' fixed0 fixed1 rows =
      fun x => calcCollisionData ev sort fixed0 fixed1 rows (tests (posAt P nv s x) (posAt P nv s' x)) := by
  funext x
  simp only [testBetween, position_at h hb hs x, position_at h hb hs' x]

/-- Variables of earlier steps come first. -/
theorem step_order (h : P.Ok n) (hb : VarSets.build P.nodes = some nv) {s s' : Nat} (hlt : s < s') (hs' : s' < P.pos.length) {v v' : Var K}
    (hv : stepVar P.pos nv s = some v) (hv' : stepVar P.pos nv s' = some v') : v.index + n ≤ v'.index := by
  have ho := (starts_apart h hb).1
  have hs : s < P.pos.length := by omega
  have e : ∀ {t : Nat} {w : Var K} (ht : t < P.pos.length), stepVar P.pos nv t = some w → (starts P.pos nv)[t]? = some w.index := by
    intro t w ht hw
    simp only [stepVar, List.getElem?_eq_getElem ht, Option.bind_some] at hw
    have := (pos_var h hb (List.getElem_mem ht)).1
    rw [this] at hw; injection hw with hw
    simp only [starts, List.getElem?_map, List.getElem?_eq_getElem ht, Option.map_some, hw]
  obtain ⟨l1, e1⟩ := List.getElem?_eq_some_iff.1 (e hs hv)
  obtain ⟨l2, e2⟩ := List.getElem?_eq_some_iff.1 (e hs' hv')
  have := List.pairwise_iff_getElem.1 ho s s' l1 l2 hlt
  rw [e1, e2] at this
  exact this

end

/-! ### One row per contact -/

/-- The rows of a set with one row per contact. -/
def dynRows (ev : Evaluator Name K) (l : List ((Name × Name) × Raw (Fin n) K)) : List (Row K) :=
  l.map fun p => (depth ev p.1 p.2, ev.coeff.get p.1.1 p.1.2, ⟨.negInf, .fin 0, .upperBound⟩)

theorem rowsOf_shape {s : Snap K} {L : List (Row K)} {J : Jac K} {m : Nat} (hv : s.values = L.map (·.1)) (hc : s.coeffs = L.map (·.2.1))
    (hb : s.bounds = L.map (·.2.2)) (hcount : s.count = L.length) (hj : s.jac = ⟨J.cols, rowsOf J⟩) (hr : J.rows = L.length) (hcol : J.cols = m) :
    Shape m s L := by
  refine ⟨hv, hc, hb, hcount, by rw [hj]; exact hcol, by rw [hj]; simp [rowsOf, hr], ?_⟩
  rw [hj]
  intro r hr' q hq
  simp only [rowsOf, List.mem_map, List.mem_range] at hr'
  obtain ⟨i, -, rfl⟩ := hr'
  simp only [List.mem_map, List.mem_filter, List.mem_range] at hq
  obtain ⟨j, ⟨hj', -⟩, rfl⟩ := hq
  simp only
  omega

section
variable {ev : Evaluator Name K} {l : List ((Name × Name) × Raw (Fin n) K)} {t t' : DynCon Nat Name n K}

theorem dynSnap_shape (h : DynIs ev l t) {jac : DynCon Nat Name n K → Option (Jac K)} {J : Jac K} {m : Nat} (hJ : jac t = some J)
    (hr : J.rows = t.rows) (hc : J.cols = m) : ∃ s, dynSnap jac t = some s ∧ Shape m s (dynRows ev l) := by
  simp only [dynSnap, hJ]
  refine ⟨_, rfl, rowsOf_shape (J := J) ?_ ?_ ?_ ?_ rfl ?_ hc⟩
  · simp only [h.values, dynRows, List.map_map]; rfl
  · simp only [h.coeffs, dynRows, List.map_map]; rfl
  · simp only [h.bounds, dynRows, List.map_map]
    exact List.map_const' .. |>.symm
  · simp only [h.rows, dynRows, List.length_map]
  · rw [hr, h.rows, dynRows, List.length_map]

/-- The Jacobian depends on the contacts in reach only. -/
def ByContacts (jac : DynCon Nat Name n K → Option (Jac K)) : Prop :=
  ∀ t t' : DynCon Nat Name n K, t.rows = t'.rows → (∀ d d', t.data = some d → t'.data = some d' → flat d.map = flat d'.map) →
    t.data.isSome = t'.data.isSome → jac t = jac t'

theorem discrete_by (cols index : Nat) : ByContacts (DynCon.discreteJacobian (K := K) (Name := Name) (n := n) cols index) := by
  intro t t' h1 h2 h3
  unfold DynCon.discreteJacobian
  cases hd : t.data with
  | none => cases hd' : t'.data with
    | none => rfl
    | some d' => rw [hd, hd'] at h3; cases h3
  | some d => cases hd' : t'.data with
    | none => rw [hd, hd'] at h3; cases h3
    | some d' => simp only [h2 d d' hd hd', h1]

theorem continuous_by (fixed0 fixed1 : Bool) (cols index0 index1 : Nat) :
    ByContacts (DynCon.continuousJacobian (K := K) (Name := Name) (n := n) fixed0 fixed1 cols index0 index1) := by
  intro t t' h1 h2 h3
  unfold DynCon.continuousJacobian
  cases hd : t.data with
  | none => cases hd' : t'.data with
    | none => rfl
    | some d' => rw [hd, hd'] at h3; cases h3
  | some d => cases hd' : t'.data with
    | none => rw [hd, hd'] at h3; cases h3
    | some d' => simp only [h2 d d' hd hd', h1]

theorem dynSnap_same {jac : DynCon Nat Name n K → Option (Jac K)} (hj : ByContacts jac) (h : DynIs ev l t) (h' : DynIs ev l t') :
    dynSnap jac t = dynSnap jac t' := by
  obtain ⟨d, d1, d2⟩ := h.data
  obtain ⟨d', d3, d4⟩ := h'.data
  have hjac : jac t = jac t' := by
    refine hj t t' (by rw [h.rows, h'.rows]) ?_ (by rw [d1, d3]; rfl)
    intro a a' ha ha'
    rw [d1] at ha; injection ha with ha; subst ha
    rw [d3] at ha'; injection ha' with ha'; subst ha'
    rw [d2, d4]
  unfold dynSnap
  rw [hjac, h.values, h'.values, h.coeffs, h'.coeffs, h.bounds, h'.bounds, h.rows, h'.rows]

end

theorem violB_upper (v : K) : violB v (sides (⟨.negInf, .fin 0, .upperBound⟩ : Bounds K)) = max 0 v := by
  simp only [violB, sides]
  split_ifs with h
  · rw [sub_zero, abs_of_pos h, max_eq_right h.le]
  · rw [max_eq_left (not_lt.1 h)]

/-- Sum over the rows. -/
theorem dyn_sum (ev : Evaluator Name K) (hbuf : 0 ≤ ev.buffer) {near : (Name × Name) → Raw (Fin n) K → Prop} {counts : Raw (Fin n) K → Prop}
    (hn : ∀ k r, near k r ↔ k ∉ ev.coeff.zero ∧ r.c.distance ≤ ev.margin k + ev.buffer ∧ counts r) (raw : RawMap Name (Fin n) K) :
    (((dynRows ev (inReach near raw)).map wv).map (·.2)).sum = penetration ev counts raw := by
  classical
  unfold dynRows inReach penetration
  rw [List.map_map, List.map_map, List.map_flatMap, sum_flatMap]
  congr 1
  refine List.map_congr_left fun p _ => ?_
  rw [List.map_map]
  by_cases hz : p.1 ∈ ev.coeff.zero
  · rw [if_pos hz, List.filter_eq_nil_iff.2]
    · rfl
    · intro r _
      simp only [decide_eq_true_eq]
      intro h; exact ((hn _ _).1 h).1 hz
  · rw [if_neg hz]
    generalize p.2 = rs
    induction rs with
    | nil => rfl
    | cons r rs ih =>
      rw [List.filter_cons, List.filter_cons]
      by_cases h1 : counts r
      · rw [if_pos (show decide (counts r) = true by simpa using h1), List.map_cons, List.sum_cons, ← ih]
        by_cases h2 : near p.1 r
        · rw [if_pos (by simpa using h2), List.map_cons, List.sum_cons]
          congr 1
          simp only [Function.comp, wv]
          exact violB_upper _
        · rw [if_neg (by simpa using h2)]
          have : ¬ r.c.distance ≤ ev.margin p.1 + ev.buffer := fun h3 => h2 ((hn _ _).2 ⟨hz, h3, h1⟩)
          rw [max_eq_left (by linarith), zero_add]
      · rw [if_neg (show ¬ decide (counts r) = true by simpa using h1), if_neg (by simpa using fun h2 => h1 ((hn _ _).1 h2).2.2)]
        exact ih

theorem accepted_upper {p : Option Penalty} (hp : OneSided p) : Accepted p (⟨.negInf, .fin 0, .upperBound⟩ : Bounds K) := by
  rcases hp with rfl | rfl
  · exact trivial
  · exact .inr rfl

/-- A set with one row per contact fits. -/
theorem dyn_fits {hash : (Nat → K) → Nat} {m : Nat} {p : Option Penalty} (hp : OneSided p) {ev : Evaluator Name K} {near : (Name × Name) → Raw (Fin n) K → Prop}
    (hnear : ∀ k r, near k r → k ∉ ev.coeff.zero) {raw : (Nat → K) → RawMap Name (Fin n) K} (hok : ∀ u, ContactsOk ev (raw u)) {c : Comp K} (hd : c.dynamic = true)
    (hsh : ∀ x u, Shape m (c.ask x u) (dynRows ev (inReach near (raw u)))) (hf : ∀ x u, hash u = hash x → c.ask x u = c.ask x x) : SetOk hash m c p := by
  refine SetOk.of_shape (fun u => (dynRows ev (inReach near (raw u))).length) ?_ (fun h => by rw [hd] at h; cases h) hf ?_
  · intro x u
    refine ⟨_, hsh x u, rfl, ?_⟩
    intro r hr
    simp only [dynRows, List.mem_map] at hr
    obtain ⟨⟨k, r⟩, hr, rfl⟩ := hr
    obtain ⟨h1, rs, h2, h3⟩ := (Collision.mem_inReach near _ k r).1 hr
    exact ⟨(hok u).nonneg _ h2 (hnear _ _ h1), .inr (.inr ⟨0, rfl⟩), accepted_upper hp⟩
  · rintro (h | ⟨-, h⟩)
    · rcases hp with rfl | rfl <;> cases h
    · rw [hd] at h; cases h

section
variable {P : Plan K} {nv : NodesVariables K} {hash : (Nat → K) → Nat} {ev : Evaluator Name K} {sort : List (GSet Name (Fin n) K) → List (GSet Name (Fin n) K)}

/-- What a discrete set with one row per contact answers, after any history. -/
theorem discreteDyn_answers (hP : P.Ok n) (hb : VarSets.build P.nodes = some nv) {tests : (Fin n → K) → RawMap Name (Fin n) K} {s : Nat}
    (hs : s < P.pos.length) (hact : ∀ q, ∀ p ∈ tests q, ∀ r ∈ p.2, ∃ i, r.active i = true)
    (hsame : ∀ x y, hash x = hash y → tests (posAt P nv s x) = tests (posAt P nv s y)) (k0 : Nat) :
    ∃ c v, discreteDyn hash ev sort tests P.pos s k0 nv = some c ∧ c.dynamic = true ∧ stepVar P.pos nv s = some v ∧
      (∀ x u, Shape nv.nDim (c.ask x u) (dynRows ev (inReach (Near ev) (tests (posAt P nv s u))))) ∧
      (∀ x u, hash u = hash x → c.ask x u = c.ask x x) ∧
      ∀ x u xs, ∃ t, (DynCon.new k0 : DynCon Nat Name n K).run ev hash (testAt ev sort tests P.pos nv s 0) (xs ++ [u]) = some t ∧
        dynSnap (DynCon.discreteJacobian nv.nDim v.index) t = some (c.ask x u) := by
  obtain ⟨v, v1, v2, v3⟩ := stepVar_eq hP hb hs
  have key : ∀ (xs : List (Nat → K)) (u : Nat → K), ∃ t J, (DynCon.new k0 : DynCon Nat Name n K).run ev hash
      (fun x => calcCollisions ev sort 0 (tests (posAt P nv s x))) (xs ++ [u]) = some t ∧ DynIs ev (inReach (Near ev) (tests (posAt P nv s u))) t ∧
      t.discreteJacobian nv.nDim v.index = some J ∧ J.rows = t.rows ∧ J.cols = nv.nDim := by
    intro xs u
    obtain ⟨t, J, a1, a2, a3, a4, a5, -⟩ := Collision.C95_discrete ev sort k0 hash (fun x => tests (posAt P nv s x)) hsame (fun x => hact _) nv.nDim v.index v3 xs u
    exact ⟨t, J, a1, a2, a3, a4, a5⟩
  have hask : ∀ u, ∃ t S, (DynCon.new k0 : DynCon Nat Name n K).update ev hash (testAt ev sort tests P.pos nv s 0) u = some t ∧
      DynIs ev (inReach (Near ev) (tests (posAt P nv s u))) t ∧ dynSnap (DynCon.discreteJacobian nv.nDim v.index) t = some S ∧
      Shape nv.nDim S (dynRows ev (inReach (Near ev) (tests (posAt P nv s u)))) := by
    intro u
    obtain ⟨t, J, a1, a2, a3, a4, a5⟩ := key [] u
    obtain ⟨S, b1, b2⟩ := dynSnap_shape a2 a3 a4 a5
    refine ⟨t, S, ?_, a2, b1, b2⟩
    rw [testAt_eq hP hb hs]
    simpa [DynCon.run] using a1
  unfold discreteDyn
  simp only [v1]
  refine ⟨_, v, rfl, rfl, rfl, ?_, ?_, ?_⟩
  · intro x u
    obtain ⟨t, S, a1, a2, a3, a4⟩ := hask u
    simp only [a1, a3, Option.bind_some, Option.getD_some]
    exact a4
  · intro x u hu
    obtain ⟨t, S, a1, a2, a3, a4⟩ := hask u
    obtain ⟨t', S', b1, b2, b3, b4⟩ := hask x
    simp only [a1, b1, Option.bind_some]
    rw [hsame u x hu] at a2
    rw [dynSnap_same (discrete_by _ _) a2 b2]
  · intro x u xs
    obtain ⟨t, S, a1, a2, a3, a4⟩ := hask u
    obtain ⟨t', J, b1, b2, b3, b4, b5⟩ := key xs u
    refine ⟨t', by rw [testAt_eq hP hb hs]; exact b1, ?_⟩
    simp only [a1, a3, Option.bind_some, Option.getD_some]
    rw [← dynSnap_same (discrete_by _ _) a2 b2, a3]

/-- The same for the motion between two steps. -/
theorem continuousDyn_answers (hP : P.Ok n) (hb : VarSets.build P.nodes = some nv) {tests : (Fin n → K) → (Fin n → K) → RawMap Name (Fin n) K} {s s' : Nat}
    (hs : s < s') (hs' : s' < P.pos.length) (hact : ∀ q q', ∀ p ∈ tests q q', ∀ r ∈ p.2, ∃ i, r.active i = true)
    (hsame : ∀ x y, hash x = hash y → tests (posAt P nv s x) (posAt P nv s' x) = tests (posAt P nv s y) (posAt P nv s' y)) (fixed0 fixed1 : Bool) (k0 : Nat) :
    ∃ c v v', continuousDyn hash ev sort tests P.pos s s' fixed0 fixed1 k0 nv = some c ∧ c.dynamic = true ∧ stepVar P.pos nv s = some v ∧
      stepVar P.pos nv s' = some v' ∧
      (∀ x u, Shape nv.nDim (c.ask x u) (dynRows ev (inReach (NearFree ev fixed0 fixed1) (tests (posAt P nv s u) (posAt P nv s' u))))) ∧
      (∀ x u, hash u = hash x → c.ask x u = c.ask x x) ∧
      ∀ x u xs, ∃ t, (DynCon.new k0 : DynCon Nat Name n K).run ev hash (testBetween ev sort tests P.pos nv s s' fixed0 fixed1 0) (xs ++ [u]) = some t ∧
        dynSnap (DynCon.continuousJacobian fixed0 fixed1 nv.nDim v.index v'.index) t = some (c.ask x u) := by
  have hs0 : s < P.pos.length := by omega
  obtain ⟨v, v1, v2, v3⟩ := stepVar_eq hP hb hs0
  obtain ⟨v', w1, w2, w3⟩ := stepVar_eq hP hb hs'
  have hord := step_order hP hb hs hs' v1 w1
  have key : ∀ (xs : List (Nat → K)) (u : Nat → K), ∃ t J, (DynCon.new k0 : DynCon Nat Name n K).run ev hash
      (fun x => calcCollisionData ev sort fixed0 fixed1 0 (tests (posAt P nv s x) (posAt P nv s' x))) (xs ++ [u]) = some t ∧
      DynIs ev (inReach (NearFree ev fixed0 fixed1) (tests (posAt P nv s u) (posAt P nv s' u))) t ∧
      t.continuousJacobian fixed0 fixed1 nv.nDim v.index v'.index = some J ∧ J.rows = t.rows ∧ J.cols = nv.nDim := by
    intro xs u
    obtain ⟨t, J, a1, a2, a3, a4, a5, -⟩ := Collision.C95_continuous ev sort k0 fixed0 fixed1 hash (fun x => tests (posAt P nv s x) (posAt P nv s' x)) hsame
      (fun x => hact _ _) nv.nDim v.index v'.index v3 w3 hord xs u
    exact ⟨t, J, a1, a2, a3, a4, a5⟩
  have hask : ∀ u, ∃ t S, (DynCon.new k0 : DynCon Nat Name n K).update ev hash (testBetween ev sort tests P.pos nv s s' fixed0 fixed1 0) u = some t ∧
      DynIs ev (inReach (NearFree ev fixed0 fixed1) (tests (posAt P nv s u) (posAt P nv s' u))) t ∧
      dynSnap (DynCon.continuousJacobian fixed0 fixed1 nv.nDim v.index v'.index) t = some S ∧
      Shape nv.nDim S (dynRows ev (inReach (NearFree ev fixed0 fixed1) (tests (posAt P nv s u) (posAt P nv s' u)))) := by
    intro u
    obtain ⟨t, J, a1, a2, a3, a4, a5⟩ := key [] u
    obtain ⟨S, b1, b2⟩ := dynSnap_shape a2 a3 a4 a5
    refine ⟨t, S, ?_, a2, b1, b2⟩
    rw [testBetween_eq hP hb hs0 hs']
    simpa [DynCon.run] using a1
  unfold continuousDyn
  simp only [v1, w1]
  refine ⟨_, v, v', rfl, rfl, rfl, rfl, ?_, ?_, ?_⟩
  · intro x u
    obtain ⟨t, S, a1, a2, a3, a4⟩ := hask u
    simp only [a1, a3, Option.bind_some, Option.getD_some]
    exact a4
  · intro x u hu
    obtain ⟨t, S, a1, a2, a3, a4⟩ := hask u
    obtain ⟨t', S', b1, b2, b3, b4⟩ := hask x
    simp only [a1, b1, Option.bind_some]
    rw [hsame u x hu] at a2
    rw [dynSnap_same (continuous_by _ _ _ _ _) a2 b2]
  · intro x u xs
    obtain ⟨t, S, a1, a2, a3, a4⟩ := hask u
    obtain ⟨t', J, b1, b2, b3, b4, b5⟩ := key xs u
    refine ⟨t', by rw [testBetween_eq hP hb hs0 hs']; exact b1, ?_⟩
    simp only [a1, a3, Option.bind_some, Option.getD_some]
    rw [← dynSnap_same (continuous_by _ _ _ _ _) a2 b2, a3]

/-- C141: a discrete collision constraint with one row per contact can be part of a scene, as a constraint or hinge cost; an object with any history of
updates answers as the model does, which starts from a new object. -/
theorem C141_fits_discrete (hP : P.Ok n) (hb : VarSets.build P.nodes = some nv) {tests : (Fin n → K) → RawMap Name (Fin n) K} {s : Nat}
    (hs : s < P.pos.length) (hok : ∀ q, ContactsOk ev (tests q)) (hsame : ∀ x y, hash x = hash y → tests (posAt P nv s x) = tests (posAt P nv s y))
    (k0 : Nat) {p : Option Penalty} (hp : OneSided p) :
    ∃ c v, discreteDyn hash ev sort tests P.pos s k0 nv = some c ∧ SetOk hash nv.nDim c p ∧ stepVar P.pos nv s = some v ∧
      ∀ x u xs, ∃ t, (DynCon.new k0 : DynCon Nat Name n K).run ev hash (testAt ev sort tests P.pos nv s 0) (xs ++ [u]) = some t ∧
        dynSnap (DynCon.discreteJacobian nv.nDim v.index) t = some (c.ask x u) := by
  obtain ⟨c, v, h1, h2, h3, h4, h5, h6⟩ := discreteDyn_answers (ev := ev) (sort := sort) hP hb hs (fun q => (hok q).active) hsame k0
  exact ⟨c, v, h1, dyn_fits (near := Near ev) hp (fun k r h => h.1) (fun u => hok _) h2 h4 h5, h3, h6⟩

/-- C141: the same for the motion between two steps. -/
theorem C141_fits_continuous (hP : P.Ok n) (hb : VarSets.build P.nodes = some nv) {tests : (Fin n → K) → (Fin n → K) → RawMap Name (Fin n) K} {s s' : Nat}
    (hs : s < s') (hs' : s' < P.pos.length) (hok : ∀ q q', ContactsOk ev (tests q q'))
    (hsame : ∀ x y, hash x = hash y → tests (posAt P nv s x) (posAt P nv s' x) = tests (posAt P nv s y) (posAt P nv s' y)) (fixed0 fixed1 : Bool) (k0 : Nat)
    {p : Option Penalty} (hp : OneSided p) :
    ∃ c v v', continuousDyn hash ev sort tests P.pos s s' fixed0 fixed1 k0 nv = some c ∧ SetOk hash nv.nDim c p ∧ stepVar P.pos nv s = some v ∧
      stepVar P.pos nv s' = some v' ∧
      ∀ x u xs, ∃ t, (DynCon.new k0 : DynCon Nat Name n K).run ev hash (testBetween ev sort tests P.pos nv s s' fixed0 fixed1 0) (xs ++ [u]) = some t ∧
        dynSnap (DynCon.continuousJacobian fixed0 fixed1 nv.nDim v.index v'.index) t = some (c.ask x u) := by
  obtain ⟨c, v, v', h1, h2, h3, h3', h4, h5, h6⟩ := continuousDyn_answers (ev := ev) (sort := sort) hP hb hs hs' (fun q q' => (hok q q').active) hsame fixed0 fixed1 k0
  exact ⟨c, v, v', h1, dyn_fits (near := NearFree ev fixed0 fixed1) hp (fun k r h => h.1) (fun u => hok _ _) h2 h4 h5, h3, h3', h6⟩

end

/-! ### Theorems -/

section
variable {S : Scene K} {sqrt : K → K} {hash : (Nat → K) → Nat} {junk : Nat → Ext K} {p : Params K} {o : World K}
variable {ev : Evaluator Name K} {sort : List (GSet Name (Fin n) K) → List (GSet Name (Fin n) K)}

/-- C141: when the solver converges, every contact at a step that the contact checker finds at the joint values the user reads, and whose pair has a coefficient,
keeps its margin up to `cnt_tolerance`. -/
theorem C141_clear_discrete (hsqrt : ∀ a : K, 0 ≤ a → sqrt a * sqrt a = a) (hp : Sane p) (ho : o.Sized) (h : S.Ok hash n) {qs : Solver K} {fuel : Nat}
    {nv : NodesVariables K} {w : Run K (State K)} {nv' : NodesVariables K} (hw : Solved sqrt hash junk p o qs fuel S nv w nv')
    (hc : w.status = .converged) (hbuf : 0 ≤ ev.buffer) (htol : 0 ≤ p.cntTolerance) {tests : (Fin n → K) → RawMap Name (Fin n) K} {s k0 : Nat}
    (hs : s < S.plan.pos.length) (hact : ∀ q, ∀ p ∈ tests q, ∀ r ∈ p.2, ∃ i, r.active i = true)
    (hsame : ∀ x y, hash x = hash y → tests (posAt S.plan nv s x) = tests (posAt S.plan nv s y))
    (hm : (discreteDyn hash ev sort tests S.plan.pos s k0, none) ∈ S.others) (k : Name × Name) (r : Raw (Fin n) K)
    (hr : Considered ev (tests (stepOf S.plan nv' s)) k r) : ev.margin k - p.cntTolerance < r.c.distance := by
  obtain ⟨hb, St, h2, h3, hl⟩ := solved_facts hsqrt hp ho h hw
  obtain ⟨c, v, c1, -, -, c4, -⟩ := discreteDyn_answers (ev := ev) (sort := sort) h.plan hb hs hact hsame k0
  have hsh := c4 (ext (vars w.prob)) (ext (vars w.prob))
  rw [posAt_ext nv hl h3] at hsh
  by_cases hfar : ev.margin k + ev.buffer < r.c.distance
  · linarith
  have hmem : (k, r) ∈ inReach (Near ev) (tests (stepOf S.plan nv' s)) :=
    (Collision.mem_inReach _ _ _ _).2 ⟨⟨hr.2, not_lt.1 hfar⟩, hr.1⟩
  obtain ⟨t, ht⟩ := List.mem_iff_getElem?.1 hmem
  have := (C139_rows hsqrt hp ho h hw hc hm c1 t (depth ev k r) ⟨.negInf, .fin 0, .upperBound⟩
    (by rw [at', hsh.values, List.getElem?_map, dynRows, List.getElem?_map, ht]; rfl)
    (by rw [at', hsh.bounds, List.getElem?_map, dynRows, List.getElem?_map, ht]; rfl)).2 0 rfl
  rw [depth] at this; linarith

/-- C141: the same for the motion between two steps and the contacts that count for an end that is not fixed. -/
theorem C141_clear_continuous (hsqrt : ∀ a : K, 0 ≤ a → sqrt a * sqrt a = a) (hp : Sane p) (ho : o.Sized) (h : S.Ok hash n) {qs : Solver K} {fuel : Nat}
    {nv : NodesVariables K} {w : Run K (State K)} {nv' : NodesVariables K} (hw : Solved sqrt hash junk p o qs fuel S nv w nv')
    (hc : w.status = .converged) (hbuf : 0 ≤ ev.buffer) (htol : 0 ≤ p.cntTolerance) {tests : (Fin n → K) → (Fin n → K) → RawMap Name (Fin n) K}
    {s s' k0 : Nat} {fixed0 fixed1 : Bool} (hs : s < s') (hs' : s' < S.plan.pos.length)
    (hact : ∀ q q', ∀ p ∈ tests q q', ∀ r ∈ p.2, ∃ i, r.active i = true)
    (hsame : ∀ x y, hash x = hash y → tests (posAt S.plan nv s x) (posAt S.plan nv s' x) = tests (posAt S.plan nv s y) (posAt S.plan nv s' y))
    (hm : (continuousDyn hash ev sort tests S.plan.pos s s' fixed0 fixed1 k0, none) ∈ S.others) (k : Name × Name) (r : Raw (Fin n) K)
    (hr : Considered ev (tests (stepOf S.plan nv' s) (stepOf S.plan nv' s')) k r) (hfree : ForFreeEnd fixed0 fixed1 r) :
    ev.margin k - p.cntTolerance < r.c.distance := by
  obtain ⟨hb, St, h2, h3, hl⟩ := solved_facts hsqrt hp ho h hw
  obtain ⟨c, v, v', c1, -, -, -, c4, -⟩ := continuousDyn_answers (ev := ev) (sort := sort) h.plan hb hs hs' hact hsame fixed0 fixed1 k0
  have hsh := c4 (ext (vars w.prob)) (ext (vars w.prob))
  rw [posAt_ext nv hl h3, posAt_ext nv hl h3] at hsh
  by_cases hfar : ev.margin k + ev.buffer < r.c.distance
  · linarith
  have hmem : (k, r) ∈ inReach (NearFree ev fixed0 fixed1) (tests (stepOf S.plan nv' s) (stepOf S.plan nv' s')) :=
    (Collision.mem_inReach _ _ _ _).2 ⟨⟨hr.2, not_lt.1 hfar, hfree⟩, hr.1⟩
  obtain ⟨t, ht⟩ := List.mem_iff_getElem?.1 hmem
  have := (C139_rows hsqrt hp ho h hw hc hm c1 t (depth ev k r) ⟨.negInf, .fin 0, .upperBound⟩
    (by rw [at', hsh.values, List.getElem?_map, dynRows, List.getElem?_map, ht]; rfl)
    (by rw [at', hsh.bounds, List.getElem?_map, dynRows, List.getElem?_map, ht]; rfl)).2 0 rfl
  rw [depth] at this; linarith

/-- C141: whatever the status, the violation (or hinge cost) that is reported for a discrete collision constraint with one row per contact is the total depth
by which contacts are inside their margins at the joint values the user reads. -/
theorem C141_depth_discrete (hsqrt : ∀ a : K, 0 ≤ a → sqrt a * sqrt a = a) (hp : Sane p) (ho : o.Sized) (h : S.Ok hash n) {qs : Solver K} {fuel : Nat}
    {nv : NodesVariables K} {w : Run K (State K)} {nv' : NodesVariables K} (hw : Solved sqrt hash junk p o qs fuel S nv w nv')
    (hbuf : 0 ≤ ev.buffer) {tests : (Fin n → K) → RawMap Name (Fin n) K} {s k0 : Nat}
    (hs : s < S.plan.pos.length) (hact : ∀ q, ∀ p ∈ tests q, ∀ r ∈ p.2, ∃ i, r.active i = true)
    (hsame : ∀ x y, hash x = hash y → tests (posAt S.plan nv s x) = tests (posAt S.plan nv s y)) (c : Comp K)
    (hc : discreteDyn hash ev sort tests S.plan.pos s k0 nv = some c) :
    violationOf c (vars w.prob) = penetration ev (fun _ => True) (tests (stepOf S.plan nv' s)) := by
  obtain ⟨hb, St, h2, h3, hl⟩ := solved_facts hsqrt hp ho h hw
  obtain ⟨c', v, c1, -, -, c4, -⟩ := discreteDyn_answers (ev := ev) (sort := sort) h.plan hb hs hact hsame k0
  rw [c1] at hc; injection hc with hc; subst hc
  have hsh := c4 (ext (vars w.prob)) (ext (vars w.prob))
  rw [posAt_ext nv hl h3] at hsh
  rw [violationOf, at', shape_violations hsh]
  refine dyn_sum ev hbuf (fun k r => ?_) _
  simp [Near]

/-- C141: the same for the motion between two steps and the contacts that count for an end that is not fixed. -/
theorem C141_depth_continuous (hsqrt : ∀ a : K, 0 ≤ a → sqrt a * sqrt a = a) (hp : Sane p) (ho : o.Sized) (h : S.Ok hash n) {qs : Solver K} {fuel : Nat}
    {nv : NodesVariables K} {w : Run K (State K)} {nv' : NodesVariables K} (hw : Solved sqrt hash junk p o qs fuel S nv w nv')
    (hbuf : 0 ≤ ev.buffer) {tests : (Fin n → K) → (Fin n → K) → RawMap Name (Fin n) K} {s s' k0 : Nat} {fixed0 fixed1 : Bool}
    (hs : s < s') (hs' : s' < S.plan.pos.length) (hact : ∀ q q', ∀ p ∈ tests q q', ∀ r ∈ p.2, ∃ i, r.active i = true)
    (hsame : ∀ x y, hash x = hash y → tests (posAt S.plan nv s x) (posAt S.plan nv s' x) = tests (posAt S.plan nv s y) (posAt S.plan nv s' y)) (c : Comp K)
    (hc : continuousDyn hash ev sort tests S.plan.pos s s' fixed0 fixed1 k0 nv = some c) :
    violationOf c (vars w.prob) = penetration ev (ForFreeEnd fixed0 fixed1) (tests (stepOf S.plan nv' s) (stepOf S.plan nv' s')) := by
  obtain ⟨hb, St, h2, h3, hl⟩ := solved_facts hsqrt hp ho h hw
  obtain ⟨c', v, v', c1, -, -, -, c4, -⟩ := continuousDyn_answers (ev := ev) (sort := sort) h.plan hb hs hs' hact hsame fixed0 fixed1 k0
  rw [c1] at hc; injection hc with hc; subst hc
  have hsh := c4 (ext (vars w.prob)) (ext (vars w.prob))
  rw [posAt_ext nv hl h3, posAt_ext nv hl h3] at hsh
  rw [violationOf, at', shape_violations hsh]
  exact dyn_sum ev hbuf (fun k r => Iff.rfl) _

end
/-! ### A fixed number of rows -/

/-- Specification: two answers that differ in the coefficients only. -/
def SameRows (a b : Snap K) : Prop := a.values = b.values ∧ a.jac = b.jac ∧ a.bounds = b.bounds ∧ a.count = b.count

/-- Specification: what the contact checker and the configuration guarantee for sets with a fixed number of rows. -/
structure FixedOk (ev : Evaluator Name K) (raw : RawMap Name (Fin n) K) : Prop where
  delivered : Delivered ev raw
  nonneg : ∀ p ∈ raw, p.1 ∉ ev.coeff.zero → 0 ≤ ev.coeff.get p.1.1 p.1.2

/-- Specification: every pair in contact has coefficient one. -/
def UnitCoeffs (ev : Evaluator Name K) (raw : RawMap Name (Fin n) K) : Prop := ∀ p ∈ raw, p.1 ∉ ev.coeff.zero → ev.coeff.get p.1.1 p.1.2 = 1

/-- Reads the data members other than the coefficients only. -/
def ByState {α : Type*} (f : Con Nat Name n K → α) : Prop :=
  ∀ t t' : Con Nat Name n K, t.rows = t'.rows → t.bounds = t'.bounds → t.data = t'.data → t.triplets = t'.triplets → f t = f t'

theorem discreteValues_by (ev : Evaluator Name K) : ByState (Con.discreteValues (n := n) (Key := Nat) ev) := by
  intro t t' h1 h2 h3 h4
  simp only [Con.discreteValues, h2, h3]

theorem continuousValues_by (ev : Evaluator Name K) (fixed0 fixed1 : Bool) : ByState (Con.continuousValues (n := n) (Key := Nat) ev fixed0 fixed1) := by
  intro t t' h1 h2 h3 h4
  simp only [Con.continuousValues, h1, h2, h3]

theorem discreteJacobian_by (ev : Evaluator Name K) (cols index : Nat) : ByState (Con.discreteJacobian (n := n) (Key := Nat) ev cols index) := by
  intro t t' h1 h2 h3 h4
  simp only [Con.discreteJacobian, Con.used, h1, h2, h3, h4]

theorem continuousJacobian_by (ev : Evaluator Name K) (fixed0 fixed1 : Bool) (cols index0 index1 : Nat) :
    ByState (Con.continuousJacobian (n := n) (Key := Nat) ev fixed0 fixed1 cols index0 index1) := by
  intro t t' h1 h2 h3 h4
  simp only [Con.continuousJacobian, Con.used, h1, h2, h3, h4]

section
variable {hash : (Nat → K) → Nat} {eval : (Nat → K) → Option (Data Name (Fin n) K)} {zeros : List (Nat × Nat)} {rows : Nat} {fs : Bool}

theorem update_coeffs (hinj : ∀ x y, hash x = hash y → eval x = eval y) (C : K → Prop) {s t : Con Nat Name n K} (h : s.Ok hash eval zeros rows fs)
    {x : Nat → K} {d : Data Name (Fin n) K} (hd : eval x = some d) (hC : ∀ g ∈ d.sets, C g.coeff) (hs : ∀ q ∈ s.coeffs, C q)
    (ht : s.update hash eval zeros x = some t) : ∀ q ∈ t.coeffs, C q := by
  obtain ⟨t', a1, a2, a3, a4, a5, a6⟩ := (Con.update_ok hash eval zeros hinj rows fs s h x).2 d hd
  rw [ht] at a1; injection a1 with a1; subst a1
  intro q hq
  obtain ⟨i, hi⟩ := List.mem_iff_getElem?.1 hq
  have hl : i < rows := by rw [← a2.coeffs]; exact (List.getElem?_eq_some_iff.1 hi).1
  by_cases hg : i < d.sets.length
  · have := a5 i _ hl (List.getElem?_eq_getElem hg)
    rw [hi] at this; injection this with this
    rw [this]; exact hC _ (List.getElem_mem hg)
  · have := a6 i (by omega)
    rw [hi] at this
    exact hs q (List.mem_iff_getElem?.2 ⟨i, this.symm⟩)

theorem run_coeffs (hinj : ∀ x y, hash x = hash y → eval x = eval y) (hsome : ∀ x, eval x ≠ none) (C : K → Prop)
    (hC : ∀ x d, eval x = some d → ∀ g ∈ d.sets, C g.coeff) (xs : List (Nat → K)) : ∀ {s t : Con Nat Name n K}, s.Ok hash eval zeros rows fs →
    (∀ q ∈ s.coeffs, C q) → s.run hash eval zeros xs = some t → ∀ q ∈ t.coeffs, C q := by
  induction xs with
  | nil => intro s t h hs ht; injection ht with ht; subst ht; exact hs
  | cons x xs ih =>
    intro s t h hs ht
    obtain ⟨d, hd⟩ := Option.ne_none_iff_exists'.1 (hsome x)
    obtain ⟨t', a1, a2, -⟩ := (Con.update_ok hash eval zeros hinj rows fs s h x).2 d hd
    simp only [Con.run, List.foldlM_cons, a1] at ht
    exact ih a2 (update_coeffs hinj C h hd (hC x d hd) hs a1) ht

/-- Rows of a set with a fixed number of rows. -/
def conRows (vs cs : List K) : List (Row K) := (vs.zip cs).map fun p => (p.1, p.2, ⟨.negInf, .fin 0, .upperBound⟩)

theorem conSnap_shape {values : Con Nat Name n K → Option (List K)} {jac : Con Nat Name n K → Option (Jac K)} {t : Con Nat Name n K} {vs : List K}
    {J : Jac K} {m : Nat} (ht : t.Ok hash eval zeros rows fs) (hv : values t = some vs) (hl : vs.length = rows) (hJ : jac t = some J) (hr : J.rows = rows)
    (hc : J.cols = m) : ∃ S, conSnap values jac t = some S ∧ S.values = vs ∧ S.coeffs = t.coeffs ∧ Shape m S (conRows vs t.coeffs) := by
  simp only [conSnap, hv, hJ]
  have hlen : (conRows vs t.coeffs).length = rows := by simp [conRows, hl, ht.coeffs]
  refine ⟨_, rfl, rfl, rfl, rowsOf_shape (J := J) ?_ ?_ ?_ ?_ rfl (by rw [hr, hlen]) hc⟩
  · simp only [conRows, List.map_map]
    exact (List.map_fst_zip (by rw [hl, ht.coeffs])).symm
  · simp only [conRows, List.map_map]
    exact (List.map_snd_zip (by rw [hl, ht.coeffs])).symm
  · simp only [conRows, List.map_map, ht.bounds]
    rw [← hlen, conRows, List.length_map]
    exact (List.map_const' ..).symm
  · rw [ht.hrows, hlen]

/-- What a set with a fixed number of rows answers, after any history. -/
theorem con_answers (hinj : ∀ x y, hash x = hash y → eval x = eval y) (hsome : ∀ x, eval x ≠ none) {k0 : Nat} {m : Int} {s : Con Nat Name n K}
    (hnew : Con.new k0 m fs = some s) {values : Con Nat Name n K → Option (List K)} {jac : Con Nat Name n K → Option (Jac K)}
    (hv : ByState values) (hj : ByState jac) {cols : Nat}
    (hkey : ∀ u, ∃ t vs J, s.run hash eval zeros [u] = some t ∧ values t = some vs ∧ vs.length = m.toNat ∧ jac t = some J ∧ J.rows = m.toNat ∧ J.cols = cols) :
    ∃ A : (Nat → K) → Snap K, (∀ u, (s.update hash eval zeros u).bind (conSnap values jac) = some (A u)) ∧
      (∀ u, ∃ cs, cs.length = m.toNat ∧ (A u).values.length = m.toNat ∧ Shape cols (A u) (conRows (A u).values cs) ∧
        ∀ C : K → Prop, C 1 → (∀ x d, eval x = some d → ∀ g ∈ d.sets, C g.coeff) → ∀ q ∈ cs, C q) ∧
      (∀ u x, hash u = hash x → A u = A x) ∧
      (∀ u, ∃ t, s.run hash eval zeros [u] = some t ∧ values t = some (A u).values) ∧
      ∀ xs u, ∃ t S, s.run hash eval zeros (xs ++ [u]) = some t ∧ conSnap values jac t = some S ∧ SameRows S (A u) ∧
        ((∀ x d, eval x = some d → ∀ g ∈ d.sets, g.coeff = 1) → S = A u) := by
  have h0 : s.Ok hash eval zeros m.toNat fs := (Con.new_ok k0 hash eval zeros m fs s hnew).1
  have hone : ∀ q ∈ s.coeffs, q = 1 := by
    simp only [Con.new] at hnew
    split_ifs at hnew
    injection hnew with hnew; subst hnew
    intro q hq; exact (List.mem_replicate.1 hq).2
  have hupd : ∀ u t, s.run hash eval zeros [u] = some t ↔ s.update hash eval zeros u = some t := by
    intro u t
    simp [Con.run]
  have key : ∀ u, ∃ t S, s.update hash eval zeros u = some t ∧ t.Ok hash eval zeros m.toNat fs ∧ t.data = eval u ∧ t.inited = true ∧
      values t = some S.values ∧ S.values.length = m.toNat ∧ conSnap values jac t = some S ∧ S.coeffs = t.coeffs ∧ Shape cols S (conRows S.values t.coeffs) := by
    intro u
    obtain ⟨t, vs, J, a1, a2, a3, a4, a5, a6⟩ := hkey u
    rw [hupd] at a1
    obtain ⟨d, hd⟩ := Option.ne_none_iff_exists'.1 (hsome u)
    obtain ⟨t', b1, b2, b3, b4, -⟩ := (Con.update_ok hash eval zeros hinj m.toNat fs s h0 u).2 d hd
    rw [a1] at b1; injection b1 with b1; subst b1
    obtain ⟨S, c1, c2, c3, c4⟩ := conSnap_shape b2 a2 a3 a4 a5 a6
    subst c2
    exact ⟨t, S, a1, b2, by rw [b3, hd], b4, a2, a3, c1, c3, c4⟩
  choose T A a1 a2 a3 a4 a5 a6 a7 a8 a9 using key
  have htri : ∀ {t : Con Nat Name n K}, t.Ok hash eval zeros m.toNat fs → t.inited = true → t.triplets = if fs then zeros else [] := by
    intro t h1 h2
    rw [h1.triplets, h2]; simp
  have hst : ∀ {t t' : Con Nat Name n K}, t.Ok hash eval zeros m.toNat fs → t.inited = true → t'.Ok hash eval zeros m.toNat fs → t'.inited = true →
      t.data = t'.data → values t = values t' ∧ jac t = jac t' := by
    intro t t' h1 h2 h3 h4 h5
    have e1 : t.rows = t'.rows := by rw [h1.hrows, h3.hrows]
    have e2 : t.bounds = t'.bounds := by rw [h1.bounds, h3.bounds]
    have e3 : t.triplets = t'.triplets := by rw [htri h1 h2, htri h3 h4]
    exact ⟨hv t t' e1 e2 h5 e3, hj t t' e1 e2 h5 e3⟩
  refine ⟨A, fun u => by rw [a1 u]; exact a7 u, fun u => ⟨(T u).coeffs, (a2 u).coeffs, a6 u, a9 u, ?_⟩, ?_, fun u => ⟨T u, (hupd u _).2 (a1 u), a5 u⟩, ?_⟩
  · intro C hC1 hC
    obtain ⟨d, hd⟩ := Option.ne_none_iff_exists'.1 (hsome u)
    exact update_coeffs hinj C h0 hd (hC u d hd) (fun q hq => by rw [hone q hq]; exact hC1) (a1 u)
  · intro u x hux
    obtain ⟨d, hd⟩ := Option.ne_none_iff_exists'.1 (hsome u)
    have hd' : eval x = some d := by rw [← hinj u x hux]; exact hd
    have hdata : (T u).data = (T x).data := by rw [a3, a3, hinj u x hux]
    obtain ⟨e1, e2⟩ := hst (a2 u) (a4 u) (a2 x) (a4 x) hdata
    obtain ⟨t, b1, b2, b3, b4, b5, b6⟩ := (Con.update_ok hash eval zeros hinj m.toNat fs s h0 u).2 d hd
    rw [a1 u] at b1; injection b1 with b1; subst b1
    obtain ⟨t', c1, c2, c3, c4, c5, c6⟩ := (Con.update_ok hash eval zeros hinj m.toNat fs s h0 x).2 d hd'
    rw [a1 x] at c1; injection c1 with c1; subst c1
    have hco : (T u).coeffs = (T x).coeffs := by
      apply List.ext_getElem?
      intro i
      by_cases hg : i < d.sets.length
      · by_cases hi : i < m.toNat
        · rw [b5 i _ hi (List.getElem?_eq_getElem hg), c5 i _ hi (List.getElem?_eq_getElem hg)]
        · rw [List.getElem?_eq_none (by rw [b2.coeffs]; omega), List.getElem?_eq_none (by rw [c2.coeffs]; omega)]
      · rw [b6 i (by omega), c6 i (by omega)]
    have : conSnap values jac (T u) = conSnap values jac (T x) := by
      simp only [conSnap, e1, e2, hco, b2.bounds, c2.bounds, b2.hrows, c2.hrows]
    rw [a7, a7] at this
    injection this
  · intro xs u
    obtain ⟨d, hd⟩ := Option.ne_none_iff_exists'.1 (hsome u)
    obtain ⟨t, b1, b2, b3, b4, -⟩ := Con.run_last hash eval zeros hinj k0 m fs s hnew xs (fun x _ => hsome x) u d hd
    obtain ⟨e1, e2⟩ := hst b2 b4 (a2 u) (a4 u) (by rw [b3, a3, hd])
    have hA := a7 u
    unfold conSnap at hA ⊢
    rw [← e1, ← e2] at hA
    cases hvt : values t with
    | none => rw [hvt] at hA; cases hA
    | some vs =>
      cases hjt : jac t with
      | none => rw [hvt, hjt] at hA; cases hA
      | some J =>
        rw [hvt, hjt] at hA
        simp only [Option.some.injEq] at hA
        refine ⟨t, ⟨vs, ⟨J.cols, rowsOf J⟩, t.coeffs, t.bounds, t.rows⟩, b1, by rw [hvt, hjt], ?_, ?_⟩
        · rw [← hA]
          exact ⟨rfl, rfl, by rw [b2.bounds, (a2 u).bounds], by rw [b2.hrows, (a2 u).hrows]⟩
        · intro hC
          rw [← hA]
          have r1 : ∀ q ∈ t.coeffs, q = 1 := run_coeffs hinj hsome (· = 1) hC (xs ++ [u]) h0 hone b1
          have r2 : ∀ q ∈ (T u).coeffs, q = 1 := run_coeffs hinj hsome (· = 1) hC [u] h0 hone ((hupd u _).2 (a1 u))
          have : t.coeffs = (T u).coeffs := by
            rw [List.eq_replicate_of_mem r1, List.eq_replicate_of_mem r2, b2.coeffs, (a2 u).coeffs]
          rw [this, b2.bounds, (a2 u).bounds, b2.hrows, (a2 u).hrows]

end

/-- Coefficients of the groups come from the configuration. -/
theorem groups_coeff {ev : Evaluator Name K} {raw : RawMap Name (Fin n) K} {near : (Name × Name) → Raw (Fin n) K → Prop} {grad}
    {gs : List (GSet Name (Fin n) K)} (h : Collision.Groups ev raw near grad gs) (hn : ∀ k r, near k r → k ∉ ev.coeff.zero) {C : K → Prop}
    (hC : ∀ p ∈ raw, p.1 ∉ ev.coeff.zero → C (ev.coeff.get p.1.1 p.1.2)) : ∀ g ∈ gs, C g.coeff := by
  intro g hg
  obtain ⟨p, hp, rs, hne, hmem, e⟩ := h.built g hg
  obtain ⟨c1, -⟩ := Collision.addAll_coeff (Name := Name) ev.lowest p.1 g.shapeKey (ev.coeff.get p.1.1 p.1.2) (rs.map (grad p.1))
  rw [← e] at c1
  rw [c1]
  obtain ⟨r, hr⟩ := List.exists_mem_of_ne_nil rs hne
  exact hC p hp (hn _ _ ((hmem r).1 hr).2.1)

/-- A set with a fixed number of rows fits. -/
theorem con_fits {hash : (Nat → K) → Nat} {m : Nat} (hm : 0 < m) {d : Nat} {p : Option Penalty} (hp : OneSided p) {A : (Nat → K) → Snap K}
    (h : ∀ u, ∃ cs, cs.length = m ∧ (A u).values.length = m ∧ Shape d (A u) (conRows (A u).values cs) ∧ ∀ q ∈ cs, (0 : K) ≤ q)
    (hf : ∀ u x, hash u = hash x → A u = A x) : SetOk hash d ⟨false, fun _ u => A u⟩ p := by
  refine SetOk.of_shape (fun _ => m) ?_ (fun _ _ _ => rfl) (fun x u hu => hf u x hu) (fun _ _ => hm)
  intro x u
  obtain ⟨cs, h1, h2, h3, h4⟩ := h u
  refine ⟨_, h3, by simp [conRows, h1, h2], ?_⟩
  intro r hr
  simp only [conRows, List.mem_map] at hr
  obtain ⟨q, hq, rfl⟩ := hr
  exact ⟨h4 _ (List.of_mem_zip (show (q.1, q.2) ∈ _ from hq)).2, .inr (.inr ⟨0, rfl⟩), accepted_upper hp⟩

section
variable {P : Plan K} {nv : NodesVariables K} {hash : (Nat → K) → Nat} {ev : Evaluator Name K} {sort : List (GSet Name (Fin n) K) → List (GSet Name (Fin n) K)}

theorem new_some (h : P.Ok n) (k0 : Nat) {m : Int} (hm : 1 ≤ m) (fs : Bool) : ∃ s, (Con.new k0 m fs : Option (Con Nat Name n K)) = some s := by
  have := h.hdof
  simp only [Con.new]
  rw [if_neg (by omega), if_neg (by omega)]
  exact ⟨_, rfl⟩

/-- What a discrete set with a fixed number of rows answers. -/
theorem discreteSet_answers (hP : P.Ok n) (hb : VarSets.build P.nodes = some nv) (hlow : ev.lowest < 0) (hsort : ∀ l, (sort l).Perm l)
    {tests : (Fin n → K) → RawMap Name (Fin n) K} {s : Nat} (hs : s < P.pos.length) (hok : ∀ q, FixedOk ev (tests q)) (hu : ∀ q, Unclassified (tests q))
    (hsame : ∀ x y, hash x = hash y → tests (posAt P nv s x) = tests (posAt P nv s y)) (k0 : Nat) {m : Int} (hm : 1 ≤ m) (fs : Bool) :
    ∃ (A : (Nat → K) → Snap K) (v : Var K) (c : Con Nat Name n K), discreteSet hash ev sort tests P.pos s k0 m fs nv = some ⟨false, fun _ u => A u⟩ ∧
      stepVar P.pos nv s = some v ∧ Con.new k0 m fs = some c ∧
      (∀ u, ∃ cs, cs.length = m.toNat ∧ (A u).values.length = m.toNat ∧ Shape nv.nDim (A u) (conRows (A u).values cs) ∧ ∀ q ∈ cs, (0 : K) ≤ q) ∧
      (∀ u x, hash u = hash x → A u = A x) ∧
      (∀ u, ∃ t, c.run hash (fun x => calcCollisions ev sort m.toNat (tests (posAt P nv s x))) (zeros1 m.toNat n v.index) [u] = some t ∧
        t.discreteValues ev = some (A u).values) ∧
      ∀ xs u, ∃ t S, c.run hash (testAt ev sort tests P.pos nv s m.toNat) (zeros1 m.toNat n v.index) (xs ++ [u]) = some t ∧
        conSnap (Con.discreteValues ev) (Con.discreteJacobian ev nv.nDim v.index) t = some S ∧ SameRows S (A u) ∧
        ((∀ q, UnitCoeffs ev (tests q)) → S = A u) := by
  obtain ⟨v, v1, v2, v3⟩ := stepVar_eq hP hb hs
  obtain ⟨c, hc⟩ := new_some (Name := Name) hP k0 hm fs
  have hm' : 0 < m.toNat := by omega
  have hsome : ∀ x, calcCollisions ev sort m.toNat (tests (posAt P nv s x)) ≠ none := by
    intro x
    obtain ⟨d, e, -⟩ := Collision.calcCollisions_spec ev sort hsort m.toNat hm' _ (hok (posAt P nv s x)).delivered
    rw [e]; simp
  have hgr : ∀ (C : K → Prop), (∀ q, ∀ p ∈ tests q, p.1 ∉ ev.coeff.zero → C (ev.coeff.get p.1.1 p.1.2)) → ∀ x d,
      calcCollisions ev sort m.toNat (tests (posAt P nv s x)) = some d → ∀ g ∈ d.sets, C g.coeff := by
    intro C hC x d hd
    obtain ⟨d', e, -, hg, -⟩ := Collision.calcCollisions_spec ev sort hsort m.toNat hm' _ (hok (posAt P nv s x)).delivered
    rw [hd] at e; injection e with e; subst e
    exact groups_coeff hg (fun k r h => h.1) (hC _)
  obtain ⟨A, b1, b2, b3, b4, b5⟩ := con_answers (eval := fun x => calcCollisions ev sort m.toNat (tests (posAt P nv s x))) (zeros := zeros1 m.toNat n v.index)
    (cols := nv.nDim) (fun x y h => by simp only [hsame x y h]) hsome hc (discreteValues_by ev) (discreteJacobian_by ev nv.nDim v.index) (by
      intro u
      obtain ⟨t, vs, d, h1, -, h3, h4, -⟩ := Collision.C92_discrete_partial ev sort hsort k0 m fs c hc hash (fun x => tests (posAt P nv s x)) hsame
        (fun x => (hok _).delivered) (fun x => hu _) (zeros1 m.toNat n v.index) [] u
      obtain ⟨t', d', J, k1, -, k3, -, k5, -⟩ := Collision.C94_discrete ev hlow sort hsort k0 m fs c hc hash (fun x => tests (posAt P nv s x)) hsame
        (fun x => (hok _).delivered) (fun x => hu _) nv.nDim v.index v3 [] u
      rw [h1] at k1; injection k1 with k1; subst k1
      exact ⟨t, vs, J, h1, h3, h4.1, k3, k5.nRows, k5.nCols⟩)
  refine ⟨A, v, c, ?_, v1, hc, ?_, b3, b4, ?_⟩
  · unfold discreteSet
    simp only [v1, hc, testAt_eq hP hb hs, b1, Option.getD_some]
  · intro u
    obtain ⟨cs, c1, c2, c3, c4⟩ := b2 u
    exact ⟨cs, c1, c2, c3, c4 (0 ≤ ·) zero_le_one (hgr _ fun q => (hok q).nonneg)⟩
  · intro xs u
    obtain ⟨t, S, d1, d2, d3, d4⟩ := b5 xs u
    exact ⟨t, S, by rw [testAt_eq hP hb hs]; exact d1, d2, d3, fun h => d4 (hgr (· = 1) h)⟩

/-- What a set for the motion between two steps with a fixed number of rows answers. -/
theorem continuousSet_answers (hP : P.Ok n) (hb : VarSets.build P.nodes = some nv) (hlow : ev.lowest < 0) (hsort : ∀ l, (sort l).Perm l)
    {tests : (Fin n → K) → (Fin n → K) → RawMap Name (Fin n) K} {s s' : Nat} (hs : s < s') (hs' : s' < P.pos.length) (hok : ∀ q q', FixedOk ev (tests q q'))
    (hsame : ∀ x y, hash x = hash y → tests (posAt P nv s x) (posAt P nv s' x) = tests (posAt P nv s y) (posAt P nv s' y)) {fixed0 fixed1 : Bool}
    (hf : ¬ (fixed0 = true ∧ fixed1 = true)) (k0 : Nat) {m : Int} (hm : 1 ≤ m) (fs : Bool) :
    ∃ (A : (Nat → K) → Snap K) (v v' : Var K) (c : Con Nat Name n K),
      continuousSet hash ev sort tests P.pos s s' fixed0 fixed1 k0 m fs nv = some ⟨false, fun _ u => A u⟩ ∧
      stepVar P.pos nv s = some v ∧ stepVar P.pos nv s' = some v' ∧ Con.newContinuous k0 m fixed0 fixed1 fs = some c ∧
      (∀ u, ∃ cs, cs.length = m.toNat ∧ (A u).values.length = m.toNat ∧ Shape nv.nDim (A u) (conRows (A u).values cs) ∧ ∀ q ∈ cs, (0 : K) ≤ q) ∧
      (∀ u x, hash u = hash x → A u = A x) ∧
      (∀ u, ∃ t, c.run hash (fun x => calcCollisionData ev sort fixed0 fixed1 m.toNat (tests (posAt P nv s x) (posAt P nv s' x)))
        (zeros2 m.toNat n v.index v'.index) [u] = some t ∧ t.continuousValues ev fixed0 fixed1 = some (A u).values) ∧
      ∀ xs u, ∃ t S, c.run hash (testBetween ev sort tests P.pos nv s s' fixed0 fixed1 m.toNat) (zeros2 m.toNat n v.index v'.index) (xs ++ [u]) = some t ∧
        conSnap (Con.continuousValues ev fixed0 fixed1) (Con.continuousJacobian ev fixed0 fixed1 nv.nDim v.index v'.index) t = some S ∧ SameRows S (A u) ∧
        ((∀ q q', UnitCoeffs ev (tests q q')) → S = A u) := by
  have hs0 : s < P.pos.length := by omega
  obtain ⟨v, v1, v2, v3⟩ := stepVar_eq hP hb hs0
  obtain ⟨v', w1, w2, w3⟩ := stepVar_eq hP hb hs'
  have hord := step_order hP hb hs hs' v1 w1
  obtain ⟨c, hc⟩ := new_some (Name := Name) hP k0 hm fs
  have hc' : Con.newContinuous k0 m fixed0 fixed1 fs = some c := by
    simp only [Con.newContinuous]
    rw [if_neg (by simpa using hf)]; exact hc
  have hm' : 0 < m.toNat := by omega
  have hsome : ∀ x, calcCollisionData ev sort fixed0 fixed1 m.toNat (tests (posAt P nv s x) (posAt P nv s' x)) ≠ none := by
    intro x
    obtain ⟨d, e, -⟩ := Collision.calcCollisionData_spec ev sort hsort fixed0 fixed1 hf m.toNat hm' _ (hok (posAt P nv s x) (posAt P nv s' x)).delivered
    rw [e]; simp
  have hgr : ∀ (C : K → Prop), (∀ q q', ∀ p ∈ tests q q', p.1 ∉ ev.coeff.zero → C (ev.coeff.get p.1.1 p.1.2)) → ∀ x d,
      calcCollisionData ev sort fixed0 fixed1 m.toNat (tests (posAt P nv s x) (posAt P nv s' x)) = some d → ∀ g ∈ d.sets, C g.coeff := by
    intro C hC x d hd
    obtain ⟨d', e, -, hg, -⟩ := Collision.calcCollisionData_spec ev sort hsort fixed0 fixed1 hf m.toNat hm' _ (hok (posAt P nv s x) (posAt P nv s' x)).delivered
    rw [hd] at e; injection e with e; subst e
    exact groups_coeff hg (fun k r h => h.1) (hC _ _)
  obtain ⟨A, b1, b2, b3, b4, b5⟩ := con_answers
    (eval := fun x => calcCollisionData ev sort fixed0 fixed1 m.toNat (tests (posAt P nv s x) (posAt P nv s' x))) (zeros := zeros2 m.toNat n v.index v'.index)
    (cols := nv.nDim) (fun x y h => by simp only [hsame x y h]) hsome hc (continuousValues_by ev fixed0 fixed1)
    (continuousJacobian_by ev fixed0 fixed1 nv.nDim v.index v'.index) (by
      intro u
      obtain ⟨t, vs, d, h1, -, h3, -, h4, -⟩ := Collision.C92_continuous_partial ev sort hsort k0 m fixed0 fixed1 fs c hc' hash
        (fun x => tests (posAt P nv s x) (posAt P nv s' x)) hsame (fun x => (hok _ _).delivered) (zeros2 m.toNat n v.index v'.index) [] u
      obtain ⟨t', d', J, k1, -, k3, -, k5, -⟩ := Collision.C94_continuous ev hlow sort hsort k0 m fixed0 fixed1 fs c hc' hash
        (fun x => tests (posAt P nv s x) (posAt P nv s' x)) hsame (fun x => (hok _ _).delivered) nv.nDim v.index v'.index v3 w3 (.inl hord) [] u
      rw [h1] at k1; injection k1 with k1; subst k1
      exact ⟨t, vs, J, h1, h3, h4.1, k3, k5.nRows, k5.nCols⟩)
  refine ⟨A, v, v', c, ?_, v1, w1, hc', ?_, b3, b4, ?_⟩
  · unfold continuousSet
    simp only [v1, w1, hc', testBetween_eq hP hb hs0 hs', b1, Option.getD_some]
  · intro u
    obtain ⟨cs, c1, c2, c3, c4⟩ := b2 u
    exact ⟨cs, c1, c2, c3, c4 (0 ≤ ·) zero_le_one (hgr _ fun q q' => (hok q q').nonneg)⟩
  · intro xs u
    obtain ⟨t, S, d1, d2, d3, d4⟩ := b5 xs u
    exact ⟨t, S, by rw [testBetween_eq hP hb hs0 hs']; exact d1, d2, d3, fun h => d4 (hgr (· = 1) h)⟩

/-- C142: a discrete collision constraint with a fixed number of rows can be part of a scene; an object with any history of updates has the rows of the
model, which starts from a new object, and the same coefficients if all coefficients are one. -/
theorem C142_fits_discrete (hP : P.Ok n) (hb : VarSets.build P.nodes = some nv) (hlow : ev.lowest < 0) (hsort : ∀ l, (sort l).Perm l)
    {tests : (Fin n → K) → RawMap Name (Fin n) K} {s : Nat} (hs : s < P.pos.length) (hok : ∀ q, FixedOk ev (tests q)) (hu : ∀ q, Unclassified (tests q))
    (hsame : ∀ x y, hash x = hash y → tests (posAt P nv s x) = tests (posAt P nv s y)) (k0 : Nat) {m : Int} (hm : 1 ≤ m) (fs : Bool) {p : Option Penalty}
    (hp : OneSided p) :
    ∃ (c : Comp K) (v : Var K) (C : Con Nat Name n K), discreteSet hash ev sort tests P.pos s k0 m fs nv = some c ∧ SetOk hash nv.nDim c p ∧
      stepVar P.pos nv s = some v ∧ Con.new k0 m fs = some C ∧
      ∀ x u xs, ∃ t S, C.run hash (testAt ev sort tests P.pos nv s m.toNat) (zeros1 m.toNat n v.index) (xs ++ [u]) = some t ∧
        conSnap (Con.discreteValues ev) (Con.discreteJacobian ev nv.nDim v.index) t = some S ∧ SameRows S (c.ask x u) ∧
        ((∀ q, UnitCoeffs ev (tests q)) → S = c.ask x u) := by
  obtain ⟨A, v, C, h1, h2, h3, h4, h5, -, h6⟩ := discreteSet_answers hP hb hlow hsort hs hok hu hsame k0 hm fs
  exact ⟨_, v, C, h1, con_fits (by omega) hp h4 h5, h2, h3, fun x u xs => h6 xs u⟩

/-- C142: the same for the motion between two steps. -/
theorem C142_fits_continuous (hP : P.Ok n) (hb : VarSets.build P.nodes = some nv) (hlow : ev.lowest < 0) (hsort : ∀ l, (sort l).Perm l)
    {tests : (Fin n → K) → (Fin n → K) → RawMap Name (Fin n) K} {s s' : Nat} (hs : s < s') (hs' : s' < P.pos.length) (hok : ∀ q q', FixedOk ev (tests q q'))
    (hsame : ∀ x y, hash x = hash y → tests (posAt P nv s x) (posAt P nv s' x) = tests (posAt P nv s y) (posAt P nv s' y)) {fixed0 fixed1 : Bool}
    (hf : ¬ (fixed0 = true ∧ fixed1 = true)) (k0 : Nat) {m : Int} (hm : 1 ≤ m) (fs : Bool) {p : Option Penalty} (hp : OneSided p) :
    ∃ (c : Comp K) (v v' : Var K) (C : Con Nat Name n K), continuousSet hash ev sort tests P.pos s s' fixed0 fixed1 k0 m fs nv = some c ∧
      SetOk hash nv.nDim c p ∧ stepVar P.pos nv s = some v ∧ stepVar P.pos nv s' = some v' ∧ Con.newContinuous k0 m fixed0 fixed1 fs = some C ∧
      ∀ x u xs, ∃ t S, C.run hash (testBetween ev sort tests P.pos nv s s' fixed0 fixed1 m.toNat) (zeros2 m.toNat n v.index v'.index) (xs ++ [u]) = some t ∧
        conSnap (Con.continuousValues ev fixed0 fixed1) (Con.continuousJacobian ev fixed0 fixed1 nv.nDim v.index v'.index) t = some S ∧
        SameRows S (c.ask x u) ∧ ((∀ q q', UnitCoeffs ev (tests q q')) → S = c.ask x u) := by
  obtain ⟨A, v, v', C, h1, h2, h2', h3, h4, h5, -, h6⟩ := continuousSet_answers hP hb hlow hsort hs hs' hok hsame hf k0 hm fs
  exact ⟨_, v, v', C, h1, con_fits (by omega) hp h4 h5, h2, h2', h3, fun x u xs => h6 xs u⟩

end

section
variable {S : Scene K} {sqrt : K → K} {hash : (Nat → K) → Nat} {junk : Nat → Ext K} {p : Params K} {o : World K}
variable {ev : Evaluator Name K} {sort : List (GSet Name (Fin n) K) → List (GSet Name (Fin n) K)}

/-- Rows of a converged run. -/
theorem con_below (hsqrt : ∀ a : K, 0 ≤ a → sqrt a * sqrt a = a) (hp : Sane p) (ho : o.Sized) (h : S.Ok hash n) {qs : Solver K} {fuel : Nat}
    {nv : NodesVariables K} {w : Run K (State K)} {nv' : NodesVariables K} (hw : Solved sqrt hash junk p o qs fuel S nv w nv')
    (hc : w.status = .converged) {mk : Maker K} {A : (Nat → K) → Snap K} (hm : (mk, none) ∈ S.others) (hmc : mk nv = some ⟨false, fun _ u => A u⟩) {m d : Nat}
    (hA : ∀ u, ∃ cs, cs.length = m ∧ (A u).values.length = m ∧ Shape d (A u) (conRows (A u).values cs) ∧ ∀ q ∈ cs, (0 : K) ≤ q) :
    ∀ v ∈ (A (ext (vars w.prob))).values, v < p.cntTolerance := by
  obtain ⟨cs, c1, c2, c3, -⟩ := hA (ext (vars w.prob))
  intro v hv
  obtain ⟨i, hi⟩ := List.mem_iff_getElem?.1 hv
  have hl : i < m := by rw [← c2]; exact (List.getElem?_eq_some_iff.1 hi).1
  have hb : (A (ext (vars w.prob))).bounds[i]? = some ⟨.negInf, .fin 0, .upperBound⟩ := by
    rw [c3.bounds, List.getElem?_map, conRows, List.getElem?_map, List.getElem?_eq_getElem (by simp [c1, c2, hl])]; rfl
  have := (C139_rows hsqrt hp ho h hw hc hm hmc i v ⟨.negInf, .fin 0, .upperBound⟩ hi hb).2 0 rfl
  linarith

/-- C142: when the solver converges, every contact of the motion between two steps that counts for an end that is not fixed keeps its margin up to
`cnt_tolerance`, however few rows the set has. -/
theorem C142_clear_continuous (hsqrt : ∀ a : K, 0 ≤ a → sqrt a * sqrt a = a) (hp : Sane p) (ho : o.Sized) (h : S.Ok hash n) {qs : Solver K} {fuel : Nat}
    {nv : NodesVariables K} {w : Run K (State K)} {nv' : NodesVariables K} (hw : Solved sqrt hash junk p o qs fuel S nv w nv')
    (hc : w.status = .converged) (hbuf : -ev.buffer < p.cntTolerance) (hlow : ev.lowest < 0) {fixed0 fixed1 : Bool}
    (hsort : SortsBy (Collision.continuousCmp ev.lowest fixed0 fixed1) sort) {tests : (Fin n → K) → (Fin n → K) → RawMap Name (Fin n) K} {s s' k0 : Nat}
    (hs : s < s') (hs' : s' < S.plan.pos.length) (hok : ∀ q q', FixedOk ev (tests q q'))
    (hsame : ∀ x y, hash x = hash y → tests (posAt S.plan nv s x) (posAt S.plan nv s' x) = tests (posAt S.plan nv s y) (posAt S.plan nv s' y))
    (hf : ¬ (fixed0 = true ∧ fixed1 = true)) {m : Int} (hm : 1 ≤ m) {fs : Bool}
    (hmem : (continuousSet hash ev sort tests S.plan.pos s s' fixed0 fixed1 k0 m fs, none) ∈ S.others) (k : Name × Name) (r : Raw (Fin n) K)
    (hr : Considered ev (tests (stepOf S.plan nv' s) (stepOf S.plan nv' s')) k r) (hfree : ForFreeEnd fixed0 fixed1 r) :
    ev.margin k - p.cntTolerance < r.c.distance := by
  obtain ⟨hb, St, h2, h3, hl⟩ := solved_facts hsqrt hp ho h hw
  obtain ⟨A, v, v', C, a1, -, -, a3, a4, -, a6, -⟩ := continuousSet_answers h.plan hb hlow (fun l => (hsort l).1) hs hs' hok hsame hf k0 hm fs
  have hbel := con_below hsqrt hp ho h hw hc hmem a1 a4
  obtain ⟨t, vs, b1, b2, b3⟩ := Collision.continuous_level ev (· < p.cntTolerance) (fun a b h h' => lt_of_le_of_lt h h') hbuf sort k0 m fixed0 fixed1 fs hsort C a3
    hash (fun x => tests (posAt S.plan nv s x) (posAt S.plan nv s' x)) hsame (fun x => (hok _ _).delivered) (zeros2 m.toNat n v.index v'.index) []
    (ext (vars w.prob))
  obtain ⟨t', d1, d2⟩ := a6 (ext (vars w.prob))
  rw [List.nil_append, d1] at b1; injection b1 with b1; subst b1
  rw [d2] at b2; injection b2 with b2; subst b2
  rw [posAt_ext nv hl h3, posAt_ext nv hl h3] at b3
  have := b3.1 hbel k r hr hfree
  simp only [depth] at this; linarith

/-- C142: the same for a discrete set that has as many rows as there are groups of contacts at the returned joint values. -/
theorem C142_clear_discrete_partial (hsqrt : ∀ a : K, 0 ≤ a → sqrt a * sqrt a = a) (hp : Sane p) (ho : o.Sized) (h : S.Ok hash n) {qs : Solver K} {fuel : Nat}
    {nv : NodesVariables K} {w : Run K (State K)} {nv' : NodesVariables K} (hw : Solved sqrt hash junk p o qs fuel S nv w nv')
    (hc : w.status = .converged) (hbuf : -ev.buffer < p.cntTolerance) (hlow : ev.lowest < 0) (hsort : SortsBy Collision.discreteCmp sort)
    {tests : (Fin n → K) → RawMap Name (Fin n) K} {s k0 : Nat}
    (hs : s < S.plan.pos.length) (hok : ∀ q, FixedOk ev (tests q)) (hu : ∀ q, Unclassified (tests q))
    (hsame : ∀ x y, hash x = hash y → tests (posAt S.plan nv s x) = tests (posAt S.plan nv s y)) {m : Int} (hm : 1 ≤ m) {fs : Bool}
    (hfit : ∀ d, calcCollisions ev sort m.toNat (tests (stepOf S.plan nv' s)) = some d → d.sets.length ≤ m.toNat)
    (hmem : (discreteSet hash ev sort tests S.plan.pos s k0 m fs, none) ∈ S.others) (k : Name × Name) (r : Raw (Fin n) K)
    (hr : Considered ev (tests (stepOf S.plan nv' s)) k r) : ev.margin k - p.cntTolerance < r.c.distance := by
  obtain ⟨hb, St, h2, h3, hl⟩ := solved_facts hsqrt hp ho h hw
  obtain ⟨A, v, C, a1, -, a3, a4, -, a6, -⟩ := discreteSet_answers h.plan hb hlow (fun l => (hsort l).1) hs hok hu hsame k0 hm fs
  have hbel := con_below hsqrt hp ho h hw hc hmem a1 a4
  have hq : (posAt S.plan nv s (ext (vars w.prob)) : Fin n → K) = stepOf S.plan nv' s := posAt_ext nv hl h3 s
  obtain ⟨t, vs, b1, b2, b3⟩ := Collision.discrete_level ev (· < p.cntTolerance) (fun a b h h' => lt_of_le_of_lt h h') hbuf sort k0 m fs hsort C a3
    hash (fun x => tests (posAt S.plan nv s x)) hsame (fun x => (hok _).delivered) (fun x => hu _) (zeros1 m.toNat n v.index) []
    (ext (vars w.prob)) (by simp only [hq]; exact hfit)
  obtain ⟨t', d1, d2⟩ := a6 (ext (vars w.prob))
  rw [List.nil_append, d1] at b1; injection b1 with b1; subst b1
  rw [d2] at b2; injection b2 with b2; subst b2
  rw [hq] at b3
  have := b3.1 hbel k r hr
  simp only [depth] at this; linarith

end
/-! ### Example -/

section
open Classical

/-- A wall that the arm touches when the first joint is at 1 or beyond. -/
noncomputable def wallEv : Evaluator Nat ℝ := ⟨fun _ => 1 / 10, 1 / 20, Collision.CoeffData.new 1, -1000⟩

noncomputable def wallRaw (free : Prop) : Raw (Fin 2) ℝ :=
  ⟨⟨if free then 1 else 0, fun _ => .none, fun _ => 0, fun _ => -1⟩, fun _ => 0, fun _ _ _ => 1, fun _ => true⟩

noncomputable def wallAt (q : Fin 2 → ℝ) : RawMap Nat (Fin 2) ℝ := [((0, 1), [wallRaw (q 0 < 1)])]

noncomputable def wallBetween (q q' : Fin 2 → ℝ) : RawMap Nat (Fin 2) ℝ := [((0, 1), [wallRaw (q 0 < 1 ∧ q' 0 < 1)])]

/-- A hash that tells the contacts of the steps 0 and 1 apart. -/
noncomputable def wallHash (x : Nat → ℝ) : Nat :=
  match VarSets.build demo.nodes with
  | none => 0
  | some nv => (if (posAt demo nv 0 x : Fin 2 → ℝ) 0 < 1 then 0 else 1) + if (posAt demo nv 1 x : Fin 2 → ℝ) 0 < 1 then 0 else 2

noncomputable def wallSort (l : List (GSet Nat (Fin 2) ℝ)) : List (GSet Nat (Fin 2) ℝ) :=
  l.mergeSort fun a b => decide ((Collision.continuousMeasure (-1000) false false b).getD 0 ≤ (Collision.continuousMeasure (-1000) false false a).getD 0)

theorem wallSort_sorts : SortsBy (Collision.continuousCmp wallEv.lowest false false) wallSort := by
  intro l
  refine ⟨List.mergeSort_perm _ _, ?_⟩
  have := List.pairwise_mergeSort (le := fun a b : GSet Nat (Fin 2) ℝ =>
    decide ((Collision.continuousMeasure (-1000) false false b).getD 0 ≤ (Collision.continuousMeasure (-1000) false false a).getD 0)) ?_ ?_ l
  · refine this.imp fun {a b} h => ?_
    simp only [decide_eq_true_eq] at h
    simp only [Collision.continuousCmp, wallEv]
    cases ha : Collision.continuousMeasure (-1000 : ℝ) false false a <;> cases hb : Collision.continuousMeasure (-1000 : ℝ) false false b <;>
      simp_all
  · intro a b c h1 h2
    simp only [decide_eq_true_eq] at *
    exact h2.trans h1
  · intro a b
    simp only [Bool.or_eq_true, decide_eq_true_eq]
    exact le_total _ _

theorem wall_ok (f : Prop) : FixedOk wallEv [((0, 1), [wallRaw f])] ∧ ContactsOk wallEv [((0, 1), [wallRaw f])] ∧ Unclassified [((0, 1), [wallRaw f])] ∧
    UnitCoeffs wallEv [((0, 1), [wallRaw f])] := by
  have hc : wallEv.coeff.get 0 1 = 1 := by
    simp [wallEv, Collision.CoeffData.get, Collision.CoeffData.new, Collision.tableFind]
  refine ⟨⟨⟨?_, ?_, ?_, ?_⟩, ?_⟩, ⟨?_, ?_⟩, ?_, ?_⟩ <;> intro p hp <;> simp only [List.mem_singleton] at hp <;> subst hp
  · intro r hr
    simp only [List.mem_singleton] at hr; subst hr
    have : Collision.shapeKey (wallRaw f).c = Collision.shapeKey (⟨0, fun _ => .none, fun _ => 0, fun _ => -1⟩ : Collision.Contact ℚ) := rfl
    rw [this]; decide +kernel
  · intro r hr
    simp only [List.mem_singleton] at hr; subst hr
    exact ⟨0, rfl⟩
  · intro r hr i hi
    simp only [List.mem_singleton] at hr; subst hr
    exact rfl
  · intro r hr
    simp only [List.mem_singleton] at hr; subst hr
    simp only [wallRaw, wallEv]
    constructor <;> split_ifs <;> norm_num
  · intro _; rw [hc]; norm_num
  · intro r hr
    simp only [List.mem_singleton] at hr; subst hr
    exact ⟨0, rfl⟩
  · intro _; rw [hc]; norm_num
  · intro r hr i
    simp only [List.mem_singleton] at hr; subst hr
    rfl
  · intro _; exact hc

/-- The plan of C136 with collision constraints of all four kinds. -/
noncomputable def wallDemo : Scene ℝ :=
  ⟨demo, [(discreteDyn wallHash wallEv wallSort wallAt demo.pos 1 0, none), (continuousDyn wallHash wallEv wallSort wallBetween demo.pos 0 1 false false 0, some .hinge),
    (discreteSet wallHash wallEv wallSort wallAt demo.pos 1 0 2 true, some .hinge), (continuousSet wallHash wallEv wallSort wallBetween demo.pos 0 1 false false 0 1 true, none)]⟩

theorem wall_same {nv : NodesVariables ℝ} (hb : VarSets.build demo.nodes = some nv) {x y : Nat → ℝ} (h : wallHash x = wallHash y) :
    wallAt (posAt demo nv 1 x) = wallAt (posAt demo nv 1 y) ∧
    wallBetween (posAt demo nv 0 x) (posAt demo nv 1 x) = wallBetween (posAt demo nv 0 y) (posAt demo nv 1 y) := by
  simp only [wallHash, hb] at h
  have h0 : (posAt demo nv 0 x : Fin 2 → ℝ) 0 < 1 ↔ (posAt demo nv 0 y : Fin 2 → ℝ) 0 < 1 := by
    split_ifs at h with h1 h2 h3 h4 <;> first | exact iff_of_true ‹_› ‹_› | exact iff_of_false ‹_› ‹_› | omega
  have h1 : (posAt demo nv 1 x : Fin 2 → ℝ) 0 < 1 ↔ (posAt demo nv 1 y : Fin 2 → ℝ) 0 < 1 := by
    split_ifs at h with h1 h2 h3 h4 <;> first | exact iff_of_true ‹_› ‹_› | exact iff_of_false ‹_› ‹_› | omega
  unfold wallAt wallBetween
  rw [propext h0, propext h1]
  exact ⟨rfl, rfl⟩

theorem wallDemo_ok : wallDemo.Ok wallHash 2 := by
  have hw : ∀ q, FixedOk wallEv (wallAt q) ∧ ContactsOk wallEv (wallAt q) ∧ Unclassified (wallAt q) ∧ UnitCoeffs wallEv (wallAt q) := fun q => wall_ok _
  have hw' : ∀ q q', FixedOk wallEv (wallBetween q q') ∧ ContactsOk wallEv (wallBetween q q') ∧ Unclassified (wallBetween q q') ∧
    UnitCoeffs wallEv (wallBetween q q') := fun q q' => wall_ok _
  have hl : demo.pos.length = 3 := rfl
  have hlow : wallEv.lowest < 0 := by norm_num [wallEv]
  refine ⟨demo_ok, ?_, ?_⟩
  · intro nv hb a ha
    have hs : ∀ x y, wallHash x = wallHash y → wallAt (posAt demo nv 1 x) = wallAt (posAt demo nv 1 y) := fun x y h => (wall_same hb h).1
    have hs' : ∀ x y, wallHash x = wallHash y → wallBetween (posAt demo nv 0 x) (posAt demo nv 1 x) = wallBetween (posAt demo nv 0 y) (posAt demo nv 1 y) :=
      fun x y h => (wall_same hb h).2
    simp only [wallDemo, List.mem_cons, List.not_mem_nil, or_false] at ha
    rcases ha with rfl | rfl | rfl | rfl
    · obtain ⟨c, v, h1, h2, -⟩ := C141_fits_discrete (sort := wallSort) demo_ok hb (by omega) (fun q => (hw q).2.1) hs 0 (.inl rfl)
      exact ⟨c, h1, h2⟩
    · obtain ⟨c, v, v', h1, h2, -⟩ := C141_fits_continuous (sort := wallSort) demo_ok hb (s := 0) (s' := 1) (by omega) (by omega) (fun q q' => (hw' q q').2.1) hs'
        false false 0 (.inr rfl)
      exact ⟨c, h1, h2⟩
    · obtain ⟨c, v, C, h1, h2, -⟩ := C142_fits_discrete demo_ok hb hlow (fun l => (wallSort_sorts l).1) (by omega) (fun q => (hw q).1) (fun q => (hw q).2.2.1) hs 0
        (m := 2) (by norm_num) true (p := some .hinge) (.inr rfl)
      exact ⟨c, h1, h2⟩
    · obtain ⟨c, v, v', C, h1, h2, -⟩ := C142_fits_continuous demo_ok hb hlow (fun l => (wallSort_sorts l).1) (s := 0) (s' := 1) (by omega) (by omega)
        (fun q q' => (hw' q q').1) hs' (fixed0 := false) (fixed1 := false) (by simp) 0 (m := 1) (by norm_num) true (p := none) (.inl rfl)
      exact ⟨c, h1, h2⟩
  · intro nv hb
    have h4 : (wallDemo.sets nv none true).length ≤ 4 := List.length_filterMap_le _ _
    obtain ⟨v0, a1, -, -⟩ := stepVar_eq demo_ok hb (s := 0) (by omega)
    obtain ⟨v1, b1, -, -⟩ := stepVar_eq demo_ok hb (s := 1) (by omega)
    obtain ⟨v2, c1, -, c3⟩ := stepVar_eq demo_ok hb (s := 2) (by omega)
    have := step_order demo_ok hb (s := 0) (s' := 1) (by omega) (by omega) a1 b1
    have := step_order demo_ok hb (s := 1) (s' := 2) (by omega) (by omega) b1 c1
    omega

theorem wall_free {f : Prop} (h : (wallEv.margin (0, 1) - 1 / 10000 : ℝ) < (wallRaw f).c.distance) : f := by
  by_contra hf
  simp only [wallRaw, wallEv, if_neg hf] at h
  norm_num at h

/-- C139, C141 and C142 apply to the example: it is solved, and when the solver converges the arm is free of the wall at step 1 and on the way there. -/
example : ∃ fuel nv w nv', Solved Real.sqrt wallHash (fun _ => .negInf) SqpRun.niceParams SqpRun.niceWorld { warmStarting := true } fuel wallDemo nv w nv' ∧
    (w.status = .converged → joint [0, 2, 3] nv' 1 0 < 1 ∧ joint [0, 2, 3] nv' 0 0 < 1) := by
  obtain ⟨F, nv, w, nv', h⟩ := C139_solved (hash := wallHash) (junk := fun _ => .negInf) (fun _ h => Real.mul_self_sqrt h) SqpRun.nice_sane
    SqpRun.niceWorld_sized wallDemo_ok (SqpRun.reusable_new true 0 0) (by norm_num [SqpRun.niceParams]) (by norm_num [SqpRun.niceParams])
  have hs := h F (le_refl _)
  have hb : VarSets.build demo.nodes = some nv := (solved_facts (fun _ h => Real.mul_self_sqrt h) SqpRun.nice_sane SqpRun.niceWorld_sized wallDemo_ok hs).1
  have ht : SqpRun.niceParams.cntTolerance = (1 / 10000 : ℝ) := by norm_num [SqpRun.niceParams]
  refine ⟨F, nv, w, nv', hs, fun hc => ⟨?_, ?_⟩⟩
  · have key := C141_clear_discrete (fun _ h => Real.mul_self_sqrt h) SqpRun.nice_sane SqpRun.niceWorld_sized wallDemo_ok hs hc (ev := wallEv) (sort := wallSort)
      (tests := wallAt) (s := 1) (k0 := 0) (by norm_num [wallEv]) (by rw [ht]; norm_num) (by decide) (fun q => (wall_ok _).2.1.active)
      (fun x y h => (wall_same hb h).1) (by simp [wallDemo]) (0, 1) (wallRaw _) ⟨⟨_, List.mem_singleton.2 rfl, List.mem_singleton.2 rfl⟩, by simp [wallEv, Collision.CoeffData.new]⟩
    rw [ht] at key
    exact wall_free key
  · have key := C142_clear_continuous (fun _ h => Real.mul_self_sqrt h) SqpRun.nice_sane SqpRun.niceWorld_sized wallDemo_ok hs hc (ev := wallEv) (sort := wallSort)
      (tests := wallBetween) (s := 0) (s' := 1) (k0 := 0) (m := 1) (fs := true) (fixed0 := false) (fixed1 := false) (by rw [ht]; norm_num [wallEv]) (by norm_num [wallEv])
      wallSort_sorts (by omega) (by decide) (fun q q' => (wall_ok _).1) (fun x y h => (wall_same hb h).2) (by simp) (by norm_num) (by simp [wallDemo])
      (0, 1) (wallRaw _) ⟨⟨_, List.mem_singleton.2 rfl, List.mem_singleton.2 rfl⟩, by simp [wallEv, Collision.CoeffData.new]⟩ (.inl ⟨rfl, rfl⟩)
    rw [ht] at key
    exact (wall_free key).1

end
end Verif.IfoptPlan
