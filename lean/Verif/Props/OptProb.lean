import Verif.Model.OptProb
import Mathlib.Tactic.Linarith
import Mathlib.Data.List.Nodup
import Mathlib.Logic.Function.Basic

/-!
C161: variables, bounds, costs and constraints of a problem of the legacy optimizer.
-/

set_option linter.unusedSectionVars false
set_option linter.unusedVariables false

namespace Verif.OptProb

universe u
variable {E C F : Type u}

/-! ### Specification -/

/-- What the user has told the problem: the variables in order of creation, the bounds of each, the costs, and the constraints in the order
they were added; `foreign` are the variables others have on the model. -/
structure Told (E C F : Type u) where
  own : List Nat
  foreign : List Nat
  lo : Nat → Option E
  hi : Nat → Option E
  costs : List F
  cnts : List (Kind × C)

def Told.nothing : Told E C F := ⟨[], [], fun _ => none, fun _ => none, [], []⟩

/-- Values given to variables one after the other. -/
inductive Assigned : (Nat → Option E) → List Nat → List E → (Nat → Option E) → Prop
  | nil (b : Nat → Option E) : Assigned b [] [] b
  | cons (b b' : Nat → Option E) (v : Nat) (a : E) (vs : List Nat) (as : List E) :
      Assigned (fun w => if w = v then some a else b w) vs as b' → Assigned b (v :: vs) (a :: as) b'

/-- A correct use of the problem and what it tells. Variables are created only while nobody else has variables on the model. -/
inductive Tells : Told E C F → Op E C F → Told E C F → Prop
  | create (t : Told E C F) (ids : List Nat) (lb ub : List E) (lo hi : Nat → Option E) : t.foreign = [] → ids.Nodup → (∀ v ∈ ids, v ∉ t.own) →
      Assigned t.lo ids lb lo → Assigned t.hi ids ub hi →
      Tells t (.create ids lb ub) { t with own := t.own ++ ids, lo := lo, hi := hi }
  | setLower (t : Told E C F) (lb : List E) (lo : Nat → Option E) : Assigned t.lo t.own lb lo → Tells t (.setLower lb) { t with lo := lo }
  | setUpper (t : Told E C F) (ub : List E) (hi : Nat → Option E) : Assigned t.hi t.own ub hi → Tells t (.setUpper ub) { t with hi := hi }
  | setLowerOf (t : Told E C F) (lb : List E) (vars : List Nat) (lo : Nat → Option E) : (∀ v ∈ vars, v ∈ t.own) → Assigned t.lo vars lb lo →
      Tells t (.setLowerOf lb vars) { t with lo := lo }
  | setUpperOf (t : Told E C F) (ub : List E) (vars : List Nat) (hi : Nat → Option E) : (∀ v ∈ vars, v ∈ t.own) → Assigned t.hi vars ub hi →
      Tells t (.setUpperOf ub vars) { t with hi := hi }
  | addCost (t : Told E C F) (f : F) : Tells t (.addCost f) { t with costs := t.costs ++ [f] }
  | addConstraint (t : Told E C F) (k : Kind) (c : C) : Tells t (.addConstraint k c) { t with cnts := t.cnts ++ [(k, c)] }
  | addEq (t : Told E C F) (c : C) : Tells t (.addEq .eq c) { t with cnts := t.cnts ++ [(.eq, c)] }
  | addIneq (t : Told E C F) (c : C) : Tells t (.addIneq .ineq c) { t with cnts := t.cnts ++ [(.ineq, c)] }
  | foreign (t : Told E C F) (ids : List Nat) : (∀ v ∈ ids, v ∉ t.own) → Tells t (.foreign ids) { t with foreign := t.foreign ++ ids }
  | removeForeign (t : Told E C F) (ids : List Nat) : (∀ v ∈ ids, v ∉ t.own) →
      Tells t (.removeForeign ids) { t with foreign := t.foreign.filter fun v => decide (v ∉ ids) }

inductive TellsAll : Told E C F → List (Op E C F) → Told E C F → Prop
  | nil (t : Told E C F) : TellsAll t [] t
  | cons (t s r : Told E C F) (op : Op E C F) (ops : List (Op E C F)) : Tells t op s → TellsAll s ops r → TellsAll t (op :: ops) r

/-! ### Proofs -/

theorem assigned_length {b b' : Nat → Option E} {vs : List Nat} {as : List E} (h : Assigned b vs as b') : vs.length = as.length := by
  induction h with
  | nil => rfl
  | cons _ _ _ _ _ _ _ ih => simp [ih]

theorem assigned_other {b b' : Nat → Option E} {vs : List Nat} {as : List E} (h : Assigned b vs as b') (w : Nat) (hw : w ∉ vs) : b' w = b w := by
  induction h with
  | nil => rfl
  | cons _ _ v _ _ _ _ ih =>
    simp only [List.mem_cons, not_or] at hw
    rw [ih hw.2]
    exact if_neg hw.1

theorem assigned_map {b b' : Nat → Option E} {vs : List Nat} {as : List E} (h : Assigned b vs as b') (hn : vs.Nodup) :
    vs.map b' = as.map some := by
  induction h with
  | nil => rfl
  | cons b b' v a vs as h ih =>
    rw [List.nodup_cons] at hn
    rw [List.map_cons, List.map_cons, ih hn.2, assigned_other h v hn.1]
    simp

theorem push_eq (ids : List Nat) : ∀ (p : Prob E C F) (lb ub : List E), lb.length = ids.length → ub.length = ids.length →
    p.push ids lb ub = { p with model := p.model ++ ids, vars := p.vars ++ ids, lower := p.lower ++ lb, upper := p.upper ++ ub } := by
  induction ids with
  | nil =>
    intro p lb ub h1 h2
    rw [List.eq_nil_of_length_eq_zero h1, List.eq_nil_of_length_eq_zero h2]
    simp [Prob.push]
  | cons v vs ih =>
    intro p lb ub h1 h2
    match lb, ub, h1, h2 with
    | l :: ls, h :: hs, h1, h2 =>
      rw [Prob.push, ih _ ls hs (by simpa using h1) (by simpa using h2)]
      simp

theorem setVec_map (own rest : List Nat) (hn : own.Nodup) {b b' : Nat → Option E} {vs : List Nat} {as : List E} (h : Assigned b vs as b')
    (hv : ∀ v ∈ vs, v ∈ own) : ∀ (x : List E), own.map b = x.map some →
    ∃ y, setVec (own ++ rest) x vs as = some y ∧ own.map b' = y.map some := by
  induction h with
  | nil b => intro x hx; exact ⟨x, rfl, hx⟩
  | cons b b' v a vs as h ih =>
    intro x hx
    have hm : v ∈ own := hv v (by simp)
    have hlen : own.length = x.length := by simpa using congrArg List.length hx
    have hlt : own.idxOf v < own.length := List.idxOf_lt_length_iff.2 hm
    rw [setVec, List.idxOf_append_of_mem hm, if_pos (by omega)]
    apply ih (fun w hw => hv w (by simp [hw]))
    apply List.ext_getElem (by simp [hlen])
    intro i h1 h2
    have hi : i < own.length := by simpa using h1
    have hxi : b own[i] = some (x[i]'(by omega)) := by
      have h3 : (own.map b)[i]'(by simpa using hi) = (x.map some)[i]'(by simp; omega) := by simp only [hx]
      simpa using h3
    simp only [List.getElem_map, List.getElem_set]
    by_cases hiv : own[i] = v
    · have : own.idxOf v = i := by rw [← hiv]; exact hn.idxOf_getElem i hi
      rw [if_pos hiv, if_pos this]
    · have : own.idxOf v ≠ i := by
        intro he
        apply hiv
        subst he
        exact List.getElem_idxOf hlt
      rw [if_neg hiv, if_neg this, hxi]

/-- The problem holds what it was told. -/
structure Holds (t : Told E C F) (p : Prob E C F) : Prop where
  nodup : t.own.Nodup
  model : p.model = t.own ++ t.foreign
  fresh : ∀ v ∈ t.foreign, v ∉ t.own
  vars : p.vars = t.own
  lower : t.own.map t.lo = p.lower.map some
  upper : t.own.map t.hi = p.upper.map some
  costs : p.costs = t.costs
  eqs : p.eqs = (t.cnts.filter fun c => decide (c.1 = Kind.eq)).map Prod.snd
  ineqs : p.ineqs = (t.cnts.filter fun c => decide (c.1 = Kind.ineq)).map Prod.snd

theorem map_create {own ids : List Nat} {b b' : Nat → Option E} {x as : List E} (hn : ids.Nodup) (hf : ∀ v ∈ ids, v ∉ own)
    (h : Assigned b ids as b') (hx : own.map b = x.map some) : (own ++ ids).map b' = (x ++ as).map some := by
  rw [List.map_append, List.map_append, assigned_map h hn, ← hx]
  congr 1
  apply List.map_congr_left
  intro v hv
  exact assigned_other h v fun hm => hf v hm hv

theorem call_holds {t s : Told E C F} {p : Prob E C F} {op : Op E C F} (h : Holds t p) (ht : Tells t op s) :
    ∃ q, p.call op = .ok q ∧ Holds s q := by
  cases ht with
  | create ids lb ub lo hi h0 h1 h2 h3 h4 =>
    have l3 := assigned_length h3
    have l4 := assigned_length h4
    refine ⟨p.push ids lb ub, by simp only [Prob.call, Prob.create]; rw [if_pos ⟨l3.symm, l4.symm⟩], ?_⟩
    rw [push_eq ids p lb ub l3.symm l4.symm]
    refine ⟨?_, ?_, ?_, ?_, map_create h1 h2 h3 h.lower, map_create h1 h2 h4 h.upper, h.costs, h.eqs, h.ineqs⟩
    · exact List.nodup_append.2 ⟨h.nodup, h1, fun a ha b hb hab => h2 b hb (hab ▸ ha)⟩
    · simp [h.model, h0]
    · simp [h0]
    · simp [h.vars]
  | setLower lb lo h1 =>
    have l := assigned_length h1
    refine ⟨{ p with lower := lb }, by simp only [Prob.call, Prob.setLower]; rw [if_pos (by rw [h.vars, l])], ?_⟩
    exact ⟨h.nodup, h.model, h.fresh, h.vars, assigned_map h1 h.nodup, h.upper, h.costs, h.eqs, h.ineqs⟩
  | setUpper ub hi h1 =>
    have l := assigned_length h1
    refine ⟨{ p with upper := ub }, by simp only [Prob.call, Prob.setUpper]; rw [if_pos (by rw [h.vars, l])], ?_⟩
    exact ⟨h.nodup, h.model, h.fresh, h.vars, h.lower, assigned_map h1 h.nodup, h.costs, h.eqs, h.ineqs⟩
  | setLowerOf lb vars lo h1 h2 =>
    obtain ⟨y, e1, e2⟩ := setVec_map t.own t.foreign h.nodup h2 h1 p.lower h.lower
    refine ⟨{ p with lower := y }, by simp only [Prob.call, Prob.setLowerOf]; rw [if_pos (assigned_length h2), h.model, e1], ?_⟩
    exact ⟨h.nodup, h.model, h.fresh, h.vars, e2, h.upper, h.costs, h.eqs, h.ineqs⟩
  | setUpperOf ub vars hi h1 h2 =>
    obtain ⟨y, e1, e2⟩ := setVec_map t.own t.foreign h.nodup h2 h1 p.upper h.upper
    refine ⟨{ p with upper := y }, by simp only [Prob.call, Prob.setUpperOf]; rw [if_pos (assigned_length h2), h.model, e1], ?_⟩
    exact ⟨h.nodup, h.model, h.fresh, h.vars, h.lower, e2, h.costs, h.eqs, h.ineqs⟩
  | addCost f =>
    exact ⟨_, rfl, h.nodup, h.model, h.fresh, h.vars, h.lower, h.upper, by simp [h.costs], h.eqs, h.ineqs⟩
  | addConstraint k c =>
    cases k with
    | eq =>
      refine ⟨{ p with eqs := p.eqs ++ [c] }, by simp [Prob.call, Prob.addConstraint, Prob.addEq], ?_⟩
      exact ⟨h.nodup, h.model, h.fresh, h.vars, h.lower, h.upper, h.costs, by simp [h.eqs], by simp [h.ineqs]⟩
    | ineq =>
      refine ⟨{ p with ineqs := p.ineqs ++ [c] }, by simp [Prob.call, Prob.addConstraint, Prob.addIneq], ?_⟩
      exact ⟨h.nodup, h.model, h.fresh, h.vars, h.lower, h.upper, h.costs, by simp [h.eqs], by simp [h.ineqs]⟩
  | addEq c =>
    refine ⟨{ p with eqs := p.eqs ++ [c] }, by simp [Prob.call, Prob.addEq], ?_⟩
    exact ⟨h.nodup, h.model, h.fresh, h.vars, h.lower, h.upper, h.costs, by simp [h.eqs], by simp [h.ineqs]⟩
  | addIneq c =>
    refine ⟨{ p with ineqs := p.ineqs ++ [c] }, by simp [Prob.call, Prob.addIneq], ?_⟩
    exact ⟨h.nodup, h.model, h.fresh, h.vars, h.lower, h.upper, h.costs, by simp [h.eqs], by simp [h.ineqs]⟩
  | foreign ids h1 =>
    refine ⟨_, rfl, h.nodup, by simp [h.model], ?_, h.vars, h.lower, h.upper, h.costs, h.eqs, h.ineqs⟩
    intro v hv
    rcases List.mem_append.1 hv with hv | hv
    · exact h.fresh v hv
    · exact h1 v hv
  | removeForeign ids h1 =>
    refine ⟨_, rfl, h.nodup, ?_, ?_, h.vars, h.lower, h.upper, h.costs, h.eqs, h.ineqs⟩
    · simp only [h.model, List.filter_append]
      congr 1
      · apply List.filter_eq_self.2
        intro v hv
        simp only [List.contains_eq_mem, Bool.not_eq_true', decide_eq_false_iff_not]
        exact fun hm => h1 v hm hv
      · apply List.filter_congr
        intro v _
        simp
    · intro v hv
      exact h.fresh v (List.mem_of_mem_filter hv)

theorem run_holds {t s : Told E C F} {ops : List (Op E C F)} (ht : TellsAll t ops s) : ∀ {p : Prob E C F}, Holds t p →
    ∃ q, p.run ops = .ok q ∧ Holds s q := by
  induction ht with
  | nil => intro p h; exact ⟨p, rfl, h⟩
  | cons t s r op ops h1 _ ih =>
    intro p h
    obtain ⟨q, e1, e2⟩ := call_holds h h1
    obtain ⟨q', e3, e4⟩ := ih e2
    exact ⟨q', by simp only [Prob.run, e1, e3], e4⟩

theorem holds_new : Holds (Told.nothing : Told E C F) Prob.new :=
  ⟨List.nodup_nil, rfl, by simp [Told.nothing], rfl, rfl, rfl, rfl, rfl, rfl⟩

/-- C161 (partial: variables of the problem must be created while nobody else has variables on the model, see `C161_foreign_violated`):
after any history of creating variables, setting bounds of all or of some of them, adding costs and constraints, and of others adding and
removing variables of the model, the problem lists its variables in the order of creation, the k-th bound is the last one given to the k-th
variable, costs come in the order they were added, and the list of constraints has first the equalities, then the inequalities, each in the
order they were added. -/
theorem C161_book_partial {ops : List (Op E C F)} {t : Told E C F} (h : TellsAll Told.nothing ops t) :
    ∃ p, Prob.new.run ops = .ok p ∧ p.vars = t.own ∧ p.vars.Nodup ∧ p.lower.map some = t.own.map t.lo ∧ p.upper.map some = t.own.map t.hi ∧
      p.costs = t.costs ∧
      p.getConstraints = ((t.cnts.filter fun c => decide (c.1 = Kind.eq)) ++ (t.cnts.filter fun c => decide (c.1 = Kind.ineq))).map Prod.snd ∧
      p.getNumConstraints = t.cnts.length := by
  obtain ⟨p, e, hp⟩ := run_holds h holds_new
  refine ⟨p, e, hp.vars, hp.vars ▸ hp.nodup, hp.lower.symm, hp.upper.symm, hp.costs, ?_, ?_⟩
  · rw [Prob.getConstraints, hp.eqs, hp.ineqs, List.map_append]
  · rw [Prob.getNumConstraints, hp.eqs, hp.ineqs, List.length_map, List.length_map]
    clear h e hp
    induction t.cnts with
    | nil => rfl
    | cons c cs ih =>
      obtain ⟨k, c⟩ := c
      cases k <;> simp <;> omega

/-- C161: `createVariables` returns exactly the variables it created, in the order of their names. -/
theorem C161_created (p q : Prob E C F) (ids : List Nat) (lb ub : List E) (h : p.create ids lb ub = .ok q) : q.created ids.length = ids := by
  unfold Prob.create at h
  by_cases hl : lb.length = ids.length ∧ ub.length = ids.length
  · rw [if_pos hl] at h
    injection h with h
    rw [← h, push_eq ids p lb ub hl.1 hl.2]
    simp [Prob.created]
  · rw [if_neg hl] at h
    exact absurd h (by simp)

/-- C161: when somebody has variables on the model before the problem creates its own, the bounds of single variables go astray: the new
bound of the k-th variable is written to the place `k + m`, that is, to another variable of the problem, or behind the end of the vector,
which is undefined. -/
theorem C161_foreign_violated (others ids : List Nat) (lb ub : List E) (hn : ids.Nodup) (hd : ∀ v ∈ ids, v ∉ others)
    (h1 : lb.length = ids.length) (h2 : ub.length = ids.length) (k : Nat) (hk : k < ids.length) (a : E) :
    (Prob.new : Prob E C F).run [.foreign others, .create ids lb ub, .setLowerOf [a] [ids[k]]] =
      if k + others.length < ids.length then .ok ⟨others ++ ids, ids, lb.set (k + others.length) a, ub, [], [], []⟩ else .undefined := by
  have hi : (others ++ ids).idxOf ids[k] = k + others.length := by
    rw [List.idxOf_append_of_notMem (hd _ (List.getElem_mem hk)), hn.idxOf_getElem k hk, Nat.add_comm]
  simp only [Prob.run, Prob.call, Prob.create, h1, h2, and_self, if_true]
  rw [push_eq ids _ lb ub h1 h2]
  simp only [Prob.new, List.nil_append, Prob.setLowerOf, List.length_cons, List.length_nil, if_true, setVec, hi, h1]
  by_cases hlt : k + others.length < ids.length
  · rw [if_pos hlt, if_pos hlt]
  · rw [if_neg hlt, if_neg hlt]

/-- A history with temporary variables of somebody else, bounds of single variables (the same one twice) and constraints of both kinds. -/
def sample : List (Op Int Nat Nat) :=
  [.foreign [7], .removeForeign [7], .create [1, 2] [0, 0] [5, 5], .addConstraint .ineq 10, .foreign [8, 9], .setLowerOf [3, 1, 2] [2, 1, 2],
    .addConstraint .eq 11, .addCost 4, .setUpper [6, 9]]

example : (Prob.new.run sample : Outc Int Nat Nat) = .ok ⟨[1, 2, 8, 9], [1, 2], [1, 2], [6, 9], [4], [11], [10]⟩ := by rfl

example : ∃ t, TellsAll Told.nothing sample t := by
  refine ⟨_, .cons _ _ _ _ _ (.foreign _ _ ?_) <| .cons _ _ _ _ _ (.removeForeign _ _ ?_) <|
    .cons _ _ _ _ _ (.create _ _ _ _ _ _ ?_ ?_ ?_ (.cons _ _ _ _ _ _ (.cons _ _ _ _ _ _ (.nil _))) (.cons _ _ _ _ _ _ (.cons _ _ _ _ _ _ (.nil _)))) <|
    .cons _ _ _ _ _ (.addConstraint _ _ _) <| .cons _ _ _ _ _ (.foreign _ _ ?_) <|
    .cons _ _ _ _ _ (.setLowerOf _ _ _ _ ?_ (.cons _ _ _ _ _ _ (.cons _ _ _ _ _ _ (.cons _ _ _ _ _ _ (.nil _))))) <|
    .cons _ _ _ _ _ (.addConstraint _ _ _) <| .cons _ _ _ _ _ (.addCost _ _) <|
    .cons _ _ _ _ _ (.setUpper _ _ _ (.cons _ _ _ _ _ _ (.cons _ _ _ _ _ _ (.nil _)))) <| .nil _⟩ <;> simp [Told.nothing]

/-- One foreign variable: the bound meant for the first variable arrives at the second. -/
example : (Prob.new.run [.foreign [7], .create [1, 2] [0, 0] [5, 5], .setLowerOf [3] [1]] : Outc Int Nat Nat) =
    .ok ⟨[7, 1, 2], [1, 2], [0, 3], [5, 5], [], [], []⟩ := by rfl

end Verif.OptProb
