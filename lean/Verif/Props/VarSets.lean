import Verif.Model.VarSets
import Verif.Props.Bounds

/-!
C39: the layout of optimization variables.
-/

set_option linter.unusedSectionVars false
set_option linter.unusedVariables false

namespace Verif.VarSets

open Verif.Bounds

universe u
variable {K : Type u} [Field K] [LinearOrder K] [IsStrictOrderedRing K]

/-! ### Specification -/

def Var.size (v : Var K) : Nat := v.values.length

/-- Total size of a list of variables. -/
def sizes (vs : List (Var K)) : Nat := (vs.map Var.size).sum

/-- The sizes and bounds a caller asked for, in order. -/
def asked (l : List (List (VarSpec K))) : List (Nat × List (Lo K × Hi K)) :=
  l.flatten.map fun s => (s.nNames, s.bounds)

/-- The slice `[start, start + n)` of a vector. -/
def slice (x : List K) (start n : Nat) : List K := (x.drop start).take n

/-- Variable `p` owns coordinate `i`. -/
def Owns (vs : List (Var K)) (p i : Nat) : Prop := ∃ v, vs[p]? = some v ∧ v.index ≤ i ∧ i < v.index + v.size

/-! ### Invariant -/

def Chain : Nat → List (Var K) → Prop
  | _, [] => True
  | k, v :: vs => v.index = k ∧ v.bounds.length = v.values.length ∧ Chain (k + v.size) vs

theorem sizes_cons (v : Var K) (vs : List (Var K)) : sizes (v :: vs) = v.size + sizes vs := by simp [sizes]
theorem sizes_append (a b : List (Var K)) : sizes (a ++ b) = sizes a + sizes b := by simp [sizes]

theorem chain_append (k : Nat) (a b : List (Var K)) : Chain k (a ++ b) ↔ Chain k a ∧ Chain (k + sizes a) b := by
  induction a generalizing k with
  | nil => simp [Chain, sizes]
  | cons v a ih =>
    simp only [List.cons_append, Chain, ih, sizes_cons, and_assoc, Nat.add_assoc]

theorem chain_index {k : Nat} {vs : List (Var K)} (h : Chain k vs) (pre post : List (Var K)) (v : Var K)
    (e : vs = pre ++ v :: post) : v.index = k + sizes pre ∧ v.bounds.length = v.values.length := by
  subst e
  rw [chain_append] at h
  exact ⟨h.2.1, h.2.2.1⟩

structure Inv (s : NodesVariables K) : Prop where
  chain : Chain 0 s.vars
  dim : s.nDim = sizes s.vars
  bounds : s.bounds = s.vars.flatMap Var.bounds
  values : s.values = s.vars.flatMap Var.values

/-! ### Building -/

theorem flatten_map_eq {α β : Type*} (f : α → List β) (l : List α) : (l.map f).flatten = l.flatMap f := rfl

theorem var_new {k : Nat} {s : VarSpec K} {v : Var K} (h : Var.new k s = some v) :
    v.index = k ∧ v.bounds = s.bounds ∧ v.size = s.nNames ∧ v.bounds.length = v.values.length ∧
    v.values = getClosestValidPoint s.values s.bounds := by
  unfold Var.new at h
  split_ifs at h with h1 h2
  injection h with h; subst h
  push Not at h1 h2
  simp only [Var.size, getClosestValidPoint, List.length_zipWith]
  refine ⟨trivial, trivial, by omega, by omega, trivial⟩

structure NodeInv (l : List (VarSpec K)) (n : Node K) : Prop where
  chain : Chain 0 n.vars
  len : n.length = sizes n.vars
  spec : n.vars.map (fun v => (v.size, v.bounds)) = l.map fun s => (s.nNames, s.bounds)
  init : n.vars.map Var.values = l.map fun s => getClosestValidPoint s.values s.bounds

theorem buildNode_inv (l : List (VarSpec K)) (n : Node K) (h : buildNode l = some n) : NodeInv l n := by
  have key : ∀ (l pre : List (VarSpec K)) (n0 : Node K), NodeInv pre n0 → l.foldlM Node.addVar n0 = some n →
      NodeInv (pre ++ l) n := by
    intro l
    induction l with
    | nil =>
      intro pre n0 h0 h
      simp only [List.foldlM_nil, Option.pure_def, Option.some.injEq] at h
      subst h; simpa using h0
    | cons s l ih =>
      intro pre n0 h0 h
      rw [List.foldlM_cons] at h
      unfold Node.addVar at h
      cases hv : Var.new n0.length s with
      | none => simp [hv] at h
      | some v =>
        simp only [hv, Option.bind_eq_bind, Option.bind_some] at h
        obtain ⟨v1, v2, v3, v4, v5⟩ := var_new hv
        have := ih (pre ++ [s]) ⟨n0.vars ++ [v], n0.length + s.nNames⟩ ⟨by
            rw [chain_append]
            exact ⟨h0.chain, by simpa [Chain, v4] using v1.trans h0.len⟩, by
            simp only [sizes_append, h0.len]; simp [sizes, v3], by
            simp [h0.spec, v2, v3], by simp [h0.init, v5]⟩ h
        simpa using this
  have := key l [] Node.new ⟨trivial, rfl, rfl, rfl⟩ h
  simpa using this

theorem chain_shift (d k : Nat) (vs : List (Var K)) (h : Chain k vs) :
    Chain (k + d) (vs.map fun v => { v with index := v.index + d }) := by
  induction vs generalizing k with
  | nil => trivial
  | cons v vs ih =>
    simp only [List.map_cons, Chain, Var.size] at h ⊢
    refine ⟨by omega, h.2.1, ?_⟩
    have := ih _ h.2.2
    rw [show k + d + v.values.length = k + v.values.length + d by omega]
    exact this

theorem sizes_shift (d : Nat) (vs : List (Var K)) :
    sizes (vs.map fun v => { v with index := v.index + d }) = sizes vs := by
  simp only [sizes, List.map_map]; rfl

theorem addNode_fold (ns : List (Node K)) (ls : List (List (VarSpec K))) (h : List.Forall₂ NodeInv ls ns)
    (s : NodesVariables K) (hc : Chain 0 s.vars) (hd : s.nDim = sizes s.vars)
    (hb : s.bounds = s.vars.flatMap Var.bounds) :
    let s' := ns.foldl NodesVariables.addNode s
    Chain 0 s'.vars ∧ s'.nDim = sizes s'.vars ∧ s'.bounds = s'.vars.flatMap Var.bounds ∧
    s'.vars.map (fun v => (v.size, v.bounds)) = s.vars.map (fun v => (v.size, v.bounds)) ++ asked ls ∧
    s'.vars.map Var.values = s.vars.map Var.values ++
      ls.flatten.map fun s => getClosestValidPoint s.values s.bounds := by
  induction h generalizing s with
  | nil => simp [hc, hd, hb, asked]
  | @cons l n ls ns hn _ ih =>
    rw [List.foldl_cons]
    have hv : (s.addNode n).vars = s.vars ++ n.vars.map fun v => { v with index := v.index + s.nDim } := by
      simp [NodesVariables.vars, NodesVariables.addNode, Node.incrementIndex]
    have := ih (s.addNode n) (by
        rw [hv, chain_append]
        refine ⟨hc, ?_⟩
        have := chain_shift s.nDim 0 n.vars hn.chain
        rw [← hd]; exact this) (by
        rw [hv, sizes_append, sizes_shift, ← hd, ← hn.len]; rfl) (by
        rw [hv, List.flatMap_append, ← hb]
        simp only [NodesVariables.addNode, Node.incrementIndex, Node.getBounds])
    refine ⟨this.1, this.2.1, this.2.2.1, ?_, ?_⟩
    · rw [this.2.2.2.1, hv]
      have e := hn.spec
      simp only [Var.size] at e
      simp only [List.map_append, List.map_map, asked, List.flatten_cons, List.append_assoc]
      congr 2
    · rw [this.2.2.2.2, hv]
      have e := hn.init
      simp only [List.map_append, List.map_map, List.flatten_cons, List.append_assoc]
      congr 2

theorem mapM_forall₂' {α β : Type*} {f : α → Option β} {P : α → β → Prop} (hP : ∀ a b, f a = some b → P a b) :
    ∀ (l : List α) (l' : List β), l.mapM f = some l' → List.Forall₂ P l l' := by
  intro l
  induction l with
  | nil => intro l' h; simp at h; subst h; exact List.Forall₂.nil
  | cons a l ih =>
    intro l' h
    rw [List.mapM_cons] at h
    cases ha : f a with
    | none => simp [ha] at h
    | some b =>
      cases hl : l.mapM f with
      | none => simp [ha, hl] at h
      | some l1 =>
        simp only [ha, hl, Option.pure_def, Option.bind_eq_bind, Option.bind_some, Option.some.injEq] at h
        subst h
        exact List.Forall₂.cons (hP a b ha) (ih l1 hl)

theorem build_inv (l : List (List (VarSpec K))) (s : NodesVariables K) (h : build l = some s) :
    Inv s ∧ s.vars.map (fun v => (v.size, v.bounds)) = asked l ∧
    s.vars.map Var.values = l.flatten.map fun s => getClosestValidPoint s.values s.bounds := by
  unfold build at h
  cases hm : l.mapM buildNode with
  | none => simp [hm] at h
  | some ns =>
    simp only [hm, NodesVariables.new] at h
    split_ifs at h with hl
    injection h with h
    have h2 := mapM_forall₂' (P := NodeInv) (fun a b hab => buildNode_inv a b hab) l ns hm
    obtain ⟨a1, a2, a3, a4, a5⟩ := addNode_fold ns l h2 (⟨[], [], [], 0⟩ : NodesVariables K) trivial rfl rfl
    subst h
    refine ⟨⟨a1, a2, a3, ?_⟩, by simpa [NodesVariables.vars] using a4, by simpa [NodesVariables.vars] using a5⟩
    simp only [NodesVariables.vars]
    rw [List.flatMap_assoc]
    rfl

/-! ### Setting -/

theorem flatMap_take_drop (vs : List (Var K)) (k : Nat) (hc : Chain k vs) (x : List K) (hx : k + sizes vs ≤ x.length) :
    vs.flatMap (fun v => slice x v.index v.size) = (x.drop k).take (sizes vs) := by
  induction vs generalizing k with
  | nil => simp [sizes]
  | cons v vs ih =>
    rw [List.flatMap_cons, sizes_cons]
    obtain ⟨h1, _, h3⟩ := hc
    rw [sizes_cons] at hx
    rw [ih (k + v.size) h3 (by omega), h1, slice, List.take_add, List.drop_drop]

theorem chain_congr (k : Nat) (vs ws : List (Var K))
    (h : ws.map (fun v => (v.index, v.size, v.bounds)) = vs.map fun v => (v.index, v.size, v.bounds)) (hc : Chain k vs) :
    Chain k ws := by
  induction vs generalizing k ws with
  | nil => simp at h; subst h; trivial
  | cons v vs ih =>
    cases ws with
    | nil => simp at h
    | cons w ws =>
      simp only [List.map_cons, List.cons.injEq, Prod.mk.injEq] at h
      obtain ⟨⟨h1, h2, h3⟩, h4⟩ := h
      obtain ⟨c1, c2, c3⟩ := hc
      refine ⟨h1.trans c1, ?_, ?_⟩
      · simp only [Var.size] at h2; rw [h3, c2, h2]
      · rw [h2]; exact ih _ ws h4 c3

theorem var_set {x : List K} {v w : Var K} (h : v.setVariables x = some w) :
    (w.index, w.size, w.bounds) = (v.index, v.size, v.bounds) ∧ w.values = slice x v.index v.size := by
  unfold Var.setVariables at h
  split_ifs at h with hc
  injection h with h; subst h
  refine ⟨?_, rfl⟩
  simp only [Var.size, List.length_take, List.length_drop, Prod.mk.injEq, true_and, and_true]
  omega

theorem forall₂_map_eq {α β γ : Type*} {R : α → β → Prop} {f : α → γ} {g : β → γ} (h : ∀ a b, R a b → g b = f a) :
    ∀ (l : List α) (l' : List β), List.Forall₂ R l l' → l'.map g = l.map f := by
  intro l l' hl
  induction hl with
  | nil => rfl
  | cons hab _ ih => simp [h _ _ hab, ih]

theorem flatMap_flatten_map {α β γ : Type*} (f : α → List β) (g : β → γ) (l : List α) :
    (l.flatMap f).map g = (l.map fun a => (f a).map g).flatten := by
  induction l with
  | nil => rfl
  | cons a l ih => simp [ih]

theorem node_set {x : List K} {n n' : Node K} (h : n.setVariables x = some n') :
    n'.vars.map (fun v => (v.index, v.size, v.bounds)) = n.vars.map (fun v => (v.index, v.size, v.bounds)) ∧
    n'.vars.map Var.values = n.vars.map fun v => slice x v.index v.size := by
  unfold Node.setVariables at h
  cases hm : n.vars.mapM (Var.setVariables x) with
  | none => simp [hm] at h
  | some vs =>
    simp only [hm, Option.map_some, Option.some.injEq] at h
    subst h
    have := mapM_forall₂' (f := Var.setVariables x) (P := fun v w => (w.index, w.size, w.bounds) =
      (v.index, v.size, v.bounds) ∧ w.values = slice x v.index v.size) (fun a b h => var_set h) _ _ hm
    exact ⟨forall₂_map_eq (f := fun v : Var K => (v.index, v.size, v.bounds))
        (g := fun v : Var K => (v.index, v.size, v.bounds)) (fun a b h => h.1) _ _ this,
      forall₂_map_eq (f := fun v : Var K => slice x v.index v.size) (g := Var.values) (fun a b h => h.2) _ _ this⟩

theorem set_facts {x : List K} {s s' : NodesVariables K} (h : s.setVariables x = some s') :
    s'.vars.map (fun v => (v.index, v.size, v.bounds)) = s.vars.map (fun v => (v.index, v.size, v.bounds)) ∧
    s'.vars.map Var.values = s.vars.map (fun v => slice x v.index v.size) ∧ s'.values = x ∧ s'.bounds = s.bounds ∧
    s'.nDim = s.nDim := by
  unfold NodesVariables.setVariables at h
  cases hm : s.nodes.mapM (Node.setVariables x) with
  | none => simp [hm] at h
  | some ns =>
    simp only [hm, Option.map_some, Option.some.injEq] at h
    subst h
    have h2 := mapM_forall₂' (f := Node.setVariables x) (P := fun n n' : Node K =>
      n'.vars.map (fun v => (v.index, v.size, v.bounds)) = n.vars.map (fun v => (v.index, v.size, v.bounds)) ∧
      n'.vars.map Var.values = n.vars.map fun v => slice x v.index v.size) (fun a b h => node_set h) _ _ hm
    refine ⟨?_, ?_, rfl, rfl, rfl⟩
    · simp only [NodesVariables.vars]
      rw [flatMap_flatten_map, flatMap_flatten_map]
      congr 1
      exact forall₂_map_eq (f := fun n : Node K => n.vars.map (fun v => (v.index, v.size, v.bounds)))
        (g := fun n : Node K => n.vars.map (fun v => (v.index, v.size, v.bounds))) (fun a b h => h.1) _ _ h2
    · simp only [NodesVariables.vars]
      rw [flatMap_flatten_map, flatMap_flatten_map]
      congr 1
      exact forall₂_map_eq (f := fun n : Node K => n.vars.map fun v => slice x v.index v.size)
        (g := fun n : Node K => n.vars.map Var.values) (fun a b h => h.2) _ _ h2

theorem set_inv {x : List K} {s s' : NodesVariables K} (hs : Inv s) (hx : x.length = s.nDim)
    (h : s.setVariables x = some s') : Inv s' := by
  obtain ⟨a1, a2, a3, a4, a5⟩ := set_facts h
  have hsz : sizes s'.vars = sizes s.vars := by
    have := congrArg (List.map fun t : Nat × Nat × List (Lo K × Hi K) => t.2.1) a1
    simp only [List.map_map] at this
    unfold sizes
    exact congrArg List.sum this
  refine ⟨chain_congr 0 s.vars s'.vars a1 hs.chain, by rw [a5, hs.dim, hsz], ?_, ?_⟩
  · have := congrArg (List.map fun t : Nat × Nat × List (Lo K × Hi K) => t.2.2) a1
    simp only [List.map_map] at this
    rw [a4, hs.bounds, ← flatten_map_eq, ← flatten_map_eq]
    exact congrArg List.flatten this.symm
  · rw [a3, ← flatten_map_eq, a2, flatten_map_eq,
      flatMap_take_drop s.vars 0 hs.chain x (by rw [hx, hs.dim]; omega), List.drop_zero, ← hs.dim, ← hx,
      List.take_length]

theorem set_ok {x : List K} {s : NodesVariables K} (hs : Inv s) (hx : x.length = s.nDim)
    (hpos : ∀ v ∈ s.vars, 0 < v.size) : ∃ s', s.setVariables x = some s' := by
  have hv : ∀ v ∈ s.vars, ∃ w, v.setVariables x = some w := by
    intro v hv
    obtain ⟨pre, post, e⟩ := List.append_of_mem hv
    have h1 := (chain_index hs.chain pre post v e).1
    have h2 : sizes s.vars = sizes pre + (v.size + sizes post) := by rw [e, sizes_append, sizes_cons]
    have h3 := hpos v hv
    have h4 := hs.dim
    simp only [Var.size] at *
    refine ⟨{ v with values := (x.drop v.index).take v.values.length }, ?_⟩
    unfold Var.setVariables
    rw [if_pos ⟨by omega, by omega, by omega⟩]
  have key : ∀ {α β : Type u} (f : α → Option β) (l : List α), (∀ a ∈ l, ∃ b, f a = some b) →
      ∃ l', l.mapM f = some l' := by
    intro α β f l
    induction l with
    | nil => intro _; exact ⟨[], rfl⟩
    | cons a l ih =>
      intro h
      obtain ⟨b, hb⟩ := h a (by simp)
      obtain ⟨l', hl'⟩ := ih fun a' h' => h a' (by simp [h'])
      exact ⟨b :: l', by simp [List.mapM_cons, hb, hl']⟩
  obtain ⟨ns, hns⟩ := key (Node.setVariables x) s.nodes (by
    intro n hn
    obtain ⟨vs, hvs⟩ := key (Var.setVariables x) n.vars (fun v hv' => hv v (by
      simp only [NodesVariables.vars, List.mem_flatMap]; exact ⟨n, hn, hv'⟩))
    exact ⟨{ n with vars := vs }, by simp [Node.setVariables, hvs]⟩)
  exact ⟨{ s with nodes := ns, values := x }, by simp [NodesVariables.setVariables, hns]⟩

/-! ### Theorems -/

theorem getElem?_flatMap_vars {α : Type*} (f : Var K → List α) (pre post : List (Var K)) (v : Var K)
    (hf : ∀ w ∈ pre, (f w).length = w.size) (hv : (f v).length = v.size) (i : Nat) (hi : i < v.size) :
    ((pre ++ v :: post).flatMap f)[sizes pre + i]? = (f v)[i]? := by
  have hl : (pre.flatMap f).length = sizes pre := by
    rw [List.length_flatMap, sizes]
    congr 1
    exact List.map_congr_left hf
  rw [List.flatMap_append, List.getElem?_append_right (by omega), List.flatMap_cons, hl,
    Nat.add_sub_cancel_left, List.getElem?_append_left (by omega)]

theorem owner (k : Nat) (vs : List (Var K)) (hc : Chain k vs) (i : Nat) (h1 : k ≤ i) (h2 : i < k + sizes vs) :
    ∃! p, Owns vs p i := by
  induction vs generalizing k with
  | nil => simp [sizes] at h2; omega
  | cons v vs ih =>
    obtain ⟨c1, _, c3⟩ := hc
    rw [sizes_cons] at h2
    have hge : ∀ (vs : List (Var K)) (k : Nat), Chain k vs → ∀ w ∈ vs, k ≤ w.index := by
      intro vs
      induction vs with
      | nil => simp
      | cons v vs ih =>
        intro k hc w hw
        rcases List.mem_cons.1 hw with rfl | hw
        · exact hc.1.ge
        · have := ih _ hc.2.2 w hw; omega
    by_cases hi : i < k + v.size
    · refine ⟨0, ⟨v, rfl, by omega, by omega⟩, ?_⟩
      rintro p ⟨w, hw, h3, h4⟩
      cases p with
      | zero => rfl
      | succ p =>
        simp only [List.getElem?_cons_succ] at hw
        have := hge vs _ c3 w (List.mem_of_getElem? hw)
        omega
    · obtain ⟨p, hp, hu⟩ := ih (k + v.size) c3 (by omega) (by omega)
      refine ⟨p + 1, ?_, ?_⟩
      · obtain ⟨w, hw, h⟩ := hp
        exact ⟨w, by simpa using hw, h⟩
      · rintro q ⟨w, hw, h3, h4⟩
        cases q with
        | zero =>
          simp only [List.getElem?_cons_zero, Option.some.injEq] at hw
          subst hw; omega
        | succ q =>
          have := hu q ⟨w, by simpa using hw, h3, h4⟩
          omega

/-- Reached from construction by any sequence of `setVariables` calls with vectors of the right length. -/
def Reached (l : List (List (VarSpec K))) (xs : List (List K)) (s : NodesVariables K) : Prop :=
  ∃ s0, build l = some s0 ∧ (∀ x ∈ xs, x.length = s0.nDim) ∧ xs.foldlM NodesVariables.setVariables s0 = some s

theorem reached_inv {l : List (List (VarSpec K))} {xs : List (List K)} {s : NodesVariables K} (h : Reached l xs s) :
    Inv s ∧ s.vars.map (fun v => (v.size, v.bounds)) = asked l := by
  obtain ⟨s0, hb, hx, hr⟩ := h
  obtain ⟨hi, ha, hq⟩ := build_inv l s0 hb
  clear hb hq
  induction xs generalizing s0 with
  | nil =>
    simp only [List.foldlM_nil, Option.pure_def, Option.some.injEq] at hr
    subst hr; exact ⟨hi, ha⟩
  | cons x xs ih =>
    rw [List.foldlM_cons] at hr
    cases h1 : s0.setVariables x with
    | none => simp [h1] at hr
    | some s1 =>
      simp only [h1, Option.bind_eq_bind, Option.bind_some] at hr
      obtain ⟨a1, _, _, _, a5⟩ := set_facts h1
      refine ih s1 (fun y hy => by rw [a5]; exact hx y (by simp [hy])) hr (set_inv hi (hx x (by simp)) h1) ?_
      rw [← ha]
      have := congrArg (List.map fun t : Nat × Nat × List (Lo K × Hi K) => t.2) a1
      simp only [List.map_map] at this
      exact this

/-- C39: at any time after construction, the variables have the sizes and bounds they were created with, each starts
where the previous one ends, together they cover `0 .. rows` with every coordinate owned by exactly one variable, and
the value and bound vectors list the variables' own values and bounds at those places. -/
theorem C39_layout (l : List (List (VarSpec K))) (xs : List (List K)) (s : NodesVariables K) (h : Reached l xs s) :
    s.vars.map (fun v => (v.size, v.bounds)) = asked l ∧ s.nDim = sizes s.vars ∧
    s.values.length = s.nDim ∧ s.bounds.length = s.nDim ∧ (∀ i, i < s.nDim → ∃! p, Owns s.vars p i) ∧
    ∀ (pre post : List (Var K)) (v : Var K), s.vars = pre ++ v :: post → v.index = sizes pre ∧
      ∀ k, k < v.size → s.values[v.index + k]? = v.values[k]? ∧ s.bounds[v.index + k]? = v.bounds[k]? := by
  obtain ⟨hi, ha⟩ := reached_inv h
  have hbl : ∀ w ∈ s.vars, w.bounds.length = w.size := by
    intro w hw
    obtain ⟨a, b, e⟩ := List.append_of_mem hw
    exact (chain_index hi.chain a b w e).2
  have hlen : ∀ {α : Type u} (f : Var K → List α), (∀ w ∈ s.vars, (f w).length = w.size) →
      (s.vars.flatMap f).length = s.nDim := by
    intro α f hf
    rw [List.length_flatMap, hi.dim, sizes]
    congr 1
    exact List.map_congr_left hf
  refine ⟨ha, hi.dim, by rw [hi.values]; exact hlen _ fun w _ => rfl, by rw [hi.bounds]; exact hlen _ hbl, ?_, ?_⟩
  · intro i hlt
    exact owner 0 s.vars hi.chain i (Nat.zero_le _) (by rw [Nat.zero_add, ← hi.dim]; exact hlt)
  · intro pre post v e
    obtain ⟨c1, _⟩ := chain_index hi.chain pre post v e
    rw [Nat.zero_add] at c1
    refine ⟨c1, fun k hk => ⟨?_, ?_⟩⟩
    · rw [hi.values, e, c1]
      exact getElem?_flatMap_vars _ pre post v (fun w _ => rfl) rfl k hk
    · rw [hi.bounds, e, c1]
      exact getElem?_flatMap_vars _ pre post v (fun w hw => hbl w (by rw [e]; simp [hw]))
        (hbl v (by rw [e]; simp)) k hk

/-- C39: setting a vector of the right length succeeds (every variable has at least one coordinate), reading gives the
same vector back, each variable holds its own slice, and nothing else changes. -/
theorem C39_set_get (l : List (List (VarSpec K))) (xs : List (List K)) (s : NodesVariables K) (h : Reached l xs s)
    (hpos : ∀ n ∈ l, ∀ v ∈ n, 0 < v.nNames) (x : List K) (hx : x.length = s.nDim) :
    ∃ s', s.setVariables x = some s' ∧ s'.values = x ∧ s'.bounds = s.bounds ∧
      s'.vars.map Var.index = s.vars.map Var.index ∧
      s'.vars.map Var.values = s.vars.map fun v => slice x v.index v.size := by
  obtain ⟨hi, ha⟩ := reached_inv h
  obtain ⟨s', hs'⟩ := set_ok hi hx (by
    intro v hv
    have : (v.size, v.bounds) ∈ asked l := by rw [← ha]; exact List.mem_map_of_mem hv
    simp only [asked, List.mem_map, List.mem_flatten] at this
    obtain ⟨t, ⟨n, hn, ht⟩, e⟩ := this
    have := hpos n hn t ht
    simp only [Prod.mk.injEq] at e
    omega)
  obtain ⟨a1, a2, a3, a4, a5⟩ := set_facts hs'
  refine ⟨s', hs', a3, a4, ?_, a2⟩
  have := congrArg (List.map fun t : Nat × Nat × List (Lo K × Hi K) => t.1) a1
  simp only [List.map_map] at this
  exact this

/-- C39: right after construction every variable holds the requested values moved into its bounds. -/
theorem C39_initial (l : List (List (VarSpec K))) (s : NodesVariables K) (h : build l = some s)
    (hv : ∀ n ∈ l, ∀ v ∈ n, ∀ b ∈ v.bounds, Valid b) :
    s.vars.map Var.values = l.flatten.map (fun v => getClosestValidPoint v.values v.bounds) ∧
    ∀ i (h1 : i < s.values.length) (h2 : i < s.bounds.length), Inside s.values[i] s.bounds[i] := by
  obtain ⟨hi, ha, hvals⟩ := build_inv l s h
  refine ⟨hvals, ?_⟩
  have e1 : s.values = (l.flatten.map fun v => getClosestValidPoint v.values v.bounds).flatten := by
    rw [hi.values, ← flatten_map_eq, hvals]
  have e2 : s.bounds = (l.flatten.map fun v => v.bounds).flatten := by
    have := congrArg (List.map fun t : Nat × List (Lo K × Hi K) => t.2) ha
    simp only [asked, List.map_map] at this
    rw [hi.bounds, ← flatten_map_eq]
    exact congrArg List.flatten this
  have hlen : ∀ v ∈ l.flatten, v.values.length = v.bounds.length := by
    intro v hv'
    unfold build at h
    cases hm : l.mapM buildNode with
    | none => simp [hm] at h
    | some ns =>
      obtain ⟨n, hn, hvn⟩ := List.mem_flatten.1 hv'
      have key : ∀ (m : List (VarSpec K)) (n0 n1 : Node K), m.foldlM Node.addVar n0 = some n1 →
          ∀ v ∈ m, v.values.length = v.bounds.length := by
        intro m
        induction m with
        | nil => simp
        | cons a m ih =>
          intro n0 n1 h v hv
          rw [List.foldlM_cons] at h
          unfold Node.addVar at h
          cases ha : Var.new n0.length a with
          | none => simp [ha] at h
          | some w =>
            simp only [ha, Option.bind_eq_bind, Option.bind_some] at h
            rcases List.mem_cons.1 hv with rfl | hv
            · unfold Var.new at ha
              split_ifs at ha with q1 q2
              push Not at q1 q2; omega
            · exact ih _ _ h v hv
      obtain ⟨i, hi', rfl⟩ := List.mem_iff_getElem.1 hn
      have hf := mapM_forall₂' (f := buildNode) (P := fun a b => buildNode a = some b) (fun a b h => h) l ns hm
      have hb := List.Forall₂.length_eq hf
      have := (List.forall₂_iff_get.1 hf).2 i hi' (by omega)
      exact key _ _ _ this v hvn
  have hval : ∀ v ∈ l.flatten, ∀ b ∈ v.bounds, Valid b := by
    intro v hv' b hb
    obtain ⟨n, hn, hvn⟩ := List.mem_flatten.1 hv'
    exact hv n hn v hvn b hb
  have hf : List.Forall₂ Inside s.values s.bounds := by
    rw [e1, e2]
    clear e1 e2 hvals ha hi h hv
    generalize l.flatten = m at *
    induction m with
    | nil => exact List.Forall₂.nil
    | cons a m ih =>
      simp only [List.map_cons, List.flatten_cons]
      refine List.rel_append ?_ (ih (fun v hv => hlen v (by simp [hv])) (fun v hv => hval v (by simp [hv])))
      rw [List.forall₂_iff_get]
      have hl := hlen a (by simp)
      refine ⟨by simp [getClosestValidPoint, hl], fun i q1 q2 => ?_⟩
      simp only [List.get_eq_getElem, getClosestValidPoint, List.getElem_zipWith]
      exact (comp_spec _ _ (hval a (by simp) _ (List.getElem_mem q2))).1
  intro i h1 h2
  exact (List.forall₂_iff_get.1 hf).2 i h1 h2

/-- A variable without coordinates makes every later `setVariables` fail its assert. -/
theorem C39_empty_variable (s : NodesVariables K) (x : List K) (n : Node K) (hn : n ∈ s.nodes) (v : Var K)
    (hv : v ∈ n.vars) (h : v.size = 0) : s.setVariables x = none := by
  cases hs : s.setVariables x with
  | none => rfl
  | some s' =>
    exfalso
    unfold NodesVariables.setVariables at hs
    cases hm : s.nodes.mapM (Node.setVariables x) with
    | none => simp [hm] at hs
    | some ns =>
      have hf := mapM_forall₂' (f := Node.setVariables x) (P := fun a b => Node.setVariables x a = some b)
        (fun a b h => h) _ _ hm
      obtain ⟨i, hi, rfl⟩ := List.mem_iff_getElem.1 hn
      have := (List.forall₂_iff_get.1 hf).2 i hi (by have := List.Forall₂.length_eq hf; omega)
      simp only [List.get_eq_getElem, Node.setVariables] at this
      cases hm2 : (s.nodes[i]).vars.mapM (Var.setVariables x) with
      | none => simp [hm2] at this
      | some vs =>
        have hf2 := mapM_forall₂' (f := Var.setVariables x) (P := fun a b => Var.setVariables x a = some b)
          (fun a b h => h) _ _ hm2
        obtain ⟨j, hj, rfl⟩ := List.mem_iff_getElem.1 hv
        have := (List.forall₂_iff_get.1 hf2).2 j hj (by have := List.Forall₂.length_eq hf2; omega)
        simp only [List.get_eq_getElem, Var.setVariables] at this
        rw [if_neg (by simp only [Var.size] at h; omega)] at this
        simp at this

/-- Two nodes: a two-joint position and a time step; then one two-joint position. -/
def demo : List (List (VarSpec ℚ)) :=
  [[⟨2, [5, 1], [(some 0, some 2), (none, none)]⟩, ⟨1, [1], [(some 0, none)]⟩],
   [⟨2, [0, 0], [(none, none), (some 1, some 3)]⟩]]

example : (build demo).map (fun s => (s.vars.map Var.index, s.values, s.nDim)) = some ([0, 2, 3], [2, 1, 1, 0, 1], 5) := by
  decide +kernel
example : ((build demo).bind fun s => s.setVariables [10, 20, 30, 40, 50]).map (fun s => s.vars.map Var.values) =
    some [[10, 20], [30], [40, 50]] := by decide +kernel
example : ∃ s, Reached demo [[10, 20, 30, 40, 50]] s := by
  have h : ((build demo).bind fun s => s.setVariables [10, 20, 30, 40, 50]).isSome = true := by decide +kernel
  have hn : (build demo).map (fun s => s.nDim) = some 5 := by decide +kernel
  cases hb : build demo with
  | none => simp [hb] at h
  | some s0 =>
    simp only [hb, Option.bind_some, Option.map_some, Option.some.injEq] at h hn
    obtain ⟨s, hs⟩ := Option.isSome_iff_exists.1 h
    exact ⟨s, s0, hb, by simp [hn], by simp [List.foldlM_cons, hs]⟩
example : ∀ n ∈ demo, ∀ v ∈ n, 0 < v.nNames := by decide +kernel

end Verif.VarSets
