import Verif.Model.Composite
import Verif.Props.Sparse
import Verif.Props.Problem

/-!
C34 (composites stack their components consistently) and C35 (the cost of a `Problem`).
-/

set_option linter.unusedSectionVars false
set_option linter.unusedVariables false

namespace Verif.Composite

open Verif.Sco

universe u
variable {K : Type u} [Field K] [LinearOrder K] [IsStrictOrderedRing K]

/-! ### Specification -/

/-- A component whose answers have the sizes it reports. -/
structure Comp.Ok (n : Nat) (c : Comp K) : Prop where
  values : c.values.length = c.rows
  coeffs : c.coeffs.length = c.rows
  bounds : c.bounds.length = c.rows
  jacWf : c.jac.Wf
  jacRows : c.jac.rows = c.rows
  jacCols : c.jac.cols.length = n

/-- Total number of rows of a list of components. -/
def total (cs : List (Comp K)) : Nat := (cs.map Comp.rows).sum

/-- What the outside world may do with a composite: every component it sees is consistent. -/
def Op.Ok (n : Nat) : Op K → Prop
  | .add c => c.Ok n
  | .clear => True
  | .update upd => ∀ c, c.Ok n → (upd c).Ok n

/-! ### Proofs -/

theorem total_nil : total ([] : List (Comp K)) = 0 := rfl
theorem total_cons (c : Comp K) (cs : List (Comp K)) : total (c :: cs) = c.rows + total cs := by simp [total]
theorem total_append (a b : List (Comp K)) : total (a ++ b) = total a + total b := by simp [total]

theorem foldl_rows (cs : List (Comp K)) (n : Nat) : cs.foldl (fun n c => n + c.rows) n = n + total cs := by
  induction cs generalizing n with
  | nil => simp [total]
  | cons c cs ih => rw [List.foldl_cons, ih, total_cons]; omega

theorem addSegment_zero (pre v : List K) (n m : Nat) (hv : v.length = n) :
    addSegment (pre ++ List.replicate (n + m) 0) pre.length n v = some ((pre ++ v) ++ List.replicate m 0) := by
  unfold addSegment
  rw [if_pos ⟨hv, by simp⟩]
  congr 1
  rw [List.take_left, List.drop_left, List.append_assoc]
  congr 1
  have h1 : List.take n (List.replicate (n + m) (0 : K)) = List.replicate n 0 := by
    rw [List.take_replicate]; congr 1; omega
  have h2 : List.drop (pre.length + n) (pre ++ List.replicate (n + m) (0 : K)) = List.replicate m 0 := by
    rw [List.drop_append, List.drop_of_length_le (by omega)]
    simp
  rw [h1, h2]
  congr 1
  subst hv
  induction v with
  | nil => rfl
  | cons a v ih => simpa [List.replicate_succ] using ih

theorem stack_spec (s : Composite K) (hm : s.mode = .stackRows) (f : Comp K → List K) (cs : List (Comp K))
    (hf : ∀ c ∈ cs, (f c).length = c.rows) (pre : List K) :
    s.stack f cs (pre ++ List.replicate (total cs) 0) pre.length = some (pre ++ cs.flatMap f) := by
  induction cs generalizing pre with
  | nil => simp [Composite.stack, total]
  | cons c cs ih =>
    rw [Composite.stack, total_cons, addSegment_zero pre (f c) c.rows (total cs) (hf c (by simp))]
    have h := ih (fun d hd => hf d (by simp [hd])) (pre ++ f c)
    have hn : s.next pre.length c = (pre ++ f c).length := by
      simp [Composite.next, hm, hf c (by simp)]
    simp only [hn, h]
    simp

theorem apply_keeps (s s' : Composite K) (o : Op K) (h : s.apply o = some s') :
    s'.numVars = s.numVars ∧ s'.mode = s.mode ∧ s'.dynamic = s.dynamic := by
  cases o with
  | add c => simp only [Composite.apply, Option.some.injEq] at h; subst h; exact ⟨rfl, rfl, rfl⟩
  | clear => simp only [Composite.apply, Option.some.injEq] at h; subst h; exact ⟨rfl, rfl, rfl⟩
  | update upd =>
    simp only [Composite.apply, Composite.update] at h
    generalize (if s.dynamic = true then _ else s.rows) = r at h
    split_ifs at h
    · simp only [Option.map_some, Option.some.injEq] at h
      subst h; exact ⟨rfl, rfl, rfl⟩
    · simp at h

/-- The invariant: row count is the sum, and every component is consistent. -/
def Inv (s : Composite K) : Prop := s.rows = total s.comps ∧ ∀ c ∈ s.comps, c.Ok s.numVars

theorem apply_inv (s s' : Composite K) (o : Op K) (hs : Inv s) (ho : o.Ok s.numVars) (h : s.apply o = some s') :
    Inv s' := by
  cases o with
  | add c =>
    simp only [Composite.apply, Option.some.injEq] at h; subst h
    refine ⟨?_, ?_⟩
    · simp [Composite.add, total_append, total_cons, total_nil, hs.1]
    · intro d hd
      simp only [Composite.add, List.mem_append, List.mem_singleton] at hd
      rcases hd with hd | rfl
      · exact hs.2 d hd
      · exact ho
  | clear =>
    simp only [Composite.apply, Option.some.injEq] at h; subst h
    exact ⟨rfl, by simp [Composite.clear]⟩
  | update upd =>
    simp only [Composite.apply, Composite.update, foldl_rows, Nat.zero_add] at h
    generalize (if s.dynamic = true then _ else s.rows) = r at h
    split_ifs at h with hr
    · simp only [Option.map_some, Option.some.injEq] at h
      subst h
      refine ⟨hr, ?_⟩
      intro d hd
      simp only [List.mem_map] at hd
      obtain ⟨c, hc, rfl⟩ := hd
      exact ho c (hs.2 c hc)
    · simp at h

theorem run_inv (ops : List (Op K)) (s s' : Composite K) (hs : Inv s) (ho : ∀ o ∈ ops, o.Ok s.numVars)
    (h : ops.foldlM Composite.apply s = some s') :
    Inv s' ∧ s'.numVars = s.numVars ∧ s'.mode = s.mode ∧ s'.dynamic = s.dynamic := by
  induction ops generalizing s with
  | nil => simp only [List.foldlM_nil, Option.pure_def, Option.some.injEq] at h; subst h; exact ⟨hs, rfl, rfl, rfl⟩
  | cons o ops ih =>
    rw [List.foldlM_cons] at h
    cases h1 : s.apply o with
    | none => rw [h1] at h; simp at h
    | some s1 =>
      rw [h1] at h
      obtain ⟨k1, k2, k3⟩ := apply_keeps s s1 o h1
      have hi := apply_inv s s1 o hs (ho o (by simp)) h1
      obtain ⟨a, b, c, d⟩ := ih s1 hi (fun o' h' => by rw [k1]; exact ho o' (by simp [h'])) h
      exact ⟨a, b.trans k1, c.trans k2, d.trans k3⟩

theorem getElem?_flatMap_block {α : Type*} (f : Comp K → List α) (pre post : List (Comp K)) (d : Comp K)
    (hf : ∀ c ∈ pre, (f c).length = c.rows) (hd : (f d).length = d.rows) (i : Nat) (hi : i < d.rows) :
    ((pre ++ d :: post).flatMap f)[total pre + i]? = (f d)[i]? := by
  have hl : (pre.flatMap f).length = total pre := by
    rw [List.length_flatMap, total]
    congr 1
    exact List.map_congr_left hf
  rw [List.flatMap_append, List.getElem?_append_right (by omega), List.flatMap_cons, hl,
    Nat.add_sub_cancel_left, List.getElem?_append_left (by omega)]

theorem tsum_shift (ts : List (Nat × Nat × K)) (row i j : Nat) :
    tsum (ts.map fun t => (row + t.1, t.2.1, t.2.2)) (row + i) j = tsum ts i j := by
  unfold tsum
  rw [List.map_map]
  congr 1
  apply List.map_congr_left
  intro t _
  simp

theorem tsum_zero (ts : List (Nat × Nat × K)) (i j : Nat) (h : ∀ t ∈ ts, t.1 ≠ i) : tsum ts i j = 0 := by
  unfold tsum
  apply List.sum_eq_zero
  intro v hv
  simp only [List.mem_map] at hv
  obtain ⟨t, ht, rfl⟩ := hv
  simp [h t ht]

theorem jacTriplets_range (s : Composite K) (hm : s.mode = .stackRows) (cs : List (Comp K)) (row : Nat)
    (h : ∀ c ∈ cs, c.Ok s.numVars) :
    ∀ t ∈ s.jacTriplets cs row, row ≤ t.1 ∧ t.1 < row + total cs ∧ t.2.1 < s.numVars := by
  induction cs generalizing row with
  | nil => simp [Composite.jacTriplets]
  | cons c cs ih =>
    intro t ht
    simp only [Composite.jacTriplets, List.mem_append, List.mem_map] at ht
    have hc := h c (by simp)
    rw [total_cons]
    rcases ht with ⟨q, hq, rfl⟩ | ht
    · have := triplets_range hc.jacWf q hq
      rw [hc.jacRows, hc.jacCols] at this
      exact ⟨by simp, by simp; omega, this.2⟩
    · have hn : s.next row c = row + c.rows := by simp [Composite.next, hm]
      rw [hn] at ht
      have := ih (row + c.rows) (fun d hd => h d (by simp [hd])) t ht
      exact ⟨by omega, by omega, this.2.2⟩

theorem jacTriplets_block (s : Composite K) (hm : s.mode = .stackRows) (pre post : List (Comp K)) (d : Comp K)
    (row : Nat) (h : ∀ c ∈ pre ++ d :: post, c.Ok s.numVars) (i j : Nat) (hi : i < d.rows) :
    tsum (s.jacTriplets (pre ++ d :: post) row) (row + total pre + i) j = d.jac.entry i j := by
  induction pre generalizing row with
  | nil =>
    simp only [List.nil_append, Composite.jacTriplets, total_nil, Nat.add_zero]
    rw [tsum_append, tsum_shift, tsum_triplets]
    have hn : s.next row d = row + d.rows := by simp [Composite.next, hm]
    rw [tsum_zero, add_zero]
    intro t ht
    rw [hn] at ht
    have := jacTriplets_range s hm post (row + d.rows) (fun c hc => h c (by simp [hc])) t ht
    omega
  | cons c pre ih =>
    simp only [List.cons_append, Composite.jacTriplets, total_cons]
    have hn : s.next row c = row + c.rows := by simp [Composite.next, hm]
    have hc := h c (by simp)
    rw [tsum_append, hn, tsum_zero, zero_add]
    · have := ih (row + c.rows) (fun d hd => h d (by simp only [List.cons_append, List.mem_cons]; exact Or.inr hd))
      rw [← this]; congr 1; omega
    · intro t ht
      simp only [List.mem_map] at ht
      obtain ⟨q, hq, rfl⟩ := ht
      have := (triplets_range hc.jacWf q hq).1
      rw [hc.jacRows] at this
      simp only
      omega

/-- C34.  After any history of adding components, clearing and updating (with components that change their row counts
when the composite is dynamic), a stacked composite reports the sum of its components' rows; values, coefficients,
bounds and the Jacobian have that many rows, and row `i` of a component is at offset "sum of the rows of the components
added before" in all four. -/
theorem C34_stacked (n : Nat) (dyn : Bool) (ops : List (Op K)) (s : Composite K) (ho : ∀ o ∈ ops, o.Ok n)
    (h : ops.foldlM Composite.apply (Composite.new n .stackRows dyn) = some s) :
    s.rows = total s.comps ∧
    ∃ (g k : List K) (J : SMat K), s.getValues = some g ∧ s.getCoefficients = some k ∧ s.getJacobian = some J ∧
      g.length = s.rows ∧ k.length = s.rows ∧ s.getBounds.length = s.rows ∧ J.rows = s.rows ∧ J.cols.length = n ∧
      ∀ (pre post : List (Comp K)) (d : Comp K), s.comps = pre ++ d :: post → ∀ i, i < d.rows →
        g[total pre + i]? = d.values[i]? ∧ k[total pre + i]? = d.coeffs[i]? ∧
        s.getBounds[total pre + i]? = d.bounds[i]? ∧ ∀ j, J.entry (total pre + i) j = d.jac.entry i j := by
  obtain ⟨hi, hn, hm, _⟩ := run_inv ops _ s ⟨rfl, by simp [Composite.new]⟩ (by simpa [Composite.new] using ho) h
  simp only [Composite.new] at hn hm
  obtain ⟨hr, hok⟩ := hi
  refine ⟨hr, s.comps.flatMap Comp.values, s.comps.flatMap Comp.coeffs, ?_⟩
  have e1 : s.getValues = some (s.comps.flatMap Comp.values) := by
    have := stack_spec s hm Comp.values s.comps (fun c hc => (hok c hc).values) []
    simpa [Composite.getValues, hr] using this
  have e2 : s.getCoefficients = some (s.comps.flatMap Comp.coeffs) := by
    have := stack_spec s hm Comp.coeffs s.comps (fun c hc => (hok c hc).coeffs) []
    simpa [Composite.getCoefficients, hr] using this
  have len : ∀ {α : Type u} (f : Comp K → List α), (∀ c ∈ s.comps, (f c).length = c.rows) →
      (s.comps.flatMap f).length = s.rows := by
    intro α f hf
    rw [List.length_flatMap, hr, total]
    congr 1
    exact List.map_congr_left hf
  have hj : ∃ J : SMat K, s.getJacobian = some J ∧ J.rows = s.rows ∧ J.cols.length = n ∧
      ∀ (pre post : List (Comp K)) (d : Comp K), s.comps = pre ++ d :: post → ∀ i, i < d.rows →
        ∀ j, J.entry (total pre + i) j = d.jac.entry i j := by
    by_cases h0 : s.numVars = 0
    · refine ⟨⟨s.rows, []⟩, by simp [Composite.getJacobian, h0], rfl, by simp [← hn, h0], ?_⟩
      intro pre post d hd i hi j
      have hc := hok d (by rw [hd]; simp)
      have : d.jac.cols = [] := by
        have := hc.jacCols
        rw [h0] at this
        exact List.length_eq_zero_iff.1 this
      simp [SMat.entry, this, colEntry]
    · obtain ⟨J, a1, _, a3, a4, a5, _⟩ := setFromTriplets_spec s.rows s.numVars (s.jacTriplets s.comps 0) (by
        intro t ht
        have := jacTriplets_range s hm s.comps 0 hok t ht
        rw [hr]; exact ⟨by omega, this.2.2⟩)
      refine ⟨J, by simp [Composite.getJacobian, h0, a1], a3, a4.trans hn, ?_⟩
      intro pre post d hd i hi j
      rw [a5, hd]
      have := jacTriplets_block s hm pre post d 0 (by rw [← hd]; exact hok) i j hi
      simpa using this
  obtain ⟨J, j1, j2, j3, j4⟩ := hj
  refine ⟨J, e1, e2, j1, len _ fun c hc => (hok c hc).values, len _ fun c hc => (hok c hc).coeffs,
    len _ fun c hc => (hok c hc).bounds, j2, j3, ?_⟩
  intro pre post d hd i hi
  have hp : ∀ c ∈ pre, c.Ok s.numVars := fun c hc => hok c (by rw [hd]; simp [hc])
  have hdk : d.Ok s.numVars := hok d (by rw [hd]; simp)
  refine ⟨?_, ?_, ?_, j4 pre post d hd i hi⟩
  · rw [hd]; exact getElem?_flatMap_block _ pre post d (fun c hc => (hp c hc).values) hdk.values i hi
  · rw [hd]; exact getElem?_flatMap_block _ pre post d (fun c hc => (hp c hc).coeffs) hdk.coeffs i hi
  · rw [Composite.getBounds, hd]
    exact getElem?_flatMap_block _ pre post d (fun c hc => (hp c hc).bounds) hdk.bounds i hi

/-- A composite that is not dynamic cannot follow a component that changes its number of rows: the update fails its
assert, for every such change. -/
theorem C34_static_update (s : Composite K) (hs : Inv s) (hd : s.dynamic = false) (upd : Comp K → Comp K)
    (h : total (s.comps.map upd) ≠ total s.comps) : s.update upd = none := by
  simp only [Composite.update, foldl_rows, Nat.zero_add, hd]
  rw [if_neg]
  simp [hs.1]
  exact fun e => h e.symm

/-- A dynamic composite always accepts the update. -/
theorem C34_dynamic_update (s : Composite K) (hd : s.dynamic = true) (upd : Comp K → Comp K) :
    ∃ s', s.update upd = some (s', total (s.comps.map upd)) ∧ s'.comps = s.comps.map upd := by
  refine ⟨{ s with rows := total (s.comps.map upd), comps := s.comps.map upd }, ?_, rfl⟩
  simp [Composite.update, foldl_rows, hd]

/-- Two components of one and two rows over two variables. -/
def demoA : Comp ℚ := ⟨1, [5], [1], [(some 0, none)], ⟨1, [[(0, 3)], []]⟩⟩
def demoB : Comp ℚ := ⟨2, [7, 8], [2, 2], [(none, some 1), (some 2, some 2)], ⟨2, [[(1, 4)], [(0, 9)]]⟩⟩
def demo2 : Composite ℚ := ((Composite.new 2 .stackRows true).add demoA).add demoB

example : (demo2.getValues, demo2.rows) = (some [5, 7, 8], 3) := by decide +kernel
example : demo2.getJacobian.map (fun J => (J.rows, J.cols)) = some (3, [[(0, 3), (2, 4)], [(1, 9)]]) := by
  decide +kernel
example : demoA.Ok 2 ∧ demoB.Ok 2 :=
  ⟨⟨rfl, rfl, rfl, ⟨by simp [demoA, Increasing], by simp [demoA]⟩, rfl, rfl⟩,
   ⟨rfl, rfl, rfl, ⟨by simp [demoB, Increasing], by simp [demoB]⟩, rfl, rfl⟩⟩
/-- a component dropping to zero rows: followed by the dynamic composite only -/
example : (demo2.update fun c => if c.rows = 2 then ⟨0, [], [], [], ⟨0, [[], []]⟩⟩ else c).map Prod.snd = some 1 := by
  decide +kernel

/-! ### C35 -/

theorem composite_fold (ts : List (CostTerm K)) (x : List K) (s : Composite K) :
    ts.foldl (fun s t => s.add (t.comp x)) s =
      { s with rows := s.rows + ts.length, comps := s.comps ++ ts.map fun t => t.comp x } := by
  induction ts generalizing s with
  | nil => simp
  | cons t ts ih => rw [List.foldl_cons, ih]; simp [Composite.add, CostTerm.comp]; omega

theorem composite_eq (p : Problem K) :
    p.composite = ⟨p.x.length, .stackRows, false, p.costs.length, p.costs.map fun t => t.comp p.x⟩ := by
  rw [Problem.composite, composite_fold]; simp [Composite.new]

theorem total_costs (ts : List (CostTerm K)) (x : List K) : total (ts.map fun t => t.comp x) = ts.length := by
  induction ts with
  | nil => rfl
  | cons t ts ih => rw [List.map_cons, total_cons, ih, List.length_cons]; simp only [CostTerm.comp]; omega

theorem costs_values (p : Problem K) : p.composite.getValues = some (p.costs.map fun t => t.cost p.x) := by
  rw [Composite.getValues, composite_eq]
  have := stack_spec (⟨p.x.length, .stackRows, false, p.costs.length, p.costs.map fun t => t.comp p.x⟩ : Composite K)
    rfl Comp.values (p.costs.map fun t => t.comp p.x) (by
      intro c hc
      simp only [List.mem_map] at hc
      obtain ⟨t, _, rfl⟩ := hc
      rfl) []
  simp only [List.nil_append, total_costs, List.length_nil] at this
  rw [this]
  congr 1
  rw [List.flatMap_map, List.map_eq_flatMap]
  rfl

/-- C35, what the code does: with any list of cost terms the reported cost is the *first* term alone (zero without
terms). -/
theorem evaluate_eq (p : Problem K) : p.evaluateCostFunction = some ((p.costs.map fun t => t.cost p.x).headD 0) := by
  unfold Problem.evaluateCostFunction
  rw [costs_values]
  rw [composite_eq]
  cases h : p.costs with
  | nil => simp
  | cons t ts => simp

/-- C35, the part that holds: with at most one cost term the cost is the sum of the terms. -/
theorem C35_cost_partial (p : Problem K) (h : p.costs.length ≤ 1) :
    p.evaluateCostFunction = some (p.costs.map fun t => t.cost p.x).sum := by
  rw [evaluate_eq]
  match hc : p.costs with
  | [] => rfl
  | [t] => simp
  | t :: t' :: ts => rw [hc] at h; simp at h

/-- C35 is violated: whatever is added after the first term has no influence, so the reported cost is wrong whenever
the later terms do not happen to cancel. -/
theorem C35_violated (t : CostTerm K) (ts : List (CostTerm K)) (x : List K) :
    (⟨x, t :: ts⟩ : Problem K).evaluateCostFunction = some (t.cost x) ∧
    ((⟨x, t :: ts⟩ : Problem K).evaluateCostFunction = some ((t :: ts).map fun t => t.cost x).sum ↔
      (ts.map fun t => t.cost x).sum = 0) := by
  rw [evaluate_eq]
  simp

/-- A gradient row of the right shape. -/
def CostTerm.Ok (t : CostTerm K) (n : Nat) : Prop :=
  ∀ x : List K, x.length = n → (t.grad x).Wf ∧ (t.grad x).rows = 1 ∧ (t.grad x).cols.length = n

theorem colEntry_find {c : List (Nat × K)} (h : Increasing c) (r : Nat) :
    ((c.find? fun q => q.1 = r).map Prod.snd).getD 0 = colEntry c r := by
  induction c with
  | nil => simp [colEntry]
  | cons q c ih =>
    have hp := List.pairwise_cons.1 h
    simp only [List.find?_cons, colEntry, List.map_cons, List.sum_cons]
    by_cases hq : q.1 = r
    · simp only [hq, decide_true, Option.map_some, Option.getD_some, if_true]
      have : (c.map fun q => if q.1 = r then q.2 else 0).sum = 0 := by
        apply List.sum_eq_zero
        intro v hv
        simp only [List.mem_map] at hv
        obtain ⟨s, hs, rfl⟩ := hv
        have := hp.1 s hs
        rw [if_neg (by omega)]
      rw [this, add_zero]
    · simp only [hq, decide_false, if_false, zero_add]
      exact ih hp.2

theorem jac_gradient (p : Problem K) (hok : ∀ t ∈ p.costs, t.Ok p.x.length) (hn : 0 < p.x.length)
    (t : CostTerm K) (ts : List (CostTerm K)) (hc : p.costs = t :: ts) :
    ∃ J, p.composite.getJacobian = some J ∧ J.Wf ∧ J.cols.length = p.x.length ∧
      ∀ j, J.entry 0 j = (t.grad p.x).entry 0 j := by
  have hok' : ∀ c ∈ p.costs.map (fun t => t.comp p.x), c.Ok p.x.length := by
    intro c hc
    simp only [List.mem_map] at hc
    obtain ⟨t, ht, rfl⟩ := hc
    obtain ⟨a, b, c⟩ := hok t ht p.x rfl
    exact ⟨rfl, rfl, rfl, a, b, c⟩
  rw [composite_eq]
  set s : Composite K := ⟨p.x.length, .stackRows, false, p.costs.length, p.costs.map fun t => t.comp p.x⟩ with hs
  obtain ⟨J, a1, a2, _, a4, a5, _⟩ := setFromTriplets_spec s.rows s.numVars (s.jacTriplets s.comps 0) (by
    intro q hq
    have := jacTriplets_range s rfl s.comps 0 hok' q hq
    have e : total s.comps = s.rows := total_costs p.costs p.x
    rw [e] at this
    exact ⟨by omega, this.2.2⟩)
  refine ⟨J, ?_, a2, a4, ?_⟩
  · rw [Composite.getJacobian, if_neg (by simp [hs]; intro e; simp [e] at hn), a1]
  · intro j
    rw [a5]
    have hsplit : s.comps = [] ++ t.comp p.x :: ts.map fun t => t.comp p.x := by simp [hs, hc]
    rw [hsplit]
    have := jacTriplets_block s rfl [] (ts.map fun t => t.comp p.x) (t.comp p.x) 0
      (by rw [← hsplit]; exact hok') 0 j (by simp [CostTerm.comp])
    simpa [total_nil, CostTerm.comp] using this

theorem fdLoop_eq (p : Problem K) (x : List K) (eps g : K) (is : List Nat) :
    p.fdLoop x eps g is = some (is.map fun i =>
      ((p.costs.map fun t => t.cost (x.modify i (· + eps))).headD 0 - g) / eps) := by
  induction is with
  | nil => rfl
  | cons i is ih =>
    rw [Problem.fdLoop, ih, evaluate_eq]
    rfl

/-- C35, gradient with analytic derivatives, at most one term: the gradient is the sum of the terms' gradients, and the
variables are left alone. -/
theorem C35_gradient_partial (p : Problem K) (hok : ∀ t ∈ p.costs, t.Ok p.x.length) (hn : 0 < p.x.length) (eps : K)
    (h : p.costs.length ≤ 1) :
    ∃ g, p.evaluateCostFunctionGradient false eps = some (g, p) ∧ g.length = p.x.length ∧
      ∀ j, j < p.x.length → g[j]? = some (p.costs.map fun t => (t.grad p.x).entry 0 j).sum := by
  unfold Problem.evaluateCostFunctionGradient
  match hc : p.costs with
  | [] =>
    refine ⟨List.replicate p.x.length 0, ?_, by simp, ?_⟩
    · rw [composite_eq, hc]; simp
    · intro j hj; simp [List.getElem?_replicate, hj]
  | [t] =>
    obtain ⟨J, a1, a2, a3, a4⟩ := jac_gradient p hok hn t [] hc
    refine ⟨denseRow0 J, ?_, by simp [denseRow0, a3], ?_⟩
    · have : p.composite.rows > 0 := by rw [composite_eq, hc]; simp
      simp [this, a1]
    · intro j hj
      have hj' : j < J.cols.length := by rw [a3]; exact hj
      simp only [denseRow0, List.getElem?_map, List.getElem?_eq_getElem hj', Option.map_some]
      rw [colEntry_find (a2.inc _ (List.getElem_mem hj'))]
      have := a4 j
      rw [SMat.entry, List.getElem?_eq_getElem hj', Option.getD_some] at this
      simp [this]
  | t :: t' :: ts => rw [hc] at h; simp at h

/-- C35, gradient, violated: with several terms only the first one's gradient is returned. -/
theorem C35_violated_gradient (t : CostTerm K) (ts : List (CostTerm K)) (x : List K) (eps : K) (hn : 0 < x.length)
    (hok : ∀ c ∈ t :: ts, c.Ok x.length) :
    ∃ g, (⟨x, t :: ts⟩ : Problem K).evaluateCostFunctionGradient false eps = some (g, ⟨x, t :: ts⟩) ∧
      ∀ j, j < x.length → g[j]? = some ((t.grad x).entry 0 j) := by
  obtain ⟨J, a1, a2, a3, a4⟩ := jac_gradient (⟨x, t :: ts⟩ : Problem K) hok hn t ts rfl
  refine ⟨denseRow0 J, ?_, ?_⟩
  · unfold Problem.evaluateCostFunctionGradient
    have : (⟨x, t :: ts⟩ : Problem K).composite.rows > 0 := by rw [composite_eq]; simp
    simp [this, a1]
  · intro j hj
    have hj' : j < J.cols.length := by rw [a3]; exact hj
    simp only [denseRow0, List.getElem?_map, List.getElem?_eq_getElem hj', Option.map_some]
    rw [colEntry_find (a2.inc _ (List.getElem_mem hj'))]
    have := a4 j
    rw [SMat.entry, List.getElem?_eq_getElem hj', Option.getD_some] at this
    simp [this]

/-- C35, finite differences: entry `i` is the forward difference of the reported cost in variable `i`, for any cost
terms, and the variables are restored. -/
theorem C35_finite_differences_partial (p : Problem K) (hc : p.costs ≠ []) (eps : K) :
    ∃ g, p.evaluateCostFunctionGradient true eps = some (g, p) ∧ g.length = p.x.length ∧
      ∀ i, i < p.x.length → ∃ f0 f1, p.evaluateCostFunction = some f0 ∧
        (p.setVariables (p.x.modify i (· + eps))).evaluateCostFunction = some f1 ∧ g[i]? = some ((f1 - f0) / eps) := by
  unfold Problem.evaluateCostFunctionGradient
  have hr : p.composite.rows > 0 := by
    rw [composite_eq]; exact List.length_pos_iff.2 hc
  simp only [hr, if_true, evaluate_eq, fdLoop_eq, Option.map_some]
  refine ⟨_, rfl, by simp, ?_⟩
  intro i hi
  refine ⟨_, _, rfl, rfl, ?_⟩
  simp only [List.getElem?_map, List.getElem?_range hi, Option.map_some]
  rfl

/-- What the documentation intends: a composite in `kSumToScalar` mode would report the sum in its first row (the
other rows stay zero, and the row count is still the number of terms). -/
theorem C35_sum_mode (n : Nat) (dyn : Bool) (ts : List (CostTerm K)) (x : List K) (h : ts ≠ []) :
    (⟨n, .sumToScalar, dyn, ts.length, ts.map fun t => t.comp x⟩ : Composite K).getValues =
      some ((ts.map fun t => t.cost x).sum :: List.replicate (ts.length - 1) 0) := by
  unfold Composite.getValues
  have key : ∀ (s : Composite K) (hm : s.mode = .sumToScalar) (ts : List (CostTerm K)) (a : K) (l : List K),
      s.stack Comp.values (ts.map fun t => t.comp x) (a :: l) 0 = some ((a + (ts.map fun t => t.cost x).sum) :: l) := by
    intro s hm ts
    induction ts with
    | nil => intro a l; simp [Composite.stack]
    | cons t ts ih =>
      intro a l
      have : s.next 0 (t.comp x) = 0 := by simp [Composite.next, hm]
      simp only [List.map_cons, Composite.stack, this]
      have e : addSegment (a :: l) 0 (t.comp x).rows (t.comp x).values = some ((a + t.cost x) :: l) := by
        simp [addSegment, CostTerm.comp]
      rw [e]
      simp only
      rw [ih]
      simp [add_assoc]
  obtain ⟨t, ts', rfl⟩ := List.exists_cons_of_ne_nil h
  have := key ⟨n, .sumToScalar, dyn, (t :: ts').length, (t :: ts').map fun t => t.comp x⟩ rfl (t :: ts') 0
    (List.replicate ts'.length 0)
  simp only [zero_add] at this
  simpa [List.replicate_succ] using this

def demoCosts : Problem ℚ :=
  ⟨[2, 3], [⟨fun x => x.sum, fun _ => ⟨1, [[(0, 1)], [(0, 1)]]⟩⟩,
            ⟨fun x => x.headD 0 * x.headD 0, fun x => ⟨1, [[(0, 2 * x.headD 0)], []]⟩⟩]⟩

/-- 2 + 3 is reported although the terms add up to 5 + 4. -/
example : demoCosts.evaluateCostFunction = some 5 ∧ (demoCosts.costs.map fun t => t.cost demoCosts.x).sum = 9 := by
  decide +kernel
example : ∀ t ∈ demoCosts.costs, t.Ok 2 := by
  intro t ht
  simp only [demoCosts, List.mem_cons, List.not_mem_nil, or_false] at ht
  rcases ht with rfl | rfl <;> intro x _ <;>
    exact ⟨⟨by simp [Increasing], by simp⟩, rfl, rfl⟩

end Verif.Composite
