import Verif.Props.Problem

set_option linter.unusedSectionVars false
set_option linter.unusedVariables false

/-!
# C58-C60: collision terms, joint subsets, variable arrays
-/

namespace Verif.Problem

open Verif.BasicArray

section collision

/-- What the evaluator type says about the two steps of a term: is the first/second step free? -/
def EvalType.startFree : EvalType → Bool
  | .startFreeEndFree | .startFreeEndFixed | .singleTimeStep => true
  | .startFixedEndFree => false
def EvalType.endFree : EvalType → Bool
  | .startFreeEndFree | .startFixedEndFree => true
  | .startFreeEndFixed | .singleTimeStep => false

theorem varRow_ok (vars : BArr Nat) (n m : Nat) (f : Nat → Nat → Nat) (h : Holds vars n m f) (nDof : Nat) (hd : nDof ≤ m)
    {i : Nat} (hi : i < n) : varRow vars nDof i = .ok ((List.range nDof).map (f i)) := by
  have := (C50_lines vars n m f h).1 i 0 nDof hi (by omega)
  simp only [Nat.cast_zero, Nat.zero_add] at this
  rw [varRow, this]

theorem mem_stepsFrom (a b i : Nat) : i ∈ stepsFrom a b ↔ a ≤ i ∧ i < b := by
  simp only [stepsFrom, List.mem_map, List.mem_range]
  constructor
  · rintro ⟨k, hk, rfl⟩; omega
  · rintro ⟨h1, h2⟩; exact ⟨i - a, by omega, by omega⟩

/-- No two adjacent steps of the range are fixed. -/
def NoAdjacent (first last : Nat) (fixed : List Int) : Prop :=
  ∀ i : Nat, first ≤ i → i < last → ¬ ((i : Int) ∈ fixed ∧ (i : Int) + 1 ∈ fixed)

/-- C58, swept evaluators: if no two adjacent steps are fixed, there is exactly one term per pair of consecutive steps, in
order, on the variables of these two steps, it is a term of two steps, and a step is free in it iff it is not fixed. -/
theorem C58_continuous_partial (vars : BArr Nat) (n m : Nat) (f : Nat → Nat → Nat) (h : Holds vars n m f) (nDof : Nat)
    (hd : nDof ≤ m) (first last : Nat) (hl : last < n) (fixed : List Int) (hna : NoAdjacent first last fixed) :
    ∃ ts, hatchContinuous vars nDof first last fixed = .ok ts ∧ ts.map CollTerm.step = stepsFrom first last ∧
      ∀ t ∈ ts, t.vars0 = (List.range nDof).map (f t.step) ∧ t.vars1 = (List.range nDof).map (f (t.step + 1)) ∧
        t.type ≠ .singleTimeStep ∧ (t.type.startFree = true ↔ (t.step : Int) ∉ fixed) ∧ (t.type.endFree = true ↔ (t.step : Int) + 1 ∉ fixed) := by
  let ty : Nat → EvalType := fun i => if (i : Int) ∈ fixed then .startFixedEndFree
    else if (i : Int) + 1 ∈ fixed then .startFreeEndFixed else .startFreeEndFree
  let tm : Nat → CollTerm := fun i => ⟨i, (List.range nDof).map (f i), (List.range nDof).map (f (i + 1)), ty i⟩
  refine ⟨(stepsFrom first last).map tm, ?_, ?_, ?_⟩
  · unfold hatchContinuous
    rw [foldlM_append _ (fun i => [tm i])]
    · simp [List.map_eq_flatMap]
    · intro acc i hi
      obtain ⟨h1, h2⟩ := (mem_stepsFrom _ _ _).1 hi
      have hc : chooseType (decide ((i : Int) ∈ fixed)) (decide ((i : Int) + 1 ∈ fixed)) = .ok (ty i) := by
        simp only [chooseType, ty]
        by_cases a : (i : Int) ∈ fixed <;> by_cases b : (i : Int) + 1 ∈ fixed <;> simp [a, b]
      simp only [hc, bind_ok, varRow_ok vars n m f h nDof hd (show i < n by omega),
        varRow_ok vars n m f h nDof hd (show i + 1 < n by omega), pure_eq, tm]
  · simp [tm, Function.comp_def]
  · intro t ht
    obtain ⟨i, hi, rfl⟩ := List.mem_map.1 ht
    obtain ⟨h1, h2⟩ := (mem_stepsFrom _ _ _).1 hi
    have := hna i h1 h2
    refine ⟨rfl, rfl, ?_, ?_, ?_⟩ <;> simp only [tm, ty] <;> by_cases a : (i : Int) ∈ fixed <;>
      by_cases b : (i : Int) + 1 ∈ fixed <;> simp_all [EvalType.startFree, EvalType.endFree]

/-- C58, discrete evaluator: exactly one single-step term per step of the range that is not fixed, in order, on the variables
of that step. -/
theorem C58_discrete (vars : BArr Nat) (n m : Nat) (f : Nat → Nat → Nat) (h : Holds vars n m f) (nDof : Nat)
    (hd : nDof ≤ m) (first last : Nat) (hl : last < n) (fixed : List Int) :
    ∃ ts, hatchDiscrete vars nDof first last fixed = .ok ts ∧
      ts.map CollTerm.step = (stepsFrom first (last + 1)).filter (fun (i : Nat) => decide ((i : Int) ∉ fixed)) ∧
      ∀ t ∈ ts, t.vars0 = (List.range nDof).map (f t.step) ∧ t.type = .singleTimeStep := by
  let tm : Nat → CollTerm := fun i => ⟨i, (List.range nDof).map (f i), [], .singleTimeStep⟩
  refine ⟨((stepsFrom first (last + 1)).filter (fun (i : Nat) => decide ((i : Int) ∉ fixed))).map tm, ?_, ?_, ?_⟩
  · unfold hatchDiscrete
    rw [foldlM_append _ (fun (i : Nat) => if (i : Int) ∈ fixed then [] else [tm i])]
    · rw [List.nil_append]
      congr 1
      induction stepsFrom first (last + 1) with
      | nil => rfl
      | cons i l ih =>
        rw [List.flatMap_cons, ih, List.filter_cons]
        by_cases hi : (i : Int) ∈ fixed <;> simp [hi]
    · intro acc i hi
      obtain ⟨h1, h2⟩ := (mem_stepsFrom _ _ _).1 hi
      by_cases a : (i : Int) ∈ fixed
      · simp [a]
      · simp [a, varRow_ok vars n m f h nDof hd (show i < n by omega), tm]
  · simp [tm, Function.comp_def]
  · intro t ht
    obtain ⟨i, hi, rfl⟩ := List.mem_map.1 ht
    exact ⟨rfl, rfl⟩

/-- C58 is violated: two adjacent fixed steps are not rejected; for every range containing such a pair the call ends
normally, and the term for the pair treats the second step as free although it is fixed. -/
theorem C58_violated (vars : BArr Nat) (n m : Nat) (f : Nat → Nat → Nat) (h : Holds vars n m f) (nDof : Nat) (hd : nDof ≤ m)
    (first last : Nat) (hl : last < n) (fixed : List Int) (i : Nat) (h1 : first ≤ i) (h2 : i < last) (ha : (i : Int) ∈ fixed)
    (hb : (i : Int) + 1 ∈ fixed) :
    ∃ ts, hatchContinuous vars nDof first last fixed = .ok ts ∧ ∃ t ∈ ts, t.step = i ∧ t.type.endFree = true := by
  let ty : Nat → EvalType := fun i => if (i : Int) ∈ fixed then .startFixedEndFree
    else if (i : Int) + 1 ∈ fixed then .startFreeEndFixed else .startFreeEndFree
  let tm : Nat → CollTerm := fun i => ⟨i, (List.range nDof).map (f i), (List.range nDof).map (f (i + 1)), ty i⟩
  refine ⟨(stepsFrom first last).map tm, ?_, tm i, List.mem_map_of_mem ((mem_stepsFrom _ _ _).2 ⟨h1, h2⟩), rfl, ?_⟩
  · unfold hatchContinuous
    rw [foldlM_append _ (fun i => [tm i])]
    · simp [List.map_eq_flatMap]
    · intro acc i hi
      obtain ⟨h1, h2⟩ := (mem_stepsFrom _ _ _).1 hi
      have hc : chooseType (decide ((i : Int) ∈ fixed)) (decide ((i : Int) + 1 ∈ fixed)) = .ok (ty i) := by
        simp only [chooseType, ty]
        by_cases a : (i : Int) ∈ fixed <;> by_cases b : (i : Int) + 1 ∈ fixed <;> simp [a, b]
      simp only [hc, bind_ok, varRow_ok vars n m f h nDof hd (show i < n by omega),
        varRow_ok vars n m f h nDof hd (show i + 1 < n by omega), pure_eq, tm]
  · simp [tm, ty, ha, EvalType.endFree]

/-- non-vacuity: a matrix of five steps and two joints, steps 0 and 4 fixed. -/
example : NoAdjacent 0 4 [0, 4] ∧ ∃ s : Setup ℚ, s.Small ∧ Holds s.vars 5 2 (fun i j => i * 2 + j) := by
  refine ⟨?_, ⟨⟨5, 2, false, fun _ _ => 0⟩, ⟨by decide, by decide⟩, vars_holds _ ⟨by decide, by decide⟩⟩⟩
  intro i h1 h2 h3
  simp at h3
  omega

end collision

section subset
variable {N V : Type} [DecidableEq N]

/-- `isSuperset` says that every name occurs and that the superset is strictly longer. -/
theorem C59_isSuperset (sub sup : List N) : isSuperset sub sup = true ↔ (∀ s ∈ sub, s ∈ sup) ∧ sub.length < sup.length := by
  unfold isSuperset
  split
  · rename_i h
    simp only [List.all_eq_true, decide_eq_true_eq] at h
    simp only [decide_eq_true_eq]
    exact ⟨fun h' => ⟨h, h'⟩, fun h' => h'.2⟩
  · rename_i h
    simp only [List.all_eq_true, decide_eq_true_eq] at h
    simp [h]

theorem updateLoop_spec (sup : List N) (hs : sup.Nodup) (l : List (N × V)) :
    ∀ out : List V, out.length = sup.length → (l.map Prod.fst).Nodup →
      (updateLoop sup l out).2.length = sup.length ∧
      ((updateLoop sup l out).1 = true ↔ ∀ p ∈ l, p.1 ∈ sup) ∧
      (∀ n ∈ sup, n ∉ l.map Prod.fst → (updateLoop sup l out).2[sup.idxOf n]? = out[sup.idxOf n]?) ∧
      ((updateLoop sup l out).1 = true → ∀ p ∈ l, (updateLoop sup l out).2[sup.idxOf p.1]? = some p.2) := by
  induction l with
  | nil => intro out h _; simp [updateLoop, h]
  | cons p l ih =>
    intro out hlen hnd
    obtain ⟨n, v⟩ := p
    simp only [List.map_cons, List.nodup_cons] at hnd
    unfold updateLoop
    by_cases hn : n ∈ sup
    · rw [if_pos hn]
      obtain ⟨i1, i2, i3, i4⟩ := ih (out.set (sup.idxOf n) v) (by simpa using hlen) hnd.2
      have hset : (updateLoop sup l (out.set (sup.idxOf n) v)).2[sup.idxOf n]? = some v := by
        rw [i3 n hn hnd.1, List.getElem?_set_self]
        rw [hlen]; exact List.idxOf_lt_length_of_mem hn
      refine ⟨i1, ?_, ?_, ?_⟩
      · rw [i2]; simp [hn]
      · intro n' hn' hnot
        simp only [List.map_cons, List.mem_cons, not_or] at hnot
        rw [i3 n' hn' hnot.2, List.getElem?_set_ne]
        intro hc
        exact hnot.1 ((List.idxOf_inj hn).1 hc).symm
      · intro ht p hp
        rcases List.mem_cons.1 hp with rfl | hp
        · exact hset
        · exact i4 ht p hp
    · rw [if_neg hn]
      refine ⟨hlen, ?_, fun _ _ _ => rfl, fun h => absurd h (by simp)⟩
      simp only [Bool.false_eq_true, List.mem_cons, forall_eq_or_imp, false_iff, not_and]
      intro h; exact absurd h hn

theorem getLoop_spec (sup : List N) (supVals : List V) (hlen : supVals.length = sup.length) (sub : List N) :
    ((getLoop sup supVals sub).isSome = true ↔ ∀ n ∈ sub, n ∈ sup) ∧
    ∀ out, getLoop sup supVals sub = some out → List.Forall₂ (fun n v => supVals[sup.idxOf n]? = some v) sub out := by
  induction sub with
  | nil => simp [getLoop]
  | cons n l ih =>
    unfold getLoop
    by_cases hn : n ∈ sup
    · rw [if_pos hn]
      have hlt : sup.idxOf n < supVals.length := by rw [hlen]; exact List.idxOf_lt_length_of_mem hn
      rw [List.getElem?_eq_getElem hlt]
      simp only [Option.bind_eq_bind, Option.bind_some, Option.pure_def]
      constructor
      · rw [Option.isSome_bind]
        simp only [List.mem_cons, forall_eq_or_imp, hn, true_and]
        rw [← ih.1]
        cases getLoop sup supVals l <;> simp
      · intro out ho
        obtain ⟨r, hr, ho⟩ := Option.bind_eq_some_iff.1 ho
        injection ho with ho; subst ho
        exact List.Forall₂.cons (by rw [List.getElem?_eq_getElem hlt]) (ih.2 r hr)
    · rw [if_neg hn]
      simp [hn]

/-- C59, `updateFromSubset`: for duplicate-free names it fails iff some name is missing, it never changes the entry of a
joint outside the subset (even on failure), and on success every subset joint has its new value. -/
theorem C59_update (sup sub : List N) (supVals subVals : List V) (h1 : sup.Nodup) (h2 : sub.Nodup)
    (l1 : supVals.length = sup.length) (l2 : subVals.length = sub.length) :
    let r := updateFromSubset sup supVals sub subVals
    r.2.length = sup.length ∧ (r.1 = true ↔ ∀ n ∈ sub, n ∈ sup) ∧
    (∀ n ∈ sup, n ∉ sub → r.2[sup.idxOf n]? = supVals[sup.idxOf n]?) ∧
    (r.1 = true → List.Forall₂ (fun n v => r.2[sup.idxOf n]? = some v) sub subVals) := by
  intro r
  have hz : (sub.zip subVals).map Prod.fst = sub := by rw [List.map_fst_zip]; omega
  obtain ⟨i1, i2, i3, i4⟩ := updateLoop_spec sup h1 (sub.zip subVals) supVals l1 (by rw [hz]; exact h2)
  refine ⟨i1, ?_, ?_, ?_⟩
  · show (updateLoop _ _ _).1 = true ↔ _
    rw [i2]
    constructor
    · intro h n hn
      rw [← hz] at hn
      obtain ⟨p, hp, rfl⟩ := List.mem_map.1 hn
      exact h p hp
    · intro h p hp
      exact h p.1 (List.of_mem_zip hp).1
  · intro n hn hns
    exact i3 n hn (by rw [hz]; exact hns)
  · intro ht
    rw [List.forall₂_iff_zip]
    exact ⟨l2.symm, fun {a b} hab => i4 ht (a, b) hab⟩

/-- C59, `getSubset`: it fails iff some name is missing, leaves its output untouched on failure and otherwise reads the
value of every subset joint. -/
theorem C59_get (sup sub : List N) (supVals old : List V) (l1 : supVals.length = sup.length) :
    let r := getSubset sup supVals sub old
    (r.1 = true ↔ ∀ n ∈ sub, n ∈ sup) ∧ (r.1 = false → r.2 = old) ∧
    (r.1 = true → List.Forall₂ (fun n v => supVals[sup.idxOf n]? = some v) sub r.2) := by
  intro r
  obtain ⟨i1, i2⟩ := getLoop_spec sup supVals l1 sub
  cases hg : getLoop sup supVals sub with
  | none =>
    have hr : r = (false, old) := by simp [r, getSubset, hg]
    rw [hr]
    rw [hg] at i1
    refine ⟨?_, fun _ => rfl, fun h => absurd h (by simp)⟩
    rw [← i1]; simp
  | some out =>
    have hr : r = (true, out) := by simp [r, getSubset, hg]
    rw [hr]
    rw [hg] at i1
    refine ⟨?_, fun h => absurd h (by simp), fun _ => i2 out hg⟩
    rw [← i1]; simp

/-- C59, round trip: reading the subset back after writing it returns the values written. -/
theorem C59_roundtrip (sup sub : List N) (supVals subVals old : List V) (h1 : sup.Nodup) (h2 : sub.Nodup)
    (l1 : supVals.length = sup.length) (l2 : subVals.length = sub.length) (hsub : ∀ n ∈ sub, n ∈ sup) :
    ∃ new, updateFromSubset sup supVals sub subVals = (true, new) ∧ getSubset sup new sub old = (true, subVals) := by
  obtain ⟨a1, a2, a3, a4⟩ := C59_update sup sub supVals subVals h1 h2 l1 l2
  have ht := a2.2 hsub
  refine ⟨(updateFromSubset sup supVals sub subVals).2, by rw [← ht], ?_⟩
  obtain ⟨b1, b2, b3⟩ := C59_get sup sub (updateFromSubset sup supVals sub subVals).2 old a1
  have ht' := b1.2 hsub
  refine Prod.ext ht' ?_
  show _ = subVals
  have hb := b3 ht'
  have ha := a4 ht
  refine List.ext_getElem? fun i => ?_
  by_cases hi : i < sub.length
  · have e1 := (List.forall₂_iff_get.1 hb).2 i hi (by rw [← hb.length_eq]; exact hi)
    have e2 := (List.forall₂_iff_get.1 ha).2 i hi (by omega)
    rw [List.getElem?_eq_getElem (by rw [← hb.length_eq]; exact hi), List.getElem?_eq_getElem (by omega)]
    exact e1.symm.trans e2
  · rw [List.getElem?_eq_none (by rw [← hb.length_eq]; omega), List.getElem?_eq_none (by omega)]

/-- non-vacuity: three joints, two of them in the subset. -/
example : updateFromSubset ["a", "b", "c"] [1, 2, 3] ["c", "a"] [30, 10] = (true, [10, 2, 30]) ∧
    getSubset ["a", "b", "c"] [10, 2, 30] ["c", "a"] [0, 0] = (true, [30, 10]) ∧
    getSubset ["a", "b", "c"] [10, 2, 30] ["c", "x"] [7, 7] = (false, [7, 7]) := by decide

end subset

section arrays

theorem addLoop_spec (l : List (Nat × Nat × Nat)) : ∀ s : AddState,
    (l.foldl AddState.step s).names = s.names ++ l ∧ (l.foldl AddState.step s).next = s.next + l.length ∧
    ∀ k i j, ((k, i, j) ∉ l → (l.foldl AddState.step s).index k i j = s.index k i j) ∧
      (l.Nodup → ∀ p, l[p]? = some (k, i, j) → (l.foldl AddState.step s).index k i j = s.next + p) := by
  induction l with
  | nil => intro s; simp
  | cons c l ih =>
    intro s
    obtain ⟨h1, h2, h3⟩ := ih (s.step c)
    rw [List.foldl_cons]
    refine ⟨by rw [h1]; simp [AddState.step], by rw [h2]; simp [AddState.step]; omega, fun k i j => ⟨fun hn => ?_, fun hnd p hp => ?_⟩⟩
    · simp only [List.mem_cons, not_or] at hn
      rw [(h3 k i j).1 hn.2]
      simp [AddState.step, hn.1]
    · rw [List.nodup_cons] at hnd
      cases p with
      | zero =>
        simp only [List.getElem?_cons_zero, Option.some.injEq] at hp
        subst hp
        rw [(h3 k i j).1 hnd.1]
        simp [AddState.step]
      | succ p =>
        rw [List.getElem?_cons_succ] at hp
        rw [(h3 k i j).2 hnd.2 p hp]
        simp [AddState.step]; omega

theorem mem_loopCells (rows : Nat) (cols : List Nat) (k i j : Nat) :
    (k, i, j) ∈ loopCells rows cols ↔ i < rows ∧ k < cols.length ∧ j < cols.getD k 0 := by
  simp only [loopCells, List.mem_flatMap, List.mem_range, List.mem_map, Prod.mk.injEq]
  constructor
  · rintro ⟨i', h1, k', h2, j', h3, rfl, rfl, rfl⟩; exact ⟨h1, h2, h3⟩
  · rintro ⟨h1, h2, h3⟩; exact ⟨i, h1, k, h2, j, h3, rfl, rfl, rfl⟩

theorem nodup_loopCells (rows : Nat) (cols : List Nat) : (loopCells rows cols).Nodup := by
  unfold loopCells
  rw [List.nodup_flatMap]
  refine ⟨fun i _ => ?_, ?_⟩
  · rw [List.nodup_flatMap]
    refine ⟨fun k _ => List.nodup_range.map fun a b hab => by simpa using hab, ?_⟩
    refine List.nodup_range.imp_of_mem ?_
    intro a b ha hb hne
    simp only [Function.onFun, List.disjoint_left, List.mem_map]
    rintro c ⟨j, _, rfl⟩ ⟨j', _, hc⟩
    simp only [Prod.mk.injEq] at hc
    exact hne hc.1.symm
  · refine List.nodup_range.imp_of_mem ?_
    intro a b ha hb hne
    simp only [Function.onFun, List.disjoint_left, List.mem_flatMap, List.mem_map]
    rintro c ⟨k, _, j, _, rfl⟩ ⟨k', _, j', _, hc⟩
    simp only [Prod.mk.injEq] at hc
    exact hne hc.2.1.symm

/-- Position of an element of a concatenation of blocks. -/
theorem getElem?_blocks {α : Type} (f : Nat → List α) (n k r : Nat) (hk : k < n) (hr : r < (f k).length) :
    ((List.range n).flatMap f)[((List.range k).map fun i => (f i).length).sum + r]? = (f k)[r]? := by
  have hsplit : List.range n = List.range k ++ (List.range (n - k)).map (k + ·) := by
    rw [← List.range_add]; congr 1; omega
  rw [hsplit, List.flatMap_append]
  have hl : ((List.range k).flatMap f).length = ((List.range k).map fun i => (f i).length).sum := by
    simp [List.length_flatMap]
  rw [← hl, List.getElem?_append_right (by omega), Nat.add_sub_cancel_left]
  obtain ⟨m, hm⟩ : ∃ m, n - k = m + 1 := ⟨n - k - 1, by omega⟩
  rw [hm, List.range_succ_eq_map, List.map_cons, List.flatMap_cons, Nat.add_zero, List.getElem?_append_left hr]

/-- Specification of the layout: row after row, inside a row array after array, inside an array column after column. -/
def layout (cols : List Nat) (k i j : Nat) : Nat := i * cols.sum + (cols.take k).sum + j

theorem sum_range_getD (cols : List Nat) (k : Nat) (hk : k ≤ cols.length) :
    ((List.range k).map fun a => cols.getD a 0).sum = (cols.take k).sum := by
  induction k with
  | zero => simp
  | succ k ih =>
    rw [List.range_succ, List.map_append, List.sum_append, ih (by omega), List.take_add_one]
    simp [List.getD_eq_getElem?_getD, List.getElem?_eq_getElem (show k < cols.length by omega), List.sum_append,
      -List.take_append_getElem]

theorem loopCells_layout (rows : Nat) (cols : List Nat) (k i j : Nat) (hi : i < rows) (hk : k < cols.length)
    (hj : j < cols.getD k 0) : (loopCells rows cols)[layout cols k i j]? = some (k, i, j) := by
  have hrow : ∀ i : Nat, ((List.range cols.length).flatMap fun k => (List.range (cols.getD k 0)).map fun j => (k, i, j)).length =
      cols.sum := by
    intro i
    rw [List.length_flatMap]
    simp only [List.length_map, List.length_range]
    rw [sum_range_getD cols cols.length le_rfl, List.take_length]
  have hin := getElem?_blocks (fun k => (List.range (cols.getD k 0)).map fun j => (k, i, j)) cols.length k j hk (by simpa using hj)
  simp only [List.length_map, List.length_range] at hin
  rw [sum_range_getD cols k hk.le] at hin
  have hval : ((List.range (cols.getD k 0)).map fun j => (k, i, j))[j]? = some (k, i, j) := by
    rw [List.getElem?_map, List.getElem?_range hj]; rfl
  rw [hval] at hin
  have hlt : (cols.take k).sum + j < cols.sum := by
    have := (List.getElem?_eq_some_iff.1 hin).1
    rwa [hrow] at this
  have hout := getElem?_blocks (fun i => (List.range cols.length).flatMap fun k => (List.range (cols.getD k 0)).map fun j => (k, i, j))
    rows i ((cols.take k).sum + j) hi (by rw [hrow]; exact hlt)
  simp only [hrow] at hout
  rw [hin] at hout
  rw [← hout, loopCells, layout]
  simp [Nat.add_assoc]

theorem length_loopCells (rows : Nat) (cols : List Nat) : (loopCells rows cols).length = rows * cols.sum := by
  rw [loopCells, List.length_flatMap]
  have : ∀ i : Nat, ((List.range cols.length).flatMap fun k => (List.range (cols.getD k 0)).map fun j => (k, i, j)).length =
      cols.sum := by
    intro i
    rw [List.length_flatMap]
    simp only [List.length_map, List.length_range]
    rw [sum_range_getD cols cols.length le_rfl, List.take_length]
  simp only [this]
  simp

/-- C60: `AddVarArrays` asks for `rows * Σ cols` new variables and element `(k, i, j)` is the new variable number
`layout k i j`.  Every new variable is an element, and different elements are different new variables. -/
theorem C60_bijection {V : Type} (create : List V → List (Nat × Nat × Nat) → List V) (vars fresh : List V) (rows : Nat)
    (cols : List Nat) (hc : ∀ names, names.length = fresh.length → create vars names = vars ++ fresh)
    (hf : fresh.length = rows * cols.sum) :
    let r := addVarArrays create vars rows cols
    r.1 = vars ++ fresh ∧
    (∀ k i j, i < rows → k < cols.length → j < cols.getD k 0 →
      layout cols k i j < fresh.length ∧ r.2 k i j = fresh[layout cols k i j]?) ∧
    (∀ p, p < fresh.length → ∃ k i j, i < rows ∧ k < cols.length ∧ j < cols.getD k 0 ∧ layout cols k i j = p) ∧
    (∀ k i j k' i' j', i < rows → k < cols.length → j < cols.getD k 0 → i' < rows → k' < cols.length → j' < cols.getD k' 0 →
      layout cols k i j = layout cols k' i' j' → (k, i, j) = (k', i', j')) := by
  intro r
  obtain ⟨h1, h2, h3⟩ := addLoop_spec (loopCells rows cols) ⟨fun _ _ _ => 0, [], vars.length⟩
  have hnames : ((loopCells rows cols).foldl AddState.step ⟨fun _ _ _ => 0, [], vars.length⟩).names.length = fresh.length := by
    rw [h1, hf]; simp [length_loopCells]
  have hr1 : r.1 = vars ++ fresh := hc _ hnames
  refine ⟨hr1, fun k i j hi hk hj => ?_, fun p hp => ?_, fun k i j k' i' j' hi hk hj hi' hk' hj' he => ?_⟩
  · have hl := loopCells_layout rows cols k i j hi hk hj
    have hlt : layout cols k i j < fresh.length := by
      have := (List.getElem?_eq_some_iff.1 hl).1
      rw [length_loopCells] at this; omega
    refine ⟨hlt, ?_⟩
    have hidx := (h3 k i j).2 (nodup_loopCells rows cols) _ hl
    show r.1[_]? = _
    rw [hr1, hidx]
    simp [List.getElem?_append_right]
  · have hp' : p < (loopCells rows cols).length := by rw [length_loopCells]; omega
    obtain ⟨⟨k, i, j⟩, hc⟩ : ∃ c, (loopCells rows cols)[p]? = some c := ⟨_, List.getElem?_eq_getElem hp'⟩
    obtain ⟨hi, hk, hj⟩ := (mem_loopCells rows cols k i j).1 (List.mem_of_getElem? hc)
    refine ⟨k, i, j, hi, hk, hj, ?_⟩
    have hl := loopCells_layout rows cols k i j hi hk hj
    have hlt := (List.getElem?_eq_some_iff.1 hl).1
    exact (List.nodup_iff_injective_getElem.1 (nodup_loopCells rows cols) (a₁ := ⟨_, hlt⟩) (a₂ := ⟨p, hp'⟩) (by
      simp only
      have a := (List.getElem?_eq_some_iff.1 hl).2
      have b := (List.getElem?_eq_some_iff.1 hc).2
      exact a.trans b.symm) |> fun h => by simpa using h)
  · have a := loopCells_layout rows cols k i j hi hk hj
    have b := loopCells_layout rows cols k' i' j' hi' hk' hj'
    rw [he] at a
    exact Option.some.inj (a.symm.trans b)

/-- C60: therefore, if the problem's variables are distinct, different elements hold different variables and none of them
existed before. -/
theorem C60_distinct {V : Type} (create : List V → List (Nat × Nat × Nat) → List V) (vars fresh : List V) (rows : Nat)
    (cols : List Nat) (hc : ∀ names, names.length = fresh.length → create vars names = vars ++ fresh)
    (hf : fresh.length = rows * cols.sum) (hnd : (vars ++ fresh).Nodup) (k i j k' i' j' : Nat) (hi : i < rows)
    (hk : k < cols.length) (hj : j < cols.getD k 0) (hi' : i' < rows) (hk' : k' < cols.length) (hj' : j' < cols.getD k' 0) :
    ∃ v, (addVarArrays create vars rows cols).2 k i j = some v ∧ v ∉ vars ∧
      ((addVarArrays create vars rows cols).2 k' i' j' = some v → (k, i, j) = (k', i', j')) := by
  obtain ⟨a1, a2, a3, a4⟩ := C60_bijection create vars fresh rows cols hc hf
  obtain ⟨l1, e1⟩ := a2 k i j hi hk hj
  obtain ⟨l2, e2⟩ := a2 k' i' j' hi' hk' hj'
  obtain ⟨n1, n2, n3⟩ := List.nodup_append'.1 hnd
  refine ⟨fresh[layout cols k i j], by rw [e1, List.getElem?_eq_getElem l1], fun hv => n3 hv (List.getElem_mem l1), fun h => ?_⟩
  rw [e2, List.getElem?_eq_getElem l2] at h
  refine a4 k i j k' i' j' hi hk hj hi' hk' hj' ?_
  exact (n2.getElem_inj_iff.1 (Option.some.inj h)).symm

/-- non-vacuity: two arrays with 2 and 1 columns, three rows, five old variables. -/
example : let r := addVarArrays (fun vs names => vs ++ List.range' vs.length names.length) (List.range 5) 3 [2, 1]
    r.1 = List.range 14 ∧ r.2 0 1 1 = some 9 ∧ r.2 1 2 0 = some 13 := by decide

end arrays

end Verif.Problem
