import Verif.Model.Bounds
import Mathlib.Tactic.Ring
import Mathlib.Tactic.Linarith
import Mathlib.Tactic.NormNum
import Mathlib.Tactic.FieldSimp
import Mathlib.Data.List.Forall2

/-!
C11, C16, C32, C33, C40.
-/

set_option linter.unusedSectionVars false
set_option linter.unusedVariables false

namespace Verif.Bounds

universe u
variable {K : Type u} [Field K] [LinearOrder K] [IsStrictOrderedRing K]

/-! ### Specification -/

/-- `x` lies within the bounds -/
def Inside (x : K) (b : Lo K × Hi K) : Prop := (∀ l, b.1 = some l → l ≤ x) ∧ (∀ u, b.2 = some u → x ≤ u)

/-- the interval is non-empty -/
def Valid (b : Lo K × Hi K) : Prop := ∀ l u, b.1 = some l → b.2 = some u → l ≤ u

/-- a side counts as finite when it is a number of magnitude below 1e20 -/
def Fin (v : Ext K) : Prop := ∃ a : K, v = .fin a ∧ |a| < 10 ^ 20

/-- documented classification (bounds.h) -/
def TypeSpec (l u : Ext K) : BType → Prop
  | .unbounded => ¬ Fin l ∧ ¬ Fin u
  | .lowerBound => Fin l ∧ ¬ Fin u
  | .upperBound => ¬ Fin l ∧ Fin u
  | .equality => Fin l ∧ Fin u ∧ ∃ a b : K, l = .fin a ∧ u = .fin b ∧ |b - a| < 1 / 10 ^ 8
  | .rangeBound => Fin l ∧ Fin u ∧ ∃ a b : K, l = .fin a ∧ u = .fin b ∧ 1 / 10 ^ 8 ≤ |b - a|

/-- what the two sides should be after one operation -/
def SideSpec (b b' : Bounds K) : Op K → Prop
  | .set l u => b'.lower = l ∧ b'.upper = u
  | .setLower l => b'.lower = l ∧ b'.upper = b.upper
  | .setUpper u => b'.lower = b.lower ∧ b'.upper = u
  | .add d => (∀ a, b.lower = .fin a → b'.lower = .fin (a + d)) ∧
      (∀ a, b.upper = .fin a → b'.upper = .fin (a + d)) ∧
      (b.lower = .negInf → b'.lower = .negInf) ∧ (b.upper = .posInf → b'.upper = .posInf)
  | .sub d => (∀ a, b.lower = .fin a → b'.lower = .fin (a - d)) ∧
      (∀ a, b.upper = .fin a → b'.upper = .fin (a - d)) ∧
      (b.lower = .negInf → b'.lower = .negInf) ∧ (b.upper = .posInf → b'.upper = .posInf)

/-- an extended number is at most a number, and conversely -/
def LoSide (x : K) : Ext K → Prop
  | .negInf => True
  | .fin a => a ≤ x
  | .posInf => False

def HiSide (x : K) : Ext K → Prop
  | .negInf => False
  | .fin a => x ≤ a
  | .posInf => True

/-- the number lies between the two sides -/
def Admits (b : Bounds K) (x : K) : Prop := LoSide x b.lower ∧ HiSide x b.upper

/-! ### C32 -/

theorem isFinite_iff (v : Ext K) : isFinite v = true ↔ Fin v := by
  unfold Fin
  match v with
  | .negInf => simp only [isFinite, Bool.false_eq_true, false_iff]; rintro ⟨a, h, _⟩; cases h
  | .posInf => simp only [isFinite, Bool.false_eq_true, false_iff]; rintro ⟨a, h, _⟩; cases h
  | .fin a =>
    simp only [isFinite, Bool.and_eq_true, decide_eq_true_eq]
    constructor
    · rintro ⟨h1, h2⟩; exact ⟨a, rfl, abs_lt.mpr ⟨h2, h1⟩⟩
    · rintro ⟨a', h, h'⟩; cases h; exact ⟨(abs_lt.mp h').2, (abs_lt.mp h').1⟩

theorem typeOf_spec (l u : Ext K) : TypeSpec l u (typeOf l u) := by
  unfold typeOf
  have hl := isFinite_iff l
  have hu := isFinite_iff u
  cases h1 : isFinite l <;> cases h2 : isFinite u <;>
    simp only [Bool.not_false, Bool.not_true, Bool.and_true, Bool.and_false, Bool.and_self, if_true, if_false,
      Bool.false_eq_true, Bool.true_and, Bool.false_and]
  · exact ⟨fun h => by simpa [h1] using hl.mpr h, fun h => by simpa [h2] using hu.mpr h⟩
  · exact ⟨fun h => by simpa [h1] using hl.mpr h, hu.mp h2⟩
  · exact ⟨hl.mp h1, fun h => by simpa [h2] using hu.mpr h⟩
  · obtain ⟨a, rfl, ha⟩ := hl.mp h1
    obtain ⟨b, rfl, hb⟩ := hu.mp h2
    simp only [narrow, decide_eq_true_eq]
    split_ifs with c
    · exact ⟨⟨a, rfl, ha⟩, ⟨b, rfl, hb⟩, a, b, rfl, rfl, c⟩
    · exact ⟨⟨a, rfl, ha⟩, ⟨b, rfl, hb⟩, a, b, rfl, rfl, not_lt.mp c⟩

/-- C32: after construction and any sequence of mutating operations the reported type is the one documented for the
sides then held. -/
theorem C32_type_always_current (l u : Ext K) (ops : List (Op K)) :
    let b := ops.foldl Bounds.apply (Bounds.mk' l u)
    TypeSpec b.lower b.upper b.type := by
  have key : ∀ (ops : List (Op K)) (b : Bounds K), TypeSpec b.lower b.upper b.type →
      TypeSpec (ops.foldl Bounds.apply b).lower (ops.foldl Bounds.apply b).upper (ops.foldl Bounds.apply b).type := by
    intro ops
    induction ops with
    | nil => intro b h; exact h
    | cons o ops ih =>
      intro b _
      refine ih _ ?_
      cases o <;> exact typeOf_spec _ _
  exact key ops _ (typeOf_spec l u)

/-- C32: the classification is a function of the sides, i.e. exactly one type meets the documentation. -/
theorem C32_type_unique (l u : Ext K) (t t' : BType) (h : TypeSpec l u t) (h' : TypeSpec l u t') : t = t' := by
  cases t <;> cases t' <;> simp only [TypeSpec] at h h' <;> try rfl
  all_goals first
    | exact absurd h.1 h'.1
    | exact absurd h'.1 h.1
    | exact absurd h.2.1 h'.2
    | exact absurd h'.2.1 h.2
    | exact absurd h.2 h'.2
    | exact absurd h'.2 h.2
    | (obtain ⟨_, _, a, b, rfl, rfl, hb⟩ := h
       obtain ⟨_, _, a', b', ha', hb', hb''⟩ := h'
       cases ha'; cases hb'
       exact absurd hb (by first | exact not_lt.mpr hb'' | exact not_le.mpr hb''))

/-- C32: the operations act on the sides as documented (shifting by a scalar keeps infinite sides). -/
theorem C32_sides (b : Bounds K) (o : Op K) : SideSpec b (b.apply o) o := by
  cases o with
  | set l u => exact ⟨rfl, rfl⟩
  | setLower l => exact ⟨rfl, rfl⟩
  | setUpper u => exact ⟨rfl, rfl⟩
  | add d =>
    refine ⟨?_, ?_, ?_, ?_⟩ <;> simp only [Bounds.apply, Bounds.add]
    · intro a h; rw [h]; rfl
    · intro a h; rw [h]; rfl
    · intro h; rw [h]; rfl
    · intro h; rw [h]; rfl
  | sub d =>
    refine ⟨?_, ?_, ?_, ?_⟩ <;> simp only [Bounds.apply, Bounds.sub, sub_eq_add_neg]
    · intro a h; rw [h]; rfl
    · intro a h; rw [h]; rfl
    · intro h; rw [h]; rfl
    · intro h; rw [h]; rfl

/-- C32: the predefined bounds have the type and admit the numbers their names say. -/
theorem C32_constants : (default0 : Bounds K).type = .equality ∧ (noBound : Bounds K).type = .unbounded ∧
    (greaterZero : Bounds K).type = .lowerBound ∧ (smallerZero : Bounds K).type = .upperBound ∧
    ∀ x : K, (Admits default0 x ↔ x = 0) ∧ Admits noBound x ∧ (Admits greaterZero x ↔ 0 ≤ x) ∧ (Admits smallerZero x ↔ x ≤ 0) := by
  have h0 : isFinite (.fin (0 : K)) = true := by
    rw [isFinite_iff]; exact ⟨0, rfl, by simp⟩
  refine ⟨?_, ?_, ?_, ?_, fun x => ⟨?_, ?_, ?_, ?_⟩⟩
  · simp only [default0, Bounds.mk', typeOf, h0]
    simp [narrow]
  · rfl
  · simp only [greaterZero, Bounds.mk', typeOf, h0]; rfl
  · simp only [smallerZero, Bounds.mk', typeOf, h0]; rfl
  · exact ⟨fun h => le_antisymm h.2 h.1, fun h => ⟨h.ge, h.le⟩⟩
  · exact ⟨trivial, trivial⟩
  · exact ⟨fun h => h.1, fun h => ⟨h, trivial⟩⟩
  · exact ⟨fun h => h.2, fun h => ⟨trivial, h⟩⟩

example : (Bounds.mk' (.fin (-1 : ℚ)) (.fin 2)).type = .rangeBound := by decide +kernel
example : ((Bounds.mk' (.fin (-1 : ℚ)) (.posInf)).apply (.setUpper (.fin (-1)))).type = .equality := by
  decide +kernel
/-- a large but finite side counts as no bound -/
example : (Bounds.mk' (.fin (-(10 ^ 20) : ℚ)) (.fin 3)).type = .upperBound := by decide +kernel

/-! ### C33 -/

theorem clampB_inside (x : K) (b : Lo K × Hi K) (h : Valid b) : Inside (clampB x b) b := by
  obtain ⟨l, u⟩ := b
  unfold Valid at h
  cases l <;> cases u <;> simp only [Inside, clampB, maxLo, minHi]
  · simp
  · simp
  · simp
  · simp only [Option.some.injEq, forall_eq']
    exact ⟨le_min (le_max_right _ _) (h _ _ rfl rfl), min_le_right _ _⟩

theorem clampB_of_inside (x : K) (b : Lo K × Hi K) (h : Inside x b) : clampB x b = x := by
  obtain ⟨l, u⟩ := b
  obtain ⟨h1, h2⟩ := h
  cases l <;> cases u <;> simp only [clampB, maxLo, minHi]
  · exact min_eq_left (h2 _ rfl)
  · exact max_eq_left (h1 _ rfl)
  · rw [max_eq_left (h1 _ rfl)]; exact min_eq_left (h2 _ rfl)

/-- the three cases of clamping -/
theorem clampB_cases (x : K) (b : Lo K × Hi K) (h : Valid b) :
    (∃ l, b.1 = some l ∧ x < l ∧ clampB x b = l ∧ errB x b = x - l ∧ violB x b = |x - l|) ∨
    (∃ u, b.2 = some u ∧ u < x ∧ clampB x b = u ∧ errB x b = x - u ∧ violB x b = |x - u|) ∨
    (Inside x b ∧ clampB x b = x ∧ errB x b = 0 ∧ violB x b = 0) := by
  by_cases hi : Inside x b
  · refine Or.inr (Or.inr ⟨hi, clampB_of_inside x b hi, ?_, ?_⟩)
    all_goals
      obtain ⟨l, u⟩ := b
      obtain ⟨h1, h2⟩ := hi
      cases l <;> cases u <;> simp only [errB, violB]
      · rw [if_neg (not_lt.mpr (h2 _ rfl))]
      · rw [if_neg (not_lt.mpr (h1 _ rfl))]
      · rw [if_neg (not_lt.mpr (h1 _ rfl)), if_neg (not_lt.mpr (h2 _ rfl))]
  · obtain ⟨l, u⟩ := b
    unfold Inside at hi
    rw [not_and_or] at hi
    push Not at hi
    rcases hi with ⟨a, ha, hlt⟩ | ⟨a, ha, hlt⟩
    · left
      refine ⟨a, ha, hlt, ?_⟩
      simp only at ha; subst ha
      cases u with
      | none =>
        refine ⟨?_, ?_, ?_⟩
        · change max x a = a; exact max_eq_right hlt.le
        · change (if x < a then x - a else 0) = _; rw [if_pos hlt]
        · change (if x < a then |x - a| else 0) = _; rw [if_pos hlt]
      | some u =>
        have hv : a ≤ u := h a u rfl rfl
        refine ⟨?_, ?_, ?_⟩
        · change min (max x a) u = a; rw [max_eq_right hlt.le]; exact min_eq_left hv
        · change (if x < a then x - a else if u < x then x - u else 0) = _; rw [if_pos hlt]
        · change (if x < a then |x - a| else if u < x then |x - u| else 0) = _; rw [if_pos hlt]
    · right; left
      refine ⟨a, ha, hlt, ?_⟩
      simp only at ha; subst ha
      cases l with
      | none =>
        refine ⟨?_, ?_, ?_⟩
        · change min x a = a; exact min_eq_right hlt.le
        · change (if a < x then x - a else 0) = _; rw [if_pos hlt]
        · change (if a < x then |x - a| else 0) = _; rw [if_pos hlt]
      | some l =>
        have hv : l ≤ a := h l a rfl rfl
        have hn : ¬ x < l := not_lt.mpr (hv.trans hlt.le)
        refine ⟨?_, ?_, ?_⟩
        · change min (max x l) a = a; rw [max_eq_left (hv.trans hlt.le)]; exact min_eq_right hlt.le
        · change (if x < l then x - l else if a < x then x - a else 0) = _; rw [if_neg hn, if_pos hlt]
        · change (if x < l then |x - l| else if a < x then |x - a| else 0) = _; rw [if_neg hn, if_pos hlt]

/-- one-component facts used for the vector theorems -/
theorem comp_spec (x : K) (b : Lo K × Hi K) (h : Valid b) :
    Inside (clampB x b) b ∧ (∀ z, Inside z b → |x - clampB x b| ≤ |x - z|) ∧
    errB x b = x - clampB x b ∧ violB x b = |x - clampB x b| ∧ (errB x b = 0 ↔ Inside x b) ∧
    (violB x b = 0 ↔ Inside x b) ∧ 0 ≤ violB x b := by
  rcases clampB_cases x b h with ⟨l, hl, hlt, hc, he, hv⟩ | ⟨u, hu, hlt, hc, he, hv⟩ | ⟨hi, hc, he, hv⟩
  · have hni : ¬ Inside x b := fun hi => absurd hlt (not_lt.mpr (hi.1 l hl))
    refine ⟨clampB_inside x b h, ?_, by rw [hc, he], by rw [hc, hv], ?_, ?_, by rw [hv]; exact abs_nonneg _⟩
    · intro z hz
      have := hz.1 l hl
      rw [hc, abs_of_neg (by linarith), abs_of_neg (by linarith)]; linarith
    · rw [he]; exact ⟨fun h0 => by linarith, fun h => absurd h hni⟩
    · rw [hv]; exact ⟨fun h0 => by rw [abs_eq_zero] at h0; linarith, fun h => absurd h hni⟩
  · have hni : ¬ Inside x b := fun hi => absurd hlt (not_lt.mpr (hi.2 u hu))
    refine ⟨clampB_inside x b h, ?_, by rw [hc, he], by rw [hc, hv], ?_, ?_, by rw [hv]; exact abs_nonneg _⟩
    · intro z hz
      have := hz.2 u hu
      rw [hc, abs_of_pos (by linarith), abs_of_pos (by linarith)]; linarith
    · rw [he]; exact ⟨fun h0 => by linarith, fun h => absurd h hni⟩
    · rw [hv]; exact ⟨fun h0 => by rw [abs_eq_zero] at h0; linarith, fun h => absurd h hni⟩
  · refine ⟨clampB_inside x b h, ?_, by rw [hc, he, sub_self], by rw [hc, hv, sub_self, abs_zero],
      ⟨fun _ => hi, fun _ => he⟩, ⟨fun _ => hi, fun _ => hv⟩, by rw [hv]⟩
    intro z _; rw [hc, sub_self, abs_zero]; exact abs_nonneg _

/-- C33: `getClosestValidPoint` returns a vector of the same length whose components lie in the bounds and are nearest
to the input components; `calcBoundsErrors` is input minus that point and `calcBoundsViolations` its magnitude; both
vanish exactly on the components inside. -/
theorem C33_clamp_and_errors (x : List K) (bs : List (Lo K × Hi K)) (hlen : x.length = bs.length)
    (hv : ∀ b ∈ bs, Valid b) :
    (getClosestValidPoint x bs).length = x.length ∧ (calcBoundsErrors x bs).length = x.length ∧
    (calcBoundsViolations x bs).length = x.length ∧
    ∀ i (hx : i < x.length) (hb : i < bs.length) (hy : i < (getClosestValidPoint x bs).length)
      (he : i < (calcBoundsErrors x bs).length) (hw : i < (calcBoundsViolations x bs).length),
      let y := (getClosestValidPoint x bs)[i]
      let err := (calcBoundsErrors x bs)[i]
      let viol := (calcBoundsViolations x bs)[i]
      Inside y bs[i] ∧ (∀ z, Inside z bs[i] → |x[i] - y| ≤ |x[i] - z|) ∧
      err = x[i] - y ∧ viol = |err| ∧ (err = 0 ↔ Inside x[i] bs[i]) ∧ (viol = 0 ↔ Inside x[i] bs[i]) := by
  refine ⟨by simp [getClosestValidPoint, hlen], by simp [calcBoundsErrors, hlen],
    by simp [calcBoundsViolations, hlen], ?_⟩
  intro i hx hb hy he hw
  simp only [getClosestValidPoint, calcBoundsErrors, calcBoundsViolations, List.getElem_zipWith]
  obtain ⟨c1, c2, c3, c4, c5, c6, c7⟩ := comp_spec x[i] bs[i] (hv _ (List.getElem_mem hb))
  exact ⟨c1, c2, c3, by rw [c4, c3], c5, c6⟩

/-- C33: clamping twice is clamping once, and a point inside the bounds is returned unchanged. -/
theorem C33_clamp_idempotent (x : List K) (bs : List (Lo K × Hi K)) (hlen : x.length = bs.length)
    (hv : ∀ b ∈ bs, Valid b) :
    getClosestValidPoint (getClosestValidPoint x bs) bs = getClosestValidPoint x bs := by
  apply List.ext_getElem
  · simp [getClosestValidPoint, hlen]
  · intro i h1 h2
    simp only [getClosestValidPoint, List.getElem_zipWith]
    have hb : i < bs.length := by
      simp only [getClosestValidPoint, List.length_zipWith] at h2; omega
    exact clampB_of_inside _ _ (clampB_inside _ _ (hv _ (List.getElem_mem hb)))

example : getClosestValidPoint [(5 : ℚ), -3, 2] [(some 0, some 1), (none, some 7), (some 2, none)] = [1, -3, 2] := by
  decide +kernel
example : calcBoundsErrors [(5 : ℚ), -3, 2] [(some 0, some 1), (some (-1), some 7), (some 2, none)] = [4, -2, 0] := by
  decide +kernel

/-! ### C40 -/

theorem interpLoop_length (d : List K) (n : ℕ) (r : List K) : (interpLoop d n r).length = n := by
  induction n generalizing r with
  | zero => rfl
  | succ n ih => simp [interpLoop, ih]

theorem interpLoop_get (d : List K) (n : ℕ) (r : List K) (hd : r.length = d.length) (k : ℕ)
    (hk : k < (interpLoop d n r).length) (j : ℕ) (hj : j < r.length) (hj' : j < ((interpLoop d n r)[k]).length)
    (hjd : j < d.length) :
    ((interpLoop d n r)[k])[j] = r[j] + (k : K) * d[j] := by
  induction n generalizing r k with
  | zero => simp [interpLoop] at hk
  | succ n ih =>
    cases k with
    | zero => simp [interpLoop]
    | succ k =>
      simp only [interpLoop, List.getElem_cons_succ]
      rw [ih (List.zipWith (· + ·) r d) (by simp [hd]) k (by simpa [interpLoop] using hk) (by simp [hd, hjd])]
      simp only [List.getElem_zipWith]
      push_cast; ring

theorem interpLoop_elem_length (d : List K) (n : ℕ) (r : List K) (hd : r.length = d.length) :
    ∀ v ∈ interpLoop d n r, v.length = r.length := by
  induction n generalizing r with
  | zero => simp [interpLoop]
  | succ n ih =>
    intro v hv
    simp only [interpLoop, List.mem_cons] at hv
    rcases hv with rfl | hv
    · rfl
    · have := ih (List.zipWith (· + ·) r d) (by simp [hd]) v hv
      simpa [hd] using this

/-- C40: `interpolate(start, end, n)` returns `n` states; state `k` is `start + k (end - start)/(n-1)` component by
component; the first is `start`, the last is `end`, consecutive ones differ by the same vector. -/
theorem C40_interpolate (start stop : List K) (n : ℕ) (hlen : start.length = stop.length) (hn : 2 ≤ n) :
    ∃ r, interpolate start stop n = some r ∧ r.length = n ∧ r.head? = some start ∧ r.getLast? = some stop ∧
      ∀ k (hk : k < r.length) j (hs : j < start.length) (he : j < stop.length), ∃ hj : j < (r[k]).length,
        (r[k])[j] = start[j] + (k : K) * ((stop[j] - start[j]) / ((n : K) - 1)) := by
  set d := List.zipWith (fun e s => (e - s) / ((n - 1 : ℕ) : K)) stop start with hd
  have hdl : start.length = d.length := by simp [hd, hlen]
  have hcast : ((n - 1 : ℕ) : K) = (n : K) - 1 := by
    rw [Nat.cast_sub (by omega)]; simp
  have hpos : (n : K) - 1 ≠ 0 := by
    have : (2 : K) ≤ n := by exact_mod_cast hn
    intro h; linarith
  have hget : ∀ k (hk : k < (interpLoop d n start).length) j (hs : j < start.length) (he : j < stop.length),
      ∃ hj : j < ((interpLoop d n start)[k]).length,
        ((interpLoop d n start)[k])[j] = start[j] + (k : K) * ((stop[j] - start[j]) / ((n : K) - 1)) := by
    intro k hk j hs he
    have hl : ((interpLoop d n start)[k]).length = start.length :=
      interpLoop_elem_length d n start hdl _ (List.getElem_mem hk)
    refine ⟨by rw [hl]; exact hs, ?_⟩
    rw [interpLoop_get d n start hdl k hk j hs (by rw [hl]; exact hs) (by rw [← hdl]; exact hs)]
    simp only [hd, List.getElem_zipWith, hcast]
  refine ⟨interpLoop d n start, ?_, interpLoop_length d n start, ?_, ?_, hget⟩
  · unfold interpolate; rw [if_pos ⟨hlen, hn⟩]
  · obtain ⟨m, rfl⟩ : ∃ m, n = m + 1 := ⟨n - 1, by omega⟩
    rfl
  · have hlast : n - 1 < (interpLoop d n start).length := by rw [interpLoop_length]; omega
    rw [List.getLast?_eq_getElem?, interpLoop_length, List.getElem?_eq_getElem hlast, Option.some.injEq]
    have hl : ((interpLoop d n start)[n - 1]).length = start.length :=
      interpLoop_elem_length d n start hdl _ (List.getElem_mem hlast)
    apply List.ext_getElem
    · rw [hl, hlen]
    · intro j h1 h2
      obtain ⟨hj, e⟩ := hget (n - 1) hlast j (by rw [hlen]; exact h2) h2
      rw [e, hcast]; field_simp; ring

example : interpolate [(0 : ℚ), 1] [3, 1] 4 = some [[0, 1], [1, 1], [2, 1], [3, 1]] := by decide +kernel

/-! ### C16 -/

theorem stdClamp_eq (x : K) (lb : Lo K) (ub : Hi K) (hv : Valid (lb, ub)) : stdClamp x lb ub = some (clampB x (lb, ub)) := by
  unfold stdClamp
  cases lb with
  | none =>
    cases ub with
    | none => simp [clampB, maxLo, minHi, ltLo, gtHi]
    | some u =>
      by_cases c : u < x
      · simp [clampB, maxLo, minHi, ltLo, gtHi, c, c.le]
      · simp [clampB, maxLo, minHi, ltLo, gtHi, c, not_lt.mp c]
  | some l =>
    cases ub with
    | none =>
      by_cases c : x < l
      · simp [clampB, maxLo, minHi, ltLo, gtHi, c, c.le]
      · simp [clampB, maxLo, minHi, ltLo, gtHi, c, not_lt.mp c]
    | some u =>
      have hlu : l ≤ u := hv l u rfl rfl
      by_cases c : x < l
      · simp [clampB, maxLo, minHi, ltLo, gtHi, c, c.le, not_lt.mpr hlu, hlu]
      · by_cases c' : u < x
        · simp [clampB, maxLo, minHi, ltLo, gtHi, c, not_lt.mpr hlu, not_lt.mp c, c', c'.le]
        · simp [clampB, maxLo, minHi, ltLo, gtHi, c, not_lt.mpr hlu, not_lt.mp c, c', not_lt.mp c']

/-- C16: for consistent bounds and a non-negative box size the interval given to the QP is exactly the set of points
inside the variable bounds and within `box` of the current point clamped into its bounds; it contains that clamped point
(which is the current point itself when that is inside its bounds), so it is never empty. -/
theorem C16_trust_interval (box x : K) (lb : Lo K) (ub : Hi K) (hv : Valid (lb, ub)) (hb : 0 ≤ box) :
    ∃ lo hi, trustInterval box x lb ub = some (lo, hi) ∧
      ∃ xi, Inside xi (lb, ub) ∧ (∀ z, Inside z (lb, ub) → |x - xi| ≤ |x - z|) ∧ (Inside x (lb, ub) → xi = x) ∧
        lo ≤ xi ∧ xi ≤ hi ∧ ∀ y, (lo ≤ y ∧ y ≤ hi) ↔ (Inside y (lb, ub) ∧ |y - xi| ≤ box) := by
  obtain ⟨h1, h2, -⟩ := comp_spec x (lb, ub) hv
  set xi := clampB x (lb, ub) with hxi
  refine ⟨maxLo (xi - box) lb, minHi (xi + box) ub, ?_, xi, h1, h2, clampB_of_inside x _, ?_, ?_, ?_⟩
  · simp [trustInterval, stdClamp_eq x lb ub hv, hxi]
  · cases lb with
    | none => simp only [maxLo]; linarith
    | some l => exact max_le (by linarith) (h1.1 l rfl)
  · cases ub with
    | none => simp only [minHi]; linarith
    | some u => exact le_min (by linarith) (h1.2 u rfl)
  · intro y
    simp only [Inside, abs_le]
    cases lb <;> cases ub <;> simp only [maxLo, minHi, max_le_iff, le_min_iff, Option.some.injEq, forall_eq',
      reduceCtorEq, false_implies, implies_true, true_and, and_true]
    · constructor
      · rintro ⟨a, b⟩; exact ⟨by linarith, by linarith⟩
      · rintro ⟨a, b⟩; exact ⟨by linarith, by linarith⟩
    · constructor
      · rintro ⟨a, b, c⟩; exact ⟨c, by linarith, by linarith⟩
      · rintro ⟨a, b, c⟩; exact ⟨by linarith, by linarith, a⟩
    · constructor
      · rintro ⟨⟨a, b⟩, c⟩; exact ⟨b, by linarith, by linarith⟩
      · rintro ⟨a, b, c⟩; exact ⟨⟨by linarith, a⟩, by linarith⟩
    · constructor
      · rintro ⟨⟨a, b⟩, c, d⟩; exact ⟨⟨b, d⟩, by linarith, by linarith⟩
      · rintro ⟨⟨a, b⟩, c, d⟩; exact ⟨⟨by linarith, a⟩, by linarith, b⟩

/-- C16: inconsistent bounds reach `std::clamp` with `hi < lo`, which is undefined behaviour. -/
theorem C16_inconsistent_bounds_undefined (box x l u : K) (h : u < l) :
    trustInterval box x (some l) (some u) = none := by
  simp [trustInterval, stdClamp, h]

example : trustInterval (1/2 : ℚ) 3 (some 0) (some 2) = some (3/2, 2) := by decide +kernel
example : Valid ((some 0, some 2) : Lo ℚ × Hi ℚ) := by
  rintro l u h1 h2
  simp only [Option.some.injEq] at h1 h2
  rw [← h1, ← h2]; norm_num

/-! ### C11 -/

/-- C11 (partial): components at least `delta` above their lower bound are moved into `[lower + delta, upper - delta]` and
kept when already there.  Missing: components below `lower + delta` (see `C11_violated`). -/
theorem C11_closest_feasible_partial (delta x : K) (lb : Lo K) (ub : Hi K)
    (hx : ∀ l, lb = some l → l + delta ≤ x) (hne : ∀ l u, lb = some l → ub = some u → l + delta ≤ u - delta) :
    (∀ l, lb = some l → l + delta ≤ closestFeasible delta x lb ub) ∧
    (∀ u, ub = some u → closestFeasible delta x lb ub ≤ u - delta) ∧
    ((∀ u, ub = some u → x ≤ u - delta) → closestFeasible delta x lb ub = x) := by
  unfold closestFeasible
  cases ub with
  | none => exact ⟨hx, by simp, fun _ => rfl⟩
  | some u =>
    refine ⟨fun l hl => le_min (hx l hl) (hne l u hl rfl), ?_, ?_⟩
    · intro u' hu; cases hu; exact min_le_right _ _
    · intro h; exact min_eq_left (h u rfl)

/-- C11 is violated: a component below its lower bound is never raised, whatever the bounds and `delta`. -/
theorem C11_violated (delta x l : K) (ub : Hi K) (h : x < l) : closestFeasible delta x (some l) ub < l := by
  unfold closestFeasible
  cases ub with
  | none => exact h
  | some u => exact lt_of_le_of_lt (min_le_left _ _) h

/-- C11 is violated: a variable pinned by equal bounds is moved out of them. -/
theorem C11_violated_pinned (delta x : K) (hd : 0 < delta) : closestFeasible delta x (some x) (some x) < x := by
  change min x (x - delta) < x
  exact lt_of_le_of_lt (min_le_right _ _) (by linarith)

/-- C11 is violated: a point inside its bounds is changed when it is within `delta` of the upper bound, against the
documentation ("If it is already within joint limits, it will not be changed"). -/
theorem C11_violated_inside_changed (delta x : K) (lb : Lo K) (u : K) (h : u - delta < x) (hu : x ≤ u) :
    closestFeasible delta x lb (some u) ≠ x := by
  change min x (u - delta) ≠ x
  rw [min_eq_right h.le]
  exact ne_of_lt h

/-- C11: for finite bounds at least `2 delta` apart, `getCentralFeasiblePoint` returns the midpoints, which lie inside. -/
theorem C11_central (delta : K) (bs : List (K × K)) (h : ∀ b ∈ bs, b.1 + delta ≤ b.2 - delta) :
    getCentralFeasiblePoint delta bs = bs.map (fun b => (b.1 + b.2) / 2) ∧
    ∀ b ∈ bs, b.1 + delta ≤ (b.1 + b.2) / 2 ∧ (b.1 + b.2) / 2 ≤ b.2 - delta := by
  have hmid : ∀ b ∈ bs, b.1 + delta ≤ (b.1 + b.2) / 2 ∧ (b.1 + b.2) / 2 ≤ b.2 - delta := by
    intro b hb
    have := h b hb
    constructor <;> linarith
  refine ⟨?_, hmid⟩
  unfold getCentralFeasiblePoint getClosestFeasiblePoint
  clear h
  induction bs with
  | nil => rfl
  | cons b bs ih =>
    simp only [List.map_cons, List.zipWith_cons_cons]
    rw [ih (fun b hb => hmid b (by simp [hb]))]
    congr 1
    exact min_eq_left (hmid b (by simp)).2

example : getClosestFeasiblePoint (1/1000 : ℚ) [5, 0, -7] [(some (-1), some 1), (none, none), (some (-1), some 1)] =
    [999/1000, 0, -7] := by decide +kernel

end Verif.Bounds
