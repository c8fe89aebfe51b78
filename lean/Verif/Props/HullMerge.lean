import Verif.Model.HullMerge
import Mathlib.Tactic.Ring
import Mathlib.Tactic.Linarith
import Mathlib.Data.List.Perm.Basic

/-!
C165: merging convex hulls.
-/

set_option linter.unusedSectionVars false
set_option linter.unusedVariables false

namespace Verif.Vhacd

universe u v
variable {H : Type u} {K : Type v} [LinearOrder K]

/-! ### Specification -/

/-- Merging greedily: as long as it goes on, a pair with the lowest cost of all pairs is replaced by its common hull. -/
inductive Greedy (cost : H → H → K) (combine : H → H → H) : List H → List H → Prop
  | done (l : List H) : Greedy cost combine l l
  | merge {l l' rest out : List H} {a b : H} (hl : l.Perm (a :: b :: rest))
      (hmin : ∀ (i j : ℕ) (x y : H), i < j → l[i]? = some x → l[j]? = some y → cost a b ≤ cost x y)
      (hl' : l'.Perm (combine a b :: rest)) (hg : Greedy cost combine l' out) : Greedy cost combine l out

/-! ### Triangular numbers -/

/-- Number of pairs of `p` hulls, which is where the row of hull `p` starts. -/
def tri : ℕ → ℕ
  | 0 => 0
  | p + 1 => tri p + p

theorem tri_succ (p : ℕ) : tri (p + 1) = tri p + p := rfl

theorem two_tri (p : ℕ) : 2 * tri (p + 1) = p * (p + 1) := by
  induction p with
  | zero => rfl
  | succ p ih => rw [tri_succ, mul_add, ih]; ring

theorem tri_a (p : ℕ) : (p * (p + 1)) / 2 = tri (p + 1) := by
  rw [← two_tri]; omega

theorem tri_b (p : ℕ) : ((p - 1) * p) / 2 = tri p := by
  cases p with
  | zero => rfl
  | succ p => rw [Nat.add_sub_cancel]; exact tri_a p

theorem tri_c (p : ℕ) : (p * p - p) / 2 = tri p := by
  rw [← tri_b]
  congr 1
  cases p with
  | zero => rfl
  | succ p => rw [Nat.add_sub_cancel, Nat.sub_eq_iff_eq_add (by nlinarith)]; ring

theorem tri_mono {p q : ℕ} (h : p ≤ q) : tri p ≤ tri q := by
  induction q with
  | zero => rw [Nat.le_zero.mp h]
  | succ q ih =>
    rcases Nat.lt_or_ge p (q + 1) with h1 | h1
    · exact (ih (by omega)).trans (by rw [tri_succ]; omega)
    · rw [le_antisymm h h1]

theorem tri_lt {p q p' : ℕ} (h : p < p') (hq : q < p) : tri p + q < tri p' := by
  have := tri_mono (show p + 1 ≤ p' from h)
  rw [tri_succ] at this
  omega

/-- Positions of different pairs are different. -/
theorem tri_inj {p q p' q' : ℕ} (hq : q < p) (hq' : q' < p') (h : tri p + q = tri p' + q') : p = p' ∧ q = q' := by
  rcases Nat.lt_trichotomy p p' with h1 | h1 | h1
  · have := tri_lt h1 hq; omega
  · subst h1; exact ⟨rfl, by omega⟩
  · have := tri_lt h1 hq'; omega

theorem tri_split (n j : ℕ) (h : j < tri n) : ∃ p q, q < p ∧ p < n ∧ j = tri p + q := by
  induction n with
  | zero => cases h
  | succ n ih =>
    rw [tri_succ] at h
    by_cases h1 : j < tri n
    · obtain ⟨p, q, h2, h3, h4⟩ := ih h1
      exact ⟨p, q, h2, by omega, h4⟩
    · exact ⟨n, j - tri n, by omega, by omega, by omega⟩

/-- The index arithmetic of lines 1539-1541 finds the pair of a position. -/
theorem find_pair (p q : ℕ) (h : q < p) :
    (Nat.sqrt (1 + 8 * (tri p + q)) - 1) / 2 + 1 = p ∧
    tri p + q - (((Nat.sqrt (1 + 8 * (tri p + q)) - 1) / 2) * ((Nat.sqrt (1 + 8 * (tri p + q)) - 1) / 2 + 1)) / 2 = q := by
  obtain ⟨a, rfl⟩ : ∃ a, p = a + 1 := ⟨p - 1, by omega⟩
  have h2 := two_tri a
  have h1 : (Nat.sqrt (1 + 8 * (tri (a + 1) + q)) - 1) / 2 = a := by
    have hlo : 2 * a + 1 ≤ Nat.sqrt (1 + 8 * (tri (a + 1) + q)) := by
      rw [Nat.le_sqrt]; nlinarith
    have hhi : Nat.sqrt (1 + 8 * (tri (a + 1) + q)) < 2 * a + 3 := by
      rw [Nat.sqrt_lt]; nlinarith
    omega
  rw [h1, tri_a]
  exact ⟨rfl, by omega⟩

/-! ### The loops -/

theorem store_some {buf : List K} {i : ℕ} (v : K) (h : i < buf.length) : store buf i v = some (buf.set i v) := if_pos h

theorem newRow_spec (cost : H → H → K) (c : H) (hulls : List H) (k i row : ℕ) (buf : List K)
    (hi : i + k ≤ hulls.length) (hrow : row + k ≤ buf.length) :
    ∃ buf', newRow cost c hulls k i row buf = some buf' ∧ buf'.length = buf.length ∧
      (∀ j, (∀ d < k, j ≠ row + d) → buf'[j]? = buf[j]?) ∧
      (∀ d h, d < k → hulls[i + d]? = some h → buf'[row + d]? = some (cost c h)) := by
  induction k generalizing i row buf with
  | zero => exact ⟨buf, rfl, rfl, fun _ _ => rfl, fun d h hd => absurd hd (by omega)⟩
  | succ k ih =>
    have hh : hulls[i]? = some hulls[i] := List.getElem?_eq_getElem (by omega)
    obtain ⟨b, h1, h2, h3, h4⟩ := ih (i + 1) (row + 1) (buf.set row (cost c hulls[i])) (by omega) (by rw [List.length_set]; omega)
    refine ⟨b, ?_, by rw [h2, List.length_set], ?_, ?_⟩
    · unfold newRow
      rw [hh]; simp only
      rw [store_some _ (by omega)]
      exact h1
    · intro j hj
      rw [h3 j (fun d hd => by have := hj (d + 1) (by omega); omega)]
      rw [List.getElem?_set_ne]
      have := hj 0 (by omega)
      omega
    · intro d h hd hg
      cases d with
      | zero =>
        rw [h3 (row + 0) (fun e he => by omega)]
        rw [Nat.add_zero] at hg ⊢
        rw [hh] at hg; cases hg
        rw [List.getElem?_set_self (by omega)]
      | succ d =>
        have := h4 d h (by omega) (by rw [← hg]; congr 1; omega)
        rw [← this]; congr 1; omega

theorem newCol_spec (cost : H → H → K) (c : H) (hulls : List H) (q k i : ℕ) (buf : List K)
    (hi : i + k ≤ hulls.length) (hq : q < i) (hrow : tri (i + k) ≤ buf.length) :
    ∃ buf', newCol cost c hulls k i (tri i + q) buf = some buf' ∧ buf'.length = buf.length ∧
      (∀ j, (∀ d < k, j ≠ tri (i + d) + q) → buf'[j]? = buf[j]?) ∧
      (∀ d h, d < k → hulls[i + d]? = some h → buf'[tri (i + d) + q]? = some (cost c h)) := by
  induction k generalizing i buf with
  | zero => exact ⟨buf, rfl, rfl, fun _ _ => rfl, fun d h hd => absurd hd (by omega)⟩
  | succ k ih =>
    have hh : hulls[i]? = some hulls[i] := List.getElem?_eq_getElem (by omega)
    have hlt : tri i + q < buf.length := lt_of_lt_of_le (tri_lt (p' := i + (k + 1)) (by omega) hq) hrow
    obtain ⟨b, h1, h2, h3, h4⟩ := ih (i + 1) (buf.set (tri i + q) (cost c hulls[i])) (by omega) (by omega)
      (by rw [List.length_set]; rw [show i + 1 + k = i + (k + 1) by omega]; exact hrow)
    refine ⟨b, ?_, by rw [h2, List.length_set], ?_, ?_⟩
    · unfold newCol
      rw [hh]; simp only
      rw [store_some _ hlt]
      simp only
      rw [show tri i + q + i = tri (i + 1) + q by rw [tri_succ]; omega]
      exact h1
    · intro j hj
      rw [h3 j (fun d hd => by have := hj (d + 1) (by omega); rw [show i + 1 + d = i + (d + 1) by omega]; exact this)]
      rw [List.getElem?_set_ne]
      exact (hj 0 (by omega)).symm
    · intro d h hd hg
      cases d with
      | zero =>
        rw [Nat.add_zero] at hg ⊢
        rw [hh] at hg; cases hg
        rw [h3 (tri i + q) (fun e he => by have := tri_lt (p' := i + 1 + e) (show i < i + 1 + e by omega) hq; omega)]
        rw [List.getElem?_set_self hlt]
      | succ d =>
        rw [show i + (d + 1) = i + 1 + d by omega] at hg ⊢
        exact h4 d h (by omega) hg

theorem moveRow_spec (p2 k i row top : ℕ) (buf : List K) (hrt : row + k ≤ top) (htop : top + k ≤ buf.length) :
    ∃ buf', moveRow p2 k i row top buf = some buf' ∧ buf'.length = buf.length ∧
      (∀ j, (∀ d < k, i + d ≠ p2 → j ≠ row + d) → buf'[j]? = buf[j]?) ∧
      (∀ d < k, i + d ≠ p2 → buf'[row + d]? = buf[top + d]?) := by
  induction k generalizing i row top buf with
  | zero => exact ⟨buf, rfl, rfl, fun _ _ => rfl, fun d hd => absurd hd (by omega)⟩
  | succ k ih =>
    by_cases hi : i ≠ p2
    · have hh : buf[top]? = some buf[top] := List.getElem?_eq_getElem (by omega)
      obtain ⟨b, h1, h2, h3, h4⟩ := ih (i + 1) (row + 1) (top + 1) (buf.set row buf[top]) (by omega) (by rw [List.length_set]; omega)
      refine ⟨b, ?_, by rw [h2, List.length_set], ?_, ?_⟩
      · unfold moveRow
        rw [if_pos hi, hh]; simp only
        rw [store_some _ (by omega)]
        exact h1
      · intro j hj
        rw [h3 j (fun d hd hne => by have := hj (d + 1) (by omega) (by omega); omega)]
        rw [List.getElem?_set_ne]
        have := hj 0 (by omega) (by omega)
        omega
      · intro d hd hne
        cases d with
        | zero =>
          rw [h3 (row + 0) (fun e he _ => by omega), Nat.add_zero, Nat.add_zero, List.getElem?_set_self (by omega), hh]
        | succ d =>
          have := h4 d (by omega) (by omega)
          rw [show row + (d + 1) = row + 1 + d by omega, this, List.getElem?_set_ne (by omega)]
          congr 1; omega
    · have hi' : i = p2 := not_not.mp hi
      obtain ⟨b, h1, h2, h3, h4⟩ := ih (i + 1) (row + 1) (top + 1) buf (by omega) (by omega)
      refine ⟨b, ?_, h2, ?_, ?_⟩
      · unfold moveRow
        rw [if_neg hi]
        exact h1
      · intro j hj
        exact h3 j (fun d hd hne => by have := hj (d + 1) (by omega) (by omega); omega)
      · intro d hd hne
        cases d with
        | zero => exact absurd (by omega) hne
        | succ d =>
          have := h4 d (by omega) (by omega)
          rw [show row + (d + 1) = row + 1 + d by omega, this]
          congr 1; omega

theorem moveCol_spec (q k i top : ℕ) (buf : List K) (hq : q < i) (hlow : ∀ d < k, tri (i + d) + q < top) (htop : top + k ≤ buf.length) :
    ∃ buf', moveCol k i (tri i + q) top buf = some buf' ∧ buf'.length = buf.length ∧
      (∀ j, (∀ d < k, j ≠ tri (i + d) + q) → buf'[j]? = buf[j]?) ∧
      (∀ d < k, buf'[tri (i + d) + q]? = buf[top + d]?) := by
  induction k generalizing i top buf with
  | zero => exact ⟨buf, rfl, rfl, fun _ _ => rfl, fun d hd => absurd hd (by omega)⟩
  | succ k ih =>
    have hh : buf[top]? = some buf[top] := List.getElem?_eq_getElem (by omega)
    have h0 : tri i + q < top := hlow 0 (by omega)
    obtain ⟨b, h1, h2, h3, h4⟩ := ih (i + 1) (top + 1) (buf.set (tri i + q) buf[top]) (by omega)
      (fun d hd => by have := hlow (d + 1) (by omega); rw [show i + 1 + d = i + (d + 1) by omega]; omega)
      (by rw [List.length_set]; omega)
    refine ⟨b, ?_, by rw [h2, List.length_set], ?_, ?_⟩
    · unfold moveCol
      rw [hh]; simp only
      rw [store_some _ (by omega)]
      simp only
      rw [show tri i + q + i = tri (i + 1) + q by rw [tri_succ]; omega]
      exact h1
    · intro j hj
      rw [h3 j (fun d hd => by have := hj (d + 1) (by omega); rw [show i + 1 + d = i + (d + 1) by omega]; exact this)]
      rw [List.getElem?_set_ne]
      exact (hj 0 (by omega)).symm
    · intro d hd
      cases d with
      | zero =>
        rw [Nat.add_zero, Nat.add_zero]
        rw [h3 (tri i + q) (fun e he => by have := tri_lt (p' := i + 1 + e) (show i < i + 1 + e by omega) hq; omega)]
        rw [List.getElem?_set_self (by omega), hh]
      | succ d =>
        have := h4 d (by omega)
        rw [show i + (d + 1) = i + 1 + d by omega, this, List.getElem?_set_ne (by omega)]
        congr 1; omega

/-- A column that reads behind the buffer. -/
theorem moveCol_none (k i row top : ℕ) (buf : List K) (hk : 0 < k) (h : buf.length < top + k) : moveCol k i row top buf = none := by
  induction k generalizing i row top buf with
  | zero => cases hk
  | succ k ih =>
    unfold moveCol
    cases hb : buf[top]? with
    | none => rfl
    | some v =>
      simp only
      have htop := (List.getElem?_eq_some_iff.mp hb).1
      unfold store
      split_ifs
      · simp only
        exact ih _ _ _ _ (by omega) (by rw [List.length_set]; omega)
      · rfl

/-! ### The minimum -/

theorem findMin_spec (l : List K) (pre : List K) (best : Option ℕ) (min : K) (r : ℕ)
    (hpre : ∀ v ∈ pre, min ≤ v) (hbest : ∀ b, best = some b → pre[b]? = some min)
    (h : findMin pre.length best min l = some r) :
    ∃ v, (pre ++ l)[r]? = some v ∧ ∀ w ∈ pre ++ l, v ≤ w := by
  induction l generalizing pre best min with
  | nil =>
    have := hbest r h
    exact ⟨min, by simpa using this, by simpa using hpre⟩
  | cons d ds ih =>
    unfold findMin at h
    split_ifs at h with hd
    · have := ih (pre ++ [d]) (some pre.length) d (by
          intro v hv
          rcases List.mem_append.mp hv with hv | hv
          · exact (hd.trans_le (hpre v hv)).le
          · rw [List.mem_singleton.mp hv]) (by
          intro b hb; cases hb; simp) (by simpa using h)
      simpa using this
    · have := ih (pre ++ [d]) best min (by
          intro v hv
          rcases List.mem_append.mp hv with hv | hv
          · exact hpre v hv
          · rw [List.mem_singleton.mp hv]; exact not_lt.mp hd) (by
          intro b hb
          have := hbest b hb
          rw [List.getElem?_append_left (List.getElem?_eq_some_iff.mp this).1]
          exact this) (by simpa using h)
      simpa using this

theorem findMin_some (l : List K) (i : ℕ) (best : Option ℕ) (min : K) (h : best.isSome ∨ ∃ d ∈ l, d < min) :
    ∃ r, findMin i best min l = some r := by
  induction l generalizing i best min with
  | nil =>
    rcases h with h | ⟨d, hd, _⟩
    · exact Option.isSome_iff_exists.mp h
    · cases hd
  | cons d ds ih =>
    unfold findMin
    split_ifs with hd
    · exact ih _ _ _ (Or.inl rfl)
    · refine ih _ _ _ ?_
      rcases h with h | ⟨e, he, hlt⟩
      · exact Or.inl h
      · rcases List.mem_cons.mp he with rfl | he
        · exact absurd hlt hd
        · exact Or.inr ⟨e, he, hlt⟩

/-! ### One merge -/

/-- The cost matrix holds the costs of all pairs. -/
def Right (cost : H → H → K) (hulls : List H) (buf : List K) : Prop :=
  ∀ (p q : ℕ) (a b : H), q < p → hulls[p]? = some a → hulls[q]? = some b → buf[tri p + q]? = some (cost a b)

theorem mergeHulls_spec (combine : H → H → H) (hulls : List H) (m p1 p2 : ℕ) (hlen : hulls.length = m + 1) (h21 : p2 < p1) (h1 : p1 ≤ m)
    (a b : H) (ha : hulls[p1]? = some a) (hb : hulls[p2]? = some b) :
    ∃ out rest, mergeHulls combine hulls p1 p2 = some (out, combine a b) ∧ out.length = m ∧
      hulls.Perm (a :: b :: rest) ∧ out.Perm (combine a b :: rest) ∧
      out[p2]? = some (combine a b) ∧ (p1 < m → out[p1]? = hulls[m]?) ∧
      (∀ p, p < m → p ≠ p1 → p ≠ p2 → out[p]? = hulls[p]?) := by
  obtain ⟨init, t, rfl⟩ : ∃ init t, hulls = init ++ [t] := by
    rcases List.eq_nil_or_concat hulls with rfl | ⟨i, t, h⟩
    · cases hlen
    · exact ⟨i, t, by simpa using h⟩
  have hil : init.length = m := by simpa using hlen
  have hb' : init[p2]? = some b := by
    rw [List.getElem?_append_left (by omega)] at hb
    exact hb
  have hset : (init ++ [t]).set p2 (combine a b) = init.set p2 (combine a b) ++ [t] := by
    rw [List.set_append_left _ _ (by omega)]
  have hlast : ((init ++ [t]).set p2 (combine a b))[((init ++ [t]).set p2 (combine a b)).length - 1]? = some t := by
    rw [hset]
    simp [List.length_append, List.length_set]
  have hm : mergeHulls combine (init ++ [t]) p1 p2 =
      some ((((init ++ [t]).set p2 (combine a b)).set p1 t).dropLast, combine a b) := by
    unfold mergeHulls
    rw [ha, hb]
    simp only
    rw [hlast]
  have hbe : init.Perm (b :: init.eraseIdx p2) := by
    have hlt : p2 < init.length := by omega
    have : init[p2] = b := by
      rw [List.getElem?_eq_getElem hlt] at hb'
      simpa using hb'
    rw [← this]
    exact (List.getElem_cons_eraseIdx_perm hlt).symm
  have hce : (init.set p2 (combine a b)).Perm (combine a b :: init.eraseIdx p2) := List.set_perm_cons_eraseIdx (by omega) _
  by_cases hp : p1 < m
  · have hout : (((init ++ [t]).set p2 (combine a b)).set p1 t).dropLast = (init.set p2 (combine a b)).set p1 t := by
      rw [hset, List.set_append_left _ _ (by rw [List.length_set]; omega), List.dropLast_concat]
    rw [hout] at hm
    have hal : p1 < (init.set p2 (combine a b)).length := by rw [List.length_set]; omega
    have hA1 : (init.set p2 (combine a b))[p1] = a := by
      have : (init.set p2 (combine a b))[p1]? = some a := by
        rw [List.getElem?_set_ne (by omega)]
        rw [List.getElem?_append_left (by omega)] at ha
        exact ha
      rw [List.getElem?_eq_getElem hal] at this
      simpa using this
    set A := init.set p2 (combine a b) with hA
    have hAe : (a :: A.eraseIdx p1).Perm A := by
      have := List.getElem_cons_eraseIdx_perm (l := A) hal
      rw [hA1] at this
      exact this
    have hA2 : (A.eraseIdx p1)[p2]? = some (combine a b) := by
      rw [List.getElem?_eraseIdx_of_lt h21, hA, List.getElem?_set_self (by omega)]
    have hAl : p2 < (A.eraseIdx p1).length := (List.getElem?_eq_some_iff.mp hA2).1
    have hAc : (combine a b :: (A.eraseIdx p1).eraseIdx p2).Perm (A.eraseIdx p1) := by
      have := List.getElem_cons_eraseIdx_perm (l := A.eraseIdx p1) hAl
      rw [List.getElem?_eq_getElem hAl] at hA2
      rw [Option.some.inj hA2] at this
      exact this
    have hcancel : (init.eraseIdx p2).Perm (a :: (A.eraseIdx p1).eraseIdx p2) := by
      have h3 : (combine a b :: init.eraseIdx p2).Perm (combine a b :: a :: (A.eraseIdx p1).eraseIdx p2) :=
        hce.symm.trans (hAe.symm.trans ((hAc.symm.cons a).trans (List.Perm.swap _ _ _)))
      exact (List.perm_cons _).mp h3
    refine ⟨_, t :: (A.eraseIdx p1).eraseIdx p2, hm, ?_, ?_, ?_, ?_, ?_, ?_⟩
    · rw [List.length_set, hA, List.length_set]; exact hil
    · have h4 : (init ++ [t]).Perm (t :: init) := List.perm_append_comm
      have h5 : init.Perm (b :: a :: (A.eraseIdx p1).eraseIdx p2) := hbe.trans (hcancel.cons b)
      refine h4.trans ((h5.cons t).trans ?_)
      refine (List.Perm.swap _ _ _).trans (((List.Perm.swap _ _ _).cons b).trans ?_)
      exact (List.Perm.swap _ _ _)
    · have h6 : (A.set p1 t).Perm (t :: A.eraseIdx p1) := List.set_perm_cons_eraseIdx hal t
      exact h6.trans ((hAc.symm.cons t).trans (List.Perm.swap _ _ _))
    · rw [List.getElem?_set_ne (by omega), hA, List.getElem?_set_self (by omega)]
    · intro _
      rw [List.getElem?_set_self hal, List.getElem?_append_right (by omega)]
      simp [hil]
    · intro p hpm hne1 hne2
      rw [List.getElem?_set_ne (by omega), hA, List.getElem?_set_ne (by omega), List.getElem?_append_left (by omega)]
  · have hp' : p1 = m := by omega
    have hout : (((init ++ [t]).set p2 (combine a b)).set p1 t).dropLast = init.set p2 (combine a b) := by
      rw [hset, List.set_append_right _ _ (by rw [List.length_set]; omega), List.length_set]
      rw [show p1 - init.length = 0 by omega]
      simp
    rw [hout] at hm
    have hat : t = a := by
      rw [hp', List.getElem?_append_right (by omega), hil, Nat.sub_self] at ha
      simpa using ha
    subst hat
    refine ⟨_, init.eraseIdx p2, hm, by rw [List.length_set]; exact hil, ?_, hce, ?_, fun h => absurd h hp, ?_⟩
    · have h4 : (init ++ [t]).Perm (t :: init) := List.perm_append_comm
      exact h4.trans (hbe.cons t)
    · rw [List.getElem?_set_self (by omega)]
    · intro p hpm hne1 hne2
      rw [List.getElem?_set_ne (by omega), List.getElem?_append_left (by omega)]

/-- One pass of the merge loop. -/
theorem mergeStep_spec (cost : H → H → K) (combine : H → H → H) (big : K) (hulls : List H) (buf : List K) (m : ℕ)
    (hsym : ∀ a b, cost a b = cost b a) (hbig : ∀ a b, cost a b < big) (hlen : hulls.length = m + 1) (hm : 0 < m)
    (hright : Right cost hulls buf) (hcap : tri (m + 1) ≤ buf.length) :
    ∃ (p1 p2 : ℕ) (a b : H), p2 < p1 ∧ p1 ≤ m ∧ hulls[p1]? = some a ∧ hulls[p2]? = some b ∧
      (∀ (i j : ℕ) (x y : H), i < j → hulls[i]? = some x → hulls[j]? = some y → cost a b ≤ cost x y) ∧
      ((p1 < m ∧ buf.length = tri (m + 1)) → mergeStep cost combine big hulls buf (tri (m + 1)) = none) ∧
      ((p1 = m ∨ tri (m + 1) < buf.length) →
        ∃ (hulls' : List H) (buf' : List K) (rest : List H), mergeStep cost combine big hulls buf (tri (m + 1)) = some (hulls', buf', tri m) ∧
          hulls'.length = m ∧ Right cost hulls' buf' ∧ buf'.length = buf.length ∧
          hulls.Perm (a :: b :: rest) ∧ hulls'.Perm (combine a b :: rest)) := by
  -- the minimum
  have hget : ∀ p q, q < p → p ≤ m → ∃ x y, hulls[p]? = some x ∧ hulls[q]? = some y ∧ buf[tri p + q]? = some (cost x y) := by
    intro p q hq hp
    have h1 : hulls[p]? = some hulls[p] := List.getElem?_eq_getElem (by omega)
    have h2 : hulls[q]? = some hulls[q] := List.getElem?_eq_getElem (by omega)
    exact ⟨_, _, h1, h2, hright p q _ _ hq h1 h2⟩
  have htake : ∀ p q, q < p → p ≤ m → ∀ v, buf[tri p + q]? = some v → (buf.take (tri (m + 1)))[tri p + q]? = some v := by
    intro p q hq hp v hv
    rw [List.getElem?_take_of_lt (tri_lt (by omega) hq)]
    exact hv
  obtain ⟨r, hr⟩ : ∃ r, findMin 0 none big (buf.take (tri (m + 1))) = some r := by
    apply findMin_some
    right
    obtain ⟨x, y, -, -, h3⟩ := hget 1 0 (by omega) (by omega)
    exact ⟨_, List.mem_of_getElem? (htake 1 0 (by omega) (by omega) _ h3), hbig _ _⟩
  obtain ⟨v, hv, hvmin⟩ := findMin_spec (buf.take (tri (m + 1))) [] none big r (by simp) (by simp) hr
  rw [List.nil_append] at hv hvmin
  have hrlt : r < tri (m + 1) := by
    have := (List.getElem?_eq_some_iff.mp hv).1
    rw [List.length_take] at this
    omega
  obtain ⟨p1, p2, h21, h1m, rfl⟩ := tri_split _ _ hrlt
  obtain ⟨a, b, ha, hb, hab⟩ := hget p1 p2 h21 (by omega)
  have hvab : v = cost a b := by
    have := htake p1 p2 h21 (by omega) _ hab
    rw [hv] at this
    exact Option.some.inj this
  subst hvab
  obtain ⟨f1, f2⟩ := find_pair p1 p2 h21
  set addrI := (Nat.sqrt (1 + 8 * (tri p1 + p2)) - 1) / 2 with hI
  obtain ⟨out, rest, o1, o2, o3, o4, o5, o6, o7⟩ := mergeHulls_spec combine hulls m p1 p2 hlen h21 (by omega) a b ha hb
  refine ⟨p1, p2, a, b, h21, by omega, ha, hb, ?_, ?_⟩
  · intro i j x y hij hx hy
    rw [hsym x y]
    have hj : j ≤ m := by
      have := (List.getElem?_eq_some_iff.mp hy).1
      omega
    exact hvmin _ (List.mem_of_getElem? (htake j i hij hj _ (hright j i y x hij hy hx)))
  -- the new row and column
  have hpm : tri m ≤ tri (m + 1) := tri_mono (by omega)
  obtain ⟨b1, r1, r2, r3, r4⟩ := newRow_spec cost (combine a b) out p2 0 (tri p2) buf (by omega)
    (by rw [← tri_succ]; exact (tri_mono (by omega)).trans hcap)
  obtain ⟨b2, c1, c2, c3, c4⟩ := newCol_spec cost (combine a b) out p2 (m - (p2 + 1)) (p2 + 1) b1 (by omega) (by omega)
    (by rw [r2, show p2 + 1 + (m - (p2 + 1)) = m by omega]; omega)
  have hrow : tri p2 + p2 + p2 = tri (p2 + 1) + p2 := by rw [tri_succ]
  -- what the two loops did
  have hb2 : ∀ p q x y, q < p → p < m → (p = p2 ∨ q = p2) → out[p]? = some x → out[q]? = some y →
      b2[tri p + q]? = some (cost x y) := by
    intro p q x y hqp hp hor hx hy
    by_cases hpp : p = p2
    · subst hpp
      rw [c3 (tri p + q) (fun d hd he => by have := (tri_inj (by omega) (by omega) he).1; omega)]
      rw [o5] at hx; cases hx
      exact r4 q y hqp (by rw [Nat.zero_add]; exact hy)
    · have hqq : q = p2 := by tauto
      subst hqq
      rw [o5] at hy; cases hy
      have := c4 (p - (q + 1)) x (by omega) (by rw [show q + 1 + (p - (q + 1)) = p by omega]; exact hx)
      rw [show q + 1 + (p - (q + 1)) = p by omega] at this
      rw [this, hsym]
  have hb2' : ∀ p q, q < p → (p ≠ p2 ∧ (q ≠ p2 ∨ m ≤ p)) → b2[tri p + q]? = buf[tri p + q]? := by
    intro p q hqp hne
    rw [c3 _ (fun d hd he => by have := tri_inj hqp (by omega) he; omega),
      r3 _ (fun d hd he => by have := tri_inj hqp hd he; omega)]
  have hstep : ∀ X : Option (List K), moveTop m addrI p1 p2 b2 = X →
      mergeStep cost combine big hulls buf (tri (m + 1)) = X.map fun bb => (out, bb, tri m) := by
    intro X hX
    unfold mergeStep
    rw [hr]
    simp only
    rw [← hI, f2, f1, o1]
    simp only
    rw [tri_b, r1]
    simp only
    rw [hrow, o2, c1]
    simp only
    rw [hX]
    cases X with
    | none => rfl
    | some bb => simp only [Option.map_some, tri_b]
  have hidx : (addrI * p1) / 2 = tri p1 := by
    rw [← f1, tri_a]
  have htop : ∀ X, p1 < m → moveTop m addrI p1 p2 b2 = X → X =
      match moveRow p2 p1 0 (tri p1) (tri m) b2 with
      | none => none
      | some buf => moveCol (m - p1) (p1 + 1) (tri p1 + p1 + p1) (tri m + p1 + 1) buf := by
    intro X hp hX
    rw [← hX]
    unfold moveTop
    simp only
    rw [if_pos hp, hidx, tri_b]
    cases moveRow p2 p1 0 (tri p1) (tri m) b2 <;> rfl
  have hlow : tri p1 + p1 ≤ tri m ∨ m ≤ p1 := by
    by_cases hp : p1 < m
    · left; rw [← tri_succ]; exact tri_mono hp
    · right; omega
  have hts : tri (m + 1) = tri m + m := rfl
  constructor
  · rintro ⟨hp, hbl⟩
    have hX : moveTop m addrI p1 p2 b2 = none := by
      rw [htop _ hp rfl]
      obtain ⟨b3, d1, d2, -, -⟩ := moveRow_spec p2 p1 0 (tri p1) (tri m) b2 (by omega) (by rw [c2, r2, hbl]; omega)
      rw [d1]
      exact moveCol_none _ _ _ _ _ (by omega) (by rw [d2, c2, r2, hbl]; omega)
    rw [hstep _ hX]
    rfl
  · intro hor
    by_cases hp : p1 < m
    · have hbl : tri (m + 1) < buf.length := by
        rcases hor with h | h
        · omega
        · exact h
      obtain ⟨b3, d1, d2, d3, d4⟩ := moveRow_spec p2 p1 0 (tri p1) (tri m) b2 (by omega) (by rw [c2, r2]; omega)
      obtain ⟨b4, e1, e2, e3, e4⟩ := moveCol_spec p1 (m - p1) (p1 + 1) (tri m + p1 + 1) b3 (by omega)
        (fun d hd => by
          have := tri_mono (show p1 + 1 + d ≤ m by omega)
          omega) (by rw [d2, c2, r2]; omega)
      have hX : moveTop m addrI p1 p2 b2 = some b4 := by
        rw [htop _ hp rfl, d1]
        simp only
        rw [show tri p1 + p1 + p1 = tri (p1 + 1) + p1 by rw [tri_succ]]
        exact e1
      refine ⟨out, b4, rest, hstep _ hX, o2, ?_, by rw [e2, d2, c2, r2], o3, o4⟩
      obtain ⟨t, hT⟩ : ∃ t, hulls[m]? = some t := ⟨_, List.getElem?_eq_getElem (by omega)⟩
      intro p q x y hqp hx hy
      have hpm' : p < m := by
        have := (List.getElem?_eq_some_iff.mp hx).1
        omega
      by_cases hq1 : q = p1
      · -- column of p1
        subst hq1
        have h5 := e4 (p - (q + 1)) (by omega)
        rw [show q + 1 + (p - (q + 1)) = p by omega, show tri m + q + 1 + (p - (q + 1)) = tri m + p by omega] at h5
        rw [h5, d3 (tri m + p) (fun d hd _ he => by have := (tri_inj hpm' hd (by simpa using he)).1; omega),
          hb2' m p hpm' ⟨by omega, Or.inr (le_refl _)⟩]
        rw [o6 hp, hT] at hy; cases hy
        rw [o7 p hpm' (by omega) (by omega)] at hx
        rw [hright m p _ _ hpm' hT hx, hsym]
      · rw [e3 (tri p + q) (fun d hd he => hq1 (tri_inj hqp (by omega) he).2)]
        by_cases hp1 : p = p1
        · subst hp1
          by_cases hq2 : q = p2
          · subst hq2
            rw [d3 (tri p + q) (fun d hd hne he => by have := (tri_inj hqp hd he).2; omega)]
            exact hb2 p q x y hqp hpm' (Or.inr rfl) hx hy
          · rw [d4 q hqp (by omega), hb2' m q (by omega) ⟨by omega, Or.inr (le_refl _)⟩]
            rw [o6 hp, hT] at hx; cases hx
            rw [o7 q (by omega) hq1 hq2] at hy
            exact hright m q _ _ (by omega) hT hy
        · rw [d3 (tri p + q) (fun d hd _ he => hp1 (tri_inj hqp hd he).1)]
          by_cases h22 : p = p2 ∨ q = p2
          · exact hb2 p q x y hqp hpm' h22 hx hy
          · push Not at h22
            rw [hb2' p q hqp ⟨h22.1, Or.inl h22.2⟩]
            rw [o7 p hpm' hp1 h22.1] at hx
            rw [o7 q (by omega) hq1 h22.2] at hy
            exact hright p q _ _ hqp hx hy
    · have hX : moveTop m addrI p1 p2 b2 = some b2 := by
        unfold moveTop
        simp only
        rw [if_neg hp]
      refine ⟨out, b2, rest, hstep _ hX, o2, ?_, by rw [c2, r2], o3, o4⟩
      intro p q x y hqp hx hy
      have hpm' : p < m := by
        have := (List.getElem?_eq_some_iff.mp hx).1
        omega
      by_cases h22 : p = p2 ∨ q = p2
      · exact hb2 p q x y hqp hpm' h22 hx hy
      · push Not at h22
        rw [hb2' p q hqp ⟨h22.1, Or.inl h22.2⟩]
        rw [o7 p hpm' (by omega) h22.1] at hx
        rw [o7 q (by omega) (by omega) h22.2] at hy
        exact hright p q _ _ hqp hx hy

/-! ### Filling the matrix -/

theorem rows_spec (f : ℕ → List K) (k : ℕ) (hf : ∀ p < k, (f p).length = p) :
    ((List.range k).flatMap f).length = tri k ∧
    ∀ p q, q < p → p < k → ((List.range k).flatMap f)[tri p + q]? = (f p)[q]? := by
  induction k with
  | zero => exact ⟨rfl, fun p q _ h => absurd h (by omega)⟩
  | succ k ih =>
    obtain ⟨h1, h2⟩ := ih (fun p hp => hf p (by omega))
    rw [List.range_succ, List.flatMap_append, List.flatMap_singleton]
    refine ⟨by rw [List.length_append, h1, hf k (by omega), tri_succ], ?_⟩
    intro p q hq hp
    by_cases hpk : p < k
    · rw [List.getElem?_append_left (by rw [h1]; exact tri_lt hpk hq)]
      exact h2 p q hq hpk
    · have : p = k := by omega
      subst this
      rw [List.getElem?_append_right (by rw [h1]; omega), h1]
      congr 1; omega

theorem populate_row (cost : H → H → K) (hulls : List H) (p : ℕ) (a : H) (ha : hulls[p]? = some a) :
    populateRow cost hulls p = (List.range p).map fun q => cost a (hulls.getD q a) := by
  have hp := (List.getElem?_eq_some_iff.mp ha).1
  unfold populateRow
  rw [← List.filterMap_eq_map]
  apply List.filterMap_congr
  intro q hq
  have hq' : q < p := List.mem_range.mp hq
  have h2 : hulls[q]? = some hulls[q] := List.getElem?_eq_getElem (by omega)
  rw [ha, h2]
  simp only [Function.comp, List.getD_eq_getElem?_getD, h2, Option.getD_some]

theorem populate_spec (cost : H → H → K) (hulls : List H) (tail : List K) :
    (populate cost hulls).length = tri hulls.length ∧ Right cost hulls (populate cost hulls ++ tail) := by
  have hf : ∀ p < hulls.length, (populateRow cost hulls p).length = p := by
    intro p hp
    rw [populate_row cost hulls p _ (List.getElem?_eq_getElem hp), List.length_map, List.length_range]
  obtain ⟨h1, h2⟩ := rows_spec _ hulls.length hf
  refine ⟨h1, ?_⟩
  intro p q a b hq ha hb
  have hp := (List.getElem?_eq_some_iff.mp ha).1
  have hlt : tri p + q < (populate cost hulls).length := by
    unfold populate
    rw [h1]; exact tri_lt hp hq
  rw [List.getElem?_append_left hlt]
  unfold populate
  rw [h2 p q hq hp, populate_row cost hulls p a ha, List.getElem?_map, List.getElem?_range hq]
  simp only [Option.map_some, List.getD_eq_getElem?_getD, hb, Option.getD_some]

/-! ### The whole loop -/

theorem mergeLoop_safe (cost : H → H → K) (combine : H → H → H) (big : K) (maxHulls : ℕ)
    (hsym : ∀ a b, cost a b = cost b a) (hbig : ∀ a b, cost a b < big) (hmax : 0 < maxHulls)
    (k : ℕ) (hulls : List H) (buf : List K) (hk : hulls.length ≤ k) (hne : 0 < hulls.length)
    (hright : Right cost hulls buf) (hcap : tri hulls.length < buf.length) :
    ∃ out, mergeLoop cost combine big maxHulls k hulls buf (tri hulls.length) = some out ∧ Greedy cost combine hulls out ∧
      out.length = min hulls.length maxHulls := by
  induction k generalizing hulls buf with
  | zero => omega
  | succ k ih =>
    unfold mergeLoop
    by_cases hdone : hulls.length - 1 < maxHulls
    · rw [if_pos hdone]
      exact ⟨hulls, rfl, .done _, by omega⟩
    · rw [if_neg hdone]
      obtain ⟨m, hm⟩ : ∃ m, hulls.length = m + 1 := ⟨hulls.length - 1, by omega⟩
      rw [hm] at hcap
      obtain ⟨p1, p2, a, b, -, -, -, -, hmin, -, hok⟩ := mergeStep_spec cost combine big hulls buf m hsym hbig hm (by omega) hright hcap.le
      obtain ⟨hulls', buf', rest, s1, s2, s3, s4, s5, s6⟩ := hok (Or.inr hcap)
      rw [hm, s1]
      simp only
      have hlt : tri m < buf'.length := by
        rw [s4]
        have : tri (m + 1) = tri m + m := rfl
        omega
      obtain ⟨out, i1, i2, i3⟩ := ih hulls' buf' (by omega) (by omega) s3 (by rw [s2]; exact hlt)
      rw [s2] at i1 i3
      exact ⟨out, i1, .merge s5 hmin s6 i2, by omega⟩

theorem mergeLoop_result (cost : H → H → K) (combine : H → H → H) (big : K) (maxHulls : ℕ)
    (hsym : ∀ a b, cost a b = cost b a) (hbig : ∀ a b, cost a b < big) (hmax : 0 < maxHulls)
    (k : ℕ) (hulls : List H) (buf : List K) (hk : hulls.length ≤ k) (hne : 0 < hulls.length)
    (hright : Right cost hulls buf) (hcap : tri hulls.length ≤ buf.length) (out : List H)
    (h : mergeLoop cost combine big maxHulls k hulls buf (tri hulls.length) = some out) :
    Greedy cost combine hulls out ∧ out.length = min hulls.length maxHulls := by
  cases k with
  | zero => omega
  | succ k =>
    unfold mergeLoop at h
    by_cases hdone : hulls.length - 1 < maxHulls
    · rw [if_pos hdone] at h
      cases h
      exact ⟨.done _, by omega⟩
    · rw [if_neg hdone] at h
      obtain ⟨m, hm⟩ : ∃ m, hulls.length = m + 1 := ⟨hulls.length - 1, by omega⟩
      rw [hm] at hcap h
      obtain ⟨p1, p2, a, b, -, h1m, -, -, hmin, hbad, hok⟩ :=
        mergeStep_spec cost combine big hulls buf m hsym hbig hm (by omega) hright hcap
      by_cases hsafe : p1 = m ∨ tri (m + 1) < buf.length
      · obtain ⟨hulls', buf', rest, s1, s2, s3, s4, s5, s6⟩ := hok hsafe
        clear hok hbad hsafe
        rw [s1] at h
        simp only at h
        have hlt : tri m < buf'.length := by
          rw [s4]
          have : tri (m + 1) = tri m + m := rfl
          omega
        obtain ⟨out', i1, i2, i3⟩ := mergeLoop_safe cost combine big maxHulls hsym hbig hmax k hulls' buf' (by omega) (by omega) s3
          (by rw [s2]; exact hlt)
        rw [s2, h] at i1
        cases i1
        exact ⟨.merge s5 hmin s6 i2, by omega⟩
      · rw [hbad ⟨by omega, by omega⟩] at h
        cases h

/-! ### Property theorems -/

/-- C165: whenever the merge runs without undefined behaviour, it is greedy (every step merges a pair with the lowest cost of all pairs of the
hulls present at that step) and leaves exactly as many hulls as allowed, or all of them if there were not more. -/
theorem C165_result (cost : H → H → K) (combine : H → H → H) (big : K) (maxHulls : ℕ) (junk : ℕ → K) (hulls out : List H)
    (hsym : ∀ a b, cost a b = cost b a) (hbig : ∀ a b, cost a b < big) (hmax : 0 < maxHulls)
    (h : mergeConvexHulls cost combine big maxHulls junk hulls = some out) :
    Greedy cost combine hulls out ∧ out.length = min hulls.length maxHulls := by
  unfold mergeConvexHulls at h
  split_ifs at h with hn
  · simp only [tri_c] at h
    obtain ⟨h1, h2⟩ := populate_spec cost hulls
      ((List.range (capacity (tri hulls.length) - (populate cost hulls).length)).map junk)
    exact mergeLoop_result cost combine big maxHulls hsym hbig hmax _ hulls _ (le_refl _) (by omega) h2
      (by rw [List.length_append, h1]; omega) out h
  · cases h
    exact ⟨.done _, by omega⟩

/-- C165 (partial): up to eleven hulls are always merged.  Missing: more hulls (`C165_violated_overread`). -/
theorem C165_defined_partial (cost : H → H → K) (combine : H → H → H) (big : K) (maxHulls : ℕ) (junk : ℕ → K) (hulls : List H)
    (hsym : ∀ a b, cost a b = cost b a) (hbig : ∀ a b, cost a b < big) (hmax : 0 < maxHulls) (hn : hulls.length ≤ 11) :
    ∃ out, mergeConvexHulls cost combine big maxHulls junk hulls = some out := by
  unfold mergeConvexHulls
  split_ifs with h1
  · simp only [tri_c]
    obtain ⟨p1, p2⟩ := populate_spec cost hulls
      ((List.range (capacity (tri hulls.length) - (populate cost hulls).length)).map junk)
    have ht : tri hulls.length ≤ 55 := tri_mono hn
    obtain ⟨out, h2, -⟩ := mergeLoop_safe cost combine big maxHulls hsym hbig hmax hulls.length hulls _ (le_refl _) (by omega) p2
      (by
        rw [List.length_append, p1, List.length_map, List.length_range]
        unfold capacity
        rw [if_neg (by omega)]
        omega)
    exact ⟨out, h2⟩
  · exact ⟨hulls, rfl⟩

/-- C165 is violated for twelve and more hulls: if more hulls are there than allowed and the last one is not in a cheapest pair, the first merge
reads the element behind the buffer of the cost matrix (1604, last pass). -/
theorem C165_violated_overread (cost : H → H → K) (combine : H → H → H) (big : K) (maxHulls : ℕ) (junk : ℕ → K) (hulls : List H)
    (last : H) (hsym : ∀ a b, cost a b = cost b a) (hbig : ∀ a b, cost a b < big) (hn : 11 < hulls.length) (hmax : maxHulls < hulls.length)
    (hlast : hulls[hulls.length - 1]? = some last)
    (hcheap : ∃ (i j : ℕ) (x y : H), i < j ∧ hulls[i]? = some x ∧ hulls[j]? = some y ∧
      ∀ (k : ℕ) (z : H), k < hulls.length - 1 → hulls[k]? = some z → cost x y < cost last z) :
    mergeConvexHulls cost combine big maxHulls junk hulls = none := by
  unfold mergeConvexHulls
  rw [if_pos (by omega)]
  simp only [tri_c]
  obtain ⟨m, hm⟩ : ∃ m, hulls.length = m + 1 := ⟨hulls.length - 1, by omega⟩
  obtain ⟨h1, h2⟩ := populate_spec cost hulls
    ((List.range (capacity (tri hulls.length) - (populate cost hulls).length)).map junk)
  have ht : 66 ≤ tri hulls.length := tri_mono (show 12 ≤ hulls.length by omega)
  have hlen : (populate cost hulls ++
      (List.range (capacity (tri hulls.length) - (populate cost hulls).length)).map junk).length = tri (m + 1) := by
    rw [List.length_append, h1, List.length_map, List.length_range, hm]
    unfold capacity
    rw [hm] at ht
    rw [if_pos (by omega)]
    omega
  rw [hm]
  rw [hm] at hlen h2
  unfold mergeLoop
  rw [if_neg (by omega)]
  obtain ⟨p1, p2, a, b, h21, h1m, ha, hb, hmin, hbad, -⟩ :=
    mergeStep_spec cost combine big hulls _ m hsym hbig hm (by omega) h2 hlen.ge
  have hp : p1 < m := by
    by_contra hp
    have hp1 : p1 = m := by omega
    subst hp1
    obtain ⟨i, j, x, y, hij, hx, hy, hc⟩ := hcheap
    have h5 := hmin i j x y hij hx hy
    rw [hm, Nat.add_sub_cancel, ha] at hlast
    cases hlast
    have h6 := hc p2 b (by omega) hb
    exact absurd h5 (not_le.mpr h6)
  rw [hbad ⟨hp, hlen⟩]

/-- C165: every hull before the merge is contained in a hull after it, for any notion of containment for which a common hull contains both. -/
theorem C165_covers (cost : H → H → K) (combine : H → H → H) (big : K) (maxHulls : ℕ) (junk : ℕ → K) (hulls out : List H)
    (le : H → H → Prop) (hrefl : ∀ a, le a a) (htrans : ∀ a b c, le a b → le b c → le a c)
    (hleft : ∀ a b, le a (combine a b)) (hright : ∀ a b, le b (combine a b))
    (hsym : ∀ a b, cost a b = cost b a) (hbig : ∀ a b, cost a b < big) (hmax : 0 < maxHulls)
    (h : mergeConvexHulls cost combine big maxHulls junk hulls = some out) :
    ∀ x ∈ hulls, ∃ o ∈ out, le x o := by
  have hg := (C165_result cost combine big maxHulls junk hulls out hsym hbig hmax h).1
  clear h
  induction hg with
  | done l => exact fun x hx => ⟨x, hx, hrefl x⟩
  | @merge l l' rest o a b hl _ hl' _ ih =>
    intro x hx
    have hx' := hl.mem_iff.mp hx
    rcases List.mem_cons.mp hx' with rfl | hx'
    · obtain ⟨w, hw, hle⟩ := ih _ (hl'.mem_iff.mpr List.mem_cons_self)
      exact ⟨w, hw, htrans _ _ _ (hleft _ _) hle⟩
    · rcases List.mem_cons.mp hx' with rfl | hx'
      · obtain ⟨w, hw, hle⟩ := ih _ (hl'.mem_iff.mpr List.mem_cons_self)
        exact ⟨w, hw, htrans _ _ _ (hright _ _) hle⟩
      · exact ih x (hl'.mem_iff.mpr (List.mem_cons_of_mem _ hx'))

/-- C165 is violated for `m_maxConvexHulls = 0`: with two hulls or more the loop goes on until it merges at index -1. -/
theorem C165_violated_zero (cost : H → H → K) (combine : H → H → H) (big : K) (junk : ℕ → K) (hulls : List H) (hn : 1 < hulls.length) :
    mergeConvexHulls cost combine big 0 junk hulls = none := by
  have : ∀ (k : ℕ) (hulls : List H) (buf : List K) (size : ℕ), mergeLoop cost combine big 0 k hulls buf size = none := by
    intro k
    induction k with
    | zero => intros; rfl
    | succ k ih =>
      intro hulls buf size
      unfold mergeLoop
      rw [if_neg (by omega)]
      split
      · rfl
      · exact ih _ _ _
  unfold mergeConvexHulls
  rw [if_pos hn]
  exact this _ _ _ _

/-! ### Examples: hulls are intervals, the cost is the length of the gap -/

/-- Intervals of natural numbers. -/
abbrev Iv := ℕ × ℕ

def ivJoin (a b : Iv) : Iv := (min a.1 b.1, max a.2 b.2)

def ivCost (a b : Iv) : ℕ := (max a.2 b.2 - min a.1 b.1) - ((a.2 - a.1) + (b.2 - b.1))

/-- Five intervals are merged to three. -/
example : mergeConvexHulls ivCost ivJoin 1000 3 (fun _ => 7) [(0, 1), (10, 11), (3, 4), (12, 13), (100, 101)] =
    some [(0, 4), (10, 13), (100, 101)] := by decide +kernel

/-- Twelve intervals: the matrix has 66 elements, the 67th is read. -/
example : mergeConvexHulls ivCost ivJoin 1000 11 (fun _ => 7) ((List.range 12).map fun i => (i * i, i * i)) = none := by decide +kernel

example : (∀ a b, ivCost a b = ivCost b a) := by
  intro a b
  unfold ivCost
  rw [max_comm, min_comm, Nat.add_comm (a.2 - a.1)]

end Verif.Vhacd
