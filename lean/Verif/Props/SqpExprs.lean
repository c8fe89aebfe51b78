import Verif.Model.SqpExprs
import Verif.Props.OsqpRows
import Mathlib.Tactic.Linarith
import Mathlib.Tactic.LinearCombination

/-!
C27 (affine expansions), C31 (quadratic expansions, squares).
-/

set_option linter.unusedSectionVars false
set_option linter.unusedVariables false

namespace Verif.SqpExprs

open Verif.Sco Finset

universe u
variable {K : Type u} [Field K] [LinearOrder K] [IsStrictOrderedRing K]

/-! ### Rows -/

@[simp] theorem dot_nil (x : Nat → K) : dot [] x = 0 := rfl
@[simp] theorem dot_cons (q : Nat × K) (l) (x : Nat → K) : dot (q :: l) x = q.2 * x q.1 + dot l x := by simp [dot]

theorem dot_append (a b : List (Nat × K)) (x : Nat → K) : dot (a ++ b) x = dot a x + dot b x := by simp [dot]

theorem dot_scale (a : K) (r : List (Nat × K)) (x : Nat → K) : dot (scaleRow a r) x = a * dot r x := by
  induction r with
  | nil => simp [scaleRow]
  | cons q r ih =>
    have : scaleRow a (q :: r) = (q.1, q.2 * a) :: scaleRow a r := rfl
    rw [this, dot_cons, dot_cons, ih]; ring

theorem dot_sub (r : List (Nat × K)) (x y : Nat → K) : dot r (x - y) = dot r x - dot r y := by
  induction r with
  | nil => simp
  | cons q r ih => rw [dot_cons, dot_cons, dot_cons, ih, Pi.sub_apply]; ring

theorem dot_add (r : List (Nat × K)) (x y : Nat → K) : dot r (x + y) = dot r x + dot r y := by
  induction r with
  | nil => simp
  | cons q r ih => rw [dot_cons, dot_cons, dot_cons, ih, Pi.add_apply]; ring

theorem dot_entries (n : Nat) (r : List (Nat × K)) (h : ∀ q ∈ r, q.1 < n) (x : Nat → K) :
    dot r x = ∑ c ∈ range n, at' r c * x c := by
  induction r with
  | nil => simp [at']
  | cons q r ih =>
    have e : ∀ c, at' (q :: r) c * x c = (if q.1 = c then q.2 * x c else 0) + at' r c * x c := by
      intro c
      simp only [at', List.map_cons, List.sum_cons]
      by_cases h : q.1 = c <;> simp [h]
      ring
    rw [dot_cons, ih fun p hp => h p (by simp [hp])]
    simp only [e, sum_add_distrib]
    congr 1
    rw [sum_eq_single q.1]
    · simp
    · intro c _ hc; simp [Ne.symm hc]
    · intro hc; exact absurd (mem_range.2 (h q (by simp))) hc

theorem dot_dense (n : Nat) (g : Nat → K) (x : Nat → K) :
    dot ((List.range n).map fun c => (c, g c)) x = ∑ c ∈ range n, g c * x c := by
  induction n with
  | zero => simp
  | succ n ih => rw [List.range_succ, List.map_append, dot_append, ih, sum_range_succ]; simp

theorem zipIdx_sum (rows : List (List (Nat × K))) (x : Nat → K) :
    (rows.zipIdx.map fun r => x r.2 * dot r.1 x).sum = ∑ r ∈ range rows.length, x r * dot (rows.getD r []) x := by
  have key : ∀ k : Nat, ((rows.zipIdx k).map fun r => x r.2 * dot r.1 x).sum =
      ∑ r ∈ range rows.length, x (k + r) * dot (rows.getD r []) x := by
    induction rows with
    | nil => intro k; simp
    | cons a rows ih =>
      intro k
      rw [List.zipIdx_cons, List.map_cons, List.sum_cons, ih (k + 1), List.length_cons, sum_range_succ']
      simp only [List.getD_cons_succ, List.getD_cons_zero, Nat.add_zero]
      rw [add_comm]
      congr 1
      apply sum_congr rfl
      intro r _
      rw [show k + 1 + r = k + (r + 1) by omega]
  simpa using key 0

/-! ### C27 -/

/-- C27: the affine expansion is exact at the point, and everywhere for a function with that (constant) Jacobian. -/
theorem C27_create (F : (Nat → K) → List K) (J : Mat K) (x0 : Nat → K) (h : (F x0).length = J.rows.length) :
    ∃ e, Aff.create (F x0) J x0 = some e ∧ e.values x0 = some (F x0) ∧
      ((∀ x, F x = List.zipWith (fun v r => v + dot r (x - x0)) (F x0) J.rows) → ∀ x, e.values x = some (F x)) := by
  have hv : ∀ x, (Aff.mk (List.zipWith (fun v r => v - dot r x0) (F x0) J.rows) J).values x =
      some (List.zipWith (fun v r => v + dot r (x - x0)) (F x0) J.rows) := by
    intro x
    unfold Aff.values
    simp only [List.length_zipWith, h, min_self, if_true, Option.some.injEq]
    apply List.ext_getElem
    · simp [h]
    · intro i h1 h2
      simp only [List.getElem_zipWith, dot_sub]
      ring
  refine ⟨_, by unfold Aff.create; rw [if_pos h], ?_, ?_⟩
  · rw [hv]
    congr 1
    apply List.ext_getElem
    · simp [h]
    · intro i h1 h2
      simp [dot]
  · intro hF x
    rw [hv, ← hF x]

/-! ### C31 -/

/-- The matrix is the dense symmetric `n × n` matrix `h`. -/
structure Represents (H : Mat K) (n : Nat) (h : Nat → Nat → K) : Prop where
  rows : H.rows.length = n
  cols : ∀ r ∈ H.rows, ∀ q ∈ r, q.1 < n
  entry : ∀ r c, r < n → c < n → at' (H.rows.getD r []) c = h r c

/-- The quadratic function with value `f`, gradient `g` and Hessian `h` at `x0`. -/
def quadFun (n : Nat) (f : K) (g : Nat → K) (h : Nat → Nat → K) (x0 x : Nat → K) : K :=
  f + ∑ c ∈ range n, g c * (x c - x0 c) +
    1 / 2 * ∑ r ∈ range n, ∑ c ∈ range n, h r c * (x r - x0 r) * (x c - x0 c)

theorem rows_dot {H : Mat K} {n : Nat} {h : Nat → Nat → K} (hr : Represents H n h) (r : Nat) (hrn : r < n)
    (x : Nat → K) : dot (H.rows.getD r []) x = ∑ c ∈ range n, h r c * x c := by
  rw [dot_entries n]
  · apply sum_congr rfl
    intro c hc
    rw [hr.entry r c hrn (mem_range.1 hc)]
  · intro q hq
    have : r < H.rows.length := by rw [hr.rows]; exact hrn
    rw [List.getD_eq_getElem?_getD, List.getElem?_eq_getElem this, Option.getD_some] at hq
    exact hr.cols _ (List.getElem_mem this) q hq

theorem createOne_value (n : Nat) (f : K) (j : List (Nat × K)) (hj : ∀ q ∈ j, q.1 < n) (H : Mat K) (h : Nat → Nat → K)
    (hr : Represents H n h) (hsym : ∀ r c, r < n → c < n → h r c = h c r) (hn : 2 ≤ n) (hnz : H.nonZeros ≠ 0)
    (x0 x : Nat → K) : (createOne n f j H x0).1 + dot (createOne n f j H x0).2.1 x + quadPart (createOne n f j H x0).2.2 x =
      quadFun n f (at' j) h x0 x := by
  have hq : quadPart (⟨H.cols, H.rows.map (scaleRow (1 / 2))⟩ : Mat K) x =
      ((H.rows.map (scaleRow (1 / 2))).zipIdx.map fun r => x r.2 * dot r.1 x).sum := by
    unfold quadPart
    have hl := hr.rows
    match hrows : H.rows with
    | [] => rw [hrows] at hl; simp at hl; omega
    | [a] => rw [hrows] at hl; simp at hl; omega
    | a :: b :: l => rfl
  unfold createOne
  rw [if_neg hnz]
  simp only
  rw [hq, zipIdx_sum, zipIdx_sum, dot_dense, dot_entries n j hj, List.length_map, hr.rows]
  have e1 : ∀ r ∈ range n, x0 r * dot (H.rows.getD r []) x0 = ∑ c ∈ range n, h r c * x0 r * x0 c := by
    intro r hrn
    rw [rows_dot hr r (mem_range.1 hrn), mul_sum]
    apply sum_congr rfl; intro c _; ring
  have e2 : ∀ r ∈ range n, x r * dot ((H.rows.map (scaleRow (1 / 2))).getD r []) x =
      1 / 2 * ∑ c ∈ range n, h r c * x r * x c := by
    intro r hrn
    have hlt : r < H.rows.length := by rw [hr.rows]; exact mem_range.1 hrn
    have : (H.rows.map (scaleRow (1 / 2))).getD r [] = scaleRow (1 / 2) (H.rows.getD r []) := by
      simp [List.getD_eq_getElem?_getD, List.getElem?_eq_getElem hlt]
    rw [this, dot_scale, rows_dot hr r (mem_range.1 hrn), ← mul_assoc, mul_sum, mul_sum]
    apply sum_congr rfl; intro c _; ring
  have e3 : ∀ c ∈ range n, (at' j c - dot (H.rows.getD c []) x0) * x c =
      at' j c * x c - ∑ r ∈ range n, h r c * x0 r * x c := by
    intro c hc
    rw [rows_dot hr c (mem_range.1 hc), sub_mul, sum_mul]
    congr 1
    apply sum_congr rfl
    intro r hrn
    rw [hsym c r (mem_range.1 hc) (mem_range.1 hrn)]
  rw [sum_congr rfl e1, sum_congr rfl e2, sum_congr rfl e3, ← mul_sum, sum_sub_distrib]
  have e4 : ∑ c ∈ range n, ∑ r ∈ range n, h r c * x0 r * x c = ∑ r ∈ range n, ∑ c ∈ range n, h r c * x0 r * x c :=
    sum_comm
  have e5 : ∑ r ∈ range n, ∑ c ∈ range n, h r c * x r * x0 c = ∑ r ∈ range n, ∑ c ∈ range n, h r c * x0 r * x c := by
    rw [sum_comm]
    apply sum_congr rfl; intro r hrn
    apply sum_congr rfl; intro c hc
    rw [hsym c r (mem_range.1 hc) (mem_range.1 hrn)]; ring
  unfold quadFun
  have e6 : ∑ r ∈ range n, ∑ c ∈ range n, h r c * (x r - x0 r) * (x c - x0 c) =
      ∑ r ∈ range n, ∑ c ∈ range n, h r c * x r * x c - ∑ r ∈ range n, ∑ c ∈ range n, h r c * x r * x0 c -
      ∑ r ∈ range n, ∑ c ∈ range n, h r c * x0 r * x c + ∑ r ∈ range n, ∑ c ∈ range n, h r c * x0 r * x0 c := by
    rw [← sum_sub_distrib, ← sum_sub_distrib, ← sum_add_distrib]
    apply sum_congr rfl; intro r _
    rw [← sum_sub_distrib, ← sum_sub_distrib, ← sum_add_distrib]
    apply sum_congr rfl; intro c _
    ring
  have e7 : ∑ c ∈ range n, at' j c * (x c - x0 c) = ∑ c ∈ range n, at' j c * x c - ∑ c ∈ range n, at' j c * x0 c := by
    rw [← sum_sub_distrib]
    apply sum_congr rfl; intro c _; ring
  rw [e4, e6, e5, e7]
  ring

theorem zip3_getElem (n : Nat) (f : List K) (J : List (List (Nat × K))) (Hs : List (Mat K)) (x0 : Nat → K) (i : Nat)
    (h1 : i < f.length) (h2 : i < J.length) (h3 : i < Hs.length) (hlt) :
    (List.zipWith (fun fj H => createOne n fj.1 fj.2 H x0) (f.zip J) Hs)[i]'hlt = createOne n f[i] J[i] Hs[i] x0 := by
  simp

theorem create_values (old : Quad K) (f : List K) (J : Mat K) (Hs : List (Mat K)) (x0 x : Nat → K)
    (h1 : J.rows.length = f.length) (h2 : Hs.length = f.length) :
    ∃ e v, Quad.create old f J Hs x0 = some e ∧ e.values x = some v ∧ v.length = f.length ∧
      ∀ (i : Nat) fi j H, f[i]? = some fi → J.rows[i]? = some j → Hs[i]? = some H →
        v[i]? = some ((createOne J.cols fi j H x0).1 + dot (createOne J.cols fi j H x0).2.1 x +
          quadPart (createOne J.cols fi j H x0).2.2 x) := by
  set l := List.zipWith (fun fj H => createOne J.cols fj.1 fj.2 H x0) (f.zip J.rows) Hs with hl
  have hlen : l.length = f.length := by simp [hl, h1, h2]
  have hc : Quad.create old f J Hs x0 = some { old with
      constants := l.map (·.1), linear := ⟨J.cols, l.map (·.2.1)⟩, quadratic := l.map (·.2.2) } := by
    unfold Quad.create
    rw [if_pos ⟨h1, h2⟩]
  have hv : ({ old with constants := l.map (·.1), linear := ⟨J.cols, l.map (·.2.1)⟩, quadratic := l.map (·.2.2) } :
      Quad K).values x = some (l.map fun t => t.1 + dot t.2.1 x + quadPart t.2.2 x) := by
    unfold Quad.values
    simp only [List.length_map, if_true, List.zipWith_map, List.zipWith_self]
    by_cases h0 : l = []
    · simp [h0]
    · have : l.map (·.2.2) ≠ [] := by simpa using h0
      rw [if_neg this]
  refine ⟨_, _, hc, hv, by simp [hlen], ?_⟩
  intro i fi j H a1 a2 a3
  obtain ⟨b1, rfl⟩ := List.getElem?_eq_some_iff.1 a1
  obtain ⟨b2, rfl⟩ := List.getElem?_eq_some_iff.1 a2
  obtain ⟨b3, rfl⟩ := List.getElem?_eq_some_iff.1 a3
  have hlt : i < l.length := by omega
  rw [List.getElem?_map, List.getElem?_eq_getElem hlt, Option.map_some]
  simp only [hl, List.getElem_zipWith, List.getElem_zip]

/-- C31, the part that holds: with at least two variables and a Hessian with stored entries, the expansion of every
component is the quadratic with the given value, gradient and Hessian, everywhere. -/
theorem C31_create_partial (old : Quad K) (f : List K) (J : Mat K) (Hs : List (Mat K)) (hs : Nat → Nat → Nat → K)
    (x0 : Nat → K) (h1 : J.rows.length = f.length) (h2 : Hs.length = f.length) (hn : 2 ≤ J.cols)
    (hJ : ∀ r ∈ J.rows, ∀ q ∈ r, q.1 < J.cols)
    (hH : ∀ (i : Nat) H, Hs[i]? = some H → Represents H J.cols (hs i) ∧ H.nonZeros ≠ 0)
    (hsym : ∀ i r c, r < J.cols → c < J.cols → hs i r c = hs i c r) :
    ∃ e, Quad.create old f J Hs x0 = some e ∧ e.values x0 = some f ∧
      ∀ x, ∃ v, e.values x = some v ∧ v.length = f.length ∧ ∀ (i : Nat) fi j, f[i]? = some fi → J.rows[i]? = some j →
        v[i]? = some (quadFun J.cols fi (at' j) (hs i) x0 x) := by
  have key : ∀ x, ∃ e v, Quad.create old f J Hs x0 = some e ∧ e.values x = some v ∧ v.length = f.length ∧
      ∀ (i : Nat) fi j, f[i]? = some fi → J.rows[i]? = some j → v[i]? = some (quadFun J.cols fi (at' j) (hs i) x0 x) := by
    intro x
    obtain ⟨e, v, a1, a2, a3, a4⟩ := create_values old f J Hs x0 x h1 h2
    refine ⟨e, v, a1, a2, a3, ?_⟩
    intro i fi j b1 b2
    have hi : i < Hs.length := by
      have := (List.getElem?_eq_some_iff.1 b1).1; omega
    have b3 := List.getElem?_eq_getElem hi
    rw [a4 i fi j _ b1 b2 b3]
    congr 1
    obtain ⟨c1, c2⟩ := hH i _ b3
    exact createOne_value J.cols fi j (hJ j (List.mem_of_getElem? b2)) _ _ c1 (hsym i) hn c2 x0 x
  obtain ⟨e, v, a1, a2, a3, a4⟩ := key x0
  refine ⟨e, a1, ?_, ?_⟩
  · rw [a2]
    congr 1
    apply List.ext_getElem a3
    intro i q1 q2
    have := a4 i _ _ (List.getElem?_eq_getElem q2) (List.getElem?_eq_getElem (show i < J.rows.length by omega))
    rw [List.getElem?_eq_getElem q1, Option.some.injEq] at this
    rw [this]
    simp [quadFun]
  · intro x
    obtain ⟨e', v', b1, b2, b3, b4⟩ := key x
    rw [a1, Option.some.injEq] at b1
    subst b1
    exact ⟨v', b2, b3, b4⟩

/-- C31 is violated: a component without Hessian entries loses its linear part, so it is wrong at the expansion point
itself unless the linear part happens to vanish there. -/
theorem C31_violated_zero_hessian (old : Quad K) (f : List K) (J : Mat K) (Hs : List (Mat K)) (x0 : Nat → K)
    (h1 : J.rows.length = f.length) (h2 : Hs.length = f.length) (i : Nat) (fi : K) (j : List (Nat × K)) (H : Mat K)
    (a1 : f[i]? = some fi) (a2 : J.rows[i]? = some j) (a3 : Hs[i]? = some H) (hz : H.nonZeros = 0) :
    ∃ e v, Quad.create old f J Hs x0 = some e ∧ e.values x0 = some v ∧ v[i]? = some (fi - dot j x0) ∧
      (dot j x0 ≠ 0 → v[i]? ≠ some fi) := by
  obtain ⟨e, v, b1, b2, b3, b4⟩ := create_values old f J Hs x0 x0 h1 h2
  have hv : v[i]? = some (fi - dot j x0) := by
    rw [b4 i fi j H a1 a2 a3]
    simp [createOne, hz, quadPart]
  refine ⟨e, v, b1, b2, hv, fun hne h => ?_⟩
  rw [hv, Option.some.injEq] at h
  exact hne (by linarith)

/-- C31 is violated for problems of one variable: the 1 × 1 matrix is taken for a squared affine term. -/
theorem C31_violated_one_variable (old : Quad K) (f g h x0 : K) :
    ∃ e : Quad K, Quad.create old [f] ⟨1, [[(0, g)]]⟩ [⟨1, [[(0, h)]]⟩] (fun _ => x0) = some e ∧
      (∀ x, e.values x = some [quadFun 1 f (fun _ => g) (fun _ _ => h) (fun _ => x0) x +
        (h / 2 * x 0) * (h / 2 * x 0) - h / 2 * (x 0 * x 0)]) ∧
      (h ≠ 0 → h ≠ 2 → x0 ≠ 0 → e.values (fun _ => x0) ≠ some [f]) := by
  have key : ∃ e : Quad K, Quad.create old [f] ⟨1, [[(0, g)]]⟩ [⟨1, [[(0, h)]]⟩] (fun _ => x0) = some e ∧
      (∀ x, e.values x = some [quadFun 1 f (fun _ => g) (fun _ _ => h) (fun _ => x0) x +
        (h / 2 * x 0) * (h / 2 * x 0) - h / 2 * (x 0 * x 0)]) := by
    refine ⟨_, by unfold Quad.create; rw [if_pos ⟨rfl, rfl⟩], fun x => ?_⟩
    simp only [Quad.values, createOne, Mat.nonZeros, quadPart, quadFun, List.range_succ, sum_range_succ]
    simp [dot_scale, at']
    ring
  obtain ⟨e, a1, a2⟩ := key
  refine ⟨e, a1, a2, fun h1 h2 h3 hv => ?_⟩
  rw [a2] at hv
  simp only [quadFun, sub_self, mul_zero, sum_const_zero, add_zero, Option.some.injEq, List.cons.injEq, and_true] at hv
  have : h * (h - 2) * (x0 * x0) = 0 := by linear_combination 4 * hv
  rcases mul_eq_zero.1 this with q | q
  · rcases mul_eq_zero.1 q with q | q
    · exact h1 q
    · exact h2 (by linarith)
  · exact h3 (by simpa using q)

/-! ### Squares -/

theorem squareRow (a w s : K) (r : List (Nat × K)) (n : Nat) (x : Nat → K) (hs : s * s = w) :
    a * a * w + dot (scaleRow (2 * (a * w)) r) x +
      quadPart (if scaleRow s r = [] then (⟨0, []⟩ : Mat K) else ⟨n, [scaleRow s r]⟩) x = w * (a + dot r x) ^ 2 := by
  by_cases h : scaleRow s r = []
  · have hr : r = [] := by simpa [scaleRow] using h
    subst hr
    rw [if_pos h]
    simp [quadPart, scaleRow]
    ring
  · rw [if_neg h]
    simp only [quadPart, dot_scale]
    rw [← hs]; ring

/-- Weighted squares of affine values. -/
def weightedSquares : List K → List K → List K
  | w :: ws, v :: vs => w * v ^ 2 :: weightedSquares ws vs
  | _, _ => []

theorem gramTriplets_form (rows : List (List (Nat × K))) (x : Nat → K) :
    ((gramTriplets rows).map fun t => t.2.2 * x t.1 * x t.2.1).sum = (rows.map fun r => dot r x ^ 2).sum := by
  induction rows with
  | nil => rfl
  | cons r rows ih =>
    have e : gramTriplets (r :: rows) = (r.flatMap fun a => r.map fun b => (a.1, b.1, a.2 * b.2)) ++ gramTriplets rows := rfl
    rw [e, List.map_append, List.sum_append, ih, List.map_cons, List.sum_cons]
    congr 1
    have : ∀ l : List (Nat × K), ((l.flatMap fun a => r.map fun b => (a.1, b.1, a.2 * b.2)).map
        fun t => t.2.2 * x t.1 * x t.2.1).sum = dot l x * dot r x := by
      intro l
      induction l with
      | nil => simp
      | cons a l ihl =>
        rw [List.flatMap_cons, List.map_append, List.sum_append, ihl, dot_cons, add_mul]
        congr 1
        rw [List.map_map]
        have : ∀ m : List (Nat × K), (m.map ((fun t : Nat × Nat × K => t.2.2 * x t.1 * x t.2.1) ∘
            fun b => (a.1, b.1, a.2 * b.2))).sum = a.2 * x a.1 * dot m x := by
          intro m
          induction m with
          | nil => simp
          | cons b m ihm => rw [List.map_cons, List.sum_cons, ihm, dot_cons]; simp only [Function.comp]; ring
        exact this r
    rw [this r]; ring

theorem colSums_form (n : Nat) (rows : List (List (Nat × K))) (h : ∀ r ∈ rows, ∀ q ∈ r, q.1 < n) (x : Nat → K) :
    ∑ c ∈ range n, (colSums n rows).getD c 0 * x c = (rows.map fun r => dot r x).sum := by
  have e : ∀ c ∈ range n, (colSums n rows).getD c 0 * x c = (rows.map fun r => at' r c * x c).sum := by
    intro c hc
    have : (colSums n rows).getD c 0 = (rows.map fun r => at' r c).sum := by
      simp [colSums, List.getD_eq_getElem?_getD, List.getElem?_range (mem_range.1 hc)]
    rw [this, List.sum_map_mul_right]
  rw [sum_congr rfl e]
  clear e
  induction rows with
  | nil => simp
  | cons r rows ih =>
    simp only [List.map_cons, List.sum_cons, sum_add_distrib]
    rw [ih fun r' hr' => h r' (by simp [hr']), dot_entries n r (h r (by simp))]

/-- C31: squaring affine expressions with non-negative weights gives the weighted squares everywhere, and the
aggregated objective is their sum. -/
theorem C31_square (sqrt : K → K) (e : Aff K) (w : List K) (hw : w.length = e.constants.length)
    (hr : e.linear.rows.length = e.constants.length) (hsqrt : ∀ a ∈ w, sqrt a * sqrt a = a)
    (hc : ∀ r ∈ e.linear.rows, ∀ q ∈ r, q.1 < e.linear.cols) :
    ∃ Q, e.square sqrt w = some Q ∧ ∀ x, ∃ a v, e.values x = some a ∧ Q.values x = some v ∧ v = weightedSquares w a ∧
      Q.constants.sum + ∑ c ∈ range e.linear.cols, Q.objLinear.getD c 0 * x c +
        ∑ r ∈ range e.linear.cols, ∑ c ∈ range e.linear.cols, x r * Q.objQuadratic.entry r c * x c = v.sum := by
  obtain ⟨cs, n, rows⟩ := e
  simp only at hw hr hc ⊢
  set lin := List.zipWith (fun r s => scaleRow s r) rows (List.zipWith (fun a w => 2 * (a * w)) cs w) with hlin
  set bw := List.zipWith (fun r s => scaleRow s r) rows (w.map sqrt) with hbw
  have hscale : ∀ (a : K) (r : List (Nat × K)), (∀ q ∈ r, q.1 < n) → ∀ q ∈ scaleRow a r, q.1 < n := by
    intro a r h q hq
    simp only [scaleRow, List.mem_map] at hq
    obtain ⟨p, hp, rfl⟩ := hq
    exact h p hp
  have hzip : ∀ (ss : List K), ∀ r ∈ List.zipWith (fun r s => scaleRow s r) rows ss, ∀ q ∈ r, q.1 < n := by
    intro ss r hr'
    rw [List.mem_iff_getElem] at hr'
    obtain ⟨i, hi, rfl⟩ := hr'
    rw [List.getElem_zipWith]
    exact hscale _ _ (hc _ (List.getElem_mem _))
  have hrange : ∀ t ∈ gramTriplets bw, t.1 < n ∧ t.2.1 < n := by
    intro t ht
    simp only [gramTriplets, List.mem_flatMap, List.mem_map] at ht
    obtain ⟨r, hr', a, ha, b, hb, rfl⟩ := ht
    exact ⟨hzip _ r hr' a ha, hzip _ r hr' b hb⟩
  obtain ⟨H, q1, q2, q3, q4, q5, q6⟩ := setFromTriplets_spec n n (gramTriplets bw) hrange
  have hsq : (Aff.mk cs ⟨n, rows⟩).square sqrt w = some
      ⟨List.zipWith (fun a w => a * a * w) cs w, ⟨n, lin⟩,
        bw.map fun q => if q = [] then ⟨0, []⟩ else ⟨n, [q]⟩, colSums n lin, H⟩ := by
    unfold Aff.square
    simp only
    rw [if_pos ⟨hr, hw⟩, ← hbw, q1]
  refine ⟨_, hsq, fun x => ?_⟩
  have hav : (Aff.mk cs ⟨n, rows⟩).values x = some (List.zipWith (fun c r => c + dot r x) cs rows) := by
    unfold Aff.values; simp [hr]
  have hqv : (Quad.mk (List.zipWith (fun a w => a * a * w) cs w) ⟨n, lin⟩
      (bw.map fun q => if q = [] then ⟨0, []⟩ else ⟨n, [q]⟩) (colSums n lin) H).values x =
      some (weightedSquares w (List.zipWith (fun c r => c + dot r x) cs rows)) := by
    unfold Quad.values
    simp only
    rw [if_pos (by simp [hlin, hr, hw])]
    have main : ∀ (w cs : List K) (rows : List (List (Nat × K))), w.length = cs.length → rows.length = cs.length →
        (∀ a ∈ w, sqrt a * sqrt a = a) →
        List.zipWith (fun a Q => a + quadPart Q x)
          (List.zipWith (fun c r => c + dot r x) (List.zipWith (fun a w => a * a * w) cs w)
            (List.zipWith (fun r s => scaleRow s r) rows (List.zipWith (fun a w => 2 * (a * w)) cs w)))
          ((List.zipWith (fun r s => scaleRow s r) rows (w.map sqrt)).map
            fun q => if q = [] then (⟨0, []⟩ : Mat K) else ⟨n, [q]⟩) =
        weightedSquares w (List.zipWith (fun c r => c + dot r x) cs rows) := by
      intro w
      induction w with
      | nil => intro cs rows h1 h2 _; cases cs with
        | nil => cases rows <;> simp [weightedSquares]
        | cons => simp at h1
      | cons a w ih =>
        intro cs rows h1 h2 hs
        cases cs with
        | nil => simp at h1
        | cons c cs => cases rows with
          | nil => simp at h2
          | cons r rows =>
            simp only [List.zipWith_cons_cons, List.map_cons, weightedSquares]
            rw [ih cs rows (by simpa using h1) (by simpa using h2) fun a' ha' => hs a' (by simp [ha'])]
            congr 1
            exact squareRow c a (sqrt a) r n x (hs a (by simp))
    by_cases h0 : bw.map (fun q => if q = [] then (⟨0, []⟩ : Mat K) else ⟨n, [q]⟩) = []
    · rw [if_pos h0]
      have hb : bw = [] := by simpa using h0
      have : cs = [] := by
        have := congrArg List.length hb
        simp only [hbw, List.length_zipWith, List.length_map, hr, hw, min_self, List.length_nil] at this
        exact List.length_eq_zero_iff.1 this
      subst this
      have : w = [] := List.length_eq_zero_iff.1 (by simpa using hw)
      subst this
      simp [weightedSquares]
    · rw [if_neg h0, if_pos (by simp [hlin, hbw, hr, hw]), hlin, hbw, main w cs rows hw hr hsqrt]
  refine ⟨_, _, hav, hqv, rfl, ?_⟩
  simp only
  rw [colSums_form n lin (hzip _)]
  have hquad : ∑ r ∈ range n, ∑ c ∈ range n, x r * H.entry r c * x c = (bw.map fun r => dot r x ^ 2).sum := by
    simp only [q5]
    rw [form_tsum n _ hrange, gramTriplets_form]
  rw [hquad, hlin, hbw]
  have main : ∀ (w cs : List K) (rows : List (List (Nat × K))), w.length = cs.length → rows.length = cs.length →
      (∀ a ∈ w, sqrt a * sqrt a = a) →
      (List.zipWith (fun a w => a * a * w) cs w).sum +
        ((List.zipWith (fun r s => scaleRow s r) rows (List.zipWith (fun a w => 2 * (a * w)) cs w)).map
          fun r => dot r x).sum +
        ((List.zipWith (fun r s => scaleRow s r) rows (w.map sqrt)).map fun r => dot r x ^ 2).sum =
      (weightedSquares w (List.zipWith (fun c r => c + dot r x) cs rows)).sum := by
    intro w
    induction w with
    | nil => intro cs rows h1 h2 _; cases cs with
      | nil => cases rows <;> simp [weightedSquares]
      | cons => simp at h1
    | cons a w ih =>
      intro cs rows h1 h2 hs
      cases cs with
      | nil => simp at h1
      | cons c cs => cases rows with
        | nil => simp at h2
        | cons r rows =>
          simp only [List.zipWith_cons_cons, List.map_cons, weightedSquares, List.sum_cons, dot_scale]
          rw [← ih cs rows (by simpa using h1) (by simpa using h2) fun a' ha' => hs a' (by simp [ha'])]
          have := hs a (by simp)
          have e : (sqrt a * dot r x) ^ 2 = a * dot r x ^ 2 := by rw [mul_pow, pow_two (sqrt a), this]
          rw [e]
          ring
  exact main w cs rows hw hr hsqrt

/-- Two expressions of two variables. -/
def demoAff : Aff ℚ := ⟨[1, -2], ⟨2, [[(0, 3), (1, 1)], []]⟩⟩

example : (demoAff.values fun i => (i : ℚ) + 1) = some [6, -2] := by decide +kernel
example : ((demoAff.square (fun w => if w = 4 then 2 else w) [4, 1]).bind fun Q => Q.values fun i => (i : ℚ) + 1) =
    some [144, 4] := by decide +kernel

/-- A quadratic of two variables with a symmetric Hessian. -/
def demoH : Mat ℚ := ⟨2, [[(0, 2), (1, 1)], [(0, 1), (1, 4)]]⟩
example : Represents demoH 2 (fun r c => if r = 0 ∧ c = 0 then 2 else if r = 1 ∧ c = 1 then 4 else 1) := by
  refine ⟨rfl, by decide, ?_⟩
  intro r c hr hc
  have hr' : r = 0 ∨ r = 1 := by omega
  have hc' : c = 0 ∨ c = 1 := by omega
  rcases hr' with rfl | rfl <;> rcases hc' with rfl | rfl <;> decide +kernel
example : demoH.nonZeros ≠ 0 := by decide
example : ((Quad.create ⟨[], ⟨0, []⟩, [], [], ⟨0, []⟩⟩ [5] ⟨2, [[(0, 1), (1, -1)]]⟩ [demoH] fun i => (i : ℚ) + 1).bind
    fun Q => (Q.values fun i => (i : ℚ) + 1)) = some [5] := by decide +kernel
/-- The same function without the Hessian is not reproduced at the expansion point. -/
example : ((Quad.create ⟨[], ⟨0, []⟩, [], [], ⟨0, []⟩⟩ [5] ⟨2, [[(0, 1), (1, -1)]]⟩ [⟨2, [[], []]⟩]
    fun i => (i : ℚ) + 1).bind fun Q => (Q.values fun i => (i : ℚ) + 1)) = some [6] := by decide +kernel

end Verif.SqpExprs
