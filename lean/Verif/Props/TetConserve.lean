import Verif.Props.TetClip

set_option linter.unusedSectionVars false
set_option linter.unusedVariables false

/-!
# C173: cutting keeps the volume

What the cuts of a tetrahedron in general position come to.  A corner cut off is one tetrahedron.  The rest
is a prism over a triangle; if two corners are on each side, both parts are wedges.  The loops over
tables and faces are followed for each of these forms.
-/

namespace Verif.TetClip

open Verif.Voxel Verif.MeshVol

variable {K : Type*} [Field K] [LinearOrder K] [IsStrictOrderedRing K] [FloorRing K]

/-! ### Signs -/

theorem pos_of_pos {X m V : K} (h : X = m * V) (hm : 0 < m) (hV : 0 < V) : 0 < X := h ▸ mul_pos hm hV

theorem pos_of_neg {X m V : K} (h : X = -m * V) (hm : 0 < m) (hV : V < 0) : 0 < X := by
  have := mul_pos hm (neg_pos.2 hV); rw [h]; linarith

theorem nonpos_of_neg {X m V : K} (h : X = -m * V) (hm : 0 < m) (hV : 0 < V) : X ≤ 0 := by
  have := mul_pos hm hV; rw [h]; linarith

theorem nonpos_of_pos {X m V : K} (h : X = m * V) (hm : 0 < m) (hV : V < 0) : X ≤ 0 := by
  have := mul_pos hm (neg_pos.2 hV); rw [h]; linarith

theorem nonpos_of_zero {X V : K} (h : X = 0 * V) : X ≤ 0 := by rw [h, zero_mul]

theorem vol_of_pos {X m V : K} (h : X = m * V) (hm : 0 < m) (hV : 0 < V) : X = m * |V| := by
  rw [h, abs_of_pos hV]

theorem vol_of_neg {X m V : K} (h : X = -m * V) (hm : 0 < m) (hV : V < 0) : X = m * |V| := by
  rw [h, abs_of_neg hV]; ring

theorem absP {X m V : K} (h : X = m * V) (hm : 0 < m) : |X| = m * |V| := by
  rw [h, abs_mul, abs_of_pos hm]

theorem absN {X m V : K} (h : X = -m * V) (hm : 0 < m) : |X| = m * |V| := by
  rw [h, abs_mul, abs_neg, abs_of_pos hm]

theorem lt_one2 {a b : K} (ha : 0 < a) (ha' : a < 1) (hb : b ≤ 1) : a * b < 1 :=
  lt_of_le_of_lt (mul_le_of_le_one_right ha.le hb) ha'

theorem small_le {τ v ε a b c m : K} (hτ : 0 < τ) (hv : 0 < v) (hε : ε ≤ τ * τ * τ * v) (ha : τ ≤ a ∧ a ≤ 1)
    (hb : τ ≤ b ∧ b ≤ 1) (hc : τ ≤ c ∧ c ≤ 1) (hm : m = a * b * c) : ε ≤ m * v := by
  refine hε.trans (mul_le_mul_of_nonneg_right ?_ hv.le)
  rw [hm]
  have h1 : τ * τ ≤ a * b := mul_le_mul ha.1 hb.1 hτ.le (hτ.le.trans ha.1)
  exact mul_le_mul h1 hc.1 hτ.le ((mul_pos hτ hτ).le.trans h1)

theorem orient_pos {t : Tet K} {m : K} (hm : 0 < m) (q : vol t = m) : orient t = t := by
  unfold orient
  exact if_neg (by rw [q]; exact not_lt.2 hm.le)

theorem orient_neg {t : Tet K} {m : K} (hm : 0 < m) (q : vol (⟨t.p1, t.p0, t.p2, t.p3, t.data⟩ : Tet K) = m) :
    orient t = ⟨t.p1, t.p0, t.p2, t.p3, t.data⟩ := by
  unfold orient
  rw [vol_swap] at q
  exact if_pos (by linarith)

/-! ### The largest tetrahedron of the table -/

/-- The volume of a row. -/
def tvol (ps : List (V3 K)) (h : ℕ × ℕ × ℕ × ℕ × ℕ) : K :=
  vol4 (tableStep.pt ps h.2.1) (tableStep.pt ps h.2.2.1) (tableStep.pt ps h.2.2.2.1) (tableStep.pt ps h.2.2.2.2)

/-- The tetrahedron of a row. -/
def tetOf (ps : List (V3 K)) (h : ℕ × ℕ × ℕ × ℕ × ℕ) : Tet K :=
  ⟨tableStep.pt ps h.2.1, tableStep.pt ps h.2.2.1, tableStep.pt ps h.2.2.2.1, tableStep.pt ps h.2.2.2.2, Val.on⟩

theorem step_eq (ps : List (V3 K)) (st : K × Option (ℕ × Tet K)) (h0 : 0 ≤ st.1) (h : ℕ × ℕ × ℕ × ℕ × ℕ) :
    tableStep ps st h = if st.1 < |tvol ps h| then (|tvol ps h|, some (h.1, orient (tetOf ps h))) else st := by
  have hv : vol (tetOf ps h) = tvol ps h := rfl
  show (if st.1 < tvol ps h then _ else if st.1 < -tvol ps h then _ else _) = _
  by_cases h1 : st.1 < tvol ps h
  · have hp : 0 < tvol ps h := lt_of_le_of_lt h0 h1
    rw [if_pos h1, abs_of_pos hp, if_pos h1, orient_pos hp hv]; rfl
  · rw [if_neg h1]
    by_cases h2 : st.1 < -tvol ps h
    · have hp : tvol ps h < 0 := by linarith
      rw [if_pos h2, abs_of_neg hp, if_pos h2]
      have : orient (tetOf ps h) = ⟨(tetOf ps h).p1, (tetOf ps h).p0, (tetOf ps h).p2, (tetOf ps h).p3, (tetOf ps h).data⟩ := by
        refine orient_neg (m := -tvol ps h) (by linarith) ?_
        rw [vol_swap, hv]
      rw [this]; rfl
    · rw [if_neg h2, if_neg]
      rcases abs_cases (tvol ps h) with ⟨h, -⟩ | ⟨h, -⟩ <;> rw [h] <;> assumption

theorem fold_after {ps : List (V3 K)} : ∀ (l : List (ℕ × ℕ × ℕ × ℕ × ℕ)) (st : K × Option (ℕ × Tet K)), 0 ≤ st.1 →
    (∀ h ∈ l, |tvol ps h| ≤ st.1) → l.foldl (tableStep ps) st = st := by
  intro l
  induction l with
  | nil => intro st _ _; rfl
  | cons h l ih =>
    intro st h0 hl
    rw [List.foldl_cons, step_eq ps st h0, if_neg (not_lt.2 (hl h List.mem_cons_self))]
    exact ih st h0 fun x hx => hl x (List.mem_cons_of_mem _ hx)

theorem fold_before {ps : List (V3 K)} {m : K} : ∀ (l : List (ℕ × ℕ × ℕ × ℕ × ℕ)) (st : K × Option (ℕ × Tet K)), 0 ≤ st.1 →
    st.1 < m → (∀ h ∈ l, |tvol ps h| < m) → 0 ≤ (l.foldl (tableStep ps) st).1 ∧ (l.foldl (tableStep ps) st).1 < m := by
  intro l
  induction l with
  | nil => intro st h0 h1 _; exact ⟨h0, h1⟩
  | cons h l ih =>
    intro st h0 h1 hl
    rw [List.foldl_cons, step_eq ps st h0]
    have hl' : ∀ x ∈ l, |tvol ps x| < m := fun x hx => hl x (List.mem_cons_of_mem _ hx)
    by_cases hh : st.1 < |tvol ps h|
    · rw [if_pos hh]; exact ih _ (abs_nonneg _) (hl h List.mem_cons_self) hl'
    · rw [if_neg hh]; exact ih _ h0 h1 hl'

theorem fold_max {ps : List (V3 K)} {l1 l2 : List (ℕ × ℕ × ℕ × ℕ × ℕ)} {k : ℕ × ℕ × ℕ × ℕ × ℕ}
    (ht : table6 = l1 ++ k :: l2) (h1 : ∀ h ∈ l1, |tvol ps h| < |tvol ps k|) (h2 : ∀ h ∈ l2, |tvol ps h| ≤ |tvol ps k|)
    (h0 : 0 < |tvol ps k|) : (table6.foldl (tableStep ps) (0, none)).2 = some (k.1, orient (tetOf ps k)) := by
  obtain ⟨g0, g1⟩ := fold_before (ps := ps) l1 (0, none) le_rfl h0 h1
  rw [ht, List.foldl_append, List.foldl_cons, step_eq ps _ g0, if_pos g1, fold_after l2 _ (abs_nonneg _) h2]

theorem fold_orient {X : Option (ℕ × Tet K)} {n : ℕ} {t u : Tet K} (h : X = some (n, orient t)) (h' : orient t = u) :
    X = some (n, u) := by rw [h, h']

/-! ### The face a point lies outside of -/

/-- The volume over a face. -/
def fvol (a : V3 K) (t : Tet K) (h : ℕ) : K := vol4 a (face t h).1 (face t h).2.1 (face t h).2.2

/-- The tetrahedron over a face. -/
def over (a : V3 K) (t : Tet K) (h : ℕ) : Tet K := ⟨a, (face t h).1, (face t h).2.1, (face t h).2.2, Val.on⟩

theorem faceStep_eq (score apex : V3 K) (t : Tet K) (skip : ℕ → Bool) (st : K × Option (ℕ × Tet K)) (h : ℕ) :
    faceStep score apex t skip st h = if skip h then st else
      if st.1 < fvol score t h then (fvol score t h, some (h, over apex t h)) else st := rfl

theorem face_1 {a : V3 K} {t : Tet K} (h1 : 0 < fvol a t 1) (h0 : fvol a t 0 ≤ 0) (h2 : fvol a t 2 ≤ 0) (h3 : fvol a t 3 ≤ 0) :
    (faceLoop a a t (fun _ => false) (0, none)).2 = some (1, over a t 1) := by
  simp [faceLoop, faceStep_eq, h1, not_lt.2 h0, not_lt.2 (h2.trans h1.le), not_lt.2 (h3.trans h1.le)]

theorem face_2 {a : V3 K} {t : Tet K} (h2 : 0 < fvol a t 2) (h0 : fvol a t 0 ≤ 0) (h1 : fvol a t 1 ≤ 0) (h3 : fvol a t 3 ≤ 0) :
    (faceLoop a a t (fun _ => false) (0, none)).2 = some (2, over a t 2) := by
  simp [faceLoop, faceStep_eq, h2, not_lt.2 h0, not_lt.2 h1, not_lt.2 (h3.trans h2.le)]

theorem face_3 {a : V3 K} {t : Tet K} (h3 : 0 < fvol a t 3) (h0 : fvol a t 0 ≤ 0) (h1 : fvol a t 1 ≤ 0) (h2 : fvol a t 2 ≤ 0) :
    (faceLoop a a t (fun _ => false) (0, none)).2 = some (3, over a t 3) := by
  simp [faceLoop, faceStep_eq, h3, not_lt.2 h0, not_lt.2 h1, not_lt.2 h2]

theorem third_1_2 {a0 a1 : V3 K} {t u : Tet K} (f0 : fvol a0 t 0 ≤ 0) (f2 : fvol a0 t 2 ≤ 0) (f3 : fvol a0 t 3 ≤ 0)
    (g2 : 0 < fvol a1 u 2) (g0 : fvol a1 u 0 ≤ 0) (g3 : fvol a1 u 3 ≤ 0) :
    third a0 a1 t (some (1, u)) = some (2, over a1 u 2) := by
  simp [third, faceLoop, faceStep_eq, not_lt.2 f0, not_lt.2 f2, not_lt.2 f3, g2, not_lt.2 g0, not_lt.2 (g3.trans g2.le)]

theorem third_1_3 {a0 a1 : V3 K} {t u : Tet K} (f0 : fvol a0 t 0 ≤ 0) (f2 : fvol a0 t 2 ≤ 0) (f3 : fvol a0 t 3 ≤ 0)
    (g3 : 0 < fvol a1 u 3) (g0 : fvol a1 u 0 ≤ 0) (g2 : fvol a1 u 2 ≤ 0) :
    third a0 a1 t (some (1, u)) = some (3, over a1 u 3) := by
  simp [third, faceLoop, faceStep_eq, not_lt.2 f0, not_lt.2 f2, not_lt.2 f3, g3, not_lt.2 g0, not_lt.2 g2]

theorem third_2_0 {a0 a1 : V3 K} {t u : Tet K} (f0 : fvol a0 t 0 ≤ 0) (f1 : fvol a0 t 1 ≤ 0) (f3 : fvol a0 t 3 ≤ 0)
    (g0 : 0 < fvol a1 u 0) (g2 : fvol a1 u 2 ≤ 0) (g3 : fvol a1 u 3 ≤ 0) :
    third a0 a1 t (some (2, u)) = some (0, over a1 u 0) := by
  simp [third, faceLoop, faceStep_eq, not_lt.2 f0, not_lt.2 f1, not_lt.2 f3, g0, not_lt.2 (g2.trans g0.le), not_lt.2 (g3.trans g0.le)]

theorem third_2_2 {a0 a1 : V3 K} {t u : Tet K} (f0 : fvol a0 t 0 ≤ 0) (f1 : fvol a0 t 1 ≤ 0) (f3 : fvol a0 t 3 ≤ 0)
    (g2 : 0 < fvol a1 u 2) (g0 : fvol a1 u 0 ≤ 0) (g3 : fvol a1 u 3 ≤ 0) :
    third a0 a1 t (some (2, u)) = some (2, over a1 u 2) := by
  simp [third, faceLoop, faceStep_eq, not_lt.2 f0, not_lt.2 f1, not_lt.2 f3, g2, not_lt.2 g0, not_lt.2 (g3.trans g2.le)]

theorem third_3_0 {a0 a1 : V3 K} {t u : Tet K} (f0 : fvol a0 t 0 ≤ 0) (f1 : fvol a0 t 1 ≤ 0) (f2 : fvol a0 t 2 ≤ 0)
    (g0 : 0 < fvol a1 u 0) (g2 : fvol a1 u 2 ≤ 0) (g3 : fvol a1 u 3 ≤ 0) :
    third a0 a1 t (some (3, u)) = some (0, over a1 u 0) := by
  simp [third, faceLoop, faceStep_eq, not_lt.2 f0, not_lt.2 f1, not_lt.2 f2, g0, not_lt.2 (g2.trans g0.le), not_lt.2 (g3.trans g0.le)]

theorem third_3_2 {a0 a1 : V3 K} {t u : Tet K} (f0 : fvol a0 t 0 ≤ 0) (f1 : fvol a0 t 1 ≤ 0) (f2 : fvol a0 t 2 ≤ 0)
    (g2 : 0 < fvol a1 u 2) (g0 : fvol a1 u 0 ≤ 0) (g3 : fvol a1 u 3 ≤ 0) :
    third a0 a1 t (some (3, u)) = some (2, over a1 u 2) := by
  simp [third, faceLoop, faceStep_eq, not_lt.2 f0, not_lt.2 f1, not_lt.2 f2, g2, not_lt.2 g0, not_lt.2 (g3.trans g2.le)]

/-! ### Six points -/

theorem add_big {e : Env K} (he : e.Ok) (T : TSet K) {t : Tet K} {v : K} (ht : ∀ c ∈ corners t, InBB e c)
    (q : vol t = v) (hv : e.eps ≤ v) : add e T t = some ({ T with tets := T.tets ++ [t] }, t, true) := by
  have h0 : 0 < v := lt_of_lt_of_le he.1 hv
  rw [add_eq he T ht, if_neg, orient_pos h0 q]
  rw [q, abs_of_pos h0]; exact not_lt.2 hv

theorem add6_sum {e : Env K} (he : e.Ok) {T : TSet K} {ps : List (V3 K)} (hl : ps.length = 6)
    (hps : ∀ c ∈ ps, InBB e c) {h0 h1 h2 : ℕ} {t0 t1 t2 : Tet K} {v0 v1 v2 W : K}
    (H0 : (table6.foldl (tableStep ps) (0, none)).2 = some (h0, t0))
    (H1 : (faceLoop (tableStep.pt ps (rem6.getD h0 (0, 0)).1) (tableStep.pt ps (rem6.getD h0 (0, 0)).1) t0
      (fun _ => false) (0, none)).2 = some (h1, t1))
    (H2 : third (tableStep.pt ps (rem6.getD h0 (0, 0)).1) (tableStep.pt ps (rem6.getD h0 (0, 0)).2) t0 (some (h1, t1)) = some (h2, t2))
    (q0 : vol t0 = v0) (q1 : vol t1 = v1) (q2 : vol t2 = v2) (e0 : e.eps ≤ v0) (e1 : e.eps ≤ v1) (e2 : e.eps ≤ v2)
    (hW : v0 + v1 + v2 = W) :
    ∃ new, add6 e T ps = some (T.more new) ∧ (new.map fun u => |vol u|).sum = W := by
  have hr : ∀ h : ℕ, (rem6.getD h (0, 0)).1 < 6 ∧ (rem6.getD h (0, 0)).2 < 6 := by
    intro h
    by_cases hh : h < 15
    · have : ∀ h < 15, (rem6.getD h (0, 0)).1 < 6 ∧ (rem6.getD h (0, 0)).2 < 6 := by decide
      exact this h hh
    · rw [List.getD_eq_getElem?_getD, List.getElem?_eq_none (by simp [rem6]; omega)]
      simp
  obtain ⟨r0, r1⟩ := hr h0
  have b0 := hps _ (pt_mem (ps := ps) (hl ▸ r0))
  have b1 := hps _ (pt_mem (ps := ps) (hl ▸ r1))
  have c0 := (table_kept hps table6 (0, none) (by rw [hl]; decide) (kept_none _) h0 t0 H0).1
  have k1 := faceLoop_kept (score := tableStep.pt ps (rem6.getD h0 (0, 0)).1) c0 b0 (fun _ => false) (st := (0, none)) (kept_none _)
  rw [H1] at k1
  have c1 := (k1 h1 t1 rfl).1
  have c2 := (third_kept (a0 := tableStep.pt ps (rem6.getD h0 (0, 0)).1) c0 k1 b1 h2 t2 H2).1
  refine ⟨[t0, t1, t2], ?_, ?_⟩
  · unfold add6
    rw [H0]
    dsimp only
    rw [add_big he T c0 q0 e0, Option.bind_some, if_pos rfl, H1]
    dsimp only
    rw [add_big he _ c1 q1 e1, Option.bind_some, if_pos rfl, H2]
    unfold add6.last
    dsimp only
    rw [add_big he _ c2 q2 e2]
    simp [bump, TSet.more]
  · have p0 := lt_of_lt_of_le he.1 e0
    have p1 := lt_of_lt_of_le he.1 e1
    have p2 := lt_of_lt_of_le he.1 e2
    simp only [List.map_cons, List.map_nil, List.sum_cons, List.sum_nil, q0, q1, q2, abs_of_pos p0, abs_of_pos p1, abs_of_pos p2]
    linarith

set_option maxHeartbeats 2000000 in
/-- Three corners of a tetrahedron, the plane cutting the fourth off. -/
theorem prism {e : Env K} (he : e.Ok) (T : TSet K) {F : V3 K → V3 K} {V τ x y z x' y' z' : K}
    (hF : ∀ a b c d, vol4 (F a) (F b) (F c) (F d) = det a b c d * V) (hV0 : V ≠ 0) (hx : x = 1 - x') (hy : y = 1 - y') (hz : z = 1 - z')
    (hτ : 0 < τ) (tx : τ ≤ x) (tx' : τ ≤ x') (ty : τ ≤ y) (ty' : τ ≤ y') (tz : τ ≤ z) (tz' : τ ≤ z') (hε : e.eps ≤ τ * τ * τ * |V|) 
    (hps : ∀ c ∈ [F ⟨1,0,0⟩, F ⟨0,1,0⟩, F ⟨0,0,1⟩, F ⟨x',0,0⟩, F ⟨0,y',0⟩, F ⟨0,0,z'⟩], InBB e c) :
    ∃ new, add6 e T [F ⟨1,0,0⟩, F ⟨0,1,0⟩, F ⟨0,0,1⟩, F ⟨x',0,0⟩, F ⟨0,y',0⟩, F ⟨0,0,z'⟩] = some (T.more new) ∧ (new.map fun u => |vol u|).sum = (1 - x' * y' * z') * |V| := by
  have px : 0 < x := lt_of_lt_of_le hτ tx
  have px' : 0 < x' := lt_of_lt_of_le hτ tx'
  have lx : x ≤ 1 := by linarith
  have lx' : x' ≤ 1 := by linarith
  have py : 0 < y := lt_of_lt_of_le hτ ty
  have py' : 0 < y' := lt_of_lt_of_le hτ ty'
  have ly : y ≤ 1 := by linarith
  have ly' : y' ≤ 1 := by linarith
  have pz : 0 < z := lt_of_lt_of_le hτ tz
  have pz' : 0 < z' := lt_of_lt_of_le hτ tz'
  have lz : z ≤ 1 := by linarith
  have lz' : z' ≤ 1 := by linarith
  have τ1 : τ ≤ 1 := by linarith
  have hVp : 0 < |V| := abs_pos.2 hV0
  have a0 : |tvol [F ⟨1,0,0⟩, F ⟨0,1,0⟩, F ⟨0,0,1⟩, F ⟨x',0,0⟩, F ⟨0,y',0⟩, F ⟨0,0,z'⟩] (0, 2, 3, 4, 5)| = (z*x'*y') * |V| :=
    absP (by rw [hF]; simp only [det, hx, hy, hz]; ring : vol4 (F ⟨0,0,1⟩) (F ⟨x',0,0⟩) (F ⟨0,y',0⟩) (F ⟨0,0,z'⟩) = ((z*x'*y')) * V) (by positivity)
  have a1 : |tvol [F ⟨1,0,0⟩, F ⟨0,1,0⟩, F ⟨0,0,1⟩, F ⟨x',0,0⟩, F ⟨0,y',0⟩, F ⟨0,0,z'⟩] (1, 1, 3, 4, 5)| = (y*x'*z') * |V| :=
    absP (by rw [hF]; simp only [det, hx, hy, hz]; ring : vol4 (F ⟨0,1,0⟩) (F ⟨x',0,0⟩) (F ⟨0,y',0⟩) (F ⟨0,0,z'⟩) = ((y*x'*z')) * V) (by positivity)
  have a2 : |tvol [F ⟨1,0,0⟩, F ⟨0,1,0⟩, F ⟨0,0,1⟩, F ⟨x',0,0⟩, F ⟨0,y',0⟩, F ⟨0,0,z'⟩] (2, 1, 2, 4, 5)| = 0 := by
    have := (by rw [hF]; simp only [det, hx, hy, hz]; ring : vol4 (F ⟨0,1,0⟩) (F ⟨0,0,1⟩) (F ⟨0,y',0⟩) (F ⟨0,0,z'⟩) = (0) * V)
    exact (congrArg abs (this.trans (zero_mul V))).trans abs_zero
  have a3 : |tvol [F ⟨1,0,0⟩, F ⟨0,1,0⟩, F ⟨0,0,1⟩, F ⟨x',0,0⟩, F ⟨0,y',0⟩, F ⟨0,0,z'⟩] (3, 1, 2, 3, 5)| = (z*x') * |V| :=
    absP (by rw [hF]; simp only [det, hx, hy, hz]; ring : vol4 (F ⟨0,1,0⟩) (F ⟨0,0,1⟩) (F ⟨x',0,0⟩) (F ⟨0,0,z'⟩) = ((z*x')) * V) (by positivity)
  have a4 : |tvol [F ⟨1,0,0⟩, F ⟨0,1,0⟩, F ⟨0,0,1⟩, F ⟨x',0,0⟩, F ⟨0,y',0⟩, F ⟨0,0,z'⟩] (4, 1, 2, 3, 4)| = (y*x') * |V| :=
    absP (by rw [hF]; simp only [det, hx, hy, hz]; ring : vol4 (F ⟨0,1,0⟩) (F ⟨0,0,1⟩) (F ⟨x',0,0⟩) (F ⟨0,y',0⟩) = ((y*x')) * V) (by positivity)
  have a5 : |tvol [F ⟨1,0,0⟩, F ⟨0,1,0⟩, F ⟨0,0,1⟩, F ⟨x',0,0⟩, F ⟨0,y',0⟩, F ⟨0,0,z'⟩] (5, 0, 3, 4, 5)| = (x*y'*z') * |V| :=
    absP (by rw [hF]; simp only [det, hx, hy, hz]; ring : vol4 (F ⟨1,0,0⟩) (F ⟨x',0,0⟩) (F ⟨0,y',0⟩) (F ⟨0,0,z'⟩) = ((x*y'*z')) * V) (by positivity)
  have a6 : |tvol [F ⟨1,0,0⟩, F ⟨0,1,0⟩, F ⟨0,0,1⟩, F ⟨x',0,0⟩, F ⟨0,y',0⟩, F ⟨0,0,z'⟩] (6, 0, 2, 4, 5)| = (z*y') * |V| :=
    absN (by rw [hF]; simp only [det, hx, hy, hz]; ring : vol4 (F ⟨1,0,0⟩) (F ⟨0,0,1⟩) (F ⟨0,y',0⟩) (F ⟨0,0,z'⟩) = (-(z*y')) * V) (by positivity)
  have a7 : |tvol [F ⟨1,0,0⟩, F ⟨0,1,0⟩, F ⟨0,0,1⟩, F ⟨x',0,0⟩, F ⟨0,y',0⟩, F ⟨0,0,z'⟩] (7, 0, 2, 3, 5)| = 0 := by
    have := (by rw [hF]; simp only [det, hx, hy, hz]; ring : vol4 (F ⟨1,0,0⟩) (F ⟨0,0,1⟩) (F ⟨x',0,0⟩) (F ⟨0,0,z'⟩) = (0) * V)
    exact (congrArg abs (this.trans (zero_mul V))).trans abs_zero
  have a8 : |tvol [F ⟨1,0,0⟩, F ⟨0,1,0⟩, F ⟨0,0,1⟩, F ⟨x',0,0⟩, F ⟨0,y',0⟩, F ⟨0,0,z'⟩] (8, 0, 2, 3, 4)| = (x*y') * |V| :=
    absP (by rw [hF]; simp only [det, hx, hy, hz]; ring : vol4 (F ⟨1,0,0⟩) (F ⟨0,0,1⟩) (F ⟨x',0,0⟩) (F ⟨0,y',0⟩) = ((x*y')) * V) (by positivity)
  have a9 : |tvol [F ⟨1,0,0⟩, F ⟨0,1,0⟩, F ⟨0,0,1⟩, F ⟨x',0,0⟩, F ⟨0,y',0⟩, F ⟨0,0,z'⟩] (9, 0, 1, 4, 5)| = (y*z') * |V| :=
    absN (by rw [hF]; simp only [det, hx, hy, hz]; ring : vol4 (F ⟨1,0,0⟩) (F ⟨0,1,0⟩) (F ⟨0,y',0⟩) (F ⟨0,0,z'⟩) = (-(y*z')) * V) (by positivity)
  have a10 : |tvol [F ⟨1,0,0⟩, F ⟨0,1,0⟩, F ⟨0,0,1⟩, F ⟨x',0,0⟩, F ⟨0,y',0⟩, F ⟨0,0,z'⟩] (10, 0, 1, 3, 5)| = (x*z') * |V| :=
    absN (by rw [hF]; simp only [det, hx, hy, hz]; ring : vol4 (F ⟨1,0,0⟩) (F ⟨0,1,0⟩) (F ⟨x',0,0⟩) (F ⟨0,0,z'⟩) = (-(x*z')) * V) (by positivity)
  have a11 : |tvol [F ⟨1,0,0⟩, F ⟨0,1,0⟩, F ⟨0,0,1⟩, F ⟨x',0,0⟩, F ⟨0,y',0⟩, F ⟨0,0,z'⟩] (11, 0, 1, 3, 4)| = 0 := by
    have := (by rw [hF]; simp only [det, hx, hy, hz]; ring : vol4 (F ⟨1,0,0⟩) (F ⟨0,1,0⟩) (F ⟨x',0,0⟩) (F ⟨0,y',0⟩) = (0) * V)
    exact (congrArg abs (this.trans (zero_mul V))).trans abs_zero
  have a12 : |tvol [F ⟨1,0,0⟩, F ⟨0,1,0⟩, F ⟨0,0,1⟩, F ⟨x',0,0⟩, F ⟨0,y',0⟩, F ⟨0,0,z'⟩] (12, 0, 1, 2, 5)| = (z) * |V| :=
    absP (by rw [hF]; simp only [det, hx, hy, hz]; ring : vol4 (F ⟨1,0,0⟩) (F ⟨0,1,0⟩) (F ⟨0,0,1⟩) (F ⟨0,0,z'⟩) = ((z)) * V) (by positivity)
  have a13 : |tvol [F ⟨1,0,0⟩, F ⟨0,1,0⟩, F ⟨0,0,1⟩, F ⟨x',0,0⟩, F ⟨0,y',0⟩, F ⟨0,0,z'⟩] (13, 0, 1, 2, 4)| = (y) * |V| :=
    absP (by rw [hF]; simp only [det, hx, hy, hz]; ring : vol4 (F ⟨1,0,0⟩) (F ⟨0,1,0⟩) (F ⟨0,0,1⟩) (F ⟨0,y',0⟩) = ((y)) * V) (by positivity)
  have a14 : |tvol [F ⟨1,0,0⟩, F ⟨0,1,0⟩, F ⟨0,0,1⟩, F ⟨x',0,0⟩, F ⟨0,y',0⟩, F ⟨0,0,z'⟩] (14, 0, 1, 2, 3)| = (x) * |V| :=
    absP (by rw [hF]; simp only [det, hx, hy, hz]; ring : vol4 (F ⟨1,0,0⟩) (F ⟨0,1,0⟩) (F ⟨0,0,1⟩) (F ⟨x',0,0⟩) = ((x)) * V) (by positivity)
  have c0 : x*y' < x := by
    have u : y' < 1 := by linarith only [hy, py]
    have v : 0 < x := by positivity
    have := mul_lt_mul_of_pos_left u v
    linarith only [this]
  have c1 : x*y'*z' < x := by
    have u : y'*z' < 1 := by exact lt_one2 py' (by linarith only [hy, py]) lz'
    have v : 0 < x := by positivity
    have := mul_lt_mul_of_pos_left u v
    linarith only [this]
  have c2 : x*z' < x := by
    have u : z' < 1 := by linarith only [hz, pz]
    have v : 0 < x := by positivity
    have := mul_lt_mul_of_pos_left u v
    linarith only [this]
  have c3 : y*x' < y := by
    have u : x' < 1 := by linarith only [hx, px]
    have v : 0 < y := by positivity
    have := mul_lt_mul_of_pos_left u v
    linarith only [this]
  have c4 : y*x'*z' < y := by
    have u : x'*z' < 1 := by exact lt_one2 px' (by linarith only [hx, px]) lz'
    have v : 0 < y := by positivity
    have := mul_lt_mul_of_pos_left u v
    linarith only [this]
  have c5 : y*z' < y := by
    have u : z' < 1 := by linarith only [hz, pz]
    have v : 0 < y := by positivity
    have := mul_lt_mul_of_pos_left u v
    linarith only [this]
  have c6 : z*x' < z := by
    have u : x' < 1 := by linarith only [hx, px]
    have v : 0 < z := by positivity
    have := mul_lt_mul_of_pos_left u v
    linarith only [this]
  have c7 : z*x'*y' < z := by
    have u : x'*y' < 1 := by exact lt_one2 px' (by linarith only [hx, px]) ly'
    have v : 0 < z := by positivity
    have := mul_lt_mul_of_pos_left u v
    linarith only [this]
  have c8 : z*y' < z := by
    have u : y' < 1 := by linarith only [hy, py]
    have v : 0 < z := by positivity
    have := mul_lt_mul_of_pos_left u v
    linarith only [this]
  rcases (show (y ≤ z ∧ x ≤ z) ∨ (z < y ∧ x ≤ y) ∨ (z < x ∧ y < x) by
    rcases le_or_gt y z with h | h
    · rcases le_or_gt x z with h' | h'
      · exact Or.inl ⟨h, h'⟩
      · exact Or.inr (Or.inr ⟨h', lt_of_le_of_lt h h'⟩)
    · rcases le_or_gt x y with h' | h'
      · exact Or.inr (Or.inl ⟨h, h'⟩)
      · exact Or.inr (Or.inr ⟨lt_trans h h', h'⟩)) with ⟨o1, o2⟩ | ⟨o1, o2⟩ | ⟨o1, o2⟩
  · have _ := hVp
    have H0 := fold_max (ps := [F ⟨1,0,0⟩, F ⟨0,1,0⟩, F ⟨0,0,1⟩, F ⟨x',0,0⟩, F ⟨0,y',0⟩, F ⟨0,0,z'⟩]) (l1 := table6.take 12) (k := (12, 0, 1, 2, 5)) (l2 := table6.drop 13) rfl
      (by simp only [table6, List.take_succ_cons, List.take_zero, List.forall_mem_cons, List.not_mem_nil, IsEmpty.forall_iff, implies_true, and_true, a0, a1, a2, a3, a4, a5, a6, a7, a8, a9, a10, a11, a12, a13, a14]
          refine ⟨?_, ?_, ?_, ?_, ?_, ?_, ?_, ?_, ?_, ?_, ?_, ?_⟩ <;> first | exact mul_lt_mul_of_pos_right (by linarith only [o1, o2, px, py, pz, c0, c1, c2, c3, c4, c5, c6, c7, c8]) hVp | positivity)
      (by simp only [table6, List.drop_succ_cons, List.drop_zero, List.forall_mem_cons, List.not_mem_nil, IsEmpty.forall_iff, implies_true, and_true, a0, a1, a2, a3, a4, a5, a6, a7, a8, a9, a10, a11, a12, a13, a14]
          refine ⟨?_, ?_⟩ <;> first | exact mul_le_mul_of_nonneg_right (by linarith only [o1, o2, px, py, pz, c0, c1, c2, c3, c4, c5, c6, c7, c8]) hVp.le | positivity)
      (by rw [a12]; positivity)
    rcases lt_or_gt_of_ne hV0 with hV | hV
    · have H1 : (faceLoop (F ⟨x',0,0⟩) (F ⟨x',0,0⟩) (⟨F ⟨0,1,0⟩, F ⟨1,0,0⟩, F ⟨0,0,1⟩, F ⟨0,0,z'⟩, Val.on⟩ : Tet K) (fun _ => false) (0, none)).2 = some (2, (⟨F ⟨x',0,0⟩, F ⟨0,0,z'⟩, F ⟨1,0,0⟩, F ⟨0,1,0⟩, Val.on⟩ : Tet K)) :=
        face_2 (pos_of_neg (by rw [hF]; simp only [det, hx, hy, hz]; ring : vol4 (F ⟨x',0,0⟩) (F ⟨0,0,z'⟩) (F ⟨1,0,0⟩) (F ⟨0,1,0⟩) = (-(x*z')) * V) (by positivity) hV) (nonpos_of_pos (by rw [hF]; simp only [det, hx, hy, hz]; ring : vol4 (F ⟨x',0,0⟩) (F ⟨0,1,0⟩) (F ⟨1,0,0⟩) (F ⟨0,0,1⟩) = ((x)) * V) (by positivity) hV) (nonpos_of_zero (by rw [hF]; simp only [det, hx, hy, hz]; ring : vol4 (F ⟨x',0,0⟩) (F ⟨0,0,1⟩) (F ⟨1,0,0⟩) (F ⟨0,0,z'⟩) = (0) * V)) (nonpos_of_pos (by rw [hF]; simp only [det, hx, hy, hz]; ring : vol4 (F ⟨x',0,0⟩) (F ⟨0,0,z'⟩) (F ⟨0,1,0⟩) (F ⟨0,0,1⟩) = ((z*x')) * V) (by positivity) hV)
      have H2 : third (F ⟨x',0,0⟩) (F ⟨0,y',0⟩) (⟨F ⟨0,1,0⟩, F ⟨1,0,0⟩, F ⟨0,0,1⟩, F ⟨0,0,z'⟩, Val.on⟩ : Tet K) (some (2, (⟨F ⟨x',0,0⟩, F ⟨0,0,z'⟩, F ⟨1,0,0⟩, F ⟨0,1,0⟩, Val.on⟩ : Tet K))) = some (2, (⟨F ⟨0,y',0⟩, F ⟨0,1,0⟩, F ⟨0,0,z'⟩, F ⟨x',0,0⟩, Val.on⟩ : Tet K)) :=
        third_2_2 (nonpos_of_pos (by rw [hF]; simp only [det, hx, hy, hz]; ring : vol4 (F ⟨x',0,0⟩) (F ⟨0,1,0⟩) (F ⟨1,0,0⟩) (F ⟨0,0,1⟩) = ((x)) * V) (by positivity) hV) (nonpos_of_zero (by rw [hF]; simp only [det, hx, hy, hz]; ring : vol4 (F ⟨x',0,0⟩) (F ⟨0,0,1⟩) (F ⟨1,0,0⟩) (F ⟨0,0,z'⟩) = (0) * V)) (nonpos_of_pos (by rw [hF]; simp only [det, hx, hy, hz]; ring : vol4 (F ⟨x',0,0⟩) (F ⟨0,0,z'⟩) (F ⟨0,1,0⟩) (F ⟨0,0,1⟩) = ((z*x')) * V) (by positivity) hV) (pos_of_neg (by rw [hF]; simp only [det, hx, hy, hz]; ring : vol4 (F ⟨0,y',0⟩) (F ⟨0,1,0⟩) (F ⟨0,0,z'⟩) (F ⟨x',0,0⟩) = (-(y*x'*z')) * V) (by positivity) hV) (nonpos_of_pos (by rw [hF]; simp only [det, hx, hy, hz]; ring : vol4 (F ⟨0,y',0⟩) (F ⟨x',0,0⟩) (F ⟨0,0,z'⟩) (F ⟨1,0,0⟩) = ((x*y'*z')) * V) (by positivity) hV) (nonpos_of_zero (by rw [hF]; simp only [det, hx, hy, hz]; ring : vol4 (F ⟨0,y',0⟩) (F ⟨0,1,0⟩) (F ⟨x',0,0⟩) (F ⟨1,0,0⟩) = (0) * V))
      have q0 : vol (⟨F ⟨0,1,0⟩, F ⟨1,0,0⟩, F ⟨0,0,1⟩, F ⟨0,0,z'⟩, Val.on⟩ : Tet K) = (z) * |V| := vol_of_neg (by rw [hF]; simp only [det, hx, hy, hz]; ring : vol4 (F ⟨0,1,0⟩) (F ⟨1,0,0⟩) (F ⟨0,0,1⟩) (F ⟨0,0,z'⟩) = (-(z)) * V) (by positivity) hV
      have q1 : vol (⟨F ⟨x',0,0⟩, F ⟨0,0,z'⟩, F ⟨1,0,0⟩, F ⟨0,1,0⟩, Val.on⟩ : Tet K) = (x*z') * |V| := vol_of_neg (by rw [hF]; simp only [det, hx, hy, hz]; ring : vol4 (F ⟨x',0,0⟩) (F ⟨0,0,z'⟩) (F ⟨1,0,0⟩) (F ⟨0,1,0⟩) = (-(x*z')) * V) (by positivity) hV
      have q2 : vol (⟨F ⟨0,y',0⟩, F ⟨0,1,0⟩, F ⟨0,0,z'⟩, F ⟨x',0,0⟩, Val.on⟩ : Tet K) = (y*x'*z') * |V| := vol_of_neg (by rw [hF]; simp only [det, hx, hy, hz]; ring : vol4 (F ⟨0,y',0⟩) (F ⟨0,1,0⟩) (F ⟨0,0,z'⟩) (F ⟨x',0,0⟩) = (-(y*x'*z')) * V) (by positivity) hV
      have H0' := fold_orient H0 (orient_neg (t := (⟨F ⟨1,0,0⟩, F ⟨0,1,0⟩, F ⟨0,0,1⟩, F ⟨0,0,z'⟩, Val.on⟩ : Tet K)) (by positivity) q0)
      refine add6_sum he rfl hps H0' H1 H2 q0 q1 q2 (small_le hτ hVp hε ⟨tz, lz⟩ ⟨τ1, le_refl 1⟩ ⟨τ1, le_refl 1⟩ (by ring)) (small_le hτ hVp hε ⟨tx, lx⟩ ⟨tz', lz'⟩ ⟨τ1, le_refl 1⟩ (by ring)) (small_le hτ hVp hε ⟨ty, ly⟩ ⟨tx', lx'⟩ ⟨tz', lz'⟩  (by ring)) ?_
      simp only [hx, hy, hz]; ring
    · have H1 : (faceLoop (F ⟨x',0,0⟩) (F ⟨x',0,0⟩) (⟨F ⟨1,0,0⟩, F ⟨0,1,0⟩, F ⟨0,0,1⟩, F ⟨0,0,z'⟩, Val.on⟩ : Tet K) (fun _ => false) (0, none)).2 = some (2, (⟨F ⟨x',0,0⟩, F ⟨0,0,z'⟩, F ⟨0,1,0⟩, F ⟨1,0,0⟩, Val.on⟩ : Tet K)) :=
        face_2 (pos_of_pos (by rw [hF]; simp only [det, hx, hy, hz]; ring : vol4 (F ⟨x',0,0⟩) (F ⟨0,0,z'⟩) (F ⟨0,1,0⟩) (F ⟨1,0,0⟩) = ((x*z')) * V) (by positivity) hV) (nonpos_of_neg (by rw [hF]; simp only [det, hx, hy, hz]; ring : vol4 (F ⟨x',0,0⟩) (F ⟨1,0,0⟩) (F ⟨0,1,0⟩) (F ⟨0,0,1⟩) = (-(x)) * V) (by positivity) hV) (nonpos_of_neg (by rw [hF]; simp only [det, hx, hy, hz]; ring : vol4 (F ⟨x',0,0⟩) (F ⟨0,0,1⟩) (F ⟨0,1,0⟩) (F ⟨0,0,z'⟩) = (-(z*x')) * V) (by positivity) hV) (nonpos_of_zero (by rw [hF]; simp only [det, hx, hy, hz]; ring : vol4 (F ⟨x',0,0⟩) (F ⟨0,0,z'⟩) (F ⟨1,0,0⟩) (F ⟨0,0,1⟩) = (0) * V))
      have H2 : third (F ⟨x',0,0⟩) (F ⟨0,y',0⟩) (⟨F ⟨1,0,0⟩, F ⟨0,1,0⟩, F ⟨0,0,1⟩, F ⟨0,0,z'⟩, Val.on⟩ : Tet K) (some (2, (⟨F ⟨x',0,0⟩, F ⟨0,0,z'⟩, F ⟨0,1,0⟩, F ⟨1,0,0⟩, Val.on⟩ : Tet K))) = some (0, (⟨F ⟨0,y',0⟩, F ⟨x',0,0⟩, F ⟨0,0,z'⟩, F ⟨0,1,0⟩, Val.on⟩ : Tet K)) :=
        third_2_0 (nonpos_of_neg (by rw [hF]; simp only [det, hx, hy, hz]; ring : vol4 (F ⟨x',0,0⟩) (F ⟨1,0,0⟩) (F ⟨0,1,0⟩) (F ⟨0,0,1⟩) = (-(x)) * V) (by positivity) hV) (nonpos_of_neg (by rw [hF]; simp only [det, hx, hy, hz]; ring : vol4 (F ⟨x',0,0⟩) (F ⟨0,0,1⟩) (F ⟨0,1,0⟩) (F ⟨0,0,z'⟩) = (-(z*x')) * V) (by positivity) hV) (nonpos_of_zero (by rw [hF]; simp only [det, hx, hy, hz]; ring : vol4 (F ⟨x',0,0⟩) (F ⟨0,0,z'⟩) (F ⟨1,0,0⟩) (F ⟨0,0,1⟩) = (0) * V)) (pos_of_pos (by rw [hF]; simp only [det, hx, hy, hz]; ring : vol4 (F ⟨0,y',0⟩) (F ⟨x',0,0⟩) (F ⟨0,0,z'⟩) (F ⟨0,1,0⟩) = ((y*x'*z')) * V) (by positivity) hV) (nonpos_of_neg (by rw [hF]; simp only [det, hx, hy, hz]; ring : vol4 (F ⟨0,y',0⟩) (F ⟨1,0,0⟩) (F ⟨0,0,z'⟩) (F ⟨x',0,0⟩) = (-(x*y'*z')) * V) (by positivity) hV) (nonpos_of_zero (by rw [hF]; simp only [det, hx, hy, hz]; ring : vol4 (F ⟨0,y',0⟩) (F ⟨1,0,0⟩) (F ⟨x',0,0⟩) (F ⟨0,1,0⟩) = (0) * V))
      have q0 : vol (⟨F ⟨1,0,0⟩, F ⟨0,1,0⟩, F ⟨0,0,1⟩, F ⟨0,0,z'⟩, Val.on⟩ : Tet K) = (z) * |V| := vol_of_pos (by rw [hF]; simp only [det, hx, hy, hz]; ring : vol4 (F ⟨1,0,0⟩) (F ⟨0,1,0⟩) (F ⟨0,0,1⟩) (F ⟨0,0,z'⟩) = ((z)) * V) (by positivity) hV
      have q1 : vol (⟨F ⟨x',0,0⟩, F ⟨0,0,z'⟩, F ⟨0,1,0⟩, F ⟨1,0,0⟩, Val.on⟩ : Tet K) = (x*z') * |V| := vol_of_pos (by rw [hF]; simp only [det, hx, hy, hz]; ring : vol4 (F ⟨x',0,0⟩) (F ⟨0,0,z'⟩) (F ⟨0,1,0⟩) (F ⟨1,0,0⟩) = ((x*z')) * V) (by positivity) hV
      have q2 : vol (⟨F ⟨0,y',0⟩, F ⟨x',0,0⟩, F ⟨0,0,z'⟩, F ⟨0,1,0⟩, Val.on⟩ : Tet K) = (y*x'*z') * |V| := vol_of_pos (by rw [hF]; simp only [det, hx, hy, hz]; ring : vol4 (F ⟨0,y',0⟩) (F ⟨x',0,0⟩) (F ⟨0,0,z'⟩) (F ⟨0,1,0⟩) = ((y*x'*z')) * V) (by positivity) hV
      have H0' := fold_orient H0 (orient_pos (t := (⟨F ⟨1,0,0⟩, F ⟨0,1,0⟩, F ⟨0,0,1⟩, F ⟨0,0,z'⟩, Val.on⟩ : Tet K)) (by positivity) q0)
      refine add6_sum he rfl hps H0' H1 H2 q0 q1 q2 (small_le hτ hVp hε ⟨tz, lz⟩ ⟨τ1, le_refl 1⟩ ⟨τ1, le_refl 1⟩ (by ring)) (small_le hτ hVp hε ⟨tx, lx⟩ ⟨tz', lz'⟩ ⟨τ1, le_refl 1⟩ (by ring)) (small_le hτ hVp hε ⟨ty, ly⟩ ⟨tx', lx'⟩ ⟨tz', lz'⟩  (by ring)) ?_
      simp only [hx, hy, hz]; ring
  · have _ := hVp
    have H0 := fold_max (ps := [F ⟨1,0,0⟩, F ⟨0,1,0⟩, F ⟨0,0,1⟩, F ⟨x',0,0⟩, F ⟨0,y',0⟩, F ⟨0,0,z'⟩]) (l1 := table6.take 13) (k := (13, 0, 1, 2, 4)) (l2 := table6.drop 14) rfl
      (by simp only [table6, List.take_succ_cons, List.take_zero, List.forall_mem_cons, List.not_mem_nil, IsEmpty.forall_iff, implies_true, and_true, a0, a1, a2, a3, a4, a5, a6, a7, a8, a9, a10, a11, a12, a13, a14]
          refine ⟨?_, ?_, ?_, ?_, ?_, ?_, ?_, ?_, ?_, ?_, ?_, ?_, ?_⟩ <;> first | exact mul_lt_mul_of_pos_right (by linarith only [o1, o2, px, py, pz, c0, c1, c2, c3, c4, c5, c6, c7, c8]) hVp | positivity)
      (by simp only [table6, List.drop_succ_cons, List.drop_zero, List.forall_mem_cons, List.not_mem_nil, IsEmpty.forall_iff, implies_true, and_true, a0, a1, a2, a3, a4, a5, a6, a7, a8, a9, a10, a11, a12, a13, a14]
          first | exact mul_le_mul_of_nonneg_right (by linarith only [o1, o2, px, py, pz, c0, c1, c2, c3, c4, c5, c6, c7, c8]) hVp.le | positivity)
      (by rw [a13]; positivity)
    rcases lt_or_gt_of_ne hV0 with hV | hV
    · have H1 : (faceLoop (F ⟨x',0,0⟩) (F ⟨x',0,0⟩) (⟨F ⟨0,1,0⟩, F ⟨1,0,0⟩, F ⟨0,0,1⟩, F ⟨0,y',0⟩, Val.on⟩ : Tet K) (fun _ => false) (0, none)).2 = some (1, (⟨F ⟨x',0,0⟩, F ⟨0,0,1⟩, F ⟨1,0,0⟩, F ⟨0,y',0⟩, Val.on⟩ : Tet K)) :=
        face_1 (pos_of_neg (by rw [hF]; simp only [det, hx, hy, hz]; ring : vol4 (F ⟨x',0,0⟩) (F ⟨0,0,1⟩) (F ⟨1,0,0⟩) (F ⟨0,y',0⟩) = (-(x*y')) * V) (by positivity) hV) (nonpos_of_pos (by rw [hF]; simp only [det, hx, hy, hz]; ring : vol4 (F ⟨x',0,0⟩) (F ⟨0,1,0⟩) (F ⟨1,0,0⟩) (F ⟨0,0,1⟩) = ((x)) * V) (by positivity) hV) (nonpos_of_zero (by rw [hF]; simp only [det, hx, hy, hz]; ring : vol4 (F ⟨x',0,0⟩) (F ⟨0,y',0⟩) (F ⟨1,0,0⟩) (F ⟨0,1,0⟩) = (0) * V)) (nonpos_of_pos (by rw [hF]; simp only [det, hx, hy, hz]; ring : vol4 (F ⟨x',0,0⟩) (F ⟨0,y',0⟩) (F ⟨0,1,0⟩) (F ⟨0,0,1⟩) = ((y*x')) * V) (by positivity) hV)
      have H2 : third (F ⟨x',0,0⟩) (F ⟨0,0,z'⟩) (⟨F ⟨0,1,0⟩, F ⟨1,0,0⟩, F ⟨0,0,1⟩, F ⟨0,y',0⟩, Val.on⟩ : Tet K) (some (1, (⟨F ⟨x',0,0⟩, F ⟨0,0,1⟩, F ⟨1,0,0⟩, F ⟨0,y',0⟩, Val.on⟩ : Tet K))) = some (2, (⟨F ⟨0,0,z'⟩, F ⟨0,y',0⟩, F ⟨0,0,1⟩, F ⟨x',0,0⟩, Val.on⟩ : Tet K)) :=
        third_1_2 (nonpos_of_pos (by rw [hF]; simp only [det, hx, hy, hz]; ring : vol4 (F ⟨x',0,0⟩) (F ⟨0,1,0⟩) (F ⟨1,0,0⟩) (F ⟨0,0,1⟩) = ((x)) * V) (by positivity) hV) (nonpos_of_zero (by rw [hF]; simp only [det, hx, hy, hz]; ring : vol4 (F ⟨x',0,0⟩) (F ⟨0,y',0⟩) (F ⟨1,0,0⟩) (F ⟨0,1,0⟩) = (0) * V)) (nonpos_of_pos (by rw [hF]; simp only [det, hx, hy, hz]; ring : vol4 (F ⟨x',0,0⟩) (F ⟨0,y',0⟩) (F ⟨0,1,0⟩) (F ⟨0,0,1⟩) = ((y*x')) * V) (by positivity) hV) (pos_of_neg (by rw [hF]; simp only [det, hx, hy, hz]; ring : vol4 (F ⟨0,0,z'⟩) (F ⟨0,y',0⟩) (F ⟨0,0,1⟩) (F ⟨x',0,0⟩) = (-(z*x'*y')) * V) (by positivity) hV) (nonpos_of_zero (by rw [hF]; simp only [det, hx, hy, hz]; ring : vol4 (F ⟨0,0,z'⟩) (F ⟨x',0,0⟩) (F ⟨0,0,1⟩) (F ⟨1,0,0⟩) = (0) * V)) (nonpos_of_pos (by rw [hF]; simp only [det, hx, hy, hz]; ring : vol4 (F ⟨0,0,z'⟩) (F ⟨0,y',0⟩) (F ⟨x',0,0⟩) (F ⟨1,0,0⟩) = ((x*y'*z')) * V) (by positivity) hV)
      have q0 : vol (⟨F ⟨0,1,0⟩, F ⟨1,0,0⟩, F ⟨0,0,1⟩, F ⟨0,y',0⟩, Val.on⟩ : Tet K) = (y) * |V| := vol_of_neg (by rw [hF]; simp only [det, hx, hy, hz]; ring : vol4 (F ⟨0,1,0⟩) (F ⟨1,0,0⟩) (F ⟨0,0,1⟩) (F ⟨0,y',0⟩) = (-(y)) * V) (by positivity) hV
      have q1 : vol (⟨F ⟨x',0,0⟩, F ⟨0,0,1⟩, F ⟨1,0,0⟩, F ⟨0,y',0⟩, Val.on⟩ : Tet K) = (x*y') * |V| := vol_of_neg (by rw [hF]; simp only [det, hx, hy, hz]; ring : vol4 (F ⟨x',0,0⟩) (F ⟨0,0,1⟩) (F ⟨1,0,0⟩) (F ⟨0,y',0⟩) = (-(x*y')) * V) (by positivity) hV
      have q2 : vol (⟨F ⟨0,0,z'⟩, F ⟨0,y',0⟩, F ⟨0,0,1⟩, F ⟨x',0,0⟩, Val.on⟩ : Tet K) = (z*x'*y') * |V| := vol_of_neg (by rw [hF]; simp only [det, hx, hy, hz]; ring : vol4 (F ⟨0,0,z'⟩) (F ⟨0,y',0⟩) (F ⟨0,0,1⟩) (F ⟨x',0,0⟩) = (-(z*x'*y')) * V) (by positivity) hV
      have H0' := fold_orient H0 (orient_neg (t := (⟨F ⟨1,0,0⟩, F ⟨0,1,0⟩, F ⟨0,0,1⟩, F ⟨0,y',0⟩, Val.on⟩ : Tet K)) (by positivity) q0)
      refine add6_sum he rfl hps H0' H1 H2 q0 q1 q2 (small_le hτ hVp hε ⟨ty, ly⟩ ⟨τ1, le_refl 1⟩ ⟨τ1, le_refl 1⟩ (by ring)) (small_le hτ hVp hε ⟨tx, lx⟩ ⟨ty', ly'⟩ ⟨τ1, le_refl 1⟩ (by ring)) (small_le hτ hVp hε ⟨tz, lz⟩ ⟨tx', lx'⟩ ⟨ty', ly'⟩  (by ring)) ?_
      simp only [hx, hy, hz]; ring
    · have H1 : (faceLoop (F ⟨x',0,0⟩) (F ⟨x',0,0⟩) (⟨F ⟨1,0,0⟩, F ⟨0,1,0⟩, F ⟨0,0,1⟩, F ⟨0,y',0⟩, Val.on⟩ : Tet K) (fun _ => false) (0, none)).2 = some (3, (⟨F ⟨x',0,0⟩, F ⟨0,y',0⟩, F ⟨1,0,0⟩, F ⟨0,0,1⟩, Val.on⟩ : Tet K)) :=
        face_3 (pos_of_pos (by rw [hF]; simp only [det, hx, hy, hz]; ring : vol4 (F ⟨x',0,0⟩) (F ⟨0,y',0⟩) (F ⟨1,0,0⟩) (F ⟨0,0,1⟩) = ((x*y')) * V) (by positivity) hV) (nonpos_of_neg (by rw [hF]; simp only [det, hx, hy, hz]; ring : vol4 (F ⟨x',0,0⟩) (F ⟨1,0,0⟩) (F ⟨0,1,0⟩) (F ⟨0,0,1⟩) = (-(x)) * V) (by positivity) hV) (nonpos_of_neg (by rw [hF]; simp only [det, hx, hy, hz]; ring : vol4 (F ⟨x',0,0⟩) (F ⟨0,0,1⟩) (F ⟨0,1,0⟩) (F ⟨0,y',0⟩) = (-(y*x')) * V) (by positivity) hV) (nonpos_of_zero (by rw [hF]; simp only [det, hx, hy, hz]; ring : vol4 (F ⟨x',0,0⟩) (F ⟨0,y',0⟩) (F ⟨0,1,0⟩) (F ⟨1,0,0⟩) = (0) * V))
      have H2 : third (F ⟨x',0,0⟩) (F ⟨0,0,z'⟩) (⟨F ⟨1,0,0⟩, F ⟨0,1,0⟩, F ⟨0,0,1⟩, F ⟨0,y',0⟩, Val.on⟩ : Tet K) (some (3, (⟨F ⟨x',0,0⟩, F ⟨0,y',0⟩, F ⟨1,0,0⟩, F ⟨0,0,1⟩, Val.on⟩ : Tet K))) = some (2, (⟨F ⟨0,0,z'⟩, F ⟨0,0,1⟩, F ⟨0,y',0⟩, F ⟨x',0,0⟩, Val.on⟩ : Tet K)) :=
        third_3_2 (nonpos_of_neg (by rw [hF]; simp only [det, hx, hy, hz]; ring : vol4 (F ⟨x',0,0⟩) (F ⟨1,0,0⟩) (F ⟨0,1,0⟩) (F ⟨0,0,1⟩) = (-(x)) * V) (by positivity) hV) (nonpos_of_neg (by rw [hF]; simp only [det, hx, hy, hz]; ring : vol4 (F ⟨x',0,0⟩) (F ⟨0,0,1⟩) (F ⟨0,1,0⟩) (F ⟨0,y',0⟩) = (-(y*x')) * V) (by positivity) hV) (nonpos_of_zero (by rw [hF]; simp only [det, hx, hy, hz]; ring : vol4 (F ⟨x',0,0⟩) (F ⟨0,y',0⟩) (F ⟨0,1,0⟩) (F ⟨1,0,0⟩) = (0) * V)) (pos_of_pos (by rw [hF]; simp only [det, hx, hy, hz]; ring : vol4 (F ⟨0,0,z'⟩) (F ⟨0,0,1⟩) (F ⟨0,y',0⟩) (F ⟨x',0,0⟩) = ((z*x'*y')) * V) (by positivity) hV) (nonpos_of_neg (by rw [hF]; simp only [det, hx, hy, hz]; ring : vol4 (F ⟨0,0,z'⟩) (F ⟨x',0,0⟩) (F ⟨0,y',0⟩) (F ⟨1,0,0⟩) = (-(x*y'*z')) * V) (by positivity) hV) (nonpos_of_zero (by rw [hF]; simp only [det, hx, hy, hz]; ring : vol4 (F ⟨0,0,z'⟩) (F ⟨0,0,1⟩) (F ⟨x',0,0⟩) (F ⟨1,0,0⟩) = (0) * V))
      have q0 : vol (⟨F ⟨1,0,0⟩, F ⟨0,1,0⟩, F ⟨0,0,1⟩, F ⟨0,y',0⟩, Val.on⟩ : Tet K) = (y) * |V| := vol_of_pos (by rw [hF]; simp only [det, hx, hy, hz]; ring : vol4 (F ⟨1,0,0⟩) (F ⟨0,1,0⟩) (F ⟨0,0,1⟩) (F ⟨0,y',0⟩) = ((y)) * V) (by positivity) hV
      have q1 : vol (⟨F ⟨x',0,0⟩, F ⟨0,y',0⟩, F ⟨1,0,0⟩, F ⟨0,0,1⟩, Val.on⟩ : Tet K) = (x*y') * |V| := vol_of_pos (by rw [hF]; simp only [det, hx, hy, hz]; ring : vol4 (F ⟨x',0,0⟩) (F ⟨0,y',0⟩) (F ⟨1,0,0⟩) (F ⟨0,0,1⟩) = ((x*y')) * V) (by positivity) hV
      have q2 : vol (⟨F ⟨0,0,z'⟩, F ⟨0,0,1⟩, F ⟨0,y',0⟩, F ⟨x',0,0⟩, Val.on⟩ : Tet K) = (z*x'*y') * |V| := vol_of_pos (by rw [hF]; simp only [det, hx, hy, hz]; ring : vol4 (F ⟨0,0,z'⟩) (F ⟨0,0,1⟩) (F ⟨0,y',0⟩) (F ⟨x',0,0⟩) = ((z*x'*y')) * V) (by positivity) hV
      have H0' := fold_orient H0 (orient_pos (t := (⟨F ⟨1,0,0⟩, F ⟨0,1,0⟩, F ⟨0,0,1⟩, F ⟨0,y',0⟩, Val.on⟩ : Tet K)) (by positivity) q0)
      refine add6_sum he rfl hps H0' H1 H2 q0 q1 q2 (small_le hτ hVp hε ⟨ty, ly⟩ ⟨τ1, le_refl 1⟩ ⟨τ1, le_refl 1⟩ (by ring)) (small_le hτ hVp hε ⟨tx, lx⟩ ⟨ty', ly'⟩ ⟨τ1, le_refl 1⟩ (by ring)) (small_le hτ hVp hε ⟨tz, lz⟩ ⟨tx', lx'⟩ ⟨ty', ly'⟩  (by ring)) ?_
      simp only [hx, hy, hz]; ring
  · have _ := hVp
    have H0 := fold_max (ps := [F ⟨1,0,0⟩, F ⟨0,1,0⟩, F ⟨0,0,1⟩, F ⟨x',0,0⟩, F ⟨0,y',0⟩, F ⟨0,0,z'⟩]) (l1 := table6.take 14) (k := (14, 0, 1, 2, 3)) (l2 := table6.drop 15) rfl
      (by simp only [table6, List.take_succ_cons, List.take_zero, List.forall_mem_cons, List.not_mem_nil, IsEmpty.forall_iff, implies_true, and_true, a0, a1, a2, a3, a4, a5, a6, a7, a8, a9, a10, a11, a12, a13, a14]
          refine ⟨?_, ?_, ?_, ?_, ?_, ?_, ?_, ?_, ?_, ?_, ?_, ?_, ?_, ?_⟩ <;> first | exact mul_lt_mul_of_pos_right (by linarith only [o1, o2, px, py, pz, c0, c1, c2, c3, c4, c5, c6, c7, c8]) hVp | positivity)
      (by intro h hh; simp [table6] at hh)
      (by rw [a14]; positivity)
    rcases lt_or_gt_of_ne hV0 with hV | hV
    · have H1 : (faceLoop (F ⟨0,y',0⟩) (F ⟨0,y',0⟩) (⟨F ⟨0,1,0⟩, F ⟨1,0,0⟩, F ⟨0,0,1⟩, F ⟨x',0,0⟩, Val.on⟩ : Tet K) (fun _ => false) (0, none)).2 = some (3, (⟨F ⟨0,y',0⟩, F ⟨x',0,0⟩, F ⟨0,1,0⟩, F ⟨0,0,1⟩, Val.on⟩ : Tet K)) :=
        face_3 (pos_of_neg (by rw [hF]; simp only [det, hx, hy, hz]; ring : vol4 (F ⟨0,y',0⟩) (F ⟨x',0,0⟩) (F ⟨0,1,0⟩) (F ⟨0,0,1⟩) = (-(y*x')) * V) (by positivity) hV) (nonpos_of_pos (by rw [hF]; simp only [det, hx, hy, hz]; ring : vol4 (F ⟨0,y',0⟩) (F ⟨0,1,0⟩) (F ⟨1,0,0⟩) (F ⟨0,0,1⟩) = ((y)) * V) (by positivity) hV) (nonpos_of_pos (by rw [hF]; simp only [det, hx, hy, hz]; ring : vol4 (F ⟨0,y',0⟩) (F ⟨0,0,1⟩) (F ⟨1,0,0⟩) (F ⟨x',0,0⟩) = ((x*y')) * V) (by positivity) hV) (nonpos_of_zero (by rw [hF]; simp only [det, hx, hy, hz]; ring : vol4 (F ⟨0,y',0⟩) (F ⟨x',0,0⟩) (F ⟨1,0,0⟩) (F ⟨0,1,0⟩) = (0) * V))
      have H2 : third (F ⟨0,y',0⟩) (F ⟨0,0,z'⟩) (⟨F ⟨0,1,0⟩, F ⟨1,0,0⟩, F ⟨0,0,1⟩, F ⟨x',0,0⟩, Val.on⟩ : Tet K) (some (3, (⟨F ⟨0,y',0⟩, F ⟨x',0,0⟩, F ⟨0,1,0⟩, F ⟨0,0,1⟩, Val.on⟩ : Tet K))) = some (2, (⟨F ⟨0,0,z'⟩, F ⟨0,0,1⟩, F ⟨x',0,0⟩, F ⟨0,y',0⟩, Val.on⟩ : Tet K)) :=
        third_3_2 (nonpos_of_pos (by rw [hF]; simp only [det, hx, hy, hz]; ring : vol4 (F ⟨0,y',0⟩) (F ⟨0,1,0⟩) (F ⟨1,0,0⟩) (F ⟨0,0,1⟩) = ((y)) * V) (by positivity) hV) (nonpos_of_pos (by rw [hF]; simp only [det, hx, hy, hz]; ring : vol4 (F ⟨0,y',0⟩) (F ⟨0,0,1⟩) (F ⟨1,0,0⟩) (F ⟨x',0,0⟩) = ((x*y')) * V) (by positivity) hV) (nonpos_of_zero (by rw [hF]; simp only [det, hx, hy, hz]; ring : vol4 (F ⟨0,y',0⟩) (F ⟨x',0,0⟩) (F ⟨1,0,0⟩) (F ⟨0,1,0⟩) = (0) * V)) (pos_of_neg (by rw [hF]; simp only [det, hx, hy, hz]; ring : vol4 (F ⟨0,0,z'⟩) (F ⟨0,0,1⟩) (F ⟨x',0,0⟩) (F ⟨0,y',0⟩) = (-(z*x'*y')) * V) (by positivity) hV) (nonpos_of_pos (by rw [hF]; simp only [det, hx, hy, hz]; ring : vol4 (F ⟨0,0,z'⟩) (F ⟨0,y',0⟩) (F ⟨x',0,0⟩) (F ⟨0,1,0⟩) = ((y*x'*z')) * V) (by positivity) hV) (nonpos_of_zero (by rw [hF]; simp only [det, hx, hy, hz]; ring : vol4 (F ⟨0,0,z'⟩) (F ⟨0,0,1⟩) (F ⟨0,y',0⟩) (F ⟨0,1,0⟩) = (0) * V))
      have q0 : vol (⟨F ⟨0,1,0⟩, F ⟨1,0,0⟩, F ⟨0,0,1⟩, F ⟨x',0,0⟩, Val.on⟩ : Tet K) = (x) * |V| := vol_of_neg (by rw [hF]; simp only [det, hx, hy, hz]; ring : vol4 (F ⟨0,1,0⟩) (F ⟨1,0,0⟩) (F ⟨0,0,1⟩) (F ⟨x',0,0⟩) = (-(x)) * V) (by positivity) hV
      have q1 : vol (⟨F ⟨0,y',0⟩, F ⟨x',0,0⟩, F ⟨0,1,0⟩, F ⟨0,0,1⟩, Val.on⟩ : Tet K) = (y*x') * |V| := vol_of_neg (by rw [hF]; simp only [det, hx, hy, hz]; ring : vol4 (F ⟨0,y',0⟩) (F ⟨x',0,0⟩) (F ⟨0,1,0⟩) (F ⟨0,0,1⟩) = (-(y*x')) * V) (by positivity) hV
      have q2 : vol (⟨F ⟨0,0,z'⟩, F ⟨0,0,1⟩, F ⟨x',0,0⟩, F ⟨0,y',0⟩, Val.on⟩ : Tet K) = (z*x'*y') * |V| := vol_of_neg (by rw [hF]; simp only [det, hx, hy, hz]; ring : vol4 (F ⟨0,0,z'⟩) (F ⟨0,0,1⟩) (F ⟨x',0,0⟩) (F ⟨0,y',0⟩) = (-(z*x'*y')) * V) (by positivity) hV
      have H0' := fold_orient H0 (orient_neg (t := (⟨F ⟨1,0,0⟩, F ⟨0,1,0⟩, F ⟨0,0,1⟩, F ⟨x',0,0⟩, Val.on⟩ : Tet K)) (by positivity) q0)
      refine add6_sum he rfl hps H0' H1 H2 q0 q1 q2 (small_le hτ hVp hε ⟨tx, lx⟩ ⟨τ1, le_refl 1⟩ ⟨τ1, le_refl 1⟩ (by ring)) (small_le hτ hVp hε ⟨ty, ly⟩ ⟨tx', lx'⟩ ⟨τ1, le_refl 1⟩ (by ring)) (small_le hτ hVp hε ⟨tz, lz⟩ ⟨tx', lx'⟩ ⟨ty', ly'⟩  (by ring)) ?_
      simp only [hx, hy, hz]; ring
    · have H1 : (faceLoop (F ⟨0,y',0⟩) (F ⟨0,y',0⟩) (⟨F ⟨1,0,0⟩, F ⟨0,1,0⟩, F ⟨0,0,1⟩, F ⟨x',0,0⟩, Val.on⟩ : Tet K) (fun _ => false) (0, none)).2 = some (1, (⟨F ⟨0,y',0⟩, F ⟨0,0,1⟩, F ⟨0,1,0⟩, F ⟨x',0,0⟩, Val.on⟩ : Tet K)) :=
        face_1 (pos_of_pos (by rw [hF]; simp only [det, hx, hy, hz]; ring : vol4 (F ⟨0,y',0⟩) (F ⟨0,0,1⟩) (F ⟨0,1,0⟩) (F ⟨x',0,0⟩) = ((y*x')) * V) (by positivity) hV) (nonpos_of_neg (by rw [hF]; simp only [det, hx, hy, hz]; ring : vol4 (F ⟨0,y',0⟩) (F ⟨1,0,0⟩) (F ⟨0,1,0⟩) (F ⟨0,0,1⟩) = (-(y)) * V) (by positivity) hV) (nonpos_of_zero (by rw [hF]; simp only [det, hx, hy, hz]; ring : vol4 (F ⟨0,y',0⟩) (F ⟨x',0,0⟩) (F ⟨0,1,0⟩) (F ⟨1,0,0⟩) = (0) * V)) (nonpos_of_neg (by rw [hF]; simp only [det, hx, hy, hz]; ring : vol4 (F ⟨0,y',0⟩) (F ⟨x',0,0⟩) (F ⟨1,0,0⟩) (F ⟨0,0,1⟩) = (-(x*y')) * V) (by positivity) hV)
      have H2 : third (F ⟨0,y',0⟩) (F ⟨0,0,z'⟩) (⟨F ⟨1,0,0⟩, F ⟨0,1,0⟩, F ⟨0,0,1⟩, F ⟨x',0,0⟩, Val.on⟩ : Tet K) (some (1, (⟨F ⟨0,y',0⟩, F ⟨0,0,1⟩, F ⟨0,1,0⟩, F ⟨x',0,0⟩, Val.on⟩ : Tet K))) = some (2, (⟨F ⟨0,0,z'⟩, F ⟨x',0,0⟩, F ⟨0,0,1⟩, F ⟨0,y',0⟩, Val.on⟩ : Tet K)) :=
        third_1_2 (nonpos_of_neg (by rw [hF]; simp only [det, hx, hy, hz]; ring : vol4 (F ⟨0,y',0⟩) (F ⟨1,0,0⟩) (F ⟨0,1,0⟩) (F ⟨0,0,1⟩) = (-(y)) * V) (by positivity) hV) (nonpos_of_zero (by rw [hF]; simp only [det, hx, hy, hz]; ring : vol4 (F ⟨0,y',0⟩) (F ⟨x',0,0⟩) (F ⟨0,1,0⟩) (F ⟨1,0,0⟩) = (0) * V)) (nonpos_of_neg (by rw [hF]; simp only [det, hx, hy, hz]; ring : vol4 (F ⟨0,y',0⟩) (F ⟨x',0,0⟩) (F ⟨1,0,0⟩) (F ⟨0,0,1⟩) = (-(x*y')) * V) (by positivity) hV) (pos_of_pos (by rw [hF]; simp only [det, hx, hy, hz]; ring : vol4 (F ⟨0,0,z'⟩) (F ⟨x',0,0⟩) (F ⟨0,0,1⟩) (F ⟨0,y',0⟩) = ((z*x'*y')) * V) (by positivity) hV) (nonpos_of_zero (by rw [hF]; simp only [det, hx, hy, hz]; ring : vol4 (F ⟨0,0,z'⟩) (F ⟨0,y',0⟩) (F ⟨0,0,1⟩) (F ⟨0,1,0⟩) = (0) * V)) (nonpos_of_neg (by rw [hF]; simp only [det, hx, hy, hz]; ring : vol4 (F ⟨0,0,z'⟩) (F ⟨x',0,0⟩) (F ⟨0,y',0⟩) (F ⟨0,1,0⟩) = (-(y*x'*z')) * V) (by positivity) hV)
      have q0 : vol (⟨F ⟨1,0,0⟩, F ⟨0,1,0⟩, F ⟨0,0,1⟩, F ⟨x',0,0⟩, Val.on⟩ : Tet K) = (x) * |V| := vol_of_pos (by rw [hF]; simp only [det, hx, hy, hz]; ring : vol4 (F ⟨1,0,0⟩) (F ⟨0,1,0⟩) (F ⟨0,0,1⟩) (F ⟨x',0,0⟩) = ((x)) * V) (by positivity) hV
      have q1 : vol (⟨F ⟨0,y',0⟩, F ⟨0,0,1⟩, F ⟨0,1,0⟩, F ⟨x',0,0⟩, Val.on⟩ : Tet K) = (y*x') * |V| := vol_of_pos (by rw [hF]; simp only [det, hx, hy, hz]; ring : vol4 (F ⟨0,y',0⟩) (F ⟨0,0,1⟩) (F ⟨0,1,0⟩) (F ⟨x',0,0⟩) = ((y*x')) * V) (by positivity) hV
      have q2 : vol (⟨F ⟨0,0,z'⟩, F ⟨x',0,0⟩, F ⟨0,0,1⟩, F ⟨0,y',0⟩, Val.on⟩ : Tet K) = (z*x'*y') * |V| := vol_of_pos (by rw [hF]; simp only [det, hx, hy, hz]; ring : vol4 (F ⟨0,0,z'⟩) (F ⟨x',0,0⟩) (F ⟨0,0,1⟩) (F ⟨0,y',0⟩) = ((z*x'*y')) * V) (by positivity) hV
      have H0' := fold_orient H0 (orient_pos (t := (⟨F ⟨1,0,0⟩, F ⟨0,1,0⟩, F ⟨0,0,1⟩, F ⟨x',0,0⟩, Val.on⟩ : Tet K)) (by positivity) q0)
      refine add6_sum he rfl hps H0' H1 H2 q0 q1 q2 (small_le hτ hVp hε ⟨tx, lx⟩ ⟨τ1, le_refl 1⟩ ⟨τ1, le_refl 1⟩ (by ring)) (small_le hτ hVp hε ⟨ty, ly⟩ ⟨tx', lx'⟩ ⟨τ1, le_refl 1⟩ (by ring)) (small_le hτ hVp hε ⟨tz, lz⟩ ⟨tx', lx'⟩ ⟨ty', ly'⟩  (by ring)) ?_
      simp only [hx, hy, hz]; ring

set_option maxHeartbeats 2000000 in
/-- Two corners `P`, `Q` of a tetrahedron with the points on the edges to `R` and `S`. -/
theorem wedge {e : Env K} (he : e.Ok) (T : TSet K) {F : V3 K → V3 K} {V τ x y z w x' y' z' w' : K}
    (hF : ∀ a b c d, vol4 (F a) (F b) (F c) (F d) = det a b c d * V) (hV0 : V ≠ 0) (hx : x = 1 - x') (hy : y = 1 - y') (hz : z = 1 - z') (hw : w = 1 - w')
    (hτ : 0 < τ) (tx : τ ≤ x) (tx' : τ ≤ x') (ty : τ ≤ y) (ty' : τ ≤ y') (tz : τ ≤ z) (tz' : τ ≤ z') (tw : τ ≤ w) (tw' : τ ≤ w') (hε : e.eps ≤ τ * τ * τ * |V|) (hcop : x * w * y' * z' = y * z * x' * w') (hord : (x ≤ z ∧ y ≤ w) ∨ (z < x ∧ w < y)) 
    (hps : ∀ c ∈ [F ⟨0,0,0⟩, F ⟨1,0,0⟩, F ⟨0,x,0⟩, F ⟨0,0,y⟩, F ⟨z',z,0⟩, F ⟨w',0,w⟩], InBB e c) :
    ∃ new, add6 e T [F ⟨0,0,0⟩, F ⟨1,0,0⟩, F ⟨0,x,0⟩, F ⟨0,0,y⟩, F ⟨z',z,0⟩, F ⟨w',0,w⟩] = some (T.more new) ∧ (new.map fun u => |vol u|).sum = (z * w + x * z' * w + x * y * w') * |V| := by
  have px : 0 < x := lt_of_lt_of_le hτ tx
  have px' : 0 < x' := lt_of_lt_of_le hτ tx'
  have lx : x ≤ 1 := by linarith
  have lx' : x' ≤ 1 := by linarith
  have py : 0 < y := lt_of_lt_of_le hτ ty
  have py' : 0 < y' := lt_of_lt_of_le hτ ty'
  have ly : y ≤ 1 := by linarith
  have ly' : y' ≤ 1 := by linarith
  have pz : 0 < z := lt_of_lt_of_le hτ tz
  have pz' : 0 < z' := lt_of_lt_of_le hτ tz'
  have lz : z ≤ 1 := by linarith
  have lz' : z' ≤ 1 := by linarith
  have pw : 0 < w := lt_of_lt_of_le hτ tw
  have pw' : 0 < w' := lt_of_lt_of_le hτ tw'
  have lw : w ≤ 1 := by linarith
  have lw' : w' ≤ 1 := by linarith
  have τ1 : τ ≤ 1 := by linarith
  have hVp : 0 < |V| := abs_pos.2 hV0
  have hcop' : x * w * (1 - y) * (1 - z) - y * z * (1 - x) * (1 - w) = 0 := by
    rw [show 1 - y = y' by linarith, show 1 - z = z' by linarith, show 1 - x = x' by linarith, show 1 - w = w' by linarith]; linarith
  have hcop' : (1 - x') * (1 - w') * y' * z' - (1 - y') * (1 - z') * x' * w' = 0 := by rw [← hx, ← hw, ← hy, ← hz]; linarith
  have a0 : |tvol [F ⟨0,0,0⟩, F ⟨1,0,0⟩, F ⟨0,x,0⟩, F ⟨0,0,y⟩, F ⟨z',z,0⟩, F ⟨w',0,w⟩] (0, 2, 3, 4, 5)| = 0 := by
    have := (by rw [hF]; simp only [det, hx, hy, hz, hw]; linear_combination (-1 : K) * V * hcop' : vol4 (F ⟨0,x,0⟩) (F ⟨0,0,y⟩) (F ⟨z',z,0⟩) (F ⟨w',0,w⟩) = (0) * V)
    exact (congrArg abs (this.trans (zero_mul V))).trans abs_zero
  have a1 : |tvol [F ⟨0,0,0⟩, F ⟨1,0,0⟩, F ⟨0,x,0⟩, F ⟨0,0,y⟩, F ⟨z',z,0⟩, F ⟨w',0,w⟩] (1, 1, 3, 4, 5)| = (z*w*y') * |V| :=
    absP (by rw [hF]; simp only [det, hx, hy, hz, hw]; ring : vol4 (F ⟨1,0,0⟩) (F ⟨0,0,y⟩) (F ⟨z',z,0⟩) (F ⟨w',0,w⟩) = ((z*w*y')) * V) (by positivity)
  have a2 : |tvol [F ⟨0,0,0⟩, F ⟨1,0,0⟩, F ⟨0,x,0⟩, F ⟨0,0,y⟩, F ⟨z',z,0⟩, F ⟨w',0,w⟩] (2, 1, 2, 4, 5)| = (z*w*x') * |V| :=
    absP (by rw [hF]; simp only [det, hx, hy, hz, hw]; ring : vol4 (F ⟨1,0,0⟩) (F ⟨0,x,0⟩) (F ⟨z',z,0⟩) (F ⟨w',0,w⟩) = ((z*w*x')) * V) (by positivity)
  have a3 : |tvol [F ⟨0,0,0⟩, F ⟨1,0,0⟩, F ⟨0,x,0⟩, F ⟨0,0,y⟩, F ⟨z',z,0⟩, F ⟨w',0,w⟩] (3, 1, 2, 3, 5)| = (x*w*y') * |V| :=
    absN (by rw [hF]; simp only [det, hx, hy, hz, hw]; ring : vol4 (F ⟨1,0,0⟩) (F ⟨0,x,0⟩) (F ⟨0,0,y⟩) (F ⟨w',0,w⟩) = (-(x*w*y')) * V) (by positivity)
  have a4 : |tvol [F ⟨0,0,0⟩, F ⟨1,0,0⟩, F ⟨0,x,0⟩, F ⟨0,0,y⟩, F ⟨z',z,0⟩, F ⟨w',0,w⟩] (4, 1, 2, 3, 4)| = (y*z*x') * |V| :=
    absN (by rw [hF]; simp only [det, hx, hy, hz, hw]; ring : vol4 (F ⟨1,0,0⟩) (F ⟨0,x,0⟩) (F ⟨0,0,y⟩) (F ⟨z',z,0⟩) = (-(y*z*x')) * V) (by positivity)
  have a5 : |tvol [F ⟨0,0,0⟩, F ⟨1,0,0⟩, F ⟨0,x,0⟩, F ⟨0,0,y⟩, F ⟨z',z,0⟩, F ⟨w',0,w⟩] (5, 0, 3, 4, 5)| = (y*z*w') * |V| :=
    absP (by rw [hF]; simp only [det, hx, hy, hz, hw]; ring : vol4 (F ⟨0,0,0⟩) (F ⟨0,0,y⟩) (F ⟨z',z,0⟩) (F ⟨w',0,w⟩) = ((y*z*w')) * V) (by positivity)
  have a6 : |tvol [F ⟨0,0,0⟩, F ⟨1,0,0⟩, F ⟨0,x,0⟩, F ⟨0,0,y⟩, F ⟨z',z,0⟩, F ⟨w',0,w⟩] (6, 0, 2, 4, 5)| = (x*w*z') * |V| :=
    absP (by rw [hF]; simp only [det, hx, hy, hz, hw]; ring : vol4 (F ⟨0,0,0⟩) (F ⟨0,x,0⟩) (F ⟨z',z,0⟩) (F ⟨w',0,w⟩) = ((x*w*z')) * V) (by positivity)
  have a7 : |tvol [F ⟨0,0,0⟩, F ⟨1,0,0⟩, F ⟨0,x,0⟩, F ⟨0,0,y⟩, F ⟨z',z,0⟩, F ⟨w',0,w⟩] (7, 0, 2, 3, 5)| = (x*y*w') * |V| :=
    absN (by rw [hF]; simp only [det, hx, hy, hz, hw]; ring : vol4 (F ⟨0,0,0⟩) (F ⟨0,x,0⟩) (F ⟨0,0,y⟩) (F ⟨w',0,w⟩) = (-(x*y*w')) * V) (by positivity)
  have a8 : |tvol [F ⟨0,0,0⟩, F ⟨1,0,0⟩, F ⟨0,x,0⟩, F ⟨0,0,y⟩, F ⟨z',z,0⟩, F ⟨w',0,w⟩] (8, 0, 2, 3, 4)| = (x*y*z') * |V| :=
    absN (by rw [hF]; simp only [det, hx, hy, hz, hw]; ring : vol4 (F ⟨0,0,0⟩) (F ⟨0,x,0⟩) (F ⟨0,0,y⟩) (F ⟨z',z,0⟩) = (-(x*y*z')) * V) (by positivity)
  have a9 : |tvol [F ⟨0,0,0⟩, F ⟨1,0,0⟩, F ⟨0,x,0⟩, F ⟨0,0,y⟩, F ⟨z',z,0⟩, F ⟨w',0,w⟩] (9, 0, 1, 4, 5)| = (z*w) * |V| :=
    absN (by rw [hF]; simp only [det, hx, hy, hz, hw]; ring : vol4 (F ⟨0,0,0⟩) (F ⟨1,0,0⟩) (F ⟨z',z,0⟩) (F ⟨w',0,w⟩) = (-(z*w)) * V) (by positivity)
  have a10 : |tvol [F ⟨0,0,0⟩, F ⟨1,0,0⟩, F ⟨0,x,0⟩, F ⟨0,0,y⟩, F ⟨z',z,0⟩, F ⟨w',0,w⟩] (10, 0, 1, 3, 5)| = 0 := by
    have := (by rw [hF]; simp only [det, hx, hy, hz, hw]; ring : vol4 (F ⟨0,0,0⟩) (F ⟨1,0,0⟩) (F ⟨0,0,y⟩) (F ⟨w',0,w⟩) = (0) * V)
    exact (congrArg abs (this.trans (zero_mul V))).trans abs_zero
  have a11 : |tvol [F ⟨0,0,0⟩, F ⟨1,0,0⟩, F ⟨0,x,0⟩, F ⟨0,0,y⟩, F ⟨z',z,0⟩, F ⟨w',0,w⟩] (11, 0, 1, 3, 4)| = (y*z) * |V| :=
    absP (by rw [hF]; simp only [det, hx, hy, hz, hw]; ring : vol4 (F ⟨0,0,0⟩) (F ⟨1,0,0⟩) (F ⟨0,0,y⟩) (F ⟨z',z,0⟩) = ((y*z)) * V) (by positivity)
  have a12 : |tvol [F ⟨0,0,0⟩, F ⟨1,0,0⟩, F ⟨0,x,0⟩, F ⟨0,0,y⟩, F ⟨z',z,0⟩, F ⟨w',0,w⟩] (12, 0, 1, 2, 5)| = (x*w) * |V| :=
    absN (by rw [hF]; simp only [det, hx, hy, hz, hw]; ring : vol4 (F ⟨0,0,0⟩) (F ⟨1,0,0⟩) (F ⟨0,x,0⟩) (F ⟨w',0,w⟩) = (-(x*w)) * V) (by positivity)
  have a13 : |tvol [F ⟨0,0,0⟩, F ⟨1,0,0⟩, F ⟨0,x,0⟩, F ⟨0,0,y⟩, F ⟨z',z,0⟩, F ⟨w',0,w⟩] (13, 0, 1, 2, 4)| = 0 := by
    have := (by rw [hF]; simp only [det, hx, hy, hz, hw]; ring : vol4 (F ⟨0,0,0⟩) (F ⟨1,0,0⟩) (F ⟨0,x,0⟩) (F ⟨z',z,0⟩) = (0) * V)
    exact (congrArg abs (this.trans (zero_mul V))).trans abs_zero
  have a14 : |tvol [F ⟨0,0,0⟩, F ⟨1,0,0⟩, F ⟨0,x,0⟩, F ⟨0,0,y⟩, F ⟨z',z,0⟩, F ⟨w',0,w⟩] (14, 0, 1, 2, 3)| = (x*y) * |V| :=
    absN (by rw [hF]; simp only [det, hx, hy, hz, hw]; ring : vol4 (F ⟨0,0,0⟩) (F ⟨1,0,0⟩) (F ⟨0,x,0⟩) (F ⟨0,0,y⟩) = (-(x*y)) * V) (by positivity)
  have c0 : x*w*y' < x*w := by
    have u : y' < 1 := by linarith only [hy, py]
    have v : 0 < x*w := by positivity
    have := mul_lt_mul_of_pos_left u v
    linarith only [this]
  have c1 : x*w*z' < x*w := by
    have u : z' < 1 := by linarith only [hz, pz]
    have v : 0 < x*w := by positivity
    have := mul_lt_mul_of_pos_left u v
    linarith only [this]
  have c2 : x*y*w' < x*y := by
    have u : w' < 1 := by linarith only [hw, pw]
    have v : 0 < x*y := by positivity
    have := mul_lt_mul_of_pos_left u v
    linarith only [this]
  have c3 : x*y*z' < x*y := by
    have u : z' < 1 := by linarith only [hz, pz]
    have v : 0 < x*y := by positivity
    have := mul_lt_mul_of_pos_left u v
    linarith only [this]
  have c4 : y*z*w' < y*z := by
    have u : w' < 1 := by linarith only [hw, pw]
    have v : 0 < y*z := by positivity
    have := mul_lt_mul_of_pos_left u v
    linarith only [this]
  have c5 : y*z*x' < y*z := by
    have u : x' < 1 := by linarith only [hx, px]
    have v : 0 < y*z := by positivity
    have := mul_lt_mul_of_pos_left u v
    linarith only [this]
  have c6 : z*w*x' < z*w := by
    have u : x' < 1 := by linarith only [hx, px]
    have v : 0 < z*w := by positivity
    have := mul_lt_mul_of_pos_left u v
    linarith only [this]
  have c7 : z*w*y' < z*w := by
    have u : y' < 1 := by linarith only [hy, py]
    have v : 0 < z*w := by positivity
    have := mul_lt_mul_of_pos_left u v
    linarith only [this]
  rcases hord with ⟨o1, o2⟩ | ⟨o1, o2⟩
  · have _ := hVp
    have d1 : x * y ≤ z * w := mul_le_mul o1 o2 py.le pz.le
    have d2 : x * w ≤ z * w := mul_le_mul_of_nonneg_right o1 pw.le
    have d3 : y * z ≤ z * w := by have := mul_le_mul_of_nonneg_left o2 pz.le; linarith
    have d0 : 0 < z * w := by positivity
    have H0 := fold_max (ps := [F ⟨0,0,0⟩, F ⟨1,0,0⟩, F ⟨0,x,0⟩, F ⟨0,0,y⟩, F ⟨z',z,0⟩, F ⟨w',0,w⟩]) (l1 := table6.take 9) (k := (9, 0, 1, 4, 5)) (l2 := table6.drop 10) rfl
      (by simp only [table6, List.take_succ_cons, List.take_zero, List.forall_mem_cons, List.not_mem_nil, IsEmpty.forall_iff, implies_true, and_true, a0, a1, a2, a3, a4, a5, a6, a7, a8, a9, a10, a11, a12, a13, a14]
          refine ⟨?_, ?_, ?_, ?_, ?_, ?_, ?_, ?_, ?_⟩ <;> first | exact mul_lt_mul_of_pos_right (by linarith only [d0, d1, d2, d3, c0, c1, c2, c3, c4, c5, c6, c7]) hVp | positivity)
      (by simp only [table6, List.drop_succ_cons, List.drop_zero, List.forall_mem_cons, List.not_mem_nil, IsEmpty.forall_iff, implies_true, and_true, a0, a1, a2, a3, a4, a5, a6, a7, a8, a9, a10, a11, a12, a13, a14]
          refine ⟨?_, ?_, ?_, ?_, ?_⟩ <;> first | exact mul_le_mul_of_nonneg_right (by linarith only [d0, d1, d2, d3, c0, c1, c2, c3, c4, c5, c6, c7]) hVp.le | positivity)
      (by rw [a9]; positivity)
    rcases lt_or_gt_of_ne hV0 with hV | hV
    · have H1 : (faceLoop (F ⟨0,x,0⟩) (F ⟨0,x,0⟩) (⟨F ⟨0,0,0⟩, F ⟨1,0,0⟩, F ⟨z',z,0⟩, F ⟨w',0,w⟩, Val.on⟩ : Tet K) (fun _ => false) (0, none)).2 = some (3, (⟨F ⟨0,x,0⟩, F ⟨w',0,w⟩, F ⟨0,0,0⟩, F ⟨z',z,0⟩, Val.on⟩ : Tet K)) :=
        face_3 (pos_of_neg (by rw [hF]; simp only [det, hx, hy, hz, hw]; ring : vol4 (F ⟨0,x,0⟩) (F ⟨w',0,w⟩) (F ⟨0,0,0⟩) (F ⟨z',z,0⟩) = (-(x*w*z')) * V) (by positivity) hV) (nonpos_of_zero (by rw [hF]; simp only [det, hx, hy, hz, hw]; ring : vol4 (F ⟨0,x,0⟩) (F ⟨0,0,0⟩) (F ⟨1,0,0⟩) (F ⟨z',z,0⟩) = (0) * V)) (nonpos_of_pos (by rw [hF]; simp only [det, hx, hy, hz, hw]; ring : vol4 (F ⟨0,x,0⟩) (F ⟨z',z,0⟩) (F ⟨1,0,0⟩) (F ⟨w',0,w⟩) = ((z*w*x')) * V) (by positivity) hV) (nonpos_of_pos (by rw [hF]; simp only [det, hx, hy, hz, hw]; ring : vol4 (F ⟨0,x,0⟩) (F ⟨w',0,w⟩) (F ⟨1,0,0⟩) (F ⟨0,0,0⟩) = ((x*w)) * V) (by positivity) hV)
      have H2 : third (F ⟨0,x,0⟩) (F ⟨0,0,y⟩) (⟨F ⟨0,0,0⟩, F ⟨1,0,0⟩, F ⟨z',z,0⟩, F ⟨w',0,w⟩, Val.on⟩ : Tet K) (some (3, (⟨F ⟨0,x,0⟩, F ⟨w',0,w⟩, F ⟨0,0,0⟩, F ⟨z',z,0⟩, Val.on⟩ : Tet K))) = some (0, (⟨F ⟨0,0,y⟩, F ⟨0,x,0⟩, F ⟨w',0,w⟩, F ⟨0,0,0⟩, Val.on⟩ : Tet K)) :=
        third_3_0 (nonpos_of_zero (by rw [hF]; simp only [det, hx, hy, hz, hw]; ring : vol4 (F ⟨0,x,0⟩) (F ⟨0,0,0⟩) (F ⟨1,0,0⟩) (F ⟨z',z,0⟩) = (0) * V)) (nonpos_of_pos (by rw [hF]; simp only [det, hx, hy, hz, hw]; ring : vol4 (F ⟨0,x,0⟩) (F ⟨z',z,0⟩) (F ⟨1,0,0⟩) (F ⟨w',0,w⟩) = ((z*w*x')) * V) (by positivity) hV) (nonpos_of_pos (by rw [hF]; simp only [det, hx, hy, hz, hw]; ring : vol4 (F ⟨0,x,0⟩) (F ⟨w',0,w⟩) (F ⟨1,0,0⟩) (F ⟨0,0,0⟩) = ((x*w)) * V) (by positivity) hV) (pos_of_neg (by rw [hF]; simp only [det, hx, hy, hz, hw]; ring : vol4 (F ⟨0,0,y⟩) (F ⟨0,x,0⟩) (F ⟨w',0,w⟩) (F ⟨0,0,0⟩) = (-(x*y*w')) * V) (by positivity) hV) (nonpos_of_zero (by rw [hF]; simp only [det, hx, hy, hz, hw]; linear_combination (1 : K) * V * hcop' : vol4 (F ⟨0,0,y⟩) (F ⟨z',z,0⟩) (F ⟨w',0,w⟩) (F ⟨0,x,0⟩) = (0) * V)) (nonpos_of_pos (by rw [hF]; simp only [det, hx, hy, hz, hw]; ring : vol4 (F ⟨0,0,y⟩) (F ⟨z',z,0⟩) (F ⟨0,x,0⟩) (F ⟨0,0,0⟩) = ((x*y*z')) * V) (by positivity) hV)
      have q0 : vol (⟨F ⟨0,0,0⟩, F ⟨1,0,0⟩, F ⟨z',z,0⟩, F ⟨w',0,w⟩, Val.on⟩ : Tet K) = (z*w) * |V| := vol_of_neg (by rw [hF]; simp only [det, hx, hy, hz, hw]; ring : vol4 (F ⟨0,0,0⟩) (F ⟨1,0,0⟩) (F ⟨z',z,0⟩) (F ⟨w',0,w⟩) = (-(z*w)) * V) (by positivity) hV
      have q1 : vol (⟨F ⟨0,x,0⟩, F ⟨w',0,w⟩, F ⟨0,0,0⟩, F ⟨z',z,0⟩, Val.on⟩ : Tet K) = (x*w*z') * |V| := vol_of_neg (by rw [hF]; simp only [det, hx, hy, hz, hw]; ring : vol4 (F ⟨0,x,0⟩) (F ⟨w',0,w⟩) (F ⟨0,0,0⟩) (F ⟨z',z,0⟩) = (-(x*w*z')) * V) (by positivity) hV
      have q2 : vol (⟨F ⟨0,0,y⟩, F ⟨0,x,0⟩, F ⟨w',0,w⟩, F ⟨0,0,0⟩, Val.on⟩ : Tet K) = (x*y*w') * |V| := vol_of_neg (by rw [hF]; simp only [det, hx, hy, hz, hw]; ring : vol4 (F ⟨0,0,y⟩) (F ⟨0,x,0⟩) (F ⟨w',0,w⟩) (F ⟨0,0,0⟩) = (-(x*y*w')) * V) (by positivity) hV
      have H0' := fold_orient H0 (orient_pos (t := (⟨F ⟨0,0,0⟩, F ⟨1,0,0⟩, F ⟨z',z,0⟩, F ⟨w',0,w⟩, Val.on⟩ : Tet K)) (by positivity) q0)
      refine add6_sum he rfl hps H0' H1 H2 q0 q1 q2 (small_le hτ hVp hε ⟨tz, lz⟩ ⟨tw, lw⟩ ⟨τ1, le_refl 1⟩ (by ring)) (small_le hτ hVp hε ⟨tx, lx⟩ ⟨tw, lw⟩ ⟨tz', lz'⟩  (by ring)) (small_le hτ hVp hε ⟨tx, lx⟩ ⟨ty, ly⟩ ⟨tw', lw'⟩  (by ring)) ?_
      simp only [hx, hy, hz, hw]; ring
    · have H1 : (faceLoop (F ⟨0,x,0⟩) (F ⟨0,x,0⟩) (⟨F ⟨1,0,0⟩, F ⟨0,0,0⟩, F ⟨z',z,0⟩, F ⟨w',0,w⟩, Val.on⟩ : Tet K) (fun _ => false) (0, none)).2 = some (1, (⟨F ⟨0,x,0⟩, F ⟨z',z,0⟩, F ⟨0,0,0⟩, F ⟨w',0,w⟩, Val.on⟩ : Tet K)) :=
        face_1 (pos_of_pos (by rw [hF]; simp only [det, hx, hy, hz, hw]; ring : vol4 (F ⟨0,x,0⟩) (F ⟨z',z,0⟩) (F ⟨0,0,0⟩) (F ⟨w',0,w⟩) = ((x*w*z')) * V) (by positivity) hV) (nonpos_of_zero (by rw [hF]; simp only [det, hx, hy, hz, hw]; ring : vol4 (F ⟨0,x,0⟩) (F ⟨1,0,0⟩) (F ⟨0,0,0⟩) (F ⟨z',z,0⟩) = (0) * V)) (nonpos_of_neg (by rw [hF]; simp only [det, hx, hy, hz, hw]; ring : vol4 (F ⟨0,x,0⟩) (F ⟨w',0,w⟩) (F ⟨0,0,0⟩) (F ⟨1,0,0⟩) = (-(x*w)) * V) (by positivity) hV) (nonpos_of_neg (by rw [hF]; simp only [det, hx, hy, hz, hw]; ring : vol4 (F ⟨0,x,0⟩) (F ⟨w',0,w⟩) (F ⟨1,0,0⟩) (F ⟨z',z,0⟩) = (-(z*w*x')) * V) (by positivity) hV)
      have H2 : third (F ⟨0,x,0⟩) (F ⟨0,0,y⟩) (⟨F ⟨1,0,0⟩, F ⟨0,0,0⟩, F ⟨z',z,0⟩, F ⟨w',0,w⟩, Val.on⟩ : Tet K) (some (1, (⟨F ⟨0,x,0⟩, F ⟨z',z,0⟩, F ⟨0,0,0⟩, F ⟨w',0,w⟩, Val.on⟩ : Tet K))) = some (3, (⟨F ⟨0,0,y⟩, F ⟨w',0,w⟩, F ⟨0,x,0⟩, F ⟨0,0,0⟩, Val.on⟩ : Tet K)) :=
        third_1_3 (nonpos_of_zero (by rw [hF]; simp only [det, hx, hy, hz, hw]; ring : vol4 (F ⟨0,x,0⟩) (F ⟨1,0,0⟩) (F ⟨0,0,0⟩) (F ⟨z',z,0⟩) = (0) * V)) (nonpos_of_neg (by rw [hF]; simp only [det, hx, hy, hz, hw]; ring : vol4 (F ⟨0,x,0⟩) (F ⟨w',0,w⟩) (F ⟨0,0,0⟩) (F ⟨1,0,0⟩) = (-(x*w)) * V) (by positivity) hV) (nonpos_of_neg (by rw [hF]; simp only [det, hx, hy, hz, hw]; ring : vol4 (F ⟨0,x,0⟩) (F ⟨w',0,w⟩) (F ⟨1,0,0⟩) (F ⟨z',z,0⟩) = (-(z*w*x')) * V) (by positivity) hV) (pos_of_pos (by rw [hF]; simp only [det, hx, hy, hz, hw]; ring : vol4 (F ⟨0,0,y⟩) (F ⟨w',0,w⟩) (F ⟨0,x,0⟩) (F ⟨0,0,0⟩) = ((x*y*w')) * V) (by positivity) hV) (nonpos_of_neg (by rw [hF]; simp only [det, hx, hy, hz, hw]; ring : vol4 (F ⟨0,0,y⟩) (F ⟨0,x,0⟩) (F ⟨z',z,0⟩) (F ⟨0,0,0⟩) = (-(x*y*z')) * V) (by positivity) hV) (nonpos_of_zero (by rw [hF]; simp only [det, hx, hy, hz, hw]; linear_combination (-1 : K) * V * hcop' : vol4 (F ⟨0,0,y⟩) (F ⟨w',0,w⟩) (F ⟨z',z,0⟩) (F ⟨0,x,0⟩) = (0) * V))
      have q0 : vol (⟨F ⟨1,0,0⟩, F ⟨0,0,0⟩, F ⟨z',z,0⟩, F ⟨w',0,w⟩, Val.on⟩ : Tet K) = (z*w) * |V| := vol_of_pos (by rw [hF]; simp only [det, hx, hy, hz, hw]; ring : vol4 (F ⟨1,0,0⟩) (F ⟨0,0,0⟩) (F ⟨z',z,0⟩) (F ⟨w',0,w⟩) = ((z*w)) * V) (by positivity) hV
      have q1 : vol (⟨F ⟨0,x,0⟩, F ⟨z',z,0⟩, F ⟨0,0,0⟩, F ⟨w',0,w⟩, Val.on⟩ : Tet K) = (x*w*z') * |V| := vol_of_pos (by rw [hF]; simp only [det, hx, hy, hz, hw]; ring : vol4 (F ⟨0,x,0⟩) (F ⟨z',z,0⟩) (F ⟨0,0,0⟩) (F ⟨w',0,w⟩) = ((x*w*z')) * V) (by positivity) hV
      have q2 : vol (⟨F ⟨0,0,y⟩, F ⟨w',0,w⟩, F ⟨0,x,0⟩, F ⟨0,0,0⟩, Val.on⟩ : Tet K) = (x*y*w') * |V| := vol_of_pos (by rw [hF]; simp only [det, hx, hy, hz, hw]; ring : vol4 (F ⟨0,0,y⟩) (F ⟨w',0,w⟩) (F ⟨0,x,0⟩) (F ⟨0,0,0⟩) = ((x*y*w')) * V) (by positivity) hV
      have H0' := fold_orient H0 (orient_neg (t := (⟨F ⟨0,0,0⟩, F ⟨1,0,0⟩, F ⟨z',z,0⟩, F ⟨w',0,w⟩, Val.on⟩ : Tet K)) (by positivity) q0)
      refine add6_sum he rfl hps H0' H1 H2 q0 q1 q2 (small_le hτ hVp hε ⟨tz, lz⟩ ⟨tw, lw⟩ ⟨τ1, le_refl 1⟩ (by ring)) (small_le hτ hVp hε ⟨tx, lx⟩ ⟨tw, lw⟩ ⟨tz', lz'⟩  (by ring)) (small_le hτ hVp hε ⟨tx, lx⟩ ⟨ty, ly⟩ ⟨tw', lw'⟩  (by ring)) ?_
      simp only [hx, hy, hz, hw]; ring
  · have _ := hVp
    have d1 : z * w < x * y := mul_lt_mul'' o1 o2 pz.le pw.le
    have d2 : x * w < x * y := mul_lt_mul_of_pos_left o2 px
    have d3 : y * z < x * y := by have := mul_lt_mul_of_pos_left o1 py; linarith
    have d0 : 0 < x * y := by positivity
    have H0 := fold_max (ps := [F ⟨0,0,0⟩, F ⟨1,0,0⟩, F ⟨0,x,0⟩, F ⟨0,0,y⟩, F ⟨z',z,0⟩, F ⟨w',0,w⟩]) (l1 := table6.take 14) (k := (14, 0, 1, 2, 3)) (l2 := table6.drop 15) rfl
      (by simp only [table6, List.take_succ_cons, List.take_zero, List.forall_mem_cons, List.not_mem_nil, IsEmpty.forall_iff, implies_true, and_true, a0, a1, a2, a3, a4, a5, a6, a7, a8, a9, a10, a11, a12, a13, a14]
          refine ⟨?_, ?_, ?_, ?_, ?_, ?_, ?_, ?_, ?_, ?_, ?_, ?_, ?_, ?_⟩ <;> first | exact mul_lt_mul_of_pos_right (by linarith only [d0, d1, d2, d3, c0, c1, c2, c3, c4, c5, c6, c7]) hVp | positivity)
      (by intro h hh; simp [table6] at hh)
      (by rw [a14]; positivity)
    rcases lt_or_gt_of_ne hV0 with hV | hV
    · have H1 : (faceLoop (F ⟨z',z,0⟩) (F ⟨z',z,0⟩) (⟨F ⟨0,0,0⟩, F ⟨1,0,0⟩, F ⟨0,x,0⟩, F ⟨0,0,y⟩, Val.on⟩ : Tet K) (fun _ => false) (0, none)).2 = some (1, (⟨F ⟨z',z,0⟩, F ⟨0,x,0⟩, F ⟨1,0,0⟩, F ⟨0,0,y⟩, Val.on⟩ : Tet K)) :=
        face_1 (pos_of_neg (by rw [hF]; simp only [det, hx, hy, hz, hw]; ring : vol4 (F ⟨z',z,0⟩) (F ⟨0,x,0⟩) (F ⟨1,0,0⟩) (F ⟨0,0,y⟩) = (-(y*z*x')) * V) (by positivity) hV) (nonpos_of_zero (by rw [hF]; simp only [det, hx, hy, hz, hw]; ring : vol4 (F ⟨z',z,0⟩) (F ⟨0,0,0⟩) (F ⟨1,0,0⟩) (F ⟨0,x,0⟩) = (0) * V)) (nonpos_of_pos (by rw [hF]; simp only [det, hx, hy, hz, hw]; ring : vol4 (F ⟨z',z,0⟩) (F ⟨0,0,y⟩) (F ⟨1,0,0⟩) (F ⟨0,0,0⟩) = ((y*z)) * V) (by positivity) hV) (nonpos_of_pos (by rw [hF]; simp only [det, hx, hy, hz, hw]; ring : vol4 (F ⟨z',z,0⟩) (F ⟨0,0,y⟩) (F ⟨0,0,0⟩) (F ⟨0,x,0⟩) = ((x*y*z')) * V) (by positivity) hV)
      have H2 : third (F ⟨z',z,0⟩) (F ⟨w',0,w⟩) (⟨F ⟨0,0,0⟩, F ⟨1,0,0⟩, F ⟨0,x,0⟩, F ⟨0,0,y⟩, Val.on⟩ : Tet K) (some (1, (⟨F ⟨z',z,0⟩, F ⟨0,x,0⟩, F ⟨1,0,0⟩, F ⟨0,0,y⟩, Val.on⟩ : Tet K))) = some (3, (⟨F ⟨w',0,w⟩, F ⟨0,0,y⟩, F ⟨z',z,0⟩, F ⟨1,0,0⟩, Val.on⟩ : Tet K)) :=
        third_1_3 (nonpos_of_zero (by rw [hF]; simp only [det, hx, hy, hz, hw]; ring : vol4 (F ⟨z',z,0⟩) (F ⟨0,0,0⟩) (F ⟨1,0,0⟩) (F ⟨0,x,0⟩) = (0) * V)) (nonpos_of_pos (by rw [hF]; simp only [det, hx, hy, hz, hw]; ring : vol4 (F ⟨z',z,0⟩) (F ⟨0,0,y⟩) (F ⟨1,0,0⟩) (F ⟨0,0,0⟩) = ((y*z)) * V) (by positivity) hV) (nonpos_of_pos (by rw [hF]; simp only [det, hx, hy, hz, hw]; ring : vol4 (F ⟨z',z,0⟩) (F ⟨0,0,y⟩) (F ⟨0,0,0⟩) (F ⟨0,x,0⟩) = ((x*y*z')) * V) (by positivity) hV) (pos_of_neg (by rw [hF]; simp only [det, hx, hy, hz, hw]; ring : vol4 (F ⟨w',0,w⟩) (F ⟨0,0,y⟩) (F ⟨z',z,0⟩) (F ⟨1,0,0⟩) = (-(z*w*y')) * V) (by positivity) hV) (nonpos_of_pos (by rw [hF]; simp only [det, hx, hy, hz, hw]; ring : vol4 (F ⟨w',0,w⟩) (F ⟨z',z,0⟩) (F ⟨0,x,0⟩) (F ⟨1,0,0⟩) = ((z*w*x')) * V) (by positivity) hV) (nonpos_of_zero (by rw [hF]; simp only [det, hx, hy, hz, hw]; linear_combination (-1 : K) * V * hcop' : vol4 (F ⟨w',0,w⟩) (F ⟨0,0,y⟩) (F ⟨0,x,0⟩) (F ⟨z',z,0⟩) = (0) * V))
      have q0 : vol (⟨F ⟨0,0,0⟩, F ⟨1,0,0⟩, F ⟨0,x,0⟩, F ⟨0,0,y⟩, Val.on⟩ : Tet K) = (x*y) * |V| := vol_of_neg (by rw [hF]; simp only [det, hx, hy, hz, hw]; ring : vol4 (F ⟨0,0,0⟩) (F ⟨1,0,0⟩) (F ⟨0,x,0⟩) (F ⟨0,0,y⟩) = (-(x*y)) * V) (by positivity) hV
      have q1 : vol (⟨F ⟨z',z,0⟩, F ⟨0,x,0⟩, F ⟨1,0,0⟩, F ⟨0,0,y⟩, Val.on⟩ : Tet K) = (y*z*x') * |V| := vol_of_neg (by rw [hF]; simp only [det, hx, hy, hz, hw]; ring : vol4 (F ⟨z',z,0⟩) (F ⟨0,x,0⟩) (F ⟨1,0,0⟩) (F ⟨0,0,y⟩) = (-(y*z*x')) * V) (by positivity) hV
      have q2 : vol (⟨F ⟨w',0,w⟩, F ⟨0,0,y⟩, F ⟨z',z,0⟩, F ⟨1,0,0⟩, Val.on⟩ : Tet K) = (z*w*y') * |V| := vol_of_neg (by rw [hF]; simp only [det, hx, hy, hz, hw]; ring : vol4 (F ⟨w',0,w⟩) (F ⟨0,0,y⟩) (F ⟨z',z,0⟩) (F ⟨1,0,0⟩) = (-(z*w*y')) * V) (by positivity) hV
      have H0' := fold_orient H0 (orient_pos (t := (⟨F ⟨0,0,0⟩, F ⟨1,0,0⟩, F ⟨0,x,0⟩, F ⟨0,0,y⟩, Val.on⟩ : Tet K)) (by positivity) q0)
      refine add6_sum he rfl hps H0' H1 H2 q0 q1 q2 (small_le hτ hVp hε ⟨tx, lx⟩ ⟨ty, ly⟩ ⟨τ1, le_refl 1⟩ (by ring)) (small_le hτ hVp hε ⟨ty, ly⟩ ⟨tz, lz⟩ ⟨tx', lx'⟩  (by ring)) (small_le hτ hVp hε ⟨tz, lz⟩ ⟨tw, lw⟩ ⟨ty', ly'⟩  (by ring)) ?_
      simp only [hx, hy, hz, hw]; linear_combination (-1 : K) * |V| * hcop'
    · have H1 : (faceLoop (F ⟨z',z,0⟩) (F ⟨z',z,0⟩) (⟨F ⟨1,0,0⟩, F ⟨0,0,0⟩, F ⟨0,x,0⟩, F ⟨0,0,y⟩, Val.on⟩ : Tet K) (fun _ => false) (0, none)).2 = some (3, (⟨F ⟨z',z,0⟩, F ⟨0,0,y⟩, F ⟨1,0,0⟩, F ⟨0,x,0⟩, Val.on⟩ : Tet K)) :=
        face_3 (pos_of_pos (by rw [hF]; simp only [det, hx, hy, hz, hw]; ring : vol4 (F ⟨z',z,0⟩) (F ⟨0,0,y⟩) (F ⟨1,0,0⟩) (F ⟨0,x,0⟩) = ((y*z*x')) * V) (by positivity) hV) (nonpos_of_zero (by rw [hF]; simp only [det, hx, hy, hz, hw]; ring : vol4 (F ⟨z',z,0⟩) (F ⟨1,0,0⟩) (F ⟨0,0,0⟩) (F ⟨0,x,0⟩) = (0) * V)) (nonpos_of_neg (by rw [hF]; simp only [det, hx, hy, hz, hw]; ring : vol4 (F ⟨z',z,0⟩) (F ⟨0,x,0⟩) (F ⟨0,0,0⟩) (F ⟨0,0,y⟩) = (-(x*y*z')) * V) (by positivity) hV) (nonpos_of_neg (by rw [hF]; simp only [det, hx, hy, hz, hw]; ring : vol4 (F ⟨z',z,0⟩) (F ⟨0,0,y⟩) (F ⟨0,0,0⟩) (F ⟨1,0,0⟩) = (-(y*z)) * V) (by positivity) hV)
      have H2 : third (F ⟨z',z,0⟩) (F ⟨w',0,w⟩) (⟨F ⟨1,0,0⟩, F ⟨0,0,0⟩, F ⟨0,x,0⟩, F ⟨0,0,y⟩, Val.on⟩ : Tet K) (some (3, (⟨F ⟨z',z,0⟩, F ⟨0,0,y⟩, F ⟨1,0,0⟩, F ⟨0,x,0⟩, Val.on⟩ : Tet K))) = some (0, (⟨F ⟨w',0,w⟩, F ⟨z',z,0⟩, F ⟨0,0,y⟩, F ⟨1,0,0⟩, Val.on⟩ : Tet K)) :=
        third_3_0 (nonpos_of_zero (by rw [hF]; simp only [det, hx, hy, hz, hw]; ring : vol4 (F ⟨z',z,0⟩) (F ⟨1,0,0⟩) (F ⟨0,0,0⟩) (F ⟨0,x,0⟩) = (0) * V)) (nonpos_of_neg (by rw [hF]; simp only [det, hx, hy, hz, hw]; ring : vol4 (F ⟨z',z,0⟩) (F ⟨0,x,0⟩) (F ⟨0,0,0⟩) (F ⟨0,0,y⟩) = (-(x*y*z')) * V) (by positivity) hV) (nonpos_of_neg (by rw [hF]; simp only [det, hx, hy, hz, hw]; ring : vol4 (F ⟨z',z,0⟩) (F ⟨0,0,y⟩) (F ⟨0,0,0⟩) (F ⟨1,0,0⟩) = (-(y*z)) * V) (by positivity) hV) (pos_of_pos (by rw [hF]; simp only [det, hx, hy, hz, hw]; ring : vol4 (F ⟨w',0,w⟩) (F ⟨z',z,0⟩) (F ⟨0,0,y⟩) (F ⟨1,0,0⟩) = ((z*w*y')) * V) (by positivity) hV) (nonpos_of_zero (by rw [hF]; simp only [det, hx, hy, hz, hw]; linear_combination (1 : K) * V * hcop' : vol4 (F ⟨w',0,w⟩) (F ⟨0,x,0⟩) (F ⟨0,0,y⟩) (F ⟨z',z,0⟩) = (0) * V)) (nonpos_of_neg (by rw [hF]; simp only [det, hx, hy, hz, hw]; ring : vol4 (F ⟨w',0,w⟩) (F ⟨0,x,0⟩) (F ⟨z',z,0⟩) (F ⟨1,0,0⟩) = (-(z*w*x')) * V) (by positivity) hV)
      have q0 : vol (⟨F ⟨1,0,0⟩, F ⟨0,0,0⟩, F ⟨0,x,0⟩, F ⟨0,0,y⟩, Val.on⟩ : Tet K) = (x*y) * |V| := vol_of_pos (by rw [hF]; simp only [det, hx, hy, hz, hw]; ring : vol4 (F ⟨1,0,0⟩) (F ⟨0,0,0⟩) (F ⟨0,x,0⟩) (F ⟨0,0,y⟩) = ((x*y)) * V) (by positivity) hV
      have q1 : vol (⟨F ⟨z',z,0⟩, F ⟨0,0,y⟩, F ⟨1,0,0⟩, F ⟨0,x,0⟩, Val.on⟩ : Tet K) = (y*z*x') * |V| := vol_of_pos (by rw [hF]; simp only [det, hx, hy, hz, hw]; ring : vol4 (F ⟨z',z,0⟩) (F ⟨0,0,y⟩) (F ⟨1,0,0⟩) (F ⟨0,x,0⟩) = ((y*z*x')) * V) (by positivity) hV
      have q2 : vol (⟨F ⟨w',0,w⟩, F ⟨z',z,0⟩, F ⟨0,0,y⟩, F ⟨1,0,0⟩, Val.on⟩ : Tet K) = (z*w*y') * |V| := vol_of_pos (by rw [hF]; simp only [det, hx, hy, hz, hw]; ring : vol4 (F ⟨w',0,w⟩) (F ⟨z',z,0⟩) (F ⟨0,0,y⟩) (F ⟨1,0,0⟩) = ((z*w*y')) * V) (by positivity) hV
      have H0' := fold_orient H0 (orient_neg (t := (⟨F ⟨0,0,0⟩, F ⟨1,0,0⟩, F ⟨0,x,0⟩, F ⟨0,0,y⟩, Val.on⟩ : Tet K)) (by positivity) q0)
      refine add6_sum he rfl hps H0' H1 H2 q0 q1 q2 (small_le hτ hVp hε ⟨tx, lx⟩ ⟨ty, ly⟩ ⟨τ1, le_refl 1⟩ (by ring)) (small_le hτ hVp hε ⟨ty, ly⟩ ⟨tz, lz⟩ ⟨tx', lx'⟩  (by ring)) (small_le hτ hVp hε ⟨tz, lz⟩ ⟨tw, lw⟩ ⟨ty', ly'⟩  (by ring)) ?_
      simp only [hx, hy, hz, hw]; linear_combination (-1 : K) * |V| * hcop'

set_option maxHeartbeats 2000000 in
/-- The same, the points in another order. -/
theorem wedge' {e : Env K} (he : e.Ok) (T : TSet K) {F : V3 K → V3 K} {V τ x y z w x' y' z' w' : K}
    (hF : ∀ a b c d, vol4 (F a) (F b) (F c) (F d) = det a b c d * V) (hV0 : V ≠ 0) (hx : x = 1 - x') (hy : y = 1 - y') (hz : z = 1 - z') (hw : w = 1 - w')
    (hτ : 0 < τ) (tx : τ ≤ x) (tx' : τ ≤ x') (ty : τ ≤ y) (ty' : τ ≤ y') (tz : τ ≤ z) (tz' : τ ≤ z') (tw : τ ≤ w) (tw' : τ ≤ w') (hε : e.eps ≤ τ * τ * τ * |V|) (hcop : x * w * y' * z' = y * z * x' * w') (hord : (x ≤ z ∧ y ≤ w) ∨ (z < x ∧ w < y)) 
    (hps : ∀ c ∈ [F ⟨0,0,0⟩, F ⟨1,0,0⟩, F ⟨0,x,0⟩, F ⟨z',z,0⟩, F ⟨0,0,y⟩, F ⟨w',0,w⟩], InBB e c) :
    ∃ new, add6 e T [F ⟨0,0,0⟩, F ⟨1,0,0⟩, F ⟨0,x,0⟩, F ⟨z',z,0⟩, F ⟨0,0,y⟩, F ⟨w',0,w⟩] = some (T.more new) ∧ (new.map fun u => |vol u|).sum = (z * w + x * z' * w + x * y * w') * |V| := by
  have px : 0 < x := lt_of_lt_of_le hτ tx
  have px' : 0 < x' := lt_of_lt_of_le hτ tx'
  have lx : x ≤ 1 := by linarith
  have lx' : x' ≤ 1 := by linarith
  have py : 0 < y := lt_of_lt_of_le hτ ty
  have py' : 0 < y' := lt_of_lt_of_le hτ ty'
  have ly : y ≤ 1 := by linarith
  have ly' : y' ≤ 1 := by linarith
  have pz : 0 < z := lt_of_lt_of_le hτ tz
  have pz' : 0 < z' := lt_of_lt_of_le hτ tz'
  have lz : z ≤ 1 := by linarith
  have lz' : z' ≤ 1 := by linarith
  have pw : 0 < w := lt_of_lt_of_le hτ tw
  have pw' : 0 < w' := lt_of_lt_of_le hτ tw'
  have lw : w ≤ 1 := by linarith
  have lw' : w' ≤ 1 := by linarith
  have τ1 : τ ≤ 1 := by linarith
  have hVp : 0 < |V| := abs_pos.2 hV0
  have hcop' : x * w * (1 - y) * (1 - z) - y * z * (1 - x) * (1 - w) = 0 := by
    rw [show 1 - y = y' by linarith, show 1 - z = z' by linarith, show 1 - x = x' by linarith, show 1 - w = w' by linarith]; linarith
  have hcop' : (1 - x') * (1 - w') * y' * z' - (1 - y') * (1 - z') * x' * w' = 0 := by rw [← hx, ← hw, ← hy, ← hz]; linarith
  have a0 : |tvol [F ⟨0,0,0⟩, F ⟨1,0,0⟩, F ⟨0,x,0⟩, F ⟨z',z,0⟩, F ⟨0,0,y⟩, F ⟨w',0,w⟩] (0, 2, 3, 4, 5)| = 0 := by
    have := (by rw [hF]; simp only [det, hx, hy, hz, hw]; linear_combination (1 : K) * V * hcop' : vol4 (F ⟨0,x,0⟩) (F ⟨z',z,0⟩) (F ⟨0,0,y⟩) (F ⟨w',0,w⟩) = (0) * V)
    exact (congrArg abs (this.trans (zero_mul V))).trans abs_zero
  have a1 : |tvol [F ⟨0,0,0⟩, F ⟨1,0,0⟩, F ⟨0,x,0⟩, F ⟨z',z,0⟩, F ⟨0,0,y⟩, F ⟨w',0,w⟩] (1, 1, 3, 4, 5)| = (z*w*y') * |V| :=
    absN (by rw [hF]; simp only [det, hx, hy, hz, hw]; ring : vol4 (F ⟨1,0,0⟩) (F ⟨z',z,0⟩) (F ⟨0,0,y⟩) (F ⟨w',0,w⟩) = (-(z*w*y')) * V) (by positivity)
  have a2 : |tvol [F ⟨0,0,0⟩, F ⟨1,0,0⟩, F ⟨0,x,0⟩, F ⟨z',z,0⟩, F ⟨0,0,y⟩, F ⟨w',0,w⟩] (2, 1, 2, 4, 5)| = (x*w*y') * |V| :=
    absN (by rw [hF]; simp only [det, hx, hy, hz, hw]; ring : vol4 (F ⟨1,0,0⟩) (F ⟨0,x,0⟩) (F ⟨0,0,y⟩) (F ⟨w',0,w⟩) = (-(x*w*y')) * V) (by positivity)
  have a3 : |tvol [F ⟨0,0,0⟩, F ⟨1,0,0⟩, F ⟨0,x,0⟩, F ⟨z',z,0⟩, F ⟨0,0,y⟩, F ⟨w',0,w⟩] (3, 1, 2, 3, 5)| = (z*w*x') * |V| :=
    absP (by rw [hF]; simp only [det, hx, hy, hz, hw]; ring : vol4 (F ⟨1,0,0⟩) (F ⟨0,x,0⟩) (F ⟨z',z,0⟩) (F ⟨w',0,w⟩) = ((z*w*x')) * V) (by positivity)
  have a4 : |tvol [F ⟨0,0,0⟩, F ⟨1,0,0⟩, F ⟨0,x,0⟩, F ⟨z',z,0⟩, F ⟨0,0,y⟩, F ⟨w',0,w⟩] (4, 1, 2, 3, 4)| = (y*z*x') * |V| :=
    absP (by rw [hF]; simp only [det, hx, hy, hz, hw]; ring : vol4 (F ⟨1,0,0⟩) (F ⟨0,x,0⟩) (F ⟨z',z,0⟩) (F ⟨0,0,y⟩) = ((y*z*x')) * V) (by positivity)
  have a5 : |tvol [F ⟨0,0,0⟩, F ⟨1,0,0⟩, F ⟨0,x,0⟩, F ⟨z',z,0⟩, F ⟨0,0,y⟩, F ⟨w',0,w⟩] (5, 0, 3, 4, 5)| = (y*z*w') * |V| :=
    absN (by rw [hF]; simp only [det, hx, hy, hz, hw]; ring : vol4 (F ⟨0,0,0⟩) (F ⟨z',z,0⟩) (F ⟨0,0,y⟩) (F ⟨w',0,w⟩) = (-(y*z*w')) * V) (by positivity)
  have a6 : |tvol [F ⟨0,0,0⟩, F ⟨1,0,0⟩, F ⟨0,x,0⟩, F ⟨z',z,0⟩, F ⟨0,0,y⟩, F ⟨w',0,w⟩] (6, 0, 2, 4, 5)| = (x*y*w') * |V| :=
    absN (by rw [hF]; simp only [det, hx, hy, hz, hw]; ring : vol4 (F ⟨0,0,0⟩) (F ⟨0,x,0⟩) (F ⟨0,0,y⟩) (F ⟨w',0,w⟩) = (-(x*y*w')) * V) (by positivity)
  have a7 : |tvol [F ⟨0,0,0⟩, F ⟨1,0,0⟩, F ⟨0,x,0⟩, F ⟨z',z,0⟩, F ⟨0,0,y⟩, F ⟨w',0,w⟩] (7, 0, 2, 3, 5)| = (x*w*z') * |V| :=
    absP (by rw [hF]; simp only [det, hx, hy, hz, hw]; ring : vol4 (F ⟨0,0,0⟩) (F ⟨0,x,0⟩) (F ⟨z',z,0⟩) (F ⟨w',0,w⟩) = ((x*w*z')) * V) (by positivity)
  have a8 : |tvol [F ⟨0,0,0⟩, F ⟨1,0,0⟩, F ⟨0,x,0⟩, F ⟨z',z,0⟩, F ⟨0,0,y⟩, F ⟨w',0,w⟩] (8, 0, 2, 3, 4)| = (x*y*z') * |V| :=
    absP (by rw [hF]; simp only [det, hx, hy, hz, hw]; ring : vol4 (F ⟨0,0,0⟩) (F ⟨0,x,0⟩) (F ⟨z',z,0⟩) (F ⟨0,0,y⟩) = ((x*y*z')) * V) (by positivity)
  have a9 : |tvol [F ⟨0,0,0⟩, F ⟨1,0,0⟩, F ⟨0,x,0⟩, F ⟨z',z,0⟩, F ⟨0,0,y⟩, F ⟨w',0,w⟩] (9, 0, 1, 4, 5)| = 0 := by
    have := (by rw [hF]; simp only [det, hx, hy, hz, hw]; ring : vol4 (F ⟨0,0,0⟩) (F ⟨1,0,0⟩) (F ⟨0,0,y⟩) (F ⟨w',0,w⟩) = (0) * V)
    exact (congrArg abs (this.trans (zero_mul V))).trans abs_zero
  have a10 : |tvol [F ⟨0,0,0⟩, F ⟨1,0,0⟩, F ⟨0,x,0⟩, F ⟨z',z,0⟩, F ⟨0,0,y⟩, F ⟨w',0,w⟩] (10, 0, 1, 3, 5)| = (z*w) * |V| :=
    absN (by rw [hF]; simp only [det, hx, hy, hz, hw]; ring : vol4 (F ⟨0,0,0⟩) (F ⟨1,0,0⟩) (F ⟨z',z,0⟩) (F ⟨w',0,w⟩) = (-(z*w)) * V) (by positivity)
  have a11 : |tvol [F ⟨0,0,0⟩, F ⟨1,0,0⟩, F ⟨0,x,0⟩, F ⟨z',z,0⟩, F ⟨0,0,y⟩, F ⟨w',0,w⟩] (11, 0, 1, 3, 4)| = (y*z) * |V| :=
    absN (by rw [hF]; simp only [det, hx, hy, hz, hw]; ring : vol4 (F ⟨0,0,0⟩) (F ⟨1,0,0⟩) (F ⟨z',z,0⟩) (F ⟨0,0,y⟩) = (-(y*z)) * V) (by positivity)
  have a12 : |tvol [F ⟨0,0,0⟩, F ⟨1,0,0⟩, F ⟨0,x,0⟩, F ⟨z',z,0⟩, F ⟨0,0,y⟩, F ⟨w',0,w⟩] (12, 0, 1, 2, 5)| = (x*w) * |V| :=
    absN (by rw [hF]; simp only [det, hx, hy, hz, hw]; ring : vol4 (F ⟨0,0,0⟩) (F ⟨1,0,0⟩) (F ⟨0,x,0⟩) (F ⟨w',0,w⟩) = (-(x*w)) * V) (by positivity)
  have a13 : |tvol [F ⟨0,0,0⟩, F ⟨1,0,0⟩, F ⟨0,x,0⟩, F ⟨z',z,0⟩, F ⟨0,0,y⟩, F ⟨w',0,w⟩] (13, 0, 1, 2, 4)| = (x*y) * |V| :=
    absN (by rw [hF]; simp only [det, hx, hy, hz, hw]; ring : vol4 (F ⟨0,0,0⟩) (F ⟨1,0,0⟩) (F ⟨0,x,0⟩) (F ⟨0,0,y⟩) = (-(x*y)) * V) (by positivity)
  have a14 : |tvol [F ⟨0,0,0⟩, F ⟨1,0,0⟩, F ⟨0,x,0⟩, F ⟨z',z,0⟩, F ⟨0,0,y⟩, F ⟨w',0,w⟩] (14, 0, 1, 2, 3)| = 0 := by
    have := (by rw [hF]; simp only [det, hx, hy, hz, hw]; ring : vol4 (F ⟨0,0,0⟩) (F ⟨1,0,0⟩) (F ⟨0,x,0⟩) (F ⟨z',z,0⟩) = (0) * V)
    exact (congrArg abs (this.trans (zero_mul V))).trans abs_zero
  have c0 : x*w*y' < x*w := by
    have u : y' < 1 := by linarith only [hy, py]
    have v : 0 < x*w := by positivity
    have := mul_lt_mul_of_pos_left u v
    linarith only [this]
  have c1 : x*w*z' < x*w := by
    have u : z' < 1 := by linarith only [hz, pz]
    have v : 0 < x*w := by positivity
    have := mul_lt_mul_of_pos_left u v
    linarith only [this]
  have c2 : x*y*w' < x*y := by
    have u : w' < 1 := by linarith only [hw, pw]
    have v : 0 < x*y := by positivity
    have := mul_lt_mul_of_pos_left u v
    linarith only [this]
  have c3 : x*y*z' < x*y := by
    have u : z' < 1 := by linarith only [hz, pz]
    have v : 0 < x*y := by positivity
    have := mul_lt_mul_of_pos_left u v
    linarith only [this]
  have c4 : y*z*w' < y*z := by
    have u : w' < 1 := by linarith only [hw, pw]
    have v : 0 < y*z := by positivity
    have := mul_lt_mul_of_pos_left u v
    linarith only [this]
  have c5 : y*z*x' < y*z := by
    have u : x' < 1 := by linarith only [hx, px]
    have v : 0 < y*z := by positivity
    have := mul_lt_mul_of_pos_left u v
    linarith only [this]
  have c6 : z*w*x' < z*w := by
    have u : x' < 1 := by linarith only [hx, px]
    have v : 0 < z*w := by positivity
    have := mul_lt_mul_of_pos_left u v
    linarith only [this]
  have c7 : z*w*y' < z*w := by
    have u : y' < 1 := by linarith only [hy, py]
    have v : 0 < z*w := by positivity
    have := mul_lt_mul_of_pos_left u v
    linarith only [this]
  rcases hord with ⟨o1, o2⟩ | ⟨o1, o2⟩
  · have _ := hVp
    have d1 : x * y ≤ z * w := mul_le_mul o1 o2 py.le pz.le
    have d2 : x * w ≤ z * w := mul_le_mul_of_nonneg_right o1 pw.le
    have d3 : y * z ≤ z * w := by have := mul_le_mul_of_nonneg_left o2 pz.le; linarith
    have d0 : 0 < z * w := by positivity
    have H0 := fold_max (ps := [F ⟨0,0,0⟩, F ⟨1,0,0⟩, F ⟨0,x,0⟩, F ⟨z',z,0⟩, F ⟨0,0,y⟩, F ⟨w',0,w⟩]) (l1 := table6.take 10) (k := (10, 0, 1, 3, 5)) (l2 := table6.drop 11) rfl
      (by simp only [table6, List.take_succ_cons, List.take_zero, List.forall_mem_cons, List.not_mem_nil, IsEmpty.forall_iff, implies_true, and_true, a0, a1, a2, a3, a4, a5, a6, a7, a8, a9, a10, a11, a12, a13, a14]
          refine ⟨?_, ?_, ?_, ?_, ?_, ?_, ?_, ?_, ?_, ?_⟩ <;> first | exact mul_lt_mul_of_pos_right (by linarith only [d0, d1, d2, d3, c0, c1, c2, c3, c4, c5, c6, c7]) hVp | positivity)
      (by simp only [table6, List.drop_succ_cons, List.drop_zero, List.forall_mem_cons, List.not_mem_nil, IsEmpty.forall_iff, implies_true, and_true, a0, a1, a2, a3, a4, a5, a6, a7, a8, a9, a10, a11, a12, a13, a14]
          refine ⟨?_, ?_, ?_, ?_⟩ <;> first | exact mul_le_mul_of_nonneg_right (by linarith only [d0, d1, d2, d3, c0, c1, c2, c3, c4, c5, c6, c7]) hVp.le | positivity)
      (by rw [a10]; positivity)
    rcases lt_or_gt_of_ne hV0 with hV | hV
    · have H1 : (faceLoop (F ⟨0,x,0⟩) (F ⟨0,x,0⟩) (⟨F ⟨0,0,0⟩, F ⟨1,0,0⟩, F ⟨z',z,0⟩, F ⟨w',0,w⟩, Val.on⟩ : Tet K) (fun _ => false) (0, none)).2 = some (3, (⟨F ⟨0,x,0⟩, F ⟨w',0,w⟩, F ⟨0,0,0⟩, F ⟨z',z,0⟩, Val.on⟩ : Tet K)) :=
        face_3 (pos_of_neg (by rw [hF]; simp only [det, hx, hy, hz, hw]; ring : vol4 (F ⟨0,x,0⟩) (F ⟨w',0,w⟩) (F ⟨0,0,0⟩) (F ⟨z',z,0⟩) = (-(x*w*z')) * V) (by positivity) hV) (nonpos_of_zero (by rw [hF]; simp only [det, hx, hy, hz, hw]; ring : vol4 (F ⟨0,x,0⟩) (F ⟨0,0,0⟩) (F ⟨1,0,0⟩) (F ⟨z',z,0⟩) = (0) * V)) (nonpos_of_pos (by rw [hF]; simp only [det, hx, hy, hz, hw]; ring : vol4 (F ⟨0,x,0⟩) (F ⟨z',z,0⟩) (F ⟨1,0,0⟩) (F ⟨w',0,w⟩) = ((z*w*x')) * V) (by positivity) hV) (nonpos_of_pos (by rw [hF]; simp only [det, hx, hy, hz, hw]; ring : vol4 (F ⟨0,x,0⟩) (F ⟨w',0,w⟩) (F ⟨1,0,0⟩) (F ⟨0,0,0⟩) = ((x*w)) * V) (by positivity) hV)
      have H2 : third (F ⟨0,x,0⟩) (F ⟨0,0,y⟩) (⟨F ⟨0,0,0⟩, F ⟨1,0,0⟩, F ⟨z',z,0⟩, F ⟨w',0,w⟩, Val.on⟩ : Tet K) (some (3, (⟨F ⟨0,x,0⟩, F ⟨w',0,w⟩, F ⟨0,0,0⟩, F ⟨z',z,0⟩, Val.on⟩ : Tet K))) = some (0, (⟨F ⟨0,0,y⟩, F ⟨0,x,0⟩, F ⟨w',0,w⟩, F ⟨0,0,0⟩, Val.on⟩ : Tet K)) :=
        third_3_0 (nonpos_of_zero (by rw [hF]; simp only [det, hx, hy, hz, hw]; ring : vol4 (F ⟨0,x,0⟩) (F ⟨0,0,0⟩) (F ⟨1,0,0⟩) (F ⟨z',z,0⟩) = (0) * V)) (nonpos_of_pos (by rw [hF]; simp only [det, hx, hy, hz, hw]; ring : vol4 (F ⟨0,x,0⟩) (F ⟨z',z,0⟩) (F ⟨1,0,0⟩) (F ⟨w',0,w⟩) = ((z*w*x')) * V) (by positivity) hV) (nonpos_of_pos (by rw [hF]; simp only [det, hx, hy, hz, hw]; ring : vol4 (F ⟨0,x,0⟩) (F ⟨w',0,w⟩) (F ⟨1,0,0⟩) (F ⟨0,0,0⟩) = ((x*w)) * V) (by positivity) hV) (pos_of_neg (by rw [hF]; simp only [det, hx, hy, hz, hw]; ring : vol4 (F ⟨0,0,y⟩) (F ⟨0,x,0⟩) (F ⟨w',0,w⟩) (F ⟨0,0,0⟩) = (-(x*y*w')) * V) (by positivity) hV) (nonpos_of_zero (by rw [hF]; simp only [det, hx, hy, hz, hw]; linear_combination (1 : K) * V * hcop' : vol4 (F ⟨0,0,y⟩) (F ⟨z',z,0⟩) (F ⟨w',0,w⟩) (F ⟨0,x,0⟩) = (0) * V)) (nonpos_of_pos (by rw [hF]; simp only [det, hx, hy, hz, hw]; ring : vol4 (F ⟨0,0,y⟩) (F ⟨z',z,0⟩) (F ⟨0,x,0⟩) (F ⟨0,0,0⟩) = ((x*y*z')) * V) (by positivity) hV)
      have q0 : vol (⟨F ⟨0,0,0⟩, F ⟨1,0,0⟩, F ⟨z',z,0⟩, F ⟨w',0,w⟩, Val.on⟩ : Tet K) = (z*w) * |V| := vol_of_neg (by rw [hF]; simp only [det, hx, hy, hz, hw]; ring : vol4 (F ⟨0,0,0⟩) (F ⟨1,0,0⟩) (F ⟨z',z,0⟩) (F ⟨w',0,w⟩) = (-(z*w)) * V) (by positivity) hV
      have q1 : vol (⟨F ⟨0,x,0⟩, F ⟨w',0,w⟩, F ⟨0,0,0⟩, F ⟨z',z,0⟩, Val.on⟩ : Tet K) = (x*w*z') * |V| := vol_of_neg (by rw [hF]; simp only [det, hx, hy, hz, hw]; ring : vol4 (F ⟨0,x,0⟩) (F ⟨w',0,w⟩) (F ⟨0,0,0⟩) (F ⟨z',z,0⟩) = (-(x*w*z')) * V) (by positivity) hV
      have q2 : vol (⟨F ⟨0,0,y⟩, F ⟨0,x,0⟩, F ⟨w',0,w⟩, F ⟨0,0,0⟩, Val.on⟩ : Tet K) = (x*y*w') * |V| := vol_of_neg (by rw [hF]; simp only [det, hx, hy, hz, hw]; ring : vol4 (F ⟨0,0,y⟩) (F ⟨0,x,0⟩) (F ⟨w',0,w⟩) (F ⟨0,0,0⟩) = (-(x*y*w')) * V) (by positivity) hV
      have H0' := fold_orient H0 (orient_pos (t := (⟨F ⟨0,0,0⟩, F ⟨1,0,0⟩, F ⟨z',z,0⟩, F ⟨w',0,w⟩, Val.on⟩ : Tet K)) (by positivity) q0)
      refine add6_sum he rfl hps H0' H1 H2 q0 q1 q2 (small_le hτ hVp hε ⟨tz, lz⟩ ⟨tw, lw⟩ ⟨τ1, le_refl 1⟩ (by ring)) (small_le hτ hVp hε ⟨tx, lx⟩ ⟨tw, lw⟩ ⟨tz', lz'⟩  (by ring)) (small_le hτ hVp hε ⟨tx, lx⟩ ⟨ty, ly⟩ ⟨tw', lw'⟩  (by ring)) ?_
      simp only [hx, hy, hz, hw]; ring
    · have H1 : (faceLoop (F ⟨0,x,0⟩) (F ⟨0,x,0⟩) (⟨F ⟨1,0,0⟩, F ⟨0,0,0⟩, F ⟨z',z,0⟩, F ⟨w',0,w⟩, Val.on⟩ : Tet K) (fun _ => false) (0, none)).2 = some (1, (⟨F ⟨0,x,0⟩, F ⟨z',z,0⟩, F ⟨0,0,0⟩, F ⟨w',0,w⟩, Val.on⟩ : Tet K)) :=
        face_1 (pos_of_pos (by rw [hF]; simp only [det, hx, hy, hz, hw]; ring : vol4 (F ⟨0,x,0⟩) (F ⟨z',z,0⟩) (F ⟨0,0,0⟩) (F ⟨w',0,w⟩) = ((x*w*z')) * V) (by positivity) hV) (nonpos_of_zero (by rw [hF]; simp only [det, hx, hy, hz, hw]; ring : vol4 (F ⟨0,x,0⟩) (F ⟨1,0,0⟩) (F ⟨0,0,0⟩) (F ⟨z',z,0⟩) = (0) * V)) (nonpos_of_neg (by rw [hF]; simp only [det, hx, hy, hz, hw]; ring : vol4 (F ⟨0,x,0⟩) (F ⟨w',0,w⟩) (F ⟨0,0,0⟩) (F ⟨1,0,0⟩) = (-(x*w)) * V) (by positivity) hV) (nonpos_of_neg (by rw [hF]; simp only [det, hx, hy, hz, hw]; ring : vol4 (F ⟨0,x,0⟩) (F ⟨w',0,w⟩) (F ⟨1,0,0⟩) (F ⟨z',z,0⟩) = (-(z*w*x')) * V) (by positivity) hV)
      have H2 : third (F ⟨0,x,0⟩) (F ⟨0,0,y⟩) (⟨F ⟨1,0,0⟩, F ⟨0,0,0⟩, F ⟨z',z,0⟩, F ⟨w',0,w⟩, Val.on⟩ : Tet K) (some (1, (⟨F ⟨0,x,0⟩, F ⟨z',z,0⟩, F ⟨0,0,0⟩, F ⟨w',0,w⟩, Val.on⟩ : Tet K))) = some (3, (⟨F ⟨0,0,y⟩, F ⟨w',0,w⟩, F ⟨0,x,0⟩, F ⟨0,0,0⟩, Val.on⟩ : Tet K)) :=
        third_1_3 (nonpos_of_zero (by rw [hF]; simp only [det, hx, hy, hz, hw]; ring : vol4 (F ⟨0,x,0⟩) (F ⟨1,0,0⟩) (F ⟨0,0,0⟩) (F ⟨z',z,0⟩) = (0) * V)) (nonpos_of_neg (by rw [hF]; simp only [det, hx, hy, hz, hw]; ring : vol4 (F ⟨0,x,0⟩) (F ⟨w',0,w⟩) (F ⟨0,0,0⟩) (F ⟨1,0,0⟩) = (-(x*w)) * V) (by positivity) hV) (nonpos_of_neg (by rw [hF]; simp only [det, hx, hy, hz, hw]; ring : vol4 (F ⟨0,x,0⟩) (F ⟨w',0,w⟩) (F ⟨1,0,0⟩) (F ⟨z',z,0⟩) = (-(z*w*x')) * V) (by positivity) hV) (pos_of_pos (by rw [hF]; simp only [det, hx, hy, hz, hw]; ring : vol4 (F ⟨0,0,y⟩) (F ⟨w',0,w⟩) (F ⟨0,x,0⟩) (F ⟨0,0,0⟩) = ((x*y*w')) * V) (by positivity) hV) (nonpos_of_neg (by rw [hF]; simp only [det, hx, hy, hz, hw]; ring : vol4 (F ⟨0,0,y⟩) (F ⟨0,x,0⟩) (F ⟨z',z,0⟩) (F ⟨0,0,0⟩) = (-(x*y*z')) * V) (by positivity) hV) (nonpos_of_zero (by rw [hF]; simp only [det, hx, hy, hz, hw]; linear_combination (-1 : K) * V * hcop' : vol4 (F ⟨0,0,y⟩) (F ⟨w',0,w⟩) (F ⟨z',z,0⟩) (F ⟨0,x,0⟩) = (0) * V))
      have q0 : vol (⟨F ⟨1,0,0⟩, F ⟨0,0,0⟩, F ⟨z',z,0⟩, F ⟨w',0,w⟩, Val.on⟩ : Tet K) = (z*w) * |V| := vol_of_pos (by rw [hF]; simp only [det, hx, hy, hz, hw]; ring : vol4 (F ⟨1,0,0⟩) (F ⟨0,0,0⟩) (F ⟨z',z,0⟩) (F ⟨w',0,w⟩) = ((z*w)) * V) (by positivity) hV
      have q1 : vol (⟨F ⟨0,x,0⟩, F ⟨z',z,0⟩, F ⟨0,0,0⟩, F ⟨w',0,w⟩, Val.on⟩ : Tet K) = (x*w*z') * |V| := vol_of_pos (by rw [hF]; simp only [det, hx, hy, hz, hw]; ring : vol4 (F ⟨0,x,0⟩) (F ⟨z',z,0⟩) (F ⟨0,0,0⟩) (F ⟨w',0,w⟩) = ((x*w*z')) * V) (by positivity) hV
      have q2 : vol (⟨F ⟨0,0,y⟩, F ⟨w',0,w⟩, F ⟨0,x,0⟩, F ⟨0,0,0⟩, Val.on⟩ : Tet K) = (x*y*w') * |V| := vol_of_pos (by rw [hF]; simp only [det, hx, hy, hz, hw]; ring : vol4 (F ⟨0,0,y⟩) (F ⟨w',0,w⟩) (F ⟨0,x,0⟩) (F ⟨0,0,0⟩) = ((x*y*w')) * V) (by positivity) hV
      have H0' := fold_orient H0 (orient_neg (t := (⟨F ⟨0,0,0⟩, F ⟨1,0,0⟩, F ⟨z',z,0⟩, F ⟨w',0,w⟩, Val.on⟩ : Tet K)) (by positivity) q0)
      refine add6_sum he rfl hps H0' H1 H2 q0 q1 q2 (small_le hτ hVp hε ⟨tz, lz⟩ ⟨tw, lw⟩ ⟨τ1, le_refl 1⟩ (by ring)) (small_le hτ hVp hε ⟨tx, lx⟩ ⟨tw, lw⟩ ⟨tz', lz'⟩  (by ring)) (small_le hτ hVp hε ⟨tx, lx⟩ ⟨ty, ly⟩ ⟨tw', lw'⟩  (by ring)) ?_
      simp only [hx, hy, hz, hw]; ring
  · have _ := hVp
    have d1 : z * w < x * y := mul_lt_mul'' o1 o2 pz.le pw.le
    have d2 : x * w < x * y := mul_lt_mul_of_pos_left o2 px
    have d3 : y * z < x * y := by have := mul_lt_mul_of_pos_left o1 py; linarith
    have d0 : 0 < x * y := by positivity
    have H0 := fold_max (ps := [F ⟨0,0,0⟩, F ⟨1,0,0⟩, F ⟨0,x,0⟩, F ⟨z',z,0⟩, F ⟨0,0,y⟩, F ⟨w',0,w⟩]) (l1 := table6.take 13) (k := (13, 0, 1, 2, 4)) (l2 := table6.drop 14) rfl
      (by simp only [table6, List.take_succ_cons, List.take_zero, List.forall_mem_cons, List.not_mem_nil, IsEmpty.forall_iff, implies_true, and_true, a0, a1, a2, a3, a4, a5, a6, a7, a8, a9, a10, a11, a12, a13, a14]
          refine ⟨?_, ?_, ?_, ?_, ?_, ?_, ?_, ?_, ?_, ?_, ?_, ?_, ?_⟩ <;> first | exact mul_lt_mul_of_pos_right (by linarith only [d0, d1, d2, d3, c0, c1, c2, c3, c4, c5, c6, c7]) hVp | positivity)
      (by simp only [table6, List.drop_succ_cons, List.drop_zero, List.forall_mem_cons, List.not_mem_nil, IsEmpty.forall_iff, implies_true, and_true, a0, a1, a2, a3, a4, a5, a6, a7, a8, a9, a10, a11, a12, a13, a14]
          first | exact mul_le_mul_of_nonneg_right (by linarith only [d0, d1, d2, d3, c0, c1, c2, c3, c4, c5, c6, c7]) hVp.le | positivity)
      (by rw [a13]; positivity)
    rcases lt_or_gt_of_ne hV0 with hV | hV
    · have H1 : (faceLoop (F ⟨z',z,0⟩) (F ⟨z',z,0⟩) (⟨F ⟨0,0,0⟩, F ⟨1,0,0⟩, F ⟨0,x,0⟩, F ⟨0,0,y⟩, Val.on⟩ : Tet K) (fun _ => false) (0, none)).2 = some (1, (⟨F ⟨z',z,0⟩, F ⟨0,x,0⟩, F ⟨1,0,0⟩, F ⟨0,0,y⟩, Val.on⟩ : Tet K)) :=
        face_1 (pos_of_neg (by rw [hF]; simp only [det, hx, hy, hz, hw]; ring : vol4 (F ⟨z',z,0⟩) (F ⟨0,x,0⟩) (F ⟨1,0,0⟩) (F ⟨0,0,y⟩) = (-(y*z*x')) * V) (by positivity) hV) (nonpos_of_zero (by rw [hF]; simp only [det, hx, hy, hz, hw]; ring : vol4 (F ⟨z',z,0⟩) (F ⟨0,0,0⟩) (F ⟨1,0,0⟩) (F ⟨0,x,0⟩) = (0) * V)) (nonpos_of_pos (by rw [hF]; simp only [det, hx, hy, hz, hw]; ring : vol4 (F ⟨z',z,0⟩) (F ⟨0,0,y⟩) (F ⟨1,0,0⟩) (F ⟨0,0,0⟩) = ((y*z)) * V) (by positivity) hV) (nonpos_of_pos (by rw [hF]; simp only [det, hx, hy, hz, hw]; ring : vol4 (F ⟨z',z,0⟩) (F ⟨0,0,y⟩) (F ⟨0,0,0⟩) (F ⟨0,x,0⟩) = ((x*y*z')) * V) (by positivity) hV)
      have H2 : third (F ⟨z',z,0⟩) (F ⟨w',0,w⟩) (⟨F ⟨0,0,0⟩, F ⟨1,0,0⟩, F ⟨0,x,0⟩, F ⟨0,0,y⟩, Val.on⟩ : Tet K) (some (1, (⟨F ⟨z',z,0⟩, F ⟨0,x,0⟩, F ⟨1,0,0⟩, F ⟨0,0,y⟩, Val.on⟩ : Tet K))) = some (3, (⟨F ⟨w',0,w⟩, F ⟨0,0,y⟩, F ⟨z',z,0⟩, F ⟨1,0,0⟩, Val.on⟩ : Tet K)) :=
        third_1_3 (nonpos_of_zero (by rw [hF]; simp only [det, hx, hy, hz, hw]; ring : vol4 (F ⟨z',z,0⟩) (F ⟨0,0,0⟩) (F ⟨1,0,0⟩) (F ⟨0,x,0⟩) = (0) * V)) (nonpos_of_pos (by rw [hF]; simp only [det, hx, hy, hz, hw]; ring : vol4 (F ⟨z',z,0⟩) (F ⟨0,0,y⟩) (F ⟨1,0,0⟩) (F ⟨0,0,0⟩) = ((y*z)) * V) (by positivity) hV) (nonpos_of_pos (by rw [hF]; simp only [det, hx, hy, hz, hw]; ring : vol4 (F ⟨z',z,0⟩) (F ⟨0,0,y⟩) (F ⟨0,0,0⟩) (F ⟨0,x,0⟩) = ((x*y*z')) * V) (by positivity) hV) (pos_of_neg (by rw [hF]; simp only [det, hx, hy, hz, hw]; ring : vol4 (F ⟨w',0,w⟩) (F ⟨0,0,y⟩) (F ⟨z',z,0⟩) (F ⟨1,0,0⟩) = (-(z*w*y')) * V) (by positivity) hV) (nonpos_of_pos (by rw [hF]; simp only [det, hx, hy, hz, hw]; ring : vol4 (F ⟨w',0,w⟩) (F ⟨z',z,0⟩) (F ⟨0,x,0⟩) (F ⟨1,0,0⟩) = ((z*w*x')) * V) (by positivity) hV) (nonpos_of_zero (by rw [hF]; simp only [det, hx, hy, hz, hw]; linear_combination (-1 : K) * V * hcop' : vol4 (F ⟨w',0,w⟩) (F ⟨0,0,y⟩) (F ⟨0,x,0⟩) (F ⟨z',z,0⟩) = (0) * V))
      have q0 : vol (⟨F ⟨0,0,0⟩, F ⟨1,0,0⟩, F ⟨0,x,0⟩, F ⟨0,0,y⟩, Val.on⟩ : Tet K) = (x*y) * |V| := vol_of_neg (by rw [hF]; simp only [det, hx, hy, hz, hw]; ring : vol4 (F ⟨0,0,0⟩) (F ⟨1,0,0⟩) (F ⟨0,x,0⟩) (F ⟨0,0,y⟩) = (-(x*y)) * V) (by positivity) hV
      have q1 : vol (⟨F ⟨z',z,0⟩, F ⟨0,x,0⟩, F ⟨1,0,0⟩, F ⟨0,0,y⟩, Val.on⟩ : Tet K) = (y*z*x') * |V| := vol_of_neg (by rw [hF]; simp only [det, hx, hy, hz, hw]; ring : vol4 (F ⟨z',z,0⟩) (F ⟨0,x,0⟩) (F ⟨1,0,0⟩) (F ⟨0,0,y⟩) = (-(y*z*x')) * V) (by positivity) hV
      have q2 : vol (⟨F ⟨w',0,w⟩, F ⟨0,0,y⟩, F ⟨z',z,0⟩, F ⟨1,0,0⟩, Val.on⟩ : Tet K) = (z*w*y') * |V| := vol_of_neg (by rw [hF]; simp only [det, hx, hy, hz, hw]; ring : vol4 (F ⟨w',0,w⟩) (F ⟨0,0,y⟩) (F ⟨z',z,0⟩) (F ⟨1,0,0⟩) = (-(z*w*y')) * V) (by positivity) hV
      have H0' := fold_orient H0 (orient_pos (t := (⟨F ⟨0,0,0⟩, F ⟨1,0,0⟩, F ⟨0,x,0⟩, F ⟨0,0,y⟩, Val.on⟩ : Tet K)) (by positivity) q0)
      refine add6_sum he rfl hps H0' H1 H2 q0 q1 q2 (small_le hτ hVp hε ⟨tx, lx⟩ ⟨ty, ly⟩ ⟨τ1, le_refl 1⟩ (by ring)) (small_le hτ hVp hε ⟨ty, ly⟩ ⟨tz, lz⟩ ⟨tx', lx'⟩  (by ring)) (small_le hτ hVp hε ⟨tz, lz⟩ ⟨tw, lw⟩ ⟨ty', ly'⟩  (by ring)) ?_
      simp only [hx, hy, hz, hw]; linear_combination (-1 : K) * |V| * hcop'
    · have H1 : (faceLoop (F ⟨z',z,0⟩) (F ⟨z',z,0⟩) (⟨F ⟨1,0,0⟩, F ⟨0,0,0⟩, F ⟨0,x,0⟩, F ⟨0,0,y⟩, Val.on⟩ : Tet K) (fun _ => false) (0, none)).2 = some (3, (⟨F ⟨z',z,0⟩, F ⟨0,0,y⟩, F ⟨1,0,0⟩, F ⟨0,x,0⟩, Val.on⟩ : Tet K)) :=
        face_3 (pos_of_pos (by rw [hF]; simp only [det, hx, hy, hz, hw]; ring : vol4 (F ⟨z',z,0⟩) (F ⟨0,0,y⟩) (F ⟨1,0,0⟩) (F ⟨0,x,0⟩) = ((y*z*x')) * V) (by positivity) hV) (nonpos_of_zero (by rw [hF]; simp only [det, hx, hy, hz, hw]; ring : vol4 (F ⟨z',z,0⟩) (F ⟨1,0,0⟩) (F ⟨0,0,0⟩) (F ⟨0,x,0⟩) = (0) * V)) (nonpos_of_neg (by rw [hF]; simp only [det, hx, hy, hz, hw]; ring : vol4 (F ⟨z',z,0⟩) (F ⟨0,x,0⟩) (F ⟨0,0,0⟩) (F ⟨0,0,y⟩) = (-(x*y*z')) * V) (by positivity) hV) (nonpos_of_neg (by rw [hF]; simp only [det, hx, hy, hz, hw]; ring : vol4 (F ⟨z',z,0⟩) (F ⟨0,0,y⟩) (F ⟨0,0,0⟩) (F ⟨1,0,0⟩) = (-(y*z)) * V) (by positivity) hV)
      have H2 : third (F ⟨z',z,0⟩) (F ⟨w',0,w⟩) (⟨F ⟨1,0,0⟩, F ⟨0,0,0⟩, F ⟨0,x,0⟩, F ⟨0,0,y⟩, Val.on⟩ : Tet K) (some (3, (⟨F ⟨z',z,0⟩, F ⟨0,0,y⟩, F ⟨1,0,0⟩, F ⟨0,x,0⟩, Val.on⟩ : Tet K))) = some (0, (⟨F ⟨w',0,w⟩, F ⟨z',z,0⟩, F ⟨0,0,y⟩, F ⟨1,0,0⟩, Val.on⟩ : Tet K)) :=
        third_3_0 (nonpos_of_zero (by rw [hF]; simp only [det, hx, hy, hz, hw]; ring : vol4 (F ⟨z',z,0⟩) (F ⟨1,0,0⟩) (F ⟨0,0,0⟩) (F ⟨0,x,0⟩) = (0) * V)) (nonpos_of_neg (by rw [hF]; simp only [det, hx, hy, hz, hw]; ring : vol4 (F ⟨z',z,0⟩) (F ⟨0,x,0⟩) (F ⟨0,0,0⟩) (F ⟨0,0,y⟩) = (-(x*y*z')) * V) (by positivity) hV) (nonpos_of_neg (by rw [hF]; simp only [det, hx, hy, hz, hw]; ring : vol4 (F ⟨z',z,0⟩) (F ⟨0,0,y⟩) (F ⟨0,0,0⟩) (F ⟨1,0,0⟩) = (-(y*z)) * V) (by positivity) hV) (pos_of_pos (by rw [hF]; simp only [det, hx, hy, hz, hw]; ring : vol4 (F ⟨w',0,w⟩) (F ⟨z',z,0⟩) (F ⟨0,0,y⟩) (F ⟨1,0,0⟩) = ((z*w*y')) * V) (by positivity) hV) (nonpos_of_zero (by rw [hF]; simp only [det, hx, hy, hz, hw]; linear_combination (1 : K) * V * hcop' : vol4 (F ⟨w',0,w⟩) (F ⟨0,x,0⟩) (F ⟨0,0,y⟩) (F ⟨z',z,0⟩) = (0) * V)) (nonpos_of_neg (by rw [hF]; simp only [det, hx, hy, hz, hw]; ring : vol4 (F ⟨w',0,w⟩) (F ⟨0,x,0⟩) (F ⟨z',z,0⟩) (F ⟨1,0,0⟩) = (-(z*w*x')) * V) (by positivity) hV)
      have q0 : vol (⟨F ⟨1,0,0⟩, F ⟨0,0,0⟩, F ⟨0,x,0⟩, F ⟨0,0,y⟩, Val.on⟩ : Tet K) = (x*y) * |V| := vol_of_pos (by rw [hF]; simp only [det, hx, hy, hz, hw]; ring : vol4 (F ⟨1,0,0⟩) (F ⟨0,0,0⟩) (F ⟨0,x,0⟩) (F ⟨0,0,y⟩) = ((x*y)) * V) (by positivity) hV
      have q1 : vol (⟨F ⟨z',z,0⟩, F ⟨0,0,y⟩, F ⟨1,0,0⟩, F ⟨0,x,0⟩, Val.on⟩ : Tet K) = (y*z*x') * |V| := vol_of_pos (by rw [hF]; simp only [det, hx, hy, hz, hw]; ring : vol4 (F ⟨z',z,0⟩) (F ⟨0,0,y⟩) (F ⟨1,0,0⟩) (F ⟨0,x,0⟩) = ((y*z*x')) * V) (by positivity) hV
      have q2 : vol (⟨F ⟨w',0,w⟩, F ⟨z',z,0⟩, F ⟨0,0,y⟩, F ⟨1,0,0⟩, Val.on⟩ : Tet K) = (z*w*y') * |V| := vol_of_pos (by rw [hF]; simp only [det, hx, hy, hz, hw]; ring : vol4 (F ⟨w',0,w⟩) (F ⟨z',z,0⟩) (F ⟨0,0,y⟩) (F ⟨1,0,0⟩) = ((z*w*y')) * V) (by positivity) hV
      have H0' := fold_orient H0 (orient_neg (t := (⟨F ⟨0,0,0⟩, F ⟨1,0,0⟩, F ⟨0,x,0⟩, F ⟨0,0,y⟩, Val.on⟩ : Tet K)) (by positivity) q0)
      refine add6_sum he rfl hps H0' H1 H2 q0 q1 q2 (small_le hτ hVp hε ⟨tx, lx⟩ ⟨ty, ly⟩ ⟨τ1, le_refl 1⟩ (by ring)) (small_le hτ hVp hε ⟨ty, ly⟩ ⟨tz, lz⟩ ⟨tx', lx'⟩  (by ring)) (small_le hτ hVp hε ⟨tz, lz⟩ ⟨tw, lw⟩ ⟨ty', ly'⟩  (by ring)) ?_
      simp only [hx, hy, hz, hw]; linear_combination (-1 : K) * |V| * hcop'

end Verif.TetClip
