import Verif.Model.TetClip
import Verif.Props.MeshVolume

set_option linter.unusedSectionVars false
set_option linter.unusedVariables false

/-!
# C173: cutting sets of tetrahedra in V-HACD
-/

namespace Verif.TetClip

open Verif.Voxel Verif.MeshVol

variable {K : Type*} [Field K] [LinearOrder K] [IsStrictOrderedRing K] [FloorRing K]

/-! ### Specification -/

/-- The point that divides the way from `a` to `b` in the ratio `r`. -/
def along (a b : V3 K) (r : K) : V3 K := ⟨a.x + r * (b.x - a.x), a.y + r * (b.y - a.y), a.z + r * (b.z - a.z)⟩

/-- The box of the set. -/
def InBB (e : Env K) (p : V3 K) : Prop :=
  (e.lo.x ≤ p.x ∧ p.x ≤ e.hi.x) ∧ (e.lo.y ≤ p.y ∧ p.y ≤ e.hi.y) ∧ (e.lo.z ≤ p.z ∧ p.z ≤ e.hi.z)

/-- The bounds are as in the code: positive, not negative. -/
def Env.Ok (e : Env K) : Prop := 0 < e.eps ∧ 0 ≤ e.tol

/-- Twice the same corners, maybe the first two swapped. -/
def Same (t u : Tet K) : Prop := u = t ∨ u = ⟨t.p1, t.p0, t.p2, t.p3, t.data⟩

/-! ### `Add` -/

theorem inBox_of {e : Env K} {b : K} (hb : 0 ≤ b) {p : V3 K} (h : InBB e p) : e.inBox b p := by
  obtain ⟨⟨h1, h2⟩, ⟨h3, h4⟩, h5, h6⟩ := h
  refine ⟨⟨?_, ?_⟩, ⟨?_, ?_⟩, ?_, ?_⟩ <;> linarith

theorem vol_swap (t : Tet K) : vol (⟨t.p1, t.p0, t.p2, t.p3, t.data⟩ : Tet K) = -vol t := by
  simp only [vol, vol4_det, det]; ring

theorem vol_orient (t : Tet K) : vol (orient t) = |vol t| := by
  unfold orient
  by_cases h : vol t < 0
  · rw [if_pos h, vol_swap, abs_of_neg h]
  · rw [if_neg h, abs_of_nonneg (not_lt.1 h)]

theorem orient_same (t : Tet K) : Same t (orient t) := by
  unfold orient
  by_cases h : vol t < 0
  · rw [if_pos h]; exact Or.inr rfl
  · rw [if_neg h]; exact Or.inl rfl

theorem same_corners {t u : Tet K} (h : Same t u) (c : V3 K) : c ∈ corners u ↔ c ∈ corners t := by
  rcases h with h | h <;> subst h
  · rfl
  · simp only [corners, List.mem_cons, List.not_mem_nil, or_false]; tauto

theorem same_data {t u : Tet K} (h : Same t u) : u.data = t.data := by
  rcases h with h | h <;> subst h <;> rfl

theorem add_eq {e : Env K} (he : e.Ok) (T : TSet K) {t : Tet K} (ht : ∀ c ∈ corners t, InBB e c) :
    add e T t = if |vol t| < e.eps then some (T, t, false)
      else some ({ T with tets := T.tets ++ [orient t] }, orient t, true) := by
  unfold add
  by_cases h : |vol t| < e.eps
  · rw [if_pos h, if_pos h]
  · rw [if_neg h, if_neg h]
    refine if_neg ?_
    rintro ⟨-, h⟩
    exact h fun c hc => inBox_of he.1.le (ht c ((same_corners (orient_same t) c).1 hc))

/-! ### The pieces of a cut tetrahedron -/

/-- What the loops keep: the tetrahedron found has corners with `Q`. -/
def Kept (Q : V3 K → Prop) (o : Option (ℕ × Tet K)) : Prop :=
  ∀ h t, o = some (h, t) → (∀ c ∈ corners t, Q c) ∧ t.data = Val.on

theorem kept_none (Q : V3 K → Prop) : Kept Q none := by intro h t ht; simp at ht

theorem kept_some {Q : V3 K → Prop} {h : ℕ} {a b c d : V3 K} (ha : Q a) (hb : Q b) (hc : Q c) (hd : Q d) :
    Kept Q (some (h, ⟨a, b, c, d, Val.on⟩)) := by
  intro h t ht
  simp only [Option.some.injEq, Prod.mk.injEq] at ht
  obtain ⟨-, ht⟩ := ht
  subst ht
  exact ⟨by simp [corners, ha, hb, hc, hd], rfl⟩

theorem pt_mem {ps : List (V3 K)} {i : ℕ} (h : i < ps.length) : tableStep.pt ps i ∈ ps := by
  unfold tableStep.pt
  rw [List.getD_eq_getElem?_getD, List.getElem?_eq_getElem h, Option.getD_some]
  exact List.getElem_mem h

theorem table_kept {Q : V3 K → Prop} {ps : List (V3 K)} (hQ : ∀ c ∈ ps, Q c) :
    ∀ (l : List (ℕ × ℕ × ℕ × ℕ × ℕ)) (st : K × Option (ℕ × Tet K)),
      (∀ h ∈ l, h.2.1 < ps.length ∧ h.2.2.1 < ps.length ∧ h.2.2.2.1 < ps.length ∧ h.2.2.2.2 < ps.length) →
      Kept Q st.2 → Kept Q (l.foldl (tableStep ps) st).2 := by
  intro l
  induction l with
  | nil => intro st _ h; exact h
  | cons h l ih =>
    intro st hl hst
    rw [List.foldl_cons]
    refine ih _ (fun x hx => hl x (List.mem_cons_of_mem _ hx)) ?_
    obtain ⟨h1, h2, h3, h4⟩ := hl h List.mem_cons_self
    have q1 := hQ _ (pt_mem h1)
    have q2 := hQ _ (pt_mem h2)
    have q3 := hQ _ (pt_mem h3)
    have q4 := hQ _ (pt_mem h4)
    simp only [tableStep]
    split
    · exact kept_some q1 q2 q3 q4
    · split
      · exact kept_some q2 q1 q3 q4
      · exact hst

theorem face_mem {Q : V3 K → Prop} {t : Tet K} (ht : ∀ c ∈ corners t, Q c) (h : ℕ) :
    Q (face t h).1 ∧ Q (face t h).2.1 ∧ Q (face t h).2.2 := by
  have h0 := ht t.p0 (by simp [corners])
  have h1 := ht t.p1 (by simp [corners])
  have h2 := ht t.p2 (by simp [corners])
  have h3 := ht t.p3 (by simp [corners])
  unfold face
  split <;> exact ⟨by assumption, by assumption, by assumption⟩

theorem faceLoop_kept {Q : V3 K → Prop} {score apex : V3 K} {t : Tet K} (ht : ∀ c ∈ corners t, Q c) (ha : Q apex)
    (skip : ℕ → Bool) {st : K × Option (ℕ × Tet K)} (hst : Kept Q st.2) :
    Kept Q (faceLoop score apex t skip st).2 := by
  have key : ∀ (st : K × Option (ℕ × Tet K)) (h : ℕ), Kept Q st.2 → Kept Q (faceStep score apex t skip st h).2 := by
    intro st h hst
    obtain ⟨f0, f1, f2⟩ := face_mem ht h
    unfold faceStep
    by_cases hs : skip h
    · rw [if_pos hs]; exact hst
    · rw [if_neg hs]
      dsimp only
      split
      · exact kept_some ha f0 f1 f2
      · exact hst
  unfold faceLoop
  simp only [List.foldl_cons, List.foldl_nil]
  exact key _ _ (key _ _ (key _ _ (key _ _ hst)))

theorem third_kept {Q : V3 K → Prop} {a0 a1 : V3 K} {t0 : Tet K} {t1 : Option (ℕ × Tet K)}
    (h0 : ∀ c ∈ corners t0, Q c) (h1 : Kept Q t1) (ha : Q a1) : Kept Q (third a0 a1 t0 t1) := by
  have k := faceLoop_kept (score := a0) h0 ha (fun h => decide (t1.map (·.1) = some h)) (st := (0, none)) (kept_none Q)
  unfold third
  rcases t1 with _ | ⟨h, u⟩
  · exact k
  · exact faceLoop_kept (h1 h u rfl).1 ha _ k

/-- A set with more tetrahedra on the surface. -/
def TSet.more (T : TSet K) (new : List (Tet K)) : TSet K := ⟨T.tets ++ new, T.nOn + new.length, T.nIn⟩

/-- What may be put into a part. -/
def Piece (e : Env K) (Q : V3 K → Prop) (t : Tet K) : Prop :=
  (∀ c ∈ corners t, Q c) ∧ e.eps ≤ vol t ∧ t.data = Val.on

theorem bump_add {e : Env K} (he : e.Ok) {Q : V3 K → Prop} (hQ : ∀ c, Q c → InBB e c) (T : TSet K) {t : Tet K}
    (ht : ∀ c ∈ corners t, Q c) (hd : t.data = Val.on) :
    ∃ r new, add e T t = some r ∧ bump r = T.more new ∧ (∀ u ∈ new, Piece e Q u) ∧ new.length ≤ 1 ∧
      (∀ c ∈ corners r.2.1, Q c) ∧ r.2.1.data = Val.on := by
  rw [add_eq he T fun c hc => hQ c (ht c hc)]
  by_cases h : |vol t| < e.eps
  · rw [if_pos h]
    exact ⟨_, [], rfl, by simp [bump, TSet.more], by simp, by simp, ht, hd⟩
  · rw [if_neg h]
    have hc : ∀ c ∈ corners (orient t), Q c := fun c hc => ht c ((same_corners (orient_same t) c).1 hc)
    refine ⟨_, [orient t], rfl, by simp [bump, TSet.more], ?_, by simp, hc, ?_⟩
    · intro u hu
      rw [List.mem_singleton] at hu
      subst hu
      exact ⟨hc, by rw [vol_orient]; exact not_lt.1 h, by rw [same_data (orient_same t), hd]⟩
    · rw [same_data (orient_same t), hd]

theorem more_more (T : TSet K) (a b : List (Tet K)) : (T.more a).more b = T.more (a ++ b) := by
  simp [TSet.more, Nat.add_assoc]

theorem last_spec {e : Env K} (he : e.Ok) {Q : V3 K → Prop} (hQ : ∀ c, Q c → InBB e c) (T : TSet K)
    {o : Option (ℕ × Tet K)} (ho : Kept Q o) :
    ∃ new, add6.last e T o = some (T.more new) ∧ (∀ u ∈ new, Piece e Q u) ∧ new.length ≤ 1 := by
  rcases o with _ | ⟨h, t⟩
  · exact ⟨[], by simp [add6.last, TSet.more], by simp, by simp⟩
  · obtain ⟨ht, hd⟩ := ho h t rfl
    obtain ⟨r, new, h1, h2, h3, h4, -⟩ := bump_add he hQ T ht hd
    exact ⟨new, by simp [add6.last, h1, h2], h3, h4⟩

theorem addClipped_spec {e : Env K} (he : e.Ok) {Q : V3 K → Prop} (hQ : ∀ c, Q c → InBB e c) (T : TSet K)
    {ps : List (V3 K)} (hl : ps.length = 4 ∨ ps.length = 6) (hp : ∀ c ∈ ps, Q c) :
    ∃ new, addClipped e T ps = some (T.more new) ∧ (∀ u ∈ new, Piece e Q u) ∧ new.length ≤ ps.length - 3 := by
  unfold addClipped
  rcases hl with hl | hl
  · rw [if_neg (by omega), if_pos hl]
    obtain ⟨r, new, h1, h2, h3, h4, -⟩ := bump_add he hQ T
      (t := ⟨tableStep.pt ps 0, tableStep.pt ps 1, tableStep.pt ps 2, tableStep.pt ps 3, Val.on⟩) (by
        simp only [corners, List.mem_cons, List.not_mem_nil, or_false]
        rintro c (h | h | h | h) <;> subst h <;> exact hp _ (pt_mem (by omega))) rfl
    exact ⟨new, by simp [h1, h2], h3, by omega⟩
  · rw [if_neg (by omega), if_neg (by omega), if_neg (by omega), if_pos hl]
    unfold add6
    have k0 := table_kept hp table6 (0, none) (by
      rw [hl]; decide) (kept_none Q)
    generalize (table6.foldl (tableStep ps) (0, none)).2 = o at k0
    rcases o with _ | ⟨h0, t0⟩
    · exact ⟨[], by simp [TSet.more], by simp, by simp⟩
    · obtain ⟨c0, d0⟩ := k0 h0 t0 rfl
      obtain ⟨r, new, h1, h2, h3, h4, h5, h6⟩ := bump_add he hQ T c0 d0
      dsimp only
      rw [h1, Option.bind_some, h2]
      by_cases hr : r.2.2
      · rw [if_pos hr]
        have ha : ∀ i : ℕ, Q (tableStep.pt ps (rem6.getD h0 (0, 0)).1) ∧ Q (tableStep.pt ps (rem6.getD h0 (0, 0)).2) := by
          intro i
          have : (rem6.getD h0 (0, 0)).1 < 6 ∧ (rem6.getD h0 (0, 0)).2 < 6 := by
            by_cases hh : h0 < 15
            · have : ∀ h < 15, (rem6.getD h (0, 0)).1 < 6 ∧ (rem6.getD h (0, 0)).2 < 6 := by decide
              exact this h0 hh
            · rw [List.getD_eq_getElem?_getD, List.getElem?_eq_none (by simp [rem6]; omega)]
              simp
          exact ⟨hp _ (pt_mem (by omega)), hp _ (pt_mem (by omega))⟩
        generalize tableStep.pt ps (rem6.getD h0 (0, 0)).1 = a0 at ha
        generalize tableStep.pt ps (rem6.getD h0 (0, 0)).2 = a1 at ha
        obtain ⟨q0, q1⟩ := ha 0
        have k1 := faceLoop_kept (score := a0) h5 q0 (fun _ => false) (st := (0, none)) (kept_none Q)
        generalize (faceLoop a0 a0 r.2.1 (fun _ => false) (0, none)).2 = o at k1
        rcases o with _ | ⟨h1', t1⟩
        · obtain ⟨new', g1, g2, g3⟩ := last_spec he hQ (T.more new) (third_kept (a0 := a0) h5 (kept_none Q) q1)
          refine ⟨new ++ new', by rw [← more_more]; exact g1, ?_, by rw [List.length_append]; omega⟩
          intro u hu
          rcases List.mem_append.1 hu with hu | hu
          · exact h3 u hu
          · exact g2 u hu
        · obtain ⟨c1, d1⟩ := k1 h1' t1 rfl
          obtain ⟨q, new1, i1, i2, i3, i4, i5, i6⟩ := bump_add he hQ (T.more new) c1 d1
          dsimp only
          rw [i1, Option.bind_some, i2]
          have k2 : Kept Q (if q.2.2 then some (h1', q.2.1) else none) := by
            by_cases hq : q.2.2
            · rw [if_pos hq]
              intro h t ht
              simp only [Option.some.injEq, Prod.mk.injEq] at ht
              rw [← ht.2]; exact ⟨i5, i6⟩
            · rw [if_neg hq]; exact kept_none Q
          obtain ⟨new2, g1, g2, g3⟩ := last_spec he hQ ((T.more new).more new1) (third_kept (a0 := a0) h5 k2 q1)
          refine ⟨new ++ new1 ++ new2, by rw [← more_more, ← more_more]; exact g1, ?_, by simp only [List.length_append]; omega⟩
          intro u hu
          rcases List.mem_append.1 hu with hu | hu
          · rcases List.mem_append.1 hu with hu | hu
            · exact h3 u hu
            · exact i3 u hu
          · exact g2 u hu
      · rw [if_neg hr]
        exact ⟨new, rfl, h3, by omega⟩

/-! ### The points on the plane -/

/-- On the positive side of the plane. -/
def up (p : Plane K) (v : V3 K) : Bool := decide (0 < p.eval v)

/-- Where the plane meets the line through `a` and `b`. -/
def meet (p : Plane K) (a b : V3 K) : V3 K := along a b (p.eval a / (p.eval a - p.eval b))

theorem ratio {x y : K} (h : decide (0 < x) ≠ decide (0 < y)) :
    x - y ≠ 0 ∧ 0 ≤ x / (x - y) ∧ x / (x - y) ≤ 1 := by
  by_cases hx : 0 < x
  · by_cases hy : 0 < y
    · simp [hx, hy] at h
    · have hy := not_lt.1 hy
      have hd : 0 < x - y := by linarith
      exact ⟨hd.ne', div_nonneg hx.le hd.le, by rw [div_le_one hd]; linarith⟩
  · by_cases hy : 0 < y
    · have hx := not_lt.1 hx
      have hd : x - y < 0 := by linarith
      exact ⟨hd.ne, div_nonneg_of_nonpos hx hd.le, by rw [div_le_one_of_neg hd]; linarith⟩
    · simp [hx, hy] at h

theorem along_bb {e : Env K} {a b : V3 K} {r : K} (ha : InBB e a) (hb : InBB e b) (h0 : 0 ≤ r) (h1 : r ≤ 1) :
    InBB e (along a b r) := by
  obtain ⟨⟨a1, a2⟩, ⟨a3, a4⟩, a5, a6⟩ := ha
  obtain ⟨⟨b1, b2⟩, ⟨b3, b4⟩, b5, b6⟩ := hb
  have k1 : ∀ {l x y : K}, l ≤ x → l ≤ y → l ≤ x + r * (y - x) := by
    intro l x y hx hy
    have := mul_nonneg h0 (sub_nonneg.2 hy)
    have := mul_nonneg (sub_nonneg.2 h1) (sub_nonneg.2 hx)
    linarith
  have k2 : ∀ {l x y : K}, x ≤ l → y ≤ l → x + r * (y - x) ≤ l := by
    intro l x y hx hy
    have := mul_nonneg h0 (sub_nonneg.2 hy)
    have := mul_nonneg (sub_nonneg.2 h1) (sub_nonneg.2 hx)
    linarith
  exact ⟨⟨k1 a1 b1, k2 a2 b2⟩, ⟨k1 a3 b3, k2 a4 b4⟩, k1 a5 b5, k2 a6 b6⟩

theorem meet_hull {p : Plane K} {ps : List (V3 K)} {a b : V3 K} (ha : a ∈ ps) (hb : b ∈ ps) (h : up p a ≠ up p b) :
    InHull ps (meet p a b) := by
  obtain ⟨-, h0, h1⟩ := ratio h
  have := InHull.between _ (.point ha) (.point hb) h0 h1
  convert this using 1
  simp only [meet, along, V3.mk.injEq]
  refine ⟨?_, ?_, ?_⟩ <;> ring

theorem meet_eval {p : Plane K} {a b : V3 K} (h : up p a ≠ up p b) : p.eval (meet p a b) = 0 := by
  obtain ⟨h, -⟩ := ratio h
  have : p.eval (meet p a b) = p.eval a + p.eval a / (p.eval a - p.eval b) * (p.eval b - p.eval a) := by
    simp only [meet, along, Plane.eval]; ring
  rw [this]
  field_simp
  ring

theorem cross_eq {e : Env K} (he : e.Ok) {p : Plane K} {a b : V3 K} (ha : InBB e a) (hb : InBB e b)
    (h : up p a ≠ up p b) : cross e p a b = some (meet p a b) := by
  obtain ⟨h2, h0, h1⟩ := ratio h
  have hd : p.a * (a.x - b.x) + p.b * (a.y - b.y) + p.c * (a.z - b.z) = p.eval a - p.eval b := by
    simp only [Plane.eval]; ring
  have hα : -(p.d + (p.a * b.x + p.b * b.y + p.c * b.z)) / (p.eval a - p.eval b) =
      1 - p.eval a / (p.eval a - p.eval b) := by
    have : -(p.d + (p.a * b.x + p.b * b.y + p.c * b.z)) = -p.eval b := by simp only [Plane.eval]; ring
    rw [this]
    field_simp
    ring
  have hm : (⟨(1 - p.eval a / (p.eval a - p.eval b)) * a.x + (1 - (1 - p.eval a / (p.eval a - p.eval b))) * b.x,
      (1 - p.eval a / (p.eval a - p.eval b)) * a.y + (1 - (1 - p.eval a / (p.eval a - p.eval b))) * b.y,
      (1 - p.eval a / (p.eval a - p.eval b)) * a.z + (1 - (1 - p.eval a / (p.eval a - p.eval b))) * b.z⟩ : V3 K) =
      meet p a b := by
    simp only [meet, along, V3.mk.injEq]
    refine ⟨?_, ?_, ?_⟩ <;> ring
  unfold cross
  simp only [hd, hα, hm]
  rw [if_neg h2, if_neg]
  rintro ⟨-, h⟩
  exact h ⟨⟨by linarith, by linarith⟩, inBox_of he.2 (along_bb ha hb h0 h1)⟩

theorem crossings_eq {e : Env K} (he : e.Ok) (p : Plane K) :
    ∀ es : List (V3 K × V3 K), (∀ s ∈ es, InBB e s.1 ∧ InBB e s.2) →
      crossings e p es = some ((es.filter fun s => up p s.1 != up p s.2).map fun s => meet p s.1 s.2) := by
  intro es
  induction es with
  | nil => intro _; rfl
  | cons s es ih =>
    intro h
    obtain ⟨a, b⟩ := s
    unfold crossings
    have ih := ih fun s hs => h s (List.mem_cons_of_mem _ hs)
    obtain ⟨ha, hb⟩ := h (a, b) List.mem_cons_self
    by_cases hs : up p a = up p b
    · rw [List.filter_cons_of_neg (by simp [hs]), ← ih]
      exact if_pos hs
    · rw [List.filter_cons_of_pos (by simp [hs]), cross_eq he ha hb hs, ih]
      exact if_neg hs

theorem corners_mem {t : Tet K} {s : V3 K × V3 K} (h : s ∈ tetEdges t) : s.1 ∈ corners t ∧ s.2 ∈ corners t := by
  simp only [tetEdges, List.mem_cons, List.not_mem_nil, or_false] at h
  rcases h with h | h | h | h | h | h <;> subst h <;> simp [corners]

theorem tetEdges_bb {e : Env K} {t : Tet K} (ht : ∀ c ∈ corners t, InBB e c) :
    ∀ s ∈ tetEdges t, InBB e s.1 ∧ InBB e s.2 :=
  fun _ hs => ⟨ht _ (corners_mem hs).1, ht _ (corners_mem hs).2⟩

/-- The points of the two sides of a cut tetrahedron are four and six in number, or six and six. -/
theorem count_sides (p : Plane K) (t : Tet K) :
    let pos := (corners t).filter fun v => up p v
    let neg := (corners t).filter fun v => !up p v
    let ms := ((tetEdges t).filter fun s => up p s.1 != up p s.2).map fun s => meet p s.1 s.2
    (pos.length = 4 ∧ neg.length = 0) ∨ (neg.length = 4 ∧ pos.length = 0) ∨
      (pos.length ≠ 4 ∧ neg.length ≠ 4 ∧ ((pos ++ ms).length = 4 ∨ (pos ++ ms).length = 6) ∧
        ((neg ++ ms).length = 4 ∨ (neg ++ ms).length = 6)) := by
  simp only [corners, tetEdges]
  cases h0 : up p t.p0 <;> cases h1 : up p t.p1 <;> cases h2 : up p t.p2 <;> cases h3 : up p t.p3 <;>
    simp [List.filter, h0, h1, h2, h3]

/-! ### One tetrahedron -/

/-- A tetrahedron that came out of `t` on one side of the plane. -/
def From (e : Env K) (t : Tet K) (side : V3 K → Prop) (u : Tet K) : Prop :=
  (∀ c ∈ corners u, InHull (corners t) c ∧ side c) ∧ e.eps ≤ det u.p0 u.p1 u.p2 u.p3

/-- How many tetrahedra are marked as on the surface, and how many are not. -/
def onCount (ts : List (Tet K)) : ℕ := ts.countP fun t => t.data = Val.on

/-- See `onCount`. -/
def offCount (ts : List (Tet K)) : ℕ := ts.countP fun t => ¬ t.data = Val.on

/-- What one turn of the loop does. -/
structure Step (e : Env K) (p : Plane K) (t : Tet K) (r r' : TSet K × TSet K) where
  np : List (Tet K)
  nn : List (Tet K)
  pos : r'.1.tets = r.1.tets ++ np
  neg : r'.2.tets = r.2.tets ++ nn
  up : ∀ u ∈ np, From e t (fun c => 0 ≤ p.eval c) u
  dn : ∀ u ∈ nn, From e t (fun c => p.eval c ≤ 0) u
  len : np.length + nn.length ≤ 6
  wup : e.eps ≤ |det t.p0 t.p1 t.p2 t.p3| → (∀ c ∈ corners t, 0 < p.eval c) → ∃ u ∈ np, Same t u
  wdn : e.eps ≤ |det t.p0 t.p1 t.p2 t.p3| → (∀ c ∈ corners t, p.eval c ≤ 0) → ∃ u ∈ nn, Same t u
  cnt : e.eps ≤ |det t.p0 t.p1 t.p2 t.p3| →
    (r'.1.nOn = r.1.nOn + onCount np ∧ r'.1.nIn = r.1.nIn + offCount np) ∧
    (r'.2.nOn = r.2.nOn + onCount nn ∧ r'.2.nIn = r.2.nIn + offCount nn)

theorem count_on {ts : List (Tet K)} (h : ∀ t ∈ ts, t.data = Val.on) : onCount ts = ts.length ∧ offCount ts = 0 := by
  refine ⟨?_, ?_⟩
  · unfold onCount; rw [List.countP_eq_length]; intro t ht; simpa using h t ht
  · unfold offCount; rw [List.countP_eq_zero]; intro t ht; simpa using h t ht

theorem same_abs {t u : Tet K} (h : Same t u) : |vol u| = |vol t| := by
  rcases h with h | h
  · rw [h]
  · rw [h, vol_swap, abs_neg]

/-- A tetrahedron on one side: what `Add` and the counters make of it. -/
theorem whole_spec {e : Env K} (he : e.Ok) (T : TSet K) {t : Tet K} (ht : ∀ c ∈ corners t, InBB e c)
    {side : V3 K → Prop} (hs : ∀ c ∈ corners t, side c) :
    ∃ q new, add e T t = some q ∧ (countWhole q.1 t.data).tets = T.tets ++ new ∧
      (∀ u ∈ new, From e t side u) ∧ new.length ≤ 1 ∧
      (e.eps ≤ |det t.p0 t.p1 t.p2 t.p3| → (∃ u ∈ new, Same t u) ∧
        (countWhole q.1 t.data).nOn = T.nOn + onCount new ∧ (countWhole q.1 t.data).nIn = T.nIn + offCount new) := by
  rw [add_eq he T ht]
  have hv : vol t = det t.p0 t.p1 t.p2 t.p3 := vol4_det _ _ _ _
  by_cases h : |vol t| < e.eps
  · rw [if_pos h]
    refine ⟨_, [], rfl, ?_, by simp, by simp, ?_⟩
    · unfold countWhole; split <;> simp
    · intro h'; rw [← hv] at h'; exact absurd h (not_lt.2 h')
  · rw [if_neg h]
    refine ⟨_, [orient t], rfl, ?_, ?_, by simp, ?_⟩
    · unfold countWhole; split <;> rfl
    · intro u hu
      rw [List.mem_singleton] at hu
      subst hu
      refine ⟨?_, ?_⟩
      · intro c hc
        have hc := (same_corners (orient_same t) c).1 hc
        exact ⟨.point hc, hs c hc⟩
      · rw [← vol4_det]
        exact le_of_le_of_eq (not_lt.1 h) (vol_orient t).symm
    · intro _
      refine ⟨⟨orient t, List.mem_singleton.2 rfl, orient_same t⟩, ?_⟩
      unfold countWhole onCount offCount
      have hd := same_data (orient_same t)
      by_cases hh : t.data = Val.on
      · rw [if_pos hh]; simp [hd, hh]
      · rw [if_neg hh]; simp [hd, hh]

theorem up_iff {p : Plane K} {v : V3 K} : up p v = true ↔ 0 < p.eval v := by simp [up]

theorem clipTet_spec {e : Env K} (he : e.Ok) (p : Plane K) (r : TSet K × TSet K) {t : Tet K}
    (ht : ∀ c ∈ corners t, InBB e c) : ∃ r', clipTet e p r t = some r' ∧ Nonempty (Step e p t r r') := by
  have hcount := count_sides p t
  dsimp only at hcount
  have hd : ∀ u : Tet K, vol u = det u.p0 u.p1 u.p2 u.p3 := fun u => vol4_det _ _ _ _
  have h4 : (corners t).length = 4 := rfl
  have hne : t.p0 ∈ corners t := by simp [corners]
  show ∃ r', (if ((corners t).filter fun v => up p v).length = 4 then _
    else if ((corners t).filter fun v => !up p v).length = 4 then _ else _) = some r' ∧ _
  rcases hcount with ⟨h1, -⟩ | ⟨h1, h2⟩ | ⟨h1, h2, h3, h5⟩
  · have hall : ∀ c ∈ corners t, 0 < p.eval c := by
      intro c hc
      have := (List.length_filter_eq_length_iff.1 (h1.trans h4.symm)) c hc
      exact up_iff.1 this
    obtain ⟨q, new, g1, g2, g3, g4, g5⟩ := whole_spec he r.1 ht (side := fun c => 0 ≤ p.eval c) fun c hc => (hall c hc).le
    rw [if_pos h1, g1]
    refine ⟨_, rfl, ⟨⟨new, [], g2, by simp, g3, by simp, by simp; omega, fun h _ => (g5 h).1, ?_, fun h => ⟨(g5 h).2, ?_⟩⟩⟩⟩
    · intro _ h
      exact absurd (hall _ hne) (not_lt.2 (h _ hne))
    · simp [onCount, offCount]
  · have hall : ∀ c ∈ corners t, p.eval c ≤ 0 := by
      intro c hc
      have := (List.length_filter_eq_length_iff.1 (h1.trans h4.symm)) c hc
      rw [Bool.not_eq_true'] at this
      by_contra hc
      rw [up_iff.2 (not_le.1 hc)] at this
      cases this
    obtain ⟨q, new, g1, g2, g3, g4, g5⟩ := whole_spec he r.2 ht (side := fun c => p.eval c ≤ 0) hall
    rw [if_neg (by omega), if_pos h1, g1]
    refine ⟨_, rfl, ⟨⟨[], new, by simp, g2, by simp, g3, by simp; omega, ?_, fun h _ => (g5 h).1, fun h => ⟨?_, (g5 h).2⟩⟩⟩⟩
    · intro _ h
      exact absurd (h _ hne) (not_lt.2 (hall _ hne))
    · simp [onCount, offCount]
  · rw [if_neg h1, if_neg h2, crossings_eq he p _ (tetEdges_bb ht), Option.bind_some]
    have hms : ∀ c ∈ ((tetEdges t).filter fun s => up p s.1 != up p s.2).map fun s => meet p s.1 s.2,
        InBB e c ∧ InHull (corners t) c ∧ p.eval c = 0 := by
      intro c hc
      obtain ⟨s, hs, rfl⟩ := List.mem_map.1 hc
      obtain ⟨hs1, hs2⟩ := List.mem_filter.1 hs
      have hs2 : up p s.1 ≠ up p s.2 := by simpa using hs2
      obtain ⟨m1, m2⟩ := corners_mem hs1
      obtain ⟨-, r0, r1⟩ := ratio hs2
      exact ⟨along_bb (ht _ m1) (ht _ m2) r0 r1, meet_hull m1 m2 hs2, meet_eval hs2⟩
    obtain ⟨nn, g1, g2, g3⟩ := addClipped_spec he (Q := fun c => InBB e c ∧ InHull (corners t) c ∧ p.eval c ≤ 0)
      (fun c h => h.1) r.2 h5 (by
        intro c hc
        rcases List.mem_append.1 hc with hc | hc
        · obtain ⟨hc, hu⟩ := List.mem_filter.1 hc
          refine ⟨ht c hc, .point hc, ?_⟩
          by_contra h
          rw [up_iff.2 (not_le.1 h)] at hu
          cases hu
        · exact ⟨(hms c hc).1, (hms c hc).2.1, (hms c hc).2.2.le⟩)
    obtain ⟨np, i1, i2, i3⟩ := addClipped_spec he (Q := fun c => InBB e c ∧ InHull (corners t) c ∧ 0 ≤ p.eval c)
      (fun c h => h.1) r.1 h3 (by
        intro c hc
        rcases List.mem_append.1 hc with hc | hc
        · obtain ⟨hc, hu⟩ := List.mem_filter.1 hc
          exact ⟨ht c hc, .point hc, (up_iff.1 hu).le⟩
        · exact ⟨(hms c hc).1, (hms c hc).2.1, (hms c hc).2.2.ge⟩)
    have cp := count_on fun u hu => (i2 u hu).2.2
    have cn := count_on fun u hu => (g2 u hu).2.2
    refine ⟨(r.1.more np, r.2.more nn), (congrArg (fun o => Option.bind o _) g1).trans (congrArg (Option.map fun q => (q, r.2.more nn)) i1),
      ⟨⟨np, nn, rfl, rfl, ?_, ?_, by omega, ?_, ?_, ?_⟩⟩⟩
    · exact fun u hu => ⟨fun c hc => ⟨((i2 u hu).1 c hc).2.1, ((i2 u hu).1 c hc).2.2⟩, by rw [← hd]; exact (i2 u hu).2.1⟩
    · exact fun u hu => ⟨fun c hc => ⟨((g2 u hu).1 c hc).2.1, ((g2 u hu).1 c hc).2.2⟩, by rw [← hd]; exact (g2 u hu).2.1⟩
    · intro _ h
      refine absurd ?_ h1
      rw [List.filter_eq_self.2 fun c hc => up_iff.2 (h c hc)]; rfl
    · intro _ h
      refine absurd ?_ h2
      rw [List.filter_eq_self.2]; · rfl
      intro c hc
      rw [Bool.not_eq_true', ← Bool.not_eq_true, up_iff]
      exact not_lt.2 (h c hc)
    · intro _
      simp only [TSet.more, cp.1, cp.2, cn.1, cn.2, Nat.add_zero, and_self]

/-! ### The whole set -/

theorem clip_spec {e : Env K} (he : e.Ok) (p : Plane K) :
    ∀ (ts : List (Tet K)) (r : TSet K × TSet K), (∀ t ∈ ts, ∀ c ∈ corners t, InBB e c) →
      ∃ r' np nn, ts.foldlM (clipTet e p) r = some r' ∧ r'.1.tets = r.1.tets ++ np ∧ r'.2.tets = r.2.tets ++ nn ∧
        (∀ u ∈ np, ∃ t ∈ ts, From e t (fun c => 0 ≤ p.eval c) u) ∧
        (∀ u ∈ nn, ∃ t ∈ ts, From e t (fun c => p.eval c ≤ 0) u) ∧
        np.length + nn.length ≤ 6 * ts.length ∧
        (∀ t ∈ ts, e.eps ≤ |det t.p0 t.p1 t.p2 t.p3| → ((∀ c ∈ corners t, 0 < p.eval c) → ∃ u ∈ np, Same t u) ∧
          ((∀ c ∈ corners t, p.eval c ≤ 0) → ∃ u ∈ nn, Same t u)) ∧
        ((∀ t ∈ ts, e.eps ≤ |det t.p0 t.p1 t.p2 t.p3|) →
          (r'.1.nOn = r.1.nOn + onCount np ∧ r'.1.nIn = r.1.nIn + offCount np) ∧
          (r'.2.nOn = r.2.nOn + onCount nn ∧ r'.2.nIn = r.2.nIn + offCount nn)) := by
  intro ts
  induction ts with
  | nil => intro r _; exact ⟨r, [], [], rfl, by simp, by simp, by simp, by simp, by simp, by simp, by simp [onCount, offCount]⟩
  | cons t ts ih =>
    intro r h
    obtain ⟨r1, g, ⟨s⟩⟩ := clipTet_spec he p r (h t List.mem_cons_self)
    obtain ⟨r2, np, nn, i0, i1, i2, i3, i4, i5, i6, i7⟩ := ih r1 fun t ht => h t (List.mem_cons_of_mem _ ht)
    refine ⟨r2, s.np ++ np, s.nn ++ nn, ?_, by rw [i1, s.pos, List.append_assoc], by rw [i2, s.neg, List.append_assoc],
      ?_, ?_, ?_, ?_, ?_⟩
    · rw [List.foldlM_cons, g]; exact i0
    · intro u hu
      rcases List.mem_append.1 hu with hu | hu
      · exact ⟨t, List.mem_cons_self, s.up u hu⟩
      · obtain ⟨t', ht', hf⟩ := i3 u hu; exact ⟨t', List.mem_cons_of_mem _ ht', hf⟩
    · intro u hu
      rcases List.mem_append.1 hu with hu | hu
      · exact ⟨t, List.mem_cons_self, s.dn u hu⟩
      · obtain ⟨t', ht', hf⟩ := i4 u hu; exact ⟨t', List.mem_cons_of_mem _ ht', hf⟩
    · have := s.len
      simp only [List.length_append, List.length_cons]; omega
    · intro t' ht' hv
      rcases List.mem_cons.1 ht' with rfl | ht'
      · refine ⟨fun hh => ?_, fun hh => ?_⟩
        · obtain ⟨u, hu, hs⟩ := s.wup hv hh; exact ⟨u, List.mem_append_left _ hu, hs⟩
        · obtain ⟨u, hu, hs⟩ := s.wdn hv hh; exact ⟨u, List.mem_append_left _ hu, hs⟩
      · refine ⟨fun hh => ?_, fun hh => ?_⟩
        · obtain ⟨u, hu, hs⟩ := (i6 t' ht' hv).1 hh; exact ⟨u, List.mem_append_right _ hu, hs⟩
        · obtain ⟨u, hu, hs⟩ := (i6 t' ht' hv).2 hh; exact ⟨u, List.mem_append_right _ hu, hs⟩
    · intro hv
      obtain ⟨⟨a1, a2⟩, a3, a4⟩ := s.cnt (hv t List.mem_cons_self)
      obtain ⟨⟨b1, b2⟩, b3, b4⟩ := i7 fun t ht => hv t (List.mem_cons_of_mem _ ht)
      simp only [onCount, offCount, List.countP_append] at *
      refine ⟨⟨?_, ?_⟩, ?_, ?_⟩ <;> omega

/-- **C173.** Cutting a set of tetrahedra whose box is right always comes to an end without a failed
assertion, and without reading a tetrahedron that was never written.  Each tetrahedron of a part lies
within one of the set and on the right side of the plane, and is positively oriented with at least the
volume `eps`. -/
theorem C173_parts {e : Env K} (he : e.Ok) (p : Plane K) (ts : List (Tet K))
    (hb : ∀ t ∈ ts, ∀ c ∈ corners t, InBB e c) :
    ∃ P N, clip e p ts = some (P, N) ∧
      (∀ u ∈ P.tets, ∃ t ∈ ts, From e t (fun c => 0 ≤ p.eval c) u) ∧
      (∀ u ∈ N.tets, ∃ t ∈ ts, From e t (fun c => p.eval c ≤ 0) u) ∧
      P.tets.length + N.tets.length ≤ 6 * ts.length := by
  obtain ⟨r, np, nn, h0, h1, h2, h3, h4, h5, -⟩ := clip_spec he p ts (⟨[], 0, 0⟩, ⟨[], 0, 0⟩) hb
  rw [List.nil_append] at h1 h2
  exact ⟨r.1, r.2, h0, h1 ▸ h3, h2 ▸ h4, by rw [h1, h2]; exact h5⟩

/-- **C173.** A tetrahedron that the plane does not cut is kept, unless it is too small. -/
theorem C173_whole {e : Env K} (he : e.Ok) (p : Plane K) (ts : List (Tet K))
    (hb : ∀ t ∈ ts, ∀ c ∈ corners t, InBB e c) (t : Tet K) (ht : t ∈ ts) (hv : e.eps ≤ |det t.p0 t.p1 t.p2 t.p3|) :
    ∃ P N, clip e p ts = some (P, N) ∧ ((∀ c ∈ corners t, 0 < p.eval c) → ∃ u ∈ P.tets, Same t u) ∧
      ((∀ c ∈ corners t, p.eval c ≤ 0) → ∃ u ∈ N.tets, Same t u) := by
  obtain ⟨r, np, nn, h0, h1, h2, -, -, -, h6, -⟩ := clip_spec he p ts (⟨[], 0, 0⟩, ⟨[], 0, 0⟩) hb
  rw [List.nil_append] at h1 h2
  exact ⟨r.1, r.2, h0, by rw [h1]; exact (h6 t ht hv).1, by rw [h2]; exact (h6 t ht hv).2⟩

/-- **C173.** The counters of the parts are right, if no tetrahedron of the set is too small. -/
theorem C173_counters_partial {e : Env K} (he : e.Ok) (p : Plane K) (ts : List (Tet K))
    (hb : ∀ t ∈ ts, ∀ c ∈ corners t, InBB e c) (hv : ∀ t ∈ ts, e.eps ≤ |det t.p0 t.p1 t.p2 t.p3|) :
    ∃ P N, clip e p ts = some (P, N) ∧ (P.nOn = onCount P.tets ∧ P.nIn = offCount P.tets) ∧
      (N.nOn = onCount N.tets ∧ N.nIn = offCount N.tets) := by
  obtain ⟨r, np, nn, h0, h1, h2, -, -, -, -, h7⟩ := clip_spec he p ts (⟨[], 0, 0⟩, ⟨[], 0, 0⟩) hb
  rw [List.nil_append] at h1 h2
  have := h7 hv
  simp only [Nat.zero_add] at this
  exact ⟨r.1, r.2, h0, by rw [h1]; exact this.1, by rw [h2]; exact this.2⟩

/-- **C173.** A set of tetrahedra that are all too small vanishes if it lies on one side of the plane; the
counters still tell their number. -/
theorem C173_violated_small {e : Env K} (p : Plane K) (ts : List (Tet K))
    (hv : ∀ t ∈ ts, |det t.p0 t.p1 t.p2 t.p3| < e.eps) (hs : ∀ t ∈ ts, ∀ c ∈ corners t, 0 < p.eval c) :
    ∃ P N, clip e p ts = some (P, N) ∧ P.tets = [] ∧ N.tets = [] ∧ P.nOn + P.nIn = ts.length := by
  have key : ∀ (ts : List (Tet K)) (r : TSet K × TSet K), (∀ t ∈ ts, |det t.p0 t.p1 t.p2 t.p3| < e.eps) →
      (∀ t ∈ ts, ∀ c ∈ corners t, 0 < p.eval c) → ∃ r', ts.foldlM (clipTet e p) r = some r' ∧ r'.1.tets = r.1.tets ∧
        r'.2 = r.2 ∧ r'.1.nOn + r'.1.nIn = r.1.nOn + r.1.nIn + ts.length := by
    intro ts
    induction ts with
    | nil => intro r _ _; exact ⟨r, rfl, rfl, rfl, rfl⟩
    | cons t ts ih =>
      intro r hv hs
      have hc : clipTet e p r t = some (countWhole r.1 t.data, r.2) := by
        show (if ((corners t).filter fun v => up p v).length = 4 then _ else _) = _
        rw [List.filter_eq_self.2 fun c hc => up_iff.2 (hs t List.mem_cons_self c hc), if_pos (by rfl)]
        unfold add
        have : |vol t| < e.eps := by
          have := hv t List.mem_cons_self
          rwa [← vol4_det] at this
        rw [if_pos this]; rfl
      obtain ⟨r', h0, h1, h2, h3⟩ := ih (countWhole r.1 t.data, r.2) (fun t ht => hv t (List.mem_cons_of_mem _ ht))
        fun t ht => hs t (List.mem_cons_of_mem _ ht)
      have hw : (countWhole r.1 t.data).tets = r.1.tets ∧
          (countWhole r.1 t.data).nOn + (countWhole r.1 t.data).nIn = r.1.nOn + r.1.nIn + 1 := by
        unfold countWhole
        split
        · exact ⟨rfl, by dsimp only; omega⟩
        · exact ⟨rfl, by dsimp only; omega⟩
      refine ⟨r', ?_, by rw [h1, hw.1], h2, ?_⟩
      · rw [List.foldlM_cons, hc]; exact h0
      · rw [h3, hw.2, List.length_cons]; omega
  obtain ⟨r, h0, h1, h2, h3⟩ := key ts (⟨[], 0, 0⟩, ⟨[], 0, 0⟩) hv hs
  exact ⟨r.1, r.2, h0, h1, by rw [h2], by simpa using h3⟩

end Verif.TetClip
