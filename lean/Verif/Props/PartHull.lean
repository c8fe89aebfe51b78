import Verif.Model.PartHull
import Verif.Props.Decompose
import Verif.Props.Voxelize
import Verif.Props.MeshVolume

set_option linter.unusedSectionVars false
set_option linter.unusedVariables false

/-!
# C176: the hulls of V-HACD cover the model

Every point of the mesh, and every voxel inside of it, lies in the convex hull of one of the parts.
-/

namespace Verif.PartHull

open Verif.Voxel (V3 Grid Val Cell cells get Inside3 Adj Border Covers OnTriangle IsTriangle voxelize)
open Verif.Decompose (VSet Env Heap Plane half onGrid height Cuts Sticky Counted computeACD places)
open Verif.MeshVol (InHull)

variable {K : Type} [Field K] [LinearOrder K] [IsStrictOrderedRing K]

/-! ### Specification -/

/-- The closed box of a voxel. -/
def InBox (s : VSet K) (v : Decompose.Voxel) (y : V3 K) : Prop :=
  |y.x - (s.ox + s.scale * v.x)| ≤ s.scale / 2 ∧ |y.y - (s.oy + s.scale * v.y)| ≤ s.scale / 2 ∧
    |y.z - (s.oz + s.scale * v.z)| ≤ s.scale / 2

/-- What the computation of hulls has to do: its points have the same convex hull as the points given. -/
def IsHull (ch : List (V3 K) → List (V3 K)) : Prop :=
  ∀ ps, (∀ p ∈ ps, InHull (ch ps) p) ∧ ∀ p ∈ ch ps, InHull ps p

/-- The surface voxels of a set, in order. -/
def surfs (s : VSet K) : List Decompose.Voxel := s.voxels.filter (·.surf)

/-- Voxels that are not on the surface have both neighbours along the first axis in the set. -/
def Closed (s : VSet K) : Prop :=
  ∀ v ∈ s.voxels, v.surf = false → (∃ u ∈ s.voxels, u.x = v.x + 1 ∧ u.y = v.y ∧ u.z = v.z) ∧
    ∃ u ∈ s.voxels, u.x = v.x - 1 ∧ u.y = v.y ∧ u.z = v.z

/-! ### Convex hulls -/

theorem InHull.trans {ps qs : List (V3 K)} (h : ∀ p ∈ ps, InHull qs p) {y : V3 K} (hy : InHull ps y) : InHull qs y := by
  induction hy with
  | point hp => exact h _ hp
  | between s _ _ h0 h1 i1 i2 => exact .between s i1 i2 h0 h1

theorem InHull.mono {ps qs : List (V3 K)} (h : ∀ p ∈ ps, p ∈ qs) {y : V3 K} (hy : InHull ps y) : InHull qs y :=
  InHull.trans (fun p hp => .point (h p hp)) hy

/-- a point on the way between two others -/
theorem InHull.mix {ps : List (V3 K)} {p q y : V3 K} (s : K) (hp : InHull ps p) (hq : InHull ps q) (h0 : 0 ≤ s) (h1 : s ≤ 1)
    (hx : y.x = (1 - s) * p.x + s * q.x) (hy : y.y = (1 - s) * p.y + s * q.y) (hz : y.z = (1 - s) * p.z + s * q.z) :
    InHull ps y := by
  have : y = ⟨(1 - s) * p.x + s * q.x, (1 - s) * p.y + s * q.y, (1 - s) * p.z + s * q.z⟩ := V3.ext hx hy hz
  rw [this]
  exact .between s hp hq h0 h1

/-- a position within an interval as a fraction of it -/
theorem fraction {y c w : K} (hw : 0 < w) (h : |y - c| ≤ w / 2) :
    ∃ s : K, 0 ≤ s ∧ s ≤ 1 ∧ y = (1 - s) * (c - w / 2) + s * (c + w / 2) := by
  rw [abs_le] at h
  refine ⟨(y - c + w / 2) / w, div_nonneg (by linarith) hw.le, (div_le_one hw).2 (by linarith), ?_⟩
  field_simp
  ring

theorem box_in_corners {s : VSet K} (hs : 0 < s.scale) {v : Decompose.Voxel} {y : V3 K} (h : InBox s v y) :
    InHull (corners8 s v) y := by
  obtain ⟨a, a0, a1, ha⟩ := fraction hs h.1
  obtain ⟨b, b0, b1, hb⟩ := fraction hs h.2.1
  obtain ⟨c, c0, c1, hc⟩ := fraction hs h.2.2
  have mem : ∀ p ∈ corners8 s v, InHull (corners8 s v) p := fun p hp => .point hp
  have e1 : ∀ o k : K, (k - 1 / 2) * s.scale + o = o + s.scale * k - s.scale / 2 := fun o k => by ring
  have e2 : ∀ o k : K, (k + 1 / 2) * s.scale + o = o + s.scale * k + s.scale / 2 := fun o k => by ring
  simp only [corners8, List.mem_cons, List.not_mem_nil, or_false, forall_eq_or_imp, forall_eq] at mem
  obtain ⟨m0, m1, m2, m3, m4, m5, m6, m7⟩ := mem
  set L := [(⟨((v.x : K) - 1 / 2) * s.scale + s.ox, _, _⟩ : V3 K), _, _, _, _, _, _, _] with hL
  have g : InHull L y := by
    have r0 := InHull.between a m0 m1 a0 a1
    have r1 := InHull.between a m3 m2 a0 a1
    have r2 := InHull.between a m4 m5 a0 a1
    have r3 := InHull.between a m7 m6 a0 a1
    have q0 := InHull.between b r0 r1 b0 b1
    have q1 := InHull.between b r2 r3 b0 b1
    refine InHull.mix c q0 q1 c0 c1 ?_ ?_ ?_
    · rw [ha]; simp only [e1, e2]; ring
    · rw [hb]; simp only [e1, e2]; ring
    · rw [hc]; simp only [e1, e2]; ring
  exact g

theorem corner_in_box {s : VSet K} (hs : 0 < s.scale) {v : Decompose.Voxel} {p : V3 K} (h : p ∈ corners8 s v) : InBox s v p := by
  have k1 : ∀ o k : K, |(k - 1 / 2) * s.scale + o - (o + s.scale * k)| ≤ s.scale / 2 := fun o k => by
    rw [abs_le]; constructor <;> linarith
  have k2 : ∀ o k : K, |(k + 1 / 2) * s.scale + o - (o + s.scale * k)| ≤ s.scale / 2 := fun o k => by
    rw [abs_le]; constructor <;> linarith
  simp only [corners8, List.mem_cons, List.not_mem_nil, or_false] at h
  rcases h with h | h | h | h | h | h | h | h <;> subst h
  · exact ⟨k1 _ _, k1 _ _, k1 _ _⟩
  · exact ⟨k2 _ _, k1 _ _, k1 _ _⟩
  · exact ⟨k2 _ _, k2 _ _, k1 _ _⟩
  · exact ⟨k1 _ _, k2 _ _, k1 _ _⟩
  · exact ⟨k1 _ _, k1 _ _, k2 _ _⟩
  · exact ⟨k2 _ _, k1 _ _, k2 _ _⟩
  · exact ⟨k2 _ _, k2 _ _, k2 _ _⟩
  · exact ⟨k1 _ _, k2 _ _, k2 _ _⟩

/-! ### The loops -/

/-- what the sampling picks from a list of surface voxels -/
def pick (m : ℕ) : ℕ → List Decompose.Voxel → List Decompose.Voxel
  | _, [] => []
  | n, v :: vs => if n + 1 = m then v :: pick m 0 vs else pick m (n + 1) vs

theorem pick_cons (m n : ℕ) (v : Decompose.Voxel) (vs : List Decompose.Voxel) :
    pick m n (v :: vs) = if n + 1 = m then v :: pick m 0 vs else pick m (n + 1) vs := rfl

theorem mem_pick (m : ℕ) {v : Decompose.Voxel} : ∀ (l : List Decompose.Voxel) (n : ℕ), (n < m ∨ m = 0) →
    (v ∈ pick m n l ↔ ∃ i, l[i]? = some v ∧ m ∣ n + i + 1) := by
  intro l
  induction l with
  | nil => intro n _; simp [pick]
  | cons w l ih =>
    intro n hn
    rw [pick_cons]
    by_cases h : n + 1 = m
    · rw [if_pos h, List.mem_cons, ih 0 (by omega)]
      constructor
      · rintro (e | ⟨i, e, d⟩)
        · exact ⟨0, by simp [e], by rw [← h]⟩
        · refine ⟨i + 1, by simpa using e, ?_⟩
          have : n + (i + 1) + 1 = m + (0 + i + 1) := by omega
          rw [this]
          exact (Nat.dvd_add_right (dvd_refl m)).2 d
      · rintro ⟨i, e, d⟩
        cases i with
        | zero => left; simpa using e.symm
        | succ i =>
          right
          refine ⟨i, by simpa using e, ?_⟩
          have : n + (i + 1) + 1 = m + (0 + i + 1) := by omega
          rw [this] at d
          exact (Nat.dvd_add_right (dvd_refl m)).1 d
    · rw [if_neg h, ih (n + 1) (by omega)]
      constructor
      · rintro ⟨i, e, d⟩
        exact ⟨i + 1, by simpa using e, by rwa [show n + (i + 1) + 1 = n + 1 + i + 1 by omega]⟩
      · rintro ⟨i, e, d⟩
        cases i with
        | zero =>
          exfalso
          rcases hn with hn | hn
          · have := Nat.le_of_dvd (by omega) d; omega
          · rw [hn] at d; have := Nat.eq_zero_of_zero_dvd d; omega
        | succ i => exact ⟨i, by simpa using e, by rwa [show n + 1 + i + 1 = n + (i + 1) + 1 by omega]⟩

theorem corners8_length (s : VSet K) (v : Decompose.Voxel) : (corners8 s v).length = 8 := rfl

theorem gather_spec (cap m : ℕ) (s : VSet K) (hc : 8 ∣ cap) : ∀ (vs : List Decompose.Voxel) (n : ℕ) (pts : List (V3 K)),
    8 ∣ pts.length → ∃ pts' n' rest l, gather cap m s vs n pts = some (pts', n', rest) ∧ pts' = pts ++ l.flatMap (corners8 s) ∧
      rest.length ≤ vs.length ∧ (pts.length < cap → vs ≠ [] → rest.length < vs.length) ∧
      pick m n (vs.filter (·.surf)) = l ++ pick m n' (rest.filter (·.surf)) := by
  intro vs
  induction vs with
  | nil => intro n pts _; exact ⟨pts, n, [], [], rfl, by simp, le_refl _, fun _ h => absurd rfl h, rfl⟩
  | cons v vs ih =>
    intro n pts hp
    unfold gather
    by_cases h1 : pts.length < cap
    · rw [if_pos h1]
      by_cases h2 : v.surf = true
      · rw [if_pos h2, List.filter_cons_of_pos h2]
        rw [pick_cons]
        by_cases h3 : n + 1 = m
        · rw [if_pos h3, if_pos h3]
          have h4 : pts.length + 8 ≤ cap := by omega
          rw [if_pos h4]
          obtain ⟨pts', n', rest, l, e, e1, e2, _, e4⟩ := ih 0 (pts ++ corners8 s v) (by
            rw [List.length_append, corners8_length]; omega)
          refine ⟨pts', n', rest, v :: l, e, by simp [e1], by simp; omega, fun _ _ => by simp; omega, ?_⟩
          rw [e4]; rfl
        · rw [if_neg h3, if_neg h3]
          obtain ⟨pts', n', rest, l, e, e1, e2, _, e4⟩ := ih (n + 1) pts hp
          exact ⟨pts', n', rest, l, e, e1, by simp; omega, fun _ _ => by simp; omega, e4⟩
      · rw [if_neg h2, List.filter_cons_of_neg h2]
        obtain ⟨pts', n', rest, l, e, e1, e2, _, e4⟩ := ih n pts hp
        exact ⟨pts', n', rest, l, e, e1, by simp; omega, fun _ _ => by simp; omega, e4⟩
    · rw [if_neg h1]
      exact ⟨pts, n, v :: vs, [], rfl, by simp, le_refl _, fun h => absurd h h1, rfl⟩

theorem clusters_spec {ch : List (V3 K) → List (V3 K)} (hch : IsHull ch) (cap m : ℕ) (s : VSet K) (hc : 8 ∣ cap) (h0 : 0 < cap) :
    ∀ (fuel : ℕ) (vs : List Decompose.Voxel) (n : ℕ) (cp : List (V3 K)), vs.length ≤ fuel →
    ∃ cp', clusters ch cap m s fuel vs n cp = some cp' ∧
      (∀ p, p ∈ cp ∨ p ∈ (pick m n (vs.filter (·.surf))).flatMap (corners8 s) → InHull cp' p) ∧
      ∀ p ∈ cp', InHull (cp ++ (pick m n (vs.filter (·.surf))).flatMap (corners8 s)) p := by
  intro fuel
  induction fuel with
  | zero =>
    intro vs n cp hf
    cases vs with
    | nil => exact ⟨cp, rfl, fun p hp => by simp [pick] at hp; exact .point hp, fun p hp => .point (by simp [hp])⟩
    | cons v vs => simp at hf
  | succ fuel ih =>
    intro vs n cp hf
    cases vs with
    | nil => exact ⟨cp, by unfold clusters; rfl, fun p hp => by simp [pick] at hp; exact .point hp, fun p hp => .point (by simp [hp])⟩
    | cons v vs =>
      obtain ⟨pts, n', rest, l, e, e1, e2, e3, e4⟩ := gather_spec cap m s hc (v :: vs) n [] (by simp)
      have lt := e3 h0 (by simp)
      obtain ⟨cp', f, f1, f2⟩ := ih rest n' (cp ++ ch pts) (by simp only [List.length_cons] at hf lt; omega)
      refine ⟨cp', ?_, ?_, ?_⟩
      · unfold clusters
        simp only [e, Option.bind_some]
        exact f
      · rw [List.nil_append] at e1
        rintro p (hp | hp)
        · exact f1 p (.inl (by simp [hp]))
        · rw [e4, List.flatMap_append, List.mem_append] at hp
          rcases hp with hp | hp
          · rw [← e1] at hp
            exact InHull.trans (fun q hq => f1 q (.inl (by simp [hq]))) ((hch pts).1 p hp)
          · exact f1 p (.inr hp)
      · rw [List.nil_append] at e1
        intro p hp
        refine InHull.trans (fun q hq => ?_) (f2 p hp)
        rw [e4, List.flatMap_append, ← e1]
        rcases List.mem_append.1 hq with hq | hq
        · rcases List.mem_append.1 hq with hq | hq
          · exact .point (by simp [hq])
          · exact InHull.mono (fun r hr => by simp [hr]) ((hch pts).2 q hq)
        · exact .point (by simp only [List.mem_append]; exact .inr (.inr hq))

theorem partHull_spec {ch : List (V3 K) → List (V3 K)} (hch : IsHull ch) (m : ℕ) (s : VSet K) (old : List (V3 K))
    (hne : s.voxels ≠ []) : ∃ ps, partHull ch m s old = some ps ∧
      (∀ p ∈ (pick m 0 (surfs s)).flatMap (corners8 s), InHull ps p) ∧
      ∀ p ∈ ps, InHull ((pick m 0 (surfs s)).flatMap (corners8 s)) p := by
  obtain ⟨cp, e, e1, e2⟩ := clusters_spec hch clusterSize m s (by unfold clusterSize; norm_num) (by unfold clusterSize; norm_num)
    s.voxels.length s.voxels 0 [] le_rfl
  refine ⟨ch cp, ?_, ?_, ?_⟩
  · unfold partHull
    rw [if_neg hne, e]; rfl
  · intro p hp
    exact InHull.trans (hch cp).1 (e1 p (.inr hp))
  · intro p hp
    refine InHull.trans (fun q hq => ?_) ((hch cp).2 p hp)
    have := e2 q hq
    rwa [List.nil_append] at this

/-- C176, part 1.  The hull of a set of voxels is computed for any sampling, without writing behind the end of the array of
points of a cluster.  It has the boxes of every `m`-th surface voxel in it, and is the smallest convex set with this
property: any other convex hull that has those boxes in it has all of its points. -/
theorem C176_hull (ch : List (V3 K) → List (V3 K)) (hch : IsHull ch) (m : ℕ) (s : VSet K) (old : List (V3 K))
    (hs : 0 < s.scale) (hne : s.voxels ≠ []) : ∃ ps, partHull ch m s old = some ps ∧
      (∀ i v, (surfs s)[i]? = some v → m ∣ i + 1 → ∀ y, InBox s v y → InHull ps y) ∧
      ∀ qs, (∀ i v, (surfs s)[i]? = some v → m ∣ i + 1 → ∀ y, InBox s v y → InHull qs y) →
        ∀ y, InHull ps y → InHull qs y := by
  obtain ⟨ps, e, e1, e2⟩ := partHull_spec hch m s old hne
  have mp : ∀ v, v ∈ pick m 0 (surfs s) ↔ ∃ i, (surfs s)[i]? = some v ∧ m ∣ i + 1 := by
    intro v
    rw [mem_pick m _ 0 (by omega)]
    simp
  refine ⟨ps, e, ?_, ?_⟩
  · intro i v hi hm y hy
    refine InHull.trans (fun p hp => e1 p ?_) (box_in_corners hs hy)
    exact List.mem_flatMap.2 ⟨v, (mp v).2 ⟨i, hi, hm⟩, hp⟩
  · intro qs hq y hy
    refine InHull.trans (fun p hp => ?_) (InHull.trans e2 hy)
    obtain ⟨v, hv, hp⟩ := List.mem_flatMap.1 hp
    obtain ⟨i, hi, hm⟩ := (mp v).1 hv
    exact hq i v hi hm p (corner_in_box hs hp)

/-- C176, part 2, fails for a sampling of zero, which the parameters allow: no point is taken, and the hull of any set is
empty. -/
theorem C176_violated_sampling (ch : List (V3 K) → List (V3 K)) (hch : IsHull ch) (s : VSet K) (old : List (V3 K))
    (hne : s.voxels ≠ []) : partHull ch 0 s old = some [] := by
  obtain ⟨ps, e, _, e2⟩ := partHull_spec hch 0 s old hne
  have hp : pick 0 0 (surfs s) = [] := by
    rw [List.eq_nil_iff_forall_not_mem]
    intro v hv
    obtain ⟨i, _, d⟩ := (mem_pick 0 _ 0 (by omega)).1 hv
    have := Nat.eq_zero_of_zero_dvd d
    omega
  have no : ∀ y : V3 K, ¬ InHull [] y := by
    intro y hy
    induction hy with
    | point h => simp at h
    | between _ _ _ _ _ i _ => exact i
  rw [hp] at e2
  cases ps with
  | nil => exact e
  | cons p ps => exact absurd (e2 p (by simp)) (no p)

/-! ### Voxels inside -/

theorem to_right {s : VSet K} (hc : Closed s) {v : Decompose.Voxel} (hv : v ∈ s.voxels) :
    ∃ u ∈ s.voxels, u.surf = true ∧ v.x ≤ u.x ∧ u.y = v.y ∧ u.z = v.z := by
  obtain ⟨M, hM⟩ : ∃ M : ℤ, ∀ u ∈ s.voxels, u.x ≤ M := by
    clear hc hv
    induction s.voxels with
    | nil => exact ⟨0, by simp⟩
    | cons a l ih =>
      obtain ⟨M, h⟩ := ih
      refine ⟨max a.x M, fun u hu => ?_⟩
      rcases List.mem_cons.1 hu with rfl | hu
      · exact le_max_left _ _
      · exact (h u hu).trans (le_max_right _ _)
  generalize hk : (M - v.x).toNat = k
  induction k generalizing v with
  | zero =>
    by_cases h : v.surf = true
    · exact ⟨v, hv, h, le_rfl, rfl, rfl⟩
    · obtain ⟨⟨u, hu, e, _⟩, _⟩ := hc v hv (by simpa using h)
      have := hM u hu
      omega
  | succ k ih =>
    by_cases h : v.surf = true
    · exact ⟨v, hv, h, le_rfl, rfl, rfl⟩
    · obtain ⟨⟨u, hu, e, e1, e2⟩, _⟩ := hc v hv (by simpa using h)
      obtain ⟨w, a, b, c, d, f⟩ := ih hu (by omega)
      exact ⟨w, a, b, by omega, d.trans e1, f.trans e2⟩

theorem to_left {s : VSet K} (hc : Closed s) {v : Decompose.Voxel} (hv : v ∈ s.voxels) :
    ∃ u ∈ s.voxels, u.surf = true ∧ u.x ≤ v.x ∧ u.y = v.y ∧ u.z = v.z := by
  obtain ⟨M, hM⟩ : ∃ M : ℤ, ∀ u ∈ s.voxels, M ≤ u.x := by
    clear hc hv
    induction s.voxels with
    | nil => exact ⟨0, by simp⟩
    | cons a l ih =>
      obtain ⟨M, h⟩ := ih
      refine ⟨min a.x M, fun u hu => ?_⟩
      rcases List.mem_cons.1 hu with rfl | hu
      · exact min_le_left _ _
      · exact (min_le_right _ _).trans (h u hu)
  generalize hk : (v.x - M).toNat = k
  induction k generalizing v with
  | zero =>
    by_cases h : v.surf = true
    · exact ⟨v, hv, h, le_rfl, rfl, rfl⟩
    · obtain ⟨_, u, hu, e, _⟩ := hc v hv (by simpa using h)
      have := hM u hu
      omega
  | succ k ih =>
    by_cases h : v.surf = true
    · exact ⟨v, hv, h, le_rfl, rfl, rfl⟩
    · obtain ⟨_, u, hu, e, e1, e2⟩ := hc v hv (by simpa using h)
      obtain ⟨w, a, b, c, d, f⟩ := ih hu (by omega)
      exact ⟨w, a, b, by omega, d.trans e1, f.trans e2⟩

/-- a voxel between two others of its row lies in any hull that has those -/
theorem row {s : VSet K} {v l r : Decompose.Voxel} {ps : List (V3 K)} (hl : ∀ y, InBox s l y → InHull ps y)
    (hr : ∀ y, InBox s r y → InHull ps y) (l1 : l.x ≤ v.x) (l2 : l.y = v.y) (l3 : l.z = v.z) (r1 : v.x ≤ r.x)
    (r2 : r.y = v.y) (r3 : r.z = v.z) {y : V3 K} (hy : InBox s v y) : InHull ps y := by
  obtain ⟨h1, h2, h3⟩ := hy
  have A : InHull ps ⟨y.x + s.scale * ((l.x : K) - v.x), y.y, y.z⟩ := by
    refine hl _ ⟨?_, by rw [l2]; exact h2, by rw [l3]; exact h3⟩
    rw [show y.x + s.scale * ((l.x : K) - v.x) - (s.ox + s.scale * l.x) = y.x - (s.ox + s.scale * v.x) by ring]
    exact h1
  have B : InHull ps ⟨y.x + s.scale * ((r.x : K) - v.x), y.y, y.z⟩ := by
    refine hr _ ⟨?_, by rw [r2]; exact h2, by rw [r3]; exact h3⟩
    rw [show y.x + s.scale * ((r.x : K) - v.x) - (s.ox + s.scale * r.x) = y.x - (s.ox + s.scale * v.x) by ring]
    exact h1
  have c1 : (l.x : K) ≤ v.x := by exact_mod_cast l1
  have c2 : (v.x : K) ≤ r.x := by exact_mod_cast r1
  rcases eq_or_lt_of_le (c1.trans c2) with e | lt
  · have : (v.x : K) = l.x := le_antisymm (e ▸ c2) c1
    rw [this, sub_self, mul_zero, add_zero] at A
    exact A
  · have pos : (0 : K) < r.x - l.x := sub_pos.2 lt
    refine InHull.mix (((v.x : K) - l.x) / (r.x - l.x)) A B (div_nonneg (by linarith) pos.le)
      ((div_le_one pos).2 (by linarith)) ?_ ?_ ?_
    · have := pos.ne'
      simp only
      field_simp
      ring
    · ring
    · ring

/-- C176, part 2.  With the sampling that the library uses for its results (one), the hull of a part has the boxes of all of
its voxels in it, also of those that are not on the surface, if each of these has its neighbours in the part. -/
theorem C176_voxels (ch : List (V3 K) → List (V3 K)) (hch : IsHull ch) (s : VSet K) (old : List (V3 K))
    (hs : 0 < s.scale) (hne : s.voxels ≠ []) (hc : Closed s) : ∃ ps, partHull ch 1 s old = some ps ∧
      ∀ v ∈ s.voxels, ∀ y, InBox s v y → InHull ps y := by
  obtain ⟨ps, e, e1, _⟩ := C176_hull ch hch 1 s old hs hne
  have S : ∀ u ∈ s.voxels, u.surf = true → ∀ y, InBox s u y → InHull ps y := by
    intro u hu hus
    have : u ∈ surfs s := List.mem_filter.2 ⟨hu, hus⟩
    obtain ⟨i, hi⟩ := List.mem_iff_getElem?.1 this
    exact e1 i u hi (one_dvd _)
  refine ⟨ps, e, ?_⟩
  intro v hv y hy
  obtain ⟨l, a1, a2, a3, a4, a5⟩ := to_left hc hv
  obtain ⟨r, b1, b2, b3, b4, b5⟩ := to_right hc hv
  exact row (S l a1 a2) (S r b1 b2) a3 a4 a5 b3 b4 b5 hy

/-- C176, part 3.  A cut keeps what part 2 asks for: the voxels next to a plane become voxels of the surface, so every other
voxel of a half has its neighbours in the same half. -/
theorem C176_cut (p : Plane K) (s : VSet K) (up : Bool) (hs : 0 < s.scale) (hp : |p.a| ≤ 1) (hc : Closed s) :
    Closed (onGrid s (half p s up)) := by
  have near : ∀ u v : Decompose.Voxel, |height p s v - height p s u| ≤ s.scale → s.scale < |height p s v| →
      decide (0 ≤ height p s u) = decide (0 ≤ height p s v) := by
    intro u v h1 h2
    rw [abs_le] at h1
    rw [decide_eq_decide]
    rcases lt_abs.1 h2 with h | h
    · constructor <;> intro <;> linarith
    · constructor <;> intro <;> linarith
  have dist : ∀ u v : Decompose.Voxel, (u.x = v.x + 1 ∨ u.x = v.x - 1) → u.y = v.y → u.z = v.z →
      |height p s v - height p s u| ≤ s.scale := by
    intro u v hx hy hz
    have b := abs_le.1 hp
    have k1 := mul_le_mul_of_nonneg_right b.2 hs.le
    have k2 := mul_le_mul_of_nonneg_right b.1 hs.le
    unfold height
    rw [hy, hz, abs_le]
    rcases hx with hx | hx <;> rw [hx] <;> push_cast <;> constructor <;> linarith
  intro v hv hsf
  simp only [onGrid, half, List.mem_map, List.mem_filter] at hv
  obtain ⟨w, ⟨hw, hside⟩, rfl⟩ := hv
  simp only [Bool.or_eq_false_iff, decide_eq_false_iff_not, not_le] at hsf
  obtain ⟨⟨r, r0, r1, r2, r3⟩, l, l0, l1, l2, l3⟩ := hc w hw hsf.1
  constructor
  · refine ⟨{ r with surf := r.surf || decide (|height p s r| ≤ s.scale) }, ?_, r1, r2, r3⟩
    simp only [onGrid, half, List.mem_map, List.mem_filter]
    refine ⟨r, ⟨r0, ?_⟩, rfl⟩
    rw [near r w (dist r w (.inl r1) r2 r3) hsf.2]; exact hside
  · refine ⟨{ l with surf := l.surf || decide (|height p s l| ≤ s.scale) }, ?_, l1, l2, l3⟩
    simp only [onGrid, half, List.mem_map, List.mem_filter]
    refine ⟨l, ⟨l0, ?_⟩, rfl⟩
    rw [near l w (dist l w (.inr l1) l2 l3) hsf.2]; exact hside

theorem cuts_closed {e : Env K} {v0 : VSet K} (hp : ∀ t v p, e.plane t v = some p → |p.a| ≤ 1) (hs : 0 < v0.scale)
    (hc : Closed v0) {n : ℕ} {v : VSet K} (h : Cuts e v0 n v) :
    Closed v ∧ v.scale = v0.scale ∧ v.ox = v0.ox ∧ v.oy = v0.oy ∧ v.oz = v0.oz := by
  induction h with
  | start => exact ⟨hc, rfl, rfl, rfl, rfl⟩
  | cut p up _ _ _ hpl ih =>
    obtain ⟨a, b, c, d, f⟩ := ih
    obtain ⟨t, ht⟩ := hpl
    exact ⟨C176_cut p _ up (b ▸ hs) (hp _ _ _ ht) a, b, c, d, f⟩

theorem mem_sum_places {l : List ℕ} {f : ℕ → Multiset (ℤ × ℤ × ℤ)} {c : ℤ × ℤ × ℤ} (h : c ∈ (l.map f).sum) :
    ∃ j ∈ l, c ∈ f j := by
  induction l with
  | nil => simp at h
  | cons a l ih =>
    rw [List.map_cons, List.sum_cons, Multiset.mem_add] at h
    rcases h with h | h
    · exact ⟨a, by simp, h⟩
    · obtain ⟨j, hj, hc⟩ := ih h
      exact ⟨j, by simp [hj], hc⟩

/-- C176, part 4.  Whatever planes the search picks among those across the axes, the hulls of the parts that are returned
cover the voxels of the model: the box of each of them lies in the hull of one of the parts. -/
theorem C176_decomposition (ch : List (V3 K) → List (V3 K)) (hch : IsHull ch) (e : Env K) (d : ℕ) (h : Heap K) (i : ℕ)
    (hv : h.Valid) (hi : i ∈ h.live) (hst : Sticky e.cancel) (hE : ∀ v : VSet K, v.voxels = [] → e.hullVol v = 0)
    (hF : ∀ v : VSet K, v.voxels ≠ [] → ∀ t, ∃ p, e.plane t v = some p) (hC : Counted (h.val i))
    (hr : (computeACD e d h [] (some i)).ran = true) (hp : ∀ t v p, e.plane t v = some p → |p.a| ≤ 1)
    (hs : 0 < (h.val i).scale) (hc : Closed (h.val i)) (v : Decompose.Voxel) (hvm : v ∈ (h.val i).voxels) :
    let o := computeACD e d h [] (some i)
    ∃ j ∈ o.hulls, ∃ ps, partHull ch 1 (o.h.val j) [] = some ps ∧ ∀ y, InBox (h.val i) v y → InHull ps y := by
  intro o
  obtain ⟨a1, _, _, a4⟩ := Decompose.C168_parts e d h i hv hi hst hE hF hC hr
  have hm : v.pos ∈ places (h.val i) := by
    unfold places
    rw [Multiset.mem_coe]
    exact List.mem_map_of_mem hvm
  rw [← a1] at hm
  obtain ⟨j, hj, hm⟩ := mem_sum_places hm
  obtain ⟨n, _, hcut, _⟩ := a4 j hj
  obtain ⟨b1, b2, b3, b4, b5⟩ := cuts_closed hp hs hc hcut
  unfold places at hm
  rw [Multiset.mem_coe] at hm
  obtain ⟨w, hw, hwv⟩ := List.mem_map.1 hm
  obtain ⟨ps, c1, c2⟩ := C176_voxels ch hch (o.h.val j) [] (b2 ▸ hs) (List.ne_nil_of_mem hw) b1
  refine ⟨j, hj, ps, c1, fun y hy => c2 w hw y ?_⟩
  simp only [Decompose.Voxel.pos, Prod.mk.injEq] at hwv
  obtain ⟨x1, x2, x3⟩ := hwv
  unfold InBox at hy ⊢
  rw [b2, b3, b4, b5, x1, x2, x3]
  exact hy

/-! ### From the mesh -/

theorem mem_convert {g : Grid K} {v : Decompose.Voxel} : v ∈ (convert g).voxels ↔
    Inside3 g.vol.d0 g.vol.d1 g.vol.d2 (v.x, v.y, v.z) ∧
      ((get false g.vol (v.x, v.y, v.z) = some Val.ins ∧ v.surf = false) ∨
        (get false g.vol (v.x, v.y, v.z) = some Val.on ∧ v.surf = true)) := by
  unfold convert Inside3
  simp only [List.mem_filterMap, Voxel.mem_cells]
  constructor
  · rintro ⟨⟨i, j, k⟩, hc, h⟩
    generalize hg : get false g.vol (i, j, k) = o at h
    match o, h with
    | some .ins, h => cases h; exact ⟨hc, .inl ⟨hg, rfl⟩⟩
    | some .on, h => cases h; exact ⟨hc, .inr ⟨hg, rfl⟩⟩
  · rintro ⟨hc, h⟩
    refine ⟨(v.x, v.y, v.z), hc, ?_⟩
    obtain ⟨x, y, z, b⟩ := v
    rcases h with ⟨h, hb⟩ | ⟨h, hb⟩
    · simp only at h hb; simp [h, hb]
    · simp only at h hb; simp [h, hb]

theorem nodup_ival (a b : ℤ) : (Voxel.ival a b).Nodup := by
  unfold Voxel.ival
  refine List.Nodup.map ?_ List.nodup_range
  intro x y h
  simpa using h

theorem nodup_cells (i0 j0 k0 i1 j1 k1 : ℤ) : (cells i0 j0 k0 i1 j1 k1).Nodup := by
  unfold cells
  rw [List.nodup_flatMap]
  refine ⟨fun i _ => ?_, (nodup_ival i0 i1).imp fun {i i'} hne => ?_⟩
  · rw [List.nodup_flatMap]
    refine ⟨fun j _ => ?_, (nodup_ival j0 j1).imp fun {j j'} hne => ?_⟩
    · refine List.Nodup.map ?_ (nodup_ival k0 k1)
      intro x y h
      simpa using h
    · intro c h1 h2
      obtain ⟨k, _, rfl⟩ := List.mem_map.1 h1
      obtain ⟨k', _, h⟩ := List.mem_map.1 h2
      simp only [Prod.mk.injEq] at h
      exact hne h.2.1.symm
  · intro c h1 h2
    obtain ⟨j, _, h1⟩ := List.mem_flatMap.1 h1
    obtain ⟨j', _, h2⟩ := List.mem_flatMap.1 h2
    obtain ⟨k, _, rfl⟩ := List.mem_map.1 h1
    obtain ⟨k', _, h⟩ := List.mem_map.1 h2
    simp only [Prod.mk.injEq] at h
    exact hne h.1.symm

/-- C176, part 5.  The set of voxels made from a grid has the voxels on and inside the surface, each once, and nothing else;
its counters are right, and its voxels lie where the grid has them. -/
theorem C176_convert (g : Grid K) : Counted (convert g) ∧ (places (convert g)).Nodup ∧
    (∀ c, c ∈ places (convert g) ↔ Inside3 g.vol.d0 g.vol.d1 g.vol.d2 c ∧
      (get false g.vol c = some Val.ins ∨ get false g.vol c = some Val.on)) ∧
    ∀ v ∈ (convert g).voxels, (v.surf = true ↔ get false g.vol v.pos = some Val.on) ∧
      ∀ y, InBox (convert g) v y ↔ Covers g v.pos y := by
  refine ⟨⟨rfl, rfl⟩, ?_, ?_, ?_⟩
  · unfold places
    rw [Multiset.coe_nodup]
    unfold convert
    simp only
    rw [List.map_filterMap]
    refine List.Nodup.filterMap ?_ ?_
    · rintro ⟨a1, a2, a3⟩ ⟨b1, b2, b3⟩ c ha hb
      have key : ∀ (q c : Cell), (Option.map Decompose.Voxel.pos (match get false g.vol q with
        | some Val.ins => some (⟨q.1, q.2.1, q.2.2, false⟩ : Decompose.Voxel)
        | some Val.on => some ⟨q.1, q.2.1, q.2.2, true⟩
        | _ => none)) = some c → q = c := by
        intro q c hq
        generalize get false g.vol q = o at hq
        match o, hq with
        | some .ins, hq => simpa [Decompose.Voxel.pos] using hq
        | some .on, hq => simpa [Decompose.Voxel.pos] using hq
      exact (key _ _ ha).trans (key _ _ hb).symm
    · exact nodup_cells _ _ _ _ _ _
  · intro c
    unfold places
    rw [Multiset.mem_coe, List.mem_map]
    constructor
    · rintro ⟨v, hv, rfl⟩
      obtain ⟨a, b⟩ := mem_convert.1 hv
      exact ⟨a, b.imp And.left And.left⟩
    · rintro ⟨a, b | b⟩
      · exact ⟨⟨c.1, c.2.1, c.2.2, false⟩, mem_convert.2 ⟨a, .inl ⟨b, rfl⟩⟩, rfl⟩
      · exact ⟨⟨c.1, c.2.1, c.2.2, true⟩, mem_convert.2 ⟨a, .inr ⟨b, rfl⟩⟩, rfl⟩
  · intro v hv
    obtain ⟨a, b⟩ := mem_convert.1 hv
    refine ⟨?_, fun y => Iff.rfl⟩
    unfold Decompose.Voxel.pos
    rcases b with ⟨b, c⟩ | ⟨b, c⟩ <;> simp [b, c]

section mesh

variable [FloorRing K]

theorem convert_closed {dbg : Bool} {ps : List (V3 K)} {tris : List (ℕ × ℕ × ℕ)} {dim : ℕ} {g : Grid K}
    (hv : Voxel.Valid ps tris) (h : voxelize dbg ps tris dim = some (some g)) (hs0 : g.vol.d0 ≤ 32767)
    (hs1 : g.vol.d1 ≤ 32767) (hs2 : g.vol.d2 ≤ 32767) : Closed (convert g) := by
  obtain ⟨A, -, B⟩ := Voxel.C167_classes dbg ps tris dim g hv h hs0 hs1 hs2
  intro v hvm hsf
  obtain ⟨hin, hval⟩ := mem_convert.1 hvm
  have hins : get false g.vol (v.x, v.y, v.z) = some Val.ins := by
    rcases hval with hval | hval
    · exact hval.1
    · rw [hval.2] at hsf; cases hsf
  obtain ⟨nb, adj⟩ := B _ hin hins
  unfold Border at nb
  unfold Inside3 at hin
  simp only [not_or] at nb hin
  have go : ∀ x, |x - v.x| = 1 → ∃ u ∈ (convert g).voxels, u.x = x ∧ u.y = v.y ∧ u.z = v.z := by
    intro x hx
    have hq : Inside3 g.vol.d0 g.vol.d1 g.vol.d2 (x, v.y, v.z) := by
      refine ⟨?_, hin.2⟩
      simp only
      rcases (abs_eq (by norm_num)).1 hx with hx | hx <;> omega
    have no := adj (x, v.y, v.z) hq (by unfold Adj; simp [hx])
    rcases (A _ hq).2 with t | t | t
    · exact ⟨⟨x, v.y, v.z, true⟩, mem_convert.2 ⟨hq, .inr ⟨t, rfl⟩⟩, rfl, rfl, rfl⟩
    · exact absurd t no
    · exact ⟨⟨x, v.y, v.z, false⟩, mem_convert.2 ⟨hq, .inl ⟨t, rfl⟩⟩, rfl, rfl, rfl⟩
  exact ⟨go (v.x + 1) (by simp), go (v.x - 1) (by simp)⟩

/-- C176, part 6.  From the mesh to the result: when a mesh has been turned into voxels and the voxels into parts, every point
of every triangle of the mesh lies in the hull of one of the parts, and so does every point of every voxel inside of it. -/
theorem C176_cover (ch : List (V3 K) → List (V3 K)) (hch : IsHull ch) (dbg : Bool) (ps : List (V3 K))
    (tris : List (ℕ × ℕ × ℕ)) (dim : ℕ) (g : Grid K) (hm : Voxel.Valid ps tris)
    (hg : voxelize dbg ps tris dim = some (some g)) (hs0 : g.vol.d0 ≤ 32767) (hs1 : g.vol.d1 ≤ 32767)
    (hs2 : g.vol.d2 ≤ 32767) (e : Env K) (d : ℕ) (h : Heap K) (i : ℕ) (hv : h.Valid) (hi : i ∈ h.live)
    (hst : Sticky e.cancel) (hE : ∀ v : VSet K, v.voxels = [] → e.hullVol v = 0)
    (hF : ∀ v : VSet K, v.voxels ≠ [] → ∀ t, ∃ p, e.plane t v = some p) (hval : h.val i = convert g)
    (hr : (computeACD e d h [] (some i)).ran = true) (hp : ∀ t v p, e.plane t v = some p → |p.a| ≤ 1) (y : V3 K)
    (hy : (∃ a b c, IsTriangle ps tris a b c ∧ OnTriangle a b c y) ∨
      ∃ q, Inside3 g.vol.d0 g.vol.d1 g.vol.d2 q ∧ get false g.vol q = some Val.ins ∧ Covers g q y) :
    let o := computeACD e d h [] (some i)
    ∃ j ∈ o.hulls, ∃ hull, partHull ch 1 (o.h.val j) [] = some hull ∧ InHull hull y := by
  intro o
  have R := Voxel.voxelize_some hm hg hs0 hs1 hs2
  obtain ⟨v, hvm, hbox⟩ : ∃ v ∈ (convert g).voxels, InBox (convert g) v y := by
    rcases hy with ⟨a, b, c, ht, hy⟩ | ⟨q, hq, hins, hcov⟩
    · obtain ⟨⟨q, hq, hcov⟩, all⟩ := Voxel.C167_surface dbg ps tris dim g hm hg hs0 hs1 hs2 a b c y ht hy
      exact ⟨⟨q.1, q.2.1, q.2.2, true⟩, mem_convert.2 ⟨hq, .inr ⟨all q hq hcov, rfl⟩⟩, hcov⟩
    · exact ⟨⟨q.1, q.2.1, q.2.2, false⟩, mem_convert.2 ⟨hq, .inl ⟨hins, rfl⟩⟩, hcov⟩
  obtain ⟨j, hj, hull, e1, e2⟩ := C176_decomposition ch hch e d h i hv hi hst hE hF (hval ▸ (C176_convert g).1) hr hp
    (by rw [hval]; exact R.sc) (by rw [hval]; exact convert_closed hm hg hs0 hs1 hs2) v (by rw [hval]; exact hvm)
  exact ⟨j, hj, hull, e1, e2 y (by rw [hval]; exact hbox)⟩

end mesh

/-! ### Examples -/

/-- a bar of four voxels, the inner two not on the surface -/
def bar : VSet ℚ := ⟨[⟨0, 0, 0, true⟩, ⟨1, 0, 0, false⟩, ⟨2, 0, 0, false⟩, ⟨3, 0, 0, true⟩], 5, 6, 7, 2, 8, 2, 2⟩

theorem isHull_id : IsHull (id : List (V3 ℚ) → List (V3 ℚ)) := fun ps => ⟨fun p hp => .point hp, fun p hp => .point hp⟩

theorem bar_closed : Closed bar := by unfold Closed bar; decide +kernel

/-- the hypotheses of parts 1 to 3 hold for it -/
example : IsHull (id : List (V3 ℚ) → List (V3 ℚ)) ∧ 0 < bar.scale ∧ bar.voxels ≠ [] ∧ Closed bar ∧
    |(⟨1, 0, 0, -9⟩ : Plane ℚ).a| ≤ 1 :=
  ⟨isHull_id, by decide +kernel, by decide +kernel, bar_closed, by norm_num⟩

/-- its hull has 16 points, one cut leaves two voxels on each side, and a sampling of two takes one voxel -/
example : ((partHull id 1 bar []).map List.length = some 16) ∧ ((partHull id 2 bar []).map List.length = some 8) ∧
    partHull id 0 bar [] = some [] ∧ half (⟨1, 0, 0, -8⟩ : Plane ℚ) bar true = [⟨2, 0, 0, true⟩, ⟨3, 0, 0, true⟩] ∧
    half (⟨1, 0, 0, -8⟩ : Plane ℚ) bar false = [⟨0, 0, 0, true⟩, ⟨1, 0, 0, true⟩] := by
  refine ⟨?_, ?_, ?_, ?_, ?_⟩ <;> decide +kernel

/-- the hypotheses of part 4 hold for the example of the decomposition, with its two parts -/
example : let e := Decompose.exEnv fun _ => false
    (∀ t v p, e.plane t v = some p → |p.a| ≤ 1) ∧ 0 < (Decompose.exHeap.val 1).scale ∧ Closed (Decompose.exHeap.val 1) ∧
      (computeACD e 3 Decompose.exHeap [] (some 1)).ran = true := by
  refine ⟨?_, by decide +kernel, ?_, by decide +kernel⟩
  · intro t v p h
    simp only [Decompose.exEnv, Option.some.injEq] at h
    subst h
    norm_num
  · unfold Closed; decide +kernel

/-- a run of the decomposition without cuts on the voxels of a tetrahedron -/
example : ∃ (g : Grid ℚ) (e : Env ℚ) (h : Heap ℚ), voxelize true Voxel.tetra Voxel.tetraTris 5 = some (some g) ∧
    g.vol.d0 ≤ 32767 ∧ g.vol.d1 ≤ 32767 ∧ g.vol.d2 ≤ 32767 ∧ h.Valid ∧ 0 ∈ h.live ∧ Sticky e.cancel ∧
    (∀ v : VSet ℚ, v.voxels = [] → e.hullVol v = 0) ∧ (∀ v : VSet ℚ, v.voxels ≠ [] → ∀ t, ∃ p, e.plane t v = some p) ∧
    h.val 0 = convert g ∧ (computeACD e 2 h [] (some 0)).ran = true ∧ ∀ t v p, e.plane t v = some p → |p.a| ≤ 1 := by
  obtain ⟨g, h, g0, g1, g2, -⟩ := Voxel.voxelize_run (dbg := true) (p := (⟨0, 0, 0⟩ : V3 ℚ))
    (rest := [⟨4, 0, 0⟩, ⟨0, 3, 0⟩, ⟨0, 0, 2⟩]) (tris := Voxel.tetraTris) (dim := 5) (r := 4) (x := 5) (y := 5)
    (z := 4) (by norm_num) (by decide +kernel) (by norm_num) (by norm_num) (by norm_num) (by norm_num)
    (by decide +kernel)
  refine ⟨g, ⟨fun _ => false, fun _ => 0, fun _ _ => some ⟨1, 0, 0, 0⟩, 1 / 1000, true, 101 / 100⟩,
    ⟨1, [0], fun _ => convert g, true⟩, h, by omega, by omega, by omega, ?_, by simp, fun m n _ h => h, fun _ _ => rfl,
    fun _ _ _ => ⟨_, rfl⟩, rfl, ?_, ?_⟩
  · exact ⟨rfl, by simp, by simp⟩
  · simp [computeACD, Decompose.levels, Decompose.level, Decompose.body, Decompose.needSplit, Decompose.finish,
      Decompose.hullLoop]
  · intro t v p h
    simp only [Option.some.injEq] at h
    subst h
    norm_num

end Verif.PartHull
