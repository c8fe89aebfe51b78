import Verif.Props.TetConserve
import Mathlib.Data.Rat.Floor

set_option linter.unusedSectionVars false
set_option linter.unusedVariables false

/-!
# C173: the volume of the parts
-/

namespace Verif.TetClip

open Verif.Voxel Verif.MeshVol

variable {K : Type*} [Field K] [LinearOrder K] [IsStrictOrderedRing K] [FloorRing K]

/-! ### Specification -/

/-- On every edge of `t` that the plane cuts, the cut is not nearer to an end than the part `τ` of the
length of the edge. -/
def Clear (p : Plane K) (τ : K) (t : Tet K) : Prop :=
  ∀ a ∈ corners t, ∀ b ∈ corners t, 0 < p.eval a → p.eval b ≤ 0 →
    τ * (p.eval a - p.eval b) ≤ p.eval a ∧ τ * (p.eval a - p.eval b) ≤ -p.eval b

/-! ### Coordinates -/

/-- The point with coordinates `q` in the frame at `o` with the axes to `a`, `b`, `c`. -/
def frame (o a b c q : V3 K) : V3 K :=
  ⟨o.x + q.x * (a.x - o.x) + q.y * (b.x - o.x) + q.z * (c.x - o.x),
   o.y + q.x * (a.y - o.y) + q.y * (b.y - o.y) + q.z * (c.y - o.y),
   o.z + q.x * (a.z - o.z) + q.y * (b.z - o.z) + q.z * (c.z - o.z)⟩

theorem det_shift (a b c d o : V3 K) : det a b c d =
    det ⟨a.x - o.x, a.y - o.y, a.z - o.z⟩ ⟨b.x - o.x, b.y - o.y, b.z - o.z⟩ ⟨c.x - o.x, c.y - o.y, c.z - o.z⟩
      ⟨d.x - o.x, d.y - o.y, d.z - o.z⟩ := by
  simp only [det, sub_sub_sub_cancel_right]

theorem frame_det (o a b c : V3 K) (q1 q2 q3 q4 : V3 K) :
    vol4 (frame o a b c q1) (frame o a b c q2) (frame o a b c q3) (frame o a b c q4) =
      det q1 q2 q3 q4 * det a b c o := by
  rw [vol4_det]
  simp only [det, frame]
  ring

/-- How far from `a` the plane cuts the edge to `b`. -/
def frac (p : Plane K) (a b : V3 K) : K := |p.eval a| / (|p.eval a| + |p.eval b|)

/-- The two ends are on different sides, and the cut is clear of both. -/
def Opp (p : Plane K) (τ : K) (a b : V3 K) : Prop :=
  up p a ≠ up p b ∧ 0 < |p.eval a| ∧ 0 < |p.eval b| ∧ τ ≤ frac p a b ∧ τ ≤ frac p b a

theorem Opp.symm {p : Plane K} {τ : K} {a b : V3 K} (h : Opp p τ a b) : Opp p τ b a :=
  ⟨h.1.symm, h.2.2.1, h.2.1, h.2.2.2.2, h.2.2.2.1⟩

theorem meet_frac {p : Plane K} {a b : V3 K} (h : up p a ≠ up p b) : meet p a b = along a b (frac p a b) := by
  unfold meet frac
  congr 1
  by_cases ha : 0 < p.eval a
  · by_cases hb : 0 < p.eval b
    · simp [up, ha, hb] at h
    · rw [abs_of_pos ha, abs_of_nonpos (not_lt.1 hb), sub_eq_add_neg]
  · by_cases hb : 0 < p.eval b
    · rw [abs_of_pos hb, abs_of_nonpos (not_lt.1 ha), ← neg_sub, ← neg_div_neg_eq, neg_neg]
      congr 1; ring
    · simp [up, ha, hb] at h

theorem frac_add {p : Plane K} {a b : V3 K} (ha : 0 < |p.eval a|) (hb : 0 < |p.eval b|) :
    frac p a b = 1 - frac p b a := by
  unfold frac
  have : |p.eval a| + |p.eval b| ≠ 0 := by positivity
  have : |p.eval b| + |p.eval a| ≠ 0 := by positivity
  field_simp
  ring

theorem meet_comm {p : Plane K} {a b : V3 K} (h : up p a ≠ up p b) : meet p a b = meet p b a := by
  obtain ⟨hd, -⟩ := ratio h
  have hd' : p.eval b - p.eval a ≠ 0 := by intro h; apply hd; linarith
  simp only [meet, along, V3.mk.injEq]
  refine ⟨?_, ?_, ?_⟩ <;> field_simp <;> ring

/-! ### The parts of one tetrahedron -/

/-- The sum of the volumes, six times. -/
def total (ts : List (Tet K)) : K := (ts.map fun u => |vol u|).sum

theorem corner_sum {e : Env K} (he : e.Ok) (T : TSet K) {p : Plane K} {τ : K} (hτ : 0 < τ) {o a b c : V3 K}
    (oa : Opp p τ o a) (ob : Opp p τ o b) (oc : Opp p τ o c) (hV : det a b c o ≠ 0)
    (hε : e.eps ≤ τ * τ * τ * |det a b c o|)
    (hb : ∀ q ∈ [o, meet p o a, meet p o b, meet p o c], InBB e q) :
    ∃ new, addClipped e T [o, meet p o a, meet p o b, meet p o c] = some (T.more new) ∧
      total new = frac p o a * frac p o b * frac p o c * |det a b c o| := by
  have hVp : 0 < |det a b c o| := abs_pos.2 hV
  have le1 : ∀ {x y : V3 K}, Opp p τ x y → frac p x y ≤ 1 := by
    intro x y h
    have := frac_add h.2.1 h.2.2.1
    have := h.2.2.2.2
    linarith
  have pos : ∀ {x y : V3 K}, Opp p τ x y → 0 < frac p x y := fun h => lt_of_lt_of_le hτ h.2.2.2.1
  have hv : |vol (⟨o, meet p o a, meet p o b, meet p o c, Val.on⟩ : Tet K)| =
      frac p o a * frac p o b * frac p o c * |det a b c o| := by
    have : vol (⟨o, meet p o a, meet p o b, meet p o c, Val.on⟩ : Tet K) =
        -(frac p o a * frac p o b * frac p o c) * det a b c o := by
      rw [meet_frac oa.1, meet_frac ob.1, meet_frac oc.1]
      simp only [vol, vol4_det, det, along]
      ring
    exact absN this (mul_pos (mul_pos (pos oa) (pos ob)) (pos oc))
  have hbig : e.eps ≤ frac p o a * frac p o b * frac p o c * |det a b c o| :=
    small_le hτ hVp hε ⟨oa.2.2.2.1, le1 oa⟩ ⟨ob.2.2.2.1, le1 ob⟩ ⟨oc.2.2.2.1, le1 oc⟩ rfl
  refine ⟨[orient ⟨o, meet p o a, meet p o b, meet p o c, Val.on⟩], ?_, ?_⟩
  · unfold addClipped
    rw [if_neg (by simp), if_pos (by simp)]
    have := add_eq he T (t := ⟨o, meet p o a, meet p o b, meet p o c, Val.on⟩) (by simpa [corners] using hb)
    rw [hv, if_neg (not_lt.2 hbig)] at this
    show (add e T ⟨o, meet p o a, meet p o b, meet p o c, Val.on⟩).map bump = _
    rw [this]
    simp [bump, TSet.more]
  · simp only [total, List.map_cons, List.map_nil, List.sum_cons, List.sum_nil, add_zero]
    rw [vol_orient, abs_abs, hv]

theorem six {e : Env K} {T : TSet K} {ps : List (V3 K)} (h : ps.length = 6) : addClipped e T ps = add6 e T ps := by
  unfold addClipped
  rw [if_neg (by omega), if_neg (by omega), if_neg (by omega), if_pos h]

theorem prism_sum {e : Env K} (he : e.Ok) (T : TSet K) {p : Plane K} {τ : K} (hτ : 0 < τ) {o a b c : V3 K}
    (oa : Opp p τ o a) (ob : Opp p τ o b) (oc : Opp p τ o c) (hV : det a b c o ≠ 0)
    (hε : e.eps ≤ τ * τ * τ * |det a b c o|)
    (hb : ∀ q ∈ [a, b, c, meet p o a, meet p o b, meet p o c], InBB e q) :
    ∃ new, addClipped e T [a, b, c, meet p o a, meet p o b, meet p o c] = some (T.more new) ∧
      total new = (1 - frac p o a * frac p o b * frac p o c) * |det a b c o| := by
  have k := prism he T (F := frame o a b c) (V := det a b c o) (frame_det o a b c) hV
    (frac_add oa.2.2.1 oa.2.1) (frac_add ob.2.2.1 ob.2.1) (frac_add oc.2.2.1 oc.2.1) hτ
    oa.2.2.2.2 oa.2.2.2.1 ob.2.2.2.2 ob.2.2.2.1 oc.2.2.2.2 oc.2.2.2.1 hε
  have e1 : frame o a b c ⟨1, 0, 0⟩ = a := by simp [frame]
  have e2 : frame o a b c ⟨0, 1, 0⟩ = b := by simp [frame]
  have e3 : frame o a b c ⟨0, 0, 1⟩ = c := by simp [frame]
  have e4 : frame o a b c ⟨frac p o a, 0, 0⟩ = meet p o a := by rw [meet_frac oa.1]; simp [frame, along]
  have e5 : frame o a b c ⟨0, frac p o b, 0⟩ = meet p o b := by rw [meet_frac ob.1]; simp [frame, along]
  have e6 : frame o a b c ⟨0, 0, frac p o c⟩ = meet p o c := by rw [meet_frac oc.1]; simp [frame, along]
  rw [e1, e2, e3, e4, e5, e6] at k
  rw [six rfl]
  exact k hb

theorem frac_order {p : Plane K} {P Q R S : V3 K} (hP : 0 < |p.eval P|) (hQ : 0 < |p.eval Q|) (hR : 0 < |p.eval R|)
    (hS : 0 < |p.eval S|) :
    (frac p P R ≤ frac p Q R ∧ frac p P S ≤ frac p Q S) ∨ (frac p Q R < frac p P R ∧ frac p Q S < frac p P S) := by
  unfold frac
  rcases le_or_gt |p.eval P| |p.eval Q| with h | h
  · left
    constructor
    · rw [div_le_div_iff₀ (by positivity) (by positivity)]
      have := mul_le_mul_of_nonneg_right h hR.le
      linarith
    · rw [div_le_div_iff₀ (by positivity) (by positivity)]
      have := mul_le_mul_of_nonneg_right h hS.le
      linarith
  · right
    constructor
    · rw [div_lt_div_iff₀ (by positivity) (by positivity)]
      have := mul_lt_mul_of_pos_right h hR
      linarith
    · rw [div_lt_div_iff₀ (by positivity) (by positivity)]
      have := mul_lt_mul_of_pos_right h hS
      linarith

theorem frac_plane {p : Plane K} {P Q R S : V3 K} (hP : 0 < |p.eval P|) (hQ : 0 < |p.eval Q|) (hR : 0 < |p.eval R|)
    (hS : 0 < |p.eval S|) :
    frac p P R * frac p Q S * frac p S P * frac p R Q = frac p P S * frac p Q R * frac p R P * frac p S Q := by
  unfold frac
  rw [add_comm |p.eval S| |p.eval P|, add_comm |p.eval R| |p.eval Q|, add_comm |p.eval R| |p.eval P|,
    add_comm |p.eval S| |p.eval Q|]
  have h1 : |p.eval P| + |p.eval R| ≠ 0 := by positivity
  have h2 : |p.eval P| + |p.eval S| ≠ 0 := by positivity
  have h3 : |p.eval Q| + |p.eval R| ≠ 0 := by positivity
  have h4 : |p.eval Q| + |p.eval S| ≠ 0 := by positivity
  field_simp

/-- What a wedge comes to. -/
def wedgeW (p : Plane K) (P Q R S : V3 K) : K :=
  frac p Q R * frac p Q S + frac p P R * frac p R Q * frac p Q S + frac p P R * frac p P S * frac p S Q

theorem wedge_points {p : Plane K} {P Q R S : V3 K} {τ : K} (PR : Opp p τ P R) (PS : Opp p τ P S) (QR : Opp p τ Q R)
    (QS : Opp p τ Q S) :
    frame P Q R S ⟨0, 0, 0⟩ = P ∧ frame P Q R S ⟨1, 0, 0⟩ = Q ∧ frame P Q R S ⟨0, frac p P R, 0⟩ = meet p P R ∧
      frame P Q R S ⟨0, 0, frac p P S⟩ = meet p P S ∧ frame P Q R S ⟨frac p R Q, frac p Q R, 0⟩ = meet p Q R ∧
      frame P Q R S ⟨frac p S Q, 0, frac p Q S⟩ = meet p Q S := by
  rw [meet_frac PR.1, meet_frac PS.1, meet_frac QR.1, meet_frac QS.1, frac_add QR.2.2.1 QR.2.1, frac_add QS.2.2.1 QS.2.1]
  refine ⟨by simp [frame], by simp [frame], by simp [frame, along], by simp [frame, along], ?_, ?_⟩
  · simp only [frame, along, V3.mk.injEq]; refine ⟨?_, ?_, ?_⟩ <;> ring
  · simp only [frame, along, V3.mk.injEq]; refine ⟨?_, ?_, ?_⟩ <;> ring

theorem wedge_sum {e : Env K} (he : e.Ok) (T : TSet K) {p : Plane K} {τ : K} (hτ : 0 < τ) {P Q R S : V3 K}
    (PR : Opp p τ P R) (PS : Opp p τ P S) (QR : Opp p τ Q R) (QS : Opp p τ Q S) (hV : det Q R S P ≠ 0)
    (hε : e.eps ≤ τ * τ * τ * |det Q R S P|)
    (hb : ∀ q ∈ [P, Q, meet p P R, meet p P S, meet p Q R, meet p Q S], InBB e q) :
    ∃ new, addClipped e T [P, Q, meet p P R, meet p P S, meet p Q R, meet p Q S] = some (T.more new) ∧
      total new = wedgeW p P Q R S * |det Q R S P| := by
  have k := wedge he T (F := frame P Q R S) (V := det Q R S P) (frame_det P Q R S) hV
    (frac_add PR.2.1 PR.2.2.1) (frac_add PS.2.1 PS.2.2.1) (frac_add QR.2.1 QR.2.2.1) (frac_add QS.2.1 QS.2.2.1) hτ
    PR.2.2.2.1 PR.2.2.2.2 PS.2.2.2.1 PS.2.2.2.2 QR.2.2.2.1 QR.2.2.2.2 QS.2.2.2.1 QS.2.2.2.2 hε
    (frac_plane PR.2.1 QR.2.1 PR.2.2.1 PS.2.2.1) (frac_order PR.2.1 QR.2.1 PR.2.2.1 PS.2.2.1)
  obtain ⟨e1, e2, e3, e4, e5, e6⟩ := wedge_points PR PS QR QS
  rw [e1, e2, e3, e4, e5, e6] at k
  rw [six rfl]
  exact k hb

theorem wedge_sum' {e : Env K} (he : e.Ok) (T : TSet K) {p : Plane K} {τ : K} (hτ : 0 < τ) {P Q R S : V3 K}
    (PR : Opp p τ P R) (PS : Opp p τ P S) (QR : Opp p τ Q R) (QS : Opp p τ Q S) (hV : det Q R S P ≠ 0)
    (hε : e.eps ≤ τ * τ * τ * |det Q R S P|)
    (hb : ∀ q ∈ [P, Q, meet p P R, meet p Q R, meet p P S, meet p Q S], InBB e q) :
    ∃ new, addClipped e T [P, Q, meet p P R, meet p Q R, meet p P S, meet p Q S] = some (T.more new) ∧
      total new = wedgeW p P Q R S * |det Q R S P| := by
  have k := wedge' he T (F := frame P Q R S) (V := det Q R S P) (frame_det P Q R S) hV
    (frac_add PR.2.1 PR.2.2.1) (frac_add PS.2.1 PS.2.2.1) (frac_add QR.2.1 QR.2.2.1) (frac_add QS.2.1 QS.2.2.1) hτ
    PR.2.2.2.1 PR.2.2.2.2 PS.2.2.2.1 PS.2.2.2.2 QR.2.2.2.1 QR.2.2.2.2 QS.2.2.2.1 QS.2.2.2.2 hε
    (frac_plane PR.2.1 QR.2.1 PR.2.2.1 PS.2.2.1) (frac_order PR.2.1 QR.2.1 PR.2.2.1 PS.2.2.1)
  obtain ⟨e1, e2, e3, e4, e5, e6⟩ := wedge_points PR PS QR QS
  rw [e1, e2, e3, e4, e5, e6] at k
  rw [six rfl]
  exact k hb

/-- What both parts come to, whatever they are put into. -/
def Split (e : Env K) (A B : List (V3 K)) (v : K) : Prop :=
  ∀ T1 T2 : TSet K, ∃ n1 n2, addClipped e T1 A = some (T1.more n1) ∧ addClipped e T2 B = some (T2.more n2) ∧
    total n1 + total n2 = v

theorem Split.symm {e : Env K} {A B : List (V3 K)} {v : K} (h : Split e A B v) : Split e B A v := by
  intro T1 T2
  obtain ⟨n1, n2, h1, h2, h3⟩ := h T2 T1
  exact ⟨n2, n1, h2, h1, by rw [add_comm]; exact h3⟩

theorem split13 {e : Env K} (he : e.Ok) {p : Plane K} {τ : K} (hτ : 0 < τ) {o a b c : V3 K} {v : K}
    (oa : Opp p τ o a) (ob : Opp p τ o b) (oc : Opp p τ o c) (hv : |det a b c o| = v) (hV : 0 < v)
    (hε : e.eps ≤ τ * τ * τ * v) (ho : InBB e o) (ha : InBB e a) (hb : InBB e b) (hc : InBB e c) :
    Split e [o, meet p o a, meet p o b, meet p o c] [a, b, c, meet p o a, meet p o b, meet p o c] v := by
  subst hv
  have bb : ∀ {x y : V3 K}, Opp p τ x y → InBB e x → InBB e y → InBB e (meet p x y) := by
    intro x y h hx hy
    obtain ⟨-, r0, r1⟩ := ratio h.1
    exact along_bb hx hy r0 r1
  have ma := bb oa ho ha
  have mb := bb ob ho hb
  have mc := bb oc ho hc
  intro T1 T2
  obtain ⟨n1, h1, s1⟩ := corner_sum he T1 hτ oa ob oc (abs_pos.1 hV) hε (by simp [ho, ma, mb, mc])
  obtain ⟨n2, h2, s2⟩ := prism_sum he T2 hτ oa ob oc (abs_pos.1 hV) hε (by simp [ha, hb, hc, ma, mb, mc])
  exact ⟨n1, n2, h1, h2, by rw [s1, s2]; ring⟩

theorem split22 {e : Env K} (he : e.Ok) {p : Plane K} {τ : K} (hτ : 0 < τ) {P Q R S : V3 K} {v : K}
    (PR : Opp p τ P R) (PS : Opp p τ P S) (QR : Opp p τ Q R) (QS : Opp p τ Q S)
    (hv : |det Q R S P| = v) (hV : 0 < v) (hε : e.eps ≤ τ * τ * τ * v)
    (bP : InBB e P) (bQ : InBB e Q) (bR : InBB e R) (bS : InBB e S) :
    Split e [P, Q, meet p P R, meet p P S, meet p Q R, meet p Q S] [R, S, meet p P R, meet p P S, meet p Q R, meet p Q S] v := by
  have bb : ∀ {x y : V3 K}, Opp p τ x y → InBB e x → InBB e y → InBB e (meet p x y) := by
    intro x y h hx hy
    obtain ⟨-, r0, r1⟩ := ratio h.1
    exact along_bb hx hy r0 r1
  have m1 := bb PR bP bR
  have m2 := bb PS bP bS
  have m3 := bb QR bQ bR
  have m4 := bb QS bQ bS
  have hv' : |det S P Q R| = v := by
    rw [← hv, show det S P Q R = det Q R S P by simp only [det]; ring]
  intro T1 T2
  obtain ⟨n1, h1, s1⟩ := wedge_sum he T1 hτ PR PS QR QS (abs_pos.1 (hv ▸ hV)) (hv ▸ hε) (by simp [bP, bQ, m1, m2, m3, m4])
  have k := wedge_sum' he T2 hτ PR.symm QR.symm PS.symm QS.symm (abs_pos.1 (hv' ▸ hV)) (hv' ▸ hε)
  rw [← meet_comm PR.1, ← meet_comm PS.1, ← meet_comm QR.1, ← meet_comm QS.1] at k
  obtain ⟨n2, h2, s2⟩ := k (by simp [bR, bS, m1, m2, m3, m4])
  refine ⟨n1, n2, h1, h2, ?_⟩
  rw [s1, s2, hv, hv', ← add_mul]
  have : wedgeW p P Q R S + wedgeW p R S P Q = 1 := by
    unfold wedgeW
    rw [frac_add PR.2.2.1 PR.2.1, frac_add PS.2.2.1 PS.2.1, frac_add QR.2.2.1 QR.2.1, frac_add QS.2.2.1 QS.2.1]
    ring
  rw [this, one_mul]

theorem opp_of {p : Plane K} {τ : K} (hτ : 0 < τ) {t : Tet K} (hc : Clear p τ t) {a b : V3 K} (ha : a ∈ corners t)
    (hb : b ∈ corners t) (h : up p a ≠ up p b) : Opp p τ a b := by
  have key : ∀ {a b : V3 K}, a ∈ corners t → b ∈ corners t → 0 < p.eval a → p.eval b ≤ 0 → Opp p τ a b := by
    intro a b ha hb pa pb
    obtain ⟨h1, h2⟩ := hc a ha b hb pa pb
    have hs : 0 < p.eval a - p.eval b := by linarith
    have hpb : p.eval b < 0 := by
      have := mul_pos hτ hs
      linarith
    have hup : up p a ≠ up p b := by
      rw [up_iff.2 pa]
      intro h
      have := up_iff.1 h.symm
      linarith
    refine ⟨hup, abs_pos.2 pa.ne', abs_pos.2 hpb.ne, ?_, ?_⟩
    · unfold frac
      rw [abs_of_pos pa, abs_of_neg hpb, le_div_iff₀ (by linarith)]
      linarith
    · unfold frac
      rw [abs_of_pos pa, abs_of_neg hpb, le_div_iff₀ (by linarith)]
      linarith
  by_cases pa : 0 < p.eval a
  · by_cases pb : 0 < p.eval b
    · simp [up, pa, pb] at h
    · exact key ha hb pa (not_lt.1 pb)
  · by_cases pb : 0 < p.eval b
    · exact (key hb ha pb (not_lt.1 pa)).symm
    · simp [up, pa, pb] at h

/-- Together the pieces of a cut tetrahedron have its volume. -/
theorem cut_split {e : Env K} (he : e.Ok) {p : Plane K} {τ : K} (hτ : 0 < τ) {t : Tet K} (hc : Clear p τ t)
    (hε : e.eps ≤ τ * τ * τ * |vol t|) (ht : ∀ c ∈ corners t, InBB e c)
    (h1 : ((corners t).filter fun v => up p v).length ≠ 4) (h2 : ((corners t).filter fun v => !up p v).length ≠ 4) :
    Split e
      ((corners t).filter (fun v => !up p v) ++ ((tetEdges t).filter fun s => up p s.1 != up p s.2).map fun s => meet p s.1 s.2)
      ((corners t).filter (fun v => up p v) ++ ((tetEdges t).filter fun s => up p s.1 != up p s.2).map fun s => meet p s.1 s.2)
      |vol t| := by
  have hV : 0 < |vol t| := by
    rcases (abs_nonneg (vol t)).lt_or_eq with h | h
    · exact h
    · rw [← h, mul_zero] at hε
      exact absurd he.1 (not_lt.2 hε)
  have c0 : t.p0 ∈ corners t := by simp [corners]
  have c1 : t.p1 ∈ corners t := by simp [corners]
  have c2 : t.p2 ∈ corners t := by simp [corners]
  have c3 : t.p3 ∈ corners t := by simp [corners]
  have b0 := ht _ c0
  have b1 := ht _ c1
  have b2 := ht _ c2
  have b3 := ht _ c3
  have O : ∀ {a b : V3 K}, a ∈ corners t → b ∈ corners t → up p a ≠ up p b → Opp p τ a b := fun ha hb => opp_of hτ hc ha hb
  have w0 : |det t.p1 t.p2 t.p3 t.p0| = |vol t| := by
    rw [← abs_neg (vol t)]; exact congrArg abs (by simp only [vol, vol4_det, det]; ring)
  have w1 : |det t.p0 t.p2 t.p3 t.p1| = |vol t| := congrArg abs (by simp only [vol, vol4_det, det]; ring)
  have w2 : |det t.p0 t.p1 t.p3 t.p2| = |vol t| := by
    rw [← abs_neg (vol t)]; exact congrArg abs (by simp only [vol, vol4_det, det]; ring)
  have w3 : |det t.p0 t.p1 t.p2 t.p3| = |vol t| := congrArg abs (by simp only [vol, vol4_det])
  have w02 : |det t.p2 t.p1 t.p3 t.p0| = |vol t| := congrArg abs (by simp only [vol, vol4_det, det]; ring)
  have w03 : |det t.p3 t.p1 t.p2 t.p0| = |vol t| := by
    rw [← abs_neg (vol t)]; exact congrArg abs (by simp only [vol, vol4_det, det]; ring)
  cases u0 : up p t.p0 <;> cases u1 : up p t.p1 <;> cases u2 : up p t.p2 <;> cases u3 : up p t.p3
  · exact absurd (by simp [corners, List.filter, u0, u1, u2, u3]) h2
  · have k := (split13 he hτ (O c3 c0 (by rw [u3, u0]; decide)) (O c3 c1 (by rw [u3, u1]; decide)) (O c3 c2 (by rw [u3, u2]; decide)) w3 hV hε b3 b0 b1 b2).symm
    rw [meet_comm (O c3 c0 (by rw [u3, u0]; decide)).1, meet_comm (O c3 c1 (by rw [u3, u1]; decide)).1, meet_comm (O c3 c2 (by rw [u3, u2]; decide)).1] at k
    simpa [corners, tetEdges, List.filter, u0, u1, u2, u3] using k
  · have k := (split13 he hτ (O c2 c0 (by rw [u2, u0]; decide)) (O c2 c1 (by rw [u2, u1]; decide)) (O c2 c3 (by rw [u2, u3]; decide)) w2 hV hε b2 b0 b1 b3).symm
    rw [meet_comm (O c2 c0 (by rw [u2, u0]; decide)).1, meet_comm (O c2 c1 (by rw [u2, u1]; decide)).1] at k
    simpa [corners, tetEdges, List.filter, u0, u1, u2, u3] using k
  · have k := (split22 he hτ (O c0 c2 (by rw [u0, u2]; decide)) (O c0 c3 (by rw [u0, u3]; decide)) (O c1 c2 (by rw [u1, u2]; decide)) (O c1 c3 (by rw [u1, u3]; decide)) w0 hV hε b0 b1 b2 b3)
    simpa [corners, tetEdges, List.filter, u0, u1, u2, u3] using k
  · have k := (split13 he hτ (O c1 c0 (by rw [u1, u0]; decide)) (O c1 c2 (by rw [u1, u2]; decide)) (O c1 c3 (by rw [u1, u3]; decide)) w1 hV hε b1 b0 b2 b3).symm
    rw [meet_comm (O c1 c0 (by rw [u1, u0]; decide)).1] at k
    simpa [corners, tetEdges, List.filter, u0, u1, u2, u3] using k
  · have k := (split22 he hτ (O c0 c1 (by rw [u0, u1]; decide)) (O c0 c3 (by rw [u0, u3]; decide)) (O c2 c1 (by rw [u2, u1]; decide)) (O c2 c3 (by rw [u2, u3]; decide)) w02 hV hε b0 b2 b1 b3)
    rw [meet_comm (O c2 c1 (by rw [u2, u1]; decide)).1] at k
    simpa [corners, tetEdges, List.filter, u0, u1, u2, u3] using k
  · have k := (split22 he hτ (O c0 c1 (by rw [u0, u1]; decide)) (O c0 c2 (by rw [u0, u2]; decide)) (O c3 c1 (by rw [u3, u1]; decide)) (O c3 c2 (by rw [u3, u2]; decide)) w03 hV hε b0 b3 b1 b2)
    rw [meet_comm (O c3 c1 (by rw [u3, u1]; decide)).1, meet_comm (O c3 c2 (by rw [u3, u2]; decide)).1] at k
    simpa [corners, tetEdges, List.filter, u0, u1, u2, u3] using k
  · have k := (split13 he hτ (O c0 c1 (by rw [u0, u1]; decide)) (O c0 c2 (by rw [u0, u2]; decide)) (O c0 c3 (by rw [u0, u3]; decide)) w0 hV hε b0 b1 b2 b3)
    simpa [corners, tetEdges, List.filter, u0, u1, u2, u3] using k
  · have k := (split13 he hτ (O c0 c1 (by rw [u0, u1]; decide)) (O c0 c2 (by rw [u0, u2]; decide)) (O c0 c3 (by rw [u0, u3]; decide)) w0 hV hε b0 b1 b2 b3).symm
    simpa [corners, tetEdges, List.filter, u0, u1, u2, u3] using k
  · have k := (split22 he hτ (O c0 c1 (by rw [u0, u1]; decide)) (O c0 c2 (by rw [u0, u2]; decide)) (O c3 c1 (by rw [u3, u1]; decide)) (O c3 c2 (by rw [u3, u2]; decide)) w03 hV hε b0 b3 b1 b2).symm
    rw [meet_comm (O c3 c1 (by rw [u3, u1]; decide)).1, meet_comm (O c3 c2 (by rw [u3, u2]; decide)).1] at k
    simpa [corners, tetEdges, List.filter, u0, u1, u2, u3] using k
  · have k := (split22 he hτ (O c0 c1 (by rw [u0, u1]; decide)) (O c0 c3 (by rw [u0, u3]; decide)) (O c2 c1 (by rw [u2, u1]; decide)) (O c2 c3 (by rw [u2, u3]; decide)) w02 hV hε b0 b2 b1 b3).symm
    rw [meet_comm (O c2 c1 (by rw [u2, u1]; decide)).1] at k
    simpa [corners, tetEdges, List.filter, u0, u1, u2, u3] using k
  · have k := (split13 he hτ (O c1 c0 (by rw [u1, u0]; decide)) (O c1 c2 (by rw [u1, u2]; decide)) (O c1 c3 (by rw [u1, u3]; decide)) w1 hV hε b1 b0 b2 b3)
    rw [meet_comm (O c1 c0 (by rw [u1, u0]; decide)).1] at k
    simpa [corners, tetEdges, List.filter, u0, u1, u2, u3] using k
  · have k := (split22 he hτ (O c0 c2 (by rw [u0, u2]; decide)) (O c0 c3 (by rw [u0, u3]; decide)) (O c1 c2 (by rw [u1, u2]; decide)) (O c1 c3 (by rw [u1, u3]; decide)) w0 hV hε b0 b1 b2 b3).symm
    simpa [corners, tetEdges, List.filter, u0, u1, u2, u3] using k
  · have k := (split13 he hτ (O c2 c0 (by rw [u2, u0]; decide)) (O c2 c1 (by rw [u2, u1]; decide)) (O c2 c3 (by rw [u2, u3]; decide)) w2 hV hε b2 b0 b1 b3)
    rw [meet_comm (O c2 c0 (by rw [u2, u0]; decide)).1, meet_comm (O c2 c1 (by rw [u2, u1]; decide)).1] at k
    simpa [corners, tetEdges, List.filter, u0, u1, u2, u3] using k
  · have k := (split13 he hτ (O c3 c0 (by rw [u3, u0]; decide)) (O c3 c1 (by rw [u3, u1]; decide)) (O c3 c2 (by rw [u3, u2]; decide)) w3 hV hε b3 b0 b1 b2)
    rw [meet_comm (O c3 c0 (by rw [u3, u0]; decide)).1, meet_comm (O c3 c1 (by rw [u3, u1]; decide)).1, meet_comm (O c3 c2 (by rw [u3, u2]; decide)).1] at k
    simpa [corners, tetEdges, List.filter, u0, u1, u2, u3] using k
  · exact absurd (by simp [corners, List.filter, u0, u1, u2, u3]) h1

theorem total_append (a b : List (Tet K)) : total (a ++ b) = total a + total b := by
  simp [total]

/-- One turn of the loop keeps the volume. -/
theorem clipTet_total {e : Env K} (he : e.Ok) {p : Plane K} (r : TSet K × TSet K) {τ : K} (hτ : 0 < τ) {t : Tet K}
    (hτ1 : τ ≤ 1) (hc : Clear p τ t) (hε : e.eps ≤ τ * τ * τ * |vol t|) (ht : ∀ c ∈ corners t, InBB e c) :
    ∃ r', clipTet e p r t = some r' ∧ total r'.1.tets + total r'.2.tets = total r.1.tets + total r.2.tets + |vol t| := by
  have hbig : ¬ |vol t| < e.eps := by
    have h1 : τ * τ ≤ 1 := mul_le_one₀ hτ1 hτ.le hτ1
    have h2 : τ * τ * τ ≤ 1 := mul_le_one₀ h1 hτ.le hτ1
    have := mul_le_mul_of_nonneg_right h2 (abs_nonneg (vol t))
    linarith
  have hw : ∀ T : TSet K, (countWhole ({ T with tets := T.tets ++ [orient t] }) t.data).tets = T.tets ++ [orient t] := by
    intro T; unfold countWhole; split <;> rfl
  have ho : total [orient t] = |vol t| := by simp [total, vol_orient]
  show ∃ r', (if ((corners t).filter fun v => up p v).length = 4 then _
    else if ((corners t).filter fun v => !up p v).length = 4 then _ else _) = some r' ∧ _
  by_cases h1 : ((corners t).filter fun v => up p v).length = 4
  · rw [if_pos h1, add_eq he r.1 ht, if_neg hbig]
    refine ⟨_, rfl, ?_⟩
    dsimp only
    rw [hw, total_append, ho]; ring
  · rw [if_neg h1]
    by_cases h2 : ((corners t).filter fun v => !up p v).length = 4
    · rw [if_pos h2, add_eq he r.2 ht, if_neg hbig]
      refine ⟨_, rfl, ?_⟩
      dsimp only
      rw [hw, total_append, ho]; ring
    · rw [if_neg h2, crossings_eq he p _ (tetEdges_bb ht), Option.bind_some]
      obtain ⟨nn, np, g1, g2, g3⟩ := cut_split he hτ hc hε ht h1 h2 r.2 r.1
      refine ⟨(r.1.more np, r.2.more nn), (congrArg (fun o => Option.bind o _) g1).trans
        (congrArg (Option.map fun q => (q, r.2.more nn)) g2), ?_⟩
      simp only [TSet.more, total_append]
      rw [← g3]; ring

theorem total_eq (ts : List (Tet K)) : tetVolume ts = total ts / 6 := by
  rw [tetVolume_eq]
  simp only [total, vol, vol4_det]

/-- **C173.** The two parts together have the volume of the set, if no cut comes too near to a corner
and no tetrahedron is too small: on each edge that is cut both pieces have at least the part `τ` of its
length, and `τ³` times the volume of each tetrahedron is at least the bound below which `Add` drops
tetrahedra.  The condition on the corners cannot be left out (`C173_violated_volume`). -/
theorem C173_volume_partial {e : Env K} (he : e.Ok) (p : Plane K) {τ : K} (hτ : 0 < τ) (hτ1 : τ ≤ 1) (ts : List (Tet K))
    (hc : ∀ t ∈ ts, Clear p τ t) (hε : ∀ t ∈ ts, e.eps ≤ τ * τ * τ * |det t.p0 t.p1 t.p2 t.p3|)
    (hb : ∀ t ∈ ts, ∀ c ∈ corners t, InBB e c) :
    ∃ P N, clip e p ts = some (P, N) ∧ tetVolume P.tets + tetVolume N.tets = tetVolume ts := by
  have key : ∀ (ts : List (Tet K)) (r : TSet K × TSet K), (∀ t ∈ ts, Clear p τ t) →
      (∀ t ∈ ts, e.eps ≤ τ * τ * τ * |det t.p0 t.p1 t.p2 t.p3|) → (∀ t ∈ ts, ∀ c ∈ corners t, InBB e c) →
      ∃ r', ts.foldlM (clipTet e p) r = some r' ∧
        total r'.1.tets + total r'.2.tets = total r.1.tets + total r.2.tets + total ts := by
    intro ts
    induction ts with
    | nil => intro r _ _ _; exact ⟨r, rfl, by simp [total]⟩
    | cons t ts ih =>
      intro r hc hε hb
      obtain ⟨r1, g, s⟩ := clipTet_total he r hτ hτ1 (hc t List.mem_cons_self)
        (by have := hε t List.mem_cons_self; rwa [← vol4_det] at this) (hb t List.mem_cons_self)
      obtain ⟨r2, h0, h1⟩ := ih r1 (fun t ht => hc t (List.mem_cons_of_mem _ ht))
        (fun t ht => hε t (List.mem_cons_of_mem _ ht)) (fun t ht => hb t (List.mem_cons_of_mem _ ht))
      refine ⟨r2, by rw [List.foldlM_cons, g]; exact h0, ?_⟩
      rw [h1, s]
      simp only [total, List.map_cons, List.sum_cons]; ring
  obtain ⟨r, h0, h1⟩ := key ts (⟨[], 0, 0⟩, ⟨[], 0, 0⟩) hc hε hb
  refine ⟨r.1, r.2, h0, ?_⟩
  rw [total_eq, total_eq, total_eq, ← add_div, h1]
  simp [total]

/-! ### Corners on the plane, and examples -/

/-- The bounds of the code, and the unit cube as box. -/
def codeEnv : Env ℚ := ⟨true, 1 / 10000000000, 1 / 10000000000000, ⟨0, 0, 0⟩, ⟨1, 1, 1⟩⟩

/-- A corner of the unit cube. -/
def unitTet : Tet ℚ := ⟨⟨0, 0, 0⟩, ⟨0, 0, 1⟩, ⟨0, 1, 0⟩, ⟨1, 0, 0⟩, Val.ins⟩

/-- **C173.** A quarter of the volume is lost if the plane goes through a corner: with the plane
`x + y = z` the tetrahedron of volume `1/6` leaves parts of the volumes `1/12` and `1/24`. -/
theorem C173_violated_volume :
    ∃ P N, clip codeEnv ⟨1, 1, -1, 0⟩ [unitTet] = some (P, N) ∧ tetVolume P.tets = 1 / 12 ∧ tetVolume N.tets = 1 / 24 ∧
      tetVolume [unitTet] = 1 / 6 := by
  have h : (clip codeEnv ⟨1, 1, -1, 0⟩ [unitTet]).map (fun r => (tetVolume r.1.tets, tetVolume r.2.tets)) =
      some (1 / 12, 1 / 24) := by decide +kernel
  obtain ⟨⟨P, N⟩, h1, h2⟩ := Option.map_eq_some_iff.1 h
  simp only [Prod.mk.injEq] at h2
  exact ⟨P, N, h1, h2.1, h2.2, by decide +kernel⟩

theorem codeEnv_ok : codeEnv.Ok := by unfold Env.Ok codeEnv; decide +kernel

theorem unitTet_box : ∀ t ∈ [unitTet], ∀ c ∈ corners t, InBB codeEnv c := by
  unfold InBB; decide +kernel

/-- Both parts have the right volume with a plane away from the corners, two on each side. -/
example : ∃ P N, clip codeEnv ⟨1, 1, -1, -1 / 4⟩ [unitTet] = some (P, N) ∧
    tetVolume P.tets + tetVolume N.tets = tetVolume [unitTet] :=
  C173_volume_partial codeEnv_ok _ (τ := 1 / 10) (by norm_num) (by norm_num) _ (by unfold Clear; decide +kernel)
    (by decide +kernel) unitTet_box

/-- The same set in three and three tetrahedra. -/
example : (clip codeEnv ⟨1, 1, -1, -1 / 4⟩ [unitTet]).map (fun r => (r.1.tets.length, r.2.tets.length, r.1.nOn, r.2.nOn)) =
    some (3, 3, 3, 3) := by decide +kernel

/-- One corner cut off. -/
example : (clip codeEnv ⟨1, 1, 1, -1 / 2⟩ [unitTet]).map
    (fun r => (r.1.tets.length, r.2.tets.length, tetVolume r.1.tets, tetVolume r.2.tets)) =
    some (3, 1, 7 / 48, 1 / 48) := by decide +kernel

/-- The plane misses the tetrahedron. -/
example : ∃ P N, clip codeEnv ⟨1, 1, 1, 1⟩ [unitTet] = some (P, N) ∧ (P.nOn = onCount P.tets ∧ P.nIn = offCount P.tets) ∧
    (N.nOn = onCount N.tets ∧ N.nIn = offCount N.tets) :=
  C173_counters_partial codeEnv_ok _ _ unitTet_box (by decide +kernel)

example : ∃ u ∈ ((clip codeEnv ⟨1, 1, 1, 1⟩ [unitTet]).get (by decide +kernel)).1.tets, Same unitTet u := by
  obtain ⟨P, N, h, h1, -⟩ := C173_whole codeEnv_ok ⟨1, 1, 1, 1⟩ _ unitTet_box unitTet (by simp) (by decide +kernel)
  simp only [h, Option.get_some]
  exact h1 (by decide +kernel)

/-- The five tetrahedra of a voxel of side `3/10000`: nothing is left of them, though the plane does not
cut the voxel. -/
example : ∃ P N, clip codeEnv ⟨1, 0, 0, 1⟩ (toTets ⟨0, 0, 0⟩ (3 / 10000) [((1, 1, 1), Val.on)]) = some (P, N) ∧
    P.tets = [] ∧ N.tets = [] ∧ P.nOn + P.nIn = 5 :=
  C173_violated_small _ _ (by decide +kernel) (by decide +kernel)

end Verif.TetClip
