import Verif.Model.Decompose
import Mathlib.Algebra.BigOperators.Group.List.Basic
import Mathlib.Algebra.Order.BigOperators.Group.Multiset
import Mathlib.Algebra.Order.Group.Multiset
import Mathlib.Data.List.ReduceOption
import Mathlib.Data.Nat.Log
import Mathlib.Data.List.Perm.Basic
import Mathlib.Data.Multiset.AddSub
import Mathlib.Data.Rat.Defs
import Mathlib.Algebra.Order.Ring.Rat
import Mathlib.Algebra.Field.Rat
import Mathlib.Tactic.Ring
import Mathlib.Tactic.Abel
import Mathlib.Tactic.Linarith
import Mathlib.Tactic.FieldSimp

set_option linter.unusedSectionVars false
set_option linter.unusedVariables false

/-!
# C168: the decomposition neither loses nor duplicates voxels, and frees every part once
-/

namespace Verif.Decompose

variable {K : Type} [Field K] [LinearOrder K] [IsStrictOrderedRing K]

/-! ### Specification -/

/-- The position of a voxel. -/
def Voxel.pos (v : Voxel) : ℤ × ℤ × ℤ := (v.x, v.y, v.z)

/-- The positions of the voxels of a set. -/
def places (s : VSet K) : Multiset (ℤ × ℤ × ℤ) := (s.voxels.map Voxel.pos : List _)

/-- The positions of the voxels of a set which are on its surface. -/
def surface (s : VSet K) : Multiset (ℤ × ℤ × ℤ) :=
  ((s.voxels.filter (·.surf)).map Voxel.pos : List _)

/-- Signed height of a voxel's point over a plane. -/
def height (p : Plane K) (s : VSet K) (v : Voxel) : K :=
  p.a * (s.ox + s.scale * v.x) + p.b * (s.oy + s.scale * v.y) + p.c * (s.oz + s.scale * v.z) + p.d

/-- The voxels of one side of a plane; those within one voxel of the plane are now on the
surface. -/
def half (p : Plane K) (s : VSet K) (up : Bool) : List Voxel :=
  (s.voxels.filter fun v => decide (0 ≤ height p s v) == up).map fun v =>
    { v with surf := v.surf || decide (|height p s v| ≤ s.scale) }

/-- The counters of a set are right. -/
def Counted (s : VSet K) : Prop :=
  s.nSurf = s.voxels.countP (·.surf) ∧ s.nIn = s.voxels.countP (fun v => !v.surf)

/-- The set with these voxels on the same grid as another. -/
def onGrid (s : VSet K) (l : List Voxel) : VSet K :=
  { s with voxels := l, nSurf := l.countP (·.surf), nIn := l.countP (fun v => !v.surf) }

/-- The part is too concave: further from its hull than the tolerance, and than the volume of its
surface explains. -/
def TooConcave (e : Env K) (V0 : K) (s : VSet K) : Prop :=
  V0 ≠ 0 ∧ e.concavity < |e.hullVol s - s.unit * s.voxels.length| / V0 ∧
    e.slack * (s.unit * s.nSurf) / V0 < |e.hullVol s - s.unit * s.voxels.length| / V0

/-- The sets obtained from the first by `n` cuts, each of a set which was too concave, at a plane that the search
found for it. -/
inductive Cuts (e : Env K) (v0 : VSet K) : ℕ → VSet K → Prop
  | start : Cuts e v0 0 v0
  | cut {n : ℕ} {v : VSet K} (p : Plane K) (up : Bool) :
      Cuts e v0 n v → v.voxels ≠ [] → TooConcave e (e.hullVol v0) v → (∃ t, e.plane t v = some p) →
      Cuts e v0 (n + 1) (onGrid v (half p v up))

/-- Once cancelled, always cancelled: nothing resets the flag while the computation runs. -/
def Sticky (c : ℕ → Bool) : Prop := ∀ m n, m ≤ n → c m = true → c n = true

/-- A heap without mistakes so far. -/
def Heap.Valid (h : Heap K) : Prop :=
  h.ok = true ∧ h.live.Nodup ∧ ∀ i ∈ h.live, i < h.next

/-! ### Clipping -/

theorem side_eq (p : Plane K) (s : VSet K) (v : Voxel) : side p s v = height p s v := by
  unfold side height; ring

theorem needSplit_iff (e : Env K) (V0 : K) (s : VSet K) :
    needSplit e V0 s = true ↔ TooConcave e V0 s := by
  unfold needSplit TooConcave volume
  simp only [Bool.and_eq_true, decide_eq_true_iff, and_assoc]

/-- a set with some voxels added -/
def addAll (t : VSet K) (l : List Voxel) : VSet K :=
  { t with voxels := t.voxels ++ l, nSurf := t.nSurf + l.countP (·.surf)
           nIn := t.nIn + l.countP (fun v => !v.surf) }

theorem push_eq (near : Bool) (v : Voxel) (t : VSet K) (l : List Voxel) :
    addAll (push near v t) l = addAll t ({ v with surf := v.surf || near } :: l) := by
  unfold push addAll
  cases h1 : v.surf <;> cases near <;>
    simp [h1, List.countP_cons, Nat.add_comm, Nat.add_left_comm, Nat.add_assoc]
  · cases v; simp_all

theorem half_cons (p : Plane K) (s : VSet K) (v : Voxel) (l : List Voxel) (b : Bool) :
    half p { s with voxels := v :: l } b =
      if decide (0 ≤ height p s v) = b then
        { v with surf := v.surf || decide (|height p s v| ≤ s.scale) } ::
          half p { s with voxels := l } b
      else half p { s with voxels := l } b := by
  have hh : ∀ w, height p { s with voxels := v :: l } w = height p s w := fun _ => rfl
  have hh' : ∀ w, height p { s with voxels := l } w = height p s w := fun _ => rfl
  by_cases hb : decide (0 ≤ height p s v) = b
  · rw [if_pos hb]; simp [half, hh, hh', List.filter_cons, hb]
  · rw [if_neg hb]
    have : (decide (0 ≤ height p s v) == b) = false := by simpa using hb
    unfold half
    rw [List.filter_cons]
    simp only [hh, this]
    rfl

theorem foldl_clip (p : Plane K) (s : VSet K) : ∀ (l : List Voxel) (a b : VSet K),
    l.foldl (clipStep p s) (a, b) =
      (addAll a (half p { s with voxels := l } true), addAll b (half p { s with voxels := l } false)) := by
  intro l
  induction l with
  | nil => intro a b; simp [half, addAll]
  | cons v l ih =>
    intro a b
    rw [List.foldl_cons, half_cons, half_cons]
    by_cases h : 0 ≤ side p s v
    · have e1 : clipStep p s (a, b) v = (push (decide (side p s v ≤ s.scale)) v a, b) := if_pos h
      rw [e1, ih, push_eq]
      rw [side_eq] at h
      simp only [side_eq, h, decide_true, if_true, abs_of_nonneg h]
      rfl
    · have e1 : clipStep p s (a, b) v = (a, push (decide (-side p s v ≤ s.scale)) v b) := if_neg h
      rw [e1, ih, push_eq]
      rw [side_eq] at h
      have h'' : height p s v < 0 := not_le.mp h
      simp only [side_eq, h, decide_false, if_true, abs_of_neg h'']
      rfl

theorem clip_eq (p : Plane K) (s a b : VSet K) (h : s.voxels ≠ []) :
    clip p s a b = (onGrid s (half p s true), onGrid s (half p s false)) := by
  unfold clip
  rw [if_neg h, foldl_clip]
  simp [addAll, emptyLike, onGrid]

theorem foldl_count (f : Voxel → Bool) : ∀ (l : List Voxel) (n : ℕ),
    l.foldl (fun n v => n + if f v then 1 else 0) n = n + l.countP f := by
  intro l
  induction l with
  | nil => simp
  | cons v l ih =>
    intro n
    rw [List.foldl_cons, ih, List.countP_cons]
    omega

theorem half_length (p : Plane K) (s : VSet K) :
    (half p s true).length = s.voxels.countP (fun v => decide (0 ≤ height p s v)) ∧
      (half p s true).length + (half p s false).length = s.voxels.length := by
  have h1 : (half p s true).length = s.voxels.countP (fun v => decide (0 ≤ height p s v)) := by
    simp [half, List.countP_eq_length_filter]
  refine ⟨h1, ?_⟩
  rw [h1]
  have := List.length_eq_countP_add_countP (fun v => decide (0 ≤ height p s v)) (l := s.voxels)
  rw [this]
  congr 1
  unfold half
  rw [List.length_map, List.countP_eq_length_filter]
  congr 2
  funext v
  cases decide (0 ≤ height p s v) <;> rfl

theorem half_places (p : Plane K) (s : VSet K) :
    places (onGrid s (half p s true)) + places (onGrid s (half p s false)) = places s := by
  have key : ∀ l : List Voxel, ∀ s : VSet K,
      (((half p { s with voxels := l } true).map Voxel.pos : List _) : Multiset (ℤ × ℤ × ℤ)) +
        ((half p { s with voxels := l } false).map Voxel.pos : List _) = (l.map Voxel.pos : List _) := by
    intro l s
    induction l with
    | nil => rfl
    | cons v l ih =>
      rw [half_cons, half_cons]
      cases hd : decide (0 ≤ height p s v) <;>
        simp [← Multiset.cons_coe, Voxel.pos, Multiset.cons_add, Multiset.add_cons] <;>
        simpa using ih
  exact key s.voxels s

theorem half_surface (p : Plane K) (s : VSet K) :
    surface s ≤ surface (onGrid s (half p s true)) + surface (onGrid s (half p s false)) := by
  have key : ∀ l : List Voxel, ∀ s : VSet K,
      (((l.filter (·.surf)).map Voxel.pos : List _) : Multiset (ℤ × ℤ × ℤ)) ≤
      ((((half p { s with voxels := l } true).filter (·.surf)).map Voxel.pos : List _) :
          Multiset (ℤ × ℤ × ℤ)) +
        (((half p { s with voxels := l } false).filter (·.surf)).map Voxel.pos : List _) := by
    intro l s
    induction l with
    | nil => exact Multiset.zero_le _
    | cons v l ih =>
      rw [half_cons, half_cons]
      cases hd : decide (0 ≤ height p s v) <;> cases hv : v.surf <;>
        cases hn : decide (|height p s v| ≤ s.scale) <;>
        simp [List.filter_cons, hv, hn, Voxel.pos, ← Multiset.cons_coe] <;>
        first
          | exact ih
          | (refine ih.trans ?_
             first
               | exact Multiset.le_cons_self _ _
               | exact add_le_add_right (Multiset.le_cons_self _ _) _
               | exact add_le_add_left (Multiset.le_cons_self _ _) _)
  exact key s.voxels s

/-- **C168.** `Clip` on a set which is not empty: each voxel goes to exactly one of the two parts,
by the sign of its height over the plane, keeping its order; it is on the surface of its part if
it was before or lies within one voxel of the plane; the counters of the parts are right, the grid
is unchanged, whatever the parts held before; and `ComputeClippedVolumes` gives the volumes of the
two parts, which add up to the volume of the set. -/
theorem C168_clip (p : Plane K) (s a b : VSet K) (h : s.voxels ≠ []) :
    clip p s a b = (onGrid s (half p s true), onGrid s (half p s false)) ∧
      places (clip p s a b).1 + places (clip p s a b).2 = places s ∧
      surface s ≤ surface (clip p s a b).1 + surface (clip p s a b).2 ∧
      Counted (clip p s a b).1 ∧ Counted (clip p s a b).2 ∧
      clippedVolumes p s = (volume (clip p s a b).1, volume (clip p s a b).2) ∧
      (clippedVolumes p s).1 + (clippedVolumes p s).2 = volume s := by
  have hv : clippedVolumes p s =
      (volume (onGrid s (half p s true)), volume (onGrid s (half p s false))) := by
    obtain ⟨h1, h2⟩ := half_length p s
    unfold clippedVolumes
    rw [if_neg h]
    simp only [side_eq]
    have hf := foldl_count (fun v => decide (0 ≤ height p s v)) s.voxels 0
    simp only [decide_eq_true_eq, Nat.zero_add] at hf
    rw [hf, ← h1]
    have h3 : s.voxels.length - (half p s true).length = (half p s false).length := by omega
    rw [h3]
    rfl
  refine ⟨clip_eq p s a b h, ?_⟩
  rw [clip_eq p s a b h]
  refine ⟨half_places p s, half_surface p s, ⟨rfl, rfl⟩, ⟨rfl, rfl⟩, hv, ?_⟩
  rw [hv]
  obtain ⟨_, h2⟩ := half_length p s
  show s.unit * _ + s.unit * _ = s.unit * _
  rw [← mul_add, ← Nat.cast_add]
  simp only [onGrid]
  rw [h2]

example : ∃ (p : Plane ℚ) (s : VSet ℚ), s.voxels ≠ [] ∧
    (clip p s fresh fresh).1.voxels ≠ [] ∧ (clip p s fresh fresh).2.voxels ≠ [] :=
  ⟨⟨1, 0, 0, -1 / 2⟩, ⟨[⟨0, 0, 0, true⟩, ⟨1, 0, 0, false⟩], 0, 0, 0, 1, 1, 1, 1⟩, by decide +kernel⟩

/-! ### The heap -/

/-- the objects a list of pointers refers to, without null pointers -/
abbrev ids (l : List (Option ℕ)) : List ℕ := l.reduceOption

theorem ids_some (l : List ℕ) : ids (l.map some) = l := by
  induction l with
  | nil => rfl
  | cons a l ih => rw [List.map_cons]; exact (List.reduceOption_cons_of_some _ _).trans (congrArg (a :: ·) ih)

theorem mem_ids (l : List (Option ℕ)) (i : ℕ) : i ∈ ids l ↔ some i ∈ l := List.reduceOption_mem_iff

theorem del_spec (h : Heap K) (i : ℕ) (rest : List ℕ) (hv : h.Valid) (hp : h.live.Perm (i :: rest)) :
    (h.del (some i)).Valid ∧ (h.del (some i)).live.Perm rest ∧ (h.del (some i)).val = h.val ∧
      (h.del (some i)).next = h.next := by
  have hi : i ∈ h.live := hp.symm.subset (List.mem_cons_self ..)
  have e1 : h.del (some i) = { h with live := h.live.erase i } := if_pos hi
  rw [e1]
  refine ⟨⟨hv.1, hv.2.1.erase _, fun j hj => hv.2.2 j (List.mem_of_mem_erase hj)⟩, ?_, rfl, rfl⟩
  have := hp.erase i
  rwa [List.erase_cons_head] at this

theorem delAll_spec : ∀ (l : List (Option ℕ)) (h : Heap K) (rest : List ℕ), h.Valid →
    h.live.Perm (ids l ++ rest) →
    (h.delAll l).Valid ∧ (h.delAll l).live.Perm rest ∧ (h.delAll l).val = h.val ∧
      (h.delAll l).next = h.next := by
  intro l
  induction l with
  | nil => intro h rest hv hp; exact ⟨hv, hp, rfl, rfl⟩
  | cons q l ih =>
    intro h rest hv hp
    cases q with
    | none =>
      rw [ids, List.reduceOption_cons_of_none] at hp
      exact ih h rest hv hp
    | some i =>
      rw [ids, List.reduceOption_cons_of_some] at hp
      obtain ⟨h1, h2, h3, h4⟩ := del_spec h i (ids l ++ rest) hv hp
      obtain ⟨g1, g2, g3, g4⟩ := ih _ rest h1 h2
      exact ⟨g1, g2, g3.trans h3, g4.trans h4⟩

theorem new_spec (h : Heap K) (s : VSet K) (hv : h.Valid) :
    (h.new s).Valid ∧ (h.new s).live = h.next :: h.live ∧ (h.new s).val h.next = s ∧
      (∀ i ∈ h.live, (h.new s).val i = h.val i) ∧ (h.new s).next = h.next + 1 := by
  refine ⟨⟨hv.1, List.nodup_cons.mpr ⟨fun hc => absurd (hv.2.2 _ hc) (lt_irrefl _), hv.2.1⟩, ?_⟩,
    rfl, if_pos rfl, ?_, rfl⟩
  · intro i hi
    rcases List.mem_cons.mp hi with rfl | hi
    · exact Nat.lt_succ_self _
    · exact Nat.lt_succ_of_lt (hv.2.2 _ hi)
  · intro i hi
    exact if_neg (fun hc => absurd (hv.2.2 i hi) (by omega))

theorem use_spec (h : Heap K) (i : ℕ) (hi : i ∈ h.live) : h.use i = h := if_pos hi

/-! ### Too concave sets are not empty -/

theorem Cuts.counted {e : Env K} {v0 : VSet K} (h0 : Counted v0) {n : ℕ} {v : VSet K}
    (h : Cuts e v0 n v) : Counted v := by
  cases h with
  | start => exact h0
  | cut p up _ _ _ _ => exact ⟨rfl, rfl⟩

theorem tooConcave_ne {e : Env K} (hE : ∀ v : VSet K, v.voxels = [] → e.hullVol v = 0)
    {V0 : K} {v : VSet K} (hc : Counted v) (h : TooConcave e V0 v) : v.voxels ≠ [] := by
  intro hn
  obtain ⟨_, _, h3⟩ := h
  rw [hE v hn, hc.1, hn] at h3
  simp at h3

theorem search_spec (e : Env K) (hs : Sticky e.cancel) (t : ℕ) (v : VSet K) (h : Heap K)
    (hf : ∀ t, ∃ p, e.plane t v = some p) :
    (search e t v h).2.1 = h ∧ t ≤ (search e t v h).2.2 ∧
      (e.cancel (search e t v h).2.2 = false → ∃ p, (search e t v h).1 = some p) := by
  obtain ⟨p, hp⟩ := hf (t + 1)
  obtain ⟨p', hp'⟩ := hf (t + 3)
  unfold search
  cases h0 : e.cancel t <;> cases h1 : e.cancel (t + 1) <;> cases hr : e.refine <;>
    cases h2 : e.cancel (t + 2) <;> simp [hp, hp'] <;>
    first
      | (have := hs t (t + 1) (by omega) h0; simp_all; done)
      | (have := hs t (t + 2) (by omega) h0; simp_all; done)
      | (have := hs (t + 1) (t + 2) (by omega) h1; simp_all; done)
      | skip

theorem search_from {e : Env K} {t : ℕ} {v : VSet K} {h : Heap K} {p : Plane K} (hp : (search e t v h).1 = some p) :
    ∃ t, e.plane t v = some p := by
  by_contra hn
  have hno : ∀ t, e.plane t v ≠ some p := fun t ht => hn ⟨t, ht⟩
  unfold search at hp
  simp only at hp
  split_ifs at hp <;> simp_all [Option.or_eq_some_iff]

/-! ### The invariant -/

/-- all pointers held by the computation -/
def own (ins : List (Option ℕ)) (st : St K) : List ℕ := ids ins ++ st.temp ++ ids st.parts

/-- what holds between two parts at level `k` of `d`, with the other live objects `R` -/
structure Mem (e : Env K) (v0 : VSet K) (R : List ℕ) (val0 : ℕ → VSet K) (d k : ℕ)
    (ins : List (Option ℕ)) (st : St K) : Prop where
  valid : st.h.Valid
  perm : st.h.live.Perm (own ins st ++ R)
  frame : ∀ j ∈ R, st.h.val j = val0 j
  insR : ∀ i, some i ∈ ins → Cuts e v0 k (st.h.val i)
  tempR : ∀ i ∈ st.temp, Cuts e v0 (k + 1) (st.h.val i)
  partsR : ∀ i, some i ∈ st.parts → ∃ n < d, Cuts e v0 n (st.h.val i) ∧
    ¬ TooConcave e (e.hullVol v0) (st.h.val i)
  partsSome : ∀ q ∈ st.parts, q ≠ none
  vol : st.first = false → st.V0 = e.hullVol v0
  firstIns : st.first = true → ∀ i, some i ∈ ins → st.h.val i = v0
  firstTemp : st.first = true → st.temp = []

/-- the voxels held by some objects are those of the first set -/
def Cont (v0 : VSet K) (h : Heap K) (l : List ℕ) : Prop :=
  (l.map fun i => places (h.val i)).sum = places v0 ∧
    surface v0 ≤ (l.map fun i => surface (h.val i)).sum

theorem Cont.perm {v0 : VSet K} {h : Heap K} {l l' : List ℕ} (hc : Cont v0 h l) (hp : l.Perm l') :
    Cont v0 h l' := by
  unfold Cont at *
  rw [(hp.map (fun i => places (h.val i))).sum_eq, (hp.map (fun i => surface (h.val i))).sum_eq] at hc
  exact hc

theorem Cont.congr {v0 : VSet K} {h h' : Heap K} {l : List ℕ} (hc : Cont v0 h l)
    (he : ∀ i ∈ l, h'.val i = h.val i) : Cont v0 h' l := by
  unfold Cont at *
  have h1 : (l.map fun i => places (h'.val i)) = l.map fun i => places (h.val i) :=
    List.map_congr_left (fun i hi => by rw [he i hi])
  have h2 : (l.map fun i => surface (h'.val i)) = l.map fun i => surface (h.val i) :=
    List.map_congr_left (fun i hi => by rw [he i hi])
  rw [h1, h2]
  exact hc

theorem Mem.own_live {e : Env K} {v0 : VSet K} {R : List ℕ} {val0 : ℕ → VSet K} {d k : ℕ}
    {ins : List (Option ℕ)} {st : St K} (m : Mem e v0 R val0 d k ins st) {i : ℕ}
    (hi : i ∈ own ins st) : i ∈ st.h.live :=
  m.perm.symm.subset (List.mem_append_left _ hi)

theorem Mem.R_live {e : Env K} {v0 : VSet K} {R : List ℕ} {val0 : ℕ → VSet K} {d k : ℕ}
    {ins : List (Option ℕ)} {st : St K} (m : Mem e v0 R val0 d k ins st) {i : ℕ}
    (hi : i ∈ R) : i ∈ st.h.live :=
  m.perm.symm.subset (List.mem_append_right _ hi)

theorem mem_none {e : Env K} {v0 : VSet K} {R : List ℕ} {val0 : ℕ → VSet K} {d k : ℕ}
    {qs : List (Option ℕ)} {st : St K} (m : Mem e v0 R val0 d k qs st) :
    Mem e v0 R val0 d k (none :: qs) st := by
  refine ⟨m.valid, ?_, m.frame, ?_, m.tempR, m.partsR, m.partsSome, m.vol, ?_, m.firstTemp⟩
  · have := m.perm
    unfold own ids at *
    rwa [List.reduceOption_cons_of_none]
  · intro i hi
    exact m.insR i (by simpa using hi)
  · intro hf i hi
    exact m.firstIns hf i (by simpa using hi)

/-- assumptions on the outside world -/
structure World (e : Env K) (v0 : VSet K) : Prop where
  sticky : Sticky e.cancel
  empty : ∀ v : VSet K, v.voxels = [] → e.hullVol v = 0
  found : ∀ v : VSet K, v.voxels ≠ [] → ∀ t, ∃ p, e.plane t v = some p
  counted : Counted v0

theorem split_spec {e : Env K} {v0 : VSet K} (W : World e v0) {R : List ℕ} {val0 : ℕ → VSet K}
    {d k : ℕ} {i : ℕ} {qs : List (Option ℕ)} {st : St K} (hf : st.first = false)
    (m : Mem e v0 R val0 d k (some i :: qs) st)
    (hc : TooConcave e (e.hullVol v0) (st.h.val i)) :
    let r := splitPart e i st
    st.t ≤ r.2.t ∧ Mem e v0 R val0 d k qs r.2 ∧
      (if r.1 then e.cancel r.2.t = true
       else (Cont v0 st.h (own (some i :: qs) st) → Cont v0 r.2.h (own qs r.2)) ∧
          r.2.parts = st.parts ∧ r.2.temp.length = st.temp.length + 2) := by
  have hK : Cuts e v0 k (st.h.val i) := m.insR i (List.mem_cons_self ..)
  have hne := tooConcave_ne W.empty (hK.counted W.counted) hc
  obtain ⟨s1, s2, s3⟩ := search_spec e W.sticky st.t (st.h.val i) st.h (W.found _ hne)
  have hown : own (some i :: qs) st = i :: own qs st := by
    unfold own ids; rw [List.reduceOption_cons_of_some]; rfl
  have hperm : st.h.live.Perm (i :: (own qs st ++ R)) := by
    have := m.perm; rwa [hown] at this
  have hil : i ∈ st.h.live := hperm.symm.subset (List.mem_cons_self ..)
  have hnd : i ∉ own qs st ++ R := (List.nodup_cons.mp (hperm.nodup_iff.mp m.valid.2.1)).1
  cases hcan : e.cancel (search e st.t (st.h.val i) st.h).2.2 with
  | true =>
    have hr : splitPart e i st = (true, { st with
        h := st.h.del (some i), t := (search e st.t (st.h.val i) st.h).2.2 + 1 }) := by
      unfold splitPart
      simp only [hcan, if_true, s1]
    rw [hr]
    obtain ⟨d1, d2, d3, d4⟩ := del_spec st.h i _ m.valid hperm
    refine ⟨by simp only; omega, ⟨d1, d2, ?_, ?_, ?_, ?_, m.partsSome, m.vol, ?_, m.firstTemp⟩, ?_⟩
    · intro j hj; simp only [d3]; exact m.frame j hj
    · intro j hj; simp only [d3]; exact m.insR j (List.mem_cons_of_mem _ hj)
    · intro j hj; simp only [d3]; exact m.tempR j hj
    · intro j hj; simp only [d3]; exact m.partsR j hj
    · intro h; simp only at h; rw [hf] at h; cases h
    · simp only [if_true]
      exact W.sticky _ _ (Nat.le_succ _) hcan
  | false =>
    obtain ⟨p, hp⟩ := s3 hcan
    obtain ⟨n1, n2, n3, n4, n5⟩ := new_spec st.h (clip p (st.h.val i) fresh fresh).2 m.valid
    obtain ⟨o1, o2, o3, o4, o5⟩ := new_spec (st.h.new (clip p (st.h.val i) fresh fresh).2)
      (clip p (st.h.val i) fresh fresh).1 n1
    set c := clip p (st.h.val i) fresh fresh with hcdef
    have hr : splitPart e i st = (false, { st with
        h := (((st.h.new c.2).new c.1).del (some i)),
        temp := st.temp ++ [st.h.next, st.h.next + 1],
        t := (search e st.t (st.h.val i) st.h).2.2 + 1 }) := by
      unfold splitPart
      simp only [hcan, hp, s1, Bool.false_eq_true, if_false]
      rfl
    rw [hr]
    rw [n5] at o2 o3
    have hp2 : ((st.h.new c.2).new c.1).live.Perm
        (i :: (st.h.next + 1) :: st.h.next :: (own qs st ++ R)) := by
      rw [o2, n2]
      refine ((hperm.cons _).cons _).trans ?_
      exact ((List.Perm.swap i st.h.next _).cons _).trans (List.Perm.swap i (st.h.next + 1) _)
    obtain ⟨d1, d2, d3, d4⟩ := del_spec _ i _ o1 hp2
    have hlt : ∀ j ∈ st.h.live, ((st.h.new c.2).new c.1).val j = st.h.val j := by
      intro j hj
      rw [o4 j (by rw [n2]; exact List.mem_cons_of_mem _ hj), n4 j hj]
    have hvl : ((st.h.new c.2).new c.1).val st.h.next = c.2 := by
      rw [o4 _ (by rw [n2]; exact List.mem_cons_self ..), n3]
    have hce := clip_eq p (st.h.val i) fresh fresh hne
    rw [← hcdef] at hce
    have hc1 : Cuts e v0 (k + 1) c.1 := by rw [hce]; exact Cuts.cut p true hK hne hc (search_from hp)
    have hc2 : Cuts e v0 (k + 1) c.2 := by rw [hce]; exact Cuts.cut p false hK hne hc (search_from hp)
    refine ⟨by simp only; omega, ⟨d1, ?_, ?_, ?_, ?_, ?_, m.partsSome, m.vol, ?_, ?_⟩, ?_⟩
    · refine d2.trans ?_
      unfold own
      rw [List.perm_iff_count]
      intro a
      simp only [List.count_append, List.count_cons, List.count_nil]
      omega
    · intro j hj; simp only [d3]; rw [hlt j (m.R_live hj)]; exact m.frame j hj
    · intro j hj
      simp only [d3]
      rw [hlt j (m.own_live (List.mem_append_left _ (List.mem_append_left _
        ((mem_ids _ _).mpr (List.mem_cons_of_mem _ hj)))))]
      exact m.insR j (List.mem_cons_of_mem _ hj)
    · intro j hj
      simp only [d3]
      simp only [List.mem_append, List.mem_cons, List.not_mem_nil, or_false] at hj
      rcases hj with hj | rfl | rfl
      · rw [hlt j (m.own_live (List.mem_append_left _ (List.mem_append_right _ hj)))]
        exact m.tempR j hj
      · rw [hvl]; exact hc2
      · rw [o3]; exact hc1
    · intro j hj
      simp only [d3]
      rw [hlt j (m.own_live (List.mem_append_right _ ((mem_ids _ _).mpr hj)))]
      exact m.partsR j hj
    · intro h; simp only at h; rw [hf] at h; cases h
    · intro h; simp only at h; rw [hf] at h; cases h
    · simp only [Bool.false_eq_true, if_false]
      refine ⟨?_, trivial, by simp⟩
      intro hC
      rw [hown] at hC
      have hpo : (st.h.next :: (st.h.next + 1) :: own qs st).Perm
          (own qs { st with
            h := (((st.h.new c.2).new c.1).del (some i)),
            temp := st.temp ++ [st.h.next, st.h.next + 1],
            t := (search e st.t (st.h.val i) st.h).2.2 + 1 }) := by
        unfold own
        rw [List.perm_iff_count]
        intro a
        simp only [List.count_append, List.count_cons, List.count_nil]
        omega
      refine Cont.perm ?_ hpo
      unfold Cont at hC ⊢
      simp only [List.map_cons, List.sum_cons, d3, hvl, o3] at hC ⊢
      have hm : ∀ {β : Type} (f : VSet K → β),
          (own qs st).map (fun j => f (((st.h.new c.2).new c.1).val j)) =
            (own qs st).map (fun j => f (st.h.val j)) := by
        intro β f
        refine List.map_congr_left (fun j hj => ?_)
        rw [hlt j (hperm.symm.subset (List.mem_cons_of_mem _ (List.mem_append_left _ hj)))]
      rw [hm, hm, hce]
      simp only
      refine ⟨?_, ?_⟩
      · rw [← hC.1, ← half_places p (st.h.val i)]
        abel
      · refine hC.2.trans ?_
        rw [← add_assoc]
        refine add_le_add_left ((half_surface p (st.h.val i)).trans ?_) _
        rw [add_comm]

theorem body_spec {e : Env K} {v0 : VSet K} (W : World e v0) {R : List ℕ} {val0 : ℕ → VSet K}
    {d k : ℕ} (hk : k < d) {i : ℕ} {qs : List (Option ℕ)} {st : St K}
    (m : Mem e v0 R val0 d k (some i :: qs) st) :
    let r := body e (some i) st
    st.t ≤ r.2.t ∧ Mem e v0 R val0 d k qs r.2 ∧
      (if r.1 then e.cancel r.2.t = true
       else (Cont v0 st.h (own (some i :: qs) st) → Cont v0 r.2.h (own qs r.2)) ∧
          ((r.2.parts.length = st.parts.length + 1 ∧ r.2.temp.length = st.temp.length) ∨
            (r.2.parts.length = st.parts.length ∧ r.2.temp.length = st.temp.length + 2))) := by
  have hK : Cuts e v0 k (st.h.val i) := m.insR i (List.mem_cons_self ..)
  have hown : own (some i :: qs) st = i :: own qs st := by
    unfold own ids; rw [List.reduceOption_cons_of_some]; rfl
  have hil : i ∈ st.h.live := m.own_live (by rw [hown]; exact List.mem_cons_self ..)
  have hV : (if st.first then e.hullVol (st.h.val i) else st.V0) = e.hullVol v0 := by
    cases hf : st.first with
    | true => simp only [if_true]; rw [m.firstIns hf i (List.mem_cons_self ..)]
    | false => simp only [Bool.false_eq_true, if_false]; exact m.vol hf
  have m' : Mem e v0 R val0 d k (some i :: qs) { st with V0 := e.hullVol v0, first := false } :=
    ⟨m.valid, m.perm, m.frame, m.insR, m.tempR, m.partsR, m.partsSome, fun _ => rfl,
      fun h => (by cases h), fun h => (by cases h)⟩
  have hb : body e (some i) st =
      if needSplit e (e.hullVol v0) (st.h.val i) then
        splitPart e i { st with V0 := e.hullVol v0, first := false }
      else (false, { st with V0 := e.hullVol v0, first := false, parts := st.parts ++ [some i] }) := by
    unfold body
    simp only [use_spec st.h i hil, hV]
  rw [hb]
  by_cases hs : needSplit e (e.hullVol v0) (st.h.val i) = true
  · rw [if_pos hs]
    obtain ⟨a1, a2, a3⟩ := split_spec W (st := { st with V0 := e.hullVol v0, first := false }) rfl m'
      ((needSplit_iff ..).mp hs)
    refine ⟨a1, a2, ?_⟩
    split_ifs at a3 ⊢
    · exact a3
    · refine ⟨a3.1, Or.inr ⟨by rw [a3.2.1], a3.2.2⟩⟩
  · rw [if_neg hs]
    have hids : ids (st.parts ++ [some i]) = ids st.parts ++ [i] := by
      simp [ids, List.reduceOption_append]
    have hpo : (own (some i :: qs) st).Perm
        (own qs { st with V0 := e.hullVol v0, first := false, parts := st.parts ++ [some i] }) := by
      rw [hown]
      unfold own
      simp only [hids]
      rw [List.perm_iff_count]
      intro a
      simp only [List.count_append, List.count_cons, List.count_nil]
      omega
    refine ⟨le_refl _, ⟨m.valid, m.perm.trans (hpo.append_right R), m.frame,
      fun j hj => m.insR j (List.mem_cons_of_mem _ hj), m.tempR, ?_, ?_, fun _ => rfl,
      fun h => (by cases h), fun h => (by cases h)⟩, ?_⟩
    · intro j hj
      rcases List.mem_append.mp hj with hj | hj
      · exact m.partsR j hj
      · have : j = i := by simpa using hj
        subst this
        exact ⟨k, hk, hK, fun hc => hs ((needSplit_iff ..).mpr hc)⟩
    · intro q hq
      rcases List.mem_append.mp hq with hq | hq
      · exact m.partsSome q hq
      · have : q = some i := by simpa using hq
        rw [this]; simp
    · simp only [Bool.false_eq_true, if_false]
      exact ⟨fun hC => hC.perm hpo, Or.inl ⟨by simp, trivial⟩⟩

/-- not cancelled, or everything is still there -/
def Going (e : Env K) (v0 : VSet K) (w : ℕ) (d : ℕ) (ins : List (Option ℕ)) (st : St K) : Prop :=
  (∀ q ∈ ins, q ≠ none) ∧ Cont v0 st.h (own ins st) ∧
    st.parts.length + st.temp.length * w + ins.length * (2 * w) ≤ 2 ^ d

theorem level_spec {e : Env K} {v0 : VSet K} (W : World e v0) {R : List ℕ} {val0 : ℕ → VSet K}
    {d k w : ℕ} (hk : k < d) (hw : 0 < w) : ∀ (qs : List (Option ℕ)) (st : St K),
    Mem e v0 R val0 d k qs st → (e.cancel st.t = true ∨ Going e v0 w d qs st) →
    st.t ≤ (level e qs st).2.t ∧ Mem e v0 R val0 d k (level e qs st).1 (level e qs st).2 ∧
      (e.cancel (level e qs st).2.t = true ∨
        (ids (level e qs st).1 = [] ∧ Going e v0 w d [] (level e qs st).2)) := by
  intro qs
  induction qs with
  | nil =>
    intro st m hg
    exact ⟨le_refl _, m, hg.imp id (fun h => ⟨rfl, h⟩)⟩
  | cons q qs ih =>
    intro st m hg
    have mt : Mem e v0 R val0 d k (q :: qs) { st with t := st.t + 1 } :=
      ⟨m.valid, m.perm, m.frame, m.insR, m.tempR, m.partsR, m.partsSome, m.vol, m.firstIns,
        m.firstTemp⟩
    cases hc : e.cancel st.t with
    | true =>
      have hl : level e (q :: qs) st = (q :: qs, { st with t := st.t + 1 }) := by
        simp [level, hc]
      rw [hl]
      exact ⟨Nat.le_succ _, mt, Or.inl (W.sticky _ _ (Nat.le_succ _) hc)⟩
    | false =>
      have hg' : Going e v0 w d (q :: qs) st := hg.resolve_left (by rw [hc]; simp)
      obtain ⟨g1, g2, g3⟩ := hg'
      cases q with
      | none => exact absurd rfl (g1 none (List.mem_cons_self ..))
      | some i =>
        obtain ⟨b1, b2, b3⟩ := body_spec W hk mt
        set r := body e (some i) { st with t := st.t + 1 } with hr
        cases hb : r.1 with
        | true =>
          have hl : level e (some i :: qs) st = (none :: qs, r.2) := by
            rw [level]; simp only [hc, Bool.false_eq_true, if_false, ← hr, hb, if_true]
          rw [hl]
          rw [hb, if_pos rfl] at b3
          exact ⟨by simp only at b1 ⊢; omega, mem_none b2, Or.inl b3⟩
        | false =>
          have hl : level e (some i :: qs) st = (none :: (level e qs r.2).1, (level e qs r.2).2) := by
            rw [level]; simp only [hc, Bool.false_eq_true, if_false, ← hr, hb]
          rw [hl]
          rw [hb] at b3
          simp only [Bool.false_eq_true, if_false] at b3
          have hG : Going e v0 w d qs r.2 := by
            refine ⟨fun q hq => g1 q (List.mem_cons_of_mem _ hq), b3.1 g2, ?_⟩
            simp only [List.length_cons] at g3
            rcases b3.2 with ⟨x, y⟩ | ⟨x, y⟩
            · rw [x, y]; nlinarith
            · rw [x, y]; nlinarith
          obtain ⟨i1, i2, i3⟩ := ih r.2 b2 (Or.inr hG)
          refine ⟨by simp only at b1 i1 ⊢; omega, mem_none i2, i3.imp id (fun h => ⟨?_, h.2⟩)⟩
          rw [ids, List.reduceOption_cons_of_none]
          exact h.1

/-- what holds after the levels -/
structure After (e : Env K) (v0 : VSet K) (R : List ℕ) (val0 : ℕ → VSet K) (d : ℕ)
    (ins : List (Option ℕ)) (st : St K) : Prop where
  valid : st.h.Valid
  perm : st.h.live.Perm (ids (st.parts ++ ins) ++ R)
  frame : ∀ j ∈ R, st.h.val j = val0 j
  rest : e.cancel st.t = true ∨
    ((∀ q ∈ st.parts ++ ins, q ≠ none) ∧ Cont v0 st.h (ids (st.parts ++ ins)) ∧
      (st.parts ++ ins).length ≤ 2 ^ d ∧
      ∀ i, some i ∈ st.parts ++ ins → ∃ n ≤ d, Cuts e v0 n (st.h.val i) ∧
        (n < d → ¬ TooConcave e (e.hullVol v0) (st.h.val i)))

theorem after_of {e : Env K} {v0 : VSet K} {R : List ℕ} {val0 : ℕ → VSet K} {d k w : ℕ}
    (hw : 0 < w) {ins : List (Option ℕ)} {st : St K} (m : Mem e v0 R val0 d k ins st)
    (ht : st.temp = []) (hg : e.cancel st.t = true ∨ (Going e v0 w d ins st ∧ (k = d ∨ ins = []))) :
    After e v0 R val0 d ins st := by
  have hown : (own ins st).Perm (ids (st.parts ++ ins)) := by
    unfold own ids
    rw [ht, List.reduceOption_append, List.append_nil]
    exact List.perm_append_comm
  refine ⟨m.valid, m.perm.trans (hown.append_right R), m.frame, hg.imp id ?_⟩
  rintro ⟨⟨g1, g2, g3⟩, hk⟩
  refine ⟨?_, g2.perm hown, ?_, ?_⟩
  · intro q hq
    rcases List.mem_append.mp hq with h | h
    · exact m.partsSome q h
    · exact g1 q h
  · rw [List.length_append]; nlinarith [Nat.zero_le (st.temp.length * w)]
  · intro i hi
    rcases List.mem_append.mp hi with h | h
    · obtain ⟨n, h1, h2, h3⟩ := m.partsR i h
      exact ⟨n, h1.le, h2, fun _ => h3⟩
    · rcases hk with hk | hk
      · exact ⟨k, hk.le, m.insR i h, fun hlt => absurd hlt (by omega)⟩
      · rw [hk] at h; cases h

theorem levels_spec {e : Env K} {v0 : VSet K} (W : World e v0) {R : List ℕ} {val0 : ℕ → VSet K}
    {d : ℕ} : ∀ (n k : ℕ) (ins : List (Option ℕ)) (st : St K), k + n = d → st.temp = [] →
    Mem e v0 R val0 d k ins st →
    (e.cancel st.t = true ∨ ((∀ q ∈ ins, q ≠ none) ∧ Cont v0 st.h (own ins st) ∧
      st.parts.length + ins.length * 2 ^ n ≤ 2 ^ d)) →
    st.t ≤ (levels e n ins st).2.t ∧
      After e v0 R val0 d (levels e n ins st).1 (levels e n ins st).2 := by
  intro n
  induction n with
  | zero =>
    intro k ins st hk ht m hg
    refine ⟨le_refl _, ?_⟩
    -- the bound holds without the factor two, since no level is left
    have hown : (own ins st).Perm (ids (st.parts ++ ins)) := by
      unfold own ids
      rw [ht, List.reduceOption_append, List.append_nil]
      exact List.perm_append_comm
    refine ⟨m.valid, m.perm.trans (hown.append_right R), m.frame, hg.imp id ?_⟩
    rintro ⟨g1, g2, g3⟩
    refine ⟨?_, g2.perm hown, by simpa [levels] using g3, ?_⟩
    · intro q hq
      rcases List.mem_append.mp hq with h | h
      · exact m.partsSome q h
      · exact g1 q h
    · intro i hi
      rcases List.mem_append.mp hi with h | h
      · obtain ⟨n, h1, h2, h3⟩ := m.partsR i h
        exact ⟨n, h1.le, h2, fun _ => h3⟩
      · exact ⟨k, by omega, m.insR i h, fun hlt => absurd hlt (by omega)⟩
  | succ n ih =>
    intro k ins st hk ht m hg
    have hw : 0 < 2 ^ n := by positivity
    have hg2 : e.cancel st.t = true ∨ Going e v0 (2 ^ n) d ins st := by
      refine hg.imp id ?_
      rintro ⟨g1, g2, g3⟩
      refine ⟨g1, g2, ?_⟩
      rw [ht, List.length_nil]
      rw [pow_succ] at g3
      linarith
    by_cases hi : ins = []
    · have hl : levels e (n + 1) ins st = (ins, st) := by
        rw [levels]; exact if_pos hi
      rw [hl]
      exact ⟨le_refl _, after_of hw m ht (hg2.imp id (fun h => ⟨h, Or.inr hi⟩))⟩
    · have mt : Mem e v0 R val0 d k ins { st with t := st.t + 1 } :=
        ⟨m.valid, m.perm, m.frame, m.insR, m.tempR, m.partsR, m.partsSome, m.vol, m.firstIns,
          m.firstTemp⟩
      cases hc : e.cancel st.t with
      | true =>
        have hl : levels e (n + 1) ins st = (ins, { st with t := st.t + 1 }) := by
          rw [levels]; simp only [if_neg hi, hc, if_true]
        rw [hl]
        exact ⟨Nat.le_succ _, after_of hw mt ht (Or.inl (W.sticky _ _ (Nat.le_succ _) hc))⟩
      | false =>
        have hG : Going e v0 (2 ^ n) d ins { st with t := st.t + 1 } :=
          hg2.resolve_left (by rw [hc]; simp)
        obtain ⟨l1, l2, l3⟩ := level_spec W (by omega : k < d) hw ins _ mt (Or.inr hG)
        set r := level e ins { st with t := st.t + 1 } with hr
        cases hc' : e.cancel r.2.t with
        | true =>
          have hl : levels e (n + 1) ins st =
              levels e n r.1 { r.2 with
                t := r.2.t + 1, h := r.2.h.delAll (r.2.temp.map some), temp := [] } := by
            rw [levels]; simp only [if_neg hi, hc, Bool.false_eq_true, if_false, ← hr, hc', if_true]
          rw [hl]
          obtain ⟨d1, d2, d3, d4⟩ := delAll_spec (r.2.temp.map some) r.2.h
            (ids r.1 ++ ids r.2.parts ++ R) l2.valid (by
              refine l2.perm.trans ?_
              rw [ids_some]
              unfold own
              rw [List.perm_iff_count]
              intro a
              simp only [List.count_append]
              omega)
          have hcan : e.cancel (r.2.t + 1) = true := W.sticky _ _ (Nat.le_succ _) hc'
          -- at the next level nothing is asked of the parts: use the level they were made at
          have key : ∀ (n : ℕ) (st : St K), e.cancel st.t = true →
              levels e n r.1 st = (r.1, st) ∨
                levels e n r.1 st = (r.1, { st with t := st.t + 1 }) := by
            intro n st hct
            cases n with
            | zero => exact Or.inl rfl
            | succ n =>
              by_cases h0 : r.1 = []
              · left; rw [levels]; exact if_pos h0
              · right; rw [levels]; simp only [if_neg h0, hct, if_true]
          have hA : ∀ t, r.2.t + 1 ≤ t → After e v0 R val0 d r.1 { r.2 with
              t := t, h := r.2.h.delAll (r.2.temp.map some), temp := [] } := by
            intro t ht'
            refine ⟨d1, d2.trans ?_, ?_, Or.inl (W.sticky _ _ ht' hcan)⟩
            · refine List.Perm.append_right R ?_
              unfold ids
              rw [List.reduceOption_append]
              exact List.perm_append_comm
            · intro j hj; simp only [d3]; exact l2.frame j hj
          rcases key n { r.2 with
              t := r.2.t + 1, h := r.2.h.delAll (r.2.temp.map some), temp := [] } hcan with h | h
          · rw [h]
            exact ⟨by simp only at l1 ⊢; omega, hA _ (le_refl _)⟩
          · rw [h]
            exact ⟨by simp only at l1 ⊢; omega, hA _ (Nat.le_succ _)⟩
        | false =>
          have hl : levels e (n + 1) ins st =
              levels e n (r.2.temp.map some) { r.2 with t := r.2.t + 1, temp := [] } := by
            rw [levels]; simp only [if_neg hi, hc, Bool.false_eq_true, if_false, ← hr, hc']
          rw [hl]
          obtain ⟨x1, x2⟩ := l3.resolve_left (by rw [hc']; simp)
          have hown : own (r.2.temp.map some) { r.2 with t := r.2.t + 1, temp := [] } = own r.1 r.2 := by
            unfold own
            rw [ids_some, x1]
            simp
          have hown' : own [] r.2 = own r.1 r.2 := by
            unfold own
            rw [x1]; rfl
          have m2 : Mem e v0 R val0 d (k + 1) (r.2.temp.map some)
              { r.2 with t := r.2.t + 1, temp := [] } := by
            refine ⟨l2.valid, by rw [hown]; exact l2.perm, l2.frame, ?_, ?_, l2.partsR,
              l2.partsSome, l2.vol, ?_, fun _ => rfl⟩
            · intro i hi
              exact l2.tempR i (by simpa using hi)
            · intro i hi; cases hi
            · intro hf i hi
              have := l2.firstTemp hf
              rw [this] at hi
              cases hi
          have hg3 : e.cancel (r.2.t + 1) = true ∨ ((∀ q ∈ r.2.temp.map some, q ≠ none) ∧
              Cont v0 r.2.h (own (r.2.temp.map some) { r.2 with t := r.2.t + 1, temp := [] }) ∧
              r.2.parts.length + (r.2.temp.map some).length * 2 ^ n ≤ 2 ^ d) := by
            refine Or.inr ⟨?_, ?_, ?_⟩
            · intro q hq
              obtain ⟨i, _, rfl⟩ := List.mem_map.mp hq
              simp
            · rw [hown, ← hown']; exact x2.2.1
            · simpa using x2.2.2
          obtain ⟨y1, y2⟩ := ih (k + 1) (r.2.temp.map some) { r.2 with t := r.2.t + 1, temp := [] }
            (by omega) rfl m2 hg3
          exact ⟨by simp only at l1 y1 ⊢; omega, y2⟩

theorem hullLoop_spec {e : Env K} (hs : Sticky e.cancel) : ∀ (qs : List (Option ℕ)) (h : Heap K)
    (hulls : List ℕ) (t : ℕ) (L : List ℕ), h.Valid → (∀ q ∈ qs, q ≠ none) →
    (∀ i, some i ∈ qs → i ∈ L) → h.live.Perm (hulls ++ L) →
    t ≤ (hullLoop e qs h hulls t).2.2 ∧ (hullLoop e qs h hulls t).1.Valid ∧
      (hullLoop e qs h hulls t).1.live.Perm ((hullLoop e qs h hulls t).2.1 ++ L) ∧
      (∀ j ∈ hulls ++ L, (hullLoop e qs h hulls t).1.val j = h.val j) ∧
      (e.cancel (hullLoop e qs h hulls t).2.2 = true ∨
        ∃ new : List ℕ, (hullLoop e qs h hulls t).2.1 = hulls ++ new ∧
          new.map (hullLoop e qs h hulls t).1.val = (ids qs).map h.val) := by
  intro qs
  induction qs with
  | nil =>
    intro h hulls t L hv _ _ hp
    exact ⟨le_refl _, hv, hp, fun _ _ => rfl, Or.inr ⟨[], by simp [hullLoop], rfl⟩⟩
  | cons q qs ih =>
    intro h hulls t L hv hsome hL hp
    cases hc : e.cancel t with
    | true =>
      have hl : hullLoop e (q :: qs) h hulls t = (h, hulls, t + 1) := by
        cases q <;> (rw [hullLoop]; exact if_pos hc)
      rw [hl]
      exact ⟨Nat.le_succ _, hv, hp, fun _ _ => rfl, Or.inl (hs _ _ (Nat.le_succ _) hc)⟩
    | false =>
      cases q with
      | none => exact absurd rfl (hsome none (List.mem_cons_self ..))
      | some i =>
        have hiL : i ∈ L := hL i (List.mem_cons_self ..)
        have hi : i ∈ h.live := hp.symm.subset (List.mem_append_right _ hiL)
        have hl : hullLoop e (some i :: qs) h hulls t =
            hullLoop e qs (h.new (h.val i)) (hulls ++ [h.next]) (t + 1) := by
          rw [hullLoop]; simp only [hc, Bool.false_eq_true, if_false, use_spec h i hi]
        rw [hl]
        obtain ⟨n1, n2, n3, n4, n5⟩ := new_spec h (h.val i) hv
        obtain ⟨a1, a2, a3, a4, a5⟩ := ih (h.new (h.val i)) (hulls ++ [h.next]) (t + 1) L n1
          (fun q hq => hsome q (List.mem_cons_of_mem _ hq))
          (fun j hj => hL j (List.mem_cons_of_mem _ hj)) (by
            rw [n2]
            refine (hp.cons _).trans ?_
            rw [List.perm_iff_count]
            intro a
            simp only [List.count_append, List.count_cons, List.count_nil]
            omega)
        refine ⟨by omega, a2, a3, ?_, a5.imp id ?_⟩
        · intro j hj
          rw [a4 j (by
            rcases List.mem_append.mp hj with h | h
            · exact List.mem_append_left _ (List.mem_append_left _ h)
            · exact List.mem_append_right _ h)]
          exact n4 j (hp.symm.subset hj)
        · rintro ⟨new, w1, w2⟩
          refine ⟨h.next :: new, by rw [w1]; simp, ?_⟩
          have hids : ids (some i :: qs) = i :: ids qs := List.reduceOption_cons_of_some _ _
          rw [List.map_cons, w2, hids, List.map_cons]
          congr 1
          · rw [a4 h.next (List.mem_append_left _ (List.mem_append_right _ (List.mem_singleton.mpr rfl)))]
            exact n3
          · refine List.map_congr_left (fun j hj => ?_)
            exact n4 j (hp.symm.subset (List.mem_append_right _
              (hL j (List.mem_cons_of_mem _ ((mem_ids _ _).mp hj)))))

/-! ### The whole function -/

theorem start_mem {e : Env K} {h : Heap K} (hv : h.Valid) {i : ℕ} (hi : i ∈ h.live) (d : ℕ) (V : K)
    (t : ℕ) : Mem e (h.val i) (h.live.erase i) h.val d 0 [some i] ⟨h, [], [], V, true, t⟩ := by
  refine ⟨hv, ?_, fun _ _ => rfl, ?_, ?_, ?_, ?_, ?_, ?_, fun _ => rfl⟩
  · have : own [some i] (⟨h, [], [], V, true, t⟩ : St K) = [i] := rfl
    rw [this]
    exact List.perm_cons_erase hi
  · intro j hj
    have : j = i := by simpa using hj
    rw [this]; exact Cuts.start
  · intro j hj; cases hj
  · intro j hj; cases hj
  · intro j hj; cases hj
  · intro hf; cases hf
  · intro _ j hj
    have : j = i := by simpa using hj
    rw [this]

theorem after_levels {e : Env K} {h : Heap K} (hv : h.Valid) {i : ℕ} (hi : i ∈ h.live) (d : ℕ)
    (W : World e (h.val i)) :
    let r := levels e d [some i] ⟨h, [], [], 1, true, 1⟩
    1 ≤ r.2.t ∧ After e (h.val i) (h.live.erase i) h.val d r.1 r.2 := by
  refine levels_spec W d 0 [some i] ⟨h, [], [], 1, true, 1⟩ (by omega) rfl
    (start_mem hv hi d 1 1) (Or.inr ⟨?_, ?_, ?_⟩)
  · intro q hq
    have : q = some i := by simpa using hq
    rw [this]; simp
  · have : own [some i] (⟨h, [], [], 1, true, 1⟩ : St K) = [i] := rfl
    rw [this]
    exact ⟨by simp, by simp⟩
  · simp

/-- everything about the end of the function -/
theorem finish_spec {e : Env K} {v0 : VSet K} (W : World e v0) {R : List ℕ} {val0 : ℕ → VSet K}
    {d : ℕ} {ins : List (Option ℕ)} {st : St K} (a : After e v0 R val0 d ins st) :
    let o := finish e [] (ins, st)
    o.h.Valid ∧ o.pset = none ∧ o.h.live.Perm (o.hulls ++ R) ∧ (∀ j ∈ R, o.h.val j = val0 j) ∧
      (o.ran = false → o.hulls = [] ∧ ∃ t, e.cancel t = true) ∧
      (o.ran = true → Cont v0 o.h o.hulls ∧ o.hulls.length ≤ 2 ^ d ∧
        ∀ j ∈ o.hulls, ∃ n ≤ d, Cuts e v0 n (o.h.val j) ∧
          (n < d → ¬ TooConcave e (e.hullVol v0) (o.h.val j))) := by
  cases hc : e.cancel st.t with
  | true =>
    have ho : finish e [] (ins, st) = ⟨st.h.delAll (st.parts ++ ins), [], none, false⟩ := by
      unfold finish; simp only [hc, if_true]
    rw [ho]
    obtain ⟨d1, d2, d3, d4⟩ := delAll_spec _ _ _ a.valid a.perm
    exact ⟨d1, rfl, d2, fun j hj => by rw [d3]; exact a.frame j hj, fun _ => ⟨rfl, _, hc⟩,
      fun h => by cases h⟩
  | false =>
    obtain ⟨g1, g2, g3, g4⟩ := a.rest.resolve_left (by rw [hc]; simp)
    obtain ⟨b1, b2, b3, b4, b5⟩ := hullLoop_spec W.sticky (st.parts ++ ins) st.h [] (st.t + 1)
      (ids (st.parts ++ ins) ++ R) a.valid g1
      (fun i hi => List.mem_append_left _ ((mem_ids _ _).mpr hi)) a.perm
    set m := hullLoop e (st.parts ++ ins) st.h [] (st.t + 1) with hm
    obtain ⟨c1, c2, c3, c4⟩ := delAll_spec (st.parts ++ ins) m.1 (m.2.1 ++ R) b2 (by
      refine b3.trans ?_
      rw [List.perm_iff_count]
      intro x
      simp only [List.count_append]
      omega)
    cases hc' : e.cancel m.2.2 with
    | true =>
      have ho : finish e [] (ins, st) =
          ⟨(m.1.delAll (st.parts ++ ins)).delAll (m.2.1.map some), [], none, false⟩ := by
        unfold finish; simp only [hc, ← hm, hc', Bool.false_eq_true, if_false, if_true]
      rw [ho]
      obtain ⟨d1, d2, d3, d4⟩ := delAll_spec (m.2.1.map some) _ R c1 (by rw [ids_some]; exact c2)
      refine ⟨d1, rfl, d2, fun j hj => ?_, fun _ => ⟨rfl, _, hc'⟩, fun h => by cases h⟩
      rw [d3, c3, b4 j (List.mem_append_right _ (List.mem_append_right _ hj))]
      exact a.frame j hj
    | false =>
      have ho : finish e [] (ins, st) =
          ⟨m.1.delAll (st.parts ++ ins), m.2.1, none, true⟩ := by
        unfold finish; simp only [hc, ← hm, hc', Bool.false_eq_true, if_false]
      rw [ho]
      obtain ⟨new, w1, w2⟩ := b5.resolve_left (by rw [hc']; simp)
      rw [List.nil_append] at w1
      refine ⟨c1, rfl, c2, fun j hj => ?_, fun h => (by cases h), fun _ => ⟨?_, ?_, ?_⟩⟩
      · rw [c3, b4 j (List.mem_append_right _ (List.mem_append_right _ hj))]
        exact a.frame j hj
      · unfold Cont at g2 ⊢
        simp only [c3, w1]
        have f1 : new.map (fun i => places (m.1.val i)) =
            (ids (st.parts ++ ins)).map fun i => places (st.h.val i) := by
          have := congrArg (List.map places) w2
          simpa [List.map_map, Function.comp_def] using this
        have f2 : new.map (fun i => surface (m.1.val i)) =
            (ids (st.parts ++ ins)).map fun i => surface (st.h.val i) := by
          have := congrArg (List.map surface) w2
          simpa [List.map_map, Function.comp_def] using this
        rw [f1, f2]
        exact g2
      · simp only [w1]
        have := congrArg List.length w2
        simp only [List.length_map] at this
        rw [this]
        exact (List.reduceOption_length_le _).trans g3
      · intro j hj
        simp only [c3]
        simp only [w1] at hj
        have : m.1.val j ∈ (ids (st.parts ++ ins)).map st.h.val := by
          rw [← w2]; exact List.mem_map_of_mem hj
        obtain ⟨i, hi, he⟩ := List.mem_map.mp this
        rw [← he]
        exact g4 i ((mem_ids _ _).mp hi)

theorem acd_spec {e : Env K} (d : ℕ) {h : Heap K} {i : ℕ} (hv : h.Valid) (hi : i ∈ h.live)
    (W : World e (h.val i)) :
    let o := computeACD e d h [] (some i)
    o.h.Valid ∧ o.h.live.Perm (o.hulls ++ o.pset.toList ++ h.live.erase i) ∧
      (∀ j ∈ h.live.erase i, o.h.val j = h.val j) ∧
      (o.ran = false → o.hulls = [] ∧ ∃ t, e.cancel t = true) ∧
      (o.ran = true → o.pset = none ∧ Cont (h.val i) o.h o.hulls ∧ o.hulls.length ≤ 2 ^ d ∧
        ∀ j ∈ o.hulls, ∃ n ≤ d, Cuts e (h.val i) n (o.h.val j) ∧
          (n < d → ¬ TooConcave e (e.hullVol (h.val i)) (o.h.val j))) := by
  cases hc : e.cancel 0 with
  | true =>
    have ho : computeACD e d h [] (some i) = ⟨h, [], some i, false⟩ := by
      unfold computeACD; rw [if_pos hc]
    rw [ho]
    exact ⟨hv, List.perm_cons_erase hi, fun _ _ => rfl, fun _ => ⟨rfl, 0, hc⟩, fun h => by cases h⟩
  | false =>
    have ho : computeACD e d h [] (some i) =
        finish e [] (levels e d [some i] ⟨h, [], [], 1, true, 1⟩) := by
      unfold computeACD; rw [hc]; rfl
    rw [ho]
    obtain ⟨_, a⟩ := after_levels hv hi d W
    obtain ⟨f1, f2, f3, f4, f5, f6⟩ := finish_spec W a
    refine ⟨f1, ?_, f4, f5, fun hr => ⟨f2, f6 hr⟩⟩
    rw [f2]
    simpa using f3

/-- **C168.** Whenever the computation is cancelled: no object is deleted twice, used after its
deletion or through a null pointer, and no plane is used before it was found; when the function
returns, the only objects which were not there before are the hulls, the set of voxels is gone
(or, if the call returned at once, still owned by `m_pset`), and all others are unchanged.  If the
function returns early then it was cancelled, and it leaves no hulls. -/
theorem C168_memory (e : Env K) (d : ℕ) (h : Heap K) (i : ℕ) (hv : h.Valid) (hi : i ∈ h.live)
    (hs : Sticky e.cancel) (hE : ∀ v : VSet K, v.voxels = [] → e.hullVol v = 0)
    (hF : ∀ v : VSet K, v.voxels ≠ [] → ∀ t, ∃ p, e.plane t v = some p)
    (hC : Counted (h.val i)) :
    let o := computeACD e d h [] (some i)
    o.h.Valid ∧ o.h.live.Perm (o.hulls ++ o.pset.toList ++ h.live.erase i) ∧
      (∀ j ∈ h.live.erase i, o.h.val j = h.val j) ∧
      (o.ran = false → o.hulls = [] ∧ ∃ t, e.cancel t = true) := by
  obtain ⟨a1, a2, a3, a4, _⟩ := acd_spec d hv hi ⟨hs, hE, hF, hC⟩
  exact ⟨a1, a2, a3, a4⟩

/-- **C168.** If the function runs to its end then each voxel of the set is in exactly one of the
parts whose hulls are returned, at the same place; voxels on the surface stay on the surface of
their part; there are at most `2 ^ depth` hulls; and each part was obtained by at most `depth`
cuts of parts which were too concave, and is itself not too concave unless the depth was
reached. -/
theorem C168_parts (e : Env K) (d : ℕ) (h : Heap K) (i : ℕ) (hv : h.Valid) (hi : i ∈ h.live)
    (hs : Sticky e.cancel) (hE : ∀ v : VSet K, v.voxels = [] → e.hullVol v = 0)
    (hF : ∀ v : VSet K, v.voxels ≠ [] → ∀ t, ∃ p, e.plane t v = some p)
    (hC : Counted (h.val i)) (hr : (computeACD e d h [] (some i)).ran = true) :
    let o := computeACD e d h [] (some i)
    (o.hulls.map fun j => places (o.h.val j)).sum = places (h.val i) ∧
      surface (h.val i) ≤ (o.hulls.map fun j => surface (o.h.val j)).sum ∧
      o.hulls.length ≤ 2 ^ d ∧
      ∀ j ∈ o.hulls, ∃ n ≤ d, Cuts e (h.val i) n (o.h.val j) ∧
        (n < d → ¬ TooConcave e (e.hullVol (h.val i)) (o.h.val j)) := by
  obtain ⟨_, _, _, _, a5⟩ := acd_spec d hv hi ⟨hs, hE, hF, hC⟩
  obtain ⟨_, b2, b3, b4⟩ := a5 hr
  exact ⟨b2.1, b2.2, b3, b4⟩

/-! ### The depth -/

theorem depthLoop_spec (M : ℕ) (hM : M ≤ 2 ^ 31) : ∀ (fuel k : ℕ), k ≤ 31 → 32 ≤ fuel + k →
    depthLoop M fuel (2 ^ k) k = some (max k (Nat.clog 2 M)) := by
  intro fuel
  induction fuel with
  | zero => intro k h1 h2; omega
  | succ fuel ih =>
    intro k h1 h2
    rw [depthLoop]
    by_cases hlt : 2 ^ k < M
    · rw [if_pos hlt]
      have hk : k < 31 := (Nat.pow_lt_pow_iff_right (by norm_num : 1 < 2)).mp (lt_of_lt_of_le hlt hM)
      have e1 : 2 ^ k * 2 % 2 ^ 32 = 2 ^ (k + 1) := by
        rw [← pow_succ]
        exact Nat.mod_eq_of_lt (Nat.pow_lt_pow_right (by norm_num) (by omega))
      have e2 : (k + 1) % 2 ^ 32 = k + 1 := Nat.mod_eq_of_lt (by omega)
      rw [e1, e2, ih (k + 1) (by omega) (by omega)]
      have : k < Nat.clog 2 M := (Nat.lt_clog_iff_pow_lt (by norm_num)).mpr hlt
      congr 1
      omega
    · rw [if_neg hlt]
      have : Nat.clog 2 M ≤ k := (Nat.clog_le_iff_le_pow (by norm_num)).mpr (not_lt.mp hlt)
      congr 1
      omega

/-- **C168 (partial: at most 2³¹ hulls).** The depth is one more than the number of doublings
needed to reach the number `M` of hulls asked for, so there is room for twice that number, and
never more than four times that number of parts. -/
theorem C168_depth_partial (M : ℕ) (hM : M ≤ 2 ^ 31) (fuel : ℕ) (hf : 31 ≤ fuel) :
    ∃ d, depthOf fuel M = some d ∧ d = max 1 (Nat.clog 2 M) + 1 ∧ 2 * M ≤ 2 ^ d ∧
      2 ^ d ≤ 4 * max 1 M := by
  have h := depthLoop_spec M hM fuel 1 (by norm_num) (by omega)
  rw [pow_one] at h
  refine ⟨max 1 (Nat.clog 2 M) + 1, by rw [depthOf, h]; rfl, rfl, ?_, ?_⟩
  · have h1 : M ≤ 2 ^ Nat.clog 2 M := Nat.le_pow_clog (by norm_num) M
    have h2 : 2 ^ Nat.clog 2 M ≤ 2 ^ max 1 (Nat.clog 2 M) :=
      Nat.pow_le_pow_right (by norm_num) (le_max_right _ _)
    rw [pow_succ]
    omega
  · by_cases hM1 : M ≤ 2
    · have h1 : Nat.clog 2 M ≤ 1 := (Nat.clog_le_iff_le_pow (by norm_num)).mpr (by simpa using hM1)
      rw [max_eq_left h1]
      have : 1 ≤ max 1 M := le_max_left _ _
      omega
    · have h0 : 0 < Nat.clog 2 M := Nat.clog_pos (by norm_num) (by omega)
      have h1 : 2 ^ (Nat.clog 2 M - 1) < M :=
        (Nat.lt_clog_iff_pow_lt (by norm_num)).mp (by omega)
      rw [max_eq_right (by omega : 1 ≤ Nat.clog 2 M), max_eq_right (by omega : 1 ≤ M)]
      obtain ⟨c, hc⟩ : ∃ c, Nat.clog 2 M = c + 1 := ⟨Nat.clog 2 M - 1, by omega⟩
      rw [hc] at h1 ⊢
      simp only [Nat.add_sub_cancel] at h1
      rw [pow_succ, pow_succ]
      omega

/-- **C168 (violated).** Asked for more than 2³¹ hulls, for instance the largest number as "no
limit", the function never gets past the computation of the depth: the 32-bit count of hulls wraps
to zero and stays there. -/
theorem C168_violated_depth (M : ℕ) (h1 : 2 ^ 31 < M) (fuel : ℕ) : depthOf fuel M = none := by
  have key : ∀ (fuel c dep : ℕ), (c = 0 ∨ ∃ k ≤ 31, c = 2 ^ k) → depthLoop M fuel c dep = none := by
    intro fuel
    induction fuel with
    | zero => intro c dep _; rfl
    | succ fuel ih =>
      intro c dep hc
      rw [depthLoop]
      have hlt : c < M := by
        rcases hc with rfl | ⟨k, hk, rfl⟩
        · omega
        · exact lt_of_le_of_lt (Nat.pow_le_pow_right (by norm_num) hk) h1
      rw [if_pos hlt]
      refine ih _ _ ?_
      rcases hc with rfl | ⟨k, hk, rfl⟩
      · left; rfl
      · rw [← pow_succ]
        rcases Nat.lt_or_ge k 31 with h | h
        · right
          exact ⟨k + 1, by omega, Nat.mod_eq_of_lt (Nat.pow_lt_pow_right (by norm_num) (by omega))⟩
        · left
          have : k = 31 := by omega
          subst this
          norm_num
  rw [depthOf, key fuel 2 1 (Or.inr ⟨1, by norm_num, by norm_num⟩)]
  rfl

/-! ### A second computation -/

/-- **C168 (violated).** Computing again without `Clean` loses the hulls of the first
computation: they are still allocated, but no longer among the hulls. -/
theorem C168_violated_leak (e : Env K) (d : ℕ) (h : Heap K) (i : ℕ) (old : List ℕ) (hv : h.Valid)
    (hi : i ∈ h.live) (hs : Sticky e.cancel) (hE : ∀ v : VSet K, v.voxels = [] → e.hullVol v = 0)
    (hF : ∀ v : VSet K, v.voxels ≠ [] → ∀ t, ∃ p, e.plane t v = some p)
    (hC : Counted (h.val i)) (hold : ∀ j ∈ old, j ∈ h.live ∧ j ≠ i)
    (hr : (computeACD e d h old (some i)).ran = true) :
    ∀ j ∈ old, j ∈ (computeACD e d h old (some i)).h.live ∧
      j ∉ (computeACD e d h old (some i)).hulls := by
  have heq : computeACD e d h old (some i) = computeACD e d h [] (some i) := by
    unfold computeACD finish at hr ⊢
    simp only at hr ⊢
    split_ifs at hr ⊢ <;> first | rfl | (cases hr; done)
  rw [heq] at hr ⊢
  obtain ⟨a1, a2, _⟩ := acd_spec d hv hi ⟨hs, hE, hF, hC⟩
  intro j hj
  have hR : j ∈ h.live.erase i := (List.mem_erase_of_ne (hold j hj).2).mpr (hold j hj).1
  refine ⟨a2.symm.subset (List.mem_append_right _ hR), fun hm => ?_⟩
  have hnd := a2.nodup_iff.mp a1.2.1
  exact (List.disjoint_of_nodup_append hnd) (List.mem_append_left _ hm) hR

/-! ### Examples -/

/-- two voxels, hull volumes of three for the pair, and cuts between them -/
def exEnv (c : ℕ → Bool) : Env ℚ where
  cancel := c
  hullVol s := if s.voxels.length = 2 then 6 else s.voxels.length
  plane _ _ := some ⟨1, 0, 0, -1 / 2⟩
  concavity := 1 / 1000
  refine := true
  slack := 101 / 100

def exHeap : Heap ℚ :=
  ⟨2, [0, 1], fun _ => ⟨[⟨0, 0, 0, true⟩, ⟨3, 0, 0, true⟩], 0, 0, 0, 1, 1, 2, 0⟩, true⟩

/-- a run to the end and a run which is cancelled after eight reads of the flag -/
example : let o := computeACD (exEnv fun _ => false) 3 exHeap [] (some 1)
    o.ran = true ∧ o.hulls = [4, 5] ∧ o.h.live = [5, 4, 0] ∧ o.h.ok = true ∧
      (o.h.val 4).voxels = [⟨0, 0, 0, true⟩] ∧ (o.h.val 5).voxels = [⟨3, 0, 0, true⟩] := by
  decide +kernel

example : let o := computeACD (exEnv fun n => decide (8 ≤ n)) 3 exHeap [] (some 1)
    o.ran = false ∧ o.hulls = [] ∧ o.h.live = [0] ∧ o.h.ok = true := by decide +kernel

/-- the hypotheses hold for it, and for a cancellation at any moment -/
example (k : ℕ) : let e := exEnv fun n => decide (k ≤ n)
    exHeap.Valid ∧ 1 ∈ exHeap.live ∧ Sticky e.cancel ∧
      (∀ v : VSet ℚ, v.voxels = [] → e.hullVol v = 0) ∧
      (∀ v : VSet ℚ, v.voxels ≠ [] → ∀ t, ∃ p, e.plane t v = some p) ∧ Counted (exHeap.val 1) := by
  refine ⟨⟨rfl, by decide +kernel, by decide +kernel⟩, by decide +kernel, ?_, ?_, ?_, ?_⟩
  · intro m n hmn hm
    simp only [exEnv, decide_eq_true_eq] at *
    omega
  · intro v hv; simp [exEnv, hv]
  · intro v _ t; exact ⟨_, rfl⟩
  · exact ⟨by decide +kernel, by decide +kernel⟩

example : depthOf 40 32 = some 6 ∧ depthOf 40 1024 = some 11 := by decide +kernel

example : let o := computeACD (exEnv fun _ => false) 3 exHeap [0] (some 1)
    o.ran = true ∧ 0 ∈ o.h.live ∧ 0 ∉ o.hulls := by decide +kernel

end Verif.Decompose
