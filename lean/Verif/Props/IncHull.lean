import Verif.Props.MeshVolume
import Verif.Model.IncHull

set_option linter.unusedSectionVars false
set_option linter.unusedVariables false

/-!
# C180: adding points to the incremental hull

Specification: closed surfaces, their signed volume (both as in C172), and edges that are run through once in each direction.
-/

namespace Verif.IncHull

open Verif.Voxel (V3)
open Verif.MeshVol (Tri vol4 det edges signed pt vol4_det Closed signed_indep Mesh edges_append)

variable {K : Type} [Field K] [LinearOrder K] [IsStrictOrderedRing K] [FloorRing K]

/-! ### Edges -/

theorem edges_eq (ts : List Tri) : ts.flatMap triEdges = edges ts := rfl

theorem ends_perm (ts : List Tri) : ((edges ts).map Prod.fst).Perm ((edges ts).map Prod.snd) := by
  induction ts with
  | nil => exact List.Perm.refl _
  | cons t ts ih =>
    have h : edges (t :: ts) = [(t.1, t.2.1), (t.2.1, t.2.2), (t.2.2, t.1)] ++ edges ts := rfl
    rw [h, List.map_append, List.map_append]
    refine List.Perm.append ?_ ih
    show [t.1, t.2.1, t.2.2].Perm [t.2.1, t.2.2, t.1]
    exact (List.perm_append_comm (l₁ := [t.1]) (l₂ := [t.2.1, t.2.2]))

theorem swap_nodup {l : List (ℕ × ℕ)} (h : l.Nodup) : (l.map Prod.swap).Nodup := h.map Prod.swap_injective

theorem filter_perm {α : Type*} (l : List α) (q : α → Bool) : (l.filter q ++ l.filter fun x => !q x).Perm l :=
  List.filter_append_perm q l

/-- A border has as many edges out of a vertex as into it. -/
theorem border_balance {vis : List Tri} (hn : (edges vis).Nodup) : ((border vis).map Prod.fst).Perm ((border vis).map Prod.snd) := by
  set V := edges vis with hV
  have hsplit := filter_perm V fun e => decide ((e.2, e.1) ∈ V)
  have hB : border vis = V.filter fun e => !decide ((e.2, e.1) ∈ V) := rfl
  set N := V.filter fun e => decide ((e.2, e.1) ∈ V) with hN
  rw [← hB] at hsplit
  have hNN : N.Nodup := hn.filter _
  have hsw : (N.map Prod.swap).Perm N := by
    rw [List.perm_ext_iff_of_nodup (swap_nodup hNN) hNN]
    intro e
    have hmem : ∀ e, e ∈ N ↔ e ∈ V ∧ (e.2, e.1) ∈ V := fun e => by rw [hN, List.mem_filter, decide_eq_true_iff]
    rw [List.mem_map]
    constructor
    · rintro ⟨x, hx, rfl⟩
      have := (hmem x).1 hx
      exact (hmem _).2 ⟨this.2, this.1⟩
    · intro he
      have := (hmem e).1 he
      exact ⟨(e.2, e.1), (hmem _).2 ⟨this.2, this.1⟩, rfl⟩
  have hNb : (N.map Prod.fst).Perm (N.map Prod.snd) := by
    have := hsw.symm.map Prod.fst
    rw [List.map_map] at this
    exact this
  have hall : ((N ++ border vis).map Prod.fst).Perm ((N ++ border vis).map Prod.snd) :=
    (hsplit.map Prod.fst).trans ((ends_perm vis).trans (hsplit.map Prod.snd).symm)
  rw [List.map_append, List.map_append] at hall
  exact (List.perm_append_left_iff _).1 ((List.Perm.append_right _ hNb).symm.trans hall)

theorem cone_edges (p : ℕ) : ∀ B : List (ℕ × ℕ), (edges (B.map fun e => (e.1, e.2, p))).Perm (B ++ (B.map fun e => (e.2, p)) ++ B.map fun e => (p, e.1))
  | [] => List.Perm.refl _
  | e :: B => by
    have ih := cone_edges p B
    have h : edges ((e :: B).map fun e => (e.1, e.2, p)) = e :: (e.2, p) :: (p, e.1) :: edges (B.map fun e => (e.1, e.2, p)) := rfl
    rw [h]
    simp only [List.map_cons, List.cons_append]
    refine List.Perm.cons _ ?_
    refine ((((ih.cons (p, e.1)).cons (e.2, p)))).trans ?_
    simp only [List.append_assoc, List.cons_append]
    refine List.Perm.trans ?_ (List.perm_middle (l₁ := B)).symm
    refine List.Perm.cons _ ?_
    rw [← List.append_assoc, ← List.append_assoc]
    exact (List.perm_middle).symm

/-- What the step does to the surface. -/
theorem process_eq {eps : K} {pts : List (V3 K)} {p : ℕ} {ts new : List Tri} (h : processPoint eps pts p ts = some new) :
    new = ts.filter (fun t => !visible eps pts (pos pts p) t) ++ (border (ts.filter (visible eps pts (pos pts p)))).map fun e => (e.1, e.2, p) := by
  unfold processPoint at h
  simp only at h
  by_cases hc : ts.filter (visible eps pts (pos pts p)) = [] ∨ (ts.filter (visible eps pts (pos pts p))).length = ts.length
  · rw [if_pos hc] at h; cases h
  · rw [if_neg hc] at h; exact (Option.some.inj h).symm

/-- **C180** A closed surface stays closed when a point is added, whatever the point and the surface. -/
theorem C180_closed {eps : K} {pts : List (V3 K)} {p : ℕ} {ts new : List Tri} (h : processPoint eps pts p ts = some new)
    (hc : Closed (⟨pts, ts⟩ : Mesh K)) (hn : (edges ts).Nodup) : Closed (⟨pts, new⟩ : Mesh K) := by
  rw [process_eq h]
  set vis := ts.filter (visible eps pts (pos pts p)) with hvis
  set inv := ts.filter (fun t => !visible eps pts (pos pts p) t) with hinv
  have hts : (inv ++ vis).Perm ts := List.perm_append_comm.trans (filter_perm ts _)
  have hE : (edges inv ++ edges vis).Perm (edges ts) := by
    rw [← edges_append]
    exact hts.flatMap_right _
  have hn' : (edges inv ++ edges vis).Nodup := hE.nodup_iff.2 hn
  have hnv : (edges vis).Nodup := (List.nodup_append.1 hn').2.1
  have hcl : ∀ e, e ∈ edges inv ++ edges vis → (e.2, e.1) ∈ edges inv ++ edges vis := by
    intro e he
    have h1 : e ∈ (edges ts).map Prod.swap := hc.mem_iff.1 (hE.mem_iff.1 he)
    obtain ⟨x, hx, rfl⟩ := List.mem_map.1 h1
    exact hE.mem_iff.2 hx
  have hBsub : (border vis).Sublist (edges vis) := List.filter_sublist
  have hBmem : ∀ e, e ∈ border vis ↔ e ∈ edges vis ∧ (e.2, e.1) ∉ edges vis := fun e => by
    unfold border
    rw [List.mem_filter, Bool.not_eq_true', decide_eq_false_iff_not]; rfl
  have hnB : (edges inv ++ border vis).Nodup := hn'.sublist (List.Sublist.append_left hBsub _)
  have hdis : ∀ e, e ∈ edges inv → e ∉ edges vis := fun e h1 h2 => (List.nodup_append.1 hn').2.2 e h1 e h2 rfl
  have hswap : (edges inv ++ border vis).Perm ((edges inv ++ border vis).map Prod.swap) := by
    rw [List.perm_ext_iff_of_nodup hnB (swap_nodup hnB)]
    have key : ∀ e, e ∈ edges inv ++ border vis → (e.2, e.1) ∈ edges inv ++ border vis := by
      intro e he
      rcases List.mem_append.1 he with he | he
      · rcases List.mem_append.1 (hcl e (List.mem_append_left _ he)) with h1 | h1
        · exact List.mem_append_left _ h1
        · exact List.mem_append_right _ ((hBmem _).2 ⟨h1, hdis e he⟩)
      · obtain ⟨h1, h2⟩ := (hBmem e).1 he
        rcases List.mem_append.1 (hcl e (List.mem_append_right _ h1)) with h3 | h3
        · exact List.mem_append_left _ h3
        · exact absurd h3 h2
    intro e
    rw [List.mem_map]
    constructor
    · intro he; exact ⟨(e.2, e.1), key e he, rfl⟩
    · rintro ⟨x, hx, rfl⟩; exact key x hx
  have hbal := border_balance hnv
  have hnew : (edges (inv ++ (border vis).map fun e => (e.1, e.2, p))).Perm
      ((edges inv ++ border vis) ++ (((border vis).map fun e => (e.2, p)) ++ (border vis).map fun e => (p, e.1))) := by
    rw [edges_append]
    refine ((cone_edges p (border vis)).append_left _).trans ?_
    simp only [List.append_assoc]
    exact List.Perm.refl _
  unfold Closed
  refine hnew.trans (List.Perm.trans ?_ (hnew.map Prod.swap).symm)
  rw [List.map_append]
  refine List.Perm.append hswap ?_
  rw [List.map_append, List.map_map, List.map_map]
  have ha : ((border vis).map (Prod.swap ∘ fun e => (e.2, p))).Perm ((border vis).map fun e => (p, e.1)) := by
    have := (hbal.map fun v => (p, v)).symm
    rw [List.map_map, List.map_map] at this
    exact this
  have hb : ((border vis).map (Prod.swap ∘ fun e => (p, e.1))).Perm ((border vis).map fun e => (e.2, p)) := by
    have := hbal.map fun v => (v, p)
    rw [List.map_map, List.map_map] at this
    exact this
  exact (List.perm_append_comm).trans ((List.Perm.append ha hb).symm)

theorem edge_ends {ts : List Tri} {e : ℕ × ℕ} (he : e ∈ edges ts) : ∃ t ∈ ts, (e.1 = t.1 ∨ e.1 = t.2.1 ∨ e.1 = t.2.2) ∧ (e.2 = t.1 ∨ e.2 = t.2.1 ∨ e.2 = t.2.2) := by
  rw [← edges_eq] at he
  obtain ⟨t, ht, h⟩ := List.mem_flatMap.1 he
  refine ⟨t, ht, ?_⟩
  unfold triEdges at h
  simp only [List.mem_cons, List.not_mem_nil, or_false] at h
  rcases h with rfl | rfl | rfl <;> simp

/-- **C180** No edge is run through twice in the same direction after a new point was added, if the border of the visible
part passes no vertex twice; so further points can be added. -/
theorem C180_simple {eps : K} {pts : List (V3 K)} {p : ℕ} {ts new : List Tri} (h : processPoint eps pts p ts = some new)
    (hn : (edges ts).Nodup) (hp : ∀ t ∈ ts, p ≠ t.1 ∧ p ≠ t.2.1 ∧ p ≠ t.2.2)
    (hb : ((border (ts.filter (visible eps pts (pos pts p)))).map Prod.fst).Nodup) : (edges new).Nodup := by
  rw [process_eq h]
  set vis := ts.filter (visible eps pts (pos pts p)) with hvis
  set inv := ts.filter (fun t => !visible eps pts (pos pts p) t) with hinv
  have hts : (inv ++ vis).Perm ts := List.perm_append_comm.trans (filter_perm ts _)
  have hE : (edges inv ++ edges vis).Perm (edges ts) := by
    rw [← edges_append]
    exact hts.flatMap_right _
  have hn' : (edges inv ++ edges vis).Nodup := hE.nodup_iff.2 hn
  have hnv : (edges vis).Nodup := (List.nodup_append.1 hn').2.1
  have hBsub : (border vis).Sublist (edges vis) := List.filter_sublist
  have hsub : (edges inv ++ border vis).Sublist (edges inv ++ edges vis) := List.Sublist.append_left hBsub _
  have hfree : ∀ e ∈ edges inv ++ border vis, e.1 ≠ p ∧ e.2 ≠ p := by
    intro e he
    obtain ⟨t, ht, h1, h2⟩ := edge_ends (hE.mem_iff.1 (hsub.subset he))
    obtain ⟨p1, p2, p3⟩ := hp t ht
    constructor
    · rcases h1 with h1 | h1 | h1 <;> rw [h1]
      exacts [p1.symm, p2.symm, p3.symm]
    · rcases h2 with h2 | h2 | h2 <;> rw [h2]
      exacts [p1.symm, p2.symm, p3.symm]
  have hb2 : ((border vis).map Prod.snd).Nodup := (border_balance hnv).nodup_iff.1 hb
  have hnew : (edges (inv ++ (border vis).map fun e => (e.1, e.2, p))).Perm
      ((edges inv ++ border vis) ++ (((border vis).map fun e => (e.2, p)) ++ (border vis).map fun e => (p, e.1))) := by
    rw [edges_append]
    refine ((cone_edges p (border vis)).append_left _).trans ?_
    simp only [List.append_assoc]
    exact List.Perm.refl _
  rw [hnew.nodup_iff]
  refine List.nodup_append.2 ⟨hn'.sublist hsub, List.nodup_append.2 ⟨?_, ?_, ?_⟩, ?_⟩
  · have := hb2.map (f := fun v => (v, p)) fun a b hab => (Prod.ext_iff.1 hab).1
    rw [List.map_map] at this
    exact this
  · have := hb.map (f := fun v => (p, v)) fun a b hab => (Prod.ext_iff.1 hab).2
    rw [List.map_map] at this
    exact this
  · intro a ha b hb' hab
    obtain ⟨x, hx, rfl⟩ := List.mem_map.1 ha
    obtain ⟨y, hy, rfl⟩ := List.mem_map.1 hb'
    exact (hfree x (List.mem_append_right _ hx)).2 (Prod.ext_iff.1 hab).1
  · intro a ha b hb' hab
    subst hab
    rcases List.mem_append.1 hb' with hm | hm
    · obtain ⟨x, hx, rfl⟩ := List.mem_map.1 hm
      exact (hfree _ ha).2 rfl
    · obtain ⟨x, hx, rfl⟩ := List.mem_map.1 hm
      exact (hfree _ ha).1 rfl

/-- **C180** The first surface, a triangle with both of its sides, is closed and has no volume. -/
theorem C180_start (pts : List (V3 K)) {a b c : ℕ} (hab : a ≠ b) (hbc : b ≠ c) (hca : c ≠ a) (o : V3 K) :
    Closed (⟨pts, start a b c⟩ : Mesh K) ∧ (edges (start a b c)).Nodup ∧ signed (⟨pts, start a b c⟩ : Mesh K) o = 0 := by
  unfold start
  have hnd : (edges [(a, b, c), (c, b, a)]).Nodup := by
    show [(a, b), (b, c), (c, a), (c, b), (b, a), (a, c)].Nodup
    simp only [List.nodup_cons, List.mem_cons, List.not_mem_nil, Prod.mk.injEq, or_false, not_or, not_and, not_false_eq_true, List.nodup_nil, and_true]
    refine ⟨⟨?_, ?_, ?_, ?_, ?_⟩, ⟨?_, ?_, ?_, ?_⟩, ⟨?_, ?_, ?_⟩, ⟨?_, ?_⟩, ?_⟩ <;> (intros; omega)
  refine ⟨?_, hnd, ?_⟩
  · unfold Closed
    rw [List.perm_ext_iff_of_nodup hnd (swap_nodup hnd)]
    rintro ⟨x, y⟩
    show (x, y) ∈ [(a, b), (b, c), (c, a), (c, b), (b, a), (a, c)] ↔ (x, y) ∈ [(b, a), (c, b), (a, c), (b, c), (a, b), (c, a)]
    simp only [List.mem_cons, List.not_mem_nil, or_false]
    tauto
  · unfold signed
    simp only [List.map_cons, List.map_nil, List.sum_cons, List.sum_nil]
    unfold det
    ring

/-! ### Volume -/

theorem pointVolume_eq (eps : K) (pts : List (V3 K)) (p : V3 K) (ts : List Tri) : ∀ s : K,
    ts.foldl (fun s t => if visible eps pts p t then s + |vol pts p t| else s) s = s + ((ts.filter (visible eps pts p)).map fun t => |vol pts p t|).sum := by
  induction ts with
  | nil => intro s; simp
  | cons t ts ih =>
    intro s
    rw [List.foldl_cons, ih]
    by_cases h : visible eps pts p t = true
    · rw [if_pos h, List.filter_cons_of_pos h, List.map_cons, List.sum_cons, add_assoc]
    · rw [if_neg h, List.filter_cons_of_neg h]

theorem vol_det (pts : List (V3 K)) (p : V3 K) (t : Tri) : vol pts p t = det (pt pts t.1) (pt pts t.2.1) (pt pts t.2.2) p := vol4_det _ _ _ _

theorem sum_split {α : Type*} (f : α → K) (q : α → Bool) (l : List α) : (l.map f).sum = ((l.filter fun x => !q x).map f).sum + ((l.filter q).map f).sum := by
  have := ((filter_perm l q).map f).sum_eq
  rw [List.map_append, List.sum_append] at this
  rw [← this, add_comm]

/-- **C180** Adding a point adds just the volume that was computed for it, divided by six, and some volume if the constant
for visibility is not negative; the volume does not depend on where it is seen from. -/
theorem C180_volume {eps : K} {pts : List (V3 K)} {p : ℕ} {ts new : List Tri} (h : processPoint eps pts p ts = some new)
    (hc : Closed (⟨pts, ts⟩ : Mesh K)) (hn : (edges ts).Nodup) (he : 0 ≤ eps) (o : V3 K) :
    signed (⟨pts, new⟩ : Mesh K) o = signed (⟨pts, ts⟩ : Mesh K) o + pointVolume eps pts (pos pts p) ts / 6
    ∧ 0 < pointVolume eps pts (pos pts p) ts := by
  have hnew := process_eq h
  have hcl := C180_closed h hc hn
  have hne : ts.filter (visible eps pts (pos pts p)) ≠ [] := by
    intro h0
    unfold processPoint at h
    simp only at h
    rw [if_pos (Or.inl h0)] at h; cases h
  have hneg : ∀ t ∈ ts.filter (visible eps pts (pos pts p)), |vol pts (pos pts p) t| = -vol pts (pos pts p) t ∧ 0 < |vol pts (pos pts p) t| := by
    intro t ht
    have := (List.mem_filter.1 ht).2
    unfold visible at this
    rw [decide_eq_true_iff] at this
    have hlt : vol pts (pos pts p) t < 0 := lt_of_lt_of_le this (neg_nonpos.2 he)
    exact ⟨abs_of_neg hlt, abs_pos.2 (ne_of_lt hlt)⟩
  have hpv : pointVolume eps pts (pos pts p) ts = ((ts.filter (visible eps pts (pos pts p))).map fun t => |vol pts (pos pts p) t|).sum := by
    unfold pointVolume; rw [pointVolume_eq, zero_add]
  constructor
  · rw [signed_indep hcl o (pos pts p), signed_indep hc o (pos pts p), hpv]
    unfold signed
    simp only
    rw [hnew, List.map_append, List.sum_append]
    have hcone : (((border (ts.filter (visible eps pts (pos pts p)))).map fun e => (e.1, e.2, p)).map fun t : Tri => det (pt pts t.1) (pt pts t.2.1) (pt pts t.2.2) (pos pts p)).sum = 0 := by
      rw [List.map_map]
      apply List.sum_eq_zero
      intro x hx
      obtain ⟨e, -, rfl⟩ := List.mem_map.1 hx
      show det _ _ (pt pts p) (pos pts p) = 0
      have : pos pts p = pt pts p := rfl
      rw [this]
      unfold det
      ring
    rw [hcone, sum_split (fun t : Tri => det (pt pts t.1) (pt pts t.2.1) (pt pts t.2.2) (pos pts p)) (visible eps pts (pos pts p)) ts]
    have habs : ((ts.filter (visible eps pts (pos pts p))).map fun t => |vol pts (pos pts p) t|).sum
        = -((ts.filter (visible eps pts (pos pts p))).map fun t : Tri => det (pt pts t.1) (pt pts t.2.1) (pt pts t.2.2) (pos pts p)).sum := by
      rw [← MeshVol.sum_neg]
      congr 1
      apply List.map_congr_left
      intro t ht
      rw [(hneg t ht).1, vol_det]
    rw [habs]
    ring
  · rw [hpv]
    apply List.sum_pos
    · intro x hx
      obtain ⟨t, ht, rfl⟩ := List.mem_map.1 hx
      exact (hneg t ht).2
    · simpa using hne

/-- **C180** A point is dropped just if it sees no triangle, so that it is inside up to the constant, or all of them. -/
theorem C180_dropped (eps : K) (pts : List (V3 K)) (p : ℕ) (ts : List Tri) :
    processPoint eps pts p ts = none ↔
      (∀ t ∈ ts, -eps ≤ det (pt pts t.1) (pt pts t.2.1) (pt pts t.2.2) (pt pts p)) ∨ ∀ t ∈ ts, det (pt pts t.1) (pt pts t.2.1) (pt pts t.2.2) (pt pts p) < -eps := by
  have h1 : ts.filter (visible eps pts (pos pts p)) = [] ↔ ∀ t ∈ ts, -eps ≤ det (pt pts t.1) (pt pts t.2.1) (pt pts t.2.2) (pt pts p) := by
    rw [List.filter_eq_nil_iff]
    apply forall₂_congr
    intro t _
    unfold visible
    rw [decide_eq_true_iff, not_lt, vol_det]; rfl
  have h2 : (ts.filter (visible eps pts (pos pts p))).length = ts.length ↔ ∀ t ∈ ts, det (pt pts t.1) (pt pts t.2.1) (pt pts t.2.2) (pt pts p) < -eps := by
    rw [List.length_filter_eq_length_iff]
    apply forall₂_congr
    intro t _
    unfold visible
    rw [decide_eq_true_iff, vol_det]; rfl
  rw [← h1, ← h2]
  unfold processPoint
  simp only
  by_cases hc : ts.filter (visible eps pts (pos pts p)) = [] ∨ (ts.filter (visible eps pts (pos pts p))).length = ts.length
  · rw [if_pos hc]; exact ⟨fun _ => hc, fun _ => rfl⟩
  · rw [if_neg hc]; exact ⟨fun h => (Option.some_ne_none _ h).elim, fun h => absurd h hc⟩

/-! ### The choice -/

theorem find_spec (eps : K) (pts : List (V3 K)) (ts : List Tri) (ws : List ℕ) : ∀ best : K × Option ℕ,
    let r := ws.foldl (findStep eps pts ts) best
    best.1 ≤ r.1 ∧ (∀ v ∈ ws, pointVolume eps pts (pos pts v) ts ≤ r.1)
    ∧ (r = best ∨ ∃ v ∈ ws, r = (pointVolume eps pts (pos pts v) ts, some v) ∧ best.1 < r.1) := by
  induction ws with
  | nil => intro best; exact ⟨le_refl _, fun _ h => (List.not_mem_nil h).elim, Or.inl rfl⟩
  | cons w ws ih =>
    intro best
    rw [List.foldl_cons]
    obtain ⟨i1, i2, i3⟩ := ih (findStep eps pts ts best w)
    have hs : best.1 ≤ (findStep eps pts ts best w).1 ∧ pointVolume eps pts (pos pts w) ts ≤ (findStep eps pts ts best w).1
        ∧ (findStep eps pts ts best w = best ∨ findStep eps pts ts best w = (pointVolume eps pts (pos pts w) ts, some w) ∧ best.1 < (findStep eps pts ts best w).1) := by
      unfold findStep
      simp only
      by_cases h : best.1 < pointVolume eps pts (pos pts w) ts
      · rw [if_pos h]; exact ⟨h.le, le_refl _, Or.inr ⟨rfl, h⟩⟩
      · rw [if_neg h]; exact ⟨le_refl _, not_lt.1 h, Or.inl rfl⟩
    refine ⟨hs.1.trans i1, ?_, ?_⟩
    · intro v hv
      rcases List.mem_cons.1 hv with rfl | hv
      · exact hs.2.1.trans i1
      · exact i2 v hv
    · rcases i3 with h | ⟨v, hv, h1, h2⟩
      · rcases hs.2.2 with h' | ⟨h', hlt⟩
        · exact Or.inl (h.trans h')
        · right
          refine ⟨w, List.mem_cons_self, h.trans h', ?_⟩
          rw [h]; exact hlt
      · exact Or.inr ⟨v, List.mem_cons_of_mem _ hv, h1, lt_of_le_of_lt hs.1 h2⟩

/-- **C180** The vertex chosen is one that adds the most volume, more than a sixth of the least volume asked for; if there
is none, no vertex adds more than that. -/
theorem C180_choice (eps : K) (pts : List (V3 K)) (ts : List Tri) (minVolume : K) (ws : List ℕ) :
    (∀ v, findMax eps pts ts minVolume ws = some v → v ∈ ws ∧ minVolume < pointVolume eps pts (pos pts v) ts
      ∧ ∀ w ∈ ws, pointVolume eps pts (pos pts w) ts ≤ pointVolume eps pts (pos pts v) ts)
    ∧ (findMax eps pts ts minVolume ws = none ↔ ∀ w ∈ ws, pointVolume eps pts (pos pts w) ts ≤ minVolume) := by
  obtain ⟨h1, h2, h3⟩ := find_spec eps pts ts ws (minVolume, none)
  unfold findMax
  rcases h3 with h3 | ⟨v, hv, h4, h5⟩
  · rw [h3] at h1 h2 ⊢
    refine ⟨fun v h => (Option.some_ne_none _ h.symm).elim, fun _ => h2, fun _ => rfl⟩
  · rw [h4] at h1 h2 h5 ⊢
    refine ⟨fun w hw => ?_, fun h => (Option.some_ne_none _ h).elim, fun h => absurd (h v hv) (not_le.2 h5)⟩
    have := Option.some.inj hw
    subst this
    exact ⟨hv, h5, h2⟩

/-! ### The loop -/

/-- **C180** Whatever points wait, in whatever order, and however many are allowed: if the loop ends without an error, the
surface is closed, has each edge once in each direction and encloses no less than before. -/
theorem C180_loop {eps : K} (he : 0 ≤ eps) (pts : List (V3 K)) (minVolume : K) (n : ℕ) (o : V3 K) : ∀ (fuel added : ℕ) (ts : List Tri) (ws : List ℕ) {r : List Tri},
    loop eps pts minVolume n fuel added ts ws = some r → Closed (⟨pts, ts⟩ : Mesh K) → (edges ts).Nodup →
    Closed (⟨pts, r⟩ : Mesh K) ∧ (edges r).Nodup ∧ signed (⟨pts, ts⟩ : Mesh K) o ≤ signed (⟨pts, r⟩ : Mesh K) o := by
  intro fuel
  induction fuel with
  | zero =>
    intro added ts ws r h hc hn
    have := Option.some.inj h
    subst this
    exact ⟨hc, hn, le_refl _⟩
  | succ fuel ih =>
    intro added ts ws r h hc hn
    unfold loop at h
    split at h
    · have := Option.some.inj h
      subst this
      exact ⟨hc, hn, le_refl _⟩
    · split at h
      · have := Option.some.inj h
        subst this
        exact ⟨hc, hn, le_refl _⟩
      · split at h
        · exact ih _ _ _ h hc hn
        · rename_i new hnew
          split at h
          · rename_i hnd
            obtain ⟨h1, h2, h3⟩ := ih _ _ _ h (C180_closed hnew hc hn) hnd
            obtain ⟨h4, h5⟩ := C180_volume hnew hc hn he o
            refine ⟨h1, h2, le_trans ?_ h3⟩
            rw [h4]
            exact le_add_of_nonneg_right (div_nonneg h5.le (by norm_num))
          · cases h

theorem mem_corners {ts : List Tri} {x : ℕ} : x ∈ corners ts ↔ ∃ t ∈ ts, x = t.1 ∨ x = t.2.1 ∨ x = t.2.2 := by
  unfold corners
  rw [List.mem_dedup, List.mem_flatMap]
  simp only [List.mem_cons, List.not_mem_nil, or_false]

theorem corners_new {eps : K} {pts : List (V3 K)} {p : ℕ} {ts new : List Tri} (h : processPoint eps pts p ts = some new) {x : ℕ}
    (hx : x ∈ corners new) : x = p ∨ x ∈ corners ts := by
  rw [process_eq h] at hx
  obtain ⟨t, ht, hxt⟩ := mem_corners.1 hx
  rcases List.mem_append.1 ht with ht | ht
  · exact Or.inr (mem_corners.2 ⟨t, (List.mem_filter.1 ht).1, hxt⟩)
  · obtain ⟨e, he, rfl⟩ := List.mem_map.1 ht
    have he' : e ∈ edges (ts.filter (visible eps pts (pos pts p))) := (List.filter_sublist (p := _)).subset he
    obtain ⟨t', ht', h1, h2⟩ := edge_ends he'
    have hm := (List.mem_filter.1 ht').1
    rcases hxt with rfl | rfl | rfl
    · exact Or.inr (mem_corners.2 ⟨t', hm, h1⟩)
    · exact Or.inr (mem_corners.2 ⟨t', hm, h2⟩)
    · exact Or.inl rfl

/-- One step adds one vertex and takes away those that are no longer on the surface. -/
theorem corners_count {eps : K} {pts : List (V3 K)} {p : ℕ} {ts new : List Tri} (h : processPoint eps pts p ts = some new) :
    (corners new).length + ((corners ts).filter fun x => !decide (x ∈ corners new)).length ≤ (corners ts).length + 1 := by
  have hsub : corners new ⊆ p :: (corners ts).filter fun x => decide (x ∈ corners new) := by
    intro x hx
    rcases corners_new h hx with rfl | hx'
    · exact List.mem_cons_self
    · exact List.mem_cons_of_mem _ (List.mem_filter.2 ⟨hx', by simpa using hx⟩)
  have hnd : (corners new).Nodup := List.nodup_dedup _
  have hlen := (hnd.subperm hsub).length_le
  have hsum := (filter_perm (corners ts) fun x => decide (x ∈ corners new)).length_eq
  rw [List.length_append] at hsum
  rw [List.length_cons] at hlen
  omega

/-- **C180** A simplified hull has no more vertices than allowed. -/
theorem C180_limit (eps : K) (pts : List (V3 K)) (minVolume : K) (n : ℕ) : ∀ (fuel added : ℕ) (ts : List Tri) (ws : List ℕ) {r : List Tri},
    loop eps pts minVolume n fuel added ts ws = some r → (corners ts).length ≤ added → added ≤ n → (corners r).length ≤ n := by
  intro fuel
  induction fuel with
  | zero =>
    intro added ts ws r h h1 h2
    have := Option.some.inj h
    subst this
    exact h1.trans h2
  | succ fuel ih =>
    intro added ts ws r h h1 h2
    unfold loop at h
    split at h
    · have := Option.some.inj h
      subst this
      exact h1.trans h2
    · rename_i hlt
      split at h
      · have := Option.some.inj h
        subst this
        exact h1.trans h2
      · split at h
        · exact ih _ _ _ h h1 h2
        · rename_i new hnew
          split at h
          · have := corners_count hnew
            exact ih _ _ _ h (by omega) (by omega)
          · cases h

/-- **C180** Once more than four points were added, the surface is left as it is if no point that waits adds more than a sixth
of the least volume. -/
theorem C180_stop (eps : K) (pts : List (V3 K)) (minVolume : K) (n fuel : ℕ) {added : ℕ} (ts : List Tri) (ws : List ℕ) (ha : 4 < added)
    (hw : ∀ w ∈ ws, pointVolume eps pts (pos pts w) ts ≤ minVolume) : loop eps pts minVolume n fuel added ts ws = some ts := by
  cases fuel with
  | zero => rfl
  | succ fuel =>
    unfold loop
    rw [if_pos ha, (C180_choice eps pts ts minVolume ws).2.2 hw]
    simp only
    split <;> rfl

/-! ### Examples -/

/-- A tetrahedron and two points outside of it. -/
def exPts : List (V3 ℚ) := [⟨0, 0, 0⟩, ⟨1, 0, 0⟩, ⟨0, 1, 0⟩, ⟨0, 0, 1⟩, ⟨1, 1, 1⟩, ⟨0, 0, 2⟩]

def exTris : List Tri := [(0, 2, 1), (0, 3, 2), (0, 1, 3), (1, 2, 3)]

/-- The surface with the point added. -/
def exNew : List Tri := [(0, 2, 1), (0, 3, 2), (0, 1, 3), (1, 2, 4), (2, 3, 4), (3, 1, 4)]

/-- It meets the hypotheses, its volume is a sixth, and the first point adds two triangles and a third of a unit of volume. -/
example : Closed (⟨exPts, exTris⟩ : Mesh ℚ) ∧ (edges exTris).Nodup ∧ processPoint 0 exPts 4 exTris = some exNew
    ∧ signed (⟨exPts, exTris⟩ : Mesh ℚ) ⟨0, 0, 0⟩ = 1 / 6 ∧ signed (⟨exPts, exNew⟩ : Mesh ℚ) ⟨0, 0, 0⟩ = 1 / 2 := by
  refine ⟨by unfold Closed; decide +kernel, by decide +kernel, by decide +kernel, by decide +kernel, by decide +kernel⟩

example : (∀ t ∈ exTris, 4 ≠ t.1 ∧ 4 ≠ t.2.1 ∧ 4 ≠ t.2.2) ∧ ((border (exTris.filter (visible 0 exPts (pos exPts 4)))).map Prod.fst).Nodup := by
  decide +kernel

example : findMax 0 exPts exTris 0 [5, 4] = some 4 ∧ findMax 0 exPts exTris 2 [5, 4] = none := by decide +kernel

/-- From a triangle to a solid with five vertices. -/
example : ∃ r, loop 0 exPts 0 10 10 3 (start 0 1 2) [3, 4, 5] = some r ∧ (corners r).length = 5 := by
  refine ⟨(loop 0 exPts 0 10 10 3 (start 0 1 2) [3, 4, 5]).getD [], ?_, ?_⟩ <;> decide +kernel

/-- With four vertices allowed the last point is left out; with a high threshold nothing is added to the solid. -/
example : (corners (start 0 1 2)).length ≤ 3 ∧ (∃ r, loop 0 exPts 0 4 10 3 (start 0 1 2) [3, 4, 5] = some r ∧ (corners r).length = 4)
    ∧ ∀ w ∈ [4, 5], pointVolume 0 exPts (pos exPts w) exTris ≤ 3 := by
  refine ⟨by decide +kernel, ⟨(loop 0 exPts 0 4 10 3 (start 0 1 2) [3, 4, 5]).getD [], ?_, ?_⟩, ?_⟩ <;> decide +kernel

/-- **C180, violated** The least volume asked for is compared with six times the volume a point adds: a point is chosen
though it adds only a third of a unit, less than the unit asked for. -/
theorem C180_violated_factor : ∃ (pts : List (V3 ℚ)) (ts new : List Tri) (v : ℕ), Closed (⟨pts, ts⟩ : Mesh ℚ) ∧ (edges ts).Nodup
    ∧ findMax 0 pts ts 1 [v] = some v ∧ processPoint 0 pts v ts = some new
    ∧ signed (⟨pts, new⟩ : Mesh ℚ) ⟨0, 0, 0⟩ - signed (⟨pts, ts⟩ : Mesh ℚ) ⟨0, 0, 0⟩ < 1 := by
  refine ⟨exPts, exTris, exNew, 4, by unfold Closed; decide +kernel, by decide +kernel, by decide +kernel, by decide +kernel, by decide +kernel⟩

end Verif.IncHull
