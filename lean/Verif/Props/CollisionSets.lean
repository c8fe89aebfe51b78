import Verif.Props.Collision
import Mathlib.Data.List.Sort

/-!
C70 (grouping of contacts) and C47 (which groups are kept).
-/

set_option linter.unusedSectionVars false
set_option linter.unusedVariables false

namespace Verif.Collision

universe u v w

section group
variable {Name : Type w} {ι : Type u} {K : Type v} [LinearOrder K]

/-! ### C70 -/

theorem keyLt_iff (a b : Nat × Nat) : keyLt a b = true ↔ a.1 < b.1 ∨ (a.1 = b.1 ∧ a.2 < b.2) := by simp [keyLt]

theorem keyLt_trans {a b c : Nat × Nat} (h1 : keyLt a b = true) (h2 : keyLt b c = true) : keyLt a c = true := by
  rw [keyLt_iff] at *; omega

theorem keyLt_of_not {a b : Nat × Nat} (h1 : a ≠ b) (h2 : ¬ keyLt b a = true) : keyLt a b = true := by
  rw [keyLt_iff] at *
  have : ¬ (a.1 = b.1 ∧ a.2 = b.2) := fun h => h1 (Prod.ext h.1 h.2)
  omega

theorem keyLt_ne {a b : Nat × Nat} (h : keyLt a b = true) : a ≠ b := by
  rintro rfl; rw [keyLt_iff] at h; omega

/-- Keys strictly increasing. -/
def KeysSorted (gs : List (GSet Name ι K)) : Prop := gs.Pairwise fun a b => keyLt a.shapeKey b.shapeKey = true

theorem groupInsert_mem (fresh : Nat × Nat → GSet Name ι K) (k : Nat × Nat) (r : GradRes ι K)
    (gs : List (GSet Name ι K)) (hs : KeysSorted gs) (g' : GSet Name ι K) :
    g' ∈ groupInsert fresh k r gs ↔ (g' ∈ gs ∧ g'.shapeKey ≠ k) ∨ (∃ g ∈ gs, g.shapeKey = k ∧ g' = g.add r) ∨
      ((∀ g ∈ gs, g.shapeKey ≠ k) ∧ g' = (fresh k).add r) := by
  induction gs with
  | nil => simp [groupInsert]
  | cons g gs ih =>
    obtain ⟨h1, h2⟩ := List.pairwise_cons.1 hs
    simp only [groupInsert]
    by_cases hk : g.shapeKey = k
    · have hne : ∀ q ∈ gs, q.shapeKey ≠ k := fun q hq e => keyLt_ne (h1 q hq) (hk.trans e.symm)
      rw [if_pos hk]
      simp only [List.mem_cons, forall_eq_or_imp, exists_eq_or_imp, hk, ne_eq, not_true, false_and, or_false, true_and]
      constructor
      · rintro (rfl | h)
        · exact Or.inr (Or.inl rfl)
        · exact Or.inl ⟨Or.inr h, hne _ h⟩
      · rintro (⟨rfl | h, h3⟩ | rfl | ⟨q, hq, h3, _⟩)
        · exact absurd hk h3
        · exact Or.inr h
        · exact Or.inl rfl
        · exact absurd h3 (hne q hq)
    · rw [if_neg hk]
      by_cases hlt : keyLt k g.shapeKey = true
      · have hne : ∀ q ∈ gs, q.shapeKey ≠ k := fun q hq e => keyLt_ne (keyLt_trans hlt (h1 q hq)) e.symm
        rw [if_pos hlt]
        simp only [List.mem_cons, forall_eq_or_imp, exists_eq_or_imp, hk, ne_eq, not_false_iff, true_and, false_and, false_or]
        constructor
        · rintro (rfl | rfl | h)
          · exact Or.inr (Or.inr ⟨hne, rfl⟩)
          · exact Or.inl ⟨Or.inl rfl, hk⟩
          · exact Or.inl ⟨Or.inr h, hne _ h⟩
        · rintro (⟨h, _⟩ | ⟨q, hq, h3, _⟩ | ⟨_, rfl⟩)
          · exact Or.inr h
          · exact absurd h3 (hne q hq)
          · exact Or.inl rfl
      · rw [if_neg hlt, List.mem_cons, ih h2]
        simp only [List.mem_cons, forall_eq_or_imp, exists_eq_or_imp, hk, ne_eq, not_false_iff, true_and, false_and, false_or]
        constructor
        · rintro (rfl | ⟨h, h3⟩ | h | h)
          · exact Or.inl ⟨Or.inl rfl, hk⟩
          · exact Or.inl ⟨Or.inr h, h3⟩
          · exact Or.inr (Or.inl h)
          · exact Or.inr (Or.inr h)
        · rintro (⟨rfl | h, h3⟩ | h | h)
          · exact Or.inl rfl
          · exact Or.inr (Or.inl ⟨h, h3⟩)
          · exact Or.inr (Or.inr (Or.inl h))
          · exact Or.inr (Or.inr (Or.inr h))

theorem groupInsert_sorted (fresh : Nat × Nat → GSet Name ι K) (hf : ∀ k, (fresh k).shapeKey = k) (k : Nat × Nat)
    (r : GradRes ι K) (gs : List (GSet Name ι K)) (hs : KeysSorted gs) : KeysSorted (groupInsert fresh k r gs) := by
  induction gs with
  | nil => simp [groupInsert, KeysSorted]
  | cons g gs ih =>
    obtain ⟨h1, h2⟩ := List.pairwise_cons.1 hs
    simp only [groupInsert]
    by_cases hk : g.shapeKey = k
    · rw [if_pos hk]; exact List.pairwise_cons.2 ⟨h1, h2⟩
    · rw [if_neg hk]
      by_cases hlt : keyLt k g.shapeKey = true
      · rw [if_pos hlt]
        refine List.pairwise_cons.2 ⟨?_, hs⟩
        intro q hq
        show keyLt (fresh k).shapeKey q.shapeKey = true
        rw [hf]
        rcases List.mem_cons.1 hq with rfl | hq
        · exact hlt
        · exact keyLt_trans hlt (h1 q hq)
      · rw [if_neg hlt]
        refine List.pairwise_cons.2 ⟨?_, ih h2⟩
        intro q hq
        rcases (groupInsert_mem fresh k r gs h2 q).1 hq with ⟨h, _⟩ | ⟨q', hq', h3, rfl⟩ | ⟨_, rfl⟩
        · exact h1 q h
        · exact h1 q' hq'
        · show keyLt g.shapeKey (fresh k).shapeKey = true
          rw [hf]; exact keyLt_of_not hk hlt

/-- Specification: the contacts of a pair with a given key, in order. -/
def withKey (p : PairContacts Name ι K) (k : Nat × Nat) : List (GradRes ι K) :=
  (p.contacts.filter fun c => decide (shapeKey c.1 = some k)).map Prod.snd

/-- C70: for one link pair (hashes defined), there is exactly one group per occurring key, in increasing order of
the keys; each group holds exactly the contacts of that key in their order, the pair's names and coefficient, and
the maxima obtained by adding those contacts. -/
theorem C70_grouping (lowest : K) (coeff : Name × Name → K) (p : PairContacts Name ι K)
    (hk : ∀ c ∈ p.contacts, shapeKey c.1 ≠ none) :
    ∃ gs, groupPair lowest coeff p = some gs ∧ KeysSorted gs ∧
      (∀ k, (∃ g ∈ gs, g.shapeKey = k) ↔ ∃ c ∈ p.contacts, shapeKey c.1 = some k) ∧
      ∀ g ∈ gs, g.results = withKey p g.shapeKey ∧ g.key = p.key ∧ g.coeff = coeff p.key ∧
        g = (GSet.new lowest p.key g.shapeKey (coeff p.key)).addAll (withKey p g.shapeKey) := by
  obtain ⟨key, cs⟩ := p
  simp only [groupPair, withKey]
  simp only at hk
  suffices H : ∃ gs, cs.foldlM (fun gs c => match shapeKey c.1 with
        | none => none
        | some k => some (groupInsert (fun k => GSet.new lowest key k (coeff key)) k c.2 gs)) [] = some gs ∧ KeysSorted gs ∧
      (∀ k, (∃ g ∈ gs, g.shapeKey = k) ↔ ∃ c ∈ cs, shapeKey c.1 = some k) ∧
      ∀ g ∈ gs, g = (GSet.new lowest key g.shapeKey (coeff key)).addAll
        ((cs.filter fun c => decide (shapeKey c.1 = some g.shapeKey)).map Prod.snd) by
    obtain ⟨gs, h1, h2, h3, h4⟩ := H
    have hres : ∀ (rs : List (GradRes ι K)) (sk : Nat × Nat),
        ((GSet.new lowest key sk (coeff key) : GSet Name ι K).addAll rs).results = rs ∧
        ((GSet.new lowest key sk (coeff key) : GSet Name ι K).addAll rs).key = key ∧
        ((GSet.new lowest key sk (coeff key) : GSet Name ι K).addAll rs).coeff = coeff key := by
      intro rs sk
      refine ⟨(slots lowest key sk (coeff key) rs 0 0).2.2.2, ?_⟩
      induction rs using List.reverseRecOn with
      | nil => exact ⟨rfl, rfl⟩
      | append_singleton rs r ih =>
        simp only [GSet.addAll, List.foldl_append, List.foldl_cons, List.foldl_nil] at ih ⊢
        exact ih
    refine ⟨gs, h1, h2, h3, fun g hg => ?_⟩
    have e := h4 g hg
    refine ⟨?_, ?_, ?_, e⟩
    · have := congrArg GSet.results e; rw [(hres _ _).1] at this; exact this
    · have := congrArg GSet.key e; rw [(hres _ _).2.1] at this; exact this
    · have := congrArg GSet.coeff e; rw [(hres _ _).2.2] at this; exact this
  induction cs using List.reverseRecOn with
  | nil => exact ⟨[], rfl, List.Pairwise.nil, by simp, by simp⟩
  | append_singleton cs c ih =>
    obtain ⟨gs, h1, h2, h3, h4⟩ := ih fun c hc => hk c (by simp [hc])
    have hc := hk c (by simp)
    cases hkc : shapeKey c.1 with
    | none => exact absurd hkc hc
    | some k =>
      refine ⟨groupInsert (fun k => GSet.new lowest key k (coeff key)) k c.2 gs, ?_,
        groupInsert_sorted _ (fun _ => rfl) k c.2 gs h2, ?_, ?_⟩
      · rw [List.foldlM_append, h1]
        simp [List.foldlM_cons, hkc]
      · intro k'
        constructor
        · rintro ⟨g, hg, rfl⟩
          rcases (groupInsert_mem _ k c.2 gs h2 g).1 hg with ⟨h, _⟩ | ⟨q, hq, h5, rfl⟩ | ⟨_, rfl⟩
          · obtain ⟨c', hc', e⟩ := (h3 g.shapeKey).1 ⟨g, h, rfl⟩
            exact ⟨c', by simp [hc'], e⟩
          · exact ⟨c, by simp, by rw [hkc, ← h5]; rfl⟩
          · exact ⟨c, by simp, hkc⟩
        · rintro ⟨c', hc', e⟩
          by_cases hkk : k' = k
          · subst hkk
            by_cases hex : ∃ g ∈ gs, g.shapeKey = k'
            · obtain ⟨g, hg, e'⟩ := hex
              exact ⟨g.add c.2, (groupInsert_mem _ k' c.2 gs h2 _).2 (Or.inr (Or.inl ⟨g, hg, e', rfl⟩)), e'⟩
            · push Not at hex
              exact ⟨_, (groupInsert_mem _ k' c.2 gs h2 _).2 (Or.inr (Or.inr ⟨hex, rfl⟩)), rfl⟩
          · rcases List.mem_append.1 hc' with hc' | hc'
            · obtain ⟨g, hg, e'⟩ := (h3 k').2 ⟨c', hc', e⟩
              exact ⟨g, (groupInsert_mem _ k c.2 gs h2 _).2 (Or.inl ⟨hg, by rw [e']; exact hkk⟩), e'⟩
            · simp only [List.mem_singleton] at hc'
              subst hc'
              rw [hkc] at e; injection e with e
              exact absurd e.symm hkk
      · intro g hg
        have hfil : ∀ k', (((cs ++ [c]).filter fun c => decide (shapeKey c.1 = some k')).map Prod.snd) =
            ((cs.filter fun c => decide (shapeKey c.1 = some k')).map Prod.snd) ++ if k = k' then [c.2] else [] := by
          intro k'
          rw [List.filter_append, List.map_append]
          by_cases h : k = k' <;> simp [hkc, h]
        rw [hfil]
        rcases (groupInsert_mem _ k c.2 gs h2 g).1 hg with ⟨h, h5⟩ | ⟨q, hq, h5, rfl⟩ | ⟨h5, rfl⟩
        · rw [if_neg (Ne.symm h5), List.append_nil]; exact h4 g h
        · have e := h4 q hq
          have hsk : (q.add c.2).shapeKey = q.shapeKey := rfl
          rw [hsk, if_pos h5.symm]
          simp only [GSet.addAll, List.foldl_append, List.foldl_cons, List.foldl_nil] at e ⊢
          rw [← e]
        · have hsk : ((GSet.new lowest key k (coeff key) : GSet Name ι K).add c.2).shapeKey = k := rfl
          rw [hsk, if_pos rfl]
          have hnil : (cs.filter fun c => decide (shapeKey c.1 = some k)) = [] := by
            rw [List.filter_eq_nil_iff]
            intro c' hc' e
            obtain ⟨g, hg, e'⟩ := (h3 k).2 ⟨c', hc', of_decide_eq_true e⟩
            exact h5 g hg e'
          rw [hnil]; rfl

/-- non-vacuity for C70: three contacts, two keys, first and third together. -/
example : ((groupPair (-1000) (fun _ => 7) (⟨(0, 1), [(⟨0, fun _ => .none, ![1, 0], fun _ => -1⟩, ⟨fun _ => LinkGrad.empty, fun _ => LinkGrad.empty, 1, 1⟩),
    (⟨0, fun _ => .none, ![0, 5], fun _ => -1⟩, ⟨fun _ => LinkGrad.empty, fun _ => LinkGrad.empty, 2, 2⟩),
    (⟨0, fun _ => .none, ![1, 0], fun _ => -1⟩, ⟨fun _ => LinkGrad.empty, fun _ => LinkGrad.empty, 3, 3⟩)]⟩ : PairContacts Nat (Fin 1) ℚ)).map
    fun gs => gs.map fun g => (g.shapeKey, g.coeff, g.results.map GradRes.error)) = some [((0, 5), 7, [2]), ((1, 0), 7, [1, 3])] := by
  decide +kernel

/-- Every set of the whole map is built from a non-empty list of contacts of one pair. -/
theorem groupAll_built (lowest : K) (coeff : Name × Name → K) (ps : List (PairContacts Name ι K))
    (hk : ∀ p ∈ ps, ∀ c ∈ p.contacts, shapeKey c.1 ≠ none) :
    ∃ gs, groupAll lowest coeff ps = some gs ∧ ∀ g ∈ gs, ∃ p ∈ ps, ∃ rs, rs ≠ [] ∧
      (∀ r ∈ rs, ∃ c ∈ p.contacts, c.2 = r) ∧ g = (GSet.new lowest p.key g.shapeKey (coeff p.key)).addAll rs := by
  simp only [groupAll]
  suffices H : ∃ gss, ps.mapM (groupPair lowest coeff) = some gss ∧ ∀ gs ∈ gss, ∀ g ∈ gs, ∃ p ∈ ps, ∃ rs, rs ≠ [] ∧
      (∀ r ∈ rs, ∃ c ∈ p.contacts, c.2 = r) ∧ g = (GSet.new lowest p.key g.shapeKey (coeff p.key)).addAll rs by
    obtain ⟨gss, h1, h2⟩ := H
    refine ⟨gss.flatten, by rw [h1], fun g hg => ?_⟩
    obtain ⟨gs, m1, m2⟩ := List.mem_flatten.1 hg
    exact h2 gs m1 g m2
  induction ps with
  | nil => exact ⟨[], rfl, by simp⟩
  | cons p ps ih =>
    obtain ⟨gs, h1, h2, h3, h4⟩ := C70_grouping lowest coeff p (hk p (by simp))
    obtain ⟨gss, i1, i2⟩ := ih fun q hq => hk q (by simp [hq])
    refine ⟨gs :: gss, by simp [List.mapM_cons, h1, i1], ?_⟩
    intro gs' hgs' g hg
    rcases List.mem_cons.1 hgs' with rfl | hgs'
    · obtain ⟨a1, a2, a3, a4⟩ := h4 g hg
      refine ⟨p, by simp, withKey p g.shapeKey, ?_, ?_, a4⟩
      · obtain ⟨c, hc, e⟩ := (h3 g.shapeKey).1 ⟨g, hg, rfl⟩
        exact List.ne_nil_of_mem (List.mem_map.2 ⟨c, List.mem_filter.2 ⟨hc, decide_eq_true e⟩, rfl⟩)
      · intro r hr
        obtain ⟨c, hc, e⟩ := List.mem_map.1 hr
        exact ⟨c, (List.mem_filter.1 hc).1, e⟩
    · obtain ⟨q, m1, m2⟩ := i2 gs' hgs' g hg
      exact ⟨q, by simp [m1], m2⟩

/-! ### C47 -/

/-- What is assumed of `std::sort` with comparator `gt`. -/
def SortsBy {α : Type u} (gt : α → α → Bool) (sort : List α → List α) : Prop :=
  ∀ l, (sort l).Perm l ∧ (sort l).Pairwise fun a b => gt b a = false

theorem kept_dropped (gt : GSet Name ι K → GSet Name ι K → Bool) (sort : List (GSet Name ι K) → List (GSet Name ι K))
    (hs : SortsBy gt sort) (maxAllowed : Nat) (gs : List (GSet Name ι K)) (a b : GSet Name ι K)
    (ha : a ∈ (keptSets sort maxAllowed gs).1) (hb : b ∈ (keptSets sort maxAllowed gs).2) :
    gt b a = false ∧ a ∈ gs ∧ b ∈ gs := by
  simp only [keptSets] at ha hb
  split_ifs at ha hb with h
  · obtain ⟨h1, h2⟩ := hs gs
    rw [← List.take_append_drop maxAllowed (sort gs), List.pairwise_append] at h2
    exact ⟨h2.2.2 a ha b hb, h1.mem_iff.1 (List.mem_of_mem_take ha), h1.mem_iff.1 (List.mem_of_mem_drop hb)⟩
  · rw [List.drop_eq_nil_of_le (not_lt.1 h)] at hb; simp at hb

/-- Nothing is lost or duplicated, and exactly the allowed number is kept. -/
theorem C47_partition (gt : GSet Name ι K → GSet Name ι K → Bool) (sort : List (GSet Name ι K) → List (GSet Name ι K))
    (hs : SortsBy gt sort) (maxAllowed : Nat) (gs : List (GSet Name ι K)) :
    ((keptSets sort maxAllowed gs).1 ++ (keptSets sort maxAllowed gs).2).Perm gs ∧
    (keptSets sort maxAllowed gs).1.length = min maxAllowed gs.length := by
  simp only [keptSets]
  split_ifs with h
  · exact ⟨by rw [List.take_append_drop]; exact (hs gs).1, by rw [List.length_take, (hs gs).1.length_eq]⟩
  · exact ⟨by rw [List.take_append_drop], by rw [List.length_take]⟩

/-- C47, proved part for the discrete evaluator: if link A of every contact is active (with no T1 classification,
as for every discrete contact), the groups kept have at least the error of the groups dropped. Missing: contacts
where only link B is active (`C47_violated`). -/
theorem C47_discrete_partial (lowest : K) (coeff : Name × Name → K) (ps : List (PairContacts Name ι K))
    (hk : ∀ p ∈ ps, ∀ c ∈ p.contacts, shapeKey c.1 ≠ none)
    (hlow : ∀ p ∈ ps, ∀ c ∈ p.contacts, lowest < c.2.error ∧ lowest < c.2.errorBuf)
    (hA : ∀ p ∈ ps, ∀ c ∈ p.contacts, Counts 0 0 c.2)
    (sort : List (GSet Name ι K) → List (GSet Name ι K)) (hs : SortsBy discreteCmp sort) (maxAllowed : Nat) :
    ∃ gs, groupAll lowest coeff ps = some gs ∧
      ∀ a ∈ (keptSets sort maxAllowed gs).1, ∀ b ∈ (keptSets sort maxAllowed gs).2,
        ∃ x y, a.getMaxErrorT lowest 0 = some x ∧ b.getMaxErrorT lowest 0 = some y ∧ y ≤ x := by
  obtain ⟨gs, h1, h2⟩ := groupAll_built lowest coeff ps hk
  refine ⟨gs, h1, fun a ha b hb => ?_⟩
  obtain ⟨hc, hag, hbg⟩ := kept_dropped discreteCmp sort hs maxAllowed gs a b ha hb
  have hval : ∀ g ∈ gs, g.getMaxErrorT lowest 0 = some ((g.maxError 0).err 0) := by
    intro g hg
    obtain ⟨p, hp, rs, hne, hrs, e⟩ := h2 g hg
    have hr : ∀ r ∈ rs, lowest < r.error ∧ lowest < r.errorBuf ∧ Counts 0 0 r := by
      intro r hr
      obtain ⟨c, hcm, rfl⟩ := hrs r hr
      exact ⟨(hlow p hp c hcm).1, (hlow p hp c hcm).2, hA p hp c hcm⟩
    rw [e]
    obtain ⟨_, m1, m2, _⟩ := C46_max_error_at (Name := Name) lowest p.key g.shapeKey (coeff p.key) rs (fun r h => (hr r h).1)
      (fun r h => (hr r h).2.1) 0
    obtain ⟨_, s2, _⟩ := slots (Name := Name) lowest p.key g.shapeKey (coeff p.key) rs 0 0
    have hcon : contrib GradRes.error 0 0 rs = rs.map GradRes.error := by
      simp only [contrib]
      rw [List.filter_eq_self.2 fun r h => decide_eq_true (hr r h).2.2]
    cases hv : GSet.getMaxErrorT lowest 0 ((GSet.new lowest p.key g.shapeKey (coeff p.key) : GSet Name ι K).addAll rs) with
    | none =>
      obtain ⟨r, hrm⟩ := List.exists_mem_of_ne_nil rs hne
      exact absurd (hr r hrm).2.2 (m1.1 hv r hrm 0)
    | some x =>
      obtain ⟨⟨r, hrm, i, _, hx⟩, n2⟩ := m2 x hv
      rw [s2, hcon]
      congr 1
      have hl : ∀ v ∈ rs.map GradRes.error, lowest < v := by
        intro v hv; obtain ⟨r, h, rfl⟩ := List.mem_map.1 hv; exact (hr r h).1
      obtain ⟨⟨k1, k2⟩, _⟩ := foldMax_spec lowest (rs.map GradRes.error) hl (by simpa using hne)
      apply le_antisymm
      · exact k2 x (List.mem_map.2 ⟨r, hrm, hx⟩)
      · obtain ⟨r', hr', e'⟩ := List.mem_map.1 k1
        exact n2 _ ⟨r', hr', 0, (hr r' hr').2.2, e'⟩
  refine ⟨_, _, hval a hag, hval b hbg, ?_⟩
  simp only [discreteCmp, arrayGt, Bool.or_eq_false_iff, decide_eq_false_iff_not] at hc
  exact not_lt.1 hc.1

/-- The comparator of the continuous evaluators (where both measures exist). -/
def continuousCmp (lowest : K) (fixed0 fixed1 : Bool) (a b : GSet Name ι K) : Bool :=
  match continuousMeasure lowest fixed0 fixed1 a, continuousMeasure lowest fixed0 fixed1 b with
  | some x, some y => decide (y < x)
  | _, _ => false

/-- Specification: contact `r` counts for the free ends. -/
def CountsFree (fixed0 fixed1 : Bool) (r : GradRes ι K) : Prop :=
  ∃ i, (fixed0 = false ∧ Counts 0 i r) ∨ (fixed1 = false ∧ Counts 1 i r)

/-- The measure compared by the continuous evaluators is the largest error with buffer among the contacts that
count for a free end. -/
theorem continuousMeasure_spec (lowest : K) (fixed0 fixed1 : Bool) (hf : ¬ (fixed0 = true ∧ fixed1 = true))
    (key : Name × Name) (sk : Nat × Nat) (coeff : K) (rs : List (GradRes ι K)) (he : ∀ r ∈ rs, lowest < r.error)
    (hb : ∀ r ∈ rs, lowest < r.errorBuf) (hex : ∃ r ∈ rs, CountsFree fixed0 fixed1 r) :
    ∃ x, continuousMeasure lowest fixed0 fixed1 ((GSet.new lowest key sk coeff : GSet Name ι K).addAll rs) = some x ∧
      IsMax (fun v => ∃ r ∈ rs, CountsFree fixed0 fixed1 r ∧ r.errorBuf = v) x := by
  obtain ⟨_, _, c1, c2⟩ := C46_max_error (Name := Name) lowest key sk coeff rs he hb
  obtain ⟨_, _, _, d1, d2⟩ := C46_max_error_at (Name := Name) lowest key sk coeff rs he hb 0
  obtain ⟨_, _, _, e1, e2⟩ := C46_max_error_at (Name := Name) lowest key sk coeff rs he hb 1
  obtain ⟨r, hr, hcf⟩ := hex
  have hboth : ∀ r : GradRes ι K, CountsFree false false r ↔ ∃ i, (r.grads i).has = true := by
    intro r
    simp only [CountsFree, true_and]
    apply exists_congr
    intro i
    simp only [Counts]
    constructor
    · rintro (h | h) <;> exact h.1
    · intro h
      by_cases hc : (r.grads i).cc = .time1
      · exact Or.inr ⟨h, by rw [hc]; simp⟩
      · exact Or.inl ⟨h, by simpa using hc⟩
  cases fixed0 <;> cases fixed1
  · simp only [continuousMeasure, Bool.not_false, Bool.and_self, if_true]
    simp only [hboth] at hcf ⊢
    cases hv : GSet.getMaxErrorWithBuffer lowest ((GSet.new lowest key sk coeff : GSet Name ι K).addAll rs) with
    | none => obtain ⟨i, hi⟩ := hcf; rw [c1.1 hv r hr i] at hi; simp at hi
    | some x => exact ⟨x, rfl, c2 x hv⟩
  · simp only [continuousMeasure, Bool.not_false, Bool.not_true, Bool.and_false, Bool.false_eq_true, if_false, if_true]
    simp only [CountsFree, true_and, Bool.true_eq_false, false_and, or_false] at hcf ⊢
    cases hv : GSet.getMaxErrorWithBufferT lowest 0 ((GSet.new lowest key sk coeff : GSet Name ι K).addAll rs) with
    | none => obtain ⟨i, hi⟩ := hcf; exact absurd hi (d1.1 hv r hr i)
    | some x =>
      refine ⟨x, rfl, ?_⟩
      have := d2 x hv
      simpa only [exists_and_right] using this
  · simp only [continuousMeasure, Bool.not_false, Bool.not_true, Bool.false_and, Bool.false_eq_true, if_false]
    simp only [CountsFree, true_and, Bool.true_eq_false, false_and, false_or] at hcf ⊢
    cases hv : GSet.getMaxErrorWithBufferT lowest 1 ((GSet.new lowest key sk coeff : GSet Name ι K).addAll rs) with
    | none => obtain ⟨i, hi⟩ := hcf; exact absurd hi (e1.1 hv r hr i)
    | some x =>
      refine ⟨x, rfl, ?_⟩
      have := e2 x hv
      simpa only [exists_and_right] using this
  · exact absurd ⟨rfl, rfl⟩ hf

/-- Largest error with buffer of a set over the contacts that count for a free end. -/
def FreeMax (fixed0 fixed1 : Bool) (g : GSet Name ι K) (x : K) : Prop :=
  IsMax (fun v => ∃ r ∈ g.results, CountsFree fixed0 fixed1 r ∧ r.errorBuf = v) x

/-- C47 for the continuous evaluators, when every contact counts for a free end: the comparison never throws and
the groups kept have at least the error (with buffer, over the free ends) of the groups dropped. -/
theorem C47_continuous (lowest : K) (coeff : Name × Name → K) (ps : List (PairContacts Name ι K)) (fixed0 fixed1 : Bool)
    (hf : ¬ (fixed0 = true ∧ fixed1 = true))
    (hk : ∀ p ∈ ps, ∀ c ∈ p.contacts, shapeKey c.1 ≠ none)
    (hlow : ∀ p ∈ ps, ∀ c ∈ p.contacts, lowest < c.2.error ∧ lowest < c.2.errorBuf)
    (hA : ∀ p ∈ ps, ∀ c ∈ p.contacts, CountsFree fixed0 fixed1 c.2)
    (sort : List (GSet Name ι K) → List (GSet Name ι K)) (hs : SortsBy (continuousCmp lowest fixed0 fixed1) sort)
    (maxAllowed : Nat) :
    ∃ gs, groupAll lowest coeff ps = some gs ∧ (∀ g ∈ gs, continuousMeasure lowest fixed0 fixed1 g ≠ none) ∧
      ∀ a ∈ (keptSets sort maxAllowed gs).1, ∀ b ∈ (keptSets sort maxAllowed gs).2,
        ∃ x y, FreeMax fixed0 fixed1 a x ∧ FreeMax fixed0 fixed1 b y ∧ y ≤ x := by
  obtain ⟨gs, h1, h2⟩ := groupAll_built lowest coeff ps hk
  have hval : ∀ g ∈ gs, ∃ x, continuousMeasure lowest fixed0 fixed1 g = some x ∧ FreeMax fixed0 fixed1 g x := by
    intro g hg
    obtain ⟨p, hp, rs, hne, hrs, e⟩ := h2 g hg
    have hr : ∀ r ∈ rs, lowest < r.error ∧ lowest < r.errorBuf ∧ CountsFree fixed0 fixed1 r := by
      intro r hr
      obtain ⟨c, hcm, rfl⟩ := hrs r hr
      exact ⟨(hlow p hp c hcm).1, (hlow p hp c hcm).2, hA p hp c hcm⟩
    obtain ⟨r, hrm⟩ := List.exists_mem_of_ne_nil rs hne
    obtain ⟨x, m1, m2⟩ := continuousMeasure_spec (Name := Name) lowest fixed0 fixed1 hf p.key g.shapeKey (coeff p.key) rs
      (fun r h => (hr r h).1) (fun r h => (hr r h).2.1) ⟨r, hrm, (hr r hrm).2.2⟩
    rw [← e] at m1
    have hres : g.results = rs := by
      have := congrArg GSet.results e
      rw [(slots (Name := Name) lowest p.key g.shapeKey (coeff p.key) rs 0 0).2.2.2] at this
      exact this
    exact ⟨x, m1, by rw [FreeMax, hres]; exact m2⟩
  refine ⟨gs, h1, ?_, fun a ha b hb => ?_⟩
  · intro g hg
    obtain ⟨x, e, _⟩ := hval g hg
    rw [e]; simp
  · obtain ⟨hc, hag, hbg⟩ := kept_dropped _ sort hs maxAllowed gs a b ha hb
    obtain ⟨x, ex, mx⟩ := hval a hag
    obtain ⟨y, ey, my⟩ := hval b hbg
    refine ⟨x, y, mx, my, ?_⟩
    simp only [continuousCmp, ex, ey, decide_eq_false_iff_not] at hc
    exact not_lt.1 hc

end group

/-- The hypothesis of `C47_continuous` holds for contacts that pass the filter (C62) and whose classified links
are active: with one end fixed, each counts for the free end. -/
theorem C47_filter_counts {ι : Type u} {K : Type v} [Field K] [LinearOrder K] (c : Contact K) (t : Fin 2 → K)
    (grad : Fin 2 → Bool → ι → K) (active : Fin 2 → Bool) (margin buffer m b : K) (fixed0 fixed1 : Bool)
    (hf : ¬ (fixed0 = true ∧ fixed1 = true))
    (hkeep : isInvalid m b fixed0 fixed1 c = false) (hact : ∀ i, c.cc i ≠ .none → active i = true)
    (hsome : ∃ i, active i = true) : CountsFree fixed0 fixed1 (getGradient2 c t grad active margin buffer) := by
  have hcc : ∀ i, active i = true → ((getGradient2 c t grad active margin buffer).grads i).has = true ∧
      ((getGradient2 c t grad active margin buffer).grads i).cc = c.cc i := by
    intro i hi
    simp only [getGradient2, hi, if_true, calcGradient]
    by_cases h : c.cc i = .none <;> simp [h]
  have hrel : c ∈ removeInvalidContactResults [c] m b fixed0 fixed1 := by
    simp [removeInvalidContactResults, hkeep]
  obtain ⟨_, _, hr⟩ := ((C62_filter [c] m b fixed0 fixed1).1 c).1 hrel
  rcases hr with ⟨h0, h1⟩ | ⟨i, hm⟩
  · obtain ⟨i, hi⟩ := hsome
    refine ⟨i, ?_⟩
    simp only [h0, h1, true_and, Counts, (hcc i hi).1, (hcc i hi).2, if_true, one_ne_zero, if_false]
    by_cases h : c.cc i = .time1
    · exact Or.inr (by rw [h]; simp)
    · exact Or.inl h
  · refine ⟨i, ?_⟩
    have hi : active i = true := by
      apply hact
      rcases hm with ⟨_, h | h⟩ | ⟨_, h | h⟩ <;> rw [h] <;> simp
    simp only [Counts, (hcc i hi).1, (hcc i hi).2, true_and, if_true, one_ne_zero, if_false]
    rcases hm with ⟨hfx, h⟩ | ⟨hfx, h⟩
    · refine Or.inr ⟨?_, ?_⟩
      · cases fixed1
        · rfl
        · exact absurd ⟨hfx, rfl⟩ hf
      · rcases h with h | h <;> rw [h] <;> simp
    · refine Or.inl ⟨?_, ?_⟩
      · cases fixed0
        · rfl
        · exact absurd ⟨rfl, hfx⟩ hf
      · rcases h with h | h <;> rw [h] <;> simp

/-- A contact with only link A active, and one with only link B active and ten times the error. -/
def contactA : GradRes (Fin 1) ℚ := ⟨![⟨true, fun _ => 1, 1, .none⟩, LinkGrad.empty], fun _ => LinkGrad.empty, 1, 2⟩
/-- See `contactA`. -/
def contactB : GradRes (Fin 1) ℚ := ⟨![LinkGrad.empty, ⟨true, fun _ => 1, 1, .none⟩], fun _ => LinkGrad.empty, 10, 11⟩
/-- Their groups. -/
def groupA : GSet Nat (Fin 1) ℚ := (GSet.new (-1000) (0, 1) (0, 0) 1).add contactA
/-- See `groupA`. -/
def groupB : GSet Nat (Fin 1) ℚ := (GSet.new (-1000) (2, 3) (0, 0) 1).add contactB

/-- C47 is violated by the discrete evaluator: room for one group, two groups with errors 1 and 10, and whatever
the sort does within its contract the group with error 10 is dropped. -/
theorem C47_violated (sort : List (GSet Nat (Fin 1) ℚ) → List (GSet Nat (Fin 1) ℚ)) (hs : SortsBy discreteCmp sort) :
    keptSets sort 1 [groupA, groupB] = ([groupA], [groupB]) ∧
    groupA.getMaxErrorT (-1000) 0 = some 1 ∧ groupB.getMaxErrorT (-1000) 0 = some 10 := by
  refine ⟨?_, by decide +kernel, by decide +kernel⟩
  obtain ⟨h1, h2⟩ := hs [groupA, groupB]
  have hl : 1 < [groupA, groupB].length := by decide
  simp only [keptSets, hl, if_true]
  have hp : sort [groupA, groupB] = [groupA, groupB] ∨ sort [groupA, groupB] = [groupB, groupA] := by
    have hlen := h1.length_eq
    match hq : sort [groupA, groupB], hlen, h1 with
    | [x, y], _, h1 =>
      have hx : x = groupA ∨ x = groupB := by simpa using h1.mem_iff.1 (show x ∈ [x, y] by simp)
      rcases hx with rfl | rfl
      · left
        have := List.perm_singleton.1 ((List.perm_cons groupA).1 h1)
        rw [this]
      · right
        have := List.perm_singleton.1 ((List.perm_cons groupB).1 (h1.trans (List.Perm.swap _ _ _)))
        rw [this]
  rcases hp with e | e
  · rw [e]; rfl
  · exfalso
    rw [e] at h2
    simp only [List.pairwise_cons, List.mem_singleton, forall_eq] at h2
    have : discreteCmp groupA groupB = true := by decide +kernel
    rw [h2.1] at this; simp at this

/-- The groups of `C47_violated` come from two ordinary contacts of two link pairs. -/
example : (groupAll (-1000) (fun _ => 1) [⟨(0, 1), [(⟨0, fun _ => .none, fun _ => 0, fun _ => -1⟩, contactA)]⟩,
    ⟨(2, 3), [(⟨-9, fun _ => .none, fun _ => 0, fun _ => -1⟩, contactB)]⟩]) = some [groupA, groupB] := rfl

/-- non-vacuity of the hypotheses of `C47_discrete_partial`/`C47_violated`: such a sort exists (insertion sort by the
comparator's weak order). -/
example : ∃ sort : List (GSet Nat (Fin 1) ℚ) → List (GSet Nat (Fin 1) ℚ), SortsBy discreteCmp sort := by
  refine ⟨fun l => l.insertionSort fun a b => discreteCmp b a = false, fun l => ⟨List.perm_insertionSort _ l, ?_⟩⟩
  have key : ∀ a b : Fin 2 → ℚ, arrayGt a b = false ↔ a 0 < b 0 ∨ (a 0 = b 0 ∧ a 1 ≤ b 1) := by
    intro a b
    simp only [arrayGt, Bool.or_eq_false_iff, Bool.and_eq_false_iff, decide_eq_false_iff_not, not_lt]
    constructor
    · rintro ⟨h1, h2⟩
      rcases lt_or_eq_of_le h1 with h | h
      · exact Or.inl h
      · rcases h2 with h2 | h2
        · exact absurd h.symm h2
        · exact Or.inr ⟨h, h2⟩
    · rintro (h | ⟨h, h2⟩)
      · exact ⟨h.le, Or.inl h.ne'⟩
      · exact ⟨h.le, Or.inr h2⟩
  haveI : Std.Total (fun a b : GSet Nat (Fin 1) ℚ => discreteCmp b a = false) := ⟨fun a b => by
    simp only [discreteCmp, key]
    rcases lt_trichotomy ((b.maxError 0).err 0) ((a.maxError 0).err 0) with h | h | h
    · exact Or.inl (Or.inl h)
    · rcases le_total ((b.maxError 0).err 1) ((a.maxError 0).err 1) with h2 | h2
      · exact Or.inl (Or.inr ⟨h, h2⟩)
      · exact Or.inr (Or.inr ⟨h.symm, h2⟩)
    · exact Or.inr (Or.inl h)⟩
  haveI : IsTrans (GSet Nat (Fin 1) ℚ) (fun a b => discreteCmp b a = false) := ⟨fun a b c h1 h2 => by
    simp only [discreteCmp, key] at *
    rcases h1 with h1 | ⟨h1, h1'⟩ <;> rcases h2 with h2 | ⟨h2, h2'⟩
    · exact Or.inl (h2.trans h1)
    · exact Or.inl (h2 ▸ h1)
    · exact Or.inl (h1 ▸ h2)
    · exact Or.inr ⟨h2.trans h1, h2'.trans h1'⟩⟩
  exact List.pairwise_insertionSort _ l

end Verif.Collision
