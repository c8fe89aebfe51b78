import Verif.Props.CollisionSets
import Verif.Props.Cache
import Verif.Props.Bounds
import Verif.Model.CollisionCons

/-!
C92 (values and coefficients of the collision constraints with a fixed number of rows), C93 (a satisfied constraint
means that every considered contact keeps its margin).
-/

set_option linter.unusedSectionVars false
set_option linter.unusedVariables false

namespace Verif.Collision

universe u v w

/-! ### Specification -/

section spec
variable {Name : Type w} [LinearOrder Name] {ι : Type u} {K : Type v} [Field K] [LinearOrder K] [IsStrictOrderedRing K]

/-- Contact `r` is reported for the pair `k` and the pair is not switched off by a zero coefficient. -/
def Considered (ev : Evaluator Name K) (raw : RawMap Name ι K) (k : Name × Name) (r : Raw ι K) : Prop :=
  (∃ rs, (k, rs) ∈ raw ∧ r ∈ rs) ∧ k ∉ ev.coeff.zero

/-- How far the contact is inside the margin of its pair. -/
def depth (ev : Evaluator Name K) (k : Name × Name) (r : Raw ι K) : K := ev.margin k - r.c.distance

/-- Contacts of the entry `p` that are in reach and belong to the shape pair `sk`. -/
def InGroup (ev : Evaluator Name K) (near : (Name × Name) → Raw ι K → Prop) (p : (Name × Name) × List (Raw ι K)) (sk : Nat × Nat)
    (r : Raw ι K) : Prop := r ∈ p.2 ∧ near p.1 r ∧ shapeKey r.c = some sk

open Classical in
/-- The contacts of the entry `p` that are in reach and belong to the shape pair `sk`, in order. -/
noncomputable def members (near : (Name × Name) → Raw ι K → Prop) (p : (Name × Name) × List (Raw ι K)) (sk : Nat × Nat) :
    List (Raw ι K) := p.2.filter fun r => decide (near p.1 r ∧ shapeKey r.c = some sk)

/-- In reach of the discrete evaluator. -/
def Near (ev : Evaluator Name K) (k : Name × Name) (r : Raw ι K) : Prop :=
  k ∉ ev.coeff.zero ∧ r.c.distance ≤ ev.margin k + ev.buffer

/-- In reach of an LVS evaluator: and relevant for a free end. -/
def NearFree (ev : Evaluator Name K) (fixed0 fixed1 : Bool) (k : Name × Name) (r : Raw ι K) : Prop :=
  k ∉ ev.coeff.zero ∧ Relevant (ev.margin k) ev.buffer fixed0 fixed1 r.c

/-- What the contact checker and the kinematics guarantee: shape ids with a defined hash, an active link, links with a
continuous classification are active, and finite numbers above `lowest()`. -/
structure Delivered (ev : Evaluator Name K) (raw : RawMap Name ι K) : Prop where
  shapes : ∀ p ∈ raw, ∀ r ∈ p.2, shapeKey r.c ≠ none
  active : ∀ p ∈ raw, ∀ r ∈ p.2, ∃ i, r.active i = true
  classified : ∀ p ∈ raw, ∀ r ∈ p.2, ∀ i, r.c.cc i ≠ .none → r.active i = true
  low : ∀ p ∈ raw, ∀ r ∈ p.2, ev.lowest < ev.margin p.1 - r.c.distance ∧
    ev.lowest < ev.margin p.1 + ev.buffer - r.c.distance

/-- Contacts of a discrete check carry no continuous classification. -/
def Unclassified (raw : RawMap Name ι K) : Prop := ∀ p ∈ raw, ∀ r ∈ p.2, ∀ i, r.c.cc i = .none

end spec

/-! ### Grouping of a whole map -/

section helpers
variable {Name : Type w} {ι : Type u} {K : Type v} [LinearOrder K]

/-- Groups of a whole map: every group comes from one pair and one shape key, and every contact has its group. -/
theorem groupAll_spec (lowest : K) (coeff : Name × Name → K) (ps : List (PairContacts Name ι K))
    (hk : ∀ p ∈ ps, ∀ c ∈ p.contacts, shapeKey c.1 ≠ none) :
    ∃ gs, groupAll lowest coeff ps = some gs ∧
      (∀ g ∈ gs, ∃ p ∈ ps, withKey p g.shapeKey ≠ [] ∧
        g = (GSet.new lowest p.key g.shapeKey (coeff p.key)).addAll (withKey p g.shapeKey)) ∧
      (∀ p ∈ ps, ∀ c ∈ p.contacts, ∃ g ∈ gs, shapeKey c.1 = some g.shapeKey ∧
        g = (GSet.new lowest p.key g.shapeKey (coeff p.key)).addAll (withKey p g.shapeKey)) := by
  simp only [groupAll]
  suffices H : ∃ gss, ps.mapM (groupPair lowest coeff) = some gss ∧
      (∀ gs ∈ gss, ∀ g ∈ gs, ∃ p ∈ ps, withKey p g.shapeKey ≠ [] ∧
        g = (GSet.new lowest p.key g.shapeKey (coeff p.key)).addAll (withKey p g.shapeKey)) ∧
      (∀ p ∈ ps, ∀ c ∈ p.contacts, ∃ gs ∈ gss, ∃ g ∈ gs, shapeKey c.1 = some g.shapeKey ∧
        g = (GSet.new lowest p.key g.shapeKey (coeff p.key)).addAll (withKey p g.shapeKey)) by
    obtain ⟨gss, h1, h2, h3⟩ := H
    refine ⟨gss.flatten, by rw [h1], fun g hg => ?_, fun p hp c hc => ?_⟩
    · obtain ⟨gs, m1, m2⟩ := List.mem_flatten.1 hg
      exact h2 gs m1 g m2
    · obtain ⟨gs, m1, g, m2, m3⟩ := h3 p hp c hc
      exact ⟨g, List.mem_flatten.2 ⟨gs, m1, m2⟩, m3⟩
  induction ps with
  | nil => exact ⟨[], rfl, by simp, by simp⟩
  | cons p ps ih =>
    obtain ⟨gs, h1, h2, h3, h4⟩ := C70_grouping lowest coeff p (hk p (by simp))
    obtain ⟨gss, i1, i2, i3⟩ := ih fun q hq => hk q (by simp [hq])
    refine ⟨gs :: gss, by simp [List.mapM_cons, h1, i1], ?_, ?_⟩
    · intro gs' hgs' g hg
      rcases List.mem_cons.1 hgs' with rfl | hgs'
      · obtain ⟨a1, a2, a3, a4⟩ := h4 g hg
        refine ⟨p, by simp, ?_, a4⟩
        obtain ⟨c, hc, e⟩ := (h3 g.shapeKey).1 ⟨g, hg, rfl⟩
        exact List.ne_nil_of_mem (List.mem_map.2 ⟨c, List.mem_filter.2 ⟨hc, decide_eq_true e⟩, rfl⟩)
      · obtain ⟨q, m1, m2⟩ := i2 gs' hgs' g hg
        exact ⟨q, by simp [m1], m2⟩
    · intro q hq c hc
      rcases List.mem_cons.1 hq with rfl | hq
      · obtain ⟨k, hk'⟩ := Option.ne_none_iff_exists'.1 (hk q (by simp) c hc)
        obtain ⟨g, hg, e⟩ := (h3 k).2 ⟨c, hc, hk'⟩
        exact ⟨gs, by simp, g, hg, by rw [hk', e], (h4 g hg).2.2.2⟩
      · obtain ⟨gs', m1, m2⟩ := i3 q hq c hc
        exact ⟨gs', by simp [m1], m2⟩

theorem addAll_coeff (lowest : K) (key : Name × Name) (sk : Nat × Nat) (coeff : K) (rs : List (GradRes ι K)) :
    ((GSet.new lowest key sk coeff : GSet Name ι K).addAll rs).coeff = coeff ∧
    ((GSet.new lowest key sk coeff : GSet Name ι K).addAll rs).key = key ∧
    ((GSet.new lowest key sk coeff : GSet Name ι K).addAll rs).shapeKey = sk := by
  induction rs using List.reverseRecOn with
  | nil => exact ⟨rfl, rfl, rfl⟩
  | append_singleton rs r ih => simpa [GSet.addAll, List.foldl_append, GSet.add] using ih

/-- The value read for a group all of whose contacts count at kind `k`. -/
theorem valueT (lowest : K) (key : Name × Name) (sk : Nat × Nat) (coeff : K) (rs : List (GradRes ι K)) (hne : rs ≠ [])
    (he : ∀ r ∈ rs, lowest < r.error) (hb : ∀ r ∈ rs, lowest < r.errorBuf) (k : Fin 2)
    (hc : ∀ r ∈ rs, ∃ i, Counts k i r) :
    ∃ x, ((GSet.new lowest key sk coeff : GSet Name ι K).addAll rs).getMaxErrorT lowest k = some x ∧
      IsMax (fun v => ∃ r ∈ rs, r.error = v) x := by
  obtain ⟨_, h1, h2, _⟩ := C46_max_error_at (Name := Name) lowest key sk coeff rs he hb k
  cases hv : ((GSet.new lowest key sk coeff : GSet Name ι K).addAll rs).getMaxErrorT lowest k with
  | none =>
    obtain ⟨r, hr⟩ := List.exists_mem_of_ne_nil rs hne
    obtain ⟨i, hi⟩ := hc r hr
    exact absurd hi (h1.1 hv r hr i)
  | some x =>
    obtain ⟨⟨r, hr, i, _, e⟩, m⟩ := h2 x hv
    refine ⟨x, rfl, ⟨r, hr, e⟩, ?_⟩
    rintro v ⟨r', hr', rfl⟩
    obtain ⟨i', hi'⟩ := hc r' hr'
    exact m _ ⟨r', hr', i', hi', rfl⟩

/-- The value read with both ends free. -/
theorem valueBoth (lowest : K) (key : Name × Name) (sk : Nat × Nat) (coeff : K) (rs : List (GradRes ι K)) (hne : rs ≠ [])
    (he : ∀ r ∈ rs, lowest < r.error) (hb : ∀ r ∈ rs, lowest < r.errorBuf)
    (hc : ∀ r ∈ rs, ∃ i, (r.grads i).has = true) :
    ∃ x, ((GSet.new lowest key sk coeff : GSet Name ι K).addAll rs).getMaxError lowest = some x ∧
      IsMax (fun v => ∃ r ∈ rs, r.error = v) x := by
  obtain ⟨h1, h2, _⟩ := C46_max_error (Name := Name) lowest key sk coeff rs he hb
  cases hv : ((GSet.new lowest key sk coeff : GSet Name ι K).addAll rs).getMaxError lowest with
  | none =>
    obtain ⟨r, hr⟩ := List.exists_mem_of_ne_nil rs hne
    obtain ⟨i, hi⟩ := hc r hr
    rw [h1.1 hv r hr i] at hi; simp at hi
  | some x =>
    obtain ⟨⟨r, hr, _, e⟩, m⟩ := h2 x hv
    refine ⟨x, rfl, ⟨r, hr, e⟩, ?_⟩
    rintro v ⟨r', hr', rfl⟩
    exact m _ ⟨r', hr', hc r' hr', rfl⟩

theorem mapM_rows {α β : Type*} (f : α → Option β) (P : α → β → Prop) (l : List α)
    (h : ∀ a ∈ l, ∃ b, f a = some b ∧ P a b) :
    ∃ bs, l.mapM f = some bs ∧ bs.length = l.length ∧ ∀ (i : Nat) a, l[i]? = some a → ∃ b, bs[i]? = some b ∧ P a b := by
  induction l with
  | nil => exact ⟨[], rfl, rfl, by simp⟩
  | cons a l ih =>
    obtain ⟨b, hb, hp⟩ := h a (by simp)
    obtain ⟨bs, hbs, hl, hps⟩ := ih fun a' ha' => h a' (by simp [ha'])
    refine ⟨b :: bs, by simp [List.mapM_cons, hb, hbs], by simp [hl], ?_⟩
    intro i a' hi
    cases i with
    | zero => simp at hi; subst hi; exact ⟨b, by simp, hp⟩
    | succ i => simpa using hps i a' (by simpa using hi)

end helpers

/-! ### Evaluators -/

section eval
variable {Name : Type w} [LinearOrder Name] {ι : Type u} {K : Type v} [Field K] [LinearOrder K] [IsStrictOrderedRing K]

/-- What a list of groups says about the map: `near` selects the contacts in reach, `grad` their gradients. -/
structure Groups (ev : Evaluator Name K) (raw : RawMap Name ι K) (near : (Name × Name) → Raw ι K → Prop)
    (grad : (Name × Name) → Raw ι K → GradRes ι K) (gs : List (GSet Name ι K)) : Prop where
  /-- every group is built from the contacts of one pair and shape pair -/
  built : ∀ g ∈ gs, ∃ p ∈ raw, ∃ rs : List (Raw ι K), rs ≠ [] ∧ (∀ r, r ∈ rs ↔ InGroup ev near p g.shapeKey r) ∧
    g = (GSet.new ev.lowest p.1 g.shapeKey (ev.coeff.get p.1.1 p.1.2)).addAll (rs.map (grad p.1))
  /-- every contact in reach is in a group -/
  covers : ∀ p ∈ raw, ∀ r ∈ p.2, near p.1 r → ∃ g ∈ gs, ∃ rs : List (Raw ι K), r ∈ rs ∧
    (∀ r, r ∈ rs ↔ InGroup ev near p g.shapeKey r) ∧
    g = (GSet.new ev.lowest p.1 g.shapeKey (ev.coeff.get p.1.1 p.1.2)).addAll (rs.map (grad p.1))
  /-- every group holds the contacts of its pair and shape pair once each, in order -/
  exact : ∀ g ∈ gs, ∃ p ∈ raw, g.key = p.1 ∧ g.results = (members near p g.shapeKey).map (grad p.1)

theorem Groups.perm {ev : Evaluator Name K} {raw : RawMap Name ι K} {near grad} {gs gs' : List (GSet Name ι K)}
    (h : Groups ev raw near grad gs) (hp : gs'.Perm gs) : Groups ev raw near grad gs' where
  built := fun g hg => h.built g (hp.mem_iff.1 hg)
  covers := fun p hp' r hr hn => by
    obtain ⟨g, hg, rest⟩ := h.covers p hp' r hr hn
    exact ⟨g, hp.mem_iff.2 hg, rest⟩
  exact := fun g hg => h.exact g (hp.mem_iff.1 hg)

/-- The grouping step for a filter `keep` that decides `near`. -/
theorem groups_of_filter (ev : Evaluator Name K) (raw : RawMap Name ι K) (near : (Name × Name) → Raw ι K → Prop)
    (keep : (Name × Name) → Raw ι K → Bool) (hkeep : ∀ p ∈ raw, ∀ r ∈ p.2, keep p.1 r = true ↔ near p.1 r)
    (grad : (Name × Name) → Raw ι K → GradRes ι K) (hs : ∀ p ∈ raw, ∀ r ∈ p.2, shapeKey r.c ≠ none) :
    ∃ gs, groupAll ev.lowest (fun k => ev.coeff.get k.1 k.2)
      (raw.map fun p => (⟨p.1, (p.2.filter (keep p.1)).map fun r => (r.c, grad p.1 r)⟩ : PairContacts Name ι K)) = some gs ∧
      Groups ev raw near grad gs := by
  obtain ⟨gs, h1, h2, h3⟩ := groupAll_spec ev.lowest (fun k => ev.coeff.get k.1 k.2)
    (raw.map fun p => (⟨p.1, (p.2.filter (keep p.1)).map fun r => (r.c, grad p.1 r)⟩ : PairContacts Name ι K)) (by
      intro q hq c hc
      obtain ⟨p, hp, rfl⟩ := List.mem_map.1 hq
      obtain ⟨r, hr, rfl⟩ := List.mem_map.1 hc
      exact hs p hp r (List.mem_filter.1 hr).1)
  have hw : ∀ (p : (Name × Name) × List (Raw ι K)) sk,
      withKey (⟨p.1, (p.2.filter (keep p.1)).map fun r => (r.c, grad p.1 r)⟩ : PairContacts Name ι K) sk =
      ((p.2.filter (keep p.1)).filter fun r => decide (shapeKey r.c = some sk)).map (grad p.1) := by
    intro p sk
    simp only [withKey, List.filter_map, List.map_map]
    rfl
  have hm : ∀ p ∈ raw, ∀ sk r, r ∈ ((p.2.filter (keep p.1)).filter fun r => decide (shapeKey r.c = some sk)) ↔
      InGroup ev near p sk r := by
    intro p hp sk r
    simp only [List.mem_filter, decide_eq_true_eq, InGroup]
    constructor
    · rintro ⟨⟨a, b⟩, c⟩; exact ⟨a, (hkeep p hp r a).1 b, c⟩
    · rintro ⟨a, b, c⟩; exact ⟨⟨a, (hkeep p hp r a).2 b⟩, c⟩
  have he : ∀ p ∈ raw, ∀ sk, ((p.2.filter (keep p.1)).filter fun r => decide (shapeKey r.c = some sk)) = members near p sk := by
    intro p hp sk
    rw [members, List.filter_filter]
    apply List.filter_congr
    intro r hr
    have := hkeep p hp r hr
    by_cases h1 : near p.1 r <;> by_cases h2 : shapeKey r.c = some sk <;> simp_all
  refine ⟨gs, h1, ⟨?_, ?_, ?_⟩⟩
  rotate_left 2
  · intro g hg
    obtain ⟨q, hq, hne, e⟩ := h2 g hg
    obtain ⟨p, hp, rfl⟩ := List.mem_map.1 hq
    rw [hw, he p hp] at e
    refine ⟨p, hp, ?_, ?_⟩
    · have := (addAll_coeff (Name := Name) ev.lowest p.1 g.shapeKey (ev.coeff.get p.1.1 p.1.2)
        ((members near p g.shapeKey).map (grad p.1))).2.1
      rwa [← e] at this
    · have := congrArg GSet.results e
      rwa [(slots (Name := Name) _ _ _ _ _ 0 0).2.2.2] at this
  · intro g hg
    obtain ⟨q, hq, hne, e⟩ := h2 g hg
    obtain ⟨p, hp, rfl⟩ := List.mem_map.1 hq
    rw [hw] at hne e
    exact ⟨p, hp, _, by simpa using hne, hm p hp g.shapeKey, e⟩
  · intro p hp r hr hn
    obtain ⟨g, hg, hsk, e⟩ := h3 _ (List.mem_map.2 ⟨p, hp, rfl⟩) (r.c, grad p.1 r)
      (List.mem_map.2 ⟨r, List.mem_filter.2 ⟨hr, (hkeep p hp r hr).2 hn⟩, rfl⟩)
    rw [hw] at e
    exact ⟨g, hg, _, (hm p hp g.shapeKey r).2 ⟨hr, hn, hsk⟩, hm p hp g.shapeKey, e⟩

/-- The gradient of a discrete contact. -/
def grad1 (ev : Evaluator Name K) (k : Name × Name) (r : Raw ι K) : GradRes ι K :=
  getGradient1 r.c r.t r.grad r.active (ev.margin k) ev.buffer
/-- The gradient of a continuous contact. -/
def grad2 (ev : Evaluator Name K) (k : Name × Name) (r : Raw ι K) : GradRes ι K :=
  getGradient2 r.c r.t r.grad r.active (ev.margin k) ev.buffer

/-- `calcCollisions` describes the map. -/
theorem calcCollisions_spec (ev : Evaluator Name K) (sort : List (GSet Name ι K) → List (GSet Name ι K))
    (hsort : ∀ l, (sort l).Perm l) (rows : Nat) (hr : 0 < rows) (raw : RawMap Name ι K) (h : Delivered ev raw) :
    ∃ d, calcCollisions ev sort rows raw = some d ∧ d.map = discreteFilter ev raw ∧
      Groups ev raw (Near ev) (grad1 ev) d.sets ∧
      ∃ gs, d.sets = (keptSets sort rows gs).1 ++ (keptSets sort rows gs).2 ∧
        groupAll ev.lowest (fun k => ev.coeff.get k.1 k.2) (discretePairs ev (discreteFilter ev raw)) = some gs := by
  let keep : (Name × Name) → Raw ι K → Bool := fun k r =>
    !decide (k ∈ ev.coeff.zero) && !decide (ev.margin k + ev.buffer < r.c.distance)
  have hp : discretePairs ev (discreteFilter ev raw) =
      raw.map fun p => (⟨p.1, (p.2.filter (keep p.1)).map fun r => (r.c, grad1 ev p.1 r)⟩ : PairContacts Name ι K) := by
    simp only [discretePairs, discreteFilter, List.map_map]
    apply List.map_congr_left
    intro p hp
    simp only [Function.comp, grad1, keep]
    by_cases hz : p.1 ∈ ev.coeff.zero <;> simp [hz]
  obtain ⟨gs, h1, h2⟩ := groups_of_filter ev raw (Near ev) keep (by
    intro p hp r hr
    simp [keep, Near]) (grad1 ev) h.shapes
  simp only [calcCollisions, if_neg hr.ne', hp, h1]
  refine ⟨_, rfl, rfl, ?_, gs, ?_, rfl⟩
  · simp only
    split_ifs
    · exact h2.perm (hsort gs)
    · exact h2
  · simp only [keptSets, List.take_append_drop]

/-- `calcCollisionData` describes the map; it does not throw. -/
theorem calcCollisionData_spec (ev : Evaluator Name K) (sort : List (GSet Name ι K) → List (GSet Name ι K))
    (hsort : ∀ l, (sort l).Perm l) (fixed0 fixed1 : Bool) (hf : ¬ (fixed0 = true ∧ fixed1 = true)) (rows : Nat) (hr : 0 < rows)
    (raw : RawMap Name ι K) (h : Delivered ev raw) :
    ∃ d, calcCollisionData ev sort fixed0 fixed1 rows raw = some d ∧ d.map = continuousFilter ev fixed0 fixed1 raw ∧
      Groups ev raw (NearFree ev fixed0 fixed1) (grad2 ev) d.sets ∧
      (∀ g ∈ d.sets, ∀ r ∈ g.results, CountsFree fixed0 fixed1 r) ∧
      ∃ gs, d.sets = (keptSets sort rows gs).1 ++ (keptSets sort rows gs).2 ∧
        groupAll ev.lowest (fun k => ev.coeff.get k.1 k.2) (continuousPairs ev (continuousFilter ev fixed0 fixed1 raw)) = some gs := by
  let keep : (Name × Name) → Raw ι K → Bool := fun k r =>
    !decide (k ∈ ev.coeff.zero) && !isInvalid (ev.margin k) ev.buffer fixed0 fixed1 r.c
  have hp : continuousPairs ev (continuousFilter ev fixed0 fixed1 raw) =
      raw.map fun p => (⟨p.1, (p.2.filter (keep p.1)).map fun r => (r.c, grad2 ev p.1 r)⟩ : PairContacts Name ι K) := by
    simp only [continuousPairs, continuousFilter, List.map_map]
    apply List.map_congr_left
    intro p hp
    simp only [Function.comp, grad2, keep]
    by_cases hz : p.1 ∈ ev.coeff.zero <;> simp [hz]
  have hinv : ∀ k (r : Raw ι K), isInvalid (ev.margin k) ev.buffer fixed0 fixed1 r.c = false ↔
      Relevant (ev.margin k) ev.buffer fixed0 fixed1 r.c := by
    intro k r
    have := (C62_filter [r.c] (ev.margin k) ev.buffer fixed0 fixed1).1 r.c
    simpa [removeInvalidContactResults] using this
  obtain ⟨gs, h1, h2⟩ := groups_of_filter ev raw (NearFree ev fixed0 fixed1) keep (by
    intro p hp r hr
    simp [keep, NearFree, hinv]) (grad2 ev) h.shapes
  have hcf : ∀ g ∈ gs, ∀ r ∈ g.results, CountsFree fixed0 fixed1 r := by
    intro g hg r hr
    obtain ⟨p, hp, rs, hne, hmem, e⟩ := h2.built g hg
    have : g.results = rs.map (grad2 ev p.1) := by
      have := congrArg GSet.results e
      rwa [(slots (Name := Name) _ _ _ _ _ 0 0).2.2.2] at this
    rw [this] at hr
    obtain ⟨q, hq, rfl⟩ := List.mem_map.1 hr
    obtain ⟨a, b, c⟩ := (hmem q).1 hq
    exact C47_filter_counts q.c q.t q.grad q.active (ev.margin p.1) ev.buffer (ev.margin p.1) ev.buffer fixed0 fixed1 hf
      ((hinv p.1 q).2 b.2) (h.classified p hp q a) (h.active p hp q a)
  have hmeas : ∀ g ∈ gs, (continuousMeasure ev.lowest fixed0 fixed1 g).isSome = true := by
    intro g hg
    obtain ⟨p, hp, rs, hne, hmem, e⟩ := h2.built g hg
    have hres : g.results = rs.map (grad2 ev p.1) := by
      have := congrArg GSet.results e
      rwa [(slots (Name := Name) _ _ _ _ _ 0 0).2.2.2] at this
    have hl : ∀ r ∈ rs.map (grad2 ev p.1), ev.lowest < r.error ∧ ev.lowest < r.errorBuf := by
      intro r hr
      obtain ⟨q, hq, rfl⟩ := List.mem_map.1 hr
      exact h.low p hp q ((hmem q).1 hq).1
    obtain ⟨q, hq⟩ := List.exists_mem_of_ne_nil rs hne
    obtain ⟨x, hx, _⟩ := continuousMeasure_spec (Name := Name) ev.lowest fixed0 fixed1 hf p.1 g.shapeKey
      (ev.coeff.get p.1.1 p.1.2) (rs.map (grad2 ev p.1)) (fun r hr => (hl r hr).1) (fun r hr => (hl r hr).2)
      ⟨grad2 ev p.1 q, List.mem_map.2 ⟨q, hq, rfl⟩, hcf g hg _ (by rw [hres]; exact List.mem_map.2 ⟨q, hq, rfl⟩)⟩
    rw [← e] at hx
    rw [hx]; rfl
  have hall : (gs.all fun g => (continuousMeasure ev.lowest fixed0 fixed1 g).isSome) = true :=
    List.all_eq_true.2 hmeas
  have hd : ∃ d, calcCollisionData ev sort fixed0 fixed1 rows raw = some d ∧ d.map = continuousFilter ev fixed0 fixed1 raw ∧
      d.sets = if rows < gs.length then sort gs else gs := by
    simp only [calcCollisionData, if_neg hr.ne', hp, h1, hall, if_true]
    split_ifs <;> exact ⟨_, rfl, rfl, rfl⟩
  obtain ⟨d, d1, d2, d3⟩ := hd
  refine ⟨d, d1, d2, ?_, ?_, gs, ?_, by rw [hp, h1]⟩
  · rw [d3]; split_ifs
    · exact h2.perm (hsort gs)
    · exact h2
  · rw [d3]; split_ifs
    · intro g hg; exact hcf g ((hsort gs).mem_iff.1 hg)
    · exact hcf
  · rw [d3]; simp only [keptSets, List.take_append_drop]

/-- Specification of the value of a row with a group: the deepest contact of one pair and shape pair. -/
def RowValue (ev : Evaluator Name K) (raw : RawMap Name ι K) (near : (Name × Name) → Raw ι K → Prop) (g : GSet Name ι K)
    (v : K) : Prop :=
  IsMax (fun x => ∃ r ∈ g.results, r.error = x) v ∧
  ∃ p ∈ raw, g.key = p.1 ∧ g.coeff = ev.coeff.get p.1.1 p.1.2 ∧
    IsMax (fun x => ∃ r, InGroup ev near p g.shapeKey r ∧ depth ev p.1 r = x) v

/-- A group with value `v` whose contacts are all read. -/
theorem Groups.row {ev : Evaluator Name K} {raw : RawMap Name ι K} {near : (Name × Name) → Raw ι K → Prop}
    {grad : (Name × Name) → Raw ι K → GradRes ι K} {gs : List (GSet Name ι K)} (h : Groups ev raw near grad gs)
    (hgrad : ∀ k r, (grad k r).error = depth ev k r) (g : GSet Name ι K) (hg : g ∈ gs) (v : K)
    (hv : IsMax (fun x => ∃ r ∈ g.results, r.error = x) v) : RowValue ev raw near g v := by
  obtain ⟨p, hp, rs, hne, hmem, e⟩ := h.built g hg
  have hres : g.results = rs.map (grad p.1) := by
    have := congrArg GSet.results e
    rwa [(slots (Name := Name) _ _ _ _ _ 0 0).2.2.2] at this
  obtain ⟨c1, c2, c3⟩ := addAll_coeff (Name := Name) ev.lowest p.1 g.shapeKey (ev.coeff.get p.1.1 p.1.2) (rs.map (grad p.1))
  rw [← e] at c1 c2
  refine ⟨hv, p, hp, c2, c1, ?_⟩
  rw [hres] at hv
  obtain ⟨⟨r, hr, er⟩, hmax⟩ := hv
  obtain ⟨q, hq, rfl⟩ := List.mem_map.1 hr
  refine ⟨⟨q, (hmem q).1 hq, by rw [← er, hgrad]⟩, ?_⟩
  rintro x ⟨r, hr, rfl⟩
  exact hmax _ ⟨_, List.mem_map.2 ⟨r, (hmem r).2 hr, rfl⟩, hgrad _ _⟩

theorem Groups.low {ev : Evaluator Name K} {raw : RawMap Name ι K} {near : (Name × Name) → Raw ι K → Prop}
    {grad : (Name × Name) → Raw ι K → GradRes ι K} {gs : List (GSet Name ι K)} (h : Groups ev raw near grad gs)
    (hd : Delivered ev raw)
    (hgrad : ∀ k r, (grad k r).error = depth ev k r ∧ (grad k r).errorBuf = ev.margin k + ev.buffer - r.c.distance)
    (g : GSet Name ι K) (hg : g ∈ gs) :
    ∃ p ∈ raw, ∃ rs : List (Raw ι K), rs ≠ [] ∧ (∀ r ∈ rs, r ∈ p.2) ∧ g.results = rs.map (grad p.1) ∧
      g = (GSet.new ev.lowest p.1 g.shapeKey (ev.coeff.get p.1.1 p.1.2)).addAll g.results ∧
      g.results ≠ [] ∧ (∀ r ∈ g.results, ev.lowest < r.error) ∧ (∀ r ∈ g.results, ev.lowest < r.errorBuf) := by
  obtain ⟨p, hp, rs, hne, hmem, e⟩ := h.built g hg
  have hres : g.results = rs.map (grad p.1) := by
    have := congrArg GSet.results e
    rwa [(slots (Name := Name) _ _ _ _ _ 0 0).2.2.2] at this
  refine ⟨p, hp, rs, hne, fun r hr => ((hmem r).1 hr).1, hres, by rw [hres]; exact e, by rw [hres]; simpa using hne, ?_, ?_⟩
  · intro r hr
    rw [hres] at hr
    obtain ⟨q, hq, rfl⟩ := List.mem_map.1 hr
    rw [(hgrad p.1 q).1]
    exact (hd.low p hp q ((hmem q).1 hq).1).1
  · intro r hr
    rw [hres] at hr
    obtain ⟨q, hq, rfl⟩ := List.mem_map.1 hr
    rw [(hgrad p.1 q).2]
    exact (hd.low p hp q ((hmem q).1 hq).1).2

theorem grad1_error (ev : Evaluator Name K) (k : Name × Name) (r : Raw ι K) :
    (grad1 ev k r).error = depth ev k r ∧ (grad1 ev k r).errorBuf = ev.margin k + ev.buffer - r.c.distance := ⟨rfl, rfl⟩
theorem grad2_error (ev : Evaluator Name K) (k : Name × Name) (r : Raw ι K) :
    (grad2 ev k r).error = depth ev k r ∧ (grad2 ev k r).errorBuf = ev.margin k + ev.buffer - r.c.distance := ⟨rfl, rfl⟩

theorem grad1_counts (ev : Evaluator Name K) (k : Name × Name) (r : Raw ι K) (ha : ∃ i, r.active i = true)
    (hc : ∀ i, r.c.cc i = .none) : ∃ i, Counts 0 i (grad1 ev k r) := by
  obtain ⟨i, hi⟩ := ha
  refine ⟨i, ?_⟩
  simp [Counts, grad1, getGradient1, hi, calcGradient, hc i]

/-- The value of a group of the discrete evaluator. -/
theorem discreteRow_spec (ev : Evaluator Name K) (raw : RawMap Name ι K) (h : Delivered ev raw) (hu : Unclassified raw)
    (gs : List (GSet Name ι K)) (hg : Groups ev raw (Near ev) (grad1 ev) gs) (g : GSet Name ι K) (hm : g ∈ gs) :
    ∃ v, g.getMaxErrorT ev.lowest 0 = some v ∧ IsMax (fun x => ∃ r ∈ g.results, r.error = x) v := by
  obtain ⟨p, hp, rs, _, hrs, hres, e, hne, hl, hb⟩ := hg.low h (grad1_error ev) g hm
  obtain ⟨x, hx, hmax⟩ := valueT (Name := Name) ev.lowest p.1 g.shapeKey (ev.coeff.get p.1.1 p.1.2) g.results hne hl hb 0 (by
    intro r hr
    rw [hres] at hr
    obtain ⟨q, hq, rfl⟩ := List.mem_map.1 hr
    exact grad1_counts ev p.1 q (h.active p hp q (hrs q hq)) (hu p hp q (hrs q hq)))
  rw [← e] at hx
  exact ⟨x, hx, hmax⟩

/-- The value of a group of an LVS evaluator, as read by both variants of the constraint. -/
theorem continuousRow_spec {n : Nat} (ev : Evaluator Name K) (raw : RawMap Name (Fin n) K) (h : Delivered ev raw)
    (fixed0 fixed1 : Bool) (hf : ¬ (fixed0 = true ∧ fixed1 = true)) (gs : List (GSet Name (Fin n) K))
    (hg : Groups ev raw (NearFree ev fixed0 fixed1) (grad2 ev) gs)
    (hc : ∀ g ∈ gs, ∀ r ∈ g.results, CountsFree fixed0 fixed1 r) (g : GSet Name (Fin n) K) (hm : g ∈ gs) :
    ∃ v, freeError ev.lowest fixed0 fixed1 g = some v ∧ continuousRow ev.lowest fixed0 fixed1 g = some (some v) ∧
      IsMax (fun x => ∃ r ∈ g.results, r.error = x) v := by
  obtain ⟨p, hp, rs, _, hrs, hres, e, hne, hl, hb⟩ := hg.low h (grad2_error ev) g hm
  have hcg := hc g hm
  have hhas : ∀ k : Fin 2, (∀ r ∈ g.results, ∃ i, Counts k i r) → ((g.maxError 0).has k || (g.maxError 1).has k) = true := by
    intro k hk
    obtain ⟨r, hr⟩ := List.exists_mem_of_ne_nil _ hne
    obtain ⟨i, hi⟩ := hk r hr
    have hs : ∀ j, (g.maxError j).has k = decide (contrib GradRes.error k j g.results ≠ []) := by
      intro j
      have := (slots (Name := Name) ev.lowest p.1 g.shapeKey (ev.coeff.get p.1.1 p.1.2) g.results j k).1
      rwa [← e] at this
    have hj : (g.maxError i).has k = true := by
      rw [hs i]
      exact decide_eq_true (List.ne_nil_of_mem ((mem_contrib _ k i g.results _).2 ⟨r, hr, hi, rfl⟩))
    match i with
    | 0 => rw [hj]; rfl
    | 1 => rw [hj]; simp
  match fixed0, fixed1 with
  | true, true => exact absurd ⟨rfl, rfl⟩ hf
  | false, false =>
    obtain ⟨x, hx, hmax⟩ := valueBoth (Name := Name) ev.lowest p.1 g.shapeKey (ev.coeff.get p.1.1 p.1.2) g.results hne hl hb (by
      intro r hr
      obtain ⟨i, ⟨_, hi⟩ | ⟨_, hi⟩⟩ := hcg r hr <;> exact ⟨i, hi.1⟩)
    rw [← e] at hx
    exact ⟨x, by simp [freeError, hx], by simp [continuousRow, hx], hmax⟩
  | false, true =>
    have hk : ∀ r ∈ g.results, ∃ i, Counts 0 i r := by
      intro r hr
      obtain ⟨i, ⟨_, hi⟩ | ⟨h', _⟩⟩ := hcg r hr
      · exact ⟨i, hi⟩
      · simp at h'
    obtain ⟨x, hx, hmax⟩ := valueT (Name := Name) ev.lowest p.1 g.shapeKey (ev.coeff.get p.1.1 p.1.2) g.results hne hl hb 0 hk
    rw [← e] at hx
    have hh := hhas 0 hk
    exact ⟨x, by simp [freeError, hx], by simp only [continuousRow, hh]; simp [hx], hmax⟩
  | true, false =>
    have hk : ∀ r ∈ g.results, ∃ i, Counts 1 i r := by
      intro r hr
      obtain ⟨i, ⟨h', _⟩ | ⟨_, hi⟩⟩ := hcg r hr
      · simp at h'
      · exact ⟨i, hi⟩
    obtain ⟨x, hx, hmax⟩ := valueT (Name := Name) ev.lowest p.1 g.shapeKey (ev.coeff.get p.1.1 p.1.2) g.results hne hl hb 1 hk
    rw [← e] at hx
    have hh := hhas 1 hk
    exact ⟨x, by simp [freeError, hx], by simp only [continuousRow, hh]; simp [hx], hmax⟩

end eval

/-! ### The constraint object through its whole life -/

section life
variable {Key : Type w} [DecidableEq Key] {Name : Type w} [LinearOrder Name] {n : Nat} {K : Type v} [Field K] [LinearOrder K]
  [IsStrictOrderedRing K] {X : Type*}

/-- A sequence of `update` calls, each at the current variables. -/
def Con.run (s : Con Key Name n K) (hash : X → Key) (eval : X → Option (Data Name (Fin n) K)) (zeros : List (Nat × Nat))
    (xs : List X) : Option (Con Key Name n K) := xs.foldlM (fun s x => s.update hash eval zeros x) s

theorem smallerZero_eq : (smallerZero : Bounds.Bounds K) = ⟨.negInf, .fin 0, .upperBound⟩ := by
  have h0 : Bounds.isFinite (.fin (0 : K)) = true := by
    rw [Bounds.isFinite_iff]; exact ⟨0, rfl, by simp⟩
  simp only [smallerZero, Bounds.Bounds.mk', Bounds.typeOf, h0]; rfl

/-- What holds between updates. -/
structure Con.Ok (hash : X → Key) (eval : X → Option (Data Name (Fin n) K)) (zeros : List (Nat × Nat)) (rows : Nat) (fs : Bool)
    (s : Con Key Name n K) : Prop where
  good : Cache.Good hash eval s.store
  hrows : s.rows = rows
  bounds : s.bounds = List.replicate rows ⟨.negInf, .fin 0, .upperBound⟩
  coeffs : s.coeffs.length = rows
  sparsity : s.fixedSparsity = fs
  triplets : s.triplets = if s.inited && fs then zeros else []

theorem Con.new_ok (k0 : Key) (hash : X → Key) (eval : X → Option (Data Name (Fin n) K)) (zeros : List (Nat × Nat)) (m : Int)
    (fs : Bool) (s : Con Key Name n K) (h : Con.new k0 m fs = some s) :
    s.Ok hash eval zeros m.toNat fs ∧ 0 < m.toNat ∧ 0 < n ∧ s.data = none := by
  simp only [Con.new] at h
  split_ifs at h with h1 h2
  simp only [Option.some.injEq] at h
  subst h
  refine ⟨⟨⟨Cache.init_inv 3 k0, by simp [Cache.abs, Cache.init], ?_⟩, rfl, by rw [← smallerZero_eq], by simp, rfl, by simp⟩, by omega, by omega, rfl⟩
  intro k t h'; simp [Cache.abs, Cache.init] at h'

theorem Con.update_ok (hash : X → Key) (eval : X → Option (Data Name (Fin n) K)) (zeros : List (Nat × Nat))
    (hinj : ∀ x y, hash x = hash y → eval x = eval y) (rows : Nat) (fs : Bool) (s : Con Key Name n K)
    (h : s.Ok hash eval zeros rows fs) (x : X) :
    (eval x = none → s.update hash eval zeros x = none) ∧
    ∀ d, eval x = some d → ∃ t, s.update hash eval zeros x = some t ∧ t.Ok hash eval zeros rows fs ∧ t.data = some d ∧
      t.inited = true ∧
      (∀ (i : Nat) g, i < rows → d.sets[i]? = some g → t.coeffs[i]? = some g.coeff) ∧
      (∀ i : Nat, d.sets.length ≤ i → t.coeffs[i]? = s.coeffs[i]?) := by
  obtain ⟨m1, m2⟩ := Cache.memo_good hash eval hinj s.store h.good x
  constructor
  · intro he
    simp only [Con.update]
    rw [he] at m1
    cases hm : Cache.memo hash eval s.store x with
    | mk o st => rw [hm] at m1; simp only at m1; subst m1; rfl
  · intro d hd
    rw [hd] at m1
    have hlen : s.bounds.length = rows := by rw [h.bounds]; simp
    cases hm : Cache.memo hash eval s.store x with
    | mk o st =>
      rw [hm] at m1 m2
      simp only at m1 m2
      subst m1
      simp only [Con.update, hm]
      refine ⟨_, rfl, ⟨m2, h.hrows, h.bounds, ?_, h.sparsity, ?_⟩, rfl, rfl, ?_, ?_⟩
      · have h1 := h.coeffs
        simp only [overwrite, List.length_append, List.length_map, List.length_take, List.length_drop, h1, hlen]
        omega
      · have ht := h.triplets
        simp only
        rw [h.sparsity, ht]
        cases s.inited <;> cases fs <;> simp
      · intro i g hi hg
        simp only [overwrite, hlen]
        have hl : i < ((d.sets.take rows).map GSet.coeff).length := by
          have := (List.getElem?_eq_some_iff.1 hg).1
          simp; omega
        rw [List.getElem?_append_left hl, List.getElem?_map, List.getElem?_take, if_pos hi, hg]
        rfl
      · intro i hi
        simp only [overwrite, hlen]
        have hl : ((d.sets.take rows).map GSet.coeff).length ≤ i := by simp; omega
        rw [List.getElem?_append_right hl, List.getElem?_drop]
        congr 1
        omega

theorem Con.run_ok (hash : X → Key) (eval : X → Option (Data Name (Fin n) K)) (zeros : List (Nat × Nat))
    (hinj : ∀ x y, hash x = hash y → eval x = eval y) (rows : Nat) (fs : Bool) (xs : List X) (s : Con Key Name n K)
    (h : s.Ok hash eval zeros rows fs) (hall : ∀ x ∈ xs, eval x ≠ none) :
    ∃ t, s.run hash eval zeros xs = some t ∧ t.Ok hash eval zeros rows fs := by
  induction xs generalizing s with
  | nil => exact ⟨s, rfl, h⟩
  | cons x xs ih =>
    obtain ⟨d, hd⟩ := Option.ne_none_iff_exists'.1 (hall x (by simp))
    obtain ⟨t, h1, h2, _⟩ := (Con.update_ok hash eval zeros hinj rows fs s h x).2 d hd
    obtain ⟨t', h3, h4⟩ := ih t h2 fun y hy => hall y (by simp [hy])
    exact ⟨t', by simp only [Con.run, List.foldlM_cons, h1]; exact h3, h4⟩

/-- The state after a history of updates whose last one was at `x`. -/
theorem Con.run_last (hash : X → Key) (eval : X → Option (Data Name (Fin n) K)) (zeros : List (Nat × Nat))
    (hinj : ∀ x y, hash x = hash y → eval x = eval y) (k0 : Key) (m : Int) (fs : Bool) (s : Con Key Name n K)
    (hnew : Con.new k0 m fs = some s) (xs : List X) (hall : ∀ x ∈ xs, eval x ≠ none) (x : X) (d : Data Name (Fin n) K)
    (hd : eval x = some d) :
    ∃ t, s.run hash eval zeros (xs ++ [x]) = some t ∧ t.Ok hash eval zeros m.toNat fs ∧ t.data = some d ∧ t.inited = true ∧
      (∀ (i : Nat) g, i < m.toNat → d.sets[i]? = some g → t.coeffs[i]? = some g.coeff) := by
  obtain ⟨h0, _⟩ := Con.new_ok k0 hash eval zeros m fs s hnew
  obtain ⟨t, h1, h2⟩ := Con.run_ok hash eval zeros hinj m.toNat fs xs s h0 hall
  obtain ⟨t', h3, h4, h5, h6, h7, _⟩ := (Con.update_ok hash eval zeros hinj m.toNat fs t h2 x).2 d hd
  refine ⟨t', ?_, h4, h5, h6, h7⟩
  simp only [Con.run] at h1
  simp only [Con.run, List.foldlM_append, h1, List.foldlM_cons, List.foldlM_nil]
  simp [h3]

/-! ### C92 -/

/-- Specification: `vs` are the values of a constraint with `rows` rows for these groups. -/
def RowsAre (ev : Evaluator Name K) (raw : RawMap Name (Fin n) K) (near : (Name × Name) → Raw (Fin n) K → Prop)
    (rows : Nat) (gs : List (GSet Name (Fin n) K)) (vs : List K) : Prop :=
  vs.length = rows ∧
  (∀ (i : Nat) g, i < rows → gs[i]? = some g → ∃ v, vs[i]? = some v ∧ RowValue ev raw near g v) ∧
  (∀ i : Nat, i < rows → gs.length ≤ i → vs[i]? = some (-ev.buffer))

theorem rowsAre_of_mapM (ev : Evaluator Name K) (raw : RawMap Name (Fin n) K) (near : (Name × Name) → Raw (Fin n) K → Prop)
    (rows : Nat) (gs : List (GSet Name (Fin n) K)) (vs : List K)
    (hl : vs.length = (gs.take rows).length)
    (hv : ∀ (i : Nat) g, (gs.take rows)[i]? = some g → ∃ v, vs[i]? = some v ∧ RowValue ev raw near g v) :
    RowsAre ev raw near rows gs (vs ++ List.replicate (rows - vs.length) (-ev.buffer)) := by
  refine ⟨?_, ?_, ?_⟩
  · simp [hl]
  · intro i g hi hg
    obtain ⟨v, h1, h2⟩ := hv i g (by rw [List.getElem?_take, if_pos hi, hg])
    exact ⟨v, by rw [List.getElem?_append_left (List.getElem?_eq_some_iff.1 h1).1, h1], h2⟩
  · intro i hi hg
    have : vs.length ≤ i := by rw [hl]; simp; omega
    rw [List.getElem?_append_right this, List.getElem?_replicate, if_pos (by omega)]

/-- C92 for `DiscreteCollisionConstraint` and its numerical variant: after any history of updates, the constraint has its
fixed number of rows bounded above by zero; the rows describe the contacts of the last position, the others read minus
the buffer, and the coefficients of the rows with contacts are those of their pairs.  Missing: positions with colliding
hashes (see C43) and the coefficients of the other rows (`C92_violated_coefficients`). -/
theorem C92_discrete_partial (ev : Evaluator Name K) (sort : List (GSet Name (Fin n) K) → List (GSet Name (Fin n) K))
    (hsort : ∀ l, (sort l).Perm l) (k0 : Key) (m : Int) (fs : Bool) (s : Con Key Name n K) (hnew : Con.new k0 m fs = some s)
    (hash : X → Key) (tests : X → RawMap Name (Fin n) K) (hinj : ∀ x y, hash x = hash y → tests x = tests y)
    (hd : ∀ x, Delivered ev (tests x)) (hu : ∀ x, Unclassified (tests x)) (zeros : List (Nat × Nat)) (xs : List X) (x : X) :
    ∃ t vs d, s.run hash (fun x => calcCollisions ev sort m.toNat (tests x)) zeros (xs ++ [x]) = some t ∧
      calcCollisions ev sort m.toNat (tests x) = some d ∧
      t.discreteValues ev = some vs ∧ RowsAre ev (tests x) (Near ev) m.toNat d.sets vs ∧
      t.bounds = List.replicate m.toNat ⟨.negInf, .fin 0, .upperBound⟩ ∧ t.coeffs.length = m.toNat ∧
      (∀ (i : Nat) g, i < m.toNat → d.sets[i]? = some g → t.coeffs[i]? = some g.coeff) ∧
      (∀ k r, Near ev k r → (∃ rs, (k, rs) ∈ tests x ∧ r ∈ rs) → ∃ g ∈ d.sets, g.key = k ∧ shapeKey r.c = some g.shapeKey) := by
  obtain ⟨_, hm, _, _⟩ := Con.new_ok (X := X) k0 hash (fun x => calcCollisions ev sort m.toNat (tests x)) zeros m fs s hnew
  have hsome : ∀ x, calcCollisions ev sort m.toNat (tests x) ≠ none := by
    intro x
    obtain ⟨d, e, _⟩ := calcCollisions_spec ev sort hsort m.toNat hm (tests x) (hd x)
    rw [e]; simp
  obtain ⟨d, e, _, hg, _⟩ := calcCollisions_spec ev sort hsort m.toNat hm (tests x) (hd x)
  obtain ⟨t, h1, h2, h3, _, h4⟩ := Con.run_last hash (fun x => calcCollisions ev sort m.toNat (tests x)) zeros
    (fun a b hab => by simp only [hinj a b hab]) k0 m fs s hnew xs (fun x _ => hsome x) x d e
  obtain ⟨vs, v1, v2, v3⟩ := mapM_rows (fun g => g.getMaxErrorT ev.lowest 0)
    (fun g v => RowValue ev (tests x) (Near ev) g v) (d.sets.take m.toNat) (by
      intro g hgm
      obtain ⟨v, a1, a2⟩ := discreteRow_spec ev (tests x) (hd x) (hu x) d.sets hg g (List.mem_of_mem_take hgm)
      exact ⟨v, a1, hg.row (fun k r => (grad1_error ev k r).1) g (List.mem_of_mem_take hgm) v a2⟩)
  have hb : t.bounds.length = m.toNat := by rw [h2.bounds]; simp
  refine ⟨t, _, d, h1, e, ?_, rowsAre_of_mapM ev (tests x) (Near ev) m.toNat d.sets vs v2 v3, h2.bounds, h2.coeffs, h4, ?_⟩
  · simp only [Con.discreteValues, h3, Collision.discreteValues, hb, v1]
  · rintro k r hn ⟨rs, hrs, hr⟩
    obtain ⟨g, g1, rs', g2, g3, g4⟩ := hg.covers (k, rs) hrs r hr hn
    refine ⟨g, g1, ?_, ((g3 r).1 g2).2.2⟩
    have := (addAll_coeff (Name := Name) ev.lowest k g.shapeKey (ev.coeff.get k.1 k.2) (rs'.map (grad1 ev k))).2.1
    rwa [← g4] at this

/-- C92 for `ContinuousCollisionConstraint` and its numerical variant (which read the same values): contacts that are
relevant for a free end.  Missing as for `C92_discrete_partial`. -/
theorem C92_continuous_partial (ev : Evaluator Name K) (sort : List (GSet Name (Fin n) K) → List (GSet Name (Fin n) K))
    (hsort : ∀ l, (sort l).Perm l) (k0 : Key) (m : Int) (fixed0 fixed1 fs : Bool) (s : Con Key Name n K)
    (hnew : Con.newContinuous k0 m fixed0 fixed1 fs = some s)
    (hash : X → Key) (tests : X → RawMap Name (Fin n) K) (hinj : ∀ x y, hash x = hash y → tests x = tests y)
    (hd : ∀ x, Delivered ev (tests x)) (zeros : List (Nat × Nat)) (xs : List X) (x : X) :
    ∃ t vs d, s.run hash (fun x => calcCollisionData ev sort fixed0 fixed1 m.toNat (tests x)) zeros (xs ++ [x]) = some t ∧
      calcCollisionData ev sort fixed0 fixed1 m.toNat (tests x) = some d ∧
      t.continuousValues ev fixed0 fixed1 = some vs ∧ t.continuousNumValues ev fixed0 fixed1 = some vs ∧
      RowsAre ev (tests x) (NearFree ev fixed0 fixed1) m.toNat d.sets vs ∧
      t.bounds = List.replicate m.toNat ⟨.negInf, .fin 0, .upperBound⟩ ∧ t.coeffs.length = m.toNat ∧
      (∀ (i : Nat) g, i < m.toNat → d.sets[i]? = some g → t.coeffs[i]? = some g.coeff) ∧
      (∀ k r, NearFree ev fixed0 fixed1 k r → (∃ rs, (k, rs) ∈ tests x ∧ r ∈ rs) →
        ∃ g ∈ d.sets, g.key = k ∧ shapeKey r.c = some g.shapeKey) := by
  have hf : ¬ (fixed0 = true ∧ fixed1 = true) := by
    rintro ⟨rfl, rfl⟩; simp [Con.newContinuous] at hnew
  have hnew' : Con.new k0 m fs = some s := by
    simp only [Con.newContinuous] at hnew
    split_ifs at hnew
    exact hnew
  obtain ⟨_, hm, _, _⟩ := Con.new_ok (X := X) k0 hash (fun x => calcCollisionData ev sort fixed0 fixed1 m.toNat (tests x))
    zeros m fs s hnew'
  have hsome : ∀ x, calcCollisionData ev sort fixed0 fixed1 m.toNat (tests x) ≠ none := by
    intro x
    obtain ⟨d, e, _⟩ := calcCollisionData_spec ev sort hsort fixed0 fixed1 hf m.toNat hm (tests x) (hd x)
    rw [e]; simp
  obtain ⟨d, e, _, hg, hcf, _⟩ := calcCollisionData_spec ev sort hsort fixed0 fixed1 hf m.toNat hm (tests x) (hd x)
  obtain ⟨t, h1, h2, h3, _, h4⟩ := Con.run_last hash (fun x => calcCollisionData ev sort fixed0 fixed1 m.toNat (tests x)) zeros
    (fun a b hab => by simp only [hinj a b hab]) k0 m fs s hnew' xs (fun x _ => hsome x) x d e
  have hrow := continuousRow_spec ev (tests x) (hd x) fixed0 fixed1 hf d.sets hg hcf
  obtain ⟨vs, v1, v2, v3⟩ := mapM_rows (freeError ev.lowest fixed0 fixed1)
    (fun g v => RowValue ev (tests x) (NearFree ev fixed0 fixed1) g v) (d.sets.take m.toNat) (by
      intro g hgm
      obtain ⟨v, a1, _, a2⟩ := hrow g (List.mem_of_mem_take hgm)
      exact ⟨v, a1, hg.row (fun k r => (grad2_error ev k r).1) g (List.mem_of_mem_take hgm) v a2⟩)
  have hsame : ∀ l : List (GSet Name (Fin n) K), (∀ g ∈ l, g ∈ d.sets) → ∀ vs, l.mapM (freeError ev.lowest fixed0 fixed1) = some vs →
      l.mapM (continuousRow ev.lowest fixed0 fixed1) = some (vs.map some) := by
    intro l
    induction l with
    | nil => intro _ vs hvs; simp at hvs; subst hvs; rfl
    | cons g l ih =>
      intro hl vs hvs
      obtain ⟨v, a1, a2, _⟩ := hrow g (hl g (by simp))
      rw [List.mapM_cons, a1] at hvs
      rw [List.mapM_cons, a2]
      cases hq : l.mapM (freeError ev.lowest fixed0 fixed1) with
      | none => rw [hq] at hvs; simp at hvs
      | some ws =>
        rw [hq] at hvs
        simp at hvs
        subst hvs
        rw [ih (fun g hg => hl g (by simp [hg])) ws hq]
        rfl
  have hb : t.bounds.length = m.toNat := by rw [h2.bounds]; simp
  refine ⟨t, _, d, h1, e, ?_, ?_, rowsAre_of_mapM ev (tests x) (NearFree ev fixed0 fixed1) m.toNat d.sets vs v2 v3, h2.bounds,
    h2.coeffs, h4, ?_⟩
  · simp only [Con.continuousValues, h3, hb, hsame _ (fun g hg => List.mem_of_mem_take hg) vs v1, List.map_map, h2.hrows,
      List.length_map]
    congr 2
    simp [Function.comp_def]
  · simp only [Con.continuousNumValues, h3, hb, v1]
  · rintro k r hn ⟨rs, hrs, hr⟩
    obtain ⟨g, g1, rs', g2, g3, g4⟩ := hg.covers (k, rs) hrs r hr hn
    refine ⟨g, g1, ?_, ((g3 r).1 g2).2.2⟩
    have := (addAll_coeff (Name := Name) ev.lowest k g.shapeKey (ev.coeff.get k.1 k.2) (rs'.map (grad2 ev k))).2.1
    rwa [← g4] at this

/-! ### C93 -/

/-- Specification: the contact matters for an end that can move. -/
def ForFreeEnd (fixed0 fixed1 : Bool) (r : Raw (Fin n) K) : Prop :=
  (fixed0 = false ∧ fixed1 = false) ∨ ∃ i, Movable fixed0 fixed1 (r.c.cc i)

/-- The measure of a group of an LVS evaluator. -/
theorem measure_spec (ev : Evaluator Name K) (raw : RawMap Name (Fin n) K) (h : Delivered ev raw)
    (fixed0 fixed1 : Bool) (hf : ¬ (fixed0 = true ∧ fixed1 = true)) (gs : List (GSet Name (Fin n) K))
    (hg : Groups ev raw (NearFree ev fixed0 fixed1) (grad2 ev) gs)
    (hc : ∀ g ∈ gs, ∀ r ∈ g.results, CountsFree fixed0 fixed1 r) (g : GSet Name (Fin n) K) (hm : g ∈ gs) :
    ∃ x, continuousMeasure ev.lowest fixed0 fixed1 g = some x ∧ IsMax (fun v => ∃ r ∈ g.results, r.error + ev.buffer = v) x := by
  obtain ⟨p, hp, rs, _, hrs, hres, e, hne, hl, hb⟩ := hg.low h (grad2_error ev) g hm
  obtain ⟨q, hq⟩ := List.exists_mem_of_ne_nil _ hne
  obtain ⟨x, h1, h2⟩ := continuousMeasure_spec (Name := Name) ev.lowest fixed0 fixed1 hf p.1 g.shapeKey
    (ev.coeff.get p.1.1 p.1.2) g.results hl hb ⟨q, hq, hc g hm q hq⟩
  rw [← e] at h1
  refine ⟨x, h1, ?_⟩
  have hbuf : ∀ r ∈ g.results, r.errorBuf = r.error + ev.buffer := by
    intro r hr
    rw [hres] at hr
    obtain ⟨q, _, rfl⟩ := List.mem_map.1 hr
    rw [(grad2_error ev p.1 q).1, (grad2_error ev p.1 q).2, depth]; ring
  obtain ⟨⟨r, hr, _, er⟩, hmax⟩ := h2
  refine ⟨⟨r, hr, by rw [← er, hbuf r hr]⟩, ?_⟩
  rintro v ⟨r', hr', rfl⟩
  exact hmax _ ⟨r', hr', hc g hm r' hr', by rw [hbuf r' hr']⟩

/-- A contact in reach lies in a group all of whose contacts are at most as deep as the row's value. -/
theorem Groups.depth_le {ev : Evaluator Name K} {raw : RawMap Name (Fin n) K} {near : (Name × Name) → Raw (Fin n) K → Prop}
    {grad : (Name × Name) → Raw (Fin n) K → GradRes (Fin n) K} {gs : List (GSet Name (Fin n) K)}
    (h : Groups ev raw near grad gs) (hgrad : ∀ k r, (grad k r).error = depth ev k r) (k : Name × Name) (rs : List (Raw (Fin n) K))
    (hk : (k, rs) ∈ raw) (r : Raw (Fin n) K) (hr : r ∈ rs) (hn : near k r) :
    ∃ g ∈ gs, ∃ q ∈ g.results, q.error = depth ev k r := by
  obtain ⟨g, g1, rs', g2, g3, g4⟩ := h.covers (k, rs) hk r hr hn
  have hres : g.results = rs'.map (grad k) := by
    have := congrArg GSet.results g4
    rwa [(slots (Name := Name) _ _ _ _ _ 0 0).2.2.2] at this
  exact ⟨g, g1, grad k r, by rw [hres]; exact List.mem_map.2 ⟨r, g2, rfl⟩, hgrad k r⟩

/-- The level of all rows of a continuous constraint: a property that smaller numbers inherit holds for all rows exactly when it holds for the depth of every
considered contact that matters for a free end. -/
theorem continuous_level (ev : Evaluator Name K) (Q : K → Prop) (hQ : ∀ a b, a ≤ b → Q b → Q a) (hbuf : Q (-ev.buffer))
    (sort : List (GSet Name (Fin n) K) → List (GSet Name (Fin n) K)) (k0 : Key) (m : Int) (fixed0 fixed1 fs : Bool)
    (hs : SortsBy (continuousCmp ev.lowest fixed0 fixed1) sort) (s : Con Key Name n K)
    (hnew : Con.newContinuous k0 m fixed0 fixed1 fs = some s)
    (hash : X → Key) (tests : X → RawMap Name (Fin n) K) (hinj : ∀ x y, hash x = hash y → tests x = tests y)
    (hd : ∀ x, Delivered ev (tests x)) (zeros : List (Nat × Nat)) (xs : List X) (x : X) :
    ∃ t vs, s.run hash (fun x => calcCollisionData ev sort fixed0 fixed1 m.toNat (tests x)) zeros (xs ++ [x]) = some t ∧
      t.continuousValues ev fixed0 fixed1 = some vs ∧
      ((∀ v ∈ vs, Q v) ↔ ∀ k r, Considered ev (tests x) k r → ForFreeEnd fixed0 fixed1 r → Q (depth ev k r)) := by
  have hf : ¬ (fixed0 = true ∧ fixed1 = true) := by
    rintro ⟨rfl, rfl⟩; simp [Con.newContinuous] at hnew
  have hnew' : Con.new k0 m fs = some s := by
    simp only [Con.newContinuous] at hnew
    split_ifs at hnew
    exact hnew
  obtain ⟨_, hm, _, _⟩ := Con.new_ok (X := X) k0 hash (fun x => calcCollisionData ev sort fixed0 fixed1 m.toNat (tests x))
    zeros m fs s hnew'
  have hsort : ∀ l, (sort l).Perm l := fun l => (hs l).1
  obtain ⟨t, vs, d, h1, h2, h3, _, h4, _⟩ := C92_continuous_partial ev sort hsort k0 m fixed0 fixed1 fs s hnew hash tests hinj hd
    zeros xs x
  obtain ⟨d', e, _, hg, hcf, gs, hkd, _⟩ := calcCollisionData_spec ev sort hsort fixed0 fixed1 hf m.toNat hm (tests x) (hd x)
  rw [h2, Option.some.injEq] at e
  subst e
  refine ⟨t, vs, h1, h3, ?_, ?_⟩
  · rintro hv k r ⟨⟨rs, hrs, hr⟩, hz⟩ hend
    by_cases hfar : ev.margin k + ev.buffer < r.c.distance
    · exact hQ _ _ (by rw [depth]; linarith) hbuf
    obtain ⟨g, hgm, q, hq, eq⟩ := hg.depth_le (fun k r => (grad2_error ev k r).1) k rs hrs r hr ⟨hz, not_lt.1 hfar, hend⟩
    rw [← eq]
    have hkept : ∀ (i : Nat) g, i < m.toNat → d.sets[i]? = some g → ∀ q ∈ g.results, Q q.error := by
      intro i g hi hgi q hq
      obtain ⟨v, v1, v2, _⟩ := h4.2.1 i g hi hgi
      exact hQ _ _ (v2.2 _ ⟨q, hq, rfl⟩) (hv v (List.mem_of_getElem? v1))
    obtain ⟨i, hi⟩ := List.getElem?_of_mem hgm
    by_cases hlt : i < m.toNat
    · exact hkept i g hlt hi q hq
    · -- the group is dropped: the first group kept is at least as deep
      have hlen : i < d.sets.length := (List.getElem?_eq_some_iff.1 hi).1
      have h0 : 0 < d.sets.length := by omega
      have hkl : (keptSets sort m.toNat gs).1.length ≤ m.toNat := by simp [keptSets]
      have hdl : d.sets.length = (keptSets sort m.toNat gs).1.length + (keptSets sort m.toNat gs).2.length := by
        rw [hkd, List.length_append]
      have hgl := (C47_partition _ sort hs m.toNat gs)
      have hgs : d.sets.length = gs.length := by rw [hkd]; exact hgl.1.length_eq
      have hk0 : (keptSets sort m.toNat gs).1.length = m.toNat := by rw [hgl.2]; omega
      have ha : d.sets[0] ∈ (keptSets sort m.toNat gs).1 := by
        have : d.sets[0]? = (keptSets sort m.toNat gs).1[0]? := by
          rw [hkd, List.getElem?_append_left (by omega)]
        exact List.mem_of_getElem? (this.symm.trans (List.getElem?_eq_getElem h0))
      have hb : g ∈ (keptSets sort m.toNat gs).2 := by
        have : d.sets[i]? = (keptSets sort m.toNat gs).2[i - m.toNat]? := by
          rw [hkd, List.getElem?_append_right (by omega), hk0]
        exact List.mem_of_getElem? (this.symm.trans hi)
      obtain ⟨hcmp, _, _⟩ := kept_dropped _ sort hs m.toNat gs _ g ha hb
      obtain ⟨xa, ma, ⟨⟨ra, hra, ea⟩, _⟩⟩ := measure_spec ev (tests x) (hd x) fixed0 fixed1 hf d.sets hg hcf d.sets[0]
        (List.getElem_mem h0)
      obtain ⟨xb, mb, ⟨_, hbmax⟩⟩ := measure_spec ev (tests x) (hd x) fixed0 fixed1 hf d.sets hg hcf g hgm
      simp only [continuousCmp, ma, mb, decide_eq_false_iff_not, not_lt] at hcmp
      have e1 := hbmax _ ⟨q, hq, rfl⟩
      exact hQ _ _ (by linarith) (hkept 0 d.sets[0] hm (List.getElem?_eq_getElem h0) ra hra)
  · intro hsafe v hv
    obtain ⟨i, hi⟩ := List.getElem?_of_mem hv
    have hil : i < m.toNat := by rw [← h4.1]; exact (List.getElem?_eq_some_iff.1 hi).1
    by_cases hlt : i < d.sets.length
    · obtain ⟨v', v1, _, p, hp, k1, k2, ⟨⟨r, hr, er⟩, _⟩⟩ := h4.2.1 i d.sets[i] hil (List.getElem?_eq_getElem hlt)
      rw [hi, Option.some.injEq] at v1
      subst v1
      have := hsafe p.1 r ⟨⟨p.2, hp, hr.1⟩, hr.2.1.1⟩ hr.2.1.2.2
      rw [← er]; exact this
    · have := h4.2.2 i hil (not_lt.1 hlt)
      rw [hi, Option.some.injEq] at this
      rw [this]; exact hbuf

/-- C93 for the continuous constraints: after any history, all rows are at most zero exactly when every considered contact
that matters for a free end keeps its margin, whatever the number of contacts.  (Non-negative buffer.) -/
theorem C93_continuous (ev : Evaluator Name K) (hbuf : 0 ≤ ev.buffer)
    (sort : List (GSet Name (Fin n) K) → List (GSet Name (Fin n) K)) (k0 : Key) (m : Int) (fixed0 fixed1 fs : Bool)
    (hs : SortsBy (continuousCmp ev.lowest fixed0 fixed1) sort) (s : Con Key Name n K)
    (hnew : Con.newContinuous k0 m fixed0 fixed1 fs = some s)
    (hash : X → Key) (tests : X → RawMap Name (Fin n) K) (hinj : ∀ x y, hash x = hash y → tests x = tests y)
    (hd : ∀ x, Delivered ev (tests x)) (zeros : List (Nat × Nat)) (xs : List X) (x : X) :
    ∃ t vs, s.run hash (fun x => calcCollisionData ev sort fixed0 fixed1 m.toNat (tests x)) zeros (xs ++ [x]) = some t ∧
      t.continuousValues ev fixed0 fixed1 = some vs ∧
      ((∀ v ∈ vs, v ≤ 0) ↔ ∀ k r, Considered ev (tests x) k r → ForFreeEnd fixed0 fixed1 r → ev.margin k ≤ r.c.distance) := by
  obtain ⟨t, vs, h1, h2, h3⟩ := continuous_level ev (· ≤ 0) (fun a b h h' => h.trans h') (by simpa using hbuf) sort k0 m fixed0 fixed1 fs hs s hnew hash
    tests hinj hd zeros xs x
  refine ⟨t, vs, h1, h2, h3.trans ?_⟩
  simp only [depth, sub_nonpos]

/-- The same for a discrete constraint with enough rows. -/
theorem discrete_level (ev : Evaluator Name K) (Q : K → Prop) (hQ : ∀ a b, a ≤ b → Q b → Q a) (hbuf : Q (-ev.buffer))
    (sort : List (GSet Name (Fin n) K) → List (GSet Name (Fin n) K)) (k0 : Key) (m : Int) (fs : Bool)
    (hs : SortsBy discreteCmp sort) (s : Con Key Name n K) (hnew : Con.new k0 m fs = some s)
    (hash : X → Key) (tests : X → RawMap Name (Fin n) K) (hinj : ∀ x y, hash x = hash y → tests x = tests y)
    (hd : ∀ x, Delivered ev (tests x)) (hu : ∀ x, Unclassified (tests x)) (zeros : List (Nat × Nat)) (xs : List X) (x : X)
    (hfit : ∀ d, calcCollisions ev sort m.toNat (tests x) = some d → d.sets.length ≤ m.toNat) :
    ∃ t vs, s.run hash (fun x => calcCollisions ev sort m.toNat (tests x)) zeros (xs ++ [x]) = some t ∧
      t.discreteValues ev = some vs ∧
      ((∀ v ∈ vs, Q v) ↔ ∀ k r, Considered ev (tests x) k r → Q (depth ev k r)) := by
  obtain ⟨_, hm, _, _⟩ := Con.new_ok (X := X) k0 hash (fun x => calcCollisions ev sort m.toNat (tests x)) zeros m fs s hnew
  have hsort : ∀ l, (sort l).Perm l := fun l => (hs l).1
  obtain ⟨t, vs, d, h1, h2, h3, h4, _⟩ := C92_discrete_partial ev sort hsort k0 m fs s hnew hash tests hinj hd hu zeros xs x
  obtain ⟨d', e, _, hg, _⟩ := calcCollisions_spec ev sort hsort m.toNat hm (tests x) (hd x)
  rw [h2, Option.some.injEq] at e
  subst e
  have hlen := hfit d h2
  refine ⟨t, vs, h1, h3, ?_, ?_⟩
  · rintro hv k r ⟨⟨rs, hrs, hr⟩, hz⟩
    by_cases hfar : ev.margin k + ev.buffer < r.c.distance
    · exact hQ _ _ (by rw [depth]; linarith) hbuf
    obtain ⟨g, hgm, q, hq, eq⟩ := hg.depth_le (fun k r => (grad1_error ev k r).1) k rs hrs r hr ⟨hz, not_lt.1 hfar⟩
    obtain ⟨i, hi⟩ := List.getElem?_of_mem hgm
    obtain ⟨v, v1, v2, _⟩ := h4.2.1 i g (lt_of_lt_of_le (List.getElem?_eq_some_iff.1 hi).1 hlen) hi
    rw [← eq]
    exact hQ _ _ (v2.2 _ ⟨q, hq, rfl⟩) (hv v (List.mem_of_getElem? v1))
  · intro hsafe v hv
    obtain ⟨i, hi⟩ := List.getElem?_of_mem hv
    have hil : i < m.toNat := by rw [← h4.1]; exact (List.getElem?_eq_some_iff.1 hi).1
    by_cases hlt : i < d.sets.length
    · obtain ⟨v', v1, _, p, hp, k1, k2, ⟨⟨r, hr, er⟩, _⟩⟩ := h4.2.1 i d.sets[i] hil (List.getElem?_eq_getElem hlt)
      rw [hi, Option.some.injEq] at v1
      subst v1
      have := hsafe p.1 r ⟨⟨p.2, hp, hr.1⟩, hr.2.1.1⟩
      rw [← er]; exact this
    · have := h4.2.2 i hil (not_lt.1 hlt)
      rw [hi, Option.some.injEq] at this
      rw [this]; exact hbuf

/-- C93 for the discrete constraints, proved part: the same equivalence when there are at most as many shape pairs in
contact as rows.  Missing: more shape pairs than rows (`C93_violated_discrete`). -/
theorem C93_discrete_partial (ev : Evaluator Name K) (hbuf : 0 ≤ ev.buffer)
    (sort : List (GSet Name (Fin n) K) → List (GSet Name (Fin n) K)) (k0 : Key) (m : Int) (fs : Bool)
    (hs : SortsBy discreteCmp sort) (s : Con Key Name n K) (hnew : Con.new k0 m fs = some s)
    (hash : X → Key) (tests : X → RawMap Name (Fin n) K) (hinj : ∀ x y, hash x = hash y → tests x = tests y)
    (hd : ∀ x, Delivered ev (tests x)) (hu : ∀ x, Unclassified (tests x)) (zeros : List (Nat × Nat)) (xs : List X) (x : X)
    (hfit : ∀ d, calcCollisions ev sort m.toNat (tests x) = some d → d.sets.length ≤ m.toNat) :
    ∃ t vs, s.run hash (fun x => calcCollisions ev sort m.toNat (tests x)) zeros (xs ++ [x]) = some t ∧
      t.discreteValues ev = some vs ∧
      ((∀ v ∈ vs, v ≤ 0) ↔ ∀ k r, Considered ev (tests x) k r → ev.margin k ≤ r.c.distance) := by
  obtain ⟨t, vs, h1, h2, h3⟩ := discrete_level ev (· ≤ 0) (fun a b h h' => h.trans h') (by simpa using hbuf) sort k0 m fs hs s hnew hash
    tests hinj hd hu zeros xs x hfit
  refine ⟨t, vs, h1, h2, h3.trans ?_⟩
  simp only [depth, sub_nonpos]

/-- C93 needs a buffer that is not negative: with a negative one a constraint without any contact reads violated rows. -/
theorem C93_violated_negative_buffer (ev : Evaluator Name K) (hbuf : ev.buffer < 0)
    (sort : List (GSet Name (Fin n) K) → List (GSet Name (Fin n) K)) (hsort : ∀ l, (sort l).Perm l) (k0 : Key) (m : Int) (fs : Bool)
    (s : Con Key Name n K) (hnew : Con.new k0 m fs = some s) (hash : X → Key) (zeros : List (Nat × Nat)) (x : X) :
    ∃ t vs, s.run hash (fun _ => calcCollisions ev sort m.toNat []) zeros [x] = some t ∧ t.discreteValues ev = some vs ∧
      vs ≠ [] ∧ ∀ v ∈ vs, 0 < v := by
  obtain ⟨_, hm, _, _⟩ := Con.new_ok (X := X) k0 hash (fun _ => calcCollisions ev sort m.toNat []) zeros m fs s hnew
  obtain ⟨t, vs, d, h1, h2, h3, h4, _⟩ := C92_discrete_partial ev sort hsort k0 m fs s hnew hash (fun _ => []) (fun _ _ _ => rfl)
    (fun _ => ⟨by simp, by simp, by simp, by simp⟩) (fun _ => by simp [Unclassified]) zeros [] x
  have hd : d.sets = [] := by
    simp only [calcCollisions, discreteFilter, discretePairs, List.map_nil, groupAll] at h2
    rw [if_neg hm.ne'] at h2
    simp at h2
    rw [← h2]
  rw [hd] at h4
  refine ⟨t, vs, h1, h3, ?_, ?_⟩
  · intro h
    have := h4.1
    rw [h] at this
    simp at this; omega
  · intro v hv
    obtain ⟨i, hi⟩ := List.getElem?_of_mem hv
    have := h4.2.2 i (by rw [← h4.1]; exact (List.getElem?_eq_some_iff.1 hi).1) (by simp)
    rw [hi, Option.some.injEq] at this
    rw [this]; linarith

end life

/-! ### Witnesses -/

/-- Margin 1, buffer 1, coefficient 20 for every pair. -/
def demoEv : Evaluator Nat ℚ := ⟨fun _ => 1, 1, CoeffData.new 20, -1000⟩

/-- A contact with both links active at the given distance. -/
def demoRaw (dist : ℚ) (act : Fin 2 → Bool) : Raw (Fin 1) ℚ :=
  ⟨⟨dist, fun _ => .none, fun _ => 0, fun _ => -1⟩, fun _ => 0, fun _ _ _ => 1, act⟩

/-- Two pairs: link A of the first is active and 3/2 away; link B of the second is active and 10 deep inside. -/
def demoMap : RawMap Nat (Fin 1) ℚ := [((0, 1), [demoRaw (3 / 2) ![true, false]]), ((2, 3), [demoRaw (-10) ![false, true]])]

theorem sort_two {α : Type u} (gt : α → α → Bool) (sort : List α → List α) (hs : SortsBy gt sort) (a b : α)
    (hab : gt a b = true) : sort [a, b] = [a, b] := by
  obtain ⟨h1, h2⟩ := hs [a, b]
  have hlen := h1.length_eq
  generalize sort [a, b] = q at h1 h2 hlen ⊢
  match q, hlen, h1, h2 with
  | [x, y], _, h1, h2 =>
    have hx : x = a ∨ x = b := by simpa using h1.mem_iff.1 (show x ∈ [x, y] by simp)
    rcases hx with rfl | rfl
    · have := List.perm_singleton.1 ((List.perm_cons x).1 h1)
      rw [this]
    · have := List.perm_singleton.1 ((List.perm_cons x).1 (h1.trans (List.Perm.swap _ _ _)))
      simp only [List.cons.injEq, and_true] at this
      subst this
      have h3 := (List.pairwise_cons.1 h2).1 _ (List.mem_singleton.2 rfl)
      rw [hab] at h3; exact absurd h3 (by simp)

/-- C93 is violated by the discrete constraints when there are more shape pairs than rows: a constraint with one row,
updated at a position where one contact is ten units inside, reads -1/2 and so counts as satisfied, whatever the sort does
within its contract. -/
theorem C93_violated_discrete (sort : List (GSet Nat (Fin 1) ℚ) → List (GSet Nat (Fin 1) ℚ)) (hs : SortsBy discreteCmp sort) :
    Delivered demoEv demoMap ∧ Unclassified demoMap ∧
    (∃ k r, Considered demoEv demoMap k r ∧ r.c.distance = -10 ∧ demoEv.margin k = 1) ∧
    ∃ s t, (Con.new (0 : Nat) 1 false : Option (Con Nat Nat 1 ℚ)) = some s ∧
      s.run (fun _ : Unit => 7) (fun _ => calcCollisions demoEv sort 1 demoMap) [] [()] = some t ∧
      t.discreteValues demoEv = some [-(1 / 2)] := by
  have hraw : ∀ p ∈ demoMap, ∀ r ∈ p.2, r = demoRaw (3 / 2) ![true, false] ∨ r = demoRaw (-10) ![false, true] := by
    intro p hp r hr
    simp only [demoMap, List.mem_cons, List.not_mem_nil, or_false] at hp
    rcases hp with rfl | rfl <;> simp at hr <;> simp [hr]
  refine ⟨⟨?_, ?_, ?_, ?_⟩, ?_, ?_, ?_⟩
  · intro p hp r hr
    rcases hraw p hp r hr with rfl | rfl <;> decide +kernel
  · intro p hp r hr
    rcases hraw p hp r hr with rfl | rfl
    · exact ⟨0, rfl⟩
    · exact ⟨1, rfl⟩
  · intro p hp r hr i hi
    rcases hraw p hp r hr with rfl | rfl <;> exact absurd rfl hi
  · intro p hp r hr
    rcases hraw p hp r hr with rfl | rfl <;> (simp only [demoEv, demoRaw]; norm_num)
  · intro p hp r hr i
    rcases hraw p hp r hr with rfl | rfl <;> rfl
  · exact ⟨(2, 3), demoRaw (-10) ![false, true],
      ⟨⟨[demoRaw (-10) ![false, true]], List.mem_cons_of_mem _ (List.mem_singleton.2 rfl), List.mem_singleton.2 rfl⟩,
        by simp [demoEv, CoeffData.new, CoeffData.get]⟩, rfl, rfl⟩
  · have hcheck : (match groupAll demoEv.lowest (fun k => demoEv.coeff.get k.1 k.2)
        (discretePairs demoEv (discreteFilter demoEv demoMap)) with
        | some [a, b] => discreteCmp a b && decide
          (((Con.new (0 : Nat) 1 false : Option (Con Nat Nat 1 ℚ)).bind fun s =>
            (s.run (fun _ : Unit => 7) (fun _ => some ⟨discreteFilter demoEv demoMap, [a, b]⟩) [] [()]).bind fun t =>
              t.discreteValues demoEv) = some [-(1 / 2)])
        | _ => false) = true := by decide +kernel
    split at hcheck
    · rename_i a b hgs
      simp only [Bool.and_eq_true, decide_eq_true_eq] at hcheck
      have hcalc : calcCollisions demoEv sort 1 demoMap = some ⟨discreteFilter demoEv demoMap, [a, b]⟩ := by
        simp only [calcCollisions, hgs]
        simp [sort_two discreteCmp sort hs a b hcheck.1]
      rw [hcalc]
      obtain ⟨s, e1, e2⟩ := Option.bind_eq_some_iff.1 hcheck.2
      obtain ⟨t, e3, e4⟩ := Option.bind_eq_some_iff.1 e2
      exact ⟨s, t, e1, e3, e4⟩
    · simp at hcheck

/-- C92 is violated for the coefficients of rows without a contact: they are left over from earlier positions.  Two
histories that end at the same position, the second one after a position in contact, give different coefficients. -/
theorem C92_violated_coefficients :
    let tests : Bool → RawMap Nat (Fin 1) ℚ := fun b => if b then [((0, 1), [demoRaw 0 ![true, true]])] else []
    let upd (h : List Bool) : Option (List ℚ) :=
      ((Con.new (0 : Nat) 1 false : Option (Con Nat Nat 1 ℚ)).bind fun s =>
        s.run (fun b : Bool => if b then 1 else 2) (fun b => calcCollisions demoEv id 1 (tests b)) [] h).map Con.coeffs
    upd [false] = some [1] ∧ upd [true, false] = some [20] := by
  decide +kernel

end Verif.Collision
