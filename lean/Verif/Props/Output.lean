import Verif.Model.Output
import Verif.Props.VarSets
import Mathlib.Tactic.IntervalCases

/-!
C151: what can be read back from the result file.  C152: what the plotter is given.  C153: trajectories of variable
sets.  C154: observers of variable sets.  C155: the printed table.
-/

set_option linter.unusedSectionVars false
set_option linter.unusedVariables false

namespace Verif.Output

open Verif.BasicArray (BArr)
open Verif.Bounds (Lo Hi)

universe u

/-! ### Specification: reading text -/

/-- The pieces of a text between the occurrences of a separator. -/
def splitOn (c : Char) : Text → List Text
  | [] => [[]]
  | a :: t => if a = c then [] :: splitOn c t
    else match splitOn c t with
      | [] => [[a]]
      | h :: r => (a :: h) :: r

/-- Does not contain the separator of cells or of lines. -/
def Plain (t : Text) : Prop := ',' ∉ t ∧ '\n' ∉ t

/-- A comma separated line. -/
def cells (line : Text) : List Text := splitOn ',' line

/-! ### Lemmas on reading -/

theorem splitOn_ne (c : Char) (t : Text) : splitOn c t ≠ [] := by
  cases t with
  | nil => simp [splitOn]
  | cons a t =>
    simp only [splitOn]
    split_ifs
    · simp
    · split <;> simp

/-- Reading a text that was continued: the last piece of the first part and the first of the second are one. -/
def glue : List Text → List Text → List Text
  | [], b => b
  | [a], [] => [a]
  | [a], h :: r => (a ++ h) :: r
  | a :: a' :: as, b => a :: glue (a' :: as) b

theorem glue_cons (a : Text) {as : List Text} (h : as ≠ []) (b : List Text) : glue (a :: as) b = a :: glue as b := by
  cases as with
  | nil => exact absurd rfl h
  | cons a' as => rfl

theorem splitOn_append (c : Char) (s t : Text) : splitOn c (s ++ t) = glue (splitOn c s) (splitOn c t) := by
  induction s with
  | nil =>
    simp only [List.nil_append, splitOn]
    cases h : splitOn c t with
    | nil => exact absurd h (splitOn_ne c t)
    | cons h r => simp [glue]
  | cons a s ih =>
    rw [List.cons_append]
    simp only [splitOn]
    split_ifs
    · rw [ih, glue_cons _ (splitOn_ne c s)]
    · rw [ih]
      cases h : splitOn c s with
      | nil => exact absurd h (splitOn_ne c s)
      | cons x xs =>
        cases xs with
        | nil =>
          cases h2 : splitOn c t with
          | nil => exact absurd h2 (splitOn_ne c t)
          | cons y ys => simp [glue]
        | cons x' xs => simp [glue]

theorem splitOn_plain {c : Char} {t : Text} (h : c ∉ t) : splitOn c t = [t] := by
  induction t with
  | nil => rfl
  | cons a t ih =>
    simp only [List.mem_cons, not_or] at h
    simp only [splitOn, if_neg (Ne.symm h.1), ih h.2]

theorem glue_nil_cons {a : List Text} (h : a ≠ []) (l : List Text) : glue a ([] :: l) = a ++ l := by
  induction a with
  | nil => exact absurd rfl h
  | cons x xs ih =>
    cases xs with
    | nil => simp [glue]
    | cons y ys => rw [glue_cons _ (by simp), ih (by simp)]; rfl

theorem glue_length {a b : List Text} (ha : a ≠ []) (hb : b ≠ []) : (glue a b).length + 1 = a.length + b.length := by
  induction a with
  | nil => exact absurd rfl ha
  | cons x xs ih =>
    cases xs with
    | nil =>
      cases b with
      | nil => exact absurd rfl hb
      | cons y ys => simp only [glue, List.length_cons, List.length_nil]; omega
    | cons y ys => rw [glue_cons _ (by simp), List.length_cons, ih (by simp)]; simp only [List.length_cons]; omega

theorem glue_ne {a b : List Text} (ha : a ≠ []) : glue a b ≠ [] := by
  cases a with
  | nil => exact absurd rfl ha
  | cons x xs =>
    cases xs with
    | nil => cases b <;> simp [glue]
    | cons y ys => simp [glue]

theorem glue_take (a b : List Text) (k : Nat) (h : k + 1 ≤ a.length) : (glue a b).take k = a.take k := by
  induction a generalizing k with
  | nil => simp at h
  | cons x xs ih =>
    cases xs with
    | nil =>
      have : k = 0 := by simpa using h
      subst this; simp
    | cons y ys =>
      rw [glue_cons _ (by simp)]
      cases k with
      | zero => simp
      | succ k =>
        rw [List.take_succ_cons, List.take_succ_cons, ih k (by simp only [List.length_cons] at h ⊢; omega)]

theorem glue_last (a : List Text) (t : Text) (b : List Text) (h : Text) (r : List Text) (hb : b = h :: r) :
    glue (a ++ [t]) b = a ++ (t ++ h) :: r := by
  subst hb
  induction a with
  | nil => simp [glue]
  | cons x xs ih => rw [List.cons_append, glue_cons _ (by simp), ih]; rfl

theorem cells_commaEach (l : List Text) (h : ∀ t ∈ l, ',' ∉ t) : cells (commaEach l) = [] :: l := by
  induction l with
  | nil => rfl
  | cons t l ih =>
    have e : commaEach (t :: l) = ',' :: (t ++ commaEach l) := by simp [commaEach]
    have ih' := ih fun u hu => h u (by simp [hu])
    unfold cells at ih' ⊢
    rw [e, splitOn, if_pos rfl, splitOn_append, ih', splitOn_plain (h t (by simp)), glue_nil_cons (by simp)]
    rfl

theorem joinLoop_succ (i : Nat) (l : List Text) : joinLoop (i + 1) l = commaEach l := by
  induction l generalizing i with
  | nil => rfl
  | cons t l ih => simp [joinLoop, ih, commaEach]

theorem cells_join (l : List Text) (h : ∀ t ∈ l, ',' ∉ t) : cells (joinLoop 0 l) = if l = [] then [[]] else l := by
  cases l with
  | nil => rfl
  | cons t l =>
    have := cells_commaEach l fun u hu => h u (by simp [hu])
    simp only [joinLoop, ne_eq, not_true_eq_false, if_false, List.nil_append, reduceCtorEq]
    unfold cells at this ⊢
    rw [splitOn_append, joinLoop_succ, this, splitOn_plain (h t (by simp)), glue_nil_cons (by simp)]
    rfl

theorem cells_append_comma (s : Text) (l : List Text) (h : ∀ t ∈ l, ',' ∉ t) :
    cells (s ++ commaEach l) = cells s ++ l := by
  unfold cells
  rw [splitOn_append]
  have := cells_commaEach l h
  unfold cells at this
  rw [this, glue_nil_cons (splitOn_ne _ _)]

theorem commaEach_append (a b : List Text) : commaEach (a ++ b) = commaEach a ++ commaEach b := by
  simp [commaEach]

/-! ### C151 -/

section
variable {K : Type u}

/-- Link names and joint names are plain, and so is every printed number. -/
structure Clean (sh : K → Text) (fk : List K → List (Text × Pose K)) : Prop where
  number : ∀ v, Plain (sh v)
  link : ∀ q, ∀ l ∈ fk q, Plain l.1

/-- A row of the file without its end of line. -/
def rowLine (sh : K → Text) (fk : List K → List (Text × Pose K)) (vals costs cnts : List K) : Text :=
  joinLoop 0 (vals.map sh) ++ linksText sh (fk vals) ++ commaEach (costs.map sh) ++ commaEach (cnts.map sh)

def headerLine (joints costs cnts : List Text) : Text :=
  joinLoop 0 joints ++ commaEach poseLabels ++ commaEach costs ++ commaEach cnts

theorem mem_commaEach {c : Char} (hc : c ≠ ',') {l : List Text} (h : ∀ t ∈ l, c ∉ t) : c ∉ commaEach l := by
  simp only [commaEach, List.mem_flatMap, List.mem_cons, not_exists, not_and, not_or]
  intro t ht
  exact ⟨hc, h t ht⟩

theorem mem_join {c : Char} (hc : c ≠ ',') {l : List Text} (h : ∀ t ∈ l, c ∉ t) (i : Nat) : c ∉ joinLoop i l := by
  cases l with
  | nil => simp [joinLoop]
  | cons t l =>
    simp only [joinLoop, joinLoop_succ, List.mem_append, not_or]
    refine ⟨⟨?_, h t (by simp)⟩, mem_commaEach hc fun u hu => h u (by simp [hu])⟩
    split_ifs <;> simp [hc]

theorem mem_links {sh : K → Text} {c : Char} (hc : c ≠ ',') (hc2 : c ≠ ':') (hc3 : c ≠ ' ') (hs : ∀ v, c ∉ sh v)
    {l : List (Text × Pose K)} (h : ∀ p ∈ l, c ∉ p.1) : c ∉ linksText sh l := by
  simp only [linksText, List.mem_flatMap, not_exists, not_and]
  intro p hp
  simp only [List.mem_append, not_or]
  refine ⟨⟨h p hp, by simp [hc2, hc3]⟩, mem_commaEach hc ?_⟩
  intro t ht
  obtain ⟨v, _, rfl⟩ := List.mem_map.1 ht
  exact hs v

theorem row_no_newline {sh : K → Text} {fk : List K → List (Text × Pose K)} (h : Clean sh fk) (vals costs cnts : List K) :
    '\n' ∉ rowLine sh fk vals costs cnts := by
  have hm : ∀ (l : List K), ∀ t ∈ l.map sh, '\n' ∉ t := by
    intro l t ht
    obtain ⟨v, _, rfl⟩ := List.mem_map.1 ht
    exact (h.number v).2
  simp only [rowLine, List.mem_append, not_or]
  exact ⟨⟨⟨mem_join (by decide) (hm _) 0,
    mem_links (by decide) (by decide) (by decide) (fun v => (h.number v).2) fun p hp => (h.link _ p hp).2⟩,
    mem_commaEach (by decide) (hm _)⟩, mem_commaEach (by decide) (hm _)⟩

theorem poseLabels_plain : ∀ t ∈ poseLabels, Plain t := by
  intro t ht
  simp only [poseLabels, List.map_cons, List.map_nil, List.mem_cons, List.not_mem_nil, or_false] at ht
  rcases ht with rfl | rfl | rfl | rfl | rfl | rfl | rfl <;> (unfold Plain; decide)

theorem header_no_newline {joints costs cnts : List Text} (h : ∀ t ∈ joints ++ costs ++ cnts, Plain t) :
    '\n' ∉ headerLine joints costs cnts := by
  simp only [headerLine, List.mem_append, not_or]
  exact ⟨⟨⟨mem_join (by decide) (fun t ht => (h t (by simp [ht])).2) 0,
    mem_commaEach (by decide) fun t ht => (poseLabels_plain t ht).2⟩,
    mem_commaEach (by decide) fun t ht => (h t (by simp [ht])).2⟩,
    mem_commaEach (by decide) fun t ht => (h t (by simp [ht])).2⟩

theorem lines_cons {l : Text} (h : '\n' ∉ l) (t : Text) : splitOn '\n' (l ++ '\n' :: t) = l :: splitOn '\n' t := by
  rw [splitOn_append, splitOn_plain h, splitOn, if_pos rfl]
  simp [glue]

theorem lines_flat (ls : List Text) (h : ∀ l ∈ ls, '\n' ∉ l) (t : Text) :
    splitOn '\n' ((ls.flatMap fun l => l ++ ['\n']) ++ t) = ls ++ splitOn '\n' t := by
  induction ls with
  | nil => rfl
  | cons l ls ih =>
    simp only [List.flatMap_cons, List.append_assoc, List.cons_append, List.nil_append]
    rw [lines_cons (h l (by simp))]
    rw [ih fun u hu => h u (by simp [hu])]

/-- C151: the lines of the file are the header, and for every call one line per time step followed by an empty line;
whatever is shown in the calls, no line is lost, added or split. -/
theorem C151_lines (sh : K → Text) (fk : List K → List (Text × Pose K)) (h : Clean sh fk) (joints costs cnts : List Text)
    (hn : ∀ t ∈ joints ++ costs ++ cnts, Plain t) (calls : List (Call K)) :
    splitOn '\n' (fileText sh fk joints costs cnts calls) =
      headerLine joints costs cnts ::
        (calls.flatMap fun c => (c.traj.map fun r => rowLine sh fk r c.costs c.cnts) ++ [[]]) ++ [[]] := by
  have e : fileText sh fk joints costs cnts calls =
      (((headerLine joints costs cnts ::
        (calls.flatMap fun c => (c.traj.map fun r => rowLine sh fk r c.costs c.cnts) ++ [[]])).flatMap
          fun l => l ++ ['\n']) ++ []) := by
    simp only [fileText, headerText, List.flatMap_cons, List.append_nil, headerLine]
    congr 1
    rw [List.flatMap_assoc]
    apply List.flatMap_congr
    intro c _
    simp only [callText, List.flatMap_append, List.flatMap_cons, List.flatMap_nil, List.nil_append, List.append_nil,
      List.flatMap_map]
    rfl
  rw [e, lines_flat]
  · rfl
  · intro l hl
    rcases List.mem_cons.1 hl with rfl | hl
    · exact header_no_newline hn
    · obtain ⟨c, _, hl⟩ := List.mem_flatMap.1 hl
      rcases List.mem_append.1 hl with hl | hl
      · obtain ⟨r, _, rfl⟩ := List.mem_map.1 hl
        exact row_no_newline h r c.costs c.cnts
      · simp only [List.mem_singleton] at hl
        subst hl; simp

/-- C151: the cells of the header: joint names, seven pose labels, cost names, constraint names. -/
theorem C151_header (joints costs cnts : List Text) (hj : joints ≠ []) (hn : ∀ t ∈ joints ++ costs ++ cnts, Plain t) :
    cells (headerLine joints costs cnts) =
      joints ++ ["x", "y", "z", "q_w", "q_x", "q_y", "q_z"].map String.toList ++ costs ++ cnts := by
  show cells (headerLine joints costs cnts) = joints ++ poseLabels ++ costs ++ cnts
  unfold headerLine
  rw [cells_append_comma _ _ fun t ht => (hn t (by simp [ht])).1,
    cells_append_comma _ _ fun t ht => (hn t (by simp [ht])).1,
    cells_append_comma _ _ fun t ht => (poseLabels_plain t ht).1, cells_join _ fun t ht => (hn t (by simp [ht])).1,
    if_neg hj]

theorem cells_link {sh : K → Text} (hs : ∀ v, Plain (sh v)) (l : Text × Pose K) (hl : Plain l.1) :
    cells (l.1 ++ [':', ' '] ++ commaEach (l.2.vec.map sh)) = (l.1 ++ [':', ' ']) :: l.2.vec.map sh := by
  rw [cells_append_comma]
  · unfold cells
    rw [splitOn_plain]
    · rfl
    · simp only [List.mem_append, not_or]
      exact ⟨hl.1, by decide⟩
  · intro t ht
    obtain ⟨v, _, rfl⟩ := List.mem_map.1 ht
    exact (hs v).1

theorem cells_links_length {sh : K → Text} (hs : ∀ v, Plain (sh v)) (ls : List (Text × Pose K))
    (hl : ∀ l ∈ ls, Plain l.1) : (cells (linksText sh ls)).length = 7 * ls.length + 1 := by
  induction ls with
  | nil => rfl
  | cons l ls ih =>
    have e : linksText sh (l :: ls) = (l.1 ++ [':', ' '] ++ commaEach (l.2.vec.map sh)) ++ linksText sh ls := by
      simp [linksText]
    have ih' := ih fun m hm => hl m (by simp [hm])
    have hc := cells_link hs l (hl l (by simp))
    rw [e]
    unfold cells at hc ih' ⊢
    rw [splitOn_append, hc]
    have := glue_length (a := (l.1 ++ [':', ' ']) :: l.2.vec.map sh) (by simp) (splitOn_ne ',' (linksText sh ls))
    rw [ih'] at this
    simp only [List.length_cons, List.length_map, Pose.vec, List.length_nil] at this ⊢
    omega

/-- C151 (partial: see `C151_label_violated` and `C151_aligned_iff` for what is missing): the cells of a row.  All
joint values but the last can be read, and the last cells are the cost values followed by the constraint values. -/
theorem C151_row_partial (sh : K → Text) (fk : List K → List (Text × Pose K)) (h : Clean sh fk) (vals costs cnts : List K)
    (hv : vals ≠ []) :
    (cells (rowLine sh fk vals costs cnts)).length =
        vals.length + 7 * (fk vals).length + costs.length + cnts.length ∧
    (∀ j, j + 1 < vals.length → (cells (rowLine sh fk vals costs cnts))[j]? = (vals.map sh)[j]?) ∧
    (cells (rowLine sh fk vals costs cnts)).drop (vals.length + 7 * (fk vals).length) = (costs ++ cnts).map sh := by
  have hm : ∀ (l : List K), ∀ t ∈ l.map sh, ',' ∉ t := by
    intro l t ht
    obtain ⟨v, _, rfl⟩ := List.mem_map.1 ht
    exact (h.number v).1
  have e1 : cells (rowLine sh fk vals costs cnts) =
      glue (vals.map sh) (cells (linksText sh (fk vals))) ++ costs.map sh ++ cnts.map sh := by
    unfold rowLine
    rw [cells_append_comma _ _ (hm _), cells_append_comma _ _ (hm _)]
    have hj := cells_join (vals.map sh) (hm _)
    rw [if_neg (by simpa using hv)] at hj
    unfold cells at hj ⊢
    rw [splitOn_append, hj]
  have hl := cells_links_length h.number (fk vals) (h.link vals)
  have hg := glue_length (a := vals.map sh) (by simpa using hv) (splitOn_ne ',' (linksText sh (fk vals)))
  unfold cells at hl
  rw [hl, List.length_map] at hg
  have hgl : (glue (vals.map sh) (cells (linksText sh (fk vals)))).length = vals.length + 7 * (fk vals).length := by
    unfold cells
    omega
  rw [e1]
  refine ⟨by simp only [List.length_append, List.length_map, hgl], ?_, ?_⟩
  · intro j hj
    have ht := glue_take (vals.map sh) (cells (linksText sh (fk vals))) (j + 1) (by rw [List.length_map]; omega)
    rw [List.append_assoc, List.getElem?_append_left (by rw [hgl]; omega)]
    have := congrArg (fun l : List Text => l[j]?) ht
    simpa [List.getElem?_take] using this
  · rw [List.append_assoc, List.drop_left' hgl, List.map_append]

theorem glue_right {a b : List Text} (ha : a ≠ []) (hb : b ≠ []) (i : Nat) : (glue a b)[a.length + i]? = b[i + 1]? := by
  obtain ⟨a', t, rfl⟩ : ∃ a' t, a = a' ++ [t] := ⟨a.dropLast, a.getLast ha, (List.dropLast_append_getLast ha).symm⟩
  cases b with
  | nil => exact absurd rfl hb
  | cons h r =>
    rw [glue_last a' t _ h r rfl, List.getElem?_append_right (by simp; omega), List.length_append, List.length_singleton]
    rw [show a'.length + 1 + i - a'.length = i + 1 by omega]
    simp

theorem cells_links_pose {sh : K → Text} (hs : ∀ v, Plain (sh v)) (ls : List (Text × Pose K)) (hl : ∀ l ∈ ls, Plain l.1)
    (k : Nat) (l : Text × Pose K) (hk : ls[k]? = some l) (j : Nat) (hj : j < 6) :
    (cells (linksText sh ls))[7 * k + j + 1]? =
      ([l.2.x, l.2.y, l.2.z, l.2.qw, l.2.qx, l.2.qy].map sh)[j]? := by
  induction ls generalizing k with
  | nil => simp at hk
  | cons m ls ih =>
    have e : linksText sh (m :: ls) = (m.1 ++ [':', ' '] ++ commaEach (m.2.vec.map sh)) ++ linksText sh ls := by
      simp [linksText]
    have hc := cells_link hs m (hl m (by simp))
    rw [e]
    cases k with
    | zero =>
      simp only [List.getElem?_cons_zero, Option.some.injEq] at hk
      subst hk
      unfold cells at hc ⊢
      rw [splitOn_append, hc]
      have ht := glue_take ((m.1 ++ [':', ' ']) :: m.2.vec.map sh) (splitOn ',' (linksText sh ls)) 7 (by simp [Pose.vec])
      have := congrArg (fun t : List Text => t[j + 1]?) ht
      simp only [List.getElem?_take] at this
      rw [if_pos (by omega), if_pos (by omega)] at this
      rw [show 7 * 0 + j + 1 = j + 1 by omega, this]
      interval_cases j <;> rfl
    | succ k =>
      have ih' := ih (fun u hu => hl u (by simp [hu])) k (by simpa using hk)
      unfold cells at hc ih' ⊢
      rw [splitOn_append, hc]
      have := glue_right (a := (m.1 ++ [':', ' ']) :: m.2.vec.map sh) (by simp) (splitOn_ne ',' (linksText sh ls)) (7 * k + j)
      rw [ih'] at this
      rw [← this]
      simp only [List.length_cons, List.length_map, Pose.vec, List.length_nil]
      congr 1
      omega

/-- C151: position and the first three entries of the quaternion of every link can be read, in the order of the labels: behind the
joint values there are seven cells for every link. -/
theorem C151_pose (sh : K → Text) (fk : List K → List (Text × Pose K)) (h : Clean sh fk) (vals costs cnts : List K)
    (hv : vals ≠ []) (k : Nat) (l : Text × Pose K) (hk : (fk vals)[k]? = some l) (j : Nat) (hj : j < 6) :
    (cells (rowLine sh fk vals costs cnts))[vals.length + (7 * k + j)]? =
      ([l.2.x, l.2.y, l.2.z, l.2.qw, l.2.qx, l.2.qy].map sh)[j]? := by
  have hm : ∀ (l : List K), ∀ t ∈ l.map sh, ',' ∉ t := by
    intro l t ht
    obtain ⟨v, _, rfl⟩ := List.mem_map.1 ht
    exact (h.number v).1
  have hp := cells_links_pose h.number (fk vals) (h.link vals) k l hk j hj
  have hj' := cells_join (vals.map sh) (hm _)
  rw [if_neg (by simpa using hv)] at hj'
  unfold rowLine
  rw [cells_append_comma _ _ (hm _), cells_append_comma _ _ (hm _)]
  unfold cells at hj' hp ⊢
  rw [splitOn_append, hj']
  have := glue_right (a := vals.map sh) (by simpa using hv) (splitOn_ne ',' (linksText sh (fk vals))) (7 * k + j)
  rw [hp, List.length_map] at this
  obtain ⟨c, hc⟩ : ∃ c, ([l.2.x, l.2.y, l.2.z, l.2.qw, l.2.qx, l.2.qy].map sh)[j]? = some c :=
    ⟨_, List.getElem?_eq_getElem (by simpa using hj)⟩
  rw [hc] at this ⊢
  obtain ⟨hlt, hval⟩ := List.getElem?_eq_some_iff.1 this
  rw [List.append_assoc, List.getElem?_append_left hlt, this]

/-- C151: header and row have the same number of cells, so that the value of every cost stands under its name, exactly
if the number of trajectory columns and links fits the number of active joints. -/
theorem C151_aligned_iff (sh : K → Text) (fk : List K → List (Text × Pose K)) (h : Clean sh fk)
    (joints cn tn : List Text) (hj : joints ≠ []) (hn : ∀ t ∈ joints ++ cn ++ tn, Plain t) (vals costs cnts : List K)
    (hv : vals ≠ []) (hc : costs.length = cn.length) (ht : cnts.length = tn.length) :
    (cells (headerLine joints cn tn)).length = (cells (rowLine sh fk vals costs cnts)).length ↔
      joints.length + 7 = vals.length + 7 * (fk vals).length := by
  rw [(C151_row_partial sh fk h vals costs cnts hv).1, C151_header joints cn tn hj hn]
  simp only [List.length_append, List.length_map, List.length_cons, List.length_nil]
  omega

/-- C151: with one trajectory column per active joint the file is aligned exactly if the kinematic group reports
exactly one link. -/
theorem C151_links_violated (sh : K → Text) (fk : List K → List (Text × Pose K)) (h : Clean sh fk)
    (joints cn tn : List Text) (hj : joints ≠ []) (hn : ∀ t ∈ joints ++ cn ++ tn, Plain t) (vals costs cnts : List K)
    (hv : vals.length = joints.length) (hc : costs.length = cn.length) (ht : cnts.length = tn.length)
    (hl : (fk vals).length ≠ 1) :
    (cells (headerLine joints cn tn)).length ≠ (cells (rowLine sh fk vals costs cnts)).length := by
  rw [ne_eq, C151_aligned_iff sh fk h joints cn tn hj hn vals costs cnts
    (by intro e; subst e; exact hj (List.eq_nil_of_length_eq_zero hv.symm)) hc ht]
  omega

/-- C151: with a time column (one trajectory column more than active joints) the file is never aligned, whatever the
number of links. -/
theorem C151_time_violated (sh : K → Text) (fk : List K → List (Text × Pose K)) (h : Clean sh fk)
    (joints cn tn : List Text) (hj : joints ≠ []) (hn : ∀ t ∈ joints ++ cn ++ tn, Plain t) (vals costs cnts : List K)
    (hv : vals.length = joints.length + 1) (hc : costs.length = cn.length) (ht : cnts.length = tn.length) :
    (cells (headerLine joints cn tn)).length ≠ (cells (rowLine sh fk vals costs cnts)).length := by
  rw [ne_eq, C151_aligned_iff sh fk h joints cn tn hj hn vals costs cnts (by intro e; simp [e] at hv) hc ht]
  omega

/-- C151: as soon as there is a link, the cell of the last joint does not show a number: the name of the first link is
appended to it. -/
theorem C151_label_violated (sh : K → Text) (fk : List K → List (Text × Pose K)) (h : Clean sh fk)
    (hcolon : ∀ v, ':' ∉ sh v) (init : List K) (v : K) (costs cnts : List K) (l : Text × Pose K)
    (ls : List (Text × Pose K)) (hl : fk (init ++ [v]) = l :: ls) :
    (cells (rowLine sh fk (init ++ [v]) costs cnts))[init.length]? = some (sh v ++ (l.1 ++ [':', ' '])) ∧
    ∀ w, (cells (rowLine sh fk (init ++ [v]) costs cnts))[init.length]? ≠ some (sh w) := by
  have hm : ∀ (l : List K), ∀ t ∈ l.map sh, ',' ∉ t := by
    intro l t ht
    obtain ⟨v, _, rfl⟩ := List.mem_map.1 ht
    exact (h.number v).1
  have key : (cells (rowLine sh fk (init ++ [v]) costs cnts))[init.length]? = some (sh v ++ (l.1 ++ [':', ' '])) := by
    have hlink := cells_link h.number l (h.link (init ++ [v]) l (by rw [hl]; simp))
    have hj := cells_join ((init ++ [v]).map sh) (hm _)
    rw [if_neg (by simp)] at hj
    have hls : ∃ r, cells (linksText sh (fk (init ++ [v]))) = (l.1 ++ [':', ' ']) :: r := by
      have e : linksText sh (fk (init ++ [v])) =
          (l.1 ++ [':', ' '] ++ commaEach (l.2.vec.map sh)) ++ linksText sh ls := by rw [hl]; simp [linksText]
      rw [e]
      unfold cells at hlink ⊢
      rw [splitOn_append, hlink]
      exact ⟨_, glue_cons _ (by simp [Pose.vec]) _⟩
    obtain ⟨r, hr⟩ := hls
    unfold rowLine
    rw [cells_append_comma _ _ (hm _), cells_append_comma _ _ (hm _)]
    unfold cells at hj hr ⊢
    rw [splitOn_append, hj, List.map_append, List.map_singleton, glue_last _ _ _ _ _ hr, List.append_assoc,
      List.append_assoc, List.getElem?_append_right (by simp)]
    simp
  refine ⟨key, fun w hw => ?_⟩
  rw [key, Option.some.injEq] at hw
  exact hcolon w (by rw [← hw]; simp)

end

/-! Concrete numbers for the examples: digits are shown as themselves. -/

def shNat (n : Nat) : Text := [Char.ofNat (48 + n % 10)]

def onePose : Pose Nat := ⟨1, 2, 3, 1, 0, 0, 0⟩

def oneLink (_ : List Nat) : List (Text × Pose Nat) := [("tool".toList, onePose)]
def twoLinks (_ : List Nat) : List (Text × Pose Nat) := [("base".toList, onePose), ("tool".toList, onePose)]

theorem shNat_cases (v : Nat) : shNat v ∈ ["0", "1", "2", "3", "4", "5", "6", "7", "8", "9"].map String.toList := by
  have : v % 10 < 10 := Nat.mod_lt _ (by decide)
  unfold shNat
  generalize v % 10 = m at this ⊢
  interval_cases m <;> decide

theorem shNat_plain (v : Nat) : Plain (shNat v) ∧ ':' ∉ shNat v := by
  have := shNat_cases v
  revert this
  generalize shNat v = t
  intro ht
  simp only [List.map_cons, List.map_nil, List.mem_cons, List.not_mem_nil, or_false] at ht
  rcases ht with rfl | rfl | rfl | rfl | rfl | rfl | rfl | rfl | rfl | rfl <;> (unfold Plain; decide)

theorem clean_one : Clean shNat oneLink :=
  ⟨fun v => (shNat_plain v).1, by intro q l hl; simp only [oneLink, List.mem_singleton] at hl; subst hl; unfold Plain; decide⟩

theorem clean_two : Clean shNat twoLinks :=
  ⟨fun v => (shNat_plain v).1, by
    intro q l hl
    simp only [twoLinks, List.mem_cons, List.not_mem_nil, or_false] at hl
    rcases hl with rfl | rfl <;> (unfold Plain; decide)⟩

/-- Two joints, one link, one cost, one constraint: aligned, but the second joint's cell is `5tool: `. -/
example : String.ofList (rowLine shNat oneLink [4, 5] [8] [9]) = "4,5tool: ,1,2,3,1,0,0,0,8,9" := by decide +kernel
example : Clean shNat oneLink ∧ oneLink ([4] ++ [5]) = ("tool".toList, onePose) :: [] := ⟨clean_one, rfl⟩
example : (twoLinks [4, 5])[1]? = some ("tool".toList, onePose) := rfl
example : Clean shNat twoLinks ∧ (twoLinks [4, 5]).length ≠ 1 := ⟨clean_two, by decide⟩
example : String.ofList (headerLine ["a".toList, "b".toList] ["cost".toList] []) = "a,b,x,y,z,q_w,q_x,q_y,q_z,cost" := by
  decide +kernel
example : ∀ t ∈ ["a".toList, "b".toList] ++ ["cost".toList] ++ [], Plain t := by
  intro t ht
  simp only [List.cons_append, List.nil_append, List.append_nil, List.mem_cons, List.not_mem_nil, or_false] at ht
  rcases ht with rfl | rfl | rfl <;> (unfold Plain; decide)

/-! ### C152 -/

section
variable {K : Type u} {N : Type}

/-- Entry `j` of step `i` of a trajectory with `cols` columns kept row by row in the vector of variables. -/
def entry (x : List K) (cols i j : Nat) : Option K := x[i * cols + j]?

/-- The states shown are the steps of the trajectory: one per step, each with the names and the step's joint values. -/
def ShowsSteps (states : List (List N × List K)) (names : List N) (x : List K) (steps cols : Nat) : Prop :=
  states.length = steps ∧ ∀ i s, states[i]? = some s → s.1 = names ∧ s.2.length = names.length ∧
    ∀ j, j < names.length → s.2[j]? = entry x cols i j

theorem mapM_some_map {α β : Type*} {f : α → Option β} {g : α → β} (l : List α) (h : ∀ a ∈ l, f a = some (g a)) :
    l.mapM f = some (l.map g) := by
  induction l with
  | nil => rfl
  | cons a l ih =>
    rw [List.mapM_cons, h a (by simp), ih fun b hb => h b (by simp [hb])]
    rfl

theorem flat_nat (a : BArr Nat) (i j : Nat) (h : i * a.nCol + j < 2 ^ 64) :
    BasicArray.flat a (i : Int) (j : Int) = i * a.nCol + j := by
  unfold BasicArray.flat
  have e : ((i : Int) * (a.nCol : Int) + (j : Int)) = ((i * a.nCol + j : Nat) : Int) := by push_cast; ring
  rw [e]
  omega

theorem cell_lt {i j r c : Nat} (hi : i < r) (hj : j < c) : i * c + j < r * c := by
  have : (i + 1) * c ≤ r * c := Nat.mul_le_mul_right c hi
  rw [Nat.succ_mul] at this
  omega

/-- Reading the array whose entry `(i, j)` is variable `i * cols + j`. -/
theorem trajRows_range (x : List K) (r c n : Nat) (hn : r * c ≤ n) (hx : n ≤ x.length) (hb : n < 2 ^ 64) :
    ∃ rows, trajRows x ⟨r, c, List.range n⟩ = some rows ∧ rows.length = r ∧
      ∀ i l, rows[i]? = some l → l.length = c ∧ ∀ j, j < c → l[j]? = entry x c i j := by
  by_cases hx0 : x = []
  · subst hx0
    have : n = 0 := by simpa using hx
    subst this
    have hrc : r * c = 0 := by omega
    refine ⟨List.replicate r [], ?_, by simp, ?_⟩
    · unfold trajRows
      rw [mapM_some_map (g := fun _ => [])]
      · simp
      · intro i hi
        have hi' : i < r := by simpa using hi
        have hc : c = 0 := by
          rcases Nat.mul_eq_zero.1 hrc with h | h
          · omega
          · exact h
        subst hc
        rfl
    · intro i l hl
      rw [List.getElem?_replicate] at hl
      split_ifs at hl with h
      have hl : [] = l := by simpa using hl
      subst hl
      have hc : c = 0 := by
        rcases Nat.mul_eq_zero.1 hrc with h | h
        · omega
        · exact h
      subst hc
      simp
  · obtain ⟨d, hd⟩ : ∃ d, d ∈ x := List.exists_mem_of_ne_nil x hx0
    refine ⟨(List.range r).map fun i => (List.range c).map fun j => x[i * c + j]?.getD d, ?_, by simp, ?_⟩
    · unfold trajRows
      rw [mapM_some_map]
      intro i hi
      have hi' : i < r := by simpa using hi
      have hrow : (⟨r, c, List.range n⟩ : BArr Nat).row (i : Int) = some ((List.range c).map fun j => i * c + j) := by
        unfold BasicArray.BArr.row
        rw [mapM_some_map]
        intro j hj
        have hj' : j < c := by simpa using hj
        have hlt := cell_lt hi' hj'
        unfold BasicArray.BArr.at
        rw [flat_nat _ _ _ (by simp only; omega)]
        simp only
        rw [List.getElem?_range (by omega)]
      rw [hrow, Option.bind_some, List.mapM_map, mapM_some_map]
      intro j hj
      have hj' : j < c := by simpa using hj
      have hlt := cell_lt hi' hj'
      simp only [Function.comp]
      rw [List.getElem?_eq_getElem (by omega)]
      rfl
    · intro i l hl
      rw [List.getElem?_map] at hl
      by_cases hi : i < r
      · rw [List.getElem?_range hi, Option.map_some, Option.some.injEq] at hl
        subst hl
        refine ⟨by simp, fun j hj => ?_⟩
        have hlt := cell_lt hi hj
        rw [List.getElem?_map, List.getElem?_range hj, Option.map_some, entry, List.getElem?_eq_getElem (by omega)]
        rfl
      · rw [List.getElem?_eq_none (by simpa using hi)] at hl
        simp at hl

/-- C152 (partial: only for problems whose variables are the joint values and nothing else): both callbacks show
exactly the steps of the trajectory. -/
theorem C152_shows_partial (names : List N) (steps : Nat) (x : List K) (hd : names ≠ [])
    (hx : x.length = steps * names.length) (hb : x.length < 2 ^ 64) :
    ∃ states, plotProb names (List.range x.length) x = some states ∧
      plotCosts names ⟨steps, names.length, List.range x.length⟩ x = some states ∧
      ShowsSteps states names x steps names.length := by
  obtain ⟨rows, h1, h2, h3⟩ := trajRows_range x steps names.length x.length (by omega) (le_refl _) hb
  have hl : names.length ≠ 0 := by simpa using hd
  refine ⟨rows.map fun r => (names, r), ?_, by rw [plotCosts, h1]; rfl, by simpa using h2, ?_⟩
  · unfold plotProb
    rw [if_neg hl, List.length_range]
    have : x.length / names.length = steps := by rw [hx]; exact Nat.mul_div_cancel _ (by omega)
    rw [this, plotCosts, h1]
    rfl
  · intro i s hs
    rw [List.getElem?_map] at hs
    cases hr : rows[i]? with
    | none => simp [hr] at hs
    | some l =>
      rw [hr, Option.map_some, Option.some.injEq] at hs
      subst hs
      exact ⟨rfl, (h3 i l hr).1, (h3 i l hr).2⟩

/-- C152: with a time column, `PlotCallback` shows states that have one value more than names, at every step. -/
theorem C152_time_column_violated (names : List N) (steps : Nat) (x : List K)
    (hx : x.length = steps * (names.length + 1)) (hb : x.length < 2 ^ 64) :
    ∃ states, plotCosts names ⟨steps, names.length + 1, List.range x.length⟩ x = some states ∧
      states.length = steps ∧ ∀ s ∈ states, s.1 = names ∧ s.2.length = names.length + 1 := by
  obtain ⟨rows, h1, h2, h3⟩ := trajRows_range x steps (names.length + 1) x.length (by omega) (le_refl _) hb
  refine ⟨rows.map fun r => (names, r), by rw [plotCosts, h1]; rfl, by simpa using h2, ?_⟩
  intro s hs
  obtain ⟨l, hl, rfl⟩ := List.mem_map.1 hs
  obtain ⟨i, hi⟩ := List.mem_iff_getElem?.1 hl
  exact ⟨rfl, (h3 i l hi).1⟩

/-- C152: with a time column, `PlotProbCallback` shows as the first joint of the second state the time of the first
step, and it shows more states than there are steps once there are at least as many steps as joints. -/
theorem C152_prob_violated (names : List N) (hd : names ≠ []) (steps : Nat) (h2 : 2 ≤ steps) (x : List K)
    (hx : x.length = steps * (names.length + 1)) (hb : x.length < 2 ^ 64) :
    ∃ states, plotProb names (List.range x.length) x = some states ∧
      (∃ s, states[1]? = some s ∧ s.2[0]? = entry x (names.length + 1) 0 names.length) ∧
      (names.length ≤ steps → steps < states.length) := by
  have hl : 0 < names.length := List.length_pos_iff.2 hd
  have e : x.length / names.length = steps + steps / names.length := by
    rw [hx, Nat.mul_succ, Nat.add_comm, Nat.add_mul_div_right _ _ hl, Nat.add_comm]
  obtain ⟨rows, h1, hr, h3⟩ := trajRows_range x (steps + steps / names.length) names.length x.length
    (by rw [← e]; exact Nat.div_mul_le_self _ _) (le_refl _) hb
  refine ⟨rows.map fun r => (names, r), ?_, ?_, ?_⟩
  · unfold plotProb
    rw [if_neg (by omega), List.length_range, e, plotCosts, h1]
    rfl
  · have hlen : 1 < rows.length := by
      rw [hr]
      exact lt_of_lt_of_le (by omega : 1 < steps) (Nat.le_add_right _ _)
    refine ⟨(names, rows[1]), by rw [List.getElem?_map, List.getElem?_eq_getElem hlen]; rfl, ?_⟩
    have := (h3 1 rows[1] (List.getElem?_eq_getElem hlen)).2 0 hl
    simp only [this, entry]
    congr 1
    omega
  · intro hle
    rw [List.length_map, hr]
    have : 1 ≤ steps / names.length := (Nat.le_div_iff_mul_le hl).2 (by omega)
    omega

/-- C152: extra variables behind the trajectory are shown as further steps. -/
theorem C152_extra_violated (names : List N) (hd : names ≠ []) (steps extra : Nat) (he : names.length ≤ extra) (x : List K)
    (hx : x.length = steps * names.length + extra) (hb : x.length < 2 ^ 64) :
    ∃ states, plotProb names (List.range x.length) x = some states ∧ steps < states.length := by
  have hl : 0 < names.length := List.length_pos_iff.2 hd
  have e : x.length / names.length = steps + extra / names.length := by
    rw [hx, Nat.add_comm, Nat.add_mul_div_right _ _ hl, Nat.add_comm]
  obtain ⟨rows, h1, hr, h3⟩ := trajRows_range x (steps + extra / names.length) names.length x.length
    (by rw [← e]; exact Nat.div_mul_le_self _ _) (le_refl _) hb
  refine ⟨rows.map fun r => (names, r), ?_, ?_⟩
  · unfold plotProb
    rw [if_neg (by omega), List.length_range, e, plotCosts, h1]
    rfl
  · rw [List.length_map, hr]
    have : 1 ≤ extra / names.length := (Nat.le_div_iff_mul_le hl).2 (by omega)
    omega

/-- Two joints, two steps, with times 7 and 8: the second state shown starts with the time 7. -/
example : plotProb ["a", "b"] (List.range 6) [1, 2, 7, 3, 4, 8] =
    some [(["a", "b"], [1, 2]), (["a", "b"], [7, 3]), (["a", "b"], [4, 8])] := by decide +kernel
example : plotProb ["a", "b"] (List.range 4) [1, 2, 3, 4] = some [(["a", "b"], [1, 2]), (["a", "b"], [3, 4])] := by
  decide +kernel

/-! ### C153 -/

/-- C153: for variables of one size the array has one row per variable in the given order, as many columns as a
variable has entries, and each row holds the variable's values; the joint trajectory has the same rows with the names
of the variables. -/
theorem C153_array (l : List (NamedVar N K)) (d : Nat) (hl : l ≠ []) (hd : ∀ v ∈ l, v.value.length = d) :
    toTrajArray l = some (l.length, d, l.map NamedVar.value) ∧
    (toJointTrajectory l).map Prod.snd = l.map NamedVar.value ∧
    (toJointTrajectory l).map Prod.fst = l.map NamedVar.names := by
  refine ⟨?_, by simp [toJointTrajectory, Function.comp_def], by simp [toJointTrajectory, Function.comp_def]⟩
  cases l with
  | nil => exact absurd rfl hl
  | cons v vs =>
    have hv := hd v (by simp)
    unfold toTrajArray
    simp only
    rw [mapM_some_map (g := NamedVar.value) _ (fun w hw => by rw [if_pos (by rw [hd w hw, hv])]), hv]
    rfl

/-- C153: a variable whose size differs from the first one's makes the conversion to an array fail. -/
theorem C153_mixed_sizes (v : NamedVar N K) (vs : List (NamedVar N K)) (w : NamedVar N K) (hw : w ∈ vs)
    (hne : w.value.length ≠ v.value.length) : toTrajArray (v :: vs) = none := by
  unfold toTrajArray
  simp only [Option.map_eq_none_iff]
  have : w ∈ v :: vs := by simp [hw]
  generalize v :: vs = l at this
  induction l with
  | nil => simp at this
  | cons u us ih =>
    rw [List.mapM_cons]
    rcases List.mem_cons.1 this with rfl | h
    · rw [if_neg hne]; rfl
    · rw [ih h]
      split_ifs <;> rfl

end

section
variable {K : Type u} [Field K] [LinearOrder K] [IsStrictOrderedRing K] {N : Type}

open Verif.VarSets (VarSpec NodesVariables Reached Var slice)

/-- C153: after the variables of a variable set have been set to `x` (at any time of its life), the trajectory of its
variables reads `x`: row `p`, column `j` is coordinate `index p + j`. -/
theorem C153_reads (l : List (List (VarSpec K))) (xs : List (List K)) (s : NodesVariables K) (h : Reached l xs s)
    (d : Nat) (hdpos : 0 < d) (hd : ∀ n ∈ l, ∀ v ∈ n, v.nNames = d) (hne : s.vars ≠ []) (x : List K)
    (hx : x.length = s.nDim) (names : Var K → List N) :
    ∃ s' rows, s.setVariables x = some s' ∧
      toTrajArray (s'.vars.map fun v => (⟨names v, v.values⟩ : NamedVar N K)) = some (s.vars.length, d, rows) ∧
      ∀ p j, p < s.vars.length → j < d → (rows[p]?.bind fun r => r[j]?) = x[p * d + j]? := by
  obtain ⟨hi, ha⟩ := VarSets.reached_inv h
  obtain ⟨s', hs', _, _, hidx, hvals⟩ := VarSets.C39_set_get l xs s h (fun n hn v hv => by rw [hd n hn v hv]; exact hdpos) x hx
  have hsize : ∀ v ∈ s.vars, v.size = d := by
    intro v hv
    have : (v.size, v.bounds) ∈ VarSets.asked l := by rw [← ha]; exact List.mem_map_of_mem hv
    simp only [VarSets.asked, List.mem_map, List.mem_flatten] at this
    obtain ⟨t, ⟨n, hn, ht⟩, e⟩ := this
    simp only [Prod.mk.injEq] at e
    rw [← e.1, hd n hn t ht]
  have hpre : ∀ pre : List (Var K), (∀ v ∈ pre, v.size = d) → VarSets.sizes pre = pre.length * d := by
    intro pre
    induction pre with
    | nil => simp [VarSets.sizes]
    | cons v pre ih =>
      intro hp
      rw [VarSets.sizes_cons, hp v (by simp), ih fun u hu => hp u (by simp [hu]), List.length_cons, Nat.succ_mul]
      omega
  have hdim : s.nDim = s.vars.length * d := by rw [hi.dim, hpre _ hsize]
  have hindex : ∀ p v, s.vars[p]? = some v → v.index = p * d := by
    intro p v hp
    obtain ⟨hlt, hg⟩ := List.getElem?_eq_some_iff.1 hp
    have e : s.vars = s.vars.take p ++ v :: s.vars.drop (p + 1) := by
      rw [← hg, List.cons_getElem_drop_succ, List.take_append_drop]
    have := (VarSets.chain_index hi.chain _ _ v e).1
    rw [Nat.zero_add, hpre _ (fun u hu => hsize u (List.mem_of_mem_take hu)), List.length_take,
      Nat.min_eq_left (le_of_lt hlt)] at this
    exact this
  have hlen : s'.vars.length = s.vars.length := by
    have := congrArg List.length hvals
    simpa using this
  have hslice : ∀ v ∈ s.vars, (slice x v.index v.size).length = d := by
    intro v hv
    obtain ⟨p, hp⟩ := List.mem_iff_getElem?.1 hv
    obtain ⟨hlt, _⟩ := List.getElem?_eq_some_iff.1 hp
    have h1 := Nat.mul_le_mul_right d (Nat.succ_le_of_lt hlt)
    rw [Nat.succ_mul] at h1
    unfold slice
    rw [List.length_take, List.length_drop, hindex p v hp, hsize v hv, hx, hdim]
    omega
  have hvl : ∀ w ∈ s'.vars, w.values.length = d := by
    intro w hw
    have : w.values ∈ s'.vars.map Var.values := List.mem_map_of_mem hw
    rw [hvals] at this
    obtain ⟨v, hv, e⟩ := List.mem_map.1 this
    rw [← e]; exact hslice v hv
  refine ⟨s', s'.vars.map Var.values, hs', ?_, ?_⟩
  · have hne' : s'.vars ≠ [] := by
      intro e
      rw [e] at hlen
      exact hne (List.eq_nil_of_length_eq_zero hlen.symm)
    have := (C153_array (s'.vars.map fun v => (⟨names v, v.values⟩ : NamedVar N K)) d (by simpa using hne') (by
      intro v hv
      obtain ⟨w, hw, rfl⟩ := List.mem_map.1 hv
      exact hvl w hw)).1
    rw [this, List.length_map, hlen, List.map_map]
    rfl
  · intro p j hp hj
    have hpv : s.vars[p]? = some s.vars[p] := List.getElem?_eq_getElem hp
    rw [hvals, List.getElem?_map, hpv, Option.map_some, Option.bind_some]
    unfold slice
    rw [List.getElem?_take, hsize _ (List.mem_of_getElem? hpv), if_pos hj, List.getElem?_drop, hindex p _ hpv]

end

def freeTwo (a b : ℚ) : VarSets.VarSpec ℚ := ⟨2, [a, b], [(none, none), (none, none)]⟩

/-- Two steps of two joints meet the hypotheses of `C153_reads`. -/
example : ∃ s, VarSets.Reached [[freeTwo 1 2], [freeTwo 3 4]] [] s ∧ s.vars ≠ [] ∧ s.nDim = 4 ∧
    ∀ n ∈ [[freeTwo 1 2], [freeTwo 3 4]], ∀ v ∈ n, v.nNames = 2 :=
  ⟨_, ⟨_, rfl, by simp, rfl⟩, by simp [VarSets.NodesVariables.vars, VarSets.NodesVariables.addNode,
    VarSets.Node.incrementIndex], rfl, by simp [freeTwo]⟩

/-- Two steps of two joints. -/
example : toTrajArray [(⟨["a", "b"], [1, 2]⟩ : NamedVar String ℚ), ⟨["a", "b"], [3, 4]⟩] =
    some (2, 2, [[1, 2], [3, 4]]) := by decide +kernel
example : toTrajArray [(⟨["a", "b"], [1, 2]⟩ : NamedVar String ℚ), ⟨["a"], [3]⟩] = none := by decide +kernel

/-! ### C154 -/

section
variable {K : Type u}

/-- C154: no call of the constructor of an observer ever returns. -/
theorem C154_never_constructed_violated (subject : Option (Subject K)) : ∀ s, newObserver subject ≠ .ok s := by
  intro s h
  cases subject <;> simp [newObserver, sharedFromThis] at h

/-- C154: whatever is done with a variable set, no observer is ever registered with it, and none is ever told of a
change: only null pointers can be registered. -/
theorem C154_no_observer_violated (ops : List (Op K)) (x0 : List K) (s : Subject K × Bool)
    (h : run (⟨x0, []⟩, false) ops = some s) : s.2 = false ∧ ∀ o ∈ s.1.observers, o = none := by
  have key : ∀ (ops : List (Op K)) (s0 s : Subject K × Bool), s0.2 = false → (∀ o ∈ s0.1.observers, o = none) →
      run s0 ops = some s → s.2 = false ∧ ∀ o ∈ s.1.observers, o = none := by
    intro ops
    induction ops with
    | nil =>
      intro s0 s h1 h2 h3
      simp only [run, List.foldlM_nil, Option.pure_def, Option.some.injEq] at h3
      subst h3; exact ⟨h1, h2⟩
    | cons op ops ih =>
      intro s0 s h1 h2 h3
      simp only [run, List.foldlM_cons] at h3
      cases hs : step s0 op with
      | none => simp [hs] at h3
      | some s1 =>
        simp only [hs, Option.bind_eq_bind, Option.bind_some] at h3
        have : s1.2 = false ∧ ∀ o ∈ s1.1.observers, o = none := by
          cases op with
          | setVariables x =>
            simp only [step, Subject.setVariables] at hs
            cases ho : s0.1.observers with
            | nil =>
              simp only [ho, tellAll, Option.some.injEq] at hs
              subst hs
              exact ⟨h1, by simp⟩
            | cons o os =>
              have := h2 o (by simp [ho])
              subst this
              simp [ho, tellAll] at hs
          | makeObserver =>
            simp only [step, newObserver, sharedFromThis, Option.some.injEq] at hs
            subst hs; exact ⟨h1, h2⟩
          | addNull =>
            simp only [step, Option.some.injEq] at hs
            subst hs
            refine ⟨h1, fun o ho => ?_⟩
            simp only [Subject.addObserver, List.mem_append, List.mem_singleton] at ho
            rcases ho with ho | ho
            · exact h2 o ho
            · exact ho
          | addExisting n =>
            simp [step, h1] at hs
        exact ih s1 s this.1 this.2 h3
  exact key ops _ s rfl (by simp) h

/-- C154: once a null pointer has been registered, the next change of the variables is undefined. -/
theorem C154_null (s : Subject K) (x : List K) (h : none ∈ s.observers) : s.setVariables x = .undefined := by
  have : tellAll s.observers = none := by
    generalize s.observers = l at h
    induction l with
    | nil => simp at h
    | cons o os ih =>
      cases o with
      | none => rfl
      | some n =>
        have := ih (by simpa using h)
        simp [tellAll, this]
  simp [Subject.setVariables, this]

/-- C154 (partial: such an observer cannot be made with this library): if a subject had observers, every change would
tell each of them exactly once. -/
theorem C154_told_partial (s : Subject K) (ns : List Nat) (h : s.observers = ns.map some) (x : List K) :
    s.setVariables x = .ok ⟨x, ns.map fun n => some (n + 1)⟩ := by
  have : tellAll (ns.map some) = some (ns.map fun n => some (n + 1)) := by
    clear h
    induction ns with
    | nil => rfl
    | cons n ns ih => simp [tellAll, ih]
  simp [Subject.setVariables, h, this]

example : ∃ s, run ((⟨[], []⟩, false) : Subject ℚ × Bool) [.makeObserver, .setVariables [1], .addNull] = some s := ⟨_, rfl⟩

end

/-! ### C155 -/

section
variable {K : Type u} [Field K] [LinearOrder K] [IsStrictOrderedRing K]

/-- A row is violated: its value is below the lower or above the upper bound by more than the tolerance. -/
def Violated (tol : K) (c : Item K) (i : Nat) : Prop :=
  ∃ v b, c.values[i]? = some v ∧ c.bounds[i]? = some b ∧
    ((∃ l, b.1 = some l ∧ tol < l - v) ∨ ∃ u, b.2 = some u ∧ tol < v - u)

theorem outside_iff (tol v : K) (b : Lo K × Hi K) :
    outside tol v b = true ↔ (∃ l, b.1 = some l ∧ tol < l - v) ∨ ∃ u, b.2 = some u ∧ tol < v - u := by
  obtain ⟨lo, hi⟩ := b
  have h1 : ∀ l : K, v < l - tol ↔ tol < l - v := fun l => by constructor <;> intro h <;> linarith
  have h2 : ∀ u : K, u + tol < v ↔ tol < v - u := fun u => by constructor <;> intro h <;> linarith
  cases lo <;> cases hi <;> simp [outside, h1, h2]

theorem violIdx_spec (tol : K) (x : List K) (l : List (Nat × (Lo K × Hi K))) (hx : ∀ p ∈ l, p.1 < x.length) :
    ∃ r, violIdx tol x l = some r ∧
      r = (l.filter fun p => (x[p.1]?.map fun v => outside tol v p.2).getD false).map Prod.fst := by
  induction l with
  | nil => exact ⟨[], rfl, rfl⟩
  | cons p l ih =>
    obtain ⟨r, h1, h2⟩ := ih fun q hq => hx q (by simp [hq])
    obtain ⟨i, b⟩ := p
    have hi : i < x.length := hx (i, b) (by simp)
    simp only [violIdx, List.getElem?_eq_getElem hi, h1, Option.map_some]
    refine ⟨_, rfl, ?_⟩
    rw [List.filter_cons]
    simp only [List.getElem?_eq_getElem hi, Option.map_some, Option.getD_some]
    split_ifs with h
    · rw [List.map_cons, h2]
    · exact h2

/-- The violated rows, each once. -/
theorem violated_rows (tol : K) (c : Item K) (hlen : c.bounds.length ≤ c.values.length) :
    ∃ r : List Nat, violIdx tol c.values ((List.range c.bounds.length).zip c.bounds) = some r ∧ r.Nodup ∧
      ∀ i, i ∈ r ↔ Violated tol c i := by
  obtain ⟨r, h1, h2⟩ := violIdx_spec tol c.values ((List.range c.bounds.length).zip c.bounds) (by
    rintro ⟨i, b⟩ hp
    have := (List.of_mem_zip hp).1
    simp only [List.mem_range] at this
    exact lt_of_lt_of_le this hlen)
  have hz : ∀ (i : Nat) (b : Lo K × Hi K),
      (i, b) ∈ (List.range c.bounds.length).zip c.bounds ↔ c.bounds[i]? = some b := by
    intro i b
    rw [List.mem_iff_getElem?]
    constructor
    · rintro ⟨k, hk⟩
      rw [List.getElem?_zip_eq_some] at hk
      obtain ⟨h1, h2⟩ := hk
      obtain ⟨hlt, he⟩ := List.getElem?_eq_some_iff.1 h1
      rw [List.getElem_range] at he
      subst he; exact h2
    · intro hb
      obtain ⟨hlt, _⟩ := List.getElem?_eq_some_iff.1 hb
      exact ⟨i, by rw [List.getElem?_zip_eq_some]; exact ⟨List.getElem?_range hlt, hb⟩⟩
  refine ⟨r, h1, ?_, ?_⟩
  · rw [h2]
    apply List.Nodup.sublist (List.Sublist.map _ List.filter_sublist)
    rw [List.map_fst_zip (by simp)]
    exact List.nodup_range
  · intro i
    rw [h2]
    simp only [List.mem_map, List.mem_filter, Prod.exists, exists_and_right, exists_eq_right]
    constructor
    · rintro ⟨b1, b2, hb, ho⟩
      rw [hz] at hb
      cases hv : c.values[i]? with
      | none => simp [hv] at ho
      | some v =>
        simp only [hv, Option.map_some, Option.getD_some] at ho
        exact ⟨v, (b1, b2), hv, hb, (outside_iff tol v (b1, b2)).1 ho⟩
    · rintro ⟨v, b, hv, hb, ho⟩
      exact ⟨b.1, b.2, (hz i b).2 hb, by simp only [hv, Option.map_some, Option.getD_some]; exact (outside_iff tol v b).2 ho⟩

/-- Rows of the first `k` items. -/
def rowsBefore (cs : List (Item K)) (k : Nat) : Nat := ((cs.take k).map Item.rows).sum

theorem printAll_spec (tol : K) (cs : List (Item K)) (hlen : ∀ c ∈ cs, c.bounds.length ≤ c.values.length) (index : Int) :
    ∃ lines, printAll tol index cs = some (lines, index + (cs.map Item.rows).sum) ∧ lines.length = cs.length ∧
      ∀ k c, cs[k]? = some c → ∃ ln : Line, lines[k]? = some ln ∧ ln.name = c.name ∧ ln.rows = c.rows ∧
        ln.first = index + rowsBefore cs k ∧ ln.last = ln.first + c.rows - 1 ∧
        ∃ r : List Nat, r.Nodup ∧ r.length = ln.viol ∧ ∀ i, i ∈ r ↔ Violated tol c i := by
  induction cs generalizing index with
  | nil => exact ⟨[], by simp [printAll], rfl, by simp⟩
  | cons c cs ih =>
    obtain ⟨r, h1, h2, h3⟩ := violated_rows tol c (hlen c (by simp))
    obtain ⟨lines, i1, i2, i3⟩ := ih (fun d hd => hlen d (by simp [hd])) (index + c.rows)
    refine ⟨⟨c.name, c.rows, index, index + c.rows - 1, r.length⟩ :: lines, ?_, by simp [i2], ?_⟩
    · simp only [printAll, Item.print, h1, Option.map_some, i1, List.map_cons, List.sum_cons]
      congr 2
      push_cast
      ring
    · intro k d hk
      cases k with
      | zero =>
        simp only [List.getElem?_cons_zero, Option.some.injEq] at hk
        subst hk
        exact ⟨_, rfl, rfl, rfl, by simp [rowsBefore], rfl, r, h2, rfl, h3⟩
      | succ k =>
        rw [List.getElem?_cons_succ] at hk
        obtain ⟨ln, j1, j2, j3, j4, j5, j6⟩ := i3 k d hk
        refine ⟨ln, by simpa using j1, j2, j3, ?_, j5, j6⟩
        rw [j4]
        simp only [rowsBefore, List.take_succ_cons, List.map_cons, List.sum_cons]
        push_cast
        ring

/-- C155: the table of constraints: one line per constraint set in order, with its number of rows, the range of its
rows in the stacked constraint vector, and the number of its rows that are outside their bounds by more than the
tolerance. -/
theorem C155_constraints (tol : K) (vars : Item K) (cnts : List (Item K)) (costs : List (Text × K))
    (hv : vars.bounds.length ≤ vars.values.length) (hc : ∀ c ∈ cnts, c.bounds.length ≤ c.values.length) :
    ∃ (v : Line) (cl : List Line) (co : List (CostLine K)), printCurrent tol vars cnts costs = some (v, cl, co) ∧
      (v.first = 0 ∧ v.last = vars.rows - 1 ∧
        ∃ r : List Nat, r.Nodup ∧ r.length = v.viol ∧ ∀ i, i ∈ r ↔ Violated tol vars i) ∧
      cl.length = cnts.length ∧
      ∀ k c, cnts[k]? = some c → ∃ ln : Line, cl[k]? = some ln ∧ ln.name = c.name ∧ ln.rows = c.rows ∧
        ln.first = rowsBefore cnts k ∧ ln.last = ln.first + c.rows - 1 ∧
        ∃ r : List Nat, r.Nodup ∧ r.length = ln.viol ∧ ∀ i, i ∈ r ↔ Violated tol c i := by
  obtain ⟨r, h1, h2, h3⟩ := violated_rows tol vars hv
  obtain ⟨lines, i1, i2, i3⟩ := printAll_spec tol cnts hc 0
  refine ⟨⟨vars.name, vars.rows, 0, 0 + vars.rows - 1, r.length⟩, lines, printCosts 0 costs, ?_, ?_, i2, ?_⟩
  · simp only [printCurrent, Item.print, h1, i1, Option.map_some]
  · exact ⟨rfl, by simp, r, h2, rfl, h3⟩
  · intro k c hk
    obtain ⟨ln, j1, j2, j3, j4, j5⟩ := i3 k c hk
    exact ⟨ln, j1, j2, j3, by rw [j4]; simp, j5⟩

/-- C155: the cost lines show every cost value under its name, but all of them claim index 0, so that with two or more
costs the printed index is wrong for every one but the first. -/
theorem C155_costs_violated (tol : K) (vars : Item K) (cnts : List (Item K)) (costs : List (Text × K))
    (hv : vars.bounds.length ≤ vars.values.length) (hc : ∀ c ∈ cnts, c.bounds.length ≤ c.values.length) :
    ∃ (v : Line) (cl : List Line) (co : List (CostLine K)), printCurrent tol vars cnts costs = some (v, cl, co) ∧ co.length = costs.length ∧
      (∀ (k : Nat) (c : Text × K), costs[k]? = some c →
        ∃ ln : CostLine K, co[k]? = some ln ∧ ln.name = c.1 ∧ ln.cost = c.2 ∧ ln.first = 0 ∧ ln.last = 0) ∧
      ∀ (k : Nat) (ln : CostLine K), co[k]? = some ln → 0 < k → ln.first ≠ k := by
  obtain ⟨v, cl, co, h, -⟩ := C155_constraints tol vars cnts costs hv hc
  have hco : co = printCosts 0 costs := by
    unfold printCurrent at h
    split at h
    · simp only [Option.some.injEq, Prod.mk.injEq] at h
      exact h.2.2.symm
    · simp at h
  have key : ∀ costs : List (Text × K), printCosts 0 costs = costs.map fun c => (⟨c.1, 1, 0, 0, c.2⟩ : CostLine K) := by
    intro costs
    induction costs with
    | nil => rfl
    | cons c cs ih =>
      show (⟨c.1, 1, 0, 0 + 1 - 1, c.2⟩ : CostLine K) :: printCosts 0 cs = _
      rw [ih]
      simp
  rw [key] at hco
  subst hco
  refine ⟨v, cl, _, h, by simp, ?_, ?_⟩
  · intro k c hk
    exact ⟨⟨c.1, 1, 0, 0, c.2⟩, by simp [hk], rfl, rfl, rfl, rfl⟩
  · intro k ln hk hpos
    rw [List.getElem?_map] at hk
    cases hk' : costs[k]? with
    | none => simp [hk'] at hk
    | some c =>
      simp only [hk', Option.map_some, Option.some.injEq] at hk
      subst hk
      simp only
      omega

def sample : List (Item ℚ) := [⟨"a".toList, 2, [5, 1], [(some 0, some 1), (some 0, none)]⟩, ⟨"b".toList, 1, [0], [(some 1, none)]⟩]

example : (printAll (1 / 1000 : ℚ) 0 sample).map (fun r => r.1.map fun l => (l.first, l.last, l.viol)) =
    some [(0, 1, 1), (2, 2, 1)] := by decide +kernel
example : ∀ c ∈ sample, c.bounds.length ≤ c.values.length := by decide +kernel

end

end Verif.Output
