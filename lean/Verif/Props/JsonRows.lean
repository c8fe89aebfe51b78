import Verif.Props.JsonDoc
import Mathlib.Data.Rat.Floor

set_option linter.unusedSectionVars false
set_option linter.unusedVariables false

/-!
# C117: rows of given trajectories and flags
-/

namespace Verif.JsonRead

open Verif.Problem Verif.Construct

variable {K : Type} [Field K] [LinearOrder K] [IsStrictOrderedRing K] [FloorRing K]

theorem mapM_none {α β : Type} (f : α → Option β) : ∀ (l : List α) (a : α), a ∈ l → f a = none → l.mapM f = none
  | [], _, h, _ => (List.not_mem_nil h).elim
  | b :: l, a, h, hf => by
    rw [List.mapM_cons]
    rcases List.mem_cons.1 h with rfl | h
    · rw [hf]; rfl
    · cases f b with
      | none => rfl
      | some y =>
        have := mapM_none f l a h hf
        rw [this]; rfl

/-- C117: a given trajectory with a row that has more or fewer entries than the group has joints is rejected, whatever the
entries are. -/
theorem C117_rejects_rows (fmt : K → String) (n : Int) (nDof : Nat) (l : List (String × Json K)) (ty : String) (rows : List (Json K)) (row : List (Json K))
    (ht : l.lookup "type" = some (.str ty)) (hg : ty.toLower = "given_traj") (hd : l.lookup "data" = some (.arr rows))
    (hr : .arr row ∈ rows) (hlen : row.length ≠ nDof) : readInit fmt n nDof (.obj l) = none := by
  have hrow : asListN (K := K) asDouble nDof (.arr row) = none := by
    unfold asListN
    exact if_pos hlen
  have hrows : readRows (K := K) nDof (.arr rows) = none := mapM_none _ _ _ hr hrow
  have e1 : childReq (asString fmt) (.obj l) "type" = some ty := by
    simp only [childReq, Json.find?, ht, asString]
  have e2 : Json.find? (K := K) (.obj l) "data" = some (some (.arr rows)) := by simp only [Json.find?, hd]
  unfold readInit
  rw [e1]
  cases child asDouble (.obj l) "dt" 1 with
  | none => rfl
  | some dt =>
    simp only [Option.bind_eq_bind, Option.bind_some, hg, e2, hrows]
    rw [if_neg (by decide), if_pos trivial]
    split <;> rfl

/-- C117 fails for numbers in place of flags: every number but zero is taken as true. -/
theorem C117_violated_flag (o : Opt K) (i : Int) (hi : i ≠ 0) :
    readOpt o (.obj [("inflate_constraints_individually", .int i)]) = some { o with inflateIndividually := true } := by
  have key : ∀ {α : Type} (rd : Json K → Option α) (m : String) (df : α), m ≠ "inflate_constraints_individually" →
      child rd (.obj [("inflate_constraints_individually", .int i)]) m df = some df := by
    intro α rd m df m1
    simp only [child, Json.find?, List.lookup, beq_eq_false_iff_ne.2 m1]
  have e : child (K := K) asBool (.obj [("inflate_constraints_individually", .int i)]) "inflate_constraints_individually" o.inflateIndividually = some true := by
    show some (decide (i ≠ 0)) = some true
    rw [decide_eq_true hi]
  unfold readOpt
  simp only [e, key _ "improve_ratio_threshold" _ (by decide), key _ "min_trust_box_size" _ (by decide), key _ "min_approx_improve" _ (by decide),
    key _ "min_approx_improve_frac" _ (by decide), key _ "max_iter" _ (by decide), key _ "trust_shrink_ratio" _ (by decide),
    key _ "trust_expand_ratio" _ (by decide), key _ "cnt_tolerance" _ (by decide), key _ "max_merit_coeff_increases" _ (by decide),
    key _ "merit_coeff_increase_ratio" _ (by decide), key _ "max_time" _ (by decide), key _ "initial_merit_error_coeff" _ (by decide),
    key _ "trust_box_size" _ (by decide), Option.bind_eq_bind, Option.bind_some]

/-- The hypotheses of C117_rejects_rows: two joints, and a row of three numbers after one of two. -/
example : ([("type", Json.str "GIVEN_TRAJ"), ("data", Json.arr [.arr [.int 1, .int 2], .arr [.int 1, .int 2, .int 3]])] : List (String × Json ℚ)).lookup "type"
    = some (.str "GIVEN_TRAJ") ∧ "GIVEN_TRAJ".toLower = "given_traj" ∧ [Json.int (K := ℚ) 1, .int 2, .int 3].length ≠ 2 := by
  refine ⟨rfl, by decide +kernel, by decide⟩

end Verif.JsonRead
