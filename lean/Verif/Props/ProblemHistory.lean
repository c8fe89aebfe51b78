import Verif.Model.ProblemHistory
import Mathlib.Tactic.Linarith

/-!
C160: saved iterates of a problem.
-/

set_option linter.unusedSectionVars false
set_option linter.unusedVariables false

namespace Verif.ProblemHistory

universe u
variable {K : Type u}

/-! ### Specification -/

/-- What the user expects to see: the current variables and the saved ones. -/
structure View (K : Type u) where
  x : List K
  saved : List (List K)

/-- The meaning of the calls. -/
inductive Means : View K → Op K → View K → Prop
  | set (v : View K) (x : List K) : Means v (.setVariables x) ⟨x, v.saved⟩
  | save (v : View K) : Means v .save ⟨v.x, v.saved ++ [v.x]⟩
  | restore (v : View K) (i : Nat) (y : List K) : v.saved[i]? = some y → Means v (.restore i) ⟨y, v.saved⟩
  | restoreBad (v : View K) (i : Int) : (i < 0 ∨ (v.saved.length : Int) ≤ i) → Means v (.restore i) v
  | final (v : View K) (a : List (List K)) (y : List K) : v.saved = a ++ [y] → Means v .restoreFinal ⟨y, v.saved⟩
  | finalBad (v : View K) : v.saved = [] → Means v .restoreFinal v

inductive MeansAll : View K → List (Op K) → View K → Prop
  | nil (v : View K) : MeansAll v [] v
  | cons (v w u : View K) (op : Op K) (ops : List (Op K)) : Means v op w → MeansAll w ops u → MeansAll v (op :: ops) u

/-- The number of rows of a constraint set never changes. -/
def FixedRows (sets : List (CSet K)) : Prop := ∀ c ∈ sets, ∀ x y, c.rows x = c.rows y

/-- Arguments of type `int`. -/
def InInt : Op K → Prop
  | .restore i => -2 ^ 31 ≤ i ∧ i < 2 ^ 31
  | _ => True

/-! ### Proofs -/

theorem toSize_nat (n : Nat) (h : n < 2 ^ 64) : toSize n = n := by
  unfold toSize
  rw [Int.emod_eq_of_lt (by omega) (by exact_mod_cast h)]
  simp

theorem toSize_neg (i : Int) (h : i < 0) (h2 : -2 ^ 31 ≤ i) : 2 ^ 63 ≤ toSize i := by
  unfold toSize
  omega

theorem toInt_small (n : Nat) (h : n < 2 ^ 31) : toInt n = n := by
  unfold toInt
  rw [Int.bmod_eq_of_le_mul_two] <;> omega

theorem rowSum_fixed {sets : List (CSet K)} (h : FixedRows sets) (x y : List K) : rowSum sets x = rowSum sets y := by
  unfold rowSum
  generalize 0 = n
  induction sets generalizing n with
  | nil => rfl
  | cons c cs ih =>
    rw [List.foldl_cons, List.foldl_cons, h c (by simp) x y]
    exact ih (fun d hd => h d (by simp [hd])) _

/-- The view of a problem. -/
def Problem.view (p : Problem K) : View K := ⟨p.x, p.saved⟩

def Problem.Sound (p : Problem K) : Prop := FixedRows p.sets ∧ ∃ y, p.rows = rowSum p.sets y

theorem call_means (p : Problem K) (hp : p.Sound) (hs : p.saved.length < 2 ^ 31) (op : Op K) (ho : InInt op) :
    ∃ p', (p.call op = .ok p' ∨ p.call op = .outOfRange p') ∧ Means p.view op p'.view ∧ p'.Sound ∧ p'.sets = p.sets ∧
      p'.saved.length ≤ p.saved.length + 1 := by
  obtain ⟨hf, y0, hy0⟩ := hp
  cases op with
  | setVariables x =>
    refine ⟨{ p with x := x, cache := x }, .inl ?_, .set _ _, ⟨hf, y0, hy0⟩, rfl, by simp⟩
    simp only [Problem.call, Problem.setVariables, hy0, rowSum_fixed hf x y0, if_true]
  | save => exact ⟨p.saveCurrent, .inl rfl, .save _, ⟨hf, y0, hy0⟩, rfl, by simp [Problem.saveCurrent]⟩
  | restore i =>
    obtain ⟨h1, h2⟩ := ho
    simp only [Problem.call, Problem.setOptVariables]
    by_cases hi : i < 0
    · have := toSize_neg i hi h1
      rw [List.getElem?_eq_none (by omega)]
      exact ⟨p, .inr rfl, .restoreBad _ _ (.inl hi), ⟨hf, y0, hy0⟩, rfl, by omega⟩
    · obtain ⟨n, rfl⟩ := Int.eq_ofNat_of_zero_le (not_lt.1 hi)
      rw [toSize_nat n (by omega)]
      cases hn : p.saved[n]? with
      | none =>
        have := List.getElem?_eq_none_iff.1 hn
        exact ⟨p, .inr rfl, .restoreBad _ _ (.inr (by show (p.saved.length : Int) ≤ _; exact_mod_cast this)), ⟨hf, y0, hy0⟩, rfl, by omega⟩
      | some y => exact ⟨{ p with x := y }, .inl rfl, .restore p.view n y hn, ⟨hf, y0, hy0⟩, rfl, by simp⟩
  | restoreFinal =>
    simp only [Problem.call, Problem.setOptVariablesFinal, Problem.getIterationCount]
    rw [toInt_small _ hs]
    rcases List.eq_nil_or_concat p.saved with he | ⟨a, y, he⟩
    · rw [he]
      exact ⟨p, .inr (by simp), .finalBad p.view he, ⟨hf, y0, hy0⟩, rfl, by simp [he]⟩
    · have hlen : (p.saved.length : Int) - 1 = (a.length : Nat) := by rw [he]; simp
      rw [hlen, toSize_nat a.length (by rw [he] at hs; simp at hs; omega)]
      have hy : p.saved[a.length]? = some y := by rw [he]; simp
      rw [hy]
      exact ⟨{ p with x := y }, .inl rfl, .final p.view a y (by rw [show p.view.saved = p.saved from rfl, he]; simp), ⟨hf, y0, hy0⟩, rfl, by simp⟩

theorem run_means (ops : List (Op K)) : ∀ (p : Problem K), p.Sound → p.saved.length + ops.length < 2 ^ 31 → (∀ op ∈ ops, InInt op) →
    ∃ p', p.run ops = .ok p' ∧ MeansAll p.view ops p'.view ∧ p'.sets = p.sets := by
  induction ops with
  | nil => intro p _ _ _; exact ⟨p, rfl, .nil _, rfl⟩
  | cons op ops ih =>
    intro p hp hs ho
    rw [List.length_cons] at hs
    obtain ⟨q, h1, h2, h3, h4, h5⟩ := call_means p hp (by omega) op (ho op (by simp))
    obtain ⟨p', e1, e2, e3⟩ := ih q h3 (by omega) fun o h => ho o (by simp [h])
    refine ⟨p', ?_, .cons _ _ _ _ _ h2 e2, by rw [e3, h4]⟩
    rcases h1 with h1 | h1 <;> simp only [Problem.run, h1, e1]

/-- C160: for every history of setting, saving and restoring (of less than 2³¹ calls), the variables and the list of saved iterates are those
the user expects: restoring gives the values that were current at that save, a wrong index (also a negative one, also the last one of none) is
refused and changes nothing, and restoring never changes what was saved. -/
theorem C160_history (x : List K) (sets : List (CSet K)) (hf : FixedRows sets) (ops : List (Op K)) (hl : ops.length < 2 ^ 31)
    (ho : ∀ op ∈ ops, InInt op) :
    ∃ p', (Problem.new x sets).run ops = .ok p' ∧ MeansAll ⟨x, []⟩ ops ⟨p'.x, p'.saved⟩ := by
  obtain ⟨p', h1, h2, _⟩ := run_means ops (Problem.new x sets) ⟨hf, x, rfl⟩ (by simpa [Problem.new] using hl) ho
  exact ⟨p', h1, h2⟩

/-- C160 (partial: only for constraint sets that collect nothing in `update()`): after any history the constraint values are those of
the current variables. -/
theorem C160_values_partial (x : List K) (sets : List (CSet K)) (hf : FixedRows sets) (hpure : ∀ c ∈ sets, ∀ a b y, c.value a y = c.value b y)
    (ops : List (Op K)) (hl : ops.length < 2 ^ 31) (ho : ∀ op ∈ ops, InInt op) :
    ∃ p', (Problem.new x sets).run ops = .ok p' ∧ p'.evaluateConstraints = (Problem.new p'.x sets).evaluateConstraints := by
  obtain ⟨p', h1, _, h3⟩ := run_means ops (Problem.new x sets) ⟨hf, x, rfl⟩ (by simpa [Problem.new] using hl) ho
  refine ⟨p', h1, ?_⟩
  unfold Problem.evaluateConstraints
  rw [h3, List.flatMap_def, List.flatMap_def]
  congr 1
  apply List.map_congr_left
  intro c hc
  exact hpure c hc _ _ _

/-- C160: after saving at `x`, moving to `y` and restoring, the variables are `x` again, but a constraint set still uses what it collected
at `y`: the values are right only if these data happen to give the values of `x`. -/
theorem C160_stale_violated (x y : List K) (sets : List (CSet K)) (hf : FixedRows sets) :
    ∃ p', (Problem.new x sets).run [.save, .setVariables y, .restoreFinal] = .ok p' ∧ p'.x = x ∧
      p'.evaluateConstraints = (sets.flatMap fun c => c.value y x) ∧
      (Problem.new x sets).evaluateConstraints = sets.flatMap fun c => c.value x x := by
  refine ⟨⟨x, sets, y, rowSum sets x, [x]⟩, ?_, rfl, rfl, rfl⟩
  have h : toSize (toInt 1 - 1) = 0 := by decide
  simp [Problem.run, Problem.call, Problem.new, Problem.saveCurrent, Problem.setVariables, rowSum_fixed hf y x, Problem.setOptVariablesFinal,
    Problem.getIterationCount, h]

/-- A constraint set that linearizes the distance at the last update, like the collision sets. -/
def tangent : CSet ℚ where
  rows _ := 1
  value a x := [(a.sum * a.sum) + 2 * a.sum * (x.sum - a.sum)]

example : FixedRows [tangent] := by intro c hc x y; simp only [List.mem_singleton] at hc; subst hc; rfl

example : (Problem.new [1] [tangent]).evaluateConstraints = [1] ∧ ([tangent].flatMap fun c => c.value [3] [1]) = [-3] := by decide +kernel

def flat : CSet ℚ where
  rows _ := 1
  value _ x := [x.sum]

example : FixedRows [flat] ∧ ∀ c ∈ [flat], ∀ a b y, c.value a y = c.value b y := by
  constructor <;> intro c hc <;> simp only [List.mem_singleton] at hc <;> subst hc <;> intros <;> rfl

example : ∀ op ∈ ([.save, .setVariables [2], .restore (-1), .restore 0, .restoreFinal] : List (Op ℚ)), InInt op := by
  intro op hop
  simp only [List.mem_cons, List.not_mem_nil, or_false] at hop
  rcases hop with rfl | rfl | rfl | rfl | rfl <;> simp [InInt]

end Verif.ProblemHistory
