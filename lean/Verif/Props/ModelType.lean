import Verif.Model.ModelType

/-!
C12: solver names.
-/

namespace Verif.ModelType

/-- Specification: the name of each solver. -/
def nameOf : Solver → String
  | .gurobi => "GUROBI"
  | .osqp => "OSQP"
  | .qpoases => "QPOASES"
  | .bpmpd => "BPMPD"
  | .autoSolver => "AUTO_SOLVER"

theorem ofString_cases (s : String) :
    (s = "GUROBI" ∧ ofString s = .ok 0) ∨ (s = "BPMPD" ∧ ofString s = .ok 1) ∨ (s = "OSQP" ∧ ofString s = .ok 2) ∨
    (s = "QPOASES" ∧ ofString s = .ok 3) ∨ (s = "AUTO_SOLVER" ∧ ofString s = .ok 4) ∨
    ((∀ t, s ≠ nameOf t) ∧ ofString s = .throws) := by
  unfold ofString modelNames
  simp only [ofStringAux]
  split
  · exact Or.inl ⟨‹_›, rfl⟩
  split
  · exact Or.inr (Or.inl ⟨‹_›, rfl⟩)
  split
  · exact Or.inr (Or.inr (Or.inl ⟨‹_›, rfl⟩))
  split
  · exact Or.inr (Or.inr (Or.inr (Or.inl ⟨‹_›, rfl⟩)))
  split
  · exact Or.inr (Or.inr (Or.inr (Or.inr (Or.inl ⟨‹_›, rfl⟩))))
  · refine Or.inr (Or.inr (Or.inr (Or.inr (Or.inr ⟨?_, rfl⟩))))
    intro t
    cases t <;> simp only [nameOf] <;> assumption

/-- C12 (partial): a string is rejected exactly when it names no solver, an accepted string is printed back unchanged, and
`GUROBI` and `AUTO_SOLVER` select the solver they name.  Missing: the other three, see `C12_violated`. -/
theorem C12_names_partial (s : String) :
    (ofString s = .throws ↔ ∀ t, s ≠ nameOf t) ∧
    (∀ v, ofString s = .ok v → toStr v = .ok s) ∧
    (s = nameOf .gurobi → ofString s = .ok Solver.gurobi.value) ∧
    (s = nameOf .autoSolver → ofString s = .ok Solver.autoSolver.value) := by
  refine ⟨?_, ?_, ?_, ?_⟩
  · rcases ofString_cases s with ⟨rfl, h⟩ | ⟨rfl, h⟩ | ⟨rfl, h⟩ | ⟨rfl, h⟩ | ⟨rfl, h⟩ | ⟨h', h⟩ <;> rw [h]
    · exact ⟨(by intro h; cases h), fun h => absurd rfl (h .gurobi)⟩
    · exact ⟨(by intro h; cases h), fun h => absurd rfl (h .bpmpd)⟩
    · exact ⟨(by intro h; cases h), fun h => absurd rfl (h .osqp)⟩
    · exact ⟨(by intro h; cases h), fun h => absurd rfl (h .qpoases)⟩
    · exact ⟨(by intro h; cases h), fun h => absurd rfl (h .autoSolver)⟩
    · exact ⟨fun _ => h', fun _ => rfl⟩
  · intro v hv
    rcases ofString_cases s with ⟨rfl, h⟩ | ⟨rfl, h⟩ | ⟨rfl, h⟩ | ⟨rfl, h⟩ | ⟨rfl, h⟩ | ⟨h', h⟩ <;> rw [h] at hv <;>
      cases hv <;> rfl
  · rintro rfl; rfl
  · rintro rfl; rfl

/-- C12 is violated: the names of the three remaining solvers select one another, and printing their enumerators gives
the wrong name. -/
theorem C12_violated :
    ofString (nameOf .osqp) = .ok Solver.qpoases.value ∧
    ofString (nameOf .qpoases) = .ok Solver.bpmpd.value ∧
    ofString (nameOf .bpmpd) = .ok Solver.osqp.value ∧
    toStr Solver.osqp.value = .ok (nameOf .bpmpd) ∧
    toStr Solver.qpoases.value = .ok (nameOf .osqp) ∧
    toStr Solver.bpmpd.value = .ok (nameOf .qpoases) := by decide

/-- C12: printing a `ModelType` outside the enumeration throws, except for the value 5, which reads past the end of the
name table. -/
theorem C12_print_out_of_range (v : Nat) (h : 5 ≤ v) : toStr v = if v = 5 then .undefined else .throws := by
  unfold toStr modelNames
  by_cases e : v = 5
  · subst e; rfl
  · have : v > 5 := by omega
    simp [e, this]

/-- C12: an enumerator given explicitly to `createModel` creates that solver if the build has it and throws otherwise,
whatever the environment variable says. -/
theorem C12_create_explicit (has : Solver → Bool) (env : Option String) (s : Solver) (hs : s ≠ .autoSolver) :
    createModel has env s.value = if has s then .ok s else .throws := by
  cases s <;> first
    | exact absurd rfl hs
    | (simp [createModel, Solver.value])

/-- C12: without the environment variable, the automatic choice is the first available solver in the order GUROBI, OSQP,
QPOASES, BPMPD; a build without any solver reads the first element of an empty vector. -/
theorem C12_create_auto (has : Solver → Bool) (env : Option String) (he : env = none ∨ env = some "AUTO_SOLVER") :
    createModel has env Solver.autoSolver.value =
      if has .gurobi then .ok .gurobi else if has .osqp then .ok .osqp else if has .qpoases then .ok .qpoases
      else if has .bpmpd then .ok .bpmpd else .undefined := by
  rcases he with rfl | rfl <;>
  · cases h1 : has .gurobi <;> cases h2 : has .osqp <;> cases h3 : has .qpoases <;> cases h4 : has .bpmpd <;>
      simp [createModel, availableSolvers, Solver.value, h1, h2, h3, h4]

/-- C12: a `ModelType` made from an integer is the enumerator congruent to it modulo 256: a number that is congruent to none
is refused by `createModel`, one that is creates the model of that enumerator (256 creates the model of the first one). -/
theorem C12_from_int (has : Solver → Bool) (env : Option String) (v : Int) :
    (∀ s : Solver, (256 : Int) ∣ v - s.value → createModel has env (ofInt v) = createModel has env s.value ∧
      toStr (ofInt v) = toStr s.value) ∧
    ((∀ s : Solver, ¬ (256 : Int) ∣ v - s.value) → createModel has env (ofInt v) = .throws) := by
  constructor
  · intro s hs
    have : ofInt v = s.value := by unfold ofInt; cases s <;> simp only [Solver.value] at hs ⊢ <;> omega
    rw [this]; exact ⟨rfl, rfl⟩
  · intro h
    have h0 := h .gurobi; have h1 := h .osqp; have h2 := h .qpoases; have h3 := h .bpmpd; have h4 := h .autoSolver
    simp only [Solver.value] at h0 h1 h2 h3 h4
    have e0 : ofInt v ≠ 0 := by unfold ofInt; omega
    have e1 : ofInt v ≠ 1 := by unfold ofInt; omega
    have e2 : ofInt v ≠ 2 := by unfold ofInt; omega
    have e3 : ofInt v ≠ 3 := by unfold ofInt; omega
    have e4 : ofInt v ≠ 4 := by unfold ofInt; omega
    simp [createModel, Solver.value, e0, e1, e2, e3, e4]

example : createModel (fun s => s = .osqp) none (ofInt 257) = .ok .osqp := by decide
example : createModel (fun _ => true) none (ofInt (-1)) = .throws := by decide

/-- C12 is violated observably: with `TRAJOPT_CONVEX_SOLVER=OSQP`, `createModel` throws in a build that has OSQP but not
qpOASES, and creates a qpOASES model in a build that has both. -/
theorem C12_env_violated (has : Solver → Bool) :
    createModel has (some "OSQP") Solver.autoSolver.value = if has .qpoases then .ok .qpoases else .throws := by
  cases h3 : has .qpoases <;> simp [createModel, ofString, ofStringAux, modelNames, Solver.value, h3]

example : createModel (fun s => s = .osqp) none 4 = .ok .osqp := by decide
example : ofString "osqp" = .throws := by decide

end Verif.ModelType
