import Verif.Model.EndToEnd
import Verif.Props.ConstructTerms
import Verif.Props.Legacy

/-!
C126, C127: from the description of a problem to the trajectory returned by the trust-region optimiser.
-/

set_option linter.unusedSectionVars false
set_option linter.unusedVariables false

namespace Verif.EndToEnd

open Verif.Construct Verif.Problem Verif.BasicArray Verif.Sco Verif.Traj Verif.Legacy Verif.KinTerms

variable {K : Type} [Field K] [LinearOrder K] [IsStrictOrderedRing K]

/-! ### An invariant of the point -/

theorem trBody_point (e : Env K) (P : List K → Prop) (hq : ∀ k x b y, e.qp k x b = some y → P x → P (y.take x.length))
    (p : Params K) (s : St K) (f : ℤ) (h : P s.x) : P (trBody p e s f).st.x := by
  unfold trBody
  dsimp only
  cases hy : e.qp s.nQpSolves s.x s.box with
  | none => dsimp only; split_ifs <;> exact h
  | some y =>
    dsimp only
    split_ifs
    · exact h
    · exact h
    · exact h
    · exact hq _ _ _ _ hy h

theorem trLoop_point (e : Env K) (P : List K → Prop) (hq : ∀ k x b y, e.qp k x b = some y → P x → P (y.take x.length))
    (p : Params K) (n : ℕ) : ∀ (s : St K) (f : ℤ) (o : TrOut K), P s.x → trLoop p e n s f = some o → P o.st.x := by
  induction n with
  | zero => intro s f o _ h; simp [trLoop] at h
  | succ n ih =>
    intro s f o hs h
    unfold trLoop at h
    split_ifs at h
    · have hb := trBody_point e P hq p s f hs
      cases ht : trBody p e s f with
      | cont t f' => rw [ht] at h hb; exact ih t f' o hb h
      | penalty t => rw [ht] at h hb; cases h; exact hb
      | failed t => rw [ht] at h hb; cases h; exact hb
      | exit t => rw [ht] at h hb; cases h; exact hb
    · cases h; exact hs

def SqpOut.st : SqpOut K → St K
  | .penalty s => s
  | .cleanup _ s => s

theorem evalIfNeeded_point (e : Env K) (s : St K) : (evalIfNeeded e s).x = s.x := by
  unfold evalIfNeeded; split <;> rfl

theorem sqpLoop_point (e : Env K) (P : List K → Prop) (hq : ∀ k x b y, e.qp k x b = some y → P x → P (y.take x.length))
    (p : Params K) (fuel n : ℕ) : ∀ (i : ℤ) (s : St K) (o : SqpOut K), P s.x → sqpLoop p e fuel n i s = some o → P (SqpOut.st o).x := by
  induction n with
  | zero => intro i s o _ h; simp [sqpLoop] at h
  | succ n ih =>
    intro i s o hs h
    unfold sqpLoop at h
    dsimp only at h
    by_cases c1 : p.maxTime < e.clock s.clockReads
    · rw [if_pos c1] at h; cases h; exact hs
    · rw [if_neg c1] at h
      have he : P (evalIfNeeded e { s with clockReads := s.clockReads + 1 }).x := by rw [evalIfNeeded_point]; exact hs
      cases ht : trLoop p e fuel (evalIfNeeded e { s with clockReads := s.clockReads + 1 }) 0 with
      | none => rw [ht] at h; cases h
      | some t =>
        have hb := trLoop_point e P hq p fuel _ 0 t he ht
        rw [ht] at h
        cases t with
        | cont t f' => cases h
        | penalty t => cases h; exact hb
        | failed t => cases h; exact hb
        | exit t =>
          dsimp only at h
          by_cases c2 : t.box < p.minTrustBoxSize
          · rw [if_pos c2] at h; cases h; exact hb
          · rw [if_neg c2] at h
            by_cases c3 : p.maxIter ≤ i
            · rw [if_pos c3] at h; cases h; exact hb
            · rw [if_neg c3] at h; exact ih _ t o hb h

theorem meritLoop_point (e : Env K) (P : List K → Prop) (hq : ∀ k x b y, e.qp k x b = some y → P x → P (y.take x.length))
    (p : Params K) (fuel m : ℕ) : ∀ (s : St K) (r : Status × St K), P s.x → meritLoop p e fuel m s = some r → P r.2.x := by
  induction m with
  | zero => intro s r hs h; simp [meritLoop] at h; subst h; exact hs
  | succ m ih =>
    intro s r hs h
    unfold meritLoop at h
    cases ht : sqpLoop p e fuel fuel 1 s with
    | none => rw [ht] at h; cases h
    | some t =>
      have hb := sqpLoop_point e P hq p fuel fuel 1 s t hs ht
      rw [ht] at h
      cases t with
      | cleanup c t => cases h; exact hb
      | penalty t =>
        dsimp only at h
        by_cases c1 : satisfied p t.cntViols = true
        · rw [if_pos c1] at h; cases h; exact hb
        · rw [if_neg c1] at h; exact ih _ r (by exact hb) h

theorem optimize_point (e : Env K) (P : List K → Prop) (hq : ∀ k x b y, e.qp k x b = some y → P x → P (y.take x.length))
    (p : Params K) (fuel : ℕ) (s : St K) (r : Result K) (hc : P (e.closest s.x)) (h : optimize p e fuel s = some r) : P r.st.x := by
  unfold optimize at h
  dsimp only at h
  cases ht : meritLoop p e fuel p.maxMeritCoeffIncreases { s with x := e.closest s.x, coeffs := List.replicate e.nCnts p.initialMeritErrorCoeff, clockReads := 0 } with
  | none => rw [ht] at h; cases h
  | some t =>
    have := meritLoop_point e P hq p fuel _ _ t hc ht
    rw [ht] at h
    cases h
    exact this

/-! ### C127: joint limits and fixed steps -/

/-- Specification: entry `i` of a vector. -/
def entry (x : List K) (i : Nat) : K := x.getD i 0

theorem entry_eq : (entry : List K → Nat → K) = read := by
  funext x i
  simp only [entry, read]

/-- Specification: a vector of values for all variables of the problem (and possibly more) keeps the variable bounds and the linear
constraints of the problem up to `ε`. -/
def Keeps (q : Prob K) (ε : K) (y : List K) : Prop :=
  q.names.length ≤ y.length ∧
  (∀ i lo, q.lower[i]? = some lo → lo - ε ≤ read y i) ∧
  (∀ i hi, q.upper[i]? = some hi → read y i ≤ hi + ε) ∧
  ∀ c ∈ q.fixed, |affDen c (read y)| ≤ ε

/-- Specification: the convex solver keeps what it was given up to `ε`, when it reports a solution at all. -/
def SolverKeeps (q : Prob K) (ε : K) (e : Env K) : Prop :=
  (∀ x, Keeps q ε (e.closest x) ∧ (e.closest x).length = q.names.length) ∧
  ∀ k x b y, e.qp k x b = some y → Keeps q ε y

theorem read_take (x : List K) (n i : Nat) (h : i < n) : read (x.take n) i = read x i := by
  simp [read, List.getD_eq_getElem?_getD, List.getElem?_take, h]

theorem pinned_take (s : Setup K) (c : Nat × Nat) (x : List K) (n : Nat) (h : c.1 * s.cols + c.2 < n) :
    affDen (s.pinned c) (read (x.take n)) = affDen (s.pinned c) (read x) := by
  rw [pinned_value, pinned_value, read_take _ _ _ h]

theorem names_length (p : Pci K) (hs : p.Small) (q : Prob K) (h : construct p = .ok q) :
    q.names.length = p.nSteps * p.cols ∧ q.lower.length = p.nSteps * p.cols ∧ q.upper.length = p.nSteps * p.cols := by
  obtain ⟨-, m, -, -, -, e1, e2, e3, e4, e5, -⟩ := construct_ok p q h
  rw [e2, e3, e4]
  exact ⟨(each_spec p _ _).1, (each_spec p _ _).1, (each_spec p _ _).1⟩

theorem cell_lt {i j N c : Nat} (hi : i < N) (hj : j < c) : i * c + j < N * c := by
  have : (i + 1) * c ≤ N * c := Nat.mul_le_mul_right c hi
  rw [Nat.add_mul] at this; omega

theorem fixed_cells (p : Pci K) (hs : p.Small) (q : Prob K) (h : construct p = .ok q)
    (he : Exist q.setup p.fixedSteps p.fixedDofs) : ∀ c ∈ q.fixed, ∃ i j, i < p.nSteps ∧ j < p.cols ∧ c = q.setup.pinned (i, j) := by
  obtain ⟨-, m, -, -, -, e1, -, -, -, -, e6⟩ := construct_ok p q h
  have hc : q.setup.cols = p.cols := by rw [e1]; rfl
  have hn : q.setup.nSteps = p.nSteps := by rw [e1]
  have hd : q.setup.nDof ≤ q.setup.cols := by unfold Setup.cols; omega
  rw [fixed_eq q.setup (by unfold Setup.Small; rw [hc, hn]; exact hs) _ _ he.1
    (fun d hd' => ⟨(he.2 d hd').1, by have := (he.2 d hd').2; omega, (he.2 d hd').2.le⟩)] at e6
  injection e6 with e6
  intro c hcm
  rw [← e6, List.mem_map] at hcm
  obtain ⟨⟨i, j⟩, hij, rfl⟩ := hcm
  refine ⟨i, j, ?_, ?_, rfl⟩
  · rw [← hn]
    simp only [List.mem_append, Setup.stepCells, Setup.dofCells, List.mem_flatMap, List.mem_map, List.mem_range, List.mem_filter] at hij
    rcases hij with ⟨t, ht, j', hj', hh⟩ | ⟨d, hd', i', hi', hh⟩
    · have := he.1 t ht; injection hh with h1 h2; omega
    · injection hh with h1 h2; rw [← h1]; exact hi'.1
  · rw [← hc]
    simp only [List.mem_append, Setup.stepCells, Setup.dofCells, List.mem_flatMap, List.mem_map, List.mem_range, List.mem_filter] at hij
    rcases hij with ⟨t, ht, j', hj', hh⟩ | ⟨d, hd', i', hi', hh⟩
    · injection hh with h1 h2; omega
    · have := he.2 d hd'; injection hh with h1 h2; omega

theorem keeps_take (p : Pci K) (hs : p.Small) (q : Prob K) (h : construct p = .ok q) (he : Exist q.setup p.fixedSteps p.fixedDofs)
    (ε : K) (y : List K) (hy : Keeps q ε y) : Keeps q ε (y.take q.names.length) := by
  obtain ⟨l1, l2, l3⟩ := names_length p hs q h
  obtain ⟨h1, h2, h3, h4⟩ := hy
  have hc : q.setup.cols = p.cols := by
    obtain ⟨-, m, -, -, -, e1, -⟩ := construct_ok p q h
    rw [e1]; rfl
  refine ⟨by simp [h1], fun i lo hi => ?_, fun i up hi => ?_, fun c hcm => ?_⟩
  · have hlt : i < q.lower.length := (List.getElem?_eq_some_iff.1 hi).1
    rw [read_take _ _ _ (by omega)]
    exact h2 i lo hi
  · have hlt : i < q.upper.length := (List.getElem?_eq_some_iff.1 hi).1
    rw [read_take _ _ _ (by omega)]
    exact h3 i up hi
  · obtain ⟨i, j, hi, hj, rfl⟩ := fixed_cells p hs q h he c hcm
    rw [pinned_take _ _ _ _ (by rw [hc, l1]; exact cell_lt hi hj)]
    exact h4 _ hcm

/-- C127: whatever the optimiser returns, and with whatever status, the trajectory has exactly the variables of the problem, keeps the
joint limits (and the limits of the durations), agrees with the initial trajectory at every fixed step and for every fixed joint, all
up to the accuracy `ε` of the convex solver. -/
theorem C127_feasible (p : Pci K) (hs : p.Small) (q : Prob K) (h : construct p = .ok q) (hex : Exist q.setup p.fixedSteps p.fixedDofs)
    (ε : K) (e : Env K) (hsol : SolverKeeps q ε e) (prm : Params K) (fuel : ℕ) (s : St K) (r : Result K)
    (hr : optimize prm e fuel s = some r) :
    r.st.x.length = p.nSteps * (p.nDof + if p.useTime then 1 else 0) ∧
    (∀ i j, i < p.nSteps → j < p.nDof → p.lower j - ε ≤ entry r.st.x (i * p.cols + j) ∧ entry r.st.x (i * p.cols + j) ≤ p.upper j + ε) ∧
    (p.useTime = true → ∀ i, i < p.nSteps →
      p.dtLower - ε ≤ entry r.st.x (i * p.cols + p.nDof) ∧ entry r.st.x (i * p.cols + p.nDof) ≤ p.dtUpper + ε) ∧
    (∀ t : Nat, (t : Int) ∈ p.fixedSteps → ∀ j, j < p.nDof → |entry r.st.x (t * p.cols + j) - q.setup.init t j| ≤ ε) ∧
    (∀ d : Nat, (d : Int) ∈ p.fixedDofs → ∀ i, i < p.nSteps → |entry r.st.x (i * p.cols + d) - q.setup.init i d| ≤ ε) := by
  simp only [entry_eq]
  have inv : Keeps q ε r.st.x ∧ r.st.x.length = q.names.length := by
    refine optimize_point e (fun x => Keeps q ε x ∧ x.length = q.names.length) ?_ prm fuel s r (hsol.1 s.x) hr
    rintro k x b y hy ⟨-, hx⟩
    have hk := hsol.2 k x b y hy
    rw [hx]
    exact ⟨keeps_take p hs q h hex ε y hk, by simp [hk.1]⟩
  obtain ⟨⟨h1, h2, h3, h4⟩, hlen⟩ := inv
  obtain ⟨l1, l2, l3⟩ := names_length p hs q h
  obtain ⟨v1, v2, -⟩ := C112_variables p hs q h
  obtain ⟨-, m, -, -, -, e1, -, -, -, -, e6⟩ := construct_ok p q h
  have hc : q.setup.cols = p.cols := by rw [e1]; rfl
  have hn : q.setup.nSteps = p.nSteps := by rw [e1]
  have hnd : q.setup.nDof = p.nDof := by rw [e1]
  have hsm : q.setup.Small := by unfold Setup.Small; rw [hc, hn]; exact hs
  have hv := vars_holds q.setup hsm
  rw [hc, hn] at hv
  have hdc : p.nDof ≤ p.cols := by unfold Pci.cols; omega
  have hcol : q.setup.nDof ≤ q.setup.cols := by unfold Setup.cols; omega
  have hfix := fixed_eq q.setup hsm _ _ hex.1 (fun d hd' => ⟨(hex.2 d hd').1, by have := (hex.2 d hd').2; omega, (hex.2 d hd').2.le⟩)
  rw [hfix] at e6
  injection e6 with e6
  have cell : ∀ i j, (i, j) ∈ q.setup.stepCells p.fixedSteps ++ q.setup.dofCells p.fixedSteps p.fixedDofs →
      |read r.st.x (i * p.cols + j) - q.setup.init i j| ≤ ε := by
    intro i j hij
    have := h4 (q.setup.pinned (i, j)) (by rw [← e6]; exact List.mem_map_of_mem hij)
    rwa [pinned_value, hc] at this
  have step : ∀ t : Nat, (t : Int) ∈ p.fixedSteps → ∀ j, j < p.nDof → |read r.st.x (t * p.cols + j) - q.setup.init t j| ≤ ε := by
    intro t ht j hj
    apply cell
    simp only [List.mem_append, Setup.stepCells, List.mem_flatMap, List.mem_map, List.mem_range]
    exact Or.inl ⟨t, ht, j, by rw [hnd]; exact hj, by simp⟩
  refine ⟨hlen.trans l1, fun i j hi hj => ?_, fun ht i hi => ?_, step, fun d hd i hi => ?_⟩
  · obtain ⟨v, w1, -, w2, w3⟩ := v1 i j hi hj
    rw [hv.2.2.2 i j hi (by omega)] at w1
    injection w1 with w1
    subst w1
    exact ⟨h2 _ _ w2, h3 _ _ w3⟩
  · obtain ⟨v, w1, -, w2, w3⟩ := v2 ht i hi
    rw [hv.2.2.2 i p.nDof hi (by simp [Pci.cols, ht])] at w1
    injection w1 with w1
    subst w1
    exact ⟨h2 _ _ w2, h3 _ _ w3⟩
  · by_cases hi' : (i : Int) ∈ p.fixedSteps
    · exact step i hi' d (by have := (hex.2 _ hd).2; rw [hnd] at this; omega)
    · apply cell
      simp only [List.mem_append, Setup.dofCells, List.mem_flatMap, List.mem_map, List.mem_range, List.mem_filter, decide_eq_true_eq]
      exact Or.inr ⟨d, hd, i, ⟨by rw [hn]; exact hi, hi'⟩, by simp⟩

/-! ### C126: joint terms of a converged run -/

/-- Specification: the optimiser evaluates (among others) the constraints `l` of a joint term of kind `k`. -/
def Evaluates (e : Env K) (k : Kind) (l : List (JointAdded K)) : Prop :=
  ∀ x a, a ∈ l → ∃ v, violation k (read x) a = some v ∧ v ∈ e.exactViols x

theorem le_sum_of_mem (l : List K) (h : ∀ v ∈ l, 0 ≤ v) (v : K) (hv : v ∈ l) : v ≤ l.sum := List.single_le_sum h v hv

/-- The rows of a term without time when its violation is below `tol`. -/
theorem plain_bound (k : Kind) (info : JointInfo K) (N n : Nat) (f : Nat → Nat → Nat) (t : Term K) (ht : Faithful info N n f t)
    (hf : Fits t k) (hpos : ∀ j, j < n → 0 < meant 1 info.coeffs j) (x : Nat → K) (tol : K) (v : K) (hv : v < tol) :
    (violation k x (.eqCnt t) = some v → ∀ i j : Nat, info.first ≤ i → (i : Int) + k.order ≤ info.lastStep N → j < n →
      (diffAt f k.order x i j - meant 0 info.targets j) ^ 2 < tol / meant 1 info.coeffs j) ∧
    (violation k x (.ineqCnt t) = some v → ∀ i j : Nat, info.first ≤ i → (i : Int) + k.order ≤ info.lastStep N → j < n →
      meant 0 info.targets j + meant 0 info.lower j - tol / meant 1 info.coeffs j < diffAt f k.order x i j ∧
      diffAt f k.order x i j < meant 0 info.targets j + meant 0 info.upper j + tol / meant 1 info.coeffs j) := by
  have hb := ht.first
  have hl := ht.last
  constructor
  · intro he i j h1 h2 hj
    obtain ⟨vals, a1, a2⟩ := eq_violations t k hf x
    rw [violation, a1, Option.map_some, Option.some.injEq, a2] at he
    have hcell : Cell t k i j := ⟨by omega, by omega, by rw [ht.cols]; exact hj⟩
    have := le_sum_of_mem ((t.cells k).map fun c => |t.coeffs c.2| * dev t k x c.1 c.2 ^ 2)
      (by intro w hw; obtain ⟨c, -, rfl⟩ := List.mem_map.1 hw; positivity) _
      (List.mem_map_of_mem ((mem_cells t k (i, j)).2 hcell))
    rw [he] at this
    dsimp only at this
    rw [ht.coeffs j hj, abs_of_pos (hpos j hj), dev, delta_faithful ht k hf x i j (by omega) hj, ht.targets j hj] at this
    rw [lt_div_iff₀ (hpos j hj), mul_comm]
    exact lt_of_le_of_lt this hv
  · intro he i j h1 h2 hj
    obtain ⟨vals, a1, a2⟩ := ineq_violations t k hf x
    rw [violation, a1, Option.map_some, Option.some.injEq, a2] at he
    have hcell : Cell t k i j := ⟨by omega, by omega, by rw [ht.cols]; exact hj⟩
    have hmem : i ∈ t.steps k := by
      have := (mem_cells t k (i, j)).2 hcell
      simp only [Term.cells, List.mem_flatMap, List.mem_map] at this
      obtain ⟨s, hs, j', -, hh⟩ := this
      injection hh with hh _
      rw [← hh]; exact hs
    have hnn : ∀ w ∈ ((t.steps k).flatMap fun i =>
        ((List.range t.vars.cols).map fun j => max ((dev t k x i j - t.upper j) * t.coeffs j) 0) ++
        ((List.range t.vars.cols).map fun j => max ((t.lower j - dev t k x i j) * t.coeffs j) 0)), (0 : K) ≤ w := by
      intro w hw
      simp only [List.mem_flatMap, List.mem_append, List.mem_map] at hw
      obtain ⟨_, _, ⟨_, _, rfl⟩ | ⟨_, _, rfl⟩⟩ := hw <;> exact le_max_right _ _
    have u := le_sum_of_mem _ hnn (max ((dev t k x i j - t.upper j) * t.coeffs j) 0) (by
      simp only [List.mem_flatMap, List.mem_append, List.mem_map, List.mem_range]
      exact ⟨i, hmem, Or.inl ⟨j, by rw [ht.cols]; exact hj, rfl⟩⟩)
    have l := le_sum_of_mem _ hnn (max ((t.lower j - dev t k x i j) * t.coeffs j) 0) (by
      simp only [List.mem_flatMap, List.mem_append, List.mem_map, List.mem_range]
      exact ⟨i, hmem, Or.inr ⟨j, by rw [ht.cols]; exact hj, rfl⟩⟩)
    rw [he] at u l
    rw [ht.coeffs j hj, dev, delta_faithful ht k hf x i j (by omega) hj, ht.targets j hj] at u l
    rw [ht.upper j hj] at u
    rw [ht.lower j hj] at l
    have hu := lt_of_le_of_lt ((le_max_left _ _).trans u) hv
    have hl' := lt_of_le_of_lt ((le_max_left _ _).trans l) hv
    rw [← lt_div_iff₀ (hpos j hj)] at hu hl'
    constructor <;> linarith

/-- C126: a run that reports convergence returns a trajectory in which every step and joint of a joint position, velocity, acceleration
or jerk constraint keeps the tolerances of the term up to `cnt_tolerance / coeff`; if all tolerances of the term are below 1e-5 the
squared deviation from the target is below `cnt_tolerance / coeff`.  (Partial: as in C17, the time limit must not be exceeded before
the first iteration.) -/
theorem C126_converged_partial (p : Pci K) (hs : p.Small) (q : Prob K) (h : construct p = .ok q)
    (k : Kind) (info : JointInfo K) (hsz : info.Sized p.nDof) (hrg : info.InRange k p.nSteps)
    (hpos : ∀ j, j < p.nDof → 0 < meant 1 info.coeffs j) :
    ∃ l, info.hatch k q.setup.vars p.nDof ⟨false, true, false⟩ = .ok l ∧
      ∀ (e : Env K), Evaluates e k l → ∀ (prm : Params K) (fuel : ℕ) (x0 : List K) (box : K) (r : Result K),
        e.clock 0 ≤ prm.maxTime → optimize prm e fuel (initialState x0 box) = some r → r.status = .converged →
        ∀ i j : Nat, info.first ≤ i → (i : Int) + k.order ≤ info.lastStep p.nSteps → j < p.nDof →
          (info.Tiny p.nDof → (diffAt (fun i j => i * p.cols + j) k.order (entry r.st.x) i j - meant 0 info.targets j) ^ 2 <
            prm.cntTolerance / meant 1 info.coeffs j) ∧
          (¬ info.Tiny p.nDof →
            meant 0 info.targets j + meant 0 info.lower j - prm.cntTolerance / meant 1 info.coeffs j <
              diffAt (fun i j => i * p.cols + j) k.order (entry r.st.x) i j ∧
            diffAt (fun i j => i * p.cols + j) k.order (entry r.st.x) i j <
              meant 0 info.targets j + meant 0 info.upper j + prm.cntTolerance / meant 1 info.coeffs j) := by
  simp only [entry_eq]
  obtain ⟨-, m, -, -, -, e1, -⟩ := construct_ok p q h
  have hc : q.setup.cols = p.cols := by rw [e1]; rfl
  have hn : q.setup.nSteps = p.nSteps := by rw [e1]
  have hv := vars_holds q.setup (by unfold Setup.Small; rw [hc, hn]; exact hs)
  rw [hc, hn] at hv
  obtain ⟨t, ht, hf, h1, -⟩ := hatch_plain k info q.setup.vars p.nSteps p.cols p.nDof _ hv (by unfold Pci.cols; omega) hsz hrg
  refine ⟨_, h1, fun e hev prm fuel x0 box r hclk hr hst i j hi hj1 hj => ?_⟩
  obtain ⟨v, v1, v2⟩ := hev r.st.x _ (List.mem_singleton.2 rfl)
  have hlt := C17_converged_sound_partial prm e fuel x0 box r hclk hr hst v v2
  obtain ⟨b1, b2⟩ := plain_bound k info p.nSteps p.nDof _ t ht hf hpos (read r.st.x) prm.cntTolerance v hlt
  constructor
  · intro hz
    rw [if_pos hz] at v1
    exact b1 v1 i j hi hj1 hj
  · intro hz
    rw [if_neg hz] at v1
    exact b2 v1 i j hi hj1 hj

/-- C126 for velocities with time: a converged run keeps the velocity between consecutive steps within the tolerances of the term up to
`cnt_tolerance / coeff`; if all tolerances are below 1e-5, within `cnt_tolerance / coeff` of the upper and of the lower tolerance. -/
theorem C126_converged_time_partial (p : Pci K) (hs : p.Small) (ht : p.useTime = true) (q : Prob K) (h : construct p = .ok q)
    (info : JointInfo K) (hsz : info.Sized p.nDof) (hrg : info.InRange .vel p.nSteps)
    (hpos : ∀ j, j < p.nDof → 0 < meant 1 info.coeffs j) :
    ∃ l, info.hatch .vel q.setup.vars p.nDof ⟨false, true, true⟩ = .ok l ∧
      ∀ (e : Env K), Evaluates e .vel l → ∀ (prm : Params K) (fuel : ℕ) (x0 : List K) (box : K) (r : Result K),
        e.clock 0 ≤ prm.maxTime → optimize prm e fuel (initialState x0 box) = some r → r.status = .converged →
        ∀ i j : Nat, info.first ≤ i → (i : Int) + 1 ≤ info.lastStep p.nSteps → j < p.nDof →
          (info.Tiny p.nDof →
            |velAt (fun i j => i * p.cols + j) p.nDof (entry r.st.x) i j - (meant 0 info.targets j + meant 0 info.upper j)| <
              prm.cntTolerance / meant 1 info.coeffs j ∧
            |velAt (fun i j => i * p.cols + j) p.nDof (entry r.st.x) i j - (meant 0 info.targets j + meant 0 info.lower j)| <
              prm.cntTolerance / meant 1 info.coeffs j) ∧
          (¬ info.Tiny p.nDof →
            meant 0 info.targets j + meant 0 info.lower j - prm.cntTolerance / meant 1 info.coeffs j <
              velAt (fun i j => i * p.cols + j) p.nDof (entry r.st.x) i j ∧
            velAt (fun i j => i * p.cols + j) p.nDof (entry r.st.x) i j <
              meant 0 info.targets j + meant 0 info.upper j + prm.cntTolerance / meant 1 info.coeffs j) := by
  simp only [entry_eq]
  obtain ⟨-, m, -, -, -, e1, -⟩ := construct_ok p q h
  have hc : q.setup.cols = p.cols := by rw [e1]; rfl
  have hn : q.setup.nSteps = p.nSteps := by rw [e1]
  have hv := vars_holds q.setup (by unfold Setup.Small; rw [hc, hn]; exact hs)
  rw [hc, hn] at hv
  have hcols : p.cols = p.nDof + 1 := by simp [Pci.cols, ht]
  obtain ⟨l, h1, h2⟩ := hatch_time info q.setup.vars p.nSteps p.cols p.nDof _ hv (by omega) hsz hrg false
  refine ⟨l, h1, fun e hev prm fuel x0 box r hclk hr hst i j hi hi1 hj => ?_⟩
  rw [hcols, show p.nDof + 1 - 1 = p.nDof from rfl] at h2
  obtain ⟨r1, r2, r3⟩ := hrg
  obtain ⟨a, ha, -, F, hF, rfl⟩ : ∃ a ∈ l, j < p.nDof ∧ ∃ F, TimeFaithful info (fun i j => i * (p.nDof + 1) + j) p.nDof info.first.toNat
      ((info.lastStep p.nSteps).toNat - info.first.toNat + 1) j F ∧ a = JointAdded.timeCnt _ (decide (info.Tiny p.nDof)) F := by
    have hg : (List.range p.nDof)[j]? = some j := by simp [hj]
    obtain ⟨hl, hall⟩ := List.forall₂_iff_get.1 h2
    have hj' : j < l.length := by rw [← hl]; simpa using hj
    have := hall j (by simpa using hj) hj'
    simp only [List.get_eq_getElem, List.getElem_range, Bool.false_eq_true, if_false] at this
    exact ⟨l[j], List.getElem_mem hj', this⟩
  obtain ⟨v, v1, v2⟩ := hev r.st.x _ ha
  have hlt := C17_converged_sound_partial prm e fuel x0 box r hclk hr hst v v2
  rw [violation, Option.some.injEq] at v1
  subst v1
  rw [hcols]
  obtain ⟨b, hb⟩ : ∃ b : Nat, i = info.first.toNat + b := ⟨i - info.first.toNat, by omega⟩
  have hbr : b < (info.lastStep p.nSteps).toNat - info.first.toNat + 1 - 1 := by omega
  have hp := hpos j hj
  constructor
  · intro hz
    simp only [hz, decide_true] at hlt
    rw [cntViolation_eq] at hlt
    simp only [if_true] at hlt
    have rows := (timed_rows hF (read r.st.x) (fun w => |w| < prm.cntTolerance)).1 (fun rr =>
      lt_of_le_of_lt (Finset.single_le_sum (f := fun i => |F.weight i * F.f (getVec (read r.st.x) F.vars) i|)
        (fun _ _ => abs_nonneg _) (Finset.mem_univ rr)) hlt) b hbr
    rw [← hb, abs_mul, abs_mul, abs_of_pos hp] at rows
    rw [lt_div_iff₀ hp, lt_div_iff₀ hp, mul_comm, mul_comm (|_ - (_ + meant 0 info.lower j)|)]
    refine ⟨?_, ?_⟩
    · rw [show velAt (fun i j => i * (p.nDof + 1) + j) p.nDof (read r.st.x) i j - (meant 0 info.targets j + meant 0 info.upper j) =
        velAt (fun i j => i * (p.nDof + 1) + j) p.nDof (read r.st.x) i j - meant 0 info.targets j - meant 0 info.upper j by ring]
      exact rows.1
    · rw [abs_sub_comm, show meant 0 info.targets j + meant 0 info.lower j - velAt (fun i j => i * (p.nDof + 1) + j) p.nDof (read r.st.x) i j =
        meant 0 info.lower j - (velAt (fun i j => i * (p.nDof + 1) + j) p.nDof (read r.st.x) i j - meant 0 info.targets j) by ring]
      exact rows.2
  · intro hz
    simp only [hz, decide_false] at hlt
    rw [cntViolation_eq] at hlt
    simp only [Bool.false_eq_true, if_false] at hlt
    have rows := (timed_rows hF (read r.st.x) (fun w => w < prm.cntTolerance)).1 (fun rr =>
      lt_of_le_of_lt ((le_max_right 0 _).trans (Finset.single_le_sum (f := fun i => max 0 (F.weight i * F.f (getVec (read r.st.x) F.vars) i))
        (fun _ _ => le_max_left _ _) (Finset.mem_univ rr))) hlt) b hbr
    rw [← hb, mul_comm, mul_comm (meant 1 info.coeffs j), ← lt_div_iff₀ hp, ← lt_div_iff₀ hp] at rows
    constructor <;> linarith [rows.1, rows.2]


/-! ### Non-vacuity -/

namespace Demo

/-- Two steps of one joint with limits ±1, the first step fixed. -/
def pci : Pci ℚ where
  nSteps := 2
  nDof := 1
  lower := fun _ => -1
  upper := fun _ => 1
  dtLower := 0
  dtUpper := 1
  useTime := false
  fixedSteps := [0]
  fixedDofs := []
  current := fun _ => 0
  init := .stationary
  dt := 1
  costs := []
  cnts := [⟨.jointVel, ⟨false, true, false⟩⟩]

/-- The joint is to move by one half, give or take a tenth. -/
def info : JointInfo ℚ := ⟨[2], [1/2], [1/10], [-1/10], 0, -1⟩

def term : Term ℚ := ⟨⟨2, 1, fun i _ => i⟩, fun _ => 2, fun _ => 1/2, fun _ => 1/10, fun _ => -1/10, 0, 1⟩

/-- An environment with the constraint of that term. -/
def env : Env ℚ where
  nCnts := 1
  closest := fun _ => [0, 0]
  exactCosts := fun _ => [0]
  exactViols := fun x => [(violation .vel (read x) (.ineqCnt term)).getD 0]
  qp := fun _ _ _ => some [0, 1/2, 7]
  modelCosts := fun _ _ => [0]
  modelViols := fun _ _ => [0]
  clock := fun _ => 0

def prob : Prob ℚ := ⟨⟨2, 1, false, fun _ _ => 0⟩, [.joint 0 0, .joint 1 0], [-1, -1], [1, 1], false, [(AffExpr.ofVar 0).decConst 0]⟩

theorem constructed : construct pci = .ok prob := rfl

theorem hatched (l : List (JointAdded ℚ)) (h : info.hatch .vel prob.setup.vars 1 ⟨false, true, false⟩ = .ok l) : Evaluates env .vel l := by
  obtain ⟨t, ht, hf, h1, -⟩ := hatch_plain .vel info prob.setup.vars 2 1 1 _ (vars_holds prob.setup ⟨by decide, by decide⟩) le_rfl
    ⟨by decide, by decide, by decide, by decide⟩ ⟨by decide, by decide +kernel, by decide +kernel⟩
  rw [h1] at h
  injection h with h
  subst h
  rw [if_neg (by decide +kernel)]
  intro x a ha
  rw [List.mem_singleton] at ha
  subst ha
  have hf' : Fits term .vel := by simp [Fits, term, Kind.order]
  obtain ⟨vals, e1, e2⟩ := ineq_violations t .vel hf (read x)
  obtain ⟨vals', e1', e2'⟩ := ineq_violations term .vel hf' (read x)
  refine ⟨(ineqViolations vals).sum, by rw [violation, e1]; rfl, ?_⟩
  have hfirst : t.first = 0 := by have := ht.first; simpa [info] using this
  have hlast : t.last = 1 := by
    have := ht.last
    rw [show info.lastStep 2 = 1 by decide +kernel] at this
    exact_mod_cast this
  have hs : t.steps .vel = [0] := by simp [Term.steps, hfirst, hlast, Kind.order]
  have hs' : term.steps .vel = [0] := by simp [Term.steps, term, Kind.order]
  have hd : dev t .vel (read x) 0 0 = dev term .vel (read x) 0 0 := by
    rw [dev, dev, delta_faithful ht .vel hf (read x) 0 0 (by rw [hlast]; decide) (by decide), ht.targets 0 (by decide)]
    rfl
  simp only [env, List.mem_singleton, violation, e1', Option.map_some, Option.getD_some, e2, e2', hs, hs', ht.cols,
    show term.vars.cols = 1 from rfl, List.flatMap_cons, List.flatMap_nil, List.range_one, List.map_cons, List.map_nil, hd,
    ht.coeffs 0 (by decide), ht.upper 0 (by decide), ht.lower 0 (by decide)]
  rfl

/-- non-vacuity for C126 and C127: the run converges, the constraint and the solver are as assumed. -/
example : pci.Small ∧ construct pci = .ok prob ∧ Exist prob.setup pci.fixedSteps pci.fixedDofs ∧ SolverKeeps prob 0 env ∧
    info.Sized 1 ∧ info.InRange .vel 2 ∧ ¬ info.Tiny 1 ∧ (∀ l, info.hatch .vel prob.setup.vars 1 ⟨false, true, false⟩ = .ok l → Evaluates env .vel l) ∧
    ((optimize defaultParams env 60 (initialState [0, 0] (1/10))).map fun r => (r.status, r.st.x)) = some (.converged, [0, 1/2]) := by
  refine ⟨⟨by decide, by decide⟩, constructed, ⟨by decide, by decide⟩, ⟨fun x => ⟨⟨le_refl 2, ?_, ?_, ?_⟩, rfl⟩, ?_⟩,
    ⟨by decide, by decide, by decide, by decide⟩, ⟨by decide, by decide +kernel, by decide +kernel⟩, by decide +kernel, hatched, by decide +kernel⟩
  · intro i lo h
    rcases i with _ | _ | i
    · simp [prob] at h; subst h; simp [env, read]
    · simp [prob] at h; subst h; simp [env, read]
    · simp [prob] at h
  · intro i lo h
    rcases i with _ | _ | i
    · simp [prob] at h; subst h; simp [env, read]
    · simp [prob] at h; subst h; simp [env, read]
    · simp [prob] at h
  · change ∀ c ∈ prob.fixed, |affDen c (read [(0 : ℚ), 0])| ≤ 0
    decide +kernel
  · intro k x b y h
    simp only [env, Option.some.injEq] at h
    subst h
    refine ⟨by decide, ?_, ?_, by decide +kernel⟩
    · intro i lo h
      rcases i with _ | _ | i
      · simp [prob] at h; subst h; simp [read]
      · simp [prob] at h; subst h; norm_num [read]
      · simp [prob] at h
    · intro i lo h
      rcases i with _ | _ | i
      · simp [prob] at h; subst h; simp [read]
      · simp [prob] at h; subst h; norm_num [read]
      · simp [prob] at h

end Demo

end Verif.EndToEnd
