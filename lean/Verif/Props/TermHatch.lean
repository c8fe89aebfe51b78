import Verif.Model.TermHatch
import Verif.Props.EndToEnd
import Verif.Props.ProblemTerms
import Verif.Props.Cartesian
import Verif.Props.CollisionTerms
import Verif.Props.KinTerms

/-!
C143: a converged run of the trust-region optimiser on a constructed problem keeps the pose, displacement, duration, singularity and user
defined constraints.
C144: and the collision constraints.
-/

set_option linter.unusedSectionVars false
set_option linter.unusedVariables false

namespace Verif.TermHatch

open Verif.Construct Verif.Problem Verif.BasicArray Verif.Sco Verif.Legacy Verif.EndToEnd
open Verif.KinTerms (TermType)

variable {Name T K : Type} [Field K] [LinearOrder K] [IsStrictOrderedRing K] {n m : Nat}

/-! ### What a run evaluates -/

/-- Specification: the violations the optimiser evaluates contain that of every constraint of the list. -/
def Covers (e : Env K) (l : List (FuncAdded K n m)) : Prop :=
  ∀ x eq F, FuncAdded.cnt eq F ∈ l → F.cntViolation eq (entry x) ∈ e.exactViols x

/-- Specification: a run from the start that reports convergence and whose clock has not run out before the first iteration. -/
structure Converged (prm : Params K) (e : Env K) (r : Result K) : Prop where
  clock : e.clock 0 ≤ prm.maxTime
  ran : ∃ fuel x0 box, optimize prm e fuel (initialState x0 box) = some r
  status : r.status = .converged

/-- Specification: the values of the joints in a step of a point. -/
def state (p : Pci K) (x : List K) (i : Nat) : Fin p.nDof → K := fun j => entry x (i * p.cols + j.val)

theorem below {prm : Params K} {e : Env K} {r : Result K} (h : Converged prm e r) : ∀ v ∈ e.exactViols r.st.x, v < prm.cntTolerance := by
  obtain ⟨h1, ⟨fuel, x0, box, h2⟩, h3⟩ := h
  exact C17_converged_sound_partial prm e fuel x0 box r h1 h2 h3

theorem layout (p : Pci K) (hs : p.Small) (q : Prob K) (h : construct p = .ok q) :
    Holds q.setup.vars p.nSteps p.cols fun i j => i * p.cols + j := by
  obtain ⟨-, m, -, -, -, e1, -⟩ := construct_ok p q h
  have hc : q.setup.cols = p.cols := by rw [e1]; rfl
  have hn : q.setup.nSteps = p.nSteps := by rw [e1]
  have hv := vars_holds q.setup (by unfold Setup.Small; rw [hc, hn]; exact hs)
  rwa [hc, hn] at hv

theorem dof_le (p : Pci K) : p.nDof ≤ p.cols := by unfold Pci.cols; omega

/-- Every weighted error of a constraint whose violation is small is small. -/
theorem rows_below (F : ErrFunc K n m) (eq : Bool) (x : Nat → K) (tol : K) (h : F.cntViolation eq x < tol) (i : Fin m) :
    (eq = true → |F.weight i * F.f (getVec x F.vars) i| < tol) ∧ (eq = false → F.weight i * F.f (getVec x F.vars) i < tol) := by
  rw [cntViolation_eq] at h
  constructor
  · rintro rfl
    simp only [if_true] at h
    exact lt_of_le_of_lt (Finset.single_le_sum (f := fun i => |F.weight i * F.f (getVec x F.vars) i|)
      (fun _ _ => abs_nonneg _) (Finset.mem_univ i)) h
  · rintro rfl
    simp only [Bool.false_eq_true, if_false] at h
    exact lt_of_le_of_lt ((le_max_right 0 _).trans (Finset.single_le_sum (f := fun i => max 0 (F.weight i * F.f (getVec x F.vars) i))
      (fun _ _ => le_max_left _ _) (Finset.mem_univ i))) h

/-! ### C143 -/

/-- C143, user defined terms: a converged run returns a trajectory in which at every step of the range that is not fixed every error of
the user is below `cnt_tolerance / weight`, in size for equality constraints.  (Partial, like the following ones: the clock must not have
run out before the first iteration, see C17.) -/
theorem C143_user_partial (p : Pci K) (hs : p.Small) (q : Prob K) (h : construct p = .ok q) (u : UserInfo K p.nDof m)
    (hr : ∀ s, u.first ≤ s → s ≤ u.last → s ∉ u.fixed → 0 ≤ s ∧ s < p.nSteps) (hw : ∀ i, 0 < u.weight i) (ut : Bool) :
    ∃ l, u.hatch q.setup.vars ⟨false, true, ut⟩ = .ok l ∧ ∀ (e : Env K), Covers e l → ∀ prm r, Converged prm e r →
      ∀ s : Nat, u.first ≤ s → (s : Int) ≤ u.last → (s : Int) ∉ u.fixed → ∀ i,
        if u.eq then |u.f (state p r.st.x s) i| < prm.cntTolerance / u.weight i
        else u.f (state p r.st.x s) i < prm.cntTolerance / u.weight i := by
  obtain ⟨l, h1, h2⟩ := user_hatch u q.setup.vars p.nSteps p.cols _ (layout p hs q h) (dof_le p) hr false ut
  refine ⟨_, h2, fun e hc prm r hcv s a1 a2 a3 i => ?_⟩
  have hv := below hcv _ (hc r.st.x u.eq ⟨u.f, u.dfdx, fun j => s * p.cols + j.val, u.coeff⟩ (by
    rw [List.mem_map]
    exact ⟨(s : Int), (h1.2 _).2 ⟨⟨a1, a2⟩, a3⟩, by simp⟩))
  obtain ⟨b1, b2⟩ := rows_below _ _ _ _ hv i
  have hwi := hw i
  change (u.eq = true → |u.weight i * u.f (state p r.st.x s) i| < prm.cntTolerance) at b1
  change (u.eq = false → u.weight i * u.f (state p r.st.x s) i < prm.cntTolerance) at b2
  split
  · rename_i he
    have := b1 he
    rw [abs_mul, abs_of_pos hwi] at this
    rwa [lt_div_iff₀ hwi, mul_comm]
  · rename_i he
    have := b2 (by simpa using he)
    rwa [lt_div_iff₀ hwi, mul_comm]

/-- Specification: the total duration of a trajectory whose last column holds the inverse durations of the steps. -/
def durationOf (p : Pci K) (x : List K) : K := ∑ i ∈ Finset.range (p.nSteps - 1), 1 / entry x ((i + 1) * p.cols + p.nDof)

/-- C143, total time: in a problem with time a converged run returns a trajectory whose duration is below the limit plus
`cnt_tolerance / coeff`. -/
theorem C143_duration_partial (p : Pci K) (hs : p.Small) (ht : p.useTime = true) (hN : 0 < p.nSteps) (q : Prob K) (h : construct p = .ok q)
    (coeff limit : K) (hc : 0 < coeff) (hl : 1 / 100000 ≤ |limit|) :
    ∃ a, totalTimeHatch coeff limit q.setup.vars ⟨false, true, true⟩ = .ok a ∧ ∀ (e : Env K), Covers e [a] → ∀ prm r, Converged prm e r →
      durationOf p r.st.x < limit + prm.cntTolerance / coeff := by
  have hcols : p.cols = p.nDof + 1 := by simp [Pci.cols, ht]
  obtain ⟨F, -, h2, h3, h4, -⟩ := totalTime_ok coeff limit q.setup.vars p.nSteps p.cols _ (layout p hs q h) hN (by omega)
  refine ⟨_, h2, fun e hcv prm r hr => ?_⟩
  have hv := below hr _ (hcv r.st.x _ F (List.mem_singleton.2 rfl))
  have b := (rows_below _ _ _ _ hv 0).2 (by simpa using hl)
  rw [h3, h4, hcols] at b
  simp only [Nat.add_sub_cancel] at b
  have hd : durationOf p r.st.x = ∑ r_1 ∈ Finset.range (p.nSteps - 1), (entry r.st.x ((r_1 + 1) * (p.nDof + 1) + p.nDof))⁻¹ := by
    unfold durationOf
    simp only [hcols, one_div]
  rw [hd]
  rw [mul_comm, ← lt_div_iff₀ hc] at b
  linarith

/-- Specification: component `i` of the pose error the term is about, at joint values `q`. -/
def PoseInfo.error [Mul T] (info : PoseInfo Name T K) (P : Cartesian.Poses T K) (arm : Cartesian.Arm Name T K n) (q : Fin n → K) : Fin 6 → K :=
  let s := Cartesian.frame arm info.source info.sourceOffset q
  let t := Cartesian.frame arm info.target info.targetOffset q
  if info.dynamic = false ∧ arm.active info.target = true then P.error s t else P.error t s

/-- Specification: no tolerances, or six lower and upper ones in order that are told apart. -/
def PoseInfo.Ok (close : List K → List K → Bool) (info : PoseInfo Name T K) : Prop :=
  (info.lower = [] ∧ info.upper = []) ∨ (info.lower.length = 6 ∧ info.upper.length = 6 ∧ close info.lower info.upper = false ∧
    ∀ (i : Nat) (lo hi : K), info.lower[i]? = some lo → info.upper[i]? = some hi → lo ≤ hi)

theorem beyond_lt {lo hi d e : K} (h : lo ≤ hi) (hd : |Cartesian.beyond lo hi e| < d) : lo - d < e ∧ e < hi + d := by
  unfold Cartesian.beyond at hd
  obtain ⟨h1, h2⟩ := abs_lt.1 hd
  rcases le_total e lo with h3 | h3
  · rw [min_eq_left (h3.trans h), max_eq_left h3] at h1 h2
    constructor <;> linarith
  · rcases le_total e hi with h4 | h4
    · rw [min_eq_left h4, max_eq_right h3] at h1 h2
      constructor <;> linarith
    · rw [min_eq_right h4, max_eq_right h] at h1 h2
      constructor <;> linarith

/-- C143, Cartesian poses: a converged run returns a trajectory in which, at the step of the term, every component of the pose error with
a coefficient above 1e-5 in size is within its tolerances up to `cnt_tolerance / |coeff|`. -/
theorem C143_pose_partial [Mul T] (p : Pci K) (hs : p.Small) (q : Prob K) (h : construct p = .ok q) (close : List K → List K → Bool)
    (P : Cartesian.Poses T K) (arm : Cartesian.Arm Name T K p.nDof) (info : PoseInfo Name T K) (hok : info.Ok close)
    (h0 : 0 ≤ info.timestep) (h1 : info.timestep < p.nSteps) :
    ∃ l, info.hatch close P arm q.setup.vars ⟨false, true, false⟩ = .ok l ∧ ∀ (e : Env K), Covers e l → ∀ prm r, Converged prm e r →
      ∀ i : Fin 6, 1 / 10 ^ 5 < |info.coeffs i| →
        (info.lower = [] → |info.error P arm (state p r.st.x info.timestep.toNat) i| < prm.cntTolerance / |info.coeffs i|) ∧
        (info.lower ≠ [] →
          info.lower.getD i 0 - prm.cntTolerance / |info.coeffs i| < info.error P arm (state p r.st.x info.timestep.toNat) i ∧
          info.error P arm (state p r.st.x info.timestep.toNat) i < info.upper.getD i 0 + prm.cntTolerance / |info.coeffs i|) := by
  obtain ⟨-, c2, c3⟩ := Cartesian.C107_rows info.coeffs
  have hproper : Cartesian.Proper (info.legacy arm) := by
    refine ⟨by simpa [PoseInfo.legacy] using c2, ?_, ?_⟩
    · rcases hok with ⟨a, b⟩ | ⟨a, b, -⟩ <;> simp [PoseInfo.legacy, a, b]
    · rcases hok with ⟨a, b⟩ | ⟨-, -, -, c⟩
      · intro i lo hi hlo; simp [PoseInfo.legacy, a] at hlo
      · exact c
  have htold : Cartesian.Told close (info.legacy arm) := by
    rcases hok with h | ⟨a, b, c, -⟩
    · exact Or.inl h
    · exact Or.inr ⟨a, b, c⟩
  have hidx : ∀ i ∈ (info.legacy arm).indices, i < 6 := by
    intro i hi
    simp only [PoseInfo.legacy, List.mem_map, Prod.exists, exists_and_right, exists_eq_right] at hi
    obtain ⟨k, hk⟩ := hi
    exact ((c3 i k).1 hk).1
  have hvalid := (Cartesian.valid_iff (info.legacy arm)).2 hproper
  have hrow := KinTerms.rblock_ok (layout p hs q h) (dof_le p) h0 h1
  refine ⟨[.cnt true (info.func close P arm ((List.range p.nDof).map fun j => info.timestep.toNat * p.cols + j))], ?_, ?_⟩
  · unfold PoseInfo.hatch
    rw [hrow]
    simp [hvalid]
  intro e hcv prm r hr i hi
  have hv := below hr _ (hcv r.st.x _ _ (List.mem_singleton.2 rfl))
  obtain ⟨k, hk⟩ : ∃ k : Fin (Cartesian.termRows info.coeffs).length, (Cartesian.termRows info.coeffs).get k = (i.val, info.coeffs i) :=
    List.get_of_mem ((c3 i.val (info.coeffs i)).2 ⟨i.isLt, rfl, hi⟩)
  have b := (rows_below _ _ _ _ hv k).1 rfl
  have hst : getVec (entry r.st.x) (info.func close P arm ((List.range p.nDof).map fun j => info.timestep.toNat * p.cols + j)).vars =
      state p r.st.x info.timestep.toNat := by
    funext j
    simp [getVec, PoseInfo.func, state, List.getD_eq_getElem?_getD]
  rw [hst] at b
  obtain ⟨e1, e2⟩ := Cartesian.legacy_errors close P (info.legacy arm) hproper hidx htold (state p r.st.x info.timestep.toNat)
  have hw : (info.func close P arm ((List.range p.nDof).map fun j => info.timestep.toNat * p.cols + j)).weight k = info.coeffs i := by
    simp only [ErrFunc.weight, PoseInfo.func, hk]
  have hget : (info.legacy arm).indices[k.val]? = some i.val := by
    simp only [PoseInfo.legacy, List.getElem?_map]
    rw [List.getElem?_eq_getElem k.isLt]
    have := hk
    simp only [List.get_eq_getElem] at this
    simp [this]
  have hf : (info.func close P arm ((List.range p.nDof).map fun j => info.timestep.toNat * p.cols + j)).f (state p r.st.x info.timestep.toNat) k =
      Cartesian.banded (info.legacy arm) i.val (info.error P arm (state p r.st.x info.timestep.toNat) i) := by
    simp only [PoseInfo.func]
    cases hdyn : info.dynamic
    · rw [if_neg (by simp), e2]
      simp only [Option.getD_some, List.getD_eq_getElem?_getD, List.getElem?_map, hget, Option.map_some, i.isLt, dif_pos, Fin.eta]
      congr 1
      unfold Cartesian.fixedError PoseInfo.error
      simp only [hdyn, true_and]
      rfl
    · rw [if_pos rfl, e1]
      simp only [Option.getD_some, List.getD_eq_getElem?_getD, List.getElem?_map, hget, Option.map_some, i.isLt, dif_pos, Fin.eta]
      congr 1
      simp [Cartesian.dynamicErrorSpec, PoseInfo.error, hdyn, PoseInfo.legacy]
  rw [hw, hf, abs_mul] at b
  have hpos : 0 < |info.coeffs i| := lt_trans (by positivity) hi
  rw [mul_comm, ← lt_div_iff₀ hpos] at b
  constructor
  · intro hl
    have hl' : (info.legacy arm).lower = [] := hl
    rwa [Cartesian.banded, if_pos hl'] at b
  · intro hl
    have hl' : (info.legacy arm).lower ≠ [] := hl
    rw [Cartesian.banded, if_neg hl'] at b
    rcases hok with ⟨a, -⟩ | ⟨a, b', c, d⟩
    · exact absurd a hl
    · exact beyond_lt (Cartesian.lower_le hproper a b' i.val i.isLt) b

/-! ### C143: terms of the robot's kinematics -/

section kin

open Verif.KinTerms (Tool CartVel Added asCnt singHatch singErr singJac Singular Decomposes)

/-- Specification: as `Covers`. -/
def CoversKin (e : Env ℝ) (l : List (Added n m)) : Prop :=
  ∀ x F, Added.cnt F ∈ l → F.cntViolation false (entry x) ∈ e.exactViols x

/-- C143, Cartesian velocity: a converged run returns a trajectory in which between every step of the range and the next the tool moves
along every axis by less than the limit plus `cnt_tolerance`. -/
theorem C143_displacement_partial [DecidableEq Name] (p : Pci ℝ) (hs : p.Small) (q : Prob ℝ) (h : construct p = .ok q) (c : CartVel)
    (active : List Name) (link : Name) (t : Tool p.nDof) (hacc : c.accepted p.nSteps active link = true) (hlast : c.last + 1 < p.nSteps) :
    ∃ l, c.hatch asCnt t q.setup.vars = some l ∧ ∀ (e : Env ℝ), CoversKin e l → ∀ prm r, Converged prm e r →
      ∀ i : Nat, c.first ≤ i → (i : Int) ≤ c.last → ∀ a,
        |t.pos (state p r.st.x (i + 1)) a - t.pos (state p r.st.x i) a| < c.limit + prm.cntTolerance := by
  simp only [CartVel.accepted, Bool.and_eq_true, decide_eq_true_eq] at hacc
  obtain ⟨⟨⟨⟨⟨a1, a2⟩, a3⟩, a4⟩, a5⟩, -⟩ := hacc
  have hv := layout p hs q h
  obtain ⟨l, h1, h2⟩ := KinTerms.mapM_some_mem (fun i => match KinTerms.pairVars q.setup.vars p.nDof i with
      | none => none
      | some vs => some (Added.cnt ⟨KinTerms.velErr t c.limit, some (KinTerms.velJac t), vs, none⟩))
    (fun i (b : Added (p.nDof + p.nDof) 6) => ∃ F : ErrFunc ℝ (p.nDof + p.nDof) 6, b = .cnt F ∧ ∀ (x : List ℝ) (tol : ℝ),
      F.cntViolation false (entry x) < tol → ∀ a, |t.pos (state p x (i.toNat + 1)) a - t.pos (state p x i.toNat) a| < c.limit + tol)
    (KinTerms.stepList c.first c.last) (by
    intro i hi
    rw [KinTerms.mem_stepList] at hi
    obtain ⟨vs, g1, g2⟩ := KinTerms.pairVars_ok hv (dof_le p) (i := i) (by omega) (by omega)
    rw [g1]
    refine ⟨_, rfl, _, rfl, fun x tol hx a => ?_⟩
    have e1 := (rows_below _ _ _ _ hx (Fin.castAdd 3 a)).2 rfl
    have e2 := (rows_below _ _ _ _ hx (Fin.natAdd 3 a)).2 rfl
    obtain ⟨t1, t2⟩ := g2 (entry x)
    simp only [ErrFunc.weight, one_mul] at e1 e2
    rw [KinTerms.velErr_top, KinTerms.moved, t1, t2] at e1
    rw [KinTerms.velErr_bottom, KinTerms.moved, t1, t2] at e2
    have s1 : KinTerms.stateAt (fun i j => i * p.cols + j) p.nDof (entry x) (i + 1) = state p x (i.toNat + 1) := by
      funext j
      simp only [KinTerms.stateAt, state]
      rw [show (i + 1).toNat = i.toNat + 1 by omega]
    have s0 : KinTerms.stateAt (fun i j => i * p.cols + j) p.nDof (entry x) i = state p x i.toNat := rfl
    rw [s1, s0] at e1 e2
    rw [abs_lt]
    constructor <;> linarith)
  refine ⟨l, ?_, fun e hcv prm r hr i hi hi2 a => ?_⟩
  · unfold CartVel.hatch
    simp only [asCnt, TermType.mk.injEq, Bool.false_eq_true, Bool.true_eq_false, and_false, false_and, if_false, Bool.false_and,
      Bool.not_false, Bool.and_self, if_true, and_true]
    refine Eq.trans ?_ h1
    congr 1
    funext i
    cases KinTerms.pairVars q.setup.vars p.nDof i <;> rfl
  · obtain ⟨k, hk⟩ := List.getElem?_of_mem ((KinTerms.mem_stepList c.first c.last (i : Int)).2 ⟨hi, hi2⟩)
    obtain ⟨hlen, hall⟩ := List.forall₂_iff_get.1 h2
    have hk1 := (List.getElem?_eq_some_iff.1 hk).1
    obtain ⟨F, f1, f2⟩ := hall k hk1 (by omega)
    have hmem : Added.cnt F ∈ l := by rw [← f1]; exact List.get_mem _ _
    have := f2 r.st.x prm.cntTolerance (below hr _ (hcv r.st.x F hmem)) a
    rw [show (KinTerms.stepList c.first c.last).get ⟨k, hk1⟩ = (i : Int) from (List.getElem?_eq_some_iff.1 hk).2] at this
    simpa using this

/-- C143, singularities: a converged run returns a trajectory in which at every step of the range every singular value `s` of the robot's
Jacobian satisfies `1 / (s + λ) < 1 / (0.1 + λ) + cnt_tolerance / coeff`. -/
theorem C143_singular_partial (p : Pci ℝ) (hs : p.Small) (q : Prob ℝ) (h : construct p = .ok q) (a : KinTerms.Arm m p.nDof)
    (hd : Decomposes a) (lambda eps coeff : ℝ) (hl : 0 < lambda) (hc : 0 < coeff) (first last : Int) (h0 : 0 ≤ first) (h1 : last < p.nSteps) :
    ∃ l, singHatch (singErr a lambda) (singJac a lambda eps) (some coeff) first last asCnt q.setup.vars = some l ∧
      ∀ (e : Env ℝ), CoversKin e l → ∀ prm r, Converged prm e r →
      ∀ i : Nat, first ≤ i → (i : Int) ≤ last → ∀ u s v, Singular (a.jac (state p r.st.x i)) u s v →
        1 / (s + lambda) < 1 / (1 / 10 + lambda) + prm.cntTolerance / coeff := by
  obtain ⟨l, g1, g2⟩ := KinTerms.sing_mapM (singErr a lambda) (singJac a lambda eps) (some coeff) q.setup.vars p.nSteps p.cols _
    (layout p hs q h) (dof_le p) .cnt first last h0 h1
  refine ⟨l, by simp only [singHatch, asCnt, Bool.false_eq_true, if_false, if_true]; exact g1, fun e hcv prm r hr i hi hi2 u s v hsv => ?_⟩
  obtain ⟨k, hk⟩ := List.getElem?_of_mem ((KinTerms.mem_stepList first last (i : Int)).2 ⟨hi, hi2⟩)
  obtain ⟨hlen, hall⟩ := List.forall₂_iff_get.1 g2
  have hk1 := (List.getElem?_eq_some_iff.1 hk).1
  have f1 := hall k hk1 (by omega)
  rw [show (KinTerms.stepList first last).get ⟨k, hk1⟩ = (i : Int) from (List.getElem?_eq_some_iff.1 hk).2] at f1
  have hmem := List.get_mem l ⟨k, by omega⟩
  rw [f1] at hmem
  have b := (rows_below _ _ _ _ (below hr _ (hcv r.st.x _ hmem)) 0).2 rfl
  change coeff * singErr a lambda (state p r.st.x i) < prm.cntTolerance at b
  rw [mul_comm, ← lt_div_iff₀ hc] at b
  obtain ⟨k1, k2⟩ := hd (a.jac (state p r.st.x i))
  have hle := k2 u s v hsv
  have : 1 / (s + lambda) ≤ 1 / ((a.svd (a.jac (state p r.st.x i))).s + lambda) :=
    one_div_le_one_div_of_le (by linarith [k1.nonneg]) (by linarith)
  unfold singErr at b
  linarith

end kin

/-! ### C144 -/

section collision

open Verif.CollisionTerms (Term HitMap Hit Group Config Counted Filed Unmixed)

variable [LinearOrder Name]

/-- Every counted contact of a constraint whose violation is small is almost its margin apart. -/
theorem contact_below (t : Term Name K n) (m : HitMap Name K) (hf : Filed m) (hb : 0 ≤ t.cfg.buffer) (hu : Unmixed t m)
    (v tol : K) (hv : t.cntViolation m = some v) (htol : v < tol) : ∀ k ∈ m, ∀ h ∈ k.2, Counted t k.1 h → 0 < t.cfg.weight h →
      t.cfg.needed h - tol / t.cfg.weight h < h.c.distance := by
  classical
  intro k hk h hh hc hw
  rw [CollisionTerms.C101_violation_partial t m hf hb hu, Option.some_inj] at hv
  unfold Term.total at hv
  have n1 : ∀ g : Hit Name K, 0 ≤ (if Counted t k.1 g then max 0 (t.cfg.weight g * max 0 (t.cfg.needed g - g.c.distance)) else 0) := by
    intro g; split
    · exact le_max_left _ _
    · exact le_refl _
  have h1 := le_sum_of_mem (k.2.map fun g => if Counted t k.1 g then max 0 (t.cfg.weight g * max 0 (t.cfg.needed g - g.c.distance)) else 0)
    (by intro w hw; obtain ⟨g, -, rfl⟩ := List.mem_map.1 hw; exact n1 g) _ (List.mem_map_of_mem hh)
  have h2 := le_sum_of_mem (m.map fun p => (p.2.map fun g => if Counted t p.1 g then
      max 0 (t.cfg.weight g * max 0 (t.cfg.needed g - g.c.distance)) else 0).sum)
    (by
      intro w hw; obtain ⟨p, -, rfl⟩ := List.mem_map.1 hw
      apply List.sum_nonneg
      intro b hb
      obtain ⟨g, -, rfl⟩ := List.mem_map.1 hb
      split
      · exact le_max_left _ _
      · exact le_refl _) _ (List.mem_map_of_mem hk)
  simp only [if_pos hc] at h1
  have h3 : t.cfg.weight h * (t.cfg.needed h - h.c.distance) < tol :=
    lt_of_le_of_lt ((mul_le_mul_of_nonneg_left (le_max_right 0 _) hw.le).trans ((le_max_right 0 _).trans (h1.trans (h2.trans hv.le)))) htol
  rw [mul_comm, ← lt_div_iff₀ hw] at h3
  linarith

/-- Specification: the violations the optimiser evaluates contain those of all collision constraints of the list. -/
def CoversContacts (e : Env K) (test : CollisionTerms.Kind → (Fin n → K) → (Fin n → K) → HitMap Name K) (l : List (Term Name K n)) : Prop :=
  ∀ x, ∀ t ∈ l, ∃ v, t.cntViolation (contactsAt test t (entry x)) = some v ∧ v ∈ e.exactViols x

/-- C144, one check per step: a converged run returns a trajectory in which, at every step of the range that is not fixed, every contact
between links with a positive coefficient is at least its margin less `cnt_tolerance / coeff` apart. -/
theorem C144_steps_partial (p : Pci K) (hs : p.Small) (q : Prob K) (h : construct p = .ok q) (debug : Bool) (g : Group Name K p.nDof)
    (cfg : Config Name K) (hb : 0 ≤ cfg.buffer) (first last : Nat) (hl : last < p.nSteps) (fixed : List Int) (ut : Bool) :
    ∃ l, collisionHatch debug true g cfg first last fixed q.setup.vars ⟨false, true, ut⟩ = .ok (false, l) ∧
      ∀ (test : CollisionTerms.Kind → (Fin p.nDof → K) → (Fin p.nDof → K) → HitMap Name K), (∀ k a b, Filed (test k a b)) →
      ∀ (e : Env K), CoversContacts e test l → ∀ prm r, Converged prm e r →
      ∀ i : Nat, first ≤ i → i ≤ last → (i : Int) ∉ fixed →
        ∀ k ∈ test .single (state p r.st.x i) (state p r.st.x i), ∀ c ∈ k.2, k.1 ∉ cfg.coeff.zero → 0 < cfg.weight c →
          cfg.needed c - prm.cntTolerance / cfg.weight c < c.c.distance := by
  obtain ⟨ts, h1, h2, h3⟩ := C58_discrete q.setup.vars p.nSteps p.cols _ (layout p hs q h) p.nDof (dof_le p) first last hl fixed
  refine ⟨ts.map (collision debug g cfg), by simp [collisionHatch, h1], fun test hfil e hcv prm r hr i hi hi2 hfx k hk c hc hz hw => ?_⟩
  have hstep : i ∈ ts.map CollTerm.step := by
    rw [h2, List.mem_filter, mem_stepsFrom]
    exact ⟨⟨hi, by omega⟩, by simpa using hfx⟩
  obtain ⟨t, ht, rfl⟩ := List.mem_map.1 hstep
  obtain ⟨t1, t2⟩ := h3 t ht
  obtain ⟨v, v1, v2⟩ := hcv r.st.x _ (List.mem_map_of_mem ht)
  have hvars : getVec (entry r.st.x) (collision debug g cfg t).vars0 = state p r.st.x t.step := by
    funext j
    simp [getVec, collision, t1, state, List.getD_eq_getElem?_getD]
  have hkind : (collision debug g cfg t).kind = .single := by simp [collision, t2, kindOf]
  have hm : contactsAt test (collision debug g cfg t) (entry r.st.x) = test .single (state p r.st.x t.step) (state p r.st.x t.step) := by
    simp only [contactsAt, hkind, hvars]
  rw [hm] at v1
  refine contact_below (collision debug g cfg t) _ (hfil _ _ _) hb ?_ v _ v1 (below hr v v2) k hk c hc ⟨hz, ?_⟩ hw
  · intro _ a _ b _
    rw [hkind]
    trivial
  · rw [hkind]
    trivial

/-- C144, checks between consecutive steps: a converged run returns a trajectory in which, for every pair of consecutive steps of the range,
every contact found between links with a positive coefficient that a free one of the two steps can influence is at least its margin less
`cnt_tolerance / coeff` apart, if no two adjacent steps are fixed and assertions are off. -/
theorem C144_between_partial (p : Pci K) (hs : p.Small) (q : Prob K) (h : construct p = .ok q) (g : Group Name K p.nDof)
    (cfg : Config Name K) (hb : 0 ≤ cfg.buffer) (first last : Nat) (hl : last < p.nSteps) (fixed : List Int) (hna : NoAdjacent first last fixed)
    (ut : Bool) :
    ∃ l, collisionHatch false false g cfg first last fixed q.setup.vars ⟨false, true, ut⟩ = .ok (false, l) ∧
      ∀ (test : CollisionTerms.Kind → (Fin p.nDof → K) → (Fin p.nDof → K) → HitMap Name K), (∀ k a b, Filed (test k a b)) →
      ∀ (e : Env K), CoversContacts e test l → ∀ prm r, Converged prm e r →
      ∀ i : Nat, first ≤ i → i < last → ∀ kind, kind = (if (i : Int) ∈ fixed then CollisionTerms.Kind.endFree
          else if (i : Int) + 1 ∈ fixed then .startFree else .bothFree) →
        ∀ k ∈ test kind (state p r.st.x i) (state p r.st.x (i + 1)), ∀ c ∈ k.2, k.1 ∉ cfg.coeff.zero → CollisionTerms.Relevant kind c →
          0 < cfg.weight c → cfg.needed c - prm.cntTolerance / cfg.weight c < c.c.distance := by
  obtain ⟨ts, h1, h2, h3⟩ := C58_continuous_partial q.setup.vars p.nSteps p.cols _ (layout p hs q h) p.nDof (dof_le p) first last hl fixed hna
  refine ⟨ts.map (collision false g cfg), by simp [collisionHatch, h1],
    fun test hfil e hcv prm r hr i hi hi2 kind hkd k hk c hc hz hrel hw => ?_⟩
  have hstep : i ∈ ts.map CollTerm.step := by
    rw [h2, mem_stepsFrom]
    exact ⟨hi, hi2⟩
  obtain ⟨t, ht, rfl⟩ := List.mem_map.1 hstep
  obtain ⟨t1, t2, t5, t3, t4⟩ := h3 t ht
  obtain ⟨v, v1, v2⟩ := hcv r.st.x _ (List.mem_map_of_mem ht)
  have hvars : getVec (entry r.st.x) (collision false g cfg t).vars0 = state p r.st.x t.step := by
    funext j
    simp [getVec, collision, t1, state, List.getD_eq_getElem?_getD]
  have hvars1 : getVec (entry r.st.x) (collision false g cfg t).vars1 = state p r.st.x (t.step + 1) := by
    funext j
    simp [getVec, collision, t2, state, List.getD_eq_getElem?_getD]
  have hkind : (collision false g cfg t).kind = kind := by
    have := hna t.step hi hi2
    rw [hkd]
    unfold collision
    simp only
    cases htt : t.type <;> simp only [htt, EvalType.startFree, EvalType.endFree, true_iff, false_iff, Bool.false_eq_true, not_not] at t3 t4 <;>
      simp only [kindOf] <;> simp_all
  have hne : kind ≠ .single := by rw [hkd]; split_ifs <;> simp
  have hm : contactsAt test (collision false g cfg t) (entry r.st.x) = test kind (state p r.st.x t.step) (state p r.st.x (t.step + 1)) := by
    unfold contactsAt
    rw [hkind, hvars, hvars1]
    cases kind <;> first | rfl | exact absurd rfl hne
  rw [hm] at v1
  refine contact_below (collision false g cfg t) _ (hfil _ _ _) hb (fun hd => by cases hd) v _ v1 (below hr v v2) k hk c hc ⟨hz, ?_⟩ hw
  rw [hkind]
  exact hrel

end collision

/-! ### Non-vacuity -/

namespace Demo

/-- A problem whose convex solver always proposes to stay. -/
def rest (viols : List K → List K) : Env K where
  nCnts := 1
  closest := id
  exactCosts := fun _ => [0]
  exactViols := viols
  qp := fun _ x _ => some x
  modelCosts := fun _ _ => [0]
  modelViols := fun _ => viols
  clock := fun _ => 0

/-- The default parameters. -/
def prm : Params K where
  improveRatioThreshold := 1/4
  minTrustBoxSize := 1/10000
  minApproxImprove := 1/10000
  minApproxImproveFrac := -1000000
  maxIter := 50
  trustShrinkRatio := 1/10
  trustExpandRatio := 3/2
  cntTolerance := 1/10000
  maxMeritCoeffIncreases := 5
  maxQpSolverFailures := 3
  meritCoeffIncreaseRatio := 10
  maxTime := 1000
  initialMeritErrorCoeff := 10
  inflateIndividually := true

/-- Started at a point that satisfies the constraints, the run converges there. -/
theorem converges (viols : List K → List K) (x : List K) (h : ∀ v ∈ viols x, v < 1 / 10000) :
    ∃ r, Converged prm (rest viols) r ∧ r.st.x = x := by
  have hsat : satisfied (prm : Params K) (viols x) = true := (satisfied_iff _ _).2 h
  refine ⟨⟨.converged, ⟨x, [0], viols x, 2, 1, 1/10, [10], 1⟩, 0⟩, ⟨by simp [rest, prm], ⟨1, x, 1/10, ?_⟩, rfl⟩, rfl⟩
  have h1 : ¬ (1000 : K) < 0 := by norm_num
  have h2 : (1 / 10000 : K) ≤ 1 / 10 := by norm_num
  have h3 : (0 : K) < 1 / 10000 := by norm_num
  have hb : trBody (prm : Params K) (rest viols) ⟨x, [0], viols x, 1, 0, 1/10, [10], 1⟩ 0 = .penalty ⟨x, [0], viols x, 2, 1, 1/10, [10], 1⟩ := by
    simp only [trBody, iterUpdate, rest, List.take_length, sub_self]
    rw [if_pos (by exact h3)]
  have hs : sqpLoop (prm : Params K) (rest viols) 1 1 1 ⟨x, [], [], 0, 0, 1/10, [10], 0⟩ = some (.penalty ⟨x, [0], viols x, 2, 1, 1/10, [10], 1⟩) := by
    unfold sqpLoop
    simp only
    rw [if_neg (by exact h1)]
    simp only [evalIfNeeded, List.isEmpty_nil, Bool.and_self, if_true]
    have : trLoop (prm : Params K) (rest viols) 1 ⟨x, (rest viols).exactCosts x, (rest viols).exactViols x, 0 + 1, 0, 1/10, [10], 0 + 1⟩ 0 =
        some (.penalty ⟨x, [0], viols x, 2, 1, 1/10, [10], 1⟩) := by
      unfold trLoop
      rw [if_pos (by exact h2)]
      have := hb
      simp only [rest] at this ⊢
      simp only [zero_add, this]
    simp only [this]
  simp only [optimize, initialState]
  have hm : meritLoop (prm : Params K) (rest viols) 1 5 ⟨x, [], [], 0, 0, 1/10, [10], 0⟩ =
      some (.converged, ⟨x, [0], viols x, 2, 1, 1/10, [10], 1⟩) := by
    unfold meritLoop
    simp only [hs, hsat, if_true]
  have : meritLoop (prm : Params K) (rest viols) 1 (prm : Params K).maxMeritCoeffIncreases
      ⟨(rest viols).closest x, [], [], 0, 0, 1/10, List.replicate (rest viols).nCnts (prm : Params K).initialMeritErrorCoeff, 0⟩ =
      some (.converged, ⟨x, [0], viols x, 2, 1, 1/10, [10], 1⟩) := hm
  simp only [this, List.sum_singleton]

/-- The violations of a list of constraints. -/
def violsOf (l : List (FuncAdded K n m)) (x : List K) : List K :=
  l.filterMap fun a => match a with
    | .cost _ _ => none
    | .cnt eq F => some (F.cntViolation eq (entry x))

theorem covers (l : List (FuncAdded K n m)) : Covers (rest (violsOf l)) l := by
  intro x eq F hF
  simp only [rest, violsOf, List.mem_filterMap]
  exact ⟨_, hF, rfl⟩

/-- `N` steps of `n` joints with limits ±1. -/
def free (N n : Nat) (time : Bool) : Pci K where
  nSteps := N
  nDof := n
  lower := fun _ => -1
  upper := fun _ => 1
  dtLower := 0
  dtUpper := 1
  useTime := time
  fixedSteps := []
  fixedDofs := []
  current := fun _ => 0
  init := .stationary
  dt := 1
  costs := []
  cnts := [if time then ⟨.totalTime, ⟨false, true, true⟩⟩ else ⟨.userDefined, ⟨false, true, false⟩⟩]

/-- The joint is to be at one half in the second step. -/
def user : UserInfo ℚ 1 1 := { first := 0, last := 1, fixed := [0], f := fun q _ => q 0 - 1/2, coeff := some fun _ => 2 }

/-- The second slider is to carry its link into [-1/10, 1/10] around one. -/
def pose : PoseInfo Nat (Multiplicative ℚ) ℚ where
  dynamic := false
  timestep := 1
  source := 2
  target := 0
  sourceOffset := Multiplicative.ofAdd 0
  targetOffset := Multiplicative.ofAdd 1
  coeffs := fun i => if i = 0 then 5 else 0
  lower := List.replicate 6 (-1/10)
  upper := List.replicate 6 (1/10)

def close (a b : List ℚ) : Bool := decide (a = b)

end Demo

/-- non-vacuity for C143_user_partial: the term can be built, and a run converges. -/
example : EndToEnd.Demo.pci.Small ∧ construct EndToEnd.Demo.pci = .ok EndToEnd.Demo.prob ∧
    (∀ s, Demo.user.first ≤ s → s ≤ Demo.user.last → s ∉ Demo.user.fixed → 0 ≤ s ∧ s < EndToEnd.Demo.pci.nSteps) ∧
    (∀ i, 0 < Demo.user.weight i) ∧ ∃ l e r, Demo.user.hatch EndToEnd.Demo.prob.setup.vars ⟨false, true, false⟩ = .ok l ∧ l.length = 1 ∧
      Covers e l ∧ Converged Demo.prm e r ∧ r.st.x = [0, 1/2] := by
  refine ⟨⟨by decide, by decide⟩, EndToEnd.Demo.constructed, ?_, fun i => by simp [UserInfo.weight, Demo.user], ?_⟩
  · intro s h1 h2 _
    simp only [Demo.user] at h1 h2
    exact ⟨h1, by simp only [EndToEnd.Demo.pci]; omega⟩
  · let F : ErrFunc ℚ 1 1 := ⟨Demo.user.f, none, fun j => ([1] : List Nat).getD j.val 0, Demo.user.coeff⟩
    obtain ⟨r, h1, h2⟩ := Demo.converges (Demo.violsOf [FuncAdded.cnt true F]) [0, 1/2] (by decide +kernel)
    exact ⟨[.cnt true F], _, r, rfl, rfl, Demo.covers _, h1, h2⟩

/-- non-vacuity for C143_duration_partial: three steps with a limit of two and inverse durations of one and two. -/
example : (Demo.free 3 1 true : Pci ℚ).Small ∧ ∃ q, construct (Demo.free 3 1 true : Pci ℚ) = .ok q ∧
    ∃ a e r, totalTimeHatch (5 : ℚ) 2 q.setup.vars ⟨false, true, true⟩ = .ok a ∧ Covers e [a] ∧ Converged Demo.prm e r ∧
      r.st.x = [0, 1, 0, 1, 0, 2] := by
  refine ⟨⟨by decide, by decide⟩, ⟨⟨3, 1, true, fun _ j => if j = 1 then 1 else 0⟩, _, _, _, _, _⟩, rfl, ?_⟩
  have : ∀ a, totalTimeHatch (5 : ℚ) 2 (⟨3, 1, true, fun _ j => if j = 1 then 1 else 0⟩ : Problem.Setup ℚ).vars ⟨false, true, true⟩ = .ok a →
      ∀ v ∈ Demo.violsOf [a] [0, 1, 0, 1, 0, 2], v < 1 / 10000 := by
    intro a h
    injection h with h
    subst h
    decide +kernel
  obtain ⟨r, h1, h2⟩ := Demo.converges (Demo.violsOf [_]) [0, 1, 0, 1, 0, 2] (this _ rfl)
  exact ⟨_, _, r, rfl, Demo.covers _, h1, h2⟩

/-- non-vacuity for C143_pose_partial: two sliders, the outer one at 1.05 in the second step. -/
example : (Demo.free 2 2 false : Pci ℚ).Small ∧ Demo.pose.Ok Demo.close ∧ ∃ q, construct (Demo.free 2 2 false : Pci ℚ) = .ok q ∧
    ∃ l e r, Demo.pose.hatch Demo.close Cartesian.Demo.poses Cartesian.Demo.arm q.setup.vars ⟨false, true, false⟩ = .ok l ∧ l.length = 1 ∧
      Covers e l ∧ Converged Demo.prm e r ∧ r.st.x = [0, 0, 1/2, 11/20] := by
  refine ⟨⟨by decide, by decide⟩, Or.inr ⟨by decide, by decide, by decide +kernel, ?_⟩, _, rfl, ?_⟩
  · intro i lo hi h1 h2
    simp only [Demo.pose, List.getElem?_replicate] at h1 h2
    split at h1
    · simp_all
      rw [← h1, ← h2]; norm_num
    · simp at h1
  · obtain ⟨r, h1, h2⟩ := Demo.converges (Demo.violsOf [FuncAdded.cnt true (Demo.pose.func Demo.close Cartesian.Demo.poses Cartesian.Demo.arm [2, 3])])
      [0, 0, 1/2, 11/20] (by decide +kernel)
    refine ⟨_, _, r, ?_, rfl, Demo.covers _, h1, h2⟩
    have hv : (Demo.pose.legacy Cartesian.Demo.arm).valid = true := by decide +kernel
    have hr : (⟨2, 2, false, fun _ _ => 0⟩ : Problem.Setup ℚ).vars.rblock 1 0 2 = some [2, 3] := by decide
    have hb : ∀ b : BArr Nat, b.rblock 1 0 2 = some [2, 3] → Demo.pose.hatch Demo.close Cartesian.Demo.poses Cartesian.Demo.arm b
        ⟨false, true, false⟩ = .ok [.cnt true (Demo.pose.func Demo.close Cartesian.Demo.poses Cartesian.Demo.arm [2, 3])] := by
      intro b h
      have h' : b.rblock Demo.pose.timestep 0 2 = some [2, 3] := h
      unfold PoseInfo.hatch
      rw [h']
      simp [hv]
    exact hb _ hr

namespace Demo

/-- The violations of a list of kinematic constraints. -/
noncomputable def violsKin (l : List (KinTerms.Added n m)) (x : List ℝ) : List ℝ :=
  l.filterMap fun a => match a with
    | .cnt F => some (F.cntViolation false (entry x))
    | _ => none

theorem covers_kin (l : List (KinTerms.Added n m)) : CoversKin (rest (violsKin l)) l := by
  intro x F hF
  simp only [rest, violsKin, List.mem_filterMap]
  exact ⟨_, hF, rfl⟩

end Demo

/-- non-vacuity for C143_displacement_partial: three sliders at rest. -/
example : (Demo.free 3 3 false : Pci ℝ).Small ∧ (⟨0, 1, 1/2⟩ : KinTerms.CartVel).accepted 3 [1] 1 = true ∧
    ∃ q, construct (Demo.free 3 3 false : Pci ℝ) = .ok q ∧ ∃ l e r,
      (⟨0, 1, 1/2⟩ : KinTerms.CartVel).hatch KinTerms.asCnt KinTerms.Demo.tool q.setup.vars = some l ∧
      CoversKin e l ∧ Converged Demo.prm e r ∧ r.st.x = [] := by
  have hs : (Demo.free 3 3 false : Pci ℝ).Small := ⟨by decide, by decide⟩
  have hacc : (⟨0, 1, 1/2⟩ : KinTerms.CartVel).accepted 3 [1] 1 = true := by simp [KinTerms.CartVel.accepted]
  obtain ⟨q, hq⟩ : ∃ q, construct (Demo.free 3 3 false : Pci ℝ) = .ok q := ⟨_, rfl⟩
  refine ⟨hs, hacc, q, hq, ?_⟩
  obtain ⟨l, h1, h2⟩ := KinTerms.C110_constraints_partial ⟨0, 1, 1/2⟩ [1] 1 KinTerms.Demo.tool q.setup.vars 3 _ _ (layout _ hs q hq)
    (dof_le (Demo.free 3 3 false : Pci ℝ)) hacc (by decide)
  have hl := (h2 (entry [])).2 (by
    intro i _ _ a
    simp [KinTerms.Demo.tool, KinTerms.stateAt, entry])
  obtain ⟨r, h3, h4⟩ := Demo.converges (Demo.violsKin l) [] (by
    intro v hv
    obtain ⟨a, ha, hv⟩ := List.mem_filterMap.1 hv
    have := hl a ha
    cases a with
    | cnt F =>
      simp only [KinTerms.Added.satisfied] at this
      simp only [Option.some.injEq] at hv
      rw [← hv, this]
      norm_num
    | _ => simp at hv)
  exact ⟨l, _, r, h1, Demo.covers_kin l, h3, h4⟩

/-- non-vacuity for C143_singular_partial: one joint whose Jacobian is one at rest. -/
example : (Demo.free 2 1 false : Pci ℝ).Small ∧ KinTerms.Decomposes KinTerms.Demo.arm ∧
    ∃ q, construct (Demo.free 2 1 false : Pci ℝ) = .ok q ∧ ∃ l e r,
      KinTerms.singHatch (KinTerms.singErr KinTerms.Demo.arm (1/10)) (KinTerms.singJac KinTerms.Demo.arm (1/10) (1/1000)) (some 5) 0 1
        KinTerms.asCnt q.setup.vars = some l ∧ CoversKin e l ∧ Converged Demo.prm e r ∧ r.st.x = [] := by
  have hs : (Demo.free 2 1 false : Pci ℝ).Small := ⟨by decide, by decide⟩
  obtain ⟨q, hq⟩ : ∃ q, construct (Demo.free 2 1 false : Pci ℝ) = .ok q := ⟨_, rfl⟩
  refine ⟨hs, KinTerms.Demo.arm_svd, q, hq, ?_⟩
  obtain ⟨l, g1, g2⟩ := KinTerms.sing_mapM (KinTerms.singErr KinTerms.Demo.arm (1/10)) (KinTerms.singJac KinTerms.Demo.arm (1/10) (1/1000))
    (some 5) q.setup.vars 2 _ _ (layout _ hs q hq) (dof_le (Demo.free 2 1 false : Pci ℝ)) .cnt 0 1 (by decide) (by decide)
  obtain ⟨r, h3, h4⟩ := Demo.converges (Demo.violsKin l) [] (by
    intro v hv
    obtain ⟨a, ha, hv⟩ := List.mem_filterMap.1 hv
    obtain ⟨k, hk, rfl⟩ := List.getElem_of_mem ha
    obtain ⟨hlen, hall⟩ := List.forall₂_iff_get.1 g2
    have := hall k (by omega) hk
    simp only [List.get_eq_getElem] at this
    rw [this] at hv
    simp only [Option.some.injEq] at hv
    rw [← hv, cntViolation_eq]
    simp [KinTerms.singErr, KinTerms.Demo.arm, ErrFunc.weight, getVec, entry]
    norm_num)
  exact ⟨l, _, r, by simp only [KinTerms.singHatch, KinTerms.asCnt, Bool.false_eq_true, if_false, if_true]; exact g1,
    Demo.covers_kin l, h3, h4⟩

namespace Demo

/-- The link comes closer to the obstacle as the joint moves. -/
def test (_ : CollisionTerms.Kind) (a b : Fin 1 → ℚ) : CollisionTerms.HitMap Nat ℚ :=
  [((0, 1), [{ CollisionTerms.Demo.hit .between with c := ⟨1 - max (a 0) (b 0), ![.none, .between], fun _ => 0, fun _ => 0⟩ }])]

theorem test_filed (k : CollisionTerms.Kind) (a b : Fin 1 → ℚ) : CollisionTerms.Filed (test k a b) := by
  intro p hp h hh
  simp only [test, List.mem_singleton] at hp
  subst hp
  rw [List.mem_singleton.1 hh]
  rfl

def contactViols (l : List (CollisionTerms.Term Nat ℚ 1)) (x : List ℚ) : List ℚ :=
  l.filterMap fun t => t.cntViolation (contactsAt test t (entry x))

/-- Whether the violations of all terms are defined, and below the tolerance at `x`. -/
theorem covers_contacts (l : List (CollisionTerms.Term Nat ℚ 1)) (hd : ∀ t ∈ l, t.debug = false) (hb : ∀ t ∈ l, 0 ≤ t.cfg.buffer) :
    CoversContacts (rest (contactViols l)) test l := by
  intro x t ht
  refine ⟨_, CollisionTerms.C101_violation_partial t _ ?_ (hb t ht) (fun h => by rw [hd t ht] at h; cases h), ?_⟩
  · unfold contactsAt
    split <;> exact test_filed _ _ _
  · simp only [rest, contactViols, List.mem_filterMap]
    refine ⟨t, ht, CollisionTerms.C101_violation_partial t _ ?_ (hb t ht) (fun h => by rw [hd t ht] at h; cases h)⟩
    unfold contactsAt
    split <;> exact test_filed _ _ _

end Demo

/-- non-vacuity for C144_steps_partial: three steps, the first fixed; the last one is just 1/10 away. -/
example : (Demo.free 3 1 false : Pci ℚ).Small ∧ ∃ q, construct (Demo.free 3 1 false : Pci ℚ) = .ok q ∧ ∃ l e r,
    collisionHatch false true (CollisionTerms.Demo.term .single false).group (CollisionTerms.Demo.term .single false).cfg 0 2 [0]
      q.setup.vars ⟨false, true, false⟩ = .ok (false, l) ∧ l.length = 2 ∧
    (∀ k a b, CollisionTerms.Filed (Demo.test k a b)) ∧ CoversContacts e Demo.test l ∧ Converged Demo.prm e r ∧ r.st.x = [0, 1/2, 9/10] := by
  let l : List (CollisionTerms.Term Nat ℚ 1) := [⟨1, [1], [], .singleTimeStep⟩, ⟨2, [2], [], .singleTimeStep⟩].map
    (collision false (CollisionTerms.Demo.term .single false).group (CollisionTerms.Demo.term .single false).cfg)
  obtain ⟨r, h3, h4⟩ := Demo.converges (Demo.contactViols l) [0, 1/2, 9/10] (by decide +kernel)
  exact ⟨⟨by decide, by decide⟩, _, rfl, l, _, r, rfl, rfl, Demo.test_filed,
    Demo.covers_contacts l (by simp [l, collision]) (by simp [l, collision, CollisionTerms.Demo.term]), h3, h4⟩

/-- non-vacuity for C144_between_partial: as above, between the steps. -/
example : (Demo.free 3 1 false : Pci ℚ).Small ∧ NoAdjacent 0 2 [0] ∧ ∃ q, construct (Demo.free 3 1 false : Pci ℚ) = .ok q ∧ ∃ l e r,
    collisionHatch false false (CollisionTerms.Demo.term .single false).group (CollisionTerms.Demo.term .single false).cfg 0 2 [0]
      q.setup.vars ⟨false, true, false⟩ = .ok (false, l) ∧ l.map (·.kind) = [.endFree, .bothFree] ∧
    (∀ k a b, CollisionTerms.Filed (Demo.test k a b)) ∧ CoversContacts e Demo.test l ∧ Converged Demo.prm e r ∧ r.st.x = [0, 1/2, 9/10] := by
  let l : List (CollisionTerms.Term Nat ℚ 1) := [⟨0, [0], [1], .startFixedEndFree⟩, ⟨1, [1], [2], .startFreeEndFree⟩].map
    (collision false (CollisionTerms.Demo.term .single false).group (CollisionTerms.Demo.term .single false).cfg)
  obtain ⟨r, h3, h4⟩ := Demo.converges (Demo.contactViols l) [0, 1/2, 9/10] (by decide +kernel)
  refine ⟨⟨by decide, by decide⟩, ?_, _, rfl, l, _, r, rfl, rfl, Demo.test_filed,
    Demo.covers_contacts l (by simp [l, collision]) (by simp [l, collision, CollisionTerms.Demo.term]), h3, h4⟩
  intro i h1 h2 h3
  simp at h3
  omega

end Verif.TermHatch
