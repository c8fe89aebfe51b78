import Verif.Model.JsonRead
import Verif.Props.Construct
import Verif.Props.Collision
import Mathlib.Algebra.Quaternion
import Mathlib.Algebra.Order.Archimedean.Basic

/-!
# Reading a problem from JSON (C117, C119)

The specification is a description of the format: what a value says (`IsNum`, `IsInt`, ..), what an object says under a name
(`Has`, `Dflt`), and from these what a term and a whole document describe (`EntryIs`, `DocIs`).  The theorems say that every
document that follows the format is read as what it says, and which documents are rejected.
-/

set_option linter.unusedSectionVars false
set_option linter.unusedVariables false

namespace Verif.JsonRead

open Verif.Problem Verif.Construct Verif.KinTerms Verif.Traj Verif.Collision

section spec
variable {K : Type} [Field K] [LinearOrder K] [FloorRing K]

/-- The value is the number. -/
def IsNum (v : Json K) (x : K) : Prop := v = .real x ∨ ∃ i : Int, v = .int i ∧ x = i

/-- The value is the integer, in the range of `int`. -/
def IsInt (v : Json K) (i : Int) : Prop := v = .int i ∧ -2147483648 ≤ i ∧ i ≤ 2147483647

/-- The value is the text. -/
def IsStr (v : Json K) (s : String) : Prop := v = .str s

/-- The value is the truth value. -/
def IsBool (v : Json K) (b : Bool) : Prop := v = .bool b

/-- The value is a list of what `R` says. -/
def ListOf {α : Type} (R : Json K → α → Prop) (v : Json K) (l : List α) : Prop := ∃ vs, v = .arr vs ∧ List.Forall₂ R vs l

/-- A list of three or four numbers. -/
def IsVec3 (v : Json K) (x : K × K × K) : Prop := ListOf IsNum v [x.1, x.2.1, x.2.2]
def IsVec4 (v : Json K) (x : K × K × K × K) : Prop := ListOf IsNum v [x.1, x.2.1, x.2.2.1, x.2.2.2]

/-- The names of an object are different (as after parsing). -/
def Keys (l : List (String × Json K)) : Prop := (l.map Prod.fst).Nodup

/-- The object has the member and it says `x`. -/
def Has {α : Type} (l : List (String × Json K)) (name : String) (R : Json K → α → Prop) (x : α) : Prop :=
  ∃ v, (name, v) ∈ l ∧ R v x

/-- The member says `x`, or is left out and `x` is the default. -/
def Dflt {α : Type} (l : List (String × Json K)) (name : String) (R : Json K → α → Prop) (df x : α) : Prop :=
  Has l name R x ∨ ((∀ v, (name, v) ∉ l) ∧ x = df)

/-- All members have one of the names. -/
def Only (l : List (String × Json K)) (names : List String) : Prop := ∀ p ∈ l, p.1 ∈ names

/-- The two names of solvers that stand for themselves (see C117_violated_solver for the others). -/
def SolverIs (v : Json K) (n : Nat) : Prop :=
  (v = .str "GUROBI" ∧ n = ModelType.Solver.gurobi.value) ∨ (v = .str "AUTO_SOLVER" ∧ n = ModelType.Solver.autoSolver.value)

/-- `basic_info`. -/
structure BasicIs (l : List (String × Json K)) (b : Basic K) : Prop where
  keys : Keys l
  nSteps : Has l "n_steps" IsInt b.nSteps
  manip : Has l "manip" IsStr b.manip
  fixedSteps : Dflt l "fixed_timesteps" (ListOf IsInt) [] b.fixedSteps
  fixedDofs : Dflt l "fixed_dofs" (ListOf IsInt) [] b.fixedDofs
  solver : Dflt l "convex_solver" SolverIs ModelType.Solver.autoSolver.value b.solver
  dtLower : Dflt l "dt_lower_lim" IsNum 1 b.dtLower
  dtUpper : Dflt l "dt_upper_lim" IsNum 1 b.dtUpper
  useTime : Dflt l "use_time" IsBool false b.useTime
  limits : 0 < b.dtLower ∧ b.dtLower ≤ b.dtUpper

/-- `opt_info`: what is left out keeps its value in `o`. -/
structure OptIs (o : Opt K) (l : List (String × Json K)) (p : Opt K) : Prop where
  keys : Keys l
  improveRatioThreshold : Dflt l "improve_ratio_threshold" IsNum o.improveRatioThreshold p.improveRatioThreshold
  minTrustBoxSize : Dflt l "min_trust_box_size" IsNum o.minTrustBoxSize p.minTrustBoxSize
  minApproxImprove : Dflt l "min_approx_improve" IsNum o.minApproxImprove p.minApproxImprove
  minApproxImproveFrac : Dflt l "min_approx_improve_frac" IsNum o.minApproxImproveFrac p.minApproxImproveFrac
  maxIter : Dflt l "max_iter" IsInt o.maxIter p.maxIter
  trustShrinkRatio : Dflt l "trust_shrink_ratio" IsNum o.trustShrinkRatio p.trustShrinkRatio
  trustExpandRatio : Dflt l "trust_expand_ratio" IsNum o.trustExpandRatio p.trustExpandRatio
  cntTolerance : Dflt l "cnt_tolerance" IsNum o.cntTolerance p.cntTolerance
  maxMeritCoeffIncreases : Dflt l "max_merit_coeff_increases" IsNum o.maxMeritCoeffIncreases p.maxMeritCoeffIncreases
  maxQpSolverFailures : p.maxQpSolverFailures = o.maxQpSolverFailures
  meritCoeffIncreaseRatio : Dflt l "merit_coeff_increase_ratio" IsNum o.meritCoeffIncreaseRatio p.meritCoeffIncreaseRatio
  maxTime : Dflt l "max_time" IsNum o.maxTime p.maxTime
  initialMeritErrorCoeff : Dflt l "initial_merit_error_coeff" IsNum o.initialMeritErrorCoeff p.initialMeritErrorCoeff
  inflateIndividually : Dflt l "inflate_constraints_individually" IsBool o.inflateIndividually p.inflateIndividually
  trustBoxSize : Dflt l "trust_box_size" IsNum o.trustBoxSize p.trustBoxSize

/-- `init_info`; the type is compared without regard to case. -/
structure InitIs (nSteps : Int) (nDof : Nat) (l : List (String × Json K)) (i : InitRead K) : Prop where
  keys : Keys l
  dt : Dflt l "dt" IsNum 1 i.dt
  kind : ∃ s, Has l "type" IsStr s ∧ match i.init with
    | .stationary => s.toLower = "stationary"
    | .given m => s.toLower = "given_traj" ∧ ∃ rows : List (List K), Has l "data" (ListOf (ListOf IsNum)) rows ∧
        (rows.length : Int) = nSteps ∧ (∀ r ∈ rows, r.length = nDof) ∧ (m.rows : Int) = nSteps ∧ m.cols = nDof ∧
        ∀ r row c x, rows[r]? = some row → row[c]? = some x → m.get r c = x
    | .interpolated m => s.toLower = "joint_interpolated" ∧ ∃ e : List K, Has l "endpoint" (ListOf IsNum) e ∧
        e.length = nDof ∧ m.rows = nDof ∧ m.cols = 1 ∧ ∀ j x, e[j]? = some x → m.get j 0 = x

/-- The quaternion `w + x i + y j + z k`, and a vector as a quaternion without real part. -/
def quat (w x y z : K) : Quaternion K := ⟨w, x, y, z⟩
def pureQuat (u : Fin 3 → K) : Quaternion K := quat 0 (u 0) (u 1) (u 2)

/-- The matrix rotates every vector as the quaternion does: `q u q*`. -/
def Rotates (m : Fin 3 → Fin 3 → K) (q : Quaternion K) : Prop :=
  ∀ u, pureQuat (fun i => m i 0 * u 0 + m i 1 * u 1 + m i 2 * u 2) = q * pureQuat u * star q

/-- An offset is given by translation and unit quaternion `w x y z`, each optional. -/
def OffsetIs (l : List (String × Json K)) (nxyz nwxyz : String) (o : Pose K) : Prop :=
  Dflt l nxyz IsVec3 (0, 0, 0) (o.translation 0, o.translation 1, o.translation 2) ∧
  ∃ w x y z, Dflt l nwxyz IsVec4 (1, 0, 0, 0) (w, x, y, z) ∧ w * w + x * x + y * y + z * z = 1 ∧ Rotates o.linear (quat w x y z)

/-- Parameters of `cart_pose` and `dynamic_cart_pose`. -/
structure PoseIs (dynamic : Bool) (g : Group) (nSteps : Int) (l : List (String × Json K)) (i : PoseInfo K) : Prop where
  keys : Keys l
  only : Only l ["timestep", "pos_coeffs", "rot_coeffs", "source_frame", "target_frame", "source_frame_offset_xyz",
    "source_frame_offset_wxyz", "target_frame_offset_xyz", "target_frame_offset_wxyz"]
  timestep : Dflt l "timestep" IsInt (nSteps - 1) i.timestep
  posCoeffs : Dflt l "pos_coeffs" IsVec3 (1, 1, 1) i.posCoeffs
  rotCoeffs : Dflt l "rot_coeffs" IsVec3 (1, 1, 1) i.rotCoeffs
  source : Has l "source_frame" IsStr i.source
  target : Has l "target_frame" IsStr i.target
  sourceOffset : OffsetIs l "source_frame_offset_xyz" "source_frame_offset_wxyz" i.sourceOffset
  targetOffset : OffsetIs l "target_frame_offset_xyz" "target_frame_offset_wxyz" i.targetOffset
  links : g.hasLink i.source = true ∧ g.hasLink i.target = true
  moving : if dynamic then g.isActive i.source = true ∧ g.isActive i.target = true else g.isActive i.source ≠ g.isActive i.target

/-- Parameters of `cart_vel`. -/
structure VelIs (g : Group) (nSteps : Int) (l : List (String × Json K)) (i : VelInfo K) : Prop where
  keys : Keys l
  only : Only l ["first_step", "last_step", "max_displacement", "link"]
  first : Has l "first_step" IsInt i.first
  last : Has l "last_step" IsInt i.last
  limit : Has l "max_displacement" IsNum i.limit
  link : Has l "link" IsStr i.link
  range : 0 ≤ i.first ∧ i.first < i.last ∧ i.last < nSteps
  active : i.link ∈ g.activeLinks

/-- Parameters of the joint terms. -/
structure JointIs (g : Group) (nSteps : Int) (l : List (String × Json K)) (i : JointInfo K) : Prop where
  keys : Keys l
  only : Only l ["coeffs", "first_step", "last_step", "targets", "lower_tols", "upper_tols"]
  targets : Has l "targets" (ListOf IsNum) i.targets
  coeffs : Dflt l "coeffs" (ListOf IsNum) (List.replicate g.nDof 1) i.coeffs
  upper : Dflt l "upper_tols" (ListOf IsNum) (List.replicate g.nDof 0) i.upper
  lower : Dflt l "lower_tols" (ListOf IsNum) (List.replicate g.nDof 0) i.lower
  first : Dflt l "first_step" IsInt 0 i.first
  last : Dflt l "last_step" IsInt (nSteps - 1) i.last

/-- An entry of the `pairs` of a collision term: a link, its partners, their coefficient and margin. -/
structure PairSpec (K : Type) where
  link : String
  others : List String
  coeff : K
  margin : K

/-- The entry concerns the two links, in either order. -/
def PairSpec.Covers (p : PairSpec K) (a b : String) : Prop := (p.link = a ∧ b ∈ p.others) ∨ (p.link = b ∧ a ∈ p.others)

instance (p : PairSpec K) (a b : String) : Decidable (p.Covers a b) := by unfold PairSpec.Covers; infer_instance

/-- The last entry for the two links. -/
def lastPair (ps : List (PairSpec K)) (a b : String) : Option (PairSpec K) := ps.reverse.find? fun p => p.Covers a b

/-- What the value of an entry says. -/
def PairIs (v : Json K) (p : PairSpec K) : Prop :=
  ∃ l, v = .obj l ∧ Keys l ∧ Has l "link" IsStr p.link ∧ Has l "pair" (ListOf IsStr) p.others ∧ p.others ≠ [] ∧
    Has l "coeffs" IsNum p.coeff ∧ Has l "dist_pen" IsNum p.margin

/-- Parameters of `collision`. -/
structure CollIs (nSteps : Int) (l : List (String × Json K)) (c : CollInfo K) : Prop where
  keys : Keys l
  only : Only l ["first_step", "last_step", "evaluator_type", "fixed_steps", "contact_test_type",
    "longest_valid_segment_length", "coeffs", "dist_pen", "pairs"]
  evaluator : Dflt l "evaluator_type" IsInt 1 c.evaluator ∧ 0 ≤ c.evaluator ∧ c.evaluator ≤ 4
  first : Dflt l "first_step" IsInt 0 c.first
  last : Dflt l "last_step" IsInt (nSteps - 1) c.last
  range : 0 ≤ c.first ∧ c.first ≤ c.last ∧ c.last < nSteps
  segment : Dflt l "longest_valid_segment_length" IsNum (1 / 2) c.segment ∧ 0 ≤ c.segment
  buffer : c.buffer = 1 / 2
  fixedSteps : Dflt l "fixed_steps" (ListOf IsInt) [] c.fixedSteps ∧ ∀ s ∈ c.fixedSteps, c.first ≤ s ∧ s ≤ c.last
  contactType : Dflt l "contact_test_type" IsInt 2 c.contactType ∧ 0 ≤ c.contactType ∧ c.contactType ≤ 2
  margin : Has l "dist_pen" IsNum c.margin
  coeff : Has l "coeffs" IsNum c.coeff.dflt
  pairs : ∃ ps, Dflt l "pairs" (ListOf PairIs) [] ps ∧ ∀ a b,
    c.coeff.get a b = ((lastPair ps a b).map PairSpec.coeff).getD c.coeff.dflt ∧
    c.marginOf a b = ((lastPair ps a b).map PairSpec.margin).getD c.margin

/-- Parameters of `total_time`. -/
structure TotalIs (l : List (String × Json K)) (coeff limit : K) : Prop where
  keys : Keys l
  only : Only l ["coeff", "limit"]
  coeff : Dflt l "coeff" IsNum 1 coeff
  limit : Dflt l "limit" IsNum 1 limit

/-- The kinds of terms and their names in a document. -/
def kindNames : List (String × TermKind) := [("cart_pose", .cartPose), ("dynamic_cart_pose", .dynamicCartPose), ("cart_vel", .cartVel),
  ("joint_pos", .jointPos), ("joint_vel", .jointVel), ("joint_acc", .jointAcc), ("joint_jerk", .jointJerk),
  ("collision", .collision), ("total_time", .totalTime)]

/-- The members of `params` describe the term. -/
def BodyIs (g : Group) (nSteps : Int) (k : TermKind) (l : List (String × Json K)) : Body K → Prop
  | .pose i => (k = .cartPose ∧ PoseIs false g nSteps l i) ∨ (k = .dynamicCartPose ∧ PoseIs true g nSteps l i)
  | .vel i => k = .cartVel ∧ VelIs g nSteps l i
  | .joint i => (k = .jointPos ∨ k = .jointVel ∨ k = .jointAcc ∨ k = .jointJerk) ∧ JointIs g nSteps l i
  | .coll c => k = .collision ∧ CollIs nSteps l c
  | .total c d => k = .totalTime ∧ TotalIs l c d

/-- An entry of the list of costs or of constraints. -/
def EntryIs (g : Group) (nSteps : Int) (asCost : Bool) (v : Json K) (t : Entry K) : Prop :=
  ∃ l s, v = .obj l ∧ Keys l ∧ Has l "type" IsStr s ∧ (s, t.kind) ∈ kindNames ∧
    (∃ p, ("params", .obj p) ∈ l ∧ BodyIs g nSteps t.kind p t.body) ∧ Dflt l "name" IsStr s t.name ∧
    t.type.cost = asCost ∧ t.type.cnt = !asCost ∧ Dflt l "use_time" IsBool false t.type.useTime

/-- A section given by an object. -/
def Section {α : Type} (P : List (String × Json K) → α → Prop) (v : Json K) (x : α) : Prop := ∃ l, v = .obj l ∧ P l x

/-- The whole document. -/
def DocIs (env : Env K) (o : Opt K) (v : Json K) (d : Doc K) : Prop :=
  ∃ l, v = .obj l ∧ Keys l ∧
    (∃ b, Has l "basic_info" (Section BasicIs) b ∧
      d.basic = { b with useTime := b.useTime || d.costs.any (fun t => t.type.useTime) || d.cnts.any (fun t => t.type.useTime) }) ∧
    Dflt l "opt_info" (Section (OptIs o)) o d.opt ∧
    env.group d.basic.manip = some d.group ∧
    Dflt l "costs" (ListOf (EntryIs d.group d.basic.nSteps true)) [] d.costs ∧
    Dflt l "constraints" (ListOf (EntryIs d.group d.basic.nSteps false)) [] d.cnts ∧
    Has l "init_info" (Section (InitIs d.basic.nSteps d.group.nDof)) d.init

end spec

section lemmas
variable {K : Type} [Field K] [LinearOrder K] [FloorRing K]

theorem lookup_mem (l : List (String × Json K)) (hl : Keys l) (n : String) (v : Json K) (h : (n, v) ∈ l) : l.lookup n = some v := by
  induction l with
  | nil => simp at h
  | cons p l ih =>
    obtain ⟨m, w⟩ := p
    simp only [Keys, List.map_cons, List.nodup_cons] at hl
    rcases List.mem_cons.1 h with h | h
    · injection h with h1 h2
      subst h1 h2
      simp [List.lookup]
    · have : n ≠ m := fun e => hl.1 (List.mem_map.2 ⟨_, h, e⟩)
      rw [List.lookup, beq_eq_false_iff_ne.2 this]
      exact ih hl.2 h

theorem lookup_notMem (l : List (String × Json K)) (n : String) (h : ∀ v, (n, v) ∉ l) : l.lookup n = none := by
  induction l with
  | nil => rfl
  | cons p l ih =>
    obtain ⟨m, w⟩ := p
    have : n ≠ m := fun e => h w (by simp [e])
    rw [List.lookup, beq_eq_false_iff_ne.2 this]
    exact ih fun v hv => h v (List.mem_cons_of_mem _ hv)

theorem mem_of_lookup (l : List (String × Json K)) (n : String) (v : Json K) (h : l.lookup n = some v) : (n, v) ∈ l := by
  induction l with
  | nil => simp [List.lookup] at h
  | cons p l ih =>
    obtain ⟨m, w⟩ := p
    rw [List.lookup] at h
    split at h
    · rename_i e
      injection h with h
      rw [beq_iff_eq] at e
      simp [e, h]
    · exact List.mem_cons_of_mem _ (ih h)

/-- The reader returns what the relation says. -/
def Reads {α : Type} (rd : Json K → Option α) (R : Json K → α → Prop) : Prop := ∀ v x, R v x → rd v = some x

theorem reads_num : Reads (K := K) asDouble IsNum := by
  rintro v x (rfl | ⟨i, rfl, rfl⟩) <;> rfl

theorem reads_int : Reads (K := K) asInt IsInt := by
  rintro v x ⟨rfl, h1, h2⟩
  simp only [asInt]
  rw [if_pos ⟨by omega, by omega⟩]

theorem reads_str (fmt : K → String) : Reads (asString fmt) IsStr := by
  rintro v x rfl; rfl

theorem reads_bool : Reads (K := K) asBool IsBool := by
  rintro v x rfl; rfl

theorem mapM_reads {α : Type} {rd : Json K → Option α} {R : Json K → α → Prop} (h : Reads rd R) (vs : List (Json K)) (l : List α)
    (hf : List.Forall₂ R vs l) : vs.mapM rd = some l := by
  induction hf with
  | nil => rfl
  | cons h1 _ ih => simp [List.mapM_cons, h _ _ h1, ih]

theorem reads_list {α : Type} {rd : Json K → Option α} {R : Json K → α → Prop} (h : Reads rd R) : Reads (asList rd) (ListOf R) := by
  rintro v l ⟨vs, rfl, hf⟩
  exact mapM_reads h vs l hf

theorem reads_listN {α : Type} {rd : Json K → Option α} {R : Json K → α → Prop} (h : Reads rd R) (n : Nat) :
    Reads (asListN rd n) (fun v l => ListOf R v l ∧ l.length = n) := by
  rintro v l ⟨⟨vs, rfl, hf⟩, hl⟩
  have : vs.length = n := by rw [hf.length_eq, hl]
  simp only [asListN, Json.elems, this, ne_eq, not_true_eq_false, if_false]
  exact mapM_reads h vs l hf

theorem reads_vec3 : Reads (K := K) asVec3 IsVec3 := by
  rintro v ⟨a, b, c⟩ h
  have := reads_listN (K := K) reads_num 3 v _ ⟨h, rfl⟩
  simp only [asVec3, this]

theorem reads_vec4 : Reads (K := K) asVec4 IsVec4 := by
  rintro v ⟨a, b, c, d⟩ h
  have := reads_listN (K := K) reads_num 4 v _ ⟨h, rfl⟩
  simp only [asVec4, this]

theorem childReq_has {α : Type} {rd : Json K → Option α} {R : Json K → α → Prop} (h : Reads rd R) {l : List (String × Json K)}
    (hl : Keys l) {n : String} {x : α} (hx : Has l n R x) : childReq rd (.obj l) n = some x := by
  obtain ⟨v, hv, hr⟩ := hx
  simp only [childReq, Json.find?, lookup_mem l hl n v hv]
  exact h v x hr

theorem child_dflt {α : Type} {rd : Json K → Option α} {R : Json K → α → Prop} (h : Reads rd R) {l : List (String × Json K)}
    (hl : Keys l) {n : String} {df x : α} (hx : Dflt l n R df x) : child rd (.obj l) n df = some x := by
  rcases hx with ⟨v, hv, hr⟩ | ⟨hn, rfl⟩
  · simp only [child, Json.find?, lookup_mem l hl n v hv]
    exact h v x hr
  · simp only [child, Json.find?, lookup_notMem l n hn]

theorem only_ok {l : List (String × Json K)} {names fields : List String} (h : Only l names) (hs : names ⊆ fields) :
    onlyMembers (.obj l) fields = some () := by
  show (if (l.all fun p => fields.contains p.1) = true then some () else none) = some ()
  rw [if_pos]
  simp only [List.all_eq_true, List.contains_iff_mem]
  exact fun p hp => hs (h p hp)

theorem reads_solver (fmt : K → String) : Reads (asSolver fmt) SolverIs := by
  rintro v n (⟨rfl, rfl⟩ | ⟨rfl, rfl⟩) <;> rfl

end lemmas

section quaternions
variable {K : Type} [Field K] [LinearOrder K] [FloorRing K]

theorem quat_re (w x y z : K) : (quat w x y z).re = w := rfl
theorem quat_imI (w x y z : K) : (quat w x y z).imI = x := rfl
theorem quat_imJ (w x y z : K) : (quat w x y z).imJ = y := rfl
theorem quat_imK (w x y z : K) : (quat w x y z).imK = z := rfl

/-- C119: the matrix made from a unit quaternion rotates as the quaternion. -/
theorem C119_rotates (w x y z : K) (h : w * w + x * x + y * y + z * z = 1) :
    Rotates (quatMatrix (w, x, y, z)) (quat w x y z) := by
  intro u
  ext <;> simp [pureQuat, quatMatrix, quat_re, quat_imI, quat_imJ, quat_imK]
  · ring
  · linear_combination (-u 0) * h
  · linear_combination (-u 1) * h
  · linear_combination (-u 2) * h

theorem rotates_unique (m m' : Fin 3 → Fin 3 → K) (q : Quaternion K) (h : Rotates m q) (h' : Rotates m' q) : m = m' := by
  have key : ∀ u : Fin 3 → K, pureQuat (fun i => m i 0 * u 0 + m i 1 * u 1 + m i 2 * u 2) =
      pureQuat (fun i => m' i 0 * u 0 + m' i 1 * u 1 + m' i 2 * u 2) := fun u => (h u).trans (h' u).symm
  have h0 := key ![1, 0, 0]
  have h1 := key ![0, 1, 0]
  have h2 := key ![0, 0, 1]
  simp [pureQuat, Quaternion.ext_iff, quat_re, quat_imI, quat_imJ, quat_imK] at h0 h1 h2
  obtain ⟨a0, a1, a2⟩ := h0
  obtain ⟨b0, b1, b2⟩ := h1
  obtain ⟨c0, c1, c2⟩ := h2
  funext i j
  fin_cases i <;> fin_cases j <;> assumption

/-- C119: the offset is a rotation: lengths are kept and orientation too (orthogonal matrix of determinant one). -/
theorem C119_rotation (xyz : K × K × K) (w x y z : K) (h : w * w + x * x + y * y + z * z = 1) :
    let m := (poseOf xyz (w, x, y, z)).linear
    (∀ i j, m 0 i * m 0 j + m 1 i * m 1 j + m 2 i * m 2 j = if i = j then 1 else 0) ∧
    m 0 0 * (m 1 1 * m 2 2 - m 1 2 * m 2 1) - m 0 1 * (m 1 0 * m 2 2 - m 1 2 * m 2 0) + m 0 2 * (m 1 0 * m 2 1 - m 1 1 * m 2 0) = 1 := by
  refine ⟨fun i j => ?_, ?_⟩
  · fin_cases i <;> fin_cases j <;> simp [poseOf, quatMatrix]
    · linear_combination (-4 * (x * x - (x * x + y * y + z * z))) * h
    · linear_combination (-4 * (x * y)) * h
    · linear_combination (-4 * (x * z)) * h
    · linear_combination (-4 * (y * x)) * h
    · linear_combination (-4 * (y * y - (x * x + y * y + z * z))) * h
    · linear_combination (-4 * (y * z)) * h
    · linear_combination (-4 * (z * x)) * h
    · linear_combination (-4 * (z * y)) * h
    · linear_combination (-4 * (z * z - (x * x + y * y + z * z))) * h
  · simp [poseOf, quatMatrix]
    linear_combination (4 * (x * x + y * y + z * z)) * h

/-- C119 fails for other quaternions: the matrix is a rotation only for a unit quaternion or one without vector part.  Nothing
checks or normalises the values, so that a rounded quaternion gives an offset that is no rigid transform. -/
theorem C119_violated_unnormalised [IsStrictOrderedRing K] (xyz : K × K × K) (w x y z : K) (h : w * w + x * x + y * y + z * z ≠ 1)
    (hv : ¬ (x = 0 ∧ y = 0 ∧ z = 0)) :
    let m := (poseOf xyz (w, x, y, z)).linear
    ¬ ∀ i j, m 0 i * m 0 j + m 1 i * m 1 j + m 2 i * m 2 j = if i = j then 1 else 0 := by
  intro m hm
  have h0 := hm 0 0
  have h1 := hm 1 1
  have h2 := hm 2 2
  simp [m, poseOf, quatMatrix] at h0 h1 h2
  have e0 : (y * y + z * z) * (w * w + x * x + y * y + z * z - 1) = 0 := by linear_combination h0 / 4
  have e1 : (x * x + z * z) * (w * w + x * x + y * y + z * z - 1) = 0 := by linear_combination h1 / 4
  have e2 : (x * x + y * y) * (w * w + x * x + y * y + z * z - 1) = 0 := by linear_combination h2 / 4
  have hn : w * w + x * x + y * y + z * z - 1 ≠ 0 := sub_ne_zero.2 h
  have f0 := (mul_eq_zero.1 e0).resolve_right hn
  have f1 := (mul_eq_zero.1 e1).resolve_right hn
  have f2 := (mul_eq_zero.1 e2).resolve_right hn
  have g : ∀ a b : K, a * a + b * b = 0 → a = 0 := fun a b hab =>
    mul_self_eq_zero.1 (by linarith [mul_self_nonneg a, mul_self_nonneg b])
  exact hv ⟨g x z f1, g y z f0, g z y (by linear_combination f0)⟩

end quaternions

section reading
variable {K : Type} [Field K] [LinearOrder K] [IsStrictOrderedRing K] [FloorRing K]

theorem basic_reads (fmt : K → String) (l : List (String × Json K)) (b : Basic K) (h : BasicIs l b) : readBasic fmt (.obj l) = some b := by
  unfold readBasic
  rw [childReq_has reads_int h.keys h.nSteps, childReq_has (reads_str fmt) h.keys h.manip,
    child_dflt (reads_list reads_int) h.keys h.fixedSteps, child_dflt (reads_list reads_int) h.keys h.fixedDofs,
    child_dflt (reads_solver fmt) h.keys h.solver, child_dflt reads_num h.keys h.dtLower, child_dflt reads_num h.keys h.dtUpper,
    child_dflt reads_bool h.keys h.useTime]
  exact if_neg (by push Not; exact h.limits)

theorem opt_reads (o : Opt K) (l : List (String × Json K)) (p : Opt K) (h : OptIs o l p) : readOpt o (.obj l) = some p := by
  unfold readOpt
  rw [child_dflt reads_num h.keys h.improveRatioThreshold, child_dflt reads_num h.keys h.minTrustBoxSize,
    child_dflt reads_num h.keys h.minApproxImprove, child_dflt reads_num h.keys h.minApproxImproveFrac,
    child_dflt reads_int h.keys h.maxIter, child_dflt reads_num h.keys h.trustShrinkRatio,
    child_dflt reads_num h.keys h.trustExpandRatio, child_dflt reads_num h.keys h.cntTolerance,
    child_dflt reads_num h.keys h.maxMeritCoeffIncreases, child_dflt reads_num h.keys h.meritCoeffIncreaseRatio,
    child_dflt reads_num h.keys h.maxTime, child_dflt reads_num h.keys h.initialMeritErrorCoeff,
    child_dflt reads_bool h.keys h.inflateIndividually, child_dflt reads_num h.keys h.trustBoxSize]
  show some _ = some p
  rw [← h.maxQpSolverFailures]

theorem offset_eq (l : List (String × Json K)) (hl : Keys l) (a b : String) (o : Pose K) (h : OffsetIs l a b o) :
    ∃ xyz wxyz, child asVec3 (.obj l) a (0, 0, 0) = some xyz ∧ child asVec4 (.obj l) b (1, 0, 0, 0) = some wxyz ∧ poseOf xyz wxyz = o := by
  obtain ⟨h1, w, x, y, z, h2, hn, hr⟩ := h
  refine ⟨_, _, child_dflt reads_vec3 hl h1, child_dflt reads_vec4 hl h2, ?_⟩
  obtain ⟨lin, tr⟩ := o
  have e1 : quatMatrix (w, x, y, z) = lin := rotates_unique _ _ _ (C119_rotates w x y z hn) hr
  have e2 : ![tr 0, tr 1, tr 2] = tr := by funext i; fin_cases i <;> rfl
  simp only [poseOf, e1, e2]

theorem pose_reads (dynamic : Bool) (fmt : K → String) (g : Group) (n : Int) (l : List (String × Json K)) (i : PoseInfo K)
    (h : PoseIs dynamic g n l i) : readPose dynamic fmt g n (.obj l) = some i := by
  unfold readPose
  obtain ⟨a, b, ha, hb, hab⟩ := offset_eq l h.keys _ _ _ h.sourceOffset
  obtain ⟨c, d, hc, hd, hcd⟩ := offset_eq l h.keys _ _ _ h.targetOffset
  rw [child_dflt reads_int h.keys h.timestep, child_dflt reads_vec3 h.keys h.posCoeffs, child_dflt reads_vec3 h.keys h.rotCoeffs,
    childReq_has (reads_str fmt) h.keys h.source, childReq_has (reads_str fmt) h.keys h.target, ha, hb, hc, hd]
  have ho : onlyMembers (.obj l) poseFields = some () := only_ok h.only (List.Subset.refl _)
  have hm := h.moving
  obtain ⟨h1, h2⟩ := h.links
  simp only [Option.bind_eq_bind, Option.bind_some, h1, h2, ho, hab, hcd]
  cases dynamic <;> cases hs : g.isActive i.source <;> cases ht : g.isActive i.target <;> simp_all

theorem vel_reads (fmt : K → String) (g : Group) (n : Int) (l : List (String × Json K)) (i : VelInfo K)
    (h : VelIs g n l i) : readVel fmt g n (.obj l) = some i := by
  unfold readVel
  rw [childReq_has reads_int h.keys h.first, childReq_has reads_int h.keys h.last, childReq_has reads_num h.keys h.limit,
    childReq_has (reads_str fmt) h.keys h.link, only_ok h.only (List.Subset.refl _)]
  obtain ⟨h1, h2, h3⟩ := h.range
  simp only [Option.bind_eq_bind, Option.bind_some]
  rw [if_neg (by push Not; exact ⟨h1, by omega, h2⟩), if_neg (by push Not; exact ⟨by omega, by omega⟩), if_neg (by simpa using h.active)]

theorem joint_reads (k : Kind) (g : Group) (n : Int) (l : List (String × Json K)) (i : JointInfo K)
    (h : JointIs g n l i) : readJoint k g n (.obj l) = some i := by
  unfold readJoint
  rw [childReq_has (reads_list reads_num) h.keys h.targets, child_dflt (reads_list reads_num) h.keys h.coeffs,
    child_dflt (reads_list reads_num) h.keys h.upper, child_dflt (reads_list reads_num) h.keys h.lower,
    child_dflt reads_int h.keys h.first, child_dflt reads_int h.keys h.last,
    only_ok h.only (by cases k <;> simp [jointFields])]
  rfl

theorem total_reads (l : List (String × Json K)) (c d : K) (h : TotalIs l c d) : readTotal (.obj l) = some (c, d) := by
  unfold readTotal
  rw [child_dflt reads_num h.keys h.coeff, child_dflt reads_num h.keys h.limit, only_ok h.only (List.Subset.refl _)]
  rfl

/-- The partners of one entry of `pairs` are set one after the other. -/
theorem pair_fold (isZero : K → Bool) (link : String) (c d : K) (others : List String) :
    ∀ st : List ((String × String) × K) × CoeffData String K,
    let r := others.foldl (fun st p => (tableAssign (orderedPair link p) d st.1, st.2.set isZero link p c)) st
    r.2.dflt = st.2.dflt ∧ ∀ a b,
      tableFind r.1 (orderedPair a b) = (if (link = a ∧ b ∈ others) ∨ (link = b ∧ a ∈ others) then some d else tableFind st.1 (orderedPair a b)) ∧
      tableFind r.2.table (orderedPair a b) = (if (link = a ∧ b ∈ others) ∨ (link = b ∧ a ∈ others) then some c else tableFind st.2.table (orderedPair a b)) := by
  induction others with
  | nil => intro st; simp
  | cons p others ih =>
    intro st
    obtain ⟨i1, i2⟩ := ih (tableAssign (orderedPair link p) d st.1, st.2.set isZero link p c)
    refine ⟨i1, fun a b => ?_⟩
    obtain ⟨j1, j2⟩ := i2 a b
    simp only [List.foldl_cons]
    rw [j1, j2]
    simp only [CoeffData.set, find_assign, orderedPair_eq, List.mem_cons]
    by_cases h1 : (link = a ∧ b ∈ others) ∨ (link = b ∧ a ∈ others)
    · have h2 : (link = a ∧ (b = p ∨ b ∈ others)) ∨ (link = b ∧ (a = p ∨ a ∈ others)) := by tauto
      simp [h1, h2]
    · by_cases h3 : (link = a ∧ p = b) ∨ (link = b ∧ p = a)
      · have h2 : (link = a ∧ (b = p ∨ b ∈ others)) ∨ (link = b ∧ (a = p ∨ a ∈ others)) := by
          rcases h3 with ⟨x, y⟩ | ⟨x, y⟩ <;> simp [x, y]
        simp [h1, h2, h3]
      · have h2 : ¬ ((link = a ∧ (b = p ∨ b ∈ others)) ∨ (link = b ∧ (a = p ∨ a ∈ others))) := by
          have e1 : (b = p) = (p = b) := propext eq_comm
          have e2 : (a = p) = (p = a) := propext eq_comm
          rw [e1, e2]; tauto
        simp [h1, h2, h3]

theorem pair_reads (env : Env K) (v : Json K) (p : PairSpec K) (h : PairIs v p) (st : List ((String × String) × K) × CoeffData String K) :
    readPair env st v = some (p.others.foldl (fun st q =>
      (tableAssign (orderedPair p.link q) p.margin st.1, st.2.set env.isZero p.link q p.coeff)) st) := by
  obtain ⟨l, rfl, hk, h1, h2, h3, h4, h5⟩ := h
  have e1 := childReq_has (reads_str env.fmt) hk h1
  have e2 := childReq_has (reads_list (reads_str env.fmt)) hk h2
  have e4 := childReq_has reads_num hk h4
  have e5 := childReq_has reads_num hk h5
  obtain ⟨v1, m1, -⟩ := h1
  obtain ⟨v2, m2, -⟩ := h2
  have f1 : (Json.obj l).find? "link" = some (some v1) := by simp only [Json.find?, lookup_mem l hk _ _ m1]
  have f2 : (Json.obj l).find? "pair" = some (some v2) := by simp only [Json.find?, lookup_mem l hk _ _ m2]
  unfold readPair
  rw [f1, f2]
  simp only [e1, e2, e4, e5, Option.bind_eq_bind, Option.bind_some]
  rw [if_neg (by simpa using h3)]

theorem pairs_reads (env : Env K) (c0 : K) (vs : List (Json K)) (ps : List (PairSpec K)) (h : List.Forall₂ PairIs vs ps) :
    ∃ mt ct, vs.foldlM (readPair env) ([], CoeffData.new c0) = some (mt, ct) ∧ ct.dflt = c0 ∧ ∀ a b,
      tableFind mt (orderedPair a b) = (lastPair ps a b).map PairSpec.margin ∧
      tableFind ct.table (orderedPair a b) = (lastPair ps a b).map PairSpec.coeff := by
  have key : ∀ vs ps, List.Forall₂ PairIs vs ps → ∀ st : List ((String × String) × K) × CoeffData String K,
      ∃ r, vs.foldlM (readPair env) st = some r ∧ r.2.dflt = st.2.dflt ∧ ∀ a b,
        tableFind r.1 (orderedPair a b) = ((lastPair ps a b).map PairSpec.margin <|> tableFind st.1 (orderedPair a b)) ∧
        tableFind r.2.table (orderedPair a b) = ((lastPair ps a b).map PairSpec.coeff <|> tableFind st.2.table (orderedPair a b)) := by
    intro vs ps h
    induction h with
    | nil => intro st; exact ⟨st, rfl, rfl, fun a b => by simp [lastPair]⟩
    | @cons v p vs ps h1 h2 ih =>
      intro st
      rw [List.foldlM_cons, pair_reads env v p h1 st]
      obtain ⟨f1, f2⟩ := pair_fold env.isZero p.link p.coeff p.margin p.others st
      generalize p.others.foldl (fun st q => (tableAssign (orderedPair p.link q) p.margin st.1, st.2.set env.isZero p.link q p.coeff)) st = st' at f1 f2 ⊢
      obtain ⟨r, hr, hd, ht⟩ := ih st'
      refine ⟨r, hr, hd.trans f1, fun a b => ?_⟩
      obtain ⟨t1, t2⟩ := ht a b
      obtain ⟨g1, g2⟩ := f2 a b
      rw [t1, t2, g1, g2]
      have e : lastPair (p :: ps) a b = (lastPair ps a b <|> if p.Covers a b then some p else none) := by
        simp only [lastPair, List.reverse_cons, List.find?_append, List.find?_singleton]
        by_cases hc : p.Covers a b <;> simp [hc, Option.orElse_eq_or]
      rw [e]
      by_cases hc : p.Covers a b
      · have hc' := hc
        unfold PairSpec.Covers at hc'
        rw [if_pos hc', if_pos hc', if_pos hc]
        cases lastPair ps a b <;> simp
      · have hc' := hc
        unfold PairSpec.Covers at hc'
        rw [if_neg hc', if_neg hc', if_neg hc]
        cases lastPair ps a b <;> simp
  obtain ⟨⟨mt, ct⟩, h1, h2, h3⟩ := key vs ps h ([], CoeffData.new c0)
  refine ⟨mt, ct, h1, h2, fun a b => ?_⟩
  obtain ⟨t1, t2⟩ := h3 a b
  simp only at t1 t2
  rw [t1, t2]
  cases lastPair ps a b <;> simp [tableFind, CoeffData.new]

theorem coll_reads (env : Env K) (n : Int) (l : List (String × Json K)) (c : CollInfo K) (h : CollIs n l c) :
    ∃ c', readColl env n (.obj l) = some c' ∧ CollIs n l c' := by
  obtain ⟨ps, hp, hc⟩ := h.pairs
  have hpairs : ∃ mt ct, readPairs env c.coeff.dflt (.obj l) = some (mt, ct) ∧ ct.dflt = c.coeff.dflt ∧ ∀ a b,
      tableFind mt (orderedPair a b) = (lastPair ps a b).map PairSpec.margin ∧
      tableFind ct.table (orderedPair a b) = (lastPair ps a b).map PairSpec.coeff := by
    rcases hp with ⟨v, hv, vs, rfl, hf⟩ | ⟨hn, rfl⟩
    · simp only [readPairs, Json.find?, lookup_mem l h.keys _ _ hv]
      exact pairs_reads env _ vs ps hf
    · simp only [readPairs, Json.find?, lookup_notMem l _ hn]
      exact ⟨_, _, rfl, rfl, fun a b => ⟨rfl, rfl⟩⟩
  obtain ⟨mt, ct, hm, hd, ht⟩ := hpairs
  have hbuf : child asDouble (.obj l) "safety_margin_buffer" ((1 : K) / 2) = some (1 / 2) := by
    have : ∀ v, ("safety_margin_buffer", v) ∉ l := fun v hv => by
      have := h.only _ hv
      simp at this
    simp only [child, Json.find?, lookup_notMem l _ this]
  refine ⟨⟨c.evaluator, c.first, c.last, c.segment, 1 / 2, c.fixedSteps, c.contactType, c.margin, mt, ct⟩, ?_, ?_⟩
  · unfold readColl
    rw [child_dflt reads_int h.keys h.evaluator.1, child_dflt reads_int h.keys h.first, child_dflt reads_int h.keys h.last,
      child_dflt reads_num h.keys h.segment.1, hbuf, child_dflt (reads_list reads_int) h.keys h.fixedSteps.1,
      child_dflt reads_int h.keys h.contactType.1, childReq_has reads_num h.keys h.coeff, childReq_has reads_num h.keys h.margin,
      only_ok h.only (by simp [collFields])]
    obtain ⟨r1, r2, r3⟩ := h.range
    obtain ⟨q1, q2⟩ := h.contactType.2
    simp only [Option.bind_eq_bind, Option.bind_some]
    rw [if_neg (by push Not; exact ⟨h.segment.2, ⟨r1, by omega⟩, ⟨r2, r3⟩, h.evaluator.2.2, by positivity⟩),
      if_neg (by simpa using h.fixedSteps.2), if_neg (by push Not; exact ⟨q1, by omega⟩)]
    simp only [hm, Option.bind_some]
  · refine { h with buffer := rfl, coeff := ?_, pairs := ⟨ps, hp, fun a b => ?_⟩ }
    · simpa [hd] using h.coeff
    · obtain ⟨t1, t2⟩ := ht a b
      simp [CoeffData.get, CollInfo.marginOf, t1, t2]

theorem body_reads (env : Env K) (g : Group) (n : Int) (k : TermKind) (v : Json K) (p : List (String × Json K))
    (hv : v.find? "params" = some (some (.obj p))) (b : Body K) (h : BodyIs g n k p b) :
    ∃ b', readBody env g n k v = some b' ∧ BodyIs g n k p b' := by
  unfold readBody
  rw [hv]
  cases b with
  | pose i =>
    rcases h with ⟨rfl, h⟩ | ⟨rfl, h⟩
    · exact ⟨.pose i, by simp only [pose_reads false env.fmt g n p i h]; rfl, Or.inl ⟨rfl, h⟩⟩
    · exact ⟨.pose i, by simp only [pose_reads true env.fmt g n p i h]; rfl, Or.inr ⟨rfl, h⟩⟩
  | vel i =>
    obtain ⟨rfl, h⟩ := h
    exact ⟨.vel i, by simp only [vel_reads env.fmt g n p i h]; rfl, rfl, h⟩
  | joint i =>
    obtain ⟨hk, h⟩ := h
    refine ⟨.joint i, ?_, hk, h⟩
    rcases hk with rfl | rfl | rfl | rfl <;> simp only [joint_reads _ g n p i h] <;> rfl
  | coll c =>
    obtain ⟨rfl, h⟩ := h
    obtain ⟨c', h1, h2⟩ := coll_reads env n p c h
    exact ⟨.coll c', by simp only [h1]; rfl, rfl, h2⟩
  | total c d =>
    obtain ⟨rfl, h⟩ := h
    exact ⟨.total c d, by simp only [total_reads p c d h]; rfl, rfl, h⟩

theorem fromName_iff (s : String) (k : TermKind) : fromName s = some k ↔ (s, k) ∈ kindNames := by
  constructor
  · intro h
    unfold fromName at h
    split at h <;> first | (injection h with h; subst h; simp [kindNames]) | simp at h
  · intro h
    simp only [kindNames, List.mem_cons, Prod.mk.injEq, List.not_mem_nil, or_false] at h
    rcases h with ⟨rfl, rfl⟩ | ⟨rfl, rfl⟩ | ⟨rfl, rfl⟩ | ⟨rfl, rfl⟩ | ⟨rfl, rfl⟩ | ⟨rfl, rfl⟩ | ⟨rfl, rfl⟩ | ⟨rfl, rfl⟩ | ⟨rfl, rfl⟩ <;> rfl

theorem term_reads (env : Env K) (g : Group) (n : Int) (asCost : Bool) (v : Json K) (t : Entry K) (h : EntryIs g n asCost v t)
    (st : List (Entry K) × Bool) :
    ∃ t', readTerm env g n asCost st v = some (st.1 ++ [t'], st.2 || t'.type.useTime) ∧ EntryIs g n asCost v t' ∧
      t'.type.useTime = t.type.useTime := by
  obtain ⟨l, s, rfl, hk, h1, h2, ⟨p, hp, hb⟩, h3, h4, h5, h6⟩ := h
  have hf : (Json.obj l).find? "params" = some (some (.obj p)) := by simp only [Json.find?, lookup_mem l hk _ _ hp]
  obtain ⟨b', e1, e2⟩ := body_reads env g n t.kind (.obj l) p hf t.body hb
  refine ⟨⟨t.kind, ⟨asCost, !asCost, t.type.useTime⟩, t.name, b'⟩, ?_, ⟨l, s, rfl, hk, h1, h2, ⟨p, hp, e2⟩, h3, rfl, rfl, h6⟩, rfl⟩
  unfold readTerm
  rw [childReq_has (reads_str env.fmt) hk h1, child_dflt reads_bool hk h6]
  simp only [Option.bind_eq_bind, Option.bind_some, (fromName_iff s t.kind).2 h2, e1, child_dflt (reads_str env.fmt) hk h3]

theorem terms_reads (env : Env K) (g : Group) (n : Int) (asCost : Bool) (vs : List (Json K)) (ts : List (Entry K))
    (h : List.Forall₂ (EntryIs g n asCost) vs ts) : ∀ st : List (Entry K) × Bool,
    ∃ ts', vs.foldlM (readTerm env g n asCost) st = some (st.1 ++ ts', st.2 || ts'.any fun t => t.type.useTime) ∧
      List.Forall₂ (EntryIs g n asCost) vs ts' ∧ (ts'.any fun t => t.type.useTime) = ts.any fun t => t.type.useTime := by
  induction h with
  | nil => intro st; exact ⟨[], by simp, .nil, rfl⟩
  | @cons v t vs ts h1 h2 ih =>
    intro st
    obtain ⟨t', e1, e2, e3⟩ := term_reads env g n asCost v t h1 st
    obtain ⟨ts', f1, f2, f3⟩ := ih (st.1 ++ [t'], st.2 || t'.type.useTime)
    refine ⟨t' :: ts', ?_, .cons e2 f2, by simp [e3, f3]⟩
    rw [List.foldlM_cons, e1]
    show vs.foldlM (readTerm env g n asCost) (st.1 ++ [t'], st.2 || t'.type.useTime) = _
    rw [f1]
    simp [Bool.or_assoc]

theorem section_reads (env : Env K) (g : Group) (n : Int) (asCost ut : Bool) (l : List (String × Json K)) (hl : Keys l) (name : String)
    (ts : List (Entry K)) (h : Dflt l name (ListOf (EntryIs g n asCost)) [] ts) :
    ∃ ts', child (readTerms env g n asCost ut) (.obj l) name ([], ut) = some (ts', ut || ts'.any fun t => t.type.useTime) ∧
      Dflt l name (ListOf (EntryIs g n asCost)) [] ts' ∧ (ts'.any fun t => t.type.useTime) = ts.any fun t => t.type.useTime := by
  rcases h with ⟨v, hv, vs, rfl, hf⟩ | ⟨hn, rfl⟩
  · obtain ⟨ts', h1, h2, h3⟩ := terms_reads env g n asCost vs ts hf ([], ut)
    refine ⟨ts', ?_, Or.inl ⟨_, hv, vs, rfl, h2⟩, h3⟩
    simp only [child, Json.find?, lookup_mem l hl _ _ hv, readTerms, Json.elems, h1, List.nil_append]
  · refine ⟨[], ?_, Or.inr ⟨hn, rfl⟩, rfl⟩
    simp only [child, Json.find?, lookup_notMem l _ hn, List.any_nil, Bool.or_false]

theorem init_reads (fmt : K → String) (n : Int) (nDof : Nat) (l : List (String × Json K)) (i : InitRead K) (h : InitIs n nDof l i) :
    ∃ i', readInit fmt n nDof (.obj l) = some i' ∧ InitIs n nDof l i' := by
  obtain ⟨s, hs, hi⟩ := h.kind
  have e1 := childReq_has (reads_str fmt) h.keys hs
  have e2 := child_dflt reads_num h.keys h.dt
  obtain ⟨init, dt⟩ := i
  simp only at hi e2
  unfold readInit
  simp only [e1, e2, Option.bind_eq_bind, Option.bind_some]
  cases init with
  | stationary =>
    refine ⟨⟨.stationary, dt⟩, ?_, h⟩
    rw [if_pos hi]
  | given m =>
    obtain ⟨hi, rows, hd, hl, hr, -, -, -⟩ := hi
    obtain ⟨v, hv, vs, rfl, hf⟩ := hd
    have hrows : vs.mapM (asListN asDouble nDof) = some rows := by
      refine mapM_reads (reads_listN reads_num nDof) vs rows ?_
      refine List.forall₂_iff_get.2 ⟨hf.length_eq, fun i a b => ⟨(List.forall₂_iff_get.1 hf).2 i a b, hr _ (List.getElem_mem _)⟩⟩
    have hlen : (vs.length : Int) = n := by rw [hf.length_eq]; exact hl
    refine ⟨⟨.given ⟨n.toNat, nDof, fun i j => (rows.getD i []).getD j 0⟩, dt⟩, ?_, ?_⟩
    · rw [if_neg (by rw [hi]; decide), if_pos hi]
      simp only [Json.find?, lookup_mem l h.keys _ _ hv, Json.elems, hlen, readRows, hrows, ne_eq, not_true_eq_false, if_false, Option.bind_some]
    · refine ⟨h.keys, h.dt, s, hs, hi, rows, ⟨_, hv, vs, rfl, hf⟩, hl, hr, ?_, rfl, ?_⟩
      · show ((n.toNat : Nat) : Int) = n
        omega
      · intro r row c x h1 h2
        simp [List.getD_eq_getElem?_getD, h1, h2]
  | interpolated m =>
    obtain ⟨hi, e, he, hl, -, -, -⟩ := hi
    have e3 := childReq_has (reads_list reads_num) h.keys he
    have hf : ∃ v, (Json.obj l).find? "endpoint" = some (some v) := by
      obtain ⟨v, hv, -⟩ := he
      exact ⟨v, by simp only [Json.find?, lookup_mem l h.keys _ _ hv]⟩
    obtain ⟨v, hf⟩ := hf
    refine ⟨⟨.interpolated ⟨nDof, 1, fun i _ => e.getD i 0⟩, dt⟩, ?_, h.keys, h.dt, s, hs, hi, e, he, hl, rfl, rfl, ?_⟩
    · rw [if_neg (by rw [hi]; decide), if_neg (by rw [hi]; decide), if_pos hi, hf]
      simp only [e3, Option.bind_some]
      rw [if_neg (by simpa using hl)]
    · intro j x hx
      simp [List.getD_eq_getElem?_getD, hx]

/-- C117: every document that follows the format is read, and the result is what the document says, with the documented defaults
for what is left out.  Restricted to the solver names that stand for themselves. -/
theorem C117_reads_partial (env : Env K) (o : Opt K) (v : Json K) (d : Doc K) (h : DocIs env o v d) :
    ∃ d', readDoc env o v = some d' ∧ DocIs env o v d' := by
  obtain ⟨l, rfl, hk, ⟨b, hb, hd⟩, ho, hg, hc, hn, hi⟩ := h
  have r1 : Reads (readBasic env.fmt) (Section BasicIs) := by
    rintro v x ⟨l, rfl, h⟩; exact basic_reads env.fmt l x h
  have r2 : Reads (readOpt o) (Section (OptIs o)) := by
    rintro v x ⟨l, rfl, h⟩; exact opt_reads o l x h
  have hm : d.basic.manip = b.manip := by rw [hd]
  have hs : d.basic.nSteps = b.nSteps := by rw [hd]
  rw [hm] at hg
  rw [hs] at hc hn hi
  obtain ⟨cs, c1, c2, c3⟩ := section_reads env d.group b.nSteps true b.useTime l hk "costs" d.costs hc
  obtain ⟨ns, n1, n2, n3⟩ := section_reads env d.group b.nSteps false (b.useTime || cs.any fun t => t.type.useTime) l hk
    "constraints" d.cnts hn
  obtain ⟨w, hw, li, rfl, hi⟩ := hi
  obtain ⟨i', i1, i2⟩ := init_reads env.fmt b.nSteps d.group.nDof li d.init hi
  have i3 : childReq (readInit env.fmt b.nSteps d.group.nDof) (.obj l) "init_info" = some i' := by
    simp only [childReq, Json.find?, lookup_mem l hk _ _ hw, i1]
  refine ⟨⟨{ b with useTime := (b.useTime || cs.any fun t => t.type.useTime) || ns.any fun t => t.type.useTime }, d.opt, d.group, cs, ns, i'⟩,
    ?_, l, rfl, hk, ⟨b, hb, rfl⟩, ho, hg, c2, n2, _, hw, li, rfl, i2⟩
  unfold readDoc
  simp only [childReq_has r1 hk hb, child_dflt r2 hk ho, Option.bind_eq_bind, Option.bind_some, hg, c1, n1, i3]

end reading

end Verif.JsonRead
