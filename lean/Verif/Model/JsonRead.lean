import Verif.Model.Construct
import Verif.Model.Collision
import Verif.Model.ModelType
import Mathlib.Algebra.Order.Floor.Defs
import Mathlib.Data.String.Basic

/-!
# Reading a problem from JSON

Model of `trajopt/src/json_marshal.cpp`, `trajopt/include/trajopt/json_marshal.hpp` and of the `fromJson` functions in
`trajopt/src/problem_description.cpp` (line numbers without a file name refer to it).

A document is the value made by the parser of jsoncpp; the conversions of `Json::Value` are modelled by their definitions
in that library.  Simplifications: every exception is `none`; numbers are exact; objects are lists of members, looked up by
name, and elements of an object are visited in the order of the list (the library keeps them sorted).  The text a real
number is printed as, the comparison of a coefficient with zero and the kinematic groups are parameters.
-/

namespace Verif.JsonRead

open Verif.Problem Verif.Construct Verif.KinTerms Verif.Traj Verif.Collision

/-- `Json::Value`. -/
inductive Json (K : Type) where
  | null
  | bool (b : Bool)
  | int (i : Int)
  | real (x : K)
  | str (s : String)
  | arr (l : List (Json K))
  | obj (l : List (String × Json K))

/-- `tesseract::kinematics::JointGroup` as far as it is asked here. -/
structure Group where
  nDof : Nat
  hasLink : String → Bool
  isActive : String → Bool
  activeLinks : List String

/-- What reading depends on besides the document. -/
structure Env (K : Type) where
  group : String → Option Group
  isZero : K → Bool
  fmt : K → String

section values
variable {K : Type} [Field K] [LinearOrder K] [FloorRing K]

/-- `Json::Value::isMember` followed by `operator[]`: only objects and null may be asked (`none`: exception). -/
def Json.find? : Json K → String → Option (Option (Json K))
  | .obj l, n => some (l.lookup n)
  | .null, _ => some none
  | _, _ => none

/-- The elements visited by a loop over a `Json::Value`; `size()` is their number. -/
def Json.elems : Json K → List (Json K)
  | .arr l => l
  | .obj l => l.map Prod.snd
  | _ => []

/-- `Json::Value::asBool`, json_marshal.cpp 9-19. -/
def asBool : Json K → Option Bool
  | .null => some false
  | .bool b => some b
  | .int i => some (decide (i ≠ 0))
  | .real x => some (decide (x ≠ 0))
  | _ => none

/-- Conversion of a number to `int`. -/
def truncate (x : K) : Int := if 0 ≤ x then ⌊x⌋ else ⌈x⌉

/-- `Json::Value::asInt`, json_marshal.cpp 21-31. -/
def asInt : Json K → Option Int
  | .null => some 0
  | .bool b => some (if b then 1 else 0)
  | .int i => if -2 ^ 31 ≤ i ∧ i < 2 ^ 31 then some i else none
  | .real x => if ((-2 ^ 31 : Int) : K) ≤ x ∧ x ≤ ((2 ^ 31 - 1 : Int) : K) then some (truncate x) else none
  | _ => none

/-- `Json::Value::asDouble`, json_marshal.cpp 33-43. -/
def asDouble : Json K → Option K
  | .null => some 0
  | .bool b => some (if b then 1 else 0)
  | .int i => some (i : K)
  | .real x => some x
  | _ => none

/-- `Json::Value::asString`, json_marshal.cpp 45-55. -/
def asString (fmt : K → String) : Json K → Option String
  | .null => some ""
  | .bool b => some (if b then "true" else "false")
  | .int i => some (toString i)
  | .real x => some (fmt x)
  | .str s => some s
  | _ => none

/-- `fromJsonArray` without size, json_marshal.hpp 30-41. -/
def asList {α : Type} (rd : Json K → Option α) (v : Json K) : Option (List α) := v.elems.mapM rd

/-- `fromJsonArray` with size, json_marshal.hpp 43-54. -/
def asListN {α : Type} (rd : Json K → Option α) (n : Nat) (v : Json K) : Option (List α) :=
  if v.elems.length ≠ n then none else asList rd v

/-- `fromJson` of `Eigen::Vector3d`, json_marshal.cpp 57-62. -/
def asVec3 (v : Json K) : Option (K × K × K) :=
  match asListN asDouble 3 v with
  | some [a, b, c] => some (a, b, c)
  | _ => none

/-- `fromJson` of `Eigen::Vector4d`, json_marshal.cpp 64-69. -/
def asVec4 (v : Json K) : Option (K × K × K × K) :=
  match asListN asDouble 4 v with
  | some [a, b, c, d] => some (a, b, c, d)
  | _ => none

/-- `childFromJson` with default, json_marshal.hpp 62-74. -/
def child {α : Type} (rd : Json K → Option α) (parent : Json K) (name : String) (df : α) : Option α :=
  match parent.find? name with
  | none => none
  | some none => some df
  | some (some v) => rd v

/-- `childFromJson` without default, json_marshal.hpp 76-88. -/
def childReq {α : Type} (rd : Json K → Option α) (parent : Json K) (name : String) : Option α :=
  match parent.find? name with
  | none => none
  | some none => none
  | some (some v) => rd v

/-- 32-53 `ensure_only_members`. -/
def onlyMembers (v : Json K) (fields : List String) : Option Unit :=
  match v with
  | .obj l => if l.all fun p => fields.contains p.1 then some () else none
  | .arr l => if l.isEmpty then some () else none
  | _ => some ()

/-- `ModelType::fromJson`, trajopt_sco/src/solver_interface.cpp 247-259. -/
def asSolver (fmt : K → String) (v : Json K) : Option Nat :=
  match asString fmt v with
  | none => none
  | some s => match ModelType.ofString s with
    | .ok n => some n
    | _ => none

end values

section sections
variable {K : Type} [Field K] [LinearOrder K] [FloorRing K]

/-- `BasicInfo`, problem_description.hpp 123-157. -/
structure Basic (K : Type) where
  nSteps : Int
  manip : String
  fixedSteps : List Int
  fixedDofs : List Int
  solver : Nat
  dtLower : K
  dtUpper : K
  useTime : Bool

/-- 118-134 `readBasicInfo`; the solver is `AUTO_SOLVER` before. -/
def readBasic (fmt : K → String) (v : Json K) : Option (Basic K) := do
  let nSteps ← childReq asInt v "n_steps"
  let manip ← childReq (asString fmt) v "manip"
  let fixedSteps ← child (asList asInt) v "fixed_timesteps" []
  let fixedDofs ← child (asList asInt) v "fixed_dofs" []
  let solver ← child (asSolver fmt) v "convex_solver" ModelType.Solver.autoSolver.value
  let dtLower ← child asDouble v "dt_lower_lim" 1
  let dtUpper ← child asDouble v "dt_upper_lim" 1
  let useTime ← child asBool v "use_time" false
  if dtLower ≤ 0 ∨ dtUpper < dtLower then none
  else some ⟨nSteps, manip, fixedSteps, fixedDofs, solver, dtLower, dtUpper, useTime⟩

/-- The members of `BasicTrustRegionSQPParameters` (optimizers.hpp) without those for logging. -/
structure Opt (K : Type) where
  improveRatioThreshold : K
  minTrustBoxSize : K
  minApproxImprove : K
  minApproxImproveFrac : K
  maxIter : Int
  trustShrinkRatio : K
  trustExpandRatio : K
  cntTolerance : K
  maxMeritCoeffIncreases : K
  maxQpSolverFailures : Int
  meritCoeffIncreaseRatio : K
  maxTime : K
  initialMeritErrorCoeff : K
  inflateIndividually : Bool
  trustBoxSize : K

/-- 136-160 `readOptInfo`; `o` are the values before. -/
def readOpt (o : Opt K) (v : Json K) : Option (Opt K) := do
  let a ← child asDouble v "improve_ratio_threshold" o.improveRatioThreshold
  let b ← child asDouble v "min_trust_box_size" o.minTrustBoxSize
  let c ← child asDouble v "min_approx_improve" o.minApproxImprove
  let d ← child asDouble v "min_approx_improve_frac" o.minApproxImproveFrac
  let e ← child asInt v "max_iter" o.maxIter
  let f ← child asDouble v "trust_shrink_ratio" o.trustShrinkRatio
  let g ← child asDouble v "trust_expand_ratio" o.trustExpandRatio
  let h ← child asDouble v "cnt_tolerance" o.cntTolerance
  let i ← child asDouble v "max_merit_coeff_increases" o.maxMeritCoeffIncreases
  let j ← child asDouble v "merit_coeff_increase_ratio" o.meritCoeffIncreaseRatio
  let k ← child asDouble v "max_time" o.maxTime
  let l ← child asDouble v "initial_merit_error_coeff" o.initialMeritErrorCoeff
  let m ← child asBool v "inflate_constraints_individually" o.inflateIndividually
  let n ← child asDouble v "trust_box_size" o.trustBoxSize
  some ⟨a, b, c, d, e, f, g, h, i, o.maxQpSolverFailures, j, k, l, m, n⟩

/-- `InitInfo` as read; the endpoint is a column. -/
structure InitRead (K : Type) where
  init : Init K
  dt : K

/-- 247-253: the rows of `data`; only a list can be indexed. -/
def readRows (nDof : Nat) (v : Json K) : Option (List (List K)) :=
  match v with
  | .arr l => l.mapM (asListN asDouble nDof)
  | v => if v.elems.isEmpty then some [] else none

/-- 222-270 `readInitInfo`; `boost::iequals` compares without regard to case. -/
def readInit (fmt : K → String) (nSteps : Int) (nDof : Nat) (v : Json K) : Option (InitRead K) := do
  let type ← childReq (asString fmt) v "type"
  let dt ← child asDouble v "dt" 1
  if type.toLower = "stationary" then some ⟨.stationary, dt⟩
  else if type.toLower = "given_traj" then
    match v.find? "data" with
    | some (some vdata) =>
      if (vdata.elems.length : Int) ≠ nSteps then none
      else
        let rows ← readRows nDof vdata
        some ⟨.given ⟨nSteps.toNat, nDof, fun i j => (rows.getD i []).getD j 0⟩, dt⟩
    | _ => none
  else if type.toLower = "joint_interpolated" then
    match v.find? "endpoint" with
    | some (some _) => do
      let e ← childReq (asList asDouble) v "endpoint"
      if e.length ≠ nDof then none else some ⟨.interpolated ⟨nDof, 1, fun i _ => e.getD i 0⟩, dt⟩
    | _ => none
  else none

end sections

section terms
variable {K : Type} [Field K] [LinearOrder K] [FloorRing K]

/-- A transform: linear part and translation. -/
structure Pose (K : Type) where
  linear : Fin 3 → Fin 3 → K
  translation : Fin 3 → K

/-- `Eigen::Quaterniond(w, x, y, z).matrix()`. -/
def quatMatrix (q : K × K × K × K) : Fin 3 → Fin 3 → K :=
  let (w, x, y, z) := q
  ![![1 - (2 * y * y + 2 * z * z), 2 * y * x - 2 * z * w, 2 * z * x + 2 * y * w],
    ![2 * y * x + 2 * z * w, 1 - (2 * x * x + 2 * z * z), 2 * z * y - 2 * x * w],
    ![2 * z * x - 2 * y * w, 2 * z * y + 2 * x * w, 1 - (2 * x * x + 2 * y * y)]]

/-- 706-717 and 853-865. -/
def poseOf (xyz : K × K × K) (wxyz : K × K × K × K) : Pose K := ⟨quatMatrix wxyz, ![xyz.1, xyz.2.1, xyz.2.2]⟩

/-- Parameters of `CartPoseTermInfo` and `DynamicCartPoseTermInfo` that are read. -/
structure PoseInfo (K : Type) where
  timestep : Int
  posCoeffs : K × K × K
  rotCoeffs : K × K × K
  source : String
  target : String
  sourceOffset : Pose K
  targetOffset : Pose K

/-- The names of 739-747 and 889-897. -/
def poseFields : List String := ["timestep", "pos_coeffs", "rot_coeffs", "source_frame", "target_frame", "source_frame_offset_xyz",
  "source_frame_offset_wxyz", "target_frame_offset_xyz", "target_frame_offset_wxyz"]

/-- 685-749 (`dynamic`) and 832-899: both frames have to move, or exactly one. -/
def readPose (dynamic : Bool) (fmt : K → String) (g : Group) (nSteps : Int) (p : Json K) : Option (PoseInfo K) := do
  let timestep ← child asInt p "timestep" (nSteps - 1)
  let pos ← child asVec3 p "pos_coeffs" (1, 1, 1)
  let rot ← child asVec3 p "rot_coeffs" (1, 1, 1)
  let source ← childReq (asString fmt) p "source_frame"
  let target ← childReq (asString fmt) p "target_frame"
  let sxyz ← child asVec3 p "source_frame_offset_xyz" (0, 0, 0)
  let swxyz ← child asVec4 p "source_frame_offset_wxyz" (1, 0, 0, 0)
  let txyz ← child asVec3 p "target_frame_offset_xyz" (0, 0, 0)
  let twxyz ← child asVec4 p "target_frame_offset_wxyz" (1, 0, 0, 0)
  if !g.hasLink source then none
  else if !g.hasLink target then none
  else if dynamic && !(g.isActive source && g.isActive target) then none
  else if !dynamic && (g.isActive source && g.isActive target) then none
  else if !dynamic && (!g.isActive source && !g.isActive target) then none
  else do
    onlyMembers p poseFields
    some ⟨timestep, pos, rot, source, target, poseOf sxyz swxyz, poseOf txyz twxyz⟩

/-- Parameters of `CartVelTermInfo`. -/
structure VelInfo (K : Type) where
  first : Int
  last : Int
  limit : K
  link : String

/-- 989-1009. -/
def readVel (fmt : K → String) (g : Group) (nSteps : Int) (p : Json K) : Option (VelInfo K) := do
  let first ← childReq asInt p "first_step"
  let last ← childReq asInt p "last_step"
  let limit ← childReq asDouble p "max_displacement"
  if ¬ (0 ≤ first ∧ first ≤ nSteps - 1 ∧ first < last) then none
  else if ¬ (0 < last ∧ last ≤ nSteps - 1) then none
  else do
    let link ← childReq (asString fmt) p "link"
    if link ∉ g.activeLinks then none
    else do
      onlyMembers p ["first_step", "last_step", "max_displacement", "link"]
      some ⟨first, last, limit, link⟩

/-- The names of 1074, 1193, 1389, 1511. -/
def jointFields : Kind → List String
  | .vel | .acc => ["coeffs", "first_step", "last_step", "targets", "lower_tols", "upper_tols", "use_time"]
  | _ => ["coeffs", "first_step", "last_step", "targets", "lower_tols", "upper_tols"]

/-- 1059-1076, 1178-1195, 1374-1391, 1495-1513. -/
def readJoint (k : Kind) (g : Group) (nSteps : Int) (p : Json K) : Option (JointInfo K) := do
  let targets ← childReq (asList asDouble) p "targets"
  let coeffs ← child (asList asDouble) p "coeffs" (List.replicate g.nDof 1)
  let upper ← child (asList asDouble) p "upper_tols" (List.replicate g.nDof 0)
  let lower ← child (asList asDouble) p "lower_tols" (List.replicate g.nDof 0)
  let first ← child asInt p "first_step" 0
  let last ← child asInt p "last_step" (nSteps - 1)
  onlyMembers p (jointFields k)
  some ⟨coeffs, targets, upper, lower, first, last⟩

/-- Parameters of `CollisionTermInfo`: margins and coefficients with their defaults and for pairs. -/
structure CollInfo (K : Type) where
  evaluator : Int
  first : Int
  last : Int
  segment : K
  buffer : K
  fixedSteps : List Int
  contactType : Int
  margin : K
  marginTable : List ((String × String) × K)
  coeff : CoeffData String K

/-- `CollisionMarginData::getCollisionMargin` (tesseract) on the data of the term. -/
def CollInfo.marginOf (c : CollInfo K) (a b : String) : K := (tableFind c.marginTable (orderedPair a b)).getD c.margin

/-- 1664-1699: one entry of `pairs`. -/
def readPair (env : Env K) (st : List ((String × String) × K) × CoeffData String K) (v : Json K) :
    Option (List ((String × String) × K) × CoeffData String K) :=
  match v.find? "link", v.find? "pair" with
  | some (some _), some (some _) => do
    let link ← childReq (asString env.fmt) v "link"
    let pair ← childReq (asList (asString env.fmt)) v "pair"
    if pair.isEmpty then none
    else do
      let c ← childReq asDouble v "coeffs"
      let d ← childReq asDouble v "dist_pen"
      some (pair.foldl (fun st p => (tableAssign (orderedPair link p) d st.1, st.2.set env.isZero link p c)) st)
  | _, _ => none

/-- 1658-1699: the loop over `pairs`; `coeff` is the coefficient of all other pairs. -/
def readPairs (env : Env K) (coeff : K) (p : Json K) : Option (List ((String × String) × K) × CoeffData String K) :=
  match p.find? "pairs" with
  | some (some v) => v.elems.foldlM (readPair env) ([], CoeffData.new coeff)
  | some none => some ([], CoeffData.new coeff)
  | none => none

/-- The names of 1701-1710. -/
def collFields : List String := ["type", "first_step", "last_step", "evaluator_type", "fixed_steps", "contact_test_type",
  "longest_valid_segment_length", "coeffs", "dist_pen", "pairs"]

/-- 1617-1712. -/
def readColl (env : Env K) (nSteps : Int) (p : Json K) : Option (CollInfo K) := do
  let evaluator ← child asInt p "evaluator_type" 1
  let first ← child asInt p "first_step" 0
  let last ← child asInt p "last_step" (nSteps - 1)
  let segment ← child asDouble p "longest_valid_segment_length" (1 / 2)
  let buffer ← child asDouble p "safety_margin_buffer" (1 / 2)
  if ¬ (0 ≤ segment ∧ (0 ≤ first ∧ first < nSteps) ∧ (first ≤ last ∧ last < nSteps) ∧ evaluator ≤ 4 ∧ 0 ≤ buffer) then none
  else do
    let fixed ← child (asList asInt) p "fixed_steps" []
    if !(fixed.all fun s => decide (first ≤ s ∧ s ≤ last)) then none
    else do
      let contactType ← child asInt p "contact_test_type" 2
      if ¬ (0 ≤ contactType ∧ contactType < 3) then none
      else do
        let coeff ← childReq asDouble p "coeffs"
        let margin ← childReq asDouble p "dist_pen"
        let (mt, ct) ← readPairs env coeff p
        onlyMembers p collFields
        some ⟨evaluator, first, last, segment, buffer, fixed, contactType, margin, mt, ct⟩

/-- Parameters of `TotalTimeTermInfo`: weight and limit; 1839-1849. -/
def readTotal (p : Json K) : Option (K × K) := do
  let coeff ← child asDouble p "coeff" 1
  let limit ← child asDouble p "limit" 1
  onlyMembers p ["coeff", "limit"]
  some (coeff, limit)

/-- The parameters of a term of any kind. -/
inductive Body (K : Type) where
  | pose (p : PoseInfo K)
  | vel (p : VelInfo K)
  | joint (p : JointInfo K)
  | coll (p : CollInfo K)
  | total (coeff limit : K)

/-- An entry of `cost_infos` or `cnt_infos`. -/
structure Entry (K : Type) where
  kind : TermKind
  type : TermType
  name : String
  body : Body K

/-- 55-68 `RegisterMakers` and 104-116 `fromName`. -/
def fromName : String → Option TermKind
  | "dynamic_cart_pose" => some .dynamicCartPose
  | "cart_pose" => some .cartPose
  | "cart_vel" => some .cartVel
  | "joint_pos" => some .jointPos
  | "joint_vel" => some .jointVel
  | "joint_acc" => some .jointAcc
  | "joint_jerk" => some .jointJerk
  | "collision" => some .collision
  | "total_time" => some .totalTime
  | _ => none

/-- The virtual function `fromJson`: all that can be made from a name require the member `params`. -/
def readBody (env : Env K) (g : Group) (nSteps : Int) (k : TermKind) (v : Json K) : Option (Body K) :=
  match v.find? "params" with
  | some (some p) => match k with
    | .dynamicCartPose => (readPose true env.fmt g nSteps p).map .pose
    | .cartPose => (readPose false env.fmt g nSteps p).map .pose
    | .cartVel => (readVel env.fmt g nSteps p).map .vel
    | .jointPos => (readJoint .pos g nSteps p).map .joint
    | .jointVel => (readJoint .vel g nSteps p).map .joint
    | .jointAcc => (readJoint .acc g nSteps p).map .joint
    | .jointJerk => (readJoint .jerk g nSteps p).map .joint
    | .collision => (readColl env nSteps p).map .coll
    | .totalTime => (readTotal p).map fun q => .total q.1 q.2
    | .userDefined | .avoidSingularity => none
  | _ => none

/-- The body of the loops 166-189 (`asCost`) and 196-219; `ut` is `basic_info.use_time`. -/
def readTerm (env : Env K) (g : Group) (nSteps : Int) (asCost : Bool) (st : List (Entry K) × Bool) (v : Json K) :
    Option (List (Entry K) × Bool) := do
  let type ← childReq (asString env.fmt) v "type"
  let ut ← child asBool v "use_time" false
  let k ← fromName type
  let body ← readBody env g nSteps k v
  let name ← child (asString env.fmt) v "name" type
  some (st.1 ++ [⟨k, ⟨asCost, !asCost, ut⟩, name, body⟩], st.2 || ut)

/-- 162-220 `readCosts` and `readConstraints`. -/
def readTerms (env : Env K) (g : Group) (nSteps : Int) (asCost : Bool) (ut : Bool) (v : Json K) : Option (List (Entry K) × Bool) :=
  v.elems.foldlM (readTerm env g nSteps asCost) ([], ut)

/-- What `ProblemConstructionInfo` holds after reading. -/
structure Doc (K : Type) where
  basic : Basic K
  opt : Opt K
  group : Group
  costs : List (Entry K)
  cnts : List (Entry K)
  init : InitRead K

/-- 272-308 `ProblemConstructionInfo::fromJson`; `o` are the default parameters of the optimiser. -/
def readDoc (env : Env K) (o : Opt K) (v : Json K) : Option (Doc K) := do
  let basic ← childReq (readBasic env.fmt) v "basic_info"
  let opt ← child (readOpt o) v "opt_info" o
  let g ← env.group basic.manip
  let (costs, ut) ← child (readTerms env g basic.nSteps true basic.useTime) v "costs" ([], basic.useTime)
  let (cnts, ut) ← child (readTerms env g basic.nSteps false ut) v "constraints" ([], ut)
  let init ← childReq (readInit env.fmt basic.nSteps g.nDof) v "init_info"
  some ⟨{ basic with useTime := ut }, opt, g, costs, cnts, init⟩

/-- The entry of the lists of `Construct`. -/
def Entry.info (t : Entry K) : Info := ⟨t.kind, t.type⟩

/-- Limits of the joints and their current values. -/
structure World (K : Type) where
  lower : Nat → K
  upper : Nat → K
  current : Nat → K

/-- What `ConstructProblem` is given. -/
def Doc.pci (d : Doc K) (w : World K) : Pci K :=
  { nSteps := d.basic.nSteps.toNat, nDof := d.group.nDof, lower := w.lower, upper := w.upper, dtLower := d.basic.dtLower,
    dtUpper := d.basic.dtUpper, useTime := d.basic.useTime, fixedSteps := d.basic.fixedSteps, fixedDofs := d.basic.fixedDofs,
    current := w.current, init := d.init.init, dt := d.init.dt, costs := d.costs.map Entry.info, cnts := d.cnts.map Entry.info }

/-- 394-408 `OptimizeProblem`: the parameters the optimiser runs with; `o` are its defaults. -/
def optimizeParams (o : Opt K) : Opt K :=
  { o with maxIter := 40, minApproxImproveFrac := 1 / 1000, improveRatioThreshold := 1 / 5, initialMeritErrorCoeff := 20 }

/-- 544-549 `ConstructProblem(root, env)` followed by `OptimizeProblem`: the problem and the parameters used for it.  A negative
number of steps, for which the sizes in `ConstructProblem` are not modelled, is taken as an exception. -/
def solveSetup (env : Env K) (o : Opt K) (w : World K) (v : Json K) : Res (Prob K × List (Entry K) × List (Entry K) × Opt K) :=
  match readDoc env o v with
  | none => .exc
  | some d =>
    if d.basic.nSteps < 0 then .exc
    else match construct (d.pci w) with
      | .ok p => .ok (p, d.costs, d.cnts, optimizeParams o)
      | .exc => .exc
      | .ub => .ub

end terms

end Verif.JsonRead
