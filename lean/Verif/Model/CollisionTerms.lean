import Verif.Model.CollisionCons
import Verif.Model.ErrFunc

/-!
Model of the legacy collision terms, `/repo/trajopt/src/collision_terms.cpp`: `GetGradient`,
`CollisionsToDistanceExpressions`, the four `CalcDistExpressions*`, the filters of the evaluators, and `value`/`convex` of
`CollisionCost` and `CollisionConstraint`.

Inputs: the contact map of the contact checker for the current point (`contactTest`, `addInterpolatedCollisionResults` and the
cache in front of them are C43/C67), and the kinematics (`isActiveLinkName`, `calcJacobian`).  Plotting is not modelled.
Vectors of the joint group are `Fin n → K`; variables are handles of the solver model.  A failed assertion is `none`;
`debug` tells whether assertions are compiled in (`NDEBUG` not defined).
-/

namespace Verif.CollisionTerms

open Verif.Sco Verif.Collision

universe u v

variable {Name : Type u} {K : Type v} {n : Nat}

/-- The part of `tesseract::collision::ContactResult` read by the legacy terms; `rot`/`ccRot` are the linear parts of
`transform` and `cc_transform`. -/
structure Hit (Name : Type u) (K : Type v) where
  c : Contact K
  link : Fin 2 → Name
  time : Fin 2 → K
  normal : Fin 3 → K
  point : Fin 2 → Fin 3 → K
  rot : Fin 2 → Fin 3 → Fin 3 → K
  ccRot : Fin 2 → Fin 3 → Fin 3 → K

/-- The joint group: `isActiveLinkName`, and the two blocks of `calcJacobian` (velocity of the origin, angular velocity). -/
structure Group (Name : Type u) (K : Type v) (n : Nat) where
  active : Name → Bool
  linear : (Fin n → K) → Name → Fin 3 → Fin n → K
  angular : (Fin n → K) → Name → Fin 3 → Fin n → K

/-- `trajopt::LinkGradientResults`, collision_terms.hpp. -/
structure LinkGradient (K : Type v) (n : Nat) where
  has : Bool
  gradient : Fin n → K
  scale : K

/-- The evaluator's configuration; margins before the buffer is added. -/
structure Config (Name : Type u) (K : Type v) where
  margin : Name × Name → K
  buffer : K
  coeff : CoeffData Name K

/-- `CollisionExpressionEvaluatorType`. -/
inductive Kind | bothFree | startFree | endFree | single
  deriving DecidableEq

/-- `vars0_fixed_`, set in the constructors, 768-814 and 1006-1052. -/
def Kind.fixed0 : Kind → Bool
  | .endFree => true
  | _ => false

/-- `vars1_fixed_`. -/
def Kind.fixed1 : Kind → Bool
  | .startFree => true
  | _ => false

section
variable [Field K]

/-- Matrix times vector in three dimensions. -/
def rotate (R : Fin 3 → Fin 3 → K) (p : Fin 3 → K) : Fin 3 → K :=
  fun i => R i 0 * p 0 + R i 1 * p 1 + R i 2 * p 2

/-- Eigen's `cross`. -/
def cross (a b : Fin 3 → K) : Fin 3 → K
  | 0 => a 1 * b 2 - a 2 * b 1
  | 1 => a 2 * b 0 - a 0 * b 2
  | 2 => a 0 * b 1 - a 1 * b 0

/-- `normal.transpose() * jac.topRows(3)` after `jacobianChangeRefPoint(jac, ref)` (tesseract: each column's velocity is
increased by angular velocity times reference point), 230 and 243. -/
def contract (normal ref : Fin 3 → K) (lin ang : Fin 3 → Fin n → K) : Fin n → K := fun j =>
  let c := cross (fun i => ang i j) ref
  normal 0 * (lin 0 j + c 0) + normal 1 * (lin 1 j + c 1) + normal 2 * (lin 2 j + c 2)

/-- `results.gradients[i]` in `GetGradient(dofvals, contact_result, margin, coeff, isTimestep1)`, 204-245; `none`: the
assertion on `cc_time`. -/
def linkGradient [LinearOrder K] (debug : Bool) (g : Group Name K n) (q : Fin n → K) (h : Hit Name K) (late : Bool) (i : Fin 2) :
    Option (LinkGradient K n) :=
  if g.active (h.link i) then
    let grad := fun R j =>
      (if i = 0 then -1 else 1) * contract h.normal (rotate R (h.point i)) (g.linear q (h.link i)) (g.angular q (h.link i)) j
    if h.c.cc i = .none then some ⟨true, grad (h.rot i), 1⟩
    else if debug && !decide (0 ≤ h.time i ∧ h.time i ≤ 1) then none
    else if late then some ⟨true, grad (h.ccRot i), h.time i⟩ else some ⟨true, grad (h.rot i), 1 - h.time i⟩
  else some ⟨false, fun _ => 0, 1⟩

/-- `varDot`, expr_vec_ops.cpp 4-11. -/
def varDot (a : Fin n → K) (vars : Fin n → Nat) : AffExpr K Nat := ⟨0, (List.finRange n).map fun j => (a j, vars j)⟩

/-- Body of the loop over the two gradients, 367-374. -/
def addLink (q : Fin n → K) (vars : Fin n → Nat) (e : AffExpr K Nat) (l : LinkGradient K n) : AffExpr K Nat :=
  if l.has then (e.inc (varDot (fun j => l.scale * l.gradient j) vars)).incConst (l.scale * -dot l.gradient q) else e

/-- One contact of `CollisionsToDistanceExpressions`, 363-383: `some none` means that nothing is pushed. -/
def distanceExpr [LinearOrder K] (debug : Bool) (g : Group Name K n) (vars : Fin n → Nat) (x : Nat → K) (late : Bool) (h : Hit Name K) :
    Option (Option (AffExpr K Nat)) :=
  let q := getVec x vars
  match linkGradient debug g q h late 0, linkGradient debug g q h late 1 with
  | some a, some b =>
    some (if a.has || b.has then some (addLink q vars (addLink q vars AffExpr.zero a) b) else none)
  | _, _ => none

end

section
variable [LinearOrder Name] [Field K] [LinearOrder K]

/-- `margin_data_.getCollisionMargin(link_names[0], link_names[1])` (tesseract orders the names). -/
def Config.marginOf (cfg : Config Name K) (h : Hit Name K) : K := cfg.margin (orderedPair (h.link 0) (h.link 1))

/-- `coeff_data_.getCollisionCoeff(...)`. -/
def Config.coeffOf (cfg : Config Name K) (h : Hit Name K) : K := cfg.coeff.get (h.link 0) (h.link 1)

/-- A row of the three output vectors: expression, margin, coefficient. -/
structure Row (K : Type v) where
  expr : AffExpr K Nat
  margin : K
  coeff : K

/-- `CollisionsToDistanceExpressions`, 343-384. -/
def toRows (debug : Bool) (g : Group Name K n) (cfg : Config Name K) (vars : Fin n → Nat) (x : Nat → K) (late : Bool)
    (hs : List (Hit Name K)) : Option (List (Row K)) :=
  match hs.mapM (fun h => match distanceExpr debug g vars x late h with
      | none => none
      | some none => some none
      | some (some e) => some (some ⟨e, cfg.marginOf h, cfg.coeffOf h⟩)) with
  | none => none
  | some rs => some (rs.filterMap id)

/-- `CalcDistExpressionsSingleTimeStep`, 540-556: the result of `cleanupAff` is not used. -/
def rowsSingle (debug : Bool) (g : Group Name K n) (cfg : Config Name K) (vars : Fin n → Nat) (x : Nat → K) (hs : List (Hit Name K)) :
    Option (List (Row K)) :=
  match toRows debug g cfg vars x false hs with
  | none => none
  | some rs =>
    if debug && decide (rs.length ≠ hs.length) then none
    else some (List.zipWith (fun r h => { r with expr := r.expr.incConst h.c.distance }) rs hs)

/-- `CalcDistExpressionsStartFree`, 468-487 (`late = false`), and `CalcDistExpressionsEndFree`, 489-508 (`late = true`). -/
def rowsOne (debug : Bool) (g : Group Name K n) (cfg : Config Name K) (vars : Fin n → Nat) (late : Bool) (x : Nat → K)
    (hs : List (Hit Name K)) : Option (List (Row K)) :=
  match toRows debug g cfg vars x late hs with
  | none => none
  | some rs =>
    if debug && decide (rs.length ≠ hs.length) then none
    else some (List.zipWith (fun r h => { r with expr := ((AffExpr.ofConst h.c.distance).inc r.expr).cleanup }) rs hs)

/-- `CalcDistExpressionsBothFree`, 510-538. -/
def rowsBoth (debug : Bool) (g : Group Name K n) (cfg : Config Name K) (vars0 vars1 : Fin n → Nat) (x : Nat → K) (hs : List (Hit Name K)) :
    Option (List (Row K)) :=
  match toRows debug g cfg vars0 x false hs, toRows debug g cfg vars1 x true hs with
  | some rs0, some rs1 =>
    if debug && decide (rs0.length ≠ hs.length ∨ rs0.length ≠ rs1.length) then none
    else some (List.zipWith (fun (r : Row K × Row K) h =>
        { r.1 with expr := (((AffExpr.ofConst h.c.distance).inc r.1.expr).inc r.2.expr).cleanup }) (rs0.zip rs1) hs)
  | _, _ => none

/-- A collision term of one or two time steps. -/
structure Term (Name : Type u) (K : Type v) (n : Nat) where
  group : Group Name K n
  cfg : Config Name K
  kind : Kind
  vars0 : Fin n → Nat
  vars1 : Fin n → Nat
  debug : Bool

/-- `CalcDistExpressions`: the function bound in the constructors. -/
def Term.rows (t : Term Name K n) (x : Nat → K) (hs : List (Hit Name K)) : Option (List (Row K)) :=
  match t.kind with
  | .single => rowsSingle t.debug t.group t.cfg t.vars0 x hs
  | .startFree => rowsOne t.debug t.group t.cfg t.vars0 false x hs
  | .endFree => rowsOne t.debug t.group t.cfg t.vars1 true x hs
  | .bothFree => rowsBoth t.debug t.group t.cfg t.vars0 t.vars1 x hs

/-- The lambda of `CollisionEvaluator::removeInvalidContactResults`, 558-599: `true` means remove. -/
def memberInvalid (cfg : Config Name K) (kind : Kind) (margin : K) (h : Hit Name K) : Bool :=
  (match kind with
    | .endFree => decide (h.c.cc 0 = .time0) || decide (h.c.cc 1 = .time0)
    | .startFree => decide (h.c.cc 0 = .time1) || decide (h.c.cc 1 = .time1)
    | _ => false) || decide (margin + cfg.buffer < h.c.distance)

/-- `ContactResultMap` in iteration order. -/
abbrev HitMap (Name : Type u) (K : Type v) := List ((Name × Name) × List (Hit Name K))

/-- The filter for one link pair: single time step 671-690, LVS 857-880, cast 1093-1116. -/
def Term.filterPair (t : Term Name K n) (key : Name × Name) (hs : List (Hit Name K)) : Option (List (Hit Name K)) :=
  if key ∈ t.cfg.coeff.zero then some []
  else
    let margin := t.cfg.margin key
    match t.kind with
    | .single => some (hs.filter fun h => !decide (margin + t.cfg.buffer < h.c.distance))
    | k =>
      let kept := hs.filter fun h => !isInvalid margin t.cfg.buffer k.fixed0 k.fixed1 h.c
      if t.debug && decide ((hs.filter fun h => !memberInvalid t.cfg k margin h).length ≠ kept.length) then none
      else some kept

/-- `GetContactResultVectorCached`: filtered and flattened contacts. -/
def Term.hits (t : Term Name K n) (m : HitMap Name K) : Option (List (Hit Name K)) :=
  match m.mapM (fun p => t.filterPair p.1 p.2) with
  | none => none
  | some l => some l.flatten

/-- `CollisionCost::value`, 1306-1327. -/
def Term.costValue (t : Term Name K n) (m : HitMap Name K) : Option K :=
  match t.hits m with
  | none => none
  | some hs => some (hs.foldl (fun out h =>
      out + (if 0 < t.cfg.marginOf h - h.c.distance then t.cfg.marginOf h - h.c.distance else 0) * t.cfg.coeffOf h) 0)

/-- `CollisionCost::convex`, 1283-1304. -/
def Term.costConvex (t : Term Name K n) (x : Nat → K) (m : HitMap Name K) (mdl : OModel K) :
    Option (OModel K × ConvexObjective K) :=
  match t.hits m with
  | none => none
  | some hs => match t.rows x hs with
    | none => none
    | some rs => rs.foldlM (fun s r => ConvexObjective.addHinge s ((AffExpr.ofConst r.margin).dec r.expr) r.coeff)
        (mdl, ConvexObjective.new)

/-- `CollisionConstraint::value`, 1391-1412. -/
def Term.cntValue (t : Term Name K n) (m : HitMap Name K) : Option (List K) :=
  match t.hits m with
  | none => none
  | some hs => some (hs.map fun h =>
      (if 0 < t.cfg.marginOf h - h.c.distance then t.cfg.marginOf h - h.c.distance else 0) * t.cfg.coeffOf h)

/-- `Constraint::violation` of an inequality, modeling.cpp 150-169. -/
def Term.cntViolation (t : Term Name K n) (m : HitMap Name K) : Option K :=
  match t.cntValue m with
  | none => none
  | some vs => some ((vs.map fun v => if 0 < v then v else 0).foldl (· + ·) 0)

/-- `CollisionConstraint::convex`, 1368-1389. -/
def Term.cntConvex (t : Term Name K n) (x : Nat → K) (m : HitMap Name K) : Option (ConvexConstraints K) :=
  match t.hits m with
  | none => none
  | some hs => match t.rows x hs with
    | none => none
    | some rs => some (rs.foldl (fun c r => c.addIneq (((AffExpr.ofConst r.margin).dec r.expr).scale r.coeff))
        ConvexConstraints.new)

end
end Verif.CollisionTerms
