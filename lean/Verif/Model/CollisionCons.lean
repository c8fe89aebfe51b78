import Verif.Model.Collision
import Verif.Model.Cache
import Verif.Model.Bounds
import Mathlib.Data.List.FinRange

/-!
Model of the collision constraints of trajopt_ifopt on top of `Verif.Model.Collision` and `Verif.Model.Cache`:
`discrete_collision_constraint.cpp`, `continuous_collision_constraint.cpp`, `discrete_collision_numerical_constraint.cpp`,
`continuous_collision_numerical_constraint.cpp` and the evaluators' `calcCollisions`/`calcCollisionData`
(`discrete_collision_evaluators.cpp`, `continuous_collision_evaluators.cpp`).

Not modelled: the contact checker (`contactTest`, and `addInterpolatedCollisionResults` for subdivided motions) and the
kinematics; their result is the input `tests`, a contact map with, for every contact, the data `calcGradient` reads.
The margin looked up with the names stored in a contact is that of the pair it is filed under.  The gradients of a contact
are those at the position of the last update.  A failed assertion, an exception, a null pointer and a division by zero
are the outcome `none`.  `setBounds` with other than the default bounds is covered by taking the bounds as given; their
number never changes (asserted, discrete 142-146).
-/

namespace Verif.Collision

universe u v w

/-- A contact as delivered by the contact checker: result, `cc_time`, contracted gradients per link and timestep, and
whether each link belongs to the joint group. -/
structure Raw (ι : Type u) (K : Type v) where
  c : Contact K
  t : Fin 2 → K
  grad : Fin 2 → Bool → ι → K
  active : Fin 2 → Bool

/-- `tesseract::collision::ContactResultMap` in iteration order. -/
abbrev RawMap (Name : Type w) (ι : Type u) (K : Type v) := List ((Name × Name) × List (Raw ι K))

/-- The configuration of an evaluator: margins (before the buffer is added), buffer, coefficients. -/
structure Evaluator (Name : Type w) (K : Type v) where
  margin : Name × Name → K
  buffer : K
  coeff : CoeffData Name K
  lowest : K

/-- `struct CollisionCacheData`, collision_types.h. -/
structure Data (Name : Type w) (ι : Type u) (K : Type v) where
  map : RawMap Name ι K
  sets : List (GSet Name ι K)

section evaluators
variable {Name : Type w} [LinearOrder Name] {ι : Type u} {K : Type v} [Field K] [LinearOrder K]

/-- The filter of `SingleTimestepCollisionEvaluator::calcCollisionsHelper`, discrete_collision_evaluators.cpp 166-187. -/
def discreteFilter (ev : Evaluator Name K) (m : RawMap Name ι K) : RawMap Name ι K :=
  m.map fun p => (p.1, if p.1 ∈ ev.coeff.zero then []
    else p.2.filter fun r => !decide (ev.margin p.1 + ev.buffer < r.c.distance))

/-- The filter of the LVS evaluators, continuous_collision_evaluators.cpp 186-204 (and likewise in the discrete
variant, 400-474). -/
def continuousFilter (ev : Evaluator Name K) (fixed0 fixed1 : Bool) (m : RawMap Name ι K) : RawMap Name ι K :=
  m.map fun p => (p.1, if p.1 ∈ ev.coeff.zero then []
    else p.2.filter fun r => !isInvalid (ev.margin p.1) ev.buffer fixed0 fixed1 r.c)

/-- `getGradient` of the discrete evaluator for every contact of the map, 190-199. -/
def discretePairs (ev : Evaluator Name K) (m : RawMap Name ι K) : List (PairContacts Name ι K) :=
  m.map fun p => ⟨p.1, p.2.map fun r => (r.c, getGradient1 r.c r.t r.grad r.active (ev.margin p.1) ev.buffer)⟩

/-- `calcGradientData` of the LVS evaluators for every contact of the map, continuous 253-263. -/
def continuousPairs (ev : Evaluator Name K) (m : RawMap Name ι K) : List (PairContacts Name ι K) :=
  m.map fun p => ⟨p.1, p.2.map fun r => (r.c, getGradient2 r.c r.t r.grad r.active (ev.margin p.1) ev.buffer)⟩

/-- `SingleTimestepCollisionEvaluator::calcCollisions`, 91-148; `sort` is `std::sort` with the comparator. -/
def calcCollisions (ev : Evaluator Name K) (sort : List (GSet Name ι K) → List (GSet Name ι K)) (maxAllowed : Nat)
    (raw : RawMap Name ι K) : Option (Data Name ι K) :=
  let m := discreteFilter ev raw
  if maxAllowed = 0 then some ⟨m, []⟩
  else match groupAll ev.lowest (fun k => ev.coeff.get k.1 k.2) (discretePairs ev m) with
    | none => none
    | some gs => some ⟨m, if maxAllowed < gs.length then sort gs else gs⟩

/-- `calcCollisionData` of the LVS evaluators, continuous 99-163 and 334-398.  A comparator that throws makes the call throw. -/
def calcCollisionData (ev : Evaluator Name K) (sort : List (GSet Name ι K) → List (GSet Name ι K)) (fixed0 fixed1 : Bool)
    (maxAllowed : Nat) (raw : RawMap Name ι K) : Option (Data Name ι K) :=
  let m := continuousFilter ev fixed0 fixed1 raw
  if maxAllowed = 0 then some ⟨m, []⟩
  else match groupAll ev.lowest (fun k => ev.coeff.get k.1 k.2) (continuousPairs ev m) with
    | none => none
    | some gs =>
      if maxAllowed < gs.length then
        if gs.all fun g => (continuousMeasure ev.lowest fixed0 fixed1 g).isSome then some ⟨m, sort gs⟩ else none
      else some ⟨m, gs⟩

end evaluators

/-! ### Jacobian under construction -/

/-- A sparse row-major matrix: values and which coordinates are stored. -/
structure Jac (K : Type v) where
  rows : Nat
  cols : Nat
  val : Nat → Nat → K
  stored : Nat → Nat → Bool

section jac
variable {K : Type v} [Field K]

/-- `Jacobian jac(rows, cols)`. -/
def Jac.empty (rows cols : Nat) : Jac K := ⟨rows, cols, fun _ _ => 0, fun _ _ => false⟩

/-- Overwrite one entry of the value and structure functions. -/
def Jac.put (J : Jac K) (i j : Nat) (v : K) : Jac K :=
  { J with val := fun a b => if a = i ∧ b = j then v else J.val a b
           stored := fun a b => if a = i ∧ b = j then true else J.stored a b }

/-- `jac.coeffRef(i, j) = v`; outside the matrix Eigen asserts. -/
def Jac.coeffRef (J : Jac K) (i j : Nat) (v : K) : Option (Jac K) :=
  if i < J.rows ∧ j < J.cols then some (J.put i j v) else none

/-- `jac.insertBack(i, j) = v`: only behind the stored entries of row `i`. -/
def Jac.insertBack (J : Jac K) (i j : Nat) (v : K) : Option (Jac K) :=
  if i < J.rows ∧ j < J.cols ∧ (List.range J.cols).all (fun b => decide (b < j) || !J.stored i b) then some (J.put i j v)
  else none

/-- `setFromTriplets` on a list of explicit zeros. -/
def Jac.setZeros (J : Jac K) (ts : List (Nat × Nat)) : Option (Jac K) :=
  ts.foldlM (fun J t => J.coeffRef t.1 t.2 0) J

/-- The loop `for (j = 0; j < n_dof_; j++) jac.coeffRef(i, index + j) = f(j)`. -/
def Jac.writeRow {n : Nat} (J : Jac K) (i off : Nat) (f : Fin n → K) : Option (Jac K) :=
  (List.finRange n).foldlM (fun J j => J.coeffRef i (off + j.val) (f j)) J

/-- The loop `for (j = 0; j < n_dof_; j++) jac.insertBack(i, offset + j) = f(j)`. -/
def Jac.insertRow {n : Nat} (J : Jac K) (i off : Nat) (f : Fin n → K) : Option (Jac K) :=
  (List.finRange n).foldlM (fun J j => J.insertBack i (off + j.val) (f j)) J

end jac

/-- `BoundSmallerZero`, bounds.h: minus infinity to zero. -/
def smallerZero {K : Type v} [Field K] [LinearOrder K] : Bounds.Bounds K := Bounds.Bounds.mk' .negInf (.fin 0)

/-! ### Constraints with a fixed number of rows -/

/-- Data members of `DiscreteCollisionConstraint`, `ContinuousCollisionConstraint` and the numerical variants. -/
structure Con (Key : Type w) (Name : Type w) (n : Nat) (K : Type v) where
  rows : Nat
  bounds : List (Bounds.Bounds K)
  coeffs : List K
  store : Cache.Store Key (Option (Data Name (Fin n) K))
  data : Option (Data Name (Fin n) K)
  fixedSparsity : Bool
  inited : Bool
  triplets : List (Nat × Nat)

section con
variable {Key : Type w} [DecidableEq Key] {Name : Type w} [LinearOrder Name] {n : Nat} {K : Type v} [Field K] [LinearOrder K]

/-- Constructors, discrete 44-65 (the assertion on the number of joints included); the cache has three slots
(discrete_collision_constraint.h 109). -/
def Con.new (k0 : Key) (maxNumCnt : Int) (fixedSparsity : Bool) : Option (Con Key Name n K) :=
  if n = 0 then none
  else if maxNumCnt < 1 then none
  else some ⟨maxNumCnt.toNat, List.replicate maxNumCnt.toNat smallerZero, List.replicate maxNumCnt.toNat 1,
    ⟨Cache.init 3 k0, fun _ => none⟩, none, fixedSparsity, false, []⟩

/-- Constructor of the continuous constraint, continuous 42-77: both ends fixed is rejected, too. -/
def Con.newContinuous (k0 : Key) (maxNumCnt : Int) (fixed0 fixed1 fixedSparsity : Bool) : Option (Con Key Name n K) :=
  if fixed0 && fixed1 then none else Con.new k0 maxNumCnt fixedSparsity

/-- The loop of `update` over the coefficients, discrete 81-83: overwrite a prefix. -/
def overwrite {α : Type*} (new old : List α) : List α := new ++ old.drop new.length

/-- `init`, discrete 148-157: explicit zeros for the columns of one variable. -/
def zeros1 (rows n index : Nat) : List (Nat × Nat) :=
  (List.range rows).flatMap fun i => (List.range n).map fun j => (i, index + j)

/-- `init`, continuous 151-179: explicit zeros for the columns of both variables. -/
def zeros2 (rows n index0 index1 : Nat) : List (Nat × Nat) :=
  (List.range rows).flatMap fun i => (List.range n).flatMap fun j => [(i, index0 + j), (i, index1 + j)]

/-- `update`, discrete 67-88 and continuous 79-105: look the data up in the cache or compute it, refresh the
coefficients of the rows in use, and set up the explicit zeros once. -/
def Con.update {X : Type*} (s : Con Key Name n K) (hash : X → Key) (eval : X → Option (Data Name (Fin n) K))
    (zeros : List (Nat × Nat)) (x : X) : Option (Con Key Name n K) :=
  match Cache.memo hash eval s.store x with
  | (some (some d), st) =>
    some { s with store := st, data := some d
                  coeffs := overwrite ((d.sets.take s.bounds.length).map GSet.coeff) s.coeffs
                  triplets := if s.inited then s.triplets else if s.fixedSparsity then zeros else s.triplets
                  inited := true }
  | _ => none

/-- `DiscreteCollisionConstraint::getValues`, 90-108 (`calcValues` of the numerical variant, 116-134). -/
def Con.discreteValues (ev : Evaluator Name K) (s : Con Key Name n K) : Option (List K) :=
  match s.data with
  | none => none
  | some d => Collision.discreteValues ev.lowest ev.buffer s.bounds.length d.sets

/-- Value of one row of the continuous constraint, continuous 115-141; `some none` leaves the padding value. -/
def continuousRow (lowest : K) (fixed0 fixed1 : Bool) (g : GSet Name (Fin n) K) : Option (Option K) :=
  if !fixed0 && !fixed1 then (g.getMaxError lowest).map some
  else if !fixed0 then
    if (g.maxError 0).has 0 || (g.maxError 1).has 0 then (g.getMaxErrorT lowest 0).map some else some none
  else
    if (g.maxError 0).has 1 || (g.maxError 1).has 1 then (g.getMaxErrorT lowest 1).map some else some none

/-- `ContinuousCollisionConstraint::getValues`, 107-144. -/
def Con.continuousValues (ev : Evaluator Name K) (fixed0 fixed1 : Bool) (s : Con Key Name n K) : Option (List K) :=
  match s.data with
  | none => none
  | some d => match (d.sets.take s.bounds.length).mapM (continuousRow ev.lowest fixed0 fixed1) with
    | none => none
    | some vs => some (vs.map (fun v => v.getD (-ev.buffer)) ++ List.replicate (s.rows - vs.length) (-ev.buffer))

/-- The rows with a contact: `enumerate` of the sets in use. -/
def Con.used (s : Con Key Name n K) (d : Data Name (Fin n) K) : List (GSet Name (Fin n) K × Nat) :=
  (d.sets.take s.bounds.length).zipIdx

/-- `DiscreteCollisionConstraint::getJacobian`, 115-140. -/
def Con.discreteJacobian (ev : Evaluator Name K) (cols index : Nat) (s : Con Key Name n K) : Option (Jac K) :=
  match s.data, (Jac.empty s.rows cols).setZeros s.triplets with
  | some d, some J =>
    (s.used d).foldlM (fun J g => match g.1.getMaxErrorWithBufferT ev.lowest 0 with
      | none => none
      | some M => match weightedAvg g.1 0 M with
        | none => none
        | some v => J.writeRow g.2 index fun j => -1 * v j) J
  | _, _ => none

/-- One of the two loops of `ContinuousCollisionConstraint::getJacobian`: end `k` (free), 194-213 and 215-233. -/
def continuousBlock (ev : Evaluator Name K) (otherFixed : Bool) (k : Fin 2) (index : Nat)
    (gs : List (GSet Name (Fin n) K × Nat)) (J : Jac K) : Option (Jac K) :=
  gs.foldlM (fun J g =>
    if (g.1.maxError 0).has k || (g.1.maxError 1).has k then
      match g.1.getMaxErrorWithBufferT ev.lowest k with
      | none => none
      | some MT => match (if otherFixed then some MT else g.1.getMaxErrorWithBuffer ev.lowest) with
        | none => none
        | some M => match weightedAvg g.1 k M with
          | none => none
          | some v => J.writeRow g.2 index fun j => -1 * v j
    else some J) J

/-- `ContinuousCollisionConstraint::getJacobian`, 181-235. -/
def Con.continuousJacobian (ev : Evaluator Name K) (fixed0 fixed1 : Bool) (cols index0 index1 : Nat)
    (s : Con Key Name n K) : Option (Jac K) :=
  match s.data, (Jac.empty s.rows cols).setZeros s.triplets with
  | some d, some J =>
    match (if fixed0 then some J else continuousBlock ev fixed1 0 index0 (s.used d) J) with
    | none => none
    | some J => if fixed1 then some J else continuousBlock ev fixed0 1 index1 (s.used d) J
  | _, _ => none

/-! ### Numerical variants -/

/-- The set of the perturbed state with the same pair and shapes, numerical discrete 166-172. -/
def matching (base : GSet Name (Fin n) K) (gs : List (GSet Name (Fin n) K)) : Option (GSet Name (Fin n) K) :=
  gs.find? fun g => decide (g.key = base.key) && decide (g.shapeKey = base.shapeKey)

/-- Difference quotient of one row, 173-182 (continuous numerical 196-221): `err` is the error function of the mode. -/
def quotient (err : GSet Name (Fin n) K → Option K) (buffer delta : K) (base : GSet Name (Fin n) K)
    (gs : List (GSet Name (Fin n) K)) : Option K :=
  match (match matching base gs with | some g => err g | none => some (-1 * buffer)), err base with
  | some a, some b => some ((a - b) / delta)
  | _, _ => none

/-- One column: all rows for the perturbed data. -/
def column (err : GSet Name (Fin n) K → Option K) (buffer delta : K) (col : Nat) (used : List (GSet Name (Fin n) K × Nat))
    (gs : List (GSet Name (Fin n) K)) (J : Jac K) : Option (Jac K) :=
  used.foldlM (fun J g => match quotient err buffer delta g.1 gs with
    | none => none
    | some q => J.coeffRef g.2 col q) J

/-- `DiscreteCollisionNumericalConstraint::getJacobian`, 107-114 and 142-186.  `q` is the current position. -/
def Con.discreteNumJacobian (ev : Evaluator Name K) (test : (Fin n → K) → Option (Data Name (Fin n) K)) (delta : K)
    (cols index : Nat) (q : Fin n → K) (s : Con Key Name n K) : Option (Jac K) :=
  match s.data, (Jac.empty s.rows cols).setZeros s.triplets with
  | some d, some J =>
    if d.sets = [] then some J
    else (List.finRange n).foldlM (fun J j => match test (Function.update q j (q j + delta)) with
      | none => none
      | some dd => column (fun g => g.getMaxErrorT ev.lowest 0) ev.buffer delta (index + j.val) (s.used d) dd.sets J) J
  | _, _ => none

/-- The error used by the continuous numerical variant, 126-151 and 198-204. -/
def freeError (lowest : K) (fixed0 fixed1 : Bool) (g : GSet Name (Fin n) K) : Option K :=
  if !fixed0 && !fixed1 then g.getMaxError lowest
  else if !fixed0 then g.getMaxErrorT lowest 0
  else g.getMaxErrorT lowest 1

/-- `ContinuousCollisionNumericalConstraint::getValues`, 117-154. -/
def Con.continuousNumValues (ev : Evaluator Name K) (fixed0 fixed1 : Bool) (s : Con Key Name n K) : Option (List K) :=
  match s.data with
  | none => none
  | some d => match (d.sets.take s.bounds.length).mapM (freeError ev.lowest fixed0 fixed1) with
    | none => none
    | some vs => some (vs ++ List.replicate (s.bounds.length - vs.length) (-ev.buffer))

/-- One pass of the outer loop of `ContinuousCollisionNumericalConstraint::getJacobian`, 179-224: the perturbed copy of
the position of variable `p` is passed as the first position, whatever `p` is, and `joint_vals1` as the second (185-186). -/
def Con.continuousNumBlock (ev : Evaluator Name K)
    (test : (Fin n → K) → (Fin n → K) → Option (Data Name (Fin n) K)) (delta : K) (fixed0 fixed1 : Bool) (index : Nat)
    (qp q1 : Fin n → K) (used : List (GSet Name (Fin n) K × Nat)) (J : Jac K) : Option (Jac K) :=
  (List.finRange n).foldlM (fun J j => match test (Function.update qp j (qp j + delta)) q1 with
    | none => none
    | some dd => column (freeError ev.lowest fixed0 fixed1) ev.buffer delta (index + j.val) used dd.sets J) J

/-- `ContinuousCollisionNumericalConstraint::getJacobian`, 159-226. -/
def Con.continuousNumJacobian (ev : Evaluator Name K)
    (test : (Fin n → K) → (Fin n → K) → Option (Data Name (Fin n) K)) (delta : K) (fixed0 fixed1 : Bool)
    (cols index0 index1 : Nat) (q0 q1 : Fin n → K) (s : Con Key Name n K) : Option (Jac K) :=
  match s.data, (Jac.empty s.rows cols).setZeros s.triplets with
  | some d, some J =>
    if d.sets = [] then some J
    else match Con.continuousNumBlock ev test delta fixed0 fixed1 index0 q0 q1 (s.used d) J with
      | none => none
      | some J => Con.continuousNumBlock ev test delta fixed0 fixed1 index1 q1 q1 (s.used d) J
  | _, _ => none

/-! ### Constraints with one row per contact -/

/-- Data members of `DiscreteCollisionConstraintD` and `ContinuousCollisionConstraintD`. -/
structure DynCon (Key : Type w) (Name : Type w) (n : Nat) (K : Type v) where
  rows : Nat
  bounds : List (Bounds.Bounds K)
  coeffs : List K
  values : List K
  store : Cache.Store Key (Option (Data Name (Fin n) K))
  data : Option (Data Name (Fin n) K)

/-- Constructor, discrete 164-174 (continuous 248-273): no rows before the first update. -/
def DynCon.new (k0 : Key) : DynCon Key Name n K := ⟨0, [], [], [], ⟨Cache.init 3 k0, fun _ => none⟩, none⟩

/-- All contacts with their pair, in iteration order. -/
def flat (m : RawMap Name (Fin n) K) : List ((Name × Name) × Raw (Fin n) K) :=
  m.flatMap fun p => p.2.map fun r => (p.1, r)

/-- `update`, discrete 176-218 and continuous 275-314. -/
def DynCon.update {X : Type*} (s : DynCon Key Name n K) (ev : Evaluator Name K) (hash : X → Key)
    (eval : X → Option (Data Name (Fin n) K)) (x : X) : Option (DynCon Key Name n K) :=
  match Cache.memo hash eval s.store x with
  | (some (some d), st) =>
    some ⟨(flat d.map).length, List.replicate (flat d.map).length smallerZero,
      (flat d.map).map fun p => ev.coeff.get p.1.1 p.1.2, (flat d.map).map fun p => ev.margin p.1 - p.2.c.distance, st, some d⟩
  | _ => none

/-- The row written for one contact, discrete 240-268; `none`: neither link has a gradient (asserted, 246). -/
def dynRow1 (r : Raw (Fin n) K) : Option (Fin n → K) :=
  let g := getGradient1 r.c r.t r.grad r.active 0 0
  if (g.grads 0).has && (g.grads 1).has then some fun j => -1 * ((g.grads 0).gradient j + (g.grads 1).gradient j)
  else if (g.grads 0).has then some fun j => -1 * (g.grads 0).gradient j
  else if (g.grads 1).has then some fun j => -1 * (g.grads 1).gradient j
  else none

/-- The part of a row written for end `k` (0: `gradients`, 1: `cc_gradients`), continuous 346-373 and 375-402. -/
def dynRow2 (k : Fin 2) (r : Raw (Fin n) K) : Option (Fin n → K) :=
  let g := getGradient2 r.c r.t r.grad r.active 0 0
  let l : Fin 2 → LinkGrad (Fin n) K := if k = 0 then g.grads else g.ccGrads
  if (l 0).has && (l 1).has then
    some fun j => -1 * ((l 0).scale * (l 0).gradient j + (l 1).scale * (l 1).gradient j)
  else if (l 0).has then some fun j => -1 * (l 0).scale * (l 0).gradient j
  else if (l 1).has then some fun j => -1 * (l 1).scale * (l 1).gradient j
  else none

/-- `DiscreteCollisionConstraintD::getJacobian`, 227-272. -/
def DynCon.discreteJacobian (cols index : Nat) (s : DynCon Key Name n K) : Option (Jac K) :=
  match s.data with
  | none => none
  | some d => (flat d.map).zipIdx.foldlM (fun J p => match dynRow1 p.1.2 with
      | none => none
      | some v => J.insertRow p.2 index v) (Jac.empty s.rows cols)

/-- `ContinuousCollisionConstraintD::getJacobian`, 321-409. -/
def DynCon.continuousJacobian (fixed0 fixed1 : Bool) (cols index0 index1 : Nat) (s : DynCon Key Name n K) : Option (Jac K) :=
  match s.data with
  | none => none
  | some d => (flat d.map).zipIdx.foldlM (fun J p =>
      match dynRow2 0 p.1.2, dynRow2 1 p.1.2 with
      | some v0, some v1 =>
        match (if fixed0 then some J else J.insertRow p.2 index0 v0) with
        | none => none
        | some J => if fixed1 then some J else J.insertRow p.2 index1 v1
      | _, _ => none) (Jac.empty s.rows cols)

end con

end Verif.Collision
