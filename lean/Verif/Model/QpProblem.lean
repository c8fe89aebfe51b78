import Verif.Model.SqpExprs
import Verif.Model.Bounds

/-!
Model of `trajopt_optimizers/trajopt_sqp/src/trajopt_qp_problem.cpp` (`TrajOptQPProblem`).

* A cost or constraint set is what it answers as a function of the current variables and of the variables at its last
  `update()` (`Comp.ask`); a set that is not dynamic is not required to ignore the latter.
* Vectors of decision variables are functions from index to value; `nVars` is their length.
* Eigen's `resize` leaves new elements uninitialised: they are read from the parameter `junk`.
* Doubles are field elements, `sqrt` is `std::sqrt`, infinite bounds are `Ext`.  Names, non-zero counts (used to
  reserve memory only) and printing are left out.
* `none` is an exception or undefined behaviour (size mismatch, index out of range).
-/

namespace Verif.QpProblem

open Verif.Bounds Verif.Sco Verif.SqpExprs

universe u

/-- What a `ConstraintSet` answers: `getValues`, `getJacobian`, `getCoefficients`, `getBounds`, and the return value of
`update`. -/
structure Snap (K : Type u) where
  values : List K
  jac : Mat K
  coeffs : List K
  bounds : List (Bounds K)
  count : Nat

/-- A cost or constraint set; arguments of `ask`: current variables, variables at the last `update()`. -/
structure Comp (K : Type u) where
  dynamic : Bool
  ask : (Nat → K) → (Nat → K) → Snap K

/-- `CostPenaltyType`. -/
inductive Penalty | squared | absolute | hinge
  deriving DecidableEq

/-- `ComponentInfo`, 73-80; the type of a constraint term is given by the list it is in. -/
structure Info (K : Type u) where
  rows : Nat
  coeffs : List K
  bounds : List (Bounds K)

/-- `TrajOptQPProblem::Implementation` and its `ConvexProblem`, 82-129, 246-403. -/
structure State (K : Type u) where
  nVars : Nat
  varBounds : List (Lo K × Hi K)
  initialized : Bool := false
  hasDyn : Bool := false
  nDyn : Nat := 0
  nDynPrev : Option Nat := none
  squared : List (Comp K) := []
  dynSquared : List (Comp K) := []
  hinge : List (Comp K) := []
  dynHinge : List (Comp K) := []
  absolute : List (Comp K) := []
  dynAbsolute : List (Comp K) := []
  cnts : List (Comp K) := []
  dynCnts : List (Comp K) := []
  objective : List (Comp K) := []
  penalty : List (Comp K) := []
  merit : List (Comp K) := []
  objInfos : List (Info K) := []
  penInfos : List (Info K) := []
  meritInfos : List (Info K) := []
  nObj : Nat := 0
  nPen : Nat := 0
  nMerit : Nat := 0
  x : Nat → K
  upd : Nat → K
  box : List K := []
  meritCoeff : List K := []
  target : List K := []
  constant : List K := []
  lower : List (Ext K) := []
  upper : List (Ext K) := []
  nSlack : Nat := 0
  nQpVars : Nat := 0
  nQpCnts : Nat := 0
  sqObjective : Quad K := ⟨[], ⟨0, []⟩, [], [], ⟨0, []⟩⟩
  hessian : SMat K := ⟨0, []⟩
  gradient : List K := []
  matrix : SMat K := ⟨0, []⟩

section
variable {K : Type u} [Field K] [LinearOrder K]

def Snap.rows (s : Snap K) : Nat := s.values.length

/-- `getLower`/`getUpper` as the sides used by the bound utilities (a lower bound of plus infinity and an upper bound
of minus infinity are not modelled). -/
def sides (b : Bounds K) : Lo K × Hi K :=
  (match b.lower with | .fin a => some a | _ => none, match b.upper with | .fin a => some a | _ => none)

def State.ask (s : State K) (c : Comp K) : Snap K := c.ask s.x s.upd

/-- `addConstraintSet`, 405-415. -/
def State.addConstraintSet (s : State K) (c : Comp K) : State K :=
  if c.dynamic then { s with dynCnts := s.dynCnts ++ [c], initialized := false }
  else { s with cnts := s.cnts ++ [c], initialized := false }

/-- `addCostSet`, 417-477; an unsuitable bound throws. -/
def State.addCostSet (s : State K) (c : Comp K) (p : Penalty) : Option (State K) :=
  let bs := (s.ask c).bounds
  match p with
  | .squared =>
    if ∀ b ∈ bs, b.type = .equality then
      some (if c.dynamic then { s with dynSquared := s.dynSquared ++ [c], initialized := false }
        else { s with squared := s.squared ++ [c], initialized := false })
    else none
  | .absolute =>
    if ∀ b ∈ bs, b.type = .equality then
      some (if c.dynamic then { s with dynAbsolute := s.dynAbsolute ++ [c], initialized := false }
        else { s with absolute := s.absolute ++ [c], initialized := false })
    else none
  | .hinge =>
    if ∀ b ∈ bs, b.type = .lowerBound ∨ b.type = .upperBound then
      some (if c.dynamic then { s with dynHinge := s.dynHinge ++ [c], initialized := false }
        else { s with hinge := s.hinge ++ [c], initialized := false })
    else none

/-- `resize`: same size keeps the contents, otherwise they are unspecified. -/
def resize (junk : Nat → Ext K) (n : Nat) (l : List (Ext K)) : List (Ext K) :=
  if l.length = n then l else (List.range n).map junk

/-- `conservativeResize`. -/
def conservativeResize (junk : Nat → Ext K) (n : Nat) (l : List (Ext K)) : List (Ext K) :=
  l.take n ++ (List.range (n - l.length)).map junk

/-- 495-556, one component: the info is refreshed unless the problem is initialized and the set is not dynamic. -/
def refresh (initialized : Bool) (s : State K) (c : Comp K) (i : Info K) : Info K :=
  if initialized && !c.dynamic then i else ⟨(s.ask c).rows, (s.ask c).coeffs, (s.ask c).bounds⟩

def totalRows (s : State K) (cs : List (Comp K)) : Nat := (cs.map fun c => (s.ask c).rows).sum

/-- `update`, 479-566. -/
def State.update (junk : Nat → Ext K) (s : State K) : State K :=
  if s.initialized && (!s.hasDyn || (s.nDynPrev == some 0 && s.nDyn == 0)) then s
  else
    { s with
      nDynPrev := some s.nDyn
      objInfos := List.zipWith (refresh s.initialized s) s.objective s.objInfos
      penInfos := List.zipWith (refresh s.initialized s) s.penalty s.penInfos
      meritInfos := List.zipWith (refresh s.initialized s) s.merit s.meritInfos
      nObj := totalRows s s.objective
      nPen := totalRows s s.penalty
      nMerit := totalRows s s.merit
      target := List.replicate (totalRows s s.objective) 0
      constant := List.replicate (totalRows s s.penalty + totalRows s s.merit) 0
      lower := resize junk (s.nVars + totalRows s s.penalty + totalRows s s.merit) s.lower
      upper := resize junk (s.nVars + totalRows s s.penalty + totalRows s s.merit) s.upper }

/-- 594-600 and 709-715: every component is updated; the counts of the dynamic ones are added. -/
def dynCount (s : State K) (cs : List (Comp K)) : Nat :=
  (cs.map fun c => if c.dynamic then (s.ask c).count else 0).sum

/-- `setup`, 568-698, up to the call of `update`. -/
def State.setupLists (s : State K) : State K :=
  let objective := s.squared ++ s.dynSquared
  let penalty := s.hinge ++ s.dynHinge ++ s.absolute ++ s.dynAbsolute
  let merit := s.cnts ++ s.dynCnts
  let s := { s with upd := s.x }
  { s with
    objective := objective, penalty := penalty, merit := merit
    nDyn := dynCount s (objective ++ penalty ++ merit)
    hasDyn := (objective ++ penalty ++ merit).any (·.dynamic)
    nObj := totalRows s objective
    nPen := totalRows s penalty
    nMerit := totalRows s merit
    box := List.replicate s.nVars (1 / 10)
    objInfos := List.replicate objective.length ⟨0, [], []⟩
    penInfos := List.replicate penalty.length ⟨0, [], []⟩
    meritInfos := List.replicate merit.length ⟨0, [], []⟩
    meritCoeff := List.replicate merit.length 10 }

/-- `setup`, 568-698. -/
def State.setup (junk : Nat → Ext K) (s : State K) : State K :=
  { s.setupLists.update junk with initialized := true }

/-- `setVariables`, 700-716; `hash` is the hash of the variable values. -/
def State.setVariables (hash : (Nat → K) → Nat) (s : State K) (x : Nat → K) : State K :=
  if hash s.x = hash x then { s with x := x }
  else
    let s := { s with x := x, upd := x }
    { s with nDyn := dynCount s (s.objective ++ s.penalty ++ s.merit) }

/-! ### convexify -/

/-- 778-781 and 944-947: small entries are stored as zero. -/
def thr (v : K) : K := if |v| < 1 / 10 ^ 7 then 0 else v

/-- What one constraint row contributes. -/
structure RowOut (K : Type u) where
  lower : Ext K
  upper : Ext K
  trips : List (Nat × Nat × K)
  grad : List K

/-- One iteration of the loop 773-827: row `row`, first free slack column `var`, `coeff = merit_coeff * info.coeffs(k)`.
Bounds of another type throw. -/
def rowOut (coeff : K) (row var : Nat) (j : List (Nat × K)) (b : Bounds K) (constant : K) : Option (RowOut K) :=
  let lo := addScalar b.lower (-constant)
  let hi := addScalar b.upper (-constant)
  let ts := j.map fun q => (row, q.1, thr q.2)
  match b.type with
  | .equality => some ⟨lo, hi, ts ++ [(row, var, 1), (row, var + 1, -1)], [coeff, coeff]⟩
  | .lowerBound => some ⟨lo, hi, ts ++ [(row, var, 1)], [coeff]⟩
  | .upperBound => some ⟨lo, hi, ts ++ [(row, var, -1)], [coeff]⟩
  | _ => none

/-- The loop 773-827 over the rows of the Jacobian; `info.bounds[k]`, `info.coeffs(k)` out of range are undefined. -/
def rowsOut (mc : K) : Nat → Nat → List (List (Nat × K)) → List (Bounds K) → List K → List K → Option (List (RowOut K))
  | _, _, [], _, _, _ => some []
  | row, var, j :: js, b :: bs, c :: cs, k :: ks =>
    match rowOut (mc * c) row var j b k with
    | none => none
    | some o => match rowsOut mc (row + 1) (var + o.grad.length) js bs cs ks with
      | none => none
      | some os => some (o :: os)
  | _, _, _, _, _, _ => none

/-- What one constraint set contributes: its constants (767-769) and its rows. -/
structure Block (K : Type u) where
  constants : List K
  outs : List (RowOut K)

/-- The loop 744-830.  `merits`: the remaining merit coefficients (`constraint_merit_coeff(merit_constraint_index++)`,
771-772); `isMerit`: the type of the info. -/
def termsOut (x : Nat → K) : List K → Nat → Nat → List (Bool × Info K × Snap K) → Option (List (Block K))
  | _, _, _, [] => some []
  | merits, row, var, (isMerit, info, s) :: l =>
    if info.rows = 0 then termsOut x merits row var l
    else if s.values.length = info.rows ∧ s.jac.rows.length = info.rows then
      let constants := List.zipWith (fun v r => v - dot r x) s.values s.jac.rows
      match (if isMerit then merits.head? else some 1) with
      | none => none
      | some mc => match rowsOut mc row var s.jac.rows info.bounds info.coeffs constants with
        | none => none
        | some outs =>
          match termsOut x (if isMerit then merits.tail else merits) (row + info.rows)
            (var + (outs.map fun o => o.grad.length).sum) l with
          | none => none
          | some bs => some (⟨constants, outs⟩ :: bs)
    else none

/-- Assignment to a segment of a vector. -/
def writeSeg {α : Type u} (l : List α) (pos : Nat) (seg : List α) : Option (List α) :=
  if pos + seg.length ≤ l.length then some (l.take pos ++ seg ++ l.drop (pos + seg.length)) else none

/-- `getLower` of an equality bound (an infinite target is not modelled). -/
def finLower (b : Bounds K) : Option K := match b.lower with | .fin a => some a | _ => none

/-- 878-890: target, affine error and its square of one squared cost. -/
def objectiveOne (sqrt : K → K) (x : Nat → K) (target : List K) (row : Nat) (info : Info K) (s : Snap K) :
    Option (List K × Quad K) :=
  match info.bounds.mapM finLower with
  | none => none
  | some ts => match writeSeg target row ts with
    | none => none
    | some target => match Aff.create s.values s.jac x with
      | none => none
      | some a =>
        let seg := (target.drop row).take s.rows
        if seg.length = a.constants.length then
          let a : Aff K := ⟨List.zipWith (fun t c => t - c) seg a.constants,
            ⟨a.linear.cols, a.linear.rows.map (scaleRow (-1))⟩⟩
          match a.square sqrt s.coeffs with
          | none => none
          | some q => some (target, q)
        else none

/-- The loop 873-922. -/
def objectiveLoop (sqrt : K → K) (x : Nat → K) : List K → Nat → List (Info K × Snap K) → Option (List K × List (Quad K))
  | target, _, [] => some (target, [])
  | target, row, (info, s) :: l =>
    match objectiveOne sqrt x target row info s with
    | none => none
    | some (target, q) => match objectiveLoop sqrt x target (row + s.rows) l with
      | none => none
      | some (target, qs) => some (target, q :: qs)

/-- 861-926: the squared objective of all squared costs.  Without rows the previous one is kept. -/
def State.sqObjectiveOf (sqrt : K → K) (s : State K) : Option (List K × Quad K) :=
  if s.nObj = 0 then some (s.target, s.sqObjective)
  else
    match objectiveLoop sqrt s.x s.target 0 (s.objInfos.zip (s.objective.map s.ask)) with
    | none => none
    | some (target, qs) =>
      if (qs.map fun q => q.constants.length).sum = s.nObj then
        match setFromTriplets s.nVars s.nVars (qs.flatMap fun q => q.objQuadratic.triplets) with
        | none => none
        | some H => some (target,
            { constants := qs.flatMap (·.constants)
              linear := ⟨s.nVars, qs.flatMap fun q => q.linear.rows⟩
              quadratic := qs.flatMap (·.quadratic)
              objLinear := (List.range s.nVars).map fun c => (qs.map fun q => q.objLinear.getD c 0).sum
              objQuadratic := H })
      else none

/-- The `segment(idx, n_nlp_vars)` written by `updateNLPVariableBounds`, 1094-1116. -/
def State.boxBounds (s : State K) : Option (List (K × K)) :=
  (List.range s.nVars).mapM fun i =>
    match s.box[i]?, s.varBounds[i]? with
    | some b, some (lb, ub) => trustInterval b (s.x i) lb ub
    | _, _ => none

/-- `updateNLPVariableBounds`, 1094-1116. -/
def State.updateNLPVariableBounds (s : State K) : Option (State K) :=
  match s.boxBounds with
  | none => none
  | some iv =>
    match writeSeg s.lower (s.nMerit + s.nPen) (iv.map fun i => .fin i.1),
      writeSeg s.upper (s.nMerit + s.nPen) (iv.map fun i => .fin i.2) with
    | some lo, some hi => some { s with lower := lo, upper := hi }
    | _, _ => none

/-- `convexify` without the initial `update`, 727-973. -/
def State.convexifyCore (sqrt : K → K) (junk : Nat → Ext K) (s : State K) : Option (State K) :=
  let terms := (s.penInfos.zip (s.penalty.map s.ask)).map (fun t => (false, t.1, t.2)) ++
    (s.meritInfos.zip (s.merit.map s.ask)).map (fun t => (true, t.1, t.2))
  match termsOut s.x s.meritCoeff 0 s.nVars terms with
  | none => none
  | some bs =>
    let outs := bs.flatMap (·.outs)
    let grad := outs.flatMap (·.grad)
    let nSlack := grad.length
    let nQpVars := s.nVars + nSlack
    let nQpCnts := s.nPen + s.nMerit + nQpVars
    match writeSeg s.constant 0 (bs.flatMap (·.constants)), writeSeg s.lower 0 (outs.map (·.lower)),
      writeSeg s.upper 0 (outs.map (·.upper)) with
    | some constant, some lower, some upper =>
      let lower := conservativeResize junk nQpCnts lower
      let upper := conservativeResize junk nQpCnts upper
      let lower := lower.take (nQpCnts - nSlack) ++ List.replicate nSlack (.fin 0)
      let upper := upper.take (nQpCnts - nSlack) ++ List.replicate nSlack .posInf
      match s.sqObjectiveOf sqrt with
      | none => none
      | some (target, sq) =>
        let gradHead := if s.nObj = 0 then List.replicate s.nVars 0 else sq.objLinear
        let hessTrips := if s.nObj = 0 then [] else sq.objQuadratic.triplets.map fun t => (t.1, t.2.1, thr t.2.2)
        let diag := (List.range nQpVars).map fun i => (s.nMerit + s.nPen + i, i, (1 : K))
        match setFromTriplets nQpVars nQpVars hessTrips,
          setFromTriplets nQpCnts nQpVars (outs.flatMap (·.trips) ++ diag) with
        | some hessian, some matrix =>
          ({ s with nSlack := nSlack, nQpVars := nQpVars, nQpCnts := nQpCnts, constant := constant, lower := lower,
                    upper := upper, target := target, sqObjective := sq, gradient := gradHead ++ grad,
                    hessian := hessian, matrix := matrix } : State K).updateNLPVariableBounds
        | _, _ => none
    | _, _, _ => none

/-- `convexify`, 720-973. -/
def State.convexify (sqrt : K → K) (junk : Nat → Ext K) (s : State K) : Option (State K) :=
  if s.initialized then (s.update junk).convexifyCore sqrt junk else none

/-! ### Evaluation -/

/-- Product of row `r`, restricted to the first `n` columns, with a vector. -/
def rowMul (M : SMat K) (n r : Nat) (z : Nat → K) : K :=
  ((M.cols.take n).zipIdx.map fun c => (c.1.map fun q => if q.1 = r then q.2 else 0).sum * z c.2).sum

/-- 175-197 and 213-241: the violations of one set of rows of the convexified problem; `n` is the number of columns
taken into account. -/
def State.convexViolation (s : State K) (n row : Nat) (i : Info K) (z : Nat → K) : K :=
  (calcBoundsViolations ((List.range i.rows).map fun k => s.constant.getD (row + k) 0 + rowMul s.matrix n (row + k) z)
    (i.bounds.map sides)).sum

/-- The loops 167-197 and 210-241. -/
def State.convexViolations (s : State K) (n : Nat) (z : Nat → K) : Nat → List (Info K) → List K
  | _, [] => []
  | row, i :: is =>
    if i.rows = 0 then 0 :: s.convexViolations n z row is
    else s.convexViolation n row i z :: s.convexViolations n z (row + i.rows) is

/-- Sums of consecutive segments, 157-162. -/
def segmentSums : List Nat → List K → List K
  | [], _ => []
  | n :: ns, l => (l.take n).sum :: segmentSums ns (l.drop n)

/-- `evaluateConvexCosts`, 131-200: the penalty costs are evaluated with all QP variables, slacks included.  The
expression has to have as many rows as the output. -/
def State.evaluateConvexCosts (s : State K) (z : Nat → K) : Option (List K) :=
  let pen := s.convexViolations s.nQpVars z 0 s.penInfos
  if s.objInfos = [] then some pen
  else if s.sqObjective.constants.length = s.nObj then
    match s.sqObjective.values z with
    | none => none
    | some v => some (segmentSums (s.objInfos.map (·.rows)) v ++ pen)
  else none

/-- `evaluateConvexConstraintViolations`, 202-244: without slacks. -/
def State.evaluateConvexConstraintViolations (s : State K) (z : Nat → K) : List K :=
  s.convexViolations s.nVars z s.nPen s.meritInfos

/-- `getExactCosts`, 977-1020. -/
def State.getExactCosts (s : State K) : List K :=
  (s.objective.map fun c =>
    (List.zipWith (fun e w => e * e * w) (calcBoundsViolations (s.ask c).values ((s.ask c).bounds.map sides))
      (s.ask c).coeffs).sum) ++
  s.penalty.map fun c => (calcBoundsViolations (s.ask c).values ((s.ask c).bounds.map sides)).sum

/-- `getExactConstraintViolations`, 1022-1044. -/
def State.getExactConstraintViolations (s : State K) : List K :=
  s.merit.map fun c => (calcBoundsViolations (s.ask c).values ((s.ask c).bounds.map sides)).sum

/-- `setConstraintMeritCoeff`, 1059-1063 (the size is asserted). -/
def State.setConstraintMeritCoeff (s : State K) (m : List K) : Option (State K) :=
  if m.length = s.cnts.length + s.dynCnts.length then some { s with meritCoeff := m } else none

/-- `setBoxSize`, 1052-1057 (the size is asserted). -/
def State.setBoxSize (s : State K) (b : List K) : Option (State K) :=
  if b.length = s.nVars then ({ s with box := b } : State K).updateNLPVariableBounds else none

/-- `scaleBoxSize`, 1046-1050. -/
def State.scaleBoxSize (s : State K) (a : K) : Option (State K) :=
  ({ s with box := s.box.map (· * a) } : State K).updateNLPVariableBounds

end
end Verif.QpProblem
