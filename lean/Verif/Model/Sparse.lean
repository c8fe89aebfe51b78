import Verif.Model.OsqpModel

/-!
Model of the conversions from expressions to the matrices handed to the solvers.

Sources (all under /repo/trajopt_sco):
* `src/solver_interface.cpp` 44-62 (`simplify2`)
* `src/solver_utils.cpp` 12-184 (`exprToEigen`, `tripletsToEigen`, `eigenToTriplets`)
* `include/trajopt_sco/solver_utils.hpp` 104-153 (`eigenToCSC`)
* `src/osqp_interface.cpp` 170-370 (`updateObjective`, `updateConstraints`, `createOrUpdateSolver`)

Eigen's containers are modelled, not verified: a sparse vector is the list of its stored (index, value)
pairs, a column-major sparse matrix is the list of its columns.  `setFromTriplets` sums duplicates and
keeps explicit zeros, as documented by Eigen.  In this file a variable of an expression is its column index
(`var_rep->index`); `OModel.toIndices` translates handles.  A thrown exception is `none`; an out-of-range
index that the code does not check is also `none` (undefined behaviour) and commented as such.
-/

namespace Verif.Sco

open Verif.Bounds (Ext)

universe u

section
variable {K : Type u} [Field K] [DecidableEq K]

/-- `std::map::operator[](i) += v` on a sorted association list. -/
def mapAdd (i : Nat) (v : K) : List (Nat × K) → List (Nat × K)
  | [] => [(i, v)]
  | (j, w) :: l => if i < j then (i, v) :: (j, w) :: l
      else if i = j then (j, w + v) :: l
      else (j, w) :: mapAdd i v l

/-- `simplify2`, solver_interface.cpp 44-62: the two parallel vectors are one list of pairs. -/
def simplify2 (l : List (Nat × K)) : List (Nat × K) :=
  l.foldl (fun m t => if t.2 ≠ 0 then mapAdd t.1 t.2 m else m) []

/-- The first loop of `exprToEigen(AffExpr)`, solver_utils.cpp 20-31: every index is checked, zero
coefficients are skipped. -/
def doublets (n : Nat) : List (K × Nat) → Option (List (Nat × K))
  | [] => some []
  | t :: ts =>
    if n ≤ t.2 then none
    else match doublets n ts with
      | none => none
      | some l => some (if t.1 ≠ 0 then (t.2, t.1) :: l else l)

/-- `sparse_vector.coeffRef(i) += v` when `i` is stored. -/
def coeffAdd (i : Nat) (v : K) (l : List (Nat × K)) : List (Nat × K) :=
  l.map fun q => if q.1 = i then (q.1, q.2 + v) else q

/-- The second loop of `exprToEigen(AffExpr)`, 34-46; `prev` is `prev_index` (`none` is -1). -/
def insertLoop (s : List (Nat × K) × Option Nat) (d : Nat × K) : List (Nat × K) × Option Nat :=
  if s.2 = some d.1 then (coeffAdd d.1 d.2 s.1, some d.1) else (s.1 ++ [d], some d.1)

/-- `exprToEigen(AffExpr)`, solver_utils.cpp 12-47.  `sort` is `std::sort` by index, which is not stable. -/
def affToSparse (sort : List (Nat × K) → List (Nat × K)) (e : AffExpr K Nat) (n : Nat) :
    Option (List (Nat × K)) :=
  match doublets n e.terms with
  | none => none
  | some l => some ((sort l).foldl insertLoop ([], none)).1

/-- `Eigen::SparseMatrix<double>` (column major): stored entries of every column, by row. -/
structure SMat (K : Type u) where
  rows : Nat
  cols : List (List (Nat × K))

/-- One triplet of `setFromTriplets`; an index out of range is undefined behaviour (`none`). -/
def SMat.addTriplet (M : SMat K) (t : Nat × Nat × K) : Option (SMat K) :=
  if t.1 < M.rows ∧ t.2.1 < M.cols.length then some { M with cols := M.cols.modify t.2.1 (mapAdd t.1 t.2.2) }
  else none

/-- `resize(r, c)` followed by `setFromTriplets`. -/
def setFromTriplets (r c : Nat) (ts : List (Nat × Nat × K)) : Option (SMat K) :=
  ts.foldlM SMat.addTriplet ⟨r, List.replicate c []⟩

/-- `eigenToTriplets`, solver_utils.cpp 166-184: by columns, in storage order. -/
def SMat.triplets (M : SMat K) : List (Nat × Nat × K) :=
  M.cols.zipIdx.flatMap fun c => c.1.map fun q => (q.1, c.2, q.2)

/-- `tripletsToEigen`, solver_utils.cpp 146-164. -/
def tripletsToEigen (r c : Nat) (ts : List (Nat × Nat × K)) : Option (SMat K) := setFromTriplets r c ts

/-- The loop of `exprToEigen(QuadExpr)`, 69-95. -/
def quadTriplets : List (K × Nat × Nat) → List (Nat × Nat × K)
  | [] => []
  | t :: ts =>
    if t.1 ≠ 0 then
      (if t.2.1 = t.2.2 then (t.2.1, t.2.2, t.1)
        else if t.2.1 < t.2.2 then (t.2.1, t.2.2, t.1) else (t.2.2, t.2.1, t.1)) :: quadTriplets ts
    else quadTriplets ts

/-- `sparse_matrix + sparse_matrix_T`, 103-104: all stored entries of both, summed. -/
def SMat.plusTranspose (M : SMat K) : Option (SMat K) :=
  setFromTriplets M.rows M.cols.length (M.triplets ++ M.triplets.map fun t => (t.2.1, t.1, t.2.2))

/-- `0.5 * sparse_matrix`, 106-107. -/
def SMat.scale (M : SMat K) (a : K) : SMat K :=
  { M with cols := M.cols.map fun c => c.map fun q => (q.1, a * q.2) }

/-- `exprToEigen(QuadExpr)`, solver_utils.cpp 49-109: matrix and vector. -/
def quadToEigen (sort : List (Nat × K) → List (Nat × K)) (q : QuadExpr K Nat) (n : Nat)
    (matrixIsHalved forceDiagonal : Bool) : Option (SMat K × List (Nat × K)) :=
  match affToSparse sort q.aff n with
  | none => none
  | some v =>
    let ts := quadTriplets q.terms
    let ts := if forceDiagonal then ts ++ (List.range n).map fun k => (k, k, 0) else ts
    match setFromTriplets n n ts with
    | none => none
    | some M => match M.plusTranspose with
      | none => none
      | some S => some (if matrixIsHalved then S else S.scale (1 / 2), v)

/-- The loops of `exprToEigen(AffExprVector)`, 122-142, from row `i` on. -/
def rowTriplets (n : Nat) : Nat → List (AffExpr K Nat) → Option (List (Nat × Nat × K))
  | _, [] => some []
  | i, e :: es =>
    match doublets n e.terms with
    | none => none
    | some l => match rowTriplets n (i + 1) es with
      | none => none
      | some ts => some (l.map (fun d => (i, d.1, d.2)) ++ ts)

/-- `exprToEigen(AffExprVector)`, 111-144: matrix and right-hand sides (`-constant`). -/
def affsToEigen (es : List (AffExpr K Nat)) (n : Nat) : Option (SMat K × List K) :=
  match rowTriplets n 0 es with
  | none => none
  | some ts => match setFromTriplets es.length n ts with
    | none => none
    | some M => some (M, es.map fun e => -e.constant)

/-- Compressed sparse columns. -/
structure CSC (K : Type u) where
  rowIndices : List Nat
  columnPointers : List Nat
  values : List K

/-- The outer index array of a compressed Eigen matrix: running count of stored entries. -/
def outerIndex (start : Nat) : List (List (Nat × K)) → List Nat
  | [] => []
  | c :: cs => start :: outerIndex (start + c.length) cs

/-- `triangularView<Upper>`: entries with row ≤ column. -/
def SMat.upper (M : SMat K) : SMat K :=
  { M with cols := M.cols.zipIdx.map fun c => c.1.filter fun q => decide (q.1 ≤ c.2) }

/-- `eigenToCSC`, solver_utils.hpp 104-153 (`upper` is `eigenUpLoType = Eigen::Upper`): inner indices,
the first `outerSize` outer indices, then the number of stored entries. -/
def eigenToCSC (upper : Bool) (M : SMat K) : CSC K :=
  let M := if upper then M.upper else M
  { rowIndices := M.cols.flatten.map Prod.fst
    columnPointers := outerIndex 0 M.cols ++ [M.cols.flatten.length]
    values := M.cols.flatten.map Prod.snd }

/-- `fmax(lb, -OSQP_INFINITY)`. -/
def clampLo [LinearOrder K] : Ext K → Ext K
  | .negInf => .fin (-osqpInfty)
  | .fin a => .fin (max a (-osqpInfty))
  | .posInf => .posInf

/-- `fmin(ub, OSQP_INFINITY)`. -/
def clampHi [LinearOrder K] : Ext K → Ext K
  | .posInf => .fin osqpInfty
  | .fin a => .fin (min a osqpInfty)
  | .negInf => .negInf

/-- What `updateConstraints` hands to OSQP. -/
structure Rows (K : Type u) where
  A : SMat K
  l : List (Ext K)
  u : List (Ext K)

/-- `sm.insert(i_bnd + m, i_bnd) = 1.` for every bound, osqp_interface.cpp 244-250: a new last entry of each
column. -/
def addBoundRows (M : SMat K) (m : Nat) : SMat K :=
  { rows := m + M.cols.length, cols := M.cols.zipIdx.map fun c => c.1 ++ [(m + c.2, 1)] }

/-- `updateConstraints`, osqp_interface.cpp 213-250: rows `l <= A x <= u`. -/
def updateConstraints [LinearOrder K] (cnts : List (AffExpr K Nat × Bool)) (bounds : List (Ext K × Ext K)) :
    Option (Rows K) :=
  match affsToEigen (cnts.map Prod.fst) bounds.length with
  | none => none
  | some r =>
    some { A := addBoundRows r.1 cnts.length
           l := (cnts.zipWith (fun c v => if c.2 then Ext.fin v else Ext.fin (-osqpInfty)) r.2) ++
                bounds.map fun b => clampLo b.1
           u := r.2.map Ext.fin ++ bounds.map fun b => clampHi b.2 }

/-- Handles replaced by `var_rep->index`; a handle without a rep is undefined behaviour. -/
def AffExpr.toIndices (idx : Nat → Option Nat) (e : AffExpr K Nat) : Option (AffExpr K Nat) :=
  match e.terms.mapM fun t => (idx t.2).map fun i => (t.1, i) with
  | none => none
  | some ts => some ⟨e.constant, ts⟩

/-- `updateConstraints` on the model, reading indices through the handles. -/
def OModel.rows [LinearOrder K] (m : OModel K) : Option (Rows K) :=
  match m.cnts.items.mapM fun c => (c.2.1.toIndices m.vars.indexOf).map fun e => (e, c.2.2) with
  | none => none
  | some cs => updateConstraints cs (m.vars.items.map Prod.snd)

end

/-! ### Sparsity comparison -/

/-- `sizeof(OSQPInt)` (OSQP built with 64-bit integers). -/
def osqpIntSize : Nat := 8

/-- Little-endian bytes of an `OSQPInt`. -/
def intBytes (v : Nat) : List Nat := (List.range osqpIntSize).map fun k => v / 256 ^ k % 256

/-- The bytes of a `std::vector<OSQPInt>`. -/
def vecBytes (l : List Nat) : List Nat := l.flatMap intBytes

/-- `memcmp(a, b, count) == 0`. -/
def memEq (a b : List Nat) (count : Nat) : Bool := decide ((vecBytes a).take count = (vecBytes b).take count)

/-- A matrix as OSQP stores it: size and compressed columns. -/
structure OsqpMat (K : Type u) where
  m : Nat
  n : Nat
  csc : CSC K

/-- The decision of `updateObjective`/`updateConstraints`, osqp_interface.cpp 181-206 and 252-276: same
sizes and number of stored entries, then two `memcmp` calls with an element count where a byte count is
expected. -/
def sparsityEqual {K : Type u} (prev new : OsqpMat K) : Bool :=
  decide (prev.n = new.n ∧ prev.m = new.m ∧ prev.csc.values.length = new.csc.values.length) &&
  memEq prev.csc.columnPointers new.csc.columnPointers (prev.n + 1) &&
  memEq prev.csc.rowIndices new.csc.rowIndices prev.csc.values.length

/-- `createOrUpdateSolver`, osqp_interface.cpp 283-370, for a workspace that was solved, with
`update_workspace` set and successful OSQP calls: on equal sparsity only the values are replaced
(`osqp_update_data_mat`), otherwise the workspace is set up again. -/
def nextWorkspace {K : Type u} (wsP wsA : OsqpMat K) (P A : OsqpMat K) : OsqpMat K × OsqpMat K :=
  if sparsityEqual wsP P && sparsityEqual wsA A then
    ({ wsP with csc := { wsP.csc with values := P.csc.values } },
     { wsA with csc := { wsA.csc with values := A.csc.values } })
  else (P, A)

end Verif.Sco
