import Mathlib.Data.List.Basic
import Mathlib.Data.Nat.Sqrt
import Mathlib.Order.Defs.LinearOrder

/-!
`VHACD::MergeConvexHulls` (trajopt_ext/vhacd/src/VHACD.cpp 1481-1620): convex hulls are merged in pairs until at most `m_maxConvexHulls` are
left.  The costs of all pairs are kept in a packed lower triangle in an `SArray<float>`.

Simplifications
* A hull is an arbitrary type `H`; computing the hull of two (`ComputeConvexHull`, 1450-1479) and the cost of a pair (`ComputeConcavity` of the
  two volumes and the volume of the common hull, 1516-1520) are parameters.
* `double` to `float` rounding of costs is left out; `big` is `FLT_MAX`.
* `m_cancel` stays false (a cancelled computation throws its result away, vhacdVHACD.h 347-351).
* `size_t` does not overflow; `sqrt` of the integer `1 + 8 * addr` is rounded down exactly.
* The buffer of the cost matrix is a list as long as its capacity; access behind it is undefined (`none`), as is an index of -1.
-/

namespace Verif.Vhacd

universe u v
variable {H : Type u} {K : Type v}

/-- `SArray::Allocate` from the initial state (vhacdSArray.h 59-69, `N = 64`): the number of elements the buffer has room for. -/
def capacity (size : ℕ) : ℕ := if 64 < size then size else 64

/-- Assignment `data[i] = v`. -/
def store (buf : List K) (i : ℕ) (v : K) : Option (List K) := if i < buf.length then some (buf.set i v) else none

/-- The costs of hull `p1` against the hulls before it, 1516-1521. -/
def populateRow (cost : H → H → K) (hulls : List H) (p1 : ℕ) : List K :=
  (List.range p1).filterMap fun p2 =>
    match hulls[p1]?, hulls[p2]? with
    | some a, some b => some (cost a b)
    | _, _ => none

/-- Filling the cost matrix, 1509-1522. -/
def populate (cost : H → H → K) (hulls : List H) : List K := (List.range hulls.length).flatMap (populateRow cost hulls)

section
variable [LinearOrder K]

/-- `FindMinimumElement`, 140-155, from index `i` on with the best element so far. -/
def findMin (i : ℕ) (best : Option ℕ) (min : K) : List K → Option ℕ
  | [] => best
  | d :: ds => if d < min then findMin (i + 1) (some i) d ds else findMin (i + 1) best min ds

/-- The loop 1567-1572: costs of the new hull `c` against the hulls before it. -/
def newRow (cost : H → H → K) (c : H) (hulls : List H) : ℕ → ℕ → ℕ → List K → Option (List K)
  | 0, _, _, buf => some buf
  | k + 1, i, row, buf =>
    match hulls[i]? with
    | none => none
    | some h =>
      match store buf row (cost c h) with
      | none => none
      | some buf => newRow cost c hulls k (i + 1) (row + 1) buf

/-- The loop 1575-1581: costs of the new hull `c` against the hulls behind it. -/
def newCol (cost : H → H → K) (c : H) (hulls : List H) : ℕ → ℕ → ℕ → List K → Option (List K)
  | 0, _, _, buf => some buf
  | k + 1, i, row, buf =>
    match hulls[i]? with
    | none => none
    | some h =>
      match store buf row (cost c h) with
      | none => none
      | some buf => newCol cost c hulls k (i + 1) (row + i) buf

/-- The loop 1589-1597: the row of the last hull becomes the row of `p1`. -/
def moveRow (p2 : ℕ) : ℕ → ℕ → ℕ → ℕ → List K → Option (List K)
  | 0, _, _, _, buf => some buf
  | k + 1, i, row, top, buf =>
    if i ≠ p2 then
      match buf[top]? with
      | none => none
      | some v =>
        match store buf row v with
        | none => none
        | some buf => moveRow p2 k (i + 1) (row + 1) (top + 1) buf
    else moveRow p2 k (i + 1) (row + 1) (top + 1) buf

/-- The loop 1601-1605: the rest of the row of the last hull becomes the column of `p1`. -/
def moveCol : ℕ → ℕ → ℕ → ℕ → List K → Option (List K)
  | 0, _, _, _, buf => some buf
  | k + 1, i, row, top, buf =>
    match buf[top]? with
    | none => none
    | some v =>
      match store buf row v with
      | none => none
      | some buf => moveCol k (i + 1) (row + i) (top + 1) buf

/-- The hulls after merging `p1` and `p2` (1553-1562): `p2` becomes the common hull, the last hull takes the place of `p1`. -/
def mergeHulls (combine : H → H → H) (hulls : List H) (p1 p2 : ℕ) : Option (List H × H) :=
  match hulls[p1]?, hulls[p2]? with
  | some a, some b =>
    let c := combine a b
    let hulls := hulls.set p2 c
    match hulls[hulls.length - 1]? with
    | none => none
    | some t => some ((hulls.set p1 t).dropLast, c)
  | _, _ => none

/-- Moving the row of the last hull, 1584-1606; `n` is `costSize` after the merge. -/
def moveTop (n addrI p1 p2 : ℕ) (buf : List K) : Option (List K) :=
  let eraseIdx := ((n - 1) * n) / 2
  if p1 < n then
    let rowIdx := (addrI * p1) / 2
    match moveRow p2 p1 0 rowIdx eraseIdx buf with
    | none => none
    | some buf => moveCol (n - p1) (p1 + 1) (rowIdx + p1 + p1) (eraseIdx + p1 + 1) buf
  else some buf

/-- One merge, 1532-1607; `size` is `costMatrix.Size()`. -/
def mergeStep (cost : H → H → K) (combine : H → H → H) (big : K) (hulls : List H) (buf : List K) (size : ℕ) :
    Option (List H × List K × ℕ) :=
  match findMin 0 none big (buf.take size) with
  | none => none
  | some addr =>
    let addrI := (Nat.sqrt (1 + 8 * addr) - 1) / 2
    let p1 := addrI + 1
    let p2 := addr - (addrI * (addrI + 1)) / 2
    match mergeHulls combine hulls p1 p2 with
    | none => none
    | some (hulls, c) =>
      let n := hulls.length
      let row := ((p2 - 1) * p2) / 2
      match newRow cost c hulls p2 0 row buf with
      | none => none
      | some buf =>
        match newCol cost c hulls (n - (p2 + 1)) (p2 + 1) (row + p2 + p2) buf with
        | none => none
        | some buf =>
          match moveTop n addrI p1 p2 buf with
          | none => none
          | some buf => some (hulls, buf, ((n - 1) * n) / 2)

/-- The loop 1526-1608; it is left when `costSize - 1 < m_maxConvexHulls` (1535).  `costSize` is the number of hulls, which every pass reduces:
`k` passes are enough if `k` is at least that number. -/
def mergeLoop (cost : H → H → K) (combine : H → H → H) (big : K) (maxHulls : ℕ) : ℕ → List H → List K → ℕ → Option (List H)
  | 0, _, _, _ => none
  | k + 1, hulls, buf, size =>
    if hulls.length - 1 < maxHulls then some hulls
    else
      match mergeStep cost combine big hulls buf size with
      | none => none
      | some (hulls, buf, size) => mergeLoop cost combine big maxHulls k hulls buf size

/-- `MergeConvexHulls`; `junk` is what the buffer of the cost matrix holds before it is filled. -/
def mergeConvexHulls (cost : H → H → K) (combine : H → H → H) (big : K) (maxHulls : ℕ) (junk : ℕ → K) (hulls : List H) : Option (List H) :=
  if 1 < hulls.length then
    let size := ((hulls.length * hulls.length) - hulls.length) / 2
    let entries := populate cost hulls
    let buf := entries ++ (List.range (capacity size - entries.length)).map junk
    mergeLoop cost combine big maxHulls hulls.length hulls buf size
  else some hulls

end
end Verif.Vhacd
