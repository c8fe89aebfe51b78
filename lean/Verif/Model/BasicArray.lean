import Mathlib.Data.List.Basic
import Mathlib.Data.Int.Basic

/-!
# `trajopt_common::BasicArray`

Model of `trajopt_common/include/trajopt_common/basic_array.hpp`.

`int` row and column arguments are `Int`; the index computation converts them to `std::size_t` first
(lines 81-96), which is arithmetic modulo `2^64`.  An access that makes `std::vector::at` throw is `none`.
Row and column counts given to `block`, `rblock`, `cblock`, `middleRows` are natural numbers
(negative counts, which make `std::vector` throw `length_error`, are not modelled), and `int` overflow of the
loop counters is not modelled.
-/

namespace Verif.BasicArray

/-- `basic_array.hpp` 10-14: row and column count and the flat data. -/
structure BArr (T : Type) where
  nRow : Nat
  nCol : Nat
  data : List T

variable {T : Type}

/-- `basic_array.hpp` 81-96: the flat index, computed in `std::size_t`. -/
def flat (a : BArr T) (row col : Int) : Nat := ((row * a.nCol + col) % 2 ^ 64).toNat

/-- `basic_array.hpp` 81-96 `at(row, col)` and `operator()(row, col)` for reading. -/
def BArr.at (a : BArr T) (row col : Int) : Option T := a.data[flat a row col]?

/-- `basic_array.hpp` 85-88, 93-96: assignment through the returned reference. -/
def BArr.set (a : BArr T) (row col : Int) (v : T) : Option (BArr T) :=
  if flat a row col < a.data.length then some { a with data := a.data.set (flat a row col) v } else none

/-- `basic_array.hpp` 25-30 `resize`, with `d` the default constructed element. -/
def BArr.resize (d : T) (a : BArr T) (nRow nCol : Nat) : BArr T :=
  ⟨nRow, nCol, a.data.take (nRow * nCol) ++ List.replicate (nRow * nCol - a.data.length) d⟩

/-- `basic_array.hpp` 16: default constructor. -/
def BArr.empty : BArr T := ⟨0, 0, []⟩

/-- `basic_array.hpp` 19: construction from a pointer to `nRow * nCol` elements. -/
def BArr.ofData (nRow nCol : Nat) (l : List T) : BArr T := ⟨nRow, nCol, l.take (nRow * nCol)⟩

/-- The double loop `for i < n, for j < m` in execution order. -/
def cells (n m : Nat) : List (Nat × Nat) := (List.range n).flatMap fun i => (List.range m).map fun j => (i, j)

/-- Body of the copy loops: `out(wi, wj) = at(ri, rj)` for each cell of the loop. -/
def copy (a : BArr T) (w r : Nat × Nat → Int × Int) (l : List (Nat × Nat)) (out : BArr T) : Option (BArr T) :=
  l.foldlM (fun o c => do let v ← a.at (r c).1 (r c).2; o.set (w c).1 (w c).2 v) out

/-- `basic_array.hpp` 35-47 `block`. -/
def BArr.block (d : T) (a : BArr T) (startRow startCol : Int) (nRow nCol : Nat) : Option (BArr T) :=
  copy a (fun c => (c.1, c.2)) (fun c => (c.1 + startRow, c.2 + startCol)) (cells nRow nCol)
    (BArr.resize d BArr.empty nRow nCol)

/-- `basic_array.hpp` 48-56 `rblock`. -/
def BArr.rblock (a : BArr T) (startRow startCol : Int) (nCol : Nat) : Option (List T) :=
  (List.range nCol).mapM fun (j : Nat) => a.at startRow (j + startCol)

/-- `basic_array.hpp` 57-65 `cblock`. -/
def BArr.cblock (a : BArr T) (startRow startCol : Int) (nRow : Nat) : Option (List T) :=
  (List.range nRow).mapM fun (i : Nat) => a.at (i + startRow) startCol

/-- `basic_array.hpp` 66-78 `middleRows`: the result is written at the source row. -/
def BArr.middleRows (d : T) (a : BArr T) (start : Int) (n : Nat) : Option (BArr T) :=
  copy a (fun c => (start + c.1, c.2)) (fun c => (start + c.1, c.2)) (cells n a.nCol)
    (BArr.resize d BArr.empty n a.nCol)

/-- `basic_array.hpp` 79 `topRows`. -/
def BArr.topRows (d : T) (a : BArr T) (n : Nat) : Option (BArr T) := a.middleRows d 0 n

/-- `basic_array.hpp` 80 `bottomRows`. -/
def BArr.bottomRows (d : T) (a : BArr T) (n : Nat) : Option (BArr T) := a.middleRows d ((a.nRow : Int) - n) n

/-- `basic_array.hpp` 97-104 `col`. -/
def BArr.col (a : BArr T) (c : Int) : Option (List T) := (List.range a.nRow).mapM fun (i : Nat) => a.at i c

/-- `basic_array.hpp` 106-113 `row`. -/
def BArr.row (a : BArr T) (r : Int) : Option (List T) := (List.range a.nCol).mapM fun (j : Nat) => a.at r j

end Verif.BasicArray
