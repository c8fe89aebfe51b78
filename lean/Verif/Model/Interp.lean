import Mathlib.Algebra.Order.Field.Basic

/-!
# `searchsorted` and `interp2d`

Model of `trajopt_common/include/trajopt_common/interpolation.hpp`.  Vectors are functions on the indices with a
length, doubles are elements of a linearly ordered field, a matrix row is a function on the columns.
-/

namespace Verif.Interp

variable {K : Type} [Field K] [LinearOrder K]

/-- `interpolation.hpp` 20-21: `while (iY < nY && x > y[iY]) iY++`; the first argument is `nY - iY`. -/
def advance (y : Nat → K) (x : K) : Nat → Nat → Nat
  | 0, iY => iY
  | n + 1, iY => if x > y iY then advance y x n (iY + 1) else iY

/-- `interpolation.hpp` 18-23: the loop over the new points, `iY` is never reset. -/
def searchLoop (y : Nat → K) (nY : Nat) : List K → Nat → List Nat
  | [], _ => []
  | x :: xs, iY =>
    let iY' := advance y x (nY - iY) iY
    iY' :: searchLoop y nY xs iY'

/-- `interpolation.hpp` 9-25 `searchsorted(x, y)`. -/
def searchsorted (xs : List K) (y : Nat → K) (nY : Nat) : List Nat := searchLoop y nY xs 0

/-- `interpolation.hpp` 36-46: one row of the result.  `none` for `yOld.row(0)` of a matrix without rows. -/
def interpRow {J : Type} (x : K) (xOld : Nat → K) (nOld : Nat) (yOld : Nat → J → K) (above : Nat) : Option (J → K) :=
  if above = 0 then (if nOld = 0 then none else some (yOld 0))
  else if above = nOld then some (yOld (nOld - 1))
  else
    let t := (x - xOld (above - 1)) / (xOld above - xOld (above - 1))
    some fun j => yOld (above - 1) j * (1 - t) + yOld above j * t

/-- `interpolation.hpp` 27-49 `interp2d(xNew, xOld, yOld)`. -/
def interp2d {J : Type} (xNew : List K) (xOld : Nat → K) (nOld : Nat) (yOld : Nat → J → K) : Option (List (J → K)) :=
  (xNew.zip (searchsorted xNew xOld nOld)).mapM fun p => interpRow p.1 xOld nOld yOld p.2

end Verif.Interp
