import Verif.Model.Sparse

/-!
Model of `trajopt_optimizers/trajopt_sqp/src/expressions.cpp` (`AffExprs`, `QuadExprs`).

A row-major sparse matrix (`trajopt_ifopt::Jacobian`) is the list of the stored (column, value) pairs of every row.
A decision vector is a function from column to value; that it has as many entries as the matrices have columns is
asserted by Eigen and not modelled.  Row counts that do not fit together are undefined behaviour: `none`.  The member
`sqrt` is `std::sqrt`; doubles are field elements.
-/

namespace Verif.SqpExprs

open Verif.Sco

universe u

/-- `Jacobian`. -/
structure Mat (K : Type u) where
  cols : Nat
  rows : List (List (Nat × K))
  deriving DecidableEq

/-- `AffExprs`, expressions.h. -/
structure Aff (K : Type u) where
  constants : List K
  linear : Mat K

/-- `QuadExprs`, expressions.h. -/
structure Quad (K : Type u) where
  constants : List K
  linear : Mat K
  quadratic : List (Mat K)
  objLinear : List K
  objQuadratic : SMat K

section
variable {K : Type u} [Field K] [DecidableEq K]

/-- A sparse row times a dense vector. -/
def dot (row : List (Nat × K)) (x : Nat → K) : K := (row.map fun q => q.2 * x q.1).sum

/-- The value at a column of a sparse row. -/
def at' (row : List (Nat × K)) (c : Nat) : K := (row.map fun q => if q.1 = c then q.2 else 0).sum

/-- `M * x`. -/
def Mat.mul (M : Mat K) (x : Nat → K) : List K := M.rows.map fun r => dot r x

/-- Number of stored entries. -/
def Mat.nonZeros (M : Mat K) : Nat := (M.rows.map List.length).sum

/-- Multiplication by a scalar. -/
def scaleRow (a : K) (row : List (Nat × K)) : List (Nat × K) := row.map fun q => (q.1, q.2 * a)

/-- `AffExprs::values`, 6-11. -/
def Aff.values (e : Aff K) (x : Nat → K) : Option (List K) :=
  if e.constants.length = e.linear.rows.length then
    some (List.zipWith (fun c r => c + dot r x) e.constants e.linear.rows)
  else none

/-- `AffExprs::create`, 13-24. -/
def Aff.create (f : List K) (J : Mat K) (x : Nat → K) : Option (Aff K) :=
  if f.length = J.rows.length then some ⟨List.zipWith (fun v r => v - dot r x) f J.rows, J⟩ else none

/-- Column sums of the rows, 52-57: every stored entry is added to its column. -/
def colSums (n : Nat) (rows : List (List (Nat × K))) : List K :=
  (List.range n).map fun c => (rows.map fun r => at' r c).sum

/-- The triplets of `B.transpose() * B`: one product per pair of stored entries of a row. -/
def gramTriplets (rows : List (List (Nat × K))) : List (Nat × Nat × K) :=
  rows.flatMap fun r => r.flatMap fun a => r.map fun b => (a.1, b.1, a.2 * b.2)

/-- `AffExprs::square`, 26-112.  `none`: sizes do not fit, or a column is out of range. -/
def Aff.square (sqrt : K → K) (e : Aff K) (w : List K) : Option (Quad K) :=
  let m := e.constants.length
  let n := e.linear.cols
  if e.linear.rows.length = m ∧ w.length = m then
    let lin := List.zipWith (fun r s => scaleRow s r) e.linear.rows
      (List.zipWith (fun a w => 2 * (a * w)) e.constants w)
    let bw := List.zipWith (fun r s => scaleRow s r) e.linear.rows (w.map sqrt)
    match setFromTriplets n n (gramTriplets bw) with
    | none => none
    | some H => some
      { constants := List.zipWith (fun a w => a * a * w) e.constants w
        linear := ⟨n, lin⟩
        quadratic := bw.map fun q => if q = [] then ⟨0, []⟩ else ⟨n, [q]⟩
        objLinear := colSums n lin
        objQuadratic := H }
  else none

/-- 144-168: the quadratic part of one expression, decided by the number of rows of its matrix. -/
def quadPart (Q : Mat K) (x : Nat → K) : K :=
  match Q.rows with
  | [] => 0
  | [q] => dot q x * dot q x
  | rows => (rows.zipIdx.map fun r => x r.2 * dot r.1 x).sum

/-- `QuadExprs::values`, 123-170. -/
def Quad.values (e : Quad K) (x : Nat → K) : Option (List K) :=
  if e.constants.length = e.linear.rows.length then
    let aff := List.zipWith (fun c r => c + dot r x) e.constants e.linear.rows
    if e.quadratic = [] then some aff
    else if e.quadratic.length = aff.length then
      some (List.zipWith (fun a Q => a + quadPart Q x) aff e.quadratic)
    else none
  else none

/-- One expression of `QuadExprs::create`, 199-220: constant, linear row and matrix. -/
def createOne (n : Nat) (f : K) (j : List (Nat × K)) (H : Mat K) (x : Nat → K) : K × List (Nat × K) × Mat K :=
  if H.nonZeros = 0 then (f - dot j x, [], ⟨0, []⟩)
  else
    (f - dot j x + 1 / 2 * (H.rows.zipIdx.map fun r => x r.2 * dot r.1 x).sum,
      (List.range n).map fun c => (c, at' j c - dot (H.rows.getD c []) x),
      ⟨H.cols, H.rows.map (scaleRow (1 / 2))⟩)

/-- `QuadExprs::create`, 172-221; the aggregated members keep what they held before. -/
def Quad.create (old : Quad K) (f : List K) (J : Mat K) (Hs : List (Mat K)) (x : Nat → K) : Option (Quad K) :=
  if J.rows.length = f.length ∧ Hs.length = f.length then
    let l := List.zipWith (fun fj H => createOne J.cols fj.1 fj.2 H x) (f.zip J.rows) Hs
    some { old with constants := l.map (·.1), linear := ⟨J.cols, l.map (·.2.1)⟩, quadratic := l.map (·.2.2) }
  else none

end

end Verif.SqpExprs
