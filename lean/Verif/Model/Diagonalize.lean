import Mathlib.Algebra.Order.Field.Basic
import Mathlib.LinearAlgebra.Matrix.Notation

/-!
# Principal axes in V-HACD

`Diagonalize` of trajopt_ext/vhacd (src/vhacdVolume.cpp 292-390): the eigenvectors of a symmetric
three by three matrix by Jacobi rotations, kept as a quaternion.

Numbers are exact; `sqrt` is a function given from outside.  The last of the 24 turns computes `Q` and `D`
and then changes only the quaternion, which is not read again: that change is left out.
-/

namespace Verif.Diag

variable {K : Type*} [Field K] [LinearOrder K] [IsStrictOrderedRing K]

/-- Three by three arrays. -/
abbrev M3 (K : Type*) := Matrix (Fin 3) (Fin 3) K

/-- The array `q` (300). -/
structure Quat (K : Type*) where
  x : K
  y : K
  z : K
  w : K

/-- The matrix of a quaternion (308-327). -/
def toMat (q : Quat K) : M3 K :=
  let sqx := q.x * q.x
  let sqy := q.y * q.y
  let sqz := q.z * q.z
  let sqw := q.w * q.w
  !![sqx - sqy - sqz + sqw, 2 * (q.x * q.y - q.z * q.w), 2 * (q.x * q.z + q.y * q.w);
     2 * (q.x * q.y + q.z * q.w), -sqx + sqy - sqz + sqw, 2 * (q.y * q.z - q.x * q.w);
     2 * (q.x * q.z - q.y * q.w), 2 * (q.y * q.z + q.x * q.w), -sqx - sqy + sqz + sqw]

/-- `AQ = A * Q` (329-338): of `A` only the upper half is read. -/
def mulAQ (A Q : M3 K) : M3 K :=
  !![Q 0 0 * A 0 0 + Q 1 0 * A 0 1 + Q 2 0 * A 0 2, Q 0 1 * A 0 0 + Q 1 1 * A 0 1 + Q 2 1 * A 0 2, Q 0 2 * A 0 0 + Q 1 2 * A 0 1 + Q 2 2 * A 0 2;
     Q 0 0 * A 0 1 + Q 1 0 * A 1 1 + Q 2 0 * A 1 2, Q 0 1 * A 0 1 + Q 1 1 * A 1 1 + Q 2 1 * A 1 2, Q 0 2 * A 0 1 + Q 1 2 * A 1 1 + Q 2 2 * A 1 2;
     Q 0 0 * A 0 2 + Q 1 0 * A 1 2 + Q 2 0 * A 2 2, Q 0 1 * A 0 2 + Q 1 1 * A 1 2 + Q 2 1 * A 2 2, Q 0 2 * A 0 2 + Q 1 2 * A 1 2 + Q 2 2 * A 2 2]

/-- `D = Qt * AQ` (339-348). -/
def mulQtAQ (AQ Q : M3 K) : M3 K :=
  !![AQ 0 0 * Q 0 0 + AQ 1 0 * Q 1 0 + AQ 2 0 * Q 2 0, AQ 0 0 * Q 0 1 + AQ 1 0 * Q 1 1 + AQ 2 0 * Q 2 1, AQ 0 0 * Q 0 2 + AQ 1 0 * Q 1 2 + AQ 2 0 * Q 2 2;
     AQ 0 1 * Q 0 0 + AQ 1 1 * Q 1 0 + AQ 2 1 * Q 2 0, AQ 0 1 * Q 0 1 + AQ 1 1 * Q 1 1 + AQ 2 1 * Q 2 1, AQ 0 1 * Q 0 2 + AQ 1 1 * Q 1 2 + AQ 2 1 * Q 2 2;
     AQ 0 2 * Q 0 0 + AQ 1 2 * Q 1 0 + AQ 2 2 * Q 2 0, AQ 0 2 * Q 0 1 + AQ 1 2 * Q 1 1 + AQ 2 2 * Q 2 1, AQ 0 2 * Q 0 2 + AQ 1 2 * Q 1 2 + AQ 2 2 * Q 2 2]

/-- The array `o` (349-351). -/
def offDiag (D : M3 K) : Fin 3 → K
  | 0 => D 1 2
  | 1 => D 0 2
  | 2 => D 0 1

/-- The index of the largest element off the diagonal (352-356). -/
def largest (o : Fin 3 → K) : Fin 3 :=
  if |o 1| < |o 0| ∧ |o 2| < |o 0| then 0 else if |o 2| < |o 1| then 1 else 2

/-- The rotation that is to make element `k` vanish (363-379): the two components of `jr` that are not zero, or none
if the loop is left. -/
def jacobi (sqrt : K → K) (D : M3 K) (k : Fin 3) : Option (K × K) :=
  let th := (D (k + 2) (k + 2) - D (k + 1) (k + 1)) / (2 * offDiag D k)
  let sgn : K := if 0 < th then 1 else -1
  let th := th * sgn
  let t := sgn / (th + (if th < 1000000 then sqrt (th * th + 1) else th))
  let c := 1 / sqrt (t * t + 1)
  if c = 1 then none
  else
    let j := sgn * sqrt ((1 - c) / 2) * (-1)
    let j3 := sqrt (1 - j * j)
    if j3 = 1 then none else some (j, j3)

/-- `jr` (372-375). -/
def jr (k : Fin 3) (j j3 : K) : Quat K :=
  ⟨if k = 0 then j else 0, if k = 1 then j else 0, if k = 2 then j else 0, j3⟩

/-- The product of quaternions (380-383), in place: each line reads what the lines before it wrote. -/
def rotate (q r : Quat K) : Quat K :=
  let x := q.w * r.x + q.x * r.w + q.y * r.z - q.z * r.y
  let y := q.w * r.y - x * r.z + q.y * r.w + q.z * r.x
  let z := q.w * r.z + x * r.y - y * r.x + q.z * r.w
  let w := q.w * r.w - x * r.x - y * r.y - z * r.z
  ⟨x, y, z, w⟩

/-- 384-388. -/
def normalize (sqrt : K → K) (q : Quat K) : Quat K :=
  let mq := sqrt (q.x * q.x + q.y * q.y + q.z * q.z + q.w * q.w)
  ⟨q.x / mq, q.y / mq, q.z / mq, q.w / mq⟩

/-- Why the loop ended: the matrix was diagonal (359-362), the limit of precision (368-371, 376-379), or the number
of steps. -/
inductive End
  | diagonal
  | precision
  | steps
deriving DecidableEq

/-- The loop (306-389) with `n + 1` turns left. -/
def diagLoop (sqrt : K → K) (A : M3 K) : ℕ → Quat K → M3 K × M3 K × End
  | n, q =>
    let Q := toMat q
    let D := mulQtAQ (mulAQ A Q) Q
    let k := largest (offDiag D)
    if offDiag D k = 0 then (Q, D, .diagonal)
    else
      match n with
      | 0 => (Q, D, .steps)
      | n + 1 =>
        match jacobi sqrt D k with
        | none => (Q, D, .precision)
        | some (j, j3) => diagLoop sqrt A n (normalize sqrt (rotate q (jr k j j3)))

/-- `Diagonalize` (292-390): `Q` and `D`. -/
def diagonalize (sqrt : K → K) (A : M3 K) : M3 K × M3 K × End := diagLoop sqrt A 23 ⟨0, 0, 0, 1⟩

end Verif.Diag
