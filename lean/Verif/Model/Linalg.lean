import Verif.Model.Blas
import Mathlib.Algebra.Field.Defs
/-!
# Model of `c++/nda/linalg/det_and_inverse.hpp`, `cross_product.hpp` and of the LAPACK wrappers `lapack/{getrf,getri,getrs}.hpp`

Same memory and error conventions as in `Model/Blas.lean`.  Arithmetic is that of a field: rounding is not modelled.  LAPACK itself is a parameter.  Pivot arrays live in their own
memory (a list); `EXPECTS` conditions are hypotheses of the theorems.  GPU versions are not modelled.
-/
namespace Nda.Linalg
open Nda LayoutTransforms Assign Loops Matrix Blas

variable {α : Type}

/-- The LAPACK routines (external).  Addresses and leading dimensions as for BLAS. -/
structure Lapack (α : Type) where
  /-- `m n a lda`, memory; gives the memory, the pivot indices and `info` -/
  getrf : Int → Int → Int → Int → List α → Except Err (List α × List Int × Int)
  /-- `n a lda`, pivot indices, memory; the workspace is not modelled -/
  getri : Int → Int → Int → List Int → List α → Except Err (List α × Int)
  /-- `op n nrhs a lda`, pivot indices, `b ldb`, memory -/
  getrs : Tag → Int → Int → Int → Int → List Int → Int → Int → List α → Except Err (List α × Int)

/-- `lapack::getrf`, getrf.hpp:54-81. -/
def getrf (L : Lapack α) (a : View) (mem : List α) : Except Err (List α × List Int × Int) := do
  let n0 ← orUb (rd a.lay.len 0)
  let n1 ← orUb (rd a.lay.len 1)
  let ld ← orUb (getLd a)
  L.getrf (toInt32 n0) (toInt32 n1) a.off ld mem

/-- `lapack::getri`, getri.hpp:48-82. -/
def getri (L : Lapack α) (a : View) (ipiv : List Int) (mem : List α) : Except Err (List α × Int) := do
  let n0 ← orUb (rd a.lay.len 0)
  let n1 ← orUb (rd a.lay.len 1)
  if (ipiv.length : Int) < min n0 n1 then throw .runtime
  let ld ← orUb (getLd a)
  L.getri (toInt32 n0) a.off ld ipiv mem

/-- `get_ncols`, blas/tools.hpp:79-82. -/
def getNcols (v : View) : Option Int := (rd v.lay.len (if hasF v then 1 else 0)).map toInt32

/-- `lapack::getrs`, getrs.hpp:47-70. -/
def getrs (L : Lapack α) (x : Mat) (b : View) (ipiv : List Int) (mem : List α) : Except Err (List α × Int) := do
  let op ← getOp x.conj (hasC x.v)
  let n ← orUb (getNcols x.v)
  let nrhs ← orUb (getNcols b)
  let lda ← orUb (getLd x.v)
  let ldb ← orUb (getLd b)
  L.getrs op n nrhs x.v.off lda ipiv b.off ldb mem

/-! ### Determinant -/

/-- One turn of the loop, det_and_inverse.hpp:67-71. -/
def detStep [Mul α] (m : View) (ipiv : List Int) (mem : List α) (s : α × Int) (i : Nat) : Option (α × Int) := do
  let d ← load m [Int.ofNat i, Int.ofNat i] mem
  let p ← rd ipiv i
  return (s.1 * d, if p ≠ Int.ofNat i + 1 then s.2 + 1 else s.2)

/-- The loop, det_and_inverse.hpp:64-71: the product of the diagonal and the number of interchanges. -/
def detLoop [One α] [Mul α] (dim : Int) (m : View) (ipiv : List Int) (mem : List α) : Option (α × Int) := (List.range dim.toNat).foldlM (detStep m ipiv mem) (1, 0)

/-- `determinant_in_place`, det_and_inverse.hpp:46-74.  `null`: the array has no storage. -/
def determinantInPlace [One α] [Mul α] [Neg α] (L : Lapack α) (null : Bool) (m : View) (mem : List α) : Except Err (α × List α) := do
  if null then return (1, mem)
  let n0 ← orUb (rd m.lay.len 0)
  let n1 ← orUb (rd m.lay.len 1)
  if n0 ≠ n1 then throw .runtime
  let (mem, ipiv, info) ← getrf L m mem
  if info < 0 then throw .runtime
  let (det, flips) ← orUb (detLoop (toInt32 n0) m ipiv mem)
  return (if flips % 2 = 1 then -det else det, mem)

/-- `determinant`, det_and_inverse.hpp:76-80: works on a copy in the memory order `so` (that of the argument; C order for an expression). -/
def determinant [One α] [Mul α] [Neg α] (L : Lapack α) (junk : α) (so : List Nat) (n0 n1 : Int) (rhs : Rhs α) (mem : List α) : Except Err (α × List α) := do
  let (r, mem) ← orUb (newMatrix junk so n0 n1 rhs mem)
  determinantInPlace L (r.lay.size == 0) r mem

/-! ### Inverse

The result is `(true, memory)`, or `(false, memory)` when the exception "matrix is not invertible" is thrown and the memory is left behind. -/

/-- `inverse1_in_place`, det_and_inverse.hpp:96-99. -/
def inverse1 [Field α] [DecidableEq α] (a : View) (mem : List α) : Option (Bool × List α) := do
  let x ← load a [0, 0] mem
  if x = 0 then return (false, mem)
  let mem ← store a [0, 0] (1 / x) mem
  return (true, mem)

/-- `a(i, j) *= x`. -/
def scaleAt [Mul α] (a : View) (i j : Int) (x : α) (mem : List α) : Option (List α) := do
  let u ← load a [i, j] mem
  store a [i, j] (u * x) mem

/-- `std::swap(a(i, i), a(j, j))`. -/
def swapDiag (a : View) (i j : Int) (mem : List α) : Option (List α) := do
  let x ← load a [i, i] mem
  let y ← load a [j, j] mem
  let mem ← store a [i, i] y mem
  store a [j, j] x mem

/-- `inverse2_in_place`, det_and_inverse.hpp:104-118. -/
def inverse2 [Field α] [DecidableEq α] (a : View) (mem : List α) : Option (Bool × List α) := do
  let mem ← swapDiag a 0 1 mem
  let a00 ← load a [0, 0] mem
  let a11 ← load a [1, 1] mem
  let a01 ← load a [0, 1] mem
  let a10 ← load a [1, 0] mem
  let det := a00 * a11 - a01 * a10
  if det = 0 then return (false, mem)
  let detinv := 1 / det
  let mem ← scaleAt a 0 0 detinv mem
  let mem ← scaleAt a 1 1 detinv mem
  let mem ← scaleAt a 1 0 (-detinv) mem
  let mem ← scaleAt a 0 1 (-detinv) mem
  return (true, mem)

/-- `inverse3_in_place`, det_and_inverse.hpp:123-151. -/
def inverse3 [Field α] [DecidableEq α] (a : View) (mem : List α) : Option (Bool × List α) := do
  let a00 ← load a [0, 0] mem
  let a01 ← load a [0, 1] mem
  let a02 ← load a [0, 2] mem
  let a10 ← load a [1, 0] mem
  let a11 ← load a [1, 1] mem
  let a12 ← load a [1, 2] mem
  let a20 ← load a [2, 0] mem
  let a21 ← load a [2, 1] mem
  let a22 ← load a [2, 2] mem
  let b00 := a11 * a22 - a12 * a21
  let b10 := -a10 * a22 + a12 * a20
  let b20 := a10 * a21 - a11 * a20
  let b01 := -a01 * a22 + a02 * a21
  let b11 := a00 * a22 - a02 * a20
  let b21 := -a00 * a21 + a01 * a20
  let b02 := a01 * a12 - a02 * a11
  let b12 := -a00 * a12 + a02 * a10
  let b22 := a00 * a11 - a01 * a10
  let det := a00 * b00 + a01 * b10 + a02 * b20
  if det = 0 then return (false, mem)
  let detinv := 1 / det
  let mem ← store a [0, 0] (detinv * b00) mem
  let mem ← store a [0, 1] (detinv * b01) mem
  let mem ← store a [0, 2] (detinv * b02) mem
  let mem ← store a [1, 0] (detinv * b10) mem
  let mem ← store a [1, 1] (detinv * b11) mem
  let mem ← store a [1, 2] (detinv * b12) mem
  let mem ← store a [2, 0] (detinv * b20) mem
  let mem ← store a [2, 1] (detinv * b21) mem
  let mem ← store a [2, 2] (detinv * b22) mem
  return (true, mem)

/-- The general case, det_and_inverse.hpp:177-181. -/
def inverseLU (L : Lapack α) (a : View) (mem : List α) : Except Err (Bool × List α) := do
  let (mem, ipiv, info) ← getrf L a mem
  if info ≠ 0 then return (false, mem)
  let (mem, info) ← getri L a ipiv mem
  if info ≠ 0 then return (false, mem)
  return (true, mem)

/-- `inverse_in_place`, det_and_inverse.hpp:156-182. -/
def inverseInPlace [Field α] [DecidableEq α] (L : Lapack α) (null : Bool) (a : View) (mem : List α) : Except Err (Bool × List α) := do
  if null then return (true, mem)
  let n ← orUb (rd a.lay.len 0)
  if n = 1 then orUb (inverse1 a mem)
  else if n = 2 then orUb (inverse2 a mem)
  else if n = 3 then orUb (inverse3 a mem)
  else inverseLU L a mem

/-- `inverse`, det_and_inverse.hpp:184-192: works on a copy in the memory order `so`. -/
def inverse [Field α] [DecidableEq α] (L : Lapack α) (junk : α) (so : List Nat) (n0 n1 : Int) (rhs : Rhs α) (mem : List α) : Except Err (View × Bool × List α) := do
  let (r, mem) ← orUb (newMatrix junk so n0 n1 rhs mem)
  let (ok, mem) ← inverseInPlace L (r.lay.size == 0) r mem
  return (r, ok, mem)

/-! ### Cross product -/

/-- `cross_product`, cross_product.hpp:23-33: a new array of 3 elements.  The reads are put first: the new array is not part of the arguments. -/
def crossProduct [Mul α] [Sub α] [Add α] [Neg α] (junk : α) (a b : Rhs α) (mem : List α) : Option (View × List α) := do
  let (r, mem) ← fresh junk [0] [3] mem
  let a0 ← a.get [0] mem
  let a1 ← a.get [1] mem
  let a2 ← a.get [2] mem
  let b0 ← b.get [0] mem
  let b1 ← b.get [1] mem
  let b2 ← b.get [2] mem
  let mem ← store r [0] (a1 * b2 - b1 * a2) mem
  let mem ← store r [1] (-a0 * b2 + b0 * a2) mem
  let mem ← store r [2] (a0 * b1 - b0 * a1) mem
  return (r, mem)

/-! ### Matrix predicates -/

/-- `is_matrix_square`, det_and_inverse.hpp:26-32. -/
def isSquare (v : View) : Option Bool := do
  let n0 ← rd v.lay.len 0
  let n1 ← rd v.lay.len 1
  return n0 == n1

/-- `is_matrix_diagonal`, det_and_inverse.hpp:36-41, of a matrix in memory: compared with `diag(diagonal(a))`, a new matrix. -/
def isDiagonal [Zero α] [DecidableEq α] (v : View) (mem : List α) : Option Bool := do
  let sq ← isSquare v
  if !sq then return false
  let d ← diagonal v
  let n ← rd d.lay.len 0
  let (r, mem) ← diag 0 n (.inMem d false) mem
  arrayEq (fun x y => decide (x = y)) v.lay.len r.lay.len (fun idx => load v idx mem) (fun idx => load r idx mem)

end Nda.Linalg
