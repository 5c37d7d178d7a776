import Verif.Model.Linalg
import Verif.Model.Arithmetic
/-!
# Model of division by a matrix: `operator/` of `c++/nda/arithmetic.hpp`

Same conventions as in `Model/Linalg.lean`.  New matrices stay in memory.
-/
namespace Nda.Divide
open Nda Matrix Blas Linalg

variable {α : Type} [Field α] [DecidableEq α]

/-- `inverse(matrix<get_value_t<R>>{r})`, the common part of arithmetic.hpp:292 and 307: `r` of shape `n0` by `n1` is copied to a new matrix in C order, whose inverse is
made in a second copy.  A matrix that has none is an exception (det_and_inverse.hpp:97, 112, 139, 179, 181). -/
def inverseOf (L : Lapack α) (junk : α) (n0 n1 : Int) (r : Assign.Rhs α) (mem : List α) : Except Err (View × List α) := do
  let (m, mem) ← orUb (newMatrix junk [0, 1] n0 n1 r mem)
  let (x, ok, mem) ← inverse L junk [0, 1] n0 n1 (.inMem m (m.lay.size == 0)) mem
  if !ok then throw .runtime
  return (x, mem)

/-- `l / r` of two matrices, arithmetic.hpp:273-294: `r` as in `inverseOf`. -/
def divide (cj : α → α) (L : Lapack α) (junk : α) (l : Blas.Operand α) (n0 n1 : Int) (r : Assign.Rhs α) (mem : List α) : Except Err (View × List α) := do
  let (x, mem) ← inverseOf L junk n0 n1 r mem
  matmul cj junk l (.mat ⟨x, false⟩ true) mem

/-- `s / a` of a scalar and a matrix, arithmetic.hpp:303-307: a lazy product with the inverse, which is held by value. -/
def scalarDivide (L : Lapack α) (junk : α) (s : α) (n0 n1 : Int) (a : Assign.Rhs α) (mem : List α) : Except Err (Arith.Expr α × List α) := do
  let (x, mem) ← inverseOf L junk n0 n1 a mem
  return (.scalL .mul s (.arr .M x), mem)

end Nda.Divide
