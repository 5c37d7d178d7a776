import Verif.Model.Drivers
/-!
# Model of `gelss_worker_hermitian`, `c++/nda/lapack/gelss_worker.hpp:92-155`

Same conventions as in `Model/Drivers.lean`; the elements are complex.
-/
namespace Nda.Linalg
open Nda LayoutTransforms Assign Loops Matrix Blas

variable {α R : Type}

/-- `inner_adjoint`, gelss_worker.hpp:123-145, for an array with layout policy `p`.  The check of the shape is always compiled (`NDA_ASSERT2`); the remainder modulo zero is undefined.
That the data is contiguous is a debug check of `reshape`.  The last line moves the storage into a matrix. -/
def innerAdjoint (cj : α → α) (junk : α) (p : Policy) (d : Int) (v : View) (mem : List α) : Except Fail (View × List α) := do
  let l0 ← lift (orUb (rd v.lay.len 0))
  let l1 ← lift (orUb (rd v.lay.len 1))
  if d * d = 0 then throw (.call .ub)
  if Int.tmod l1 (d * d) ≠ 0 then throw (.call .runtime)
  let v4 ← lift (orUb (reshape p v [l0, Int.tdiv l1 (d * d), d, d]))
  let w ← lift (orUb (permuted v4 [0, 1, 3, 2]))
  let (r, mem) ← lift (orUb (fresh junk [0, 1, 2, 3] w.lay.len mem))
  let res ← lift (orUb (assign .host .host true r (.expr (fun idx mem => (load w idx mem).map cj)) mem))
  let mem ← lift (orUb res)
  let r2 ← lift (orUb (reshape .C r [l0, l1]))
  return (r2, mem)

/-- The constructor of `gelss_worker_hermitian`, gelss_worker.hpp:115.  The solver `_lss` for `A` alone is built (and may throw), but only its singular values can be asked for: if its other members
are infinite, the construction goes on.  The result is the solver `_lss_matrix`. -/
def workerHermitian [Zero α] [One α] [Add α] [Mul α] [DecidableEq α] [Zero R] [One R] [Div R] [DecidableEq R] (cj : α → α) (ofReal : R → α) (D : Drivers α R) (junk : α) (a : View)
    (mem : List α) : Except Fail (Worker R × List α) := do
  let m ← lift (orUb (rd a.lay.len 0))
  let n ← lift (orUb (rd a.lay.len 1))
  let mem ← match worker cj ofReal true D junk a mem with
    | .ok (_, mem) => pure mem
    | .error .infinite => pure mem
    | .error e => throw e
  let (st, mem) ← lift (orUb (vstack junk m n m (.inMem a false) (.expr (fun idx mem => (load a idx mem).map cj)) mem))
  worker cj ofReal true D junk st mem

/-- `gelss_worker_hermitian::operator()`, gelss_worker.hpp:118-154.  `b` is a `matrix_const_view`: its layout policy is `C_stride_layout`; `half` is 0.5. -/
def solveHermitian [Zero α] [One α] [Add α] [Mul α] [DecidableEq α] [Add R] [Mul R] [Zero R] [Div R] [IntCast R] [LT R] [DecidableLT R] (S : Norm.Std α R) (half junk : α) (w : Worker R) (b : View)
    (inner : Option Int) (mem : List α) : Except Fail (View × R × List α) :=
  match inner with
  | none => throw (.call .runtime)
  | some d => do
    let m ← lift (orUb (rd b.lay.len 0))
    let q ← lift (orUb (rd b.lay.len 1))
    let (bd, mem) ← innerAdjoint S.conj junk .Cstride d b mem
    let (bs, mem) ← lift (orUb (vstack junk m q m (.inMem b false) (.inMem bd false) mem))
    let (x, err, mem) ← solve S junk w bs mem
    let (xd, mem) ← innerAdjoint S.conj junk .C d x mem
    let n ← lift (orUb (rd x.lay.len 0))
    let q ← lift (orUb (rd x.lay.len 1))
    let (r, mem) ← lift (orUb (newMatrix junk [0, 1] n q (.expr (fun idx mem => do
      let a ← load x idx mem
      let b ← load xd idx mem
      return half * (a + b))) mem))
    return (r, err, mem)

end Nda.Linalg
