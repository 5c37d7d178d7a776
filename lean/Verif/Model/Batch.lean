import Verif.Model.Blas
/-!
# Model of `c++/nda/blas/gemm_batch.hpp`

Batches of matrix products.  As in `Model/Blas.lean`, all matrices live in one memory, `EXPECTS` conditions are hypotheses of the theorems, the GPU branches are not modelled.  The
interface functions are those of a build without MKL (`blas/interface/cxx_interface.cpp`:92-152): loops over `gemm`.
-/
namespace Nda.Blas
open Nda LayoutTransforms Assign Loops Matrix

variable {α : Type}

/-- The branch of `gemm_batch` for results in Fortran order, gemm_batch.hpp:79-157, with the loops of `f77::gemm_batch` (cxx_interface.cpp:92-110) and `f77::gemm_vbatch` (112-134).
The operation tags depend on the type of the matrices, which is the same within each vector: they are taken from the first matrix.  With `vb` (`VBATCH`) the sizes and leading
dimensions are those of each matrix, without it those of the first matrices (142-154). -/
def gemmBatchFortran [Zero α] [Add α] [Mul α] [DecidableEq α] (vb : Bool) (cj : α → α) (alpha : α) (vx vy : List Mat) (beta : α) (vc : List View) (mem : List α) : Except Err (List α) := do
  let x0 ← orUb (rd vx 0)
  let y0 ← orUb (rd vy 0)
  let c0 ← orUb (rd vc 0)
  let opA ← getOp x0.conj (hasC x0.v)
  let opB ← getOp y0.conj (hasC y0.v)
  (List.range vx.length).foldlM (fun mem i => do
    let x ← orUb (rd vx i)
    let y ← orUb (rd vy i)
    let c ← orUb (rd vc i)
    let sx := if vb then x else x0
    let sy := if vb then y else y0
    let sc := if vb then c else c0
    let m ← orUb (rd sx.v.lay.len 0)
    let k ← orUb (rd sx.v.lay.len 1)
    let n ← orUb (rd sy.v.lay.len 1)
    let lda ← orUb (getLd sx.v)
    let ldb ← orUb (getLd sy.v)
    let ldc ← orUb (getLd sc)
    f77gemm cj opA opB (toInt32 m) (toInt32 n) (toInt32 k) alpha x.v.off lda y.v.off ldb beta c.off ldc mem) mem

/-- `gemm_batch<VBATCH>`, gemm_batch.hpp:39-158; `gemm_vbatch` (163-166) is the case `vb`.  For results in C order the transposed product is computed with results in Fortran order
(68-78). -/
def gemmBatch [Zero α] [Add α] [Mul α] [DecidableEq α] (vb : Bool) (cj : α → α) (alpha : α) (vx vy : List Mat) (beta : α) (vc : List View) (mem : List α) : Except Err (List α) :=
  if vx.isEmpty then .ok mem
  else do
    let c0 ← orUb (rd vc 0)
    if hasC c0 then do
      let yT ← orUb (vy.mapM Mat.transpose)
      let xT ← orUb (vx.mapM Mat.transpose)
      let cT ← orUb (vc.mapM transposeMatrix)
      gemmBatchFortran vb cj alpha yT xT beta cT mem
    else gemmBatchFortran vb cj alpha vx vy beta vc mem

/-- The product of two values of type `int` (undefined behaviour on overflow). -/
def mulInt (a b : Int) : Option Int := if -2147483648 ≤ a * b ∧ a * b < 2147483648 then some (a * b) else none

/-- The branch of `gemm_batch_strided` for results that are not in C order, gemm_batch.hpp:188-232, with the loop of `f77::gemm_batch_strided` (cxx_interface.cpp:136-152; the
strides are converted to `int` and multiplied as such).  An argument that is an array and not a view is copied (188-189): here it is used in place. -/
def stridedFortran [Zero α] [Add α] [Mul α] [DecidableEq α] (cj : α → α) (alpha : α) (x y : Mat) (beta : α) (c : View) (mem : List α) : Except Err (List α) := do
  let a0 ← orUb (sliceView x.v [.idx 0, .all, .all])
  let b0 ← orUb (sliceView y.v [.idx 0, .all, .all])
  let c0 ← orUb (sliceView c [.idx 0, .all, .all])
  let opA ← getOp x.conj (hasC x.v)
  let opB ← getOp y.conj (hasC y.v)
  let m ← orUb (rd a0.lay.len 0)
  let k ← orUb (rd a0.lay.len 1)
  let n ← orUb (rd b0.lay.len 1)
  let lda ← orUb (getLd a0)
  let ldb ← orUb (getLd b0)
  let ldc ← orUb (getLd c0)
  let sa ← orUb (rd x.v.lay.str 0)
  let sb ← orUb (rd y.v.lay.str 0)
  let sc ← orUb (rd c.lay.str 0)
  let count ← orUb (rd x.v.lay.len 0)
  (List.range (toInt32 count).toNat).foldlM (fun mem i => do
    let oa ← orUb (mulInt (Int.ofNat i) (toInt32 sa))
    let ob ← orUb (mulInt (Int.ofNat i) (toInt32 sb))
    let oc ← orUb (mulInt (Int.ofNat i) (toInt32 sc))
    f77gemm cj opA opB (toInt32 m) (toInt32 n) (toInt32 k) alpha (x.v.off + oa) lda (y.v.off + ob) ldb beta (c.off + oc) ldc mem) mem

/-- `gemm_batch_strided`, gemm_batch.hpp:175-233, for arrays of rank 3, possibly (`conj`) under a lazy conjugation.  For a result in C order the last two indices of all arrays are
exchanged (213), which is not possible for lazy expressions (`transposed_view` requires an array or view, layout_transforms.hpp:102-107). -/
def gemmBatchStrided [Zero α] [Add α] [Mul α] [DecidableEq α] (cj : α → α) (alpha : α) (x y : Mat) (beta : α) (c : View) (mem : List α) : Except Err (List α) :=
  if hasC c then
    if x.conj || y.conj then .error .compile
    else do
      let yT ← orUb (transposedView y.v 1 2)
      let xT ← orUb (transposedView x.v 1 2)
      let cT ← orUb (transposedView c 1 2)
      stridedFortran cj alpha ⟨yT, false⟩ ⟨xT, false⟩ beta cT mem
  else stridedFortran cj alpha x y beta c mem

end Nda.Blas
