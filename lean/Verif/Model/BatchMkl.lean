import Verif.Model.Batch
/-!
# Model of `c++/nda/blas/interface/cxx_interface.cpp` in a build with MKL (`NDA_USE_MKL`)

The batched products are calls of MKL, which are external; `mklBatch` and `mklStrided` say what MKL promises.  The rest of `gemm_batch.hpp` is as in `Model/Batch.lean`.
-/
namespace Nda.Blas
open Nda LayoutTransforms Assign Loops Matrix

variable {α : Type}

/-- What `dgemm_batch` and `zgemm_batch` get for each group of products. -/
structure Group (α : Type) where
  opA : Tag
  opB : Tag
  m : Int
  n : Int
  k : Int
  alpha : α
  lda : Int
  ldb : Int
  beta : α
  ldc : Int
  size : Int

/-- External: `?gemm_batch` of MKL.  The groups one after another, each with its own sizes and scalars; the addresses of all matrices stand in three arrays, group after group. -/
def mklBatch [Zero α] [Add α] [Mul α] [DecidableEq α] (cj : α → α) (as bs cs : List Int) : List (Group α) → Nat → List α → Except Err (List α)
  | [], _, mem => .ok mem
  | g :: gs, first, mem => do
    let mem ← (List.range g.size.toNat).foldlM (fun mem i => do
      let a ← orUb (rd as (first + i))
      let b ← orUb (rd bs (first + i))
      let c ← orUb (rd cs (first + i))
      f77gemm cj g.opA g.opB g.m g.n g.k g.alpha a g.lda b g.ldb g.beta c g.ldc mem) mem
    mklBatch cj as bs cs gs (first + g.size.toNat) mem

/-- `f77::gemm_batch`, cxx_interface.cpp:92-97, 101-107: one group. -/
def f77Batch [Zero α] [Add α] [Mul α] [DecidableEq α] (cj : α → α) (opA opB : Tag) (m n k : Int) (alpha : α) (as : List Int) (lda : Int) (bs : List Int) (ldb : Int) (beta : α) (cs : List Int)
    (ldc : Int) (count : Int) (mem : List α) : Except Err (List α) :=
  mklBatch cj as bs cs [⟨opA, opB, m, n, k, alpha, lda, ldb, beta, ldc, count⟩] 0 mem

/-- `f77::gemm_vbatch`, cxx_interface.cpp:112-119, 123-131: as many groups as products, of size 1; operations and scalars are repeated (114-116). -/
def f77Vbatch [Zero α] [Add α] [Mul α] [DecidableEq α] (cj : α → α) (opA opB : Tag) (ms ns ks : List Int) (alpha : α) (as ldas bs ldbs : List Int) (beta : α) (cs ldcs : List Int) (count : Int)
    (mem : List α) : Except Err (List α) := do
  let sizes := List.replicate count.toNat (1 : Int)
  let opsA := List.replicate count.toNat opA
  let opsB := List.replicate count.toNat opB
  let alphas := List.replicate count.toNat alpha
  let betas := List.replicate count.toNat beta
  let groups ← (List.range count.toNat).mapM (fun i => do
    return (⟨← orUb (rd opsA i), ← orUb (rd opsB i), ← orUb (rd ms i), ← orUb (rd ns i), ← orUb (rd ks i), ← orUb (rd alphas i), ← orUb (rd ldas i), ← orUb (rd ldbs i), ← orUb (rd betas i),
      ← orUb (rd ldcs i), ← orUb (rd sizes i)⟩ : Group α))
  mklBatch cj as bs cs groups 0 mem

/-- The sizes and leading dimensions that one product needs, gemm_batch.hpp:127-141 (`VBATCH`) and 143-148. -/
def sizesOf (x y : Mat) (c : View) : Option (Int × Int × Int × Int × Int × Int) := do
  let m ← rd x.v.lay.len 0
  let k ← rd x.v.lay.len 1
  let n ← rd y.v.lay.len 1
  let lda ← getLd x.v
  let ldb ← getLd y.v
  let ldc ← getLd c
  return (toInt32 m, toInt32 n, toInt32 k, lda, ldb, ldc)

/-- The branch of `gemm_batch` for results in Fortran order, gemm_batch.hpp:79-157: the arrays of addresses (104-117) and of sizes (119-141) are made first. -/
def gemmBatchFortranMkl [Zero α] [Add α] [Mul α] [DecidableEq α] (vb : Bool) (cj : α → α) (alpha : α) (vx vy : List Mat) (beta : α) (vc : List View) (mem : List α) : Except Err (List α) := do
  let x0 ← orUb (rd vx 0)
  let y0 ← orUb (rd vy 0)
  let c0 ← orUb (rd vc 0)
  let opA ← getOp x0.conj (hasC x0.v)
  let opB ← getOp y0.conj (hasC y0.v)
  let as := vx.map (·.v.off)
  let bs := vy.map (·.v.off)
  let cs := vc.map (·.off)
  if vb then
    let ss ← (List.range vx.length).mapM (fun i => do orUb (sizesOf (← orUb (rd vx i)) (← orUb (rd vy i)) (← orUb (rd vc i))))
    f77Vbatch cj opA opB (ss.map (·.1)) (ss.map (·.2.1)) (ss.map (·.2.2.1)) alpha as (ss.map (·.2.2.2.1)) bs (ss.map (·.2.2.2.2.1)) beta cs (ss.map (·.2.2.2.2.2)) (toInt32 vx.length) mem
  else
    let s ← orUb (sizesOf x0 y0 c0)
    f77Batch cj opA opB s.1 s.2.1 s.2.2.1 alpha as s.2.2.2.1 bs s.2.2.2.2.1 beta cs s.2.2.2.2.2 (toInt32 vx.length) mem

/-- `gemm_batch<VBATCH>`, gemm_batch.hpp:39-158, as `gemmBatch`. -/
def gemmBatchMkl [Zero α] [Add α] [Mul α] [DecidableEq α] (vb : Bool) (cj : α → α) (alpha : α) (vx vy : List Mat) (beta : α) (vc : List View) (mem : List α) : Except Err (List α) :=
  if vx.isEmpty then .ok mem
  else do
    let c0 ← orUb (rd vc 0)
    if hasC c0 then do
      let yT ← orUb (vy.mapM Mat.transpose)
      let xT ← orUb (vx.mapM Mat.transpose)
      let cT ← orUb (vc.mapM transposeMatrix)
      gemmBatchFortranMkl vb cj alpha yT xT beta cT mem
    else gemmBatchFortranMkl vb cj alpha vx vy beta vc mem

/-- External: `?gemm_batch_strided` of MKL.  The library computes the addresses itself, without overflow. -/
def mklStrided [Zero α] [Add α] [Mul α] [DecidableEq α] (cj : α → α) (opA opB : Tag) (m n k : Int) (alpha : α) (a lda sa b ldb sb : Int) (beta : α) (c ldc sc count : Int) (mem : List α) :
    Except Err (List α) :=
  (List.range count.toNat).foldlM (fun mem i =>
    f77gemm cj opA opB m n k alpha (a + Int.ofNat i * sa) lda (b + Int.ofNat i * sb) ldb beta (c + Int.ofNat i * sc) ldc mem) mem

/-- The branch of `gemm_batch_strided` for results that are not in C order, gemm_batch.hpp:188-232, with `f77::gemm_batch_strided`, cxx_interface.cpp:136-139, 144-148. -/
def stridedFortranMkl [Zero α] [Add α] [Mul α] [DecidableEq α] (cj : α → α) (alpha : α) (x y : Mat) (beta : α) (c : View) (mem : List α) : Except Err (List α) := do
  let a0 ← orUb (sliceView x.v [.idx 0, .all, .all])
  let b0 ← orUb (sliceView y.v [.idx 0, .all, .all])
  let c0 ← orUb (sliceView c [.idx 0, .all, .all])
  let opA ← getOp x.conj (hasC x.v)
  let opB ← getOp y.conj (hasC y.v)
  let s ← orUb (sizesOf ⟨a0, x.conj⟩ ⟨b0, y.conj⟩ c0)
  let sa ← orUb (rd x.v.lay.str 0)
  let sb ← orUb (rd y.v.lay.str 0)
  let sc ← orUb (rd c.lay.str 0)
  let count ← orUb (rd x.v.lay.len 0)
  mklStrided cj opA opB s.1 s.2.1 s.2.2.1 alpha x.v.off s.2.2.2.1 (toInt32 sa) y.v.off s.2.2.2.2.1 (toInt32 sb) beta c.off s.2.2.2.2.2 (toInt32 sc) (toInt32 count) mem

/-- `gemm_batch_strided`, gemm_batch.hpp:175-233, as `gemmBatchStrided`. -/
def gemmBatchStridedMkl [Zero α] [Add α] [Mul α] [DecidableEq α] (cj : α → α) (alpha : α) (x y : Mat) (beta : α) (c : View) (mem : List α) : Except Err (List α) :=
  if hasC c then
    if x.conj || y.conj then .error .compile
    else do
      let yT ← orUb (transposedView y.v 1 2)
      let xT ← orUb (transposedView x.v 1 2)
      let cT ← orUb (transposedView c 1 2)
      stridedFortranMkl cj alpha ⟨yT, false⟩ ⟨xT, false⟩ beta cT mem
  else stridedFortranMkl cj alpha x y beta c mem

end Nda.Blas
