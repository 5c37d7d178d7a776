import Verif.Model.Matrix
/-!
# Model of `c++/nda/blas/*.hpp` and `c++/nda/linalg/{matmul,dot}.hpp`

All arrays live in one memory (`List α`).  `cj` is the complex conjugation (the identity for real elements).  `EXPECTS` is compiled out in release builds: its conditions are hypotheses
of the theorems.  GPU versions are not modelled.  Arithmetic is that of a commutative ring: rounding is not modelled.

External (reference BLAS, assumed): the functions `f77*` below, including their argument checks (`xerbla`), their early returns and their treatment of negative increments.  By the
rules of Fortran it is undefined behaviour if the output overlaps an input.
-/
namespace Nda.Blas
open Nda LayoutTransforms Assign Loops Matrix

inductive Err where
  /-- does not compile -/
  | compile
  /-- `xerbla`: illegal argument of a BLAS routine -/
  | xerbla
  /-- run-time error of nda -/
  | runtime
  /-- undefined behaviour -/
  | ub
deriving DecidableEq, Repr

def orUb {β : Type} : Option β → Except Err β
  | some x => .ok x
  | none => .error .ub

variable {α : Type}

/-- Operation tags of BLAS. -/
inductive Tag where
  | N | T | C
deriving DecidableEq, Repr

/-- `get_op`, blas/tools.hpp:61-70. -/
def getOp (conj transpose : Bool) : Except Err Tag :=
  if conj && !transpose then .error .compile
  else if conj && transpose then .ok .C
  else if transpose then .ok .T
  else .ok .N

/-- `has_F_layout`, blas/tools.hpp:40-48. -/
def hasF (v : View) : Bool := v.lay.isStrideOrderF

/-- `has_C_layout`, blas/tools.hpp:50-58. -/
def hasC (v : View) : Bool := v.lay.isStrideOrderC

/-- `get_ld`, blas/tools.hpp:73-76. -/
def getLd (v : View) : Option Int := (rd v.lay.str (if hasF v then 1 else 0)).map toInt32

/-! ### Reference BLAS (external) -/

/-- Address of element `(i, l)` of `op(A)`, `A` stored by columns at `p` with leading dimension `ld`. -/
def opPos (t : Tag) (p ld i l : Int) : Int :=
  match t with
  | .N => p + i + l * ld
  | .T => p + l + i * ld
  | .C => p + l + i * ld

/-- Element `(i, l)` of `op(A)`. -/
def opGet (cj : α → α) (t : Tag) (p ld : Int) (mem : List α) (i l : Int) : Option α :=
  match t with
  | .N => rdInt mem (opPos t p ld i l)
  | .T => rdInt mem (opPos t p ld i l)
  | .C => (rdInt mem (opPos t p ld i l)).map cj

/-- Address of element `i` of a BLAS vector of `n` elements: with a negative increment the vector is stored backwards, starting at `p + (1 - n) * inc`. -/
def vecPos (p n inc i : Int) : Int := if inc < 0 then p + (1 - n) * inc + i * inc else p + i * inc

/-- Sum of `f 0, ..., f (n-1)`. -/
def sumM [Zero α] [Add α] (n : Int) (f : Int → Option α) : Option α :=
  (List.range n.toNat).foldlM (fun acc l => do let x ← f (Int.ofNat l); return acc + x) 0

/-- `alpha * s + beta * old`; with `beta = 0` the old value is not read. -/
def axpby [Zero α] [Add α] [Mul α] [DecidableEq α] (alpha s beta : α) (mem : List α) (p : Int) : Option α :=
  if beta = 0 then some (alpha * s)
  else do
    let old ← rdInt mem p
    return alpha * s + beta * old

/-- All index pairs. -/
def pairs (m n : Int) : List (Int × Int) := (List.range m.toNat).flatMap (fun i => (List.range n.toNat).map (fun j => (Int.ofNat i, Int.ofNat j)))

/-- Some address is both read and written. -/
def overlap (reads writes : List Int) : Bool := reads.any (fun k => writes.contains k)

/-- All addresses of a matrix (given by a function of the indices), or of a vector. -/
def matAddrs (m n : Int) (f : Int → Int → Int) : List Int := (pairs m n).map (fun ij => f ij.1 ij.2)

def vecAddrs (p n inc : Int) : List Int := (List.range n.toNat).map (fun i => vecPos p n inc (Int.ofNat i))

/-- The writes. -/
def storeAll (ws : List (Int × α)) (mem : List α) : Option (List α) := ws.foldlM (fun mem w => wrInt mem w.1 w.2) mem

/-- Entry `(i, j)` of the result of `gemm`, with its address. -/
def gemmEntry [Zero α] [Add α] [Mul α] [DecidableEq α] (cj : α → α) (ta tb : Tag) (k : Int) (alpha : α) (a lda b ldb : Int) (beta : α) (c ldc : Int) (mem : List α) (ij : Int × Int) :
    Option (Int × α) := do
  let s ← sumM k (fun l => do
    let x ← opGet cj ta a lda mem ij.1 l
    let y ← opGet cj tb b ldb mem l ij.2
    return x * y)
  let p := c + ij.1 + ij.2 * ldc
  let v ← axpby alpha s beta mem p
  return (p, v)

/-- `dgemm`/`zgemm`. -/
def f77gemm [Zero α] [Add α] [Mul α] [DecidableEq α] (cj : α → α) (ta tb : Tag) (m n k : Int) (alpha : α) (a lda b ldb : Int) (beta : α) (c ldc : Int) (mem : List α) :
    Except Err (List α) :=
  let nrowa := if ta = .N then m else k
  let nrowb := if tb = .N then k else n
  if m < 0 ∨ n < 0 ∨ k < 0 ∨ lda < max 1 nrowa ∨ ldb < max 1 nrowb ∨ ldc < max 1 m then .error .xerbla
  else if overlap (matAddrs m k (opPos ta a lda) ++ matAddrs k n (opPos tb b ldb)) (matAddrs m n (fun i j => c + i + j * ldc)) then .error .ub
  else orUb (do
    let ws ← (pairs m n).mapM (gemmEntry cj ta tb k alpha a lda b ldb beta c ldc mem)
    storeAll ws mem)

/-- Element `i` of the result of `gemv`, with its address. -/
def gemvEntry [Zero α] [Add α] [Mul α] [DecidableEq α] (cj : α → α) (t : Tag) (lenx leny : Int) (alpha : α) (a lda x incx : Int) (beta : α) (y incy : Int) (mem : List α) (i : Int) :
    Option (Int × α) := do
  let s ← sumM lenx (fun l => do
    let u ← opGet cj t a lda mem i l
    let w ← rdInt mem (vecPos x lenx incx l)
    return u * w)
  let p := vecPos y leny incy i
  let v ← axpby alpha s beta mem p
  return (p, v)

/-- `dgemv`/`zgemv`; note the early return that leaves `y` untouched when the matrix is empty. -/
def f77gemv [Zero α] [Add α] [Mul α] [DecidableEq α] (cj : α → α) (t : Tag) (m n : Int) (alpha : α) (a lda x incx : Int) (beta : α) (y incy : Int) (mem : List α) : Except Err (List α) :=
  if m < 0 ∨ n < 0 ∨ lda < max 1 m ∨ incx = 0 ∨ incy = 0 then .error .xerbla
  else if m = 0 ∨ n = 0 then .ok mem
  else
    let lenx := if t = .N then n else m
    let leny := if t = .N then m else n
    if overlap (matAddrs leny lenx (opPos t a lda) ++ vecAddrs x lenx incx) (vecAddrs y leny incy) then .error .ub
    else orUb (do
      let ws ← ((List.range leny.toNat).map Int.ofNat).mapM (gemvEntry cj t lenx leny alpha a lda x incx beta y incy mem)
      storeAll ws mem)

/-- Entry of the result of `ger`. -/
def gerEntry [Add α] [Mul α] (m n : Int) (alpha : α) (x incx y incy a lda : Int) (mem : List α) (ij : Int × Int) : Option (Int × α) := do
  let u ← rdInt mem (vecPos x m incx ij.1)
  let w ← rdInt mem (vecPos y n incy ij.2)
  let p := a + ij.1 + ij.2 * lda
  let old ← rdInt mem p
  return (p, old + alpha * u * w)

/-- `dger`/`zgeru`. -/
def f77ger [Add α] [Mul α] (m n : Int) (alpha : α) (x incx y incy a lda : Int) (mem : List α) : Except Err (List α) :=
  if m < 0 ∨ n < 0 ∨ incx = 0 ∨ incy = 0 ∨ lda < max 1 m then .error .xerbla
  else if overlap (vecAddrs x m incx ++ vecAddrs y n incy) (matAddrs m n (fun i j => a + i + j * lda)) then .error .ub
  else orUb (do
    let ws ← (pairs m n).mapM (gerEntry m n alpha x incx y incy a lda mem)
    storeAll ws mem)

/-- `ddot`/`zdotu`, and `zdotc` with `cj` on the first vector. -/
def f77dot [Zero α] [Add α] [Mul α] (cj : α → α) (n : Int) (x incx y incy : Int) (mem : List α) : Option α :=
  sumM n (fun l => do
    let u ← rdInt mem (vecPos x n incx l)
    let w ← rdInt mem (vecPos y n incy l)
    return cj u * w)

/-- `dscal`/`zscal`: nothing is done for a non-positive increment. -/
def f77scal [Mul α] (n : Int) (alpha : α) (x incx : Int) (mem : List α) : Option (List α) :=
  if n ≤ 0 ∨ incx ≤ 0 then some mem
  else (List.range n.toNat).foldlM (fun mem i => do
    let u ← rdInt mem (x + Int.ofNat i * incx)
    wrInt mem (x + Int.ofNat i * incx) (alpha * u)) mem

/-! ### gemm -/

/-- A matrix argument: a matrix in memory, or its lazy conjugate. -/
structure Mat where
  v : View
  conj : Bool

/-- `transpose` of such an argument, layout_transforms.hpp:89-99. -/
def Mat.transpose (x : Mat) : Option Mat := (transposeMatrix x.v).map (fun v => ⟨v, x.conj⟩)

/-- The branch of `gemm` for a result in Fortran order, gemm.hpp:93-108. -/
def gemmFortran [Zero α] [Add α] [Mul α] [DecidableEq α] (cj : α → α) (alpha : α) (x y : Mat) (beta : α) (c : View) (mem : List α) : Except Err (List α) := do
  let opA ← getOp x.conj (hasC x.v)
  let opB ← getOp y.conj (hasC y.v)
  let m ← orUb (rd x.v.lay.len 0)
  let k ← orUb (rd x.v.lay.len 1)
  let n ← orUb (rd y.v.lay.len 1)
  let lda ← orUb (getLd x.v)
  let ldb ← orUb (getLd y.v)
  let ldc ← orUb (getLd c)
  f77gemm cj opA opB (toInt32 m) (toInt32 n) (toInt32 k) alpha x.v.off lda y.v.off ldb beta c.off ldc mem

/-- `gemm`, gemm.hpp:60-110.  The recursive call for a result in C order has a result in Fortran order. -/
def gemm [Zero α] [Add α] [Mul α] [DecidableEq α] (cj : α → α) (alpha : α) (x y : Mat) (beta : α) (c : View) (mem : List α) : Except Err (List α) :=
  if hasC c then do
    let yT ← orUb y.transpose
    let xT ← orUb x.transpose
    let cT ← orUb (transposeMatrix c)
    gemmFortran cj alpha yT xT beta cT mem
  else gemmFortran cj alpha x y beta c mem

/-- `gemm_generic`, gemm.hpp:35-49, for matrix expressions with element accesses `a` and `b` (`n0` by `n1` and `n1` by `n2`).  `c() = 0` (C18) is modelled as an elementwise assignment. -/
def gemmGeneric [Zero α] [Add α] [Mul α] (alpha : α) (n0 n1 n2 : Int) (a b : List Int → List α → Option α) (beta : α) (c : View) (mem : List α) : Option (List α) := do
  let mem ← elementwise c (.expr (fun _ _ => some 0)) mem
  forLoop n0 (fun i mem => forLoop n2 (fun j mem => do
    let acc ← sumM n1 (fun k => do
      let x ← a [i, k] mem
      let y ← b [k, j] mem
      return alpha * x * y)
    let old ← load c [i, j] mem
    store c [i, j] (acc + beta * old) mem) mem) mem

/-! ### matmul -/

/-- An operand of `matmul`. -/
inductive Operand (α : Type) where
  /-- a matrix in memory with elements of the common type (`regular`: not a view), or (`conj`) its lazy conjugate -/
  | mat (x : Mat) (regular : Bool)
  /-- anything else: a matrix in memory with another element type (`memory`) or a lazy expression; `order` is its stride order, if it has one; elements converted to the common type -/
  | other (memory : Bool) (order : Option (List Nat)) (n0 n1 : Int) (f : List Int → List α → Option α)

/-- `get_layout_info<L>.stride_order` (a lazy `conj` has none). -/
def Operand.order : Operand α → Option (List Nat)
  | .mat x _ => if x.conj then none else some x.v.lay.so
  | .other _ o _ _ _ => o

/-- Stride order of `get_layout_policy<L>`, matmul.hpp:40-41 with the deduction guides basic_array.hpp:422-428: that of a matrix in memory, C order for expressions. -/
def Operand.policyOrder : Operand α → List Nat
  | .mat x _ => if x.conj then [0, 1] else x.v.lay.so
  | .other m o _ _ _ => if m then o.getD [0, 1] else [0, 1]

def Operand.rows : Operand α → Option Int
  | .mat x _ => rd x.v.lay.len 0
  | .other _ _ n0 _ _ => some n0

def Operand.cols : Operand α → Option Int
  | .mat x _ => rd x.v.lay.len 1
  | .other _ _ _ n1 _ => some n1

/-- `result_layout_policy`, matmul.hpp:60-61. -/
def resultOrder (l r : Operand α) : List Nat := if l.order = r.order then l.policyOrder else [0, 1]

/-- A new matrix with the elements of the right-hand side. -/
def newMatrix (junk : α) (so : List Nat) (n0 n1 : Int) (rhs : Rhs α) (mem : List α) : Option (View × List α) := do
  let (r, mem) ← fresh junk so [n0, n1] mem
  let mem ← (← assign .host .host true r rhs mem)
  return (r, mem)

/-- `as_container`, matmul.hpp:67-72: the argument and whether it is regular. -/
def asContainer (junk : α) (so : List Nat) (o : Operand α) (mem : List α) : Option ((Mat × Bool) × List α) :=
  match o with
  | .mat x reg => some ((x, reg), mem)
  | .other _ _ n0 n1 f => do
      let (r, mem) ← newMatrix junk so n0 n1 (.expr f) mem
      return ((⟨r, false⟩, true), mem)

/-- `is_valid_gemm_triple`, matmul.hpp:28-37. -/
def validTriple (a b : Mat) (c : View) : Bool :=
  if hasF c then !(a.conj && hasF a.v) && !(b.conj && hasF b.v)
  else !(b.conj && !hasF b.v) && !(a.conj && !hasF a.v)

/-- `make_regular`, basic_functions.hpp:142-155. -/
def makeRegular (cj : α → α) (junk : α) (x : Mat) (regular : Bool) (mem : List α) : Option (Mat × List α) :=
  if x.conj then do
    let n0 ← rd x.v.lay.len 0
    let n1 ← rd x.v.lay.len 1
    let (r, mem) ← newMatrix junk [0, 1] n0 n1 (.expr (fun idx mem => (load x.v idx mem).map cj)) mem
    return (⟨r, false⟩, mem)
  else if regular then some (x, mem)
  else do
    let n0 ← rd x.v.lay.len 0
    let n1 ← rd x.v.lay.len 1
    let (r, mem) ← newMatrix junk x.v.lay.so n0 n1 (.inMem x.v false) mem
    return (⟨r, false⟩, mem)

/-- The operands as passed to `gemm`, matmul.hpp:86-90. -/
def operands (cj : α → α) (junk : α) (l r : Mat × Bool) (res : View) (mem : List α) : Option (Mat × Mat × List α) :=
  if validTriple l.1 r.1 res then some (l.1, r.1, mem)
  else do
    let (a, mem) ← makeRegular cj junk l.1 l.2 mem
    let (b, mem) ← makeRegular cj junk r.1 r.2 mem
    return (a, b, mem)

/-- `matmul`, matmul.hpp:51-96, for element types known to BLAS. -/
def matmul [Zero α] [One α] [Add α] [Mul α] [DecidableEq α] (cj : α → α) (junk : α) (l r : Operand α) (mem : List α) : Except Err (View × List α) := do
  let n0 ← orUb l.rows
  let n2 ← orUb r.cols
  let so := resultOrder l r
  let (res, mem) ← orUb (fresh junk so [n0, n2] mem)
  let (a, mem) ← orUb (asContainer junk so l mem)
  let (b, mem) ← orUb (asContainer junk so r mem)
  let (x, y, mem) ← orUb (operands cj junk a b res mem)
  let mem ← gemm cj 1 x y 0 res mem
  return (res, mem)

/-! ### gemv -/

/-- Matrix dimensions as passed to BLAS, gemv.hpp:83-84. -/
def gemvDims (v : View) : Option (Int × Int) := do
  let m ← rd v.lay.len 0
  let n ← rd v.lay.len 1
  return if hasC v then (n, m) else (m, n)

/-- `gemv`, gemv.hpp:57-97. -/
def gemv [Zero α] [Add α] [Mul α] [DecidableEq α] (cj : α → α) (alpha : α) (x : Mat) (b : View) (beta : α) (c : View) (mem : List α) : Except Err (List α) := do
  let op ← getOp x.conj (!hasF x.v)
  let (m, n) ← orUb (gemvDims x.v)
  let lda ← orUb (getLd x.v)
  let incb ← orUb (rd b.lay.str 0)
  let incc ← orUb (rd c.lay.str 0)
  f77gemv cj op (toInt32 m) (toInt32 n) alpha x.v.off lda b.off (toInt32 incb) beta c.off (toInt32 incc) mem

/-- `gemv_generic`, gemv.hpp:26-35. -/
def gemvGeneric [Zero α] [Add α] [Mul α] (alpha : α) (n0 n1 : Int) (a b : List Int → List α → Option α) (beta : α) (c : View) (mem : List α) : Option (List α) := do
  let mem ← elementwise c (.expr (fun _ _ => some 0)) mem
  forLoop n0 (fun i mem => do
    let mem ← forLoop n1 (fun k mem => do
      let old ← load c [i] mem
      let x ← a [i, k] mem
      let y ← b [k] mem
      store c [i] (old + alpha * x * y) mem) mem
    let old ← load c [i] mem
    store c [i] (old + beta * old) mem) mem

/-- `as_container` of the matrix and the case distinction, matmul.hpp:119-143. -/
def matvecMatrix (cj : α → α) (junk : α) (l : Operand α) (mem : List α) : Option (Mat × List α) := do
  let (a, mem) ← asContainer junk [0, 1] l mem
  if a.1.conj && hasF a.1.v then makeRegular cj junk a.1 a.2 mem
  else some (a.1, mem)

/-- `matvecmul`, matmul.hpp:107-149, for element types known to BLAS: the vector is always copied (`MemoryMatrix` does not hold for a vector). -/
def matvecmul [Zero α] [One α] [Add α] [Mul α] [DecidableEq α] (cj : α → α) (junk : α) (l : Operand α) (nr : Int) (r : Rhs α) (mem : List α) : Except Err (View × List α) := do
  let n0 ← orUb l.rows
  let (res, mem) ← orUb (fresh junk [0] [n0] mem)
  let (a, mem) ← orUb (matvecMatrix cj junk l mem)
  let (b, mem) ← orUb (fresh junk [0] [nr] mem)
  let mem ← orUb (do (← assign .host .host true b r mem))
  let mem ← gemv cj 1 a b 0 res mem
  return (res, mem)

/-! ### ger, outer product -/

/-- The call of BLAS, ger.hpp:60-63. -/
def gerFortran [Add α] [Mul α] (alpha : α) (x y m : View) (mem : List α) : Except Err (List α) := do
  let n0 ← orUb (rd m.lay.len 0)
  let n1 ← orUb (rd m.lay.len 1)
  let incx ← orUb (rd x.lay.str 0)
  let incy ← orUb (rd y.lay.str 0)
  let ld ← orUb (getLd m)
  f77ger (toInt32 n0) (toInt32 n1) alpha x.off (toInt32 incx) y.off (toInt32 incy) m.off ld mem

/-- `ger`, ger.hpp:40-64. -/
def ger [Add α] [Mul α] (alpha : α) (x y m : View) (mem : List α) : Except Err (List α) :=
  if hasC m then do
    let mT ← orUb (transposeMatrix m)
    gerFortran alpha y x mT mem
  else gerFortran alpha x y m mem

/-- `outer_product` of two arrays, ger.hpp:80-97, with layout policies `pa` and `pb`. -/
def outerProduct [Zero α] [One α] [Add α] [Mul α] (pa pb : Policy) (a b : View) (mem : List α) : Except Err (View × List α) := do
  let ca ← orUb a.lay.isContiguous
  if !ca then throw .runtime
  let cb ← orUb b.lay.isContiguous
  if !cb then throw .runtime
  let shape := a.lay.len ++ b.lay.len
  let (res, mem) ← orUb (fresh 0 (Perm.identity shape.length) shape mem)
  let av ← orUb (reshape pa a [a.lay.size])
  let bv ← orUb (reshape pb b [b.lay.size])
  let mat ← orUb (reshape .C res [a.lay.size, b.lay.size])
  let mem ← ger 1 av bv mat mem
  return (res, mem)

/-! ### dot, scal -/

/-- `blas::dot` and `dotc` of vectors, dot.hpp:26-77 (`cj` the identity for `dot`). -/
def blasDot [Zero α] [Add α] [Mul α] (cj : α → α) (x y : View) (mem : List α) : Option α := do
  let incx ← rd x.lay.str 0
  let incy ← rd y.lay.str 0
  f77dot cj (toInt32 x.lay.size) x.off (toInt32 incx) y.off (toInt32 incy) mem

/-- An operand of `nda::dot`: a vector or view of the common type is passed as is, anything else is copied, linalg/dot.hpp:43-48. -/
def dotContainer (junk : α) (n : Int) (x : Rhs α) (copy : Bool) (mem : List α) : Option (View × List α) :=
  match x, copy with
  | .inMem v _, false => some (v, mem)
  | _, _ => do
      let (r, mem) ← fresh junk [0] [n] mem
      let mem ← (← assign .host .host true r x mem)
      return (r, mem)

/-- `nda::dot`/`dotc`, linalg/dot.hpp:33-88, for element types known to BLAS; `cx`, `cy`: the operand has another element type. -/
def dot [Zero α] [Add α] [Mul α] (cj : α → α) (junk : α) (n : Int) (x : Rhs α) (cx : Bool) (y : Rhs α) (cy : Bool) (mem : List α) : Option α := do
  let (u, mem) ← dotContainer junk n x cx mem
  let (w, mem) ← dotContainer junk n y cy mem
  blasDot cj u w mem

/-- `_dot_impl`, dot.hpp:81-110: `fast` when both have a smallest stride of one by type, then the elements are read through the pointer; else through the element access.  The element 0 is
always read. -/
def dotGet (x : Rhs α) (fast : Bool) (i : Int) (mem : List α) : Option α :=
  match x, fast with
  | .inMem v _, true => rdInt mem (v.off + i)
  | _, _ => x.get [i] mem

def dotGeneric [Add α] [Mul α] (cj : α → α) (n : Int) (x y : Rhs α) (fast : Bool) (mem : List α) : Option α := do
  let x0 ← dotGet x fast 0 mem
  let y0 ← dotGet y fast 0 mem
  (List.range (n - 1).toNat).foldlM (fun acc i => do
    let u ← dotGet x fast (Int.ofNat i + 1) mem
    let w ← dotGet y fast (Int.ofNat i + 1) mem
    return acc + cj u * w) (cj x0 * y0)

/-- `scal`, scal.hpp:26-40. -/
def scal [Mul α] (alpha : α) (x : View) (mem : List α) : Option (List α) := do
  let inc ← rd x.lay.str 0
  f77scal (toInt32 x.lay.size) alpha x.off (toInt32 inc) mem

end Nda.Blas
