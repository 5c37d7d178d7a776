import Verif.Model.Linalg
import Verif.Model.Norm
/-!
# Model of `c++/nda/linalg/eigenelements.hpp` and of the LAPACK wrappers `lapack/{gtsv,gesvd,gelss,gelss_worker}.hpp`

Same memory and error conventions as in `Model/Linalg.lean`.  Arrays of `double` that are only passed through (eigenvalues, singular values) are lists over `R`, with their own memory.
Workspaces and the calls that ask for their size are not modelled.  Arithmetic is exact.
-/
namespace Nda.Linalg
open Nda LayoutTransforms Assign Loops Matrix Blas

variable {α R : Type}

/-- The LAPACK drivers (external).  Addresses and leading dimensions as for BLAS. -/
structure Drivers (α R : Type) where
  /-- `syev`/`heev`: eigenvectors wanted (`'V'`), upper triangle given (`'U'`), `n a lda`, memory; gives the memory, the eigenvalues and `info` -/
  heev : Bool → Bool → Int → Int → Int → List α → Except Err (List α × List R × Int)
  /-- `gtsv`: `n nrhs dl d du b ldb`, memory -/
  gtsv : Int → Int → Int → Int → Int → Int → Int → List α → Except Err (List α × Int)
  /-- `gesvd` with `jobu = jobvt = 'A'`: `m n a lda u ldu vt ldvt`, memory; gives the memory, the singular values and `info` -/
  gesvd : Int → Int → Int → Int → Int → Int → Int → Int → List α → Except Err (List α × List R × Int)
  /-- `gelss`: `m n nrhs a lda b ldb rcond`, memory; gives the memory, the singular values, the rank and `info` -/
  gelss : Int → Int → Int → Int → Int → Int → Int → R → List α → Except Err (List α × List R × Int × Int)

/-! ### Eigenvalues -/

/-- `_eigen_element_impl`, eigenelements.hpp:24-55 (a matrix that is not empty, square and contiguous: debug checks). -/
def eigenElementImpl (D : Drivers α R) (m : View) (vectors : Bool) (mem : List α) : Except Err (List R × List α) := do
  let n0 ← orUb (rd m.lay.len 0)
  let dim := toInt32 n0
  let (mem, ev, info) ← D.heev vectors true dim m.off dim mem
  if info ≠ 0 then throw .runtime
  return (ev, mem)

/-- `eigenelements`, eigenelements.hpp:65-70.  The eigenvectors are computed in a copy in Fortran order, which is then copied to a matrix of the memory order `so` of the argument. -/
def eigenelements (D : Drivers α R) (junk : α) (so : List Nat) (n0 n1 : Int) (rhs : Rhs α) (mem : List α) : Except Err (List R × View × List α) := do
  let (c, mem) ← orUb (newMatrix junk [1, 0] n0 n1 rhs mem)
  let (ev, mem) ← eigenElementImpl D c true mem
  let (r, mem) ← orUb (newMatrix junk so n0 n1 (.inMem c false) mem)
  return (ev, r, mem)

/-- `eigenvalues`, eigenelements.hpp:79-83.  (`eigenvalues_in_place`, 94-97, takes a reference to a pointer and cannot be compiled for any argument.) -/
def eigenvalues (D : Drivers α R) (junk : α) (n0 n1 : Int) (rhs : Rhs α) (mem : List α) : Except Err (List R × List α) := do
  let (c, mem) ← orUb (newMatrix junk [1, 0] n0 n1 rhs mem)
  eigenElementImpl D c false mem

/-! ### Tridiagonal systems -/

/-- `gtsv`, gtsv.hpp:62-76. -/
def gtsv (D : Drivers α R) (dl d du b : View) (mem : List α) : Except Err (List α × Int) := do
  let n ← orUb (rd d.lay.len 0)
  let nrhs ← if b.lay.len.length = 2 then orUb (rd b.lay.len 1) else if b.lay.len.length = 1 then pure 1 else throw .compile
  D.gtsv (toInt32 n) (toInt32 nrhs) dl.off d.off du.off b.off (toInt32 n) mem

/-! ### Singular values -/

/-- `gesvd`, gesvd.hpp:60-103.  `s`: the array for the singular values, resized only if it is too short. -/
def gesvd (D : Drivers α R) (a : View) (s : List R) (u vt : View) (mem : List α) : Except Err (List R × List α) := do
  if !(hasF a && hasF u && hasF vt) then throw .compile
  let n0 ← orUb (rd a.lay.len 0)
  let n1 ← orUb (rd a.lay.len 1)
  let lda ← orUb (getLd a)
  let ldu ← orUb (getLd u)
  let ldvt ← orUb (getLd vt)
  let (mem, sv, info) ← D.gesvd (toInt32 n0) (toInt32 n1) a.off lda u.off ldu vt.off ldvt mem
  if info ≠ 0 then throw .runtime
  return (sv ++ s.drop (min n0 n1).toNat, mem)

/-- `gelss`, gelss.hpp:71-100. -/
def gelss (D : Drivers α R) (a b : View) (s : List R) (rcond : R) (mem : List α) : Except Err (List R × Int × List α) := do
  if !(hasF a && hasF b) then throw .compile
  let n0 ← orUb (rd a.lay.len 0)
  let n1 ← orUb (rd a.lay.len 1)
  let r ← orUb (rd b.lay.len 1)
  let lda ← orUb (getLd a)
  let ldb ← orUb (getLd b)
  let (mem, sv, rank, info) ← D.gelss (toInt32 n0) (toInt32 n1) (toInt32 r) a.off lda b.off ldb rcond mem
  if info ≠ 0 then throw .runtime
  return (sv ++ s.drop (min n0 n1).toNat, rank, mem)

/-! ### Least squares -/

/-- Outcomes of the least-squares solver: those of the calls, or an infinite intermediate result (division by a singular value that is zero). -/
inductive Fail where
  | call (e : Err)
  | infinite
deriving DecidableEq, Repr

def lift {β : Type} : Except Err β → Except Fail β
  | .ok x => .ok x
  | .error e => .error (.call e)

/-- The members of `gelss_worker` that are used, gelss_worker.hpp:30-43. -/
structure Worker (R : Type) where
  m : Int
  n : Int
  /-- `V_x_InvS_x_UT` -/
  pinv : View
  /-- `UT_NULL`, if it has been assigned -/
  null : Option View
  s : List R

/-- `dagger` of a matrix in memory, matrix_functions.hpp:44-50. -/
def daggerOf (cplx : Bool) (v : View) : Option Mat := (transposeMatrix v).map (fun t => ⟨t, cplx⟩)

/-- The loop gelss_worker.hpp:70. -/
def invertDiagonal [Zero R] [One R] [Div R] [DecidableEq R] (ofReal : R → α) (s : List R) (si : View) (k : Int) (mem : List α) : Except Fail (List α) :=
  (List.range k.toNat).foldlM (fun mem i => do
    let x ← lift (orUb (rd s i))
    if x = 0 then throw .infinite
    lift (orUb (store si [Int.ofNat i, Int.ofNat i] (ofReal (1 / x)) mem))) mem

/-- The constructor of `gelss_worker`, gelss_worker.hpp:56-75, from a matrix `a`; `cplx`: complex elements.  `S_inv` has elements of type `double`: here they are kept converted to
the type of the matrix (`ofReal`), and `matmul` is told if the types differ. -/
def worker [Zero α] [One α] [Add α] [Mul α] [DecidableEq α] [Zero R] [One R] [Div R] [DecidableEq R] (cj : α → α) (ofReal : R → α) (cplx : Bool) (D : Drivers α R) (junk : α) (a : View)
    (mem : List α) : Except Fail (Worker R × List α) := do
  let m ← lift (orUb (rd a.lay.len 0))
  let n ← lift (orUb (rd a.lay.len 1))
  if m < n then throw (.call .runtime)
  let (af, mem) ← lift (orUb (newMatrix junk [1, 0] m n (.inMem a false) mem))
  let (u, mem) ← lift (orUb (fresh junk [1, 0] [m, m] mem))
  let (vt, mem) ← lift (orUb (fresh junk [1, 0] [n, n] mem))
  let (s, mem) ← lift (gesvd D af (List.replicate (min m n).toNat 0) u vt mem)
  let (si, mem) ← lift (orUb (fresh junk [1, 0] [n, m] mem))
  let mem ← lift (orUb (assignScalarMatrix (si.lay.size.toNat + 1) si 0 0 mem))
  let mem ← invertDiagonal ofReal s si (min m n) mem
  let vd ← lift (orUb (daggerOf cplx vt))
  let ud ← lift (orUb (daggerOf cplx u))
  let sOp : Operand α := if cplx then .other true (some si.lay.so) n m (fun idx mem => load si idx mem) else .mat ⟨si, false⟩ true
  let (vs, mem) ← lift (matmul cj junk (.mat vd false) sOp mem)
  let (p, mem) ← lift (matmul cj junk (.mat ⟨vs, false⟩ true) (.mat ud false) mem)
  if n < m then
    let w ← lift (orUb (sliceView ud.v [.rng n m 1, .rng 0 m 1]))
    let (un, mem) ← lift (orUb (newMatrix junk [0, 1] (m - n) m (.expr (fun idx mem => (load w idx mem).map (fun x => if cplx then cj x else x))) mem))
    return (⟨m, n, p, some un, s⟩, mem)
  else return (⟨m, n, p, none, s⟩, mem)

/-- One turn of the loop gelss_worker.hpp:83. -/
def columnError [Zero α] [One α] [Add α] [Mul α] [DecidableEq α] [Add R] [Mul R] [Zero R] [Div R] [IntCast R] (S : Norm.Std α R) (junk : α) (un b : View) (rows : Int) (i : Int) (mem : List α) :
    Except Fail (R × List α) := do
  let bi ← lift (orUb (sliceView b [.all, .rng i (i + 1) 1]))
  let (c, mem) ← lift (matmul S.conj junk (.mat ⟨un, false⟩ true) (.mat ⟨bi, false⟩ false) mem)
  let f ← lift (orUb (Algorithms.frobeniusSq S.abs c.lay.len (fun idx => load c idx mem)))
  return (S.sqrt f / S.sqrt (rows : R), mem)

/-- `err`, gelss_worker.hpp:80-85.  `max_element` of an empty vector must not be dereferenced. -/
def largestError [Zero α] [One α] [Add α] [Mul α] [DecidableEq α] [Add R] [Mul R] [Zero R] [Div R] [IntCast R] [LT R] [DecidableLT R] (S : Norm.Std α R) (junk : α) (un b : View)
    (mem : List α) : Except Fail (R × List α) := do
  let rows ← lift (orUb (rd b.lay.len 0))
  let cols ← lift (orUb (rd b.lay.len 1))
  let (errs, mem) ← (List.range cols.toNat).foldlM (fun (s : List R × List α) i => do
    let (e, mem) ← columnError S junk un b rows (Int.ofNat i) s.2
    return (s.1 ++ [e], mem)) ([], mem)
  match errs with
  | [] => throw (.call .ub)
  | e :: es => return (es.foldl (fun m x => if m < x then x else m) e, mem)

/-- `gelss_worker::operator()`, gelss_worker.hpp:78-87: the solution and the error. -/
def solve [Zero α] [One α] [Add α] [Mul α] [DecidableEq α] [Add R] [Mul R] [Zero R] [Div R] [IntCast R] [LT R] [DecidableLT R] (S : Norm.Std α R) (junk : α) (w : Worker R) (b : View)
    (mem : List α) : Except Fail (View × R × List α) := do
  let (err, mem) ← if w.m ≠ w.n then (do let un ← lift (orUb w.null); largestError S junk un b mem) else pure (0, mem)
  let (x, mem) ← lift (matmul S.conj junk (.mat ⟨w.pinv, false⟩ true) (.mat ⟨b, false⟩ false) mem)
  return (x, err, mem)

end Nda.Linalg
