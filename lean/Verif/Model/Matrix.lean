import Verif.Model.Arithmetic
import Verif.Model.Arrays
/-!
# Model of `c++/nda/matrix_functions.hpp`

New matrices are put at the end of memory.  Functions returning a matrix return its view and the new memory.
-/
namespace Nda.Matrix
open Nda LayoutTransforms Assign Loops Arith

variable {α : Type}

/-- A new array, filled with `x`: a value-initialised one (`mem::init_zero`) if `x` is zero; for an uninitialised one `x` is junk (basic_array.hpp:118-149). -/
def fresh (x : α) (so : List Nat) (len : List Int) (mem : List α) : Option (View × List α) := do
  let m ← Arr.layoutOf so len
  return (⟨(mem.length : Int), m⟩, mem ++ List.replicate m.size.toNat x)

/-- `eye`, matrix_functions.hpp:25-30 (`matrix` is in C order). -/
def eye (junk zero one : α) (dim : Int) (mem : List α) : Option (View × List α) := do
  let (r, mem) ← fresh junk [0, 1] [dim, dim] mem
  let mem ← assignScalarMatrix (r.lay.size.toNat + 1) r zero one mem
  return (r, mem)

/-- `basic_array::ones`, basic_array.hpp:293-308; `res() = 1` is a scalar assignment in the algebra of the array. -/
def ones (alg : Alg) (junk zero one : α) (so : List Nat) (len : List Int) (mem : List α) : Option (View × List α) := do
  let (r, mem) ← fresh junk so len mem
  let mem ← if alg = .M then assignScalarMatrix (r.lay.size.toNat + 1) r zero one mem else assignScalar (r.lay.size.toNat + 1) r one mem
  return (r, mem)

/-- One more than the largest `int`. -/
def intBound : Int := 2147483648

/-- `trace`, matrix_functions.hpp:33-41 (the shape check is a debug check).  The counter is an `int`: it must not overflow. -/
def trace [Add α] [Zero α] (len : List Int) (get : List Int → Option α) : Option α := do
  let d ← rd len 0
  if d < intBound then
    forLoop d (fun i r => do let x ← get [i, i]; return r + x) 0
  else none

/-- `transpose`, layout_transforms.hpp:92-102, of an array in memory or a call expression of one argument (others do not compile). -/
def transposeExpr : Expr α → Option (Expr α)
  | .arr alg v => do return .arr alg (← transposeMatrix v)
  | .call 0 f es => do
      let e ← transposeExpr (es 0)
      return .call 0 f (fun _ => e)
  | _ => none

/-- `dagger`, matrix_functions.hpp:44-50, with `conj` of arrays, mapped_functions.hpp:88-94. -/
def dagger (complex : Bool) (conj : α → α) (e : Expr α) : Option (Expr α) := do
  let t ← transposeExpr e
  return if complex then .call 0 (fun x => conj (x 0)) (fun _ => t) else t

/-- `diagonal`, matrix_functions.hpp:53-60: rank 2 only (`C_stride_layout` makes no promises). -/
def diagonal (m : View) : Option View :=
  match m.lay.len with
  | [n0, n1] => some ⟨m.off, ⟨[min n0 n1], [m.lay.str.sum], [0], [0], .none⟩⟩
  | _ => none

/-- `diag`, matrix_functions.hpp:63-73, of a vector of `n` elements. -/
def diag (zero : α) (n : Int) (v : Rhs α) (mem : List α) : Option (View × List α) := do
  let (m, mem) ← fresh zero [0, 1] [n, n] mem
  let d ← diagonal m
  let mem ← (← assign .host .host true d v mem)
  return (m, mem)

/-- `vstack`, matrix_functions.hpp:78-96 (the shape check is a debug check): `a` of shape `n` by `q`, `b` of shape `p` by `qb`. -/
def vstack (junk : α) (n q p : Int) (a b : Rhs α) (mem : List α) : Option (View × List α) := do
  let (res, mem) ← fresh junk [0, 1] [n + p, q] mem
  let v1 ← sliceView res [.rng 0 n 1, .all]
  let mem ← (← assign .host .host true v1 a mem)
  let v2 ← sliceView res [.rng n (n + p) 1, .all]
  let mem ← (← assign .host .host true v2 b mem)
  return (res, mem)

end Nda.Matrix
