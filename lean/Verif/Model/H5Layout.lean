import Verif.Model.H5
import Verif.Model.Mpi
/-!
# Model of `h5_write` and `h5_read` (`c++/nda/h5.hpp`) of arrays and views of scalars in memory, of any layout

External (the h5 library, assumed): `write` of a whole array gets the strides of the array and, if they are positive in every dimension of extent greater than one, transfers the elements
`a(i...)` in row-major order, and nothing for an empty array; negative strides do not fit its unsigned arguments (undefined here).  `write_slice` and `read` get only the data pointer and the counts: they transfer
consecutive elements of memory.
-/
namespace Nda.H5
open Nda LayoutTransforms Assign Matrix Mpi

variable {α R : Type}

/-- How an element of the array is stored in the file: one number, or two for complex elements (`is_complex_v`, h5.hpp:183 and 255). -/
structure Codec (α R : Type) where
  cplx : Bool
  enc : α → List R
  dec : List R → Option α

/-- Numbers per element. -/
def Codec.width (c : Codec α R) : Nat := if c.cplx then 2 else 1

/-- Element `k` of a buffer of raw numbers. -/
def Codec.elemAt (c : Codec α R) (raw : List R) (k : Nat) : Option α := c.dec ((raw.drop (c.width * k)).take c.width)

/-- The test of h5.hpp:166 and 233; at rank 0 the maximum of no strides is undefined. -/
def needsCopy (a : View) : Option Bool := do
  let c ← a.lay.isContiguous
  return !(decide (a.lay.so = Perm.identity a.lay.len.length) && c)

/-- `basic_array::resize`, basic_array.hpp:412-416: new storage only if the number of elements changes (or there is none: size 0). -/
def resizeArr (junk : α) (a : View) (sha : List Int) (mem : List α) : Option (View × List α) := do
  let m ← Arr.layoutOf a.lay.so sha
  if m.size = a.lay.size then return (⟨a.off, m⟩, mem) else fresh junk a.lay.so sha mem

/-- Strides that the library can be given, see above. -/
def posStrides (a : View) : Bool := decide (a.lay.size = 0) || (a.lay.len.zip a.lay.str).all (fun p => decide (p.1 ≤ 1) || decide (0 < p.2))

/-- `h5_write` after the test, for scalars, h5.hpp:181-212; `old`: the existing dataset. -/
def writeDirect (c : Codec α R) (slice : List Arg) (a : View) (mem : List α) (old : Option (Dataset R)) : Except Bad (Dataset R) :=
  if slice = [] then do
    check (posStrides a) .ub
    let vals ← orElse .ub ((rowMajor a.lay.len).mapM (fun idx => load a idx mem))
    return h5WriteWhole c.cplx a.lay.len (vals.flatMap c.enc)
  else do
    let ds ← orElse .runtime old
    let vals ← orElse .ub (readBuf mem a.off a.lay.size)
    h5WriteSlice c.cplx slice a.lay.len (vals.flatMap c.enc) ds

/-- `h5_write`, h5.hpp:161-212, of an array or view `a` of scalars (`null`: its storage handle is null). -/
def h5WriteMem (junk : α) (c : Codec α R) (slice : List Arg) (a : View) (null : Bool) (mem : List α) (old : Option (Dataset R)) : Except Bad (Dataset R) := do
  let copy ← orElse .ub (needsCopy a)
  if copy then
    let t ← orElse .ub (fresh junk (Perm.identity a.lay.len.length) a.lay.len mem)
    match assign .host .host true t.1 (.inMem a null) t.2 with
    | some (some mem') => writeDirect c slice t.1 mem' old
    | some none => .error .runtime
    | none => .error .ub
  else writeDirect c slice a mem old

/-- `h5_read` after the test, for scalars, h5.hpp:252-301 (`reg`: an array, not a view).  A real dataset read into a complex array: h5.hpp:259-266. -/
def readDirect [Zero R] (junk : α) (c : Codec α R) (reg : Bool) (slice : List Arg) (a : View) (mem : List α) (ds : Dataset R) : Except Bad (View × List α) := do
  let r ← h5Read a.lay.len.length c.cplx slice (if reg then none else some a.lay.len) ds
  let t ← if reg then orElse .ub (resizeArr junk a r.1 mem) else .ok (a, mem)
  if c.cplx && !ds.isComplex then
    match assign .host .host false t.1 (.expr (fun idx _ => c.elemAt r.2 (rowPos r.1 idx).toNat)) t.2 with
    | some (some mem') => .ok (t.1, mem')
    | some none => .error .runtime
    | none => .error .ub
  else
    let n := r.1.foldr (· * ·) 1
    let vals ← orElse .runtime ((List.range n.toNat).mapM (fun k => c.elemAt r.2 k))
    let mem' ← orElse .ub (writeBuf t.2 t.1.off vals)
    return (t.1, mem')

/-- `h5_read`, h5.hpp:227-301, into an array (`reg`) or view `a` of scalars. -/
def h5ReadMem [Zero R] (junk : α) (c : Codec α R) (reg : Bool) (slice : List Arg) (a : View) (mem : List α) (ds : Dataset R) : Except Bad (View × List α) := do
  check (decide (a.lay.so = Perm.identity a.lay.len.length) || reg) .compile
  let copy ← orElse .ub (needsCopy a)
  if copy then
    let t0 ← orElse .ub (fresh junk (Perm.identity a.lay.len.length) (List.replicate a.lay.len.length 0) mem)
    let t ← readDirect junk c true slice t0.1 t0.2 ds
    let b ← if reg then orElse .ub (resizeArr junk a t.1.lay.len t.2) else .ok (a, t.2)
    match assign .host .host true b.1 (.inMem t.1 (decide (t.1.lay.size = 0))) b.2 with
    | some (some mem') => .ok (b.1, mem')
    | some none => .error .runtime
    | none => .error .ub
  else readDirect junk c reg slice a mem ds

end Nda.H5
