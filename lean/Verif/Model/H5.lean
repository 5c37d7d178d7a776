import Verif.Model.Slice
import Verif.Model.Loops
import Mathlib.Data.Nat.Digits.Defs
/-!
# Model of `c++/nda/h5.hpp`

External (HDF5 and the h5 library, assumed): a dataset is its list of lengths and its elements in row-major order; a selection (hyperslab) names the coordinates
`offset + k * stride`, `k < count`, in every dimension, and is transferred in row-major order; a selection outside the dataset is an error.  A complex dataset has an additional last
dimension of length 2.  Groups map names to values and writing replaces.
-/
namespace Nda.H5
open Nda Loops

/-! ### Arrays of strings -/

/-- A `std::string`: its characters (any, including NUL). -/
abbrev Str := List UInt8

/-- What `c_str()` shows to a C function: the characters before the first NUL. -/
def cStr (s : Str) : Str := s.takeWhile (· ≠ 0)

/-- `strcpy(&buf[p], x)`: the characters and the final NUL; beyond the buffer is undefined. -/
def strcpy (buf : List UInt8) (p : Nat) (x : Str) : Option (List UInt8) :=
  if p + (cStr x).length + 1 ≤ buf.length then some (buf.take p ++ (cStr x ++ 0 :: buf.drop (p + (cStr x).length + 1))) else none

/-- `h5::char_buf`: the buffer and its two lengths. -/
structure CharBuf where
  buffer : List UInt8
  lengths : Nat × Nat
deriving DecidableEq, Repr

/-- `to_char_buf`, h5.hpp:61-75. -/
def toCharBuf (v : List Str) : Option CharBuf := do
  let s := v.foldl (fun s x => max s (x.length + 1)) 0
  let buf ← v.zipIdx.foldlM (fun buf (x : Str × Nat) => strcpy buf (x.2 * s) x.1) (List.replicate (v.length * s) 0)
  return ⟨buf, (v.length, s)⟩

/-- `x.append(&buffer[p])`: the characters up to the first NUL; none before the end of the buffer is undefined. -/
def readCStr (buf : List UInt8) (p : Nat) : Option Str :=
  if 0 ∈ buf.drop p then some (cStr (buf.drop p)) else none

/-- `from_char_buf`, h5.hpp:77-88. -/
def fromCharBuf (cb : CharBuf) : Option (List Str) := (List.range cb.lengths.1).mapM (fun i => readCStr cb.buffer (i * cb.lengths.2))

/-! ### Element names -/

/-- `std::to_string` of a non-negative integer, as characters. -/
def toStr (i : Int) : List Char := if i = 0 then ['0'] else ((Nat.digits 10 i.toNat).reverse.map Nat.digitChar)

/-- `make_name`, h5.hpp:221 and 314. -/
def makeName : List Int → List Char
  | [] => []
  | i :: is => is.foldl (fun s j => s ++ ('_' :: toStr j)) (toStr i)

/-- What a group holds under a name: the shape, or an element. -/
inductive Entry (α : Type) where
  | shape (len : List Int)
  | elem (x : α)

/-- A group: names and values. -/
abbrev Group (α : Type) := List (List Char × Entry α)

/-- Writing under a name replaces (external). -/
def Group.write {α : Type} (g : Group α) (name : List Char) (e : Entry α) : Group α := (name, e) :: g.filter (fun p => p.1 ≠ name)

def Group.read {α : Type} (g : Group α) (name : List Char) : Option (Entry α) := (g.find? (fun p => decide (p.1 = name))).map Prod.snd

/-- `h5_write` of an array of elements of a type unknown to HDF5, h5.hpp:214-223, into a new group; `get` is the element access. -/
def writeGeneric {α : Type} (len : List Int) (get : List Int → Option α) : Option (Group α) := do
  let g : Group α := Group.write [] "shape".toList (.shape len)
  forEach len (fun idx g => do
    let x ← get idx
    return g.write (makeName idx) (.elem x)) g

/-- The reading of one element, h5.hpp:314. -/
def readElem {α : Type} (g : Group α) (idx : List Int) (l : List (List Int × α)) : Option (List (List Int × α)) := do
  match ← g.read (makeName idx) with
  | .shape _ => none
  | .elem x => return l ++ [(idx, x)]

/-- `h5_read` of such an array, h5.hpp:303-317: the shape and the elements, in the order of the loop. -/
def readGeneric {α : Type} (g : Group α) : Option (List Int × List (List Int × α)) := do
  match ← g.read "shape".toList with
  | .elem _ => none
  | .shape len =>
    let l ← forEach len (readElem g) []
    return (len, l)

/-! ### Slices -/

/-- One dimension of `h5::array_interface::hyperslab` (the vectors `offset`, `stride`, `count` as one list; `block` is 1). -/
structure Dim where
  offset : Int
  stride : Int
  count : Int
deriving DecidableEq, Repr

/-- Conversion to `hsize_t` (64 bit unsigned). -/
def hsize (x : Int) : Int := x % 18446744073709551616

/-- `hyperslab(rank, is_complex)` of the h5 library (external). -/
def newSlab (rank : Nat) (isComplex : Bool) : List Dim := List.replicate rank ⟨0, 1, 0⟩ ++ if isComplex then [⟨0, 1, 2⟩] else []

/-- Errors. -/
inductive Bad where
  /-- does not compile -/
  | compile
  /-- run-time error of the library or of HDF5 -/
  | runtime
  /-- undefined behaviour -/
  | ub
deriving DecidableEq, Repr

def orElse {β : Type} (e : Bad) : Option β → Except Bad β
  | some x => .ok x
  | none => .error e

def check (b : Bool) (e : Bad) : Except Bad Unit := if b then .ok () else .error e

/-- Changing dimension `n` of the slab. -/
def upd (s : List Dim) (n : Int) (f : Dim → Dim) : Option (List Dim) := do
  let d ← rdInt s n
  wrInt s n (f d)

/-- State of the loop over the arguments: slab, shape, `m`. -/
abbrev SlabSt := List Dim × List Int × Nat

/-- A full dimension `k`, h5.hpp:140-142 and 151-153. -/
def fullDim (lengths : List Int) (k : Int) (st : SlabSt) : Option SlabSt := do
  let l ← rdInt lengths k
  let s ← upd st.1 k (fun d => { d with count := l })
  let sh ← wr st.2.1 st.2.2 l
  return (s, sh, st.2.2 + 1)

/-- The lambda for one argument, h5.hpp:131-154, `q` its position, `w` the width of the ellipsis, `ePos` its position. -/
def slabArg (lengths : List Int) (ePos : Nat) (w : Int) (st : SlabSt) (a : Arg × Nat) : Option SlabSt :=
  let n : Int := if ePos < a.2 then a.2 + (w - 1) else a.2
  match a.1 with
  | .idx i => do
      let s ← upd st.1 n (fun d => { d with offset := hsize i, count := 1 })
      return (s, st.2)
  | .ell => (List.range w.toNat).foldlM (fun st k => fullDim lengths (n + Int.ofNat k) st) st
  | .rng f la step => do
      let c ← rangeSize f la step
      let s ← upd st.1 n (fun _ => ⟨hsize f, hsize step, c⟩)
      let sh ← wr st.2.1 st.2.2 c
      return (s, sh, st.2.2 + 1)
  | .all => fullDim lengths n st

/-- `ellipsis_position`, h5.hpp:112-115: the sum of `is_ellipsis * position`, `size_of_slice` without an ellipsis. -/
def ePosition (args : List Arg) : Nat :=
  if args.count .ell = 1 then ((args.zipIdx).map (fun (a : Arg × Nat) => if a.1 = .ell then a.2 else 0)).sum else args.length

/-- `hyperslab_and_shape_from_slice<NDim>`, h5.hpp:106-159. -/
def hyperslabAndShape (nDim : Nat) (args : List Arg) (lengths : List Int) (isComplex : Bool) : Except Bad (List Dim × List Int) := do
  let eCount := args.count .ell
  check (decide (eCount < 2)) .compile
  let iCount := args.countP (fun a => !Slice.isRange a)
  let rCount := args.length - iCount - eCount
  let w : Int := nDim - rCount
  check ((eCount == 1 && decide (rCount ≤ nDim)) || rCount == nDim) .compile
  let slabRank := nDim + iCount
  check (decide ((slabRank : Int) = lengths.length - (if isComplex then 1 else 0))) .runtime
  let r ← orElse .ub (args.zipIdx.foldlM (slabArg lengths (ePosition args) w) (newSlab slabRank isComplex, List.replicate nDim 0, 0))
  return (r.1, r.2.1)

/-- A dataset: lengths, elements in row-major order, complex attribute. -/
structure Dataset (α : Type) where
  lengths : List Int
  data : List α
  isComplex : Bool

/-- Row-major enumeration of a box. -/
def rowMajor : List Int → List (List Int)
  | [] => [[]]
  | l :: ls => (List.range l.toNat).flatMap (fun i => (rowMajor ls).map (fun x => Int.ofNat i :: x))

/-- Coordinate of point `k` of the selection; outside the dataset is an error of HDF5. -/
def selCoord : List Dim → List Int → List Int → Option (List Int)
  | [], [], [] => some []
  | d :: ds, l :: ls, k :: ks => do
      let r ← selCoord ds ls ks
      let c := d.offset + k * d.stride
      if 0 ≤ c ∧ c < l then some (c :: r) else none
  | _, _, _ => none

/-- Position of a coordinate in row-major order. -/
def rowPos : List Int → List Int → Int
  | _ :: ls, i :: is => i * ls.foldr (· * ·) 1 + rowPos ls is
  | _, _ => 0

/-- Positions of the selected elements, in the order of the transfer. -/
def selected (lengths : List Int) (s : List Dim) : Option (List Int) :=
  (rowMajor (s.map Dim.count)).mapM (fun k => (selCoord s lengths k).map (rowPos lengths))

variable {α : Type}

/-- `h5::array_interface::read` with a selection (external). -/
def readSel (ds : Dataset α) (s : List Dim) : Except Bad (List α) := do
  let ps ← orElse .runtime (selected ds.lengths s)
  orElse .runtime (ps.mapM (fun p => rdInt ds.data p))

/-- `h5_read` of a whole dataset into an array (`view`: shape of a view to read into), h5.hpp:276-301 without slice. -/
def readWhole (nDim : Nat) (cplx : Bool) (view : Option (List Int)) (ds : Dataset α) : Except Bad (List Int × List α) := do
  let shape ← orElse .ub ((List.range nDim).mapM (fun u => rd ds.lengths u))
  check (match view with | none => true | some v => decide (v = shape)) .runtime
  check (decide ((ds.lengths.length : Int) - (if cplx then 1 else 0) = nDim)) .runtime
  return (shape, ds.data)

/-- `h5_read` of a dataset of scalars into a C-order contiguous array (real or complex; the elements of a complex array are pairs of reals), h5.hpp:252-301.  The result is the shape and
the raw elements.  A view of another shape in the assignment `a = tmp` (h5.hpp:263) is undefined behaviour (checked in debug builds only).  Arrays of other layouts are read into such an
array and copied (h5.hpp:231-240): Model/H5Layout.  Not modelled: a complex dataset read into a real array. -/
def h5Read [Zero α] (nDim : Nat) (cplx : Bool) (slice : List Arg) (view : Option (List Int)) (ds : Dataset α) : Except Bad (List Int × List α) :=
  if cplx && !ds.isComplex then do
    let r ← readWhole nDim false none ds
    check (match view with | none => true | some v => decide (v = r.1)) .ub
    return (r.1, r.2.flatMap (fun x => [x, 0]))
  else if slice = [] then readWhole nDim cplx view ds
  else do
    let r ← hyperslabAndShape nDim slice ds.lengths cplx
    check (match view with | none => true | some v => decide (v = r.2)) .runtime
    let vals ← readSel ds r.1
    return (r.2, vals)

/-- `h5_write` of an array of scalars with raw elements `vals` to part of a dataset, h5.hpp:183-198. -/
def h5WriteSlice (cplx : Bool) (slice : List Arg) (shape : List Int) (vals : List α) (ds : Dataset α) : Except Bad (Dataset α) := do
  check (cplx == ds.isComplex) .runtime
  let r ← hyperslabAndShape shape.length slice ds.lengths cplx
  check (decide (r.2 = shape)) .runtime
  let ps ← orElse .runtime (selected ds.lengths r.1)
  let data ← orElse .ub ((ps.zipIdx).foldlM (fun data (p : Int × Nat) => do
    let x ← rd vals p.2
    wrInt data p.1 x) ds.data)
  return { ds with data := data }

/-- `h5_write` of a whole array, h5.hpp:199-212: the dataset is replaced. -/
def h5WriteWhole (cplx : Bool) (shape : List Int) (vals : List α) : Dataset α := ⟨shape ++ (if cplx then [2] else []), vals, cplx⟩

end Nda.H5
