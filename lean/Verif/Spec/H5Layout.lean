import Verif.Model.H5Layout
import Verif.Spec.Memory
import Verif.Lemmas.Mpi
import Verif.Spec.Contiguous
/-!
# Elements of datasets (C88)
-/
namespace Nda.H5.Spec
open Nda Nda.Spec Nda.H5

variable {α R : Type}

/-- Elements correspond to numbers (real) or pairs of numbers (complex), and all of these are elements. -/
structure CodecOK (c : Codec α R) : Prop where
  len : ∀ x, (c.enc x).length = if c.cplx then 2 else 1
  dec_enc : ∀ x, c.dec (c.enc x) = some x
  total : ∀ l : List R, l.length = (if c.cplx then 2 else 1) → ∃ x, c.dec l = some x

/-- Element `k` of a dataset: one number, or two consecutive ones. -/
def number (c : Codec α R) (data : List R) (k : Nat) : Option α :=
  if c.cplx then
    match data[2 * k]?, data[2 * k + 1]? with
    | some x, some y => c.dec [x, y]
    | _, _ => none
  else
    match data[k]? with
    | some x => c.dec [x]
    | none => none

/-- A dataset with extents `L` whose elements are given by `f`. -/
structure Holds (c : Codec α R) (ds : Dataset R) (L : List Int) (f : List Int → Option α) : Prop where
  lengths : ds.lengths = L ++ (if c.cplx then [2] else [])
  cplx : ds.isComplex = c.cplx
  size : (ds.data.length : Int) = prod L * (if c.cplx then 2 else 1)
  elems : ∀ idx, InRange L idx → (f idx).isSome ∧ number c ds.data (lin L idx).toNat = f idx

/-- What can be read into, for data of the given shape: an array of that rank with its own storage, in any memory order; or a view of that shape in C order whose elements are at distinct
addresses and whose strides, if the contiguity test accepts it, are positive and regular. -/
def Target (reg : Bool) (a : View) (shape : List Int) (n : Nat) : Prop :=
  if reg then Mpi.Blk a n ∧ shape.length = a.lay.len.length
  else Assign.Good a n ∧ OneToOne a ∧ a.lay.so = List.range a.lay.len.length ∧ a.lay.len ≠ [] ∧ a.lay.len = shape ∧ (a.lay.isContiguous = some true → Regular a.lay ∧ BigPos a.lay)

/-- The outcome of reading elements `g` of the given shape into the array or view `a`: the result `t` (for a view, the view itself) has these elements; memory that does not belong to `a` keeps
its values; new storage is used only beyond the old memory. -/
structure ReadInto (reg : Bool) (a : View) (shape : List Int) (g : List Int → Option α) (mem : List α) (t : View) (mem' : List α) : Prop where
  len : t.lay.len = shape
  so : t.lay.so = a.lay.so
  good : Assign.Good t mem'.length
  one : OneToOne t
  elems : ∀ J, InRange shape J → val mem' (addr t J) = g J
  grows : mem.length ≤ mem'.length
  frame : ∀ k : Int, k < mem.length → ¬ Occupies a k → val mem' k = val mem k
  place : ∀ k, Occupies t k → Occupies a k ∨ (mem.length : Int) ≤ k
  view : reg = false → t = a

end Nda.H5.Spec
