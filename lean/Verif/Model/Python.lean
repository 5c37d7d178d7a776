import Verif.Model.LayoutTransforms
import Verif.Model.Algorithms
import Verif.Model.Handles
/-!
# Model of `python/nda_py/nda_py.hpp`, `make_py_capsule.hpp`, `cpp2py_converters.hpp`

Addresses are integers (bytes).  A numpy array is described by the fields of its C structure.  `long` is 64 bit; where
the code mixes `long` and `size_t`, the arithmetic is done modulo 2^64 on `BitVec 64` and the result read as signed.
Not modelled: reference counts of Python objects other than the capsule, the conversion of elements
(`py_converter<T>`, a parameter), `PyArray_FromAny` (numpy).
-/
namespace Nda.Python
open Nda LayoutTransforms

/-- `cpp2py::numpy_proxy` (external structure, filled at nda_py.hpp:37-43): address of the data, read-only flag, extents,
strides in bytes. -/
structure Proxy where
  data : Int
  const : Bool
  extents : List Int
  strides : List Int
deriving DecidableEq, Repr

/-- `strides()[i] * sizeof(T)`, nda_py.hpp:34: `long * size_t` is computed as `size_t` and converted back to `long`. -/
def mulSize (s : Int) (size : Nat) : Int := (BitVec.ofInt 64 s * BitVec.ofNat 64 size).toInt

/-- `p.strides[u] / sizeof(T)`, cpp2py_converters.hpp:84: `long / size_t` is computed as `size_t` and converted back to
`long`. -/
def divSize (s : Int) (size : Nat) : Int := (BitVec.ofInt 64 s / BitVec.ofNat 64 size).toInt

/-- `make_numpy_proxy_from_array_or_view`, nda_py.hpp:29-43, for element types that numpy has.  `base` is the address
of position 0 of the memory that the view refers to, `size` is `sizeof(T)`.  The capsule is modelled in `capsule`. -/
def toPython (base : Int) (size : Nat) (const : Bool) (v : View) : Proxy :=
  { data := base + size * v.off, const,
    extents := v.lay.len.map (fun l => l),
    strides := v.lay.str.map (fun s => mulSize s size) }

/-- A Python object as far as the converters look at it: is it a numpy array, of what type, with what description. -/
structure Obj where
  isArray : Bool
  type : Nat
  desc : Proxy
deriving DecidableEq, Repr

/-- `numpy_check_layout<R, Layout>`, cpp2py_converters.hpp:15-20: the static `is_stride_order_valid` of the layout with
stride order `so`, on the first `R` dimensions and byte strides. -/
def checkLayout (R : Nat) (so : List Nat) (o : Obj) : Option Bool :=
  IdxMap.isStrideOrderValid ⟨o.desc.extents.take R, o.desc.strides.take R, so, List.replicate R 0, .none⟩

/-- `py_converter<basic_array_view>::is_convertible`, cpp2py_converters.hpp:39-71 (the Python error is omitted);
`npy` is `npy_type<U>`. -/
def viewConvertible (R npy : Nat) (so : List Nat) (allowLower requireC : Bool) (o : Obj) : Option Bool :=
  if !o.isArray then some false
  else
    let r := o.desc.extents.length
    if (if allowLower then decide (r < R) else decide (r ≠ R)) then some false
    else if !allowLower && decide (r = R) && decide (o.type ≠ npy) then some false
    else if requireC then
      match checkLayout R so o with
      | none => none
      | some false => some false
      | some true => some true
    else some true

/-- `py_converter<basic_array_view>::py2c`, cpp2py_converters.hpp:75-87: a view of C stride order without guarantees on the
strides, at the address of the data. -/
def viewFromPython (R size : Nat) (p : Proxy) : Int × View :=
  (p.data, ⟨0, ⟨(p.extents.take R).map (fun l => l), (p.strides.take R).map (fun s => divSize s size), List.range R,
    List.replicate R 0, .none⟩⟩)

/-- The test of all elements, cpp2py_converters.hpp:145-155: `conv` says whether `obj[i...]` can be converted.
`sum` of booleans is an `int` (algorithms.hpp:35, 131-135), converted to `bool`.  Overflow of the `int` is not modelled. -/
def elementsConvertible (shape : List Int) (conv : List Int → Bool) : Option Bool :=
  match Algorithms.sum (fun (r : Int) (x : Bool) => r + if x then 1 else 0) 0 shape (fun idx => some (conv idx)) with
  | none => none
  | some n => some (decide (n ≠ 0))

/-- `py_converter<basic_array>::is_convertible` for element types without a numpy equivalent and an object that is a
numpy array, cpp2py_converters.hpp:134-156; `npyObj` is `npy_type<PyObject *>`. -/
def arrayConvertible (R npyObj : Nat) (conv : List Int → Bool) (o : Obj) : Option Bool :=
  match viewConvertible R npyObj (List.range R) true true o with
  | none => none
  | some false => some false
  | some true => elementsConvertible (o.desc.extents.take R) conv

/-! ## Lifetime -/

open Mem

/-- `make_pycapsule(handle_heap)`, make_py_capsule.hpp:73-77: a new shared handle on the heap (variable `d`), owned by the
Python object; `delete_pycapsule` (63-68) destroys it when the Python object dies (`HOp.destroy d`). -/
def capsule {V : Type} (d s : Nat) : HOp V := .share d s

/-- `handle_borrowed`, handle.hpp:517-553, as far as it matters here: the parent (the variable that holds the array's
handle), the block its data pointer points into. -/
structure Borrowed where
  parent : Option Nat
  data : Option Nat
deriving DecidableEq, Repr

/-- `handle_borrowed(H const &x)` from the heap handle in variable `s`, handle.hpp:533-538. -/
def borrow {V : Type} (p : Prog V) (s : Nat) : Option Borrowed :=
  match p.var s with
  | some (.heap b _ _) => some ⟨some s, b⟩
  | _ => none

/-- `handle_borrowed(H const &x)` from another type of handle (a slice of a view), handle.hpp:533-538: no parent. -/
def reborrow (b : Borrowed) : Borrowed := ⟨none, b.data⟩

/-- `make_pycapsule(handle_borrowed)`, make_py_capsule.hpp:79-85: an error without parent, otherwise the capsule of the
parent, whatever the parent holds now. -/
def capsuleView {V : Type} (d : Nat) (b : Borrowed) : Option (HOp V) :=
  match b.parent with
  | none => none
  | some s => some (.share d s)

end Nda.Python
