import Verif.Model.Python
import Verif.Model.Arrays
/-!
# Model of the conversion of Python objects to arrays by value (`python/nda_py/cpp2py_converters.hpp:94-190`)

Python objects are of a type `P`, elements of type `V`.  What Python and numpy do is a parameter.
-/
namespace Nda.Python
open Nda LayoutTransforms

variable {P V : Type}

/-- What the converters ask of Python, numpy and cpp2py (all external):
`numpy`: `PyArray_Check`, `PyArray_TYPE` and the description of the array (`make_numpy_proxy`);
`fromAny`: `make_numpy`, cpp2py_converters.hpp:117-119 (`PyArray_FromAny` with the wanted type, rank `R`, C order and a copy), `none` if Python reports an error;
`load`: the element at an address (in bytes);
`getItem`: `PyObject_GetItem` with a tuple of indices;
`convertible`, `convert`: `py_converter<T>`. -/
structure World (P V : Type) where
  numpy : P → Option (Nat × Proxy)
  fromAny : P → Option P
  load : Int → Option V
  getItem : P → List Int → P
  convertible : P → Bool
  convert : P → Option V

/-- The object as `Model/Python.lean` describes it. -/
def World.obj (w : World P V) (o : P) : Obj :=
  match w.numpy o with
  | some (t, p) => ⟨true, t, p⟩
  | none => ⟨false, 0, ⟨0, false, [], []⟩⟩

/-- The condition of cpp2py_converters.hpp:123, 166: not a numpy array, or `has_npy_type<T>` and of another type. -/
def World.toBeMade (w : World P V) (has : Bool) (npy : Nat) (o : P) : Bool :=
  match w.numpy o with
  | none => true
  | some (t, _) => has && decide (t ≠ npy)

/-- `py_converter<basic_array>::is_convertible`, cpp2py_converters.hpp:121-160; `has` is `has_npy_type<T>`, `npy` is `npy_type<T>`, `npyObj` is `npy_type<PyObject *>`.  The function calls
itself (129): `fuel` bounds the number of calls; `none`: it is used up. -/
def arrayIsConvertible (w : World P V) (has : Bool) (npy npyObj R : Nat) : Nat → P → Option Bool
  | 0, _ => none
  | fuel + 1, o =>
      if w.toBeMade has npy o then
        match w.fromAny o with
        | none => some false
        | some q => arrayIsConvertible w has npy npyObj R fuel q
      else if has then viewConvertible R npy (List.range R) false false (w.obj o)
      else arrayConvertible R npyObj (fun idx => w.convertible (w.getItem o idx)) (w.obj o)

/-- The view that `converter_view_T::py2c` makes (75-87), as an operand of the constructor of the array: shape and elements. -/
def World.viewElements (w : World P V) (size R : Nat) (o : P) : Option (List Int × (List Int → Option V)) :=
  match w.numpy o with
  | none => none
  | some (_, p) =>
      let (b, v) := viewFromPython R size p
      some (v.lay.len, fun idx => do
        let k ← element v (idx.map .idx)
        w.load (b + size * k))

/-- `py_converter<basic_array>::py2c`, cpp2py_converters.hpp:164-190: shape and elements of the view or adapter from which the array is constructed (`basic_array(A const &)`: `AOp.build` of
Model/Arrays); `size` is `sizeof(T)`. -/
def arrayFromPython (w : World P V) (has : Bool) (npy size R : Nat) : Nat → P → Option (List Int × (List Int → Option V))
  | 0, _ => none
  | fuel + 1, o =>
      if w.toBeMade has npy o then
        match w.fromAny o with
        | none => none
        | some q => arrayFromPython w has npy size R fuel q
      else if has then
        match checkLayout R (List.range R) (w.obj o) with
        | none => none
        | some false =>
            match w.fromAny o with
            | none => none
            | some q => w.viewElements size R q
        | some true => w.viewElements size R o
      else some ((w.obj o).desc.extents.take R, fun idx => w.convert (w.getItem o idx))

end Nda.Python
