import Verif.Model.Arrays
import Verif.Model.LayoutTransforms
/-!
# Emptiness tests

`empty()` and `is_empty()` of arrays and views (_impl_basic_array_view_common.hpp:54-58) are documented as `size() == 0` but test
the storage pointer.  Heap storage as in `Handles` and `Arrays`; a view holds a borrowed handle, a pointer into the
storage of an array.
-/
namespace Nda.Empty
open Nda Nda.Mem Nda.Arr

/-- `handle_heap::is_null`, handle.hpp:208-214, and `handle_shared::is_null`, handle.hpp:499-505: the pointer is null.  (The
check of `_size == 0` under `NDA_DEBUG` is a consequence, `C82_array_partial`.) -/
def isNull (h : Handle) : Bool := h.data.isNone

/-- `empty()` of the array in variable `d`, _impl_basic_array_view_common.hpp:55. -/
def empty {V : Type} (p : AProg V) (d : Nat) : Option Bool := (p.prog.var d).map isNull

/-- `size()` of the array in variable `d`, _impl_basic_array_view_common.hpp:49. -/
def size {V : Type} (p : AProg V) (d : Nat) : Option Int := (p.lays[d]?).map IdxMap.size

/-- `handle_borrowed::is_null`, handle.hpp:549, in `empty()` of a view (_impl_basic_array_view_common.hpp:55) of an array with the storage
pointer `data`.  The pointer of the view is `x.data() + offset`, handle.hpp:536 (`v.off`, the sum of the offsets of the
slices, _impl_basic_array_view_common.hpp:157-170): never null if `data` is not, and undefined if `data` is null and the offset is not zero (simplified: only
the sum of the offsets of a chain of slices is looked at). -/
def viewEmpty (data : Option Nat) (v : View) : Option Bool :=
  if data.isNone && decide (v.off ≠ 0) then none else some data.isNone

/-- `auto v = a(...)(...)`, then `v.empty()` and `v.size()`: the full view of the array in variable `d` (basic_array_view.hpp:106-118 and
_impl_basic_array_view_common.hpp:136-138) and a chain of view operations. -/
def testView {V : Type} (p : AProg V) (d : Nat) (os : List LayoutTransforms.Op) : Option (Bool × Int) := do
  let m ← p.lays[d]?
  let h ← p.prog.var d
  let v ← LayoutTransforms.run ⟨0, m⟩ os
  let b ← viewEmpty h.data v
  return (b, v.lay.size)

end Nda.Empty
