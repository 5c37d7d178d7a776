import Verif.Model.Assign
import Verif.Model.Arithmetic
/-!
# Model of views of memory that is not an array: pointers, `std::array` and contiguous ranges (`c++/nda/basic_array_view.hpp`), and of comparison with and assignment from such ranges

A container is its first address and its number of elements; its elements are in the same memory as everything else.
-/
namespace Nda.Containers
open Nda LayoutTransforms Assign Loops Arith

variable {α : Type}

/-- `basic_array_view(std::array<long, Rank> const &shape, ValueType *p)`, basic_array_view.hpp:128, for the stride order `so` and the promises of a contiguous layout; the layout
with dynamic extents is that of idx_map.hpp:293-297. -/
def viewOfPtr (so : List Nat) (shape : List Int) (p : Int) : Option View := (IdxMap.ofShape shape so (List.replicate so.length 0) .contiguous).map (View.mk p)

/-- A container with contiguous elements. -/
structure Container where
  ptr : Int
  size : Nat
deriving DecidableEq, Repr

/-- `basic_array_view(R &r)`, basic_array_view.hpp:171-174, with the deduced type (293-294: rank 1, `C_layout`); the same for `std::array` (149-162), up to the static extent that
is deduced for it (283-290). -/
def viewOfRange (r : Container) : Option View := viewOfPtr [0] [(r.size : Int)] r.ptr

/-- `operator==(A const &a, R const &r)`, basic_functions.hpp:304-306, where `a` has rank 1 and any element access. -/
def equalRange (eq : α → α → Bool) (lenA : List Int) (getA : List Int → Option α) (r : Container) (mem : List α) : Option Bool := do
  let v ← viewOfRange r
  arrayEq eq lenA v.lay.len getA (fun idx => load v idx mem)

/-- `operator==(R const &r, A const &a)`, basic_functions.hpp:309-311: the arguments are exchanged. -/
def rangeEqual (eq : α → α → Bool) (r : Container) (lenA : List Int) (getA : List Int → Option α) (mem : List α) : Option Bool := equalRange eq lenA getA r mem

/-- `operator=(R const &rhs)` of views, _impl_basic_array_view_common.hpp:321-327 (`null`: the range has no memory, then its size is 0). -/
def assignRange (a : View) (r : Container) (null : Bool) (mem : List α) : Option (Option (List α)) := do
  let v ← viewOfRange r
  assign .host .host true a (.inMem v null) mem

/-- `size()` of an expression: arithmetic.hpp:44 (unary minus), 90-99 (binary; the comparison of the sizes is a debug check); arrays have that of their layout
(_impl_basic_array_view_common.hpp:49), adapters the product of the extents (array_adapter.hpp:41).  `expr_call::size()`, map.hpp:84, asks a `std::tuple` for its `size()`, which does not
compile (`none`). -/
def exprSize : Expr α → Option Int
  | .arr _ v => some v.lay.size
  | .fn _ len _ => some (len.foldl (· * ·) 1)
  | .neg e => exprSize e
  | .bin _ l _ => exprSize l
  | .scalL _ _ r => exprSize r
  | .scalR _ l _ => exprSize l
  | .call _ _ _ => none

/-- `mem::memset`, memset.hpp:29-37, on the host: `n` bytes from `p` on (the CUDA call of the device version is assumed to do the same). -/
def memset (p : Int) (x : α) (n : Nat) (mem : List α) : Option (List α) := (List.range n).foldlM (fun mem k => wrInt mem (p + Int.ofNat k) x) mem

/-- `mem::memset2D`, memset.hpp:41-51, on the host.  The arguments are `size_t`. -/
def memset2D (ptr : Int) (pitch : Nat) (x : α) (width height : Nat) (mem : List α) : Option (List α) :=
  ((List.range height).foldlM (fun (s : Int × List α) _ => do
    let mem ← memset s.1 x width s.2
    return (s.1 + pitch, mem)) (ptr, mem)).map Prod.snd

end Nda.Containers
