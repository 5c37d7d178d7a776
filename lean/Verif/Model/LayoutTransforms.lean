import Verif.Model.Slice
/-!
# Model of `c++/nda/layout_transforms.hpp` (layout part)

`map_layout_transform` (25-40) keeps the storage (data pointer offset) and installs the new
layout; a view is modelled by its offset into the parent storage and its layout.
-/
namespace Nda

/-- A view: offset of its data pointer in the parent storage, and its layout. -/
structure View where
  off : Int
  lay : IdxMap
deriving DecidableEq, Repr

namespace LayoutTransforms

/-- `impl::complete_stride_order_with_fast<N>`, layout_transforms.hpp:123-129. -/
def completeOrder (so : List Nat) (n : Nat) : List Nat :=
  so ++ (List.range n).map (fun i => so.length + i)

/-- `reinterpret_add_fast_dims_of_size_one<N>`, layout_transforms.hpp:133-151: lengths and
strides are both extended by ones, the layout flags are kept. -/
def addFastDims (m : IdxMap) (n : Nat) : IdxMap :=
  { len := m.len ++ List.replicate n 1
    str := m.str ++ List.replicate n 1
    so := completeOrder m.so n
    se := m.se ++ List.replicate n 0
    prop := m.prop }

/-- Layout policies, c++/nda/layout/policies.hpp:23-71. -/
inductive Policy where
  | C | F | Cstride | Fstride
  | basic (se : List Nat) (so : List Nat) (prop : LayoutProp)
deriving DecidableEq, Repr

/-- `layout_to_policy`, policies.hpp:78-94: the C-ordered maps without static extents become
`C_layout` (contiguous) or `C_stride_layout` (none); everything else stays a `basic_layout`. -/
def policyOf (m : IdxMap) : Policy :=
  if m.so = Perm.identity m.rank ∧ m.se = List.replicate m.rank 0 ∧ m.prop = .contiguous then .C
  else if m.so = Perm.identity m.rank ∧ m.se = List.replicate m.rank 0 ∧ m.prop = .none then .Cstride
  else .basic m.se m.so m.prop

/-- Re-decoding an encoded tuple at another rank: missing nibbles are zero, surplus ones are
cut off (`decode<newRank>(encode(..))`, permutation.hpp:36-48; entries below 16). -/
def redecode (r : Nat) (l : List Nat) : List Nat := (l ++ List.replicate r 0).take r

/-- `Policy::mapping<newRank>` constructed from a shape, policies.hpp:24,32,40,48,57 with
idx_map.hpp:293-297.  For `basic_layout` the encoded stride order of the *old* rank is
reinterpreted at the new rank; the encoded value 0 is rejected unless the rank is 1
(idx_map.hpp:82). -/
def ofPolicy (p : Policy) (len : List Int) : Option IdxMap :=
  let r := len.length
  match p with
  | .C => IdxMap.ofShape len (Perm.identity r) (List.replicate r 0) .contiguous
  | .F => IdxMap.ofShape len (Perm.reverseIdentity r) (List.replicate r 0) .contiguous
  | .Cstride => IdxMap.ofShape len (Perm.identity r) (List.replicate r 0) .none
  | .Fstride => IdxMap.ofShape len (Perm.reverseIdentity r) (List.replicate r 0) .none
  | .basic se so prop =>
      if so.all (· == 0) then
        if r = 1 then IdxMap.ofShape len [0] (redecode r se) prop else none
      else IdxMap.ofShape len (redecode r so) (redecode r se) prop

/-- `reshape`, layout_transforms.hpp:44-51, for an array with layout policy `p`.  The two
debug checks (same number of elements, `is_contiguous`) are hypotheses of the theorems. -/
def reshape (p : Policy) (v : View) (newShape : List Int) : Option View := do
  let lay ← ofPolicy p newShape
  return { off := v.off, lay }

/-- `flatten`, layout_transforms.hpp:65-68. -/
def flatten (p : Policy) (v : View) : Option View := reshape p v [v.lay.size]

/-- `permuted_indices_view<Permutation>`, layout_transforms.hpp:72-75. -/
def permuted (v : View) (p : List Nat) : Option View := do
  let lay ← v.lay.transpose p
  return { off := v.off, lay }

/-- `transposed_view<I, J>`, layout_transforms.hpp:102-107. -/
def transposedView (v : View) (i j : Nat) : Option View := do
  let p ← Perm.transposition v.lay.rank i j
  permuted v p

/-- `transpose` of a matrix, layout_transforms.hpp:89-99 (the case of a memory matrix). -/
def transposeMatrix (v : View) : Option View := permuted v [1, 0]

/-- Slicing a view: the call operator with at least one range,
_impl_basic_array_view_common.hpp:153-167: the offset is added to the data pointer. -/
def sliceView (v : View) (args : List Arg) : Option View := do
  let (o, lay) ← Slice.slice v.lay args
  return { off := v.off + o, lay }

/-- Element access with integers, _impl_basic_array_view_common.hpp:143-151: position in the
parent storage. -/
def element (v : View) (args : List IdxMap.CArg) : Option Int := do
  let k ← v.lay.call args
  return v.off + k

/-- Linear element access, _impl_basic_array_view_common.hpp:90-110: only for layouts whose
flag is exactly `strided_1d` or `contiguous` (otherwise a compile-time error). -/
def linear (v : View) (x : Int) : Option Int :=
  if v.lay.prop = .strided then do
    let ms ← v.lay.minStride
    return v.off + x * ms
  else if v.lay.prop = .contiguous then some (v.off + x)
  else none

/-- The view operations a user can chain. -/
inductive Op where
  | slice (args : List Arg)
  | permute (p : List Nat)
  | addFast (n : Nat)
deriving Repr

/-- One view operation. -/
def step (v : View) : Op → Option View
  | .slice args => sliceView v args
  | .permute p => permuted v p
  | .addFast n => some { off := v.off, lay := addFastDims v.lay n }

/-- A finite chain of view operations. -/
def run (v : View) : List Op → Option View
  | [] => some v
  | o :: os => do let v' ← step v o; run v' os

end LayoutTransforms
end Nda
