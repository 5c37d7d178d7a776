import Verif.Model.LayoutTransforms
import Verif.Spec.Slice
/-!
# Specification of chains of view operations, on shapes and index tuples only
-/
namespace Nda.Spec
open Nda LayoutTransforms

/-- The shape after a view operation. -/
def ShapeAfter (len : List Int) (o : Op) (len' : List Int) : Prop :=
  match o with
  | .slice args => SliceShape (expand len.length args) len len'
  | .permute p => len'.length = len.length ∧ memOrder p len' = len
  | .addFast n => len' = len ++ List.replicate n 1

/-- The operation is allowed on an array of shape `len`: slice arguments match the rank and
stay inside, an index permutation is a permutation.  The bound 128 on the rank is the
sentinel of slice_static.hpp:86; the code limits ranks to 15 at compile time. -/
def Allowed (len : List Int) : Op → Prop
  | .slice args => len.length ≤ 128 ∧ Fits len.length args ∧ Inside (expand len.length args) len
  | .permute p => IsPerm p ∧ p.length = len.length
  | .addFast _ => True

/-- Every operation of the chain is allowed on the shape it meets. -/
def ChainAllowed : List Int → List Op → Prop
  | _, [] => True
  | len, o :: os => Allowed len o ∧ ∀ len', ShapeAfter len o len' → ChainAllowed len' os

/-- The shape after a chain of view operations. -/
def ChainShape : List Int → List Op → List Int → Prop
  | len, [], ext => ext = len
  | len, o :: os, ext => ∃ mid, ShapeAfter len o mid ∧ ChainShape mid os ext

/-- Index tuple before the operation that element `idx` of the result comes from; `N` is the
rank before the operation. -/
def source (N : Nat) : Op → List Int → List Int
  | .slice args, idx => coords (expand N args) idx
  | .permute p, idx => memOrder p idx
  | .addFast _, idx => idx.take N

/-- Rank after the operation. -/
def rankAfter (N : Nat) : Op → Nat
  | .slice args => (expand N args).countP Slice.isRange
  | .permute _ => N
  | .addFast n => N + n

/-- Index tuple of the first array that element `idx` of the final view comes from. -/
def sourceChain : Nat → List Op → List Int → List Int
  | _, [], idx => idx
  | N, o :: os, idx => source N o (sourceChain (rankAfter N o) os idx)

/-- The layout class survives the addition of unit fast dimensions: contiguous, or no promise
about even spacing. -/
def FastDimsOK (prop : LayoutProp) : Prop := prop.strided1d = true → prop.smallestOne = true

/-- Along the chain, unit fast dimensions are only added to layouts whose class survives. -/
def FastDimsChain : View → List Op → Prop
  | _, [] => True
  | v, o :: os => (∀ n, o = .addFast n → FastDimsOK v.lay.prop) ∧ ∀ v', step v o = some v' → FastDimsChain v' os

end Nda.Spec
