import Verif.Model.ExprSlice
import Verif.Spec.Arithmetic
import Verif.Spec.Slice
/-!
# Slices of expressions: what is asked
-/
namespace Nda.Arith.Spec
open Nda Nda.Spec Nda.Arith

variable {α : Type}

/-- Everything in the expression has shape `len`. -/
def Shaped (len : List Int) : Expr α → Prop
  | .arr _ v => v.lay.len = len
  | .fn _ l _ => l = len
  | .neg e => Shaped len e
  | .bin _ l r => Shaped len l ∧ Shaped len r
  | .scalL _ _ r => Shaped len r
  | .scalR _ l _ => Shaped len l
  | .call _ _ es => ∀ i, Shaped len (es i)

/-- The types of the arrays in the expression are allowed (basic_array.hpp:38-40, basic_array_view.hpp:47-49): matrices have rank 2, vectors
rank 1. -/
def Typed : Expr α → Prop
  | .arr a v => a ≠ .N ∧ (a = .M → v.lay.len.length = 2) ∧ (a = .V → v.lay.len.length = 1)
  | .fn a _ _ => a = .A
  | .neg e => Typed e
  | .bin _ l r => Typed l ∧ Typed r
  | .scalL _ _ r => Typed r
  | .scalR _ l _ => Typed l
  | .call _ _ es => ∀ i, Typed (es i)

/-- No scalar is added to or subtracted from (or minus) something of matrix algebra, and there is no array given by a function. -/
def Sliceable : Expr α → Prop
  | .arr _ _ => True
  | .fn _ _ _ => False
  | .neg e => Sliceable e
  | .bin _ l r => Sliceable l ∧ Sliceable r
  | .scalL op _ r => Sliceable r ∧ (op = .add ∨ op = .sub → r.alg ≠ .M)
  | .scalR op l _ => Sliceable l ∧ (op = .add ∨ op = .sub → l.alg ≠ .M)
  | .call _ _ es => ∀ i, Sliceable (es i)

/-- The argument stands for a dimension of the result. -/
def keeps : Arg → Bool
  | .idx _ => false
  | _ => true

/-- `args` are arguments for an array of shape `len` that leave at least one dimension; the slice has shape `ext`. -/
structure SliceOf (len : List Int) (args : List Arg) (ext : List Int) : Prop where
  rank : len.length ≤ 128
  fits : Fits len.length args
  steps : ∀ f l s, Arg.rng f l s ∈ args → s ≠ 0
  keep : (expand len.length args).any keeps = true
  shape : SliceShape (expand len.length args) len ext

/-- A slice of a slice of ..., each inside of the one before. -/
def SlicesOf : List Int → List (List Arg) → List Int → Prop
  | len, [], ext => ext = len
  | len, a :: as, ext => ∃ mid, SliceOf len a mid ∧ Inside (expand len.length a) len ∧ SlicesOf mid as ext

/-- The coordinates, in an array of rank `n`, of element `p` of a slice of a slice of ... -/
def coordsAll : Nat → List (List Arg) → List Int → List Int
  | _, [], p => p
  | n, a :: as, p => coords (expand n a) (coordsAll ((expand n a).countP keeps) as p)

end Nda.Arith.Spec
