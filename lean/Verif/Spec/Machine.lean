import Verif.Spec.Views
import Mathlib.Algebra.Order.Ring.Int
import Mathlib.Algebra.Order.Group.Abs
/-!
# Layouts small enough for 64-bit arithmetic
-/
namespace Nda.Spec
open Nda LayoutTransforms

/-- The product of the extents, with empty dimensions counted as one. -/
def volume (len : List Int) : Int := prod (len.map (max · 1))

/-- The distance between the first and the last address (signs of strides do not matter, empty dimensions are counted as one). -/
def extentOf : List Int → List Int → Int
  | l :: ls, s :: ss => (max l 1 - 1) * |s| + extentOf ls ss
  | _, _ => 0

/-- Extents, strides and addresses are bounded by `B`. -/
structure Small (B : Int) (len str : List Int) : Prop where
  same : str.length = len.length
  nonneg : NonNeg len
  volume : volume len ≤ B
  extent : extentOf len str ≤ B
  stride : ∀ s ∈ str, |s| ≤ B

/-- The range starts at an index of the dimension, next to its end or next to its beginning, and its step does not exceed the dimension. -/
def ModestArg : Arg → Int → Prop
  | .rng f _ st, l => (-1 ≤ f ∧ f ≤ l) ∧ (|st| ≤ 1 ∨ |st| < l)
  | _, _ => True

/-- `ModestArg` for each argument (ellipsis expanded). -/
def ModestArgs : List Arg → List Int → Prop
  | [], [] => True
  | a :: as, l :: ls => ModestArg a l ∧ ModestArgs as ls
  | _, _ => False

/-- A view operation with modest ranges; ranks are below 16 (idx_map.hpp:81). -/
def Modest (len : List Int) : Op → Prop
  | .slice args => len.length < 16 ∧ ModestArgs (expand len.length args) len
  | _ => True

/-- Every operation of the chain is modest on the shape it meets. -/
def ChainModest : List Int → List Op → Prop
  | _, [] => True
  | len, o :: os => Modest len o ∧ ∀ len', ShapeAfter len o len' → ChainModest len' os

/-- The largest bound used: sixteen times it is still a `long`. -/
def bound : Int := 576460752303423487

end Nda.Spec
