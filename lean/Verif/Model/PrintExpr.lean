import Verif.Model.Print
import Verif.Model.Arithmetic
/-!
# Model of the other output operators in `c++/nda/print.hpp`: expressions, adapters, layouts
-/
namespace Nda.Print
open Nda Arith

variable {α : Type}

/-- The template parameter `OP` of `expr`, a character (arithmetic.hpp:194-300). -/
def opChar : BOp → Char
  | .add => '+'
  | .sub => '-'
  | .mul => '*'
  | .div => '/'

/-- `operator<<` for expressions: arrays, print.hpp:47-81; `array_adapter`, 84-87; `expr_unary`, 92-97; `expr`, 99-104 (an operand
that is a scalar is written by the `<<` of its type); `expr_call`, 108-111.
Simplification: all elements and scalars of one expression have the same type. -/
def printExpr (shw : α → List Char) (mem : List α) (fuel : Nat) : Expr α → List Char → Option (List Char)
  | .arr _ v, out => print shw v mem fuel out
  | .fn _ len _, out => some (out ++ "array_adapter of shape".toList ++ arrayToString decimal len)
  | .neg e, out => printExpr shw mem fuel e (out ++ ['-'])
  | .bin op l r, out => do
      let out ← printExpr shw mem fuel l (out ++ ['('])
      let out ← printExpr shw mem fuel r (out ++ [' '] ++ [opChar op] ++ [' '])
      return out ++ [')']
  | .scalL op s r, out => do
      let out := out ++ ['('] ++ shw s
      let out ← printExpr shw mem fuel r (out ++ [' '] ++ [opChar op] ++ [' '])
      return out ++ [')']
  | .scalR op l s, out => do
      let out ← printExpr shw mem fuel l (out ++ ['('])
      return out ++ [' '] ++ [opChar op] ++ [' '] ++ shw s ++ [')']
  | .call _ _ _, out => some (out ++ "mapped".toList)

/-- `operator<<(std::ostream &, layout_prop_e)`, print.hpp:29-32. -/
def printProp (p : LayoutProp) (out : List Char) : List Char :=
  out ++ (if p.hasContiguous then "contiguous   ".toList else [' ']) ++ (if p.strided1d then "strided_1d   ".toList else [' ']) ++
    (if p.smallestOne then "smallest_stride_is_one   ".toList else [' '])

/-- `operator<<(std::ostream &, idx_map)`, print.hpp:35-42; `decode<Rank>(StaticExtents)` and `stride_order` are the lists `se` and `so`. -/
def printLayout (m : IdxMap) (out : List Char) : List Char :=
  printProp m.prop
    (out ++ "  Lengths  : ".toList ++ arrayToString decimal m.len ++ ['\n'] ++
      "  Strides  : ".toList ++ arrayToString decimal m.str ++ ['\n'] ++
      "  StaticExtents  : ".toList ++ arrayToString decimal (m.se.map Int.ofNat) ++ ['\n'] ++
      "  MemoryStrideOrder   : ".toList ++ arrayToString decimal (m.so.map Int.ofNat) ++ ['\n'] ++
      "  Flags   :  ".toList) ++ ['\n']

end Nda.Print
