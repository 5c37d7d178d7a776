import Verif.Model.RectStr
/-!
# Model of the comparison of layouts with labels (`c++/nda/layout/rect_str.hpp`)
-/
namespace Nda.RectStr
open Nda

/-- `operator==`, rect_str.hpp:182: the base index maps are equal and the labels are not both there or equal. -/
def equal (a b : RectStr) : Bool :=
  IdxMap.beq a.lay b.lay &&
    match a.ind, b.ind with
    | some l, some l' => decide (l = l')
    | _, _ => true

/-- `operator!=`, rect_str.hpp:183. -/
def notEqual (a b : RectStr) : Bool := !equal a b

end Nda.RectStr
