import Verif.Model.Algorithms
import Verif.Model.Assign
/-!
# Model of `c++/nda/gtest_tools.hpp`: the comparisons used by the tests

An array is its shape and its element access; `X`, `Y` are the types of the elements, `R` that of their magnitudes.
A result is `true` for `AssertionSuccess`; `none`: access outside memory.
-/
namespace Nda.TestTools
open Nda

variable {X Y R : Type}

/-- `size()`: number of elements. -/
def size (len : List Int) : Int := len.foldl (· * ·) 1

/-- `complex_are_close`, gtest_tools.hpp:36-42; `dist x y` is `abs(x - y)`. -/
def complexAreClose (lt : R → R → Bool) (dist : X → Y → R) (precision : R) (x : X) (y : Y) : Bool := lt (dist x y) precision

/-- `array_are_equal`, gtest_tools.hpp:48-56. -/
def arrayAreEqual (eq : X → Y → Bool) (lenX lenY : List Int) (x : List Int → Option X) (y : List Int → Option Y) : Option Bool :=
  if lenX ≠ lenY then some false else Assign.arrayEq eq lenX lenY x y

/-- `array_are_close`, gtest_tools.hpp:63-80.  Both arrays are first copied into arrays of the element type of `x1` (64-65); `conv` is
the conversion of the elements of `y1`.  (The copies have the elements of the originals, C17 and C22.) -/
def arrayAreClose (lt : R → R → Bool) (conv : Y → X) (sub : X → X → X) (abs : X → R) (precision : R) (lenX lenY : List Int) (x : List Int → Option X)
    (y : List Int → Option Y) : Option Bool :=
  if lenX ≠ lenY then some false
  else if size lenX = 0 then some true
  else do
    let maxdiff ← Algorithms.maxElement lt lenX (fun idx => do let a ← x idx; let b ← y idx; return abs (sub a (conv b)))
    return lt maxdiff precision

/-- `array_almost_zero`, gtest_tools.hpp:86-94. -/
def arrayAlmostZero (lt : R → R → Bool) (abs : X → R) (precision : R) (len : List Int) (x : List Int → Option X) : Option Bool :=
  if size len = 0 then some true
  else do
    let m ← Algorithms.maxElement lt len (fun idx => do let a ← x idx; return abs a)
    return lt m precision

/-- `generic_are_near`, gtest_tools.hpp:99-105. -/
def genericAreNear (lt : R → R → Bool) (dist : X → Y → R) (precision : R) (x : X) (y : Y) : Bool :=
  if lt precision (dist x y) then false else true

end Nda.TestTools
