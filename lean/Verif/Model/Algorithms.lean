import Verif.Model.Loops
/-!
# Model of `c++/nda/algorithms.hpp`

An array is its shape and its element access `get` (`none`: access outside memory).
-/
namespace Nda.Algorithms
open Nda Loops

variable {α ρ : Type}

/-- `fold(f, a, r)`, algorithms.hpp:33-40.  The accumulator has the type of the results of `f`. -/
def fold (f : ρ → α → ρ) (len : List Int) (get : List Int → Option α) (r : ρ) : Option ρ :=
  forEach len (fun idx r2 => do let x ← get idx; return f r2 x) r

/-- `any`, algorithms.hpp:59-63. -/
def any (len : List Int) (get : List Int → Option Bool) : Option Bool := fold (fun r x => r || x) len get false

/-- `all`, algorithms.hpp:67-71. -/
def all (len : List Int) (get : List Int → Option Bool) : Option Bool := fold (fun r x => r && x) len get true

/-- `get_first_element`, traits.hpp:141-150. -/
def firstElement (len : List Int) (get : List Int → Option α) : Option α := get (len.map (fun _ => 0))

/-- `std::max` (external). -/
def stdMax (lt : α → α → Bool) (x y : α) : α := if lt x y then y else x

/-- `std::min` (external). -/
def stdMin (lt : α → α → Bool) (x y : α) : α := if lt y x then y else x

/-- `max_element`, algorithms.hpp:79-87; `lt` is the `<` of the elements. -/
def maxElement (lt : α → α → Bool) (len : List Int) (get : List Int → Option α) : Option α := do
  let r ← firstElement len get
  fold (stdMax lt) len get r

/-- `min_element`, algorithms.hpp:95-103. -/
def minElement (lt : α → α → Bool) (len : List Int) (get : List Int → Option α) : Option α := do
  let r ← firstElement len get
  fold (stdMin lt) len get r

/-- `sum`, algorithms.hpp:131-135, with `fold(f, a)`, 50-53; `zero` is the value-initialised element. -/
def sum (add : ρ → α → ρ) (zero : ρ) (len : List Int) (get : List Int → Option α) : Option ρ := fold add len get zero

/-- `product`, algorithms.hpp:146-150. -/
def product (mul : ρ → α → ρ) (one : ρ) (len : List Int) (get : List Int → Option α) : Option ρ := fold mul len get one

/-- The argument of `sqrt` in `frobenius_norm`, algorithms.hpp:113-119; `abs` is `std::abs`. -/
def frobeniusSq {R : Type} [Add R] [Mul R] [Zero R] (abs : α → R) (len : List Int) (get : List Int → Option α) : Option R :=
  fold (fun r x => let ab := abs x; r + ab * ab) len get 0

end Nda.Algorithms
