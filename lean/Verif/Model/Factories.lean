import Verif.Model.Matrix
/-!
# Model of the factories: `zeros`, `ones`, `arange`, `rand` in `c++/nda/basic_functions.hpp` and `c++/nda/basic_array.hpp`

New arrays are put at the end of memory, as in `Model/Matrix.lean`.  Conversions of extents to `long` are not modelled.
-/
namespace Nda.Factories
open Nda LayoutTransforms Assign Loops Arith Matrix

variable {α : Type}

/-- What the free functions return: a scalar for rank 0, else an array. -/
inductive Made (α : Type) where
  | scalar (x : α)
  | array (v : View)
deriving DecidableEq

/-- `basic_array::zeros`, basic_array.hpp:274-288. -/
def zeros (zero : α) (so : List Nat) (len : List Int) (mem : List α) : Option (View × List α) := fresh zero so len mem

/-- `nda::zeros`, basic_functions.hpp:29-46 (arrays are in C order). -/
def ndaZeros (zero : α) (len : List Int) (mem : List α) : Option (Made α × List α) :=
  match len with
  | [] => some (.scalar zero, mem)
  | _ => (zeros zero (List.range len.length) len mem).map (fun r => (.array r.1, r.2))

/-- `nda::ones`, basic_functions.hpp:53-67. -/
def ndaOnes (junk zero one : α) (len : List Int) (mem : List α) : Option (Made α × List α) :=
  match len with
  | [] => some (.scalar one, mem)
  | _ => (ones .A junk zero one (List.range len.length) len mem).map (fun r => (.array r.1, r.2))

/-- The range-for over a new array `a` that assigns to every element the next value of a sequence: `draw s` is the value and the next state. -/
def fillFrom {σ : Type} (draw : σ → α × σ) (a : View) (s : σ) (mem : List α) : Option (σ × List α) := do
  let b ← a.lay.makeIterator false
  let e ← a.lay.makeIterator true
  Grid.rangeFor (fun o (st : σ × List α) => do
    let mem ← wrInt st.2 (a.off + o) (draw st.1).1
    return ((draw st.1).2, mem)) e (a.lay.size.toNat + 1) b (s, mem)

/-- `arange(first, last, step)`, basic_functions.hpp:75-81: `zip` of the array and the range `first, first + step, ...` (external: `itertools`), which are equally long.
`conv` is the conversion from `long` to the element type. -/
def arange (conv : Int → α) (junk : α) (first last step : Int) (mem : List α) : Option (View × List α) := do
  let n ← rangeSize first last step
  let (a, mem) ← fresh junk [0] [n] mem
  let (_, mem) ← fillFrom (fun v => (conv v, v + step)) a first mem
  return (a, mem)

/-- `arange(last)`, basic_functions.hpp:83-86. -/
def arangeTo (conv : Int → α) (junk : α) (last : Int) (mem : List α) : Option (View × List α) := arange conv junk 0 last 1 mem

/-- One element of a real type, basic_array.hpp:322: `g` is the stream of samples of the generator (external), `s` the number of samples used so far. -/
def drawReal {δ : Type} (conv : δ → α) (g : Nat → δ) (s : Nat) : α × Nat := (conv (g s), s + 1)

/-- One element of a complex type, basic_array.hpp:320: the order in which the operands of `+` are evaluated is not specified (`rightFirst`). -/
def drawComplex {δ : Type} (cplx : δ → δ → α) (rightFirst : Bool) (g : Nat → δ) (s : Nat) : α × Nat :=
  (if rightFirst then cplx (g (s + 1)) (g s) else cplx (g s) (g (s + 1)), s + 2)

/-- `basic_array::rand`, basic_array.hpp:308-334. -/
def rand (draw : Nat → α × Nat) (junk : α) (so : List Nat) (len : List Int) (s : Nat) (mem : List α) : Option (View × Nat × List α) := do
  let (a, mem) ← fresh junk so len mem
  let (s, mem) ← fillFrom draw a s mem
  return (a, s, mem)

/-- The static generators: those of `array<T, R>::rand`, one for every rank `R`, seeded by `std::random_device`, and that of rank 0, which is not seeded: how many samples have been used.
(There is one more for every element type and type of the extents; one of each is modelled.) -/
structure Gens where
  array : Nat → Nat
  scalar : Nat

/-- `nda::rand`, basic_functions.hpp:94-112: `g R` is the stream of the generator for rank `R`, `g0` that of a generator with the default seed. -/
def ndaRand (g : Nat → Nat → α) (g0 : Nat → α) (junk : α) (len : List Int) (s : Gens) (mem : List α) : Option (Made α × Gens × List α) :=
  match len with
  | [] => some (.scalar (g0 s.scalar), { s with scalar := s.scalar + 1 }, mem)
  | _ => (rand (drawReal id (g len.length)) junk (List.range len.length) len (s.array len.length) mem).map
      (fun r => (.array r.1, { s with array := fun R => if R = len.length then r.2.1 else s.array R }, r.2.2))

end Nda.Factories
