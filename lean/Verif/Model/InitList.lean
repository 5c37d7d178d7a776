import Verif.Model.Arrays
/-!
# Model of the construction of arrays from nested brace lists (`c++/nda/basic_array.hpp:189-239`)
-/
namespace Nda.Arr
open Nda Nda.Mem

variable {V : Type}

/-- What can go wrong: an `EXPECTS` fails (only with checks enabled; the program stops), or the behaviour is undefined. -/
inductive Err where
  | rejected
  | ub
deriving DecidableEq, Repr

/-- Errors of the abstract memory are undefined behaviour. -/
def orUb {α : Type} : Option α → Except Err α
  | some a => .ok a
  | none => .error .ub

/-- The loop of `std::minmax_element` of libstdc++ (bits/stl_algo.h, `__minmax_element`; external code), which takes
the elements in pairs.  The iterators `__min`, `__max` are modelled by the elements they point to. -/
def minmaxLoop {α : Type} (cmp : α → α → Except Err Bool) : List α → α → α → Except Err (α × α)
  | [], mn, mx => .ok (mn, mx)
  | [f], mn, mx => do
      if ← cmp f mn then return (f, mx)
      else if ← cmp f mx then return (mn, mx)
      else return (mn, f)
  | f :: n :: l, mn, mx => do
      if ← cmp n f then
        let c1 ← cmp n mn
        let c2 ← cmp f mx
        minmaxLoop cmp l (if c1 then n else mn) (if c2 then mx else f)
      else
        let c1 ← cmp f mn
        let c2 ← cmp n mx
        minmaxLoop cmp l (if c1 then f else mn) (if c2 then mx else n)

/-- `std::minmax_element` of libstdc++, with both results dereferenced (undefined for an empty list). -/
def minmaxElement {α : Type} (cmp : α → α → Except Err Bool) : List α → Except Err (α × α)
  | [] => .error .ub
  | [x] => .ok (x, x)
  | x :: y :: l => do
      if ← cmp y x then minmaxLoop cmp l y x else minmaxLoop cmp l x y

/-- `shape_from_init_list(std::initializer_list<ValueType>)`, basic_array.hpp:190. -/
def shape1 (l : List V) : Except Err (List Int) := .ok [(l.length : Int)]

/-- `shape_from_init_list(std::initializer_list<L>)`, basic_array.hpp:192-198; `sh`: the overload for `L`; the "order" given
to `minmax_element` is equality of shapes.  `checks`: `EXPECTS` is compiled in. -/
def shapeList {L : Type} (checks : Bool) (sh : L → Except Err (List Int)) (l : List L) : Except Err (List Int) := do
  let (mn, mx) ← minmaxElement (fun x y => do return (← sh x) == (← sh y)) l
  if checks then
    if (← sh mn) == (← sh mx) then return (l.length : Int) :: (← sh mx) else .error .rejected
  else return (l.length : Int) :: (← sh mx)

/-- `for (auto const &x : l) { body(i, x); ++i; }`. -/
def forIn {α σ : Type} (body : Int → α → σ → Option σ) : List α → Int → σ → Option σ
  | [], _, s => some s
  | x :: xs, i, s => do
      let s ← body i x s
      forIn body xs (i + 1) s

/-- `new (sto.data() + lay(idx...)) ValueType{x}`. -/
def placeNew (triv : Bool) (m : IdxMap) (data : Option Nat) (idx : List Int) (x : V) (hp : Heap V) : Option (Heap V) := do
  let b ← data
  let k ← m.call (idx.map .idx)
  if k < 0 then none else hp.construct triv b k.toNat x

/-- The loop over the innermost list, basic_array.hpp:210, 220, 233. -/
def place1 (triv : Bool) (m : IdxMap) (data : Option Nat) (pre : List Int) (l : List V) (hp : Heap V) : Option (Heap V) :=
  forIn (fun k x hp => placeNew triv m data (pre ++ [k]) x hp) l 0 hp

/-- The two inner loops, basic_array.hpp:219-223, 232-236. -/
def place2 (triv : Bool) (m : IdxMap) (data : Option Nat) (pre : List Int) (l : List (List V)) (hp : Heap V) : Option (Heap V) :=
  forIn (fun j l1 hp => place1 triv m data (pre ++ [j]) l1 hp) l 0 hp

/-- The three loops, basic_array.hpp:231-239. -/
def place3 (triv : Bool) (m : IdxMap) (data : Option Nat) (l : List (List (List V))) (hp : Heap V) : Option (Heap V) :=
  forIn (fun i l2 hp => place2 triv m data [i] l2 hp) l 0 hp

/-- `lay(shape), sto{lay.size(), mem::do_not_initialize}` and the loops `place` over the list. -/
def initWith (so : List Nat) (shape : List Int) (place : IdxMap → Option Nat → Heap V → Option (Heap V)) (mem : Mem V) :
    Option (IdxMap × Handle × Mem V) := do
  let m ← layoutOf so shape
  if m.size < 0 then none
  else if m.size = 0 then do
    let hp ← place m none mem.hp
    return (m, Handle.null, { mem with hp := hp })
  else do
    let (b, hp) := mem.hp.alloc m.size.toNat
    let hp ← place m (some b) hp
    return (m, .heap (some b) m.size.toNat none, { mem with hp := hp })

/-- The constructor of arrays of rank 1, basic_array.hpp:201-211. -/
def init1 (triv : Bool) (so : List Nat) (l : List V) (mem : Mem V) : Except Err (IdxMap × Handle × Mem V) :=
  orUb (initWith so [(l.length : Int)] (fun m b hp => place1 triv m b [] l hp) mem)

/-- The constructor of arrays of rank 2, basic_array.hpp:214-224. -/
def init2 (triv checks : Bool) (so : List Nat) (l : List (List V)) (mem : Mem V) : Except Err (IdxMap × Handle × Mem V) := do
  let shape ← shapeList checks shape1 l
  orUb (initWith so shape (fun m b hp => place2 triv m b [] l hp) mem)

/-- The constructor of arrays of rank 3, basic_array.hpp:227-240. -/
def init3 (triv checks : Bool) (so : List Nat) (l : List (List (List V))) (mem : Mem V) : Except Err (IdxMap × Handle × Mem V) := do
  let shape ← shapeList checks (shapeList checks shape1) l
  orUb (initWith so shape (fun m b hp => place3 triv m b l hp) mem)

/-- Array `d` becomes the result of a constructor. -/
def AProg.put (p : AProg V) (d : Nat) (r : IdxMap × Handle × Mem V) : AProg V :=
  ⟨{ p.prog with mem := r.2.2 }.setVar d (some r.2.1), p.lays.set d r.1⟩

end Nda.Arr
