/-!
# Which objects give write access to elements

Only the const qualifiers of the types are modelled, and which array an object refers to: not the shapes, layouts and positions.  Objects are named (lvalues).  A result of `none` means that the
program does not compile (or that there is no such object).
-/
namespace Nda.Constness

variable {α : Type}

/-- An object that gives access to elements. -/
inductive Obj where
  /-- a `basic_array` (never of const elements, basic_array.hpp:37), or a reference to one; `const`: the object is const -/
  | arr (const : Bool)
  /-- a `basic_array_view`; `const`: the object is const; `elem`: `ValueType` is const -/
  | view (const elem : Bool)
  /-- a reference to an element; `elem`: to a const one -/
  | ref (elem : Bool)
deriving DecidableEq, Repr

/-- How an object is obtained from another one. -/
inductive Op where
  /-- `a()`, _impl_basic_array_view_common.hpp:130, 135-137 -/
  | full
  /-- `a(range, ...)`, _impl_basic_array_view_common.hpp:154-168 -/
  | slice
  /-- `a(i, j, ...)` or `a[i]`, _impl_basic_array_view_common.hpp:146-150 (accessors.hpp:26-36; handle.hpp:217, 239, 317: `data()` is not const for const handles) -/
  | elem
  /-- access to elements by linear index, _impl_basic_array_view_common.hpp:90-109 (handle.hpp:205-206, 241-242, 319-320, 538-539) -/
  | linear
  /-- the element that an iterator is at, _impl_basic_array_view_common.hpp:243-277, iterators.hpp:153, 192 -/
  | iterate
  /-- `basic_array_view{a}` with deduction of the type, basic_array_view.hpp:276-280; also `get_view_t` -/
  | deduce
  /-- construction of a view of const elements or not, basic_array_view.hpp:109-119 -/
  | construct (elem : Bool)
  /-- `reshape`, `flatten`, `transpose`, `permuted_indices_view`, `transposed_view`, `group_indices_view`, ...: `map_layout_transform`, layout_transforms.hpp:25-40 -/
  | transform
  /-- `make_const_view`, `make_array_const_view`, basic_functions.hpp:230-238, 254-262 -/
  | makeConst
  /-- `make_array_view`, `make_matrix_view`, basic_functions.hpp:242-250, 266-274 -/
  | makeView
  /-- `as_array_view`, basic_array.hpp:76-77, basic_array_view.hpp:94-95 -/
  | asArrayView
  /-- `auto const &` -/
  | bindConst
deriving DecidableEq, Repr

/-- The object that an operation gives. -/
def derive : Op → Obj → Option Obj
  | .full, .arr c => some (.view false c)
  | .full, .view c e => some (.view false (c || e))
  | .slice, .arr _ => some (.view false false)
  | .slice, .view _ e => some (.view false e)
  | .elem, .arr _ => some (.ref false)
  | .elem, .view _ e => some (.ref e)
  | .linear, .arr c => some (.ref c)
  | .linear, .view c e => some (.ref (c || e))
  | .iterate, .arr c => some (.ref c)
  | .iterate, .view c e => some (.ref (c || e))
  | .deduce, .arr c => some (.view false c)
  | .deduce, .view c e => some (.view false (c || e))
  | .construct e', .arr _ => some (.view false e')
  | .construct e', .view _ e => if e' || !e then some (.view false e') else none
  | .transform, .arr c => some (.view false c)
  | .transform, .view c e => some (.view false (c || e))
  | .makeConst, .arr _ => some (.view false true)
  | .makeConst, .view _ _ => some (.view false true)
  | .makeView, .arr _ => some (.view false false)
  | .makeView, .view _ e => some (.view false e)
  | .asArrayView, .arr c => some (.view false c)
  | .asArrayView, .view c e => some (.view false (c || e))
  | .bindConst, .arr _ => some (.arr true)
  | .bindConst, .view _ e => some (.view true e)
  | .bindConst, .ref _ => some (.ref true)
  | _, .ref _ => none

/-- Whether an assignment to the object compiles: assignment operators are not const members, and are rejected for const elements (basic_array.hpp:320-388; basic_array_view.hpp:182-222;
_impl_basic_array_view_common.hpp:288-312, 338, 413). -/
def writable : Obj → Bool
  | .arr c => !c
  | .view c e => !c && !e
  | .ref e => !e

/-- The arrays with their elements, and the named objects with the array that they refer to. -/
structure St (α : Type) where
  arrays : List (List α)
  vars : List (Nat × Obj)

/-- Statements. -/
inductive Stmt (α : Type) where
  /-- a new array -/
  | new (const : Bool) (content : List α)
  /-- an object made from object `i` -/
  | derive (i : Nat) (op : Op)
  /-- a copy of object `i`: arrays are copied with their elements, views are not (basic_array.hpp:101, basic_array_view.hpp:106) -/
  | copy (i : Nat)
  /-- `v_i.rebind(v_j)`, basic_array_view.hpp:229-247 -/
  | rebind (i j : Nat)
  /-- `swap(v_i, v_j)`, basic_array_view.hpp:256-259 -/
  | swap (i j : Nat)
  /-- an assignment to object `i` that changes the element at `pos` -/
  | write (i pos : Nat) (x : α)

def step (s : St α) : Stmt α → Option (St α)
  | .new c l => some ⟨s.arrays ++ [l], s.vars ++ [(s.arrays.length, .arr c)]⟩
  | .derive i op => do
      let (k, o) ← s.vars[i]?
      let o' ← derive op o
      return { s with vars := s.vars ++ [(k, o')] }
  | .copy i => do
      let (k, o) ← s.vars[i]?
      match o with
      | .arr _ => do
          let l ← s.arrays[k]?
          return ⟨s.arrays ++ [l], s.vars ++ [(s.arrays.length, .arr false)]⟩
      | .view _ e => return { s with vars := s.vars ++ [(k, .view false e)] }
      | .ref _ => none
  | .rebind i j => do
      let (_, o) ← s.vars[i]?
      let (k', o') ← s.vars[j]?
      match o, o' with
      | .view false e, .view _ e' => if e = e' ∨ e = true then return { s with vars := s.vars.set i (k', .view false e) } else none
      | _, _ => none
  | .swap i j => do
      let (k, o) ← s.vars[i]?
      let (k', o') ← s.vars[j]?
      match o, o' with
      | .view false e, .view false e' => if e = e' then return { s with vars := (s.vars.set i (k', o)).set j (k, o') } else none
      | _, _ => none
  | .write i pos x => do
      let (k, o) ← s.vars[i]?
      if writable o then return { s with arrays := s.arrays.modify k (fun l => l.set pos x) } else none

def run (s : St α) (p : List (Stmt α)) : Option (St α) := p.foldlM step s

end Nda.Constness
