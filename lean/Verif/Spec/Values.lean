import Verif.Model.Values
import Verif.Spec.Arrays
import Verif.Spec.Views
/-!
# Arrays as values

A variable is a shape and a function from index tuples to elements: no memory, no handles, no layouts, no views.
-/
namespace Nda.Arr.Spec
open Nda Nda.Spec LayoutTransforms

variable {V : Type}

/-- The value of an array: its shape and its elements (`none`: not specified); a moved-from array has a shape and no elements. -/
structure Val (V : Type) where
  shape : List Int
  moved : Bool
  el : List Int → Option V

/-- The variables; `none`: not alive. -/
abbrev Vals (V : Type) := List (Option (Val V))

def Vals.get (a : Vals V) (i : Nat) : Option (Val V) := (a[i]?).join

/-- Element `idx` of variable `x`, if there is one. -/
def Vals.elt (a : Vals V) (x : Nat) (idx : List Int) : Option V :=
  match a.get x with
  | some y => if y.moved = false ∧ InRange y.shape idx then y.el idx else none
  | none => none

/-- Variable `d` gets its first value. -/
def Vals.put (a : Vals V) (d : Nat) (x : Val V) : Vals V := if d < a.length ∧ a.get d = none then a.set d (some x) else a

/-- Variable `d` gets a new value. -/
def Vals.upd (a : Vals V) (d : Nat) (x : Val V) : Vals V := if a.get d = none then a else a.set d (some x)

/-- What the right-hand side of `d = rhs` may read for element `idx`: the other variables; of `d`, if its shape does not change, element `idx`. -/
def Vals.eltAssign (a : Vals V) (d : Nat) (shape : List Int) (idx : List Int) (x : Nat) (jdx : List Int) : Option V :=
  if x = d ∧ ¬ (jdx = idx ∧ (a.get d).map (·.shape) = some shape) then none else a.elt x jdx

/-- All index tuples of a shape. -/
def tuples : List Int → List (List Int)
  | [] => [[]]
  | l :: ls => (List.range l.toNat).flatMap (fun i => (tuples ls).map (fun x => Int.ofNat i :: x))

/-- The element of the view that is element `jdx` of the variable (of rank `n`), if it is in the view. -/
def inView (n : Nat) (ops : List Op) (ext jdx : List Int) : Option (List Int) := (tuples ext).find? (fun idx => sourceChain n ops idx == jdx)

/-- What the right-hand side of an assignment to a view of `d` may read for element `idx` of the view: the other variables; of `d`, the elements
that are not assigned to, and the one that is being assigned to. -/
def Vals.eltPut (a : Vals V) (d : Nat) (n : Nat) (ops : List Op) (ext : List Int) (idx : List Int) (x : Nat) (jdx : List Int) : Option V :=
  if x = d ∧ inView n ops ext jdx ≠ none ∧ inView n ops ext jdx ≠ some idx then none else a.elt x jdx

/-- The elements of `d` after an assignment to a view of it. -/
def putEl (a : Vals V) (d : Nat) (ops : List Op) (ext : List Int) (rhs : List Int → Comp V) (x : Val V) (jdx : List Int) : Option V :=
  match inView x.shape.length ops ext jdx with
  | some idx => (rhs idx).eval (a.eltPut d x.shape.length ops ext idx)
  | none => x.el jdx

/-- The statements on values. -/
def vnext (triv : Bool) (dflt : V) (rank : Nat → Nat) (a : Vals V) : VOp V → Vals V
  | .default d _ => a.put d ⟨List.replicate (rank d) 0, false, fun _ => none⟩
  | .make d shape => a.put d ⟨shape, false, fun _ => if triv then none else some dflt⟩
  | .zeros d shape => a.put d ⟨shape, false, fun _ => some dflt⟩
  | .build d shape rhs => a.put d ⟨shape, false, fun idx => (rhs idx).eval a.elt⟩
  | .copy d s => match a.get s with
      | some x => a.put d x
      | none => a
  | .move d s => match a.get s with
      | some x => if d < a.length ∧ a.get d = none then (a.set d (some x)).set s (some ⟨x.shape, true, fun _ => none⟩) else a
      | none => a
  | .copyAssign d s => match a.get s with
      | some x => a.upd d x
      | none => a
  | .moveAssign d s => match a.get s with
      | some x => if a.get d = none then a else (a.set d (some x)).set s (some ⟨x.shape, true, fun _ => none⟩)
      | none => a
  | .resize d shape => match a.get d with
      | some x => a.set d (some ⟨shape, false, fun idx => if x.moved = false ∧ x.shape = shape then x.el idx else none⟩)
      | none => a
  | .assign d shape rhs => a.upd d ⟨shape, false, fun idx => (rhs idx).eval (a.eltAssign d shape idx)⟩
  | .fill d v => match a.get d with
      | some x => a.set d (some { x with el := fun _ => some v })
      | none => a
  | .put d ops ext rhs => match a.get d with
      | some x => a.set d (some { x with el := putEl a d ops ext rhs x })
      | none => a
  | .destroy d => a.set d none

/-- A program on values. -/
def vfinal (triv : Bool) (dflt : V) (rank : Nat → Nat) (a : Vals V) (ops : List (VOp V)) : Vals V := ops.foldl (vnext triv dflt rank) a

/-- The statement is allowed, when array `d` has stride order `so d`: shapes are shapes of the rank; copies and moves are between arrays of the same type; the right-hand side has a value at every index; nothing is written to moved-from arrays (except by
assignments of arrays and expressions); views are inside their array and have the shape of the right-hand side. -/
def VAllowed (so : Nat → List Nat) (a : Vals V) : VOp V → Prop
  | .default d junk => junk.length = (so d).length
  | .make d shape | .zeros d shape | .resize d shape => IsShape (so d) shape
  | .copy d s | .move d s | .copyAssign d s | .moveAssign d s => so d = so s
  | .build d shape rhs => IsShape (so d) shape ∧ ∀ idx, InRange shape idx → ((rhs idx).eval a.elt).isSome
  | .assign d shape rhs => IsShape (so d) shape ∧ ∀ idx, InRange shape idx → ((rhs idx).eval (a.eltAssign d shape idx)).isSome
  | .fill d _ => ∀ x, a.get d = some x → x.moved = true → prod x.shape = 0
  | .put d ops ext rhs => ∀ x, a.get d = some x → x.moved = false ∧ ChainAllowed x.shape ops ∧ ChainShape x.shape ops ext ∧
      ∀ idx, InRange ext idx → ((rhs idx).eval (a.eltPut d x.shape.length ops ext idx)).isSome
  | _ => True

/-- The ranks. -/
def rankOf (so : Nat → List Nat) (d : Nat) : Nat := (so d).length

/-- Every statement is allowed on the values that it meets. -/
def VAllowedRun (triv : Bool) (dflt : V) (so : Nat → List Nat) : Vals V → List (VOp V) → Prop
  | _, [] => True
  | a, op :: ops => VAllowed so a op ∧ VAllowedRun triv dflt so (vnext triv dflt (rankOf so) a op) ops

/-- The arrays that a statement gives a new value (or destroys, or moves from). -/
def targets : VOp V → List Nat
  | .default d _ | .make d _ | .zeros d _ | .build d _ _ | .copy d _ | .copyAssign d _ | .resize d _ | .assign d _ _ | .fill d _ | .put d _ _ _ | .destroy d => [d]
  | .move d s | .moveAssign d s => [d, s]

/-- The program's memory holds these values: variables that are not alive have no storage; the others have the shape, and unless moved from
every specified element; of moved-from arrays no element can be accessed. -/
def Represents (p : AProg V) (a : Vals V) : Prop :=
  ∀ d, match a.get d with
    | none => p.prog.var d = none
    | some x => (∃ m, p.lays[d]? = some m ∧ m.len = x.shape) ∧ (x.moved = false → ∀ idx v, InRange x.shape idx → x.el idx = some v → p.elem d idx = some v) ∧
        (x.moved = true → ∀ idx, p.elem d idx = none)

end Nda.Arr.Spec
