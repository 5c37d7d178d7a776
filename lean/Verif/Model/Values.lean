import Verif.Model.Arrays
import Verif.Model.LayoutTransforms
/-!
# Programs on owning arrays: constructions, moves, assignments that resize, assignments through views

The operations of Model/Arrays with right-hand sides that read the elements of arrays of the program, and assignments to
views of an array.  This file only composes modelled functions, as a user's program does.
-/
namespace Nda.Arr
open Nda Nda.Mem Loops LayoutTransforms

variable {V : Type}

/-- How one element of a right-hand side is computed: it reads elements of arrays (by name and index), one after the other, and what it
reads may decide what is read next.  Lazy expressions, elements of views, matrix products, reductions are of this form. -/
inductive Comp (V : Type) where
  | ret (v : V)
  | read (x : Nat) (idx : List Int) (k : V → Comp V)

/-- The value, when element `idx` of array `x` is `rd x idx`. -/
def Comp.eval (rd : Nat → List Int → Option V) : Comp V → Option V
  | .ret v => some v
  | .read x idx k => do
      let v ← rd x idx
      (k v).eval rd

/-- The statements. -/
inductive VOp (V : Type) where
  | default (d : Nat) (junk : List Int)
  | make (d : Nat) (shape : List Int)
  | zeros (d : Nat) (shape : List Int)
  /-- construction from an array, view or expression of this shape -/
  | build (d : Nat) (shape : List Int) (rhs : List Int → Comp V)
  | copy (d s : Nat)
  | move (d s : Nat)
  | copyAssign (d s : Nat)
  | moveAssign (d s : Nat)
  | resize (d : Nat) (shape : List Int)
  /-- assignment of an array, view or expression of this shape -/
  | assign (d : Nat) (shape : List Int) (rhs : List Int → Comp V)
  | fill (d : Nat) (v : V)
  /-- assignment to a view of array `d` (made by a chain of view operations; none: to the array without resizing, as the compound
  assignments do), of an array, view or expression of shape `ext` -/
  | put (d : Nat) (ops : List Op) (ext : List Int) (rhs : List Int → Comp V)
  | destroy (d : Nat)

namespace AProg

/-- Element access while memory changes: layout and pointer are those of `p`, the memory is `hp`.  (A view keeps layout and pointer when
the array it was made from is resized; an array that is itself resized by the statement is in Model/Arrays and C22.) -/
def elemIn (p : AProg V) (hp : Heap V) (x : Nat) (idx : List Int) : Option V :=
  AProg.elem { p with prog := { p.prog with mem := { p.prog.mem with hp := hp } } } x idx

/-- The right-hand side as element access. -/
def access (p : AProg V) (rhs : List Int → Comp V) (idx : List Int) (hp : Heap V) : Option V := (rhs idx).eval (p.elemIn hp)

/-- Assignment to a view of `d`: the view, and `assign_from_ndarray` of the view, _impl_basic_array_view_common.hpp:331-388 (elementwise, see
C17); _impl_basic_array_view_common.hpp:285-316 for the compound assignments.  (The element of the view is at `sto.data() + off + lay(idx...)`.) -/
def putAll (triv : Bool) (p : AProg V) (d : Nat) (ops : List Op) (rhs : List Int → Comp V) : Option (AProg V) := do
  let m ← p.lays[d]?
  let v ← LayoutTransforms.run ⟨0, m⟩ ops
  let q ← forEach v.lay.len (fun idx q => do
    let x ← p.access rhs idx q.mem.hp
    let k ← v.lay.call (idx.map .idx)
    writeAt triv q d (v.off + k) x) p.prog
  return { p with prog := q }

/-- One statement; array `d` has rank `(so d).length` and stride order `so d` (its type). -/
def vstep (triv : Bool) (dflt : V) (so : Nat → List Nat) (p : AProg V) : VOp V → Option (AProg V)
  | .default d junk => p.step triv dflt (so d) (.default d junk)
  | .make d shape => p.step triv dflt (so d) (.make d shape)
  | .zeros d shape => p.step triv dflt (so d) (.zeros d shape)
  | .build d shape rhs => p.step triv dflt (so d) (.build d shape (p.access rhs))
  | .copy d s => p.step triv dflt (so d) (.copy d s)
  | .move d s => p.step triv dflt (so d) (.move d s)
  | .copyAssign d s => p.step triv dflt (so d) (.copyAssign d s)
  | .moveAssign d s => p.step triv dflt (so d) (.moveAssign d s)
  | .resize d shape => p.step triv dflt (so d) (.resize d shape)
  | .assign d shape rhs => p.step triv dflt (so d) (.assign d shape (p.access rhs))
  | .fill d v => p.step triv dflt (so d) (.fill d v)
  | .put d ops _ rhs => if p.alive d then p.putAll triv d ops rhs else some p
  | .destroy d => p.step triv dflt (so d) (.destroy d)

/-- A program. -/
def vrun (triv : Bool) (dflt : V) (so : Nat → List Nat) (p : AProg V) (ops : List (VOp V)) : Option (AProg V) :=
  ops.foldlM (fun p op => p.vstep triv dflt so op) p

end AProg
end Nda.Arr
