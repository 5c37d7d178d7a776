import Verif.Model.Handles
/-!
# Handles as references to storage that is never released

What programs on handles compute if memory management is left out: there are no control blocks, no
counts, no destructors, and no storage is ever released (as if a garbage collector took care of it).
A heap handle refers to storage of its own, a shared handle to the storage of the handle it was made from.
-/
namespace Nda.Mem.Spec

variable {V : Type}

/-- A reference: which kind of handle, to which storage, how many elements. -/
structure Ref where
  shared : Bool
  storage : Option Nat
  size : Nat
deriving DecidableEq, Repr

/-- All storage that was ever made, and the variables. -/
structure Collected (V : Type) where
  store : List (List (Option V))
  vars : List (Option Ref)
deriving DecidableEq, Repr

/-- The reference a handle is. -/
def refOf : Handle → Ref
  | .heap d n _ => ⟨false, d, n⟩
  | .shared d n _ => ⟨true, d, n⟩

namespace Collected

/-- Variable `i`, if alive. -/
def var (g : Collected V) (i : Nat) : Option Ref := (g.vars[i]?).join

/-- Variable `i` can be declared. -/
def unused (g : Collected V) (i : Nat) : Bool := i < g.vars.length ∧ (g.var i).isNone

/-- Variable `i` becomes `r`. -/
def put (g : Collected V) (i : Nat) (r : Option Ref) : Collected V := { g with vars := g.vars.set i r }

/-- The empty reference. -/
def empty : Ref := ⟨false, none, 0⟩

/-- Variable `i` refers to new storage with the given cells; no storage is made for no cells. -/
def make (g : Collected V) (i : Nat) (cells : List (Option V)) : Collected V :=
  if cells.length = 0 then g.put i (some empty)
  else ⟨g.store ++ [cells], g.vars.set i (some ⟨false, some g.store.length, cells.length⟩)⟩

/-- The cells a reference refers to. -/
def cells (g : Collected V) (r : Ref) : List (Option V) :=
  match r.storage with
  | none => []
  | some b => (g.store[b]?).getD []

/-- One statement. -/
def step (triv : Bool) (dflt : V) (g : Collected V) : HOp V → Collected V
  | .new d n => if g.unused d then g.make d (List.replicate n (if triv then none else some dflt)) else g
  | .newZero d n => if g.unused d then g.make d (List.replicate n (some dflt)) else g
  | .newFrom d vs => if g.unused d then g.make d (vs.map some) else g
  | .foreign d vs =>
      if g.unused d then ⟨g.store ++ [vs.map some], g.vars.set d (some ⟨true, some g.store.length, vs.length⟩)⟩ else g
  | .copy d s => match g.var s with
      | some ⟨false, x, n⟩ => if g.unused d then g.make d (g.cells ⟨false, x, n⟩) else g
      | _ => g
  | .move d s => match g.var s with
      | some ⟨false, x, n⟩ => if g.unused d then (g.put d (some ⟨false, x, n⟩)).put s (some empty) else g
      | _ => g
  | .copyAssign d s => match g.var d, g.var s with
      | some ⟨false, _, _⟩, some ⟨false, x, n⟩ => g.make d (g.cells ⟨false, x, n⟩)
      | _, _ => g
  | .moveAssign d s => match g.var d, g.var s with
      | some ⟨false, _, _⟩, some ⟨false, x, n⟩ => (g.put d (some ⟨false, x, n⟩)).put s (some empty)
      | _, _ => g
  | .share d s => match g.var s with
      | some ⟨false, x, n⟩ => if g.unused d then g.put d (some ⟨true, x, n⟩) else g
      | _ => g
  | .copyShared d s => match g.var s with
      | some ⟨true, x, n⟩ => if g.unused d then g.put d (some ⟨true, x, n⟩) else g
      | _ => g
  | .moveShared d s => match g.var s with
      | some ⟨true, x, n⟩ => if g.unused d then g.put d (some ⟨true, x, n⟩) else g
      | _ => g
  | .copyAssignShared d s => match g.var d, g.var s with
      | some ⟨true, _, _⟩, some ⟨true, x, n⟩ => g.put d (some ⟨true, x, n⟩)
      | _, _ => g
  | .moveAssignShared d s => match g.var d, g.var s with
      | some ⟨true, _, _⟩, some ⟨true, x, n⟩ => g.put d (some ⟨true, x, n⟩)
      | _, _ => g
  | .destroy d => g.put d none
  | .read _ _ => g
  | .write d i v => match g.var d with
      | some ⟨_, some b, n⟩ => if i < n then { g with store := g.store.modify b (·.set i (some v)) } else g
      | _ => g

/-- A program. -/
def run (triv : Bool) (dflt : V) (g : Collected V) (ops : List (HOp V)) : Collected V := ops.foldl (fun g op => g.step triv dflt op) g

/-- `n` variables, none declared. -/
def start (n : Nat) : Collected V := ⟨[], List.replicate n none⟩

end Collected

/-- The statement assigns to, moves from, declares or ends variable `d`, or writes elements. -/
def Changes (d : Nat) : HOp V → Prop
  | .new x _ | .newZero x _ | .newFrom x _ | .foreign x _ | .destroy x => x = d
  | .copy x _ | .copyAssign x _ | .share x _ | .copyShared x _ | .copyAssignShared x _ => x = d
  | .move x y | .moveAssign x y | .moveShared x y | .moveAssignShared x y => x = d ∨ y = d
  | .read _ _ => False
  | .write _ _ _ => True

end Nda.Mem.Spec
