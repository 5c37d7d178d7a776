import Verif.Model.Arrays
import Verif.Spec.Handles
import Verif.Spec.Index
/-!
# What is expected of owning arrays
-/
namespace Nda.Arr.Spec
open Nda Nda.Mem Nda.Spec

variable {V : Type}

/-- Arrays as their users see them: shape, and whether the array has been moved from (and not been
given a new value since); `none`: not alive. -/
abbrev Shapes := List (Option (List Int × Bool))

def Shapes.get (a : Shapes) (i : Nat) : Option (List Int × Bool) := (a[i]?).join

/-- Array `d` gets `x` if it can be constructed. -/
def Shapes.put (a : Shapes) (d : Nat) (x : List Int × Bool) : Shapes := if d < a.length ∧ a.get d = none then a.set d (some x) else a

/-- The operations on shapes. -/
def sstep (rank : Nat) (a : Shapes) : AOp V → Shapes
  | .default d _ => a.put d (List.replicate rank 0, false)
  | .make d shape | .zeros d shape | .build d shape _ => a.put d (shape, false)
  | .copy d s => match a.get s with
      | some x => a.put d x
      | none => a
  | .move d s => match a.get s with
      | some x => if d < a.length ∧ a.get d = none then (a.set d (some x)).set s (some (x.1, true)) else a
      | none => a
  | .copyAssign d s => match a.get d, a.get s with
      | some _, some x => a.set d (some x)
      | _, _ => a
  | .moveAssign d s => match a.get d, a.get s with
      | some _, some x => (a.set d (some x)).set s (some (x.1, true))
      | _, _ => a
  | .resize d shape | .assign d shape _ => if a.get d = none then a else a.set d (some (shape, false))
  | .resizeOrCheck d shape => match a.get d with
      | some x => if x.1 = shape then a else a.set d (some (shape, false))
      | none => a
  | .fill _ _ => a
  | .destroy d => a.set d none

/-- A history. -/
def srun (rank : Nat) (a : Shapes) (ops : List (AOp V)) : Shapes := ops.foldl (sstep rank) a

/-- A shape: as many non-negative lengths as the rank. -/
def IsShape (so : List Nat) (shape : List Int) : Prop := shape.length = so.length ∧ NonNeg shape

/-- The block of array `d`. -/
def blockOf (p : AProg V) (d : Nat) : Option Nat := (p.prog.var d).bind Handle.data

/-- The right-hand side `f` can be evaluated at all indices of `shape` while the contents of block `b` change
(or the block is released and others are made): it does not read that block. -/
def Independent (p : AProg V) (b : Option Nat) (shape : List Int) (f : List Int → Heap V → Option V) : Prop :=
  ∀ idx, InRange shape idx → ∀ hp : Heap V, (∀ x, x < p.prog.mem.hp.length → some x ≠ b → hp[x]? = p.prog.mem.hp[x]?) → (f idx hp).isSome

/-- The right-hand side `f` can be evaluated at all indices of `shape` as long as block `b` keeps its size: it may read
that block. -/
def InPlace (triv : Bool) (p : AProg V) (b : Option Nat) (shape : List Int) (f : List Int → Heap V → Option V) : Prop :=
  ∀ idx, InRange shape idx → ∀ hp : Heap V, (∀ x, x < p.prog.mem.hp.length → some x ≠ b → hp[x]? = p.prog.mem.hp[x]?) →
    (∀ x cells, some x = b → p.prog.mem.hp[x]? = some ⟨cells, false⟩ →
      ∃ cells', hp[x]? = some ⟨cells', false⟩ ∧ cells'.length = cells.length ∧ (triv = false → ∀ c ∈ cells', c.isSome)) → (f idx hp).isSome

/-- The conditions of the operations: shapes are shapes; right-hand sides can be evaluated, and those that read the
array they are assigned to have as many elements as it; scalars are not assigned to moved-from arrays. -/
def Allowed (triv : Bool) (so : List Nat) (p : AProg V) (a : Shapes) : AOp V → Prop
  | .make _ shape | .zeros _ shape | .resize _ shape | .resizeOrCheck _ shape => IsShape so shape
  | .build _ shape f => IsShape so shape ∧ Independent p none shape f
  | .assign d shape f => IsShape so shape ∧
      (Independent p (blockOf p d) shape f ∨
        (∃ x, a.get d = some (x, false) ∧ prod x = prod shape ∧ InPlace triv p (blockOf p d) shape f))
  | .fill d _ => ∀ x, a.get d = some (x, true) → prod x = 0
  | _ => True

/-- The array that an operation constructs, assigns to or destroys. -/
def dst : AOp V → Nat
  | .default d _ | .make d _ | .zeros d _ | .build d _ _ | .copy d _ | .move d _ | .copyAssign d _ | .moveAssign d _ | .resize d _ | .resizeOrCheck d _ | .assign d _ _
  | .fill d _ | .destroy d => d

/-- Copies and moves are between arrays of the same type (rank and stride order); array `i` has stride order `so i`. -/
def SameType (so : Nat → List Nat) : AOp V → Prop
  | .copy d s | .move d s | .copyAssign d s | .moveAssign d s => so d = so s
  | _ => True

/-- Every operation of the history is allowed in the state it is executed in. -/
def AllowedRun (triv : Bool) (dflt : V) (so : List Nat) : AProg V → Shapes → List (AOp V) → Prop
  | _, _, [] => True
  | p, a, op :: ops => Allowed triv so p a op ∧
      ∀ p', p.step triv dflt so op = some p' → AllowedRun triv dflt so p' (sstep so.length a op) ops

/-- `p` is reached from a program without arrays by a history of allowed operations; `a`: what its user expects. -/
def Reachable (triv : Bool) (dflt : V) (so : List Nat) (p : AProg V) (a : Shapes) : Prop :=
  ∃ n ops, AllowedRun triv dflt so (AProg.start n) (List.replicate n none) ops ∧ (AProg.start n).run triv dflt so ops = some p ∧
    a = srun so.length (List.replicate n none) ops

end Nda.Arr.Spec
