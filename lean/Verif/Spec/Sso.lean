import Verif.Model.Sso
/-!
# What small-buffer and stack storage should do: variables that hold lists of values
-/
namespace Nda.Mem.Spec

variable {V : Type}

/-- Variables holding lists of cells; a cell without value has been left uninitialised (trivial types). -/
abbrev Vals (V : Type) := List (Option (List (Option V)))

/-- The value of variable `i`, if alive. -/
def Vals.get (a : Vals V) (i : Nat) : Option (List (Option V)) := (a[i]?).join

/-- Default-constructed cell. -/
def dfltCell (triv : Bool) (dflt : V) : Option V := if triv then none else some dflt

/-- The operations on values: copies copy, moves leave the source empty, nothing else changes. -/
def sstep (triv : Bool) (dflt : V) (a : Vals V) : SOp V → Vals V
  | .new d n => if a.get d = none ∧ d < a.length then a.set d (some (List.replicate n (dfltCell triv dflt))) else a
  | .newZero d n => if a.get d = none ∧ d < a.length then a.set d (some (List.replicate n (some dflt))) else a
  | .newFrom d vs => if a.get d = none ∧ d < a.length then a.set d (some (vs.map some)) else a
  | .copy d s => match a.get s with
      | some l => if a.get d = none ∧ d < a.length then a.set d (some l) else a
      | none => a
  | .move d s => match a.get s with
      | some l => if a.get d = none ∧ d < a.length then (a.set d (some l)).set s (some []) else a
      | none => a
  | .copyAssign d s => match a.get d, a.get s with
      | some _, some l => a.set d (some l)
      | _, _ => a
  | .moveAssign d s => match a.get d, a.get s with
      | some _, some l => (a.set d (some l)).set s (some [])
      | _, _ => a
  | .destroy d => a.set d none
  | .write d i v => match a.get d with
      | some l => a.set d (some (l.set i (some v)))
      | none => a

/-- A history of operations on values. -/
def srun (triv : Bool) (dflt : V) (a : Vals V) (ops : List (SOp V)) : Vals V := ops.foldl (sstep triv dflt) a

/-- The operations for which the claim holds: no copy assignment of a handle to itself unless it is empty or
(trivial types) inline; for non-trivial types, no move from a handle with inline elements. -/
def SAllowed (triv : Bool) (K : Nat) (a : Vals V) : SOp V → Prop
  | .copyAssign d s => d = s → ∀ l, a.get d = some l → l = [] ∨ (triv = true ∧ l.length ≤ K)
  | .move _ s | .moveAssign _ s => triv = false → ∀ l, a.get s = some l → l = [] ∨ K < l.length
  | _ => True

/-- Every operation of the history is allowed, when its turn comes. -/
def SAllowedRun (triv : Bool) (K : Nat) (dflt : V) : Vals V → List (SOp V) → Prop
  | _, [] => True
  | a, op :: ops => SAllowed triv K a op ∧ SAllowedRun triv K dflt (sstep triv dflt a op) ops

/-- The elements that variable `i` of `p` gives access to: `size()` of them, `data()[k]`. -/
def contents (p : SProg V) (i : Nat) : Option (List (Option (Option V))) :=
  (p.var i).map fun x => (List.range x.size).map fun k => p.cell i k

/-- The operations on variables of `N` elements each. -/
def kstep (triv : Bool) (N : Nat) (dflt : V) (a : Vals V) : StackH.Op V → Vals V
  | .raw d => if a.get d = none ∧ d < a.length then a.set d (some (List.replicate N none)) else a
  | .new d => if a.get d = none ∧ d < a.length then a.set d (some (List.replicate N (dfltCell triv dflt))) else a
  | .newFrom d vs => if a.get d = none ∧ d < a.length ∧ vs.length = N then a.set d (some (vs.map some)) else a
  | .copy d s => match a.get s with
      | some l => if a.get d = none ∧ d < a.length then a.set d (some l) else a
      | none => a
  | .assign d s => match a.get d, a.get s with
      | some _, some l => a.set d (some l)
      | _, _ => a
  | .destroy d => a.set d none
  | .write d i v => match a.get d with
      | some l => a.set d (some (l.set i (some v)))
      | none => a

/-- A history. -/
def krun (triv : Bool) (N : Nat) (dflt : V) (a : Vals V) (ops : List (StackH.Op V)) : Vals V := ops.foldl (kstep triv N dflt) a

/-- For non-trivial types: no default construction (it makes no elements) and no assignment. -/
def KAllowed (triv : Bool) : StackH.Op V → Prop
  | .raw _ => triv = true
  | .assign _ _ => triv = true
  | _ => True

end Nda.Mem.Spec
