import Verif.Spec.ThrowSmall
import Verif.Model.ThrowSmallArrays
/-!
# What programs with small arrays do when elements throw

Arrays have a size and a list of elements; storage, buffers and temporaries do not occur.
-/
namespace Nda.Mem.SmallArr.Spec
open Nda.Mem Nda.Mem.Spec Nda.Exc

variable {V : Type}

/-- An array: the size that its shape announces, and the elements that exist. -/
structure SA (V : Type) where
  len : Nat
  elems : List V
deriving DecidableEq, Repr

/-- Arrays; constructions and assignments of elements so far; blocks that are lost, with their number of elements and how many of them were made; and
the number of elements in buffers that were never destroyed. -/
structure SS (V : Type) where
  vars : List (Option (SA V))
  tick : Nat
  leaks : List (Nat × Nat)
  lost : Nat
deriving DecidableEq, Repr

namespace SS

def var (s : SS V) (i : Nat) : Option (SA V) := (s.vars[i]?).join

def setVar (s : SS V) (i : Nat) (x : Option (SA V)) : SS V := { s with vars := s.vars.set i x }

/-- `n` calls; `bad` is what happens if one fails. -/
def calls (fails : Nat → Bool) (n : Nat) (bad : Out (SS V)) (s : SS V) (good : SS V → Out (SS V)) : Out (SS V) :=
  match firstFail fails s.tick n with
  | none => good { s with tick := s.tick + n }
  | some _ => bad

/-- New elements for `x`, if it has none or not the right number: they are made once if they need a block, and twice if they fit into the
buffer, where the first ones are never destroyed.  An exception of the first constructors leaves the function, with the memory lost; an exception of
the others ends the program. -/
def remake (fails : Nat → Bool) (K : Nat) (dflt : V) (d n : Nat) (x : SA V) (s : SS V) : Out (SS V) :=
  if x.elems = [] ∨ x.elems.length ≠ n then
    match firstFail fails s.tick n with
    | some k => .threw (setVar
        { s with tick := s.tick + k + 1
                 leaks := if K < n then s.leaks ++ [(n, k)] else s.leaks
                 lost := if K < n then s.lost else s.lost + k } d (some { x with len := n }))
    | none =>
        if K < n then .ok (setVar { s with tick := s.tick + n } d (some ⟨n, List.replicate n dflt⟩))
        else calls fails n .terminate { s with tick := s.tick + n } fun s =>
          .ok (setVar { s with lost := s.lost + n } d (some ⟨n, List.replicate n dflt⟩))
  else .ok (s.setVar d (some { x with len := n }))

/-- One operation. -/
def step (fails : Nat → Bool) (unwinds : Bool) (K : Nat) (dflt : V) (s : SS V) (op : Op V) : Out (SS V) :=
  match op with
  | .make d n => if s.var d = none ∧ d < s.vars.length then
      s.calls fails n .terminate fun s => .ok (s.setVar d (some ⟨n, List.replicate n dflt⟩)) else .ok s
  | .build d vs => if s.var d = none ∧ d < s.vars.length then
      s.calls fails vs.length (if unwinds then .ub else .terminate) fun s => .ok (s.setVar d (some ⟨vs.length, vs⟩)) else .ok s
  | .copy d x => match s.var x with
      | some y => if s.var d = none ∧ d < s.vars.length then
          s.calls fails y.elems.length (if unwinds then .ub else .terminate) fun s => .ok (s.setVar d (some y)) else .ok s
      | none => .ok s
  | .move d x => match s.var x with
      | some y => if s.var d = none ∧ d < s.vars.length then
          .ok ((s.setVar d (some y)).setVar x (some ⟨y.len, []⟩)) else .ok s
      | none => .ok s
  | .moveAssign d x => match s.var d, s.var x with
      | some _, some y => .ok ((s.setVar d (some y)).setVar x (some ⟨y.len, []⟩))
      | _, _ => .ok s
  | .copyAssign d x => match s.var d, s.var x with
      | some _, some y => s.calls fails y.elems.length .terminate fun s => .ok (s.setVar d (some y))
      | _, _ => .ok s
  | .assign d vs => match s.var d with
      | some x => match s.remake fails K dflt d vs.length x with
          | .ok s => s.calls fails vs.length .terminate fun s => .ok (s.setVar d (some ⟨vs.length, vs⟩))
          | .ub => .ub
          | _ => .terminate
      | none => .ok s
  | .fill d v => match s.var d with
      | some x => s.calls fails (min x.len x.elems.length) .terminate fun s =>
          if x.len ≤ x.elems.length then .ok (s.setVar d (some { x with elems := List.replicate x.len v ++ x.elems.drop x.len })) else .ub
      | none => .ok s
  | .resize d n => match s.var d with
      | some x => s.remake fails K dflt d n x
      | none => .ok s
  | .read d i => match s.var d with
      | some x => if i < x.len ∧ x.elems.length ≤ i then .ub else .ok s
      | none => .ok s
  | .destroy d => match s.var d with
      | some _ => .ok (s.setVar d none)
      | none => .ok s

def init (n : Nat) : SS V := ⟨List.replicate n none, 0, [], 0⟩

end SS

/-- The operations the claim is about: as in C29 and C85, no moves out of buffers and no assignments of arrays to themselves. -/
def Allowed (K : Nat) (s : SS V) : Op V → Prop
  | .move _ x => ∀ y, s.var x = some y → y.elems = [] ∨ K < y.elems.length
  | .moveAssign d x => d ≠ x ∧ ∀ y, s.var x = some y → y.elems = [] ∨ K < y.elems.length
  | .copyAssign d x => d ≠ x
  | _ => True

/-- Every operation is allowed when its turn comes. -/
def AllowedRun (fails : Nat → Bool) (unwinds : Bool) (K : Nat) (dflt : V) : SS V → List (Op V) → Prop
  | _, [] => True
  | s, op :: ops => Allowed K s op ∧
      match s.step fails unwinds K dflt op with
      | .ok s | .threw s => AllowedRun fails unwinds K dflt s ops
      | _ => True

/-- The arrays of `p` have the sizes and elements of `s`; the blocks that are not released are those of the arrays that do not fit into their
buffers, and the lost ones, with the elements that were made in them. -/
structure Holds (dflt : V) (K : Nat) (p : AProg V) (s : SS V) : Prop where
  elems : ∀ i, contents p.q.p i = (s.var i).map fun x => x.elems.map fun v => some (some v)
  lens : ∀ i x, s.var i = some x → p.lens[i]? = some x.len
  tick : p.q.tick = s.tick
  lost : p.q.lost = s.lost
  unique : ∀ i j x y b, p.q.p.var i = some x → p.q.p.var j = some y → x.data = .block b → y.data = .block b → i = j
  place : ∀ i x, p.q.p.var i = some x → ((∃ b, x.data = .block b) ↔ K < x.size)
  blocks : ∃ ids : List Nat, ids.Nodup ∧
    List.Forall₂ (fun b (l : Nat × Nat) => p.q.p.hp[b]? = some ⟨List.replicate l.2 (some dflt) ++ List.replicate (l.1 - l.2) none, false⟩) ids s.leaks ∧
    ∀ (b : Nat) blk, p.q.p.hp[b]? = some blk →
      (blk.freed = false ↔ b ∈ ids ∨ ∃ i x, p.q.p.var i = some x ∧ x.data = .block b) ∧
      (b ∈ ids → ∀ i x, p.q.p.var i = some x → x.data ≠ .block b)

end Nda.Mem.SmallArr.Spec
