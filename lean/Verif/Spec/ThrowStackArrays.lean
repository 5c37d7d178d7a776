import Verif.Spec.ThrowSmall
import Verif.Model.ThrowStackArrays
/-!
# What programs with arrays on the stack do when elements throw

Arrays are lists of values; buffers and temporaries do not occur.
-/
namespace Nda.Mem.StackArr.Spec
open Nda.Mem Nda.Mem.Spec Nda.Exc

variable {V : Type}

/-- Arrays, and constructions and assignments of elements so far. -/
structure KS (V : Type) where
  vars : List (Option (List V))
  tick : Nat
deriving DecidableEq, Repr

namespace KS

def var (s : KS V) (i : Nat) : Option (List V) := (s.vars[i]?).join

def setVar (s : KS V) (i : Nat) (x : Option (List V)) : KS V := { s with vars := s.vars.set i x }

/-- `n` calls; `bad` is what happens if one fails. -/
def calls (fails : Nat → Bool) (n : Nat) (bad : Out (KS V)) (s : KS V) (good : KS V → Out (KS V)) : Out (KS V) :=
  match firstFail fails s.tick n with
  | none => good { s with tick := s.tick + n }
  | some _ => bad

/-- Assignment of whole arrays, `n` elements: undefined unless there is nothing to assign, or the first element throws already. -/
def overwrite (fails : Nat → Bool) (n : Nat) (first : KS V → Out (KS V)) (s : KS V) : Out (KS V) :=
  if n = 0 then .ok s else if fails s.tick then first { s with tick := s.tick + 1 } else .ub

/-- One operation; `N d` is the number of elements of array `d`. -/
def step (fails : Nat → Bool) (unwinds : Bool) (N : Nat → Nat) (dflt : V) (s : KS V) (op : KOp V) : Out (KS V) :=
  match op with
  | .default _ => .ok s
  -- every element is made twice
  | .ints d n => if s.var d = none ∧ d < s.vars.length then
      s.calls fails n (if unwinds then .ub else .terminate) fun s => s.calls fails n .terminate fun s => .ok (s.setVar d (some (List.replicate n dflt))) else .ok s
  | .op (.make d n) => if s.var d = none ∧ d < s.vars.length then
      s.calls fails n (if unwinds then .ub else .terminate) fun s => .ok (s.setVar d (some (List.replicate n dflt))) else .ok s
  | .op (.build d vs) => if s.var d = none ∧ d < s.vars.length then
      s.calls fails vs.length (if unwinds then .ub else .terminate) fun s => .ok (s.setVar d (some vs)) else .ok s
  | .op (.copy d x) | .op (.move d x) => match s.var x with
      | some y => if s.var d = none ∧ d < s.vars.length ∧ N d = N x then
          s.calls fails y.length .terminate fun s => .ok (s.setVar d (some y)) else .ok s
      | none => .ok s
  | .op (.moveAssign d x) => match s.var d, s.var x with
      | some _, some y => if N d = N x then s.overwrite fails y.length fun _ => .terminate else .ok s
      | _, _ => .ok s
  | .op (.copyAssign d x) => match s.var d, s.var x with
      | some _, some y => if N d = N x then s.overwrite fails y.length .threw else .ok s
      | _, _ => .ok s
  | .op (.assign d vs) => match s.var d with
      | some _ => s.calls fails vs.length .terminate fun s => .ok (s.setVar d (some vs))
      | none => .ok s
  | .op (.fill d v) => match s.var d with
      | some x => s.calls fails x.length .terminate fun s => .ok (s.setVar d (some (List.replicate x.length v)))
      | none => .ok s
  | .op (.resize _ _) | .op (.read _ _) => .ok s
  | .op (.destroy d) => match s.var d with
      | some _ => .ok (s.setVar d none)
      | none => .ok s

def init (n : Nat) : KS V := ⟨List.replicate n none, 0⟩

end KS

/-- The operations the claim is about: shapes are the static ones (idx_map.hpp:293-297 checks that in debug builds), and no default constructor, which makes no
elements. -/
def Allowed (N : Nat → Nat) : KOp V → Prop
  | .default _ => False
  | .ints d n | .op (.make d n) | .op (.resize d n) => n = N d
  | .op (.build d vs) | .op (.assign d vs) => vs.length = N d
  | _ => True

/-- The arrays of `q` are those of `s`: every array alive has exactly the elements it should have, all of them made; and there are no temporaries. -/
structure Holds (N : Nat → Nat) (q : Small.Stack.TVars V) (s : KS V) : Prop where
  elems : ∀ i, StackH.var q.p i = (s.var i).map fun l => l.map some
  full : ∀ i l, s.var i = some l → l.length = N i
  tick : q.tick = s.tick

end Nda.Mem.StackArr.Spec
