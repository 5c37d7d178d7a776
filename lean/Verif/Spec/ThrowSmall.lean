import Mathlib.Data.List.Forall2
import Verif.Spec.Sso
import Verif.Model.ThrowSmall
/-!
# What programs with small-buffer and stack storage do when elements throw

Variables hold lists of values; an operation makes a certain number of elements, and the first one that fails decides.
-/
namespace Nda.Mem.Spec
open Nda.Mem Nda.Exc

variable {V : Type}

/-- How many elements an operation constructs or assigns to. -/
def work (K : Nat) (a : Vals V) : SOp V → Nat
  | .new d n => if a.get d = none ∧ d < a.length then n else 0
  | .newZero _ _ => 0
  | .newFrom d vs => if a.get d = none ∧ d < a.length then vs.length else 0
  | .copy d s => match a.get s with
      | some l => if a.get d = none ∧ d < a.length then l.length else 0
      | none => 0
  | .move d s => match a.get s with
      | some l => if a.get d = none ∧ d < a.length ∧ l.length ≤ K then l.length else 0
      | none => 0
  | .copyAssign d s => match a.get d, a.get s with
      | some _, some l => l.length
      | _, _ => 0
  | .moveAssign d s => match a.get d, a.get s with
      | some _, some l => if l.length ≤ K then l.length else 0
      | _, _ => 0
  | .destroy _ => 0
  | .write d i _ => match a.get d with
      | some l => if i < l.length then 1 else 0
      | none => 0

/-- The first of the `n` calls from number `t` on that fails. -/
def firstFail (fails : Nat → Bool) (t n : Nat) : Option Nat := (List.range n).find? fun j => fails (t + j)

/-- Values; calls so far; blocks that are lost, with their number of elements and how many of them were made; and the number of
elements lost in buffers. -/
structure Obs (V : Type) where
  vals : Vals V
  tick : Nat
  leaks : List (Nat × Nat)
  lost : Nat

/-- One operation.  Only `handle(size)` and assignments to elements let the exception out, both leave the
variables as they were, and the former loses the memory and the elements made before.  Copies are undefined. -/
def tstep (fails : Nat → Bool) (K : Nat) (dflt : V) (o : Obs V) (op : SOp V) : Out (Obs V) :=
  match firstFail fails o.tick (work K o.vals op) with
  | none => .ok { o with vals := sstep false dflt o.vals op, tick := o.tick + work K o.vals op }
  | some k =>
      match op with
      | .new _ n => .threw
          { o with tick := o.tick + k + 1
                   leaks := if K < n then o.leaks ++ [(n, k)] else o.leaks
                   lost := if K < n then o.lost else o.lost + k }
      | .write _ _ _ => .threw { o with tick := o.tick + k + 1 }
      | .newFrom _ _ => .ub
      | .copy _ _ => .ub
      | _ => .terminate

/-- The operations the claim is about: as for C29 when nothing fails; when something does, assignments are between different
variables. -/
def TAllowed (fails : Nat → Bool) (K : Nat) (o : Obs V) (op : SOp V) : Prop :=
  match firstFail fails o.tick (work K o.vals op) with
  | none => SAllowed false K o.vals op
  | some _ => match op with
      | .copyAssign d s | .moveAssign d s => d ≠ s
      | _ => True

/-- Every operation is allowed when its turn comes. -/
def TAllowedRun (fails : Nat → Bool) (K : Nat) (dflt : V) : Obs V → List (SOp V) → Prop
  | _, [] => True
  | o, op :: ops => TAllowed fails K o op ∧
      match tstep fails K dflt o op with
      | .ok o | .threw o => TAllowedRun fails K dflt o ops
      | _ => True

/-- The variables of `q` hold the values of `o`; the blocks that are neither released nor owned by a variable are the lost ones, with
the elements that were made in them. -/
structure Shows (dflt : V) (K : Nat) (q : Small.TProg V) (o : Obs V) : Prop where
  vals : ∀ i, contents q.p i = (o.vals.get i).map (List.map some)
  tick : q.tick = o.tick
  lost : q.lost = o.lost
  place : ∀ i x, q.p.var i = some x →
    (x.data = .null ↔ x.size = 0) ∧ (x.data = .inline ↔ 0 < x.size ∧ x.size ≤ K) ∧ ((∃ b, x.data = .block b) ↔ K < x.size)
  unique : ∀ i j x y b, q.p.var i = some x → q.p.var j = some y → x.data = .block b → y.data = .block b → i = j
  blocks : ∃ ids : List Nat, ids.Nodup ∧
    List.Forall₂ (fun b (l : Nat × Nat) => q.p.hp[b]? = some ⟨List.replicate l.2 (some dflt) ++ List.replicate (l.1 - l.2) none, false⟩) ids o.leaks ∧
    ∀ (b : Nat) blk, q.p.hp[b]? = some blk →
      (blk.freed = false ↔ b ∈ ids ∨ ∃ i x, q.p.var i = some x ∧ x.data = .block b) ∧
      (b ∈ ids → ∀ i x, q.p.var i = some x → x.data ≠ .block b)

/-- Outcomes that agree: of what a program does and of what it should do. -/
def Agrees {S T : Type} (R : S → T → Prop) : Out (S × List Bool) → Out (T × List Bool) → Prop
  | .ok r, .ok s => R r.1 s.1 ∧ r.2 = s.2
  | .terminate, .terminate => True
  | .ub, .ub => True
  | _, _ => False

/-! ## `handle_stack` -/

/-- How many elements an operation constructs or assigns to. -/
def kwork (N : Nat) (a : Vals V) : StackH.Op V → Nat
  | .raw _ => 0
  | .new d => if a.get d = none ∧ d < a.length then N else 0
  | .newFrom d vs => if a.get d = none ∧ d < a.length ∧ vs.length = N then N else 0
  | .copy d s => match a.get s with
      | some _ => if a.get d = none ∧ d < a.length then N else 0
      | none => 0
  | .assign d s => match a.get d, a.get s with
      | some _, some _ => N
      | _, _ => 0
  | .destroy _ => 0
  | .write d i _ => match a.get d with
      | some l => if i < l.length then 1 else 0
      | none => 0

/-- One operation: only assignments to elements let the exception out; constructions of handles other than copies
and moves are undefined. -/
def ktstep (fails : Nat → Bool) (N : Nat) (dflt : V) (o : Vals V × Nat) (op : StackH.Op V × Bool) : Out (Vals V × Nat) :=
  match firstFail fails o.2 (kwork N o.1 op.1) with
  | none => .ok (kstep false N dflt o.1 op.1, o.2 + kwork N o.1 op.1)
  | some k =>
      match op.1 with
      | .write _ _ _ => .threw (o.1, o.2 + k + 1)
      | .new _ => .ub
      | .newFrom _ _ => .ub
      | _ => .terminate

end Nda.Mem.Spec
