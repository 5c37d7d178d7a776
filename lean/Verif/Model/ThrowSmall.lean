import Verif.Model.Sso
import Verif.Model.Exceptions
/-!
# Model of `handle_sso` and `handle_stack` when the constructors of elements throw

`c++/nda/mem/handle.hpp`: `handle_sso` (290-463), `handle_stack` (224-286), for a value type that is neither trivial nor
trivially copyable, whose constructors and assignments may throw and whose destructor does not (229, 296).
The programs are those of `Verif.Model.Sso`; they catch every exception and go on, so that the stack is
unwound whenever an exception may leave a function.

Simplified: the allocator does not return null (`Verif.Model.Exceptions` has that for `handle_heap`; the tests are the
same); an assignment of an element that throws leaves the element as it was.
-/
namespace Nda.Mem.Small
open Nda.Mem Nda.Exc

variable {V : Type}

/-- Heap and variables, the number of constructions and assignments of elements so far, and the number of elements
in buffers that ceased to exist with the elements in them. -/
structure TProg (V : Type) where
  p : SProg V
  tick : Nat
  lost : Nat
deriving DecidableEq, Repr

/-- `for (size_t i = 0; i < _size; ++i) new (_data + i) T(...)`, handle.hpp:350, 366, 378, 391, 443, 459: `n` elements of variable `d`
from position `i` on.  `fails t`: the `t`-th construction or assignment of an element throws. -/
def fill (fails : Nat → Bool) (d : Nat) (f : Nat → SProg V → Option (Option V)) : Nat → Nat → TProg V → Out (TProg V)
  | 0, _, q => .ok q
  | n + 1, i, q =>
      match f i q.p with
      | none => .ub
      | some none => .ub
      | some (some v) =>
          if fails q.tick then .threw { q with tick := q.tick + 1 }
          else match q.p.construct false d i (some v) with
            | none => .ub
            | some p => fill fails d f n (i + 1) ⟨p, q.tick + 1, q.lost⟩

/-- A part that does not throw. -/
def lift (q : TProg V) : Option (SProg V) → Out (TProg V)
  | none => .ub
  | some p => .ok { q with p := p }

/-- What happens next, if nothing was thrown. -/
def next (o : Out (TProg V)) (f : TProg V → Out (TProg V)) : Out (TProg V) := o.bind id f

/-- The constructor `handle_sso(long size)` after an exception in its body, handle.hpp:425-445: it does not delegate, so
the destructor is not called; the block and the elements made so far are not given back. -/
def abandonNew (d : Nat) (q : TProg V) : TProg V :=
  match q.p.var d with
  | none => q
  | some x => { q with p := q.p.setVar d none, lost := q.lost + (x.buf.filter Option.isSome).length }

/-- A constructor that delegates to `handle_sso(long, do_not_initialize_t)` (handle.hpp:373, 384) after an exception in its
body, or any handle during stack unwinding: the destructor runs (340). -/
def unwind (K d : Nat) (q : TProg V) : Out (TProg V) :=
  next (lift q (q.p.clean false K d)) fun q => .threw { q with p := q.p.setVar d none }

/-- Memory for `n` elements, which are then constructed; `after` is what happens when that throws. -/
def build (fails : Nat → Bool) (K d n : Nat) (f : Nat → SProg V → Option (Option V)) (after : TProg V → Out (TProg V)) (q : TProg V) :
    Out (TProg V) :=
  let q := { q with p := q.p.setVar d (some (SProg.fresh K)) }
  if n = 0 then .ok q
  else next (lift q (q.p.grab K d n)) fun q =>
    match fill fails d f n 0 q with
    | .ok q => .ok q
    | .threw q => after q
    | .terminate => .terminate
    | .ub => .ub

/-- The body of the move constructor and of the move assignment after `clean`, handle.hpp:343-354, 359-369. -/
def take (fails : Nat → Bool) (K d s : Nat) (q : TProg V) : Out (TProg V) :=
  match q.p.var d, q.p.var s with
  | some x, some y =>
      if K < y.size then
        let q := { q with p := q.p.setVar d (some { x with data := y.data, size := y.size }) }
        lift q (q.p.empty s)
      else if y.size ≠ 0 then
        let q := { q with p := q.p.setVar d (some { x with data := .inline, size := y.size }) }
        next (fill fails d (fun i p => p.cell s i) y.size 0 q) fun q => lift q (q.p.empty s)
      else
        let q := { q with p := q.p.setVar d (some { x with size := 0 }) }
        lift q (q.p.empty s)
  | _, _ => .ub

/-- The copy assignment, handle.hpp:447-462. -/
def assign (fails : Nat → Bool) (K d s : Nat) (q : TProg V) : Out (TProg V) :=
  next (lift q (q.p.clean false K d)) fun q =>
    match q.p.var d, q.p.var s with
    | some x, some y =>
        if y.size = 0 then .ok { q with p := q.p.setVar d (some { x with size := 0 }) }
        else next (lift q (q.p.grab K d y.size)) fun q => fill fails d (fun i p => p.cell s i) y.size 0 q
    | _, _ => .ub

/-- One operation; `K` is the inline capacity.  Operations that do not type-check do nothing. -/
def step (fails : Nat → Bool) (K : Nat) (dflt : V) (q : TProg V) (op : SOp V) : Out (TProg V) :=
  match op with
  -- handle.hpp:425-445
  | .new d n => if q.p.var d = none ∧ d < q.p.vars.length then
      build fails K d n (fun _ _ => some (some dflt)) (fun q => .threw (abandonNew d q)) q else .ok q
  -- handle.hpp:410-422: scalars and complex numbers only, which do not throw
  | .newZero _ _ => lift q (q.p.step false K dflt op)
  -- handle.hpp:396-407, followed by the construction of the elements by the owner of the handle
  | .newFrom d vs => if q.p.var d = none ∧ d < q.p.vars.length then
      build fails K d vs.length (fun i _ => vs[i]?.map some) (unwind K d) q else .ok q
  -- handle.hpp:373-380 (383-393 from other owning handles)
  | .copy d s => match q.p.var s with
      | some y => if q.p.var d = none ∧ d < q.p.vars.length then
          build fails K d y.size (fun i p => p.cell s i) (unwind K d) q else .ok q
      | none => .ok q
  -- handle.hpp:342-355, `noexcept`
  | .move d s => match q.p.var s with
      | some _ => if q.p.var d = none ∧ d < q.p.vars.length then
          (take fails K d s { q with p := q.p.setVar d (some (SProg.fresh K)) }).noexcept else .ok q
      | none => .ok q
  -- handle.hpp:447-462, `noexcept`
  | .copyAssign d s => match q.p.var d, q.p.var s with
      | some _, some _ => (assign fails K d s q).noexcept
      | _, _ => .ok q
  -- handle.hpp:357-371, `noexcept`
  | .moveAssign d s => match q.p.var d, q.p.var s with
      | some _, some _ => (next (lift q (q.p.clean false K d)) fun q => take fails K d s q).noexcept
      | _, _ => .ok q
  -- handle.hpp:340
  | .destroy _ => lift q (q.p.step false K dflt op)
  -- assignment to an element, handle.hpp:319
  | .write d i _ => match q.p.var d with
      | some x => if i < x.size then
          if fails q.tick then .threw { q with tick := q.tick + 1 }
          else lift { q with tick := q.tick + 1 } (q.p.step false K dflt op)
        else .ok q
      | none => .ok q

/-- A program that catches every exception and goes on.  The list says which operations threw. -/
def run {S O : Type} (step : S → O → Out S) : S → List O → Out (S × List Bool)
  | q, [] => .ok (q, [])
  | q, op :: ops =>
      match step q op with
      | .ok q => (run step q ops).bind (fun r => (r.1, false :: r.2)) fun r => .ok (r.1, false :: r.2)
      | .threw q => (run step q ops).bind (fun r => (r.1, true :: r.2)) fun r => .ok (r.1, true :: r.2)
      | .terminate => .terminate
      | .ub => .ub

/-- `n` variables, none alive. -/
def start (n : Nat) : TProg V := ⟨SProg.start n, 0, 0⟩

/-! ## `handle_stack` -/
namespace Stack
open StackH

/-- Variables, and the number of constructions and assignments of elements so far. -/
structure TVars (V : Type) where
  p : Vars V
  tick : Nat
deriving DecidableEq, Repr

/-- `for (size_t i = 0; i < Size; ++i) new (data() + i) T(...)`, handle.hpp:262, 275. -/
def fill (fails : Nat → Bool) (d : Nat) (f : Nat → Vars V → Option (Option V)) : Nat → Nat → TVars V → Out (TVars V)
  | 0, _, q => .ok q
  | n + 1, i, q =>
      match f i q.p with
      | none => .ub
      | some none => .ub
      | some (some v) =>
          if fails q.tick then .threw { q with tick := q.tick + 1 }
          else match construct false q.p d i (some v) with
            | none => .ub
            | some p => fill fails d f n (i + 1) ⟨p, q.tick + 1⟩

/-- An exception while the elements of `d` are made, in a constructor that delegates (handle.hpp:259) or by the owner of the
handle: the destructor of the handle runs, which destroys all elements (246-250). -/
def unwound (d : Nat) : Out (TVars V) → Out (TVars V)
  | .threw q => match var q.p d with
      | some x => if x.any Option.isNone then .ub else .threw { q with p := q.p.set d none }
      | none => .ub
  | o => o

/-- One operation.  The move constructor, the move assignment and the copy constructor are `noexcept` (handle.hpp:252, 254, 280), the
copy assignment is not (274): `mv` tells them apart. -/
def step (fails : Nat → Bool) (N : Nat) (dflt : V) (q : TVars V) (op : StackH.Op V × Bool) : Out (TVars V) :=
  match op with
  | (.raw d, _) => if var q.p d = none ∧ d < q.p.length then .ok { q with p := q.p.set d (some (List.replicate N none)) } else .ok q
  -- handle.hpp:259-264
  | (.new d, _) => if var q.p d = none ∧ d < q.p.length then
      unwound d (fill fails d (fun _ _ => some (some dflt)) N 0 { q with p := q.p.set d (some (List.replicate N none)) }) else .ok q
  -- handle.hpp:266, followed by the construction of the elements
  | (.newFrom d vs, _) => if var q.p d = none ∧ d < q.p.length ∧ vs.length = N then
      unwound d (fill fails d (fun i _ => vs[i]?.map some) N 0 { q with p := q.p.set d (some (List.replicate N none)) }) else .ok q
  -- handle.hpp:252, 280-282
  | (.copy d s, _) => match var q.p s with
      | some _ => if var q.p d = none ∧ d < q.p.length then
          (fill fails d (fun i p => do let y ← var p s; y[i]?) N 0 { q with p := q.p.set d (some (List.replicate N none)) }).noexcept else .ok q
      | none => .ok q
  -- handle.hpp:254-257, 274-277
  | (.assign d s, mv) => match var q.p d, var q.p s with
      | some _, some _ =>
          let o := fill fails d (fun i p => do let y ← var p s; y[i]?) N 0 q
          if mv then o.noexcept else o
      | _, _ => .ok q
  | (.destroy d, _) => match StackH.step false N dflt q.p (.destroy d) with
      | some p => .ok { q with p := p }
      | none => .ub
  | (.write d i v, _) => match var q.p d with
      | some x => if i < x.length then
          if fails q.tick then .threw { q with tick := q.tick + 1 }
          else match StackH.step false N dflt q.p (.write d i v) with
            | some p => .ok ⟨p, q.tick + 1⟩
            | none => .ub
        else .ok q
      | none => .ok q

end Stack
end Nda.Mem.Small
