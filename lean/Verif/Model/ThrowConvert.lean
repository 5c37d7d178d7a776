import Verif.Model.Convert
import Verif.Model.ThrowSmall
/-!
# Model of the conversions between kinds of storage when copies of elements throw

`c++/nda/mem/handle.hpp:192-203` (`handle_heap` from other owning handles), `382-393` (`handle_sso` from other owning handles), and the member initialiser
`sto(std::move(x.storage()))` of the constructor of `basic_array` from arrays with other storage (`c++/nda/basic_array.hpp:103-106`), for a value type that is
neither trivial nor trivially copyable, whose copy constructor may throw and whose destructor does not.  The worlds are those of `Verif.Model.Convert`.

Simplified: the allocator does not return null (`Verif.Model.Exceptions` has that); how the parameter `x` of the array constructor was made is not repeated here.
-/
namespace Nda.Mem.World
open Nda.Exc

variable {V : Type}

/-- `handle_heap(H const &x)` with `x.size() = n` and `f i` the cell `x[i]`, handle.hpp:194-203.  The constructor delegates to the one of lines 146-152: when
`T(T const &)` throws in its body, the handle counts as constructed, and its destructor (109-112) runs, if the stack is unwound at all (`unwound`).  `fails t`: the `t`-th
copy of an element throws. -/
def heapCells (fails : Nat → Bool) (unwound : Bool) (n : Nat) (f : Nat → Option (Option V)) (m : Mem V) (t : Nat) : Out (Handle × Mem V × Nat) :=
  if n = 0 then .ok (Handle.null, m, t)
  else
    let b := (m.hp.alloc n).1
    match construct ⟨fails, fun _ => false, true, unwound⟩ b (fun i _ => (f i).join) n 0 ⟨(m.hp.alloc n).2, t⟩ with
    | .ok q => .ok (.heap (some b) n none, { m with hp := q.hp }, q.tick)
    | .threw q =>
        if unwound then
          match destruct (some b) n q with
          | .ok q => .threw (Handle.null, { m with hp := q.hp }, q.tick)
          | .threw _ => .terminate
          | .terminate => .terminate
          | .ub => .ub
        else .threw (Handle.null, { m with hp := q.hp }, q.tick)
    | .terminate => .terminate
    | .ub => .ub

/-- The conversion of variable `src` to variable `d` of a kind, after `t` copies.  To the heap: handle.hpp:194-203; to a small buffer: 384-393, with 396-407.  Conversions that
do not type-check do nothing. -/
def convert (fails : Nat → Bool) (unwound : Bool) (kind : Kind) (d : Nat) (src : Obj) (w : World V) (t : Nat) : Out (World V × Nat) :=
  match w.size src with
  | none => .ok (w, t)
  | some n =>
    match kind with
    | .heap =>
      if w.h.var d = none ∧ d < w.h.vars.length then
        match heapCells fails unwound n (w.cell src) w.h.mem t with
        | .ok (x, m, t) => .ok (w.setH ({ w.h with mem := m }.setVar d (some x)), t)
        | .threw (_, m, t) => .threw (w.setH { w.h with mem := m }, t)
        | .terminate => .terminate
        | .ub => .ub
      else .ok (w, t)
    | .sso K =>
      if (w.s K).var d = none ∧ d < (w.s K).vars.length then
        match Small.build fails K d n (fun j _ => w.cell src j) (fun q => if unwound then Small.unwind K d q else .threw q) ⟨w.s K, t, 0⟩ with
        | .ok q => .ok (w.setS K q.p, q.tick)
        | .threw q => .threw (w.setS K q.p, q.tick)
        | .terminate => .terminate
        | .ub => .ub
      else .ok (w, t)

/-- The member `sto` of `basic_array(basic_array<…> x) noexcept`, basic_array.hpp:105-106.  `unwinds`: the stack is unwound before `std::terminate` (C++ leaves that to the
implementation, [except.terminate]). -/
def arrayStorage (fails : Nat → Bool) (unwinds : Bool) (kind : Kind) (d : Nat) (x : Obj) (w : World V) (t : Nat) : Out (World V × Nat) :=
  (convert fails unwinds kind d x w t).noexcept

/-- One operation of a program with handles of all types, handle.hpp:64-464, after `q.2` copies of conversions (lines 192-203 and 382-407).  Simplified: exceptions are those of
conversions; the operations on handles of one type are those of `Verif.Model.Convert`, which do not throw (`Verif.Model.Exceptions`, `Verif.Model.ThrowSmall` have the others). -/
def throwStep (fails : Nat → Bool) (dflt : V) (q : World V × Nat) (op : WOp V) : Out (World V × Nat) :=
  match op with
  | .toHeap d src => q.1.convert fails true .heap d src q.2
  | .toSso K d src => q.1.convert fails true (.sso K) d src q.2
  | op => match q.1.step false dflt op with
      | some w => .ok (w, q.2)
      | none => .ub

end Nda.Mem.World
