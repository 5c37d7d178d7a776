import Verif.Model.ThrowSmall
/-!
# Model of arrays on the stack when the constructors of elements throw

`c++/nda/basic_array.hpp` over `handle_stack` (`stack<N>`, `c++/nda/mem/policies.hpp`; `stack_array`, declarations.hpp:85-99), for a value type that is neither
trivial nor complex.  The storage and what is undefined about it are those of `Verif.Model.ThrowSmall`; the operations are those of `Verif.Model.Exceptions`, with the default
constructor and the constructor from integers.

Simplified: the extents are static, so of the layout nothing is kept (it has `N d` elements), and the arrays are contiguous.
-/
namespace Nda.Mem.StackArr
open Nda.Mem Nda.Exc Nda.Mem.Small Nda.Mem.Small.Stack

variable {V : Type}

/-- What programs do with arrays. -/
inductive KOp (V : Type) where
  /-- `basic_array()` -/
  | default (d : Nat)
  /-- `basic_array(Int... is)`; `n` is the product of the extents -/
  | ints (d n : Nat)
  | op (o : Op V)
deriving Repr

/-- What follows an operation that did not throw. -/
def next (o : Out (TVars V)) (f : TVars V → Out (TVars V)) : Out (TVars V) := o.bind id f

/-- A new handle `d` with room for `N` elements, `n` of which are then made, in a `noexcept` function: by `handle_stack(long)`, which delegates (handle.hpp:259-264),
or by the owner (basic_array.hpp:160-175).  If the stack is unwound before `std::terminate` (`unwinds`; C++ leaves that to the implementation), the destructor of the
handle runs. -/
def built (fails : Nat → Bool) (unwinds : Bool) (N d n : Nat) (f : Nat → StackH.Vars V → Option (Option V)) (q : TVars V) : Out (TVars V) :=
  let o := fill fails d f n 0 { q with p := q.p.set d (some (List.replicate N none)) }
  (if unwinds then unwound d o else o).noexcept

/-- `sto = storage_t{n}` after the temporary `tmp` was made, basic_array.hpp:118, 415: move assignment (handle.hpp:254-257) and the end of the temporary. -/
def moveIn (fails : Nat → Bool) (N : Nat) (dflt : V) (d tmp : Nat) (q : TVars V) : Out (TVars V) :=
  next (Stack.step fails N dflt q (.assign d tmp, true)) fun q => Stack.step fails N dflt q (.destroy tmp, false)

/-- `resize`, basic_array.hpp:412-416; `is_null()` is `false`, `size()` is `N` (handle.hpp:284-285). -/
def resize (fails : Nat → Bool) (N : Nat) (dflt : V) (d n : Nat) (q : TVars V) : Out (TVars V) :=
  if n ≠ N then next (Stack.step fails N dflt q (.new (q.p.length - 1), false)) (moveIn fails N dflt d (q.p.length - 1)) else .ok q

/-- Assignments to the elements of `d` from number `i` on, `assign_from_ndarray` and `fill_with_scalar`, _impl_basic_array_view_common.hpp:331-388, 393-408. -/
def put (fails : Nat → Bool) (N : Nat) (dflt : V) (d : Nat) : Nat → List V → TVars V → Out (TVars V)
  | _, [], q => .ok q
  | i, v :: vs, q =>
      match StackH.var q.p d with
      | some x => if i < x.length then next (Stack.step fails N dflt q (.write d i v, false)) (put fails N dflt d (i + 1) vs) else .ub
      | none => .ub

/-- Array `d` can be constructed; the last variable is for temporaries. -/
def free (q : TVars V) (d : Nat) : Bool := decide (d + 1 < q.p.length) && (StackH.var q.p d).isNone

/-- Array `d` is alive. -/
def alive (q : TVars V) (d : Nat) : Bool := decide (d + 1 < q.p.length) && (StackH.var q.p d).isSome

/-- One operation; `N d` is the number of elements of `d`, by its type.  Operations that do not type-check do nothing. -/
def step (fails : Nat → Bool) (unwinds : Bool) (N : Nat → Nat) (dflt : V) (q : TVars V) (op : KOp V) : Out (TVars V) :=
  match op with
  -- basic_array.hpp:95, handle.hpp:244: no elements are made
  | .default d => if free q d then .ok { q with p := q.p.set d (some (List.replicate (N d) none)) } else .ok q
  -- basic_array.hpp:114-119, `noexcept`: a default storage, then `sto = storage_t{lay.size()}`
  | .ints d _ => if free q d then
      (next (built fails unwinds (N d) (q.p.length - 1) (N d) (fun _ _ => some (some dflt)) { q with p := q.p.set d (some (List.replicate (N d) none)) })
        (moveIn fails (N d) dflt d (q.p.length - 1))).noexcept else .ok q
  -- basic_array.hpp:144-149, `noexcept`; the size is not used (handle.hpp:259)
  | .op (.make d _) => if free q d then built fails unwinds (N d) d (N d) (fun _ _ => some (some dflt)) q else .ok q
  -- basic_array.hpp:160-175, 201-239, `noexcept`
  | .op (.build d vs) => if free q d then built fails unwinds (N d) d vs.length (fun i _ => vs[i]?.map some) q else .ok q
  -- basic_array.hpp:101, handle.hpp:280-282
  | .op (.copy d s) => if free q d && alive q s && N d == N s then Stack.step fails (N d) dflt q (.copy d s, false) else .ok q
  -- basic_array.hpp:98, handle.hpp:252
  | .op (.move d s) => if free q d && alive q s && N d == N s then Stack.step fails (N d) dflt q (.copy d s, true) else .ok q
  -- basic_array.hpp:339, handle.hpp:254-257
  | .op (.moveAssign d s) => if alive q d && alive q s && N d == N s then Stack.step fails (N d) dflt q (.assign d s, true) else .ok q
  -- basic_array.hpp:342, handle.hpp:274-277
  | .op (.copyAssign d s) => if alive q d && alive q s && N d == N s then Stack.step fails (N d) dflt q (.assign d s, false) else .ok q
  -- basic_array.hpp:358-368, `noexcept`
  | .op (.assign d vs) => if alive q d then
      (next (resize fails (N d) dflt d vs.length q) (put fails (N d) dflt d 0 vs)).noexcept else .ok q
  -- basic_array.hpp:373-377, `noexcept`
  | .op (.fill d v) => if alive q d then (put fails (N d) dflt d 0 (List.replicate (N d) v) q).noexcept else .ok q
  | .op (.resize d n) => if alive q d then resize fails (N d) dflt d n q else .ok q
  -- an access within the bounds of the layout
  | .op (.read d i) => if alive q d && decide (i < N d) then
      match (StackH.var q.p d).bind (·[i]?) with
      | some (some _) => .ok q
      | _ => .ub
    else .ok q
  | .op (.destroy d) => if alive q d then Stack.step fails (N d) dflt q (.destroy d, false) else .ok q

/-- `n` variables, none alive. -/
def start (n : Nat) : TVars V := ⟨List.replicate (n + 1) none, 0⟩

end Nda.Mem.StackArr
