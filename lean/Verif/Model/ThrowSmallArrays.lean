import Verif.Model.ThrowSmall
/-!
# Model of arrays with small-buffer storage when the constructors of elements throw

`c++/nda/basic_array.hpp` over `handle_sso` (`sso<K>`, `c++/nda/mem/policies.hpp`), for a value type that is neither trivial nor trivially copyable.
The storage and what is undefined about it are those of `Verif.Model.ThrowSmall`; the operations are those of `Verif.Model.Exceptions`.

Simplified: as there, of the layout only its size is kept, and the arrays are contiguous.  The allocator does not
return null.
-/
namespace Nda.Mem.SmallArr
open Nda.Mem Nda.Exc Small

variable {V : Type}

/-- The storage `sto` of the arrays, with one more variable for the temporary of `resize`, and `lay.size()` of each array. -/
structure AProg (V : Type) where
  q : TProg V
  lens : List Nat
deriving DecidableEq, Repr

/-- What the storage does; the layouts are `lens` then, also if an exception leaves the function. -/
def on (lens : List Nat) (o : Out (TProg V)) : Out (AProg V) := o.bind (fun q => ⟨q, lens⟩) fun q => .ok ⟨q, lens⟩

/-- The `noexcept` constructors whose storage delegates or is filled in the body, basic_array.hpp:101, 160-175, 201-239: if the stack is unwound before
`std::terminate` (`unwinds`; C++ leaves that to the implementation), the destructor of the storage runs. -/
def built (fails : Nat → Bool) (unwinds : Bool) (K d n : Nat) (f : Nat → SProg V → Option (Option V)) (q : TProg V) : Out (TProg V) :=
  (Small.build fails K d n f (if unwinds then unwind K d else .threw) q).noexcept

/-- The destructor of the temporary handle `s` (handle.hpp:340), after which the handle and its buffer are gone: elements still in the buffer are
not destroyed by anybody.  `Verif.Model.Sso` calls that undefined; here they are counted. -/
def finish (K s : Nat) (q : TProg V) : Out (TProg V) :=
  next (lift q (q.p.clean false K s)) fun q => .ok (abandonNew s q)

/-- `sto = storage_t{n}`, basic_array.hpp:415: a temporary handle (handle.hpp:425-445), move assignment from it (357-371), and its
destructor (340). -/
def renew (fails : Nat → Bool) (K : Nat) (dflt : V) (d tmp n : Nat) (q : TProg V) : Out (TProg V) :=
  next (Small.step fails K dflt q (.new tmp n)) fun q =>
    next (Small.step fails K dflt q (.moveAssign d tmp)) (finish K tmp)

/-- `resize`, basic_array.hpp:412-416: the layout first.  `is_null` is `_data == nullptr`, handle.hpp:310-315. -/
def resize (fails : Nat → Bool) (K : Nat) (dflt : V) (d n : Nat) (x : Sso V) (p : AProg V) : Out (AProg V) :=
  if x.data = .null ∨ x.size ≠ n then on (p.lens.set d n) (renew fails K dflt d p.lens.length n p.q)
  else .ok { p with lens := p.lens.set d n }

/-- Assignments to the elements of `d` from number `i` on, `assign_from_ndarray` and `fill_with_scalar`, _impl_basic_array_view_common.hpp:331-388, 393-408. -/
def put (fails : Nat → Bool) (K : Nat) (dflt : V) (d : Nat) : Nat → List V → TProg V → Out (TProg V)
  | _, [], q => .ok q
  | i, v :: vs, q =>
      match q.p.var d with
      | some x => if i < x.size then next (Small.step fails K dflt q (.write d i v)) (put fails K dflt d (i + 1) vs) else .ub
      | none => .ub

/-- `lay.size()`. -/
def len (p : AProg V) (d : Nat) : Nat := (p.lens[d]?).getD 0

/-- One operation.  Operations that do not type-check do nothing. -/
def step (fails : Nat → Bool) (unwinds : Bool) (K : Nat) (dflt : V) (p : AProg V) (op : Op V) : Out (AProg V) :=
  match op with
  -- basic_array.hpp:144-149, `noexcept` (116-119: `makeInts`)
  | .make d n => if p.q.p.var d = none ∧ d < p.lens.length then
      on (p.lens.set d n) (Small.step fails K dflt p.q (.new d n)).noexcept else .ok p
  -- basic_array.hpp:160-175, 201-239, `noexcept`
  | .build d vs => if p.q.p.var d = none ∧ d < p.lens.length then
      on (p.lens.set d vs.length) (built fails unwinds K d vs.length (fun i _ => vs[i]?.map some) p.q) else .ok p
  -- basic_array.hpp:101, `noexcept`; handle.hpp:373-380
  | .copy d s => match p.q.p.var s with
      | some y => if p.q.p.var d = none ∧ d < p.lens.length then
          on (p.lens.set d (len p s)) (built fails unwinds K d y.size (fun i p => p.cell s i) p.q) else .ok p
      | none => .ok p
  -- basic_array.hpp:98, defaulted; handle.hpp:342-355
  | .move d s => match p.q.p.var s with
      | some _ => if p.q.p.var d = none ∧ d < p.lens.length then
          on (p.lens.set d (len p s)) (Small.step fails K dflt p.q (.move d s)) else .ok p
      | none => .ok p
  -- basic_array.hpp:339, defaulted; handle.hpp:357-371
  | .moveAssign d s => match p.q.p.var d, p.q.p.var s with
      | some _, some _ => on (p.lens.set d (len p s)) (Small.step fails K dflt p.q (.moveAssign d s))
      | _, _ => .ok p
  -- basic_array.hpp:342, defaulted; handle.hpp:447-462
  | .copyAssign d s => match p.q.p.var d, p.q.p.var s with
      | some _, some _ => on (p.lens.set d (len p s)) (Small.step fails K dflt p.q (.copyAssign d s))
      | _, _ => .ok p
  -- basic_array.hpp:358-368, `noexcept`: `resize`, then the elements
  | .assign d vs => match p.q.p.var d with
      | some x => ((resize fails K dflt d vs.length x p).bind id fun p => on p.lens (put fails K dflt d 0 vs p.q)).noexcept
      | none => .ok p
  -- basic_array.hpp:373-377, `noexcept`
  | .fill d v => match p.q.p.var d with
      | some _ => (on p.lens (put fails K dflt d 0 (List.replicate (len p d) v) p.q)).noexcept
      | none => .ok p
  | .resize d n => match p.q.p.var d with
      | some x => resize fails K dflt d n x p
      | none => .ok p
  -- an access within the bounds of the layout
  | .read d i => match p.q.p.var d with
      | some _ => if i < len p d then
          match p.q.p.cell d i with
          | some (some _) => .ok p
          | _ => .ub
        else .ok p
      | none => .ok p
  | .destroy d => match p.q.p.var d with
      | some _ => on p.lens (Small.step fails K dflt p.q (.destroy d))
      | none => .ok p

/-- `basic_array(Int... is) noexcept`, basic_array.hpp:116-119: a default storage (handle.hpp:325), then `lay = ...; sto = storage_t{lay.size()}`, which is what
`resize` does with an array that has no elements. -/
def makeInts (fails : Nat → Bool) (K : Nat) (dflt : V) (d n : Nat) (p : AProg V) : Out (AProg V) :=
  if p.q.p.var d = none ∧ d < p.lens.length then
    ((on (p.lens.set d 0) (Small.step fails K dflt p.q (.new d 0))).bind id fun p =>
      match p.q.p.var d with
      | some x => resize fails K dflt d n x p
      | none => .ub).noexcept
  else .ok p

/-- `n` variables, none alive. -/
def start (n : Nat) : AProg V := ⟨Small.start (n + 1), List.replicate n 0⟩

end Nda.Mem.SmallArr
