import Verif.Model.Handles
/-!
# Model of what happens in arrays when the constructors of elements throw

`basic_array` over `handle_heap` for a value type that is neither trivial nor trivially copyable, whose
constructors and assignments may throw and whose destructor does not (`c++/nda/mem/handle.hpp:83`
requires that).  The blocks, and what is undefined about them, are those of `Verif.Model.Handles`.

Simplified: of the layout only its size is kept (`basic_array::lay.size()`); storage is never shared
(`sptr` is null); the arrays are contiguous, so that element `i` in memory order is cell `i`.
-/
namespace Nda.Exc
open Nda.Mem

variable {V : Type}

/-- What the outside world does.  `fails t`: the `t`-th call of a constructor or of an assignment of an
element, counted from the start of the program, throws.  `oom b`: the `b`-th call of the allocator
returns null (`mallocator::allocate`, allocators.hpp:67-69, is `noexcept` and returns what `malloc`
returns).  `asserts`: `ASSERT` is compiled in (macros.hpp:36-78: not with `NDEBUG`).  `unwinds`: before an exception
that cannot leave a `noexcept` function calls `std::terminate`, the stack is unwound and destructors run;
C++ leaves that to the implementation ([except.terminate]). -/
structure World where
  fails : Nat → Bool
  oom : Nat → Bool
  asserts : Bool
  unwinds : Bool

/-- How an operation ends: normally, with an exception that its caller can catch (`a` is then the state
left behind), by `std::terminate`, or with undefined behaviour. -/
inductive Out (α : Type) where
  | ok (a : α)
  | threw (a : α)
  | terminate
  | ub
deriving DecidableEq, Repr

/-- A function declared `noexcept`: an exception that leaves it calls `std::terminate`. -/
def Out.noexcept {α : Type} : Out α → Out α
  | .threw _ => .terminate
  | o => o

/-- Sequencing; an exception skips the rest. -/
def Out.bind {α β : Type} (o : Out α) (onThrow : α → β) (f : α → Out β) : Out β :=
  match o with
  | .ok a => f a
  | .threw a => .threw (onThrow a)
  | .terminate => .terminate
  | .ub => .ub

/-- An array: `lay.size()`, and `sto`: `_data` and `_size`. -/
structure Arr where
  len : Nat
  data : Option Nat
  size : Nat
deriving DecidableEq, Repr

/-- Memory: the blocks, and the number of constructions and assignments of elements so far. -/
structure M (V : Type) where
  hp : Heap V
  tick : Nat
deriving DecidableEq, Repr

/-- `for (size_t i = 0; i < size; ++i) new (_data + i) T(...)`, handle.hpp:179, 188, 201, basic_array.hpp:173,
209: `n` objects from position `i` on; `f` gives the argument of the constructor. -/
def construct (w : World) (b : Nat) (f : Nat → Heap V → Option V) : Nat → Nat → M V → Out (M V)
  | 0, _, m => .ok m
  | n + 1, i, m =>
      match f i m.hp with
      | none => .ub
      | some v =>
          if w.fails m.tick then .threw { m with tick := m.tick + 1 }
          else match m.hp.construct false b i v with
            | none => .ub
            | some hp => construct w b f n (i + 1) ⟨hp, m.tick + 1⟩

/-- `handle_heap(long size, do_not_initialize_t)`, handle.hpp:146-152, for `size ≠ 0`.  When the allocator returns
null and `ASSERT` is not compiled in, `_data` is null: `none`. -/
def allocate (w : World) (n : Nat) (m : M V) : Out (Option Nat × M V) :=
  if w.oom m.hp.length then
    if w.asserts then .terminate else .ok (none, m)
  else .ok (some (m.hp.alloc n).1, { m with hp := (m.hp.alloc n).2 })

/-- `handle_heap(long size)`, handle.hpp:164-181.  The constructor does not delegate: when `T()` throws, the
destructor of the handle is not called and `_data` is lost.  Placement new at a null pointer is
undefined. -/
def newStorage (w : World) (dflt : V) (n : Nat) (m : M V) : Out ((Option Nat × Nat) × M V) :=
  if n = 0 then .ok ((none, 0), m)
  else match allocate w n m with
    | .ok (some b, m) => (construct w b (fun _ _ => some dflt) n 0 m).bind (fun m => ((none, 0), m)) fun m => .ok ((some b, n), m)
    | .ok (none, _) => .ub
    | .threw (_, m) => .threw ((none, 0), m)
    | .terminate => .terminate
    | .ub => .ub

/-- `destruct`, handle.hpp:81-95. -/
def destruct (data : Option Nat) (size : Nat) (m : M V) : Out (M V) :=
  match data with
  | none => .ok m
  | some b =>
      match Heap.destroyFrom b size 0 m.hp with
      | none => .ub
      | some hp => match hp.dealloc false b with
        | none => .ub
        | some hp => .ok { m with hp := hp }

/-- The destructor of a handle during stack unwinding; the exception goes on. -/
def abandon (data : Option Nat) (size : Nat) (m : M V) : Out ((Option Nat × Nat) × M V) :=
  match destruct data size m with
  | .ok m => .threw ((none, 0), m)
  | .threw _ => .terminate
  | .terminate => .terminate
  | .ub => .ub

/-- `handle_heap(handle_heap const &x)`, handle.hpp:183-190.  This constructor delegates to the one of lines 146-152:
when `T(T const &)` throws in its body, the handle counts as constructed, and its destructor
(109-112) runs, if the stack is unwound at all: `destruct` of all `_size` elements. -/
def copyStorage (w : World) (unwound : Bool) (x : Arr) (m : M V) : Out ((Option Nat × Nat) × M V) :=
  if x.size = 0 then .ok ((none, 0), m)
  else match allocate w x.size m with
    | .ok (some b, m) =>
        match construct w b (fun i hp => x.data.bind fun s => hp.read s i) x.size 0 m with
        | .ok m => .ok ((some b, x.size), m)
        | .threw m => if unwound then abandon (some b) x.size m else .threw ((none, 0), m)
        | .terminate => .terminate
        | .ub => .ub
    | .ok (none, m) => .ok ((none, x.size), m)
    | .threw (_, m) => .threw ((none, 0), m)
    | .terminate => .terminate
    | .ub => .ub

/-- A handle filled by placement new with the values of an expression or of an initializer list,
basic_array.hpp:159-175, 201-239: storage `do_not_initialize`, then the elements, in the body of a `noexcept` constructor: if
the stack is unwound, the destructor of the member `sto` runs. -/
def storageFrom (w : World) (vs : List V) (m : M V) : Out ((Option Nat × Nat) × M V) :=
  if vs.length = 0 then .ok ((none, 0), m)
  else match allocate w vs.length m with
    | .ok (some b, m) =>
        match construct w b (fun i _ => vs[i]?) vs.length 0 m with
        | .ok m => .ok ((some b, vs.length), m)
        | .threw m => if w.unwinds then abandon (some b) vs.length m else .threw ((none, 0), m)
        | .terminate => .terminate
        | .ub => .ub
    | .ok (none, _) => .ub
    | .threw (_, m) => .threw ((none, 0), m)
    | .terminate => .terminate
    | .ub => .ub

/-- `sto = storage_t{...}`: `operator=(handle_heap &&x) noexcept`, handle.hpp:124-132, from a temporary (which is null
afterwards and whose destructor does nothing). -/
def moveStorage (x : Arr) (t : Option Nat × Nat) (m : M V) : Out (Arr × M V) :=
  match destruct x.data x.size m with
  | .ok m => .ok ({ x with data := t.1, size := t.2 }, m)
  | .threw m => .threw (x, m)
  | .terminate => .terminate
  | .ub => .ub

/-- `resize`, basic_array.hpp:412-416: the layout first, then the storage.  An exception leaves the array with the
new layout and the old storage. -/
def resize (w : World) (dflt : V) (x : Arr) (n : Nat) (m : M V) : Out (Arr × M V) :=
  let x := { x with len := n }
  if x.data = none ∨ x.size ≠ n then
    (newStorage w dflt n m).bind (fun r => (x, r.2)) fun r => moveStorage x r.1 r.2
  else .ok (x, m)

/-- `operator=(basic_array const &X) = default`, basic_array.hpp:342: memberwise, `lay` first, then `sto`
(handle.hpp:134-137: `*this = handle_heap{x}`). -/
def copyAssign (w : World) (x y : Arr) (m : M V) : Out (Arr × M V) :=
  let x' := { x with len := y.len }
  (copyStorage w true y m).bind (fun r => (x', r.2)) fun r => moveStorage x' r.1 r.2

/-- `(*this)(i) = v` for the elements `i`, `i + 1`, … of the storage: `assign_from_ndarray` (_impl_basic_array_view_common.hpp:331-388)
and `fill_with_scalar` (393-408) for contiguous arrays. -/
def assignElems (w : World) (data : Option Nat) : List V → Nat → M V → Out (M V)
  | [], _, m => .ok m
  | v :: vs, i, m =>
      match data with
      | none => .ub
      | some b =>
          match m.hp.write false b i v with
          | none => .ub
          | some hp => if w.fails m.tick then .threw ⟨m.hp, m.tick + 1⟩ else assignElems w data vs (i + 1) ⟨hp, m.tick + 1⟩

/-- `operator=(RHS const &rhs) noexcept`, basic_array.hpp:357-363: `resize`, then the elements; `vs` are the values of the
right-hand side. -/
def assignExpr (w : World) (dflt : V) (x : Arr) (vs : List V) (m : M V) : Out (Arr × M V) :=
  ((resize w dflt x vs.length m).bind id fun r =>
    (assignElems w r.1.data vs 0 r.2).bind (fun m => (r.1, m)) fun m => .ok (r.1, m)).noexcept

/-- `operator=(RHS const &rhs) noexcept` for a scalar, basic_array.hpp:371-379, with `fill_with_scalar`: every element of the
shape, `lay.size()` of them. -/
def assignScalar (w : World) (x : Arr) (v : V) (m : M V) : Out (Arr × M V) :=
  ((assignElems w x.data (List.replicate x.len v) 0 m).bind (fun m => (x, m)) fun m => .ok (x, m)).noexcept

/-- What programs do with arrays; `d`, `s` are variables. -/
inductive Op (V : Type) where
  | make (d n : Nat)
  | build (d : Nat) (vs : List V)
  | copy (d s : Nat)
  | move (d s : Nat)
  | moveAssign (d s : Nat)
  | copyAssign (d s : Nat)
  | assign (d : Nat) (vs : List V)
  | fill (d : Nat) (v : V)
  | resize (d n : Nat)
  | read (d i : Nat)
  | destroy (d : Nat)
deriving Repr, DecidableEq

/-- A program: memory and variables; `none` is a variable whose lifetime has not begun or has ended. -/
structure St (V : Type) where
  m : M V
  vars : List (Option Arr)
deriving DecidableEq, Repr

namespace St

def var (p : St V) (i : Nat) : Option Arr := (p.vars[i]?).join

def setVar (p : St V) (i : Nat) (x : Option Arr) : St V := { p with vars := p.vars.set i x }

/-- A variable is constructed from storage for `len` elements. -/
def born (p : St V) (d len : Nat) (o : Out ((Option Nat × Nat) × M V)) : Out (St V) :=
  match o.noexcept with
  | .ok (t, m) => .ok ({ p with m := m }.setVar d (some ⟨len, t.1, t.2⟩))
  | .threw _ => .terminate
  | .terminate => .terminate
  | .ub => .ub

/-- A variable is modified. -/
def upd (p : St V) (d : Nat) (o : Out (Arr × M V)) : Out (St V) :=
  match o with
  | .ok (x, m) => .ok ({ p with m := m }.setVar d (some x))
  | .threw (x, m) => .threw ({ p with m := m }.setVar d (some x))
  | .terminate => .terminate
  | .ub => .ub

/-- One operation.  Operations that do not type-check (construction of a variable that is alive, use of a
dead one) and reads outside of the shape do nothing. -/
def step (w : World) (dflt : V) (p : St V) (op : Op V) : Out (St V) :=
  match op with
  -- `basic_array(std::array<Int, Rank> const &shape) noexcept`, basic_array.hpp:143-146 (also 116-120)
  | .make d n => if p.var d = none ∧ d < p.vars.length then p.born d n (newStorage w dflt n p.m) else .ok p
  -- `basic_array(A const &a) noexcept`, basic_array.hpp:159-175, and from initializer lists, 201-239
  | .build d vs => if p.var d = none ∧ d < p.vars.length then p.born d vs.length (storageFrom w vs p.m) else .ok p
  -- `basic_array(basic_array const &x) noexcept`, basic_array.hpp:101
  | .copy d s => match p.var s with
      | some x => if p.var d = none ∧ d < p.vars.length then p.born d x.len (copyStorage w w.unwinds x p.m) else .ok p
      | none => .ok p
  -- `basic_array(basic_array &&X) = default`, basic_array.hpp:98, with handle.hpp:116-122: the layout stays in the source
  | .move d s => match p.var s with
      | some x => if p.var d = none ∧ d < p.vars.length then
          .ok ((p.setVar d (some x)).setVar s (some ⟨x.len, none, 0⟩)) else .ok p
      | none => .ok p
  -- `operator=(basic_array &&x) = default`, basic_array.hpp:339, with handle.hpp:124-132
  | .moveAssign d s => match p.var d, p.var s with
      | some x, some y => match destruct x.data x.size p.m with
          | .ok m => if d = s then .ok ({ p with m := m }.setVar d (some ⟨x.len, none, 0⟩))
              else .ok (({ p with m := m }.setVar d (some y)).setVar s (some ⟨y.len, none, 0⟩))
          | .threw _ => .terminate
          | .terminate => .terminate
          | .ub => .ub
      | _, _ => .ok p
  | .copyAssign d s => match p.var d, p.var s with
      | some x, some y => p.upd d (Exc.copyAssign w x y p.m)
      | _, _ => .ok p
  | .assign d vs => match p.var d with
      | some x => p.upd d (assignExpr w dflt x vs p.m)
      | none => .ok p
  | .fill d v => match p.var d with
      | some x => p.upd d (assignScalar w x v p.m)
      | none => .ok p
  | .resize d n => match p.var d with
      | some x => p.upd d (Exc.resize w dflt x n p.m)
      | none => .ok p
  -- `sto[lay(i)]`
  | .read d i => match p.var d with
      | some x => if i < x.len then
          match x.data.bind fun b => p.m.hp.read b i with
          | some _ => .ok p
          | none => .ub
        else .ok p
      | none => .ok p
  -- `~handle_heap`, handle.hpp:109-112
  | .destroy d => match p.var d with
      | some x => match destruct x.data x.size p.m with
          | .ok m => .ok ({ p with m := m }.setVar d none)
          | .threw _ => .terminate
          | .terminate => .terminate
          | .ub => .ub
      | none => .ok p

/-- A program that catches every exception and goes on.  The list says which operations threw. -/
def run (w : World) (dflt : V) : St V → List (Op V) → Out (St V × List Bool)
  | p, [] => .ok (p, [])
  | p, op :: ops =>
      match p.step w dflt op with
      | .ok q => (run w dflt q ops).bind (fun r => (r.1, false :: r.2)) fun r => .ok (r.1, false :: r.2)
      | .threw q => (run w dflt q ops).bind (fun r => (r.1, true :: r.2)) fun r => .ok (r.1, true :: r.2)
      | .terminate => .terminate
      | .ub => .ub

/-- `N` variables, none alive. -/
def init (N : Nat) : St V := ⟨⟨[], 0⟩, List.replicate N none⟩

end St
end Nda.Exc
