import Mathlib.Data.List.Basic
/-!
# Several threads that share the storage of arrays (`c++/nda/mem/handle.hpp`)

A `handle_shared` made from a `handle_heap` (handle.hpp:489-494) owns the block together with the array.  The array is const in this operation, but `get_sptr` (101-104) sets its member
`mutable std::shared_ptr<void> sptr` when it is still null.  Here the operations are cut into the accesses that a thread makes, and threads interleave in any order.

Simplified: elements are not modelled, a block of memory is only live or released (the contents are in Model/Handles); the handle has no foreign library object; the counters of
`std::shared_ptr` are atomic (as the standard says), the pointers themselves are not; a new control block belongs to the thread alone until it is stored in `sptr`, so that it gets its
number only then; the memory is sequentially consistent (Spec/SharedThreads says which states have a data race, for which C++ does not promise anything).
-/
namespace Nda.SharedThreads

/-- What a thread does, one operation after another. -/
inductive Op where
  /-- variable `x` of the thread becomes a `handle_shared` made from the storage of array `a`, handle.hpp:489-494 -/
  | share (a x : Nat)
  /-- variable `y` becomes a copy of the handle `x` (implicit copy constructor of `handle_shared`) -/
  | copy (x y : Nat)
  /-- the destructor of handle `x` -/
  | drop (x : Nat)
  /-- an element is read through handle `x`, handle.hpp:497 -/
  | read (x : Nat)
  /-- an element of array `a` is read, handle.hpp:206 -/
  | readArr (a : Nat)
  /-- the destructor of array `a`, handle.hpp:109-112 -/
  | kill (a : Nat)
  deriving DecidableEq

/-- A control block of `std::shared_ptr<void>` with the block of memory that its deleter releases, handle.hpp:98, 102. -/
structure Ctrl where
  refs : Nat
  blk : Nat
  deriving DecidableEq

/-- The `handle_heap` of an array: `_data` and `sptr`, handle.hpp:66-76. -/
structure Arr where
  blk : Option Nat
  sptr : Option Nat
  deriving DecidableEq

/-- A `handle_shared`: `_data` and `sptr`, handle.hpp:472-476. -/
structure Hd where
  blk : Option Nat
  ctrl : Option Nat
  deriving DecidableEq

/-- Where a thread is inside an operation. -/
inductive Pc where
  | idle
  /-- `sptr` was null: the next access is the store of the new pointer, line 102 -/
  | publish (a x : Nat)
  /-- the pointer that `reset` has replaced is released, line 102 -/
  | release (a x c : Nat)
  /-- `return sptr`, line 103: the pointer is read -/
  | load (a x : Nat)
  /-- `return sptr`, line 103: the counter is increased -/
  | incr (a x c : Nat)
  /-- the last owner releases the block, `destruct`, lines 81-95, and goes on with `next` -/
  | free (b : Nat) (next : Pc)
  deriving DecidableEq

structure Thr where
  ops : List Op
  pc : Pc
  hs : List (Option Hd)
  deriving DecidableEq

/-- Memory blocks (live or not), control blocks, arrays (`none`: destroyed) and threads. -/
structure State where
  blocks : List Bool
  ctrls : List Ctrl
  arrs : List (Option Arr)
  thr : List Thr
  deriving DecidableEq

/-- What comes out of a step: nothing to do, undefined behaviour, or a new state. -/
inductive Out where
  | done
  | ub
  | ok (s : State)
  deriving DecidableEq

def State.setThr (s : State) (i : Nat) (t : Thr) : State := { s with thr := s.thr.set i t }

def State.setArr (s : State) (a : Nat) (v : Option Arr) : State := { s with arrs := s.arrs.set a v }

/-- The atomic decrement of a counter; the thread goes on with `pc`, or releases the block first if it was the last owner. -/
def State.decr (s : State) (i : Nat) (t : Thr) (c : Nat) (pc : Pc) : Out :=
  match s.ctrls[c]? with
  | none => .ub
  | some k =>
      if k.refs = 0 then .ub
      else .ok ({ s with ctrls := s.ctrls.set c { k with refs := k.refs - 1 } }.setThr i { t with pc := if k.refs = 1 then .free k.blk pc else pc })

/-- The atomic increment of a counter. -/
def State.incr (s : State) (c : Nat) : Option State :=
  match s.ctrls[c]? with
  | none => none
  | some k => if k.refs = 0 then none else some { s with ctrls := s.ctrls.set c { k with refs := k.refs + 1 } }

/-- The array `a`, if it is still there. -/
def State.arr (s : State) (a : Nat) : Option Arr := (s.arrs[a]?).join

/-- The handle in variable `x`. -/
def Thr.hd (t : Thr) (x : Nat) : Option Hd := (t.hs[x]?).join

/-- Variable `x` is there and holds nothing. -/
def Thr.empty (t : Thr) (x : Nat) : Bool := t.hs[x]? == some none

/-- The first step of an operation; `t` has the operations that come after it. -/
def begin (s : State) (i : Nat) (t : Thr) : Op → Out
  | .share a x =>
      -- handle.hpp:492-493: `_data(x.data()), _size(x.size())`, `if (not x.is_null()) sptr = x.get_sptr();`, then `if (not sptr)`, line 102
      if t.empty x then
        match s.arr a with
        | none => .ub
        | some v =>
            match v.blk with
            | none => .ok (s.setThr i { t with hs := t.hs.set x (some ⟨none, none⟩) })
            | some _ => .ok (s.setThr i { t with pc := if v.sptr = none then .publish a x else .load a x })
      else .ub
  | .copy x y =>
      if t.empty y then
        match t.hd x with
        | none => .ub
        | some h =>
            match h.ctrl with
            | none => .ok (s.setThr i { t with hs := t.hs.set y (some h) })
            | some c =>
                match s.incr c with
                | none => .ub
                | some s => .ok (s.setThr i { t with hs := t.hs.set y (some h) })
      else .ub
  | .drop x =>
      match t.hd x with
      | none => .ub
      | some h =>
          match h.ctrl with
          | none => .ok (s.setThr i { t with hs := t.hs.set x none })
          | some c => s.decr i { t with hs := t.hs.set x none } c .idle
  | .read x =>
      match t.hd x with
      | none => .ub
      | some h =>
          match h.blk with
          | none => .ub
          | some b => if s.blocks[b]? = some true then .ok (s.setThr i t) else .ub
  | .readArr a =>
      match s.arr a with
      | none => .ub
      | some v =>
          match v.blk with
          | none => .ub
          | some b => if s.blocks[b]? = some true then .ok (s.setThr i t) else .ub
  | .kill a =>
      -- handle.hpp:111: `if (not sptr and not(is_null())) destruct({_data, _size});`, then the member `sptr` is destroyed
      match s.arr a with
      | none => .ub
      | some v =>
          match v.sptr with
          | some c => (s.setArr a none).decr i t c .idle
          | none =>
              match v.blk with
              | none => .ok ((s.setArr a none).setThr i t)
              | some b => .ok ((s.setArr a none).setThr i { t with pc := .free b .idle })

/-- The next step of thread `i`. -/
def step (s : State) (i : Nat) : Out :=
  match s.thr[i]? with
  | none => .done
  | some t =>
      match t.pc with
      | .idle =>
          match t.ops with
          | [] => .done
          | o :: ops => begin s i { t with ops := ops } o
      | .publish a x =>
          -- `sptr.reset(new blk_T_t{_data, _size}, deleter)`, handle.hpp:102: the new pointer is swapped with the old one
          match s.arr a with
          | none => .ub
          | some v =>
              match v.blk with
              | none => .ub
              | some b =>
                  let s := { s with ctrls := s.ctrls ++ [(⟨1, b⟩ : Ctrl)] : State }.setArr a (some { v with sptr := some s.ctrls.length })
                  match v.sptr with
                  | none => .ok (s.setThr i { t with pc := .load a x })
                  | some old => .ok (s.setThr i { t with pc := .release a x old })
      | .release a x c => s.decr i t c (.load a x)
      | .load a x =>
          match s.arr a with
          | none => .ub
          | some v =>
              match v.sptr with
              | none => .ub
              | some c => .ok (s.setThr i { t with pc := .incr a x c })
      | .incr a x c =>
          match s.arr a with
          | none => .ub
          | some v =>
              match s.incr c with
              | none => .ub
              | some s => .ok (s.setThr i { t with pc := .idle, hs := t.hs.set x (some ⟨v.blk, some c⟩) })
      | .free b next =>
          if s.blocks[b]? = some true then .ok ({ s with blocks := s.blocks.set b false }.setThr i { t with pc := next }) else .ub

/-- Some thread makes a step. -/
inductive Step : State → State → Prop where
  | mk {s s' : State} (i : Nat) (h : step s i = .ok s') : Step s s'

/-- Any number of steps, by any threads. -/
inductive Steps : State → State → Prop where
  | refl (s : State) : Steps s s
  | tail {s t u : State} : Steps s t → Step t u → Steps s u

/-- The state after the threads of a schedule have made their steps. -/
def follow : List Nat → State → Out
  | [], s => .ok s
  | i :: is, s =>
      match step s i with
      | .ok s' => follow is s'
      | o => o

end Nda.SharedThreads
