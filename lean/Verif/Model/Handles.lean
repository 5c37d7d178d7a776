import Verif.Model.Basic
/-!
# Model of `c++/nda/mem/handle.hpp`: `handle_heap`, `handle_shared`

Blocks of memory are numbered in the order of their allocation and never reused, so that a use of a
released block is visible as such.  Every cell of a block holds an object (`some v`) or is raw memory
(`none`).  `none` as result of an operation means that the program touched a released block, released
a block twice, destroyed an object that does not exist, created an object over a live one, read raw
memory, or released a block with live objects in it.

`triv`: the value type is trivial (or complex): no constructors and destructors are called, memory is
copied byte by byte (raw memory included).
-/
namespace Nda.Mem

variable {V : Type}

/-- A block from the allocator. -/
structure Block (V : Type) where
  cells : List (Option V)
  freed : Bool
deriving DecidableEq, Repr

/-- All blocks ever allocated. -/
abbrev Heap (V : Type) := List (Block V)

namespace Heap

/-- `allocator.allocate(n * sizeof(T))`. -/
def alloc (hp : Heap V) (n : Nat) : Nat × Heap V := (hp.length, hp ++ [⟨List.replicate n none, false⟩])

/-- The live block `b`. -/
def live (hp : Heap V) (b : Nat) : Option (Block V) := do
  let blk ← hp[b]?
  if blk.freed then none else return blk

/-- Placement new of `v` at `data + i`. -/
def construct (triv : Bool) (hp : Heap V) (b i : Nat) (v : V) : Option (Heap V) := do
  let blk ← hp.live b
  match blk.cells[i]? with
  | none => none
  | some (some _) => if triv then return hp.set b { blk with cells := blk.cells.set i (some v) } else none
  | some none => return hp.set b { blk with cells := blk.cells.set i (some v) }

/-- `data[i].~T()`. -/
def destroy (hp : Heap V) (b i : Nat) : Option (Heap V) := do
  let blk ← hp.live b
  match blk.cells[i]? with
  | some (some _) => return hp.set b { blk with cells := blk.cells.set i none }
  | _ => none

/-- `allocator.deallocate`. -/
def dealloc (triv : Bool) (hp : Heap V) (b : Nat) : Option (Heap V) := do
  let blk ← hp.live b
  if !triv && blk.cells.any Option.isSome then none
  return hp.set b { blk with freed := true }

/-- Reading `data[i]`. -/
def read (hp : Heap V) (b i : Nat) : Option V := do
  let blk ← hp.live b
  (← blk.cells[i]?)

/-- `data[i] = v`: assignment to an existing object (for trivial types, to any cell). -/
def write (triv : Bool) (hp : Heap V) (b i : Nat) (v : V) : Option (Heap V) := do
  let blk ← hp.live b
  match blk.cells[i]? with
  | none => none
  | some none => if triv then return hp.set b { blk with cells := blk.cells.set i (some v) } else none
  | some (some _) => return hp.set b { blk with cells := blk.cells.set i (some v) }

/-- Construction of `n` objects from position `i` on. -/
def constructFrom (triv : Bool) (b : Nat) (f : Nat → Heap V → Option V) : Nat → Nat → Heap V → Option (Heap V)
  | 0, _, hp => some hp
  | n + 1, i, hp => do
      let v ← f i hp
      let hp ← hp.construct triv b i v
      constructFrom triv b f n (i + 1) hp

/-- Destruction of `n` objects from position `i` on. -/
def destroyFrom (b : Nat) : Nat → Nat → Heap V → Option (Heap V)
  | 0, _, hp => some hp
  | n + 1, i, hp => do
      let hp ← hp.destroy b i
      destroyFrom b n (i + 1) hp

/-- `memcpy` of a whole block of `n` cells into a fresh block. -/
def copyCells (hp : Heap V) (dst src : Nat) (n : Nat) : Option (Heap V) := do
  let s ← hp.live src
  let d ← hp.live dst
  if s.cells.length = n ∧ d.cells.length = n then return hp.set dst { d with cells := s.cells } else none

end Heap

/-- A control block of `std::shared_ptr<void>`: number of owners, and the `blk_T_t` that `get_sptr`
stores in it (handle.hpp:101-104), or the foreign object of handle.hpp:485 (`foreign`). -/
structure Ctrl where
  count : Nat
  data : Option Nat
  size : Nat
  foreign : Bool
deriving DecidableEq, Repr

/-- `handle_heap`, handle.hpp:64-78, and `handle_shared`, 467-476: `_data` (`none` is `nullptr`), `_size`,
`sptr` (index of the control block). -/
inductive Handle where
  | heap (data : Option Nat) (size : Nat) (sptr : Option Nat)
  | shared (data : Option Nat) (size : Nat) (sptr : Option Nat)
deriving DecidableEq, Repr

namespace Handle
def data : Handle → Option Nat | heap d _ _ => d | shared d _ _ => d
def size : Handle → Nat | heap _ n _ => n | shared _ n _ => n
def sptr : Handle → Option Nat | heap _ _ s => s | shared _ _ s => s
/-- The null handle, handle.hpp:114. -/
def null : Handle := heap none 0 none
end Handle

/-- Memory: blocks, control blocks, and the number of `blk_T_t` objects made by `new` at handle.hpp:102
and not deleted. -/
structure Mem (V : Type) where
  hp : Heap V
  ctrls : List Ctrl
  pairs : Nat
deriving DecidableEq, Repr

namespace Mem

/-- `destruct`, handle.hpp:81-95. -/
def destruct (triv : Bool) (data : Option Nat) (size : Nat) (m : Mem V) : Option (Mem V) :=
  match data with
  | none => some m
  | some b => do
      let hp ← if triv then some m.hp else Heap.destroyFrom b size 0 m.hp
      let hp ← hp.dealloc triv b
      return { m with hp := hp }

/-- `if (not sptr and not(is_null())) destruct({_data, _size});`, handle.hpp:111, 125. -/
def drop (triv : Bool) (data : Option Nat) (size : Nat) (sptr : Option Nat) (m : Mem V) : Option (Mem V) :=
  if sptr = none ∧ data ≠ none then m.destruct triv data size else some m

/-- An owner of control block `c` goes away; the last one calls the deleter: `deleter`, handle.hpp:98,
which calls `destruct` (and does not delete the `blk_T_t`), or the foreign decref, which is assumed
to release the foreign memory. -/
def release (triv : Bool) (s : Option Nat) (m : Mem V) : Option (Mem V) :=
  match s with
  | none => some m
  | some c => do
      let k ← m.ctrls[c]?
      if k.count = 0 then none
      let m := { m with ctrls := m.ctrls.set c { k with count := k.count - 1 } }
      if k.count - 1 ≠ 0 then return m
      if k.foreign then do
        match k.data with
        | none => return m
        | some b => do let hp ← m.hp.dealloc true b; return { m with hp := hp }
      else m.destruct triv k.data k.size

/-- A copy of the shared pointer `s`. -/
def acquire (s : Option Nat) (m : Mem V) : Option (Mem V) :=
  match s with
  | none => some m
  | some c => do
      let k ← m.ctrls[c]?
      return { m with ctrls := m.ctrls.set c { k with count := k.count + 1 } }

/-- `handle_heap(long size)`, handle.hpp:164-181: objects are default-constructed unless the type is
trivial.  (For complex numbers the memory is zeroed: `newZero`.) -/
def new (triv : Bool) (dflt : V) (n : Nat) (m : Mem V) : Option (Handle × Mem V) :=
  if n = 0 then some (Handle.null, m)
  else do
    let (b, hp) := m.hp.alloc n
    let hp ← if triv then some hp else Heap.constructFrom triv b (fun _ _ => some dflt) n 0 hp
    return (.heap (some b) n none, { m with hp := hp })

/-- `handle_heap(long size, init_zero_t)`, handle.hpp:155-161: all cells hold zero. -/
def newZero (zero : V) (n : Nat) (m : Mem V) : Option (Handle × Mem V) :=
  if n = 0 then some (Handle.null, m)
  else
    let (b, hp) := m.hp.alloc n
    some (.heap (some b) n none, { m with hp := hp.set b ⟨List.replicate n (some zero), false⟩ })

/-- `handle_heap(long size, do_not_initialize_t)`, handle.hpp:146-152, followed by the construction of the
elements, as all its users do (`basic_array.hpp:159-175`, `201-239`). -/
def newFrom (triv : Bool) (vs : List V) (m : Mem V) : Option (Handle × Mem V) :=
  if vs.length = 0 then some (Handle.null, m)
  else do
    let (b, hp) := m.hp.alloc vs.length
    let hp ← Heap.constructFrom triv b (fun i _ => vs[i]?) vs.length 0 hp
    return (.heap (some b) vs.length none, { m with hp := hp })

/-- `handle_heap(handle_heap const &x)`, handle.hpp:183-190 (also 194-203). -/
def copy (triv : Bool) (x : Handle) (m : Mem V) : Option (Handle × Mem V) :=
  if x.size = 0 then some (Handle.null, m)
  else do
    let src ← x.data
    let (b, hp) := m.hp.alloc x.size
    let hp ← if triv then hp.copyCells b src x.size
             else Heap.constructFrom triv b (fun i hp => hp.read src i) x.size 0 hp
    return (.heap (some b) x.size none, { m with hp := hp })

/-- `~handle_heap`, handle.hpp:109-112, and the implicit destructor of `handle_shared`. -/
def dtor (triv : Bool) (h : Handle) (m : Mem V) : Option (Mem V) :=
  match h with
  | .heap data size sptr => do
      let m ← m.drop triv data size sptr
      m.release triv sptr
  | .shared _ _ sptr => m.release triv sptr

/-- `handle_shared(handle_heap const &x)`, handle.hpp:489-494, with `get_sptr` (101-104): the new handle, and
`x`, whose (mutable) shared pointer may now be set. -/
def share (x : Handle) (m : Mem V) : Option (Handle × Handle × Mem V) :=
  match x with
  | .shared .. => none
  | .heap none n s => some (.shared none n none, .heap none n s, m)
  | .heap (some b) n none =>
      let c := m.ctrls.length
      some (.shared (some b) n (some c), .heap (some b) n (some c), { m with ctrls := m.ctrls ++ [⟨2, some b, n, false⟩], pairs := m.pairs + 1 })
  | .heap (some b) n (some c) => do
      let m ← m.acquire (some c)
      return (.shared (some b) n (some c), .heap (some b) n (some c), m)

/-- `handle_shared(T *data, size_t size, void *foreign_handle, foreign_decref)`, handle.hpp:485-486, for memory
that a foreign library has filled with `vs`. -/
def foreign (vs : List V) (m : Mem V) : Handle × Mem V :=
  (.shared (some m.hp.length) vs.length (some m.ctrls.length),
    { m with hp := m.hp ++ [⟨vs.map some, false⟩], ctrls := m.ctrls ++ [⟨1, some m.hp.length, vs.length, true⟩] })

end Mem

/-- A program: memory and variables; `none` is a variable whose lifetime has not begun or has ended. -/
structure Prog (V : Type) where
  mem : Mem V
  vars : List (Option Handle)
deriving DecidableEq, Repr

/-- What programs do with handles; `d`, `s` are variables. -/
inductive HOp (V : Type) where
  | new (d n : Nat)
  | newZero (d n : Nat)
  | newFrom (d : Nat) (vs : List V)
  | copy (d s : Nat)
  | move (d s : Nat)
  | copyAssign (d s : Nat)
  | moveAssign (d s : Nat)
  | share (d s : Nat)
  | foreign (d : Nat) (vs : List V)
  | copyShared (d s : Nat)
  | moveShared (d s : Nat)
  | copyAssignShared (d s : Nat)
  | moveAssignShared (d s : Nat)
  | destroy (d : Nat)
  | read (d i : Nat)
  | write (d i : Nat) (v : V)
deriving Repr

namespace Prog

/-- The variable `i` (absent and dead variables alike). -/
def var (p : Prog V) (i : Nat) : Option Handle := (p.vars[i]?).join

/-- Beginning or end of the lifetime of variable `i`. -/
def setVar (p : Prog V) (i : Nat) (h : Option Handle) : Prog V := { p with vars := p.vars.set i h }

/-- One operation.  Operations that do not type-check (construction of a variable that is alive, use of
a dead one, of the wrong type, an index out of range) do nothing. -/
def step (triv : Bool) (dflt : V) (p : Prog V) (op : HOp V) : Option (Prog V) :=
  match op with
  | .new d n => if p.var d = none ∧ d < p.vars.length then do
      let (h, m) ← p.mem.new triv dflt n
      return { p with mem := m }.setVar d (some h) else some p
  | .newZero d n => if p.var d = none ∧ d < p.vars.length then do
      let (h, m) ← p.mem.newZero dflt n
      return { p with mem := m }.setVar d (some h) else some p
  | .newFrom d vs => if p.var d = none ∧ d < p.vars.length then do
      let (h, m) ← p.mem.newFrom triv vs
      return { p with mem := m }.setVar d (some h) else some p
  | .copy d s => match p.var s with
      | some (.heap data n sp) => if p.var d = none ∧ d < p.vars.length then do
          let (h, m) ← p.mem.copy triv (.heap data n sp)
          return { p with mem := m }.setVar d (some h) else some p
      | _ => some p
  -- `handle_heap(handle_heap &&x)`, handle.hpp:116-122
  | .move d s => match p.var s with
      | some (.heap data n sp) => if p.var d = none ∧ d < p.vars.length then
          some ((p.setVar d (some (.heap data n sp))).setVar s (some Handle.null)) else some p
      | _ => some p
  -- `operator=(handle_heap const &x)`, handle.hpp:134-137: `*this = handle_heap{x}`, with the move assignment
  | .copyAssign d s => match p.var d, p.var s with
      | some (.heap data n sp), some (.heap data' n' sp') => do
          let (t, m) ← p.mem.copy triv (.heap data' n' sp')
          let m ← m.drop triv data n sp
          let m ← m.release triv sp
          let m ← m.dtor triv Handle.null
          return { p with mem := m }.setVar d (some t)
      | _, _ => some p
  -- `operator=(handle_heap &&x)`, handle.hpp:124-132; `sptr = std::move(x.sptr)` of a shared pointer to
  -- itself leaves it unchanged
  | .moveAssign d s => match p.var d, p.var s with
      | some (.heap data n sp), some (.heap data' n' sp') => do
          let m ← p.mem.drop triv data n sp
          if d = s then return { p with mem := m }.setVar d (some (.heap none 0 sp))
          else do
            let m ← m.release triv sp
            return ({ p with mem := m }.setVar d (some (.heap data' n' sp'))).setVar s (some Handle.null)
      | _, _ => some p
  | .share d s => match p.var s with
      | some (.heap data n sp) => if p.var d = none ∧ d < p.vars.length then do
          let (h, x, m) ← p.mem.share (.heap data n sp)
          return ({ p with mem := m }.setVar s (some x)).setVar d (some h) else some p
      | _ => some p
  | .foreign d vs => if p.var d = none ∧ d < p.vars.length then
      let (h, m) := p.mem.foreign vs
      some ({ p with mem := m }.setVar d (some h)) else some p
  | .copyShared d s => match p.var s with
      | some (.shared data n sp) => if p.var d = none ∧ d < p.vars.length then do
          let m ← p.mem.acquire sp
          return { p with mem := m }.setVar d (some (.shared data n sp)) else some p
      | _ => some p
  -- the implicit move constructor of `handle_shared`: `_data` and `_size` stay in the source
  | .moveShared d s => match p.var s with
      | some (.shared data n sp) => if p.var d = none ∧ d < p.vars.length then
          some ((p.setVar d (some (.shared data n sp))).setVar s (some (.shared data n none))) else some p
      | _ => some p
  | .copyAssignShared d s => match p.var d, p.var s with
      | some (.shared _ _ sp), some (.shared data n sp') => do
          let m ← p.mem.acquire sp'
          let m ← m.release triv sp
          return { p with mem := m }.setVar d (some (.shared data n sp'))
      | _, _ => some p
  | .moveAssignShared d s => match p.var d, p.var s with
      | some (.shared _ _ sp), some (.shared data n sp') =>
          if d = s then some p
          else do
            let m ← p.mem.release triv sp
            return ({ p with mem := m }.setVar d (some (.shared data n sp'))).setVar s (some (.shared data n none))
      | _, _ => some p
  | .destroy d => match p.var d with
      | some h => do
          let m ← p.mem.dtor triv h
          return { p with mem := m }.setVar d none
      | none => some p
  -- `operator[]`, handle.hpp:205-206 and 496-497
  | .read d i => match p.var d with
      | some h => if i < h.size then do
          let b ← h.data
          let blk ← p.mem.hp.live b
          match blk.cells[i]? with
          | some (some _) => return p
          | some none => if triv then return p else none
          | none => none
          else some p
      | none => some p
  | .write d i v => match p.var d with
      | some h => if i < h.size then do
          let b ← h.data
          let hp ← p.mem.hp.write triv b i v
          return { p with mem := { p.mem with hp := hp } } else some p
      | none => some p

/-- A history. -/
def run (triv : Bool) (dflt : V) (p : Prog V) (ops : List (HOp V)) : Option (Prog V) :=
  ops.foldlM (fun p op => p.step triv dflt op) p

/-- Before the first operation: `n` variables, none alive. -/
def start (n : Nat) : Prog V := ⟨⟨[], [], 0⟩, List.replicate n none⟩

end Prog
end Nda.Mem
