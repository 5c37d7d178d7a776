import Verif.Model.Handles
import Verif.Model.Loops
/-!
# Model of `basic_array` (`c++/nda/basic_array.hpp`): layout and storage of owning arrays

An array is a layout and a heap handle (`Model/Handles.lean`).  The arrays of a program have the same
value type, rank and layout policy (stride order `so`, no static extents), as types of C++ variables that
are assigned to each other have; `triv`: the value type is trivial (or complex).  `none` as result: the
memory errors of `Model/Handles.lean`, an access outside the storage or through a null pointer, a storage of
negative size.
-/
namespace Nda.Arr
open Nda Nda.Mem Loops

variable {V : Type}

/-- The layout policy's constructor from a shape, idx_map.hpp:293-297. -/
def layoutOf (so : List Nat) (shape : List Int) : Option IdxMap :=
  IdxMap.ofShape shape so (List.replicate so.length 0) .contiguous

/-- A program: the handles `sto` of the arrays (the last variable is used for temporaries) and their layouts
`lay` (of arrays not alive: meaningless). -/
structure AProg (V : Type) where
  prog : Prog V
  lays : List IdxMap
deriving DecidableEq, Repr

/-- What programs do with arrays.  `f` in `build` and `assign` is the element access of an array or expression:
it may read memory. -/
inductive AOp (V : Type) where
  | default (d : Nat) (junk : List Int)
  | make (d : Nat) (shape : List Int)
  | zeros (d : Nat) (shape : List Int)
  | build (d : Nat) (shape : List Int) (f : List Int → Heap V → Option V)
  | copy (d s : Nat)
  | move (d s : Nat)
  | copyAssign (d s : Nat)
  | moveAssign (d s : Nat)
  | resize (d : Nat) (shape : List Int)
  | resizeOrCheck (d : Nat) (shape : List Int)
  | assign (d : Nat) (shape : List Int) (f : List Int → Heap V → Option V)
  | fill (d : Nat) (v : V)
  | destroy (d : Nat)

namespace AProg

/-- Index of the variable for temporaries. -/
def tmp (p : AProg V) : Nat := p.lays.length

/-- Array `d` can be constructed. -/
def free (p : AProg V) (d : Nat) : Bool := decide (d < p.lays.length) && (p.prog.var d).isNone

/-- Array `d` is alive. -/
def alive (p : AProg V) (d : Nat) : Bool := decide (d < p.lays.length) && (p.prog.var d).isSome

/-- `new (sto.data() + lay(is...)) ValueType{a(is...)}` for all indices, basic_array.hpp:174 (for trivial
types: `assign_from_ndarray(a)`, 170, modelled elementwise, see C17). -/
def placeAll (triv : Bool) (m : IdxMap) (f : List Int → Heap V → Option V) (b : Nat) (hp : Heap V) : Option (Heap V) :=
  forEach m.len (fun idx hp => do
    let v ← f idx hp
    let k ← m.call (idx.map .idx)
    if k < 0 then none else hp.construct triv b k.toNat v) hp

/-- `sto{lay.size(), mem::do_not_initialize}` followed by the construction of all elements,
basic_array.hpp:159-176. -/
def buildHandle (triv : Bool) (m : IdxMap) (f : List Int → Heap V → Option V) (mem : Mem V) : Option (Handle × Mem V) :=
  if m.size < 0 then none
  else if m.size = 0 then some (Handle.null, mem)
  else do
    let (b, hp) := mem.hp.alloc m.size.toNat
    let hp ← placeAll triv m f b hp
    return (.heap (some b) m.size.toNat none, { mem with hp := hp })

/-- `sto.data()[k] = v`. -/
def writeAt (triv : Bool) (p : Prog V) (d : Nat) (k : Int) (v : V) : Option (Prog V) := do
  let h ← p.var d
  let b ← h.data
  if k < 0 then none
  else do
    let hp ← p.mem.hp.write triv b k.toNat v
    return { p with mem := { p.mem with hp := hp } }

/-- `a(idx...)`, read: _impl_basic_array_view_common.hpp:128-172. -/
def elem (p : AProg V) (d : Nat) (idx : List Int) : Option V := do
  let m ← p.lays[d]?
  let h ← p.prog.var d
  let b ← h.data
  let k ← m.call (idx.map .idx)
  if k < 0 then none else p.prog.mem.hp.read b k.toNat

/-- `sto = storage_t{n}`, basic_array.hpp:415: a temporary, move assignment, end of the temporary. -/
def newStorage (triv : Bool) (dflt : V) (p : AProg V) (d n : Nat) : Option (AProg V) := do
  let q ← p.prog.step triv dflt (.new p.tmp n)
  let q ← q.step triv dflt (.moveAssign d p.tmp)
  let q ← q.step triv dflt (.destroy p.tmp)
  return { p with prog := q }

/-- `resize`, basic_array.hpp:412-416. -/
def resize (triv : Bool) (dflt : V) (so : List Nat) (p : AProg V) (d : Nat) (shape : List Int) : Option (AProg V) := do
  let m ← layoutOf so shape
  let h ← p.prog.var d
  let p' : AProg V := { p with lays := p.lays.set d m }
  if h.data = none ∨ (h.size : Int) ≠ m.size then
    if m.size < 0 then none else newStorage triv dflt p' d m.size.toNat
  else return p'

/-- `assign_from_ndarray` (elementwise, see C17). -/
def assignAll (triv : Bool) (p : AProg V) (d : Nat) (f : List Int → Heap V → Option V) : Option (AProg V) := do
  let m ← p.lays[d]?
  let q ← forEach m.len (fun idx q => do
    let v ← f idx q.mem.hp
    let k ← m.call (idx.map .idx)
    writeAt triv q d k v) p.prog
  return { p with prog := q }

/-- One operation.  Operations that do not type-check (use of an array that is not alive, construction of
one that is) do nothing. -/
def step (triv : Bool) (dflt : V) (so : List Nat) (p : AProg V) (op : AOp V) : Option (AProg V) :=
  match op with
  -- basic_array.hpp:92; the strides are left uninitialised (`junk`)
  | .default d junk => if p.free d then do
      let m ← IdxMap.default so (List.replicate so.length 0) .contiguous junk
      return ⟨p.prog.setVar d (some Handle.null), p.lays.set d m⟩ else some p
  -- basic_array.hpp:112-119, 145-148 (and 151-153, for the layout of a shape)
  | .make d shape => if p.free d then do
      let m ← layoutOf so shape
      if m.size < 0 then none else do
      let q ← p.prog.step triv dflt (.new d m.size.toNat)
      return ⟨q, p.lays.set d m⟩ else some p
  -- basic_array.hpp:71-72, 274-279
  | .zeros d shape => if p.free d then do
      let m ← layoutOf so shape
      if m.size < 0 then none else do
      let q ← p.prog.step triv dflt (.newZero d m.size.toNat)
      return ⟨q, p.lays.set d m⟩ else some p
  -- basic_array.hpp:159-176
  | .build d shape f => if p.free d then do
      let m ← layoutOf so shape
      let (h, mem) ← buildHandle triv m f p.prog.mem
      return ⟨{ p.prog with mem := mem }.setVar d (some h), p.lays.set d m⟩ else some p
  -- basic_array.hpp:98
  | .copy d s => if p.free d && p.alive s then do
      let m ← p.lays[s]?
      let q ← p.prog.step triv dflt (.copy d s)
      return ⟨q, p.lays.set d m⟩ else some p
  -- basic_array.hpp:95, and 264-268 (array to matrix and back): the layout is copied
  | .move d s => if p.free d && p.alive s then do
      let m ← p.lays[s]?
      let q ← p.prog.step triv dflt (.move d s)
      return ⟨q, p.lays.set d m⟩ else some p
  -- basic_array.hpp:342
  | .copyAssign d s => if p.alive d && p.alive s then do
      let m ← p.lays[s]?
      let q ← p.prog.step triv dflt (.copyAssign d s)
      return ⟨q, p.lays.set d m⟩ else some p
  -- basic_array.hpp:339
  | .moveAssign d s => if p.alive d && p.alive s then do
      let m ← p.lays[s]?
      let q ← p.prog.step triv dflt (.moveAssign d s)
      return ⟨q, p.lays.set d m⟩ else some p
  | .resize d shape => if p.alive d then p.resize triv dflt so d shape else some p
  -- `resize_or_check_if_view` of a container, basic_functions.hpp:215-225
  | .resizeOrCheck d shape => if p.alive d then do
      let m ← p.lays[d]?
      if m.len = shape then some p else p.resize triv dflt so d shape else some p
  -- basic_array.hpp:357-363
  | .assign d shape f => if p.alive d then do
      let p ← p.resize triv dflt so d shape
      p.assignAll triv d f else some p
  -- basic_array.hpp:372-379 with algebra 'A' or 'V' (the matrix case is in C18)
  | .fill d v => if p.alive d then do
      let m ← p.lays[d]?
      let q ← forLoop m.size (fun k q => writeAt triv q d k v) p.prog
      return { p with prog := q } else some p
  | .destroy d => if p.alive d then do
      let q ← p.prog.step triv dflt (.destroy d)
      return { p with prog := q } else some p

/-- A history. -/
def run (triv : Bool) (dflt : V) (so : List Nat) (p : AProg V) (ops : List (AOp V)) : Option (AProg V) :=
  ops.foldlM (fun p op => p.step triv dflt so op) p

/-- `n` arrays, none alive (and the variable for temporaries). -/
def start (n : Nat) : AProg V := ⟨Prog.start (n + 1), List.replicate n ⟨[], [], [], [], .contiguous⟩⟩

end AProg
end Nda.Arr
