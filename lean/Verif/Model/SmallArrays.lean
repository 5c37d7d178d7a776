import Verif.Model.Sso
import Verif.Model.Values
/-!
# Programs on owning arrays with small-buffer storage

`basic_array` with the container policy `sso<K>` (mem/policies.hpp:44-48; `storage_t` at basic_array.hpp:52): the statements of Model/Values, on handles
`handle_sso<T, K>` (Model/Sso) instead of `handle_heap`.  Trivial element types (such as `double`, `int`; for others see C29 and C85).  `none` as result: as in
Model/Arrays and Model/Sso.
-/
namespace Nda.SmallArr
open Nda Nda.Mem Nda.Arr Loops LayoutTransforms

variable {V : Type}

/-- The handles `sto` of the arrays (the last variable is for temporaries) and their layouts `lay`, basic_array.hpp:69-70. -/
structure SAProg (V : Type) where
  prog : SProg V
  lays : List IdxMap
deriving DecidableEq, Repr

namespace SAProg

/-- Index of the variable for temporaries. -/
def tmp (p : SAProg V) : Nat := p.lays.length

/-- Array `d` can be constructed. -/
def free (p : SAProg V) (d : Nat) : Bool := decide (d < p.lays.length) && (p.prog.var d).isNone

/-- Array `d` is alive. -/
def alive (p : SAProg V) (d : Nat) : Bool := decide (d < p.lays.length) && (p.prog.var d).isSome

/-- What the pointer `ptr`, into the buffer of variable `x` or to a block, gives at position `k` while memory changes. -/
def load (q : SProg V) (x : Nat) (ptr : Ptr) (k : Nat) : Option V :=
  match ptr with
  | .null => none
  | .inline => do
      let y ← q.var x
      (← y.buf[k]?)
  | .block b => q.hp.read b k

/-- `a(idx...)`, read while memory changes: layout and pointer are those of `p`, the memory is that of `q`;
_impl_basic_array_view_common.hpp:128-172. -/
def elemIn (p : SAProg V) (q : SProg V) (x : Nat) (idx : List Int) : Option V := do
  let m ← p.lays[x]?
  let h ← p.prog.var x
  let k ← m.call (idx.map .idx)
  if k < 0 then none else load q x h.data k.toNat

/-- `a(idx...)`. -/
def elem (p : SAProg V) (x : Nat) (idx : List Int) : Option V := p.elemIn p.prog x idx

/-- `sto.data()[k] = v`. -/
def writeAt (q : SProg V) (d : Nat) (k : Int) (v : V) : Option (SProg V) :=
  if k < 0 then none else q.setCell d k.toNat (some v)

/-- All elements, one after the other; _impl_basic_array_view_common.hpp:331-388, elementwise (C17). -/
def assignAll (p old : SAProg V) (d : Nat) (rhs : List Int → Comp V) : Option (SAProg V) := do
  let m ← p.lays[d]?
  let q ← forEach m.len (fun idx q => do
    let v ← (rhs idx).eval (old.elemIn q)
    let k ← m.call (idx.map .idx)
    writeAt q d k v) p.prog
  return { p with prog := q }

/-- `sto = storage_t{n}`, basic_array.hpp:415: a temporary, move assignment (handle.hpp:357-371), end of the temporary. -/
def newStorage (K : Nat) (dflt : V) (p : SAProg V) (d n : Nat) : Option (SAProg V) := do
  let q ← p.prog.step true K dflt (.new p.tmp n)
  let q ← q.step true K dflt (.moveAssign d p.tmp)
  let q ← q.step true K dflt (.destroy p.tmp)
  return { p with prog := q }

/-- `resize`, basic_array.hpp:412-416. -/
def resize (K : Nat) (dflt : V) (so : List Nat) (p : SAProg V) (d : Nat) (shape : List Int) : Option (SAProg V) := do
  let m ← layoutOf so shape
  let h ← p.prog.var d
  let p' : SAProg V := { p with lays := p.lays.set d m }
  if h.data = .null ∨ (h.size : Int) ≠ m.size then
    if m.size < 0 then none else newStorage K dflt p' d m.size.toNat
  else return p'

/-- A handle operation together with the layout that the array gets. -/
def withLay (K : Nat) (dflt : V) (p : SAProg V) (d : Nat) (m : IdxMap) (op : SOp V) : Option (SAProg V) := do
  let q ← p.prog.step true K dflt op
  return ⟨q, p.lays.set d m⟩

/-- Assignment to a view of `d`, see Model/Values. -/
def putAll (p : SAProg V) (d : Nat) (ops : List Op) (rhs : List Int → Comp V) : Option (SAProg V) := do
  let m ← p.lays[d]?
  let v ← LayoutTransforms.run ⟨0, m⟩ ops
  let q ← forEach v.lay.len (fun idx q => do
    let x ← (rhs idx).eval (p.elemIn q)
    let k ← v.lay.call (idx.map .idx)
    writeAt q d (v.off + k) x) p.prog
  return { p with prog := q }

/-- One statement; array `d` has stride order `so d`, inline capacity `K`. -/
def vstep (K : Nat) (dflt : V) (so : Nat → List Nat) (p : SAProg V) : VOp V → Option (SAProg V)
  -- basic_array.hpp:92, handle.hpp:325
  | .default d junk => if p.free d then do
      let m ← IdxMap.default (so d) (List.replicate (so d).length 0) .contiguous junk
      p.withLay K dflt d m (.new d 0) else some p
  -- basic_array.hpp:145-148; 112-119 goes through a temporary, which leaves the same elements of a trivial type
  | .make d shape => if p.free d then do
      let m ← layoutOf (so d) shape
      if m.size < 0 then none else p.withLay K dflt d m (.new d m.size.toNat) else some p
  -- basic_array.hpp:71-72, 274-279
  | .zeros d shape => if p.free d then do
      let m ← layoutOf (so d) shape
      if m.size < 0 then none else p.withLay K dflt d m (.newZero d m.size.toNat) else some p
  -- basic_array.hpp:159-170: uninitialised storage (for trivial types that is what `new` makes), then assignment of all elements;
  -- nothing more to do if there are none
  | .build d shape rhs => if p.free d then do
      let m ← layoutOf (so d) shape
      if m.size < 0 then none else do
      let p' ← p.withLay K dflt d m (.new d m.size.toNat)
      if m.size = 0 then some p' else p'.assignAll p d rhs else some p
  -- basic_array.hpp:98
  | .copy d s => if p.free d && p.alive s then do
      let m ← p.lays[s]?
      p.withLay K dflt d m (.copy d s) else some p
  -- basic_array.hpp:95
  | .move d s => if p.free d && p.alive s then do
      let m ← p.lays[s]?
      p.withLay K dflt d m (.move d s) else some p
  -- basic_array.hpp:342
  | .copyAssign d s => if p.alive d && p.alive s then do
      let m ← p.lays[s]?
      p.withLay K dflt d m (.copyAssign d s) else some p
  -- basic_array.hpp:339
  | .moveAssign d s => if p.alive d && p.alive s then do
      let m ← p.lays[s]?
      p.withLay K dflt d m (.moveAssign d s) else some p
  | .resize d shape => if p.alive d then p.resize K dflt (so d) d shape else some p
  -- basic_array.hpp:357-363
  | .assign d shape rhs => if p.alive d then do
      let p' ← p.resize K dflt (so d) d shape
      p'.assignAll p d rhs else some p
  -- basic_array.hpp:372-379
  | .fill d v => if p.alive d then do
      let m ← p.lays[d]?
      let q ← forLoop m.size (fun k q => writeAt q d k v) p.prog
      return { p with prog := q } else some p
  | .put d ops _ rhs => if p.alive d then p.putAll d ops rhs else some p
  | .destroy d => if p.alive d then do
      let q ← p.prog.step true K dflt (.destroy d)
      return { p with prog := q } else some p

/-- A program. -/
def vrun (K : Nat) (dflt : V) (so : Nat → List Nat) (p : SAProg V) (ops : List (VOp V)) : Option (SAProg V) :=
  ops.foldlM (fun p op => p.vstep K dflt so op) p

/-- `n` arrays, none alive. -/
def start (n : Nat) : SAProg V := ⟨SProg.start (n + 1), List.replicate n ⟨[], [], [], [], .contiguous⟩⟩

end SAProg
end Nda.SmallArr
