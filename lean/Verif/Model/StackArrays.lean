import Verif.Model.Sso
import Verif.Model.Values
/-!
# Programs on arrays on the stack

`basic_array` with the container policy `stack<N>` (mem/policies.hpp; `stack_array`, `stack_vector`, `stack_matrix`, declarations.hpp:85-99): all extents are static, the handle
(`handle_stack`, Model/Sso) holds the elements itself.  The statements are those of Model/Values.  `triv`: the element type is trivial (or complex).  `none` as result: as in
Model/Arrays and Model/Sso.  That the shapes of a program are the static ones is a debug check (idx_map.hpp:293-297), that its arrays have `N0 * N1 * ...` elements is in their type.
-/
namespace Nda.StackArr
open Nda Nda.Mem Nda.Arr Loops LayoutTransforms

variable {V : Type}

/-- The size of the handle, `N0 *(Ns *... * 1)`, declarations.hpp:89, 95, 100. -/
def capacity (ext : List Nat) : Nat := ext.foldr (· * ·) 1

/-- The layout policy's constructor from a shape, when the extents are static, idx_map.hpp:293-297. -/
def layoutOf (so ext : List Nat) (shape : List Int) : Option IdxMap := IdxMap.ofShape shape so ext .contiguous

/-- The types of the variables: stride orders and static extents. -/
structure Types where
  so : Nat → List Nat
  ext : Nat → List Nat

/-- The handles `sto` of the arrays (the last variable is for temporaries) and their layouts `lay`, basic_array.hpp:69-70. -/
structure KProg (V : Type) where
  vars : StackH.Vars V
  lays : List IdxMap
deriving DecidableEq, Repr

namespace KProg

/-- Index of the variable for temporaries. -/
def tmp (p : KProg V) : Nat := p.lays.length

/-- Array `d` can be constructed. -/
def free (p : KProg V) (d : Nat) : Bool := decide (d < p.lays.length) && (StackH.var p.vars d).isNone

/-- Array `d` is alive. -/
def alive (p : KProg V) (d : Nat) : Bool := decide (d < p.lays.length) && (StackH.var p.vars d).isSome

/-- `a(idx...)`, read while memory changes: the layout is that of `p`, the memory is `q`; _impl_basic_array_view_common.hpp:128-172. -/
def elemIn (p : KProg V) (q : StackH.Vars V) (x : Nat) (idx : List Int) : Option V := do
  let m ← p.lays[x]?
  let k ← m.call (idx.map .idx)
  let y ← StackH.var q x
  if k < 0 then none else (y[k.toNat]?).join

/-- `a(idx...)`. -/
def elem (p : KProg V) (x : Nat) (idx : List Int) : Option V := p.elemIn p.vars x idx

/-- `sto.data()[k] = v`: undefined outside the buffer and, for non-trivial types, where there is no object. -/
def writeAt (triv : Bool) (q : StackH.Vars V) (d : Nat) (k : Int) (v : V) : Option (StackH.Vars V) := do
  let y ← StackH.var q d
  if k < 0 then none else do
    let old ← y[k.toNat]?
    if triv = false ∧ old.isNone then none else return q.set d (some (y.set k.toNat (some v)))

/-- `new (sto.data() + k) ValueType{v}`. -/
def placeAt (triv : Bool) (q : StackH.Vars V) (d : Nat) (k : Int) (v : V) : Option (StackH.Vars V) :=
  if k < 0 then none else StackH.construct triv q d k.toNat (some v)

/-- All elements, one after the other, of the array with layout `m`; `put` is `writeAt` or `placeAt`. -/
def assignAll (put : StackH.Vars V → Nat → Int → V → Option (StackH.Vars V)) (old : KProg V) (m : IdxMap) (d : Nat) (rhs : List Int → Comp V) (q : StackH.Vars V) :
    Option (StackH.Vars V) :=
  forEach m.len (fun idx q => do
    let v ← (rhs idx).eval (old.elemIn q)
    let k ← m.call (idx.map .idx)
    put q d k v) q

/-- `sto = storage_t{n}`, basic_array.hpp:415: a temporary, move assignment (handle.hpp:254-257), end of the temporary. -/
def newStorage (triv : Bool) (dflt : V) (N : Nat) (p : KProg V) (d : Nat) : Option (KProg V) := do
  let q ← StackH.step triv N dflt p.vars (.new p.tmp)
  let q ← StackH.step triv N dflt q (.assign d p.tmp)
  let q ← StackH.step triv N dflt q (.destroy p.tmp)
  return { p with vars := q }

/-- `resize`, basic_array.hpp:412-416; `is_null()` is `false`, `size()` is the size of the type (handle.hpp:284-285). -/
def resize (triv : Bool) (dflt : V) (t : Types) (p : KProg V) (d : Nat) (shape : List Int) : Option (KProg V) := do
  let m ← layoutOf (t.so d) (t.ext d) shape
  let p' : KProg V := { p with lays := p.lays.set d m }
  if (capacity (t.ext d) : Int) ≠ m.size then newStorage triv dflt (capacity (t.ext d)) p' d else return p'

/-- A handle operation together with the layout that the array gets. -/
def withLay (triv : Bool) (dflt : V) (N : Nat) (p : KProg V) (d : Nat) (m : IdxMap) (op : StackH.Op V) : Option (KProg V) := do
  let q ← StackH.step triv N dflt p.vars op
  return ⟨q, p.lays.set d m⟩

/-- Assignment to a view of `d`, see Model/Values. -/
def putAll (triv : Bool) (p : KProg V) (d : Nat) (ops : List Op) (rhs : List Int → Comp V) : Option (KProg V) := do
  let m ← p.lays[d]?
  let v ← LayoutTransforms.run ⟨0, m⟩ ops
  let q ← forEach v.lay.len (fun idx q => do
    let x ← (rhs idx).eval (p.elemIn q)
    let k ← v.lay.call (idx.map .idx)
    writeAt triv q d (v.off + k) x) p.vars
  return { p with vars := q }

/-- `for (i = 0; i < Size; ++i) data()[i] = 0`, handle.hpp:269-272 (only for scalar and complex types). -/
def zeroed (dflt : V) (N : Nat) (q : StackH.Vars V) (d : Nat) : Option (StackH.Vars V) :=
  StackH.constructFrom true d (fun _ _ => some (some dflt)) N 0 (q.set d (some (List.replicate N none)))

/-- One statement. -/
def vstep (triv : Bool) (dflt : V) (t : Types) (p : KProg V) : VOp V → Option (KProg V)
  -- basic_array.hpp:92, idx_map.hpp:187-195, handle.hpp:244: layout of the static extents, elements not initialised
  | .default d junk => if p.free d then do
      let m ← IdxMap.default (t.so d) (t.ext d) .contiguous junk
      p.withLay triv dflt (capacity (t.ext d)) d m (.raw d) else some p
  -- basic_array.hpp:112-119 (a temporary handle, copied), 145-148
  | .make d shape => if p.free d then do
      let m ← layoutOf (t.so d) (t.ext d) shape
      p.withLay triv dflt (capacity (t.ext d)) d m (.new d) else some p
  -- basic_array.hpp:71-72, 274-279
  | .zeros d shape => if p.free d then do
      let m ← layoutOf (t.so d) (t.ext d) shape
      let q ← zeroed dflt (capacity (t.ext d)) p.vars d
      return ⟨q, p.lays.set d m⟩ else some p
  -- basic_array.hpp:159-176: uninitialised storage (handle.hpp:266), then assignment of all elements (trivial and complex types) or placement new
  | .build d shape rhs => if p.free d then do
      let m ← layoutOf (t.so d) (t.ext d) shape
      let q := p.vars.set d (some (List.replicate (capacity (t.ext d)) none))
      let q ← if triv then assignAll (writeAt true) p m d rhs q else assignAll (placeAt false) p m d rhs q
      return ⟨q, p.lays.set d m⟩ else some p
  -- basic_array.hpp:98
  | .copy d s => if p.free d && p.alive s then do
      let m ← p.lays[s]?
      p.withLay triv dflt (capacity (t.ext d)) d m (.copy d s) else some p
  -- basic_array.hpp:95, handle.hpp:252
  | .move d s => if p.free d && p.alive s then do
      let m ← p.lays[s]?
      p.withLay triv dflt (capacity (t.ext d)) d m (.copy d s) else some p
  -- basic_array.hpp:342
  | .copyAssign d s => if p.alive d && p.alive s then do
      let m ← p.lays[s]?
      p.withLay triv dflt (capacity (t.ext d)) d m (.assign d s) else some p
  -- basic_array.hpp:339, handle.hpp:254-257
  | .moveAssign d s => if p.alive d && p.alive s then do
      let m ← p.lays[s]?
      p.withLay triv dflt (capacity (t.ext d)) d m (.assign d s) else some p
  | .resize d shape => if p.alive d then p.resize triv dflt t d shape else some p
  -- basic_array.hpp:357-363
  | .assign d shape rhs => if p.alive d then do
      let p' ← p.resize triv dflt t d shape
      let m ← p'.lays[d]?
      let q ← assignAll (writeAt triv) p m d rhs p'.vars
      return { p' with vars := q } else some p
  -- basic_array.hpp:372-379
  | .fill d v => if p.alive d then do
      let m ← p.lays[d]?
      let q ← forLoop m.size (fun k q => writeAt triv q d k v) p.vars
      return { p with vars := q } else some p
  | .put d ops _ rhs => if p.alive d then p.putAll triv d ops rhs else some p
  | .destroy d => if p.alive d then do
      let q ← StackH.step triv (capacity (t.ext d)) dflt p.vars (.destroy d)
      return { p with vars := q } else some p

/-- A program. -/
def vrun (triv : Bool) (dflt : V) (t : Types) (p : KProg V) (ops : List (VOp V)) : Option (KProg V) :=
  ops.foldlM (fun p op => p.vstep triv dflt t op) p

/-- `n` arrays, none alive. -/
def start (n : Nat) : KProg V := ⟨List.replicate (n + 1) none, List.replicate n ⟨[], [], [], [], .contiguous⟩⟩

end KProg
end Nda.StackArr
