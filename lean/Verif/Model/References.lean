import Verif.Model.Values
/-!
# Programs with arrays and views that live as long as they like (`c++/nda/basic_array_view.hpp`)

The programs of Model/Values with variables for views.  A view holds a layout and a pointer into the storage of an array (a borrowed handle); it does not
own anything, and nothing is checked when it is used after the array has given up its storage: reading released memory is an error (`none`).
-/
namespace Nda.Arr
open Nda Nda.Mem Loops LayoutTransforms

variable {V : Type}

/-- `basic_array_view`, basic_array_view.hpp:75-76, with a borrowed handle (mem/handle.hpp:517-553): the block that `sto.data()` points into, how far, and the
layout. -/
structure Ref where
  blk : Option Nat
  view : View
deriving DecidableEq

/-- How one element of a right-hand side is computed: as `Comp`, it may also read elements of views. -/
inductive RComp (V : Type) where
  | ret (v : V)
  | arr (x : Nat) (idx : List Int) (k : V → RComp V)
  | ref (w : Nat) (idx : List Int) (k : V → RComp V)

/-- The value, when elements of arrays are `rd x idx` and elements of views `rf w idx`. -/
def RComp.eval (rd rf : Nat → List Int → Option V) : RComp V → Option V
  | .ret v => some v
  | .arr x idx k => do
      let v ← rd x idx
      (k v).eval rd rf
  | .ref w idx k => do
      let v ← rf w idx
      (k v).eval rd rf

/-- The statements. -/
inductive ROp (V : Type) where
  /-- a statement that reads and writes arrays only -/
  | plain (op : VOp V)
  | build (d : Nat) (shape : List Int) (rhs : List Int → RComp V)
  | assign (d : Nat) (shape : List Int) (rhs : List Int → RComp V)
  /-- assignment to a temporary view of array `d` -/
  | put (d : Nat) (ops : List Op) (ext : List Int) (rhs : List Int → RComp V)
  /-- view `w` is made from array `d` by a chain of view operations (or rebound to it) -/
  | bind (w d : Nat) (ops : List Op) (ext : List Int)
  /-- view `w` is made from view `u` by a chain of view operations (none: a copy of the view), or rebound to it -/
  | sub (w u : Nat) (ops : List Op) (ext : List Int)
  /-- assignment to view `w` -/
  | putRef (w : Nat) (ext : List Int) (rhs : List Int → RComp V)
  /-- `swap` of two views -/
  | swap (w u : Nat)

/-- Arrays and views (`none`: not made yet). -/
structure RProg (V : Type) where
  p : AProg V
  refs : Nat → Option Ref

namespace RProg

/-- `v(idx...)`, read: _impl_basic_array_view_common.hpp:147-154; memory is `hp`. -/
def refElem (hp : Heap V) (r : Ref) (idx : List Int) : Option V := do
  let b ← r.blk
  let k ← r.view.lay.call (idx.map .idx)
  if r.view.off + k < 0 then none else hp.read b (r.view.off + k).toNat

/-- The element of view `w`. -/
def elem (P : RProg V) (w : Nat) (idx : List Int) : Option V := (P.refs w).bind fun r => refElem P.p.prog.mem.hp r idx

/-- The right-hand side as element access. -/
def access (P : RProg V) (rhs : List Int → RComp V) (idx : List Int) (hp : Heap V) : Option V :=
  (rhs idx).eval (P.p.elemIn hp) (fun w jdx => (P.refs w).bind fun r => refElem hp r jdx)

/-- `sto.data()[k] = v` of a view. -/
def writeRef (triv : Bool) (q : Prog V) (blk : Option Nat) (k : Int) (v : V) : Option (Prog V) := do
  let b ← blk
  if k < 0 then none
  else do
    let hp ← q.mem.hp.write triv b k.toNat v
    return { q with mem := { q.mem with hp := hp } }

/-- Assignment to a view: `assign_from_ndarray`, _impl_basic_array_view_common.hpp:331-388 (elementwise, see C17). -/
def putInto (triv : Bool) (q : Prog V) (r : Ref) (f : List Int → Heap V → Option V) : Option (Prog V) :=
  forEach r.view.lay.len (fun idx q => do
    let x ← f idx q.mem.hp
    let k ← r.view.lay.call (idx.map .idx)
    writeRef triv q r.blk (r.view.off + k) x) q

/-- The view of array `d` that a chain of view operations makes: basic_array_view.hpp:118-119 and _impl_basic_array_view_common.hpp:134-136, 157-170; the pointer is
`a.storage().data()` plus the offset of the slice (mem/handle.hpp:538-540). -/
def viewOf (p : AProg V) (d : Nat) (ops : List Op) : Option Ref := do
  let m ← p.lays[d]?
  let h ← p.prog.var d
  let v ← LayoutTransforms.run ⟨0, m⟩ ops
  return ⟨h.data, v⟩

def setRef (P : RProg V) (w : Nat) (r : Option Ref) : RProg V := { P with refs := fun i => if i = w then r else P.refs i }

/-- One statement; statements that use arrays or views that do not exist do nothing. -/
def step (triv : Bool) (dflt : V) (so : Nat → List Nat) (P : RProg V) : ROp V → Option (RProg V)
  | .plain op => do
      let p ← P.p.vstep triv dflt so op
      return { P with p := p }
  | .build d shape rhs => do
      let p ← P.p.step triv dflt (so d) (.build d shape (P.access rhs))
      return { P with p := p }
  | .assign d shape rhs => do
      let p ← P.p.step triv dflt (so d) (.assign d shape (P.access rhs))
      return { P with p := p }
  | .put d ops _ rhs => if P.p.alive d then do
      let r ← viewOf P.p d ops
      let q ← putInto triv P.p.prog r (P.access rhs)
      return { P with p := { P.p with prog := q } } else some P
  | .bind w d ops _ => if P.p.alive d then do
      let r ← viewOf P.p d ops
      return P.setRef w (some r) else some P
  -- copies of views, basic_array_view.hpp:103-106, slices of views and `rebind`, basic_array_view.hpp:229-246
  | .sub w u ops _ => match P.refs u with
      | some r => do
          let v ← LayoutTransforms.run r.view ops
          return P.setRef w (some ⟨r.blk, v⟩)
      | none => some P
  -- basic_array_view.hpp:180-203
  | .putRef w _ rhs => match P.refs w with
      | some r => do
          let q ← putInto triv P.p.prog r (P.access rhs)
          return { P with p := { P.p with prog := q } }
      | none => some P
  -- basic_array_view.hpp:255-258
  | .swap w u => some ((P.setRef w (P.refs u)).setRef u (P.refs w))

/-- A program. -/
def run (triv : Bool) (dflt : V) (so : Nat → List Nat) (P : RProg V) (ops : List (ROp V)) : Option (RProg V) :=
  ops.foldlM (fun P op => P.step triv dflt so op) P

/-- `n` arrays and any number of views, none made. -/
def start (n : Nat) : RProg V := ⟨AProg.start n, fun _ => none⟩

end RProg
end Nda.Arr
