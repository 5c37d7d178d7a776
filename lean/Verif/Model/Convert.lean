import Verif.Model.Sso
import Verif.Model.IdxMap
/-!
# Model of the conversions between kinds of storage

`c++/nda/mem/handle.hpp:192-203` (`handle_heap` from other owning handles), `382-393` (`handle_sso` from other
owning handles), and the constructor of `basic_array` from arrays with other storage or another algebra
(`c++/nda/basic_array.hpp:103-106`).  `handle_stack` has no such constructor, and `handle_shared` only the one from
`handle_heap` (`HOp.share`).

A world has variables of all handle types at once: heap and shared handles, small-buffer handles of every capacity,
stack handles of every size.  Blocks of heap handles and of small-buffer handles are numbered separately (an
allocator never hands out the same memory twice).  All handles are in host memory; the several allocators that heap
handles may have are not distinguished (`Model/Allocators.lean` has them).
-/
namespace Nda.Mem

variable {V : Type}

/-- Variables of all handle types with value type `T`: heap and shared ones, `handle_sso<T, K>` for every `K`,
`handle_stack<T, N>` for every `N`. -/
structure World (V : Type) where
  h : Prog V
  s : Nat → SProg V
  k : Nat → StackH.Vars V

/-- A variable: number `i` among the heap and shared handles, the small-buffer handles of capacity `K`, the stack
handles of size `N`. -/
inductive Obj where
  | h (i : Nat)
  | s (K i : Nat)
  | k (N i : Nat)
deriving DecidableEq, Repr

/-- What programs do: the operations on handles of one type, and conversions. -/
inductive WOp (V : Type) where
  | h (op : HOp V)
  | s (K : Nat) (op : SOp V)
  | k (N : Nat) (op : StackH.Op V)
  | toHeap (d : Nat) (src : Obj)
  | toSso (K d : Nat) (src : Obj)
deriving Repr

namespace Mem

/-- `handle_heap(H const &x)` with `x.size() = n` and `f i` the cell `x[i]`, handle.hpp:194-203.  The `memcpy` of a
trivially copyable type copies indeterminate cells as well. -/
def newCells (triv : Bool) (n : Nat) (f : Nat → Option (Option V)) (m : Mem V) : Option (Handle × Mem V) :=
  if n = 0 then some (Handle.null, m)
  else do
    let (b, hp) := m.hp.alloc n
    let hp ← if triv then ((List.range n).mapM f).map (fun cells => hp.set b ⟨cells, false⟩)
             else Heap.constructFrom triv b (fun i _ => (f i).join) n 0 hp
    return (.heap (some b) n none, { m with hp := hp })

end Mem

namespace World

/-- `x.size()` of a variable alive, handle.hpp:219, 285, 322, 512. -/
def size (w : World V) : Obj → Option Nat
  | .h i => (w.h.var i).map Handle.size
  | .s K i => ((w.s K).var i).map Sso.size
  | .k N i => (StackH.var (w.k N) i).map fun _ => N

/-- `x[i]`, handle.hpp:205-206, 241-242, 318-319, 496-497: the cell at position `i`. -/
def cell (w : World V) : Obj → Nat → Option (Option V)
  | .h i, j => do
      let x ← w.h.var i
      let b ← x.data
      let blk ← w.h.mem.hp.live b
      blk.cells[j]?
  | .s K i, j => (w.s K).cell i j
  | .k N i, j => do
      let x ← StackH.var (w.k N) i
      x[j]?

/-- Change of the heap and shared handles. -/
def setH (w : World V) (p : Prog V) : World V := { w with h := p }

/-- Change of the small-buffer handles of capacity `K`. -/
def setS (w : World V) (K : Nat) (p : SProg V) : World V := { w with s := fun K' => if K' = K then p else w.s K' }

/-- Change of the stack handles of size `N`. -/
def setK (w : World V) (N : Nat) (p : StackH.Vars V) : World V := { w with k := fun N' => if N' = N then p else w.k N' }

/-- One operation.  Operations that do not type-check do nothing. -/
def step (triv : Bool) (dflt : V) (w : World V) (op : WOp V) : Option (World V) :=
  match op with
  | .h op => (w.h.step triv dflt op).map w.setH
  | .s K op => ((w.s K).step triv K dflt op).map (w.setS K)
  | .k N op => (StackH.step triv N dflt (w.k N) op).map (w.setK N)
  -- handle.hpp:194-203
  | .toHeap d src => match w.size src with
      | some n => if w.h.var d = none ∧ d < w.h.vars.length then do
          let (x, m) ← w.h.mem.newCells triv n (w.cell src)
          return w.setH ({ w.h with mem := m }.setVar d (some x)) else some w
      | none => some w
  -- handle.hpp:384-393, with 396-407; the `memcpy` is modelled as a copy element by element
  | .toSso K d src => match w.size src with
      | some n => if (w.s K).var d = none ∧ d < (w.s K).vars.length then
          ((w.s K).build triv K d n (fun j _ => w.cell src j)).map (w.setS K) else some w
      | none => some w

/-- A history. -/
def run (triv : Bool) (dflt : V) (w : World V) (ops : List (WOp V)) : Option (World V) :=
  ops.foldlM (fun w op => w.step triv dflt op) w

/-- Before the first operation: `n` variables of each type, none alive. -/
def start (n : Nat) : World V := ⟨Prog.start n, fun _ => SProg.start n, fun _ => List.replicate n none⟩

/-- Initialisation of the parameter (variable `t`) of `basic_array(basic_array<..., ContainerPolicyOther> x)`, basic_array.hpp:105,
with a copy of the argument: the copy constructor of its handle (handle.hpp:183-190, 280-282, 373-380, the implicit one of
`handle_shared`).  The copy constructor of `basic_array` is `explicit` (101), so that for this initialisation the compiler takes the constructor from any
array (158-176), which makes the same elements one by one in new storage (C17); arrays with shared storage have no such constructor, the case stands for their handles. -/
def param (w : World V) (t : Nat) : Obj → WOp V
  | .h i => match w.h.var i with
      | some (.shared ..) => .h (.copyShared t i)
      | _ => .h (.copy t i)
  | .s K i => .s K (.copy t i)
  | .k N i => .k N (.copy t i)

/-- The variable number `t` of the type of `o`. -/
def sibling (t : Nat) : Obj → Obj
  | .h _ => .h t
  | .s K _ => .s K t
  | .k N _ => .k N t

/-- End of the life of a variable. -/
def kill : Obj → WOp V
  | .h i => .h (.destroy i)
  | .s K i => .s K (.destroy i)
  | .k N i => .k N (.destroy i)

/-- The kinds of storage with a converting constructor. -/
inductive Kind where
  | heap
  | sso (K : Nat)
deriving DecidableEq, Repr

/-- The conversion to a handle of a kind. -/
def Kind.conv (d : Nat) (src : Obj) : Kind → WOp V
  | .heap => .toHeap d src
  | .sso K => .toSso K d src

/-- The variable number `d` of a kind. -/
def Kind.obj (d : Nat) : Kind → Obj
  | .heap => .h d
  | .sso K => .s K d

/-- `basic_array(basic_array<ValueType, Rank, LayoutPolicy, AlgebraOther, ContainerPolicyOther> x)` with an lvalue as argument,
basic_array.hpp:104-106: the parameter is a copy, the layout is copied, the storage is made from the storage of the parameter (for
another storage type, `std::move` makes no difference: the constructor takes a reference to const), and the parameter goes away. -/
def arrayFrom (triv : Bool) (dflt : V) (kind : Kind) (d t : Nat) (lay : IdxMap) (src : Obj) (w : World V) : Option (IdxMap × World V) := do
  let w ← w.step triv dflt (w.param t src)
  let w ← w.step triv dflt (kind.conv d (sibling t src))
  let w ← w.step triv dflt (kill (sibling t src))
  return (lay, w)

end World
end Nda.Mem
