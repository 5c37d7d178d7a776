import Verif.Model.Assign
import Verif.Model.Arrays
/-!
# Model of `rebind`, `swap` and `deep_swap` (`c++/nda/basic_array_view.hpp:226-269`)

A program has view variables, each a layout `lay` and a borrowed pointer `sto`, and memory.  The views have the same type (the
type parameters of `swap` and `deep_swap` are the same; a `rebind` to a view of another layout type converts the
layout, see C52).  `none`: there is no such variable, or a memory error.
-/
namespace Nda.Swap
open Nda Assign LayoutTransforms

variable {α : Type}

/-- View variables and memory. -/
structure Env (α : Type) where
  lays : List IdxMap
  ptrs : List Int
  mem : List α
deriving DecidableEq, Repr

/-- The view in a variable. -/
def Env.view (e : Env α) (i : Nat) : Option View := do
  let lay ← e.lays[i]?
  let off ← e.ptrs[i]?
  return ⟨off, lay⟩

/-- `std::swap` of two objects (external code): a temporary, two assignments. -/
def stdSwap {β : Type} (l : List β) (i j : Nat) : Option (List β) := do
  let t ← l[i]?
  let y ← l[j]?
  let l := l.set i y
  return l.set j t

/-- `swap`, basic_array_view.hpp:255-258. -/
def swap (e : Env α) (i j : Nat) : Option (Env α) := do
  let lays ← stdSwap e.lays i j
  let ptrs ← stdSwap e.ptrs i j
  return { e with lays := lays, ptrs := ptrs }

/-- `a_i.rebind(a_j)`, basic_array_view.hpp:229-247 (the argument is a copy of the view). -/
def rebind (e : Env α) (i j : Nat) : Option (Env α) := do
  let v ← e.view j
  let _ ← e.view i
  return { e with lays := e.lays.set i v.lay, ptrs := e.ptrs.set i v.off }

/-- The constructor of an array from an array (basic_array.hpp:159-176): by assignment for trivial types, else
elementwise. -/
def construct (triv : Bool) (t v : View) (null : Bool) (mem : List α) : Option (List α) :=
  if triv then do (← assign .host .host true t (.inMem v null) mem) else elementwise t (.inMem v null) mem

/-- `deep_swap`, basic_array_view.hpp:265-269.  `make_regular(a)` makes a contiguous array with the stride order of `a`
(deduction guide, basic_array.hpp:423-424), here at the end of memory; its elements are `junk` before they are
constructed.  `na`, `nb`: the views have null pointers. -/
def deepSwap (triv : Bool) (junk : α) (a b : View) (na nb : Bool) (mem : List α) : Option (List α) := do
  let m ← Arr.layoutOf a.lay.so a.lay.len
  let tmp : View := ⟨(mem.length : Int), m⟩
  let mem1 := mem ++ List.replicate m.size.toNat junk
  let mem2 ← construct triv tmp a na mem1
  let mem3 ← (← assign .host .host true a (.inMem b nb) mem2)
  let mem4 ← (← assign .host .host true b (.inMem tmp (m.size == 0)) mem3)
  return mem4.take mem.length

/-- Operations on view variables. -/
inductive VOp where
  | swap (i j : Nat)
  | rebind (i j : Nat)
deriving DecidableEq, Repr

def step (e : Env α) : VOp → Option (Env α)
  | .swap i j => Swap.swap e i j
  | .rebind i j => Swap.rebind e i j

def run (e : Env α) (ops : List VOp) : Option (Env α) := ops.foldlM step e

end Nda.Swap
