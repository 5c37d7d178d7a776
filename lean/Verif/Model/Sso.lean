import Verif.Model.Handles
/-!
# Model of `c++/nda/mem/handle.hpp`: `handle_sso` (290-463) and `handle_stack` (224-286)

The variables of a program are handles; inline buffers are part of the handles, other blocks are on the
heap of `Model/Handles.lean`.  `none` as the result of an operation: use of a released block or of a null
pointer, double release, destruction or copy of an object that does not exist, construction over a live
object, end of life of a buffer or block with live objects in it (the last four for non-trivial
types only).  For trivial types, cells may hold indeterminate values (`none`), which may be copied.
-/
namespace Nda.Mem

variable {V : Type}

/-- `_data` of `handle_sso`: `nullptr`, `buffer.data()`, or a block. -/
inductive Ptr where
  | null
  | inline
  | block (b : Nat)
deriving DecidableEq, Repr

/-- `handle_sso<T, K>`, handle.hpp:292-302. -/
structure Sso (V : Type) where
  buf : List (Option V)
  data : Ptr
  size : Nat
deriving DecidableEq, Repr

/-- Heap and variables; `none`: a variable that is not alive. -/
structure SProg (V : Type) where
  hp : Heap V
  vars : List (Option (Sso V))
deriving DecidableEq, Repr

/-- What programs do with the handles. -/
inductive SOp (V : Type) where
  | new (d n : Nat)
  | newZero (d n : Nat)
  | newFrom (d : Nat) (vs : List V)
  | copy (d s : Nat)
  | move (d s : Nat)
  | copyAssign (d s : Nat)
  | moveAssign (d s : Nat)
  | destroy (d : Nat)
  | write (d i : Nat) (v : V)
deriving Repr

namespace SProg

/-- The variable `i`, if alive. -/
def var (p : SProg V) (i : Nat) : Option (Sso V) := (p.vars[i]?).join

def setVar (p : SProg V) (i : Nat) (h : Option (Sso V)) : SProg V := { p with vars := p.vars.set i h }

/-- The cell `_data[i]` of variable `d`. -/
def cell (p : SProg V) (d i : Nat) : Option (Option V) := do
  let x ← p.var d
  match x.data with
  | .null => none
  | .inline => x.buf[i]?
  | .block b => do
      let blk ← p.hp.live b
      blk.cells[i]?

/-- Change of the cell `_data[i]` of variable `d`. -/
def setCell (p : SProg V) (d i : Nat) (c : Option V) : Option (SProg V) := do
  let x ← p.var d
  match x.data with
  | .null => none
  | .inline => if i < x.buf.length then return p.setVar d (some { x with buf := x.buf.set i c }) else none
  | .block b => do
      let blk ← p.hp.live b
      if i < blk.cells.length then return { p with hp := p.hp.set b { blk with cells := blk.cells.set i c } } else none

/-- `new (_data + i) T(c)`. -/
def construct (triv : Bool) (p : SProg V) (d i : Nat) (c : Option V) : Option (SProg V) := do
  let old ← p.cell d i
  if triv = false ∧ (old.isSome ∨ c.isNone) then none else p.setCell d i c

/-- `_data[i].~T()` of a non-trivial type. -/
def destroyCell (p : SProg V) (d i : Nat) : Option (SProg V) := do
  let old ← p.cell d i
  if old.isNone then none else p.setCell d i none

/-- Construction of `n` elements of `d` from position `i` on; `f` gives the values. -/
def constructFrom (triv : Bool) (d : Nat) (f : Nat → SProg V → Option (Option V)) : Nat → Nat → SProg V → Option (SProg V)
  | 0, _, p => some p
  | n + 1, i, p => do
      let c ← f i p
      let p ← p.construct triv d i c
      constructFrom triv d f n (i + 1) p

/-- Destruction of `n` elements of `d` from position `i` on. -/
def destroyFrom (d : Nat) : Nat → Nat → SProg V → Option (SProg V)
  | 0, _, p => some p
  | n + 1, i, p => do
      let p ← p.destroyCell d i
      destroyFrom d n (i + 1) p

/-- The destructors called by `clean`, handle.hpp:331-334. -/
def cleanElems (triv : Bool) (d n : Nat) (p : SProg V) : Option (SProg V) :=
  if triv then some p else destroyFrom d n 0 p

/-- `if (on_heap()) deallocate`, handle.hpp:335; `on_heap` is `_size > K` (308). -/
def cleanBlock (triv : Bool) (K : Nat) (x : Sso V) (p : SProg V) : Option (SProg V) :=
  if K < x.size then
    match x.data with
    | .block b => do let hp ← p.hp.dealloc triv b; return { p with hp := hp }
    | _ => none
  else some p

/-- `_data = nullptr`. -/
def nullify (d : Nat) (p : SProg V) : Option (SProg V) := do
  let x ← p.var d
  return p.setVar d (some { x with data := .null })

/-- `clean`, handle.hpp:329-337; `_size` is not changed. -/
def clean (triv : Bool) (K : Nat) (d : Nat) (p : SProg V) : Option (SProg V) := do
  let x ← p.var d
  if x.data = .null then return p
  else do
    let p ← cleanElems triv d x.size p
    let p ← cleanBlock triv K x p
    p.nullify d

/-- Memory for `n > 0` elements: `_size = n` and `_data = buffer.data()` or a new block; handle.hpp:398-406,
427-439, 449-458. -/
def grab (K : Nat) (d n : Nat) (p : SProg V) : Option (SProg V) := do
  let x ← p.var d
  if K < n then
    return { p with hp := p.hp ++ [(⟨List.replicate n none, false⟩ : Block V)] }.setVar d (some { x with data := .block p.hp.length, size := n })
  else
    return p.setVar d (some { x with data := .inline, size := n })

/-- The state of an object at the beginning of its life: an uninitialised buffer, null. -/
def fresh (K : Nat) : Sso V := ⟨List.replicate K none, .null, 0⟩

/-- The constructors that set up memory for `n` elements (nothing for `n = 0`) and fill it. -/
def build (triv : Bool) (K d n : Nat) (f : Nat → SProg V → Option (Option V)) (p : SProg V) : Option (SProg V) :=
  let p := p.setVar d (some (fresh K))
  if n = 0 then some p
  else do
    let p ← p.grab K d n
    constructFrom triv d f n 0 p

/-- Source of a move: `x._data = nullptr; x._size = 0`, handle.hpp:353-354, 368-369. -/
def empty (s : Nat) (p : SProg V) : Option (SProg V) := do
  let x ← p.var s
  return p.setVar s (some { x with data := .null, size := 0 })

/-- The body of the move constructor and of the move assignment after `clean`, handle.hpp:343-354, 359-369. -/
def take (triv : Bool) (K d s : Nat) (p : SProg V) : Option (SProg V) := do
  let x ← p.var d
  let y ← p.var s
  if K < y.size then do
    let p := p.setVar d (some { x with data := y.data, size := y.size })
    p.empty s
  else if y.size ≠ 0 then do
    let p := p.setVar d (some { x with data := .inline, size := y.size })
    let p ← constructFrom triv d (fun i p => p.cell s i) y.size 0 p
    p.empty s
  else do
    let p := p.setVar d (some { x with size := 0 })
    p.empty s

/-- The copy assignment, handle.hpp:447-462: there is no test for self-assignment. -/
def assign (triv : Bool) (K d s : Nat) (p : SProg V) : Option (SProg V) := do
  let p ← p.clean triv K d
  let y ← p.var s
  if y.size = 0 then do
    let x ← p.var d
    return p.setVar d (some { x with size := 0 })
  else do
    let p ← p.grab K d y.size
    constructFrom triv d (fun i p => p.cell s i) y.size 0 p

/-- One operation; `K` is the inline capacity.  Operations that do not type-check do nothing. -/
def step (triv : Bool) (K : Nat) (dflt : V) (p : SProg V) (op : SOp V) : Option (SProg V) :=
  match op with
  -- handle.hpp:425-445
  | .new d n => if p.var d = none ∧ d < p.vars.length then
      p.build triv K d n (fun _ _ => some (if triv then none else some dflt)) else some p
  -- handle.hpp:410-422
  | .newZero d n => if p.var d = none ∧ d < p.vars.length then
      p.build triv K d n (fun _ _ => some (some dflt)) else some p
  -- handle.hpp:396-407, followed by the construction of the elements
  | .newFrom d vs => if p.var d = none ∧ d < p.vars.length then
      p.build triv K d vs.length (fun i _ => vs[i]?.map some) else some p
  -- handle.hpp:373-380 (383-393 from other owning handles); the `memcpy` of trivially copyable elements is
  -- modelled as a copy element by element
  | .copy d s => match p.var s with
      | some y => if p.var d = none ∧ d < p.vars.length then
          p.build triv K d y.size (fun i p => p.cell s i) else some p
      | none => some p
  -- handle.hpp:342-355
  | .move d s => match p.var s with
      | some _ => if p.var d = none ∧ d < p.vars.length then
          (p.setVar d (some (fresh K))).take triv K d s else some p
      | none => some p
  | .copyAssign d s => match p.var d, p.var s with
      | some _, some _ => p.assign triv K d s
      | _, _ => some p
  -- handle.hpp:357-371
  | .moveAssign d s => match p.var d, p.var s with
      | some _, some _ => do
          let p ← p.clean triv K d
          p.take triv K d s
      | _, _ => some p
  -- handle.hpp:340; the buffer ceases to exist
  | .destroy d => match p.var d with
      | some _ => do
          let p ← p.clean triv K d
          let x ← p.var d
          if triv = false ∧ x.buf.any Option.isSome then none
          else return p.setVar d none
      | none => some p
  -- assignment to an element, handle.hpp:319
  | .write d i v => match p.var d with
      | some x => if i < x.size then do
          let old ← p.cell d i
          if triv = false ∧ old.isNone then none else p.setCell d i (some v)
          else some p
      | none => some p

/-- A history. -/
def run (triv : Bool) (K : Nat) (dflt : V) (p : SProg V) (ops : List (SOp V)) : Option (SProg V) :=
  ops.foldlM (fun p op => p.step triv K dflt op) p

/-- `n` variables, none alive. -/
def start (n : Nat) : SProg V := ⟨[], List.replicate n none⟩

end SProg

/-! ## `handle_stack`: the elements are in the handle; variables are `Size` cells -/
namespace StackH

/-- Variables of type `handle_stack<T, Size>`. -/
abbrev Vars (V : Type) := List (Option (List (Option V)))

def var (p : Vars V) (i : Nat) : Option (List (Option V)) := (p[i]?).join

/-- `new (data() + i) T(c)`. -/
def construct (triv : Bool) (p : Vars V) (d i : Nat) (c : Option V) : Option (Vars V) := do
  let x ← var p d
  let old ← x[i]?
  if triv = false ∧ (old.isSome ∨ c.isNone) then none else return p.set d (some (x.set i c))

/-- `for (i = 0; i < Size; ++i) new (data() + i) T(...)`. -/
def constructFrom (triv : Bool) (d : Nat) (f : Nat → Vars V → Option (Option V)) : Nat → Nat → Vars V → Option (Vars V)
  | 0, _, p => some p
  | n + 1, i, p => do
      let c ← f i p
      let p ← construct triv p d i c
      constructFrom triv d f n (i + 1) p

/-- `operator=(handle_stack const &x)`, handle.hpp:274-277; also the body of the copy and move constructors
(252, 280-282) and of the move assignment (254-257). -/
def assign (triv : Bool) (N : Nat) (d s : Nat) (p : Vars V) : Option (Vars V) :=
  constructFrom triv d (fun i p => do let y ← var p s; y[i]?) N 0 p

/-- What programs do with stack handles; `raw` is the default constructor (handle.hpp:244). -/
inductive Op (V : Type) where
  | raw (d : Nat)
  | new (d : Nat)
  | newFrom (d : Nat) (vs : List V)
  | copy (d s : Nat)
  | assign (d s : Nat)
  | destroy (d : Nat)
  | write (d i : Nat) (v : V)
deriving Repr

/-- One operation; `copy` stands for copy and move construction, `assign` for copy and move assignment. -/
def step (triv : Bool) (N : Nat) (dflt : V) (p : Vars V) (op : Op V) : Option (Vars V) :=
  match op with
  | .raw d => if var p d = none ∧ d < p.length then some (p.set d (some (List.replicate N none))) else some p
  -- handle.hpp:259-264
  | .new d => if var p d = none ∧ d < p.length then
      constructFrom triv d (fun _ _ => some (if triv then none else some dflt)) N 0 (p.set d (some (List.replicate N none))) else some p
  -- handle.hpp:266, followed by the construction of the elements
  | .newFrom d vs => if var p d = none ∧ d < p.length ∧ vs.length = N then
      constructFrom triv d (fun i _ => vs[i]?.map some) N 0 (p.set d (some (List.replicate N none))) else some p
  | .copy d s => match var p s with
      | some _ => if var p d = none ∧ d < p.length then
          assign triv N d s (p.set d (some (List.replicate N none))) else some p
      | none => some p
  | .assign d s => match var p d, var p s with
      | some _, some _ => assign triv N d s p
      | _, _ => some p
  -- handle.hpp:246-250
  | .destroy d => match var p d with
      | some x => if triv = false ∧ x.any Option.isNone then none else some (p.set d none)
      | none => some p
  | .write d i v => match var p d with
      | some x => match x[i]? with
          | some old => if triv = false ∧ old.isNone then none else some (p.set d (some (x.set i (some v))))
          | none => some p
      | none => some p

/-- A history. -/
def run (triv : Bool) (N : Nat) (dflt : V) (p : Vars V) (ops : List (Op V)) : Option (Vars V) :=
  ops.foldlM (fun p op => step triv N dflt p op) p

end StackH
end Nda.Mem
