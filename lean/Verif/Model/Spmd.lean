import Verif.Model.Mpi
/-!
# Programs run by several processes: `c++/nda/mpi.hpp`, `c++/nda/mpi/{gather,scatter,reduce}.hpp` and the assignments of `basic_array.hpp`, `basic_array_view.hpp`

`Model/Mpi.lean` says what one collective operation writes.  Here a process is a sequence of collective calls: it stops at each call until all processes have made the
matching call.  A process that stops with an error while others wait leaves them waiting for ever; calls that do not match are erroneous.

Arrays are a shape and the elements in memory order, without gaps (`contig`) or not; index 0 is slowest (other orders: C39, C40).  Variables have storage of their own
(a view does not share elements with another variable), but source and target of an operation may be the same variable.  MPI itself is external: `answer` is its contract.
-/
namespace Nda.Spmd
open Nda Mpi Assign

/-- The collective operations used by the library: `mpi::reduce` and `mpi::all_reduce` of a `long` (gather.hpp:41, 44), `mpi::broadcast` of a `long` (scatter.hpp:40) and
`MPI_Bcast` of a shape (mpi.hpp:42), `MPI_Gather` of an `int` (gather.hpp:75-77), `MPI_Gatherv` (gather.hpp:82-84), `MPI_Scatterv` (scatter.hpp:72), `MPI_Reduce` and
`MPI_Allreduce` (reduce.hpp:72-82), `MPI_Bcast` (mpi.hpp:44). -/
inductive Kind where
  | reduceLong | bcastLong | gatherInt | gatherv | scatterv | reduce | bcast
deriving DecidableEq, Repr

/-- What one process passes to a collective call.  `counts`: the receive counts of `MPI_Gatherv`, the send counts of `MPI_Scatterv` (displacements are their partial sums,
gather.hpp:79, scatter.hpp:69); `expect`: the receive count of `MPI_Scatterv`. -/
structure Call (α : Type) where
  kind : Kind
  root : Nat
  all : Bool := false
  op : Nat := 0
  longs : List Int := []
  elems : List α := []
  counts : List Int := []
  expect : Int := 0

/-- What one process gets. -/
structure Reply (α : Type) where
  longs : List Int := []
  elems : List α := []

/-- How a process ends: normally, with an exception, with `std::terminate` (an exception in a function marked `noexcept`, or a failed `EXPECTS`), or undefined. -/
inductive End (β : Type) where
  | ok (b : β)
  | exception
  | terminate
  | ub
deriving DecidableEq, Repr

/-- A process: it has ended, or it waits in a collective call and goes on with the reply. -/
inductive Tree (α β : Type) where
  | leaf (e : End β)
  | coll (c : Call α) (k : Reply α → Tree α β)

variable {α β γ : Type}

def Tree.bind : Tree α β → (β → Tree α γ) → Tree α γ
  | .leaf (.ok b), f => f b
  | .leaf .exception, _ => .leaf .exception
  | .leaf .terminate, _ => .leaf .terminate
  | .leaf .ub, _ => .leaf .ub
  | .coll c k, f => .coll c (fun r => (k r).bind f)

/-- A function marked `noexcept`: an exception ends the process. -/
def Tree.noexcept : Tree α β → Tree α β
  | .leaf .exception => .leaf .terminate
  | .leaf e => .leaf e
  | .coll c k => .coll c (fun r => (k r).noexcept)

instance : Monad (Tree α) where
  pure b := .leaf (.ok b)
  bind := Tree.bind

def call (c : Call α) : Tree α (Reply α) := .coll c (fun r => .leaf (.ok r))

/-- A condition that has to hold, otherwise the process ends in the given way. -/
def need (b : Bool) (e : End Unit) : Tree α Unit := if b then .leaf (.ok ()) else .leaf e

/-! ### MPI -/

/-- The calls of two processes belong together. -/
def Call.matches (c d : Call α) : Bool := decide (c.kind = d.kind) && decide (c.root = d.root) && c.all == d.all && decide (c.op = d.op)

/-- The contract of MPI (external): all processes make the same call with the same root; counts agree; the replies are as in the MPI standard.  `none`: an erroneous
call.  Processes that are not to receive a result get nothing. -/
def answer {n : Nat} (sem : Nat → α → α → α) (c : Fin n → Call α) : Option (Fin n → Reply α) :=
  if hn : 0 < n then
    let c0 := c ⟨0, hn⟩
    if hr : c0.root < n then
      let o := c ⟨c0.root, hr⟩
      let here := fun (r : Fin n) => c0.all || decide (r.val = c0.root)
      if ∀ r, (c r).matches c0 then
        match c0.kind with
        | .reduceLong => some (fun r => if here r then { longs := [(List.ofFn (fun q => (c q).longs.sum)).sum] } else {})
        | .bcastLong => if ∀ r, (c r).longs.length = o.longs.length then some (fun _ => { longs := o.longs }) else none
        | .gatherInt => some (fun r => if here r then { longs := (List.ofFn (fun q => (c q).longs)).flatten } else {})
        | .gatherv =>
          if ∀ r, here r = true → (c r).counts = List.ofFn (fun q => ((c q).elems.length : Int)) then
            some (fun r => if here r then { elems := (List.ofFn (fun q => (c q).elems)).flatten } else {})
          else none
        | .scatterv =>
          if (∀ r, o.counts[r.val]? = some (c r).expect) ∧ (∀ x ∈ o.counts, 0 ≤ x) ∧ o.counts.sum ≤ o.elems.length then
            some (fun r => { elems := (o.elems.drop (displs o.counts r.val).toNat).take (c r).expect.toNat })
          else none
        | .reduce =>
          if ∀ r, (c r).elems.length = o.elems.length then
            some (fun r => if here r then { elems := combine (sem c0.op) (List.ofFn (fun q => (c q).elems)) } else {})
          else none
        | .bcast => if ∀ r, (c r).elems.length = o.elems.length then some (fun _ => { elems := o.elems }) else none
      else none
    else none
  else none

/-- How a system of processes ends. -/
inductive Outcome (n : Nat) (β : Type) where
  | ended (e : Fin n → End β)
  | hang
  | erroneous

/-- The processes run: all have ended; or all wait in a call and get their replies; or the calls are erroneous; or some wait for others that have ended. -/
inductive Runs {n : Nat} (sem : Nat → α → α → α) : (Fin n → Tree α β) → Outcome n β → Prop where
  | ended (ts : Fin n → Tree α β) (e : Fin n → End β) (h : ∀ r, ts r = .leaf (e r)) : Runs sem ts (.ended e)
  | step (ts : Fin n → Tree α β) (c : Fin n → Call α) (k : Fin n → Reply α → Tree α β) (a : Fin n → Reply α) (o : Outcome n β) (h : ∀ r, ts r = .coll (c r) (k r))
      (hp : 0 < n) (ha : answer sem c = some a) (ho : Runs sem (fun r => k r (a r)) o) : Runs sem ts o
  | erroneous (ts : Fin n → Tree α β) (c : Fin n → Call α) (k : Fin n → Reply α → Tree α β) (h : ∀ r, ts r = .coll (c r) (k r)) (hp : 0 < n) (ha : answer sem c = none) :
      Runs sem ts .erroneous
  | hang (ts : Fin n → Tree α β) (r q : Fin n) (e : End β) (c : Call α) (k : Reply α → Tree α β) (hr : ts r = .leaf e) (hq : ts q = .coll c k) : Runs sem ts .hang

/-! ### Arrays of one process -/

/-- An array, or a view (`isView`), possibly with gaps (`contig` false). -/
structure Loc (α : Type) where
  shape : List Int
  data : List α
  isView : Bool
  contig : Bool
deriving DecidableEq

/-- The variables of a process. -/
abbrev Store (α : Type) := List (Loc α)

/-- What all processes have in common: whether they run under MPI (`mpi::has_env`), whether `EXPECTS` is checked, contents of new storage; the number of processes; and the
number of this process. -/
structure Here (α : Type) where
  env : Bool
  debug : Bool
  junk : α
  size : Nat
  rank : Nat

def get (s : Store α) (x : Nat) : Tree α (Loc α) :=
  match s[x]? with
  | some a => .leaf (.ok a)
  | none => .leaf .ub

/-- `resize`, basic_array.hpp:412-416: storage is kept if the number of elements is the same, otherwise new. -/
def Loc.resize (h : Here α) (a : Loc α) (sha : List Int) : Loc α :=
  { a with shape := sha, data := if sha.prod = a.data.length then a.data else List.replicate sha.prod.toNat h.junk }

/-- `resize_or_check_if_view`, basic_functions.hpp:215-225. -/
def resizeOrCheck (h : Here α) (a : Loc α) (sha : List Int) : Tree α (Loc α) :=
  if a.shape = sha then .leaf (.ok a)
  else if a.isView then .leaf .exception
  else .leaf (.ok (a.resize h sha))

/-- Receiving `xs` at the start of the storage of `a`. -/
def receive (a : Loc α) (xs : List α) : Tree α (Loc α) :=
  if xs.length ≤ a.data.length then .leaf (.ok { a with data := xs ++ a.data.drop xs.length }) else .leaf .ub

/-- The target where the result is needed (`here`): `resize_or_check_if_view`, gather.hpp:68, reduce.hpp:63, mpi.hpp:43. -/
def makeRoom (h : Here α) (here : Bool) (t : Loc α) (sha : List Int) : Tree α (Loc α) := if here then resizeOrCheck h t sha else .leaf (.ok t)

/-- MPI writes the result where it is needed. -/
def receiveIf (here : Bool) (t : Loc α) (xs : List α) : Tree α (Loc α) := if here then receive t xs else .leaf (.ok t)

/-- The delayed operations: `mpi::gather`, `mpi::scatter`, `mpi::reduce`. -/
inductive Delayed where
  | gather (root : Nat) (all : Bool)
  | scatter (root : Nat)
  | reduce (root : Nat) (all : Bool) (op : Nat)
deriving DecidableEq, Repr

/-- The source of a delayed operation when it is executed: its shape and elements; whether it is the target; whether its storage still exists (the delayed operation has a
view of the source, gather.hpp:31). -/
structure Source (α : Type) where
  shape : List Int
  data : List α
  same : Bool
  alive : Bool

/-- `mpi::reduce` or `mpi::all_reduce` of a `long`; without MPI the number itself (external). -/
def sumLong (h : Here α) (root : Nat) (all : Bool) (x : Int) : Tree α Int :=
  if h.env then (call { kind := .reduceLong, root := root, all := all, longs := [x] }).bind (fun r => .leaf (.ok r.longs.sum)) else .leaf (.ok x)

/-- `mpi::broadcast` of a `long`; without MPI nothing happens (external). -/
def bcastLong (h : Here α) (root : Nat) (x : Int) : Tree α Int :=
  if h.env then (call { kind := .bcastLong, root := root, longs := [x] }).bind (fun r => .leaf (.ok r.longs.sum)) else .leaf (.ok x)

/-- `shape()` of a delayed operation: gather.hpp:37-47, scatter.hpp:36-42, reduce.hpp:38. -/
def delayedShape (h : Here α) (d : Delayed) (sha : List Int) : Tree α (List Int) :=
  match d, sha with
  | .reduce _ _ _, _ => .leaf (.ok sha)
  | _, [] => .leaf .ub
  | .gather root all, slow :: rest => do
      let x ← sumLong h root all slow
      .leaf (.ok ((if all || h.rank == root then x else 1) :: rest))
  | .scatter root, slow :: rest => do
      let x ← bcastLong h root slow
      .leaf (.ok (chunkLength x h.size h.rank :: rest))

/-- `target = rhs`, gather.hpp:57-60, scatter.hpp:52-55, reduce.hpp:48-51: an array is resized and filled (C17); the shapes of views have to agree. -/
def plainAssign (h : Here α) (a : Source α) (t : Loc α) : Tree α (Loc α) :=
  if !a.alive then .leaf .ub
  else if t.isView then (if t.shape = a.shape then .leaf (.ok { t with data := a.data }) else .leaf .ub)
  else .leaf (.ok { (t.resize h a.shape) with data := a.data })

/-- `invoke` of the gather, gather.hpp:62-85.  Numbers of elements that do not fit in `int` are excluded (`ub`; C39).  `MPI_Gatherv` must not read and write the same
elements. -/
def invokeGather (h : Here α) (root : Nat) (all : Bool) (a : Source α) (t : Loc α) : Tree α (Loc α) := do
  need (decide (toInt32 a.shape.prod = a.shape.prod)) .ub
  let sha ← delayedShape h (.gather root all) a.shape
  let t ← makeRoom h (all || h.rank == root) t sha
  let counts ← call { kind := .gatherInt, root := root, all := all, longs := [a.shape.prod] }
  need (intSums counts.longs) .ub
  need (a.alive && !(a.same && (all || h.rank == root))) .ub
  let r ← call { kind := .gatherv, root := root, all := all, elems := a.data, counts := counts.longs }
  receiveIf (all || h.rank == root) t r.elems

/-- `invoke` of the scatter, scatter.hpp:57-72; the stride of the first index is the number of elements with a given first index (index 0 slowest; C39 for other orders).
Only the root reads its source. -/
def invokeScatter (h : Here α) (root : Nat) (a : Source α) (t : Loc α) : Tree α (Loc α) := do
  let sha ← delayedShape h (.scatter root) a.shape
  let t ← resizeOrCheck h t sha
  let counts := (List.range h.size).map (fun q => toInt32 (chunkLength (a.shape.headD 0) h.size q * a.shape.tail.prod))
  need (intSums counts) .ub
  need (h.rank != root || (a.alive && !a.same)) .ub
  let r ← call { kind := .scatterv, root := root, elems := a.data, counts := counts,
                 expect := toInt32 (chunkLength (a.shape.headD 0) h.size h.rank * a.shape.tail.prod) }
  receive t r.elems

/-- `invoke` of the reduction for elements with an MPI type, reduce.hpp:56-83: in place if source and target are the same. -/
def invokeReduce (h : Here α) (root : Nat) (all : Bool) (op : Nat) (a : Source α) (t : Loc α) : Tree α (Loc α) := do
  need (!a.same || decide (a.shape.prod = t.shape.prod)) .exception
  let t ← makeRoom h (!a.same && (all || h.rank == root)) t a.shape
  need (a.alive && decide (toInt32 a.shape.prod = a.shape.prod)) .ub
  let r ← call { kind := .reduce, root := root, all := all, op := op, elems := a.data }
  receiveIf (all || h.rank == root) t r.elems

/-- `invoke`: gather.hpp:51-60, scatter.hpp:46-55, reduce.hpp:42-51 and the functions above. -/
def invoke (h : Here α) (d : Delayed) (a : Source α) (t : Loc α) : Tree α (Loc α) := do
  need t.contig .exception
  if h.env then
    match d with
    | .gather root all => invokeGather h root all a t
    | .scatter root => invokeScatter h root a t
    | .reduce root all op => invokeReduce h root all op a t
  else plainAssign h a t

/-- `operator=` of an array, basic_array.hpp:384-389: resize, then execute.  If source and target are the same and the number of elements changes, the storage seen by the
delayed operation is gone. -/
def assignArray (h : Here α) (d : Delayed) (same : Bool) (a t : Loc α) : Tree α (Loc α) :=
  Tree.noexcept (do
    let sha ← delayedShape h d a.shape
    invoke h d ⟨a.shape, a.data, same, !same || decide (sha.prod = t.data.length)⟩ (t.resize h sha))

/-- `EXPECTS(shape() == initializer.shape())`, basic_array_view.hpp:221: the shape is computed in debug mode only. -/
def expectShape (h : Here α) (d : Delayed) (a t : Loc α) : Tree α Unit :=
  if h.debug then (delayedShape h d a.shape).bind (fun sha => need (decide (t.shape = sha)) .terminate) else .leaf (.ok ())

/-- `operator=` of a view, basic_array_view.hpp:219-224. -/
def assignView (h : Here α) (d : Delayed) (same : Bool) (a t : Loc α) : Tree α (Loc α) :=
  Tree.noexcept (do
    expectShape h d a t
    invoke h d ⟨a.shape, a.data, same, true⟩ t)

/-- `mpi_gather`, `mpi_scatter`, `mpi_reduce` (gather.hpp:101-109, scatter.hpp:89-97, reduce.hpp:102-110): the source must have no gaps. -/
def delayed (a : Loc α) : Tree α Unit := need a.contig .exception

/-- `t = mpi::gather(a, ...)` and so on. -/
def assign (h : Here α) (d : Delayed) (same : Bool) (a t : Loc α) : Tree α (Loc α) := do
  delayed a
  if t.isView then assignView h d same a t else assignArray h d same a t

/-- The constructor of an array, basic_array.hpp:183-186 (exceptions are passed on). -/
def construct (h : Here α) (d : Delayed) (a : Loc α) : Tree α (Loc α) := do
  delayed a
  let sha ← delayedShape h d a.shape
  invoke h d ⟨a.shape, a.data, false, true⟩ ⟨sha, List.replicate sha.prod.toNat h.junk, false, true⟩

/-- `mpi::broadcast` (external; nothing without MPI) and `mpi_broadcast`, mpi.hpp:35-45.  Layouts with gaps do not compile (`ub`). -/
def broadcast (h : Here α) (root : Nat) (t : Loc α) : Tree α (Loc α) := do
  need t.contig .ub
  if h.env then
    let sha ← call { kind := .bcastLong, root := root, longs := t.shape }
    let t ← makeRoom h (h.rank != root) t sha.longs
    need (decide (toInt32 t.shape.prod = t.shape.prod)) .ub
    let r ← call { kind := .bcast, root := root, elems := t.data }
    receiveIf (h.rank != root) t r.elems
  else .leaf (.ok t)

/-! ### Arrays of arrays -/

/-- The element by element reduction of an array without MPI type, reduce.hpp:53-54: `target(i) = mpi::reduce(rhs(i))` for all `i` (C17); for elements that are arrays each is
the assignment of a delayed reduction.  Source and target have the same number of elements after the resize. -/
def reduceCells (h : Here α) (root : Nat) (all : Bool) (op : Nat) (same : Bool) : List (Loc α) → List (Loc α) → Tree α (List (Loc α))
  | a :: as, t :: ts => do
      let t ← assign h (.reduce root all op) same a t
      let ts ← reduceCells h root all op same as ts
      .leaf (.ok (t :: ts))
  | [], [] => .leaf (.ok [])
  | _, _ => .leaf .ub

/-! ### Programs -/

/-- Programs all processes run: the operations above on numbered variables, local computations, branches and loops (the conditions may depend on the process). -/
inductive Prog (α : Type) where
  | skip
  | seq (p q : Prog α)
  | assign (dst src : Nat) (d : Delayed)
  | make (src : Nat) (d : Delayed)
  | broadcast (x root : Nat)
  | compute (f : Nat → Store α → Store α)
  | ite (b : Nat → Store α → Bool) (p q : Prog α)
  | loop (k : Nat → Store α → Nat) (p : Prog α)

/-- `p` done `k` times. -/
def iterate (p : Store α → Tree α (Store α)) : Nat → Store α → Tree α (Store α)
  | 0, s => .leaf (.ok s)
  | k + 1, s => (p s).bind (iterate p k)

/-- A process runs a program.  `make` adds a variable. -/
def exec (h : Here α) : Prog α → Store α → Tree α (Store α)
  | .skip, s => .leaf (.ok s)
  | .seq p q, s => (exec h p s).bind (exec h q)
  | .assign dst src d, s =>
      (get s src).bind (fun a => (get s dst).bind (fun t => (assign h d (decide (dst = src)) a t).bind (fun t => .leaf (.ok (s.set dst t)))))
  | .make src d, s => (get s src).bind (fun a => (construct h d a).bind (fun t => .leaf (.ok (s ++ [t]))))
  | .broadcast x root, s => (get s x).bind (fun t => (broadcast h root t).bind (fun t => .leaf (.ok (s.set x t))))
  | .compute f, s => .leaf (.ok (f h.rank s))
  | .ite b p q, s => if b h.rank s then exec h p s else exec h q s
  | .loop k p, s => iterate (exec h p) (k h.rank s) s

end Nda.Spmd
