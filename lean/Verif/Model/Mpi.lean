import Verif.Model.Matrix
/-!
# Model of `c++/nda/mpi.hpp` and `c++/nda/mpi/{gather,scatter,reduce}.hpp`

Every process has its own memory.  A collective call is described by what each process passes; the result is described per process.  The MPI library itself is
external: `MPI_Gatherv`, `MPI_Scatterv`, `MPI_Bcast`, `MPI_Reduce` act on buffers (address and number of elements) as the standard says; they take counts of type `int` (`toInt32`).  Not here but
in `Model/Spmd.lean`: `mpi::has_env` false (a plain assignment, C17) and element types without an MPI type (reduced element by element).
-/
namespace Nda.Mpi
open Nda LayoutTransforms Assign Loops Matrix

variable {α : Type}

/-- A run-time error of the library, or undefined behaviour (also: an erroneous MPI call). -/
inductive Bad where
  | runtime
  | ub
deriving DecidableEq, Repr

def orUb {β : Type} : Option β → Except Bad β
  | some x => .ok x
  | none => .error .ub

def check (b : Bool) (e : Bad) : Except Bad Unit := if b then .ok () else .error e

/-- One process: its memory, the source array, the target (`isView`: a view, otherwise an array). -/
structure Proc (α : Type) where
  mem : List α
  rhs : View
  target : View
  isView : Bool

/-- `itertools::chunk_range(0, n, size, rank)`: number of elements of chunk `rank` (external: the first `n % size` chunks have one element more). -/
def chunkLength (n : Int) (size rank : Nat) : Int := n / size + (if (rank : Int) < n % size then 1 else 0)

/-- The `n` elements of the buffer at address `p`. -/
def readBuf (mem : List α) (p n : Int) : Option (List α) := (List.range n.toNat).mapM (fun k => rdInt mem (p + Int.ofNat k))

/-- Filling the buffer at address `p`. -/
def writeBuf (mem : List α) (p : Int) : List α → Option (List α)
  | [] => some mem
  | x :: xs => do
      let mem ← wrInt mem p x
      writeBuf mem (p + 1) xs

/-- Buffers of `n` and `m` elements that share no element. -/
def disjoint (p n q m : Int) : Bool := decide (n ≤ 0) || decide (m ≤ 0) || decide (p + n ≤ q) || decide (q + m ≤ p)

/-- `resize_or_check_if_view`, basic_functions.hpp:215-225; resizing allocates new storage (C22). -/
def resizeOrCheck (junk : α) (isView : Bool) (t : View) (sha : List Int) (mem : List α) : Except Bad (View × List α) :=
  if t.lay.len = sha then .ok (t, mem)
  else if isView then .error .runtime
  else orUb (fresh junk t.lay.so sha mem)

/-- `is_contiguous` of an array or view; otherwise the run-time errors gather.hpp:52 and 106, scatter.hpp:47 and 94, reduce.hpp:43 and 107. -/
def needContiguous (v : View) : Except Bad Unit := do
  let b ← orUb v.lay.isContiguous
  check b .runtime

/-- `displs`, gather.hpp:79: the sums of the counts before. -/
def displs (counts : List Int) (r : Nat) : Int := (counts.take r).sum

/-- The displacements are accumulated in `int` (gather.hpp:79, scatter.hpp:69): overflow is undefined behaviour. -/
def intSums (counts : List Int) : Bool := (List.range (counts.length + 1)).all (fun r => decide (toInt32 (displs counts r) = displs counts r))

/-- `shape()` of the gather, gather.hpp:37-47, on process `r`. -/
def gatherShape (procs : List (Proc α)) (all : Bool) (root r : Nat) : Option (List Int) := do
  let p ← procs[r]?
  let slow ← procs.mapM (fun q => rd q.rhs.lay.len 0)
  match p.rhs.lay.len with
  | [] => none
  | _ :: rest => return (if all || r == root then slow.sum else 1) :: rest

/-- The receiving side of `MPI_Gatherv`: the buffer of process `q` goes to `displs[q]`. -/
def gatherv (counts : List Int) (base : Int) (bufs : List (List α)) (mem : List α) : Option (List α) :=
  (bufs.zipIdx).foldlM (fun mem (b : List α × Nat) => writeBuf mem (base + displs counts b.2) b.1) mem

/-- `mpi_gather` and `invoke` of the lazy gather on process `r`, gather.hpp:50-85 and 101-109; the result is the target and the memory. -/
def gather (junk : α) (procs : List (Proc α)) (all : Bool) (root r : Nat) : Except Bad (View × List α) := do
  let p ← orUb procs[r]?
  needContiguous p.rhs
  needContiguous p.target
  let counts := procs.map (fun q => toInt32 q.rhs.lay.size)
  let sha ← orUb (gatherShape procs all root r)
  if all || r == root then
    let t ← resizeOrCheck junk p.isView p.target sha p.mem
    let bufs ← orUb (procs.mapM (fun q => readBuf q.mem q.rhs.off (toInt32 q.rhs.lay.size)))
    check (intSums counts) .ub
    check (disjoint p.rhs.off (toInt32 p.rhs.lay.size) t.1.off counts.sum) .ub
    let mem ← orUb (gatherv counts t.1.off bufs t.2)
    return (t.1, mem)
  else return (p.target, p.mem)

/-- `mpi_scatter` and `invoke` of the lazy scatter on process `r`, scatter.hpp:35-73 and 89-97.  The counts of the root say what is sent, the count of process `r` what it
expects: they have to agree. -/
def scatter (junk : α) (procs : List (Proc α)) (root r : Nat) : Except Bad (View × List α) := do
  let p ← orUb procs[r]?
  let o ← orUb procs[root]?
  needContiguous p.rhs
  needContiguous p.target
  let slowRoot ← orUb (rd o.rhs.lay.len 0)
  let slow ← orUb (rd p.rhs.lay.len 0)
  let stride ← orUb (rd p.rhs.lay.str 0)
  let strideRoot ← orUb (rd o.rhs.lay.str 0)
  let sha := chunkLength slowRoot procs.length r :: p.rhs.lay.len.tail
  let t ← resizeOrCheck junk p.isView p.target sha p.mem
  let sendcounts := (List.range procs.length).map (fun q => toInt32 (chunkLength slowRoot procs.length q * strideRoot))
  let recvcount := toInt32 (chunkLength slow procs.length r * stride)
  let sent ← orUb (rd sendcounts r)
  check (intSums sendcounts) .ub
  check (decide (sent = recvcount)) .ub
  let buf ← orUb (readBuf o.mem (o.rhs.off + displs sendcounts r) sent)
  check (r != root || disjoint o.rhs.off sendcounts.sum t.1.off recvcount) .ub
  let mem ← orUb (writeBuf t.2 t.1.off buf)
  return (t.1, mem)

/-- `mpi_broadcast` on process `r`, mpi.hpp:35-45: the array is `target` (layouts without gaps only, a compile-time check).  The element counts have to agree. -/
def broadcast (junk : α) (procs : List (Proc α)) (root r : Nat) : Except Bad (View × List α) := do
  let p ← orUb procs[r]?
  let o ← orUb procs[root]?
  if r == root then return (p.target, p.mem)
  else
    let t ← resizeOrCheck junk p.isView p.target o.target.lay.len p.mem
    check (decide (t.1.lay.size = o.target.lay.size)) .ub
    let buf ← orUb (readBuf o.mem o.target.off (toInt32 o.target.lay.size))
    let mem ← orUb (writeBuf t.2 t.1.off buf)
    return (t.1, mem)

/-- The element-wise combination of the buffers of all processes, in the order of the processes. -/
def combine (op : α → α → α) : List (List α) → List α
  | [] => []
  | [b] => b
  | b :: bs => List.zipWith op b (combine op bs)

/-- The target of a reduction, reduce.hpp:57-65: in place if the data pointers are the same; otherwise resized where the result is needed, and not overlapping. -/
def reduceTarget (junk : α) (p : Proc α) (here : Bool) : Except Bad (View × List α) :=
  if p.target.off = p.rhs.off then do
    check (decide (p.rhs.lay.size = p.target.lay.size)) .runtime
    return (p.target, p.mem)
  else do
    let t ← if here then resizeOrCheck junk p.isView p.target p.rhs.lay.len p.mem else .ok (p.target, p.mem)
    check (decide (p.rhs.lay.size ≤ ((t.1.off - p.rhs.off).natAbs : Int))) .runtime
    return t

/-- `mpi_reduce` and `invoke` of the lazy reduction on process `r`, reduce.hpp:40-84 and 102-110 (element types with an MPI type).  All processes have to pass the same number
of elements. -/
def reduce (junk : α) (op : α → α → α) (procs : List (Proc α)) (all : Bool) (root r : Nat) : Except Bad (View × List α) := do
  let p ← orUb procs[r]?
  needContiguous p.rhs
  needContiguous p.target
  let t ← reduceTarget junk p (all || r == root)
  check (procs.all (fun q => decide (q.rhs.lay.size = p.rhs.lay.size))) .ub
  if all || r == root then
    let bufs ← orUb (procs.mapM (fun q => readBuf q.mem q.rhs.off (toInt32 p.rhs.lay.size)))
    let mem ← orUb (writeBuf t.2 t.1.off (combine op bufs))
    return (t.1, mem)
  else return t

end Nda.Mpi
