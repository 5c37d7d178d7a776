import Verif.Model.SymGrp
import Verif.Model.Mpi
/-!
# Model of the parallel branch of `sym_grp::init`, sym_grp.hpp:119-134

Threads run concurrently: their stores to the array interleave in any order.  Not modelled: `init_func` is a pure function; the stores are atomic and sequentially consistent
(the theorem on races shows that no two threads touch the same element).
-/
namespace Nda.SymGrp
open Nda LayoutTransforms Assign Loops Mpi

variable {α : Type}

/-- `itertools::chunk_range(0, n, size, rank)` (external): first position of chunk `rank`. -/
def chunkStart (n : Int) (size rank : Nat) : Int := rank * (n / size) + min (rank : Int) (n % size)

/-- `mpi::chunk` and `itertools::omp_chunk` of a list (external): the contiguous chunk of one worker of `size`. -/
def chunkOf {β : Type} (l : List β) (size rank : Nat) : List β :=
  (l.drop (chunkStart l.length size rank).toNat).take (chunkLength l.length size rank).toNat

/-- The stores of one pass of the loop over the classes, sym_grp.hpp:126-129. -/
def classStores (neg conj : α → α) (x : View) (f : List Int → α) (cls : List (Int × Oper)) : Option (List (List Int × α)) := do
  let r ← rd cls 0
  let idx ← x.lay.toIdx r.1
  let rest ← cls.mapM (fun p => do
    let i ← x.lay.toIdx p.1
    return (i, p.2.ap neg conj (f idx)))
  return (idx, f idx) :: rest

/-- The stores of one thread, one class after the other. -/
def threadStores (neg conj : α → α) (x : View) (f : List Int → α) (cls : List (List (Int × Oper))) : Option (List (List Int × α)) := do
  let l ← cls.mapM (classStores neg conj x f)
  return l.flatten

/-- What the threads of process `rank` of `size` do, line 124-125. -/
def threads (neg conj : α → α) (x : View) (f : List Int → α) (cls : List (List (Int × Oper))) (size rank nthreads : Nat) : Option (List (List (List Int × α))) :=
  (List.range nthreads).mapM (fun t => threadStores neg conj x f (chunkOf (chunkOf cls size rank) nthreads t))

/-- Complete executions of a team of threads: any thread that is not finished makes the next store. -/
inductive Run (x : View) : List (List (List Int × α)) → List α → List α → Prop
  | done (ts : List (List (List Int × α))) (mem : List α) : (∀ t ∈ ts, t = []) → Run x ts mem mem
  | step (ts : List (List (List Int × α))) (mem mem1 mem' : List α) (k : Nat) (w : List Int × α) (rest : List (List Int × α)) :
      ts[k]? = some (w :: rest) → store x w.1 w.2 mem = some mem1 → Run x (ts.set k rest) mem1 mem' → Run x ts mem mem'

/-- The memory of process `rank` before the reduction, lines 121-131: the array is set to zero, then the threads run. -/
def Local [Zero α] (neg conj : α → α) (x : View) (f : List Int → α) (cls : List (List (Int × Oper))) (size rank nthreads fuel : Nat) (mem mem' : List α) : Prop :=
  ∃ mem0 ts, assignScalar fuel x 0 mem = some mem0 ∧ threads neg conj x f cls size rank nthreads = some ts ∧ Run x ts mem0 mem'

end Nda.SymGrp
