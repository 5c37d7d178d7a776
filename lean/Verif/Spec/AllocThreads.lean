import Verif.Model.AllocThreads
import Verif.Spec.Alloc
/-!
# Specification: an allocator used by several threads
-/
namespace Nda.Alloc.Spec
open Nda.Alloc

/-- Thread `t` is inside an operation on the allocator. -/
def Busy {σ : Type} (t : AThr σ) : Prop := t.cur ≠ none

/-- No thread is inside an operation. -/
def Quiet {σ : Type} (s : AState σ) : Prop := ∀ t ∈ s.thr, ¬ Busy t

/-- Thread `i` may go on under mutual exclusion: no other thread is inside an operation. -/
def MayGo {σ : Type} (s : AState σ) (i : Nat) : Prop := ∀ (j : Nat) (t : AThr σ), s.thr[j]? = some t → Busy t → j = i

/-- Any number of steps of the threads in `P`, in any order. -/
inductive ARuns {σ : Type} (A : PAlloc σ) (P : Nat → Prop) : AState σ → AState σ → Prop where
  | refl (s : AState σ) : ARuns A P s s
  | tail {s t u : AState σ} {i : Nat} : ARuns A P s t → P i → t.step A i = .ok u → ARuns A P s u

/-- Thread `i` is between two operations and its next one is to write to a block that it holds. -/
def Writes {σ : Type} (s : AState σ) (i : Nat) : Prop :=
  ∃ t k off x os, s.thr[i]? = some t ∧ t.cur = none ∧ t.ops = .write k off x :: os

/-- The same under mutual exclusion: the requests and releases of different threads do not overlap in time.  Writes to blocks are not restricted: they can take place while another thread is
inside an operation of the allocator. -/
inductive ExRuns {σ : Type} (A : PAlloc σ) (P : Nat → Prop) : AState σ → AState σ → Prop where
  | refl (s : AState σ) : ExRuns A P s s
  | tail {s t u : AState σ} {i : Nat} : ExRuns A P s t → P i → MayGo t i ∨ Writes t i → t.step A i = .ok u → ExRuns A P s u

/-- All blocks that some thread holds. -/
def allHeld {σ : Type} (s : AState σ) : List Blk := (s.thr.map AThr.held).flatten

/-- The threads as one client. -/
def worldOf {σ : Type} (s : AState σ) : World σ := ⟨s.sh.1, s.sh.2, allHeld s⟩

/-- The accesses `A` without interference are the operations of the allocator `A'`. -/
structure Refines {σ : Type} (A : PAlloc σ) (A' : Allocator σ) : Prop where
  allocate : ∀ n st sys, (A.allocate n).run (st, sys) = (A'.allocate n st sys).map (fun r => (r.1, (r.2.1, r.2.2)))
  allocateZero : ∀ n st sys, (A.allocateZero n).run (st, sys) = (A'.allocateZero n st sys).map (fun r => (r.1, (r.2.1, r.2.2)))
  deallocate : ∀ k st sys, (A.deallocate k).run (st, sys) = (A'.deallocate k st sys).map (fun r => ((), r))

/-- The system with other contents of memory. -/
def withMem (sys : Sys) (m : Int → Nat) : Sys := { sys with mem := m }

/-- Zero at the addresses in `Z`. -/
def zap (Z : Int → Bool) (m : Int → Nat) : Int → Nat := fun a => if Z a then 0 else m a

/-- The accesses do not depend on the contents of memory, and change them only by writing zeros. -/
def Blind {σ R : Type} : Prog (σ × Sys) R → Prop
  | .ret _ => True
  | .fail => True
  | .act f c => (∀ st sys m, c (st, withMem sys m) = c (st, sys)) ∧
      (∀ st sys, ∃ Z, ∀ m, f (st, withMem sys m) = ((f (st, sys)).1, withMem (f (st, sys)).2 (zap Z m))) ∧ ∀ s, Blind (c s)

/-- No operation of the allocator looks at the contents of memory. -/
structure BlindA {σ : Type} (A : PAlloc σ) : Prop where
  allocate : ∀ n, Blind (A.allocate n)
  allocateZero : ∀ n, Blind (A.allocateZero n)
  deallocate : ∀ k, Blind (A.deallocate k)

end Nda.Alloc.Spec
