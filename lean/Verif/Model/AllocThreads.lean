import Verif.Model.Allocators
/-!
# An allocator used by several threads (`c++/nda/mem/handle.hpp:69-73`, `c++/nda/mem/allocators.hpp`)

`handle_heap` has one allocator for all arrays with the same element type: `static inline alloc_t allocator` (handle.hpp:70, 72).  Arrays in different threads therefore use the same
allocator object.  Here the operations of Model/Allocators are written a second time as sequences of single accesses to the allocator and to the system, and the threads make their
accesses in any order.

Simplified: `malloc`, `calloc` and `free` are thread safe (C standard) and one step each; `memset` of a block and the operations of `std::vector` on the buckets are one step; an iterator
is the position in the vector; memory is sequentially consistent (C++ promises nothing at all in case of a data race).
-/
namespace Nda.Alloc

/-- A sequence of accesses to a shared state: an access changes the state with `f` and goes on with what it has seen (the state before); `fail` is `std::abort` or undefined behaviour. -/
inductive Prog (S R : Type) where
  | ret (r : R)
  | fail
  | act (f : S → S) (c : S → Prog S R)

namespace Prog

variable {S S' R R' : Type}

/-- A load. -/
def load (c : S → Prog S R) : Prog S R := .act id c

/-- A store. -/
def store (f : S → S) (c : Prog S R) : Prog S R := .act f (fun _ => c)

def bind : Prog S R → (R → Prog S R') → Prog S R'
  | .ret r, k => k r
  | .fail, _ => .fail
  | .act f c, k => .act f (fun s => (c s).bind k)

/-- Accesses to a part of the state. -/
def lift (get : S → S') (put : S' → S → S) : Prog S' R → Prog S R
  | .ret r => .ret r
  | .fail => .fail
  | .act f c => .act (fun s => put (f (get s)) s) (fun s => (c (get s)).lift get put)

/-- All accesses without any other thread. -/
def run : Prog S R → S → Option (R × S)
  | .ret r, s => some (r, s)
  | .fail, _ => none
  | .act f c, s => (c s).run (f s)

end Prog

/-- An allocator with state `σ`, in single accesses. -/
structure PAlloc (σ : Type) where
  allocate : Nat → Prog (σ × Sys) Blk
  allocateZero : Nat → Prog (σ × Sys) Blk
  deallocate : Blk → Prog (σ × Sys) Unit

/-- `std::memset(blk.ptr, 0, s)` after `allocate`, allocators.hpp:123-127, 184-188. -/
def thenZero {σ : Type} (n : Nat) (p : Prog (σ × Sys) Blk) : Prog (σ × Sys) Blk :=
  p.bind (fun k => .store (fun s => (s.1, s.2.zero k.ptr n)) (.ret k))

/-- `mallocator`, allocators.hpp:57-83, on the host. -/
def mallocatorP : PAlloc Unit where
  allocate n := .act (fun s => (s.1, (s.2.malloc n).2)) (fun s => .ret ⟨(s.2.malloc n).1, n⟩)
  allocateZero n := .act (fun s => (s.1, (s.2.malloc n).2.zero (s.2.malloc n).1 n)) (fun s => .ret ⟨(s.2.malloc n).1, n⟩)
  deallocate b := .act (fun s => (s.1, (s.2.free b.ptr).getD s.2)) (fun s => if (s.2.free b.ptr).isSome then .ret () else .fail)

section
variable {S : Type}

/-- `bucket::allocate`, allocators.hpp:109-121: `flags` is loaded for the test, for `__builtin_ctzll` and for `&=`, and then stored.  `get`, `put`: where the bucket is. -/
def allocAt (get : S → Option Bucket) (put : BitVec 64 → S → S) (C n : Nat) : Prog S Blk :=
  .load fun s =>
    match get s with
    | none => .fail
    | some b =>
        if b.flags = 0#64 then .fail
        else .load fun s =>
          match (get s).bind (fun b => ctz b.flags) with
          | none => .fail
          | some pos => .load fun s =>
              match get s with
              | none => .fail
              | some b' => .store (put (b'.flags &&& ~~~(1#64 <<< pos))) (.ret ⟨b.p + pos * C, n⟩)

/-- `bucket::deallocate`, allocators.hpp:129-135: `flags` is loaded and stored. -/
def deallocAt (get : S → Option Bucket) (put : BitVec 64 → S → S) (C : Nat) (k : Blk) : Prog S Unit :=
  .load fun s =>
    match get s with
    | none => .fail
    | some b =>
        if C = 0 then .fail
        else
          let pos := (k.ptr - b.p).tdiv C
          if 0 ≤ pos ∧ pos < 64 then .store (put (b.flags ||| (1#64 <<< pos.toNat))) (.ret ()) else .fail

end

/-- Store the mask of a bucket. -/
def putFlags (x : BitVec 64) (s : Bucket × Sys) : Bucket × Sys := ({ s.1 with flags := x }, s.2)

/-- `bucket<C>`, allocators.hpp:88-143. -/
def bucketP (C : Nat) : PAlloc Bucket where
  allocate n := allocAt (fun s => some s.1) putFlags C n
  allocateZero n := thenZero n (allocAt (fun s => some s.1) putFlags C n)
  deallocate k := deallocAt (fun s => some s.1) putFlags C k

/-- Store the mask of the bucket at position `i`. -/
def putFlagsAt (i : Nat) (x : BitVec 64) (s : Multi × Sys) : Multi × Sys :=
  (⟨s.1.vec.modify i (fun b => { b with flags := x }), s.1.cur⟩, s.2)

/-- `multi_bucket::allocate`, allocators.hpp:178-182: the test, `find_non_full_bucket` if it is needed, `bu->allocate`. -/
def multiAllocP (C n : Nat) : Prog (Multi × Sys) Blk :=
  let last : Prog (Multi × Sys) Blk := .load fun s => allocAt (fun s' => s'.1.vec[s.1.cur]?) (putFlagsAt s.1.cur) C n
  .load fun s =>
    if (match s.1.vec[s.1.cur]? with | none => true | some b => b.isFull) then .store (fun s => s.1.findNonFull C s.2) last
    else last

/-- `multi_bucket::deallocate`, allocators.hpp:190-205: the test of the current bucket; otherwise the search, `bu` is stored, the bucket's `deallocate`, the tests `empty` and `size`, and
`erase`. -/
def multiDeallocP (C : Nat) (k : Blk) : Prog (Multi × Sys) Unit :=
  .load fun s =>
    match (s.1.vec[s.1.cur]?).filter (fun b => b.owns C k) with
    | some _ => deallocAt (fun s' => s'.1.vec[s.1.cur]?) (putFlagsAt s.1.cur) C k
    | none => .load fun s =>
        let pos := Multi.firstPos (fun b => !decide (b.p ≤ k.ptr)) s.1.vec
        if pos = 0 then .fail
        else .store (fun s => (⟨s.1.vec, pos - 1⟩, s.2)) <|
          .load fun s => (deallocAt (fun s' => s'.1.vec[s.1.cur]?) (putFlagsAt s.1.cur) C k).bind fun _ =>
            .load fun s =>
              match s.1.vec[s.1.cur]? with
              | none => .fail
              | some b =>
                  if !b.isEmpty then .ret ()
                  else .load fun s =>
                    if s.1.vec.length ≤ 1 then .ret ()
                    else .act (fun s => (s.1.erase s.2).getD s) (fun s => if (s.1.erase s.2).isSome then .ret () else .fail)

/-- `multi_bucket<C>`, allocators.hpp:148-208. -/
def multiBucketP (C : Nat) : PAlloc Multi where
  allocate := multiAllocP C
  allocateZero n := thenZero n (multiAllocP C n)
  deallocate := multiDeallocP C

/-- The first part of a state with two parts. -/
def getL {σ τ : Type} (s : (σ × τ) × Sys) : σ × Sys := (s.1.1, s.2)

def putL {σ τ : Type} (x : σ × Sys) (s : (σ × τ) × Sys) : (σ × τ) × Sys := ((x.1, s.1.2), x.2)

/-- The second part. -/
def getR {σ τ : Type} (s : (σ × τ) × Sys) : τ × Sys := (s.1.2, s.2)

def putR {σ τ : Type} (x : τ × Sys) (s : (σ × τ) × Sys) : (σ × τ) × Sys := ((s.1.1, x.1), x.2)

/-- `segregator<T, A, B>`, allocators.hpp:214-235. -/
def segregatorP {σ τ : Type} (T : Nat) (A : PAlloc σ) (B : PAlloc τ) : PAlloc (σ × τ) where
  allocate n := if n ≤ T then (A.allocate n).lift getL putL else (B.allocate n).lift getR putR
  allocateZero n := if n ≤ T then (A.allocateZero n).lift getL putL else (B.allocateZero n).lift getR putR
  deallocate k := if k.s ≤ T then (A.deallocate k).lift getL putL else (B.deallocate k).lift getR putR

/-- `memory_used = memory_used + b.s`, allocators.hpp:265, 272: a load and a store. -/
def addUsed {σ : Type} (k : Blk) : Prog ((σ × Int) × Sys) Blk :=
  .load fun s => .store (fun s' => ((s'.1.1, s.1.2 + k.s), s'.2)) (.ret k)

/-- `leak_check<A>`, allocators.hpp:238-293, with the abort of debug mode. -/
def leakCheckP {σ : Type} (A : PAlloc σ) : PAlloc (σ × Int) where
  allocate n := ((A.allocate n).lift getL putL).bind addUsed
  allocateZero n := ((A.allocateZero n).lift getL putL).bind addUsed
  deallocate k :=
    .load fun s => .store (fun s' => ((s'.1.1, s.1.2 - k.s), s'.2)) <|
      .load fun s => if s.1.2 < 0 then .fail else (A.deallocate k).lift getL putL

/-- `++hist[__builtin_clzl(s)]`, allocators.hpp:322, 327: a load and a store. -/
def countP {σ R : Type} (n : Nat) (c : Prog ((σ × List Nat) × Sys) R) : Prog ((σ × List Nat) × Sys) R :=
  match clz n with
  | none => .fail
  | some i => .load fun s =>
      match s.1.2[i]? with
      | none => .fail
      | some h => .store (fun s' => ((s'.1.1, s'.1.2.set i (h + 1)), s'.2)) c

/-- `stats<A>`, allocators.hpp:296-336. -/
def statsP {σ : Type} (A : PAlloc σ) : PAlloc (σ × List Nat) where
  allocate n := countP n ((A.allocate n).lift getL putL)
  allocateZero n := countP n ((A.allocate n).lift getL putL)
  deallocate k := (A.deallocate k).lift getL putL

/-! ### Threads -/

/-- A thread: the blocks that it holds, the rest of the operation in which it is (`none`: between two operations), the operations still to do. -/
structure AThr (σ : Type) where
  held : List Blk
  cur : Option (Prog (σ × Sys) (Option Blk))
  ops : List Op

/-- The allocator and the system, which all threads share, and the threads. -/
structure AState (σ : Type) where
  sh : σ × Sys
  thr : List (AThr σ)

/-- The accesses of one operation of a client (as `World.step`); the result is the new block, if there is one. -/
def opProg {σ : Type} (A : PAlloc σ) (held : List Blk) : Op → Prog (σ × Sys) (Option Blk)
  | .alloc n => (A.allocate n).bind (fun k => .ret (some k))
  | .allocZero n => (A.allocateZero n).bind (fun k => .ret (some k))
  | .free i => match held[i]? with
      | none => .ret none
      | some k => (A.deallocate k).bind (fun _ => .ret none)
  | .write i off x => match held[i]? with
      | none => .ret none
      | some k => if off < k.s then .store (fun s => (s.1, { s.2 with mem := fun a => if a = k.ptr + off then x else s.2.mem a })) (.ret none)
                  else .ret none

/-- The blocks that the thread holds while an operation is going on: a block is given away when the release starts. -/
def during (held : List Blk) : Op → List Blk
  | .free i => held.eraseIdx i
  | _ => held

/-- The thread with the rest `p` of its operation. -/
def settle {σ : Type} (held : List Blk) (ops : List Op) : Prog (σ × Sys) (Option Blk) → AThr σ
  | .ret r => ⟨r.toList ++ held, none, ops⟩
  | p => ⟨held, some p, ops⟩

/-- What comes out of a step. -/
inductive AOut (σ : Type) where
  | done
  | abort
  | ok (s : AState σ)

/-- Thread `i` makes the next access of `p`. -/
def advance {σ : Type} (s : AState σ) (i : Nat) (held : List Blk) (ops : List Op) : Prog (σ × Sys) (Option Blk) → AOut σ
  | .ret r => .ok ⟨s.sh, s.thr.set i (settle held ops (.ret r))⟩
  | .fail => .abort
  | .act f c => .ok ⟨f s.sh, s.thr.set i (settle held ops (c s.sh))⟩

/-- Thread `i` makes its next access. -/
def AState.step {σ : Type} (A : PAlloc σ) (s : AState σ) (i : Nat) : AOut σ :=
  match s.thr[i]? with
  | none => .done
  | some t =>
      match t.cur with
      | some p => advance s i t.held t.ops p
      | none =>
          match t.ops with
          | [] => .done
          | o :: os => advance s i (during t.held o) os (opProg A t.held o)

/-- The beginning: a new allocator with state `st`, and threads that do not hold any blocks. -/
def AState.start {σ : Type} (sh : σ × Sys) (progs : List (List Op)) : AState σ := ⟨sh, progs.map (fun ops => ⟨[], none, ops⟩)⟩

/-- The threads of `sched` make their accesses in this order. -/
def AState.follow {σ : Type} (A : PAlloc σ) : List Nat → AState σ → AOut σ
  | [], s => .ok s
  | i :: is, s => match s.step A i with
      | .ok s' => AState.follow A is s'
      | o => o

end Nda.Alloc
