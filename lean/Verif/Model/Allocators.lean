import Verif.Model.Basic
/-!
# Model of `c++/nda/mem/allocators.hpp`

Addresses are integers, memory maps addresses to bytes (`Nat`).  Every allocator is a record of
functions on its own state and on the state of the system (the C heap), so that the templates
`segregator`, `leak_check`, `stats` are functions on allocators.  `none` stands for `std::abort`
or undefined behaviour.  Sizes and counters do not overflow.
-/
namespace Nda.Alloc

/-- `blk_t`, allocators.hpp:46-49.  Also used for the regions of the system heap. -/
structure Blk where
  ptr : Int
  s : Nat
deriving DecidableEq, Repr

/-- The C heap: the regions in use, the contents of memory, and the (arbitrary) strategy `pick time
regions size` by which it chooses addresses.  `time` counts the calls: the strategy may answer
differently in the same situation. -/
structure Sys where
  pick : Nat → List Blk → Nat → Int
  time : Nat
  regions : List Blk
  mem : Int → Nat

/-- `std::malloc`. -/
def Sys.malloc (sys : Sys) (n : Nat) : Int × Sys :=
  let a := sys.pick sys.time sys.regions n
  (a, { sys with time := sys.time + 1, regions := ⟨a, n⟩ :: sys.regions })

/-- `std::free`; of a pointer that is not the start of a region in use: undefined. -/
def Sys.free (sys : Sys) (a : Int) : Option Sys :=
  match sys.regions.find? (fun r => r.ptr == a) with
  | some r => some { sys with regions := sys.regions.erase r }
  | none => none

/-- `std::memset(ptr, 0, n)`. -/
def Sys.zero (sys : Sys) (a : Int) (n : Nat) : Sys :=
  { sys with mem := fun x => if a ≤ x ∧ x < a + n then 0 else sys.mem x }

/-- The concept `Allocator`, mem/policies.hpp: what an allocator with state `σ` provides. -/
structure Allocator (σ : Type) where
  /-- Default construction. -/
  init : Sys → σ × Sys
  allocate : Nat → σ → Sys → Option (Blk × σ × Sys)
  allocateZero : Nat → σ → Sys → Option (Blk × σ × Sys)
  deallocate : Blk → σ → Sys → Option (σ × Sys)

/-! ### mallocator -/

/-- `mallocator`, allocators.hpp:57-83, on the host (`std::calloc` is `malloc` and zeroing; on the device
the code says exactly that). -/
def mallocator : Allocator Unit where
  init sys := ((), sys)
  allocate n _ sys := let (a, sys) := sys.malloc n; some (⟨a, n⟩, (), sys)
  allocateZero n _ sys := let (a, sys) := sys.malloc n; some (⟨a, n⟩, (), sys.zero a n)
  deallocate b _ sys := do let sys ← sys.free b.ptr; return ((), sys)

/-! ### bucket -/

/-- `bucket<C>`, allocators.hpp:89-95: start of its 64 chunks and mask of the free chunks. -/
structure Bucket where
  p : Int
  flags : BitVec 64
deriving DecidableEq, Repr

/-- `__builtin_ctzll`: position of the lowest set bit; undefined for 0. -/
def ctz (x : BitVec 64) : Option Nat := (List.range 64).find? (fun i => x.getLsbD i)

namespace Bucket

/-- Default construction, allocators.hpp:91-94 and 105: `make_unique<char[]>` allocates and zeroes. -/
def init (C : Nat) (sys : Sys) : Bucket × Sys :=
  let (a, sys) := sys.malloc (64 * C)
  (⟨a, BitVec.allOnes 64⟩, sys.zero a (64 * C))

/-- `is_full`, allocators.hpp:137. -/
def isFull (b : Bucket) : Bool := b.flags == 0#64

/-- `empty`, allocators.hpp:138. -/
def isEmpty (b : Bucket) : Bool := b.flags == BitVec.allOnes 64

/-- `owns`, allocators.hpp:142. -/
def owns (C : Nat) (b : Bucket) (k : Blk) : Bool := decide (b.p ≤ k.ptr) && decide (k.ptr < b.p + (64 * C : Nat))

/-- `allocate`, allocators.hpp:112-123. -/
def allocate (C : Nat) (n : Nat) (b : Bucket) : Option (Blk × Bucket) := do
  if b.flags = 0#64 then none
  let pos ← ctz b.flags
  return (⟨b.p + pos * C, n⟩, { b with flags := b.flags &&& ~~~(1#64 <<< pos) })

/-- `deallocate`, allocators.hpp:131-135.  A shift by a negative number or by 64 or more is undefined. -/
def deallocate (C : Nat) (k : Blk) (b : Bucket) : Option Bucket :=
  if C = 0 then none
  else
    let pos := (k.ptr - b.p).tdiv C
    if 0 ≤ pos ∧ pos < 64 then some { b with flags := b.flags ||| (1#64 <<< pos.toNat) } else none

end Bucket

/-- `bucket<C>` as an allocator, allocators.hpp:89-143. -/
def bucket (C : Nat) : Allocator Bucket where
  init := Bucket.init C
  allocate n b sys := do let (k, b) ← b.allocate C n; return (k, b, sys)
  allocateZero n b sys := do let (k, b) ← b.allocate C n; return (k, b, sys.zero k.ptr n)
  deallocate k b sys := do let b ← b.deallocate C k; return (b, sys)

/-! ### multi_bucket -/

/-- `multi_bucket<C>`, allocators.hpp:149-153: the buckets, and the bucket in use as position in the
vector (`cur = vec.length` is `end()`). -/
structure Multi where
  vec : List Bucket
  cur : Nat
deriving DecidableEq, Repr

namespace Multi

/-- `multi_bucket()`, allocators.hpp:172. -/
def init (C : Nat) (sys : Sys) : Multi × Sys :=
  let (b, sys) := Bucket.init C sys
  (⟨[b], 0⟩, sys)

/-- `std::find_if` and `std::upper_bound`/`lower_bound` return the first position at which a condition
starts to hold, or `end()`; for the two binary searches this is their contract on a sorted vector. -/
def firstPos (q : Bucket → Bool) (v : List Bucket) : Nat := v.findIdx q

/-- `find_non_full_bucket`, allocators.hpp:156-168. -/
def findNonFull (C : Nat) (m : Multi) (sys : Sys) : Multi × Sys :=
  let cur := firstPos (fun b => !b.isFull) m.vec
  if cur ≠ m.vec.length then (⟨m.vec, cur⟩, sys)
  else
    let (b, sys) := Bucket.init C sys
    let pos := firstPos (fun b' => decide (b.p < b'.p)) m.vec
    (⟨m.vec.insertIdx pos b, pos⟩, sys)

/-- First line of `allocate`, allocators.hpp:180. -/
def ready (C : Nat) (m : Multi) (sys : Sys) : Multi × Sys :=
  match m.vec[m.cur]? with
  | none => findNonFull C m sys
  | some b => cond b.isFull (findNonFull C m sys) (m, sys)

/-- `allocate`, allocators.hpp:178-182. -/
def allocate (C : Nat) (n : Nat) (m : Multi) (sys : Sys) : Option (Blk × Multi × Sys) := do
  let (m, sys) := ready C m sys
  let b ← m.vec[m.cur]?
  let (k, b) ← b.allocate C n
  return (k, ⟨m.vec.set m.cur b, m.cur⟩, sys)

/-- The bucket destroyed by `bu_vec.erase(bu)` releases its memory. -/
def erase (m : Multi) (sys : Sys) : Option (Multi × Sys) := do
  let b ← m.vec[m.cur]?
  let sys ← sys.free b.p
  let vec := m.vec.eraseIdx m.cur
  return (⟨vec, vec.length⟩, sys)

/-- `deallocate`, allocators.hpp:190-205 (the `EXPECTS` are debug checks).  `--bu` at the beginning of
the vector is undefined. -/
def deallocate (C : Nat) (k : Blk) (m : Multi) (sys : Sys) : Option (Multi × Sys) :=
  match (m.vec[m.cur]?).filter (fun b => b.owns C k) with
  | some b => do
      let b ← b.deallocate C k
      return (⟨m.vec.set m.cur b, m.cur⟩, sys)
  | none => do
      let pos := firstPos (fun b => !decide (b.p ≤ k.ptr)) m.vec
      if pos = 0 then none
      let cur := pos - 1
      let b ← m.vec[cur]?
      let b ← b.deallocate C k
      let m : Multi := ⟨m.vec.set cur b, cur⟩
      if !b.isEmpty then return (m, sys)
      if m.vec.length ≤ 1 then return (m, sys)
      m.erase sys

end Multi

/-- `multi_bucket<C>` as an allocator, allocators.hpp:149-208. -/
def multiBucket (C : Nat) : Allocator Multi where
  init := Multi.init C
  allocate := Multi.allocate C
  allocateZero n m sys := do let (k, m, sys) ← m.allocate C n sys; return (k, m, sys.zero k.ptr n)
  deallocate := Multi.deallocate C

/-! ### The wrappers -/

/-- `segregator<T, A, B>`, allocators.hpp:215-235. -/
def segregator {σ τ : Type} (T : Nat) (A : Allocator σ) (B : Allocator τ) : Allocator (σ × τ) where
  init sys := let (a, sys) := A.init sys; let (b, sys) := B.init sys; ((a, b), sys)
  allocate n st sys :=
    if n ≤ T then do let (k, a, sys) ← A.allocate n st.1 sys; return (k, (a, st.2), sys)
    else do let (k, b, sys) ← B.allocate n st.2 sys; return (k, (st.1, b), sys)
  allocateZero n st sys :=
    if n ≤ T then do let (k, a, sys) ← A.allocateZero n st.1 sys; return (k, (a, st.2), sys)
    else do let (k, b, sys) ← B.allocateZero n st.2 sys; return (k, (st.1, b), sys)
  deallocate k st sys :=
    if k.s ≤ T then do let (a, sys) ← A.deallocate k st.1 sys; return ((a, st.2), sys)
    else do let (b, sys) ← B.deallocate k st.2 sys; return ((st.1, b), sys)

/-- `leak_check<A>`, allocators.hpp:239-293, with the aborts of debug mode; the second component of
the state is `memory_used`. -/
def leakCheck {σ : Type} (A : Allocator σ) : Allocator (σ × Int) where
  init sys := let (a, sys) := A.init sys; ((a, 0), sys)
  allocate n st sys := do let (k, a, sys) ← A.allocate n st.1 sys; return (k, (a, st.2 + k.s), sys)
  allocateZero n st sys := do let (k, a, sys) ← A.allocateZero n st.1 sys; return (k, (a, st.2 + k.s), sys)
  deallocate k st sys := do
    let used := st.2 - k.s
    if used < 0 then none
    let (a, sys) ← A.deallocate k st.1 sys
    return ((a, used), sys)

/-- `leak_check::empty`, allocators.hpp:261; the destructor (252-259) aborts unless it holds. -/
def leakCheckEmpty {σ : Type} (st : σ × Int) : Bool := st.2 == 0

/-- `__builtin_clzl`: number of leading zero bits of a 64-bit number; undefined for 0. -/
def clz (n : Nat) : Option Nat := if n = 0 ∨ 2 ^ 64 ≤ n then none else some (63 - n.log2)

/-- `++hist[__builtin_clzl(s)]`. -/
def count (n : Nat) (hist : List Nat) : Option (List Nat) := do
  let i ← clz n
  let h ← hist[i]?
  return hist.set i (h + 1)

/-- `stats<A>`, allocators.hpp:297-336, with its histogram.  `allocate_zero` calls `A::allocate` (line
329). -/
def stats {σ : Type} (A : Allocator σ) : Allocator (σ × List Nat) where
  init sys := let (a, sys) := A.init sys; ((a, List.replicate 65 0), sys)
  allocate n st sys := do
    let h ← count n st.2
    let (k, a, sys) ← A.allocate n st.1 sys
    return (k, (a, h), sys)
  allocateZero n st sys := do
    let h ← count n st.2
    let (k, a, sys) ← A.allocate n st.1 sys
    return (k, (a, h), sys)
  deallocate k st sys := do let (a, sys) ← A.deallocate k st.1 sys; return ((a, st.2), sys)

/-! ### Clients -/

/-- What a client does: request blocks, release one of the blocks it holds (by position), write a
byte into one of them. -/
inductive Op where
  | alloc (n : Nat)
  | allocZero (n : Nat)
  | free (i : Nat)
  | write (i : Nat) (off : Nat) (x : Nat)
deriving DecidableEq, Repr

/-- A client at work: the allocator, the system, the blocks it holds. -/
structure World (σ : Type) where
  st : σ
  sys : Sys
  held : List Blk

/-- One client operation.  Operations on blocks that are not held, or outside of them, do nothing
(well-behaved clients do not do them). -/
def World.step {σ : Type} (A : Allocator σ) (w : World σ) : Op → Option (World σ)
  | .alloc n => do let (k, st, sys) ← A.allocate n w.st w.sys; return ⟨st, sys, k :: w.held⟩
  | .allocZero n => do let (k, st, sys) ← A.allocateZero n w.st w.sys; return ⟨st, sys, k :: w.held⟩
  | .free i => match w.held[i]? with
      | none => some w
      | some k => do let (st, sys) ← A.deallocate k w.st w.sys; return ⟨st, sys, w.held.eraseIdx i⟩
  | .write i off x => match w.held[i]? with
      | none => some w
      | some k => if off < k.s then some { w with sys := { w.sys with mem := fun a => if a = k.ptr + off then x else w.sys.mem a } }
                  else some w

/-- A history of operations. -/
def World.run {σ : Type} (A : Allocator σ) (w : World σ) (ops : List Op) : Option (World σ) :=
  ops.foldlM (fun w op => w.step A op) w

/-- The beginning: a fresh allocator, no blocks. -/
def World.start {σ : Type} (A : Allocator σ) (sys : Sys) : World σ := let (st, sys) := A.init sys; ⟨st, sys, []⟩

end Nda.Alloc
