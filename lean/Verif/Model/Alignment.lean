import Verif.Model.LayoutTransforms
/-!
# Where the elements are: sizes, alignments and addresses of arrays

Sizes and offsets of class members follow the rules of the C++ ABI of the platforms that the library supports (members in order, each at the next multiple of its
alignment; `long`, `size_t` and pointers have 8 bytes).  The compiler's rules are part of the trusted base.
-/
namespace Nda.Align
open LayoutTransforms

/-- `sizeof` and `alignof` of a type. -/
structure Ty where
  size : Nat
  align : Nat
deriving DecidableEq, Repr

/-- The next multiple of `a`. -/
def roundUp (x a : Nat) : Nat := (x + a - 1) / a * a

/-- Offsets of the members when the first may be placed at `x`, and the end of the last. -/
def place (x : Nat) : List Ty → List Nat × Nat
  | [] => ([], x)
  | t :: ts =>
      let o := roundUp x t.align
      let r := place (o + t.size) ts
      (o :: r.1, r.2)

/-- The largest alignment of the members. -/
def maxAlign : List Ty → Nat
  | [] => 1
  | t :: ts => max t.align (maxAlign ts)

/-- A class with the given members. -/
def Ty.struct (ms : List Ty) : Ty := ⟨max 1 (roundUp (place 0 ms).2 (maxAlign ms)), maxAlign ms⟩

/-- `std::array<t, n>`. -/
def Ty.array (t : Ty) (n : Nat) : Ty := if n = 0 then ⟨1, 1⟩ else ⟨t.size * n, t.align⟩

/-- `long`, `size_t`, pointers. -/
def word : Ty := ⟨8, 8⟩

def char : Ty := ⟨1, 1⟩

/-- `idx_map`, idx_map.hpp:83: lengths and strides. -/
def idxMapTy (rank : Nat) : Ty := .struct [.array word rank, .array word rank]

/-- `handle_stack<T, n>`, handle.hpp:223-232; the `alignas` is commented out. -/
def stackTy (t : Ty) (n : Nat) : Ty := .struct [.array char (t.size * n)]

/-- `handle_sso<T, n>`, handle.hpp:290-302; the `alignas` is commented out. -/
def ssoTy (t : Ty) (n : Nat) : Ty := .struct [.array char (t.size * n), word, word]

/-- `handle_heap<T>`, handle.hpp:85-98: pointer and size (the shared pointer that views use is left out). -/
def heapTy : Ty := .struct [word, word]

/-- Where the elements are kept, mem/policies.hpp:27-56. -/
inductive Policy where
  | heap
  | stack (n : Nat)
  | sso (n : Nat)

def handleTy (t : Ty) : Policy → Ty
  | .heap => heapTy
  | .stack n => stackTy t n
  | .sso n => ssoTy t n

/-- `basic_array`, basic_array.hpp:69-70: `lay`, then `sto`. -/
def arrayTy (t : Ty) (rank : Nat) (p : Policy) : Ty := .struct [idxMapTy rank, handleTy t p]

/-- Offset of `sto` in `basic_array`. -/
def stoOffset (t : Ty) (rank : Nat) (p : Policy) : Nat := (place 0 [idxMapTy rank, handleTy t p]).1.getD 1 0

/-- `sto.data()`: handle.hpp:217 (heap), 239 (stack), 318 with 308, 348, 400 (sso).  `obj` is the address of the array, `blk` that of the block that the
allocator returned, `size` the number of elements. -/
def dataAddr (t : Ty) (rank : Nat) (p : Policy) (size obj blk : Nat) : Nat :=
  match p with
  | .heap => blk
  | .stack _ => obj + stoOffset t rank p
  | .sso n => if size > n then blk else obj + stoOffset t rank p

/-- Address of the element at position `k` from the first of the storage; a view keeps a pointer to an element. -/
def elemAddr (t : Ty) (data : Nat) (k : Int) : Int := data + k * t.size

/-- The address of a chunk, `p + pos * ChunkSize`, allocators.hpp:113. -/
def bucketAddr (start chunk pos : Nat) : Nat := start + pos * chunk

end Nda.Align
