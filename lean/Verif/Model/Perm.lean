import Verif.Model.Basic
/-!
# Model of `c++/nda/layout/permutation.hpp`

`std::array<int, Rank>` is a list; the rank is its length.  A loop
`for u: result[u] = f(u)` is `mapM`; a loop writing `result[p[u]]` is a monadic
left fold of checked writes.  `EXPECTS(is_valid(..))` (debug only) is not part of
the functions: it becomes a hypothesis of the theorems.
-/

namespace Nda.Perm
open Nda

/-- `permutations::is_valid`, permutation.hpp:54-62.  Entries are signed ints;
an entry outside `0..R-1` indexes `idx_counts` out of range: undefined behaviour. -/
def isValidLoop : List Int → List Nat → Option Bool
  | [], _ => some true
  | idx :: rest, counts => do
      let c ← rdInt counts idx
      if c > 0 then return false
      let counts' ← wrInt counts idx 1
      isValidLoop rest counts'

/-- `permutations::is_valid`, permutation.hpp:54-62. -/
def isValid (p : List Int) : Option Bool := isValidLoop p (mkInit p.length 0)

/-- `permutations::compose`, permutation.hpp:65-72: `result[u] = p1[p2[u]]`. -/
def compose (p1 p2 : List Nat) : Option (List Nat) := p2.mapM (fun k => rd p1 k)

/-- The loop `for u: result[ks[u]] = xs[u]` shared by `inverse` and `apply_inverse`. -/
def scatter {α : Type _} : List (Nat × α) → List α → Option (List α)
  | [], r => some r
  | (k, x) :: rest, r => do
      let r' ← wr r k x
      scatter rest r'

/-- `permutations::inverse`, permutation.hpp:74-80: `result[p[u]] = u`. -/
def inverse (p : List Nat) : Option (List Nat) :=
  scatter (p.zip (List.range p.length)) (mkInit p.length 0)

/-- `permutations::apply_inverse`, permutation.hpp:82-88: `result[p[u]] = a[u]`.
`a` has the same static length as `p` in the code (template parameter `Rank`). -/
def applyInverse {α : Type _} [Inhabited α] (p : List Nat) (a : List α) : Option (List α) :=
  scatter (p.zip a) (mkInit p.length default)

/-- `permutations::apply`, permutation.hpp:90-96: `result[u] = a[p[u]]`. -/
def apply {α : Type _} (p : List Nat) (a : List α) : Option (List α) := p.mapM (fun k => rd a k)

/-- `permutations::identity`, permutation.hpp:98-103. -/
def identity (r : Nat) : List Nat := (List.range r).map (fun i => i)

/-- `permutations::reverse_identity`, permutation.hpp:105-110: `result[i] = Rank - 1 - i`. -/
def reverseIdentity (r : Nat) : List Nat := (List.range r).map (fun i => r - 1 - i)

/-- `permutations::transposition`, permutation.hpp:112-118. -/
def transposition (r : Nat) (i j : Nat) : Option (List Nat) := do
  let a ← wr (identity r) i j
  wr a j i

/-- `permutations::cycle`, permutation.hpp:127-132:
`result[i] = i < pos ? (pos + i - p) % pos : i` with the C++ (truncating) `%`. -/
def cycle (r : Nat) (p : Int) (pos : Int) : List Int :=
  (List.range r).map (fun (i : Nat) => if (i : Int) < pos then (pos + i - p).tmod pos else (i : Int))

/-! ## Integer encoding of small tuples -/

/-- One term `(a[i] << (4*i))` of `encode`, permutation.hpp:46.  `a[i]` is a 32-bit
`int`: the shift is undefined if `4*i ≥ 32`; otherwise the 32-bit result (C++20:
value mod 2^32, reinterpreted as signed) is sign-extended when added to the
`uint64_t` accumulator. -/
def encodeTerm (i : Nat) (x : BitVec 32) : Option (BitVec 64) :=
  if 4 * i < 32 then some ((x <<< (4 * i)).signExtend 64) else none

/-- `encode`, permutation.hpp:43-48 (loop from index `i`). -/
def encodeFrom : Nat → List (BitVec 32) → BitVec 64 → Option (BitVec 64)
  | _, [], acc => some acc
  | i, x :: xs, acc => do
      let t ← encodeTerm i x
      encodeFrom (i + 1) xs (acc + t)

/-- `encode`, permutation.hpp:43-48. -/
def encode (a : List (BitVec 32)) : Option (BitVec 64) := encodeFrom 0 a 0

/-- `decode<Rank>`, permutation.hpp:36-41: `result[i] = (bin >> (4*i)) & 0b1111`.
A shift by 64 or more is undefined. -/
def decode (r : Nat) (b : BitVec 64) : Option (List (BitVec 32)) :=
  (List.range r).mapM (fun i =>
    if 4 * i < 64 then some (((b >>> (4 * i)) &&& 15#64).setWidth 32) else none)

/-- `static_extents`, c++/nda/declarations.hpp:79-83: only the
first extent is compared with 15 (a failing test is a compile-time error, `none`). -/
def staticExtents : List (BitVec 32) → Option (BitVec 64)
  | [] => none
  | i0 :: is => if (15#32).slt i0 then none else encode (i0 :: is)

end Nda.Perm
