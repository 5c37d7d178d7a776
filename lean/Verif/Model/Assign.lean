import Verif.Model.Loops
import Verif.Model.Iterators
/-!
# Model of assignment, `_impl_basic_array_view_common.hpp:331-431`, of `mem/memcpy.hpp` and of
`get_block_layout`, `operator==` (`basic_functions.hpp`)

Memory is one buffer of elements (`List α`, indexed by addresses); an array or view is a `View`
(data pointer and layout) into it.  Reading or writing outside the buffer is `none`.  Sizes in
bytes are counted in elements.
-/
namespace Nda.Assign
open Nda LayoutTransforms Loops

variable {α : Type}

/-- The right-hand side: an array in memory (`null`: its storage handle is null), or any other
object with element access (lazy expression, adapter). -/
inductive Rhs (α : Type) where
  | inMem (v : View) (null : Bool)
  | expr (f : List Int → List α → Option α)

/-- `rhs(args...)` for an array in memory: element access then load. -/
def load (v : View) (idx : List Int) (mem : List α) : Option α := do
  let k ← element v (idx.map .idx)
  rdInt mem k

/-- `a(args...) = x`. -/
def store (v : View) (idx : List Int) (x : α) (mem : List α) : Option (List α) := do
  let k ← element v (idx.map .idx)
  wrInt mem k x

/-- `rhs(args...)`. -/
def Rhs.get : Rhs α → List Int → List α → Option α
  | .inMem v _, idx, mem => load v idx mem
  | .expr f, idx, mem => f idx mem

/-- The fallback, _impl_basic_array_view_common.hpp:385-387. -/
def elementwise (a : View) (rhs : Rhs α) (mem : List α) : Option (List α) :=
  forEach a.lay.len (fun idx mem => do let x ← rhs.get idx mem; store a idx x mem) mem

/-- The linear copy, _impl_basic_array_view_common.hpp:349-351. -/
def linearCopy (a b : View) (mem : List α) : Option (List α) :=
  forLoop a.lay.size (fun i mem => do
    let s ← linear b i
    let x ← rdInt mem s
    let d ← linear a i
    wrInt mem d x) mem

/-- Conversion of a `long` to `int` (modulo 2^32). -/
def toInt32 (x : Int) : Int := x.bmod 4294967296

/-- `std::memcpy`; overlapping regions are undefined behaviour. -/
def memcpy (dst src : Int) (n : Nat) (mem : List α) : Option (List α) :=
  if n = 0 ∨ dst + n ≤ src ∨ src + n ≤ dst then
    (List.range n).foldlM (fun mem k => do let x ← rdInt mem (src + Int.ofNat k); wrInt mem (dst + Int.ofNat k) x) mem
  else none

/-- `mem::memcpy2D`, memcpy.hpp:39-52, host version; the CUDA call of the device version is assumed
to do the same.  The arguments are `size_t`: a negative one would become huge (`none`).  `EXPECTS`
at line 40 (width at most both pitches) is enforced. -/
def memcpy2D (dst dpitch src spitch width height : Int) (mem : List α) : Option (List α) :=
  if 0 ≤ dpitch ∧ 0 ≤ spitch ∧ 0 ≤ width ∧ 0 ≤ height ∧ width ≤ dpitch ∧ width ≤ spitch then
    (List.range height.toNat).foldlM
      (fun mem i => memcpy (dst + Int.ofNat i * dpitch) (src + Int.ofNat i * spitch) width.toNat mem) mem
  else none

/-- State of the loop of `get_block_layout`: number of blocks, block size, block stride. -/
structure Blocks where
  n : Int
  size : Int
  str : Int
deriving DecidableEq, Repr

/-- The loop of `get_block_layout`, basic_functions.hpp:363-373, over the remaining dimensions in
memory order, as (length, stride).  `some none` is `return {}`. Division by zero is undefined. -/
def blockLoop (size dataSize : Int) : List (Int × Int) → Blocks → Option (Option Blocks)
  | [], st => some (some st)
  | (_, s) :: rest, st =>
      let inner := match rest with | [] => 1 | (l', s') :: _ => s' * l'
      if s ≠ inner then
        if st.size < dataSize then some none
        else if inner = 0 then none
        else blockLoop size dataSize rest ⟨toInt32 (size.tdiv inner), toInt32 inner, toInt32 s⟩
      else blockLoop size dataSize rest st

/-- `get_block_layout`, basic_functions.hpp:350-377 (the `ASSERT`s are debug checks).  The result is
a tuple of `int`. -/
def getBlockLayout (m : IdxMap) : Option (Option Blocks) := do
  let l ← Perm.apply m.so m.len
  let s ← Perm.apply m.so m.str
  match l, s with
  | l0 :: _, s0 :: _ =>
      let dataSize := toInt32 (l0 * s0)
      blockLoop m.size dataSize (l.zip s) ⟨1, dataSize, dataSize⟩
  | _, _ => none

/-- `mem::AddressSpace` of arrays, mem/address_space.hpp:43. -/
inductive Space where
  | host | device | unified
deriving DecidableEq, Repr

/-- What the block copy did. -/
inductive BlockResult (α : Type) where
  | done (mem : List α)
  | fallback
  | error

/-- The block copy of `assign_from_ndarray`, _impl_basic_array_view_common.hpp:354-380. -/
def blockCopy (a b : View) (mem : List α) : Option (BlockResult α) := do
  let bd ← getBlockLayout a.lay
  let bs ← getBlockLayout b.lay
  match bd, bs with
  | some d, some s =>
      if d.n * d.size ≠ s.n * s.size then return .error
      let d' : Blocks := if d.n = 1 ∧ s.n > 1 then ⟨s.n, d.size.tdiv s.n, d.size.tdiv s.n⟩ else d
      let s' : Blocks := if s.n = 1 ∧ d'.n > 1 then ⟨d'.n, s.size.tdiv d'.n, s.size.tdiv d'.n⟩ else s
      if d'.n = s'.n ∧ d'.size = s'.size then do
        let mem' ← memcpy2D a.off d'.str b.off s'.str s'.size s'.n mem
        return .done mem'
      else return .fallback
  | _, _ => return .fallback

/-- After the special paths, _impl_basic_array_view_common.hpp:383-387: a runtime error (`some none`)
if one side is in device memory, else elementwise. -/
def fallback (sa sb : Space) (a : View) (rhs : Rhs α) (mem : List α) : Option (Option (List α)) :=
  if sa = .device ∨ sb = .device then some none
  else (elementwise a rhs mem).map some

/-- `assign_from_ndarray`, _impl_basic_array_view_common.hpp:331-388 (without the shape check of
debug mode).  `sa`, `sb`: address spaces; `sameType`: same value type. -/
def assign (sa sb : Space) (sameType : Bool) (a : View) (rhs : Rhs α) (mem : List α) : Option (Option (List α)) :=
  match rhs with
  | .expr _ => fallback sa sb a rhs mem
  | .inMem b null =>
      if a.lay.so = b.lay.so then
        if null then some (some mem)
        else if sa = .host ∧ sb = .host then
          if a.lay.prop.strided1d && b.lay.prop.strided1d then (linearCopy a b mem).map some
          else fallback sa sb a rhs mem
        else if sameType then do
          match ← blockCopy a b mem with
          | .done mem' => return some mem'
          | .error => return none
          | .fallback => fallback sa sb a rhs mem
        else fallback sa sb a rhs mem
      else fallback sa sb a rhs mem

/-! ### Scalars -/

/-- `for (long i = i0; i < bound; i += step) body(i)`, at most `fuel` tests. -/
def strideLoop {σ : Type} (bound step : Int) (body : Int → σ → Option σ) : Nat → Int → σ → Option σ
  | 0, _, _ => none
  | fuel + 1, i, s => if i < bound then do let s' ← body i s; strideLoop bound step body fuel (i + step) s' else some s

/-- `fill_with_scalar`, _impl_basic_array_view_common.hpp:393-408.  `fuel` bounds the iterations of
the loop over iterators; the strided loop makes at most `Lstri` steps when its stride is positive. -/
def fillWithScalar (fuel : Nat) (a : View) (x : α) (mem : List α) : Option (List α) :=
  if a.lay.prop.strided1d then
    let L := a.lay.size
    if a.lay.prop.hasContiguous then forLoop L (fun i mem => wrInt mem (a.off + i) x) mem
    else do
      let stri ← a.lay.minStride
      let Lstri := L * stri
      strideLoop Lstri stri (fun i mem => wrInt mem (a.off + i) x) (Lstri.toNat + 1) 0 mem
  else do
    let b ← a.lay.makeIterator false
    let e ← a.lay.makeIterator true
    Grid.rangeFor (fun o mem => wrInt mem (a.off + o) x) e fuel b mem

/-- `assign_from_scalar` for algebra 'A' and 'V', line 418. -/
def assignScalar (fuel : Nat) (a : View) (x : α) (mem : List α) : Option (List α) := fillWithScalar fuel a x mem

/-- `assign_from_scalar` for algebra 'M' (rank 2), lines 420-429. -/
def assignScalarMatrix (fuel : Nat) (a : View) (zero x : α) (mem : List α) : Option (List α) := do
  let mem ← fillWithScalar fuel a zero mem
  let n0 ← rd a.lay.len 0
  let n1 ← rd a.lay.len 1
  forLoop (min n0 n1) (fun i mem => store a [i, i] x mem) mem

/-! ### Comparison -/

/-- `operator==(A, B)`, basic_functions.hpp:289-299; `getA`, `getB` are the element accesses, `eq` the
comparison of elements. -/
def arrayEq {β : Type} (eq : α → β → Bool) (lenA lenB : List Int) (getA : List Int → Option α)
    (getB : List Int → Option β) : Option Bool :=
  if lenA ≠ lenB then some false
  else forEach lenA (fun idx r => do let x ← getA idx; let y ← getB idx; return (r && eq x y)) true

end Nda.Assign

namespace Nda.Assign
open Nda LayoutTransforms Loops

/-- `a op= rhs`, _impl_basic_array_view_common.hpp:285-316: `operator=(*this op rhs)`, i.e. the
assignment of the lazy expression (C26). -/
def compound {α : Type} (op : α → α → Option α) (sa sb : Space) (a : View) (rhs : Rhs α) (mem : List α) : Option (Option (List α)) :=
  assign sa sb true a (.expr (fun idx mem => do
    let x ← load a idx mem
    let y ← rhs.get idx mem
    op x y)) mem

end Nda.Assign
