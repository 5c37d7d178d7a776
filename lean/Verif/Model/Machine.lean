import Verif.Model.BoundCheck
import Verif.Model.Iterators
/-!
# The layout arithmetic in 64-bit machine integers

The definitions of `Model/IdxMap.lean`, `Model/Slice.lean`, `Model/BoundCheck.lean` and `Model/Iterators.lean` compute in unbounded integers.  Here are the same functions of the code
with `long` as it is: every sum, difference, product, quotient must be representable, otherwise the behaviour is undefined (`none`).  Loop counters of type `int` run over ranks (below 16).
-/
namespace Nda.Machine
open Nda IdxMap LayoutTransforms

/-- The result of an operation on `long` (64 bits): undefined if it is not representable. -/
def chk (x : Int) : Option Int := if -9223372036854775808 ≤ x ∧ x ≤ 9223372036854775807 then some x else none

/-- `a + b` on `long`. -/
def addL (a b : Int) : Option Int := chk (a + b)
/-- `a - b` on `long`. -/
def subL (a b : Int) : Option Int := chk (a - b)
/-- `a * b` on `long`. -/
def mulL (a b : Int) : Option Int := chk (a * b)
/-- `a / b` on `long`: undefined for zero and for the smallest value divided by -1. -/
def divL (a b : Int) : Option Int := if b = 0 then none else chk (a.tdiv b)
/-- `a % b` on `long`: undefined when the quotient is. -/
def modL (a b : Int) : Option Int := if b = 0 then none else (chk (a.tdiv b)).map fun _ => a.tmod b

/-! ### idx_map.hpp -/

/-- `idx_map::size`, idx_map.hpp:118. -/
def sizeL (len : List Int) : Option Int := len.foldlM mulL 1

/-- The loop of `compute_strides_contiguous`, idx_map.hpp:175-179.  The last product is computed as well, although no stride needs it. -/
def stridesLoopL (len : List Int) : List Nat → Int → List Int → Option (List Int × Int)
  | [], s, str => some (str, s)
  | u :: us, s, str => do
      let l ← rd len u
      let str' ← wr str u s
      let s' ← mulL s l
      stridesLoopL len us s' str'

/-- `idx_map(std::array<Int, Rank> const &shape)`, idx_map.hpp:293-297. -/
def ofShapeL (len : List Int) (so se : List Nat) (prop : LayoutProp) : Option IdxMap := do
  let (str, _) ← stridesLoopL len so.reverse 1 (mkInit len.length 0)
  return { len, str, so, se, prop }

/-- `str * len`, stdutil/array.hpp:61-66. -/
def strTimesLenL (m : IdxMap) : Option (List Int) := (m.str.zip m.len).mapM fun x => mulL x.1 x.2

/-- `idx_map::is_contiguous`, idx_map.hpp:141-146. -/
def isContiguousL (m : IdxMap) : Option Bool := do
  let s ← sizeL m.len
  if s = 0 then return true
  let p ← strTimesLenL m
  let mx ← maxElement p
  return decide (mx = s)

/-- `idx_map::is_strided_1d`, idx_map.hpp:149-154. -/
def isStrided1dL (m : IdxMap) : Option Bool := do
  let s ← sizeL m.len
  if s = 0 then return true
  let p ← strTimesLenL m
  let mx ← maxElement p
  let ms ← m.minStride
  let x ← mulL s ms
  return decide (mx = x)

/-- `myget`, idx_map.hpp:332-344. -/
def mygetL (m : IdxMap) (skip : Bool) (k : Nat) : CArg → Option Int
  | .ell => some 0
  | .idx arg =>
      if skip && decide (some k = m.so.getLast?) then some arg
      else do let s ← rd m.str k; mulL arg s

/-- `call_impl`, idx_map.hpp:349-362: the fold is to the right.  (The sum with the 0 of the empty fold does nothing.) -/
def callFromL (m : IdxMap) (e : Int) : Nat → List CArg → Option Int
  | _, [] => some 0
  | is, a :: as => do
      let k := if e = -1 then is else if (is : Int) < e then is else is - 1
      let x ← mygetL m m.prop.smallestOne k a
      let y ← callFromL m e (is + 1) as
      addL x y

/-- `idx_map::operator()`, idx_map.hpp:374-383. -/
def callL (m : IdxMap) (args : List CArg) : Option Int :=
  let isEll := args.map CArg.isEll
  if args.length = m.rank + (isEll.count true) then
    if 1 < isEll.count true then none
    else callFromL m (ePos isEll) 0 args
  else none

/-- The residues of `to_idx`, idx_map.hpp:395-400. -/
def residuesL : Int → List Int → Option (List Int)
  | _, [] => none
  | r, [_] => some [r]
  | r, s :: s' :: ss => do
      let r' ← modL r s
      let rs ← residuesL r' (s' :: ss)
      return r :: rs

/-- Conversion of residues to indices, idx_map.hpp:403-406. -/
def digitsL : List Int → List Int → Option (List Int)
  | [r], [s] => do let d ← divL r s; return [d]
  | r :: r' :: rs, s :: ss => do
      let t ← subL r r'
      let d ← divL t s
      let ds ← digitsL (r' :: rs) ss
      return d :: ds
  | _, _ => none

/-- `idx_map::to_idx`, idx_map.hpp:392-409. -/
def toIdxL (m : IdxMap) (lin : Int) : Option (List Int) := do
  let mstr ← Perm.apply m.so m.str
  let res ← residuesL lin mstr
  let idx ← digitsL res mstr
  Perm.applyInverse m.so idx

/-! ### slice_static.hpp -/

/-- `get_offset`, slice_static.hpp:201-203. -/
def getOffsetL (a : Arg) (s : Int) : Option Int :=
  match a with
  | .idx i => mulL i s
  | .rng f _ _ => mulL f s
  | .all => some 0
  | .ell => some 0

/-- `get_l`, slice_static.hpp:207-211.  The size of a range is computed by itertools (external): assumed right if it is representable. -/
def getLL (a : Arg) (l : Int) : Option Int := (Slice.getL a l).bind chk

/-- `get_s`, slice_static.hpp:214-215. -/
def getSL (a : Arg) (s : Int) : Option Int :=
  match a with
  | .idx _ => none
  | .rng _ _ st => mulL s st
  | .all => some s
  | .ell => some s

/-- `(x + ... + 0)`, slice_static.hpp:264. -/
def sumL : List Int → Option Int
  | [] => some 0
  | x :: xs => do let y ← sumL xs; addL x y

open Slice in
/-- `slice_stride_order` with `slice_stride_order_impl`, slice_static.hpp:230-299. -/
def sliceL (m : IdxMap) (args : List Arg) : Option (Int × IdxMap) := do
  let N := m.rank
  let Q := args.length
  let nEll := args.countP isEll
  let nLong := args.countP (fun a => !isRange a)
  if ¬ (nEll ≤ 1 ∧ Q ≤ N + 1 ∧ (nEll = 1 ∨ Q = N) ∧ nLong ≤ N) then none
  else do
  let P := N - nLong
  let eLen : Int := (N : Int) - Q + 1
  let ePos := ellipsisPosition args
  let nofp ← nOfP N P (args.map isRange) ePos eLen
  let qofp ← qOfP N P (args.map isRange) ePos eLen
  let offs ← (List.range N).mapM (fun (n : Nat) => do
    let a ← rdInt args (qOfN n ePos eLen)
    let s ← rd m.str n
    getOffsetL a s)
  let off ← sumL offs
  let len ← (qofp.zip nofp).mapM (fun x => do
    let a ← rdInt args x.1
    let l ← rd m.len x.2
    getLL a l)
  let str ← (qofp.zip nofp).mapM (fun x => do
    let a ← rdInt args x.1
    let s ← rd m.str x.2
    getSL a s)
  let se ← (qofp.zip nofp).mapM (fun x => do
    let a ← rdInt args x.1
    let e ← rd m.se x.2
    return if isRangeAll a then e else 0)
  let so ← slicedOrder m.so nofp
  let prop ← sliceLayoutProp P (args.all (fun a => !isRange a || isRangeAll a)) (args.map isRangeAll) m.so m.prop ePos eLen
  return (off, { len, str, so, se, prop })

/-! ### bound_check_worker.hpp -/

/-- `bound_check_worker::f`, bound_check_worker.hpp:33-47: the last index is computed as `first + (size - 1) * step`. -/
def workerL (lens : List Int) (loss : Int) : List Arg → Int → Nat → Option Nat
  | [], _, err => some err
  | .idx key :: as, N, err => do
      let l ← rdInt lens N
      workerL lens loss as (N + 1) (if key < 0 ∨ key ≥ l then BoundCheck.addBit err N else err)
  | .all :: as, N, err => workerL lens loss as (N + 1) err
  | .rng first last step :: as, N, err => do
      let sz ← (rangeSize first last step).bind chk
      if sz > 0 then do
        let l ← rdInt lens N
        let n ← subL sz 1
        let d ← mulL n step
        let lastIdx ← addL first d
        workerL lens loss as (N + 1) (if first < 0 ∨ first ≥ l ∨ lastIdx < 0 ∨ lastIdx ≥ l then BoundCheck.addBit err N else err)
      else workerL lens loss as (N + 1) err
  | .ell :: as, N, err => workerL lens loss as (N + loss + 1) err

/-- `assert_in_bounds`, bound_check_worker.hpp:55-67. -/
def assertInBoundsL (lens : List Int) (args : List Arg) : Option Bool := do
  let err ← workerL lens ((lens.length : Int) - args.length) args 0 0
  return decide (err = 0)

/-! ### Views: layout_transforms.hpp, _impl_basic_array_view_common.hpp -/

/-- One view operation.  Slicing moves the data pointer by the offset (_impl_basic_array_view_common.hpp:153-167); the other two compute nothing. -/
def stepL (v : View) : Op → Option View
  | .slice args => do
      let (o, lay) ← sliceL v.lay args
      return { off := v.off + o, lay }
  | .permute p => permuted v p
  | .addFast n => some { off := v.off, lay := addFastDims v.lay n }

/-- A chain of view operations. -/
def runL (v : View) : List Op → Option View
  | [] => some v
  | o :: os => do let v' ← stepL v o; runL v' os

/-- Element access, _impl_basic_array_view_common.hpp:143-151: pointer plus offset. -/
def elementL (v : View) (args : List CArg) : Option Int := do
  let k ← callL v.lay args
  return v.off + k

/-- Linear access, _impl_basic_array_view_common.hpp:90-110. -/
def linearL (v : View) (x : Int) : Option Int :=
  if v.lay.prop = .strided then do
    let ms ← v.lay.minStride
    let k ← mulL x ms
    return v.off + k
  else if v.lay.prop = .contiguous then some (v.off + x)
  else none

/-! ### iterators.hpp -/

/-- The constructors, iterators.hpp:47-53 and 93. -/
def mkL : List Int → List Int → Bool → Option Grid
  | [l], [s], atEnd => do
      let pos := if atEnd then l else 0
      let off ← mulL pos s
      return .one s pos off
  | l :: l' :: ls, s :: ss, atEnd => do
      let pos := if atEnd then l else 0
      let off ← mulL pos s
      let b ← mkL (l' :: ls) ss false
      let e ← mkL (l' :: ls) ss true
      return .more s pos off b e b
  | _, _, _ => none

/-- `operator*`, iterators.hpp:57 and 97. -/
def derefL : Grid → Option Int
  | .one _ _ off => some off
  | .more _ _ off _ _ it => do let d ← derefL it; addL off d

/-- `operator++`, iterators.hpp:62-70 and 103-107. -/
def nextL : Grid → Option Grid
  | .one s p off => do
      let off' ← addL off s
      let p' ← addL p 1
      return .one s p' off'
  | .more s p off b e it => do
      let it' ← nextL it
      if Grid.eq it' e then do
        let p' ← addL p 1
        let off' ← addL off s
        return .more s p' off' b e b
      else return .more s p off b e it'

/-- `for (auto it = b; it != e; ++it) body(*it)`. -/
def rangeForL {σ : Type} (body : Int → σ → Option σ) (e : Grid) : Nat → Grid → σ → Option σ
  | 0, _, _ => none
  | fuel + 1, it, s => if Grid.eq it e then some s else do
      let d ← derefL it
      let s' ← body d s
      let it' ← nextL it
      rangeForL body e fuel it' s'

/-- `make_iterator`, _impl_basic_array_view_common.hpp:250-262. -/
def makeIteratorL (m : IdxMap) (atEnd : Bool) : Option Grid :=
  if (if m.prop.strided1d then 1 else m.rank) = m.rank then
    if m.isStrideOrderC then mkL m.len m.str atEnd
    else do
      let l ← Perm.apply m.so m.len
      let s ← Perm.apply m.so m.str
      mkL l s atEnd
  else do
    let n ← sizeL m.len
    let s ← m.minStride
    mkL [n] [s] atEnd

/-! ### handle.hpp -/

/-- `size * sizeof(T)`, handle.hpp:148, 157, 169, 171: `sizeof` is unsigned (64 bits), so the product is reduced modulo 2^64; nothing checks it. -/
def bytes (size : Int) (sizeofT : Nat) : Nat := (size * sizeofT % 18446744073709551616).toNat

end Nda.Machine
