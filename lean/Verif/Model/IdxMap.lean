import Verif.Model.Perm
/-!
# Model of `c++/nda/layout/idx_map.hpp` (construction, queries, call, `to_idx`, transposition)

The template parameters `StaticExtents`, `StrideOrder` (already decoded) and `LayoutProp`
are fields, so that one theorem covers all instantiations.  `long` is `Int` (no overflow).
-/
namespace Nda

/-- `layout_prop_e`, c++/nda/traits.hpp:162-167: two independent bits. -/
structure LayoutProp where
  strided1d : Bool
  smallestOne : Bool
deriving DecidableEq, Repr

namespace LayoutProp
/-- `layout_prop_e::none`, traits.hpp:163. -/
def none : LayoutProp := ⟨false, false⟩
/-- `layout_prop_e::strided_1d`, traits.hpp:164. -/
def strided : LayoutProp := ⟨true, false⟩
/-- `layout_prop_e::smallest_stride_is_one`, traits.hpp:165. -/
def smallest : LayoutProp := ⟨false, true⟩
/-- `layout_prop_e::contiguous`, traits.hpp:166. -/
def contiguous : LayoutProp := ⟨true, true⟩
/-- `has_contiguous`, traits.hpp:185. -/
def hasContiguous (p : LayoutProp) : Bool := p.strided1d && p.smallestOne
/-- `layout_property_compatible(from, to)`, traits.hpp:172-175. -/
def compatible (src dst : LayoutProp) : Bool :=
  if src = contiguous then true else (decide (dst = none) || decide (dst = src))
/-- `operator&` on `layout_prop_e`, traits.hpp:180. -/
def meet (a b : LayoutProp) : LayoutProp := ⟨a.strided1d && b.strided1d, a.smallestOne && b.smallestOne⟩
end LayoutProp

/-- `class idx_map`, idx_map.hpp:80-479.  Fields: lengths, strides (line 83), and the
template parameters `stride_order` (89-90), `static_extents` (87), `layout_prop` (93). -/
structure IdxMap where
  len : List Int
  str : List Int
  so : List Nat
  se : List Nat
  prop : LayoutProp
deriving DecidableEq, Repr

namespace IdxMap

/-- `idx_map::rank`, idx_map.hpp:114. -/
def rank (m : IdxMap) : Nat := m.len.length

/-- `idx_map::size`, idx_map.hpp:118: `std::accumulate(len, 1, multiplies)`. -/
def size (m : IdxMap) : Int := m.len.foldl (· * ·) 1

/-- `idx_map::ce_size`, idx_map.hpp:121-129: 0 means "dynamic". -/
def ceSize (m : IdxMap) : Nat :=
  if m.se.any (· == 0) then 0 else m.se.foldl (· * ·) 1

/-- `idx_map::min_stride`, idx_map.hpp:138: `str[stride_order[Rank - 1]]` (rank 0: no such entry). -/
def minStride (m : IdxMap) : Option Int :=
  match m.so.getLast? with
  | none => none
  | some u => rd m.str u

/-- `std::max_element` of a non-empty range (value returned); empty: dereferencing `end()`. -/
def maxElement : List Int → Option Int
  | [] => none
  | x :: xs => some (xs.foldl (fun acc y => if acc < y then y else acc) x)

/-- `str * len` componentwise, stdutil/array.hpp:61-66. -/
def strTimesLen (m : IdxMap) : List Int := List.zipWith (· * ·) m.str m.len

/-- `idx_map::is_contiguous`, idx_map.hpp:141-146. -/
def isContiguous (m : IdxMap) : Option Bool := do
  let s := m.size
  if s = 0 then return true
  let mx ← maxElement m.strTimesLen
  return decide (mx = s)

/-- `idx_map::is_strided_1d`, idx_map.hpp:149-154. -/
def isStrided1d (m : IdxMap) : Option Bool := do
  let s := m.size
  if s = 0 then return true
  let mx ← maxElement m.strTimesLen
  let ms ← m.minStride
  return decide (mx = s * ms)

/-- `idx_map::is_stride_order_C`, idx_map.hpp:157-161. -/
def isStrideOrderC (m : IdxMap) : Bool := decide (m.so = Perm.identity m.rank)

/-- `idx_map::is_stride_order_Fortran`, idx_map.hpp:164-167. -/
def isStrideOrderF (m : IdxMap) : Bool := decide (m.so = Perm.reverseIdentity m.rank)

/-- The loop of `compute_strides_contiguous`, idx_map.hpp:175-179, over the stride order
traversed from the fastest dimension.  Returns the strides and the final `s`. -/
def stridesLoop (len : List Int) : List Nat → Int → List Int → Option (List Int × Int)
  | [], s, str => some (str, s)
  | u :: us, s, str => do
      let l ← rd len u
      let str' ← wr str u s
      stridesLoop len us (s * l) str'

/-- `compute_strides_contiguous`, idx_map.hpp:173-181 (without the debug `ENSURES`). The
uninitialised strides are modelled by zeros; they are all overwritten (theorem
`C03_fresh_bijection` does not depend on the initial value: see `stridesLoop_spec`). -/
def computeStrides (len : List Int) (so : List Nat) : Option (List Int) :=
  (stridesLoop len so.reverse 1 (mkInit len.length 0)).map Prod.fst

/-- `idx_map(std::array<Int, Rank> const &shape)`, idx_map.hpp:293-297.  The debug checks
(`shape >= 0`, static extents equal the shape) are hypotheses of the theorems. -/
def ofShape (len : List Int) (so : List Nat) (se : List Nat) (prop : LayoutProp) : Option IdxMap := do
  let str ← computeStrides len so
  return { len, str, so, se, prop }

/-- `merge_static_and_dynamic_extents`, idx_map.hpp:300-304. -/
def mergeExtents : List Nat → List Int → Option (List Int)
  | [], _ => some []
  | 0 :: ses, s => match s with
      | [] => none
      | x :: xs => (mergeExtents ses xs).map (x :: ·)
  | (e + 1) :: ses, s => (mergeExtents ses s).map (((e + 1 : Nat) : Int) :: ·)

/-- The default constructor, idx_map.hpp:187-195.  With a dynamic extent all lengths are 0
(also the static ones) and the strides are left uninitialised (modelled by `junk`). -/
def default (so : List Nat) (se : List Nat) (prop : LayoutProp) (junk : List Int) : Option IdxMap :=
  if se.any (· == 0) then
    some { len := mkInit so.length 0, str := junk, so, se, prop }
  else
    ofShape (se.map Int.ofNat) so se prop

/-- `is_stride_order_valid`, idx_map.hpp:208-219: the absolute strides of the dimensions of
length > 1 must not increase along the stride order. -/
def absDecreasing : List Int → Bool
  | a :: b :: rest => if a.natAbs < b.natAbs then false else absDecreasing (b :: rest)
  | _ => true

/-- `is_stride_order_valid`, idx_map.hpp:208-219. -/
def isStrideOrderValid (m : IdxMap) : Option Bool := do
  let dims ← m.so.mapM (fun d => do let l ← rd m.len d; let s ← rd m.str d; return (l, s))
  return absDecreasing ((dims.filter (fun x => decide (1 < x.1))).map Prod.snd)

/-- The converting constructors, idx_map.hpp:226-239 (other flags) and 254-270 (other static
extents), with the debug checks on: `some none` = a check fails, `none` = a check itself is
undefined (rank 0).  The stride order must be the same type parameter.  There is no check for
the flag `smallest_stride_is_one`. -/
def convert (m : IdxMap) (se : List Nat) (prop : LayoutProp) : Option (Option IdxMap) := do
  let ok1 ← m.isStrideOrderValid
  let ok2 ← cond (!LayoutProp.compatible m.prop prop && prop.hasContiguous) m.isContiguous (some true)
  let ok3 ← cond (!LayoutProp.compatible m.prop prop && prop.strided1d) m.isStrided1d (some true)
  let ok4 := (se.zip m.len).all (fun x => decide (x.1 ≠ 0 → (x.1 : Int) = x.2))
  return if ok1 && ok2 && ok3 && ok4 then some { m with se, prop } else none

/-- Arguments of the call operator of `idx_map`: integers, or an (empty) ellipsis. -/
inductive CArg where
  | idx (i : Int)
  | ell
deriving DecidableEq, Repr

/-- The fold of `call_impl`, idx_map.hpp:351: `((is_ellipsis ? int(Is) + 1 : 0) + ...)`. -/
def ePosSum : Nat → List Bool → Int
  | _, [] => 0
  | is, b :: bs => (if b then (is : Int) + 1 else 0) + ePosSum (is + 1) bs

/-- `e_pos` of `call_impl`, idx_map.hpp:351: that sum minus 1 (so -1 without ellipsis). -/
def ePos (isEll : List Bool) : Int := ePosSum 0 isEll - 1

/-- Is the argument an ellipsis (a type test in the code, `std::is_same_v<Args, ellipsis>`). -/
def CArg.isEll : CArg → Bool
  | .ell => true
  | .idx _ => false

/-- `myget<skip_stride, Is>`, idx_map.hpp:332-344. `k` is the dimension `Is`. -/
def myget (m : IdxMap) (skip : Bool) (k : Nat) : CArg → Option Int
  | .ell => some 0
  | .idx arg =>
      if skip && decide (some k = m.so.getLast?) then some arg
      else do let s ← rd m.str k; return arg * s

/-- `call_impl` over the argument list starting at argument position `is`, idx_map.hpp:349-362.
The two first branches (no ellipsis) are `e = -1`; with an ellipsis at position `e` the
dimension of argument `Is` is `Is < e ? Is : Is - 1`. -/
def callFrom (m : IdxMap) (e : Int) : Nat → List CArg → Option Int
  | _, [] => some 0
  | is, a :: as => do
      let k := if e = -1 then is else if (is : Int) < e then is else is - 1
      let x ← myget m m.prop.smallestOne k a
      let y ← callFrom m e (is + 1) as
      return x + y

/-- `idx_map::operator()`, idx_map.hpp:374-383 (without bounds checking, see `BoundCheck`).
The number of arguments is checked at compile time (`none` otherwise). -/
def call (m : IdxMap) (args : List CArg) : Option Int :=
  let isEll := args.map CArg.isEll
  if args.length = m.rank + (isEll.count true) then
    if 1 < isEll.count true then none
    else callFrom m (ePos isEll) 0 args
  else none

/-- The residues loop of `to_idx`, idx_map.hpp:395-400, over the strides in memory order:
`residues[i] = residues[i-1] % str[so[i-1]]`.  Remainder by zero is undefined behaviour. -/
def residues : Int → List Int → Option (List Int)
  | _, [] => none
  | r, [_] => some [r]
  | r, s :: s' :: ss =>
      if s = 0 then none else (residues (r.tmod s) (s' :: ss)).map (r :: ·)

/-- Conversion of residues to indices, idx_map.hpp:403-406. -/
def digits : List Int → List Int → Option (List Int)
  | [r], [s] => if s = 0 then none else some [r.tdiv s]
  | r :: r' :: rs, s :: ss =>
      if s = 0 then none else (digits (r' :: rs) ss).map ((r - r').tdiv s :: ·)
  | _, _ => none

/-- `idx_map::to_idx`, idx_map.hpp:392-409. -/
def toIdx (m : IdxMap) (lin : Int) : Option (List Int) := do
  let mstr ← Perm.apply m.so m.str
  let res ← residues lin mstr
  let idx ← digits res mstr
  Perm.applyInverse m.so idx

/-- Construction from the dynamic extents only, idx_map.hpp:308-310. -/
def ofDynamic (dyn : List Int) (so se : List Nat) (prop : LayoutProp) : Option IdxMap := do
  let len ← mergeExtents se dyn
  ofShape len so se prop

/-- `idx_map::operator==`, idx_map.hpp:420-423: ranks, lengths and strides (the template
parameters stride order, static extents and flags are not compared). -/
def beq (a b : IdxMap) : Bool := decide (a.rank = b.rank) && decide (a.len = b.len) && decide (a.str = b.str)

/-- `idx_map::transpose<Permutation>`, idx_map.hpp:442-478.  The intermediate integer
encodings of the new template parameters are omitted (see C02 for their range). -/
def transpose (m : IdxMap) (p : List Nat) : Option IdxMap := do
  let so ← Perm.compose p m.so
  let se ← Perm.applyInverse p m.se
  let len ← Perm.applyInverse p m.len
  let str ← Perm.applyInverse p m.str
  return { len, str, so, se, prop := m.prop }

end IdxMap
end Nda
