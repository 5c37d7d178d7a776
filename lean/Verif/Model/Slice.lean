import Verif.Model.IdxMap
/-!
# Model of `c++/nda/layout/slice_static.hpp`

The argument list of a slice is a list of `Arg`; the argument types (integer, `range`,
`range::all_t`, `ellipsis`) are the constructors.  Compile-time errors (`static_assert`,
`std::get` out of range, `throw` in a constant expression) are `none`.
-/
namespace Nda

/-- One argument of the call operator: an integer, `range::all`, `range(first,last,step)`
or the ellipsis (c++/nda/layout/range.hpp:27-33). -/
inductive Arg where
  | idx (i : Int)
  | all
  | rng (first last step : Int)
  | ell
deriving DecidableEq, Repr

/-- `itertools::range::size()` (external library, assumed): the number of values
`first, first+step, ...` before `last`.  A zero step is rejected (`none`). -/
def rangeSize (first last step : Int) : Option Int :=
  if 0 < step then some (max 0 ((last - first + step - 1) / step))
  else if step < 0 then some (max 0 ((first - last + (-step) - 1) / (-step)))
  else none

namespace Slice

/-- `std::is_same_v<Args, ellipsis>`. -/
def isEll : Arg → Bool
  | .ell => true
  | _ => false

/-- `args_is_range`, slice_static.hpp:248: range, range_all or ellipsis. -/
def isRange : Arg → Bool
  | .idx _ => false
  | _ => true

/-- `args_is_range_all`, slice_static.hpp:249: range_all or ellipsis. -/
def isRangeAll : Arg → Bool
  | .all => true
  | .ell => true
  | _ => false

/-- `impl::ellipsis_position`, slice_static.hpp:66-78: position of the ellipsis, 128 if none. -/
def ellipsisPosition (args : List Arg) : Int :=
  let r := IdxMap.ePosSum 0 (args.map isEll)
  if r = 0 then 128 else r - 1

/-- `q_of_n`, slice_static.hpp:85-91. -/
def qOfN (n ePos eLen : Int) : Int :=
  if n < ePos then n
  else if n < ePos + eLen then ePos
  else n - (eLen - 1)

/-- The loops of `n_of_p_map`, `q_of_p_map` (slice_static.hpp:100-125) and of
`sliced_mem_stride_order` (142-155): collect `g n` for the `n` with `f n`, in order.  The
writes `result[p++] = ..` are modelled by list append; the check `p != P` is separate. -/
def collect {α β : Type} (f : α → Option Bool) (g : α → β) : List α → Option (List β)
  | [] => some []
  | n :: ns => do
      let b ← f n
      let r ← collect f g ns
      return if b then g n :: r else r

/-- `n_of_p_map<N, P>`, slice_static.hpp:100-110. -/
def nOfP (N P : Nat) (isR : List Bool) (ePos eLen : Int) : Option (List Nat) := do
  let r ← collect (fun (n : Nat) => rdInt isR (qOfN n ePos eLen)) (fun n => n) (List.range N)
  if r.length = P then return r else none

/-- `q_of_p_map<N, P>`, slice_static.hpp:115-125. -/
def qOfP (N P : Nat) (isR : List Bool) (ePos eLen : Int) : Option (List Int) := do
  let r ← collect (fun (n : Nat) => rdInt isR (qOfN n ePos eLen)) (fun (n : Nat) => qOfN n ePos eLen) (List.range N)
  if r.length = P then return r else none

/-- `p_of_n_map<N>`, slice_static.hpp:131-136. -/
def pOfN (N : Nat) (nofp : List Nat) : Option (List Int) :=
  Perm.scatter (nofp.zip ((List.range nofp.length).map Int.ofNat)) (mkInit N (-1))

/-- `sliced_mem_stride_order`, slice_static.hpp:142-155. -/
def slicedOrder (so : List Nat) (nofp : List Nat) : Option (List Nat) := do
  let pofn ← pOfN so.length nofp
  let ps ← so.mapM (fun n => rd pofn n)
  let r ← collect (fun p => some (decide (p ≠ -1))) Int.toNat ps
  if r.length ≤ nofp.length then return r ++ List.replicate (nofp.length - r.length) 0 else none

/-- The block counting loop of `slice_layout_prop`, slice_static.hpp:176-184: returns the
number of blocks and the last `previous_arg_is_rangeall`. -/
def countBlocks : List Bool → Nat → Bool → Nat × Bool
  | [], n, prev => (n, prev)
  | b :: bs, n, prev => countBlocks bs (if b && !prev then n + 1 else n) b

/-- `slice_layout_prop`, slice_static.hpp:165-195. -/
def sliceLayoutProp (P : Nat) (hasOnly : Bool) (isAll : List Bool) (so : List Nat)
    (prop : LayoutProp) (ePos eLen : Int) : Option LayoutProp := do
  if !hasOnly then
    return if P = 1 then .strided else .none
  let bs ← so.mapM (fun (n : Nat) => rdInt isAll (qOfN n ePos eLen))
  let (blocks, last) := countBlocks bs 0 false
  let grouped := decide (blocks ≤ 1)
  if prop.hasContiguous && grouped && last then return .contiguous
  if prop.strided1d && grouped then return .strided
  if prop.smallestOne && last then return .smallest
  return .none

/-- `get_offset`, slice_static.hpp:201-203. -/
def getOffset (a : Arg) (s : Int) : Int :=
  match a with
  | .idx i => i * s
  | .rng f _ _ => f * s
  | .all => 0
  | .ell => 0

/-- `get_l`, slice_static.hpp:207-211: a `last` of -1 with a positive step means "to the end".
Not callable on an integer argument. -/
def getL (a : Arg) (l : Int) : Option Int :=
  match a with
  | .idx _ => none
  | .rng f la st => rangeSize f (if la = -1 ∧ 0 < st then l else la) st
  | .all => some l
  | .ell => some l

/-- `get_s`, slice_static.hpp:214-215. -/
def getS (a : Arg) (s : Int) : Option Int :=
  match a with
  | .idx _ => none
  | .rng _ _ st => some (s * st)
  | .all => some s
  | .ell => some s

/-- `slice_stride_order` with `slice_stride_order_impl`, slice_static.hpp:230-299.
Returns the pointer offset and the sliced map.  The bounds check (237) is modelled in
`BoundCheck`; the integer encodings of the new template parameters are omitted (C02). -/
def slice (m : IdxMap) (args : List Arg) : Option (Int × IdxMap) := do
  let N := m.rank
  let Q := args.length
  let nEll := args.countP isEll
  let nLong := args.countP (fun a => !isRange a)
  if ¬ (nEll ≤ 1 ∧ Q ≤ N + 1 ∧ (nEll = 1 ∨ Q = N) ∧ nLong ≤ N) then none
  else do
  let P := N - nLong
  let eLen : Int := (N : Int) - Q + 1
  let ePos := ellipsisPosition args
  let nofp ← nOfP N P (args.map isRange) ePos eLen
  let qofp ← qOfP N P (args.map isRange) ePos eLen
  let offs ← (List.range N).mapM (fun (n : Nat) => do
    let a ← rdInt args (qOfN n ePos eLen)
    let s ← rd m.str n
    return getOffset a s)
  let len ← (qofp.zip nofp).mapM (fun x => do
    let a ← rdInt args x.1
    let l ← rd m.len x.2
    getL a l)
  let str ← (qofp.zip nofp).mapM (fun x => do
    let a ← rdInt args x.1
    let s ← rd m.str x.2
    getS a s)
  let se ← (qofp.zip nofp).mapM (fun x => do
    let a ← rdInt args x.1
    let e ← rd m.se x.2
    return if isRangeAll a then e else 0)
  let so ← slicedOrder m.so nofp
  let prop ← sliceLayoutProp P (args.all (fun a => !isRange a || isRangeAll a)) (args.map isRangeAll) m.so m.prop ePos eLen
  return (offs.sum, { len, str, so, se, prop })

end Slice
end Nda
