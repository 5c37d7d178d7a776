import Verif.Model.LayoutTransforms
/-!
# Model of `c++/nda/layout/rect_str.hpp`

A layout with string labels is an index map together with the shared pointer `s_indices`, modelled by an optional
list of label lists.  `s_indices` is `mutable`: constant functions may fill it in, so they return the layout after
the call.  Sharing of the label lists is not visible (they are constant).
-/
namespace Nda.RectStr
open Nda

/-- Outcomes that are not a result. -/
inductive Err where
  /-- rejected by the compiler, or undefined behaviour -/
  | undef
  /-- `NDA_RUNTIME_ERROR`: the string is not one of the labels -/
  | key
  /-- an exception leaves a `noexcept` constructor: `std::terminate` -/
  | terminate
deriving DecidableEq, Repr

def orUndef {α : Type} : Option α → Except Err α
  | some a => .ok a
  | none => .error .undef

end Nda.RectStr

namespace Nda

/-- `class rect_str`, rect_str.hpp:45-49: the base index map and `s_indices` (`none` is the null pointer). -/
structure RectStr where
  lay : IdxMap
  ind : Option (List (List String))
deriving DecidableEq, Repr

namespace RectStr
open Nda

/-- An argument of a call or slice: a string, or one of the arguments of the base class. -/
inductive SArg where
  | str (s : String)
  | arg (a : Arg)
deriving DecidableEq, Repr

/-- The labels generated by `get_string_indices`, rect_str.hpp:65-70: `std::to_string(j)` for every index `j` of
every dimension. -/
def generated (lens : List Int) : List (List String) :=
  lens.map (fun l => (List.range l.toNat).map Nat.repr)

/-- `get_string_indices`, rect_str.hpp:63-74: the labels, generated and stored if there are none. -/
def getStringIndices (r : RectStr) : List (List String) × RectStr :=
  match r.ind with
  | none => (generated r.lay.len, { r with ind := some (generated r.lay.len) })
  | some l => (l, r)

/-- Constructor from labels with `make_shape_from_string_indices`, rect_str.hpp:53-58, 116-117, for rank `so.length`.
The constructor is `noexcept`: the error of a wrong number of label lists terminates the program. -/
def ofLabels (labels : List (List String)) (so se : List Nat) (prop : LayoutProp) : Except Err RectStr :=
  if labels.length ≠ so.length then .error .terminate
  else do
    let m ← orUndef (IdxMap.ofShape (labels.map (fun l => (l.length : Int))) so se prop)
    return { lay := m, ind := some labels }

/-- `rect_str(base_t const &)` and the constructors from a shape, rect_str.hpp:94, 110-113: no labels. -/
def ofBase (m : IdxMap) : RectStr := { lay := m, ind := none }

/-- Converting constructors, rect_str.hpp:100-107: the labels of the source are copied (and generated in the source
if it has none).  `m` is the converted base map.  Returns the new layout and the source after the call. -/
def convert (m : IdxMap) (r : RectStr) : RectStr × RectStr :=
  let x := getStringIndices r
  ({ lay := m, ind := some x.1 }, x.2)

/-- `peel_string`, rect_str.hpp:126-138.  `std::find` returns the first match.  `sind[pos]` outside the label lists is
undefined behaviour. -/
def peel (r : RectStr) (pos : Nat) : SArg → Except Err (Arg × RectStr)
  | .arg a => .ok (a, r)
  | .str s =>
    let x := getStringIndices r
    match rd x.1 pos with
    | none => .error .undef
    | some idx =>
      match idx.findIdx? (fun t => decide (t = s)) with
      | none => .error .key
      | some j => .ok (.idx j, x.2)

/-- `peel_string(Is, args)...`, rect_str.hpp:142, 156: the position is the position of the argument.  The order of
evaluation is not specified in C++; left to right here (the order only matters for which of several errors is
reported). -/
def peelAll (r : RectStr) : Nat → List SArg → Except Err (List Arg × RectStr)
  | _, [] => .ok ([], r)
  | pos, a :: as =>
    match peel r pos a with
    | .error e => .error e
    | .ok (x, r1) =>
      match peelAll r1 (pos + 1) as with
      | .error e => .error e
      | .ok (xs, r2) => .ok (x :: xs, r2)

/-- Arguments of the call operator of the base class; a range is not one. -/
def toCall : Arg → Option IdxMap.CArg
  | .idx i => some (.idx i)
  | .ell => some .ell
  | _ => none

/-- `operator()` with `call_impl`, rect_str.hpp:140-149: the position of the element, and the layout after the call. -/
def call (r : RectStr) (args : List SArg) : Except Err (Int × RectStr) :=
  match peelAll r 0 args with
  | .error e => .error e
  | .ok (xs, r') =>
    match xs.mapM toCall with
    | none => .error .undef
    | some cs =>
      match r.lay.call cs with
      | none => .error .undef
      | some k => .ok (k, r')

/-- `current_ind[n](y)`, rect_str.hpp:167, copied into an array: the slice of a one-dimensional array of labels. -/
def sliceOne (ls : List String) (a : Arg) : Option (List String) :=
  match Slice.slice ⟨[(ls.length : Int)], [1], [0], [0], .contiguous⟩ [a] with
  | some (off, ⟨[n], [s], _, _, _⟩) => (List.range n.toNat).mapM (fun (k : Nat) => rdInt ls (off + s * k))
  | _ => none

/-- The fold of `slice_impl`, rect_str.hpp:163-169: one label list for every argument that is not allowed in a call
(range, all, ellipsis), taken from the label list at the position `n` of the argument. -/
def sliceLabels (cur : List (List String)) : Nat → List SArg → Option (List (List String))
  | _, [] => some []
  | n, .str _ :: as => sliceLabels cur (n + 1) as
  | n, .arg a :: as =>
    if Slice.isRange a then
      match rd cur n with
      | none => none
      | some ls =>
        match sliceOne ls a with
        | none => none
        | some ls' =>
          match sliceLabels cur (n + 1) as with
          | none => none
          | some rest => some (ls' :: rest)
    else sliceLabels cur (n + 1) as

/-- `slice` with `slice_impl`, rect_str.hpp:153-178: the offset, the new layout, and the layout after the call (a
string among the arguments makes `peel_string` generate labels before `s_indices` is tested). -/
def slice (r : RectStr) (args : List SArg) : Except Err (Int × RectStr × RectStr) :=
  match peelAll r 0 args with
  | .error e => .error e
  | .ok (xs, r') =>
    match Slice.slice r.lay xs with
    | none => .error .undef
    | some (off, m) =>
      match r'.ind with
      | none => .ok (off, { lay := m, ind := none }, r')
      | some cur =>
        match sliceLabels cur 0 args with
        | none => .error .undef
        | some l => .ok (off, { lay := m, ind := some l }, r')

/-- `transpose`, rect_str.hpp:187-199: `ind2[permu[u]] = (*s_indices)[u]` for `u < Rank`. -/
def transpose (r : RectStr) (p : List Nat) : Option RectStr := do
  let m ← r.lay.transpose p
  match r.ind with
  | none => return { lay := m, ind := none }
  | some l => do
    let xs ← (List.range r.lay.rank).mapM (fun u => rd l u)
    let l' ← Perm.scatter (p.zip xs) (mkInit l.length [])
    return { lay := m, ind := some l' }

/-- A view operation on an array with labels: slice with integers, ranges or an ellipsis, or index permutation; the
added offset and the new layout.  Adding dimensions is not offered for this layout. -/
def step (r : RectStr) : LayoutTransforms.Op → Option (Int × RectStr)
  | .slice args =>
    match slice r (args.map .arg) with
    | .ok (off, r', _) => some (off, r')
    | .error _ => none
  | .permute p =>
    match transpose r p with
    | some r' => some (0, r')
    | none => none
  | .addFast _ => none

/-- A chain of view operations. -/
def run (r : RectStr) : List LayoutTransforms.Op → Option (Int × RectStr)
  | [] => some (0, r)
  | o :: os =>
    match step r o with
    | none => none
    | some (off, r') =>
      match run r' os with
      | none => none
      | some (off', r'') => some (off + off', r'')

end Nda.RectStr
