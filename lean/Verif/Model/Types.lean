import Verif.Model.ExprSlice
/-!
# Model of the types of arrays, views and expressions

`c++/nda/traits.hpp`, `concepts.hpp`, `arithmetic.hpp`, `map.hpp`, `_impl_basic_array_view_common.hpp`, `layout_transforms.hpp`, `basic_functions.hpp`,
`matrix_functions.hpp`, `linalg/`: the part of the code that is executed by the compiler.  A function gives the type of the result, `none` if the program does not compile (a
`static_assert` or a constraint).

Not modelled: value types (all numbers are one type), const, memory orders and promises (C26), memory spaces other than host, lazy arguments, strings as arguments.
-/
namespace Nda.Types
open Nda Nda.Arith

/-- Types of objects. -/
inductive Ty where
  /-- a number (`Scalar`, concepts.hpp:77-78) -/
  | num
  /-- `basic_array`, basic_array.hpp:34-35 -/
  | cont (alg : Alg) (rank : Nat)
  /-- `basic_array_view`, basic_array_view.hpp:44-45 -/
  | view (alg : Alg) (rank : Nat)
  /-- `array_adapter`, array_adapter.hpp:25-26 -/
  | adapter (rank : Nat)
  /-- `expr_unary`, arithmetic.hpp:31-43 -/
  | unary (a : Ty)
  /-- `expr`, arithmetic.hpp:57-164 -/
  | expr (op : BOp) (l r : Ty)
  /-- `expr_call`, map.hpp:48-86 -/
  | call (n : Nat) (as : Fin (n + 1) → Ty)
  /-- no value -/
  | void

/-- `is_scalar_v`, traits.hpp:70-71. -/
def Ty.isNum : Ty → Bool
  | .num => true
  | _ => false

/-- `get_rank`, traits.hpp:98-105: the length of the type of `shape()` (arithmetic.hpp:41, 78-87; map.hpp:83; array_adapter.hpp:36).  No rank: numbers, `void`. -/
def Ty.rank : Ty → Option Nat
  | .num => none
  | .void => none
  | .cont _ r => some r
  | .view _ r => some r
  | .adapter r => some r
  | .unary a => a.rank
  | .expr _ l r => if l.isNum then r.rank else l.rank
  | .call _ as => (as 0).rank

/-- `get_algebra`: declarations.hpp:140-144, array_adapter.hpp:50-51, arithmetic.hpp:46-47, 69, 167-168, map.hpp:33-39, traits.hpp:89-93. -/
def Ty.alg : Ty → Alg
  | .num => .N
  | .void => .N
  | .cont a _ => a
  | .view a _ => a
  | .adapter _ => .A
  | .unary a => a.alg
  | .expr _ l r => if l.isNum then r.alg else l.alg
  | .call n as => if (List.finRange (n + 1)).all (fun i => (as i).alg == (as 0).alg) then (as 0).alg else .N

/-- Kinds of arguments of `operator()`: integers, ranges (`range`, `range::all`), `ellipsis`. -/
inductive ArgK where
  | long | range | ell
deriving DecidableEq, Repr

/-- The static checks of `basic_array` and `basic_array_view`: basic_array.hpp:38-40, basic_array_view.hpp:47-49. -/
def memOk (a : Alg) (r : Nat) : Bool := a != .N && (a != .M || r == 2) && (a != .V || r == 1)

/-- `operator()` and `call` of arrays and views, _impl_basic_array_view_common.hpp:128-172, 182-209 (the three overloads check the same), with the checks of
`slice_static`, layout/slice_static.hpp:287-299. -/
def callMem (a : Alg) (r : Nat) (args : List ArgK) : Option Ty :=
  if ¬ (args.length = r ∨ args.length = 0 ∨ (ArgK.ell ∈ args ∧ args.length ≤ r + 1)) then none
  else if args.length = 0 then some (.view a r)
  else
    let nLong := args.count .long
    if nLong = r then some .num
    else if args.count .ell > 1 ∨ (args.count .ell ≠ 1 ∧ args.length ≠ r) then none
    else
      let a' := sliceAlg a (r - nLong)
      if memOk a' (r - nLong) then some (.view a' (r - nLong)) else none

/-- Unary minus, arithmetic.hpp:179-182, on numbers and arrays. -/
def negRaw : Ty → Option Ty
  | .num => some .num
  | t => if t.rank.isSome then some (.unary t) else none

/-- `+` and `-`, arithmetic.hpp:191-226.  Whether the operands are numbers or arrays is decided by their rank; that the concept `Array` holds is checked in `bin`. -/
def addRaw (op : BOp) (l r : Ty) : Option Ty :=
  match l.isNum, r.isNum with
  | true, true => some .num
  | true, false => if r.rank.isSome then some (.expr op l r) else none
  | false, true => if l.rank.isSome then some (.expr op l r) else none
  | false, false => if l.rank.isSome ∧ l.rank = r.rank then some (.expr op l r) else none

/-- `*`, arithmetic.hpp:230-269, with `matmul` (matmul.hpp:52-53: two matrices) and `matvecmul` (113-114: a matrix and a vector), which give a `matrix` and a `vector`.  If the algebra of
the left operand is `N`, no branch of the function returns: its type is `void`. -/
def mulRaw (l r : Ty) : Option Ty :=
  match l.isNum, r.isNum with
  | true, true => some .num
  | true, false => if r.rank.isSome then some (.expr .mul l r) else none
  | false, true => if l.rank.isSome then some (.expr .mul l r) else none
  | false, false =>
    if ¬ (l.rank.isSome ∧ r.rank.isSome) then none
    else match l.alg with
      | .V => none
      | .A => if r.alg = .A ∧ l.rank = r.rank then some (.expr .mul l r) else none
      | .M =>
        match r.alg with
        | .A => none
        | .M => if l.rank = some 2 ∧ r.rank = some 2 then some (.cont .M 2) else none
        | _ => if l.rank = some 2 ∧ r.rank = some 1 then some (.cont .V 1) else none
      | .N => some .void

/-- `inverse`, det_and_inverse.hpp:184-192, of an array. -/
def inverse (t : Ty) : Option Ty := if t.rank = some 2 ∧ t.alg = .M then some (.cont .M 2) else none

/-- `/`, arithmetic.hpp:273-310.  Here the result must be an array (`Array auto`), so that nothing returned is an error. -/
def divRaw (l r : Ty) : Option Ty :=
  match l.isNum, r.isNum with
  | true, true => some .num
  | true, false =>
    if ¬ r.rank.isSome then none
    else if r.alg = .M then (if r.rank = some 2 then do mulRaw l (← inverse (.cont .M 2)) else none)
    else some (.expr .div l r)
  | false, true => if l.rank.isSome then some (.expr .div l r) else none
  | false, false =>
    if ¬ (l.rank.isSome ∧ r.rank.isSome) then none
    else match l.alg with
      | .V => none
      | .A => if r.alg = .A ∧ l.rank = r.rank then some (.expr .div l r) else none
      | .M => if r.alg = .M ∧ r.rank = some 2 then do mulRaw l (← inverse (.cont .M 2)) else none
      | .N => none

def binRaw : BOp → Ty → Ty → Option Ty
  | .add => addRaw .add
  | .sub => addRaw .sub
  | .mul => mulRaw
  | .div => divRaw

/-- `mapped<F>::operator()`, map.hpp:95-99: arguments with the concept `Array`; the comparison of the shapes, which does not compile for different ranks, is a debug check. -/
def mappedRaw (debug : Bool) (n : Nat) (as : Fin (n + 1) → Ty) : Option Ty :=
  if (List.finRange (n + 1)).all (fun i => (as i).rank.isSome && (!debug || (as i).rank == (as 0).rank)) then some (.call n as) else none

/-- `operator()(args...)` of all types.  Simplification: in expressions, the operands `l(args...)` are not checked against the concept `Array` again, only whether they have a rank
(`C94_elements`: then they do).

* arrays and views: `callMem`.
* `array_adapter`: as many integers as it has dimensions, array_adapter.hpp:39-43 (the function takes no other number of arguments).
* `expr_unary`: arithmetic.hpp:36-39.
* `expr`: arithmetic.hpp:101-157.  `std::equal_to{}(args...) ? l + r(args...) : r(args...)` needs two arguments; with a range the types of the two results differ.
* `expr_call`: map.hpp:55-64; the function takes numbers. -/
def callArgs (debug : Bool) : Ty → List ArgK → Option Ty
  | .num, _ => none
  | .void, _ => none
  | .cont a r, args => callMem a r args
  | .view a r, args => callMem a r args
  | .adapter r, args => if args = List.replicate r .long ∧ 1 ≤ r then some .num else none
  | .unary a, args => do negRaw (← callArgs debug a args)
  | .expr op l r, args =>
    if l.isNum then
      match op with
      | .add | .sub =>
        if r.alg = .M then (if args = [.long, .long] then callArgs debug r args else none)
        else do addRaw op .num (← callArgs debug r args)
      | .mul => do mulRaw .num (← callArgs debug r args)
      | .div => if r.alg = .M then none else do divRaw .num (← callArgs debug r args)
    else if r.isNum then
      match op with
      | .add | .sub =>
        if l.alg = .M then (if args = [.long, .long] then callArgs debug l args else none)
        else do addRaw op (← callArgs debug l args) .num
      | .mul => do mulRaw (← callArgs debug l args) .num
      | .div => do divRaw (← callArgs debug l args) .num
    else
      if (op = .mul ∨ op = .div) ∧ l.alg = .M then none
      else do
        let l' ← callArgs debug l args
        let r' ← callArgs debug r args
        binRaw op l' r'
  | .call n as, args => do
    let as' ← sequence (fun i => callArgs debug (as i) args)
    if args.any (· != .long) then mappedRaw debug n as'
    else if (List.finRange (n + 1)).all (fun i => (as' i).isNum) then some .num else none

/-- The concept `Array`, concepts.hpp:123-134: `shape()`, `size()` (declared `long` in all types, so its body is not compiled here), and a call with as many integers as the rank (whose body is compiled because its result type is deduced). -/
def isArray (debug : Bool) (t : Ty) : Bool :=
  match t.rank with
  | some r => (callArgs debug t (List.replicate r .long)).isSome
  | none => false

/-- `ArrayOrScalar`, concepts.hpp:167-168. -/
def isOperand (debug : Bool) (t : Ty) : Bool := t.isNum || isArray debug t

/-- `-a` -/
def neg (debug : Bool) (t : Ty) : Option Ty := if isArray debug t then negRaw t else none

/-- The operators with their constraints. -/
def bin (debug : Bool) (op : BOp) (l r : Ty) : Option Ty := if isOperand debug l ∧ isOperand debug r then binRaw op l r else none

/-- `map(f)(as...)` -/
def mapped (debug : Bool) (n : Nat) (as : Fin (n + 1) → Ty) : Option Ty :=
  if (List.finRange (n + 1)).all (fun i => isArray debug (as i)) then mappedRaw debug n as else none

/-- `map_layout_transform` with a layout of rank `r'`, layout_transforms.hpp:25-40 (reshape, flatten, permuted_indices_view, transposed_view, group_indices_view, ...): arrays and
views only; `rv`: an array that is about to be destroyed. -/
def transform (rv : Bool) (r' : Nat) : Ty → Option Ty
  | .cont a r =>
    let a' := if r' = r then a else .A
    if memOk a' r' then some (if rv then .cont a' r' else .view a' r') else none
  | .view a r =>
    let a' := if r' = r then a else .A
    if memOk a' r' then some (.view a' r') else none
  | _ => none

/-- `transpose`, layout_transforms.hpp:89-99: a matrix in memory, or a mapped function of one array. -/
def transpose (debug : Bool) (rv : Bool) : Ty → Option Ty
  | .cont a r => if r = 2 then transform rv 2 (.cont a r) else none
  | .view a r => if r = 2 then transform rv 2 (.view a r) else none
  | .call 0 as => do
    let t ← transpose debug rv (as 0)
    mappedRaw debug 0 (fun _ => t)
  | _ => none

/-- `make_regular`, basic_functions.hpp:143-155 with the deduction guides basic_array.hpp:423-428. -/
def makeRegular (debug : Bool) (t : Ty) : Option Ty :=
  match t with
  | .cont a r => some (.cont a r)
  | t =>
    if isArray debug t then
      match t.rank with
      | some r => if memOk t.alg r then some (.cont t.alg r) else none
      | none => none
    else some t

/-- `make_array_view`, basic_functions.hpp:242-250. -/
def makeArrayView : Ty → Option Ty
  | .cont _ r => some (.view .A r)
  | .view _ r => some (.view .A r)
  | _ => none

/-- `make_matrix_view`, basic_functions.hpp:266-274 (the constructor of the view wants the same rank, basic_array_view.hpp:109). -/
def makeMatrixView : Ty → Option Ty
  | .cont _ r => if r = 2 then some (.view .M 2) else none
  | .view _ r => if r = 2 then some (.view .M 2) else none
  | _ => none

/-- `diagonal`, matrix_functions.hpp:52-60. -/
def diagonal : Ty → Option Ty
  | .cont _ r => if r = 2 then some (.view .V 1) else none
  | .view _ r => if r = 2 then some (.view .V 1) else none
  | _ => none

/-- `operator[]`: _impl_basic_array_view_common.hpp:218-236, arithmetic.hpp:159-163 (which calls `operator()`), map.hpp:65-68, 77-80; `expr_unary` and `array_adapter` have none. -/
def bracket (debug : Bool) : Ty → Bool
  | .cont a r => decide (r = 1) && (callMem a r [.long]).isSome
  | .view a r => decide (r = 1) && (callMem a r [.long]).isSome
  | .expr op l r => (Ty.expr op l r).rank == some 1 && (callArgs debug (.expr op l r) [.long]).isSome
  | .call n as => (List.finRange (n + 1)).all (fun i => bracket debug (as i))
  | _ => false

/-- `size()`: _impl_basic_array_view_common.hpp:49, array_adapter.hpp:37, arithmetic.hpp:42, 90-99 (the debug check uses both operands).  The one of `expr_call`, map.hpp:85, calls
`size()` of a `std::tuple`, which does not exist. -/
def sizeOk (debug : Bool) : Ty → Bool
  | .num => false
  | .void => false
  | .cont _ _ => true
  | .view _ _ => true
  | .adapter _ => true
  | .unary a => sizeOk debug a
  | .expr _ l r => if l.isNum then sizeOk debug r else if r.isNum then sizeOk debug l else sizeOk debug l && (!debug || sizeOk debug r)
  | .call _ _ => false

/-- `norm`, linalg/norm.hpp:39-65: any array of rank one; the size is needed for the order 0, which is decided when the program runs. -/
def norm (debug : Bool) (t : Ty) : Option Ty :=
  if isArray debug t ∧ t.rank = some 1 ∧ sizeOk debug t then some .num else none

end Nda.Types
