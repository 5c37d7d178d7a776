import Verif.Model.Assign
/-!
# Model of lazy arithmetic: `c++/nda/arithmetic.hpp`, `map.hpp`, `array_adapter.hpp`

The elements are a type with the operations `+ - * /` and negation; no laws are assumed.
Objects of integer and mixed types (C++ promotions) are not modelled.
-/
namespace Nda.Arith
open Nda LayoutTransforms Assign

/-- `get_algebra`: array, matrix, vector, or none in common (map.hpp:35). -/
inductive Alg where
  | A | M | V | N
deriving DecidableEq, Repr

/-- The template parameter `OP` of `expr`. -/
inductive BOp where
  | add | sub | mul | div
deriving DecidableEq, Repr

def BOp.ap {α : Type} [Add α] [Sub α] [Mul α] [Div α] : BOp → α → α → α
  | .add => (· + ·)
  | .sub => (· - ·)
  | .mul => (· * ·)
  | .div => (· / ·)

/-- Objects with the `Array` concept: arrays and views (held by reference), other objects with shape and element
access (`array_adapter`, array_adapter.hpp:25-44), `expr_unary` (arithmetic.hpp:31-43), `expr` (57-162; three
constructors, depending on which operand is a scalar; scalars are held by value, 199-206),
`expr_call` (map.hpp:48-86). -/
inductive Expr (α : Type) where
  | arr (alg : Alg) (v : View)
  | fn (alg : Alg) (len : List Int) (f : List Int → α)
  | neg (e : Expr α)
  | bin (op : BOp) (l r : Expr α)
  | scalL (op : BOp) (s : α) (r : Expr α)
  | scalR (op : BOp) (l : Expr α) (s : α)
  | call (n : Nat) (f : (Fin (n + 1) → α) → α) (es : Fin (n + 1) → Expr α)

variable {α : Type}

/-- `get_algebra`: arithmetic.hpp:46, 69; map.hpp:33-40. -/
def Expr.alg : Expr α → Alg
  | .arr a _ => a
  | .fn a _ _ => a
  | .neg e => e.alg
  | .bin _ l _ => l.alg
  | .scalL _ _ r => r.alg
  | .scalR _ l _ => l.alg
  | .call n _ es =>
      let a0 := (es 0).alg
      if (List.finRange (n + 1)).all (fun i => (es i).alg == a0) then a0 else .N

/-- `shape()`: arithmetic.hpp:41, 78-87 (the comparison of the shapes is a debug check); map.hpp:82. -/
def Expr.shape : Expr α → List Int
  | .arr _ v => v.lay.len
  | .fn _ len _ => len
  | .neg e => e.shape
  | .bin _ l _ => l.shape
  | .scalL _ _ r => r.shape
  | .scalR _ l _ => l.shape
  | .call _ _ es => (es 0).shape

/-- `std::equal_to{}(args...)`: needs two arguments. -/
def equalTo : List Int → Option Bool
  | [i, j] => some (i == j)
  | _ => none

/-- All components or none. -/
def sequence {n : Nat} (xs : Fin n → Option α) : Option (Fin n → α) :=
  if h : ∀ i, (xs i).isSome = true then some (fun i => (xs i).get (h i)) else none

section
variable [Add α] [Sub α] [Mul α] [Div α] [Neg α]

/-- `operator()(args...)`: arithmetic.hpp:36-39, 101-153; map.hpp:54-62.  `none` also stands for code that does not
compile (the `static_assert`s). -/
def Expr.get : Expr α → List Int → List α → Option α
  | .arr _ v, idx, mem => load v idx mem
  | .fn _ _ f, idx, _ => some (f idx)
  | .neg e, idx, mem => do return -(← e.get idx mem)
  | .bin op l r, idx, mem =>
      if (op = .mul ∨ op = .div) ∧ l.alg = .M then none
      else do
        let x ← l.get idx mem
        let y ← r.get idx mem
        return op.ap x y
  | .scalL op s r, idx, mem =>
      match op with
      | .add =>
          if r.alg = .M then do
            if ← equalTo idx then return s + (← r.get idx mem) else r.get idx mem
          else do return s + (← r.get idx mem)
      | .sub =>
          if r.alg = .M then do
            if ← equalTo idx then return s - (← r.get idx mem) else return -(← r.get idx mem)
          else do return s - (← r.get idx mem)
      | .mul => do return s * (← r.get idx mem)
      | .div => if r.alg = .M then none else do return s / (← r.get idx mem)
  | .scalR op l s, idx, mem =>
      match op with
      | .add =>
          if l.alg = .M then do
            if ← equalTo idx then return (← l.get idx mem) + s else l.get idx mem
          else do return (← l.get idx mem) + s
      | .sub =>
          if l.alg = .M then do
            if ← equalTo idx then return (← l.get idx mem) - s else l.get idx mem
          else do return (← l.get idx mem) - s
      | .mul => do return (← l.get idx mem) * s
      | .div => do return (← l.get idx mem) / s
  | .call _ f es, idx, mem => do
      let xs ← sequence (fun i => (es i).get idx mem)
      return f xs

end

/-- The static checks of the operators (arithmetic.hpp:188-308): ranks agree; `*` and `/` of two operands make an
`expr` only for arrays (matrix products are evaluated at once, C41); a scalar is not divided by a matrix. -/
def Expr.compiles : Expr α → Bool
  | .arr _ _ => true
  | .fn _ _ _ => true
  | .neg e => e.compiles
  | .bin op l r => l.compiles && r.compiles && l.shape.length == r.shape.length &&
      (match op with
        | .add | .sub => true
        | .mul | .div => l.alg == .A && r.alg == .A)
  | .scalL op _ r => r.compiles && (op != .div || r.alg != .M)
  | .scalR _ l _ => l.compiles
  | .call _ _ es => (List.finRange _).all (fun i => (es i).compiles)

/-- `layout_info_t` (traits.hpp:187-191): stride order and promises.  The stride order of `layout_info_t{}` is written `[]`,
"undefined" `none`; the encoding of permutations as integers is C02. -/
structure Info where
  so : Option (List Nat)
  prop : LayoutProp
deriving DecidableEq, Repr

/-- `operator&` of layout infos, traits.hpp:194-199. -/
def Info.and (a b : Info) : Info :=
  if a.so = b.so then ⟨a.so, ⟨a.prop.strided1d && b.prop.strided1d, a.prop.smallestOne && b.prop.smallestOne⟩⟩
  else ⟨none, .none⟩

/-- `get_layout_info`: declarations.hpp:146-155, arithmetic.hpp:50, 71-75. -/
def Expr.info : Expr α → Info
  | .arr _ v => ⟨some v.lay.so, v.lay.prop⟩
  | .fn _ _ _ => ⟨some [], .none⟩
  | .neg e => e.info
  | .bin _ l r => r.info.and l.info
  | .scalL _ _ r => if r.alg = .A then r.info else ⟨some [], .none⟩
  | .scalR _ l _ => if l.alg = .A then l.info else ⟨some [], .none⟩
  | .call _ _ _ => ⟨some [], .none⟩

section
variable [Add α] [Sub α] [Mul α] [Div α] [Neg α]

/-- `operator()(_linear_index_t{i})`: the same code with this argument (arithmetic.hpp), and the access of arrays and views.
Only used if the promises say "strided" (blas/dot.hpp:101). -/
def Expr.getLinear : Expr α → Int → List α → Option α
  | .arr _ v, i, mem => do rdInt mem (← linear v i)
  | .fn _ _ _, _, _ => none
  | .neg e, i, mem => do return -(← e.getLinear i mem)
  | .bin op l r, i, mem =>
      if (op = .mul ∨ op = .div) ∧ l.alg = .M then none
      else do
        let x ← l.getLinear i mem
        let y ← r.getLinear i mem
        return op.ap x y
  | .scalL op s r, i, mem => if r.alg = .M ∧ op ≠ .mul then none else do return op.ap s (← r.getLinear i mem)
  | .scalR op l s, i, mem => if l.alg = .M ∧ (op = .add ∨ op = .sub) then none else do return op.ap (← l.getLinear i mem) s
  | .call _ _ _, _, _ => none

/-- Assignment of an expression to an array, a matrix or a view (`operator=`, basic_array_view.hpp:180-224): an array in memory or
a lazy expression. -/
def assignExpr (a : View) (e : Expr α) (mem : List α) : Option (Option (List α)) :=
  match e with
  | .arr _ v => assign .host .host true a (.inMem v false) mem
  | e => assign .host .host true a (.expr (fun idx mem => e.get idx mem)) mem

/-- Right operand of a compound assignment. -/
inductive Operand (α : Type) where
  | scal (s : α)
  | expr (e : Expr α)

/-- `a op= rhs`, _impl_basic_array_view_common.hpp:285-316 (for `*=`, `/=` of matrices by matrices see C41). -/
def opAssign (op : BOp) (alg : Alg) (a : View) (rhs : Operand α) (mem : List α) : Option (Option (List α)) :=
  match rhs with
  | .scal s => assignExpr a (.scalR op (.arr alg a) s) mem
  | .expr e => assignExpr a (.bin op (.arr alg a) e) mem

end

end Nda.Arith
