import Verif.Model.Arithmetic
import Verif.Spec.Memory
/-!
# The meaning of arithmetic expressions
-/
namespace Nda.Arith.Spec
open Nda Nda.Spec Nda.Arith

variable {α : Type}

/-- The arrays and views in an expression. -/
def leaves : Expr α → List View
  | .arr _ v => [v]
  | .fn _ _ _ => []
  | .neg e => leaves e
  | .bin _ l r => leaves l ++ leaves r
  | .scalL _ _ r => leaves r
  | .scalR _ l _ => leaves l
  | .call _ _ es => (List.finRange _).flatMap (fun i => leaves (es i))

/-- Everything in the expression has algebra `a` and shape `len`. -/
def Uniform (a : Alg) (len : List Int) : Expr α → Prop
  | .arr b v => b = a ∧ v.lay.len = len
  | .fn b l _ => b = a ∧ l = len
  | .neg e => Uniform a len e
  | .bin _ l r => Uniform a len l ∧ Uniform a len r
  | .scalL _ _ r => Uniform a len r
  | .scalR _ l _ => Uniform a len l
  | .call _ _ es => ∀ i, Uniform a len (es i)

/-- Everything has shape `len`, and no scalar is added to or subtracted from (or minus) something of matrix algebra.  The algebras may be mixed. -/
def Entrywise (len : List Int) : Expr α → Prop
  | .arr _ v => v.lay.len = len
  | .fn _ l _ => l = len
  | .neg e => Entrywise len e
  | .bin _ l r => Entrywise len l ∧ Entrywise len r
  | .scalL op _ r => Entrywise len r ∧ (op = .add ∨ op = .sub → r.alg ≠ .M)
  | .scalR op l _ => Entrywise len l ∧ (op = .add ∨ op = .sub → l.alg ≠ .M)
  | .call _ _ es => ∀ i, Entrywise len (es i)

/-- The entry of a scalar operand: in sums and differences of matrices it is that multiple of the identity, else the
constant (a product or quotient with a multiple of the identity multiplies or divides every entry). -/
def entry [Zero α] (a : Alg) (op : BOp) (s : α) (idx : List Int) : α :=
  if a = .M ∧ (op = .add ∨ op = .sub) ∧ idx.getD 0 0 ≠ idx.getD 1 0 then 0 else s

/-- The arithmetic expression of the elements at an index; `elem v idx` is the element of an array. -/
def value [Add α] [Sub α] [Mul α] [Div α] [Neg α] [Zero α] (a : Alg) (elem : View → List Int → α) : Expr α → List Int → α
  | .arr _ v, idx => elem v idx
  | .fn _ _ f, idx => f idx
  | .neg e, idx => - value a elem e idx
  | .bin .add l r, idx => value a elem l idx + value a elem r idx
  | .bin .sub l r, idx => value a elem l idx - value a elem r idx
  | .bin .mul l r, idx => value a elem l idx * value a elem r idx
  | .bin .div l r, idx => value a elem l idx / value a elem r idx
  | .scalL .add s r, idx => entry a .add s idx + value a elem r idx
  | .scalL .sub s r, idx => entry a .sub s idx - value a elem r idx
  | .scalL .mul s r, idx => entry a .mul s idx * value a elem r idx
  | .scalL .div s r, idx => entry a .div s idx / value a elem r idx
  | .scalR .add l s, idx => value a elem l idx + entry a .add s idx
  | .scalR .sub l s, idx => value a elem l idx - entry a .sub s idx
  | .scalR .mul l s, idx => value a elem l idx * entry a .mul s idx
  | .scalR .div l s, idx => value a elem l idx / entry a .div s idx
  | .call _ f es, idx => f (fun i => value a elem (es i) idx)

/-- Laws of zero, needed for the entries of a matrix off the diagonal only. -/
structure ZeroLaws (α : Type) [Add α] [Sub α] [Neg α] [Zero α] : Prop where
  zero_add : ∀ x : α, 0 + x = x
  add_zero : ∀ x : α, x + 0 = x
  sub_zero : ∀ x : α, x - 0 = x
  zero_sub : ∀ x : α, 0 - x = -x

end Nda.Arith.Spec
