import Verif.Model.ProgramsMul
import Verif.Spec.Programs
import Verif.Spec.Blas
/-!
# Programs with products of matrices, on mathematical arrays
-/
namespace Nda.Programs.Spec
open Nda Nda.Spec LayoutTransforms Assign Arith Nda.Programs

variable {α : Type}

/-- The element of a product, `n` the common extent. -/
def productValue [CommRing α] [Div α] (lens : List (List Int)) (A : Arrays α) (n : Int) : Product α → List Int → α
  | .mm l r, idx => sumTo n (fun k => value lens A .M l [idx.getD 0 0, k] * value lens A .M r [k, idx.getD 1 0])
  | .mv l r, idx => sumTo n (fun k => value lens A .M l [idx.getD 0 0, k] * value lens A .V r [k])

/-- The shape of an expression: that of all its arrays. -/
def ExprShape (lens : List (List Int)) (e : PExpr α) (ext : List Int) : Prop := ∀ q ∈ places e, PlaceShape lens q.2 ext

/-- The shape `ext` of a product and the common extent `n`. -/
def ProductShape (lens : List (List Int)) (ext : List Int) (n : Int) : Product α → Prop
  | .mm l r => ∃ n0 n2, ext = [n0, n2] ∧ ExprShape lens l [n0, n] ∧ ExprShape lens r [n, n2]
  | .mv l r => ∃ n0, ext = [n0] ∧ ExprShape lens l [n0, n] ∧ ExprShape lens r [n]

/-- What a statement does to the arrays.  The product is that of the values before the statement, also if `p` appears in it. -/
def CmdEffect [CommRing α] [Div α] (lens : List (List Int)) (A A' : Arrays α) : Cmd α → Prop
  | .stmt s => Effect lens A A' s
  | .product p x => ∃ ext n, PlaceShape lens p ext ∧ ProductShape lens ext n x ∧ Writes lens p ext (productValue lens A n x) A A'
  | .productInto op p x => ∃ ext n, PlaceShape lens p ext ∧ ProductShape lens ext n x ∧
      Writes lens p ext (fun idx => arith op (A p.name (src lens p idx)) (productValue lens A n x idx)) A A'

def CmdEffects [CommRing α] [Div α] (lens : List (List Int)) : List (Cmd α) → Arrays α → Arrays α → Prop
  | [], A, A' => A' = A
  | c :: cs, A, A' => ∃ B, CmdEffect lens A B c ∧ CmdEffects lens cs B A'

/-- An operand of shape `ext`. -/
structure FactorOK (env : List View) (alg : Alg) (e : PExpr α) (ext : List Int) : Prop where
  legal : Legal alg e
  shape : ∀ q ∈ places e, q.1 = alg ∧ PlaceOK env q.2 ext

/-- An operand that is a matrix in memory is one that BLAS takes. -/
def ForBlas (env : List View) (e : PExpr α) (n0 n1 : Int) : Prop := ∀ a p, e = .arr a p → ∀ v, view env p = some v → BlasMatrix v n0 n1

/-- A positive extent within `int`. -/
def IntExtent (n : Int) : Prop := 0 < n ∧ n < 2147483648

/-- The product is allowed and has shape `ext`. -/
def ProductOK (env : List View) (ext : List Int) : Product α → Prop
  | .mm l r => ∃ n0 n1 n2, ext = [n0, n2] ∧ IntExtent n0 ∧ IntExtent n1 ∧ IntExtent n2 ∧ FactorOK env .M l [n0, n1] ∧ FactorOK env .M r [n1, n2] ∧
      ForBlas env l n0 n1 ∧ ForBlas env r n1 n2
  | .mv l r => ∃ n0 n1, ext = [n0] ∧ IntExtent n0 ∧ IntExtent n1 ∧ FactorOK env .M l [n0, n1] ∧ FactorOK env .V r [n1] ∧ ForBlas env l n0 n1

/-- The statement is allowed.  Nothing is asked about overlaps of `p` with the operands of a product. -/
def CmdOK (env : List View) : Cmd α → Prop
  | .stmt s => OK env s
  | .product p x => ∃ ext, PlaceOK env p ext ∧ ProductOK env ext x
  | .productInto op p x => (op = .add ∨ op = .sub) ∧ ∃ ext, PlaceOK env p ext ∧ ProductOK env ext x

end Nda.Programs.Spec
