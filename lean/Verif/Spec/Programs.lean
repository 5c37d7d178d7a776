import Verif.Model.Programs
import Verif.Spec.Arithmetic
import Verif.Props.Scalar
/-!
# Programs on mathematical arrays

The state is a function from names and index tuples to values: no memory, no layouts, no views.
-/
namespace Nda.Programs.Spec
open Nda Nda.Spec LayoutTransforms Assign Arith Nda.Programs

variable {α : Type}

/-- Arrays as functions of the index. -/
abbrev Arrays (α : Type) := Nat → List Int → α

/-- Index in the variable of element `idx` of the place. -/
def src (lens : List (List Int)) (p : Place) (idx : List Int) : List Int :=
  sourceChain (lens.getD p.name []).length p.ops idx

/-- Arithmetic of elements. -/
def arith [Add α] [Sub α] [Mul α] [Div α] : BOp → α → α → α
  | .add, x, y => x + y
  | .sub, x, y => x - y
  | .mul, x, y => x * y
  | .div, x, y => x / y

/-- The element of an expression. -/
def value [Add α] [Sub α] [Mul α] [Div α] [Neg α] [Zero α] (lens : List (List Int)) (A : Arrays α) (alg : Alg) : PExpr α → List Int → α
  | .arr _ p, idx => A p.name (src lens p idx)
  | .neg e, idx => - value lens A alg e idx
  | .bin op l r, idx => arith op (value lens A alg l idx) (value lens A alg r idx)
  | .scalL op s r, idx => arith op (Arith.Spec.entry alg op s idx) (value lens A alg r idx)
  | .scalR op l s, idx => arith op (value lens A alg l idx) (Arith.Spec.entry alg op s idx)
  | .call _ f es, idx => f (fun i => value lens A alg (es i) idx)

/-- `A'` is `A` with element `idx` of the place replaced by `f idx`, for all `idx` in `ext`, and nothing else changed. -/
def Writes (lens : List (List Int)) (p : Place) (ext : List Int) (f : List Int → α) (A A' : Arrays α) : Prop :=
  (∀ idx, InRange ext idx → A' p.name (src lens p idx) = f idx) ∧
    ∀ k jdx, ¬ (k = p.name ∧ ∃ idx, InRange ext idx ∧ src lens p idx = jdx) → A' k jdx = A k jdx

/-- The place has shape `ext`. -/
def PlaceShape (lens : List (List Int)) (p : Place) (ext : List Int) : Prop := ∃ len, lens[p.name]? = some len ∧ ChainShape len p.ops ext

/-- What a statement does to the arrays. -/
def Effect [Add α] [Sub α] [Mul α] [Div α] [Neg α] [Zero α] (lens : List (List Int)) (A A' : Arrays α) : Stmt α → Prop
  | .assign alg p e => ∃ ext, PlaceShape lens p ext ∧ Writes lens p ext (fun idx => value lens A alg e idx) A A'
  | .compound op alg p e => ∃ ext, PlaceShape lens p ext ∧
      Writes lens p ext (fun idx => arith op (A p.name (src lens p idx)) (value lens A alg e idx)) A A'
  | .compoundScalar op alg p s => ∃ ext, PlaceShape lens p ext ∧
      Writes lens p ext (fun idx => arith op (A p.name (src lens p idx)) (Arith.Spec.entry alg op s idx)) A A'
  | .fill p s => ∃ ext, PlaceShape lens p ext ∧ Writes lens p ext (fun _ => s) A A'
  | .fillDiag p s => ∃ ext, PlaceShape lens p ext ∧ Writes lens p ext (fun idx => if idx.getD 0 0 = idx.getD 1 0 then s else 0) A A'
  | .swap p q => ∃ ext, PlaceShape lens p ext ∧
      (∀ idx, InRange ext idx → A' p.name (src lens p idx) = A q.name (src lens q idx) ∧ A' q.name (src lens q idx) = A p.name (src lens p idx)) ∧
      ∀ k jdx, ¬ (k = p.name ∧ ∃ idx, InRange ext idx ∧ src lens p idx = jdx) → ¬ (k = q.name ∧ ∃ idx, InRange ext idx ∧ src lens q idx = jdx) →
        A' k jdx = A k jdx

/-- What a program does to the arrays. -/
def Effects [Add α] [Sub α] [Mul α] [Div α] [Neg α] [Zero α] (lens : List (List Int)) : List (Stmt α) → Arrays α → Arrays α → Prop
  | [], A, A' => A' = A
  | s :: ss, A, A' => ∃ B, Effect lens A B s ∧ Effects lens ss B A'

/-! ### Which programs -/

/-- The view operations of the place are allowed, and the result has shape `ext`. -/
structure PlaceOK (env : List View) (p : Place) (ext : List Int) : Prop where
  ok : ∃ v, env[p.name]? = some v ∧ ChainAllowed v.lay.len p.ops ∧ FastDimsChain v p.ops ∧ ChainShape v.lay.len p.ops ext

/-- The places in an expression. -/
def places : PExpr α → List (Alg × Place)
  | .arr a p => [(a, p)]
  | .neg e => places e
  | .bin _ l r => places l ++ places r
  | .scalL _ _ r => places r
  | .scalR _ l _ => places l
  | .call _ _ es => (List.finRange _).flatMap (fun i => places (es i))

/-- The operators are those of the algebra (products of matrices are not lazy; no scalar is divided by a matrix). -/
def Legal (alg : Alg) : PExpr α → Prop
  | .arr _ _ => True
  | .neg e => Legal alg e
  | .bin op l r => Legal alg l ∧ Legal alg r ∧ (op = .mul ∨ op = .div → alg = .A)
  | .scalL op _ r => Legal alg r ∧ (op = .div → alg ≠ .M)
  | .scalR _ l _ => Legal alg l
  | .call _ _ es => ∀ i, Legal alg (es i)

/-- Where the places name the same element of a variable, they do so at the same index. -/
def SameIndex (lens : List (List Int)) (p q : Place) (ext : List Int) : Prop :=
  p.name = q.name → ∀ idx jdx, InRange ext idx → InRange ext jdx → src lens p idx = src lens q jdx → idx = jdx

/-- The places have no element in common. -/
def Disjoint (lens : List (List Int)) (p q : Place) (ext : List Int) : Prop :=
  p.name = q.name → ∀ idx jdx, InRange ext idx → InRange ext jdx → src lens p idx ≠ src lens q jdx

def lensOf (env : List View) : List (List Int) := env.map (·.lay.len)

/-- An expression without any operation. -/
def IsArray : PExpr α → Prop
  | .arr _ _ => True
  | _ => False

/-- The layouts that a scalar can be assigned to (the others are C18). -/
def Fillable (env : List View) (p : Place) (ext : List Int) : Prop :=
  (∀ l ∈ ext, 0 < l) ∧ ∀ v, view env p = some v → v.lay.prop = .strided → FastestPos v.lay

/-- The statement is allowed: shapes agree, and the target overlaps the right-hand side at most at the same index (a plain copy: not at all). -/
def OK (env : List View) : Stmt α → Prop
  | .assign alg p e => ∃ ext, PlaceOK env p ext ∧ Legal alg e ∧ (alg = .M → ext.length = 2) ∧ (IsArray e → ext ≠ []) ∧
      ∀ q ∈ places e, q.1 = alg ∧ PlaceOK env q.2 ext ∧
        SameIndex (lensOf env) p q.2 ext ∧ (IsArray e → Disjoint (lensOf env) p q.2 ext)
  | .compound op alg p e => ∃ ext, PlaceOK env p ext ∧ Legal alg e ∧ (alg = .M → ext.length = 2) ∧ (op = .mul ∨ op = .div → alg = .A) ∧
      ∀ q ∈ places e, q.1 = alg ∧ PlaceOK env q.2 ext ∧ SameIndex (lensOf env) p q.2 ext
  | .compoundScalar _ alg p _ => ∃ ext, PlaceOK env p ext ∧ (alg = .M → ext.length = 2)
  | .fill p _ => ∃ ext, PlaceOK env p ext ∧ ext ≠ [] ∧ Fillable env p ext
  | .fillDiag p _ => ∃ ext, PlaceOK env p ext ∧ ext.length = 2 ∧ Fillable env p ext
  | .swap p q => ∃ ext, PlaceOK env p ext ∧ PlaceOK env q ext ∧ ext ≠ [] ∧ Disjoint (lensOf env) p q ext

/-! ### Memory -/

/-- The variables are arrays in memory of `n` elements that do not overlap. -/
structure EnvOK (env : List View) (n : Nat) : Prop where
  good : ∀ v ∈ env, Good v n ∧ OneToOne v
  apart : env.Pairwise Separate

/-- Memory holds the arrays. -/
def Holds (env : List View) (mem : List α) (A : Arrays α) : Prop :=
  ∀ k v, env[k]? = some v → ∀ idx, InRange v.lay.len idx → val mem (addr v idx) = some (A k idx)

end Nda.Programs.Spec
