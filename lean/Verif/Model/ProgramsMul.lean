import Verif.Model.Programs
import Verif.Model.Blas
/-!
# Programs with products of matrices

`l * r` of two matrices, or of a matrix and a vector, is not lazy: `matmul` and `matvecmul` (Model/Blas) make a new array, which is then assigned like any other array.
-/
namespace Nda.Programs
open Nda LayoutTransforms Assign Arith Blas

variable {α : Type}

/-- A product `l * r`, arithmetic.hpp:230-257. -/
inductive Product (α : Type) where
  /-- two matrices -/
  | mm (l r : PExpr α)
  /-- a matrix and a vector -/
  | mv (l r : PExpr α)

/-- The algebra of the product. -/
def Product.alg : Product α → Alg
  | .mm _ _ => .M
  | .mv _ _ => .V

/-- Statements with products. -/
inductive Cmd (α : Type) where
  | stmt (s : Stmt α)
  /-- `p = l * r`, basic_array_view.hpp:180-224.  (A whole array `p` may take over the storage of the product; here the elements are always copied.) -/
  | product (p : Place) (x : Product α)
  /-- `p += l * r`, `p -= l * r`, _impl_basic_array_view_common.hpp:285-316. -/
  | productInto (op : BOp) (p : Place) (x : Product α)

section
variable [Add α] [Sub α] [Mul α] [Div α] [Neg α] [Zero α]

/-- The matrix operand as `matmul` sees it, matmul.hpp:51-72: a matrix in memory (a whole variable is a matrix, the others are views) or a lazy expression. -/
def operandOf (env : List View) : PExpr α → Option (Blas.Operand α)
  | .arr _ p => do return .mat ⟨← view env p, false⟩ p.ops.isEmpty
  | e => do
      let e' ← e.build env
      return .other false e'.info.so (← rd e'.shape 0) (← rd e'.shape 1) (fun idx mem => e'.get idx mem)

/-- The vector operand of `matvecmul`, matmul.hpp:107-149: its extent and its elements. -/
def vectorOf (env : List View) : PExpr α → Option (Int × Rhs α)
  | .arr _ p => do
      let v ← view env p
      return (← rd v.lay.len 0, .inMem v false)
  | e => do
      let e' ← e.build env
      return (← rd e'.shape 0, .expr (fun idx mem => e'.get idx mem))

variable [One α] [DecidableEq α]

/-- The new array. -/
def Product.make (cj : α → α) (junk : α) (env : List View) (mem : List α) : Product α → Option (Except Err (View × List α))
  | .mm l r => do return matmul cj junk (← operandOf env l) (← operandOf env r) mem
  | .mv l r => do
      let a ← operandOf env l
      let b ← vectorOf env r
      return matvecmul cj junk a b.1 b.2 mem

/-- The product is made, used, and destroyed at the end of the statement with all other temporaries. -/
def withProduct (cj : α → α) (junk : α) (env : List View) (x : Product α) (mem : List α) (use : View → List α → Option (Option (List α))) : Option (Option (List α)) := do
  match ← x.make cj junk env mem with
  | .error .runtime => return none
  | .error _ => none
  | .ok (res, mem1) =>
    match ← use res mem1 with
    | none => return none
    | some mem2 => return some (mem2.take mem.length)

/-- One statement; outcomes as in `exec`. -/
def execCmd (cj : α → α) (triv : Bool) (junk : α) (env : List View) : Cmd α → List α → Option (Option (List α))
  | .stmt s, mem => exec triv junk env s mem
  | .product p x, mem => do
      let v ← view env p
      withProduct cj junk env x mem (fun res mem1 => assignExpr v (.arr x.alg res) mem1)
  | .productInto op p x, mem => do
      let v ← view env p
      withProduct cj junk env x mem (fun res mem1 => opAssign op x.alg v (.expr (.arr x.alg res)) mem1)

/-- A program. -/
def runCmds (cj : α → α) (triv : Bool) (junk : α) (env : List View) : List (Cmd α) → List α → Option (Option (List α))
  | [], mem => some (some mem)
  | c :: cs, mem => do
      match ← execCmd cj triv junk env c mem with
      | none => return none
      | some mem' => runCmds cj triv junk env cs mem'

end
end Nda.Programs
