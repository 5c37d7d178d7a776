import Verif.Model.Arithmetic
import Verif.Model.Swap
/-!
# Programs: sequences of statements on arrays

The statements are the modelled functions (`LayoutTransforms.run`, `Arith.assignExpr`, `Arith.opAssign`, `Assign.assignScalar`,
`Swap.deepSwap`); this file only composes them, as a user's program does.  The arrays are the variables of the program; they
are not resized here (see Model/Arrays, Model/Resizing).
-/
namespace Nda.Programs
open Nda LayoutTransforms Assign Arith

variable {α : Type}

/-- A view of a variable: `a(args...)`, `permuted_indices_view<..>(a)`, `reinterpret_add_fast_dims_of_size_one<..>(a)`, chained (Model/LayoutTransforms). -/
structure Place where
  name : Nat
  ops : List Op

/-- A lazy expression over views of variables; `alg` is the algebra of the view (`make_array_view`, `make_matrix_view`). -/
inductive PExpr (α : Type) where
  | arr (alg : Alg) (p : Place)
  | neg (e : PExpr α)
  | bin (op : BOp) (l r : PExpr α)
  | scalL (op : BOp) (s : α) (r : PExpr α)
  | scalR (op : BOp) (l : PExpr α) (s : α)
  | call (n : Nat) (f : (Fin (n + 1) → α) → α) (es : Fin (n + 1) → PExpr α)

/-- One statement. -/
inductive Stmt (α : Type) where
  /-- `p = e`, basic_array_view.hpp:180-224; `alg` is the algebra of `e`. -/
  | assign (alg : Alg) (p : Place) (e : PExpr α)
  /-- `p op= e`, _impl_basic_array_view_common.hpp:285-316. -/
  | compound (op : BOp) (alg : Alg) (p : Place) (e : PExpr α)
  /-- `p op= s`, _impl_basic_array_view_common.hpp:285-316. -/
  | compoundScalar (op : BOp) (alg : Alg) (p : Place) (s : α)
  /-- `p = s` for arrays and vectors, _impl_basic_array_view_common.hpp:393-418. -/
  | fill (p : Place) (s : α)
  /-- `p = s` for a matrix, _impl_basic_array_view_common.hpp:420-429. -/
  | fillDiag (p : Place) (s : α)
  /-- `deep_swap(p, q)`, basic_array_view.hpp:265-269. -/
  | swap (p q : Place)

/-- The view that a place stands for. -/
def view (env : List View) (p : Place) : Option View := do
  let v ← env[p.name]?
  run v p.ops

/-- The expression object: its arrays are the views. -/
def PExpr.build (env : List View) : PExpr α → Option (Expr α)
  | .arr a p => do return .arr a (← view env p)
  | .neg e => do return .neg (← e.build env)
  | .bin op l r => do return .bin op (← l.build env) (← r.build env)
  | .scalL op s r => do return .scalL op s (← r.build env)
  | .scalR op l s => do return .scalR op (← l.build env) s
  | .call n f es => do return .call n f (← sequence (fun i => (es i).build env))

section
variable [Add α] [Sub α] [Mul α] [Div α] [Neg α] [Zero α]

/-- One statement: outer `none` is undefined behaviour or an error at compile time, inner `none` an exception.
`triv`: the elements are trivially copyable; `junk`: content of new memory (both for `deep_swap`). -/
def exec (triv : Bool) (junk : α) (env : List View) : Stmt α → List α → Option (Option (List α))
  | .assign _ p e, mem => do assignExpr (← view env p) (← e.build env) mem
  | .compound op alg p e, mem => do opAssign op alg (← view env p) (.expr (← e.build env)) mem
  | .compoundScalar op alg p s, mem => do opAssign op alg (← view env p) (.scal s) mem
  | .fill p s, mem => do
      let v ← view env p
      return some (← assignScalar (v.lay.size.toNat + 1) v s mem)
  | .fillDiag p s, mem => do
      let v ← view env p
      return some (← assignScalarMatrix (v.lay.size.toNat + 1) v 0 s mem)
  | .swap p q, mem => do return some (← Swap.deepSwap triv junk (← view env p) (← view env q) false false mem)

/-- A program: statements one after another; an exception ends it. -/
def runAll (triv : Bool) (junk : α) (env : List View) : List (Stmt α) → List α → Option (Option (List α))
  | [], mem => some (some mem)
  | s :: ss, mem => do
      match ← exec triv junk env s mem with
      | none => return none
      | some mem' => runAll triv junk env ss mem'

end

/-- The variables: new contiguous arrays of the given shapes and stride orders, one after another in memory from `base`
(each is its own allocation in the code; only that they do not overlap is used). -/
def declare (base : Nat) : List (List Nat × List Int) → Option (List View)
  | [] => some []
  | (so, len) :: ds => do
      let m ← Arr.layoutOf so len
      return ⟨(base : Int), m⟩ :: (← declare (base + m.size.toNat) ds)

end Nda.Programs
