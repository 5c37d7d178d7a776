import Verif.Model.Arithmetic
/-!
# Model of the slicing of lazy expressions: `operator()` with ranges, `c++/nda/arithmetic.hpp`, `map.hpp`

`Expr.get` (Model/Arithmetic) is the same C++ code with integers only.
-/
namespace Nda.Arith
open Nda LayoutTransforms Assign

variable {α : Type}

/-- `newAlgebra`, _impl_basic_array_view_common.hpp:162: a row or column of a matrix is a vector. -/
def sliceAlg (a : Alg) (rank : Nat) : Alg := if a = .M ∧ rank = 1 then .V else a

/-- `operator()(args...)` with arguments that leave at least one dimension; `none`: does not compile, or the result is not
an array.

* arrays and views: _impl_basic_array_view_common.hpp:153-167.
* `array_adapter`: takes integers only, array_adapter.hpp:41-45.
* `expr_unary`: arithmetic.hpp:36-39, `-a(args...)`.
* `expr` of two arrays: arithmetic.hpp:101-153, `l(args...) OP r(args...)`, hence again the static checks of the operators
  (188-308).
* `expr` with a scalar: the same; a sum or difference with a scalar of matrix algebra compares the arguments
  (`std::equal_to{}(args...) ? l + r(args...) : r(args...)`, 111-113, 117-119, 127-129, 133-135): the two branches have different
  types without a common one, so that this does not compile.
* `expr_call`: map.hpp:54-62, `mapped<F>{f}(a(args...)...)`. -/
def Expr.slice : Expr α → List Arg → Option (Expr α)
  | .arr a v, args => do
      let (off, lay) ← Slice.slice v.lay args
      if lay.rank = 0 then none
      else return .arr (sliceAlg a lay.rank) ⟨v.off + off, lay⟩
  | .fn _ _ _, _ => none
  | .neg e, args => do return .neg (← e.slice args)
  | .bin op l r, args =>
      if (op = .mul ∨ op = .div) ∧ l.alg = .M then none
      else do
        let l' ← l.slice args
        let r' ← r.slice args
        if l'.shape.length ≠ r'.shape.length then none
        else if (op = .mul ∨ op = .div) ∧ ¬ (l'.alg = .A ∧ r'.alg = .A) then none
        else return .bin op l' r'
  | .scalL op s r, args =>
      if r.alg = .M ∧ op ≠ .mul then none
      else do
        let r' ← r.slice args
        if op = .div ∧ r'.alg = .M then none
        else return .scalL op s r'
  | .scalR op l s, args =>
      if l.alg = .M ∧ (op = .add ∨ op = .sub) then none
      else do return .scalR op (← l.slice args) s
  | .call n f es, args => do
      let es' ← sequence (fun i => (es i).slice args)
      return .call n f es'

/-- `e(args1...)(args2...)...`. -/
def Expr.slices (e : Expr α) : List (List Arg) → Option (Expr α)
  | [] => some e
  | a :: as => do (← e.slice a).slices as

end Nda.Arith
