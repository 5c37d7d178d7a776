import Verif.Model.Statements
import Verif.Spec.Values
import Verif.Spec.Arithmetic
import Verif.Props.Scalar
/-!
# The meaning of programs with arithmetic statements

Arrays are values (Spec/Values): a shape and a function from index tuples to elements.  An expression is the same expression of the elements, at every index
tuple of its shape.
-/
namespace Nda.Num.Spec
open Nda Nda.Spec Nda.Arr Nda.Arr.Spec LayoutTransforms Arith Arith.Spec Nda.Num

variable {V : Type}

/-- The arrays and views in an expression. -/
def leaves : PExpr V → List (Nat × List Op)
  | .arr _ x ops => [(x, ops)]
  | .fn _ _ _ => []
  | .neg e => leaves e
  | .bin _ l r => leaves l ++ leaves r
  | .scalL _ _ r => leaves r
  | .scalR _ l _ => leaves l
  | .call _ _ es => (List.finRange _).flatMap (fun i => leaves (es i))

/-- The algebra of the first array in the expression. -/
def firstAlg : PExpr V → Alg
  | .arr a _ _ => a
  | .fn a _ _ => a
  | .neg e => firstAlg e
  | .bin _ l _ => firstAlg l
  | .scalL _ _ r => firstAlg r
  | .scalR _ l _ => firstAlg l
  | .call _ _ es => firstAlg (es 0)

/-- The expression compiles, all arrays and views in it have algebra `alg` and shape `ext`, are alive and not moved from, and the views are inside their arrays. -/
def Uniform (a : Vals V) (alg : Alg) (ext : List Int) : PExpr V → Prop
  | .arr b x ops => b = alg ∧ ∃ y, a.get x = some y ∧ y.moved = false ∧ ChainAllowed y.shape ops ∧ ChainShape y.shape ops ext
  | .fn b l _ => b = alg ∧ l = ext
  | .neg e => Uniform a alg ext e
  | .bin op l r => Uniform a alg ext l ∧ Uniform a alg ext r ∧ (op = .mul ∨ op = .div → alg = .A)
  | .scalL op _ r => Uniform a alg ext r ∧ (op = .div → alg ≠ .M)
  | .scalR _ l _ => Uniform a alg ext l
  | .call _ _ es => ∀ i, Uniform a alg ext (es i)

/-- The operation. -/
def oper [Add V] [Sub V] [Mul V] [Div V] (op : BOp) (x y : V) : V :=
  match op with
  | .add => x + y
  | .sub => x - y
  | .mul => x * y
  | .div => x / y

/-- The arithmetic expression of the elements; `elem x ops` is the element of that array or view.  A scalar added to or subtracted from a matrix is a multiple
of the identity (`Arith.Spec.entry`). -/
def value [Add V] [Sub V] [Mul V] [Div V] [Neg V] [Zero V] (alg : Alg) (elem : Nat → List Op → V) (idx : List Int) : PExpr V → V
  | .arr _ x ops => elem x ops
  | .fn _ _ f => f idx
  | .neg e => - value alg elem idx e
  | .bin op l r => oper op (value alg elem idx l) (value alg elem idx r)
  | .scalL op s r => oper op (entry alg op s idx) (value alg elem idx r)
  | .scalR op l s => oper op (value alg elem idx l) (entry alg op s idx)
  | .call _ f es => f (fun i => value alg elem idx (es i))

section
variable [Add V] [Sub V] [Mul V] [Div V] [Neg V] [Zero V]

/-- The element of the view of array `x` made by the operations. -/
def viewElt (rank : Nat → Nat) (a : Vals V) (idx : List Int) (x : Nat) (ops : List Op) : Option V := a.elt x (sourceChain (rank x) ops idx)

/-- The element of the expression, if all elements in it are specified. -/
def exprEl (rank : Nat → Nat) (a : Vals V) (e : PExpr V) (idx : List Int) : Option V :=
  if ∀ l ∈ leaves e, (viewElt rank a idx l.1 l.2).isSome then some (value (firstAlg e) (fun x ops => (viewElt rank a idx x ops).getD 0) idx e) else none

/-- The element of the right operand of a compound assignment to something of algebra `alg`. -/
def operandEl (rank : Nat → Nat) (a : Vals V) (op : BOp) (alg : Alg) (idx : List Int) : POperand V → Option V
  | .scal s => some (entry alg op s idx)
  | .expr e => exprEl rank a e idx

/-- The elements `f` at the indices of the view, the others unchanged. -/
def overwrite (x : Val V) (ops : List Op) (ext : List Int) (f : List Int → Option V) : Val V :=
  { x with el := fun jdx => match inView x.shape.length ops ext jdx with
      | some idx => f idx
      | none => x.el jdx }

/-- The element at `idx` of the array (algebra `A`, `V`) or matrix that the scalar stands for: constant, or that multiple of the identity. -/
def scalarEl (alg : Alg) (s : V) (idx : List Int) : V := if alg = .M ∧ idx.getD 0 0 ≠ idx.getD 1 0 then 0 else s

/-- The statements on values. -/
def nnext (triv : Bool) (dflt : V) (rank : Nat → Nat) (a : Vals V) : NOp V → Vals V
  | .plain op => vnext triv dflt rank a op
  | .build d ext e => a.put d ⟨ext, false, exprEl rank a e⟩
  | .assign d ext e => a.upd d ⟨ext, false, exprEl rank a e⟩
  | .put d ops ext e => match a.get d with
      | some x => a.set d (some (overwrite x ops ext (exprEl rank a e)))
      | none => a
  | .opAssign op alg d _ rhs => match a.get d with
      | some x => a.set d (some ⟨x.shape, false, fun idx => do
          let u ← a.elt d idx
          let w ← operandEl rank a op alg idx rhs
          return oper op u w⟩)
      | none => a
  | .opPut op alg d ops ext rhs => match a.get d with
      | some x => a.set d (some (overwrite x ops ext fun idx => do
          let u ← viewElt rank a idx d ops
          let w ← operandEl rank a op alg idx rhs
          return oper op u w))
      | none => a
  | .setScalar alg d ops ext s => match a.get d with
      | some x => a.set d (some (overwrite x ops ext fun idx => some (scalarEl alg s idx)))
      | none => a

/-- The right-hand side: of one algebra and shape; matrices have two indices, and then adding zero changes nothing; every element is specified. -/
def RhsOK (rank : Nat → Nat) (a : Vals V) (ext : List Int) (e : PExpr V) : Prop :=
  (∃ alg, Uniform a alg ext e ∧ (alg = .M → ext.length = 2 ∧ ZeroLaws V)) ∧ ∀ idx, InRange ext idx → (exprEl rank a e idx).isSome

/-- Arrays and views in the expression that are of array `d` itself do not see the assignment to (the view made by `ops` of) `d`: an element that the right-hand side reads for
index `idx` is not assigned to, or it is the one at `idx`. -/
def NoOverlap (rank : Nat → Nat) (d : Nat) (ops : List Op) (ext : List Int) (e : PExpr V) : Prop :=
  ∀ ops', (d, ops') ∈ leaves e → ∀ idx, InRange ext idx →
    inView (rank d) ops ext (sourceChain (rank d) ops' idx) = none ∨ inView (rank d) ops ext (sourceChain (rank d) ops' idx) = some idx

/-- For assignments that resize: the array has the shape already, and the right-hand side has it at the same index. -/
def NoOverlapResize (rank : Nat → Nat) (a : Vals V) (d : Nat) (ext : List Int) (e : PExpr V) : Prop :=
  ∀ ops', (d, ops') ∈ leaves e → (a.get d).map (·.shape) = some ext ∧ ∀ idx, InRange ext idx → sourceChain (rank d) ops' idx = idx

/-- The operand of a compound assignment. -/
def operandExprs : POperand V → List (PExpr V)
  | .scal _ => []
  | .expr e => [e]

/-- The views of an array of this stride order and shape that a scalar can be assigned to (for the others see C18): not empty; the layout keeps its promises (C07), and if its elements are evenly
spaced, but not contiguous, the spacing is positive. -/
def Fillable (o : List Nat) (shape : List Int) (ops : List Op) (ext : List Int) : Prop :=
  ext ≠ [] ∧ (∀ l ∈ ext, 0 < l) ∧ ∀ m, layoutOf o shape = some m → FastDimsChain ⟨0, m⟩ ops ∧ ∀ v, LayoutTransforms.run ⟨0, m⟩ ops = some v → v.lay.prop = .strided → Assign.FastestPos v.lay

/-- The statement is allowed. -/
def NAllowed (so : Nat → List Nat) (a : Vals V) : NOp V → Prop
  | .plain op => VAllowed so a op
  | .build d ext e => IsShape (so d) ext ∧ RhsOK (rankOf so) a ext e
  | .assign d ext e => IsShape (so d) ext ∧ RhsOK (rankOf so) a ext e ∧ NoOverlapResize (rankOf so) a d ext e
  | .put d ops ext e => (∀ x, a.get d = some x → x.moved = false ∧ ChainAllowed x.shape ops ∧ ChainShape x.shape ops ext) ∧ RhsOK (rankOf so) a ext e ∧
      NoOverlap (rankOf so) d ops ext e
  | .opAssign op alg d ext rhs => RhsOK (rankOf so) a ext (rhs.with op alg d []) ∧ ∀ e ∈ operandExprs rhs, NoOverlapResize (rankOf so) a d ext e
  | .opPut op alg d ops ext rhs => RhsOK (rankOf so) a ext (rhs.with op alg d ops) ∧ ∀ e ∈ operandExprs rhs, NoOverlap (rankOf so) d ops ext e
  | .setScalar alg d ops ext _ => ∀ x, a.get d = some x → x.moved = false ∧ ChainAllowed x.shape ops ∧ ChainShape x.shape ops ext ∧ Fillable (so d) x.shape ops ext ∧
      (alg = .M → ext.length = 2)

/-- A program on values. -/
def nfinal (triv : Bool) (dflt : V) (rank : Nat → Nat) (a : Vals V) (ops : List (NOp V)) : Vals V := ops.foldl (nnext triv dflt rank) a

/-- Every statement is allowed on the values that it meets. -/
def NAllowedRun (triv : Bool) (dflt : V) (so : Nat → List Nat) : Vals V → List (NOp V) → Prop
  | _, [] => True
  | a, op :: ops => NAllowed so a op ∧ NAllowedRun triv dflt so (nnext triv dflt (rankOf so) a op) ops

end
end Nda.Num.Spec
