import Verif.Model.References
import Verif.Model.Arithmetic
/-!
# Programs whose statements have arithmetic expressions on the right-hand side

Expressions (arithmetic.hpp, map.hpp; the same code as in Model/Arithmetic) of the arrays of a program and of temporary views of them, and the statements that
construct arrays from them and assign them to arrays and views.  This file composes modelled functions, as a user's program does.
-/
namespace Nda.Num
open Nda Nda.Mem Nda.Arr Loops LayoutTransforms Arith

variable {V : Type}

/-- What has the `Array` concept: an array `x` (`ops` empty) or a view of it made by a chain of view operations, both held by reference or with their pointer;
other objects (array_adapter.hpp:25-44); `expr_unary` (arithmetic.hpp:31-43); `expr` (57-162) of two arrays, or of a scalar and an array; `expr_call` (map.hpp:48-86). -/
inductive PExpr (V : Type) where
  | arr (alg : Alg) (x : Nat) (ops : List Op)
  | fn (alg : Alg) (len : List Int) (f : List Int → V)
  | neg (e : PExpr V)
  | bin (op : BOp) (l r : PExpr V)
  | scalL (op : BOp) (s : V) (r : PExpr V)
  | scalR (op : BOp) (l : PExpr V) (s : V)
  | call (n : Nat) (f : (Fin (n + 1) → V) → V) (es : Fin (n + 1) → PExpr V)

/-- `get_algebra`: arithmetic.hpp:46, 69; map.hpp:33-40. -/
def PExpr.alg : PExpr V → Alg
  | .arr a _ _ => a
  | .fn a _ _ => a
  | .neg e => e.alg
  | .bin _ l _ => l.alg
  | .scalL _ _ r => r.alg
  | .scalR _ l _ => l.alg
  | .call n _ es =>
      let a0 := (es 0).alg
      if (List.finRange (n + 1)).all (fun i => (es i).alg == a0) then a0 else .N

/-- `shape()`: arithmetic.hpp:41, 78-87; map.hpp:82. -/
def PExpr.shape (p : AProg V) : PExpr V → Option (List Int)
  | .arr _ x ops => do
      let r ← RProg.viewOf p x ops
      return r.view.lay.len
  | .fn _ len _ => some len
  | .neg e => e.shape p
  | .bin _ l _ => l.shape p
  | .scalL _ _ r => r.shape p
  | .scalR _ l _ => l.shape p
  | .call _ _ es => (es 0).shape p

section
variable [Add V] [Sub V] [Mul V] [Div V] [Neg V]

/-- `operator()(args...)`: arithmetic.hpp:36-39, 101-153; map.hpp:54-62, with memory `hp`; arrays and views have the layouts and pointers that they have in `p`.  (An
array that the statement resizes has its new layout instead: if the statement is allowed, the same.) -/
def PExpr.get (p : AProg V) : PExpr V → List Int → Heap V → Option V
  | .arr _ x ops, idx, hp => do
      let r ← RProg.viewOf p x ops
      RProg.refElem hp r idx
  | .fn _ _ f, idx, _ => some (f idx)
  | .neg e, idx, hp => do return -(← e.get p idx hp)
  | .bin op l r, idx, hp =>
      if (op = .mul ∨ op = .div) ∧ l.alg = .M then none
      else do
        let x ← l.get p idx hp
        let y ← r.get p idx hp
        return op.ap x y
  | .scalL op s r, idx, hp =>
      match op with
      | .add =>
          if r.alg = .M then do
            if ← equalTo idx then return s + (← r.get p idx hp) else r.get p idx hp
          else do return s + (← r.get p idx hp)
      | .sub =>
          if r.alg = .M then do
            if ← equalTo idx then return s - (← r.get p idx hp) else return -(← r.get p idx hp)
          else do return s - (← r.get p idx hp)
      | .mul => do return s * (← r.get p idx hp)
      | .div => if r.alg = .M then none else do return s / (← r.get p idx hp)
  | .scalR op l s, idx, hp =>
      match op with
      | .add =>
          if l.alg = .M then do
            if ← equalTo idx then return (← l.get p idx hp) + s else l.get p idx hp
          else do return (← l.get p idx hp) + s
      | .sub =>
          if l.alg = .M then do
            if ← equalTo idx then return (← l.get p idx hp) - s else l.get p idx hp
          else do return (← l.get p idx hp) - s
      | .mul => do return (← l.get p idx hp) * s
      | .div => do return (← l.get p idx hp) / s
  | .call _ f es, idx, hp => do
      let xs ← sequence (fun i => (es i).get p idx hp)
      return f xs

end

/-- Right operand of a compound assignment. -/
inductive POperand (V : Type) where
  | scal (s : V)
  | expr (e : PExpr V)

/-- `*this op rhs`, where `*this` is array `d` (of this algebra) or a view of it. -/
def POperand.with (op : BOp) (alg : Alg) (d : Nat) (ops : List Op) : POperand V → PExpr V
  | .scal s => .scalR op (.arr alg d ops) s
  | .expr e => .bin op (.arr alg d ops) e

/-- The statements.  `ext` is the shape of the right-hand side; the program does not use it. -/
inductive NOp (V : Type) where
  /-- constructions, copies, moves, assignments of arrays to arrays of the same type, resizes, destructions -/
  | plain (op : VOp V)
  /-- `array<T, R> d{e};` -/
  | build (d : Nat) (ext : List Int) (e : PExpr V)
  /-- `d = e;` -/
  | assign (d : Nat) (ext : List Int) (e : PExpr V)
  /-- `d(...) = e;` -/
  | put (d : Nat) (ops : List Op) (ext : List Int) (e : PExpr V)
  /-- `d op= rhs;` -/
  | opAssign (op : BOp) (alg : Alg) (d : Nat) (ext : List Int) (rhs : POperand V)
  /-- `d(...) op= rhs;` -/
  | opPut (op : BOp) (alg : Alg) (d : Nat) (ops : List Op) (ext : List Int) (rhs : POperand V)
  /-- `d = s;` (`ops` empty) and `d(...) = s;` for a scalar -/
  | setScalar (alg : Alg) (d : Nat) (ops : List Op) (ext : List Int) (s : V)

/-- `fill_with_scalar`, _impl_basic_array_view_common.hpp:393-408 (the loops of Model/Assign, on the storage of an array). -/
def fillRef (triv : Bool) (r : Ref) (s : V) (q : Prog V) : Option (Prog V) :=
  if r.view.lay.prop.strided1d then
    if r.view.lay.prop.hasContiguous then forLoop r.view.lay.size (fun i q => RProg.writeRef triv q r.blk (r.view.off + i) s) q
    else do
      let stri ← r.view.lay.minStride
      Assign.strideLoop (r.view.lay.size * stri) stri (fun i q => RProg.writeRef triv q r.blk (r.view.off + i) s) ((r.view.lay.size * stri).toNat + 1) 0 q
  else do
    let b ← r.view.lay.makeIterator false
    let e ← r.view.lay.makeIterator true
    Grid.rangeFor (fun o q => RProg.writeRef triv q r.blk (r.view.off + o) s) e (r.view.lay.size.toNat + 1) b q

/-- The loop over the diagonal in `assign_from_scalar`, _impl_basic_array_view_common.hpp:427-429. -/
def diagonal (triv : Bool) (r : Ref) (s : V) (q : Prog V) : Option (Prog V) := do
  let n ← r.view.lay.len[0]?
  let m ← r.view.lay.len[1]?
  (List.range (min n m).toNat).foldlM (fun q (i : Nat) => do
    let k ← r.view.lay.call [.idx i, .idx i]
    RProg.writeRef triv q r.blk (r.view.off + k) s) q

section
variable [Add V] [Sub V] [Mul V] [Div V] [Neg V] [Zero V]

/-- Construction from an expression, basic_array.hpp:159-176. -/
def buildFrom (triv : Bool) (dflt : V) (so : Nat → List Nat) (p : AProg V) (d : Nat) (e : PExpr V) : Option (AProg V) := do
  let shape ← e.shape p
  p.step triv dflt (so d) (.build d shape (e.get p))

/-- Assignment of an expression to an array, basic_array.hpp:357-363: `resize`, `assign_from_ndarray`. -/
def assignFrom (triv : Bool) (dflt : V) (so : Nat → List Nat) (p : AProg V) (d : Nat) (e : PExpr V) : Option (AProg V) := do
  let shape ← e.shape p
  p.step triv dflt (so d) (.assign d shape (e.get p))

/-- Assignment of an expression to a view, basic_array_view.hpp:198-204: `assign_from_ndarray`. -/
def putFrom (triv : Bool) (p : AProg V) (d : Nat) (ops : List Op) (e : PExpr V) : Option (AProg V) :=
  if p.alive d then do
    let r ← RProg.viewOf p d ops
    let q ← RProg.putInto triv p.prog r (e.get p)
    return { p with prog := q }
  else some p

/-- `assign_from_scalar`, _impl_basic_array_view_common.hpp:412-431; arrays: basic_array.hpp:371-379 (no resize), views: basic_array_view.hpp:207-214. -/
def scalarFrom (triv : Bool) (p : AProg V) (alg : Alg) (d : Nat) (ops : List Op) (s : V) : Option (AProg V) :=
  if p.alive d then do
    let r ← RProg.viewOf p d ops
    if alg = .M then do
      let q ← fillRef triv r 0 p.prog
      let q ← diagonal triv r s q
      return { p with prog := q }
    else do
      let q ← fillRef triv r s p.prog
      return { p with prog := q }
  else some p

/-- One statement; the compound assignments are `operator=(*this op rhs)`, _impl_basic_array_view_common.hpp:285-316. -/
def nstep (triv : Bool) (dflt : V) (so : Nat → List Nat) (p : AProg V) : NOp V → Option (AProg V)
  | .plain op => p.vstep triv dflt so op
  | .build d _ e => buildFrom triv dflt so p d e
  | .assign d _ e => assignFrom triv dflt so p d e
  | .put d ops _ e => putFrom triv p d ops e
  | .opAssign op alg d _ rhs => assignFrom triv dflt so p d (rhs.with op alg d [])
  | .opPut op alg d ops _ rhs => putFrom triv p d ops (rhs.with op alg d ops)
  | .setScalar alg d ops _ s => scalarFrom triv p alg d ops s

/-- A program. -/
def nrun (triv : Bool) (dflt : V) (so : Nat → List Nat) (p : AProg V) (ops : List (NOp V)) : Option (AProg V) :=
  ops.foldlM (fun p op => nstep triv dflt so p op) p

end
end Nda.Num
