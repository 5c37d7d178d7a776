import Verif.Model.ProgramsMul
import Verif.Model.Algorithms
import Verif.Model.Arrays
/-!
# Programs with scalars, branches, loops and local arrays

Statements as in `ProgramsMul`; values read from arrays (elements, reductions) may decide what is executed next and which elements are used, and the shapes of new arrays.
This file only composes modelled functions, as a user's program does.
-/
namespace Nda.Programs
open Nda LayoutTransforms Assign Arith Blas

variable {α : Type}

/-- A value read from the arrays; `alg` is the algebra of the expression. -/
inductive Query (α : Type) where
  /-- `e(idx...)`, _impl_basic_array_view_common.hpp:128-172 and arithmetic.hpp:60-180 -/
  | element (alg : Alg) (e : PExpr α) (idx : List Int)
  /-- `fold(f, e, r)`, algorithms.hpp:33-40; `sum`, `product` are of this form (131-150), the others after reading the first element (79-103) -/
  | fold (alg : Alg) (f : α → α → α) (e : PExpr α) (r : α)

/-- How a local array is made. -/
inductive Init (α : Type) where
  /-- `basic_array::zeros(len)`, basic_array.hpp:270-284 -/
  | zeros (len : List Int)
  /-- `basic_array(e)`, basic_array.hpp:161-176; `alg` is the algebra of `e` -/
  | expr (alg : Alg) (e : PExpr α)

/-- A program.  An `if` is a `read` whose continuation looks at the value. -/
inductive Flow (α : Type) where
  | skip
  | cmd (c : Cmd α)
  /-- `p(idx...) = s` -/
  | put (p : Place) (idx : List Int) (s : α)
  | seq (x y : Flow α)
  /-- `auto s = q; ...` -/
  | read (q : Query α) (k : α → Flow α)
  /-- `while (c(q)) { x }` -/
  | loop (q : Query α) (c : α → Bool) (x : Flow α)
  /-- `{ array a = i; x }`: `so` is the stride order of the new array, whose name in `x` is the number of variables outside -/
  | var (so : List Nat) (i : Init α) (x : Flow α)

/-- `for (long i = 0; i < n; ++i) { x(i) }`. -/
def Flow.times (x : Nat → Flow α) : Nat → Flow α
  | 0 => .skip
  | n + 1 => .seq (Flow.times x n) (x n)

/-- `auto s = max_element(e)` for an expression of rank `rank`, algorithms.hpp:79-87 with traits.hpp:141-150. -/
def Flow.readMax (lt : α → α → Bool) (alg : Alg) (rank : Nat) (e : PExpr α) (k : α → Flow α) : Flow α :=
  .read (.element alg e (List.replicate rank 0)) (fun r => .read (.fold alg (Algorithms.stdMax lt) e r) k)

/-- Outcomes: memory at the end, an exception, undefined behaviour (or an error at compile time), or not finished within the given number of iterations. -/
inductive Res (α : Type) where
  | ok (mem : List α)
  | thrown
  | ub
  | more

section
variable [Add α] [Sub α] [Mul α] [Div α] [Neg α] [Zero α]

/-- The value of a query: the expression object is made, then asked. -/
def ask (env : List View) (mem : List α) : Query α → Option α
  | .element _ e idx => do
      let e' ← e.build env
      e'.get idx mem
  | .fold _ f e r => do
      let e' ← e.build env
      Algorithms.fold f e'.shape (fun idx => e'.get idx mem) r

/-- `while (test) { body }`, at most `n` iterations. -/
def repeatWhile (test : List α → Option Bool) (body : List α → Res α) : Nat → List α → Res α
  | 0, _ => .more
  | n + 1, mem =>
      match test mem with
      | none => .ub
      | some false => .ok mem
      | some true =>
          match body mem with
          | .ok mem' => repeatWhile test body n mem'
          | r => r

/-- A new array at the end of memory, with its elements: basic_array.hpp:270-284 (elements 0) and 161-176 (memory not initialised, then assigned; for elements that
are not trivial they are constructed in place from the same values).  Other ranks are an error at compile time.  The copy constructor (basic_array.hpp:87) copies
the handle instead: the same elements. -/
def create (junk : α) (env : List View) (so : List Nat) : Init α → List α → Option (View × List α)
  | .zeros len, mem => do
      if so.length ≠ len.length then none else
      let m ← Arr.layoutOf so len
      return (⟨(mem.length : Int), m⟩, mem ++ List.replicate m.size.toNat 0)
  | .expr _ e, mem => do
      let e' ← e.build env
      if so.length ≠ e'.shape.length then none else
      let m ← Arr.layoutOf so e'.shape
      match ← assignExpr ⟨(mem.length : Int), m⟩ e' (mem ++ List.replicate m.size.toNat junk) with
      | none => none
      | some mem' => return (⟨(mem.length : Int), m⟩, mem')

variable [One α] [DecidableEq α]

/-- A program, every execution of a loop limited to `n` iterations.  Local arrays are destroyed at the end of their block. -/
def runFlow (cj : α → α) (triv : Bool) (junk : α) (n : Nat) : List View → Flow α → List α → Res α
  | _, .skip, mem => .ok mem
  | env, .cmd c, mem =>
      match execCmd cj triv junk env c mem with
      | none => .ub
      | some none => .thrown
      | some (some mem') => .ok mem'
  | env, .put p idx s, mem =>
      match (view env p).bind (fun v => store v idx s mem) with
      | none => .ub
      | some mem' => .ok mem'
  | env, .seq x y, mem =>
      match runFlow cj triv junk n env x mem with
      | .ok mem' => runFlow cj triv junk n env y mem'
      | r => r
  | env, .read q k, mem =>
      match ask env mem q with
      | none => .ub
      | some s => runFlow cj triv junk n env (k s) mem
  | env, .loop q c x, mem => repeatWhile (fun mem => (ask env mem q).map c) (runFlow cj triv junk n env x) n mem
  | env, .var so i x, mem =>
      match create junk env so i mem with
      | none => .ub
      | some (v, mem1) =>
          match runFlow cj triv junk n (env ++ [v]) x mem1 with
          | .ok mem2 => .ok (mem2.take mem.length)
          | r => r

end
end Nda.Programs
