import Verif.Model.Blas
import Verif.Model.Algorithms
/-!
# Model of `c++/nda/linalg/norm.hpp`
-/
namespace Nda.Norm
open Nda Loops Assign Blas Algorithms

/-- Functions of the C++ standard library (external) on the element type `K` and on `double` (`R`; rounding is not modelled). -/
structure Std (K R : Type) where
  conj : K → K
  abs : K → R
  re : K → R
  sqrt : R → R
  pow : R → R → R

/-- The order of the norm: a `double`, possibly infinite. -/
inductive Order (R : Type) where
  | fin (p : R)
  | inf
  | negInf
deriving DecidableEq, Repr

variable {K R : Type}

/-- The counting loop for `p == 0`, norm.hpp:53-57. -/
def countNonZero [Zero K] [DecidableEq K] (n : Int) (get : List Int → Option K) : Option Nat :=
  (List.range n.toNat).foldlM (fun count i => do
    let x ← get [Int.ofNat i]
    return if x ≠ 0 then count + 1 else count) 0

/-- `norm(x, p)`, norm.hpp:39-65, for a vector of `n` elements; `memory`: an array or view with an element type known to BLAS; otherwise `x` is copied first when `p == 2` (45-48).
Other element types do not compile, whatever `p` (the call of `dotc` is not conditional on the type). -/
def norm [Zero K] [Add K] [Mul K] [DecidableEq K] [Zero R] [One R] [Add R] [Div R] [NatCast R] [LT R] [DecidableLT R] [DecidableEq R] (S : Std K R) (junk : K) (n : Int) (x : Rhs K) (memory : Bool)
    (p : Order R) (mem : List K) : Option R :=
  match p with
  | .fin p =>
    if p = 1 + 1 then do
      let (u, mem) ← dotContainer junk n x (!memory) mem
      let d ← blasDot S.conj u u mem
      return S.sqrt (S.re d)
    else if p = 1 then sum (· + ·) 0 [n] (fun idx => (x.get idx mem).map S.abs)
    else if p = 0 then (countNonZero n (fun idx => x.get idx mem)).map (fun (c : Nat) => (c : R))
    else (sum (· + ·) 0 [n] (fun idx => (x.get idx mem).map (fun y => S.pow (S.abs y) p))).map (fun s => S.pow s (1 / p))
  | .inf => maxElement (fun a b => decide (a < b)) [n] (fun idx => (x.get idx mem).map S.abs)
  | .negInf => minElement (fun a b => decide (a < b)) [n] (fun idx => (x.get idx mem).map S.abs)

end Nda.Norm
