import Verif.Spec.Blas
import Mathlib.Algebra.Ring.Defs
/-!
# Batches of matrices
-/
namespace Nda.Spec
open Nda

variable {α : Type}

/-- `mem'` is `mem` with the elements of the views `c 0, ..., c (n-1)` replaced by the given values and nothing else changed. -/
structure AllUpdated (n : Nat) (c : Nat → View) (value : Nat → List Int → Option α) (mem mem' : List α) : Prop where
  size : mem'.length = mem.length
  elems : ∀ i, i < n → ∀ idx, InRange (c i).lay.len idx → val mem' (addr (c i) idx) = value i idx
  frame : ∀ k, (∀ i, i < n → ¬ Occupies (c i) k) → val mem' k = val mem k

/-- Element `(i, j)` of `alpha * op(A) * op(B) + beta * C`, `n1` being the inner dimension. -/
def gemmValue [CommSemiring α] (cj : α → α) (alpha : α) (conjA : Bool) (A : Int → Int → α) (conjB : Bool) (B : Int → Int → α) (beta : α) (C : Int → Int → α) (n1 i j : Int) : α :=
  alpha * sumTo n1 (fun l => mayConj cj conjA A i l * mayConj cj conjB B l j) + beta * C i j

/-- An array of rank 3 made of `n` matrices `n0` by `n1` one after the other (the first index being the slowest), each in C or (`f`) Fortran order for BLAS. -/
structure Stacked (v : View) (f : Bool) (n n0 n1 : Int) : Prop where
  len : v.lay.len = [n, n0, n1]
  order : v.lay.so = if f then [0, 2, 1] else [0, 1, 2]
  strides : ∃ s ld, v.lay.str = (if f then [s, 1, ld] else [s, ld, 1]) ∧ 1 ≤ ld ∧ (if f then n0 else n1) ≤ ld ∧ ld < 2147483648 ∧ 0 ≤ s ∧ s < 2147483648 ∧ n * s < 2147483648
  bound : n < 2147483648
  bound0 : n0 < 2147483648
  bound1 : n1 < 2147483648

/-- The elements of the array `v` of rank 3. -/
def Entries3 (v : View) (n n0 n1 : Int) (mem : List α) (x : Int → Int → Int → α) : Prop :=
  ∀ k i j, 0 ≤ k → k < n → 0 ≤ i → i < n0 → 0 ≤ j → j < n1 → val mem (addr v [k, i, j]) = some (x k i j)

end Nda.Spec
