import Verif.Spec.Memory
import Mathlib.Algebra.BigOperators.Group.Finset.Basic
/-!
# Matrices and vectors as BLAS sees them, sums of products
-/
namespace Nda.Spec
open Nda

variable {α : Type}

/-- A matrix in memory in Fortran or C order, unit distance along its fast dimension, columns (rows) not overlapping, extents and leading dimension within `int`. -/
structure BlasMatrix (v : View) (n0 n1 : Int) : Prop where
  len : v.lay.len = [n0, n1]
  order : (v.lay.so = [1, 0] ∧ ∃ ld, v.lay.str = [1, ld] ∧ 1 ≤ ld ∧ n0 ≤ ld ∧ ld < 2147483648) ∨
          (v.lay.so = [0, 1] ∧ ∃ ld, v.lay.str = [ld, 1] ∧ 1 ≤ ld ∧ n1 ≤ ld ∧ ld < 2147483648)
  bound0 : n0 < 2147483648
  bound1 : n1 < 2147483648

/-- A vector in memory with a positive stride; extent and stride within `int`. -/
structure BlasVector (v : View) (n : Int) : Prop where
  len : v.lay.len = [n]
  stride : ∃ s, v.lay.str = [s] ∧ 1 ≤ s ∧ s < 2147483648
  bound : n < 2147483648

/-- The elements of the matrix `v` in `mem` are `x i j`. -/
def Entries (v : View) (n0 n1 : Int) (mem : List α) (x : Int → Int → α) : Prop :=
  ∀ i j, 0 ≤ i → i < n0 → 0 ≤ j → j < n1 → val mem (addr v [i, j]) = some (x i j)

/-- The elements of the vector `v` in `mem` are `x i`. -/
def Elements (v : View) (n : Int) (mem : List α) (x : Int → α) : Prop :=
  ∀ i, 0 ≤ i → i < n → val mem (addr v [i]) = some (x i)

/-- `Σ_{l < n} f l`. -/
def sumTo [AddCommMonoid α] (n : Int) (f : Int → α) : α := ∑ l ∈ Finset.range n.toNat, f (l : Int)

/-- Conjugated or not. -/
def mayConj (cj : α → α) (conj : Bool) (x : Int → Int → α) : Int → Int → α := fun i j => if conj then cj (x i j) else x i j

end Nda.Spec
