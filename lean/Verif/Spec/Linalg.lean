import Verif.Model.Linalg
import Verif.Spec.Blas
import Mathlib.LinearAlgebra.Matrix.Determinant.Basic
import Mathlib.LinearAlgebra.Matrix.Adjugate
import Mathlib.LinearAlgebra.Matrix.NonsingularInverse
/-!
# Determinants, inverses and triangular factorisations

Determinant, product and transpose are those of Mathlib.
-/
namespace Nda.Spec
open Nda

variable {α : Type}

/-- The entries `x i j` as a Mathlib matrix. -/
def toMat (n : Nat) (x : Int → Int → α) : Matrix (Fin n) (Fin n) α := fun i j => x (i : Int) (j : Int)

/-- The `n` by `n` block by columns at `a` with leading dimension `ld` is the matrix `M`. -/
def ColMajor (a ld : Int) (n : Nat) (mem : List α) (M : Matrix (Fin n) (Fin n) α) : Prop := ∀ i j : Fin n, val mem (a + (i : Int) + (j : Int) * ld) = some (M i j)

/-- Only the block has changed. -/
def BlockFrame (a ld : Int) (n : Nat) (mem mem' : List α) : Prop :=
  mem'.length = mem.length ∧ ∀ k, (∀ i j : Fin n, a + (i : Int) + (j : Int) * ld ≠ k) → val mem' k = val mem k

/-- The unit lower triangular part. -/
def lower [Zero α] [One α] {n : Nat} (F : Matrix (Fin n) (Fin n) α) : Matrix (Fin n) (Fin n) α := fun i j => if j < i then F i j else if i = j then 1 else 0

/-- The upper triangular part. -/
def upper [Zero α] {n : Nat} (F : Matrix (Fin n) (Fin n) α) : Matrix (Fin n) (Fin n) α := fun i j => if i ≤ j then F i j else 0

/-- Rows `p` and `q` interchanged. -/
def swapRows {n : Nat} (A : Matrix (Fin n) (Fin n) α) (p q : Fin n) : Matrix (Fin n) (Fin n) α := fun i j => if i = p then A q j else if i = q then A p j else A i j

/-- Rows `k` and `piv k` interchanged, for `k = 0, 1, ..., n-1`. -/
def interchanged {n : Nat} (A : Matrix (Fin n) (Fin n) α) (piv : Fin n → Fin n) : Matrix (Fin n) (Fin n) α := (List.finRange n).foldl (fun A k => swapRows A k (piv k)) A

/-- `F` and `piv` are a pivoted triangular factorisation of `A`. -/
def Factored [NonUnitalNonAssocSemiring α] [One α] {n : Nat} (A F : Matrix (Fin n) (Fin n) α) (piv : Fin n → Fin n) : Prop := interchanged A piv = lower F * upper F

/-- The pivot indices (counted from 1) in the array. -/
def Pivots {n : Nat} (ipiv : List Int) (piv : Fin n → Fin n) : Prop := ipiv.length = n ∧ ∀ k : Fin n, ipiv[(k : Nat)]? = some ((piv k : Int) + 1)

/-- `op(A)`. -/
def opMat (cj : α → α) {n : Nat} (t : Blas.Tag) (A : Matrix (Fin n) (Fin n) α) : Matrix (Fin n) (Fin n) α :=
  match t with
  | .N => A
  | .T => A.transpose
  | .C => A.transpose.map cj

/-- What is assumed of `getrf`, for square matrices by columns: a pivoted triangular factorisation, with `info = 0` exactly if the upper factor has no zero on its diagonal. -/
def GetrfOK [Field α] (L : Linalg.Lapack α) : Prop :=
  ∀ (n : Nat) (a ld : Int) (mem : List α) (A : Matrix (Fin n) (Fin n) α), 0 < n → (n : Int) < 2147483648 → (n : Int) ≤ ld → ld < 2147483648 → ColMajor a ld n mem A →
    ∃ mem' ipiv info F piv, L.getrf n n a ld mem = .ok (mem', ipiv, info) ∧ BlockFrame a ld n mem mem' ∧ ColMajor a ld n mem' F ∧ Pivots ipiv piv ∧ Factored A F piv ∧
      0 ≤ info ∧ (info = 0 ↔ ∀ i, F i i ≠ 0)

/-- What is assumed of `getri`: the inverse of the factored matrix. -/
def GetriOK [Field α] (L : Linalg.Lapack α) : Prop :=
  ∀ (n : Nat) (a ld : Int) (mem : List α) (A F : Matrix (Fin n) (Fin n) α) (ipiv : List Int) (piv : Fin n → Fin n), 0 < n → (n : Int) < 2147483648 → (n : Int) ≤ ld → ld < 2147483648 →
    ColMajor a ld n mem F → Pivots ipiv piv → Factored A F piv → (∀ i, F i i ≠ 0) →
    ∃ mem' X, L.getri n a ld ipiv mem = .ok (mem', 0) ∧ BlockFrame a ld n mem mem' ∧ ColMajor a ld n mem' X ∧ X * A = 1

/-- An `n` by `r` block by columns. -/
def ColMajor2 (b ld : Int) (n r : Nat) (mem : List α) (B : Matrix (Fin n) (Fin r) α) : Prop := ∀ (i : Fin n) (j : Fin r), val mem (b + (i : Int) + (j : Int) * ld) = some (B i j)

/-- What is assumed of `getrs`: the solution of `op(A) X = B`. -/
def GetrsOK [Field α] (cj : α → α) (L : Linalg.Lapack α) : Prop :=
  ∀ (t : Blas.Tag) (n r : Nat) (a lda b ldb : Int) (mem : List α) (A F : Matrix (Fin n) (Fin n) α) (B : Matrix (Fin n) (Fin r) α) (ipiv : List Int) (piv : Fin n → Fin n),
    0 < n → (n : Int) < 2147483648 → (r : Int) < 2147483648 → (n : Int) ≤ lda → lda < 2147483648 → (n : Int) ≤ ldb → ldb < 2147483648 → ColMajor a lda n mem F → Pivots ipiv piv →
    Factored A F piv → (∀ i, F i i ≠ 0) → ColMajor2 b ldb n r mem B → (∀ (i j k : Fin n) (l : Fin r), a + (i : Int) + (j : Int) * lda ≠ b + (k : Int) + (l : Int) * ldb) →
    ∃ (mem' : List α) (X : Matrix (Fin n) (Fin r) α), L.getrs t n r a lda ipiv b ldb mem = .ok (mem', 0) ∧ mem'.length = mem.length ∧
      (∀ k, (∀ (i : Fin n) (j : Fin r), b + (i : Int) + (j : Int) * ldb ≠ k) → val mem' k = val mem k) ∧ ColMajor2 b ldb n r mem' X ∧ opMat cj t A * X = B

/-- What is assumed of LAPACK. -/
structure LapackOK [Field α] (cj : α → α) (L : Linalg.Lapack α) : Prop where
  getrf : GetrfOK L
  getri : GetriOK L
  getrs : GetrsOK cj L

end Nda.Spec
