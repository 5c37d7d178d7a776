import Verif.Model.Drivers
import Verif.Spec.Linalg
import Mathlib.Analysis.RCLike.Basic
import Mathlib.LinearAlgebra.Matrix.Hermitian
/-!
# Eigenvalues, singular values, tridiagonal systems, least squares: what is meant, and what is assumed of LAPACK

Matrices over `ℝ` or `ℂ` (`RCLike`), in Mathlib's notation.
-/
namespace Nda.Spec
open Nda
open scoped _root_.Matrix
open _root_.Matrix (diagonal)

variable {𝕜 : Type} [RCLike 𝕜]

/-- The Hermitian matrix given by the upper (lower) triangle of `A`; imaginary parts on the diagonal are ignored. -/
def triangle (up : Bool) {n : Nat} (A : Matrix (Fin n) (Fin n) 𝕜) : Matrix (Fin n) (Fin n) 𝕜 := fun i j =>
  if i = j then ((RCLike.re (A i i) : ℝ) : 𝕜) else if (i < j) = (up = true) then A i j else star (A j i)

/-- `ev`, in ascending order, are the eigenvalues of `H`, the columns of `Z` an orthonormal basis of eigenvectors. -/
structure EigenDecomposition {n : Nat} (H : Matrix (Fin n) (Fin n) 𝕜) (ev : List ℝ) (Z : Matrix (Fin n) (Fin n) 𝕜) : Prop where
  size : ev.length = n
  ascending : ev.Pairwise (· ≤ ·)
  unitary : Zᴴ * Z = 1
  vectors : H * Z = Z * diagonal (fun i : Fin n => ((ev.getD i 0 : ℝ) : 𝕜))

/-- What is assumed of `syev` and `heev`: they read one triangle. -/
def HeevOK (D : Linalg.Drivers 𝕜 ℝ) : Prop :=
  ∀ (v up : Bool) (n : Nat) (a ld : Int) (mem : List 𝕜) (A : Matrix (Fin n) (Fin n) 𝕜), 0 < n → (n : Int) < 2147483648 → (n : Int) ≤ ld → ld < 2147483648 → ColMajor a ld n mem A →
    ∃ mem' ev info, D.heev v up n a ld mem = .ok (mem', ev, info) ∧ BlockFrame a ld n mem mem' ∧
      (info = 0 → ∃ Z, EigenDecomposition (triangle up A) ev Z ∧ (v = true → ColMajor a ld n mem' Z))

/-- The matrix with `σ` on the diagonal. -/
def sigma (m n : Nat) (s : List ℝ) : Matrix (Fin m) (Fin n) 𝕜 := fun i j => if (i : Nat) = j then ((s.getD i 0 : ℝ) : 𝕜) else 0

/-- A singular value decomposition. -/
structure SingularDecomposition {m n : Nat} (A : Matrix (Fin m) (Fin n) 𝕜) (U : Matrix (Fin m) (Fin m) 𝕜) (s : List ℝ) (Vt : Matrix (Fin n) (Fin n) 𝕜) : Prop where
  size : s.length = min m n
  nonneg : ∀ x ∈ s, 0 ≤ x
  descending : s.Pairwise (· ≥ ·)
  left : Uᴴ * U = 1
  right : Vtᴴ * Vt = 1
  product : A = U * sigma m n s * Vt

/-- The addresses of an `n` by `r` block by columns. -/
def InBlock (b ld : Int) (n r : Nat) (k : Int) : Prop := ∃ (i : Fin n) (j : Fin r), b + (i : Int) + (j : Int) * ld = k

/-- All addresses of the block exist. -/
def BlockIn {α : Type} (b ld : Int) (n r : Nat) (mem : List α) : Prop := ∀ k, InBlock b ld n r k → (val mem k).isSome

/-- What is assumed of `gesvd`, for blocks by columns that do not overlap: `A` is destroyed. -/
def GesvdOK (D : Linalg.Drivers 𝕜 ℝ) : Prop :=
  ∀ (m n : Nat) (a lda u ldu vt ldvt : Int) (mem : List 𝕜) (A : Matrix (Fin m) (Fin n) 𝕜), 0 < m → 0 < n → (m : Int) < 2147483648 → (n : Int) < 2147483648 →
    (m : Int) ≤ lda → lda < 2147483648 → (m : Int) ≤ ldu → ldu < 2147483648 → (n : Int) ≤ ldvt → ldvt < 2147483648 →
    ColMajor2 a lda m n mem A → BlockIn u ldu m m mem → BlockIn vt ldvt n n mem →
    (∀ k, ¬ (InBlock a lda m n k ∧ InBlock u ldu m m k)) → (∀ k, ¬ (InBlock a lda m n k ∧ InBlock vt ldvt n n k)) → (∀ k, ¬ (InBlock u ldu m m k ∧ InBlock vt ldvt n n k)) →
    ∃ mem' s info, D.gesvd m n a lda u ldu vt ldvt mem = .ok (mem', s, info) ∧ mem'.length = mem.length ∧
      (∀ k, ¬ InBlock a lda m n k → ¬ InBlock u ldu m m k → ¬ InBlock vt ldvt n n k → val mem' k = val mem k) ∧
      (info = 0 → ∃ U Vt, SingularDecomposition A U s Vt ∧ ColMajor2 u ldu m m mem' U ∧ ColMajor2 vt ldvt n n mem' Vt)

/-- The tridiagonal matrix with these diagonals. -/
def tridiag {α : Type} [Zero α] (n : Nat) (dl d du : Int → α) : Matrix (Fin n) (Fin n) α := fun i j =>
  if (i : Nat) = j then d i else if (i : Nat) = j + 1 then dl j else if (j : Nat) = i + 1 then du i else 0

/-- `n` consecutive elements at `p` are `x 0, x 1, ...`. -/
def Consecutive {α : Type} (p : Int) (n : Nat) (mem : List α) (x : Int → α) : Prop := ∀ i : Fin n, val mem (p + (i : Int)) = some (x i)

/-- Address `k` is one of `n` consecutive ones from `p` on. -/
def InRun (p : Int) (n : Nat) (k : Int) : Prop := p ≤ k ∧ k < p + n

/-- What is assumed of `gtsv`: the diagonals are destroyed. -/
def GtsvOK {α : Type} [Field α] {R : Type} (D : Linalg.Drivers α R) : Prop :=
  ∀ (n r : Nat) (dl d du b ldb : Int) (mem : List α) (xl x xu : Int → α) (B : Matrix (Fin n) (Fin r) α), 0 < n → (n : Int) < 2147483648 → (r : Int) < 2147483648 → (n : Int) ≤ ldb → ldb < 2147483648 →
    Consecutive dl (n - 1) mem xl → Consecutive d n mem x → Consecutive du (n - 1) mem xu → ColMajor2 b ldb n r mem B →
    (∀ k, ¬ (InRun dl (n - 1) k ∧ InRun d n k) ∧ ¬ (InRun dl (n - 1) k ∧ InRun du (n - 1) k) ∧ ¬ (InRun d n k ∧ InRun du (n - 1) k) ∧
      ¬ (InRun dl (n - 1) k ∧ InBlock b ldb n r k) ∧ ¬ (InRun d n k ∧ InBlock b ldb n r k) ∧ ¬ (InRun du (n - 1) k ∧ InBlock b ldb n r k)) →
    ∃ mem' info, D.gtsv n r dl d du b ldb mem = .ok (mem', info) ∧ mem'.length = mem.length ∧
      (∀ k, ¬ InRun dl (n - 1) k → ¬ InRun d n k → ¬ InRun du (n - 1) k → ¬ InBlock b ldb n r k → val mem' k = val mem k) ∧
      (info = 0 ↔ (tridiag n xl x xu).det ≠ 0) ∧ (info = 0 → ∃ X, ColMajor2 b ldb n r mem' X ∧ tridiag n xl x xu * X = B)

end Nda.Spec
