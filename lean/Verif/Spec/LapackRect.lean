import Verif.Spec.Linalg
/-!
# Triangular factorisations of rectangular matrices
-/
namespace Nda.Spec
open Nda

variable {α : Type}

/-- The unit lower trapezoidal part: all rows, the first `min m n` columns. -/
def lowerRect [Zero α] [One α] {m n : Nat} (F : Matrix (Fin m) (Fin n) α) : Matrix (Fin m) (Fin (min m n)) α :=
  fun i l => if (l : Nat) < i then F i ⟨l, by omega⟩ else if (l : Nat) = i then 1 else 0

/-- The upper trapezoidal part: the first `min m n` rows, all columns. -/
def upperRect [Zero α] {m n : Nat} (F : Matrix (Fin m) (Fin n) α) : Matrix (Fin (min m n)) (Fin n) α :=
  fun l j => if (l : Nat) ≤ j then F ⟨l, by omega⟩ j else 0

/-- Rows `k` and `p` interchanged. -/
def swapRect {m n : Nat} (A : Matrix (Fin m) (Fin n) α) (k : Fin (min m n)) (p : Fin m) : Matrix (Fin m) (Fin n) α :=
  fun i j => if (i : Nat) = k then A p j else if i = p then A ⟨k, by omega⟩ j else A i j

/-- Rows `k` and `piv k` interchanged, for `k = 0, 1, ..., min m n - 1`. -/
def interchangedRect {m n : Nat} (A : Matrix (Fin m) (Fin n) α) (piv : Fin (min m n) → Fin m) : Matrix (Fin m) (Fin n) α :=
  (List.finRange (min m n)).foldl (fun A k => swapRect A k (piv k)) A

/-- `F` and `piv` are a pivoted triangular factorisation of `A`. -/
def FactoredRect [NonUnitalNonAssocSemiring α] [One α] {m n : Nat} (A F : Matrix (Fin m) (Fin n) α) (piv : Fin (min m n) → Fin m) : Prop :=
  interchangedRect A piv = lowerRect F * upperRect F

/-- The pivot indices (counted from 1) in the array. -/
def PivotsRect {m n : Nat} (ipiv : List Int) (piv : Fin (min m n) → Fin m) : Prop :=
  ipiv.length = min m n ∧ ∀ k : Fin (min m n), ipiv[(k : Nat)]? = some ((piv k : Int) + 1)

/-- What is assumed of `getrf`, for `m` by `n` matrices by columns. -/
def GetrfRectOK [Field α] (L : Linalg.Lapack α) : Prop :=
  ∀ (m n : Nat) (a ld : Int) (mem : List α) (A : Matrix (Fin m) (Fin n) α), 0 < m → 0 < n → (m : Int) < 2147483648 → (n : Int) < 2147483648 → (m : Int) ≤ ld → ld < 2147483648 →
    ColMajor2 a ld m n mem A →
    ∃ (mem' : List α) (ipiv : List Int) (info : Int) (F : Matrix (Fin m) (Fin n) α) (piv : Fin (min m n) → Fin m), L.getrf m n a ld mem = .ok (mem', ipiv, info) ∧ mem'.length = mem.length ∧
      (∀ k, (∀ (i : Fin m) (j : Fin n), a + (i : Int) + (j : Int) * ld ≠ k) → val mem' k = val mem k) ∧ ColMajor2 a ld m n mem' F ∧ PivotsRect ipiv piv ∧ FactoredRect A F piv ∧
      0 ≤ info ∧ (info = 0 ↔ ∀ k : Fin (min m n), F ⟨k, by omega⟩ ⟨k, by omega⟩ ≠ 0)

/-- A call of LAPACK with an `m` by `n` matrix at `a` with leading dimension `ld` is legal, and names exactly the elements of the view. -/
def NamesView (m n a ld : Int) (v : View) : Prop :=
  m ≤ ld ∧ ∀ k, (∃ i j : Int, 0 ≤ i ∧ i < m ∧ 0 ≤ j ∧ j < n ∧ a + i + j * ld = k) ↔ Occupies v k

end Nda.Spec
