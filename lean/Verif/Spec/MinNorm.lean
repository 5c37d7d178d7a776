import Verif.Spec.LeastSquares
/-!
# Least squares with dependent columns: the smallest solution, and what is assumed of LAPACK `gelss`
-/
namespace Nda.Spec
open Nda
open scoped _root_.Matrix

variable {𝕜 : Type} [RCLike 𝕜]

/-- `x` has the smallest `‖A x - b‖`, and it is the only shortest vector that does. -/
def SmallestMinimiser {m n : Nat} (A : Matrix (Fin m) (Fin n) 𝕜) (b : Fin m → 𝕜) (x : Fin n → 𝕜) : Prop :=
  ∀ y, sumSq (A *ᵥ x - b) ≤ sumSq (A *ᵥ y - b) ∧ (sumSq (A *ᵥ y - b) = sumSq (A *ᵥ x - b) → sumSq x ≤ sumSq y ∧ (sumSq y = sumSq x → y = x))

/-- The singular values with those that are at most `c` times the largest replaced by 0. -/
noncomputable def cut (c : ℝ) (s : List ℝ) : List ℝ := s.map (fun x => if x ≤ c * s.headD 0 then 0 else x)

/-- The number of singular values kept. -/
noncomputable def kept (c : ℝ) (s : List ℝ) : Int := (s.filter (fun x => ¬ x ≤ c * s.headD 0)).length

/-- What is assumed of `gelss` (for `rcond ≥ 0`): `A` is destroyed, the right-hand side is in the first `m` rows of a block of `max m n` rows, and the solution in its first `n` rows. -/
def GelssOK (D : Linalg.Drivers 𝕜 ℝ) : Prop :=
  ∀ (m n r : Nat) (a lda b ldb : Int) (c : ℝ) (mem : List 𝕜) (A : Matrix (Fin m) (Fin n) 𝕜) (B : Matrix (Fin m) (Fin r) 𝕜), 0 < m → 0 < n → (m : Int) < 2147483648 → (n : Int) < 2147483648 →
    (r : Int) < 2147483648 → (m : Int) ≤ lda → lda < 2147483648 → ((max m n : Nat) : Int) ≤ ldb → ldb < 2147483648 → 0 ≤ c →
    ColMajor2 a lda m n mem A → ColMajor2 b ldb m r mem B → BlockIn b ldb (max m n) r mem → (∀ k, ¬ (InBlock a lda m n k ∧ InBlock b ldb (max m n) r k)) →
    ∃ mem' s rank info, D.gelss m n r a lda b ldb c mem = .ok (mem', s, rank, info) ∧ mem'.length = mem.length ∧
      (∀ k, ¬ InBlock a lda m n k → ¬ InBlock b ldb (max m n) r k → val mem' k = val mem k) ∧
      (info = 0 → ∃ U Vt X, SingularDecomposition A U s Vt ∧ rank = kept c s ∧ ColMajor2 b ldb n r mem' X ∧
        ∀ j, SmallestMinimiser (U * sigma m n (cut c s) * Vt) (fun i => B i j) (fun i => X i j))

end Nda.Spec
