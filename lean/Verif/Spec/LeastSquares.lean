import Verif.Spec.Drivers
/-!
# Least squares: what is meant
-/
namespace Nda.Spec
open Nda
open scoped _root_.Matrix

variable {𝕜 : Type} [RCLike 𝕜]

/-- Sum of the squares of the absolute values. -/
def sumSq {m : Nat} (v : Fin m → 𝕜) : ℝ := ∑ i, ‖v i‖ ^ 2

/-- `x` is the only vector with the smallest `‖A x - b‖`. -/
def Minimiser {m n : Nat} (A : Matrix (Fin m) (Fin n) 𝕜) (b : Fin m → 𝕜) (x : Fin n → 𝕜) : Prop :=
  ∀ y, sumSq (A *ᵥ x - b) ≤ sumSq (A *ᵥ y - b) ∧ (sumSq (A *ᵥ y - b) = sumSq (A *ᵥ x - b) → y = x)

/-- The columns of `A` are linearly independent. -/
def FullRank {m n : Nat} (A : Matrix (Fin m) (Fin n) 𝕜) : Prop := ∀ x, A *ᵥ x = 0 → x = 0

/-- `e` is the largest of the `f j`. -/
def IsLargest {r : Nat} (f : Fin r → ℝ) (e : ℝ) : Prop := (∃ j, f j = e) ∧ ∀ j, f j ≤ e

end Nda.Spec
