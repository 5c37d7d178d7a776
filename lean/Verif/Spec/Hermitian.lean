import Verif.Spec.LeastSquares
/-!
# Least squares with Hermitian blocks: what is meant

A row of `N d d` numbers holds `N` blocks of `d` by `d` numbers, by rows.
-/
namespace Nda.Spec
open Nda
open scoped _root_.Matrix

variable {𝕜 : Type} [RCLike 𝕜]

/-- The column of element `(a, b)` of block `k`. -/
def blockCol (d k a b : Nat) : Nat := (k * d + a) * d + b

/-- All blocks of the `n` rows are Hermitian. -/
def HermitianBlocks (n N d : Nat) (X : Int → Int → 𝕜) : Prop :=
  ∀ (i : Fin n) (k : Fin N) (a b : Fin d), X i (blockCol d k a b) = star (X i (blockCol d k b a))

/-- `‖A x - b‖²` for the column of element `(a, b)` of block `k`. -/
noncomputable def misfit {m n : Nat} (A : Matrix (Fin m) (Fin n) 𝕜) (B X : Int → Int → 𝕜) (d k a b : Nat) : ℝ :=
  sumSq (A *ᵥ (fun i : Fin n => X i (blockCol d k a b)) - fun i : Fin m => B i (blockCol d k a b))

/-- The sum over all blocks. -/
noncomputable def totalMisfit {m n : Nat} (A : Matrix (Fin m) (Fin n) 𝕜) (B X : Int → Int → 𝕜) (N d : Nat) : ℝ :=
  ∑ k : Fin N, ∑ a : Fin d, ∑ b : Fin d, misfit A B X d k a b

/-- `A x = 0` and `A (conj x) = 0` only for `x = 0`. -/
def FullRankBoth {m n : Nat} (A : Matrix (Fin m) (Fin n) 𝕜) : Prop := ∀ x, A *ᵥ x = 0 → A *ᵥ star x = 0 → x = 0

end Nda.Spec
