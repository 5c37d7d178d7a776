import Verif.Spec.Drivers
/-!
# Arguments of the tridiagonal solver
-/
namespace Nda.Spec
open Nda

variable {α : Type}

/-- A vector of `n` consecutive elements `x 0, x 1, …`. -/
structure Line (v : View) (n : Nat) (mem : List α) (x : Int → α) : Prop where
  len : v.lay.len = [(n : Int)]
  unit : ∀ i : Int, 0 ≤ i → i < n → addr v [i] = v.off + i
  entry : ∀ i : Int, 0 ≤ i → i < n → val mem (addr v [i]) = some (x i)

/-- The right-hand side: `n` by `r` numbers by columns, without gaps. -/
structure Block (v : View) (n r : Nat) (mem : List α) (B : Int → Int → α) : Prop where
  len : v.lay.len = [(n : Int), (r : Int)]
  dense : ∀ i j : Int, 0 ≤ i → i < n → 0 ≤ j → j < r → addr v [i, j] = v.off + i + j * n
  entry : Entries v n r mem B

end Nda.Spec
