import Verif.Spec.Memory
/-!
# What collective operations should do
-/
namespace Nda.Mpi
open Nda Nda.Spec

/-- First row of slab `q` when slabs of the given heights are stacked. -/
def slabStart (heights : List Int) (q : Nat) : Int := (heights.take q).sum

/-- The combination `x₀ op (x₁ op (...))` of a non-empty list. -/
def total {α : Type} (op : α → α → α) : List α → Option α
  | [] => none
  | x :: xs => some (match total op xs with | none => x | some y => op x y)

/-- Heights of the slabs when `n` rows are distributed over `size` processes as evenly as possible, larger slabs first. -/
structure EvenSplit (n : Int) (size : Nat) (heights : List Int) : Prop where
  length : heights.length = size
  sum : heights.sum = n
  even : ∀ h ∈ heights, h = n / size ∨ h = n / size + 1
  decreasing : heights.Pairwise (· ≥ ·)

end Nda.Mpi
