import Verif.Spec.Index
import Mathlib.Data.List.Infix
/-!
# What it means to merge dimensions that are adjacent in memory
-/
namespace Nda.Spec

/-- The dimensions of a group in the order in which they lie in memory. -/
def block (so : List Nat) (g : List Nat) : List Nat := so.filter (fun k => decide (k ∈ g))

/-- The group occupies consecutive memory positions. -/
def Adjacent (so : List Nat) (g : List Nat) : Prop := block so g <:+: so

instance (so g : List Nat) : Decidable (Adjacent so g) := inferInstanceAs (Decidable (_ <:+: _))

/-- Every dimension `0..R-1` occurs in exactly one group, once. -/
def Partitions (R : Nat) (grps : List (List Nat)) : Prop := grps.flatten.Perm (List.range R)

instance (R : Nat) (grps : List (List Nat)) : Decidable (Partitions R grps) := inferInstanceAs (Decidable (List.Perm _ _))

/-- The index of the merged dimension: the indices of the group read as one number, the
fastest dimension in memory counting fastest. -/
def mergedIndex (so : List Nat) (len idx : List Int) (g : List Nat) : Int :=
  lin (memOrder (block so g) len) (memOrder (block so g) idx)

end Nda.Spec
