/-!
# Specification vocabulary for multi-indices

Independent of the model of the layout code.
-/
namespace Nda.Spec

/-- Product of a list of extents. -/
def prod : List Int → Int
  | [] => 1
  | l :: ls => l * prod ls

/-- Inner product of strides and indices. -/
def dot : List Int → List Int → Int
  | s :: ss, i :: is => s * i + dot ss is
  | _, _ => 0

/-- `idx` is an index tuple of the box with extents `len`. -/
def InRange : List Int → List Int → Prop
  | [], [] => True
  | l :: ls, i :: is => (0 ≤ i ∧ i < l) ∧ InRange ls is
  | _, _ => False

instance decInRange : (len idx : List Int) → Decidable (InRange len idx)
  | [], [] => isTrue trivial
  | [], _ :: _ => isFalse id
  | _ :: _, [] => isFalse id
  | _ :: ls, _ :: is => @instDecidableAnd _ _ _ (decInRange ls is)

/-- Position of an index tuple in lexicographic (last index fastest) order. -/
def lin : List Int → List Int → Int
  | _ :: ls, i :: is => i * prod ls + lin ls is
  | _, _ => 0

/-- Every extent is non-negative. -/
def NonNeg (len : List Int) : Prop := ∀ l ∈ len, 0 ≤ l

instance (len : List Int) : Decidable (NonNeg len) := inferInstanceAs (Decidable (∀ l ∈ len, 0 ≤ l))

end Nda.Spec

namespace Nda.Spec

/-- The entries of `l` listed in the order `so` (slowest dimension first). -/
def memOrder (so : List Nat) (l : List Int) : List Int := so.map (fun k => l.getD k 0)

/-- Strides of a densely packed box, slowest dimension first: products of the later extents. -/
def dense : List Int → List Int
  | [] => []
  | _ :: ls => prod ls :: dense ls

end Nda.Spec

namespace Nda.Spec

/-- Largest offset reached in a box with positive strides (meaningful if no extent is 0). -/
def reach : List Int → List Int → Int
  | s :: ss, l :: ls => s * (l - 1) + reach ss ls
  | _, _ => 0

/-- Strides, slowest first, each exceeding everything reached by the faster dimensions. -/
def Nested : List Int → List Int → Prop
  | [], [] => True
  | s :: ss, _ :: ls => reach ss ls < s ∧ Nested ss ls
  | _, _ => False

instance decNested : (s l : List Int) → Decidable (Nested s l)
  | [], [] => isTrue trivial
  | [], _ :: _ => isFalse id
  | _ :: _, [] => isFalse id
  | _ :: ss, _ :: ls => @instDecidableAnd _ _ _ (decNested ss ls)

end Nda.Spec
