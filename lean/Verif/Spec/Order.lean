import Verif.Spec.Index
/-!
# Lexicographic enumeration of the index tuples of a box
-/
namespace Nda.Spec

/-- Lexicographic order on tuples of equal length (last index fastest). -/
def LexLt : List Int → List Int → Prop
  | a :: as, b :: bs => a < b ∨ (a = b ∧ LexLt as bs)
  | _, _ => False

instance decLexLt : (a b : List Int) → Decidable (LexLt a b)
  | [], _ => isFalse (by simp [LexLt])
  | _ :: _, [] => isFalse (by simp [LexLt])
  | a :: as, b :: bs => @instDecidableOr _ _ _ (@instDecidableAnd _ _ _ (decLexLt as bs))

/-- `L` lists exactly the index tuples of the box `len`, in increasing lexicographic order (hence
each of them once). -/
structure LexEnum (len : List Int) (L : List (List Int)) : Prop where
  sorted : L.Pairwise LexLt
  mem_iff : ∀ x, x ∈ L ↔ InRange len x

/-- `L` lists exactly the index tuples of the box `len`, in increasing memory order for the
stride order `so`. -/
structure MemEnum (so : List Nat) (len : List Int) (L : List (List Int)) : Prop where
  sorted : L.Pairwise (fun x y => LexLt (memOrder so x) (memOrder so y))
  mem_iff : ∀ x, x ∈ L ↔ InRange len x

end Nda.Spec
