import Verif.Spec.Index
/-!
# Nested lists
-/
namespace Nda.Arr.Spec

variable {V : Type}

/-- The element of the nested list at an index. -/
def at1 (l : List V) : List Int → Option V
  | [k] => if k < 0 then none else l[k.toNat]?
  | _ => none

/-- The same for lists of lists. -/
def at2 (l : List (List V)) : List Int → Option V
  | j :: idx => if j < 0 then none else (l[j.toNat]?).bind (fun l1 => at1 l1 idx)
  | _ => none

/-- The same for lists of lists of lists. -/
def at3 (l : List (List (List V))) : List Int → Option V
  | i :: idx => if i < 0 then none else (l[i.toNat]?).bind (fun l2 => at2 l2 idx)
  | _ => none

/-- All rows have length `n`. -/
def Rect2 (l : List (List V)) (n : Nat) : Prop := ∀ r ∈ l, r.length = n

/-- All lists in `l` are rectangular, with `n` rows of length `k`. -/
def Rect3 (l : List (List (List V))) (n k : Nat) : Prop := ∀ r ∈ l, r.length = n ∧ Rect2 r k

end Nda.Arr.Spec
