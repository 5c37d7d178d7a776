import Verif.Model.Threads
import Verif.Spec.Programs
/-!
# Threads: which elements a statement reads and writes, races
-/
namespace Nda.Threads.Spec
open Nda Nda.Spec Programs Programs.Spec Threads

variable {α : Type}

/-- An element: a variable and an index. -/
abbrev Elem := Nat × List Int

/-- The elements of a place. -/
def Of (lens : List (List Int)) (p : Place) (x : Elem) : Prop :=
  ∃ ext idx, PlaceShape lens p ext ∧ InRange ext idx ∧ x = (p.name, src lens p idx)

/-- What a statement writes. -/
def Written (lens : List (List Int)) : Stmt α → Elem → Prop
  | .assign _ p _, x => Of lens p x
  | .compound _ _ p _, x => Of lens p x
  | .compoundScalar _ _ p _, x => Of lens p x
  | .fill p _, x => Of lens p x
  | .fillDiag p _, x => Of lens p x
  | .swap p q, x => Of lens p x ∨ Of lens q x

/-- What a statement reads. -/
def Used (lens : List (List Int)) : Stmt α → Elem → Prop
  | .assign _ _ e, x => ∃ q ∈ places e, Of lens q.2 x
  | .compound _ _ p e, x => Of lens p x ∨ ∃ q ∈ places e, Of lens q.2 x
  | .compoundScalar _ _ p _, x => Of lens p x
  | .fill _ _, _ => False
  | .fillDiag _ _, _ => False
  | .swap p q, x => Of lens p x ∨ Of lens q x

/-- No element that `t` writes is written or read by `u`. -/
def Undisturbed (lens : List (List Int)) (t u : List (Stmt α)) : Prop :=
  ∀ s ∈ t, ∀ s' ∈ u, ∀ x, Written lens s x → ¬ Written lens s' x ∧ ¬ Used lens s' x

/-- The threads have no element in common that one of them writes. -/
def Independent (lens : List (List Int)) (ts : List (List (Stmt α))) : Prop :=
  ts.Pairwise (fun t u => Undisturbed lens t u ∧ Undisturbed lens u t)

/-- Statements other than `deep_swap`. -/
def NoSwap : Stmt α → Prop
  | .swap _ _ => False
  | _ => True

/-- The next access of a thread: the address, and whether it is a store. -/
def access : Act α → Option (Int × Bool)
  | .read k _ => some (k, false)
  | .write k _ _ => some (k, true)
  | _ => none

/-- A data race: two threads are about to access the same address, at least one of them with a store. -/
def Race (ts : List (Act α)) : Prop :=
  ∃ (i j : Nat) (a b : Act α) (k : Int) (w w' : Bool), i ≠ j ∧ ts[i]? = some a ∧ ts[j]? = some b ∧ access a = some (k, w) ∧ access b = some (k, w') ∧ (w = true ∨ w' = true)

/-- All threads have finished. -/
def Finished (ts : List (Act α)) : Prop := ∀ t ∈ ts, t = .done

end Nda.Threads.Spec
