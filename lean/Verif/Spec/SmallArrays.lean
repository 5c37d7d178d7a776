import Verif.Model.SmallArrays
import Verif.Spec.Values
/-!
# Arrays with small-buffer storage as values
-/
namespace Nda.SmallArr.Spec
open Nda Nda.Spec Nda.Arr Nda.Arr.Spec Nda.SmallArr

variable {V : Type}

/-- No copy assignment of an array to itself, unless its elements are in its buffer (there are at most `K`) or it has none. -/
def SmallSelf (K : Nat) (a : Arr.Spec.Vals V) : VOp V → Prop
  | .copyAssign d s => d = s → ∀ x, a.get d = some x → x.moved = true ∨ prod x.shape ≤ K
  | _ => True

/-- At every statement of the program. -/
def SmallSelfRun (K : Nat) (dflt : V) (so : Nat → List Nat) : Arr.Spec.Vals V → List (VOp V) → Prop
  | _, [] => True
  | a, op :: ops => SmallSelf K a op ∧ SmallSelfRun K dflt so (vnext true dflt (rankOf so) a op) ops

/-- The program's memory holds these values (as `Arr.Spec.Represents`). -/
def Represents (p : SAProg V) (a : Arr.Spec.Vals V) : Prop :=
  ∀ d, match a.get d with
    | none => p.prog.var d = none
    | some x => (∃ m, p.lays[d]? = some m ∧ m.len = x.shape) ∧ (x.moved = false → ∀ idx v, InRange x.shape idx → x.el idx = some v → p.elem d idx = some v) ∧
        (x.moved = true → ∀ idx, p.elem d idx = none)

end Nda.SmallArr.Spec
