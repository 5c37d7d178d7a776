import Verif.Model.Python
import Verif.Spec.Handles
import Verif.Spec.Slice
/-!
# Specification of the exchange with Python
-/
namespace Nda.Python.Spec
open Nda Nda.Spec Nda.Mem Nda.Python

/-- Address of the element of a numpy array at an index tuple (numpy documentation, "the N-dimensional array": the offset
is the sum of strides times indices). -/
def npAddr (p : Proxy) (idx : List Int) : Int := p.data + dot p.strides idx

/-- The operation leaves variable `d` alone: does not begin or end its life, assign to it or move from it (using its
elements or copying from it is allowed). -/
def LeavesAlone {V : Type} (d : Nat) : HOp V → Prop
  | .new x _ | .newZero x _ | .newFrom x _ | .foreign x _ | .destroy x => x ≠ d
  | .copy x _ | .copyAssign x _ | .copyShared x _ | .copyAssignShared x _ => x ≠ d
  | .move x s | .moveAssign x s | .share x s | .moveShared x s | .moveAssignShared x s => x ≠ d ∧ s ≠ d
  | .read _ _ | .write _ _ _ => True

end Nda.Python.Spec
