import Verif.Model.StackArrays
import Verif.Spec.Values
/-!
# Arrays on the stack as values

The values of Spec/Values, with three differences: a move is a copy, default construction makes an array of the static shape, and shapes never change.
-/
namespace Nda.StackArr.Spec
open Nda Nda.Spec Nda.Mem Nda.Arr Nda.Arr.Spec Nda.StackArr

variable {V : Type}

/-- The static extents as a shape. -/
def shapeOf (t : Types) (d : Nat) : List Int := (t.ext d).map Int.ofNat

/-- What a statement is on values: moves are copies, default construction is construction with the static shape. -/
def asCopy (t : Types) : VOp V → VOp V
  | .default d _ => .make d (shapeOf t d)
  | .move d s => .copy d s
  | .moveAssign d s => .copyAssign d s
  | op => op

/-- The statement is allowed on arrays of these types: as for other arrays (`VAllowed`), all shapes are the static ones, and arrays are copied to arrays of the same extents.  Of a
non-trivial element type there is no default construction (it makes no elements), no construction with zeros, and no assignment of an array of the same type (it makes elements where there are some). -/
def KAllowed (triv : Bool) (t : Types) (a : Vals V) : VOp V → Prop
  | .default _ _ => triv = true
  | .make d shape | .resize d shape => shape = shapeOf t d
  | .zeros d shape => triv = true ∧ shape = shapeOf t d
  | .copy d s | .move d s => t.so d = t.so s ∧ t.ext d = t.ext s
  | .copyAssign d s | .moveAssign d s => triv = true ∧ t.so d = t.so s ∧ t.ext d = t.ext s
  | .build d shape rhs => shape = shapeOf t d ∧ VAllowed t.so a (.build d shape rhs)
  | .assign d shape rhs => shape = shapeOf t d ∧ VAllowed t.so a (.assign d shape rhs)
  | .fill _ _ => True
  | .put d ops ext rhs => VAllowed t.so a (.put d ops ext rhs)
  | .destroy _ => True

/-- Every statement is allowed on the values that it meets. -/
def KAllowedRun (triv : Bool) (dflt : V) (t : Types) : Vals V → List (VOp V) → Prop
  | _, [] => True
  | a, op :: ops => KAllowed triv t a op ∧ KAllowedRun triv dflt t (vnext triv dflt (rankOf t.so) a (asCopy t op)) ops

/-- The values after a program. -/
def kfinal (triv : Bool) (dflt : V) (t : Types) (a : Vals V) (ops : List (VOp V)) : Vals V := vfinal triv dflt (rankOf t.so) a (ops.map (asCopy t))

/-- The types make sense: stride orders are permutations, all extents are static and as many. -/
def TypesOK (t : Types) : Prop := ∀ d, IsPerm (t.so d) ∧ (t.ext d).length = (t.so d).length ∧ ∀ n ∈ t.ext d, 0 < n

/-- The program's memory holds these values: variables that are not alive have no elements, the others have the shape of their type and every specified element. -/
def Represents (t : Types) (p : KProg V) (a : Vals V) : Prop :=
  ∀ d, match a.get d with
    | none => StackH.var p.vars d = none
    | some x => (∃ m, p.lays[d]? = some m ∧ m.len = shapeOf t d) ∧ x.shape = shapeOf t d ∧
        ∀ idx v, InRange x.shape idx → x.el idx = some v → p.elem d idx = some v

end Nda.StackArr.Spec
