import Verif.Model.References
import Verif.Spec.Values
/-!
# Views as references

The arrays are values (Spec/Values).  Every array has, besides its value, an identity that stands for its storage; a view names an identity and the elements it
was made of.  Which statements keep the identity of an array, pass it on or give it a new one is `origin`: that is the rule that tells how long views are valid.
-/
namespace Nda.Arr.Spec
open Nda Nda.Spec LayoutTransforms

variable {V : Type}

/-- The array keeps its storage when it is resized: it has not been moved from and the number of elements does not change. -/
def KeepsSize (x : Option (Val V)) (shape : List Int) : Prop :=
  match x with
  | some y => y.moved = false ∧ prod y.shape = prod shape
  | none => False

instance (x : Option (Val V)) (shape : List Int) : Decidable (KeepsSize x shape) := by
  unfold KeepsSize; split <;> infer_instance

/-- Array `j` after the statement has the storage that array `origin a op j` had before; `none`: new storage. -/
def origin (a : Vals V) : VOp V → Nat → Option Nat
  | .default d _, j | .make d _, j | .zeros d _, j | .build d _ _, j | .copy d _, j => if a.get d = none ∧ j = d then none else some j
  | .move d s, j => if d < a.length ∧ a.get d = none ∧ a.get s ≠ none then (if j = s then none else if j = d then some s else some j) else some j
  | .copyAssign d s, j => if a.get s ≠ none ∧ j = d then none else some j
  | .moveAssign d s, j => if a.get d ≠ none ∧ a.get s ≠ none then (if j = s then none else if j = d then some s else some j) else some j
  | .resize d shape, j | .assign d shape _, j => if j = d ∧ ¬ KeepsSize (a.get d) shape then none else some j
  | .fill _ _, j | .put _ _ _ _, j | .destroy _, j => some j

/-- A view: the identity of the storage it points into, the shape of the array at that time, the view operations, and its own shape. -/
structure RefVal where
  id : Nat
  shape : List Int
  ops : List Op
  ext : List Int

/-- Arrays, their identities (those of arrays not alive: meaningless), the next new identity, views. -/
structure World (V : Type) where
  vals : Vals V
  ids : Nat → Nat
  next : Nat
  refs : Nat → Option RefVal

namespace World

/-- The array that has the storage `id` now. -/
def owner (S : World V) (id : Nat) : Option Nat := (List.range S.vals.length).find? (fun d => (S.vals.get d).isSome && S.ids d == id)

/-- The element of an array that element `idx` of view `w` is: the array that has the storage now must have the shape it had when the view was made. -/
def resolve (S : World V) (w : Nat) (idx : List Int) : Option (Nat × List Int) := do
  let r ← S.refs w
  let d ← S.owner r.id
  let x ← S.vals.get d
  if x.shape = r.shape ∧ InRange r.ext idx then some (d, sourceChain r.shape.length r.ops idx) else none

/-- The right-hand side with the elements of views replaced by the elements of arrays that they are; an element that is none reads an array that does not
exist. -/
def deref (S : World V) : RComp V → Comp V
  | .ret v => .ret v
  | .arr x idx k => .read x idx (fun v => S.deref (k v))
  | .ref w idx k => match S.resolve w idx with
      | some (d, jdx) => .read d jdx (fun v => S.deref (k v))
      | none => .read S.vals.length idx (fun v => S.deref (k v))

/-- A statement on arrays. -/
def stmt (triv : Bool) (dflt : V) (rank : Nat → Nat) (S : World V) (op : VOp V) : World V :=
  { S with vals := vnext triv dflt rank S.vals op
           ids := fun j => match origin S.vals op j with
             | some i => S.ids i
             | none => S.next
           next := S.next + 1 }

def setRef (S : World V) (w : Nat) (r : Option RefVal) : World V := { S with refs := fun i => if i = w then r else S.refs i }

/-- The statements. -/
def next' (triv : Bool) (dflt : V) (rank : Nat → Nat) (S : World V) : ROp V → World V
  | .plain op => S.stmt triv dflt rank op
  | .build d shape rhs => S.stmt triv dflt rank (.build d shape (fun idx => S.deref (rhs idx)))
  | .assign d shape rhs => S.stmt triv dflt rank (.assign d shape (fun idx => S.deref (rhs idx)))
  | .put d ops ext rhs => S.stmt triv dflt rank (.put d ops ext (fun idx => S.deref (rhs idx)))
  | .bind w d ops ext => match S.vals.get d with
      | some x => S.setRef w (some ⟨S.ids d, x.shape, ops, ext⟩)
      | none => S
  | .sub w u ops ext => match S.refs u with
      | some r => S.setRef w (some ⟨r.id, r.shape, r.ops ++ ops, ext⟩)
      | none => S
  | .putRef w ext rhs => match S.refs w with
      | some r => match S.owner r.id with
          | some d => S.stmt triv dflt rank (.put d r.ops ext (fun idx => S.deref (rhs idx)))
          | none => S
      | none => S
  | .swap w u => (S.setRef w (S.refs u)).setRef u (S.refs w)

/-- The statement is allowed: as in Spec/Values after the elements of views have been replaced; views are inside the array or view they are made from; a view
that is assigned to points into the storage of an array, which has the shape it had when the view was made. -/
def Allowed (so : Nat → List Nat) (S : World V) : ROp V → Prop
  | .plain op => VAllowed so S.vals op
  | .build d shape rhs => VAllowed so S.vals (.build d shape (fun idx => S.deref (rhs idx)))
  | .assign d shape rhs => VAllowed so S.vals (.assign d shape (fun idx => S.deref (rhs idx)))
  | .put d ops ext rhs => VAllowed so S.vals (.put d ops ext (fun idx => S.deref (rhs idx)))
  | .bind _ d ops ext => ∀ x, S.vals.get d = some x → ChainAllowed x.shape ops ∧ ChainShape x.shape ops ext
  | .sub _ u ops ext => ∀ r, S.refs u = some r → ChainAllowed r.ext ops ∧ ChainShape r.ext ops ext
  | .putRef w ext rhs => ∀ r, S.refs w = some r → ∃ d x, S.owner r.id = some d ∧ S.vals.get d = some x ∧ x.shape = r.shape ∧
      VAllowed so S.vals (.put d r.ops ext (fun idx => S.deref (rhs idx)))
  | .swap _ _ => True

/-- Nothing alive. -/
def start (n : Nat) : World V := ⟨List.replicate n none, fun _ => 0, 0, fun _ => none⟩

/-- A program. -/
def final (triv : Bool) (dflt : V) (rank : Nat → Nat) (S : World V) (ops : List (ROp V)) : World V := ops.foldl (fun S op => S.next' triv dflt rank op) S

/-- Every statement is allowed in the state it meets. -/
def AllowedRun (triv : Bool) (dflt : V) (so : Nat → List Nat) : World V → List (ROp V) → Prop
  | _, [] => True
  | S, op :: ops => S.Allowed so op ∧ AllowedRun triv dflt so (S.next' triv dflt (rankOf so) op) ops

end World

/-- What memory holds: the arrays (Spec/Values); every element of a view whose storage an array has, of the shape the view was made for, is the element of that
array that it was made from; views whose storage no array has give no element (they point to released memory, or nowhere). -/
def RRepresents (P : RProg V) (S : World V) : Prop :=
  Represents P.p S.vals ∧
  ∀ w, match S.refs w with
    | none => P.refs w = none
    | some r => (∀ d x, S.owner r.id = some d → S.vals.get d = some x → x.shape = r.shape → ∀ idx, InRange r.ext idx →
          P.elem w idx = P.p.elem d (sourceChain r.shape.length r.ops idx)) ∧
        (S.owner r.id = none → ∀ idx, P.elem w idx = none)

end Nda.Arr.Spec
