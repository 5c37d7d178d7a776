import Verif.Model.Messages
/-!
# The text an exception should have
-/
namespace Nda.Spec
open Nda

/-- An exception object as its user thinks of it: the text so far, and whether it is a copy of an exception that had a text. -/
structure Note where
  text : List Char
  stale : Bool
deriving DecidableEq, Repr

/-- Everything written to the object, or to the one it was copied from before it was copied. -/
def noteStep (ns : List Note) : Messages.Op → List Note
  | .new => ns ++ [⟨[], false⟩]
  | .put i t => match ns[i]? with
    | some n => ns.set i ⟨n.text ++ t, n.stale⟩
    | none => ns
  | .copy i => match ns[i]? with
    | some n => ns ++ [⟨n.text, !n.text.isEmpty⟩]
    | none => ns

def notes (ns : List Note) (ops : List Messages.Op) : List Note := ops.foldl noteStep ns

/-- No text is written to a copy of an exception that had a text. -/
def Untouched : List Note → List Messages.Op → Prop
  | _, [] => True
  | ns, op :: ops => (∀ i t n, op = .put i t → ns[i]? = some n → n.stale = true → t = []) ∧ Untouched (noteStep ns op) ops

end Nda.Spec
