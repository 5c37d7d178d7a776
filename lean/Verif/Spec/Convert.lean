import Verif.Model.Convert
import Verif.Spec.Sso
import Verif.Spec.Handles
import Verif.Spec.Index
/-!
# What conversions between kinds of storage should do
-/
namespace Nda.Mem.Spec

variable {V : Type}

/-- The elements of a variable alive: `x[0]`, ..., `x[x.size() - 1]`. -/
def elems (w : World V) (o : Obj) : Option (List (Option (Option V))) :=
  (w.size o).map fun n => (List.range n).map (w.cell o)

/-- The variable is not a shared handle whose share was moved away. -/
def Usable (w : World V) : Obj → Prop
  | .h i => ∀ x n, w.h.vars[i]? ≠ some (some (.shared x n none))
  | _ => True

/-- The values of the small-buffer handles. -/
def valsOf (p : SProg V) : Vals V := (List.range p.vars.length).map fun i => (contents p i).map (List.map Option.join)

/-- The operations for which the claims hold: those of C28 and C29, and conversions of usable handles. -/
def WAllowed (triv : Bool) (w : World V) : WOp V → Prop
  | .h op => Careful w.h op
  | .s K op => SAllowed triv K (valsOf (w.s K)) op
  | .k _ op => KAllowed triv op
  | .toHeap _ src => Usable w src
  | .toSso _ _ src => Usable w src

/-- Every operation of the history is allowed, when its turn comes. -/
def WAllowedRun (triv : Bool) (dflt : V) : World V → List (WOp V) → Prop
  | _, [] => True
  | w, op :: ops => WAllowed triv w op ∧ ∀ w', w.step triv dflt op = some w' → WAllowedRun triv dflt w' ops

/-- The variable is not alive, but can be. -/
def Free (w : World V) : Obj → Prop
  | .h i => w.h.var i = none ∧ i < w.h.vars.length
  | .s K i => (w.s K).var i = none ∧ i < (w.s K).vars.length
  | .k N i => StackH.var (w.k N) i = none ∧ i < (w.k N).length

/-- The variable, if alive, has its own copy of its elements: no other usable variable has a pointer to the same memory. -/
def Alone (w : World V) : Obj → Prop
  | .h i => ∀ x b, w.h.var i = some x → x.data = some b → ∀ j y, w.h.var j = some y → Usable w (.h j) → y.data = some b → j = i
  | .s K i => ∀ x b, (w.s K).var i = some x → x.data = .block b → ∀ j y, (w.s K).var j = some y → y.data = .block b → j = i
  | .k _ _ => True

/-- The worlds that allowed histories lead to. -/
def Reaches (triv : Bool) (dflt : V) (w : World V) : Prop :=
  ∃ n ops, WAllowedRun triv dflt (World.start n) ops ∧ (World.start n).run triv dflt ops = some w

/-- The element at index `idx` of an array with layout `m` and storage `o`. -/
def entry (w : World V) (m : IdxMap) (o : Obj) (idx : List Int) : Option (Option V) :=
  (elems w o).bind fun l => if 0 ≤ Nda.Spec.dot m.str idx then (l[(Nda.Spec.dot m.str idx).toNat]?).join else none

end Nda.Mem.Spec
