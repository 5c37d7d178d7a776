import Verif.Model.Handles
/-!
# What ownership means
-/
namespace Nda.Mem.Spec

variable {V : Type}

/-- Variable `i` of `p` owns block `b`: alone, or with a share of a control block for `b`. -/
def Owns (p : Prog V) (i b : Nat) : Prop :=
  (∃ n, p.vars[i]? = some (some (.heap (some b) n none))) ∨
    ∃ h c k, p.vars[i]? = some (some h) ∧ h.sptr = some c ∧ p.mem.ctrls[c]? = some k ∧ k.data = some b

/-- The operation does not read or write elements through a shared handle that has no share (any more):
one whose share was moved away. -/
def Careful (p : Prog V) (op : HOp V) : Prop :=
  ∀ d, ((∃ i, op = .read d i) ∨ ∃ i v, op = .write d i v) → ∀ x n, p.vars[d]? ≠ some (some (.shared x n none))

/-- All operations of a history are careful, each in the state it is executed in. -/
def CarefulRun (triv : Bool) (dflt : V) : Prog V → List (HOp V) → Prop
  | _, [] => True
  | p, op :: ops => Careful p op ∧ ∀ p', p.step triv dflt op = some p' → CarefulRun triv dflt p' ops

/-- The elements a handle refers to are all there: its block is not released, has as many cells as the
handle says, and every cell holds an object (unless the type is trivial). -/
def Intact (triv : Bool) (p : Prog V) (h : Handle) : Prop :=
  match h.data with
  | none => h.size = 0
  | some b => ∃ cells, p.mem.hp[b]? = some ⟨cells, false⟩ ∧ cells.length = h.size ∧ (triv = false → ∀ c ∈ cells, c.isSome)

end Nda.Mem.Spec
