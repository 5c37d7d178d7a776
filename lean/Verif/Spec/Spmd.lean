import Verif.Spec.Mpi
import Verif.Model.Spmd
/-!
# What programs run by several processes should do

The variables of all processes are seen at once: `ss r` are those of process `r`.
-/
namespace Nda.Spmd
open Nda Mpi Matrix

variable {α : Type} {n : Nat}

/-- A variable without gaps, with as many elements as its shape says. -/
structure Whole (a : Loc α) : Prop where
  contig : a.contig = true
  nonneg : ∀ l ∈ a.shape, 0 ≤ l
  full : (a.data.length : Int) = a.shape.prod

/-- Element `idx` of an array, index 0 slowest. -/
def elem (a : Loc α) (idx : List Int) : Option α := a.data[(Spec.lin a.shape idx).toNat]?

/-- The variable `t` becomes the array of shape `sha` with the elements `xs`; a view must have this shape already. -/
def Receives (t t' : Loc α) (sha : List Int) (xs : List α) : Prop :=
  t.contig = true ∧ (t.isView = true → t.shape = sha ∧ (t.data.length : Int) = sha.prod) ∧ t' = { t with shape := sha, data := xs }

/-- The variable `t` is the target of an operation whose result other processes get: a view does not change (in debug mode its shape must be `sha`), an array gets the shape
`sha` with unspecified elements (those it had if their number is right). -/
def Bystander (junk : α) (debug : Bool) (t t' : Loc α) (sha : List Int) : Prop :=
  t.contig = true ∧
  if t.isView then t' = t ∧ (debug = true → t.shape = sha)
  else t' = { t with shape := sha, data := if sha.prod = t.data.length then t.data else List.replicate sha.prod.toNat junk }

/-- Process `r` gets the result. -/
def Gets (root : Nat) (all : Bool) (r : Fin n) : Prop := all = true ∨ r.val = root

/-- Gather: the arrays `a` of the processes, stacked. -/
def Gathered (junk : α) (debug : Bool) (root : Nat) (all : Bool) (a t t' : Fin n → Loc α) : Prop :=
  ∃ (heights : Fin n → Int) (rest : List Int), (∀ r, Whole (a r) ∧ (a r).shape = heights r :: rest) ∧ (List.ofFn heights).sum * rest.prod < intBound ∧
    ∀ r, (Gets root all r → Receives (t r) (t' r) ((List.ofFn heights).sum :: rest) (List.ofFn (fun q => (a q).data)).flatten) ∧
      (¬ Gets root all r → Bystander junk debug (t r) (t' r) (1 :: rest))

/-- Scatter: process `r` gets its rows of the array `o` of the root. -/
def Scattered (root : Fin n) (a t t' : Fin n → Loc α) : Prop :=
  ∃ (l : Int) (rest : List Int), (∀ r, Whole (a r) ∧ (a r).shape = l :: rest) ∧ l * rest.prod < intBound ∧
    ∀ r, Receives (t r) (t' r) (chunkLength l n r.val :: rest)
      (((a root).data.drop (slabStart ((List.range n).map (chunkLength l n)) r.val * rest.prod).toNat).take (chunkLength l n r.val * rest.prod).toNat)

/-- `xs` are the element by element combinations of the lists `ys`. -/
def Combined (op : α → α → α) (ys : Fin n → List α) (xs : List α) (m : Int) : Prop :=
  (xs.length : Int) = m ∧ ∀ (i : Nat) (col : Fin n → α), (∀ q, (ys q)[i]? = some (col q)) → xs[i]? = total op (List.ofFn col)

/-- Reduction: arrays of the same shape, combined element by element. -/
def Reduced (sem : Nat → α → α → α) (junk : α) (debug : Bool) (root : Nat) (all : Bool) (op : Nat) (a t t' : Fin n → Loc α) : Prop :=
  ∃ sha : List Int, (∀ r, Whole (a r) ∧ (a r).shape = sha) ∧ sha.prod < intBound ∧
    ∀ r, (Gets root all r → ∃ xs, Combined (sem op) (fun q => (a q).data) xs sha.prod ∧ Receives (t r) (t' r) sha xs) ∧
      (¬ Gets root all r → Bystander junk debug (t r) (t' r) sha)

/-- What a delayed operation should do. -/
def Does (sem : Nat → α → α → α) (junk : α) (debug : Bool) : Delayed → (a t t' : Fin n → Loc α) → Prop
  | .gather root all, a, t, t' => root < n ∧ Gathered junk debug root all a t t'
  | .scatter root, a, t, t' => ∃ h : root < n, Scattered ⟨root, h⟩ a t t'
  | .reduce root all op, a, t, t' => root < n ∧ Reduced sem junk debug root all op a t t'

/-- Broadcast: all processes get the array of the root. -/
def Broadcasted (root : Fin n) (t t' : Fin n → Loc α) : Prop :=
  (∀ r, Whole (t r) ∧ (t r).shape.length = (t root).shape.length) ∧ (t root).shape.prod < intBound ∧ t' root = t root ∧
    ∀ r, r ≠ root → Receives (t r) (t' r) (t root).shape (t root).data

/-- A relation done `k` times. -/
def Times {σ : Type} (R : σ → σ → Prop) : Nat → σ → σ → Prop
  | 0, s, s' => s' = s
  | k + 1, s, s' => ∃ s₁, R s s₁ ∧ Times R k s₁ s'

/-- What a program should do to the variables of all processes.  Variables have one type, the same in all processes; all processes take the same branches and do loops the same
number of times; only a reduction may have the same source and target. -/
def Means (sem : Nat → α → α → α) (junk : α) (debug : Bool) : Prog α → (ss ss' : Fin n → Store α) → Prop
  | .skip, ss, ss' => ss' = ss
  | .seq p q, ss, ss' => ∃ s₁, Means sem junk debug p ss s₁ ∧ Means sem junk debug q s₁ ss'
  | .assign dst src d, ss, ss' => ∃ a t t' : Fin n → Loc α, (∀ r, (ss r)[src]? = some (a r)) ∧ (∀ r, (ss r)[dst]? = some (t r)) ∧
      (∀ r q, (t r).isView = (t q).isView) ∧ (dst = src → ∃ root all op, d = .reduce root all op) ∧ Does sem junk debug d a t t' ∧ ∀ r, ss' r = (ss r).set dst (t' r)
  | .make src d, ss, ss' => ∃ a t' : Fin n → Loc α, (∀ r, (ss r)[src]? = some (a r)) ∧ Does sem junk debug d a (fun _ => ⟨[], [], false, true⟩) t' ∧
      ∀ r, ss' r = ss r ++ [t' r]
  | .broadcast x root, ss, ss' => ∃ (h : root < n) (t t' : Fin n → Loc α), (∀ r, (ss r)[x]? = some (t r)) ∧ Broadcasted ⟨root, h⟩ t t' ∧ ∀ r, ss' r = (ss r).set x (t' r)
  | .compute f, ss, ss' => ∀ r : Fin n, ss' r = f r.val (ss r)
  | .ite b p q, ss, ss' => ∃ c : Bool, (∀ r : Fin n, b r.val (ss r) = c) ∧ (c = true → Means sem junk debug p ss ss') ∧ (c = false → Means sem junk debug q ss ss')
  | .loop k p, ss, ss' => ∃ m : Nat, (∀ r : Fin n, k r.val (ss r) = m) ∧ Times (Means sem junk debug p) m ss ss'

end Nda.Spmd
