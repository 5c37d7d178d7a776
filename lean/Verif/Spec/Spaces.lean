import Verif.Model.Spaces
import Verif.Spec.Programs
import Verif.Spec.Blocks
/-!
# Programs on arrays in several memories: what they mean

The meaning of a statement is the one of Spec/Programs: it does not mention memories at all.
-/
namespace Nda.Spaces.Spec
open Nda Nda.Spec LayoutTransforms Assign Arith Programs Programs.Spec Nda.Spaces

variable {α : Type}

/-- The statement without regard to memories: a construction gives the new variable the value of the other. -/
def plain [Zero α] : SStmt α → Stmt α
  | .assign alg p e => .assign alg p e
  | .compound op alg p e => .compound op alg p e
  | .compoundScalar op alg p s => .compoundScalar op alg p s
  | .fill p s => .fill p s
  | .fillDiag p s => .fillDiag p s
  | .make t p => .assign .A ⟨t, []⟩ (.arr .A p)
  | .convert t u => .assign .A ⟨t, []⟩ (.arr .A ⟨u, []⟩)
  | .zeros t => .fill ⟨t, []⟩ 0

/-- Variable `k` is in device memory. -/
def OnDevice (env : List Var) (k : Nat) : Prop := ∃ x, env[k]? = some x ∧ x.space = .device

/-- The variables of a statement. -/
def names : SStmt α → List Nat
  | .assign _ p e => p.name :: (places e).map (·.2.name)
  | .compound _ _ p e => p.name :: (places e).map (·.2.name)
  | .compoundScalar _ _ p _ => [p.name]
  | .fill p _ => [p.name]
  | .fillDiag p _ => [p.name]
  | .make t p => [t, p.name]
  | .convert t u => [t, u]
  | .zeros t => [t]

/-- Some variable of the statement is in device memory. -/
def UsesDevice (env : List Var) (s : SStmt α) : Prop := ∃ k ∈ names s, OnDevice env k

/-- All variables of the expression are in device memory, or none of them. -/
def OneSide (env : List Var) (e : PExpr α) : Prop :=
  (∀ q ∈ places e, OnDevice env q.2.name) ∨ (∀ q ∈ places e, ¬ OnDevice env q.2.name)

/-- A copy from one array in memory to another: between memories the layouts must be such that `get_block_layout` gets them right (C20). -/
def CopyOK (env : List Var) (p q : Place) : Prop :=
  ∀ x y v w, env[p.name]? = some x → env[q.name]? = some y → view (views env) p = some v → view (views env) q = some w →
    (x.space = .host ∧ y.space = .host) ∨ v.lay.so ≠ w.lay.so ∨ (BlockOK v.lay ∧ BlockOK w.lay)

/-- The variables of the statement are where the code can handle them. -/
def MemOK (env : List Var) : SStmt α → Prop
  | .assign _ p e => OneSide env e ∧ ∀ a q, e = .arr a q → CopyOK env p q
  | .compound op alg p e => OneSide env (.bin op (.arr alg p) e)
  | .compoundScalar _ _ _ _ => True
  | .fill p _ => ¬ OnDevice env p.name
  | .fillDiag p _ => ¬ OnDevice env p.name
  | .make t p => CopyOK env ⟨t, []⟩ p
  | .convert t u => ∃ x y, env[t]? = some x ∧ env[u]? = some y ∧ x.view.lay = y.view.lay ∧ x.view.lay.prop = .contiguous
  | .zeros t => ∃ x, env[t]? = some x ∧ x.view.lay.prop = .contiguous

/-- Variables outside device memory are at addresses that the processor reaches. -/
def Placed (lim : Nat) (env : List Var) : Prop := ∀ x ∈ env, x.space ≠ .device → ∀ idx, InRange x.view.lay.len idx → addr x.view idx < lim

/-- The layout has no gaps, or one. -/
def gapsOf (v : View) : Nat := gaps (memOrder v.lay.so v.lay.len) (memOrder v.lay.so v.lay.str)

end Nda.Spaces.Spec
