import Verif.Spec.Clef
import Verif.Spec.Memory
import Verif.Model.AutoAssign
/-!
# Elements of nested arrays, and what their indices mean for an expression
-/
namespace Nda.Clef.Spec
open Nda Nda.Spec Nda.Clef

variable {V L : Type}

/-- `k` is the address of the element `a(path₀)(path₁)...`. -/
def Slot : Target → List (List Int) → Int → Prop
  | .view v, [idx], k => InRange v.lay.len idx ∧ k = addr v idx
  | .arrs len sub, idx :: p, k => InRange len idx ∧ Slot (sub idx) p k
  | _, _, _ => False

/-- `k` is the address of the element `v[path₀][path₁]...`. -/
def VSlot : VTarget → List Int → Int → Prop
  | .elem k, [], k' => k' = k
  | .vec n sub, i :: p, k => (0 ≤ i ∧ i < n) ∧ VSlot (sub i) p k
  | _, _, _ => False

/-- `a(path₀)(path₁)...` is an element, or one of the arrays inside. -/
def Reach : Target → List (List Int) → Prop
  | .view v, [idx] => InRange v.lay.len idx
  | .arrs len sub, idx :: p => InRange len idx ∧ (p = [] ∨ Reach (sub idx) p)
  | _, _ => False

/-- `v[path₀][path₁]...` is an element, or one of the vectors inside. -/
def VReach : VTarget → List Int → Prop
  | .vec n sub, i :: p => (0 ≤ i ∧ i < n) ∧ (p = [] ∨ VReach (sub i) p)
  | _, _ => False

/-- The numbers of placeholders on the left are those of the indices of the arrays; the layouts are proper. -/
def Fit : Target → List (List Nat) → Prop
  | .view v, [is] => is ≠ [] ∧ is.length = v.lay.len.length ∧ WF v.lay ∧ FlagsOK v.lay
  | .arrs len sub, is :: iss => is ≠ [] ∧ is.length = len.length ∧ ∀ idx, InRange len idx → Fit (sub idx) iss
  | _, _ => False

def VFit : VTarget → List Nat → Prop
  | .elem _, [] => True
  | .vec n sub, _ :: is => ∀ i : Int, 0 ≤ i ∧ i < n → VFit (sub i) is
  | _, _ => False

/-- The placeholders with the indices. -/
def pairsAt (L : Type) (ofIdx : Int → V) : List (List Nat) → List (List Int) → Pairs V L
  | is :: iss, idx :: p => is.zip (idx.map (fun i => Arg.val (ofIdx i))) ++ pairsAt L ofIdx iss p
  | _, _ => []

/-- Memory with the same size and the same contents outside the given addresses. -/
def SameOutside (S : Int → Prop) (mem mem' : List V) : Prop := mem'.length = mem.length ∧ ∀ k, ¬ S k → val mem' k = val mem k

end Nda.Clef.Spec
