import Verif.Spec.Views
/-!
# What it means that the elements of an array fill one block
-/
namespace Nda.Spec
open Nda

/-- The offsets of the elements are exactly `0, 1, ..., size-1`. -/
def FillsBlock (m : IdxMap) : Prop :=
  ∀ k, (0 ≤ k ∧ k < prod m.len) ↔ ∃ idx, InRange m.len idx ∧ offset m idx = k

/-- Every stride of a dimension of extent greater than one is positive. -/
def BigPos (m : IdxMap) : Prop := ∀ u, 1 < m.len.getD u 0 → 0 < m.str.getD u 0

end Nda.Spec

namespace Nda.Spec
open Nda LayoutTransforms

/-- A layout policy that makes sense at rank `r`: the named policies always do; a
`basic_layout` carries tuples of one fixed rank. -/
def PolicyAt (r : Nat) : Policy → Prop
  | .basic se so _ => IsPerm so ∧ so.length = r ∧ se.length = r ∧ 0 < r
  | _ => True

/-- The layout is one the policy describes. -/
def PolicyOf (m : IdxMap) : Policy → Prop
  | .C => m.so = List.range m.len.length ∧ m.se = List.replicate m.len.length 0 ∧ m.prop = .contiguous
  | .F => m.so = (List.range m.len.length).reverse ∧ m.se = List.replicate m.len.length 0 ∧ m.prop = .contiguous
  | .Cstride => m.so = List.range m.len.length ∧ m.se = List.replicate m.len.length 0 ∧ m.prop = .none
  | .Fstride => m.so = (List.range m.len.length).reverse ∧ m.se = List.replicate m.len.length 0 ∧ m.prop = .none
  | .basic se so prop => m.so = so ∧ m.se = se ∧ m.prop = prop

/-- Position of an index tuple in the memory order of the layout. -/
def position (m : IdxMap) (idx : List Int) : Int := lin (memOrder m.so m.len) (memOrder m.so idx)

/-- No operation of the chain has a range with a non-positive step. -/
def PosSteps (os : List Op) : Prop := ∀ args, Op.slice args ∈ os → ∀ f l s, Arg.rng f l s ∈ args → 0 < s

end Nda.Spec
