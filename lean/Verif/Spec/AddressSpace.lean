import Verif.Model.AddressSpace
/-!
# Which processor reaches which memory
-/
namespace Nda.AddressSpace.Spec
open Nda.AddressSpace

/-- The two processors. -/
inductive Side where
  | cpu | gpu

/-- The processor can use an operand in this address space; an operand without memory can be used by both. -/
def Side.Reaches : Side → Addr → Prop
  | .cpu, a => a ≠ .device
  | .gpu, a => a ≠ .host

mutual
/-- The address spaces of the operands at the leaves of a type. -/
def leaves : Ty → List Addr
  | .scalar => []
  | .array a => [a]
  | .expr l r => leaves l ++ leaves r
  | .call a as => leaves a ++ leavesList as
  | .unary a => leaves a
def leavesList : List Ty → List Addr
  | [] => []
  | a :: as => leaves a ++ leavesList as
end

/-- `r` is the first of Unified, Device, Host that occurs among `l`, None if none of them does. -/
def Promoted (l : List Addr) (r : Addr) : Prop :=
  (r = .unified ∧ .unified ∈ l) ∨ (r = .device ∧ .device ∈ l ∧ .unified ∉ l) ∨ (r = .host ∧ .host ∈ l ∧ .device ∉ l ∧ .unified ∉ l) ∨
    (r = .none ∧ ∀ a ∈ l, a = .none)

end Nda.AddressSpace.Spec
