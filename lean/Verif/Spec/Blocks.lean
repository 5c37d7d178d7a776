import Verif.Spec.Memory
/-!
# Blocks of memory
-/
namespace Nda.Spec
open Nda

/-- Offsets met when walking `n` blocks of `w` elements whose starts are `s` apart. -/
def blockWalk (n w s : Int) : List Int :=
  (List.range n.toNat).flatMap (fun (i : Nat) => (List.range w.toNat).map (fun (k : Nat) => (i : Int) * s + (k : Int)))

/-- Number of dimensions (slowest first, lengths and strides) whose stride is not the total
extent of the next faster dimension (1 for the fastest). -/
def gaps : List Int → List Int → Nat
  | _ :: l' :: ls, s :: s' :: ss => (if s = s' * l' then 0 else 1) + gaps (l' :: ls) (s' :: ss)
  | [_], [s] => if s = 1 then 0 else 1
  | _, _ => 0

/-- Strides are at least the total extent of the next faster dimension. -/
def Spaced : List Int → List Int → Prop
  | _ :: l' :: ls, s :: s' :: ss => s' * l' ≤ s ∧ Spaced (l' :: ls) (s' :: ss)
  | [_], [s] => 1 ≤ s
  | _, _ => True

instance decSpaced : (l s : List Int) → Decidable (Spaced l s)
  | _ :: l' :: ls, s :: s' :: ss => @instDecidableAnd _ _ _ (decSpaced (l' :: ls) (s' :: ss))
  | [_], [s] => inferInstanceAs (Decidable (1 ≤ s))
  | [], _ => isTrue trivial
  | [_], [] => isTrue trivial
  | [_], _ :: _ :: _ => isTrue trivial
  | _ :: _ :: _, [] => isTrue trivial
  | _ :: _ :: _, [_] => isTrue trivial

/-- Non-empty, regularly spaced in memory, and small enough for 32-bit arithmetic. -/
structure BlockOK (m : IdxMap) : Prop where
  ne : m.len ≠ []
  pos : ∀ l ∈ m.len, 0 < l
  spaced : Spaced (memOrder m.so m.len) (memOrder m.so m.str)
  small : (memOrder m.so m.len).headD 0 * (memOrder m.so m.str).headD 0 < 2147483648

end Nda.Spec
