import Verif.Spec.Views
import Verif.Spec.Order
/-!
# Arrays in memory: addresses, contents, copies
-/
namespace Nda.Spec
open Nda

variable {α : Type}

/-- Content of memory at an address (`none` outside). -/
def val (mem : List α) (k : Int) : Option α := if k < 0 then none else mem[k.toNat]?

/-- Address of an element, from data pointer, strides and index only. -/
def addr (v : View) (idx : List Int) : Int := v.off + dot v.lay.str idx

/-- All elements of the view lie inside memory of `n` elements. -/
def Fits' (v : View) (n : Nat) : Prop := ∀ idx, InRange v.lay.len idx → 0 ≤ addr v idx ∧ addr v idx < n

/-- Distinct elements have distinct addresses. -/
def OneToOne (v : View) : Prop :=
  ∀ idx jdx, InRange v.lay.len idx → InRange v.lay.len jdx → addr v idx = addr v jdx → idx = jdx

/-- The views share no address. -/
def Separate (a b : View) : Prop :=
  ∀ idx jdx, InRange a.lay.len idx → InRange b.lay.len jdx → addr a idx ≠ addr b jdx

/-- `k` is the address of an element of `v`. -/
def Occupies (v : View) (k : Int) : Prop := ∃ idx, InRange v.lay.len idx ∧ addr v idx = k

/-- `mem'` is `mem` with the elements of `a` replaced by the given values and nothing else changed. -/
structure Updated (a : View) (value : List Int → Option α) (mem mem' : List α) : Prop where
  size : mem'.length = mem.length
  elems : ∀ idx, InRange a.lay.len idx → val mem' (addr a idx) = value idx
  frame : ∀ k, ¬ Occupies a k → val mem' k = val mem k

end Nda.Spec
