import Verif.Model.PythonArray
import Verif.Spec.Python
/-!
# Specification of the conversion of Python objects to arrays by value
-/
namespace Nda.Python.Spec
open Nda Nda.Spec Nda.Python

variable {P V : Type}

/-- Strides that the code can divide by the size of an element. -/
def Divisible (size : Nat) (p : Proxy) : Prop := ∀ s ∈ p.strides, 0 ≤ s ∧ s < 2 ^ 63 ∧ (size : Int) ∣ s

/-- What numpy promises about a world in which the object `o` stands for the array with extents `shape o` and elements `value o` of the wanted type. -/
structure Numpy (w : World P V) (npy size R : Nat) (shape : P → List Int) (value : P → List Int → Option V) : Prop where
  size_pos : 0 < size
  size_lt : size < 2 ^ 64
  /-- an array has as many strides as extents, and its extents are not negative -/
  array : ∀ o t p, w.numpy o = some (t, p) → p.strides.length = p.extents.length ∧ NonNeg p.extents
  /-- a numpy array of the wanted type stands for what is in its memory -/
  same : ∀ o p, w.numpy o = some (npy, p) → shape o = p.extents ∧ ∀ idx, InRange p.extents idx → value o idx = w.load (npAddr p idx) ∧ (value o idx).isSome
  /-- `PyArray_FromAny`: a new array of the wanted type and rank in C order, with the same extents and elements -/
  made : ∀ o q, w.fromAny o = some q → ∃ p, w.numpy q = some (npy, p) ∧ p.extents.length = R ∧ Divisible size p ∧ shape q = shape o ∧
    ∀ idx, InRange (shape o) idx → value q idx = value o idx
  /-- an array of the wanted type and rank can be copied -/
  copies : ∀ o p, w.numpy o = some (npy, p) → p.extents.length = R → (w.fromAny o).isSome

end Nda.Python.Spec
