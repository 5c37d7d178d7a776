import Verif.Spec.Linalg
/-!
# What is assumed of LAPACK for matrices of size 0

The reference implementation checks its arguments first (a leading dimension below 1 is illegal, `info` is minus the position of the argument), then returns without touching memory.
-/
namespace Nda.Spec
open Nda Linalg

variable {α : Type}

/-- `getrf` for a 0 by 0 matrix. -/
def GetrfEmptyOK (L : Linalg.Lapack α) : Prop := ∀ (a ld : Int) (mem : List α), L.getrf 0 0 a ld mem = .ok (mem, [], if ld < 1 then -4 else 0)

/-- `getri` for a 0 by 0 matrix. -/
def GetriEmptyOK (L : Linalg.Lapack α) : Prop := ∀ (a ld : Int) (ipiv : List Int) (mem : List α), L.getri 0 a ld ipiv mem = .ok (mem, if ld < 1 then -3 else 0)

end Nda.Spec
