import Verif.Props.BlasVec
/-!
# C44: vectors whose size is not an `int`
-/
namespace Nda.Blas
open Nda LayoutTransforms Assign Spec

variable {α : Type}

/-- A vector of `n` elements at `p`, one after the other. -/
def bigVector (p n : Int) : View := ⟨p, ⟨[n], [1], [0], [0], .contiguous⟩⟩

/-- C44, large vectors.  The sizes are passed to BLAS as `int`.  For vectors of 2^31 to 2^32 - 1 elements the size becomes negative: `dot` gives 0 and `scal` does nothing, whatever the
elements are; for 2^32 + n elements only the first n are used.  No error is reported. -/
theorem C44_large_witness [Zero α] [Add α] [Mul α] (cj : α → α) (p q n : Int) (a : α) (mem : List α) :
    (2147483648 ≤ n → n < 4294967296 → blasDot cj (bigVector p n) (bigVector q n) mem = some 0 ∧ scal a (bigVector p n) mem = some mem) ∧
    (0 ≤ n → n < 2147483648 →
      blasDot cj (bigVector p (4294967296 + n)) (bigVector q (4294967296 + n)) mem = blasDot cj (bigVector p n) (bigVector q n) mem ∧
      scal a (bigVector p (4294967296 + n)) mem = scal a (bigVector p n) mem) := by
  have hs : ∀ n : Int, (bigVector p n).lay.size = n := fun n => by simp [bigVector, IdxMap.size]
  constructor
  · intro h1 h2
    have hb : toInt32 n = n - 4294967296 := by
      rw [toInt32, Int.bmod_def]; omega
    constructor
    · show f77dot cj (toInt32 (bigVector p n).lay.size) p (toInt32 1) q (toInt32 1) mem = some 0
      rw [hs, hb, f77dot, sumM, show (n - 4294967296).toNat = 0 by omega]
      rfl
    · show f77scal (toInt32 (bigVector p n).lay.size) a p (toInt32 1) mem = some mem
      rw [hs, hb, f77scal, if_pos (.inl (by omega))]
  · intro h1 h2
    have hb : toInt32 (4294967296 + n) = toInt32 n := by
      rw [toInt32, toInt32, Int.bmod_def, Int.bmod_def]; omega
    constructor
    · show f77dot cj (toInt32 (bigVector p (4294967296 + n)).lay.size) p (toInt32 1) q (toInt32 1) mem = f77dot cj (toInt32 (bigVector p n).lay.size) p (toInt32 1) q (toInt32 1) mem
      rw [hs, hs, hb]
    · show f77scal (toInt32 (bigVector p (4294967296 + n)).lay.size) a p (toInt32 1) mem = f77scal (toInt32 (bigVector p n).lay.size) a p (toInt32 1) mem
      rw [hs, hs, hb]

end Nda.Blas
