import Verif.Props.LapackRef
import Verif.Spec.LinalgEmpty
/-!
# C45, C46: views of 0 by 0 matrices in storage that exists

A view `A(range(0, 0), range(0, 0))` has storage although it has no elements, so `determinant_in_place` and `inverse_in_place` hand it to LAPACK.
-/
namespace Nda.Linalg
open Nda Nda.Spec LayoutTransforms Assign Loops Nda.Matrix Blas

variable {α : Type}

theorem getLd_some {v : View} {s0 s1 : Int} (h : v.lay.str = [s0, s1]) : ∃ s, (s = s0 ∨ s = s1) ∧ getLd v = some (toInt32 s) ∧ s = if hasF v then s1 else s0 := by
  by_cases hf : hasF v = true
  · exact ⟨s1, Or.inr rfl, by rw [getLd, h, if_pos hf]; rfl, by rw [if_pos hf]⟩
  · exact ⟨s0, Or.inl rfl, by rw [getLd, h, if_neg hf]; rfl, by rw [if_neg hf]⟩

theorem getrf_empty {L : Lapack α} (hL : GetrfEmptyOK L) {v : View} {s0 s1 : Int} (hlen : v.lay.len = [0, 0]) (hstr : v.lay.str = [s0, s1]) (hs : toInt32 s0 = s0 ∧ toInt32 s1 = s1) (mem : List α) :
    getrf L v mem = .ok (mem, [], if (if hasF v then s1 else s0) < 1 then -4 else 0) := by
  obtain ⟨s, h, e, hs'⟩ := getLd_some hstr
  have ht : toInt32 s = s := by rcases h with rfl | rfl; exacts [hs.1, hs.2]
  have e0 : rd v.lay.len 0 = some 0 := by rw [hlen]; rfl
  have e1 : rd v.lay.len 1 = some 0 := by rw [hlen]; rfl
  simp only [getrf, e0, e1, e, ht, orUb, bind, Except.bind]
  rw [show toInt32 0 = 0 from by decide, hL, hs']

/-- C46, a view of a 0 by 0 matrix whose leading dimension is positive has determinant 1, and nothing is written; otherwise LAPACK calls it illegal and that is an exception. -/
theorem C46_empty_view [Field α] (L : Lapack α) (hL : GetrfEmptyOK L) (v : View) (s0 s1 : Int) (hlen : v.lay.len = [0, 0]) (hstr : v.lay.str = [s0, s1])
    (hs : toInt32 s0 = s0 ∧ toInt32 s1 = s1) (mem : List α) :
    determinantInPlace L false v mem = if 1 ≤ (if hasF v then s1 else s0) then .ok ((0 : Matrix (Fin 0) (Fin 0) α).det, mem) else .error .runtime := by
  have e0 : rd v.lay.len 0 = some 0 := by rw [hlen]; rfl
  have e1 : rd v.lay.len 1 = some 0 := by rw [hlen]; rfl
  simp only [determinantInPlace, e0, e1, getrf_empty hL hlen hstr hs, orUb, bind, Except.bind, pure, Except.pure, Bool.false_eq_true, if_false, ne_eq, not_true_eq_false]
  by_cases h : 1 ≤ (if hasF v then s1 else s0)
  · rw [if_neg (show ¬ (if hasF v then s1 else s0) < 1 by omega), if_pos h]
    rw [show toInt32 0 = 0 from by decide]
    simp [detLoop]
  · rw [if_pos (show (if hasF v then s1 else s0) < 1 by omega), if_neg h]
    rfl

/-- C45, likewise for the inverse of a 0 by 0 matrix: itself, nothing is written. -/
theorem C45_empty_view [Field α] [DecidableEq α] (L : Lapack α) (hL : GetrfEmptyOK L) (hI : GetriEmptyOK L) (v : View) (s0 s1 : Int) (hlen : v.lay.len = [0, 0]) (hstr : v.lay.str = [s0, s1])
    (hs : toInt32 s0 = s0 ∧ toInt32 s1 = s1) (mem : List α) :
    inverseInPlace L false v mem = .ok (decide (1 ≤ (if hasF v then s1 else s0)), mem) := by
  have e0 : rd v.lay.len 0 = some 0 := by rw [hlen]; rfl
  have e1 : rd v.lay.len 1 = some 0 := by rw [hlen]; rfl
  obtain ⟨s, h, e, hs'⟩ := getLd_some hstr
  have ht : toInt32 s = s := by rcases h with rfl | rfl; exacts [hs.1, hs.2]
  have eI : getri L v [] mem = .ok (mem, if (if hasF v then s1 else s0) < 1 then -3 else 0) := by
    simp only [getri, e0, e1, e, ht, orUb, bind, Except.bind, pure, Except.pure]
    rw [if_neg (by simp), show toInt32 0 = 0 from by decide, ← hs']
    exact hI _ _ _ _
  simp only [inverseInPlace, inverseLU, e0, getrf_empty hL hlen hstr hs, eI, orUb, bind, Except.bind, pure, Except.pure, Bool.false_eq_true, if_false, show (0 : Int) ≠ 1 by decide,
    show (0 : Int) ≠ 2 by decide, show (0 : Int) ≠ 3 by decide]
  by_cases h : 1 ≤ (if hasF v then s1 else s0)
  · rw [if_neg (show ¬ (if hasF v then s1 else s0) < 1 by omega), if_neg (show ¬ (if hasF v then s1 else s0) < 1 by omega), decide_eq_true h]
    rfl
  · rw [if_pos (show (if hasF v then s1 else s0) < 1 by omega), decide_eq_false h]
    rfl

/-- The assumptions on size 0 go together with the others. -/
theorem C46_lapack_empty_exists [Field α] (cj : α →+* α) : ∃ L : Lapack α, LapackOK cj L ∧ GetrfEmptyOK L ∧ GetriEmptyOK L := by
  obtain ⟨L, h1, h2, h3⟩ := C46_lapack_exists cj
  refine ⟨⟨fun m n a ld mem => if m = 0 then .ok (mem, [], if ld < 1 then -4 else 0) else L.getrf m n a ld mem,
    fun n a ld ipiv mem => if n = 0 then .ok (mem, if ld < 1 then -3 else 0) else L.getri n a ld ipiv mem, L.getrs⟩, ⟨?_, ?_, ?_⟩, fun a ld mem => rfl, fun a ld ipiv mem => rfl⟩
  · intro n a ld mem A p
    simp only [show (n : Int) ≠ 0 by omega, if_false]
    exact h1 n a ld mem A p
  · intro n a ld mem A F ipiv piv p
    simp only [show (n : Int) ≠ 0 by omega, if_false]
    exact h2 n a ld mem A F ipiv piv p
  · exact h3

/-- `A(range(0, 0), range(0, 0))` of a 2 by 3 matrix in C order: determinant 1; a dense view of size 0: an exception. -/
example (L : Lapack ℚ) (hL : GetrfEmptyOK L) : determinantInPlace L false ⟨0, ⟨[0, 0], [3, 1], [0, 1], [0, 0], .smallest⟩⟩ [1, 2, 3, 4, 5, 6] = .ok (1, [1, 2, 3, 4, 5, 6]) ∧
    determinantInPlace L false ⟨0, ⟨[0, 0], [0, 1], [0, 1], [0, 0], .contiguous⟩⟩ [1, 2, 3, 4, 5, 6] = .error .runtime := by
  constructor
  · rw [C46_empty_view L hL _ 3 1 rfl rfl (by decide), if_pos (by decide)]; simp
  · rw [C46_empty_view L hL _ 0 1 rfl rfl (by decide), if_neg (by decide)]

end Nda.Linalg
