import Verif.Props.Arithmetic
/-!
# C26: the promises of expressions
-/
namespace Nda.Arith
open Nda Nda.Spec Nda.Arith.Spec Assign LayoutTransforms Nda.Perm Nda.Grid

variable {α : Type}

theorem info_smallest : ∀ {e : Expr α}, e.info.prop.smallestOne = true → ∀ v ∈ leaves e, some v.lay.so = e.info.so ∧ v.lay.prop.smallestOne = true
  | .arr _ _, h => by simpa [leaves, Expr.info] using h
  | .fn _ _ _, h => by simp [Expr.info, LayoutProp.none] at h
  | .neg e, h => info_smallest (e := e) h
  | .bin _ l r, h => by
    simp only [Expr.info, Info.and] at h ⊢
    by_cases hso : r.info.so = l.info.so
    · rw [if_pos hso] at h ⊢
      simp only [Bool.and_eq_true] at h
      intro v hv
      rcases List.mem_append.mp (show v ∈ leaves l ++ leaves r from hv) with hv | hv
      · have := info_smallest (e := l) h.2 v hv
        rw [← hso] at this; exact this
      · exact info_smallest (e := r) h.1 v hv
    · rw [if_neg hso] at h; simp [LayoutProp.none] at h
  | .scalL _ _ r, h => by
    simp only [Expr.info] at h ⊢
    by_cases ha : r.alg = .A
    · rw [if_pos ha] at h ⊢
      exact info_smallest (e := r) h
    · rw [if_neg ha] at h; simp [LayoutProp.none] at h
  | .scalR _ l _, h => by
    simp only [Expr.info] at h ⊢
    by_cases ha : l.alg = .A
    · rw [if_pos ha] at h ⊢
      exact info_smallest (e := l) h
    · rw [if_neg ha] at h; simp [LayoutProp.none] at h
  | .call _ _ _, h => by simp [Expr.info, LayoutProp.none] at h

/-- **C26** What an expression promises is true of all its arrays: if it promises a smallest stride of one, the last index of the promised order has stride one in each array. -/
theorem C26_promises {mem : List α} (e : Expr α) (h : e.info.prop.smallestOne = true) (v : View) (hv : v ∈ leaves e) (hg : Good v mem.length) :
    some v.lay.so = e.info.so ∧ FastestIs v.lay 1 :=
  ⟨(info_smallest h v hv).1, hg.flags.smallest (info_smallest h v hv).2⟩
/-- `m + 2 * n` for arrays in Fortran order, one with a gap, promises a smallest stride of one and no more. -/
example : (Expr.bin .add (.arr .A ⟨0, ⟨[2, 2], [1, 2], [1, 0], [0, 0], .contiguous⟩⟩) (.scalL .mul 2 (.arr .A ⟨4, ⟨[2, 2], [1, 3], [1, 0], [0, 0], ⟨false, true⟩⟩⟩)) : Expr Int).info =
    ⟨some [1, 0], ⟨false, true⟩⟩ := by decide
end Nda.Arith
