import Verif.Model.RectStrEq
import Verif.Props.RectStr
import Verif.Props.Layouts
/-!
# C50: comparison of layouts with labels
-/
namespace Nda.RectStr
open Nda Nda.Spec Nda.Perm Nda.IdxMap Nda.Slice Nda.LayoutTransforms

/-- **C50** Two layouts with labels are equal iff they have the same extents, put every index at the same position and have the same labels.  Missing: layouts that have not got labels yet (`C50_equal_witness`). -/
theorem C50_equal_partial (a b : RectStr) (ha : WF a.lay) (hb : WF b.lay) (L L' : List (List String)) (hL : a.ind = some L) (hL' : b.ind = some L') :
    (equal a b = true ↔ a.lay.len = b.lay.len ∧ (∀ idx : List Int, idx.length = a.lay.len.length → offset a.lay idx = offset b.lay idx) ∧ L = L') ∧
    (notEqual a b = true ↔ equal a b = false) := by
  refine ⟨?_, by simp [notEqual]⟩
  simp only [equal, hL, hL', Bool.and_eq_true, C52_equal_iff a.lay b.lay ha hb, decide_eq_true_eq, and_assoc]

/-- **C50** Comparison is reflexive and symmetric, with or without labels. -/
theorem C50_equal_symmetric (a b : RectStr) : equal a a = true ∧ (equal a b = equal b a) := by
  constructor
  · simp only [equal, IdxMap.beq]
    cases a.ind <;> simp
  · simp only [equal, IdxMap.beq]
    cases a.ind <;> cases b.ind <;> simp [eq_comm]

/-- **C50** Equal layouts with labels give the same element for the same names and indices. -/
theorem C50_equal_same (a b : RectStr) (ha : WF a.lay) (hb : WF b.lay) (hsa : SmallestOK a.lay) (hsb : SmallestOK b.lay) (L L' : List (List String)) (hL : a.ind = some L)
    (hL' : b.ind = some L') (he : equal a b = true) (args : List SArg) (x : List Int) (hx : x.length = a.lay.len.length) (h : Resolves L args (x.map .idx)) :
    ∃ k a' b', call a args = .ok (k, a') ∧ call b args = .ok (k, b') := by
  obtain ⟨h1, h2, rfl⟩ := (C50_equal_partial a b ha hb L L' hL hL').1.mp he
  obtain ⟨k, a', e1, e2, -⟩ := C50_lookup a L (.inl hL) ha hsa args x hx h
  obtain ⟨k', b', e3, e4, -⟩ := C50_lookup b L (.inl hL') hb hsb args x (by rw [hx, h1]) h
  rw [call_idx ha hsa x hx] at e2
  rw [call_idx hb hsb x (by rw [hx, h1])] at e4
  have := h2 x hx
  rw [this] at e2
  cases e2; cases e4
  exact ⟨_, a', b', e1, e3⟩

/-- A vector of two elements with the given labels. -/
def two (l : Option (List (List String))) : RectStr := ⟨⟨[2], [1], [0], [0], .contiguous⟩, l⟩

example : equal (two (some [["up", "down"]])) (two (some [["up", "down"]])) = true ∧ equal (two (some [["up", "down"]])) (two (some [["down", "up"]])) = false ∧
    call (two (some [["up", "down"]])) [.str "down"] = .ok (1, two (some [["up", "down"]])) := by decide

/-- **C50** Comparison is not transitive, because a layout without labels is equal to all with the same extents and strides; and looking up a string, which constructs the labels of
such a layout in a `const` function, changes what it is equal to. -/
theorem C50_equal_witness :
    (equal (two (some [["up", "down"]])) (two none) = true ∧ equal (two none) (two (some [["down", "up"]])) = true ∧ equal (two (some [["up", "down"]])) (two (some [["down", "up"]])) = false) ∧
    ∃ r', call (two none) [.str "1"] = .ok (1, r') ∧ equal (two none) (two (some [["up", "down"]])) = true ∧ equal r' (two (some [["up", "down"]])) = false :=
  ⟨by decide, two (some [["0", "1"]]), by decide, by decide, by decide⟩

end Nda.RectStr
