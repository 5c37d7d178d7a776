import Verif.Props.H5Layout
/-!
# C88: views with negative strides that pass the contiguity test
-/
namespace Nda.H5
open Nda LayoutTransforms Assign

variable {α R : Type}

/-- **C88** (what the full statement lacks).  A view that passes the test for contiguity (so that it is not copied first) although one of its dimensions runs backwards: its strides cannot be
given to the HDF5 library, writing it is undefined. -/
theorem C88_backwards_write (junk : α) (c : Codec α R) (a : View) (null : Bool) (mem : List α) (old : Option (Dataset R)) (ht : needsCopy a = some false) (hz : a.lay.size ≠ 0) {i : Nat} {l s : Int}
    (hl : a.lay.len[i]? = some l) (hs : a.lay.str[i]? = some s) (h1 : 1 < l) (h2 : s < 0) : h5WriteMem junk c [] a null mem old = .error .ub := by
  have hp : posStrides a = false := by
    unfold posStrides
    simp only [hz, decide_false, Bool.false_or, List.all_eq_false]
    refine ⟨(l, s), ?_, by simp; omega⟩
    exact List.mem_iff_getElem?.2 ⟨i, by simp [List.getElem?_zip_eq_some, hl, hs]⟩
  simp only [h5WriteMem, ht, orElse, writeDirect, hp, check]
  rfl

/-- Such a view: the rows of a 2 by 3 array in reverse order. -/
example : needsCopy ⟨2, ⟨[2, 3], [3, -1], [0, 1], [0, 0], .none⟩⟩ = some false := by decide

end Nda.H5
