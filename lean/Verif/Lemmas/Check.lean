import Verif.Lemmas.Assign
import Verif.Lemmas.Order
/-!
# Checking the hypotheses on concrete views, for the examples beside the theorems
-/
namespace Nda.Assign
open Nda Nda.Spec

theorem good_of {v : View} {n : Nat} (h1 : IsPerm v.lay.so) (h2 : v.lay.so.length = v.lay.len.length) (h3 : v.lay.str.length = v.lay.len.length) (h4 : v.lay.se.length = v.lay.len.length)
    (h5 : ∀ u, v.lay.so.getLast? = some u → v.lay.prop.smallestOne = true → v.lay.str.getD u 0 = 1) (c : Int)
    (h6 : v.lay.prop.strided1d = true → memOrder v.lay.so v.lay.str = (dense (memOrder v.lay.so v.lay.len)).map (c * ·)) (h7 : NonNeg v.lay.len)
    (h8 : ∀ idx ∈ box v.lay.len, 0 ≤ addr v idx ∧ addr v idx < n) : Good v n :=
  ⟨⟨h1, h2, h3, h4⟩, ⟨fun hp u hu => h5 u hu hp, fun hp => ⟨c, h6 hp⟩⟩, h7, fun idx hi => h8 idx (mem_box.mpr hi)⟩

theorem oneToOne_of {v : View} (h : ∀ i ∈ box v.lay.len, ∀ j ∈ box v.lay.len, addr v i = addr v j → i = j) : OneToOne v :=
  fun i j hi hj => h i (mem_box.mpr hi) j (mem_box.mpr hj)

theorem separate_of {a b : View} (h : ∀ i ∈ box a.lay.len, ∀ j ∈ box b.lay.len, addr a i ≠ addr b j) : Separate a b :=
  fun i j hi hj => h i (mem_box.mpr hi) j (mem_box.mpr hj)

end Nda.Assign
