import Verif.Lemmas.IdxMap
/-!
# Lemmas about transposition of layouts
-/
namespace Nda.IdxMap
open Nda Nda.Spec Nda.Perm

theorem memOrder_compose {p so r : List Nat} (hso : ∀ k ∈ so, k < p.length)
    (h : compose p so = some r) (x : List Int) : memOrder r x = memOrder so (memOrder p x) := by
  obtain ⟨h1, _, h3⟩ := mapM_rd_some h
  apply List.ext_getElem (by simp [memOrder, h1])
  intro u hu hu'
  have hu1 : u < r.length := by simpa [memOrder] using hu
  have hu2 : u < so.length := by simpa [memOrder] using hu'
  have hk := hso _ (List.getElem_mem hu2)
  have := h3 u hu2
  rw [List.getElem?_eq_getElem hu1, List.getElem?_eq_getElem hk] at this
  simp [memOrder, Option.some.inj this, hk]

theorem transpose_spec {m : IdxMap} (hw : WF m) {p : List Nat} (hp : IsPerm p)
    (hpl : p.length = m.len.length) :
    ∃ m', m.transpose p = some m' ∧ WF m' ∧ m'.prop = m.prop ∧
      m'.len.length = m.len.length ∧
      memOrder p m'.len = m.len ∧ memOrder p m'.str = m.str ∧
      applyInverse p m.se = some m'.se ∧ compose p m.so = some m'.so := by
  obtain ⟨so, a1, a2, a3, a4⟩ := compose_spec p m.so hp hw.perm (by rw [hw.so_len, hpl])
  obtain ⟨se, b1, b2, _⟩ := applyInverse_spec p m.se hp (by rw [hw.se_len, hpl])
  obtain ⟨len, c1, c2, _⟩ := applyInverse_spec p m.len hp (by rw [hpl])
  obtain ⟨str, d1, d2, _⟩ := applyInverse_spec p m.str hp (by rw [hw.str_len, hpl])
  have c3 := ((applyInverse_eq_some hp hpl.symm).mp c1).2
  have d3 := ((applyInverse_eq_some hp (by rw [hw.str_len, hpl])).mp d1).2
  refine ⟨⟨len, str, so, se, m.prop⟩, by simp [transpose, a1, b1, c1, d1], ⟨a3, ?_, ?_, ?_⟩, rfl, ?_, c3, d3, b1, a1⟩
  · simp only; omega
  · simp only; omega
  · simp only; omega
  · simp only; omega

theorem compose_getLast? {p so r : List Nat} (h : compose p so = some r) {u : Nat}
    (hu : r.getLast? = some u) : ∃ v, so.getLast? = some v ∧ p[v]? = some u := by
  obtain ⟨h1, h2, h3⟩ := mapM_rd_some h
  rw [List.getLast?_eq_getElem?] at hu ⊢
  by_cases h0 : so.length = 0
  · rw [List.getElem?_eq_none (by omega)] at hu; cases hu
  · have hl : so.length - 1 < so.length := by omega
    refine ⟨so[so.length - 1], by simp [hl], ?_⟩
    rw [← h3 _ hl, ← h1]; exact hu

theorem transpose_evenlySpaced {m m' : IdxMap} (hw : WF m) {p : List Nat}
    (hpl : p.length = m.len.length) (hso : compose p m.so = some m'.so)
    (hlen : memOrder p m'.len = m.len) (hstr : memOrder p m'.str = m.str) (c : Int) :
    EvenlySpaced m' c ↔ EvenlySpaced m c := by
  have h1 : ∀ k ∈ m.so, k < p.length := fun k hk => by
    have := IsPerm.lt hw.perm hk; rw [hw.so_len] at this; omega
  unfold EvenlySpaced
  rw [memOrder_compose h1 hso, memOrder_compose h1 hso, hlen, hstr]

theorem transpose_flagsOK {m m' : IdxMap} (hw : WF m) {p : List Nat} (hf : FlagsOK m)
    (hpl : p.length = m.len.length) (hso : compose p m.so = some m'.so)
    (hlen : memOrder p m'.len = m.len) (hstr : memOrder p m'.str = m.str) (hprop : m'.prop = m.prop) :
    FlagsOK m' := by
  refine ⟨fun h u hu => ?_, fun h => ?_⟩
  · obtain ⟨v, hv, hpv⟩ := compose_getLast? hso hu
    have := hf.smallest (hprop ▸ h) v hv
    rw [← hstr] at this
    have hv' : v < p.length := by
      by_contra hc; rw [List.getElem?_eq_none (by omega)] at hpv; cases hpv
    rw [memOrder_getD hv'] at this
    rw [List.getElem?_eq_getElem hv'] at hpv
    rwa [← Option.some.inj hpv]
  · obtain ⟨c, hc⟩ := hf.strided (hprop ▸ h)
    exact ⟨c, (transpose_evenlySpaced hw hpl hso hlen hstr c).mpr hc⟩

/-- The offset of a transposed layout. -/
theorem transpose_offset {m m' : IdxMap} (hw' : WF m') {p : List Nat} (hp : IsPerm p)
    (hpl : p.length = m.len.length) (hll : m'.len.length = m.len.length)
    (hstr : memOrder p m'.str = m.str) {idx : List Int} (hi : idx.length = m.len.length) :
    offset m' idx = offset m (memOrder p idx) := by
  rw [offset, offset, ← hstr, dot_memOrder hp (by rw [hw'.str_len]; omega) (by omega)]

end Nda.IdxMap
