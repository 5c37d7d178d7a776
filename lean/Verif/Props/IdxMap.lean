import Verif.Lemmas.Transpose
import Verif.Props.Perm
/-!
# C03, C04, C09: construction of layouts, linear positions, index permutations
-/
namespace Nda.IdxMap
open Nda Nda.Spec Nda.Perm

/-- **C03** In a layout built from a shape, for any memory order and any flags: every index
tuple in the box designates a slot of `0..size-1`, different tuples different slots, and every
slot is designated. -/
theorem C03_fresh_bijection (len : List Int) (so se : List Nat) (prop : LayoutProp)
    (hp : IsPerm so) (hl : so.length = len.length) (hse : se.length = len.length)
    (hn : NonNeg len) :
    ∃ m, ofShape len so se prop = some m ∧ m.len = len ∧ m.size = Spec.prod len ∧
      (∀ idx, InRange len idx → ∃ k, m.call (idx.map .idx) = some k ∧ 0 ≤ k ∧ k < m.size) ∧
      (∀ idx jdx, InRange len idx → InRange len jdx →
        m.call (idx.map .idx) = m.call (jdx.map .idx) → idx = jdx) ∧
      (∀ k, 0 ≤ k → k < m.size → ∃ idx, InRange len idx ∧ m.call (idx.map .idx) = some k) := by
  obtain ⟨m, h1, hw, hd, rfl, rfl, rfl, rfl⟩ := ofShape_spec len so se prop hp hl hse
  have hf := (flagsOK_of_dense hd).smallest
  have hcall : ∀ idx, InRange m.len idx →
      m.call (idx.map .idx) = some (lin (memOrder m.so m.len) (memOrder m.so idx)) := by
    intro idx hi
    rw [call_idx hw hf idx hi.length_eq, offset_evenlySpaced hw hd hi.length_eq, Int.one_mul]
  have hsz : m.size = Spec.prod (memOrder m.so m.len) := by
    rw [size_eq, prod_memOrder hw.perm hw.so_len.symm]
  have hmr : ∀ idx, InRange m.len idx → InRange (memOrder m.so m.len) (memOrder m.so idx) := fun idx hi =>
    (inRange_memOrder hw.perm hw.so_len.symm (by rw [hi.length_eq, hw.so_len])).mpr hi
  refine ⟨m, h1, rfl, size_eq m, ?_, ?_, ?_⟩
  · intro idx hi
    refine ⟨_, hcall idx hi, ?_⟩
    rw [hsz]; exact lin_bounds (hmr idx hi)
  · intro idx jdx hi hj h
    rw [hcall idx hi, hcall jdx hj] at h
    exact memOrder_inj hw.perm (by rw [hi.length_eq, hw.so_len]) (by rw [hj.length_eq, hw.so_len])
      (lin_inj (hmr idx hi) (hmr jdx hj) (Option.some.inj h))
  · intro k h0 hk
    rw [hsz] at hk
    obtain ⟨y, hy, rfl⟩ := lin_surj ((nonNeg_memOrder hw.perm hw.so_len.symm).mpr hn) k h0 hk
    have hyl : y.length = m.so.length := by rw [hy.length_eq, memOrder_length]
    obtain ⟨idx, g1, g2, _⟩ := applyInverse_spec m.so y hw.perm hyl
    have g3 := ((applyInverse_eq_some hw.perm hyl).mp g1).2
    have hi : InRange m.len idx :=
      (inRange_memOrder hw.perm hw.so_len.symm g2).mp (g3.symm ▸ hy)
    exact ⟨idx, hi, by rw [hcall idx hi, g3]⟩

/-- **C03** An (empty) ellipsis among the integer arguments never changes the slot. -/
theorem C03_empty_ellipsis (len : List Int) (so se : List Nat) (prop : LayoutProp)
    (hp : IsPerm so) (hl : so.length = len.length) (hse : se.length = len.length)
    (is js : List Int) (hij : is.length + js.length = len.length) :
    ∃ m, ofShape len so se prop = some m ∧
      m.call (is.map .idx ++ .ell :: js.map .idx) = m.call ((is ++ js).map .idx) := by
  obtain ⟨m, h1, hw, hd, rfl, rfl, rfl, rfl⟩ := ofShape_spec len so se prop hp hl hse
  have hf := (flagsOK_of_dense hd).smallest
  exact ⟨m, h1, by rw [call_ell hw hf is js hij, call_idx hw hf _ (by simpa using hij)]⟩

/-- **C03** The strides follow the memory order: moving one step along the last dimension of
the memory order moves one slot, and one step along the dimension before skips a whole run of
the faster ones. -/
theorem C03_strides (len : List Int) (so se : List Nat) (prop : LayoutProp)
    (hp : IsPerm so) (hl : so.length = len.length) (hse : se.length = len.length) (v : Nat)
    (hv : v < so.length) :
    ∃ m, ofShape len so se prop = some m ∧
      m.str.getD so[v] 0 = Spec.prod ((so.drop (v + 1)).map (fun k => len.getD k 0)) := by
  obtain ⟨m, h1, hw, hd, rfl, rfl, rfl, rfl⟩ := ofShape_spec len so se prop hp hl hse
  refine ⟨m, h1, ?_⟩
  have h2 : memOrder m.so m.str = dense (memOrder m.so m.len) := by
    have : EvenlySpaced m 1 := hd
    unfold EvenlySpaced at this; simpa using this
  have h3 := congrArg (fun l => l.getD v 0) h2
  simp only [memOrder_getD hv] at h3
  rw [h3]
  have key : ∀ (l : List Int) (v : Nat), v < l.length → (dense l).getD v 0 = Spec.prod (l.drop (v + 1)) := by
    intro l
    induction l with
    | nil => intro v hv; simp at hv
    | cons x l ih =>
      intro v hv
      cases v with
      | zero => simp [dense]
      | succ v => simpa [dense] using ih v (by simpa using hv)
  rw [key _ _ (by simpa [memOrder] using hv), memOrder, List.map_drop]

example : ofShape [2, 3, 4] [1, 2, 0] [0, 0, 0] .contiguous =
      some ⟨[2, 3, 4], [1, 8, 2], [1, 2, 0], [0, 0, 0], .contiguous⟩ ∧
    IsPerm [1, 2, 0] ∧ NonNeg [2, 3, 4] ∧ InRange [2, 3, 4] [1, 2, 3] ∧
    (⟨[2, 3, 4], [1, 8, 2], [1, 2, 0], [0, 0, 0], .contiguous⟩ : IdxMap).call
      [.idx 1, .idx 2, .ell, .idx 3] = some 23 := by decide

/-- **C04** Index tuple → linear position → index tuple, for freshly built layouts. -/
theorem C04_toIdx_call (len : List Int) (so se : List Nat) (prop : LayoutProp)
    (hp : IsPerm so) (hl : so.length = len.length) (hse : se.length = len.length)
    (h0 : len ≠ []) (idx : List Int) (hi : InRange len idx) :
    ∃ m k, ofShape len so se prop = some m ∧ m.call (idx.map .idx) = some k ∧ m.toIdx k = some idx := by
  obtain ⟨m, h1, hw, hd, rfl, rfl, rfl, rfl⟩ := ofShape_spec len so se prop hp hl hse
  have hf := (flagsOK_of_dense hd).smallest
  refine ⟨m, offset m idx, h1, call_idx hw hf idx hi.length_eq, ?_⟩
  apply toIdx_offset hw h0 _ hi
  have h2 : memOrder m.so m.str = dense (memOrder m.so m.len) := by
    have : EvenlySpaced m 1 := hd
    unfold EvenlySpaced at this; simpa using this
  rw [h2]
  exact (nested_dense (fun l hl' => hi.nonneg_len l
    ((memOrder_perm hw.perm hw.so_len.symm).mem_iff.mp hl'))).1

/-- **C04** Linear position → index tuple → linear position. -/
theorem C04_call_toIdx (len : List Int) (so se : List Nat) (prop : LayoutProp)
    (hp : IsPerm so) (hl : so.length = len.length) (hse : se.length = len.length)
    (hn : NonNeg len) (h0 : len ≠ []) (k : Int) (hk0 : 0 ≤ k) (hk : k < Spec.prod len) :
    ∃ m idx, ofShape len so se prop = some m ∧ m.toIdx k = some idx ∧ InRange len idx ∧
      m.call (idx.map .idx) = some k := by
  obtain ⟨m, h1, h2, h3, _, _, h6⟩ := C03_fresh_bijection len so se prop hp hl hse hn
  obtain ⟨idx, hi, hc⟩ := h6 k hk0 (by rw [h3]; exact hk)
  obtain ⟨m', k', g1, g2, g3⟩ := C04_toIdx_call len so se prop hp hl hse h0 idx hi
  obtain rfl : m = m' := Option.some.inj (h1.symm.trans g1)
  obtain rfl : k = k' := Option.some.inj (hc.symm.trans g2)
  exact ⟨m, idx, h1, g3, hi, hc⟩

/-- **C04** More generally the tuple is recovered for every layout (for instance a view with
positive steps) whose strides, in the recorded memory order, each exceed what the faster
dimensions reach. -/
theorem C04_toIdx_nested (m : IdxMap) (hw : WF m) (hf : FlagsOK m) (h0 : m.len ≠ [])
    (hn : Nested (memOrder m.so m.str) (memOrder m.so m.len)) (idx : List Int)
    (hi : InRange m.len idx) :
    (m.call (idx.map .idx)).bind m.toIdx = some idx := by
  rw [call_idx hw hf.smallest idx hi.length_eq, Option.bind_some]
  exact toIdx_offset hw h0 hn hi

example : Nested [40, 3] [5, 4] ∧
    (⟨[4, 5], [3, 40], [1, 0], [0, 0], .none⟩ : IdxMap).toIdx 126 = some [2, 3] := by decide

/-- **C04** Positions in an empty array are never decoded: the division by a zero stride is
undefined behaviour. -/
theorem C04_empty_witness : (ofShape [2, 0] [0, 1] [0, 0] .contiguous).bind (toIdx · 0) = none := by decide

/-- **C09** The element of the permuted view at `idx` is the element of the original at
`idx∘P`; in-range tuples correspond; the flags stay truthful. -/
theorem C09_transpose_element (m : IdxMap) (hw : WF m) (hf : FlagsOK m) (p : List Nat) (hp : IsPerm p)
    (hpl : p.length = m.len.length) :
    ∃ m', m.transpose p = some m' ∧ WF m' ∧ FlagsOK m' ∧ m'.size = m.size ∧
      (∀ v, ∀ hv : v < p.length, m'.len.getD p[v] 0 = m.len.getD v 0) ∧
      ∀ idx, InRange m'.len idx → ∃ jdx, Perm.apply p idx = some jdx ∧ InRange m.len jdx ∧
        m'.call (idx.map .idx) = m.call (jdx.map .idx) := by
  obtain ⟨m', h1, hw', h3, h4, h5, h6, h7, h8⟩ := transpose_spec hw hp hpl
  have hf' := transpose_flagsOK hw hf hpl h8 h5 h6 h3
  refine ⟨m', h1, hw', hf', ?_, ?_, ?_⟩
  · rw [size_eq, size_eq, ← h5, prod_memOrder hp (by omega)]
  · intro v hv; rw [← h5, memOrder_getD hv]
  · intro idx hi
    have hil : idx.length = p.length := by rw [hi.length_eq]; omega
    refine ⟨memOrder p idx, apply_perm_eq_memOrder hp hil, ?_, ?_⟩
    · rw [← h5]; exact (inRange_memOrder hp (by omega) hil).mpr hi
    · rw [call_idx hw' hf'.smallest idx hi.length_eq, call_idx hw hf.smallest _ (by rw [memOrder_length]; exact hpl),
        transpose_offset hw' hp hpl h4 h6 (by omega)]

/-- **C09** Permuting by `P` then by `Q` is permuting once by the composite `Q∘P`. -/
theorem C09_transpose_compose (m : IdxMap) (hw : WF m) (p q : List Nat) (hp : IsPerm p) (hq : IsPerm q)
    (hpl : p.length = m.len.length) (hql : q.length = m.len.length) :
    ∃ qp m'', compose q p = some qp ∧ IsPerm qp ∧ m.transpose qp = some m'' ∧
      (m.transpose p).bind (transpose · q) = some m'' := by
  obtain ⟨qp, a1, a2, a3, _⟩ := compose_spec q p hq hp (by omega)
  have key : ∀ {α : Type} [Inhabited α] (a : List α), a.length = m.len.length →
      applyInverse qp a = (applyInverse p a).bind (applyInverse q) := by
    intro α _ a ha
    obtain ⟨x, r, e1, e2, e3⟩ := C01_applyInverse_compose q p a hq hp (by omega) (by omega)
    obtain rfl : qp = x := Option.some.inj (a1.symm.trans e1)
    rw [e2, e3]
  have hso := (C01_compose_assoc q p m.so hq hp hw.perm (by omega) (by rw [hw.so_len]; omega)).1
  rw [a1, Option.bind_some] at hso
  obtain ⟨m1, b1, hw1, b3, b4, b5, b6, b7, b8⟩ := transpose_spec hw hp hpl
  obtain ⟨m2, c1, hw2, c3, c4, c5, c6, c7, c8⟩ := transpose_spec hw1 hq (by omega)
  obtain ⟨m3, d1, hw3, d3, d4, d5, d6, d7, d8⟩ := transpose_spec hw a3 (by omega)
  refine ⟨qp, m3, a1, a3, d1, ?_⟩
  rw [b1, Option.bind_some, c1]
  congr 1
  have hpm : ∀ (x : List Int), x.length = m.len.length → memOrder qp x = memOrder p (memOrder q x) :=
    fun x _ => memOrder_compose (fun k hk => by have := IsPerm.lt hp hk; omega) a1 x
  have e1 : m2.len = m3.len := by
    apply memOrder_inj a3 (by omega) (by omega)
    rw [d5, hpm _ (by omega), c5, b5]
  have e2 : m2.str = m3.str := by
    apply memOrder_inj a3 (by rw [hw2.str_len]; omega) (by rw [hw3.str_len]; omega)
    rw [d6, hpm _ (by rw [hw2.str_len]; omega), c6, b6]
  have e3 : m2.so = m3.so := by
    rw [d8, b8, Option.bind_some, c8] at hso
    exact (Option.some.inj hso).symm
  have e4 : m2.se = m3.se := by
    have := key m.se (by rw [hw.se_len])
    rw [d7, b7, Option.bind_some, c7] at this
    exact (Option.some.inj this).symm
  have e5 : m2.prop = m3.prop := by rw [c3, b3, d3]
  cases m2; cases m3; simp_all

/-- **C09** Permuting by `P` and then by its inverse gives back the same layout. -/
theorem C09_transpose_inverse (m : IdxMap) (hw : WF m) (p : List Nat) (hp : IsPerm p)
    (hpl : p.length = m.len.length) :
    ∃ q, Perm.inverse p = some q ∧ (m.transpose p).bind (transpose · q) = some m := by
  obtain ⟨q, a1, a2, a3, a4, _⟩ := C01_inverse p hp
  obtain ⟨qp, m'', b1, b2, b3, b4⟩ := C09_transpose_compose m hw p q hp a2 hpl (by omega)
  refine ⟨q, a1, ?_⟩
  rw [b4, ← b3]
  obtain rfl : identity p.length = qp := Option.some.inj (a4.symm.trans b1)
  obtain ⟨m3, d1, hw3, d3, d4, d5, d6, d7, d8⟩ := transpose_spec hw b2 (by simpa [identity] using hpl)
  rw [d1]; congr 1
  have hid : ∀ (x : List Int), x.length = m.len.length → memOrder (identity p.length) x = x := by
    intro x hx
    apply List.ext_getElem (by simp [memOrder, identity]; omega)
    intro u hu hu'
    simp [memOrder, identity, hu']
  obtain ⟨ha, hb, hc⟩ := C01_identity p.length
  have e1 : m3.len = m.len := by rw [← d5, hid _ d4]
  have e2 : m3.str = m.str := by rw [← d6, hid _ (by rw [hw3.str_len]; exact d4)]
  have e3 : m3.so = m.so := by
    obtain ⟨g1, _, g3⟩ := mapM_rd_some d8
    apply List.ext_getElem?
    intro u
    by_cases hu : u < m.so.length
    · rw [g3 u hu]
      have := IsPerm.getElem_lt hw.perm hu
      have : m.so[u] < p.length := by rw [hw.so_len] at this; omega
      simp [identity, this, hu]
    · rw [List.getElem?_eq_none (by omega), List.getElem?_eq_none (by omega)]
  have e4 : m3.se = m.se := by
    have h := C01_apply_applyInverse (identity p.length) m.se b2 (by rw [hw.se_len, hb]; omega)
    rw [d7, Option.bind_some, hc m3.se (by rw [hw3.se_len]; omega)] at h
    exact Option.some.inj h
  cases m3; cases m; simp_all

example : (⟨[2, 3, 4], [12, 4, 1], [0, 1, 2], [0, 0, 4], .contiguous⟩ : IdxMap).transpose [2, 0, 1] =
    some ⟨[3, 4, 2], [4, 1, 12], [2, 0, 1], [0, 4, 0], .contiguous⟩ := by decide

end Nda.IdxMap
