import Verif.Lemmas.Contiguous
/-!
# C10, C11: reshaping and the contiguity test
-/
namespace Nda.LayoutTransforms
open Nda Nda.Spec Nda.Perm Nda.IdxMap Nda.Slice

/-! ## C11 -/

theorem fillsBlock_iff {m : IdxMap} (hw : WF m) (hpos : ∀ l ∈ m.len, 0 < l) (hr : Regular m) (hb : BigPos m) :
    FillsBlock m ↔ (bigs m).map (fun k => m.str.getD k 0) = dense ((bigs m).map (fun k => m.len.getD k 0)) := by
  have hn := regular_bigs hr hb
  have hgt := bigs_gt (m := m)
  have hpr := prod_bigs hw hpos
  constructor
  · intro h
    -- the largest element
    have hmax : ∃ idx, InRange m.len idx ∧ Spec.offset m idx =
        reach ((bigs m).map (fun k => m.str.getD k 0)) ((bigs m).map (fun k => m.len.getD k 0)) := by
      have hy : InRange ((bigs m).map (fun k => m.len.getD k 0)) ((bigs m).map (fun k => m.len.getD k 0 - 1)) := by
        have : ∀ (l : List Nat), (∀ k ∈ l, 1 < m.len.getD k 0) → InRange (l.map (fun k => m.len.getD k 0)) (l.map (fun k => m.len.getD k 0 - 1)) := by
          intro l
          induction l with
          | nil => intro _; trivial
          | cons k l ih =>
            intro hl
            have := hl k List.mem_cons_self
            exact ⟨⟨by show 0 ≤ m.len.getD k 0 - 1; omega, by show m.len.getD k 0 - 1 < m.len.getD k 0; omega⟩, ih (fun j hj => hl j (List.mem_cons_of_mem _ hj))⟩
        exact this _ (fun k hk => hgt _ (List.mem_map_of_mem hk))
      obtain ⟨idx, g1, g2⟩ := extend_bigs hw hpos hy
      refine ⟨idx, g1, ?_⟩
      rw [(offset_bigs hw g1).1, g2]
      have : ∀ (l : List Nat), dot (l.map (fun k => m.str.getD k 0)) (l.map (fun k => m.len.getD k 0 - 1)) =
          reach (l.map (fun k => m.str.getD k 0)) (l.map (fun k => m.len.getD k 0)) := by
        intro l
        induction l with
        | nil => rfl
        | cons k l ih => simp only [List.map_cons, dot, reach, ih]
      exact this _
    obtain ⟨idx, g1, g2⟩ := hmax
    have := ((h _).mpr ⟨idx, g1, g2⟩).2
    rw [hpr] at this
    obtain ⟨i1, i2⟩ := nested_reach hn hgt
    exact i2 (by omega)
  · intro h k
    constructor
    · rintro ⟨h0, h1⟩
      rw [hpr] at h1
      have hnn : NonNeg ((bigs m).map (fun k => m.len.getD k 0)) := fun l hl => by have := hgt l hl; omega
      obtain ⟨y, hy, rfl⟩ := lin_surj hnn k h0 h1
      obtain ⟨idx, g1, g2⟩ := extend_bigs hw hpos hy
      refine ⟨idx, g1, ?_⟩
      rw [(offset_bigs hw g1).1, g2, h, dot_dense _ _ hy.length_eq]
    · rintro ⟨idx, hi, rfl⟩
      obtain ⟨o1, o2⟩ := offset_bigs hw hi
      rw [o1, h, dot_dense _ _ o2.length_eq, hpr]
      exact lin_bounds o2

/-- **C11 (partial)** For layouts whose strides are positive (dimensions of extent > 1) and
regular, a positive answer is right: the elements fill the block exactly.  Missing: layouts
with negative strides, where a positive answer can be wrong (`C11_reversed_witness`). -/
theorem C11_contiguous_sound_partial (m : IdxMap) (hw : WF m) (h0 : m.len ≠ []) (hpos : ∀ l ∈ m.len, 0 < l)
    (hr : Regular m) (hb : BigPos m) (hc : m.isContiguous = some true) : FillsBlock m := by
  have hsz := prod_pos hpos
  obtain ⟨x, h1, h2, h3⟩ := isContiguous_eq hw h0 (by omega)
  rw [hc] at h3
  have hx : x = Spec.prod m.len := by simpa using h3.symm
  rw [fillsBlock_iff hw hpos hr hb]
  have hn := regular_bigs hr hb
  have hgt := bigs_gt (m := m)
  have hpr := prod_bigs hw hpos
  obtain ⟨i1, i2⟩ := nested_reach hn hgt
  apply i2
  cases hbm : bigs m with
  | nil => simp [reach, Spec.prod]
  | cons k ks =>
    rw [hbm] at hn hgt hpr i1
    simp only [List.map_cons] at hn hgt hpr i1 ⊢
    have hf := (nested_first hn hgt).1
    have hk : k ∈ bigs m := by rw [hbm]; simp
    have hkl : k < m.len.length := by
      have := IsPerm.lt hw.perm (List.mem_filter.mp hk).1
      rw [hw.so_len] at this; exact this
    have := h2 _ ((mem_products hw).mpr ⟨k, hkl, rfl⟩)
    omega

/-- **C11 (partial)** Conversely, if the elements fill the block (more than one element) and the
strides of dimensions of extent one are not larger than the array, the answer is positive.
Missing: larger strides on dimensions of extent one, where the negative answer is wrong
(`C11_unit_dim_witness`). -/
theorem C11_contiguous_complete_partial (m : IdxMap) (hw : WF m) (h0 : m.len ≠ []) (hpos : ∀ l ∈ m.len, 0 < l)
    (hr : Regular m) (hb : BigPos m) (h1 : 1 < Spec.prod m.len)
    (hu : ∀ u, u < m.len.length → m.len.getD u 0 = 1 → m.str.getD u 0 ≤ Spec.prod m.len)
    (hc : FillsBlock m) : m.isContiguous = some true := by
  obtain ⟨x, g1, g2, g3⟩ := isContiguous_eq hw h0 (by omega)
  rw [g3]
  rw [fillsBlock_iff hw hpos hr hb] at hc
  have hn := regular_bigs hr hb
  have hgt := bigs_gt (m := m)
  have hpr := prod_bigs hw hpos
  congr 1
  rw [decide_eq_true_eq]
  cases hbm : bigs m with
  | nil => rw [hbm] at hpr; simp [Spec.prod] at hpr; omega
  | cons k ks =>
    rw [hbm] at hn hgt hpr hc
    simp only [List.map_cons] at hn hgt hpr hc
    have hf := (nested_first hn hgt).2
    have hk : k ∈ bigs m := by rw [hbm]; simp
    have hkl : k < m.len.length := by
      have := IsPerm.lt hw.perm (List.mem_filter.mp hk).1
      rw [hw.so_len] at this; exact this
    have hfirst : m.str.getD k 0 * m.len.getD k 0 = Spec.prod m.len := by
      simp only [dense, List.cons.injEq] at hc
      rw [hc.1, hpr, Spec.prod, Int.mul_comm]
    have a1 := g2 _ ((mem_products hw).mpr ⟨k, hkl, rfl⟩)
    rw [hfirst] at a1
    have a2 : x ≤ Spec.prod m.len := by
      obtain ⟨j, hj, rfl⟩ := (mem_products hw).mp g1
      by_cases hj1 : 1 < m.len.getD j 0
      · have hjb := mem_bigs hw hj hj1
        rw [hbm] at hjb
        rcases List.mem_cons.mp hjb with rfl | hjb
        · omega
        · rw [← hfirst]
          apply hf
          rw [List.zipWith_map]
          have : ∀ (l : List Nat), j ∈ l → m.str.getD j 0 * m.len.getD j 0 ∈ List.zipWith (fun a b => m.str.getD a 0 * m.len.getD b 0) l l := by
            intro l
            induction l with
            | nil => intro h; simp at h
            | cons a l ih =>
              intro h
              rw [List.zipWith_cons_cons]
              rcases List.mem_cons.mp h with rfl | h
              · exact List.mem_cons_self
              · exact List.mem_cons_of_mem _ (ih h)
          exact this ks hjb
      · have hjp : 0 < m.len.getD j 0 := hpos _ (by simp [hj])
        have hj2 : m.len.getD j 0 = 1 := by omega
        rw [hj2, Int.mul_one]; exact hu j hj hj2
    omega

/-- **C11 (partial)** Along every chain of allowed view operations with positive steps from a
fresh array of positive extents, a positive answer is right. -/
theorem C11_chain_sound_partial (len : List Int) (so se : List Nat) (prop : LayoutProp)
    (hp : IsPerm so) (hl : so.length = len.length) (hse : se.length = len.length) (hpos : ∀ l ∈ len, 0 < l)
    (os : List Op) (hos : ChainAllowed len os) (hst : PosSteps os) :
    ∃ m v, ofShape len so se prop = some m ∧ run ⟨0, m⟩ os = some v ∧
      (v.lay.len ≠ [] → (∀ l ∈ v.lay.len, 0 < l) → v.lay.isContiguous = some true → FillsBlock v.lay) := by
  obtain ⟨m, h1, hw, hd, rfl, rfl, rfl, rfl⟩ := ofShape_spec len so se prop hp hl hse
  have key : ∀ (os : List Op) (v : View), WF v.lay → SmallestOK v.lay → Regular v.lay → (∀ s ∈ v.lay.str, 0 < s) →
      ChainAllowed v.lay.len os → PosSteps os →
      ∃ v', run v os = some v' ∧ WF v'.lay ∧ Regular v'.lay ∧ (∀ s ∈ v'.lay.str, 0 < s) := by
    intro os
    induction os with
    | nil => intro v a _ c d _ _; exact ⟨v, rfl, a, c, d⟩
    | cons o os ih =>
      intro v a b c hs d e
      obtain ⟨v1, e1, e2⟩ := step_facts a b d.1
      have hs' : ∀ s ∈ v1.lay.str, 0 < s := by
        cases o with
        | slice args =>
          obtain ⟨v2, f1, _, f3⟩ := slice_step a b d.1
          obtain rfl : v1 = v2 := Option.some.inj (e1.symm.trans f1)
          rw [f3.strK]
          intro s hsm
          obtain ⟨n, hn, rfl⟩ := List.mem_map.mp hsm
          have hnl : n < v.lay.str.length := by
            have := (mem_keptDims.mp hn).1
            rw [inside_length d.1.2.2] at this
            rw [a.str_len]; exact this
          have h0 : 0 < v.lay.str.getD n 0 := hs _ (by simp [hnl])
          have hmem : at' (expand v.lay.len.length args) n ∈ expand v.lay.len.length args := by
            have hx := (mem_keptDims.mp hn).1
            have : at' (expand v.lay.len.length args) n = (expand v.lay.len.length args)[n] := by simp [at', hx]
            rw [this]; exact List.getElem_mem hx
          have hk := (mem_keptDims.mp hn).2
          generalize hA : at' (expand v.lay.len.length args) n = A at hmem
          cases A with
          | idx i => simp [kept, hA, isRange] at hk
          | all => simpa [gs, getS] using h0
          | ell => simpa [gs, getS] using h0
          | rng f l st =>
            obtain ⟨x, hx, hy⟩ := List.mem_flatMap.mp hmem
            have hxs : x = .rng f l st := by cases x <;> simp_all [expandArg]
            subst hxs
            have hst0 := e args (by simp) f l st hx
            simp only [gs, getS, Option.getD_some]
            exact Int.mul_pos h0 hst0
        | permute p =>
          obtain ⟨hpp, hpl⟩ := d.1
          obtain ⟨m', q1, hw', q3, q4, q5, q6, q7, q8⟩ := transpose_spec a hpp hpl
          have : v1 = ⟨v.off, m'⟩ := by simpa [step, permuted, q1] using e1.symm
          subst this
          intro s hsm
          have hm := (memOrder_perm hpp (l := m'.str) (by rw [hw'.str_len]; omega)).mem_iff.mpr hsm
          rw [q6] at hm
          exact hs s hm
        | addFast n =>
          have : v1 = ⟨v.off, addFastDims v.lay n⟩ := by simpa [step] using e1.symm
          subst this
          intro s hsm
          rcases List.mem_append.mp hsm with hsm | hsm
          · exact hs s hsm
          · rw [(List.mem_replicate.mp hsm).2]; decide
      obtain ⟨v2, f1, f2⟩ := ih v1 e2.wf e2.smallest (step_regular a b d.1 c e1) hs' (d.2 _ e2.shape)
        (fun args ha => e args (List.mem_cons_of_mem _ ha))
      exact ⟨v2, by simp [run, e1, f1], f2⟩
  have hs0 : ∀ s ∈ m.str, 0 < s := by
    have h1 : memOrder m.so m.str = dense (memOrder m.so m.len) := by
      have : EvenlySpaced m 1 := hd
      unfold EvenlySpaced at this; simpa using this
    have hpp : ∀ l ∈ memOrder m.so m.len, 0 < l := fun l hl =>
      hpos l ((memOrder_perm hw.perm hw.so_len.symm).mem_iff.mp hl)
    have hde : ∀ {ls : List Int}, (∀ l ∈ ls, 0 < l) → ∀ s ∈ dense ls, 0 < s := by
      intro ls
      induction ls with
      | nil => intro _ s hs; simp [dense] at hs
      | cons l ls ih =>
        intro h s hs
        simp only [dense, List.mem_cons] at hs
        rcases hs with rfl | hs
        · exact prod_pos (fun x hx => h x (List.mem_cons_of_mem _ hx))
        · exact ih (fun x hx => h x (List.mem_cons_of_mem _ hx)) s hs
    intro s hs
    have := (memOrder_perm hw.perm (l := m.str) (by rw [hw.str_len, hw.so_len])).mem_iff.mpr hs
    rw [h1] at this
    exact hde hpp s this
  obtain ⟨v, g1, g2, g3, g4⟩ := key os ⟨0, m⟩ hw (flagsOK_of_dense hd).smallest (regular_of_dense hw hd hpos) hs0 hos hst
  refine ⟨m, v, h1, g1, fun a b c => C11_contiguous_sound_partial v.lay g2 a b g3 (fun u hu => ?_) c⟩
  have hul : u < v.lay.str.length := by
    by_contra hc
    rw [g2.str_len] at hc
    simp [List.getElem?_eq_none (Nat.le_of_not_lt hc)] at hu
  exact g4 _ (by simp [hul])

/-- **C11** False positive: the rows of a 2×3 array reversed (step -1) are declared
contiguous although the first slot of the block is not the first element. -/
theorem C11_reversed_witness :
    ∃ v, run ⟨0, ⟨[2, 3], [3, 1], [0, 1], [0, 0], .contiguous⟩⟩ [.slice [.all, .rng 2 (-1) (-1)]] = some v ∧
      v.lay.len = [2, 3] ∧ v.lay.isContiguous = some true ∧ ¬ FillsBlock v.lay := by
  refine ⟨⟨2, ⟨[2, 3], [3, -1], [0, 1], [0, 0], .none⟩⟩, by decide, rfl, by decide, fun h => ?_⟩
  have := (h (-2)).mpr ⟨[0, 2], by decide, by decide⟩
  omega

/-- **C11** False negative: one row of a wider array is contiguous but declared not to be, because
of the stride of the dimension of extent one. -/
theorem C11_unit_dim_witness :
    ∃ v, run ⟨0, ⟨[2, 4], [4, 1], [0, 1], [0, 0], .contiguous⟩⟩ [.slice [.rng 0 1 1, .rng 0 3 1]] = some v ∧
      v.lay.len = [1, 3] ∧ v.lay.isContiguous = some false ∧ FillsBlock v.lay := by
  refine ⟨⟨0, ⟨[1, 3], [4, 1], [0, 1], [0, 0], .none⟩⟩, by decide, rfl, by decide, ?_⟩
  have hw : WF (⟨[1, 3], [4, 1], [0, 1], [0, 0], .none⟩ : IdxMap) := ⟨by decide, rfl, rfl, rfl⟩
  rw [fillsBlock_iff hw (by decide) (by decide) (fun u hu => ?_)]
  · decide
  · rcases u with _ | _ | u
    · decide
    · decide
    · simp at hu

/-- **C11** The test for even spacing has false positives: every second column of the first five
rows of each 6×5 block passes it, but consecutive elements are 2, 2, 1 slots apart. -/
theorem C11_strided_witness :
    ∃ v, run ⟨0, ⟨[2, 6, 5], [30, 5, 1], [0, 1, 2], [0, 0, 0], .contiguous⟩⟩
        [.slice [.all, .rng 0 5 1, .rng 0 5 2]] = some v ∧
      v.lay.isStrided1d = some true ∧ ¬ ∃ c, EvenlySpaced v.lay c := by
  refine ⟨⟨0, ⟨[2, 5, 3], [30, 5, 2], [0, 1, 2], [0, 0, 0], .none⟩⟩, by decide, by decide, ?_⟩
  rintro ⟨c, hc⟩
  simp [EvenlySpaced, memOrder, dense, Spec.prod] at hc
  omega

example : (⟨[2, 3], [3, 1], [0, 1], [0, 0], .contiguous⟩ : IdxMap).isContiguous = some true ∧
    Regular ⟨[2, 3], [3, 1], [0, 1], [0, 0], .contiguous⟩ ∧
    (⟨[2, 3], [4, 1], [0, 1], [0, 0], .none⟩ : IdxMap).isContiguous = some false := by decide

/-! ## C10 -/

theorem dense_unique {m m' : IdxMap} (hw : WF m) (hw' : WF m') (hd : Dense m) (hd' : Dense m')
    (hso : m.so = m'.so) (hlen : m.len = m'.len) : m.str = m'.str := by
  have h1 : EvenlySpaced m 1 := hd
  have h2 : EvenlySpaced m' 1 := hd'
  unfold EvenlySpaced at h1 h2
  apply memOrder_inj hw.perm (by rw [hw.str_len, hw.so_len]) (by rw [hw'.str_len, hw.so_len, hlen])
  rw [h1, hso, h2, hlen]

theorem reverseIdentity_eq (r : Nat) : Perm.reverseIdentity r = (List.range r).reverse := by
  unfold Perm.reverseIdentity
  apply List.ext_getElem (by simp)
  intro i h1 h2
  simp at h1
  simp

theorem ofPolicy_spec {p : Policy} {len : List Int} (hp : PolicyAt len.length p) :
    ∃ m, ofPolicy p len = some m ∧ m.len = len ∧ WF m ∧ Dense m ∧ PolicyOf m p := by
  have hid : IsPerm (Perm.identity len.length) := by simpa [Perm.identity] using isPerm_range len.length
  have hrev : IsPerm (Perm.reverseIdentity len.length) := by
    rw [reverseIdentity_eq]
    unfold IsPerm
    simp
  cases p with
  | C =>
    obtain ⟨m, h1, hw, hd, rfl, h5, h6, h7⟩ := ofShape_spec len _ (List.replicate len.length 0) .contiguous hid (by simp [Perm.identity]) (by simp)
    exact ⟨m, h1, rfl, hw, hd, by rw [h5]; simp [Perm.identity], h6, h7⟩
  | F =>
    obtain ⟨m, h1, hw, hd, rfl, h5, h6, h7⟩ := ofShape_spec len _ (List.replicate len.length 0) .contiguous hrev (by simp [Perm.reverseIdentity]) (by simp)
    exact ⟨m, h1, rfl, hw, hd, by rw [h5]; exact reverseIdentity_eq _, h6, h7⟩
  | Cstride =>
    obtain ⟨m, h1, hw, hd, rfl, h5, h6, h7⟩ := ofShape_spec len _ (List.replicate len.length 0) .none hid (by simp [Perm.identity]) (by simp)
    exact ⟨m, h1, rfl, hw, hd, by rw [h5]; simp [Perm.identity], h6, h7⟩
  | Fstride =>
    obtain ⟨m, h1, hw, hd, rfl, h5, h6, h7⟩ := ofShape_spec len _ (List.replicate len.length 0) .none hrev (by simp [Perm.reverseIdentity]) (by simp)
    exact ⟨m, h1, rfl, hw, hd, by rw [h5]; exact reverseIdentity_eq _, h6, h7⟩
  | basic se so prop =>
    obtain ⟨a1, a2, a3, a4⟩ := hp
    have hr : ∀ (l : List Nat), l.length = len.length → redecode len.length l = l := by
      intro l hl; unfold redecode; rw [← hl]; simp
    obtain ⟨m, h1, hw, hd, h4, h5, h6, h7⟩ := ofShape_spec len so se prop a1 a2 a3
    refine ⟨m, ?_, h4, hw, hd, h5, h6, h7⟩
    simp only [ofPolicy]
    by_cases hz : so.all (· == 0) = true
    · -- a permutation of zeros only has length one
      have h1l : len.length = 1 := by
        by_contra hc
        have hm : (1 : Nat) ∈ so := (IsPerm.mem_iff a1).mpr (by omega)
        have := List.all_eq_true.mp hz 1 hm
        simp at this
      have hso : so = [0] := by
        have : so.length = 1 := by omega
        obtain ⟨x, rfl⟩ := List.length_eq_one_iff.mp this
        have := IsPerm.lt a1 (List.mem_singleton.mpr rfl)
        simp at this; rw [this]
      rw [if_pos hz, if_pos h1l, ← hso, hr se a3, h1]
    · rw [if_neg hz, hr so a2, hr se a3, h1]

/-- **C10 (partial)** Reshaping densely stored data to a shape with as many elements: the result
has that shape, starts at the same slot, its element at memory position `k` is the original's
element at memory position `k`, and every element of the result is one of the original.
Missing: `basic_layout` policies at a different rank, where the code reinterprets the encoded
memory order (`C10_transposed_witness`). -/
theorem C10_reshape_partial (p : Policy) (v : View) (hw : WF v.lay) (hs : SmallestOK v.lay) (hd : Dense v.lay)
    (hn : NonNeg v.lay.len) (newShape : List Int) (hp : PolicyAt newShape.length p)
    (hsize : Spec.prod newShape = Spec.prod v.lay.len) :
    ∃ v', reshape p v newShape = some v' ∧ v'.lay.len = newShape ∧ WF v'.lay ∧ FlagsOK v'.lay ∧ PolicyOf v'.lay p ∧
      (∀ idx idx', InRange v.lay.len idx → InRange newShape idx' → position v.lay idx = position v'.lay idx' →
        element v' (idx'.map .idx) = element v (idx.map .idx)) ∧
      (∀ idx', InRange newShape idx' → ∃ idx, InRange v.lay.len idx ∧ position v.lay idx = position v'.lay idx') := by
  obtain ⟨m, h1, rfl, hw', hd', hpo⟩ := ofPolicy_spec hp
  have hf' := flagsOK_of_dense hd'
  refine ⟨⟨v.off, m⟩, by simp [reshape, h1], rfl, hw', hf', hpo, ?_, ?_⟩
  · intro idx idx' hi hi' h
    rw [element, element, call_idx hw hs idx hi.length_eq, call_idx hw' hf'.smallest idx' hi'.length_eq,
      offset_evenlySpaced hw hd hi.length_eq, offset_evenlySpaced hw' hd' hi'.length_eq]
    unfold position at h
    rw [h]
  · intro idx' hi'
    have hb := lin_bounds ((inRange_memOrder hw'.perm hw'.so_len.symm (by rw [hi'.length_eq, hw'.so_len])).mpr hi')
    rw [prod_memOrder hw'.perm hw'.so_len.symm, hsize, ← prod_memOrder hw.perm hw.so_len.symm] at hb
    obtain ⟨y, hy, he⟩ := lin_surj ((nonNeg_memOrder hw.perm hw.so_len.symm).mpr hn) _ hb.1 hb.2
    have hyl : y.length = v.lay.so.length := by rw [hy.length_eq, memOrder_length]
    obtain ⟨idx, g1, g2, _⟩ := applyInverse_spec v.lay.so y hw.perm hyl
    have g3 := ((applyInverse_eq_some hw.perm hyl).mp g1).2
    refine ⟨idx, (inRange_memOrder hw.perm hw.so_len.symm g2).mp (g3.symm ▸ hy), ?_⟩
    unfold position
    rw [g3]; exact he

/-- **C10 (partial)** Reshaping and reshaping back returns the original view. -/
theorem C10_reshape_back_partial (p : Policy) (v : View) (hw : WF v.lay) (hd : Dense v.lay) (hpo : PolicyOf v.lay p)
    (newShape : List Int) (hp : PolicyAt newShape.length p) (hp' : PolicyAt v.lay.len.length p) :
    (reshape p v newShape).bind (fun v' => reshape p v' v.lay.len) = some v := by
  obtain ⟨m, h1, _, _, _, _⟩ := ofPolicy_spec hp
  obtain ⟨m', g1, g2, gw, gd, gp⟩ := ofPolicy_spec hp'
  have : m' = v.lay := by
    have hso : m'.so = v.lay.so ∧ m'.se = v.lay.se ∧ m'.prop = v.lay.prop := by
      cases p <;> simp only [PolicyOf] at hpo gp <;> rw [gp.1, gp.2.1, gp.2.2, hpo.1, hpo.2.1, hpo.2.2] <;> simp [g2]
    have hstr := dense_unique gw hw gd hd hso.1 g2
    obtain ⟨a, b, c⟩ := hso
    cases m'; cases hv : v.lay; simp_all
  simp [reshape, h1, g1, this]

/-- **C10 (partial)** Flattening with a named policy lists the elements in memory order. -/
theorem C10_flatten_partial (p : Policy) (v : View) (hw : WF v.lay) (hs : SmallestOK v.lay) (hd : Dense v.lay)
    (hn : NonNeg v.lay.len) (hp : PolicyAt 1 p) :
    ∃ v', flatten p v = some v' ∧ v'.lay.len = [Spec.prod v.lay.len] ∧
      ∀ idx, InRange v.lay.len idx → element v' [.idx (position v.lay idx)] = element v (idx.map .idx) := by
  obtain ⟨v', h1, h2, hw', _, _, h3, _⟩ := C10_reshape_partial p v hw hs hd hn [Spec.prod v.lay.len] hp (by simp [Spec.prod])
  refine ⟨v', by rw [flatten, size_eq]; exact h1, h2, fun idx hi => ?_⟩
  have hb := lin_bounds ((inRange_memOrder hw.perm hw.so_len.symm (by rw [hi.length_eq, hw.so_len])).mpr hi)
  rw [prod_memOrder hw.perm hw.so_len.symm] at hb
  refine h3 idx [position v.lay idx] hi ⟨⟨hb.1, hb.2⟩, trivial⟩ ?_
  have hso : v'.lay.so = [0] := by
    have hl := hw'.so_len
    rw [h2] at hl
    obtain ⟨x, hx⟩ := List.length_eq_one_iff.mp (show v'.lay.so.length = 1 from hl)
    have := IsPerm.lt hw'.perm (show x ∈ v'.lay.so by rw [hx]; simp)
    rw [hx] at this ⊢
    simp at this; rw [this]
  conv => rhs; rw [position, hso, h2]
  simp [memOrder, lin, Spec.prod]

/-- **C10** The type of a view made by an operation (`layout_to_policy`) is that of the computed layout: at the same rank, its policy has the memory order, the static extents and the
flag of the layout, for every shape. -/
theorem C10_policy (m : IdxMap) (hw : WF m) (hr : 0 < m.len.length) (len : List Int) (hl : len.length = m.len.length) :
    ∃ m', ofPolicy (policyOf m) len = some m' ∧ m'.len = len ∧ m'.so = m.so ∧ m'.se = m.se ∧ m'.prop = m.prop ∧ Dense m' := by
  have hpo : PolicyOf m (policyOf m) := by
    unfold policyOf
    split
    · rename_i h; simpa [PolicyOf, Perm.identity, IdxMap.rank] using h
    · split
      · rename_i h; simpa [PolicyOf, Perm.identity, IdxMap.rank] using h
      · exact ⟨rfl, rfl, rfl⟩
  have hpa : PolicyAt len.length (policyOf m) := by
    unfold policyOf
    split
    · trivial
    · split
      · trivial
      · exact ⟨hw.perm, by rw [hw.so_len, hl], by rw [hw.se_len, hl], by omega⟩
  obtain ⟨m', h1, h2, _, h3, h4⟩ := ofPolicy_spec hpa
  refine ⟨m', h1, h2, ?_, ?_, ?_, h3⟩ <;>
    (generalize policyOf m = p at hpo h4
     cases p <;> simp only [PolicyOf] at hpo h4 <;> simp_all)

/-- `C10_policy` on a 2 by 3 matrix in Fortran order, and on one in C order. -/
example : ofPolicy (policyOf ⟨[2, 3], [1, 2], [1, 0], [0, 0], .contiguous⟩) [4, 5] = some ⟨[4, 5], [1, 4], [1, 0], [0, 0], .contiguous⟩ ∧
    policyOf ⟨[2, 3], [3, 1], [0, 1], [0, 0], .contiguous⟩ = .C := by decide

/-- **C10** The claim fails for contiguous arrays with a general memory order: flattening the
transpose of a 2×3 matrix writes outside the stride array (undefined behaviour), and reshaping
it to three dimensions leaves a stride unset. -/
theorem C10_transposed_witness :
    ∃ v, transposeMatrix ⟨0, ⟨[2, 3], [3, 1], [0, 1], [0, 0], .contiguous⟩⟩ = some v ∧
      v.lay.isContiguous = some true ∧
      flatten (policyOf v.lay) v = none ∧
      ∃ v', reshape (policyOf v.lay) v [3, 2, 1] = some v' ∧ ¬ IsPerm v'.lay.so ∧ v'.lay.str = [3, 9, 0] := by
  refine ⟨⟨0, ⟨[3, 2], [1, 3], [1, 0], [0, 0], .contiguous⟩⟩, by decide, by decide, by decide, ?_⟩
  exact ⟨⟨0, ⟨[3, 2, 1], [3, 9, 0], [1, 0, 0], [0, 0, 0], .contiguous⟩⟩, by decide, by decide, rfl⟩

/-- **C10** The claim fails for a reversed view that the contiguity test lets through: element
(0,0) of the reshaped view is an element, element (0,1) is not. -/
theorem C10_reversed_witness :
    ∃ v v', run ⟨0, ⟨[2, 3], [3, 1], [0, 1], [0, 0], .contiguous⟩⟩ [.slice [.all, .rng 2 (-1) (-1)]] = some v ∧
      v.lay.isContiguous = some true ∧ reshape (policyOf v.lay) v [6] = some v' ∧
      element v' [.idx 5] = some 7 := by
  exact ⟨⟨2, ⟨[2, 3], [3, -1], [0, 1], [0, 0], .none⟩⟩, ⟨2, ⟨[6], [1], [0], [0], .none⟩⟩, by decide, by decide, by decide, by decide⟩

example : reshape .F ⟨5, ⟨[2, 3], [1, 2], [1, 0], [0, 0], .contiguous⟩⟩ [3, 1, 2] =
      some ⟨5, ⟨[3, 1, 2], [1, 3, 3], [2, 1, 0], [0, 0, 0], .contiguous⟩⟩ ∧
    PolicyOf ⟨[2, 3], [1, 2], [1, 0], [0, 0], .contiguous⟩ .F := ⟨by decide, by decide, by decide, rfl⟩

end Nda.LayoutTransforms
