import Verif.Props.Contiguous
import Verif.Props.Perm
import Verif.Props.IdxMap
/-!
# C52: construction, conversion and comparison of layouts
-/
namespace Nda.IdxMap
open Nda Nda.Spec Nda.Perm Nda.LayoutTransforms

/-! ## Construction -/

theorem mergeExtents_spec : ∀ (se : List Nat) (dyn : List Int), dyn.length = se.count 0 →
    ∃ len, mergeExtents se dyn = some len ∧ len.length = se.length ∧
      (∀ u, se.getD u 0 ≠ 0 → len.getD u 0 = ((se.getD u 0 : Nat) : Int)) ∧
      ((se.zip len).filter (fun x => x.1 == 0)).map Prod.snd = dyn
  | [], dyn, h => ⟨[], rfl, rfl, by simp, by simpa [eq_comm] using h⟩
  | 0 :: se, dyn, h => by
    cases dyn with
    | nil => simp at h
    | cons x xs =>
      obtain ⟨len, h1, h2, h3, h4⟩ := mergeExtents_spec se xs (by simpa using h)
      refine ⟨x :: len, by simp [mergeExtents, h1], by simp [h2], ?_, by simp [h4]⟩
      intro u hu
      cases u with
      | zero => simp at hu
      | succ u => simpa using h3 u (by simpa using hu)
  | (e + 1) :: se, dyn, h => by
    obtain ⟨len, h1, h2, h3, h4⟩ := mergeExtents_spec se dyn (by simpa using h)
    refine ⟨_, by simp [mergeExtents, h1]; rfl, by simp [h2], ?_, by simp [h4]⟩
    intro u hu
    cases u with
    | zero => simp
    | succ u => simpa using h3 u (by simpa using hu)

/-- **C52** Constructing a layout from its dynamic extents only: the static extents are taken
from the type, the given ones fill the remaining dimensions in order, and the layout is dense. -/
theorem C52_from_dynamic (dyn : List Int) (so se : List Nat) (prop : LayoutProp) (hp : IsPerm so) (hl : se.length = so.length)
    (hd : dyn.length = se.count 0) :
    ∃ m, ofDynamic dyn so se prop = some m ∧ WF m ∧ Dense m ∧ StaticOK m ∧ m.se = se ∧
      ((se.zip m.len).filter (fun x => x.1 == 0)).map Prod.snd = dyn := by
  obtain ⟨len, h1, h2, h3, h4⟩ := mergeExtents_spec se dyn hd
  obtain ⟨m, g1, gw, gd, rfl, rfl, rfl, rfl⟩ := ofShape_spec len so se prop hp (by omega) (by omega)
  exact ⟨m, by simp [ofDynamic, h1, g1], gw, gd, h3, rfl, h4⟩

example : ofDynamic [7, 2] [2, 0, 1] [0, 3, 0] .contiguous = some ⟨[7, 3, 2], [3, 1, 21], [2, 0, 1], [0, 3, 0], .contiguous⟩ := by decide

/-- **C52** A default-constructed layout is empty if some extent is dynamic; otherwise it is the
dense layout of the static extents. -/
theorem C52_default (so se : List Nat) (prop : LayoutProp) (junk : List Int) (hp : IsPerm so) (hl : se.length = so.length) (h0 : so ≠ []) :
    ∃ m, default so se prop junk = some m ∧
      (0 ∈ se → m.size = 0 ∧ ∀ l ∈ m.len, l = 0) ∧
      (0 ∉ se → m.len = se.map Int.ofNat ∧ WF m ∧ Dense m ∧ StaticOK m) := by
  unfold default
  by_cases hz : 0 ∈ se
  · have : se.any (· == 0) = true := by rw [List.any_eq_true]; exact ⟨0, hz, rfl⟩
    rw [if_pos this]
    refine ⟨_, rfl, fun _ => ⟨?_, ?_⟩, fun h => absurd hz h⟩
    · rw [size_eq, prod_eq_list_prod]
      have hr : 0 < so.length := List.length_pos_iff.mpr h0
      simp [mkInit]; omega
    · intro l hl'; simpa [mkInit] using (List.eq_of_mem_replicate hl')
  · have : ¬ se.any (· == 0) = true := by
      rw [List.any_eq_true]; rintro ⟨x, hx, e⟩
      have : x = 0 := by simpa using e
      exact hz (this ▸ hx)
    rw [if_neg this]
    obtain ⟨m, g1, gw, gd, g2, rfl, rfl, rfl⟩ := ofShape_spec (se.map Int.ofNat) so se prop hp (by simp; omega) (by simp)
    refine ⟨m, g1, fun h => absurd h hz, fun _ => ⟨g2, gw, gd, ?_⟩⟩
    intro u _
    rw [g2]
    simp only [List.getD_eq_getElem?_getD, List.getElem?_map]
    cases m.se[u]? <;> simp

/-- **C52** A non-zero compile-time size is the run-time size. -/
theorem C52_static_size (m : IdxMap) (hw : WF m) (hs : StaticOK m) (h : m.ceSize ≠ 0) : m.size = ((m.ceSize : Nat) : Int) := by
  unfold ceSize at h ⊢
  by_cases hz : m.se.any (· == 0) = true
  · rw [if_pos hz] at h; exact absurd rfl h
  · rw [if_neg hz]
    have hlen : m.len = m.se.map Int.ofNat := by
      apply List.ext_getElem (by simp [hw.se_len])
      intro u hu hu'
      have hu2 : u < m.se.length := by rw [hw.se_len]; exact hu
      have hne : m.se[u] ≠ 0 := by
        intro e; apply hz; rw [List.any_eq_true]; exact ⟨m.se[u], List.getElem_mem hu2, by simp [e]⟩
      have := hs u (by simpa [List.getD_eq_getElem?_getD, List.getElem?_eq_getElem hu2] using hne)
      simpa [List.getD_eq_getElem?_getD, List.getElem?_eq_getElem hu2, List.getElem?_eq_getElem hu] using this
    rw [size, hlen]
    have : ∀ (l : List Nat) (a : Nat), (l.map Int.ofNat).foldl (· * ·) (a : Int) = ((l.foldl (· * ·) a : Nat) : Int) := by
      intro l
      induction l with
      | nil => intro a; rfl
      | cons x l ih => intro a; simp only [List.map_cons, List.foldl_cons]; rw [← ih]; congr 1
    exact this m.se 1

example : StaticOK ⟨[2, 3], [3, 1], [0, 1], [2, 3], .contiguous⟩ ∧ (⟨[2, 3], [3, 1], [0, 1], [2, 3], .contiguous⟩ : IdxMap).ceSize = 6 := by
  refine ⟨?_, by decide⟩
  intro u hu
  rcases u with _ | _ | u
  · decide
  · decide
  · simp at hu

/-! ## Comparison -/

/-- **C52** Two layouts of equal rank compare equal exactly if they have the same shape and send
every index tuple of that rank to the same offset. -/
theorem C52_equal_iff (a b : IdxMap) (ha : WF a) (hb : WF b) :
    beq a b = true ↔ a.len = b.len ∧ ∀ idx : List Int, idx.length = a.len.length → offset a idx = offset b idx := by
  unfold beq rank
  simp only [Bool.and_eq_true, decide_eq_true_eq]
  constructor
  · rintro ⟨⟨_, h1⟩, h2⟩
    exact ⟨h1, fun idx _ => by rw [offset, offset, h2]⟩
  · rintro ⟨h1, h2⟩
    refine ⟨⟨by rw [h1], h1⟩, ?_⟩
    have hl : a.str.length = b.str.length := by rw [ha.str_len, hb.str_len, h1]
    have key : ∀ (s t : List Int), s.length = t.length → (∀ idx : List Int, idx.length = s.length → dot s idx = dot t idx) → s = t := by
      intro s
      induction s with
      | nil => intro t ht _; exact (List.eq_nil_of_length_eq_zero ht.symm).symm
      | cons x s ih =>
        intro t ht h
        cases t with
        | nil => simp at ht
        | cons y t =>
          have hz : ∀ (s : List Int) n, dot s (List.replicate n 0) = 0 := dot_zeros
          have e1 := h (1 :: List.replicate s.length 0) (by simp)
          simp only [dot, hz] at e1
          have : x = y := by omega
          subst this
          congr 1
          apply ih t (by simpa using ht)
          intro idx hi
          have := h (0 :: idx) (by simp [hi])
          simp only [dot] at this
          omega
    exact key _ _ hl (fun idx hi => h2 idx (by rw [hi, ha.str_len]))

/-! ## Conversion -/

/-- **C52** Degrading the flags is always sound: whatever the layout promised, it keeps the
weaker promise.  No run-time check is involved. -/
theorem C52_degrade_sound (m : IdxMap) (hf : FlagsOK m) (prop : LayoutProp) (hc : LayoutProp.compatible m.prop prop = true) (se : List Nat) :
    FlagsOK { m with se, prop } := by
  obtain ⟨h1, h2⟩ := hf
  unfold LayoutProp.compatible at hc
  have e : m.prop = .contiguous ∨ prop = .none ∨ prop = m.prop := by
    split at hc
    · rename_i h; exact Or.inl h
    · simp only [Bool.or_eq_true, decide_eq_true_eq] at hc; exact Or.inr hc
  constructor
  · intro hs
    apply h1
    rcases e with e | e | e
    · rw [e]; rfl
    · simp only at hs; rw [e] at hs; cases hs
    · rw [← e]; exact hs
  · intro hs
    apply h2
    rcases e with e | e | e
    · rw [e]; rfl
    · simp only at hs; rw [e] at hs; cases hs
    · rw [← e]; exact hs

/-- **C52** Degradation is a partial order with `contiguous` on top and `none` at the bottom, and
`operator&` gives the greatest lower bound. -/
theorem C52_degrade_order : (∀ p, LayoutProp.compatible p p = true) ∧
    (∀ p q, LayoutProp.compatible p q = true → LayoutProp.compatible q p = true → p = q) ∧
    (∀ p q r, LayoutProp.compatible p q = true → LayoutProp.compatible q r = true → LayoutProp.compatible p r = true) ∧
    (∀ p, LayoutProp.compatible .contiguous p = true ∧ LayoutProp.compatible p .none = true) ∧
    (∀ p q, LayoutProp.compatible p (LayoutProp.meet p q) = true ∧ LayoutProp.compatible q (LayoutProp.meet p q) = true) ∧
    (∀ p q r, LayoutProp.compatible p r = true ∧ LayoutProp.compatible q r = true → LayoutProp.compatible (LayoutProp.meet p q) r = true) := by
  refine ⟨?_, ?_, ?_, ?_, ?_, ?_⟩
  · rintro ⟨_ | _, _ | _⟩ <;> decide
  · rintro ⟨_ | _, _ | _⟩ ⟨_ | _, _ | _⟩ <;> decide
  · rintro ⟨_ | _, _ | _⟩ ⟨_ | _, _ | _⟩ ⟨_ | _, _ | _⟩ <;> decide
  · rintro ⟨_ | _, _ | _⟩ <;> decide
  · rintro ⟨_ | _, _ | _⟩ ⟨_ | _, _ | _⟩ <;> decide
  · rintro ⟨_ | _, _ | _⟩ ⟨_ | _, _ | _⟩ ⟨_ | _, _ | _⟩ <;> decide

/-- **C52** A conversion changes neither lengths nor strides nor memory order, and it returns a
layout only if every static extent of the target matches and the strides respect the order. -/
theorem C52_convert_keeps (m m' : IdxMap) (hw : WF m) (se : List Nat) (prop : LayoutProp) (hse : se.length = m.len.length)
    (h : convert m se prop = some (some m')) :
    m'.len = m.len ∧ m'.str = m.str ∧ m'.so = m.so ∧ m'.prop = prop ∧ WF m' ∧ StaticOK m' ∧ SortsStrides m := by
  unfold convert at h
  simp only [Option.bind_eq_bind, Option.pure_def, Option.bind_eq_some_iff, Option.some.injEq] at h
  obtain ⟨ok1, h1, ok2, _, ok3, _, h4⟩ := h
  split at h4
  · rename_i hc
    simp only [Bool.and_eq_true] at hc
    have hm : m' = { m with se, prop } := by simpa using h4.symm
    subst hm
    obtain ⟨⟨⟨c1, _⟩, _⟩, c4⟩ := hc
    rw [c1] at h1
    obtain ⟨b, b1, b2⟩ := isStrideOrderValid_eq hw
    rw [h1] at b1
    have hs : SortsStrides m := b2.mp (by simpa using b1.symm)
    refine ⟨rfl, rfl, rfl, rfl, ⟨hw.perm, hw.so_len, hw.str_len, hse⟩, ?_, hs⟩
    intro u hu
    simp only at hu ⊢
    have hul : u < se.length := by
      by_contra hcon
      simp [List.getD_eq_getElem?_getD, List.getElem?_eq_none (Nat.le_of_not_lt hcon)] at hu
    rw [List.all_eq_true] at c4
    have := c4 (se[u], m.len[u]) (List.mem_iff_getElem.mpr ⟨u, by simp; omega, by simp⟩)
    simp only [decide_eq_true_eq] at this
    simp only [List.getD_eq_getElem?_getD, List.getElem?_eq_getElem hul, List.getElem?_eq_getElem (show u < m.len.length by omega), Option.getD_some] at hu ⊢
    exact (this hu).symm
  · cases h4

/-- **C52 (partial)** A checked conversion to a contiguous layout is sound for regular layouts
with positive strides: if the check passes the elements fill the block.
Missing: reversed views pass the check (`C11_reversed_witness`), and conversions to
`strided_1d` and `smallest_stride_is_one` (the witnesses below). -/
theorem C52_convert_contiguous_partial (m m' : IdxMap) (hw : WF m) (h0 : m.len ≠ []) (hpos : ∀ l ∈ m.len, 0 < l)
    (hr : Regular m) (hb : BigPos m) (hc : LayoutProp.compatible m.prop .contiguous = false) (se : List Nat)
    (h : convert m se .contiguous = some (some m')) : FillsBlock m' := by
  unfold convert at h
  simp only [Option.bind_eq_bind, Option.pure_def, Option.bind_eq_some_iff, Option.some.injEq] at h
  obtain ⟨ok1, h1, ok2, h2, ok3, _, h4⟩ := h
  split at h4
  · rename_i hok
    simp only [Bool.and_eq_true] at hok
    have hm : m' = { m with se, prop := .contiguous } := by simpa using h4.symm
    subst hm
    rw [hc] at h2
    have h2' : m.isContiguous = some ok2 := by simpa [LayoutProp.hasContiguous, LayoutProp.contiguous] using h2
    rw [hok.1.1.2] at h2'
    exact C11_contiguous_sound_partial m hw h0 hpos hr hb h2'
  · cases h4

/-- **C52** The claim fails for the flag `smallest_stride_is_one`, which is never checked: every
second column of a 2×4 array converts to it, after which element (0,1) is read at offset 1
instead of 2. -/
theorem C52_smallest_witness :
    ∃ v m', LayoutTransforms.run ⟨0, ⟨[2, 4], [4, 1], [0, 1], [0, 0], .contiguous⟩⟩ [.slice [.all, .rng 0 4 2]] = some v ∧
      convert v.lay [0, 0] .smallest = some (some m') ∧
      v.lay.call [.idx 0, .idx 1] = some 2 ∧ m'.call [.idx 0, .idx 1] = some 1 := by
  exact ⟨⟨0, ⟨[2, 2], [4, 2], [0, 1], [0, 0], .none⟩⟩, ⟨[2, 2], [4, 2], [0, 1], [0, 0], .smallest⟩, by decide, by decide, by decide, by decide⟩

/-- **C52** The claim fails for `strided_1d`: the view of `C11_strided_witness` converts although
it is not evenly spaced; its linear element 3 is slot 6 instead of 5. -/
theorem C52_strided_witness :
    ∃ v m', LayoutTransforms.run ⟨0, ⟨[2, 6, 5], [30, 5, 1], [0, 1, 2], [0, 0, 0], .contiguous⟩⟩ [.slice [.all, .rng 0 5 1, .rng 0 5 2]] = some v ∧
      convert v.lay [0, 0, 0] .strided = some (some m') ∧ v.lay.call [.idx 0, .idx 1, .idx 0] = some 5 ∧
      linear ⟨v.off, m'⟩ 3 = some 6 := by
  exact ⟨⟨0, ⟨[2, 5, 3], [30, 5, 2], [0, 1, 2], [0, 0, 0], .none⟩⟩, ⟨[2, 5, 3], [30, 5, 2], [0, 1, 2], [0, 0, 0], .strided⟩,
    by decide, by decide, by decide, by decide⟩

/-- **C11** The test for even spacing never misses an evenly spaced layout. -/
theorem C11_strided_complete (m : IdxMap) (hw : WF m) (h0 : m.len ≠ []) (hpos : ∀ l ∈ m.len, 0 < l) (c : Int) (hc : 0 < c)
    (he : EvenlySpaced m c) : m.isStrided1d = some true := by
  have hsz : 0 < Spec.prod m.len := prod_pos hpos
  have hne : m.strTimesLen ≠ [] := by
    intro h
    apply h0
    have := congrArg List.length h
    simp only [strTimesLen, List.length_zipWith, List.length_nil, hw.str_len, Nat.min_self] at this
    exact List.eq_nil_of_length_eq_zero this
  obtain ⟨x, hx1, hx2, hx3⟩ := maxElement_spec hne
  obtain ⟨u, hu1, hu2, hms⟩ := minStride_eq hw h0
  rw [fastestIs_of_evenlySpaced he u hu1] at hms
  have hxe : x = Spec.prod m.len * c := by
    -- the products stride × extent in memory order are those of a dense box, times c
    have hz : memOrder m.so m.strTimesLen = List.zipWith (· * ·) (memOrder m.so m.str) (memOrder m.so m.len) :=
      (zipWith_memOrder _ (fun k hk => by
        have := IsPerm.lt hw.perm hk; have := hw.so_len; have := hw.str_len; omega)).symm
    have hpm : (memOrder m.so m.strTimesLen).Perm m.strTimesLen :=
      memOrder_perm hw.perm (by simp [strTimesLen, hw.str_len, hw.so_len])
    have hml : ∀ l ∈ memOrder m.so m.len, 0 < l := by
      intro l hl; exact hpos l ((memOrder_perm hw.perm hw.so_len.symm).mem_iff.mp hl)
    rw [he] at hz
    rw [← prod_memOrder hw.perm hw.so_len.symm]
    have hne' : memOrder m.so m.len ≠ [] := by
      intro e; apply h0
      have := congrArg List.length e
      rw [memOrder_length, hw.so_len] at this
      exact List.eq_nil_of_length_eq_zero this
    have hmem : ∀ y, y ∈ m.strTimesLen ↔ y ∈ List.zipWith (· * ·) ((dense (memOrder m.so m.len)).map (c * ·)) (memOrder m.so m.len) := by
      intro y; rw [← hz, hpm.mem_iff]
    have hbound : ∀ (l : List Int), (∀ x ∈ l, 0 < x) → ∀ y ∈ List.zipWith (· * ·) ((dense l).map (c * ·)) l, y ≤ Spec.prod l * c := by
      intro l
      induction l with
      | nil => simp [dense]
      | cons a l ih =>
        intro hl y hy
        have hp := prod_pos (fun x hx => hl x (List.mem_cons_of_mem _ hx))
        have ha := hl a List.mem_cons_self
        simp only [dense, List.map_cons, List.zipWith_cons_cons, List.mem_cons] at hy
        simp only [Spec.prod]
        rcases hy with rfl | hy
        · apply Int.le_of_eq; ring
        · have := ih (fun x hx => hl x (List.mem_cons_of_mem _ hx)) y hy
          have h2 : Spec.prod l * c ≤ a * Spec.prod l * c := by
            have : 0 ≤ (a - 1) * (Spec.prod l * c) := by
              apply Int.mul_nonneg (by omega); apply Int.mul_nonneg <;> omega
            nlinarith
          omega
    have hle := hbound _ hml x ((hmem x).mp hx2)
    have hge : Spec.prod (memOrder m.so m.len) * c ≤ x := by
      apply hx3
      rw [hmem]
      cases hl : memOrder m.so m.len with
      | nil => exact absurd hl hne'
      | cons a l =>
        simp only [dense, List.map_cons, List.zipWith_cons_cons, List.mem_cons, Spec.prod]
        left; ring
    omega
  simp only [isStrided1d, size_eq]
  rw [if_neg (by omega), hx1, hms, hxe]
  simp

/-! ## Transposition of two dimensions -/

/-- **C09** `transposed_view<I,J>` exchanges the two dimensions: shape and elements. -/
theorem C09_transposed_view (v : View) (hw : WF v.lay) (hf : FlagsOK v.lay) (i j : Nat) (hi : i < v.lay.len.length) (hj : j < v.lay.len.length) :
    ∃ v', transposedView v i j = some v' ∧ WF v'.lay ∧ FlagsOK v'.lay ∧
      v'.lay.len = (v.lay.len.set i (v.lay.len.getD j 0)).set j (v.lay.len.getD i 0) ∧
      ∀ idx, InRange v'.lay.len idx → InRange v.lay.len ((idx.set i (idx.getD j 0)).set j (idx.getD i 0)) ∧
        element v' (idx.map .idx) = element v (((idx.set i (idx.getD j 0)).set j (idx.getD i 0)).map .idx) := by
  obtain ⟨p, p1, p2, p3, _, p5, p6, p7⟩ := C01_transposition v.lay.len.length i j hi hj
  obtain ⟨m', h1, hw', hf', _, h2, h3⟩ := C09_transpose_element v.lay hw hf p p2 p3
  have hml : m'.len.length = v.lay.len.length := by
    obtain ⟨m2, g1, _, _, g4, g5, _⟩ := transpose_spec hw p2 p3
    rw [h1] at g1
    obtain rfl : m' = m2 := by simpa using g1
    have := congrArg List.length g5
    rw [memOrder_length] at this
    omega
  -- reading through p swaps the two entries
  have hsw : ∀ a b : List Int, a.length = v.lay.len.length → b.length = v.lay.len.length →
      (∀ k, ∀ hk : k < p.length, b.getD k 0 = a.getD p[k] 0) → b = (a.set i (a.getD j 0)).set j (a.getD i 0) := by
    intro a b ha hb h
    apply List.ext_getElem (by simp [ha, hb])
    intro k hk hk'
    have hkp : k < p.length := by omega
    have := h k hkp
    simp only [List.getElem_set]
    have hpk : ∀ x, p[k]? = some x → b[k] = a.getD x 0 := by
      intro x hx
      rw [List.getElem?_eq_getElem hkp] at hx
      obtain rfl : p[k] = x := by simpa using hx
      rw [← this, List.getD_eq_getElem?_getD, List.getElem?_eq_getElem hk]; rfl
    by_cases e1 : j = k
    · subst e1; rw [if_pos rfl]; exact hpk _ p6
    · rw [if_neg e1]
      by_cases e2 : i = k
      · subst e2; rw [if_pos rfl]; exact hpk _ p5
      · rw [if_neg e2, hpk k (p7 k (Ne.symm e2) (Ne.symm e1) (by omega)), List.getD_eq_getElem?_getD,
          List.getElem?_eq_getElem (by omega)]; rfl
  refine ⟨⟨v.off, m'⟩, ?_, hw', hf', ?_, ?_⟩
  · simp only [transposedView, rank, p1, Option.bind_eq_bind, Option.bind_some, permuted, h1]; rfl
  · have key := hsw m'.len v.lay.len hml rfl (fun k hk => (h2 k hk).symm)
    -- swapping twice
    have : ∀ a b : List Int, a.length = v.lay.len.length → b = (a.set i (a.getD j 0)).set j (a.getD i 0) →
        a = (b.set i (b.getD j 0)).set j (b.getD i 0) := by
      intro a b ha hb
      apply List.ext_getElem (by simp [hb])
      intro k hk hk'
      subst hb
      simp only [List.getD_eq_getElem?_getD, List.getElem_set, List.getElem?_set, List.length_set, ha, hi, hj, if_true]
      by_cases e1 : j = k
      · subst e1
        by_cases e2 : i = j
        · subst e2; simp [hk]
        · simp [e2, Ne.symm e2, hk]
      · by_cases e2 : i = k
        · subst e2; simp [e1, hk]
        · simp [e1, e2]
    exact this _ _ hml key
  · intro idx hidx
    have hil : idx.length = v.lay.len.length := by rw [hidx.length_eq]; exact hml
    obtain ⟨jdx, j1, j2, j3⟩ := h3 idx hidx
    have hj : jdx = (idx.set i (idx.getD j 0)).set j (idx.getD i 0) := by
      rw [apply_eq_memOrder (fun k hk => by have := IsPerm.lt p2 hk; omega)] at j1
      obtain rfl : memOrder p idx = jdx := by simpa using j1
      apply hsw _ _ hil (by rw [memOrder_length, p3])
      intro k hk; exact memOrder_getD hk
    subst hj
    exact ⟨j2, by simp only [element, j3]⟩

example : transposedView ⟨3, ⟨[2, 3, 4], [12, 4, 1], [0, 1, 2], [0, 0, 0], .contiguous⟩⟩ 0 2 =
    some ⟨3, ⟨[4, 3, 2], [1, 4, 12], [2, 1, 0], [0, 0, 0], .contiguous⟩⟩ := by decide

/-- **C09** Exchanging the same two dimensions twice gives back the view itself: layout, offset and flags. -/
theorem C09_transposed_twice (v : View) (hw : WF v.lay) (i j : Nat) (hi : i < v.lay.len.length) (hj : j < v.lay.len.length) :
    (transposedView v i j).bind (transposedView · i j) = some v := by
  obtain ⟨p, p1, p2, p3, p4, _⟩ := C01_transposition v.lay.len.length i j hi hj
  obtain ⟨m', h1, -, -, h4, -⟩ := transpose_spec hw p2 p3
  obtain ⟨q, q1, q2⟩ := C09_transpose_inverse v.lay hw p p2 p3
  rw [p4] at q1; cases q1
  rw [h1, Option.bind_some] at q2
  simp [transposedView, permuted, IdxMap.rank, p1, h1, h4, q2]

/-- **C09** The transpose of the transpose of a matrix is the matrix: layout, offset and flags. -/
theorem C09_matrix_twice (v : View) (hw : WF v.lay) (h2 : v.lay.len.length = 2) : (transposeMatrix v).bind transposeMatrix = some v := by
  obtain ⟨m', h1, -⟩ := transpose_spec hw (p := [1, 0]) (by decide) (by simp [h2])
  obtain ⟨q, q1, q2⟩ := C09_transpose_inverse v.lay hw [1, 0] (by decide) (by simp [h2])
  have hq : q = [1, 0] := by
    have : Perm.inverse [1, 0] = some [1, 0] := by decide
    rw [this] at q1; exact (Option.some.inj q1).symm
  subst hq
  rw [h1, Option.bind_some] at q2
  simp [transposeMatrix, permuted, h1, q2]

example : (transposeMatrix ⟨5, ⟨[2, 3], [-6, 2], [0, 1], [2, 0], .none⟩⟩) = some ⟨5, ⟨[3, 2], [2, -6], [1, 0], [0, 2], .none⟩⟩ ∧
    (transposeMatrix ⟨5, ⟨[3, 2], [2, -6], [1, 0], [0, 2], .none⟩⟩) = some ⟨5, ⟨[2, 3], [-6, 2], [0, 1], [2, 0], .none⟩⟩ := by decide

end Nda.IdxMap
