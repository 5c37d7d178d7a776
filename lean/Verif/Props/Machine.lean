import Verif.Lemmas.MachineMore
import Verif.Props.Views
import Verif.Lemmas.Check
/-!
# C71: layout arithmetic in 64-bit integers
-/
namespace Nda.Machine
open Nda Nda.Spec IdxMap LayoutTransforms

/-! ### Construction -/

/-- **C71** Construction from a shape and the element count are free of overflow and have the exact values if the product of the extents, empty dimensions counted as one, is a `long`.
Every product that the loop computes counts, in any memory order. -/
theorem C71_construct (len : List Int) (so se : List Nat) (prop : LayoutProp) (hp : IsPerm so) (hl : so.length = len.length) (hn : NonNeg len) (h : volume len ≤ 9223372036854775807) :
    ofShapeL len so se prop = ofShape len so se prop ∧ sizeL len = some (Spec.prod len) := by
  refine ⟨?_, sizeL_eq hn h⟩
  have hk : ∀ k ∈ so.reverse, k < len.length := fun k hk => by have := Perm.IsPerm.lt hp (List.mem_reverse.mp hk); omega
  have hperm : (so.reverse.map fun k => len.getD k 0).Perm len := by
    have h1 := memOrder_perm hp hl.symm
    exact ((List.reverse_perm so).map _).trans h1
  rw [ofShapeL, ofShape, computeStrides, stridesLoopL_eq len so.reverse 1 _ (fun k hk' => ?_) (by omega) (by rw [volume_perm hperm]; simpa using h)]
  · cases stridesLoop len so.reverse 1 (mkInit len.length 0) <;> rfl
  · exact hn _ (hperm.mem_iff.mp (List.mem_map_of_mem hk'))

theorem stridesLoopL_total (len : List Int) : ∀ (us : List Nat) (s : Int) (str : List Int) (r : List Int × Int), stridesLoopL len us s str = some r →
    r.2 = s * Spec.prod (us.map fun k => len.getD k 0) ∧ (us ≠ [] → r.2 ≤ 9223372036854775807)
  | [], s, str, r, h => by
    simp only [stridesLoopL, Option.some.injEq] at h
    subst h; simp [Spec.prod]
  | u :: us, s, str, r, h => by
    simp only [stridesLoopL, Option.bind_eq_bind, Option.bind_eq_some_iff] at h
    obtain ⟨l, h1, str', h2, s', h3, h4⟩ := h
    have hl : len.getD u 0 = l := by simp only [rd] at h1; simp [List.getD_eq_getElem?_getD, h1]
    have hs := chk_eq_some h3
    obtain ⟨g1, g2⟩ := stridesLoopL_total len us s' str' r h4
    refine ⟨by rw [g1, hs, List.map_cons, Spec.prod, hl, mul_assoc], fun _ => ?_⟩
    cases us with
    | nil =>
      simp only [List.map_nil, Spec.prod, mul_one] at g1
      have : chk (s * l) = some s' := h3
      unfold chk at this
      split at this
      · rw [g1, hs]; omega
      · cases this
    | cons _ _ => exact g2 (by simp)

/-- **C71** Without empty dimensions the condition is exact: construction is defined precisely if the number of elements is a `long`. -/
theorem C71_construct_exact (len : List Int) (so se : List Nat) (prop : LayoutProp) (hp : IsPerm so) (hl : so.length = len.length) (hse : se.length = len.length) (h0 : len ≠ []) (hpos : ∀ l ∈ len, 0 < l) :
    ((ofShapeL len so se prop).isSome = true ↔ Spec.prod len ≤ 9223372036854775807) ∧ ((sizeL len).isSome = true ↔ Spec.prod len ≤ 9223372036854775807) := by
  have hn : NonNeg len := fun l hl' => (hpos l hl').le
  have hv : volume len = Spec.prod len := by
    rw [volume]; congr 1
    conv_rhs => rw [← List.map_id len]
    apply List.map_congr_left
    intro l hl'; have := hpos l hl'; simp only [id]; exact max_eq_left (by omega)
  have hperm : (so.reverse.map fun k => len.getD k 0).Perm len := ((List.reverse_perm so).map _).trans (memOrder_perm hp hl.symm)
  refine ⟨⟨fun h => ?_, fun h => ?_⟩, fun h => ?_, fun h => ?_⟩
  · rw [ofShapeL] at h
    cases hr : stridesLoopL len so.reverse 1 (mkInit len.length 0) with
    | none => rw [hr] at h; simp at h
    | some r =>
      obtain ⟨g1, g2⟩ := stridesLoopL_total len _ _ _ _ hr
      have hne : so.reverse ≠ [] := by
        intro h; apply h0; apply List.eq_nil_of_length_eq_zero; rw [← hl, ← List.length_reverse, h]; rfl
      have := g2 hne
      rw [g1, one_mul] at this
      have e : Spec.prod (so.reverse.map fun k => len.getD k 0) = Spec.prod len := by
        rw [prod_eq_list_prod, prod_eq_list_prod]; exact hperm.prod_eq
      rw [e] at this; exact this
  · obtain ⟨m, hm, _⟩ := ofShape_spec len so se prop hp hl hse
    rw [(C71_construct len so se prop hp hl hn (by rw [hv]; exact h)).1, hm]; rfl
  · cases hs : sizeL len with
    | none => rw [hs] at h; simp at h
    | some t =>
      have key : ∀ (ls : List Int) (a t : Int), ls.foldlM mulL a = some t → t = a * Spec.prod ls ∧ (ls ≠ [] → t ≤ 9223372036854775807) := by
        intro ls
        induction ls with
        | nil => intro a t h; simp at h; simp [Spec.prod, h]
        | cons l ls ih =>
          intro a t h
          rw [List.foldlM_cons] at h
          simp only [Option.bind_eq_bind, Option.bind_eq_some_iff] at h
          obtain ⟨b, hb, h⟩ := h
          have hb' := chk_eq_some hb
          obtain ⟨i1, i2⟩ := ih b t h
          refine ⟨by rw [i1, hb', Spec.prod, mul_assoc], fun _ => ?_⟩
          cases ls with
          | nil =>
            simp only [Spec.prod, mul_one] at i1
            have : chk (a * l) = some b := hb
            unfold chk at this
            split at this
            · rw [i1, hb']; omega
            · cases this
          | cons _ _ => exact i2 (by simp)
      obtain ⟨k1, k2⟩ := key len 1 t hs
      rw [one_mul] at k1
      rw [← k1]; exact k2 h0
  · rw [(C71_construct len so se prop hp hl hn (by rw [hv]; exact h)).2]; rfl

-- 3·10^9 × 3·10^9 elements fit, 2^32 × 2^31 do not
example : ofShapeL [3000000000, 3000000000] [0, 1] [0, 0] .contiguous = some ⟨[3000000000, 3000000000], [3000000000, 1], [0, 1], [0, 0], .contiguous⟩ ∧
    ofShapeL [4294967296, 2147483648] [0, 1] [0, 0] .contiguous = none := by decide

/-- **C71** An empty array can overflow: the count of `{2^40, 2^40, 0}` and the strides of `{0, 2^40, 2^40}` are products beyond 64 bits although there is no element.  The exact condition of
`C71_construct_exact` does not extend to empty dimensions. -/
theorem C71_empty_witness : sizeL [1099511627776, 1099511627776, 0] = none ∧ Spec.prod [1099511627776, 1099511627776, 0] = 0 ∧
    ofShapeL [0, 1099511627776, 1099511627776] [0, 1, 2] [0, 0, 0] .contiguous = none ∧
    ofShape [0, 1099511627776, 1099511627776] [0, 1, 2] [0, 0, 0] .contiguous = some ⟨[0, 1099511627776, 1099511627776], [1208925819614629174706176, 1099511627776, 1], [0, 1, 2], [0, 0, 0], .contiguous⟩ := by
  decide

/-! ### Access -/

/-- **C71 (partial)** On an array of volume at most 2^59 - 1, any chain of views whose slices select indices of the array, with ranges starting at an index (or next to the first or last one) and with steps not
longer than the dimension, computes exactly what it computes in unbounded integers, and so does every element access, with or without an ellipsis, every linear access, and `size`, `is_contiguous`
and, for layouts promising even spacing, `is_strided_1d`.
Missing: longer steps overflow (`C71_step_witness`); volumes between 2^59 and 2^63, where the strides are still right but the offset of a slice is a sum of up to 15 terms each as large as the volume. -/
theorem C71_chain_partial (len : List Int) (so se : List Nat) (prop : LayoutProp) (hp : IsPerm so) (hl : so.length = len.length) (hse : se.length = len.length) (hn : NonNeg len)
    (hv : volume len ≤ bound) (os : List Op) (ha : ChainAllowed len os) (hm : ChainModest len os) :
    ∃ m v, ofShapeL len so se prop = some m ∧ ofShape len so se prop = some m ∧ runL ⟨0, m⟩ os = some v ∧ LayoutTransforms.run ⟨0, m⟩ os = some v ∧ Small bound v.lay.len v.lay.str ∧
      (∀ i j, InRange v.lay.len (i ++ j) → elementL v (i.map .idx ++ .ell :: j.map .idx) = element v ((i ++ j).map .idx)) ∧
      (∀ i, InRange v.lay.len i → elementL v (i.map .idx) = element v (i.map .idx)) ∧
      sizeL v.lay.len = some v.lay.size ∧ isContiguousL v.lay = v.lay.isContiguous ∧
      (FlagsOK v.lay → (v.lay.prop.strided1d = true → v.lay.len ≠ [] → isStrided1dL v.lay = v.lay.isStrided1d) ∧
        ∀ x, v.lay.len ≠ [] → 0 ≤ x → x < Spec.prod v.lay.len → linearL v x = linear v x) := by
  have hB : 16 * bound ≤ 9223372036854775807 := by decide
  obtain ⟨m, h1, hw, hd, rfl, rfl, rfl, rfl⟩ := ofShape_spec len so se prop hp hl hse
  have hf := (flagsOK_of_dense hd).smallest
  have hs := small_of_dense hw hd hn hv
  obtain ⟨v, g1, g2, g3, g4, g5⟩ := run_small (v := ⟨0, m⟩) hw hf hs hB ha hm
  have hM : extentOf v.lay.len v.lay.str ≤ 9223372036854775807 := by have := g5.extent; omega
  have hV : volume v.lay.len ≤ 9223372036854775807 := by have := g5.volume; omega
  refine ⟨m, v, by rw [(C71_construct m.len m.so m.se m.prop hp hl hn (by omega)).1, h1], h1, g2, g1, g5, fun i j hij => ?_, fun i hi => ?_, by rw [sizeL_eq g5.nonneg hV, size_eq], isContiguousL_eq g5 (by omega), fun hF => ⟨fun hst h0 => ?_, fun x h0 hx0 hx1 => ?_⟩⟩
  · rw [elementL, element, callL_ell g3 g4 hM i j hij, call_idx g3 g4 _ hij.length_eq]
  · rw [elementL, element, callL_idx g3 g4 hM i hi, call_idx g3 g4 _ hi.length_eq]
  · obtain ⟨c, hc⟩ := hF.strided hst
    obtain ⟨k1, k2, -⟩ := even_bound g3 g5 h0 hc
    exact isStrided1dL_eq g5 (by omega) (fun s hs => by rw [k1, Option.some.injEq] at hs; subst hs; omega)
  · rw [linearL, linear]
    split
    · rename_i hpr
      obtain ⟨c, hc⟩ := hF.strided (by rw [hpr]; rfl)
      obtain ⟨k1, k2, -⟩ := even_bound g3 g5 h0 hc
      have : mulL x c = some (x * c) := by
        refine chk_of_abs ?_
        rw [abs_mul] at k2 ⊢
        rw [abs_of_nonneg hx0]
        rw [abs_of_nonneg (by omega)] at k2
        have := mul_le_mul_of_nonneg_right hx1.le (abs_nonneg c)
        omega
      simp only [k1, this, Option.bind_eq_bind, Option.bind_some]
    · rfl

/-- The chain of the examples of C05 is modest. -/
theorem exampleChain_modest : ChainModest [3, 5, 6] exampleChain := by
  have modest_cons : ∀ {len len' : List Int} {o : Op} {os : List Op}, Allowed len o → Modest len o → ShapeAfter len o len' → ChainModest len' os → ChainModest len (o :: os) :=
    fun ha hm h hos => ⟨hm, fun _ h' => shapeAfter_unique ha h h' ▸ hos⟩
  have hc : IsCount 4 (stop 0 (-2) 5) (-2) 2 := by
    refine ⟨by decide, by decide, fun k hk => ?_⟩
    simp [stop]; omega
  refine modest_cons (len' := [3, 2, 6]) ⟨by decide, by decide, ?_⟩ ⟨by decide, ?_⟩ ?_ ?_
  · refine ⟨trivial, ⟨by decide, fun k n hn h0 h1 => ?_⟩, trivial, trivial⟩
    have := (hn.2.2 k h0).mp h1
    simp [stop] at this; omega
  · exact ⟨trivial, ⟨⟨by decide, by decide⟩, Or.inr (by decide)⟩, trivial, trivial⟩
  · exact ⟨rfl, hc, rfl, trivial⟩
  refine modest_cons (len' := [2, 6, 3]) ⟨by decide, by decide⟩ trivial ⟨by decide, by decide⟩ ?_
  refine modest_cons (len' := [2, 6, 3, 1]) trivial trivial rfl ?_
  refine modest_cons (len' := [6, 3]) ⟨by decide, by decide, ?_⟩ ⟨by decide, trivial, trivial, trivial, trivial, trivial⟩ ?_ trivial
  · exact ⟨⟨by decide, by decide⟩, trivial, trivial, ⟨by decide, by decide⟩, trivial⟩
  · exact ⟨rfl, rfl, trivial⟩

example : ChainModest [3, 5, 6] exampleChain ∧ volume [3, 5, 6] ≤ bound ∧
    runL ⟨0, ⟨[3, 5, 6], [30, 6, 1], [0, 1, 2], [0, 0, 0], .contiguous⟩⟩ exampleChain = some ⟨12, ⟨[6, 3], [1, 30], [1, 0], [0, 0], .none⟩⟩ :=
  ⟨exampleChain_modest, by decide, by decide⟩

-- a view of 2^57 elements: row 1 + 2·x, reversed columns
example : (runL ⟨0, ⟨[4, 288230376151711744], [288230376151711744, 1], [0, 1], [0, 0], .contiguous⟩⟩ [.slice [.rng 1 4 2, .rng 288230376151711743 (-1) (-4)]]).bind (fun v => elementL v [.idx 1, .idx 72057594037927935]) =
    some 864691128455135235 := by decide

/-- **C71** A range of one element with a long step stays inside the array, but the product of stride and step overflows: slicing row 0 of a 3 × 4 array with `range(0, 1, 2^62)`. -/
theorem C71_step_witness : Allowed [3, 4] (.slice [.rng 0 1 4611686018427387904, .all]) ∧
    LayoutTransforms.run ⟨0, ⟨[3, 4], [4, 1], [0, 1], [0, 0], .contiguous⟩⟩ [.slice [.rng 0 1 4611686018427387904, .all]] = some ⟨0, ⟨[1, 4], [18446744073709551616, 1], [0, 1], [0, 0], .none⟩⟩ ∧
    runL ⟨0, ⟨[3, 4], [4, 1], [0, 1], [0, 0], .contiguous⟩⟩ [.slice [.rng 0 1 4611686018427387904, .all]] = none := by
  refine ⟨⟨by decide, by decide, ⟨⟨by decide, fun k n hc h0 h1 => ?_⟩, trivial, trivial⟩⟩, by decide, by decide⟩
  have := (hc.2.2 k h0).mp h1
  simp only [stop] at this
  rw [if_pos (by decide)] at this
  simp at this
  omega

/-- **C71** Converting a linear position to indices never overflows. -/
theorem C71_to_idx (m : IdxMap) (x : Int) (h0 : 0 ≤ x) (h : x ≤ 9223372036854775807) : toIdxL m x = m.toIdx x :=
  toIdxL_eq m x (by rw [abs_of_nonneg h0]; exact h)

example : toIdxL ⟨[3, 4], [4, 1], [0, 1], [0, 0], .contiguous⟩ 7 = some [1, 3] := by decide

/-- **C71 (partial)** The bounds check computes the last index of a range without overflow if the two ends of every range are below 2^62 in magnitude, whatever the step: its verdict is then that of C14.
Missing: ends of larger magnitude, whose difference is not a `long` (`C71_check_witness`). -/
theorem C71_bound_check_partial (lens : List Int) (args : List Arg) (h : ∀ f l s, Arg.rng f l s ∈ args → |f| ≤ 4611686018427387903 ∧ |l| ≤ 4611686018427387903) :
    assertInBoundsL lens args = BoundCheck.assertInBounds lens args := by
  rw [assertInBoundsL, BoundCheck.assertInBounds, workerL_eq lens _ args 0 0 h]

example : assertInBoundsL [10] [.rng 9 (-1) (-4611686018427387904)] = some true ∧ assertInBoundsL [10] [.rng 0 4611686018427387903 1] = some false := by decide

/-- **C71** The check itself overflows for a range from -2^62 to 2^63 - 1. -/
theorem C71_check_witness : assertInBoundsL [10] [.rng (-4611686018427387904) 9223372036854775807 1] = none ∧
    BoundCheck.assertInBounds [10] [.rng (-4611686018427387904) 9223372036854775807 1] = some false := by decide

/-! ### Iteration -/

theorem makeIteratorL_eq {m : IdxMap} (hw : WF m) (hf : FlagsOK m) (h0 : m.len ≠ []) (hs : Small bound m.len m.str) (b : Bool) : makeIteratorL m b = m.makeIterator b := by
  have hB : 2 * bound ≤ 9223372036854775807 := by decide
  have hl : m.len.length = m.so.length := hw.so_len.symm
  have hst : m.str.length = m.so.length := by rw [hw.str_len, hw.so_len]
  rw [makeIteratorL, makeIterator]
  by_cases hr : (if m.prop.strided1d then 1 else m.rank) = m.rank
  · rw [if_pos hr, if_pos hr]
    by_cases ho : m.isStrideOrderC = true
    · rw [if_pos ho, if_pos ho]; exact mkL_eq hB b hs
    · rw [if_neg ho, if_neg ho, apply_perm_eq_memOrder hw.perm hl, apply_perm_eq_memOrder hw.perm hst]
      exact mkL_eq hB b ((small_memOrder hw.perm hl hst).mpr hs)
  · rw [if_neg hr, if_neg hr]
    have hst' : m.prop.strided1d = true := by
      by_contra hc
      rw [if_neg hc] at hr; exact hr rfl
    obtain ⟨c, hc⟩ := hf.strided hst'
    obtain ⟨k1, -, k3⟩ := even_bound hw hs h0 hc
    have hv := hs.volume
    rw [sizeL_eq hs.nonneg (by omega), k1, size_eq]
    exact mkL_eq hB b k3

/-- **C71 (partial)** A range-for over a view whose layout keeps its promises visits the elements in memory order, each once, and no increment, begin or end iterator, or dereference overflows, in layouts
bounded by 2^59 - 1.  Missing: the layouts of C16 where the loop does not terminate. -/
theorem C71_iterate_partial (m : IdxMap) (hw : WF m) (hf : FlagsOK m) (h0 : m.len ≠ []) (hs : Small bound m.len m.str)
    (hz : (∀ l ∈ m.len, 0 < l) ∨ m.prop.strided1d = true ∨ (memOrder m.so m.len).head? = some 0) :
    ∃ L, MemEnum m.so m.len L ∧ ∃ b e, makeIteratorL m false = some b ∧ makeIteratorL m true = some e ∧
      ∀ (σ : Type) (body : Int → σ → Option σ) (s : σ) (fuel : Nat), L.length < fuel →
        rangeForL body e fuel b s = L.foldlM (fun s x => body (offset m x) s) s := by
  have hB : 2 * bound ≤ 9223372036854775807 := by decide
  obtain ⟨L, hL, b, e, hb, he, hr⟩ := C16_iterate_partial m hw hf h0 hs.nonneg hz
  refine ⟨L, hL, b, e, by rw [makeIteratorL_eq hw hf h0 hs, hb], by rw [makeIteratorL_eq hw hf h0 hs, he], fun σ body s fuel hfu => ?_⟩
  rw [← hr σ body s fuel hfu]
  have hl : m.len.length = m.so.length := hw.so_len.symm
  have hst : m.str.length = m.so.length := by rw [hw.str_len, hw.so_len]
  have hne : memOrder m.so m.len ≠ [] := by
    intro h; have := congrArg List.length h; rw [memOrder_length] at this
    exact h0 (List.length_eq_zero_iff.mp (by simpa [hl] using this))
  by_cases hfull : m.prop.strided1d = false ∨ m.rank = 1
  · rw [makeIterator_full hw hfull] at hb he
    obtain ⟨k1, k2⟩ := Grid.mk_eq (ss := memOrder m.so m.str) hne (by simp [memOrder_length])
    rw [k1, Option.some.injEq] at hb
    rw [k2, Option.some.injEq] at he
    subst hb; subst he
    have hsm := (small_memOrder (B := bound) hw.perm hl hst).mpr hs
    refine rangeForL_at hB hne hsm body fuel _ s ?_
    by_cases hp : ∀ l ∈ memOrder m.so m.len, 0 < l
    · left; exact Grid.inRange_zeros hp
    · right
      have hh : (memOrder m.so m.len).head? = some 0 := by
        rcases hz with h | h | h
        · exact absurd (fun l hl' => h l ((memOrder_perm hw.perm hl).mem_iff.mp hl')) hp
        · have hr1 : m.rank = 1 := hfull.resolve_left (by simp [h])
          have hr' : (memOrder m.so m.len).length = 1 := by rw [memOrder_length, ← hl]; exact hr1
          obtain ⟨l, e⟩ := List.length_eq_one_iff.mp hr'
          have : 0 ≤ l := hsm.nonneg l (by rw [e]; simp)
          rw [e] at hp ⊢
          simp only [List.mem_singleton, forall_eq, not_lt] at hp
          simp; omega
        · exact h
      cases hm : memOrder m.so m.len with
      | nil => exact absurd hm hne
      | cons l ls =>
        rw [hm] at hh
        simp only [List.head?_cons, Option.some.injEq] at hh
        subst hh
        simp [Grid.endIdx, List.replicate_succ]
  · simp only [not_or, Bool.not_eq_false] at hfull
    obtain ⟨hst', hr1⟩ := hfull
    obtain ⟨c, hc⟩ := hf.strided hst'
    obtain ⟨e1, e2, e3⟩ := even_bound hw hs h0 hc
    rw [makeIterator, if_neg (by rw [if_pos hst']; exact fun h => hr1 h.symm), e1] at hb he
    simp only [Option.bind_eq_bind, Option.bind_some] at hb he
    obtain ⟨k1, k2⟩ := Grid.mk_eq (ls := [m.size]) (ss := [c]) (by simp) rfl
    rw [k1, Option.some.injEq] at hb
    rw [k2, Option.some.injEq] at he
    subst hb; subst he
    rw [size_eq]
    have hn0 := (prod_le_volume hs.nonneg).2
    refine rangeForL_at hB (by simp) e3 body fuel _ s ?_
    by_cases hp : Spec.prod m.len = 0
    · right; simp [Grid.endIdx, hp]
    · left; exact ⟨⟨by omega, by omega⟩, trivial⟩

-- the columns 1 and 3 of a 3 x 5 array in Fortran order, backwards
example : WF ⟨[3, 2], [1, -6], [1, 0], [0, 0], .none⟩ ∧ Small bound [3, 2] [1, -6] ∧
    ((makeIteratorL ⟨[3, 2], [1, -6], [1, 0], [0, 0], .none⟩ false).bind fun b => (makeIteratorL ⟨[3, 2], [1, -6], [1, 0], [0, 0], .none⟩ true).bind fun e =>
      rangeForL (fun o l => some (l ++ [o])) e 10 b []) = some [0, 1, 2, -6, -5, -4] := by
  refine ⟨⟨by decide, by decide, by decide, by decide⟩, ⟨rfl, by intro l hl; simp at hl; omega, by decide, by decide, by decide⟩, by decide⟩

/-! ### Storage -/

/-- **C71 (partial)** The number of bytes requested for `size` elements is exact if it is below 2^64, and otherwise strictly too small, for every size and every `sizeof`: no check sees it.
Missing: the claim that the block is always large enough. -/
theorem C71_bytes_partial (size : Int) (k : Nat) (h : 0 ≤ size) :
    (size * k < 18446744073709551616 → (bytes size k : Int) = size * k) ∧ (18446744073709551616 ≤ size * k → (bytes size k : Int) < size * k) := by
  have h0 : 0 ≤ size * k := mul_nonneg h (by omega)
  unfold bytes
  constructor
  · intro h1; omega
  · intro h1; omega

/-- **C71** `array<double, 1>(2^61)` requests 0 bytes: the size is a `long`, so the construction of the layout is defined. -/
theorem C71_bytes_witness : bytes 2305843009213693952 8 = 0 ∧ (ofShapeL [2305843009213693952] [0] [0] .contiguous).isSome = true := by decide

example : bytes 1000 16 = 16000 := by decide

end Nda.Machine
