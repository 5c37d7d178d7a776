import Verif.Lemmas.SliceSpec
/-!
# Slicing: well-formedness, flags and regularity of the result
-/
namespace Nda.Slice
open Nda Nda.Spec Nda.Perm Nda.IdxMap

/-- Everything known about a slice, in terms of the expanded argument list. -/
structure SliceFacts (m : IdxMap) (X : List Arg) (off : Int) (m' : IdxMap) : Prop where
  len_eq : m'.len = keepMap gl X m.len
  str_eq : m'.str = keepMap gs X m.str
  off_eq : off = (List.zipWith getOffset X m.str).sum
  lenK : m'.len = (keptDims X).map (fun n => gl (at' X n) (m.len.getD n 0))
  strK : m'.str = (keptDims X).map (fun n => gs (at' X n) (m.str.getD n 0))
  so_eq : m'.so = (m.so.filter (kept X)).map ((keptDims X).idxOf ·)
  prop_eq : m'.prop = propOf (keptDims X).length (X.all (fun a => !isRange a || isRangeAll a))
      (m.so.map (fun n => isRangeAll (at' X n))) m.prop
  seK : m'.se = (keptDims X).map (fun n => if isRangeAll (at' X n) then m.se.getD n 0 else 0)
  wf : WF m'

theorem length_expand {N : Nat} {args : List Arg} (hf : Fits N args) (hN : N ≤ 128) :
    (expand N args).length = N := by
  obtain ⟨E, h1, h2, _⟩ := argAt hf hN
  rw [← h2]; simpa using h1

theorem slice_facts {m : IdxMap} (hw : WF m) {args : List Arg} (hf : Fits m.rank args) (hN : m.rank ≤ 128)
    (hst : StepsOK (expand m.rank args)) :
    ∃ off m', slice m args = some (off, m') ∧ SliceFacts m (expand m.rank args) off m' := by
  have h := slice_eq hw hf hN hst
  have hl := length_expand hf hN
  generalize expand m.rank args = X at *
  have hXlen : X.length = m.len.length := hl
  have hso : m.so.length = X.length := by rw [hw.so_len]; exact hXlen.symm
  refine ⟨_, _, h, ⟨?_, ?_, ?_, rfl, rfl, rfl, rfl, rfl, ⟨slicedSo_isPerm hw.perm hso, ?_, ?_, ?_⟩⟩⟩
  · exact keptDims_map gl 0 X m.len hXlen
  · exact keptDims_map gs 0 X m.str (by rw [hw.str_len]; exact hXlen)
  · rw [← hl]; exact range_map_sum getOffset X m.str (by rw [hw.str_len]; exact hXlen)
  · simp only [List.length_map]; exact filter_perm_length hw.perm hso
  · simp
  · simp

theorem SliceFacts.memStr {m m' : IdxMap} {X : List Arg} {off : Int} (h : SliceFacts m X off m') (hw : WF m)
    (hl : m.so.length = X.length) :
    memOrder m'.so m'.str = (m.so.filter (kept X)).map (fun n => gs (at' X n) (m.str.getD n 0)) := by
  rw [h.so_eq, h.strK, memOrder_sliced hw.perm hl]

theorem SliceFacts.memLen {m m' : IdxMap} {X : List Arg} {off : Int} (h : SliceFacts m X off m') (hw : WF m)
    (hl : m.so.length = X.length) :
    memOrder m'.so m'.len = (m.so.filter (kept X)).map (fun n => gl (at' X n) (m.len.getD n 0)) := by
  rw [h.so_eq, h.lenK, memOrder_sliced hw.perm hl]

/-- With full ranges and integers only, surviving dimensions keep length and stride. -/
theorem only_all {X : List Arg} (h : X.all (fun a => !isRange a || isRangeAll a) = true) {n : Nat} (hn : n < X.length) :
    isRangeAll (at' X n) = kept X n ∧
    (kept X n = true → ∀ l, gl (at' X n) l = l ∧ gs (at' X n) l = l) := by
  have hm : at' X n ∈ X := by
    have : at' X n = X[n] := by simp [at', hn]
    rw [this]; exact List.getElem_mem hn
  have := List.all_eq_true.mp h _ hm
  unfold kept
  cases ha : at' X n <;> simp_all [isRange, isRangeAll, gl, gs, getL, getS]

theorem filter_map_congr {α β : Type} {k : α → Bool} {f g : α → β} {l : List α}
    (h : ∀ x ∈ l, k x = true → f x = g x) : (l.filter k).map f = (l.filter k).map g := by
  apply List.map_congr_left
  intro x hx
  obtain ⟨h1, h2⟩ := List.mem_filter.mp hx
  exact h x h1 h2

theorem getLast?_filter_of_last {α : Type} {k : α → Bool} {l : List α} {u : α} (h : l.getLast? = some u) (hk : k u = true) :
    (l.filter k).getLast? = some u := by
  induction l with
  | nil => simp at h
  | cons x l ih =>
    cases l with
    | nil => simp at h; subst h; simp [hk]
    | cons y l =>
      have h' : (y :: l).getLast? = some u := by simpa [List.getLast?_cons] using h
      have := ih h'
      rw [List.filter_cons]
      split
      · rw [List.getLast?_cons, this]; rfl
      · exact this

theorem fastestIs_memOrder {m : IdxMap} {c : Int} :
    FastestIs m c ↔ ∀ x, (memOrder m.so m.str).getLast? = some x → x = c := by
  unfold FastestIs
  simp only [memOrder, List.getLast?_map, Option.map_eq_some_iff]
  constructor
  · rintro h x ⟨u, hu, rfl⟩; exact h u hu
  · intro h u hu; exact h _ ⟨u, hu, rfl⟩

/-- The smallest-stride flag of the slice comes only from a surviving fastest dimension. -/
theorem propOf_smallest {P : Nat} {hasOnly : Bool} {bs : List Bool} {prop : LayoutProp}
    (h : (propOf P hasOnly bs prop).smallestOne = true) :
    hasOnly = true ∧ prop.smallestOne = true ∧ (countBlocks bs 0 false).2 = true := by
  unfold propOf at h
  cases hasOnly with
  | false => simp at h; split at h <;> simp [LayoutProp.strided, LayoutProp.none] at h
  | true =>
    simp only [Bool.not_true, Bool.false_eq_true, if_false] at h
    split at h
    · rename_i h1
      simp [LayoutProp.hasContiguous] at h1
      exact ⟨rfl, h1.1.1.2, h1.2⟩
    · split at h
      · simp [LayoutProp.strided] at h
      · split at h
        · rename_i h1
          simp at h1
          exact ⟨rfl, h1.1, h1.2⟩
        · simp [LayoutProp.none] at h

theorem slice_smallestOK {m m' : IdxMap} (hw : WF m) (hs : SmallestOK m) {X : List Arg} {off : Int}
    (hl : m.so.length = X.length) (h : SliceFacts m X off m') : SmallestOK m' := by
  intro hp
  rw [h.prop_eq] at hp
  obtain ⟨h1, h2, h3⟩ := propOf_smallest hp
  rw [fastestIs_memOrder, h.memStr hw hl]
  intro x hx
  cases hso : m.so.getLast? with
  | none =>
    have : m.so = [] := by simpa using hso
    simp [this] at hx
  | some u =>
    have hu : u < X.length := by
      have := IsPerm.lt hw.perm (List.mem_of_getLast? hso); omega
    rw [countBlocks_last _ _ _ _ u hso] at h3
    have ho := only_all h1 hu
    have hk : kept X u = true := ho.1 ▸ h3
    rw [List.getLast?_map, getLast?_filter_of_last hso hk] at hx
    simp only [Option.map_some, Option.some.injEq] at hx
    rw [← hx, (ho.2 hk _).2]
    exact hs h2 u hso

theorem propOf_strided {P : Nat} {hasOnly : Bool} {bs : List Bool} {prop : LayoutProp}
    (h : (propOf P hasOnly bs prop).strided1d = true) :
    (hasOnly = false ∧ P = 1) ∨
    (hasOnly = true ∧ prop.strided1d = true ∧ (countBlocks bs 0 false).1 ≤ 1) := by
  unfold propOf at h
  cases hasOnly with
  | false =>
    simp at h
    split at h
    · left; exact ⟨rfl, by assumption⟩
    · simp [LayoutProp.none] at h
  | true =>
    right
    simp only [Bool.not_true, Bool.false_eq_true, if_false] at h
    split at h
    · rename_i h1
      simp [LayoutProp.hasContiguous] at h1
      exact ⟨rfl, h1.1.1.1, h1.1.2⟩
    · split at h
      · rename_i h1
        simp at h1
        exact ⟨rfl, h1.1, h1.2⟩
      · split at h <;> simp [LayoutProp.smallest, LayoutProp.none] at h

theorem slice_flagsOK {m m' : IdxMap} (hw : WF m) (hf : FlagsOK m) {X : List Arg} {off : Int}
    (hl : m.so.length = X.length) (h : SliceFacts m X off m') : FlagsOK m' := by
  refine ⟨slice_smallestOK hw hf.smallest hl h, fun hp => ?_⟩
  rw [h.prop_eq] at hp
  rcases propOf_strided hp with ⟨_, hP⟩ | ⟨h1, h2, h3⟩
  · -- one surviving dimension
    have hlen : m'.so.length = 1 := by
      rw [h.so_eq, List.length_map, filter_perm_length hw.perm hl, hP]
    obtain ⟨u, hu⟩ := List.length_eq_one_iff.mp hlen
    refine ⟨m'.str.getD u 0, ?_⟩
    simp [EvenlySpaced, memOrder, hu, dense, Spec.prod]
  · obtain ⟨k, hk⟩ := hf.strided h2
    have hnm : ∀ n ∈ m.so, n < X.length := fun n hn => by
      have := IsPerm.lt hw.perm hn; omega
    have hmap : m.so.map (fun n => isRangeAll (at' X n)) = m.so.map (kept X) :=
      List.map_congr_left (fun n hn => (only_all h1 (hnm n hn)).1)
    rw [hmap] at h3
    obtain ⟨a, b, c, e1, e2, _⟩ := countBlocks_split (kept X) m.so h3
    have hk' : (a ++ b ++ c).map (fun n => m.str.getD n 0) =
        (dense ((a ++ b ++ c).map (fun n => m.len.getD n 0))).map (k * ·) := by
      rw [← e1]; exact hk
    refine ⟨k * Spec.prod (c.map (fun n => m.len.getD n 0)), ?_⟩
    unfold EvenlySpaced
    rw [h.memStr hw hl, h.memLen hw hl]
    have e3 : (m.so.filter (kept X)).map (fun n => gs (at' X n) (m.str.getD n 0)) = b.map (fun n => m.str.getD n 0) := by
      rw [← e2]
      exact filter_map_congr (fun n hn hkn => ((only_all h1 (hnm n hn)).2 hkn _).2)
    have e4 : (m.so.filter (kept X)).map (fun n => gl (at' X n) (m.len.getD n 0)) = b.map (fun n => m.len.getD n 0) := by
      rw [← e2]
      exact filter_map_congr (fun n hn hkn => ((only_all h1 (hnm n hn)).2 hkn _).1)
    rw [e3, e4]
    exact evenly_middle hk'

theorem slice_staticOK {m m' : IdxMap} {X : List Arg} {off : Int} (h : SliceFacts m X off m') (hs : StaticOK m) :
    StaticOK m' := by
  intro u hu
  rw [h.seK] at hu ⊢
  rw [h.lenK]
  by_cases hk : u < (keptDims X).length
  · simp only [List.getD_eq_getElem?_getD, List.getElem?_map, List.getElem?_eq_getElem hk, Option.map_some,
      Option.getD_some] at hu ⊢
    by_cases ha : isRangeAll (at' X (keptDims X)[u]) = true
    · simp only [ha, if_true] at hu ⊢
      rw [← List.getD_eq_getElem?_getD] at hu ⊢
      have hgl : ∀ l, gl (at' X (keptDims X)[u]) l = l := by
        intro l
        generalize at' X (keptDims X)[u] = a at ha
        cases a <;> simp_all [isRangeAll, gl, getL]
      rw [hgl, ← List.getD_eq_getElem?_getD]
      exact hs _ hu
    · simp only [ha, if_false, Bool.false_eq_true] at hu; exact absurd rfl hu
  · rw [List.getD_eq_getElem?_getD, List.getElem?_eq_none (by simpa using hk)] at hu
    exact absurd rfl hu

/-! ### Regularity -/

theorem reach_nonneg_of_nested : ∀ {ss ls : List Int}, Nested ss ls → (∀ l ∈ ls, 1 ≤ l) → 0 ≤ reach ss ls
  | [], [], _, _ => by simp [reach]
  | s :: ss, l :: ls, h, hl => by
    have h1 := reach_nonneg_of_nested h.2 (fun x hx => hl x (List.mem_cons_of_mem _ hx))
    have h2 := hl l List.mem_cons_self
    have := Int.mul_nonneg (show 0 ≤ s by have := h.1; omega) (show 0 ≤ l - 1 by omega)
    simp only [reach]; omega

/-- Dropping dimensions, enlarging strides and shortening the reach keeps strides nested. -/
theorem nested_slice {α : Type} (so : List α) (k : α → Bool) (S L S' L' : α → Int)
    (hS : ∀ n ∈ so, k n = true → 1 < L' n → S n ≤ S' n ∧ S' n * (L' n - 1) ≤ S n * (L n - 1) ∧ 1 < L n)
    (hn : Nested ((so.filter (fun n => decide (1 < L n))).map S) ((so.filter (fun n => decide (1 < L n))).map L)) :
    Nested (((so.filter k).filter (fun n => decide (1 < L' n))).map S') (((so.filter k).filter (fun n => decide (1 < L' n))).map L') ∧
    reach (((so.filter k).filter (fun n => decide (1 < L' n))).map S') (((so.filter k).filter (fun n => decide (1 < L' n))).map L') ≤
      reach ((so.filter (fun n => decide (1 < L n))).map S) ((so.filter (fun n => decide (1 < L n))).map L) := by
  induction so with
  | nil => exact ⟨trivial, Int.le_refl _⟩
  | cons n so ih =>
    by_cases hL : 1 < L n
    · simp only [List.filter_cons, hL, decide_true, if_true, List.map_cons] at hn ⊢
      obtain ⟨i1, i2⟩ := ih (fun j hj => hS j (List.mem_cons_of_mem _ hj)) hn.2
      have hr := reach_nonneg_of_nested hn.2 (by
        intro l hl
        obtain ⟨j, hj, rfl⟩ := List.mem_map.mp hl
        have := (List.mem_filter.mp hj).2
        simp at this; omega)
      have hpos : 0 ≤ S n * (L n - 1) := Int.mul_nonneg (by have := hn.1; omega) (by omega)
      by_cases hk : k n = true
      · by_cases hL' : 1 < L' n
        · obtain ⟨a1, a2, a3⟩ := hS n List.mem_cons_self hk hL'
          simp only [hk, if_true, List.filter_cons, hL', decide_true, List.map_cons]
          refine ⟨⟨by have := hn.1; omega, i1⟩, ?_⟩
          simp only [reach]; omega
        · simp only [hk, if_true, List.filter_cons, hL', decide_false, Bool.false_eq_true, if_false]
          refine ⟨i1, ?_⟩
          simp only [reach]; omega
      · simp only [Bool.not_eq_true] at hk
        simp only [hk, Bool.false_eq_true, if_false]
        refine ⟨i1, ?_⟩
        simp only [reach]; omega
    · simp only [List.filter_cons, hL, decide_false, Bool.false_eq_true, if_false] at hn ⊢
      have hi := ih (fun j hj => hS j (List.mem_cons_of_mem _ hj)) hn
      by_cases hk : k n = true
      · by_cases hL' : 1 < L' n
        · exact absurd (hS n List.mem_cons_self hk hL').2.2 hL
        · simp only [hk, if_true, List.filter_cons, hL', decide_false, Bool.false_eq_true, if_false]
          exact hi
      · simp only [Bool.not_eq_true] at hk
        simp only [hk, Bool.false_eq_true, if_false]
        exact hi

theorem bigDims_eq (m : IdxMap) :
    (bigDims m).map Prod.fst = ((m.so.filter (fun k => decide (1 < m.len.getD k 0))).map (fun k => ((m.str.getD k 0).natAbs : Int))) ∧
    (bigDims m).map Prod.snd = (m.so.filter (fun k => decide (1 < m.len.getD k 0))).map (fun k => m.len.getD k 0) := by
  constructor <;> simp [bigDims, List.filter_map, Function.comp_def]

theorem inside_getD {X : List Arg} {L : List Int} (h : Inside X L) {n : Nat} (hn : n < X.length) :
    ArgInside (at' X n) (L.getD n 0) := by
  induction X generalizing L n with
  | nil => simp at hn
  | cons a X ih =>
    cases L with
    | nil => exact h.elim
    | cons l L =>
      cases n with
      | zero => simpa [at'] using h.1
      | succ n => simpa [at'] using ih h.2 (by simpa using hn)

/-- Inside selections: the surviving stride and extent against the old ones. -/
theorem inside_stride {a : Arg} {l s : Int} (h : ArgInside a l) (hr : isRange a = true) (hg : 1 < gl a l) :
    (s.natAbs : Int) ≤ (gs a s).natAbs ∧
    ((gs a s).natAbs : Int) * (gl a l - 1) ≤ (s.natAbs : Int) * (l - 1) ∧ 1 < l := by
  cases a with
  | idx i => simp [isRange] at hr
  | all => simp only [gl, getL, gs, getS, Option.getD_some] at *; exact ⟨Int.le_refl _, Int.le_refl _, hg⟩
  | ell => simp only [gl, getL, gs, getS, Option.getD_some] at *; exact ⟨Int.le_refl _, Int.le_refl _, hg⟩
  | rng f la st =>
    obtain ⟨hst, hin⟩ := h
    have hc := gl_isCount (f := f) (la := la) (l := l) hst
    generalize hn : gl (.rng f la st) l = n at *
    have h0 := hin 0 n hc (by omega) (by omega)
    have h1 := hin (n - 1) n hc (by omega) (by omega)
    simp only [gs, getS, Option.getD_some]
    have hst1 : 1 ≤ st.natAbs := by omega
    have hna : ((s * st).natAbs : Int) = (s.natAbs : Int) * (st.natAbs : Int) := by
      rw [Int.natAbs_mul]; push_cast; rfl
    -- |st| * (n-1) ≤ l - 1
    have hb : (st.natAbs : Int) * (n - 1) ≤ l - 1 := by
      have hm : (n - 1) * st = st * (n - 1) := Int.mul_comm _ _
      rw [hm] at h1
      rcases Int.lt_or_gt_of_ne hst with hneg | hpos
      · have : (st.natAbs : Int) = -st := by omega
        rw [this, Int.neg_mul]; omega
      · have : (st.natAbs : Int) = st := by omega
        rw [this]; omega
    rw [hna]
    have hs0 : (0 : Int) ≤ s.natAbs := by omega
    refine ⟨?_, ?_, ?_⟩
    · have := Int.mul_le_mul_of_nonneg_left (show (1 : Int) ≤ st.natAbs by omega) hs0
      simpa using this
    · rw [Int.mul_assoc]; exact Int.mul_le_mul_of_nonneg_left hb hs0
    · have h3 : (st.natAbs : Int) * (n - 1) ≥ n - 1 := by
        have := Int.mul_le_mul_of_nonneg_right (show (1 : Int) ≤ st.natAbs by omega) (show 0 ≤ n - 1 by omega)
        simpa using this
      omega

theorem slice_regular {m m' : IdxMap} (hw : WF m) {X : List Arg} {off : Int} (hl : m.so.length = X.length)
    (h : SliceFacts m X off m') (hin : Inside X m.len) (hr : Regular m) : Regular m' := by
  unfold Regular at hr ⊢
  rw [(bigDims_eq m).1, (bigDims_eq m).2] at hr
  have key := nested_slice m.so (kept X) (fun k => ((m.str.getD k 0).natAbs : Int)) (fun k => m.len.getD k 0)
    (fun k => ((gs (at' X k) (m.str.getD k 0)).natAbs : Int)) (fun k => gl (at' X k) (m.len.getD k 0))
    (fun n hn hk hL => inside_stride (inside_getD hin (by have := IsPerm.lt hw.perm hn; omega)) hk hL) hr
  -- the surviving pairs in memory order
  have e : m'.so.map (fun k => (((m'.str.getD k 0).natAbs : Int), m'.len.getD k 0)) =
      (m.so.filter (kept X)).map (fun k => (((gs (at' X k) (m.str.getD k 0)).natAbs : Int), gl (at' X k) (m.len.getD k 0))) := by
    have a1 := h.memStr hw hl
    have a2 := h.memLen hw hl
    apply List.ext_getElem
    · simp [h.so_eq]
    · intro i hi hi'
      have hi1 : i < m'.so.length := by simpa using hi
      have hi2 : i < (m.so.filter (kept X)).length := by simpa using hi'
      have b1 := congrArg (fun l => l[i]?) a1
      have b2 := congrArg (fun l => l[i]?) a2
      simp only [memOrder, List.getElem?_map, List.getElem?_eq_getElem hi1, List.getElem?_eq_getElem hi2, Option.map_some,
        Option.some.injEq] at b1 b2
      simp only [List.getElem_map, b1, b2]
  have e' : (bigDims m').map Prod.fst = (((m.so.filter (kept X)).filter (fun n => decide (1 < gl (at' X n) (m.len.getD n 0)))).map
      (fun k => ((gs (at' X k) (m.str.getD k 0)).natAbs : Int))) ∧
      (bigDims m').map Prod.snd = (((m.so.filter (kept X)).filter (fun n => decide (1 < gl (at' X n) (m.len.getD n 0)))).map
      (fun k => gl (at' X k) (m.len.getD k 0))) := by
    unfold bigDims
    rw [e]
    constructor <;> simp [List.filter_map, Function.comp_def]
  rw [e'.1, e'.2]
  exact key.1

end Nda.Slice
