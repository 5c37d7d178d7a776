import Verif.Spec.Layout
import Verif.Lemmas.Index
/-!
# Lemmas about the `idx_map` model
-/
namespace Nda.IdxMap
open Nda Nda.Spec Nda.Perm

theorem size_eq (m : IdxMap) : m.size = prod m.len := by
  rw [size, foldl_mul]; ring

theorem rd_getD {l : List Int} {k : Nat} (h : k < l.length) : rd l k = some (l.getD k 0) := by
  simp [rd, h]

/-! ### The stride loop -/

/-- Running products, fastest dimension first. -/
def run : Int → List Int → List Int
  | _, [] => []
  | s, l :: ls => s :: run (s * l) ls

theorem run_snoc (s : Int) (a : List Int) (x : Int) : run s (a ++ [x]) = run s a ++ [s * prod a] := by
  induction a generalizing s with
  | nil => simp [run, prod]
  | cons y a ih => simp [run, ih, prod]; ring

theorem run_reverse : ∀ (l : List Int), run 1 l.reverse = (dense l).reverse
  | [] => rfl
  | x :: l => by
    rw [List.reverse_cons, run_snoc, run_reverse l, dense, List.reverse_cons]
    congr 2
    rw [Int.one_mul, prod_eq_list_prod, prod_eq_list_prod, List.prod_reverse]

theorem stridesLoop_spec (len : List Int) (us : List Nat) (s : Int) (str : List Int)
    (hn : us.Nodup) (hl : ∀ k ∈ us, k < len.length ∧ k < str.length) :
    ∃ str', stridesLoop len us s str = some (str', s * prod (us.map (fun k => len.getD k 0))) ∧
      str'.length = str.length ∧ (∀ k, k ∉ us → str'[k]? = str[k]?) ∧
      us.map (fun k => str'.getD k 0) = run s (us.map (fun k => len.getD k 0)) := by
  induction us generalizing s str with
  | nil => exact ⟨str, by simp [stridesLoop, prod], rfl, by simp, rfl⟩
  | cons u us ih =>
    obtain ⟨h1, h2⟩ := hl u List.mem_cons_self
    simp only [List.nodup_cons] at hn
    obtain ⟨str', g1, g2, g3, g4⟩ := ih (s * len.getD u 0) (str.set u s) hn.2 (fun k hk => by
      simpa using hl k (List.mem_cons_of_mem _ hk))
    refine ⟨str', ?_, by simpa using g2, ?_, ?_⟩
    · simp only [stridesLoop, rd_getD h1, wr, h2, if_true, Option.bind_eq_bind, Option.bind_some, g1,
        List.map_cons, prod]
      congr 2; ring
    · intro k hk
      simp only [List.mem_cons, not_or] at hk
      rw [g3 k hk.2, List.getElem?_set_ne (Ne.symm hk.1)]
    · simp only [List.map_cons, run, g4]
      congr 1
      rw [List.getD_eq_getElem?_getD, g3 u hn.1]
      simp [h2]

theorem computeStrides_spec (len : List Int) (so : List Nat) (hp : IsPerm so)
    (hl : so.length = len.length) :
    ∃ str, computeStrides len so = some str ∧ str.length = len.length ∧
      memOrder so str = dense (memOrder so len) := by
  obtain ⟨str, h1, h2, _, h4⟩ := stridesLoop_spec len so.reverse 1 (mkInit len.length 0)
    (by rw [List.nodup_reverse]; exact IsPerm.nodup hp) (by
      intro k hk
      have := IsPerm.lt hp (List.mem_reverse.mp hk)
      simp [mkInit]; omega)
  refine ⟨str, by simp [computeStrides, h1], by simpa [mkInit] using h2, ?_⟩
  have h5 : (memOrder so str).reverse = (dense (memOrder so len)).reverse := by
    rw [← run_reverse]
    simpa [memOrder, List.map_reverse] using h4
  exact List.reverse_injective h5

/-- A freshly constructed map is well formed and dense. -/
theorem ofShape_spec (len : List Int) (so se : List Nat) (prop : LayoutProp) (hp : IsPerm so)
    (hl : so.length = len.length) (hse : se.length = len.length) :
    ∃ m, ofShape len so se prop = some m ∧ WF m ∧ Dense m ∧ m.len = len ∧ m.so = so ∧
      m.se = se ∧ m.prop = prop := by
  obtain ⟨str, h1, h2, h3⟩ := computeStrides_spec len so hp hl
  refine ⟨⟨len, str, so, se, prop⟩, by simp [ofShape, h1], ⟨hp, hl, h2, hse⟩, ?_, rfl, rfl, rfl, rfl⟩
  simp [Dense, EvenlySpaced, h3]

/-! ### Evenly spaced layouts -/

theorem offset_evenlySpaced {m : IdxMap} (hw : WF m) {c : Int} (hd : EvenlySpaced m c) {idx : List Int}
    (hi : idx.length = m.len.length) :
    offset m idx = c * lin (memOrder m.so m.len) (memOrder m.so idx) := by
  rw [offset, ← dot_memOrder hw.perm (by rw [hw.str_len, hw.so_len]) (by rw [hi, hw.so_len]), hd,
    dot_smul, dot_dense _ _ (by simp [memOrder])]

theorem dense_getLast? : ∀ (l : List Int), l ≠ [] → (dense l).getLast? = some 1
  | [x], _ => by simp [dense, prod]
  | x :: y :: l, _ => by
    have := dense_getLast? (y :: l) (by simp)
    rw [dense, List.getLast?_cons]
    simp [this]

theorem fastestIs_of_evenlySpaced {m : IdxMap} {c : Int} (hd : EvenlySpaced m c) : FastestIs m c := by
  intro u hu
  have h1 : (memOrder m.so m.str).getLast? = some (m.str.getD u 0) := by
    simp [memOrder, List.getLast?_map, hu]
  have hne : m.so ≠ [] := by intro h; simp [h] at hu
  rw [hd, List.getLast?_map, dense_getLast? _ (by simpa [memOrder] using hne)] at h1
  simpa using h1.symm

/-- The flags of a dense layout hold whatever they are. -/
theorem flagsOK_of_dense {m : IdxMap} (hd : Dense m) : FlagsOK m :=
  ⟨fun _ => fastestIs_of_evenlySpaced hd, fun _ => ⟨1, hd⟩⟩

theorem minStride_eq {m : IdxMap} (hw : WF m) (h0 : m.len ≠ []) :
    ∃ u, m.so.getLast? = some u ∧ u < m.len.length ∧ m.minStride = some (m.str.getD u 0) := by
  have hne : m.so ≠ [] := by
    intro h; apply h0; apply List.eq_nil_of_length_eq_zero; rw [← hw.so_len, h]; rfl
  obtain ⟨u, hu⟩ : ∃ u, m.so.getLast? = some u := by
    cases h : m.so.getLast? with
    | none => simp at h; exact absurd h hne
    | some u => exact ⟨u, rfl⟩
  have hu' : u < m.len.length := by
    have := IsPerm.lt hw.perm (List.mem_of_getLast? hu); rw [← hw.so_len]; exact this
  exact ⟨u, hu, hu', by simp [minStride, hu, rd_getD (show u < m.str.length by rw [hw.str_len]; exact hu')]⟩

/-! ### The call operator -/

theorem myget_idx {m : IdxMap} (hw : WF m) (hf : SmallestOK m) {k : Nat} (hk : k < m.len.length) (i : Int) :
    myget m m.prop.smallestOne k (.idx i) = some (m.str.getD k 0 * i) := by
  simp only [myget]
  split
  · rename_i h
    simp only [Bool.and_eq_true, decide_eq_true_eq] at h
    rw [hf h.1 k h.2.symm, Int.one_mul]
  · rw [rd_getD (by rw [hw.str_len]; exact hk)]
    simp [Int.mul_comm]

theorem dot_drop {s : List Int} {k : Nat} (hk : k < s.length) (i : Int) (is : List Int) :
    dot (s.drop k) (i :: is) = s.getD k 0 * i + dot (s.drop (k + 1)) is := by
  rw [List.drop_eq_getElem_cons hk]
  simp [dot, hk]

theorem callFrom_noEll {m : IdxMap} (hw : WF m) (hf : SmallestOK m) (is : List Int) (k : Nat)
    (h : k + is.length = m.len.length) :
    callFrom m (-1) k (is.map .idx) = some (dot (m.str.drop k) is) := by
  induction is generalizing k with
  | nil => simp [callFrom]; cases m.str.drop k <;> rfl
  | cons i is ih =>
    simp only [List.length_cons] at h
    simp only [List.map_cons, callFrom, if_true]
    rw [myget_idx hw hf (by omega) i, ih (k + 1) (by omega), dot_drop (by rw [hw.str_len]; omega)]
    rfl

theorem callFrom_after {m : IdxMap} (hw : WF m) (hf : SmallestOK m) (is : List Int) (k e : Nat)
    (he : e ≤ k) (h : k + is.length = m.len.length) :
    callFrom m e (k + 1) (is.map .idx) = some (dot (m.str.drop k) is) := by
  induction is generalizing k with
  | nil => simp [callFrom]; cases m.str.drop k <;> rfl
  | cons i is ih =>
    simp only [List.length_cons] at h
    simp only [List.map_cons, callFrom]
    rw [if_neg (by omega), if_neg (by omega), Nat.add_sub_cancel, myget_idx hw hf (by omega) i,
      ih (k + 1) (by omega) (by omega), dot_drop (by rw [hw.str_len]; omega)]
    rfl

theorem callFrom_ell {m : IdxMap} (hw : WF m) (hf : SmallestOK m) (is js : List Int) (k : Nat)
    (h : k + is.length + js.length = m.len.length) :
    callFrom m ((k + is.length : Nat) : Int) k (is.map .idx ++ .ell :: js.map .idx) =
      some (dot (m.str.drop k) (is ++ js)) := by
  induction is generalizing k with
  | nil =>
    simp only [List.map_nil, List.nil_append, callFrom, myget, List.length_nil, Nat.add_zero]
    rw [callFrom_after hw hf js k k (Nat.le_refl k) (by simpa using h)]
    simp
  | cons i is ih =>
    simp only [List.length_cons] at h
    simp only [List.map_cons, List.cons_append, callFrom, List.length_cons]
    rw [if_neg (by omega), if_pos (by omega), myget_idx hw hf (by omega) i]
    have := ih (k + 1) (by omega)
    have e : ((k + 1 + is.length : Nat) : Int) = ((k + (is.length + 1) : Nat) : Int) := by omega
    rw [e] at this
    rw [this, dot_drop (by rw [hw.str_len]; omega)]
    rfl

theorem ePosSum_idx (is : List Int) (k : Nat) : ePosSum k ((is.map CArg.idx).map CArg.isEll) = 0 := by
  induction is generalizing k with
  | nil => rfl
  | cons i is ih => simpa [ePosSum, CArg.isEll] using ih (k + 1)

theorem ePosSum_ell (is js : List Int) (k : Nat) :
    ePosSum k ((is.map CArg.idx ++ CArg.ell :: js.map CArg.idx).map CArg.isEll) = k + is.length + 1 := by
  induction is generalizing k with
  | nil => simpa [ePosSum, CArg.isEll] using ePosSum_idx js (k + 1)
  | cons i is ih =>
    have := ih (k + 1)
    simp only [List.map_cons, List.cons_append, ePosSum, CArg.isEll, List.length_cons]
    rw [this]; simp; omega

theorem count_idx (is : List Int) : ((is.map CArg.idx).map CArg.isEll).count true = 0 := by
  induction is with
  | nil => rfl
  | cons i is ih => simpa [CArg.isEll] using ih

/-- The call operator with integer arguments computes the offset. -/
theorem call_idx {m : IdxMap} (hw : WF m) (hf : SmallestOK m) (is : List Int)
    (h : is.length = m.len.length) : m.call (is.map .idx) = some (offset m is) := by
  simp only [call, count_idx, rank, List.length_map, h, Nat.add_zero, if_true]
  rw [if_neg (by omega), ePos, ePosSum_idx]
  simpa [offset] using callFrom_noEll hw hf is 0 (by simpa using h)

/-- An empty ellipsis anywhere among the arguments changes nothing. -/
theorem call_ell {m : IdxMap} (hw : WF m) (hf : SmallestOK m) (is js : List Int)
    (h : is.length + js.length = m.len.length) :
    m.call (is.map .idx ++ .ell :: js.map .idx) = some (offset m (is ++ js)) := by
  have hc : ((is.map CArg.idx ++ CArg.ell :: js.map CArg.idx).map CArg.isEll).count true = 1 := by
    rw [List.map_append, List.count_append, List.map_cons, count_idx]
    simp only [CArg.isEll, List.count_cons, count_idx]; rfl
  simp only [call, hc, rank]
  rw [if_pos (by simp; omega), if_neg (by omega), ePos, ePosSum_ell]
  have := callFrom_ell hw hf is js 0 (by simpa using h)
  simpa [offset] using this

/-! ### `to_idx` -/

theorem reach_bound : ∀ {ss ls is : List Int}, Nested ss ls → InRange ls is →
    0 ≤ dot ss is ∧ dot ss is ≤ reach ss ls ∧ ∀ s ∈ ss, 0 < s
  | [], [], [], _, _ => by simp [dot, reach]
  | s :: ss, l :: ls, i :: is, hn, hi => by
    obtain ⟨h1, h2, h3⟩ := reach_bound hn.2 hi.2
    have hs : 0 < s := by have := hn.1; omega
    have a1 := Int.mul_nonneg (Int.le_of_lt hs) hi.1.1
    have a2 : s * i ≤ s * (l - 1) := Int.mul_le_mul_of_nonneg_left (by have := hi.1; omega) (Int.le_of_lt hs)
    refine ⟨by simp only [dot]; omega, by simp only [dot, reach]; omega, ?_⟩
    intro x hx
    rcases List.mem_cons.mp hx with rfl | hx
    · exact hs
    · exact h3 x hx

theorem residues_digits : ∀ {ss ls is : List Int}, ss ≠ [] → Nested ss ls → InRange ls is →
    ∃ rs, residues (dot ss is) ss = some (dot ss is :: rs) ∧ digits (dot ss is :: rs) ss = some is
  | [s], [l], [i], _, hn, hi => by
    have hs : 0 < s := by have := hn.1; simp [reach] at this; omega
    refine ⟨[], by simp [residues], ?_⟩
    simp only [digits, dot]
    rw [if_neg (by omega), Int.add_zero, Int.mul_tdiv_cancel_left _ (by omega)]
  | s :: s' :: ss, l :: l' :: ls, i :: i' :: is, _, hn, hi => by
    obtain ⟨rs, h1, h2⟩ := residues_digits (ss := s' :: ss) (by simp) hn.2 hi.2
    obtain ⟨b1, b2, b3⟩ := reach_bound hn.2 hi.2
    have hb := hn.1
    have hs : 0 < s := by omega
    have e1 : dot (s :: s' :: ss) (i :: i' :: is) = s * i + dot (s' :: ss) (i' :: is) := rfl
    generalize hd : dot (s' :: ss) (i' :: is) = d at *
    have e2 : (s * i + d).tmod s = d := by
      rw [Int.tmod_eq_emod_of_nonneg (by have := Int.mul_nonneg (Int.le_of_lt hs) hi.1.1; omega),
        Int.mul_add_emod_self_left]
      exact Int.emod_eq_of_lt b1 (by omega)
    refine ⟨d :: rs, ?_, ?_⟩
    · rw [e1]; simp only [residues]; rw [if_neg (by omega), e2, h1]; rfl
    · rw [e1]; simp only [digits]
      rw [if_neg (by omega), h2]
      have : s * i + d - d = s * i := by omega
      rw [this, Int.mul_tdiv_cancel_left _ (by omega)]; rfl

theorem nested_dense : ∀ {ls : List Int}, (∀ l ∈ ls, 0 < l) →
    Nested (dense ls) ls ∧ reach (dense ls) ls = prod ls - 1
  | [], _ => by simp [dense, Nested, reach, prod]
  | l :: ls, h => by
    obtain ⟨h1, h2⟩ := nested_dense (ls := ls) (fun x hx => h x (List.mem_cons_of_mem _ hx))
    have hp := prod_pos (len := ls) (fun x hx => h x (List.mem_cons_of_mem _ hx))
    refine ⟨⟨by omega, h1⟩, ?_⟩
    simp only [dense, reach, h2, prod]; ring

/-- `to_idx` recovers the index tuple from its offset, for all layouts with nested strides. -/
theorem toIdx_offset {m : IdxMap} (hw : WF m) (h0 : m.len ≠ [])
    (hn : Nested (memOrder m.so m.str) (memOrder m.so m.len)) {idx : List Int}
    (hi : InRange m.len idx) : m.toIdx (offset m idx) = some idx := by
  have hil : idx.length = m.so.length := by rw [hi.length_eq, hw.so_len]
  have hsl : m.str.length = m.so.length := by rw [hw.str_len, hw.so_len]
  rw [toIdx, apply_perm_eq_memOrder hw.perm hsl]
  have hne : memOrder m.so m.str ≠ [] := by
    intro h; apply h0; apply List.eq_nil_of_length_eq_zero
    rw [← hw.so_len, ← memOrder_length m.so m.str, h]; rfl
  obtain ⟨rs, h1, h2⟩ := residues_digits hne hn
    ((inRange_memOrder hw.perm hw.so_len.symm hil).mpr hi)
  rw [dot_memOrder hw.perm hsl hil] at h1 h2
  simp only [Option.bind_eq_bind, Option.bind_some, offset, h1, h2]
  exact (applyInverse_eq_some hw.perm (by simp [memOrder])).mpr ⟨hil, rfl⟩

end Nda.IdxMap
