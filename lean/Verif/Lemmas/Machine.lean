import Verif.Model.Machine
import Verif.Spec.Machine
import Verif.Lemmas.SliceFlags
import Verif.Lemmas.Transpose
import Verif.Lemmas.Views
import Verif.Props.Iterators
import Mathlib.Tactic.Linarith
import Mathlib.Tactic.Ring
import Mathlib.Tactic.Positivity
/-!
# Lemmas on the layout arithmetic in machine integers
-/
namespace Nda.Machine
open Nda Nda.Spec IdxMap LayoutTransforms

theorem chk_of_abs {x : Int} (h : |x| ≤ 9223372036854775807) : chk x = some x := by
  have := abs_le.mp h
  rw [chk, if_pos (by omega)]

theorem chk_eq_some {x y : Int} (h : chk x = some y) : y = x := by
  unfold chk at h; split at h
  · exact (Option.some.inj h).symm
  · cases h

theorem volume_cons (l : Int) (ls : List Int) : volume (l :: ls) = max l 1 * volume ls := rfl

theorem one_le_volume : ∀ ls : List Int, 1 ≤ volume ls
  | [] => le_refl _
  | l :: ls => by
    have := one_le_volume ls
    rw [volume_cons]
    have h : 1 ≤ max l 1 := le_max_right _ _
    nlinarith

theorem extentOf_nonneg : ∀ ls ss : List Int, 0 ≤ extentOf ls ss
  | [], _ => by simp [extentOf]
  | _ :: _, [] => by simp [extentOf]
  | l :: ls, s :: ss => by
    have := extentOf_nonneg ls ss
    have h : 0 ≤ max l 1 - 1 := by have := le_max_right l 1; omega
    have := mul_nonneg h (abs_nonneg s)
    simp only [extentOf]; omega

theorem Small.tail {B l s : Int} {ls ss : List Int} (h : Small B (l :: ls) (s :: ss)) :
    Small B ls ss ∧ 0 ≤ l ∧ l ≤ B ∧ |s| ≤ B ∧ (max l 1 - 1) * |s| + extentOf ls ss ≤ B ∧ 0 ≤ (max l 1 - 1) * |s| := by
  have h1 : 0 ≤ max l 1 - 1 := by have := le_max_right l 1; omega
  have h2 := mul_nonneg h1 (abs_nonneg s)
  have h3 := h.extent
  simp only [extentOf] at h3
  have h4 := h.volume
  rw [volume_cons] at h4
  have h5 := one_le_volume ls
  have h6 : l ≤ max l 1 := le_max_left _ _
  have h7 : 1 ≤ max l 1 := le_max_right _ _
  refine ⟨⟨by simpa using h.same, fun x hx => h.nonneg x (List.mem_cons_of_mem _ hx), by nlinarith, by omega, fun x hx => h.stride x (List.mem_cons_of_mem _ hx)⟩,
    h.nonneg l List.mem_cons_self, by nlinarith, h.stride s List.mem_cons_self, h3, h2⟩

theorem Small.nonneg_bound {B : Int} {ls ss : List Int} (h : Small B ls ss) : 1 ≤ B := le_trans (one_le_volume ls) h.volume

/-! ### Size and strides -/

theorem prod_le_volume : ∀ {ls : List Int}, NonNeg ls → prod ls ≤ volume ls ∧ 0 ≤ prod ls
  | [], _ => by simp [prod, volume]
  | l :: ls, h => by
    have hl := h l List.mem_cons_self
    obtain ⟨h1, h2⟩ := prod_le_volume (ls := ls) (fun x hx => h x (List.mem_cons_of_mem _ hx))
    rw [volume_cons, prod]
    have : l ≤ max l 1 := le_max_left _ _
    have := one_le_volume ls
    exact ⟨by nlinarith, mul_nonneg hl h2⟩

theorem foldlM_mulL : ∀ {ls : List Int} {a : Int}, NonNeg ls → 0 ≤ a → max a 1 * volume ls ≤ 9223372036854775807 → ls.foldlM mulL a = some (a * prod ls)
  | [], a, _, _, _ => by simp [prod]
  | l :: ls, a, hn, ha, h => by
    have hl := hn l List.mem_cons_self
    rw [volume_cons] at h
    have h1 := one_le_volume ls
    have h2 : a ≤ max a 1 := le_max_left _ _
    have h3 : l ≤ max l 1 := le_max_left _ _
    have h4 : 1 ≤ max a 1 := le_max_right _ _
    have h5 : 1 ≤ max l 1 := le_max_right _ _
    have h6 : 0 ≤ a * l := mul_nonneg ha hl
    have h7 : a * l ≤ max a 1 * max l 1 := mul_le_mul h2 h3 hl (by omega)
    have h8 : max (a * l) 1 ≤ max a 1 * max l 1 := max_le h7 (by nlinarith)
    have h9 : max (a * l) 1 * volume ls ≤ 9223372036854775807 := by
      calc _ ≤ (max a 1 * max l 1) * volume ls := mul_le_mul_of_nonneg_right h8 (by omega)
        _ = max a 1 * (max l 1 * volume ls) := by ring
        _ ≤ _ := h
    have h10 : a * l ≤ 9223372036854775807 := by
      have : a * l ≤ max (a * l) 1 := le_max_left _ _
      nlinarith
    rw [List.foldlM_cons, mulL, chk_of_abs (by rw [abs_of_nonneg h6]; exact h10)]
    simp only [Option.bind_eq_bind, Option.bind_some]
    rw [foldlM_mulL (fun x hx => hn x (List.mem_cons_of_mem _ hx)) h6 h9, prod, mul_assoc]

theorem sizeL_eq {len : List Int} (hn : NonNeg len) (h : volume len ≤ 9223372036854775807) : sizeL len = some (prod len) := by
  rw [sizeL, foldlM_mulL hn (by omega) (by simpa using h), one_mul]

theorem stridesLoopL_eq (len : List Int) : ∀ (us : List Nat) (s : Int) (str : List Int), (∀ k ∈ us, 0 ≤ len.getD k 0) → 0 ≤ s →
    max s 1 * volume (us.map fun k => len.getD k 0) ≤ 9223372036854775807 → stridesLoopL len us s str = stridesLoop len us s str
  | [], _, _, _, _, _ => rfl
  | u :: us, s, str, hn, hs, h => by
    rw [stridesLoopL, stridesLoop]
    cases hr : rd len u with
    | none => rfl
    | some l =>
      have hl' : len.getD u 0 = l := by simp only [rd] at hr; simp [List.getD_eq_getElem?_getD, hr]
      have hl : 0 ≤ l := by have := hn u List.mem_cons_self; omega
      cases hwr : wr str u s with
      | none => rfl
      | some str' =>
        simp only [Option.bind_eq_bind, Option.bind_some]
        rw [List.map_cons, volume_cons, hl'] at h
        have h1 := one_le_volume (us.map fun k => len.getD k 0)
        have h2 : s ≤ max s 1 := le_max_left _ _
        have h3 : l ≤ max l 1 := le_max_left _ _
        have h4 : 1 ≤ max s 1 := le_max_right _ _
        have h5 : 1 ≤ max l 1 := le_max_right _ _
        have h6 : 0 ≤ s * l := mul_nonneg hs hl
        have h7 : s * l ≤ max s 1 * max l 1 := mul_le_mul h2 h3 hl (by omega)
        have h8 : max (s * l) 1 ≤ max s 1 * max l 1 := max_le h7 (by nlinarith)
        have h9 : max (s * l) 1 * volume (us.map fun k => len.getD k 0) ≤ 9223372036854775807 := by
          calc _ ≤ (max s 1 * max l 1) * volume _ := mul_le_mul_of_nonneg_right h8 (by omega)
            _ = max s 1 * (max l 1 * volume _) := by ring
            _ ≤ _ := h
        have h10 : s * l ≤ 9223372036854775807 := by
          have : s * l ≤ max (s * l) 1 := le_max_left _ _
          nlinarith
        rw [mulL, chk_of_abs (by rw [abs_of_nonneg h6]; exact h10)]
        simp only [Option.bind_some]
        exact stridesLoopL_eq len us (s * l) str' (fun k hk => hn k (List.mem_cons_of_mem _ hk)) h6 h9

theorem volume_perm {a b : List Int} (h : a.Perm b) : volume a = volume b := by
  rw [volume, volume, prod_eq_list_prod, prod_eq_list_prod]
  exact (h.map _).prod_eq

theorem volume_memOrder {so : List Nat} {l : List Int} (hp : IsPerm so) (hl : l.length = so.length) : volume (memOrder so l) = volume l :=
  volume_perm (memOrder_perm hp hl)

theorem extentOf_eq_sum : ∀ (ls ss : List Int), extentOf ls ss = (List.zipWith (fun l s => (max l 1 - 1) * |s|) ls ss).sum
  | [], _ => by simp [extentOf]
  | _ :: _, [] => by simp [extentOf]
  | l :: ls, s :: ss => by simp [extentOf, extentOf_eq_sum ls ss]

theorem extentOf_memOrder {so : List Nat} {a b : List Int} (hp : IsPerm so) (ha : a.length = so.length) (hb : b.length = so.length) :
    extentOf (memOrder so a) (memOrder so b) = extentOf a b := by
  rw [extentOf_eq_sum, extentOf_eq_sum, zipWith_memOrder _ (fun k hk => by have := Perm.IsPerm.lt hp hk; omega)]
  apply List.Perm.sum_eq
  exact memOrder_perm hp (by simp [ha, hb])

theorem small_memOrder {B : Int} {so : List Nat} {a b : List Int} (hp : IsPerm so) (ha : a.length = so.length) (hb : b.length = so.length) :
    Small B (memOrder so a) (memOrder so b) ↔ Small B a b := by
  have pa := memOrder_perm hp ha
  have pb := memOrder_perm hp hb
  constructor
  · intro h
    exact ⟨by rw [ha, hb], fun x hx => h.nonneg x (pa.mem_iff.mpr hx), by rw [← volume_memOrder hp ha]; exact h.volume, by rw [← extentOf_memOrder hp ha hb]; exact h.extent,
      fun x hx => h.stride x (pb.mem_iff.mpr hx)⟩
  · intro h
    exact ⟨by simp [memOrder], fun x hx => h.nonneg x (pa.mem_iff.mp hx), by rw [volume_memOrder hp ha]; exact h.volume, by rw [extentOf_memOrder hp ha hb]; exact h.extent,
      fun x hx => h.stride x (pb.mem_iff.mp hx)⟩

theorem small_dense : ∀ {ls : List Int}, NonNeg ls → extentOf ls (dense ls) ≤ volume ls - 1 ∧ ∀ s ∈ dense ls, |s| ≤ volume ls
  | [], _ => by simp [extentOf, dense, volume, prod]
  | l :: ls, h => by
    obtain ⟨h1, h2⟩ := small_dense (ls := ls) (fun x hx => h x (List.mem_cons_of_mem _ hx))
    obtain ⟨h3, h4⟩ := prod_le_volume (ls := ls) (fun x hx => h x (List.mem_cons_of_mem _ hx))
    have h5 := one_le_volume ls
    have h7 : 1 ≤ max l 1 := le_max_right _ _
    rw [volume_cons]
    refine ⟨?_, fun s hs => ?_⟩
    · simp only [dense, extentOf]
      rw [abs_of_nonneg h4]
      nlinarith
    · rcases List.mem_cons.mp hs with rfl | hs
      · rw [abs_of_nonneg h4]; nlinarith
      · have := h2 s hs; nlinarith

theorem small_of_dense {B : Int} {m : IdxMap} (hw : WF m) (hd : Dense m) (hn : NonNeg m.len) (h : volume m.len ≤ B) : Small B m.len m.str := by
  have hl : m.len.length = m.so.length := hw.so_len.symm
  have hs : m.str.length = m.so.length := by rw [hw.str_len, hw.so_len]
  rw [← small_memOrder hw.perm hl hs]
  have he : memOrder m.so m.str = dense (memOrder m.so m.len) := by
    have : EvenlySpaced m 1 := hd
    rw [EvenlySpaced] at this; simpa using this
  have hn' : NonNeg (memOrder m.so m.len) := fun x hx => hn x ((memOrder_perm hw.perm hl).mem_iff.mp hx)
  obtain ⟨h1, h2⟩ := small_dense hn'
  have h3 := volume_memOrder hw.perm hl
  rw [he]
  exact ⟨by simp [dense_length], hn', by omega, by omega, fun s hs => by have := h2 s hs; omega⟩

/-! ### Access -/

theorem abs_dot_le : ∀ {ls ss is : List Int}, InRange ls is → |dot ss is| ≤ extentOf ls ss
  | [], ss, [], _ => by cases ss <;> simp [dot, extentOf]
  | l :: ls, [], i :: is, _ => by simp [dot, extentOf]
  | l :: ls, s :: ss, i :: is, h => by
    have ih := abs_dot_le (ss := ss) h.2
    obtain ⟨h0, h1⟩ := h.1
    have h2 : l ≤ max l 1 := le_max_left _ _
    simp only [dot, extentOf]
    have h3 : |s * i| ≤ (max l 1 - 1) * |s| := by
      rw [abs_mul, abs_of_nonneg h0, mul_comm]
      exact mul_le_mul_of_nonneg_right (by omega) (abs_nonneg s)
    exact (abs_add_le _ _).trans (by omega)

theorem mygetL_eq {m : IdxMap} (hw : WF m) (hf : SmallestOK m) {k : Nat} (hk : k < m.len.length) {i : Int} (h : |m.str.getD k 0 * i| ≤ 9223372036854775807) :
    mygetL m m.prop.smallestOne k (.idx i) = some (m.str.getD k 0 * i) := by
  simp only [mygetL]
  split
  · rename_i h
    simp only [Bool.and_eq_true, decide_eq_true_eq] at h
    rw [hf h.1 k h.2.symm, Int.one_mul]
  · rw [rd_getD (by rw [hw.str_len]; exact hk)]
    simp only [Option.bind_eq_bind, Option.bind_some, mulL]
    rw [mul_comm i, chk_of_abs h]

theorem extentOf_drop : ∀ (k : Nat) (ls ss : List Int), extentOf (ls.drop k) (ss.drop k) ≤ extentOf ls ss
  | 0, _, _ => le_refl _
  | k + 1, [], ss => by simp [extentOf]
  | k + 1, l :: ls, [] => by simp [extentOf]
  | k + 1, l :: ls, s :: ss => by
    have := extentOf_drop k ls ss
    have h : 0 ≤ max l 1 - 1 := by have := le_max_right l 1; omega
    have := mul_nonneg h (abs_nonneg s)
    simp only [extentOf, List.drop_succ_cons]; omega

theorem term_bound {len str : List Int} {k : Nat} (hl : str.length = len.length) (hk : k < len.length) {i : Int} {is : List Int} (hi : InRange (len.drop k) (i :: is)) {M : Int}
    (h : extentOf len str ≤ M) : |str.getD k 0 * i| ≤ M ∧ |str.getD k 0 * i + dot (str.drop (k + 1)) is| ≤ M ∧ InRange (len.drop (k + 1)) is := by
  have hd := extentOf_drop k len str
  have hk' : k < str.length := by omega
  have hi' := hi
  rw [List.drop_eq_getElem_cons hk] at hi
  have h1 := abs_dot_le (ss := str.drop k) hi'
  rw [dot_drop hk'] at h1
  have h2 : |str.getD k 0 * i| ≤ extentOf (len.drop k) (str.drop k) := by
    rw [List.drop_eq_getElem_cons hk, List.drop_eq_getElem_cons hk', extentOf]
    obtain ⟨⟨h3, h4⟩, -⟩ := hi
    have h5 : len[k] ≤ max len[k] 1 := le_max_left _ _
    have h6 := extentOf_nonneg (len.drop (k + 1)) (str.drop (k + 1))
    have h7 : str.getD k 0 = str[k] := by simp [hk']
    have h8 : |str[k] * i| ≤ (max len[k] 1 - 1) * |str[k]| := by
      rw [abs_mul, abs_of_nonneg h3, mul_comm]
      exact mul_le_mul_of_nonneg_right (by omega) (abs_nonneg _)
    rw [h7]; omega
  exact ⟨by omega, by omega, hi.2⟩

section
variable {m : IdxMap} (hw : WF m) (hf : SmallestOK m) (hM : extentOf m.len m.str ≤ 9223372036854775807)
include hw hf hM

theorem callFromL_noEll (is : List Int) (k : Nat) (h : k + is.length = m.len.length) (hi : InRange (m.len.drop k) is) :
    callFromL m (-1) k (is.map .idx) = some (dot (m.str.drop k) is) := by
  induction is generalizing k with
  | nil => simp [callFromL]; cases m.str.drop k <;> rfl
  | cons i is ih =>
    simp only [List.length_cons] at h
    obtain ⟨h1, h2, h3⟩ := term_bound hw.str_len (by omega) hi hM
    simp only [List.map_cons, callFromL, if_true]
    rw [mygetL_eq hw hf (by omega) h1, ih (k + 1) (by omega) h3, dot_drop (by rw [hw.str_len]; omega)]
    simp only [Option.bind_eq_bind, Option.bind_some]
    exact chk_of_abs h2

theorem callFromL_after (is : List Int) (k e : Nat) (he : e ≤ k) (h : k + is.length = m.len.length) (hi : InRange (m.len.drop k) is) :
    callFromL m e (k + 1) (is.map .idx) = some (dot (m.str.drop k) is) := by
  induction is generalizing k with
  | nil => simp [callFromL]; cases m.str.drop k <;> rfl
  | cons i is ih =>
    simp only [List.length_cons] at h
    obtain ⟨h1, h2, h3⟩ := term_bound hw.str_len (by omega) hi hM
    simp only [List.map_cons, callFromL]
    rw [if_neg (by omega), if_neg (by omega), Nat.add_sub_cancel, mygetL_eq hw hf (by omega) h1, ih (k + 1) (by omega) (by omega) h3, dot_drop (by rw [hw.str_len]; omega)]
    simp only [Option.bind_eq_bind, Option.bind_some]
    exact chk_of_abs h2

theorem callFromL_ell (is js : List Int) (k : Nat) (h : k + is.length + js.length = m.len.length) (hi : InRange (m.len.drop k) (is ++ js)) :
    callFromL m ((k + is.length : Nat) : Int) k (is.map .idx ++ .ell :: js.map .idx) = some (dot (m.str.drop k) (is ++ js)) := by
  induction is generalizing k with
  | nil =>
    simp only [List.map_nil, List.nil_append, callFromL, mygetL, List.length_nil, Nat.add_zero]
    rw [callFromL_after hw hf hM js k k (Nat.le_refl k) (by simpa using h) hi]
    simp only [Option.bind_eq_bind, Option.bind_some, addL, zero_add]
    exact chk_of_abs (((abs_dot_le hi).trans (extentOf_drop _ _ _)).trans hM)
  | cons i is ih =>
    simp only [List.length_cons] at h
    obtain ⟨h1, h2, h3⟩ := term_bound hw.str_len (by omega) hi hM
    simp only [List.map_cons, List.cons_append, callFromL, List.length_cons]
    rw [if_neg (by omega), if_pos (by omega), mygetL_eq hw hf (by omega) h1]
    have := ih (k + 1) (by omega) h3
    have e : ((k + 1 + is.length : Nat) : Int) = ((k + (is.length + 1) : Nat) : Int) := by omega
    rw [e] at this
    rw [this, dot_drop (by rw [hw.str_len]; omega)]
    simp only [Option.bind_eq_bind, Option.bind_some]
    exact chk_of_abs h2

theorem callL_idx (is : List Int) (hi : InRange m.len is) : callL m (is.map .idx) = some (offset m is) := by
  have h := hi.length_eq
  simp only [callL, count_idx, rank, List.length_map, h, Nat.add_zero, if_true]
  rw [if_neg (by omega), ePos, ePosSum_idx]
  simpa [offset] using callFromL_noEll hw hf hM is 0 (by simpa using h) (by simpa using hi)

theorem callL_ell (is js : List Int) (hi : InRange m.len (is ++ js)) : callL m (is.map .idx ++ .ell :: js.map .idx) = some (offset m (is ++ js)) := by
  have h := hi.length_eq
  rw [List.length_append] at h
  have hc : ((is.map CArg.idx ++ CArg.ell :: js.map CArg.idx).map CArg.isEll).count true = 1 := by
    rw [List.map_append, List.count_append, List.map_cons, count_idx]
    simp only [CArg.isEll, List.count_cons, count_idx]; rfl
  simp only [callL, hc, rank]
  rw [if_pos (by simp; omega), if_neg (by omega), ePos, ePosSum_ell]
  have := callFromL_ell hw hf hM is js 0 (by simpa using h) (by simpa using hi)
  simpa [offset] using this

end

/-! ### Queries -/

theorem strTimesLenL_eq {B : Int} {m : IdxMap} (h : Small B m.len m.str) (hB : 2 * B ≤ 9223372036854775807) : strTimesLenL m = some m.strTimesLen := by
  have key : ∀ (ls ss : List Int), Small B ls ss → (ss.zip ls).mapM (fun x => mulL x.1 x.2) = some (List.zipWith (· * ·) ss ls) := by
    intro ls
    induction ls with
    | nil => intro ss _; simp
    | cons l ls ih =>
      intro ss h
      cases ss with
      | nil => simp
      | cons s ss =>
        obtain ⟨h1, h2, h3, h4, h5, h6⟩ := Small.tail h
        have h7 := extentOf_nonneg ls ss
        have h8 : l ≤ max l 1 := le_max_left _ _
        have h9 : |s * l| ≤ 9223372036854775807 := by
          rw [abs_mul, abs_of_nonneg h2, mul_comm]
          have := mul_le_mul_of_nonneg_right h8 (abs_nonneg s)
          nlinarith
        have hm : mulL s l = some (s * l) := chk_of_abs h9
        simp only [List.zip_cons_cons, List.mapM_cons, ih ss h1, hm, Option.bind_eq_bind, Option.bind_some, List.zipWith_cons_cons, Option.pure_def]
  exact key m.len m.str h

theorem evenly_bound {B c : Int} {m : IdxMap} (hw : WF m) (h : Small B m.len m.str) (h0 : m.len ≠ []) (hc : EvenlySpaced m c) (hp : ∀ l ∈ m.len, 0 < l) :
    |c| ≤ B ∧ |prod m.len * c| ≤ 2 * B ∧ (prod m.len - 1) * |c| ≤ B := by
  have hl : m.len.length = m.so.length := hw.so_len.symm
  have hs : m.str.length = m.so.length := by rw [hw.str_len, hw.so_len]
  have h' := (small_memOrder hw.perm hl hs).mpr h
  rw [EvenlySpaced] at hc
  rw [hc] at h'
  have hp' : ∀ l ∈ memOrder m.so m.len, 0 < l := fun l hl' => hp l ((memOrder_perm hw.perm hl).mem_iff.mp hl')
  have hne : memOrder m.so m.len ≠ [] := by
    intro h; apply h0; apply List.eq_nil_of_length_eq_zero
    rw [hl, ← memOrder_length m.so m.len, h]; rfl
  have key : ∀ {ls : List Int}, (∀ l ∈ ls, 0 < l) → extentOf ls ((dense ls).map (c * ·)) = (prod ls - 1) * |c| := by
    intro ls
    induction ls with
    | nil => intro _; simp [extentOf, dense, prod]
    | cons l ls ih =>
      intro hp
      have hl := hp l List.mem_cons_self
      have hq := prod_pos (len := ls) (fun x hx => hp x (List.mem_cons_of_mem _ hx))
      simp only [dense, List.map_cons, extentOf, prod]
      rw [ih (fun x hx => hp x (List.mem_cons_of_mem _ hx)), max_eq_left (by omega), abs_mul, abs_of_pos hq]
      ring
  have h1 := h'.extent
  rw [key hp', prod_memOrder hw.perm hl] at h1
  have h2 : |c| ≤ B := by
    have hlast := dense_getLast? _ hne
    apply h'.stride
    rw [List.mem_map]
    exact ⟨1, List.mem_of_getLast? hlast, by simp⟩
  have hq := prod_pos hp
  refine ⟨h2, ?_, h1⟩
  rw [abs_mul, abs_of_pos hq]
  nlinarith

/-! ### Slices -/
section
open Slice

theorem sumL_eq {M : Int} (hM : M ≤ 9223372036854775807) : ∀ {xs : List Int}, (xs.map (|·|)).sum ≤ M → sumL xs = some xs.sum ∧ |xs.sum| ≤ (xs.map (|·|)).sum
  | [], _ => by simp [sumL]
  | x :: xs, h => by
    simp only [List.map_cons, List.sum_cons] at h ⊢
    have hx := abs_nonneg x
    obtain ⟨h1, h2⟩ := sumL_eq hM (xs := xs) (by omega)
    have h3 := abs_add_le x xs.sum
    refine ⟨?_, by omega⟩
    simp only [sumL, h1, Option.bind_eq_bind, Option.bind_some, addL]
    exact chk_of_abs (by omega)

/-- What the ranges of a slice do to one dimension. -/
theorem rng_facts {f la st l : Int} (hin : ArgInside (.rng f la st) l) (hl : 0 ≤ l) :
    0 ≤ gl (.rng f la st) l ∧ gl (.rng f la st) l ≤ max l 1 ∧ (max (gl (.rng f la st) l) 1 - 1) * |st| ≤ max l 1 - 1 := by
  have hst := hin.1
  have hc := gl_isCount (f := f) (la := la) (l := l) hst
  generalize hn : gl (.rng f la st) l = n at *
  have h0 := hc.2.1
  have hstep : 1 ≤ |st| := by rcases abs_cases st with ⟨h, _⟩ | ⟨h, _⟩ <;> omega
  rcases Int.lt_or_le n 1 with h1 | h1
  · have : n = 0 := by omega
    subst this
    have := le_max_right l 1
    exact ⟨h0, by omega, by simp⟩
  · have a := hin.2 0 n hc (le_refl _) (by omega)
    have b := hin.2 (n - 1) n hc (by omega) (by omega)
    rw [max_eq_left (by omega : (1 : Int) ≤ n), max_eq_left (by omega : (1 : Int) ≤ l)]
    have hab : (n - 1) * |st| ≤ l - 1 := by
      rcases abs_cases st with ⟨h, _⟩ | ⟨h, _⟩
      · rw [h]; nlinarith
      · rw [h]; nlinarith
    exact ⟨h0, by nlinarith, hab⟩

theorem keep_bounds : ∀ {X : List Arg} {L S : List Int}, Arg.ell ∉ X → Inside X L → NonNeg L → S.length = L.length →
    volume (keepMap gl X L) ≤ volume L ∧ extentOf (keepMap gl X L) (keepMap gs X S) ≤ extentOf L S ∧ NonNeg (keepMap gl X L)
  | [], [], S, _, _, _, _ => by simp [keepMap, NonNeg, extentOf]
  | a :: X, l :: L, [], _, _, _, h => by simp at h
  | a :: X, l :: L, s :: S, hX, hin, hn, h => by
    simp only [List.mem_cons, not_or] at hX
    have hl : 0 ≤ l := hn l List.mem_cons_self
    obtain ⟨i1, i2, i3⟩ := keep_bounds (S := S) hX.2 hin.2 (fun x hx => hn x (List.mem_cons_of_mem _ hx)) (by simpa using h)
    have v1 := one_le_volume (keepMap gl X L)
    have v2 := one_le_volume L
    have m1 : 1 ≤ max l 1 := le_max_right _ _
    have e1 : 0 ≤ (max l 1 - 1) * |s| := mul_nonneg (by omega) (abs_nonneg s)
    rw [volume_cons, extentOf]
    cases a with
    | ell => exact absurd rfl hX.1
    | idx i =>
      simp only [keepMap, isRange, Bool.false_eq_true, if_false]
      exact ⟨by nlinarith, by omega, i3⟩
    | all =>
      simp only [keepMap, isRange, if_true, volume_cons, extentOf, gl, gs, getL, getS, Option.getD_some]
      refine ⟨by nlinarith, by omega, fun x hx => ?_⟩
      rcases List.mem_cons.mp hx with rfl | hx
      · exact hl
      · exact i3 x hx
    | rng f la st =>
      obtain ⟨r1, r2, r3⟩ := rng_facts hin.1 hl
      have m2 : max (gl (.rng f la st) l) 1 ≤ max l 1 := max_le r2 m1
      have m3 : 1 ≤ max (gl (.rng f la st) l) 1 := le_max_right _ _
      simp only [keepMap, isRange, if_true, volume_cons, extentOf]
      refine ⟨mul_le_mul m2 i1 (by omega) (by omega), ?_, fun x hx => ?_⟩
      · have : |gs (.rng f la st) s| = |s| * |st| := by simp [gs, getS, abs_mul]
        rw [this]
        have := mul_le_mul_of_nonneg_right r3 (abs_nonneg s)
        nlinarith
      · rcases List.mem_cons.mp hx with rfl | hx
        · exact r1
        · exact i3 x hx

/-- What is known of one dimension of a slice. -/
structure DimOK (B : Int) (a : Arg) (l s : Int) : Prop where
  off : |getOffset a s| ≤ (max l 1 - 1) * |s| + B ∧ |getOffset a s| ≤ 2 * B
  len : isRange a = true → ∀ n, getL a l = some n → |n| ≤ B
  str : isRange a = true → |gs a s| ≤ B

theorem dimOK {B l s : Int} {a : Arg} (ha : a ≠ .ell) (hin : ArgInside a l) (hm : ModestArg a l) (hl : 0 ≤ l) (hlB : l ≤ B) (hs : |s| ≤ B) (he : (max l 1 - 1) * |s| ≤ B) (hB : 1 ≤ B) :
    DimOK B a l s := by
  have m0 : l ≤ max l 1 := le_max_left _ _
  have m1 : 1 ≤ max l 1 := le_max_right _ _
  have e1 : 0 ≤ (max l 1 - 1) * |s| := mul_nonneg (by omega) (abs_nonneg s)
  cases a with
  | ell => exact absurd rfl ha
  | idx i =>
    have : |i * s| ≤ (max l 1 - 1) * |s| := by
      rw [abs_mul, abs_of_nonneg hin.1]
      exact mul_le_mul_of_nonneg_right (by have := hin.2; omega) (abs_nonneg s)
    exact ⟨⟨by simp only [getOffset]; omega, by simp only [getOffset]; omega⟩, fun h => (by simp [isRange] at h), fun h => (by simp [isRange] at h)⟩
  | all =>
    refine ⟨⟨by simp only [getOffset, abs_zero]; omega, by simp only [getOffset, abs_zero]; omega⟩, fun _ n h => ?_, fun _ => by simpa [gs, getS] using hs⟩
    simp only [getL, Option.some.injEq] at h
    rw [← h, abs_of_nonneg hl]; exact hlB
  | rng f la st =>
    obtain ⟨⟨f1, f2⟩, f3⟩ := hm
    obtain ⟨r1, r2, r3⟩ := rng_facts hin hl
    have hf : |f| ≤ max l 1 := abs_le.mpr ⟨by omega, by omega⟩
    have : |f * s| ≤ (max l 1 - 1) * |s| + |s| := by
      rw [abs_mul]
      have := mul_le_mul_of_nonneg_right hf (abs_nonneg s)
      nlinarith
    refine ⟨⟨by simp only [getOffset]; omega, by simp only [getOffset]; omega⟩, fun _ n h => ?_, fun _ => ?_⟩
    · have e : gl (.rng f la st) l = n := by simp [gl, h]
      rw [← e, abs_of_nonneg r1]
      have : max l 1 ≤ B := max_le hlB hB
      omega
    · have : |gs (.rng f la st) s| = |st| * |s| := by simp [gs, getS, abs_mul, mul_comm]
      rw [this]
      have a0 := abs_nonneg s
      have a1 := abs_nonneg st
      rcases f3 with h | h
      · nlinarith
      · have := mul_le_mul_of_nonneg_right (show |st| ≤ max l 1 - 1 by omega) a0
        omega

theorem dims_ok {B : Int} : ∀ {X : List Arg} {L S : List Int}, Arg.ell ∉ X → Inside X L → ModestArgs X L → Small B L S →
    ∀ n, n < X.length → DimOK B (at' X n) (L.getD n 0) (S.getD n 0)
  | [], _, _, _, _, _, _, n, hn => by simp at hn
  | a :: X, [], _, _, h, _, _, _, _ => h.elim
  | a :: X, l :: L, [], _, _, _, h, _, _ => by have := h.same; simp at this
  | a :: X, l :: L, s :: S, hX, hin, hm, h, n, hn => by
    simp only [List.mem_cons, not_or] at hX
    obtain ⟨t1, t2, t3, t4, t5, t6⟩ := Small.tail h
    cases n with
    | zero =>
      have := extentOf_nonneg L S
      have he : (max l 1 - 1) * |s| ≤ B := by omega
      exact dimOK (fun h => hX.1 h.symm) hin.1 hm.1 t2 t3 t4 he (Small.nonneg_bound h)
    | succ n => exact dims_ok hX.2 hin.2 hm.2 t1 n (by simpa using hn)

theorem keep_small {B : Int} {X : List Arg} {L S : List Int} (hX : Arg.ell ∉ X) (hin : Inside X L) (hm : ModestArgs X L) (h : Small B L S) :
    Small B (keepMap gl X L) (keepMap gs X S) := by
  obtain ⟨h1, h2, h3⟩ := keep_bounds (S := S) hX hin h.nonneg h.same
  have hl := inside_length hin
  refine ⟨by rw [keepMap_length _ _ _ hl, keepMap_length _ _ _ (by rw [h.same, hl])], h3, h1.trans h.volume, h2.trans h.extent, fun x hx => ?_⟩
  rw [← keptDims_map gs 0 X S (by rw [h.same, hl])] at hx
  obtain ⟨n, hn, rfl⟩ := List.mem_map.mp hx
  obtain ⟨hn, hk⟩ := mem_keptDims.mp hn
  exact (dims_ok hX hin hm h n hn).str hk

theorem offs_bound {B : Int} : ∀ {X : List Arg} {L S : List Int}, Arg.ell ∉ X → Inside X L → ModestArgs X L → Small B L S →
    ((List.zipWith getOffset X S).map (|·|)).sum ≤ extentOf L S + X.length * B
  | [], _, _, _, _, _, _ => by simp [extentOf_nonneg]
  | a :: X, [], _, _, h, _, _ => h.elim
  | a :: X, l :: L, [], _, _, _, h => by have := h.same; simp at this
  | a :: X, l :: L, s :: S, hX, hin, hm, h => by
    have h0 := (dims_ok hX hin hm h 0 (by simp)).off.1
    simp only [List.mem_cons, not_or] at hX
    have ih := offs_bound hX.2 hin.2 hm.2 (Small.tail h).1
    simp only [at', List.getD_cons_zero] at h0
    simp only [List.zipWith_cons_cons, List.map_cons, List.sum_cons, extentOf, List.length_cons]
    push_cast
    nlinarith

theorem mapM_congr' {α β : Type} {f g : α → Option β} {l : List α} (h : ∀ x ∈ l, f x = g x) : l.mapM f = l.mapM g := by
  induction l with
  | nil => rfl
  | cons x l ih => rw [List.mapM_cons, List.mapM_cons, h x List.mem_cons_self, ih (fun y hy => h y (List.mem_cons_of_mem _ hy))]

theorem getOffsetL_eq {a : Arg} {s : Int} (h : |getOffset a s| ≤ 9223372036854775807) : getOffsetL a s = some (getOffset a s) := by
  cases a <;> simp only [getOffsetL, getOffset] at h ⊢ <;> first | rfl | exact chk_of_abs h

theorem sliceL_eq {B : Int} {m : IdxMap} (hw : WF m) (h : Small B m.len m.str) (hB : 16 * B ≤ 9223372036854775807) {args : List Arg} (hr : m.rank < 16) (hf : Fits m.rank args)
    (hin : Inside (expand m.rank args) m.len) (hm : ModestArgs (expand m.rank args) m.len) :
    sliceL m args = slice m args := by
  have hN : m.rank ≤ 128 := by omega
  have hst := inside_stepsOK hin
  obtain ⟨off, m', hs1, hF⟩ := slice_facts hw hf hN hst
  have hell := not_mem_ell_expand m.rank args
  have hd := dims_ok hell hin hm h
  have hob := offs_bound hell hin hm h
  obtain ⟨E, hEl, hEX, hE, hcnt, hall⟩ := argAt hf hN
  have hchk := fits_checks hf hN
  have h1B := Small.nonneg_bound h
  have hse := slice_eq hw hf hN hst
  generalize hX : expand m.rank args = X at *
  have hXl : X.length = m.rank := by rw [← hEX]; simpa using hEl
  have hrd : ∀ n, n < m.rank → ∃ a, rdInt args (qOfN n (ellipsisPosition args) ((m.rank : Int) - args.length + 1)) = some a ∧
      norm a = at' X n := by
    intro n hn
    have hn' : n < E.length := by omega
    refine ⟨E[n], by rw [hE n hn, List.getElem?_eq_getElem hn'], ?_⟩
    simp [at', ← hEX, hn']
  have hcnt' : X.countP (fun a => !isRange a) = args.countP (fun a => !isRange a) := by
    rw [← hcnt, ← hEX, List.countP_map]
    apply List.countP_congr
    intro a _; simp [isRange_norm]
  have hP : (keptDims X).length = m.rank - args.countP (fun a => !isRange a) := by
    rw [keptDims_length, countP_not_isRange, hXl, hcnt']
  have hcol : ∀ n ∈ List.range m.rank, rdInt (args.map isRange)
      (qOfN n (ellipsisPosition args) ((m.rank : Int) - args.length + 1)) = some (kept X n) := by
    intro n hn
    obtain ⟨a, h1, h2⟩ := hrd n (List.mem_range.mp hn)
    rw [rdInt_map, h1, Option.map_some, kept, ← h2, isRange_norm]
  have hnofp : nOfP m.rank (m.rank - args.countP (fun a => !isRange a)) (args.map isRange)
      (ellipsisPosition args) ((m.rank : Int) - args.length + 1) = some (keptDims X) := by
    rw [nOfP, collect_some _ (kept X) _ _ hcol]
    simp only [Option.bind_eq_bind, Option.bind_some, List.map_id']
    rw [← hXl] at hP ⊢
    have : (List.range X.length).filter (kept X) = keptDims X := rfl
    rw [this, if_pos hP]; rfl
  have hqofp : qOfP m.rank (m.rank - args.countP (fun a => !isRange a)) (args.map isRange)
      (ellipsisPosition args) ((m.rank : Int) - args.length + 1) =
      some ((keptDims X).map (fun (n : Nat) => qOfN n (ellipsisPosition args) ((m.rank : Int) - args.length + 1))) := by
    rw [qOfP, collect_some _ (kept X) _ _ hcol]
    simp only [Option.bind_eq_bind, Option.bind_some]
    have : (List.range m.rank).filter (kept X) = keptDims X := by rw [← hXl]; rfl
    rw [this, List.length_map, if_pos hP]; rfl
  have hzip : ∀ x ∈ ((keptDims X).map (fun (n : Nat) => qOfN n (ellipsisPosition args) ((m.rank : Int) - args.length + 1))).zip (keptDims X),
      x.1 = qOfN x.2 (ellipsisPosition args) ((m.rank : Int) - args.length + 1) ∧ x.2 ∈ keptDims X := by
    intro x hx
    rw [List.zip_map_left] at hx
    obtain ⟨y, hy, rfl⟩ := List.mem_map.mp hx
    have : y.1 = y.2 := by
      have := List.mem_iff_getElem.mp hy
      obtain ⟨i, hi, rfl⟩ := this
      simp
    refine ⟨by simp [Prod.map, this], ?_⟩
    exact (List.of_mem_zip hy).2
  have hlen : m.len.length = m.rank := rfl
  have hstr : m.str.length = m.rank := hw.str_len
  have o1 : (List.range m.rank).mapM (fun (n : Nat) => do
      let a ← rdInt args (qOfN n (ellipsisPosition args) ((m.rank : Int) - args.length + 1))
      let s ← rd m.str n
      getOffsetL a s) = some ((List.range m.rank).map fun n => getOffset (at' X n) (m.str.getD n 0)) := by
    apply mapM_some_of
    intro n hn
    have hn := List.mem_range.mp hn
    obtain ⟨a, h1, h2⟩ := hrd n hn
    simp only [h1, rd_getD (show n < m.str.length by omega), Option.bind_eq_bind, Option.bind_some]
    have := (hd n (by omega)).off.2
    rw [← h2, getOffset_norm] at this ⊢
    exact getOffsetL_eq (by omega)
  have o2 : ((List.range m.rank).map fun n => getOffset (at' X n) (m.str.getD n 0)) = List.zipWith getOffset X m.str := by
    apply List.ext_getElem (by simp [hXl, hstr])
    intro i h1 h2
    simp at h1 h2
    simp [at', h2]
  have o3 : sumL (List.zipWith getOffset X m.str) = some (List.zipWith getOffset X m.str).sum := by
    refine (sumL_eq (M := 16 * B) hB ?_).1
    refine hob.trans ?_
    have := h.extent
    have : (X.length : Int) ≤ 15 := by omega
    nlinarith
  simp only [sliceL, slice]
  rw [if_neg (by simpa using hchk), if_neg (by simpa using hchk)]
  rw [hnofp, hqofp]
  have s1 : (List.range m.rank).mapM (fun (n : Nat) => do
      let a ← rdInt args (qOfN n (ellipsisPosition args) ((m.rank : Int) - args.length + 1))
      let s ← rd m.str n
      return getOffset a s) = some ((List.range m.rank).map fun n => getOffset (at' X n) (m.str.getD n 0)) := by
    apply mapM_some_of
    intro n hn
    have hn := List.mem_range.mp hn
    obtain ⟨a, h1, h2⟩ := hrd n hn
    simp only [h1, rd_getD (show n < m.str.length by omega), Option.bind_eq_bind, Option.bind_some, Option.pure_def]
    rw [← h2, getOffset_norm]
  simp only [Option.bind_eq_bind, Option.bind_some, Option.pure_def] at o1 s1 ⊢
  rw [o1, s1]
  simp only [Option.bind_some]
  rw [o2, o3]
  simp only [Option.bind_some]
  have l1 := mapM_congr' (l := ((keptDims X).map (fun (n : Nat) => qOfN n (ellipsisPosition args) ((m.rank : Int) - args.length + 1))).zip (keptDims X))
    (f := fun x => (rdInt args x.1).bind fun a => (rd m.len x.2).bind fun l => getLL a l) (g := fun x => (rdInt args x.1).bind fun a => (rd m.len x.2).bind fun l => getL a l) (by
    intro x hx
    obtain ⟨hx1, hx2⟩ := hzip x hx
    obtain ⟨hn1, hn2⟩ := mem_keptDims.mp hx2
    obtain ⟨a, h1, h2⟩ := hrd x.2 (by omega)
    rw [hx1, h1]
    simp only [Option.bind_some, rd_getD (show x.2 < m.len.length by omega)]
    have := (hd x.2 hn1).len hn2
    rw [← h2, getL_norm] at this
    rw [getLL]
    cases hg : getL a (m.len.getD x.2 0) with
    | none => rfl
    | some n => exact chk_of_abs (by have := this n hg; omega))
  have l2 := mapM_congr' (l := ((keptDims X).map (fun (n : Nat) => qOfN n (ellipsisPosition args) ((m.rank : Int) - args.length + 1))).zip (keptDims X))
    (f := fun x => (rdInt args x.1).bind fun a => (rd m.str x.2).bind fun l => getSL a l) (g := fun x => (rdInt args x.1).bind fun a => (rd m.str x.2).bind fun l => getS a l) (by
    intro x hx
    obtain ⟨hx1, hx2⟩ := hzip x hx
    obtain ⟨hn1, hn2⟩ := mem_keptDims.mp hx2
    obtain ⟨a, h1, h2⟩ := hrd x.2 (by omega)
    rw [hx1, h1]
    simp only [Option.bind_some, rd_getD (show x.2 < m.str.length by omega)]
    have := (hd x.2 hn1).str hn2
    rw [← h2, gs, getS_norm] at this
    cases a with
    | idx i => rfl
    | all => rfl
    | ell => rfl
    | rng f la st => exact chk_of_abs (by simp only [getS, Option.getD_some] at this; omega))
  rw [l1, l2]

end

end Nda.Machine
