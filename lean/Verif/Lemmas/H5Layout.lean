import Verif.Spec.H5Layout
import Verif.Props.H5Slice
import Verif.Props.Contiguous
/-!
# Lemmas about reading and writing arrays of any layout
-/
namespace Nda.H5
open Nda Nda.Spec Nda.H5.Spec Nda.Assign Nda.LayoutTransforms Nda.IdxMap Nda.Matrix Nda.Mpi Nda.Perm

variable {α R : Type}

theorem lin_append : ∀ (a i b j : List Int), i.length = a.length → lin (a ++ b) (i ++ j) = lin a i * prod b + lin b j
  | [], [], b, j, _ => by simp [lin]
  | l :: a, x :: i, b, j, h => by
    have := lin_append a i b j (by simpa using h)
    simp only [List.cons_append, lin, this, prod_append]
    ring

theorem lin_tail_c (L idx : List Int) (t : Int) (h : idx.length = L.length) : lin (L ++ [2]) (idx ++ [t]) = 2 * lin L idx + t := by
  rw [lin_append L idx [2] [t] h]
  simp [lin, prod]; ring

/-- Elements agree if all their numbers agree. -/
theorem number_congr (c : Codec α R) {A B : List R} {sh L J K : List Int} (hJ : InRange sh J) (hK : InRange L K)
    (h : ∀ t, InRange (tailLen c.cplx) t → A[(lin (sh ++ tailLen c.cplx) (J ++ t)).toNat]? = B[(lin (L ++ tailLen c.cplx) (K ++ t)).toNat]?) :
    number c A (lin sh J).toNat = number c B (lin L K).toNat := by
  have b1 := (lin_bounds hJ).1
  have b2 := (lin_bounds hK).1
  unfold number
  cases hc : c.cplx with
  | false =>
    have := h [] (by rw [hc]; trivial)
    simp only [hc, tailLen, Bool.false_eq_true, if_false, List.append_nil] at this
    simp only [Bool.false_eq_true, if_false, this]
  | true =>
    have h0 := h [0] (by rw [hc]; exact ⟨⟨by decide, by decide⟩, trivial⟩)
    have h1 := h [1] (by rw [hc]; exact ⟨⟨by decide, by decide⟩, trivial⟩)
    simp only [hc, tailLen, if_true] at h0 h1
    rw [lin_tail_c sh J _ hJ.length_eq, lin_tail_c L K _ hK.length_eq] at h0 h1
    rw [show (2 * lin sh J + 0).toNat = 2 * (lin sh J).toNat by omega, show (2 * lin L K + 0).toNat = 2 * (lin L K).toNat by omega] at h0
    rw [show (2 * lin sh J + 1).toNat = 2 * (lin sh J).toNat + 1 by omega, show (2 * lin L K + 1).toNat = 2 * (lin L K).toNat + 1 by omega] at h1
    simp only [if_true, h0, h1]

theorem elemAt_eq (c : Codec α R) (raw : List R) (k : Nat) (h : (k + 1) * (if c.cplx then 2 else 1) ≤ raw.length) : c.elemAt raw k = number c raw k := by
  unfold Codec.elemAt number Codec.width
  cases hc : c.cplx with
  | false =>
    simp only [hc, Bool.false_eq_true, if_false, Nat.mul_one, Nat.one_mul] at h ⊢
    have hk : k < raw.length := by omega
    rw [List.getElem?_eq_getElem hk, List.drop_eq_getElem_cons hk]
    rfl
  | true =>
    simp only [hc, if_true] at h ⊢
    have h0 : 2 * k < raw.length := by omega
    have h1 : 2 * k + 1 < raw.length := by omega
    rw [List.getElem?_eq_getElem h0, List.getElem?_eq_getElem h1, List.drop_eq_getElem_cons h0, List.drop_eq_getElem_cons h1]
    rfl

theorem number_some (c : Codec α R) (hc : CodecOK c) (raw : List R) (k : Nat) (h : (k + 1) * (if c.cplx then 2 else 1) ≤ raw.length) : ∃ x, number c raw k = some x := by
  unfold number
  cases hx : c.cplx with
  | false =>
    simp only [hx, Bool.false_eq_true, if_false, Nat.mul_one] at h ⊢
    rw [List.getElem?_eq_getElem (by omega)]
    exact hc.total _ (by simp [hx])
  | true =>
    simp only [hx, if_true] at h ⊢
    rw [List.getElem?_eq_getElem (by omega), List.getElem?_eq_getElem (by omega)]
    exact hc.total _ (by simp [hx])

theorem flatMap_length (c : Codec α R) (hc : CodecOK c) : ∀ vals : List α, (vals.flatMap c.enc).length = vals.length * (if c.cplx then 2 else 1)
  | [] => by simp
  | x :: vals => by
    rw [List.flatMap_cons, List.length_append, flatMap_length c hc vals, hc.len, List.length_cons, Nat.add_mul, Nat.one_mul, Nat.add_comm]

theorem number_flatMap (c : Codec α R) (hc : CodecOK c) : ∀ (vals : List α) (k : Nat) (x : α), vals[k]? = some x → number c (vals.flatMap c.enc) k = some x
  | [], k, x, h => by simp at h
  | y :: vals, 0, x, h => by
    have hx : y = x := by simpa using h
    subst hx
    have hl := hc.len y
    have hd := hc.dec_enc y
    unfold number
    rw [List.flatMap_cons]
    cases hb : c.cplx with
    | false =>
      rw [hb] at hl
      simp only [Bool.false_eq_true, if_false] at hl ⊢
      obtain ⟨u, hu⟩ := List.length_eq_one_iff.mp hl
      rw [hu] at hd ⊢
      simpa using hd
    | true =>
      rw [hb] at hl
      simp only [if_true] at hl ⊢
      obtain ⟨u, v, hu⟩ := List.length_eq_two.mp hl
      rw [hu] at hd ⊢
      simpa using hd
  | y :: vals, k + 1, x, h => by
    have ih := number_flatMap c hc vals k x (by simpa using h)
    have hl := hc.len y
    rw [← ih]
    unfold number
    rw [List.flatMap_cons]
    cases hb : c.cplx with
    | false =>
      rw [hb] at hl
      simp only [Bool.false_eq_true, if_false] at hl ⊢
      rw [List.getElem?_append_right (by omega), show k + 1 - (c.enc y).length = k by omega]
    | true =>
      rw [hb] at hl
      simp only [if_true] at hl ⊢
      rw [List.getElem?_append_right (by omega), List.getElem?_append_right (by omega), show 2 * (k + 1) - (c.enc y).length = 2 * k by omega,
        show 2 * (k + 1) + 1 - (c.enc y).length = 2 * k + 1 by omega]

/-- The elements of the view are consecutive in memory, in row-major order. -/
def HasC (v : View) : Prop := ∀ idx, InRange v.lay.len idx → addr v idx = v.off + lin v.lay.len idx

theorem identity_eq (n : Nat) : Perm.identity n = List.range n := by simp [Perm.identity]

/-- Leaving out the dimensions of extent one of dense strides. -/
theorem dense_filter : ∀ (l : List Int) (k : Nat), (∀ x ∈ l, 0 < x) →
    ((List.range' k l.length).filter (fun j => decide (1 < l.getD (j - k) 0))).map (fun j => (dense l).getD (j - k) 0) =
      dense (((List.range' k l.length).filter (fun j => decide (1 < l.getD (j - k) 0))).map (fun j => l.getD (j - k) 0)) ∧
    prod (((List.range' k l.length).filter (fun j => decide (1 < l.getD (j - k) 0))).map (fun j => l.getD (j - k) 0)) = prod l
  | [], k, _ => by simp [dense]
  | x :: l, k, h => by
    obtain ⟨ih1, ih2⟩ := dense_filter l (k + 1) (fun y hy => h y (List.mem_cons_of_mem _ hy))
    have hx := h x List.mem_cons_self
    have hf : (List.range' (k + 1) l.length).filter (fun j => decide (1 < (x :: l).getD (j - k) 0)) =
        (List.range' (k + 1) l.length).filter (fun j => decide (1 < l.getD (j - (k + 1)) 0)) := by
      apply List.filter_congr
      intro j hj
      have := (List.mem_range'_1.mp hj).1
      rw [show j - k = j - (k + 1) + 1 by omega, List.getD_cons_succ]
    have hm1 : ((List.range' (k + 1) l.length).filter (fun j => decide (1 < l.getD (j - (k + 1)) 0))).map (fun j => (dense (x :: l)).getD (j - k) 0) =
        ((List.range' (k + 1) l.length).filter (fun j => decide (1 < l.getD (j - (k + 1)) 0))).map (fun j => (dense l).getD (j - (k + 1)) 0) := by
      apply List.map_congr_left
      intro j hj
      have := (List.mem_range'_1.mp (List.mem_filter.mp hj).1).1
      rw [show j - k = j - (k + 1) + 1 by omega, dense, List.getD_cons_succ]
    have hm2 : ((List.range' (k + 1) l.length).filter (fun j => decide (1 < l.getD (j - (k + 1)) 0))).map (fun j => (x :: l).getD (j - k) 0) =
        ((List.range' (k + 1) l.length).filter (fun j => decide (1 < l.getD (j - (k + 1)) 0))).map (fun j => l.getD (j - (k + 1)) 0) := by
      apply List.map_congr_left
      intro j hj
      have := (List.mem_range'_1.mp (List.mem_filter.mp hj).1).1
      rw [show j - k = j - (k + 1) + 1 by omega, List.getD_cons_succ]
    rw [List.length_cons, List.range'_succ, List.filter_cons]
    by_cases h1 : 1 < x
    · have hd : decide (1 < (x :: l).getD (k - k) 0) = true := by simpa using h1
      rw [if_pos hd, hf, List.map_cons, List.map_cons, hm1, hm2, ih1]
      constructor
      · simp only [dense, Nat.sub_self, List.getD_cons_zero, ih2]
      · simp only [prod, Nat.sub_self, List.getD_cons_zero, ih2]
    · have hd : ¬ decide (1 < (x :: l).getD (k - k) 0) = true := by simpa using h1
      have hx1 : x = 1 := by omega
      rw [if_neg hd, hf, hm1, hm2]
      exact ⟨ih1, by rw [ih2, prod, hx1]; ring⟩

theorem wf_dense {m : IdxMap} (hw : WF m) : WF { m with str := dense m.len } := by
  have hl : ∀ l : List Int, (dense l).length = l.length := by
    intro l
    induction l with
    | nil => rfl
    | cons x l ih => simp [dense, ih]
  exact ⟨hw.perm, hw.so_len, hl _, hw.se_len⟩

/-- What the test of `h5_write` and `h5_read` is for: regular positive strides, C order, declared contiguous. -/
theorem hasC_of_contiguous {v : View} (hw : WF v.lay) (h0 : v.lay.len ≠ []) (hr : Regular v.lay) (hb : BigPos v.lay)
    (hso : v.lay.so = Perm.identity v.lay.len.length) (hc : v.lay.isContiguous = some true) : HasC v := by
  intro idx hi
  have hpos := hi.nonneg_len
  have hfb := C11_contiguous_sound_partial v.lay hw h0 hpos hr hb hc
  rw [fillsBlock_iff hw hpos hr hb] at hfb
  obtain ⟨o1, o2⟩ := offset_bigs hw hi
  obtain ⟨p1, p2⟩ := offset_bigs (wf_dense hw) hi
  have hbb : bigs { v.lay with str := dense v.lay.len } = bigs v.lay := rfl
  rw [hbb] at p1
  have hd := (dense_filter v.lay.len 0 hpos).1
  have hbr : bigs v.lay = (List.range' 0 v.lay.len.length).filter (fun j => decide (1 < v.lay.len.getD (j - 0) 0)) := by
    unfold bigs
    rw [hso, identity_eq, List.range_eq_range']
    rfl
  simp only [Nat.sub_zero] at hd hbr
  rw [← hbr] at hd
  have e : Spec.offset v.lay idx = lin v.lay.len idx := by
    rw [o1, hfb, ← hd, ← p1]
    exact dot_dense _ _ hi.length_eq
  rw [addr]
  exact congrArg (v.off + ·) e

theorem hasC_of_blk {v : View} {n : Nat} (h : Blk v n) (hso : v.lay.so = Perm.identity v.lay.len.length) : HasC v := by
  intro idx hi
  rw [h.addr_eq hi, pos_c hso hi.length_eq]

theorem needsCopy_some (a : View) (hw : WF a.lay) (h0 : a.lay.len ≠ []) : ∃ b, a.lay.isContiguous = some b ∧
    needsCopy a = some (!(decide (a.lay.so = Perm.identity a.lay.len.length) && b)) := by
  have : ∃ b, a.lay.isContiguous = some b := by
    by_cases hz : prod a.lay.len = 0
    · exact ⟨true, by simp [isContiguous, size_eq, hz]⟩
    · obtain ⟨x, _, _, h⟩ := isContiguous_eq hw h0 hz
      exact ⟨_, h⟩
  obtain ⟨b, hb⟩ := this
  exact ⟨b, hb, by unfold needsCopy; rw [hb]; rfl⟩

theorem blk_needsCopy {a : View} {n : Nat} (h : Blk a n) : needsCopy a = some (!(decide (a.lay.so = Perm.identity a.lay.len.length))) := by
  unfold needsCopy
  rw [isContiguous_of_dense h.good.wf h.dense h.ne h.good.nonneg]
  simp

theorem val_app_left {mem ext : List α} {k : Int} (h : k < mem.length) : val (mem ++ ext) k = val mem k := by
  unfold val
  split
  · rfl
  · rw [List.getElem?_append_left (by omega)]

theorem freshBlk {so : List Nat} {len : List Int} {base n : Nat} {m : IdxMap} (hm : Fresh so len base m) (hn : base + (prod len).toNat ≤ n) (h0 : len ≠ []) :
    Blk ⟨(base : Int), m⟩ n := ⟨hm.good n hn, hm.dense, by rw [show (View.mk (base : Int) m).lay.len = len from hm.len_eq]; exact h0⟩

/-- `resize` of an array. -/
theorem resizeArr_spec (junk : α) {a : View} {sha : List Int} {mem : List α} (ha : Blk a mem.length) (hs : NonNeg sha) (hl : sha.length = a.lay.len.length) :
    ∃ t mem1, resizeArr junk a sha mem = some (t, mem1) ∧ Blk t mem1.length ∧ t.lay.len = sha ∧ t.lay.so = a.lay.so ∧ mem.length ≤ mem1.length ∧
      (∀ k : Int, k < mem.length → val mem1 k = val mem k) ∧ ∀ k, Occupies t k → Occupies a k ∨ (mem.length : Int) ≤ k := by
  have hw := ha.good.wf
  have h0 : sha ≠ [] := by
    intro h
    rw [h] at hl
    exact ha.ne (List.eq_nil_of_length_eq_zero (by simpa using hl.symm))
  obtain ⟨m, hm, e, hlen⟩ := fresh_eq junk (so := a.lay.so) (len := sha) hw.perm (by rw [hw.so_len, hl]) hs mem
  by_cases hz : m.size = a.lay.size
  · have hpp : prod sha = prod a.lay.len := by rw [← hm.size_eq, hz, size_eq]
    have hblk : Blk ⟨a.off, m⟩ mem.length := by
      refine ⟨⟨hm.wf, hm.flags, by rw [show (View.mk a.off m).lay.len = sha from hm.len_eq]; exact hs, ?_⟩, hm.dense, by rw [show (View.mk a.off m).lay.len = sha from hm.len_eq]; exact h0⟩
      intro idx hi
      rw [show (View.mk a.off m).lay.len = sha from hm.len_eq] at hi
      have h1 := hm.above idx hi
      have h2 := prod_pos hi.nonneg_len
      have h3 := ha.range (by omega)
      have e1 : addr ⟨a.off, m⟩ idx = a.off + (addr ⟨(mem.length : Int), m⟩ idx - mem.length) := by simp [addr]
      rw [e1]; omega
    refine ⟨⟨a.off, m⟩, mem, by unfold resizeArr; simp [hm.eq, hz], hblk, hm.len_eq, hm.so_eq, le_refl _, fun _ _ => rfl, fun k hk => Or.inl ?_⟩
    rw [hblk.occupies] at hk
    rw [ha.occupies]
    rw [show (View.mk a.off m).lay.len = sha from hm.len_eq, hpp] at hk
    exact hk
  · refine ⟨⟨(mem.length : Int), m⟩, mem ++ List.replicate m.size.toNat junk, by unfold resizeArr; simp [hm.eq, hz, e], freshBlk hm (by rw [hlen]) h0, hm.len_eq, hm.so_eq, by simp,
      fun k hk => val_app_left hk, ?_⟩
    rintro k ⟨idx, hi, rfl⟩
    rw [show (View.mk (mem.length : Int) m).lay.len = sha from hm.len_eq] at hi
    exact Or.inr (hm.above idx hi).1

/-- Values of a view in row-major order. -/
theorem elements_list {a : View} {mem : List α} (ha : Good a mem.length) :
    ∃ vals, (rowMajor a.lay.len).mapM (fun idx => load a idx mem) = some vals ∧ (vals.length : Int) = prod a.lay.len ∧
      ∀ idx, InRange a.lay.len idx → vals[(lin a.lay.len idx).toNat]? = val mem (addr a idx) := by
  rw [rowMajor_eq]
  have key : ∀ (l : List (List Int)), (∀ i ∈ l, InRange a.lay.len i) → ∃ vals, l.mapM (fun idx => load a idx mem) = some vals ∧ vals.length = l.length ∧
      ∀ k : Nat, vals[k]? = l[k]?.bind (fun i => val mem (addr a i)) := by
    intro l
    induction l with
    | nil => intro _; exact ⟨[], rfl, rfl, by simp⟩
    | cons i l ih =>
      intro h
      have hi := h i (by simp)
      obtain ⟨x, hx⟩ := val_isSome (ha.fits i hi)
      obtain ⟨vals, e, hl, hv⟩ := ih (fun j hj => h j (by simp [hj]))
      refine ⟨x :: vals, by rw [List.mapM_cons, load_eq ha hi, hx, e]; rfl, by simp [hl], fun k => ?_⟩
      cases k with
      | zero => simp [hx]
      | succ k => simpa using hv k
  obtain ⟨vals, e, hl, hv⟩ := key _ (fun i hi => mem_box.mp hi)
  refine ⟨vals, e, by rw [hl, box_length ha.nonneg], fun idx hi => ?_⟩
  rw [hv, box_get ha.nonneg hi]; rfl

/-- The same for consecutive elements. -/
theorem elements_buf {a : View} {mem : List α} (ha : Good a mem.length) (hc : HasC a) :
    ∃ vals, readBuf mem a.off a.lay.size = some vals ∧ (vals.length : Int) = prod a.lay.len ∧
      ∀ idx, InRange a.lay.len idx → vals[(lin a.lay.len idx).toNat]? = val mem (addr a idx) := by
  have hp := prod_nonneg ha.nonneg
  have hr : 0 < prod a.lay.len → 0 ≤ a.off ∧ a.off + prod a.lay.len ≤ mem.length := by
    intro h
    obtain ⟨i, hi, ei⟩ := lin_surj ha.nonneg 0 (le_refl _) h
    obtain ⟨j, hj, ej⟩ := lin_surj ha.nonneg (prod a.lay.len - 1) (by omega) (by omega)
    have h1 := ha.fits i hi
    have h2 := ha.fits j hj
    rw [hc i hi, ei] at h1
    rw [hc j hj, ej] at h2
    omega
  obtain ⟨buf, e, hl, hv⟩ := readBuf_spec (mem := mem) (p := a.off) (n := a.lay.size) (by rw [size_eq]; exact hr)
  rw [size_eq] at hl hv
  refine ⟨buf, e, by rw [hl]; omega, fun idx hi => ?_⟩
  have hb := lin_bounds hi
  rw [hv _ (by omega), hc idx hi, Int.toNat_of_nonneg hb.1]

theorem foldr_prod : ∀ l : List Int, l.foldr (· * ·) 1 = prod l
  | [] => rfl
  | x :: l => by rw [List.foldr_cons, foldr_prod l, prod]

end Nda.H5
