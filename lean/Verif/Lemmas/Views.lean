import Verif.Lemmas.SliceFlags
import Verif.Lemmas.Transpose
import Verif.Spec.Views
/-!
# View operations: one step, and chains
-/
namespace Nda.LayoutTransforms
open Nda Nda.Spec Nda.Perm Nda.IdxMap Nda.Slice

/-- What one allowed view operation guarantees. -/
structure StepFacts (v v' : View) (o : Op) : Prop where
  wf : WF v'.lay
  smallest : SmallestOK v'.lay
  shape : ShapeAfter v.lay.len o v'.lay.len
  rank : v'.lay.len.length = rankAfter v.lay.len.length o
  inRange : ∀ idx, InRange v'.lay.len idx → InRange v.lay.len (source v.lay.len.length o idx)
  inj : ∀ idx jdx, InRange v'.lay.len idx → InRange v'.lay.len jdx →
    source v.lay.len.length o idx = source v.lay.len.length o jdx → idx = jdx
  offset : ∀ idx, InRange v'.lay.len idx →
    v'.off + Spec.offset v'.lay idx = v.off + Spec.offset v.lay (source v.lay.len.length o idx)

theorem inside_length : ∀ {X : List Arg} {L : List Int}, Inside X L → X.length = L.length
  | [], [], _ => rfl
  | _ :: _, _ :: _, h => by simp [inside_length h.2]

theorem slice_step {v : View} (hw : WF v.lay) (hs : SmallestOK v.lay) {args : List Arg}
    (ha : Allowed v.lay.len (.slice args)) :
    ∃ v', step v (.slice args) = some v' ∧ StepFacts v v' (.slice args) ∧
      SliceFacts v.lay (expand v.lay.len.length args) (v'.off - v.off) v'.lay := by
  obtain ⟨h128, hf, hin⟩ := ha
  obtain ⟨off, m', h1, hF⟩ := slice_facts hw (args := args) hf h128 (inside_stepsOK hin)
  change SliceFacts v.lay (expand v.lay.len.length args) off m' at hF
  have hl : (expand v.lay.len.length args).length = v.lay.len.length := inside_length hin
  have hell := not_mem_ell_expand v.lay.len.length args
  have hst := inside_stepsOK hin
  refine ⟨⟨v.off + off, m'⟩, by simp [step, sliceView, h1], ⟨hF.wf, ?_, ?_, ?_, ?_, ?_, ?_⟩, ?_⟩
  · exact slice_smallestOK hw hs (by rw [hw.so_len]; exact hl.symm) hF
  · show SliceShape _ _ m'.len
    rw [hF.len_eq]; exact sliceShape_keepMap hell hst _ hl
  · show m'.len.length = _
    rw [hF.len_eq, keepMap_length _ _ _ hl]; rfl
  · intro idx hi
    have hi' : InRange m'.len idx := hi
    rw [hF.len_eq] at hi'
    exact inside_coords hell hst hin hi'
  · intro idx jdx hi hj h
    have hi' : InRange m'.len idx := hi
    have hj' : InRange m'.len jdx := hj
    rw [hF.len_eq] at hi' hj'
    exact coords_inj hell hst (by rw [hi'.length_eq, keepMap_length _ _ _ hl])
      (by rw [hj'.length_eq, keepMap_length _ _ _ hl]) h
  · intro idx hi
    have hi' : InRange m'.len idx := hi
    rw [hF.len_eq] at hi'
    show v.off + off + Spec.offset m' idx = _
    have := dot_coords hell v.lay.str idx (by rw [hw.str_len]; exact hl) (by rw [hi'.length_eq, keepMap_length _ _ _ hl])
    unfold Spec.offset source
    rw [hF.str_eq, hF.off_eq, ← this]; omega
  · show SliceFacts v.lay (expand v.lay.len.length args) (v.off + off - v.off) m'
    have e : v.off + off - v.off = off := by omega
    rw [e]
    exact hF

theorem permute_smallestOK {m m' : IdxMap} {p : List Nat} (hw : WF m) (hf : SmallestOK m)
    (hpl : p.length = m.len.length) (hso : compose p m.so = some m'.so)
    (hstr : memOrder p m'.str = m.str) (hprop : m'.prop = m.prop) : SmallestOK m' := by
  intro h
  have h1 := hf (hprop ▸ h)
  rw [fastestIs_memOrder] at h1 ⊢
  have h2 : ∀ k ∈ m.so, k < p.length := fun k hk => by
    have := IsPerm.lt hw.perm hk; rw [hw.so_len] at this; omega
  rw [memOrder_compose h2 hso, hstr]; exact h1

theorem permute_step {v : View} (hw : WF v.lay) (hs : SmallestOK v.lay) {p : List Nat}
    (ha : Allowed v.lay.len (.permute p)) :
    ∃ v', step v (.permute p) = some v' ∧ v.lay.transpose p = some v'.lay ∧ StepFacts v v' (.permute p) := by
  obtain ⟨hp, hpl⟩ := ha
  obtain ⟨m', h1, hw', h3, h4, h5, h6, h7, h8⟩ := transpose_spec hw hp hpl
  refine ⟨⟨v.off, m'⟩, by simp [step, permuted, h1], h1, ⟨hw', ?_, ⟨h4, h5⟩, h4, ?_, ?_, ?_⟩⟩
  · exact permute_smallestOK hw hs hpl h8 h6 h3
  · intro idx hi
    have hi' : InRange m'.len idx := hi
    show InRange v.lay.len (memOrder p idx)
    rw [← h5]; exact (inRange_memOrder hp (by omega) (by rw [hi'.length_eq]; omega)).mpr hi'
  · intro idx jdx hi hj h
    exact memOrder_inj hp (by rw [hi.length_eq]; show m'.len.length = _; omega)
      (by rw [hj.length_eq]; show m'.len.length = _; omega) h
  · intro idx hi
    show v.off + Spec.offset m' idx = v.off + Spec.offset v.lay (memOrder p idx)
    rw [transpose_offset hw' hp hpl h4 h6 (by rw [hi.length_eq]; exact h4)]

theorem isPerm_completeOrder {so : List Nat} (hp : IsPerm so) (n : Nat) : IsPerm (completeOrder so n) := by
  have h : (completeOrder so n).Perm (List.range (so.length + n)) := by
    unfold completeOrder
    rw [List.range_add]
    exact List.Perm.append_right _ hp
  unfold IsPerm
  simpa [completeOrder] using h

theorem inRange_append : ∀ {a b : List Int} {idx : List Int}, InRange (a ++ b) idx ↔
    InRange a (idx.take a.length) ∧ InRange b (idx.drop a.length)
  | [], b, idx => by simp [InRange]
  | x :: a, b, [] => by simp [InRange]
  | x :: a, b, i :: idx => by
    simp only [List.cons_append, InRange, List.length_cons, List.take_succ_cons, List.drop_succ_cons, inRange_append, and_assoc]

theorem inRange_ones : ∀ {n : Nat} {idx : List Int}, InRange (List.replicate n 1) idx ↔ idx = List.replicate n 0
  | 0, [] => by simp [InRange]
  | 0, _ :: _ => by simp [InRange]
  | n + 1, [] => by simp [InRange, List.replicate_succ]
  | n + 1, i :: idx => by
    simp only [List.replicate_succ, InRange, inRange_ones, List.cons.injEq, and_congr_left_iff]
    intro _; omega

theorem dot_append : ∀ (a b i j : List Int), i.length = a.length → dot (a ++ b) (i ++ j) = dot a i + dot b j
  | [], b, [], j, _ => by simp [dot]
  | x :: a, b, y :: i, j, h => by
    simp only [List.cons_append, dot, dot_append a b i j (by simpa using h)]; omega

theorem dot_zeros : ∀ (s : List Int) (n : Nat), dot s (List.replicate n 0) = 0
  | [], _ => by simp [dot]
  | _ :: _, 0 => by simp [dot]
  | x :: s, n + 1 => by simp [dot, List.replicate_succ, dot_zeros s n]

theorem addFast_wf {m : IdxMap} (hw : WF m) (n : Nat) : WF (addFastDims m n) :=
  ⟨isPerm_completeOrder hw.perm n, by simp [addFastDims, completeOrder, hw.so_len],
   by simp [addFastDims, hw.str_len], by simp [addFastDims, hw.se_len]⟩

/-- Memory order of the extended map: the old one, then the new dimensions. -/
theorem addFast_memOrder {so : List Nat} (hp : IsPerm so) {l : List Int} (hl : so.length = l.length) (n : Nat) (x : Int) :
    memOrder (completeOrder so n) (l ++ List.replicate n x) = memOrder so l ++ List.replicate n x := by
  unfold memOrder completeOrder
  rw [List.map_append]
  congr 1
  · apply List.map_congr_left
    intro k hk
    have : k < l.length := by have := IsPerm.lt hp hk; omega
    simp [List.getElem?_append_left this]
  · apply List.ext_getElem
    · simp
    · intro i h1 h2
      simp at h2
      simp [hl, h2]

theorem addFast_smallestOK {m : IdxMap} (hw : WF m) (hs : SmallestOK m) (n : Nat) : SmallestOK (addFastDims m n) := by
  intro h
  rw [fastestIs_memOrder]
  show ∀ x, (memOrder (completeOrder m.so n) (m.str ++ List.replicate n 1)).getLast? = some x → x = 1
  rw [addFast_memOrder hw.perm (by rw [hw.so_len, hw.str_len])]
  intro x hx
  cases n with
  | zero => simp at hx; exact (fastestIs_memOrder.mp (hs h)) x hx
  | succ n => simp [List.getLast?_append, List.getLast?_replicate] at hx; exact hx.symm

theorem addFast_step {v : View} (hw : WF v.lay) (hs : SmallestOK v.lay) (n : Nat) :
    ∃ v', step v (.addFast n) = some v' ∧ v' = ⟨v.off, addFastDims v.lay n⟩ ∧ StepFacts v v' (.addFast n) := by
  refine ⟨⟨v.off, addFastDims v.lay n⟩, rfl, rfl, ⟨addFast_wf hw n, addFast_smallestOK hw hs n, rfl, ?_, ?_, ?_, ?_⟩⟩
  · simp [addFastDims, rankAfter]
  · intro idx hi
    exact (inRange_append.mp hi).1
  · intro idx jdx hi hj h
    have h1 := inRange_ones.mp (inRange_append.mp hi).2
    have h2 := inRange_ones.mp (inRange_append.mp hj).2
    rw [← List.take_append_drop v.lay.len.length idx, ← List.take_append_drop v.lay.len.length jdx, h1, h2]
    have : idx.take v.lay.len.length = jdx.take v.lay.len.length := h
    rw [this]
  · intro idx hi
    obtain ⟨h1, h2⟩ := inRange_append.mp hi
    have h3 := inRange_ones.mp h2
    show v.off + dot (v.lay.str ++ List.replicate n 1) idx = v.off + dot v.lay.str (idx.take v.lay.len.length)
    conv => lhs; rw [← List.take_append_drop v.lay.len.length idx]
    rw [dot_append _ _ _ _ (by rw [h1.length_eq, hw.str_len]), h3, dot_zeros]
    omega

theorem step_facts {v : View} (hw : WF v.lay) (hs : SmallestOK v.lay) {o : Op} (ha : Allowed v.lay.len o) :
    ∃ v', step v o = some v' ∧ StepFacts v v' o := by
  cases o with
  | slice args => obtain ⟨v', h1, h2, _⟩ := slice_step hw hs ha; exact ⟨v', h1, h2⟩
  | permute p => obtain ⟨v', h1, _, h2⟩ := permute_step hw hs ha; exact ⟨v', h1, h2⟩
  | addFast n => obtain ⟨v', h1, _, h2⟩ := addFast_step hw hs n; exact ⟨v', h1, h2⟩

theorem run_facts {v : View} (hw : WF v.lay) (hs : SmallestOK v.lay) {os : List Op} (ha : ChainAllowed v.lay.len os) :
    ∃ v', run v os = some v' ∧ WF v'.lay ∧ SmallestOK v'.lay ∧
      (∀ idx, InRange v'.lay.len idx → InRange v.lay.len (sourceChain v.lay.len.length os idx)) ∧
      (∀ idx jdx, InRange v'.lay.len idx → InRange v'.lay.len jdx →
        sourceChain v.lay.len.length os idx = sourceChain v.lay.len.length os jdx → idx = jdx) ∧
      (∀ idx, InRange v'.lay.len idx →
        v'.off + Spec.offset v'.lay idx = v.off + Spec.offset v.lay (sourceChain v.lay.len.length os idx)) := by
  induction os generalizing v with
  | nil => exact ⟨v, rfl, hw, hs, fun _ h => h, fun _ _ _ _ h => h, fun _ _ => rfl⟩
  | cons o os ih =>
    obtain ⟨ha1, ha2⟩ := ha
    obtain ⟨v1, h1, hF⟩ := step_facts hw hs ha1
    obtain ⟨v2, g1, g2, g3, g4, g5, g6⟩ := ih hF.wf hF.smallest (ha2 _ hF.shape)
    rw [hF.rank] at g4 g5 g6
    refine ⟨v2, by simp [run, h1, g1], g2, g3, ?_, ?_, ?_⟩
    · intro idx hi; exact hF.inRange _ (g4 idx hi)
    · intro idx jdx hi hj h
      exact g5 idx jdx hi hj (hF.inj _ _ (g4 idx hi) (g4 jdx hj) h)
    · intro idx hi
      rw [g6 idx hi, hF.offset _ (g4 idx hi)]; rfl

/-- The shape of the view after an allowed chain. -/
theorem run_shape {v : View} (hw : WF v.lay) (hs : SmallestOK v.lay) {os : List Op} (ha : ChainAllowed v.lay.len os) {v' : View} (h : run v os = some v') :
    ChainShape v.lay.len os v'.lay.len := by
  induction os generalizing v with
  | nil => cases h; rfl
  | cons o os ih =>
    obtain ⟨ha1, ha2⟩ := ha
    obtain ⟨v1, h1, hF⟩ := step_facts hw hs ha1
    simp only [run, h1, Option.bind_eq_bind, Option.bind_some] at h
    exact ⟨_, hF.shape, ih hF.wf hF.smallest (ha2 _ hF.shape) h⟩

/-! ### Flags along chains -/

theorem dense_ones (n : Nat) : dense (List.replicate n 1) = List.replicate n 1 ∧ Spec.prod (List.replicate n 1) = 1 := by
  induction n with
  | zero => exact ⟨rfl, rfl⟩
  | succ n ih => simp [List.replicate_succ, dense, Spec.prod, ih.1, ih.2]

theorem addFast_evenly {m : IdxMap} (hw : WF m) (hd : EvenlySpaced m 1) (n : Nat) : EvenlySpaced (addFastDims m n) 1 := by
  unfold EvenlySpaced at hd ⊢
  show memOrder (completeOrder m.so n) (m.str ++ _) = (dense (memOrder (completeOrder m.so n) (m.len ++ _))).map _
  rw [addFast_memOrder hw.perm (by rw [hw.so_len, hw.str_len]), addFast_memOrder hw.perm hw.so_len, hd, dense_append,
    (dense_ones n).1, (dense_ones n).2]
  simp

theorem addFast_flagsOK {m : IdxMap} (hw : WF m) (hf : FlagsOK m) (hok : FastDimsOK m.prop) (n : Nat) :
    FlagsOK (addFastDims m n) := by
  refine ⟨addFast_smallestOK hw hf.smallest n, fun h => ?_⟩
  have h1 : m.prop.strided1d = true := h
  obtain ⟨c, hc⟩ := hf.strided h1
  have h2 := hf.smallest (hok h1)
  have h3 := fastestIs_of_evenlySpaced hc
  refine ⟨1, addFast_evenly hw ?_ n⟩
  by_cases he : m.so = []
  · simp [EvenlySpaced, memOrder, he, dense]
  · obtain ⟨u, hu⟩ : ∃ u, m.so.getLast? = some u := by
      cases h : m.so.getLast? with
      | none => simp at h; exact absurd h he
      | some u => exact ⟨u, rfl⟩
    have : c = 1 := by rw [← h3 u hu, h2 u hu]
    rw [← this]; exact hc

theorem step_flagsOK {v v' : View} (hw : WF v.lay) (hf : FlagsOK v.lay) {o : Op} (ha : Allowed v.lay.len o)
    (hok : ∀ n, o = .addFast n → FastDimsOK v.lay.prop) (h : step v o = some v') : FlagsOK v'.lay := by
  cases o with
  | slice args =>
    obtain ⟨v1, h1, _, h3⟩ := slice_step hw hf.smallest ha
    obtain rfl : v1 = v' := Option.some.inj (h1.symm.trans h)
    exact slice_flagsOK hw hf (by rw [hw.so_len]; exact (inside_length ha.2.2).symm) h3
  | permute p =>
    obtain ⟨hp, hpl⟩ := ha
    obtain ⟨m', h1, hw', h3, h4, h5, h6, h7, h8⟩ := transpose_spec hw hp hpl
    have : v' = ⟨v.off, m'⟩ := by simpa [step, permuted, h1] using h.symm
    subst this
    exact transpose_flagsOK hw hf hpl h8 h5 h6 h3
  | addFast n =>
    have : v' = ⟨v.off, addFastDims v.lay n⟩ := by simpa [step] using h.symm
    subst this
    exact addFast_flagsOK hw hf (hok n rfl) n

theorem step_staticOK {v v' : View} (hw : WF v.lay) (hs : SmallestOK v.lay) (hst : StaticOK v.lay) {o : Op}
    (ha : Allowed v.lay.len o) (h : step v o = some v') : StaticOK v'.lay := by
  cases o with
  | slice args =>
    obtain ⟨v1, h1, _, h3⟩ := slice_step hw hs ha
    obtain rfl : v1 = v' := Option.some.inj (h1.symm.trans h)
    exact slice_staticOK h3 hst
  | permute p =>
    obtain ⟨hp, hpl⟩ := ha
    obtain ⟨m', h1, hw', h3, h4, h5, h6, h7, h8⟩ := transpose_spec hw hp hpl
    have : v' = ⟨v.off, m'⟩ := by simpa [step, permuted, h1] using h.symm
    subst this
    intro u hu
    obtain ⟨r, e1, e2, e3⟩ := applyInverse_spec p v.lay.se hp (by rw [hw.se_len, hpl])
    obtain rfl : m'.se = r := Option.some.inj (h7.symm.trans e1)
    have hul : u < p.length := by
      by_contra hc
      simp only [List.getD_eq_getElem?_getD, List.getElem?_eq_none (show m'.se.length ≤ u by omega)] at hu
      exact hu rfl
    obtain ⟨i, hi, rfl⟩ := IsPerm.exists_idx hp hul
    have e4 : m'.se.getD p[i] 0 = v.lay.se.getD i 0 := by
      rw [List.getD_eq_getElem?_getD, List.getD_eq_getElem?_getD, e3 i hi]
    have e5 : m'.len.getD p[i] 0 = v.lay.len.getD i 0 := by rw [← h5, memOrder_getD hi]
    show m'.len.getD p[i] 0 = _
    rw [e5]
    change m'.se.getD p[i] 0 ≠ 0 at hu
    rw [e4] at hu
    rw [hst i hu]
    show _ = ((m'.se.getD p[i] 0 : Nat) : Int)
    rw [e4]
  | addFast n =>
    have : v' = ⟨v.off, addFastDims v.lay n⟩ := by simpa [step] using h.symm
    subst this
    intro u hu
    change (v.lay.se ++ List.replicate n 0).getD u 0 ≠ 0 at hu
    show (v.lay.len ++ List.replicate n 1).getD u 0 = (((v.lay.se ++ List.replicate n 0).getD u 0 : Nat) : Int)
    by_cases hul : u < v.lay.se.length
    · have hul' : u < v.lay.len.length := by rw [← hw.se_len]; exact hul
      simp only [List.getD_eq_getElem?_getD, List.getElem?_append_left hul, List.getElem?_append_left hul'] at hu ⊢
      have := hst u
      simp only [List.getD_eq_getElem?_getD] at this
      exact this hu
    · exfalso; apply hu
      simp only [List.getD_eq_getElem?_getD, List.getElem?_append_right (Nat.le_of_not_lt hul), List.getElem?_replicate]
      split <;> rfl

theorem run_staticOK {v : View} (hw : WF v.lay) (hs : SmallestOK v.lay) (hst : StaticOK v.lay) {os : List Op}
    (ha : ChainAllowed v.lay.len os) : ∃ v', run v os = some v' ∧ StaticOK v'.lay := by
  induction os generalizing v with
  | nil => exact ⟨v, rfl, hst⟩
  | cons o os ih =>
    obtain ⟨v1, h1, hF⟩ := step_facts hw hs ha.1
    obtain ⟨v2, g1, g2⟩ := ih hF.wf hF.smallest (step_staticOK hw hs hst ha.1 h1) (ha.2 _ hF.shape)
    exact ⟨v2, by simp [run, h1, g1], g2⟩

theorem run_flagsOK {v : View} (hw : WF v.lay) (hf : FlagsOK v.lay) {os : List Op} (ha : ChainAllowed v.lay.len os)
    (hok : FastDimsChain v os) : ∃ v', run v os = some v' ∧ WF v'.lay ∧ FlagsOK v'.lay := by
  induction os generalizing v with
  | nil => exact ⟨v, rfl, hw, hf⟩
  | cons o os ih =>
    obtain ⟨v1, h1, hF⟩ := step_facts hw hf.smallest ha.1
    obtain ⟨v2, g1, g2⟩ := ih hF.wf (step_flagsOK hw hf ha.1 hok.1 h1) (ha.2 _ hF.shape) (hok.2 _ h1)
    exact ⟨v2, by simp [run, h1, g1], g2⟩

theorem linear_eq {v : View} (hw : WF v.lay) (hf : FlagsOK v.lay) (h0 : v.lay.len ≠ [])
    (hp : v.lay.prop = .strided ∨ v.lay.prop = .contiguous) {idx : List Int} (hi : InRange v.lay.len idx) :
    linear v (lin (memOrder v.lay.so v.lay.len) (memOrder v.lay.so idx)) = some (v.off + Spec.offset v.lay idx) := by
  obtain ⟨u, hu, hul, hms⟩ := minStride_eq hw h0
  have hst : v.lay.prop.strided1d = true := by rcases hp with h | h <;> rw [h] <;> rfl
  obtain ⟨c, hc⟩ := hf.strided hst
  have hcu := fastestIs_of_evenlySpaced hc u hu
  rw [offset_evenlySpaced hw hc hi.length_eq]
  rcases hp with h | h
  · simp only [linear, h, if_true, hms, Option.bind_eq_bind, Option.bind_some]
    rw [hcu, Int.mul_comm]; rfl
  · have h1 : c = 1 := by rw [← hcu]; exact hf.smallest (by rw [h]; rfl) u hu
    have hne : (LayoutProp.contiguous = LayoutProp.strided) = False := by decide
    simp [linear, h, hne, h1]

/-! ### Regularity along chains -/

theorem pairwise_of_nested : ∀ {ss ls : List Int}, Nested ss ls → (∀ l ∈ ls, 1 < l) → ss.Pairwise (· ≥ ·) ∧ ∀ s ∈ ss, s ≤ reach ss ls
  | [], [], _, _ => ⟨List.Pairwise.nil, by simp⟩
  | s :: ss, l :: ls, h, hl => by
    obtain ⟨i1, i2⟩ := pairwise_of_nested h.2 (fun x hx => hl x (List.mem_cons_of_mem _ hx))
    have hr := reach_nonneg_of_nested h.2 (fun x hx => by have := hl x (List.mem_cons_of_mem _ hx); omega)
    have h1 := h.1
    have hl1 := hl l List.mem_cons_self
    have h2 : s * 1 ≤ s * (l - 1) := Int.mul_le_mul_of_nonneg_left (by omega) (by omega)
    refine ⟨List.pairwise_cons.mpr ⟨fun x hx => by have := i2 x hx; omega, i1⟩, ?_⟩
    intro x hx
    simp only [reach]
    rcases List.mem_cons.mp hx with rfl | hx
    · omega
    · have := i2 x hx; omega

theorem sortsStrides_of_regular {m : IdxMap} (hr : Regular m) : SortsStrides m := by
  apply (pairwise_of_nested hr _).1
  intro l hl
  obtain ⟨x, hx, rfl⟩ := List.mem_map.mp hl
  simpa using (List.mem_filter.mp hx).2

theorem absDecreasing_iff : ∀ (l : List Int), absDecreasing l = true ↔ (l.map (fun x => ((x.natAbs : Nat) : Int))).Pairwise (· ≥ ·)
  | [] => by simp [absDecreasing]
  | [a] => by simp [absDecreasing]
  | a :: b :: l => by
    have ih := absDecreasing_iff (b :: l)
    simp only [absDecreasing, List.map_cons] at ih ⊢
    by_cases h : a.natAbs < b.natAbs
    · rw [if_pos h]
      simp only [Bool.false_eq_true, false_iff]
      intro hp
      have := (List.pairwise_cons.mp hp).1 (b.natAbs : Int) (by simp)
      omega
    · rw [if_neg h, ih]
      constructor
      · intro hp
        refine List.pairwise_cons.mpr ⟨fun x hx => ?_, hp⟩
        rcases List.mem_cons.mp hx with rfl | hx
        · omega
        · have := (List.pairwise_cons.mp hp).1 x hx; omega
      · intro hp; exact (List.pairwise_cons.mp hp).2

theorem isStrideOrderValid_eq {m : IdxMap} (hw : WF m) : ∃ b, m.isStrideOrderValid = some b ∧ (b = true ↔ SortsStrides m) := by
  have h : m.so.mapM (fun d => do let l ← rd m.len d; let s ← rd m.str d; return (l, s)) =
      some (m.so.map (fun d => (m.len.getD d 0, m.str.getD d 0))) := by
    apply mapM_some_of
    intro d hd
    have h1 := IsPerm.lt hw.perm hd
    rw [hw.so_len] at h1
    rw [rd_getD h1, rd_getD (by rw [hw.str_len]; exact h1)]; rfl
  unfold isStrideOrderValid
  rw [h]
  simp only [Option.bind_eq_bind, Option.bind_some]
  refine ⟨_, rfl, ?_⟩
  rw [absDecreasing_iff]
  unfold SortsStrides bigDims
  simp [List.filter_map, Function.comp_def]

theorem isStrideOrderValid_of_regular {m : IdxMap} (hw : WF m) (hr : Regular m) : m.isStrideOrderValid = some true := by
  obtain ⟨b, h1, h2⟩ := isStrideOrderValid_eq hw
  rw [h1, h2.mpr (sortsStrides_of_regular hr)]

theorem permute_bigDims {m m' : IdxMap} {p : List Nat} (hw : WF m) (hpl : p.length = m.len.length)
    (hso : compose p m.so = some m'.so) (hlen : memOrder p m'.len = m.len) (hstr : memOrder p m'.str = m.str) :
    bigDims m' = bigDims m := by
  have h2 : ∀ k ∈ m.so, k < p.length := fun k hk => by
    have := IsPerm.lt hw.perm hk; rw [hw.so_len] at this; omega
  have a1 := (memOrder_compose h2 hso m'.str).trans (by rw [hstr])
  have a2 := (memOrder_compose h2 hso m'.len).trans (by rw [hlen])
  have hl := congrArg List.length a1
  rw [memOrder_length, memOrder_length] at hl
  unfold bigDims
  congr 1
  apply List.ext_getElem
  · simpa using hl
  · intro i hi hi'
    have hi1 : i < m'.so.length := by simpa using hi
    have hi2 : i < m.so.length := by simpa using hi'
    have b1 := congrArg (fun l => l[i]?) a1
    have b2 := congrArg (fun l => l[i]?) a2
    simp only [memOrder, List.getElem?_map, List.getElem?_eq_getElem hi1, List.getElem?_eq_getElem hi2, Option.map_some,
      Option.some.injEq] at b1 b2
    simp only [List.getElem_map, b1, b2]

theorem bigDims_addFast {m : IdxMap} (hw : WF m) (n : Nat) : bigDims (addFastDims m n) = bigDims m := by
  unfold bigDims
  show ((completeOrder m.so n).map (fun k => ((((m.str ++ List.replicate n 1).getD k 0).natAbs : Int),
    (m.len ++ List.replicate n 1).getD k 0))).filter _ = _
  unfold completeOrder
  rw [List.map_append, List.filter_append]
  have h2 : (((List.range n).map (fun i => m.so.length + i)).map (fun k => ((((m.str ++ List.replicate n 1).getD k 0).natAbs : Int),
    (m.len ++ List.replicate n 1).getD k 0))).filter (fun x => decide (1 < x.2)) = [] := by
    rw [List.filter_eq_nil_iff]
    intro x hx
    simp only [List.mem_map, List.mem_range] at hx
    obtain ⟨k, ⟨i, hi, rfl⟩, rfl⟩ := hx
    simp [hw.so_len, hi]
  rw [h2, List.append_nil]
  congr 1
  apply List.map_congr_left
  intro k hk
  have h := IsPerm.lt hw.perm hk
  rw [hw.so_len] at h
  simp [List.getElem?_append_left h, List.getElem?_append_left (show k < m.str.length by rw [hw.str_len]; exact h)]

theorem step_regular {v v' : View} (hw : WF v.lay) (hs : SmallestOK v.lay) {o : Op} (ha : Allowed v.lay.len o)
    (hr : Regular v.lay) (h : step v o = some v') : Regular v'.lay := by
  cases o with
  | slice args =>
    obtain ⟨v1, h1, _, h3⟩ := slice_step hw hs ha
    obtain rfl : v1 = v' := Option.some.inj (h1.symm.trans h)
    exact slice_regular hw (by rw [hw.so_len]; exact (inside_length ha.2.2).symm) h3 ha.2.2 hr
  | permute p =>
    obtain ⟨hp, hpl⟩ := ha
    obtain ⟨m', h1, hw', h3, h4, h5, h6, h7, h8⟩ := transpose_spec hw hp hpl
    have : v' = ⟨v.off, m'⟩ := by simpa [step, permuted, h1] using h.symm
    subst this
    unfold Regular
    rw [permute_bigDims hw hpl h8 h5 h6]; exact hr
  | addFast n =>
    have : v' = ⟨v.off, addFastDims v.lay n⟩ := by simpa [step] using h.symm
    subst this
    unfold Regular
    rw [bigDims_addFast hw]; exact hr

/-- Dense layouts of positive extents are regular. -/
theorem regular_of_dense {m : IdxMap} (hw : WF m) (hd : Dense m) (hpos : ∀ l ∈ m.len, 0 < l) : Regular m := by
  have h1 : memOrder m.so m.str = dense (memOrder m.so m.len) := by
    have : EvenlySpaced m 1 := hd
    unfold EvenlySpaced at this; simpa using this
  have hp : ∀ l ∈ memOrder m.so m.len, 0 < l := fun l hl =>
    hpos l ((memOrder_perm hw.perm hw.so_len.symm).mem_iff.mp hl)
  have hn := (nested_dense hp).1
  unfold Regular
  rw [(bigDims_eq m).1, (bigDims_eq m).2]
  -- all strides of a dense layout are positive
  have hs : ∀ k ∈ m.so, 0 < m.str.getD k 0 := by
    have : ∀ {ls : List Int}, (∀ l ∈ ls, 0 < l) → ∀ s ∈ dense ls, 0 < s := by
      intro ls
      induction ls with
      | nil => intro _ s hs; simp [dense] at hs
      | cons l ls ih =>
        intro h s hs
        simp only [dense, List.mem_cons] at hs
        rcases hs with rfl | hs
        · exact prod_pos (fun x hx => h x (List.mem_cons_of_mem _ hx))
        · exact ih (fun x hx => h x (List.mem_cons_of_mem _ hx)) s hs
    intro k hk
    apply this hp
    rw [← h1]; exact List.mem_map_of_mem hk
  rw [← h1] at hn
  -- dropping dimensions of extent one
  have drop : ∀ so : List Nat, (∀ k ∈ so, 0 < m.str.getD k 0 ∧ 0 < m.len.getD k 0) →
      Nested (so.map (fun k => m.str.getD k 0)) (so.map (fun k => m.len.getD k 0)) →
      Nested ((so.filter (fun k => decide (1 < m.len.getD k 0))).map (fun k => ((m.str.getD k 0).natAbs : Int)))
        ((so.filter (fun k => decide (1 < m.len.getD k 0))).map (fun k => m.len.getD k 0)) ∧
      reach ((so.filter (fun k => decide (1 < m.len.getD k 0))).map (fun k => ((m.str.getD k 0).natAbs : Int)))
        ((so.filter (fun k => decide (1 < m.len.getD k 0))).map (fun k => m.len.getD k 0)) =
      reach (so.map (fun k => m.str.getD k 0)) (so.map (fun k => m.len.getD k 0)) := by
    intro so
    induction so with
    | nil => intro _ _; exact ⟨trivial, rfl⟩
    | cons k so ih =>
      intro hk hn
      obtain ⟨i1, i2⟩ := ih (fun j hj => hk j (List.mem_cons_of_mem _ hj)) hn.2
      obtain ⟨k1, k2⟩ := hk k List.mem_cons_self
      have hn1 := hn.1
      have ha : ((m.str.getD k 0).natAbs : Int) = m.str.getD k 0 := by omega
      by_cases hL : 1 < m.len.getD k 0
      · simp only [List.filter_cons, hL, decide_true, if_true, List.map_cons]
        refine ⟨⟨by rw [i2, ha]; exact hn1, i1⟩, ?_⟩
        simp only [reach, i2, ha]
      · simp only [List.filter_cons, hL, decide_false, Bool.false_eq_true, if_false, List.map_cons]
        have : m.len.getD k 0 = 1 := by omega
        refine ⟨i1, ?_⟩
        simp only [reach, i2, this]; omega
  exact (drop m.so (fun k hk => ⟨hs k hk, hp _ (List.mem_map_of_mem hk)⟩) hn).1

end Nda.LayoutTransforms
