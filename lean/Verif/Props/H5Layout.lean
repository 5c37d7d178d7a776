import Verif.Lemmas.H5Layout
/-!
# C88: arrays and views of any layout in files
-/
namespace Nda.H5
open Nda Nda.Spec Nda.H5.Spec Nda.Assign Nda.LayoutTransforms Nda.IdxMap Nda.Matrix Nda.Mpi Nda.Perm Nda.Slice

variable {α R : Type}

theorem posStrides_of_big {a : View} (hw : WF a.lay) (hb : BigPos a.lay) : posStrides a = true := by
  unfold posStrides
  rw [Bool.or_eq_true]
  right
  rw [List.all_eq_true]
  rintro ⟨l, s⟩ hm
  obtain ⟨u, hu, e⟩ := List.mem_iff_getElem.mp hm
  have hl : u < a.lay.len.length := by rw [List.length_zip] at hu; omega
  have hs : u < a.lay.str.length := by rw [List.length_zip] at hu; omega
  rw [List.getElem_zip] at e
  have e1 : a.lay.len[u] = l := congrArg Prod.fst e
  have e2 : a.lay.str[u] = s := congrArg Prod.snd e
  have := hb u
  simp only [List.getD_eq_getElem?_getD, List.getElem?_eq_getElem hl, List.getElem?_eq_getElem hs, Option.getD_some, e1, e2] at this
  simp only [Bool.or_eq_true, decide_eq_true_eq]
  omega

theorem posStrides_of_blk {a : View} {n : Nat} (h : Blk a n) : posStrides a = true := by
  by_cases hz : prod a.lay.len = 0
  · unfold posStrides; simp [size_eq, hz]
  · have hpos : ∀ l ∈ a.lay.len, 0 < l := by
      intro l hl
      have := h.good.nonneg l hl
      rcases Int.lt_or_eq_of_le this with h' | h'
      · exact h'
      · exfalso
        apply hz
        obtain ⟨x, y, e⟩ := List.append_of_mem hl
        rw [e, prod_append, prod, ← h']; simp
    apply posStrides_of_big h.good.wf
    intro u hu
    have hw := h.good.wf
    have h1 : memOrder a.lay.so a.lay.str = dense (memOrder a.lay.so a.lay.len) := by
      have : EvenlySpaced a.lay 1 := h.dense
      unfold EvenlySpaced at this; simpa using this
    have hde : ∀ {ls : List Int}, (∀ l ∈ ls, 0 < l) → ∀ s ∈ dense ls, 0 < s := by
      intro ls
      induction ls with
      | nil => intro _ s hs; simp [dense] at hs
      | cons l ls ih =>
        intro h s hs
        simp only [dense, List.mem_cons] at hs
        rcases hs with rfl | hs
        · exact prod_pos (fun x hx => h x (List.mem_cons_of_mem _ hx))
        · exact ih (fun x hx => h x (List.mem_cons_of_mem _ hx)) s hs
    have hul : u < a.lay.str.length := by
      by_contra hc
      rw [hw.str_len] at hc
      simp [List.getElem?_eq_none (Nat.le_of_not_lt hc)] at hu
    have hm : a.lay.str.getD u 0 ∈ a.lay.str := by simp [hul]
    have := (memOrder_perm hw.perm (l := a.lay.str) (by rw [hw.str_len, hw.so_len])).mem_iff.mpr hm
    rw [h1] at this
    exact hde (fun l hl => hpos l ((memOrder_perm hw.perm hw.so_len.symm).mem_iff.mp hl)) _ this

theorem writeDirect_whole (c : Codec α R) (hc : CodecOK c) (a : View) (mem : List α) (old : Option (Dataset R)) (ha : Good a mem.length) (hp : posStrides a = true) :
    ∃ ds, writeDirect c [] a mem old = .ok ds ∧ Holds c ds a.lay.len (fun idx => val mem (addr a idx)) := by
  obtain ⟨vals, e, hl, hv⟩ := elements_list ha
  refine ⟨_, by unfold writeDirect; simp only [if_true, hp, check, e, orElse, bind, Except.bind, pure, Except.pure]; rfl, rfl, rfl, ?_, fun idx hi => ?_⟩
  · rw [h5WriteWhole]
    simp only [flatMap_length c hc]
    push_cast
    rw [hl]
  · obtain ⟨x, hx⟩ := val_isSome (ha.fits idx hi)
    refine ⟨by rw [hx]; rfl, ?_⟩
    rw [h5WriteWhole]
    rw [hx]
    exact number_flatMap c hc _ _ _ (by rw [hv idx hi, hx])

/-- The copy in C order that `h5_write` makes. -/
theorem copy_spec (junk : α) (a : View) (null : Bool) (mem : List α) (ha : Good a mem.length) (h0 : a.lay.len ≠ []) (hnull : null = true → prod a.lay.len = 0) :
    ∃ t mem1 mem2, fresh junk (Perm.identity a.lay.len.length) a.lay.len mem = some (t, mem1) ∧ assign .host .host true t (.inMem a null) mem1 = some (some mem2) ∧
      Blk t mem2.length ∧ t.lay.len = a.lay.len ∧ t.lay.so = Perm.identity a.lay.len.length ∧ ∀ idx, InRange a.lay.len idx → val mem2 (addr t idx) = val mem (addr a idx) := by
  obtain ⟨m, hm, e, hlen⟩ := fresh_eq junk (so := Perm.identity a.lay.len.length) (len := a.lay.len) (SymGrp.isPerm_identity _) (by simp [Perm.identity]) ha.nonneg mem
  have hb : Blk ⟨(mem.length : Int), m⟩ (mem ++ List.replicate m.size.toNat junk).length := freshBlk hm (by rw [hlen]) h0
  have hsep : Separate ⟨(mem.length : Int), m⟩ a := by
    intro i j hi hj h
    rw [show (View.mk (mem.length : Int) m).lay.len = a.lay.len from hm.len_eq] at hi
    have h1 := (hm.above i hi).1
    have h2 := (ha.fits j hj).2
    omega
  obtain ⟨mem2, e2, hu⟩ := C17_assign_host true null ⟨(mem.length : Int), m⟩ a (mem ++ List.replicate m.size.toNat junk) hb.good (ha.mono (by simp)) hm.len_eq.symm hm.one hsep
    (fun h => by rw [show (View.mk (mem.length : Int) m).lay.len = a.lay.len from hm.len_eq]; exact hnull h) (Or.inl hb.ne)
  refine ⟨_, _, mem2, e, e2, by rw [hu.size]; exact hb, hm.len_eq, hm.so_eq, fun idx hi => ?_⟩
  rw [hu.elems idx (by rw [show (View.mk (mem.length : Int) m).lay.len = a.lay.len from hm.len_eq]; exact hi)]
  exact val_app_left (ha.fits idx hi).2

/-- **C88** (write) An array or view of any layout, written as a whole: the dataset has its shape and its elements.  The only views for which this is not claimed are those in C order whose
contiguity test accepts negative strides. -/
theorem C88_write_whole_partial (junk : α) (c : Codec α R) (hc : CodecOK c) (a : View) (null : Bool) (mem : List α) (old : Option (Dataset R)) (ha : Good a mem.length) (h0 : a.lay.len ≠ [])
    (hnull : null = true → prod a.lay.len = 0) (hb : a.lay.so = List.range a.lay.len.length → a.lay.isContiguous = some true → BigPos a.lay) :
    ∃ ds, h5WriteMem junk c [] a null mem old = .ok ds ∧ Holds c ds a.lay.len (fun idx => val mem (addr a idx)) := by
  obtain ⟨b, e1, e2⟩ := needsCopy_some a ha.wf h0
  unfold h5WriteMem
  rw [e2]
  simp only [orElse, bind, Except.bind]
  by_cases hd : (decide (a.lay.so = Perm.identity a.lay.len.length) && b) = true
  · rw [hd]
    simp only [Bool.not_true, Bool.false_eq_true, if_false]
    rw [Bool.and_eq_true, decide_eq_true_eq] at hd
    rw [hd.2] at e1
    rw [identity_eq] at hd
    exact writeDirect_whole c hc a mem old ha (posStrides_of_big ha.wf (hb hd.1 e1))
  · rw [Bool.not_eq_true] at hd
    rw [hd]
    simp only [Bool.not_false, if_true]
    obtain ⟨t, mem1, mem2, f1, f2, tb, tl, tso, tv⟩ := copy_spec junk a null mem ha h0 hnull
    rw [f1]
    simp only [f2]
    obtain ⟨ds, g1, g2⟩ := writeDirect_whole c hc t mem2 old tb.good (posStrides_of_blk tb)
    rw [tl] at g2
    exact ⟨ds, g1, g2.lengths, g2.cplx, g2.size, fun idx hi => by rw [← tv idx hi]; exact g2.elems idx hi⟩

theorem holds_data {c : Codec α R} {ds : Dataset R} {L : List Int} {f : List Int → Option α} (h : Holds c ds L f) : ds = ⟨L ++ tailLen c.cplx, ds.data, c.cplx⟩ := by
  cases ds
  have h1 := h.lengths
  have h2 := h.cplx
  simp only at h1 h2
  subst h1 h2
  rfl

theorem prod_tail (c : Codec α R) (L : List Int) : prod (L ++ tailLen c.cplx) = prod L * (if c.cplx then 2 else 1) := by
  rw [prod_append]
  unfold tailLen
  cases c.cplx <;> simp [prod]

theorem number_bound {c : Codec α R} {L idx : List Int} {data : List R} (hs : (data.length : Int) = prod L * (if c.cplx then 2 else 1)) (hi : InRange L idx) :
    ((lin L idx).toNat + 1) * (if c.cplx then 2 else 1) ≤ data.length := by
  have hb := lin_bounds hi
  cases hx : c.cplx <;> simp only [hx, if_true, Bool.false_eq_true, if_false] at hs ⊢ <;> omega

theorem writeDirect_slice (c : Codec α R) (hc : CodecOK c) (L : List Int) (f : List Int → Option α) (ds : Dataset R) (args : List Arg) (a : View) (mem : List α) (hds : Holds c ds L f)
    (hn : NonNeg L) (hs : Small L) (hf : Fits L.length args) (hne : args ≠ []) (hin : Inside (expand L.length args) L) (hp : ∀ a ∈ args, Plain a)
    (hsh : SliceShape (expand L.length args) L a.lay.len) (ha : Good a mem.length) (hC : HasC a) :
    ∃ ds' f', writeDirect c args a mem (some ds) = .ok ds' ∧ Holds c ds' L f' ∧ (∀ J, InRange a.lay.len J → f' (coords (expand L.length args) J) = val mem (addr a J)) ∧
      ∀ idx, InRange L idx → (∀ J, InRange a.lay.len J → coords (expand L.length args) J ≠ idx) → f' idx = f idx := by
  obtain ⟨vals, e, hl, hv⟩ := elements_buf ha hC
  have hdl : (ds.data.length : Int) = prod (L ++ tailLen c.cplx) := by rw [prod_tail]; exact hds.size
  obtain ⟨data', w1, w2, w3, w4⟩ := C37_write_partial L c.cplx ds.data (vals.flatMap c.enc) args a.lay.len hn hs hdl hf hin hp hsh (by
    rw [prod_tail, flatMap_length c hc]; push_cast; rw [hl])
  obtain ⟨D, sh, s1, s2, s3, s4⟩ := selected_eq L c.cplx args hs hf hin hp
  obtain rfl := C06_shape_unique _ _ _ _ s2 hsh
  have hcnt := (wants_length _ _ _ _ s1).2.2
  have hcoord : ∀ J t, InRange a.lay.len J → InRange (tailLen c.cplx) t → InRange (L ++ tailLen c.cplx) (coords (expand L.length args) J ++ t) := by
    intro J t hJ ht
    have := s4 (J ++ t) (inRange_append hJ ht)
    rwa [coordsX_append _ J t expand_noell (by rw [hJ.length_eq, hcnt])] at this
  have ht0 : ∃ t, InRange (tailLen c.cplx) t := by
    cases c.cplx
    · exact ⟨[], trivial⟩
    · exact ⟨[0], ⟨by decide, by decide⟩, trivial⟩
  have hcin : ∀ J, InRange a.lay.len J → InRange L (coords (expand L.length args) J) := by
    intro J hJ
    obtain ⟨t, ht⟩ := ht0
    have h1 := hcoord J t hJ ht
    have hlen : (coords (expand L.length args) J).length = L.length := by
      have := h1.length_eq
      rw [List.length_append, List.length_append, ht.length_eq] at this
      omega
    have key : ∀ (A B i j : List Int), i.length = A.length → InRange (A ++ B) (i ++ j) → InRange A i := by
      intro A
      induction A with
      | nil => intro B i j hi _; cases i with | nil => trivial | cons x i => simp at hi
      | cons l A ih =>
        intro B i j hi h
        cases i with
        | nil => simp at hi
        | cons x i => exact ⟨h.1, ih B i j (by simpa using hi) h.2⟩
    exact key _ _ _ _ hlen h1
  have hds' : (data'.length : Int) = prod L * (if c.cplx then 2 else 1) := by rw [w2]; exact hds.size
  refine ⟨⟨L ++ tailLen c.cplx, data', c.cplx⟩, fun idx => number c data' (lin L idx).toNat, ?_, ⟨rfl, rfl, hds', fun idx hi => ⟨?_, rfl⟩⟩, ?_, ?_⟩
  · unfold writeDirect
    rw [if_neg hne, holds_data hds]
    simp only [orElse, bind, Except.bind, e, w1]
  · obtain ⟨x, hx⟩ := number_some c hc data' _ (number_bound hds' hi)
    rw [hx]; rfl
  · intro J hJ
    obtain ⟨x, hx⟩ := val_isSome (ha.fits J hJ)
    have h1 := number_flatMap c hc vals (lin a.lay.len J).toNat x (by rw [hv J hJ, hx])
    rw [hx, ← h1]
    refine number_congr c (hcin J hJ) hJ (fun t ht => ?_)
    obtain ⟨y, y1, y2⟩ := w3 J t hJ ht
    rw [y1]
    have hb := (lin_bounds (hcoord J t hJ ht)).1
    unfold val at y2
    rw [if_neg (by omega)] at y2
    exact y2
  · intro idx hi hno
    show number c data' _ = _
    rw [← (hds.elems idx hi).2]
    refine number_congr c hi hi (fun t ht => ?_)
    have hb := (lin_bounds (inRange_append hi ht)).1
    have := w4 (lin (L ++ tailLen c.cplx) (idx ++ t)) (fun J t' hJ ht' h => by
      have := lin_inj (hcoord J t' hJ ht') (inRange_append hi ht) h
      have hlen : (coords (expand L.length args) J).length = idx.length := by rw [(hcin J hJ).length_eq, hi.length_eq]
      exact hno J hJ (List.append_inj_left this hlen))
    unfold val at this
    rw [if_neg (by omega), if_neg (by omega)] at this
    exact this

/-- **C88** (write a slice) An array or view of any layout, with the extents of a slice of the dataset, written to that slice: exactly the elements that the slice names are replaced, by the
elements of the array. -/
theorem C88_write_slice_partial (junk : α) (c : Codec α R) (hc : CodecOK c) (L : List Int) (f : List Int → Option α) (ds : Dataset R) (args : List Arg) (a : View) (null : Bool) (mem : List α)
    (hds : Holds c ds L f) (hn : NonNeg L) (hs : Small L) (hf : Fits L.length args) (hne : args ≠ []) (hin : Inside (expand L.length args) L) (hp : ∀ a ∈ args, Plain a)
    (hsh : SliceShape (expand L.length args) L a.lay.len) (ha : Good a mem.length) (h0 : a.lay.len ≠ []) (hnull : null = true → prod a.lay.len = 0)
    (hb : a.lay.so = List.range a.lay.len.length → a.lay.isContiguous = some true → Regular a.lay ∧ BigPos a.lay) :
    ∃ ds' f', h5WriteMem junk c args a null mem (some ds) = .ok ds' ∧ Holds c ds' L f' ∧ (∀ J, InRange a.lay.len J → f' (coords (expand L.length args) J) = val mem (addr a J)) ∧
      ∀ idx, InRange L idx → (∀ J, InRange a.lay.len J → coords (expand L.length args) J ≠ idx) → f' idx = f idx := by
  obtain ⟨b, e1, e2⟩ := needsCopy_some a ha.wf h0
  unfold h5WriteMem
  rw [e2]
  simp only [orElse, bind, Except.bind]
  by_cases hd : (decide (a.lay.so = Perm.identity a.lay.len.length) && b) = true
  · rw [hd]
    simp only [Bool.not_true, Bool.false_eq_true, if_false]
    rw [Bool.and_eq_true, decide_eq_true_eq] at hd
    rw [hd.2] at e1
    have := hb (by rw [← identity_eq]; exact hd.1) e1
    exact writeDirect_slice c hc L f ds args a mem hds hn hs hf hne hin hp hsh ha (hasC_of_contiguous ha.wf h0 this.1 this.2 hd.1 e1)
  · rw [Bool.not_eq_true] at hd
    rw [hd]
    simp only [Bool.not_false, if_true]
    obtain ⟨t, mem1, mem2, f1, f2, tb, tl, tso, tv⟩ := copy_spec junk a null mem ha h0 hnull
    rw [f1]
    simp only [f2]
    obtain ⟨ds', f', g1, g2, g3, g4⟩ := writeDirect_slice c hc L f ds args t mem2 hds hn hs hf hne hin hp (by rw [tl]; exact hsh) tb.good (hasC_of_blk tb (by rw [tl]; exact tso))
    rw [tl] at g3 g4
    exact ⟨ds', f', g1, g2, fun J hJ => by rw [← tv J hJ]; exact g3 J hJ, g4⟩

/-! ### Reading -/

theorem hasC_range {t : View} {n : Nat} (ht : Good t n) (hC : HasC t) (h : 0 < prod t.lay.len) : 0 ≤ t.off ∧ t.off + prod t.lay.len ≤ n := by
  obtain ⟨i, hi, ei⟩ := lin_surj ht.nonneg 0 (le_refl _) h
  obtain ⟨j, hj, ej⟩ := lin_surj ht.nonneg (prod t.lay.len - 1) (by omega) (by omega)
  have h1 := ht.fits i hi
  have h2 := ht.fits j hj
  rw [hC i hi, ei] at h1
  rw [hC j hj, ej] at h2
  omega

theorem hasC_one {t : View} (hC : HasC t) : OneToOne t := by
  intro i j hi hj e
  rw [hC i hi, hC j hj] at e
  exact lin_inj hi hj (by omega)

/-- The data of the file arrives in an array whose elements are consecutive. -/
theorem fill_spec' (c : Codec α R) (hc : CodecOK c) (conv : Bool) (t : View) (shape : List Int) (vals : List R) (g : List Int → Option α) (mem : List α) (ht : Good t mem.length) (hC : HasC t)
    (hl : t.lay.len = shape) (hsz : (vals.length : Int) = prod shape * (if c.cplx then 2 else 1)) (hg : ∀ J, InRange shape J → number c vals (lin shape J).toNat = g J) :
    ∃ mem', (if conv then
        match assign .host .host false t (.expr (fun idx _ => c.elemAt vals (rowPos shape idx).toNat)) mem with
        | some (some mem') => Except.ok (t, mem')
        | some none => .error Bad.runtime
        | none => .error .ub
      else do
        let vals ← orElse .runtime ((List.range (shape.foldr (· * ·) 1).toNat).mapM (fun k => c.elemAt vals k))
        let mem' ← orElse .ub (writeBuf mem t.off vals)
        return (t, mem')) = .ok (t, mem') ∧ Updated t g mem mem' := by
  subst hl
  have hel : ∀ J, InRange t.lay.len J → c.elemAt vals (lin t.lay.len J).toNat = g J := fun J hJ => by rw [elemAt_eq c vals _ (number_bound hsz hJ), hg J hJ]
  have hsome : ∀ J, InRange t.lay.len J → ∃ x, g J = some x := fun J hJ => by
    obtain ⟨x, hx⟩ := number_some c hc vals _ (number_bound hsz hJ)
    exact ⟨x, by rw [← hg J hJ, hx]⟩
  cases conv with
  | true =>
    obtain ⟨mem', e, hu⟩ := C17_assign_expr .host .host false t (fun idx _ => c.elemAt vals (rowPos t.lay.len idx).toNat) mem ht (hasC_one hC) (by decide) (by decide)
      (fun idx hi => by rw [rowPos_eq, hel idx hi]; exact hsome idx hi) (fun _ _ _ _ _ => rfl)
    refine ⟨mem', by rw [if_pos rfl, e], hu.size, fun idx hi => ?_, hu.frame⟩
    rw [hu.elems idx hi, rowPos_eq, hel idx hi]
  | false =>
    rw [if_neg (by simp)]
    have hp := prod_nonneg ht.nonneg
    have key : ∀ n : Nat, (n : Int) ≤ prod t.lay.len → ∃ xs, (List.range n).mapM (fun k => c.elemAt vals k) = some xs ∧ xs.length = n ∧ ∀ k : Nat, k < n → xs[k]? = c.elemAt vals k := by
      intro n
      induction n with
      | zero => intro _; exact ⟨[], rfl, rfl, by simp⟩
      | succ n ih =>
        intro hn
        obtain ⟨xs, e, hl, hx⟩ := ih (by omega)
        obtain ⟨J, hJ, eJ⟩ := lin_surj ht.nonneg (n : Int) (by omega) (by omega)
        obtain ⟨x, hgx⟩ := hsome J hJ
        have hex : c.elemAt vals n = some x := by
          have := hel J hJ
          rw [eJ, Int.toNat_natCast, hgx] at this
          exact this
        refine ⟨xs ++ [x], by rw [List.range_succ, List.mapM_append, e]; simp [hex], by simp [hl], fun k hk => ?_⟩
        rcases Nat.lt_or_ge k n with h | h
        · rw [List.getElem?_append_left (by omega), hx k h]
        · obtain rfl : k = n := by omega
          rw [List.getElem?_append_right (by omega), hl, hex]; simp
    obtain ⟨xs, e, hxl, hx⟩ := key (prod t.lay.len).toNat (by omega)
    obtain ⟨mem', w1, w2, w3, w4⟩ := writeBuf_spec xs mem t.off (fun hne => by
      have : 0 < xs.length := List.length_pos_iff.mpr hne
      have := hasC_range ht hC (by omega)
      omega)
    refine ⟨mem', by rw [foldr_prod, e]; simp only [orElse, bind, Except.bind, w1, pure, Except.pure], w2, fun J hJ => ?_, fun k hk => w4 k (fun h => hk ?_)⟩
    · have hb := lin_bounds hJ
      have := w3 (lin t.lay.len J).toNat (by omega)
      rw [Int.toNat_of_nonneg hb.1] at this
      rw [hC J hJ, this, hx _ (by omega), hel J hJ]
    · obtain ⟨J, hJ, eJ⟩ := lin_surj ht.nonneg (k - t.off) (by omega) (by omega)
      exact ⟨J, hJ, by rw [hC J hJ, eJ]; omega⟩

/-- What is read from the file, if the target accepts it. -/
structure FileData [Zero R] (c : Codec α R) (rank : Nat) (slice : List Arg) (ds : Dataset R) (shape : List Int) (vals : List R) (g : List Int → Option α) : Prop where
  read : ∀ view, view = none ∨ view = some shape → h5Read rank c.cplx slice view ds = .ok (shape, vals)
  rank : shape.length = rank
  nonneg : NonNeg shape
  size : (vals.length : Int) = prod shape * (if c.cplx then 2 else 1)
  elems : ∀ J, InRange shape J → number c vals (lin shape J).toNat = g J

theorem readDirect_array [Zero R] (junk : α) (c : Codec α R) (hc : CodecOK c) (slice : List Arg) (a : View) (mem : List α) (ds : Dataset R) (shape : List Int) (vals : List R)
    (g : List Int → Option α) (h : FileData c a.lay.len.length slice ds shape vals g) (ha : Blk a mem.length) (hso : a.lay.so = Perm.identity a.lay.len.length) :
    ∃ t mem', readDirect junk c true slice a mem ds = .ok (t, mem') ∧ ReadInto true a shape g mem t mem' ∧ Blk t mem'.length := by
  obtain ⟨t, mem1, e1, tb, tl, tso, tg, tv, tp⟩ := resizeArr_spec junk ha h.nonneg h.rank
  have hC : HasC t := hasC_of_blk tb (by rw [tso, hso, tl, h.rank])
  obtain ⟨mem', e2, hu⟩ := fill_spec' c hc (c.cplx && !ds.isComplex) t shape vals g mem1 tb.good hC tl h.size h.elems
  have tb' : Blk t mem'.length := by rw [hu.size]; exact tb
  refine ⟨t, mem', ?_, ⟨tl, tso, tb'.good, tb.one, fun J hJ => hu.elems J (by rw [tl]; exact hJ), by rw [hu.size]; exact tg, ?_, tp, by simp⟩, tb'⟩
  · unfold readDirect
    rw [if_pos rfl, h.read none (Or.inl rfl)]
    simp only [bind, Except.bind, e1, orElse, if_true]
    exact e2
  · intro k hk hno
    rw [hu.frame k (fun ho => ?_), tv k hk]
    rcases tp k ho with h' | h'
    · exact hno h'
    · omega

theorem readDirect_view [Zero R] (junk : α) (c : Codec α R) (hc : CodecOK c) (slice : List Arg) (a : View) (mem : List α) (ds : Dataset R) (vals : List R)
    (g : List Int → Option α) (h : FileData c a.lay.len.length slice ds a.lay.len vals g) (ha : Good a mem.length) (hC : HasC a) :
    ∃ mem', readDirect junk c false slice a mem ds = .ok (a, mem') ∧ ReadInto false a a.lay.len g mem a mem' := by
  obtain ⟨mem', e2, hu⟩ := fill_spec' c hc (c.cplx && !ds.isComplex) a a.lay.len vals g mem ha hC rfl h.size h.elems
  refine ⟨mem', ?_, rfl, rfl, by rw [hu.size]; exact ha, hasC_one hC, hu.elems, by rw [hu.size], fun k _ hno => hu.frame k hno, fun k hk => Or.inl hk, fun _ => rfl⟩
  unfold readDirect
  rw [if_neg (by simp), h.read (some a.lay.len) (Or.inr rfl)]
  simp only [bind, Except.bind, Bool.false_eq_true, if_false]
  exact e2

theorem readMem_spec [Zero R] (junk : α) (c : Codec α R) (hc : CodecOK c) (reg : Bool) (slice : List Arg) (a : View) (mem : List α) (ds : Dataset R) (shape : List Int) (vals : List R)
    (g : List Int → Option α) (h : FileData c a.lay.len.length slice ds shape vals g) (ha : Target reg a shape mem.length) :
    ∃ t mem', h5ReadMem junk c reg slice a mem ds = .ok (t, mem') ∧ ReadInto reg a shape g mem t mem' := by
  -- the temporary array
  have htmp : a.lay.len ≠ [] → ∃ t0 mem0 t mem1, fresh junk (Perm.identity a.lay.len.length) (List.replicate a.lay.len.length 0) mem = some (t0, mem0) ∧
      readDirect junk c true slice t0 mem0 ds = .ok (t, mem1) ∧ Blk t mem1.length ∧ t.lay.len = shape ∧ (∀ J, InRange shape J → val mem1 (addr t J) = g J) ∧ mem.length ≤ mem1.length ∧
      (∀ k : Int, k < mem.length → val mem1 k = val mem k) ∧ ∀ k, Occupies t k → (mem.length : Int) ≤ k := by
    intro h0
    have hn0 : NonNeg (List.replicate a.lay.len.length 0) := fun x hx => by rw [(List.mem_replicate.mp hx).2]
    obtain ⟨m, hm, e, hlen⟩ := fresh_eq junk (so := Perm.identity a.lay.len.length) (len := List.replicate a.lay.len.length 0) (SymGrp.isPerm_identity _) (by simp [Perm.identity]) hn0 mem
    have hr0 : List.replicate a.lay.len.length (0 : Int) ≠ [] := by
      intro h'
      have := congrArg List.length h'
      simp only [List.length_replicate, List.length_nil] at this
      exact h0 (List.eq_nil_of_length_eq_zero this)
    have hb : Blk ⟨(mem.length : Int), m⟩ (mem ++ List.replicate m.size.toNat junk).length := freshBlk hm (by rw [hlen]) hr0
    have hml : (View.mk (mem.length : Int) m).lay.len = List.replicate a.lay.len.length 0 := hm.len_eq
    have hno : ∀ k, ¬ Occupies ⟨(mem.length : Int), m⟩ k := by
      rintro k ⟨idx, hi, _⟩
      rw [hml] at hi
      cases hr : a.lay.len.length with
      | zero => rw [hr] at hr0; simp at hr0
      | succ n =>
        rw [hr, List.replicate_succ] at hi
        cases idx with
        | nil => exact hi
        | cons x idx => have := hi.1; omega
    obtain ⟨t, mem1, r1, r2, r3⟩ := readDirect_array junk c hc slice ⟨(mem.length : Int), m⟩ (mem ++ List.replicate m.size.toNat junk) ds shape vals g
      (by rw [hml, List.length_replicate]; exact h) hb (by rw [hml, List.length_replicate]; exact hm.so_eq)
    have hge : mem.length ≤ (mem ++ List.replicate m.size.toNat junk).length := by simp
    refine ⟨_, _, t, mem1, e, r1, r3, r2.len, r2.elems, le_trans hge r2.grows, fun k hk => ?_, fun k hk => ?_⟩
    · rw [r2.frame k (by omega) (hno k), val_app_left hk]
    · rcases r2.place k hk with h' | h'
      · exact absurd h' (hno k)
      · omega
  unfold h5ReadMem
  cases reg with
  | true =>
    obtain ⟨hb, hl⟩ : Blk a mem.length ∧ shape.length = a.lay.len.length := by simpa [Target] using ha
    rw [blk_needsCopy hb]
    simp only [Bool.or_true, check, if_true, orElse, bind, Except.bind]
    by_cases hso : a.lay.so = Perm.identity a.lay.len.length
    · simp only [hso, decide_true, Bool.not_true, Bool.false_eq_true, if_false]
      obtain ⟨t, mem', r1, r2, _⟩ := readDirect_array junk c hc slice a mem ds shape vals g h hb hso
      exact ⟨t, mem', r1, r2⟩
    · simp only [hso, decide_false, Bool.not_false, if_true]
      obtain ⟨t0, mem0, t, mem1, e1, e2, tb, tl, tv, tg, tf, tp⟩ := htmp hb.ne
      have hb1 : Blk a mem1.length := ⟨hb.good.mono tg, hb.dense, hb.ne⟩
      obtain ⟨b, mem2, e3, bb, bl, bso, bg, bv, bp⟩ := resizeArr_spec junk (mem := mem1) hb1 h.nonneg h.rank
      have hfit : ∀ k, Occupies a k → k < mem.length := by rintro k ⟨i, hi, rfl⟩; exact (hb.good.fits i hi).2
      have hsep : Separate b t := by
        intro i j hi hj he
        have h1 := tp _ ⟨j, hj, rfl⟩
        have h2 := (tb.good.fits j hj).2
        rcases bp _ ⟨i, hi, rfl⟩ with h' | h'
        · have := hfit _ h'; omega
        · omega
      obtain ⟨mem3, e4, hu⟩ := C17_assign_host true (decide (t.lay.size = 0)) b t mem2 bb.good (tb.good.mono bg) (by rw [tl, bl]) bb.one hsep
        (fun hz => by rw [bl, ← tl, ← size_eq]; exact of_decide_eq_true hz) (Or.inl bb.ne)
      refine ⟨b, mem3, by rw [e1]; simp only [e2, tl, e3, e4], bl, bso, by rw [hu.size]; exact bb.good, bb.one, fun J hJ => ?_, by rw [hu.size]; omega, fun k hk hno => ?_, fun k hk => ?_, by simp⟩
      · rw [hu.elems J (by rw [bl]; exact hJ), bv _ (tb.good.fits J (by rw [tl]; exact hJ)).2, tv J hJ]
      · rw [hu.frame k (fun ho => ?_), bv k (by omega), tf k hk]
        rcases bp k ho with h' | h'
        · exact hno h'
        · omega
      · rcases bp k hk with h' | h'
        · exact Or.inl h'
        · exact Or.inr (by omega)
  | false =>
    obtain ⟨hg, h1, hso, h0, rfl, hreg⟩ : Good a mem.length ∧ OneToOne a ∧ a.lay.so = List.range a.lay.len.length ∧ a.lay.len ≠ [] ∧ a.lay.len = shape ∧
      (a.lay.isContiguous = some true → Regular a.lay ∧ BigPos a.lay) := by simpa [Target] using ha
    rw [← identity_eq] at hso
    obtain ⟨b, c1, c2⟩ := needsCopy_some a hg.wf h0
    rw [c2]
    simp only [hso, decide_true, Bool.true_or, check, if_true, orElse, bind, Except.bind, Bool.true_and]
    cases b with
    | true =>
      simp only [Bool.not_true, Bool.false_eq_true, if_false]
      have := hreg c1
      obtain ⟨mem', r1, r2⟩ := readDirect_view junk c hc slice a mem ds vals g h hg (hasC_of_contiguous hg.wf h0 this.1 this.2 hso c1)
      exact ⟨a, mem', r1, r2⟩
    | false =>
      simp only [Bool.not_false, if_true]
      obtain ⟨t0, mem0, t, mem1, e1, e2, tb, tl, tv, tg, tf, tp⟩ := htmp h0
      have hsep : Separate a t := by
        intro i j hi hj he
        have h2 := tp _ ⟨j, hj, rfl⟩
        have := (hg.fits i hi).2
        omega
      obtain ⟨mem3, e4, hu⟩ := C17_assign_host true (decide (t.lay.size = 0)) a t mem1 (hg.mono tg) tb.good tl h1 hsep
        (fun hz => by rw [← tl, ← size_eq]; exact of_decide_eq_true hz) (Or.inl h0)
      refine ⟨a, mem3, by rw [e1]; simp only [e2, Bool.false_eq_true, if_false, e4], rfl, rfl, by rw [hu.size]; exact hg.mono tg, h1, fun J hJ => ?_, by rw [hu.size]; exact tg, fun k hk hno => ?_,
        fun k hk => Or.inl hk, fun _ => rfl⟩
      · rw [hu.elems J hJ, tv J hJ]
      · rw [hu.frame k hno, tf k hk]

theorem target_rank {reg : Bool} {a : View} {shape : List Int} {n : Nat} (h : Target reg a shape n) : shape.length = a.lay.len.length := by
  unfold Target at h
  cases reg with
  | true => exact h.2
  | false => simp only [Bool.false_eq_true, if_false] at h; rw [h.2.2.2.2.1]

/-- **C88** (read) A whole dataset, read into an array of any memory order (which gets the shape of the dataset) or into a view of its shape, with or without gaps: the elements of the target are
those of the dataset and no other memory changes. -/
theorem C88_read_whole_partial [Zero R] (junk : α) (c : Codec α R) (hc : CodecOK c) (reg : Bool) (a : View) (mem : List α) (ds : Dataset R) (L : List Int) (f : List Int → Option α)
    (hds : Holds c ds L f) (hn : NonNeg L) (ha : Target reg a L mem.length) : ∃ t mem', h5ReadMem junk c reg [] a mem ds = .ok (t, mem') ∧ ReadInto reg a L f mem t mem' := by
  have hd : ds = h5WriteWhole c.cplx L ds.data := holds_data hds
  obtain ⟨w1, w2, _⟩ := C37_whole c.cplx L ds.data
  refine readMem_spec junk c hc reg [] a mem ds L ds.data f ⟨?_, target_rank ha, hn, hds.size, fun J hJ => (hds.elems J hJ).2⟩ ha
  rw [hd, ← target_rank ha]
  rintro view (rfl | rfl)
  · exact w1
  · exact w2

/-- **C88** (read a slice) A slice of a dataset, read into an array of any memory order or into a view with the extents of the slice. -/
theorem C88_read_slice_partial [Zero R] (junk : α) (c : Codec α R) (hc : CodecOK c) (reg : Bool) (a : View) (mem : List α) (ds : Dataset R) (L : List Int) (f : List Int → Option α)
    (hds : Holds c ds L f) (args : List Arg) (hn : NonNeg L) (hs : Small L) (hf : Fits L.length args) (hne : args ≠ []) (hin : Inside (expand L.length args) L) (hp : ∀ a ∈ args, Plain a)
    (shape : List Int) (hsh : SliceShape (expand L.length args) L shape) (ha : Target reg a shape mem.length) :
    ∃ t mem', h5ReadMem junk c reg args a mem ds = .ok (t, mem') ∧ ReadInto reg a shape (fun J => f (coords (expand L.length args) J)) mem t mem' := by
  have hdl : (ds.data.length : Int) = prod (L ++ tailLen c.cplx) := by rw [prod_tail]; exact hds.size
  obtain ⟨sh, vals, r1, r2, r3, r4⟩ := C37_read_partial L c.cplx ds.data args hn hs hdl hf hne hin hp
  obtain rfl := C06_shape_unique _ _ _ _ r2 hsh
  obtain ⟨D, sh', s1, s2, s3, s4⟩ := selected_eq L c.cplx args hs hf hin hp
  obtain rfl := C06_shape_unique _ _ _ _ s2 hsh
  have hcnt := (wants_length _ _ _ _ s1).2.2
  have hv := (C37_view_checked L c.cplx ds.data args sh' hs hf hne hin hp).1 hsh
  have hcoord : ∀ J t, InRange sh' J → InRange (tailLen c.cplx) t → InRange (L ++ tailLen c.cplx) (coords (expand L.length args) J ++ t) := by
    intro J t hJ ht
    have := s4 (J ++ t) (inRange_append hJ ht)
    rwa [coordsX_append _ J t expand_noell (by rw [hJ.length_eq, hcnt])] at this
  have hcin : ∀ J, InRange sh' J → InRange L (coords (expand L.length args) J) := by
    intro J hJ
    obtain ⟨t, ht⟩ : ∃ t, InRange (tailLen c.cplx) t := by
      cases c.cplx
      · exact ⟨[], trivial⟩
      · exact ⟨[0], ⟨by decide, by decide⟩, trivial⟩
    have h1 := hcoord J t hJ ht
    have hlen : (coords (expand L.length args) J).length = L.length := by
      have := h1.length_eq
      rw [List.length_append, List.length_append, ht.length_eq] at this
      omega
    have key : ∀ (A B i j : List Int), i.length = A.length → InRange (A ++ B) (i ++ j) → InRange A i := by
      intro A
      induction A with
      | nil => intro B i j hi _; cases i with | nil => trivial | cons x i => simp at hi
      | cons l A ih =>
        intro B i j hi h
        cases i with
        | nil => simp at hi
        | cons x i => exact ⟨h.1, ih B i j (by simpa using hi) h.2⟩
    exact key _ _ _ _ hlen h1
  refine readMem_spec junk c hc reg args a mem ds sh' vals _ ⟨?_, target_rank ha, wants_nonneg _ _ _ _ s1 hn, by rw [r3, prod_tail], fun J hJ => ?_⟩ ha
  · rw [holds_data hds, ← target_rank ha, hcnt]
    rintro view (rfl | rfl)
    · exact r1
    · rw [hv]; exact r1
  · rw [← (hds.elems _ (hcin J hJ)).2]
    refine number_congr c hJ (hcin J hJ) (fun t ht => ?_)
    obtain ⟨y, y1, y2⟩ := r4 J t hJ ht
    rw [y1]
    have hb := (lin_bounds (hcoord J t hJ ht)).1
    unfold val at y2
    rw [if_neg (by omega)] at y2
    exact y2.symm

/-- **C88** (round trip) What is written from an array or view of any layout is read back, as a whole or in part, into an array or view of any other layout. -/
theorem C88_round_trip_partial [Zero R] (junk junk' : α) (c : Codec α R) (hc : CodecOK c) (a : View) (null : Bool) (memA : List α) (ha : Good a memA.length) (h0 : a.lay.len ≠ [])
    (hnull : null = true → prod a.lay.len = 0) (hb : a.lay.so = List.range a.lay.len.length → a.lay.isContiguous = some true → BigPos a.lay) :
    ∃ ds, h5WriteMem junk c [] a null memA none = .ok ds ∧
      (∀ reg b memB, Target reg b a.lay.len (List.length memB) →
        ∃ t mem', h5ReadMem junk' c reg [] b memB ds = .ok (t, mem') ∧ ReadInto reg b a.lay.len (fun idx => val memA (addr a idx)) memB t mem') ∧
      (∀ reg b memB args shape, args ≠ [] → Small a.lay.len → Fits a.lay.len.length args → Inside (expand a.lay.len.length args) a.lay.len → (∀ x ∈ args, Plain x) →
        SliceShape (expand a.lay.len.length args) a.lay.len shape → Target reg b shape (List.length memB) →
        ∃ t mem', h5ReadMem junk' c reg args b memB ds = .ok (t, mem') ∧ ReadInto reg b shape (fun J => val memA (addr a (coords (expand a.lay.len.length args) J))) memB t mem') := by
  obtain ⟨ds, e, hds⟩ := C88_write_whole_partial junk c hc a null memA none ha h0 hnull hb
  exact ⟨ds, e, fun reg b memB hT => C88_read_whole_partial junk' c hc reg b memB ds _ _ hds ha.nonneg hT,
    fun reg b memB args shape hne hs hf hin hp hsh hT => C88_read_slice_partial junk' c hc reg b memB ds _ _ hds args ha.nonneg hs hf hne hin hp shape hsh hT⟩

/-- **C88** A dataset of real numbers, read into an array or view of complex elements of any layout: the imaginary parts are zero.  A slice, if one is given, is ignored (see C37). -/
theorem C88_real_into_complex [Zero R] (junk : α) (c : Codec α R) (hc : CodecOK c) (hx : c.cplx = true) (reg : Bool) (a : View) (mem : List α) (L : List Int) (data : List R) (slice : List Arg)
    (hn : NonNeg L) (hd : (data.length : Int) = prod L) (ha : Target reg a L mem.length) :
    ∃ t mem', h5ReadMem junk c reg slice a mem ⟨L, data, false⟩ = .ok (t, mem') ∧
      ReadInto reg a L (fun J => (data[(lin L J).toNat]?).bind (fun x => c.dec [x, 0])) mem t mem' := by
  have hfl : ∀ l : List R, (l.flatMap (fun x => [x, 0])).length = 2 * l.length := by
    intro l
    induction l with
    | nil => rfl
    | cons x l ih => rw [List.flatMap_cons, List.length_append, ih]; simp; omega
  have hnum : ∀ (l : List R) (k : Nat), number c (l.flatMap (fun x => [x, 0])) k = (l[k]?).bind (fun x => c.dec [x, 0]) := by
    intro l
    unfold number
    simp only [hx, if_true]
    induction l with
    | nil => intro k; simp
    | cons x l ih =>
      intro k
      cases k with
      | zero => simp
      | succ k =>
        have := ih k
        rw [List.flatMap_cons, show 2 * (k + 1) = 2 * k + 1 + 1 by omega]
        simpa using this
  have hm : (List.range L.length).mapM (fun u => rd L u) = some L := by simpa using mapM_rd L []
  refine readMem_spec junk c hc reg slice a mem _ L (data.flatMap (fun x => [x, 0])) _ ⟨?_, target_rank ha, hn, ?_, fun J _ => hnum _ _⟩ ha
  · rw [← target_rank ha]
    rintro view (rfl | rfl) <;> unfold h5Read readWhole <;>
      simp only [hx, Bool.not_false, Bool.and_self, if_true, hm, orElse, bind, Except.bind, check, decide_true, Bool.false_eq_true, if_false, Int.sub_zero, pure, Except.pure]
  · rw [hfl, hx]
    push_cast
    rw [hd]
    simp; ring

/-- Real and complex elements. -/
def realCodec : Codec Int Int := ⟨false, fun x => [x], fun l => l.head?⟩
def cplxCodec : Codec (Int × Int) Int := ⟨true, fun x => [x.1, x.2], fun | [x, y] => some (x, y) | _ => none⟩

theorem realCodec_ok : CodecOK realCodec :=
  ⟨fun _ => rfl, fun _ => rfl, fun l h => by
    obtain ⟨x, rfl⟩ := List.length_eq_one_iff.mp (by simpa [realCodec] using h)
    exact ⟨x, rfl⟩⟩

theorem cplxCodec_ok : CodecOK cplxCodec :=
  ⟨fun _ => rfl, fun _ => rfl, fun l h => by
    obtain ⟨x, y, rfl⟩ := List.length_eq_two.mp (by simpa [cplxCodec] using h)
    exact ⟨(x, y), rfl⟩⟩

/-- The transpose of a 2 by 3 matrix, written. -/
example : (h5WriteMem 0 realCodec [] ⟨0, ⟨[3, 2], [1, 3], [1, 0], [0, 0], .contiguous⟩⟩ false [1, 2, 3, 4, 5, 6] none).toOption.map Dataset.data = some [1, 4, 2, 5, 3, 6] := by decide

/-- Every second element of six, complex. -/
example : (h5WriteMem (0, 0) cplxCodec [] ⟨0, ⟨[3], [2], [0], [0], .strided⟩⟩ false [(1, 2), (3, 4), (5, 6), (7, 8), (9, 10), (11, 12)] none).toOption.map Dataset.data =
    some [1, 2, 5, 6, 9, 10] := by decide

/-- Read into a 3 by 2 array in Fortran order (new storage after the old memory) and into a strided view. -/
example : (h5ReadMem 0 realCodec true [] ⟨0, ⟨[1, 1], [1, 1], [1, 0], [0, 0], .contiguous⟩⟩ [7] ⟨[3, 2], [1, 4, 2, 5, 3, 6], false⟩).toOption =
      some (⟨7, ⟨[3, 2], [1, 3], [1, 0], [0, 0], .contiguous⟩⟩, [7, 1, 4, 2, 5, 3, 6, 1, 2, 3, 4, 5, 6]) ∧
    ((h5ReadMem 0 realCodec false [.rng 0 2 1] ⟨1, ⟨[2], [2], [0], [0], .strided⟩⟩ [7, 7, 7, 7] ⟨[3], [1, 2, 3], false⟩).toOption.map (fun r => r.2.take 4)) = some [7, 1, 7, 2] := by decide

/-- The hypotheses hold for a view with gaps. -/
example : Target false ⟨1, ⟨[2], [2], [0], [0], .none⟩⟩ [2] 4 := by
  refine ⟨⟨⟨by decide, rfl, rfl, rfl⟩, ⟨fun h => absurd h (by decide), fun h => absurd h (by decide)⟩, by decide, ?_⟩, ?_, rfl, by decide, rfl, fun h => absurd h (by decide)⟩
  · intro idx hi
    match idx, hi with
    | [x], ⟨h, _⟩ => simp [addr, dot]; omega
  · intro i j hi hj h
    match i, j, hi, hj with
    | [x], [y], ⟨_, _⟩, ⟨_, _⟩ => simp [addr, dot] at h; simp [h]

/-- The rows of a 2 by 3 array in reverse order pass the contiguity test: reading into this view fills the six elements from the last one of the first row on, beyond the array (here
the two foreign elements after it), and leaves the first two untouched; without memory after the array this is undefined behaviour.  Writing it to a slice of a dataset takes the same wrong elements. -/
theorem C88_reversed_witness : sliceView ⟨0, ⟨[2, 3], [3, 1], [0, 1], [0, 0], .contiguous⟩⟩ [.all, .rng 2 (-1) (-1)] = some ⟨2, ⟨[2, 3], [3, -1], [0, 1], [0, 0], .none⟩⟩ ∧
    (h5ReadMem 0 realCodec false [] ⟨2, ⟨[2, 3], [3, -1], [0, 1], [0, 0], .none⟩⟩ [0, 1, 2, 3, 4, 5, 70, 80] ⟨[2, 3], [10, 11, 12, 13, 14, 15], false⟩).toOption.map Prod.snd = some [0, 1, 10, 11, 12, 13, 14, 15] ∧
    (match h5ReadMem 0 realCodec false [] ⟨2, ⟨[2, 3], [3, -1], [0, 1], [0, 0], .none⟩⟩ [0, 1, 2, 3, 4, 5] ⟨[2, 3], [10, 11, 12, 13, 14, 15], false⟩ with | .error .ub => true | _ => false) = true ∧
    (h5WriteMem 0 realCodec [.ell] ⟨2, ⟨[2, 3], [3, -1], [0, 1], [0, 0], .none⟩⟩ false [0, 1, 2, 3, 4, 5, 70, 80] (some ⟨[2, 3], [0, 0, 0, 0, 0, 0], false⟩)).toOption.map Dataset.data =
      some [2, 3, 4, 5, 70, 80] := by decide

/-- Reading a dataset of another shape into a view: rejected if the view is contiguous, not noticed if it has gaps (here three elements are read into a view of two). -/
theorem C88_shape_unchecked_witness :
    (match h5ReadMem 0 realCodec false [] ⟨0, ⟨[2], [1], [0], [0], .contiguous⟩⟩ [7, 7, 7, 7] ⟨[3], [1, 2, 3], false⟩ with | .error .runtime => true | _ => false) = true ∧
    (h5ReadMem 0 realCodec false [] ⟨0, ⟨[2], [2], [0], [0], .none⟩⟩ [7, 7, 7, 7] ⟨[3], [1, 2, 3], false⟩).toOption.map (fun r => r.2.take 4) = some [1, 7, 2, 7] := by decide

end Nda.H5
