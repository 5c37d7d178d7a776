import Verif.Lemmas.RectStr
import Verif.Lemmas.Check
import Verif.Props.Views
import Std.Data.String.ToNat
/-!
# C50: string labels
-/
namespace Nda.RectStr
open Nda Nda.Spec Nda.Perm Nda.IdxMap Nda.Slice Nda.LayoutTransforms

/-! ## Looking up -/

/-- **C50** A call with strings and integers gives the element at the positions of the strings, the same element that
the base index map gives for these positions; the labels are those of the layout, or "0", "1", ... if it has none. -/
theorem C50_lookup (r : RectStr) (L : List (List String)) (hr : HasLabels r L) (hw : WF r.lay) (hs : SmallestOK r.lay)
    (args : List SArg) (x : List Int) (hx : x.length = r.lay.len.length) (h : Resolves L args (x.map .idx)) :
    ∃ k r', call r args = .ok (k, r') ∧ r.lay.call (x.map .idx) = some k ∧ r'.lay = r.lay ∧ HasLabels r' L := by
  obtain ⟨r', h1, h2, h3, _⟩ := call_ok hr hw hs hx h
  exact ⟨_, r', h1, call_idx hw hs x hx, h2, h3⟩

/-- **C50** An unknown string is an error, in a call as in a slice. -/
theorem C50_unknown (r : RectStr) (L : List (List String)) (hr : HasLabels r L) (args : List SArg)
    (hl : args.length ≤ L.length) (u : Nat) (s : String) (ls : List String) (hu : args[u]? = some (.str s))
    (hls : L[u]? = some ls) (hs : s ∉ ls) : call r args = .error .key ∧ slice r args = .error .key := by
  have := peelAll_key (n := 0) hr (by omega) ⟨u, s, ls, hu, by simpa using hls, hs⟩
  simp [call, slice, this]

/-- **C50** A layout built from labels has these labels, and extents equal to their numbers. -/
theorem C50_labels (labels : List (List String)) (so se : List Nat) (prop : LayoutProp) (hp : IsPerm so)
    (hl : labels.length = so.length) (hse : se.length = so.length) :
    ∃ r, ofLabels labels so se prop = .ok r ∧ HasLabels r labels ∧ WF r.lay ∧ SmallestOK r.lay ∧
      r.lay.len = labels.map (fun l => (l.length : Int)) := by
  obtain ⟨m, h1, hw, hd, g1, _⟩ := ofShape_spec (labels.map (fun l => (l.length : Int))) so se prop hp (by simp [hl]) (by simp [hse, hl])
  exact ⟨⟨m, some labels⟩, by simp [ofLabels, hl, h1, orUndef, bind, Except.bind, pure, Except.pure], Or.inl rfl, hw,
    (flagsOK_of_dense hd).smallest, g1⟩

/-- **C50** Every element of the layout without labels is found by its decimal indices. -/
theorem C50_generated (m : IdxMap) (hw : WF m) (hs : SmallestOK m) (x : List Int) (hx : InRange m.len x) :
    ∃ k r', call (ofBase m) (x.map (fun i => .str (Nat.repr i.toNat))) = .ok (k, r') ∧ m.call (x.map .idx) = some k := by
  have h : Resolves (m.len.map (fun l => (List.range l.toNat).map Nat.repr)) (x.map (fun i => .str (Nat.repr i.toNat)))
      (x.map .idx) := by
    have aux : ∀ (len x : List Int), InRange len x → Resolves (len.map (fun l => (List.range l.toNat).map Nat.repr))
        (x.map (fun i => .str (Nat.repr i.toNat))) (x.map .idx) := by
      intro len
      induction len with
      | nil => intro x hx; cases x with
        | nil => simp [Resolves]
        | cons _ _ => exact hx.elim
      | cons l len ih => intro x hx; cases x with
        | nil => exact hx.elim
        | cons i x =>
          refine ⟨?_, ih x hx.2⟩
          apply firstAt_of_nodup _ hx.1.1
          · rw [List.getElem?_map, List.getElem?_range (by have := hx.1; omega)]; rfl
          · exact List.Nodup.map (fun a b h => Nat.repr_injective h) List.nodup_range
    exact aux _ _ hx
  obtain ⟨r', h1, _⟩ := call_ok (r := ofBase m) (Or.inr ⟨rfl, rfl⟩) hw hs hx.length_eq h
  exact ⟨_, r', h1, call_idx hw hs x hx.length_eq⟩

/-- **C50** A layout converted to another one (other strides, order or flags) has the labels of the source: the same
names find the same indices.  The source still has its labels. -/
theorem C50_convert (r : RectStr) (L : List (List String)) (hr : HasLabels r L) (m : IdxMap) (hw : WF m) (hs : SmallestOK m)
    (args : List SArg) (x : List Int) (hx : x.length = m.len.length) (h : Resolves L args (x.map .idx)) :
    (∃ k r', call (convert m r).1 args = .ok (k, r') ∧ m.call (x.map .idx) = some k) ∧
      (convert m r).2.lay = r.lay ∧ HasLabels (convert m r).2 L := by
  have hg := getStringIndices_of hr
  have h1 : HasLabels (convert m r).1 L := by
    left
    simp only [convert, hg]
  refine ⟨?_, ?_, ?_⟩
  · obtain ⟨k, r', e, e2, -⟩ := C50_lookup (convert m r).1 L h1 hw hs args x hx h
    exact ⟨k, r', e, e2⟩
  · simp only [convert, hg]
  · left
    simp only [convert, hg]

/-! ## Slices -/

/-- **C50 (partial)** Slicing an array with labels, with strings, integers, ranges, or an ellipsis that stands for one
dimension: the slice has a label for every index, and its element with names `ns` is the element of the array found by
the arguments of the slice with the names `ns` in place of the ranges.
Missing, because the code does not do it: an ellipsis standing for no or several dimensions
(`C50_ellipsis_witness`), arrays without labels (`C50_generated_witness`). -/
theorem C50_slice_partial (r : RectStr) (L : List (List String)) (hr : r.ind = some L) (hL : Labelling L r.lay.len)
    (hw : WF r.lay) (hs : SmallestOK r.lay) (h128 : r.lay.rank ≤ 128) (args : List SArg) (X : List Arg)
    (hX : Resolves L args X) (hlen : args.length = r.lay.rank) (hell : X.count .ell ≤ 1)
    (hin : Inside (X.map plain) r.lay.len) :
    ∃ off r' L', slice r args = .ok (off, r', r) ∧ r'.ind = some L' ∧ Labelling L' r'.lay.len ∧
      WF r'.lay ∧ SmallestOK r'.lay ∧
      SliceShape (X.map plain) r.lay.len r'.lay.len ∧
      ∀ p, InRange r'.lay.len p →
        (∃ ns, NamesAt L' p ns) ∧
        labelAt L' p = keep X (labelAt L (coords (X.map plain) p)) ∧
        off + Spec.offset r'.lay p = Spec.offset r.lay (coords (X.map plain) p) ∧
        ∀ ns, NamesAt L' p ns → ∃ k, call r' (ns.map .str) = .ok (k, r') ∧ r'.lay.call (p.map .idx) = some k ∧
          call r (fill args ns) = .ok (off + k, r) := by
  obtain ⟨r1, g1, g2, g3, g4⟩ := peelAll_ok (n := 0) (Or.inl hr) (by simpa using hX)
  have hXl : X.length = r.lay.len.length := (resolves_length hX).trans hlen
  have hf : Fits r.lay.len.length X := by
    rcases Nat.lt_or_ge 0 (X.count .ell) with h | h
    · right; exact ⟨by omega, by omega⟩
    · left; exact ⟨by omega, hXl⟩
  have hexp : expand r.lay.len.length X = X.map plain := expand_plain hXl
  have ha : Allowed r.lay.len (.slice X) := ⟨h128, hf, by rw [hexp]; exact hin⟩
  obtain ⟨v', s1, sF, s2⟩ := slice_step (v := ⟨0, r.lay⟩) hw hs ha
  simp only [LayoutTransforms.step, sliceView] at s1
  cases hsl : Slice.slice r.lay X with
  | none => simp [hsl] at s1
  | some om =>
    obtain ⟨off, m⟩ := om
    simp only [hsl, Option.bind_eq_bind, Option.bind_some, Option.pure_def, Option.some.injEq, Int.zero_add] at s1
    subst s1
    simp only [Int.sub_zero] at s2
    rw [hexp] at s2
    obtain ⟨L', l1, l2, l3⟩ := sliceLabels_spec (cur := L) (L := L) (n := 0) rfl hX (by rw [hL.1]; exact hin) hL.2
    rw [hL.1, ← s2.len_eq] at l2 l3
    have hshape : SliceShape (X.map plain) r.lay.len m.len := by
      have := sF.shape; rw [Spec.ShapeAfter, hexp] at this; exact this
    refine ⟨off, ⟨m, some L'⟩, L', ?_, rfl, l2, sF.wf, sF.smallest, hshape, ?_⟩
    · have hr1 := g4 hr
      subst hr1
      simp only [slice, g1, hsl, hr, l1]
    · intro p hp
      have hp0 := inRange_nonneg hp
      have ho := sF.offset p hp
      simp only [Int.zero_add, Spec.source, hexp] at ho
      refine ⟨names_exist l2 hp, (l3 p hp).1, ho, fun ns hns => ?_⟩
      have hpl : p.length = L'.length := by rw [hp.length_eq]; rw [← l2.1]; simp
      obtain ⟨r2, a1, _, _, a4⟩ := call_ok (r := ⟨m, some L'⟩) (Or.inl rfl) sF.wf sF.smallest hp.length_eq
        (resolves_names l2.2 hp0 hpl hns)
      have hir := sF.inRange p hp
      simp only [Spec.source, hexp] at hir
      obtain ⟨r3, b1, _, _, b4⟩ := call_ok (Or.inl hr) hw hs hir.length_eq ((l3 p hp).2 ns hns)
      refine ⟨_, by rw [a1, a4 rfl], call_idx sF.wf sF.smallest p hp.length_eq, ?_⟩
      rw [b1, b4 hr, ho]

/-! ## Permutations -/

/-- **C50** Permuting the indices of an array with labels: the element with names `ns` in the new array is the element
of the old array with the names in the order of the old indices. -/
theorem C50_permute (r : RectStr) (L : List (List String)) (hr : r.ind = some L) (hL : Labelling L r.lay.len)
    (hw : WF r.lay) (hs : SmallestOK r.lay) (p : List Nat) (hp : IsPerm p) (hpl : p.length = r.lay.len.length) :
    ∃ r' L', transpose r p = some r' ∧ r'.ind = some L' ∧ Labelling L' r'.lay.len ∧ WF r'.lay ∧ SmallestOK r'.lay ∧
      r'.lay.len.length = r.lay.len.length ∧ memOrder p r'.lay.len = r.lay.len ∧
      ∀ x, InRange r'.lay.len x →
        (∃ ns, NamesAt L' x ns) ∧
        labelAt L (memOrder p x) = p.map (fun k => (labelAt L' x).getD k none) ∧
        InRange r.lay.len (memOrder p x) ∧
        Spec.offset r'.lay x = Spec.offset r.lay (memOrder p x) ∧
        ∀ ns, NamesAt L' x ns → ∃ k, call r' (ns.map .str) = .ok (k, r') ∧ r'.lay.call (x.map .idx) = some k ∧
          call r (p.map (fun u => .str (ns.getD u ""))) = .ok (k, r) := by
  have hLl : L.length = p.length := by rw [hpl, ← hL.1]; simp
  obtain ⟨v', s1, s2, sF⟩ := permute_step (v := ⟨0, r.lay⟩) hw hs (p := p) ⟨hp, hpl⟩
  obtain ⟨L', l1, l2, l3⟩ := scatter_zip p L [] hp hLl
  have hrange : (List.range r.lay.rank).mapM (fun u => rd L u) = some L := by
    rw [mapM_some_of _ (fun u => L.getD u [])]
    · congr 1
      apply List.ext_getElem?
      intro j
      have : r.lay.rank = L.length := by rw [hLl, hpl]; rfl
      simp only [this, List.getElem?_map]
      rcases Nat.lt_or_ge j L.length with h | h
      · simp [h]
      · simp [h]
    · intro k hk
      simp only [List.mem_range] at hk
      have h : k < L.length := by rw [hLl, hpl]; exact hk
      simp [rd, h]
  have hlen := sF.shape
  obtain ⟨hlen1, hlen2⟩ := hlen
  simp only at hlen1 hlen2 s2
  have hLab : Labelling L' v'.lay.len := by
    constructor
    · apply ext_through_perm hp (by simp [l2]) (by rw [hlen1, hpl])
      intro u hu
      have hb : v'.lay.len[p[u]]? = r.lay.len[u]? := by
        have : r.lay.len[u]? = some (v'.lay.len.getD p[u] 0) := by
          rw [← hlen2]; simp [memOrder, hu]
        rw [this]
        have : p[u] < v'.lay.len.length := by rw [hlen1, ← hpl]; exact IsPerm.getElem_lt hp hu
        simp [this]
      rw [List.getElem?_map, l3 u hu, hb, ← hL.1, List.getElem?_map]
    · intro ls hls
      obtain ⟨j, hj, e⟩ := List.getElem_of_mem hls
      obtain ⟨u, hu, rfl⟩ := IsPerm.exists_idx hp (k := j) (by omega)
      have := l3 u hu
      rw [List.getElem?_eq_getElem hj, e, List.getElem?_eq_getElem (by omega)] at this
      exact hL.2 ls (by rw [Option.some.inj this]; exact List.getElem_mem _)
  refine ⟨⟨v'.lay, some L'⟩, L', ?_, rfl, hLab, sF.wf, sF.smallest, hlen1, hlen2, ?_⟩
  · simp [transpose, s2, hr, hrange, hLl, l1]
  · intro x hx
    have hir : InRange r.lay.len (memOrder p x) := sF.inRange x hx
    have hxl : x.length = p.length := by rw [hx.length_eq, hpl]; exact hlen1
    have hlab : labelAt L (memOrder p x) = p.map (fun k => (labelAt L' x).getD k none) := by
      apply List.ext_getElem?
      intro u
      rcases Nat.lt_or_ge u p.length with hu | hu
      · have hk := IsPerm.getElem_lt hp hu
        have h1 := l3 u hu
        rw [List.getElem?_eq_getElem (by omega), List.getElem?_eq_getElem (by omega), Option.some.injEq] at h1
        have a1 : u < L.length := by omega
        have a2 : p[u] < L'.length := by omega
        have a3 : p[u] < x.length := by omega
        simp [labelAt, memOrder, hu, a1, a2, a3, h1]
      · rw [List.getElem?_eq_none (by simp [labelAt, memOrder]; omega), List.getElem?_eq_none (by simpa using hu)]
    have ho : Spec.offset v'.lay x = Spec.offset r.lay (memOrder p x) := by
      have h1 := sF.offset x hx
      have h2 : v'.off = 0 := by
        simp only [LayoutTransforms.step, permuted, s2, Option.bind_eq_bind, Option.bind_some, Option.pure_def,
          Option.some.injEq] at s1
        rw [← s1]
      simpa [h2, Spec.source] using h1
    refine ⟨names_exist hLab hx, hlab, hir, ho, fun ns hns => ?_⟩
    have hnsl : ns.length = p.length := by
      have := congrArg List.length hns
      simp [labelAt] at this
      omega
    obtain ⟨r2, a1, _, _, a4⟩ := call_ok (r := ⟨v'.lay, some L'⟩) (Or.inl rfl) sF.wf sF.smallest hx.length_eq
      (resolves_names hLab.2 (inRange_nonneg hx) (by rw [hxl, l2]) hns)
    have hns' : NamesAt L (memOrder p x) (p.map (fun u => ns.getD u "")) := by
      unfold NamesAt at hns ⊢
      rw [hlab, hns, List.map_map]
      apply List.map_congr_left
      intro k hk
      have := IsPerm.lt hp hk
      have : k < ns.length := by omega
      simp [this]
    obtain ⟨r3, b1, _, _, b4⟩ := call_ok (Or.inl hr) hw hs hir.length_eq
      (resolves_names hL.2 (inRange_nonneg hir) (by rw [hir.length_eq, hLl, hpl]) hns')
    rw [List.map_map] at b1
    exact ⟨_, by rw [a1, a4 rfl], call_idx sF.wf sF.smallest x hx.length_eq, by
      rw [ho]; rw [b4 hr] at b1; exact b1⟩

/-! ## Chains -/

theorem resolves_args (L : List (List String)) (args : List Arg) (h : args.length = L.length) :
    Resolves L (args.map .arg) args := by
  induction L generalizing args with
  | nil => cases args with
    | nil => simp [Resolves]
    | cons _ _ => simp at h
  | cons ls L ih => cases args with
    | nil => simp at h
    | cons a args => exact ⟨rfl, ih args (by simpa using h)⟩

/-- **C50 (partial)** Any chain of slices and index permutations of an array with labels: the labels of an element of
the final view are the labels, followed through the operations, of the element of the first array it comes from.
Missing, because the code does not do it: as for `C50_slice_partial`. -/
theorem C50_chain_partial (r : RectStr) (L : List (List String)) (hr : r.ind = some L) (hL : Labelling L r.lay.len)
    (hw : WF r.lay) (hs : SmallestOK r.lay) (os : List Op) (hos : ChainAllowed r.lay.len os)
    (hone : OneEach r.lay.len.length os) :
    ∃ off r' L', run r os = some (off, r') ∧ r'.ind = some L' ∧ Labelling L' r'.lay.len ∧ WF r'.lay ∧
      SmallestOK r'.lay ∧
      ∀ x, InRange r'.lay.len x →
        InRange r.lay.len (sourceChain r.lay.len.length os x) ∧
        off + Spec.offset r'.lay x = Spec.offset r.lay (sourceChain r.lay.len.length os x) ∧
        Follows os (labelAt L (sourceChain r.lay.len.length os x)) (labelAt L' x) ∧
        ∃ ns, NamesAt L' x ns ∧ call r' (ns.map .str) = .ok (Spec.offset r'.lay x, r') := by
  induction os generalizing r L with
  | nil =>
    refine ⟨0, r, L, rfl, hr, hL, hw, hs, fun x hx => ⟨hx, by simp [sourceChain], rfl, ?_⟩⟩
    obtain ⟨ns, hns⟩ := names_exist hL hx
    obtain ⟨r2, a1, _, _, a4⟩ := call_ok (Or.inl hr) hw hs hx.length_eq
      (resolves_names hL.2 (inRange_nonneg hx) (by rw [hx.length_eq, ← hL.1]; simp) hns)
    rw [a4 hr] at a1
    exact ⟨ns, hns, a1⟩
  | cons o os ih =>
    obtain ⟨ha, hos⟩ := hos
    cases o with
    | addFast n => exact hone.elim
    | slice args =>
      obtain ⟨hlen, hone⟩ := hone
      obtain ⟨h128, hf, hin⟩ := ha
      have hexp : expand r.lay.len.length args = args.map plain := expand_plain hlen
      rw [hexp] at hin
      obtain ⟨off, r1, L1, s1, s2, s3, s4, s5, s6, s7⟩ := C50_slice_partial r L hr hL hw hs h128 (args.map .arg) args
        (resolves_args L args (by rw [hlen, ← hL.1]; simp)) (by rw [List.length_map]; exact hlen)
        (by rcases hf with h | h <;> omega) hin
      have hsh : ShapeAfter r.lay.len (.slice args) r1.lay.len := by rw [Spec.ShapeAfter, hexp]; exact s6
      obtain ⟨v', _, sF⟩ := step_facts (v := ⟨0, r.lay⟩) hw hs (o := .slice args) ⟨h128, hf, by rw [hexp]; exact hin⟩
      have hvl : v'.lay.len = r1.lay.len := by
        have h1 : SliceShape _ _ _ := sF.shape
        have h2 : SliceShape _ _ _ := hsh
        exact C06_shape_unique _ _ _ _ h1 h2
      obtain ⟨off', r2, L2, t1, t2, t3, t4, t5, t6⟩ := ih r1 L1 s2 s3 s4 s5 (hos _ hsh)
        (by rw [← hvl, sF.rank]; exact hone)
      refine ⟨off + off', r2, L2, by simp only [run, step, s1, t1], t2, t3, t4, t5, fun x hx => ?_⟩
      obtain ⟨u1, u2, u3, u4⟩ := t6 x hx
      have hrank : r1.lay.len.length = rankAfter r.lay.len.length (.slice args) := by rw [← hvl, sF.rank]
      rw [hrank] at u1 u2 u3
      obtain ⟨_, w1, w2, _⟩ := s7 _ u1
      have hsrc : sourceChain r.lay.len.length (.slice args :: os) x =
          coords (args.map plain) (sourceChain (rankAfter r.lay.len.length (.slice args)) os x) := by
        simp only [sourceChain, Spec.source, hexp]
      rw [hsrc]
      refine ⟨?_, by omega, ?_, u4⟩
      · have := sF.inRange _ (by rw [hvl]; exact u1)
        simpa only [Spec.source, hexp] using this
      · show Follows os (keep args (labelAt L _)) _
        rw [← w1]; exact u3
    | permute p =>
      obtain ⟨hp, hpl⟩ := ha
      obtain ⟨r1, L1, s1, s2, s3, s4, s5, s6, s7, s8⟩ := C50_permute r L hr hL hw hs p hp hpl
      obtain ⟨off', r2, L2, t1, t2, t3, t4, t5, t6⟩ := ih r1 L1 s2 s3 s4 s5 (hos _ ⟨s6, s7⟩)
        (by rw [s6]; exact hone)
      refine ⟨0 + off', r2, L2, by simp only [run, step, s1, t1], t2, t3, t4, t5, fun x hx => ?_⟩
      obtain ⟨u1, u2, u3, u4⟩ := t6 x hx
      rw [s6] at u1 u2 u3
      obtain ⟨_, w1, w2, w3, _⟩ := s8 _ u1
      have hsrc : sourceChain r.lay.len.length (.permute p :: os) x =
          memOrder p (sourceChain r.lay.len.length os x) := rfl
      rw [hsrc]
      refine ⟨w2, by omega, ⟨labelAt L1 (sourceChain r.lay.len.length os x), w1.symm, ?_, u3⟩, u4⟩
      have hl : L.length = L1.length := by
        have h1 := congrArg List.length hL.1
        have h2 := congrArg List.length s3.1
        simp only [List.length_map] at h1 h2
        omega
      have hl' : (sourceChain r.lay.len.length os x).length = L1.length := by
        rw [u1.length_eq, ← s3.1]; simp
      have hpL : p.length = L1.length := by
        have h1 := congrArg List.length hL.1
        simp only [List.length_map] at h1
        omega
      simp [labelAt, memOrder, hl, hl', hpL]

/-! ## Cases that meet the hypotheses, and what the code does not do -/

/-- A 3x2 array with labels (nda_str_indices.cpp:61-66). -/
def sample : RectStr := ⟨⟨[3, 2], [2, 1], [0, 1], [0, 0], .contiguous⟩, some [["a", "b", "c"], ["A", "B"]]⟩

example : ofLabels [["a", "b", "c"], ["A", "B"]] [0, 1] [0, 0] .contiguous = .ok sample := by decide
example : call sample [.str "c", .str "B"] = .ok (5, sample) ∧ call sample [.str "b", .arg (.idx 0)] = .ok (2, sample) ∧
    call sample [.str "z", .str "A"] = .error .key := by decide
example : Resolves [["a", "b", "c"], ["A", "B"]] [.str "c", .arg (.idx 1)] [.idx 2, .idx 1] := by
  refine ⟨⟨by decide, rfl, ?_⟩, rfl, rfl⟩
  intro j hj
  match j, hj with
  | 0, _ => decide
  | 1, _ => decide
-- converted to Fortran order: the same names, another position
example : call (convert ⟨[3, 2], [1, 3], [1, 0], [0, 0], .contiguous⟩ sample).1 [.str "b", .str "B"] =
    .ok (4, ⟨⟨[3, 2], [1, 3], [1, 0], [0, 0], .contiguous⟩, some [["a", "b", "c"], ["A", "B"]]⟩) := by decide
-- rows in reverse order, one column, by strings; then the indices exchanged
example : slice sample [.arg (.rng 2 (-1) (-1)), .str "B"] =
      .ok (5, ⟨⟨[3], [-2], [0], [0], .strided⟩, some [["c", "b", "a"]]⟩, sample) ∧
    fill [.arg (.rng 2 (-1) (-1)), .str "B"] ["b"] = [.str "b", .str "B"] ∧
    call sample [.str "b", .str "B"] = .ok (3, sample) ∧
    NamesAt [["c", "b", "a"]] [1] ["b"] := ⟨by decide, by decide, by decide, rfl⟩
example : transpose sample [1, 0] = some ⟨⟨[2, 3], [1, 2], [1, 0], [0, 0], .contiguous⟩, some [["A", "B"], ["a", "b", "c"]]⟩ := by
  decide
example : Labelling [["a", "b", "c"], ["A", "B"]] sample.lay.len ∧
    run sample [.permute [1, 0], .slice [.idx 1, .rng 0 2 1]] = some (1, ⟨⟨[2], [2], [0], [0], .strided⟩, some [["a", "b"]]⟩) ∧
    OneEach 2 [.permute [1, 0], .slice [.idx 1, .rng 0 2 1]] := by
  refine ⟨⟨rfl, by decide⟩, by decide, rfl, trivial⟩

/-- **C50 disagreement** The ellipsis is counted as one dimension and takes the labels at its own position: in a
2x3x2 array, `a(ellipsis(), "B")` looks for "B" among the labels of the second dimension (an error although it is a
label of the third); the slice `a(ellipsis(), 1)` has two dimensions but one label list, so a call with names is
undefined; in `a(0, 1, 1, ellipsis())` the label list after the last one is read. -/
theorem C50_ellipsis_witness :
    ∃ r : RectStr, r.ind = some [["x", "y"], ["a", "b", "c"], ["A", "B"]] ∧ WF r.lay ∧ SmallestOK r.lay ∧
      slice r [.arg .ell, .str "B"] = .error .key ∧
      (∃ off r', slice r [.arg .ell, .arg (.idx 1)] = .ok (off, r', r) ∧ r'.lay.len = [2, 3] ∧
        r'.ind = some [["x", "y"]] ∧ call r' [.str "x", .str "c"] = .error .undef) ∧
      slice r [.arg (.idx 0), .arg (.idx 1), .arg (.idx 1), .arg .ell] = .error .undef := by
  refine ⟨⟨⟨[2, 3, 2], [6, 2, 1], [0, 1, 2], [0, 0, 0], .contiguous⟩, some [["x", "y"], ["a", "b", "c"], ["A", "B"]]⟩, rfl,
    ⟨isPerm_range 3, rfl, rfl, rfl⟩, ?_, by decide, ⟨1, _, rfl, by decide, by decide, by decide⟩, by decide⟩
  intro _ u hu
  have : u = 2 := by simpa using hu.symm
  subst this; rfl

/-- **C50 disagreement** Without given labels the labels of a slice depend on the history: in an array of three
elements "2" names the element at 2; after taking `a(range(1,3))` of an untouched array the label "0" names the element
at 1 (and "2" nothing), but if some element of `a` was looked up by a string before, "2" still names the element at 2
in the slice (and "0" nothing). -/
theorem C50_generated_witness :
    ∃ r r1 : RectStr, r.ind = none ∧ call r [.str "2"] = .ok (2, r1) ∧ r1.lay = r.lay ∧
      (∃ v r', slice r [.arg (.rng 1 3 1)] = .ok (1, v, r') ∧ (∃ v', call v [.str "0"] = .ok (0, v')) ∧
        call v [.str "2"] = .error .key) ∧
      (∃ v r', slice r1 [.arg (.rng 1 3 1)] = .ok (1, v, r') ∧ call v [.str "0"] = .error .key ∧
        (∃ v', call v [.str "2"] = .ok (1, v'))) := by
  refine ⟨⟨⟨[3], [1], [0], [0], .contiguous⟩, none⟩, ⟨⟨[3], [1], [0], [0], .contiguous⟩, some [["0", "1", "2"]]⟩, rfl,
    by decide, rfl, ⟨⟨⟨[2], [1], [0], [0], .strided⟩, none⟩, _, rfl, ⟨_, rfl⟩, by decide⟩,
    ⟨⟨⟨[2], [1], [0], [0], .strided⟩, some [["1", "2"]]⟩, _, rfl, by decide, ⟨_, rfl⟩⟩⟩

/-- **C50 disagreement** With equal labels the later ones name nothing, and a slice can make a label name another
element than before: in labels "a","a" the label names element 0; in the slice `a(range(1,2))` it names element 1. -/
theorem C50_duplicate_witness :
    ∃ r : RectStr, r.ind = some [["a", "a"]] ∧ call r [.str "a"] = .ok (0, r) ∧
      ∃ v, slice r [.arg (.rng 1 2 1)] = .ok (1, v, r) ∧ call v [.str "a"] = .ok (0, v) := by
  exact ⟨⟨⟨[2], [1], [0], [0], .contiguous⟩, some [["a", "a"]]⟩, rfl, by decide, ⟨⟨[1], [1], [0], [0], .strided⟩, some [["a"]]⟩, by decide, by decide⟩

/-- **C50 disagreement** Two label lists for a three-dimensional array: the error leaves a `noexcept` constructor. -/
theorem C50_terminate_witness : ofLabels [["a", "b"], ["c"]] [0, 1, 2] [0, 0, 0] .contiguous = .error .terminate := by decide

end Nda.RectStr
