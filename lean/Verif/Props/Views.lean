import Verif.Lemmas.Views
/-!
# C05-C08, C12: slicing and chains of view operations
-/
namespace Nda.LayoutTransforms
open Nda Nda.Spec Nda.Perm Nda.IdxMap Nda.Slice

/-! ## C06 -/

/-- **C06** Slicing is defined for every argument list that matches the rank (no zero step);
extents are the numbers of selected coordinates, the flag-aware element access of the slice at
`p` and of the array at the coordinates named by the arguments give the same position. -/
theorem C06_slice_elements (m : IdxMap) (hw : WF m) (hs : SmallestOK m) (args : List Arg) (h128 : m.rank ≤ 128)
    (hf : Fits m.rank args) (hst : ∀ f l s, Arg.rng f l s ∈ args → s ≠ 0) :
    ∃ off m', slice m args = some (off, m') ∧ SliceShape (expand m.rank args) m.len m'.len ∧
      (∀ p, InRange m'.len p → ∃ k, m'.call (p.map .idx) = some k ∧
        m.call ((coords (expand m.rank args) p).map .idx) = some (off + k)) := by
  have hst' : StepsOK (expand m.rank args) := by
    intro f l s hm
    obtain ⟨a, ha, hb⟩ := List.mem_flatMap.mp hm
    cases a with
    | ell => simp [expandArg] at hb
    | idx i => simp [expandArg] at hb
    | all => simp [expandArg] at hb
    | rng f' l' s' =>
      simp only [expandArg, List.mem_singleton, Arg.rng.injEq] at hb
      obtain ⟨rfl, rfl, rfl⟩ := hb
      exact hst _ _ _ ha
  obtain ⟨off, m', h1, hF⟩ := slice_facts hw hf h128 hst'
  have hl : (expand m.rank args).length = m.len.length := length_expand hf h128
  have hell := not_mem_ell_expand m.rank args
  refine ⟨off, m', h1, by rw [hF.len_eq]; exact sliceShape_keepMap hell hst' _ hl, ?_⟩
  intro p hp
  have hpl : p.length = (expand m.rank args).countP isRange := by
    rw [hp.length_eq, hF.len_eq, keepMap_length _ _ _ hl]
  refine ⟨Spec.offset m' p, call_idx hF.wf (slice_smallestOK hw hs (by rw [hw.so_len]; exact hl.symm) hF) p hp.length_eq, ?_⟩
  rw [call_idx hw hs _ (by rw [coords_length hell hpl, hl])]
  unfold Spec.offset
  rw [hF.str_eq, hF.off_eq, dot_coords hell _ _ (by rw [hl, hw.str_len]) hpl]

/-- **C06** The extents are determined by the arguments and the shape. -/
theorem C06_shape_unique (X : List Arg) (L e e' : List Int) (h : SliceShape X L e) (h' : SliceShape X L e') : e = e' := by
  induction X generalizing L e e' with
  | nil => cases L <;> cases e <;> cases e' <;> simp_all [SliceShape]
  | cons a X ih =>
    cases L with
    | nil => cases a <;> exact h.elim
    | cons l L =>
      cases a with
      | idx i => exact ih L e e' h h'
      | ell => cases e <;> exact h.elim
      | all =>
        cases e with
        | nil => exact h.elim
        | cons x e =>
          cases e' with
          | nil => exact h'.elim
          | cons x' e' => rw [h.1, h'.1, ih L e e' h.2 h'.2]
      | rng f la st =>
        cases e with
        | nil => exact h.elim
        | cons x e =>
          cases e' with
          | nil => exact h'.elim
          | cons x' e' =>
            rw [ih L e e' h.2 h'.2]
            obtain ⟨⟨_, a1, a2⟩, _⟩ := h
            obtain ⟨⟨_, b1, b2⟩, _⟩ := h'
            congr 1
            rcases Int.lt_trichotomy x x' with c | c | c
            · exact absurd ((a2 x a1).mpr ((b2 x a1).mp c)) (by omega)
            · exact c
            · exact absurd ((b2 x' b1).mpr ((a2 x' b1).mp c)) (by omega)

/-- **C06** Argument lists that do not match the rank are rejected (at compile time). -/
theorem C06_rejects (m : IdxMap) (args : List Arg) (h : ¬ Fits m.rank args) : slice m args = none :=
  slice_none_of_not_fits h

-- a 3-dimensional array, arguments (ellipsis, range(4,-1,-2), 3): the ellipsis stands for one dimension
example : slice ⟨[3, 5, 6], [30, 6, 1], [0, 1, 2], [0, 0, 0], .contiguous⟩ [.ell, .rng 4 0 (-2), .idx 3] =
      some (27, ⟨[3, 2], [30, -12], [0, 1], [0, 0], .none⟩) ∧
    Fits 3 [.ell, .rng 4 0 (-2), .idx 3] ∧ expand 3 [.ell, .rng 4 0 (-2), .idx 3] = [.all, .rng 4 0 (-2), .idx 3] ∧
    coords [.all, .rng 4 0 (-2), .idx 3] [2, 1] = [2, 2, 3] := by decide
example : ¬ Fits 3 [.ell, .idx 0, .ell] ∧ ¬ Fits 3 [.idx 0, .all] := by decide

/-! ## C05 -/

/-- **C05** After any allowed chain of view operations on a freshly built array: the view has the shape
that the operations name, and every index
tuple of the view designates a slot inside the array's storage, namely the slot of the array
element that the chain of operations names, and different tuples designate different slots. -/
theorem C05_chain_safe (len : List Int) (so se : List Nat) (prop : LayoutProp)
    (hp : IsPerm so) (hl : so.length = len.length) (hse : se.length = len.length) (hn : NonNeg len)
    (os : List Op) (hos : ChainAllowed len os) :
    ∃ m v, ofShape len so se prop = some m ∧ run ⟨0, m⟩ os = some v ∧ ChainShape len os v.lay.len ∧
      (∀ idx, InRange v.lay.len idx → ∃ k, element v (idx.map .idx) = some k ∧ 0 ≤ k ∧ k < Spec.prod len ∧
        InRange len (sourceChain len.length os idx) ∧
        element ⟨0, m⟩ ((sourceChain len.length os idx).map .idx) = some k) ∧
      (∀ idx jdx, InRange v.lay.len idx → InRange v.lay.len jdx →
        element v (idx.map .idx) = element v (jdx.map .idx) → idx = jdx) := by
  obtain ⟨m, h1, hw, hd, rfl, rfl, rfl, rfl⟩ := ofShape_spec len so se prop hp hl hse
  have hf := (flagsOK_of_dense hd).smallest
  obtain ⟨v, g1, g2, g3, g4, g5, g6⟩ := run_facts (v := ⟨0, m⟩) hw hf hos
  simp only [Int.zero_add] at g4 g5 g6
  have hel : ∀ idx, InRange v.lay.len idx → element v (idx.map .idx) = some (v.off + Spec.offset v.lay idx) := by
    intro idx hi
    simp [element, call_idx g2 g3 idx hi.length_eq]
  have hlin : ∀ idx, InRange m.len idx → Spec.offset m idx = lin (memOrder m.so m.len) (memOrder m.so idx) := by
    intro idx hi; rw [offset_evenlySpaced hw hd hi.length_eq, Int.one_mul]
  have hmr : ∀ idx, InRange m.len idx → InRange (memOrder m.so m.len) (memOrder m.so idx) := fun idx hi =>
    (inRange_memOrder hw.perm hw.so_len.symm (by rw [hi.length_eq, hw.so_len])).mpr hi
  refine ⟨m, v, h1, g1, run_shape hw hf hos g1, ?_, ?_⟩
  · intro idx hi
    have hs := g4 idx hi
    have e := g6 idx hi
    refine ⟨_, hel idx hi, ?_, ?_, hs, ?_⟩
    · rw [e, hlin _ hs]; exact (lin_bounds (hmr _ hs)).1
    · rw [e, hlin _ hs]; have := (lin_bounds (hmr _ hs)).2
      rwa [prod_memOrder hw.perm hw.so_len.symm] at this
    · rw [e]; simp [element, call_idx hw hf _ hs.length_eq]
  · intro idx jdx hi hj h
    rw [hel idx hi, hel jdx hj, Option.some.injEq, g6 idx hi, g6 jdx hj] at h
    apply g5 idx jdx hi hj
    have hsi := g4 idx hi
    have hsj := g4 jdx hj
    simp only [hlin _ hsi, hlin _ hsj] at h
    apply memOrder_inj hw.perm (by rw [hsi.length_eq, hw.so_len]) (by rw [hsj.length_eq, hw.so_len])
    exact lin_inj (hmr _ hsi) (hmr _ hsj) h

/-- A chain that meets the hypotheses: reverse a dimension with a negative step, permute the
indices, add a unit dimension, cut with an ellipsis. -/
def exampleChain : List Op :=
  [.slice [.ell, .rng 4 0 (-2), .all], .permute [2, 0, 1], .addFast 1, .slice [.idx 1, .ell, .idx 0]]

theorem shapeAfter_unique {len a b : List Int} {o : Op} (ho : Allowed len o) (ha : ShapeAfter len o a)
    (hb : ShapeAfter len o b) : a = b := by
  cases o with
  | slice args => exact C06_shape_unique _ _ _ _ ha hb
  | permute p => exact memOrder_inj ho.1 (by rw [ha.1, ho.2]) (by rw [hb.1, ho.2]) (ha.2.trans hb.2.symm)
  | addFast n => exact ha.trans hb.symm

theorem chainAllowed_cons {len len' : List Int} {o : Op} {os : List Op} (ho : Allowed len o)
    (h : ShapeAfter len o len') (hos : ChainAllowed len' os) : ChainAllowed len (o :: os) :=
  ⟨ho, fun _ h' => shapeAfter_unique ho h h' ▸ hos⟩

example : ChainAllowed [3, 5, 6] exampleChain ∧
    run ⟨0, ⟨[3, 5, 6], [30, 6, 1], [0, 1, 2], [0, 0, 0], .contiguous⟩⟩ exampleChain =
      some ⟨12, ⟨[6, 3], [1, 30], [1, 0], [0, 0], .none⟩⟩ ∧
    sourceChain 3 exampleChain [2, 1] = [1, 2, 2] := by
  refine ⟨?_, by decide, by decide⟩
  have hc : IsCount 4 (stop 0 (-2) 5) (-2) 2 := by
    refine ⟨by decide, by decide, fun k hk => ?_⟩
    simp [stop]; omega
  refine chainAllowed_cons (len' := [3, 2, 6]) ⟨by decide, by decide, ?_⟩ ?_ ?_
  · refine ⟨trivial, ⟨by decide, fun k n hn h0 h1 => ?_⟩, trivial, trivial⟩
    have := (hn.2.2 k h0).mp h1
    simp [stop] at this; omega
  · exact ⟨rfl, hc, rfl, trivial⟩
  refine chainAllowed_cons (len' := [2, 6, 3]) ⟨by decide, by decide⟩ ⟨by decide, by decide⟩ ?_
  refine chainAllowed_cons (len' := [2, 6, 3, 1]) trivial rfl ?_
  refine chainAllowed_cons (len' := [6, 3]) ⟨by decide, by decide, ?_⟩ ?_ trivial
  · exact ⟨⟨by decide, by decide⟩, trivial, trivial, ⟨by decide, by decide⟩, trivial⟩
  · exact ⟨rfl, rfl, trivial⟩

/-! ## C07 -/

/-- **C07 (partial)** After any allowed chain of slices, index permutations and additions of
unit fast dimensions, the promises of the layout type hold at run time, provided unit fast
dimensions are only added to layouts whose class is not "evenly spaced but not unit stride".
Without that proviso the claim is false of the code: see `C07_fast_dims_witness`. -/
theorem C07_flags_hold_partial (len : List Int) (so se : List Nat) (prop : LayoutProp)
    (hp : IsPerm so) (hl : so.length = len.length) (hse : se.length = len.length)
    (os : List Op) (hos : ChainAllowed len os) :
    ∃ m, ofShape len so se prop = some m ∧ (FastDimsChain ⟨0, m⟩ os →
      ∃ v, run ⟨0, m⟩ os = some v ∧ WF v.lay ∧ FlagsOK v.lay) := by
  obtain ⟨m, h1, hw, hd, rfl, rfl, rfl, rfl⟩ := ofShape_spec len so se prop hp hl hse
  exact ⟨m, h1, fun h => run_flagsOK (v := ⟨0, m⟩) hw (flagsOK_of_dense hd) hos h⟩

/-- **C07** A static extent recorded in the type of a view is its run-time extent, after any
allowed chain from an array whose shape agrees with its static extents (checked by the
constructor in debug builds). -/
theorem C07_static_extents_hold (len : List Int) (so se : List Nat) (prop : LayoutProp)
    (hp : IsPerm so) (hl : so.length = len.length) (hse : se.length = len.length)
    (hst : ∀ u, se.getD u 0 ≠ 0 → len.getD u 0 = ((se.getD u 0 : Nat) : Int))
    (os : List Op) (hos : ChainAllowed len os) :
    ∃ m v, ofShape len so se prop = some m ∧ run ⟨0, m⟩ os = some v ∧ StaticOK v.lay := by
  obtain ⟨m, h1, hw, hd, rfl, rfl, rfl, rfl⟩ := ofShape_spec len so se prop hp hl hse
  obtain ⟨v, g1, g2⟩ := run_staticOK (v := ⟨0, m⟩) hw (flagsOK_of_dense hd).smallest hst hos
  exact ⟨m, v, h1, g1, g2⟩

example : slice ⟨[3, 4, 5], [20, 5, 1], [0, 1, 2], [3, 0, 5], .contiguous⟩ [.rng 0 2 1, .ell, .all] =
      some (0, ⟨[2, 4, 5], [20, 5, 1], [0, 1, 2], [0, 0, 5], .none⟩) := by decide

/-- **C07** Slicing alone and permuting alone keep promises truthful, whatever the layout. -/
theorem C07_slice_keeps_flags (v : View) (hw : WF v.lay) (hf : FlagsOK v.lay) (args : List Arg)
    (ha : Allowed v.lay.len (.slice args)) :
    ∃ v', sliceView v args = some v' ∧ WF v'.lay ∧ FlagsOK v'.lay := by
  obtain ⟨v', h1, h2⟩ := step_facts hw hf.smallest ha
  exact ⟨v', h1, h2.wf, step_flagsOK hw hf ha (by simp) h1⟩

/-- **C07** Code that relies on the promises touches the right elements: linear access number
`k` is the element at position `k` in memory order. -/
theorem C07_linear_access (v : View) (hw : WF v.lay) (hf : FlagsOK v.lay) (h0 : v.lay.len ≠ [])
    (hp : v.lay.prop = .strided ∨ v.lay.prop = .contiguous) (idx : List Int) (hi : InRange v.lay.len idx) :
    linear v (lin (memOrder v.lay.so v.lay.len) (memOrder v.lay.so idx)) = element v (idx.map .idx) := by
  rw [linear_eq hw hf h0 hp hi, element, call_idx hw hf.smallest idx hi.length_eq]; rfl

/-- **C07** The claim fails when a unit fast dimension is added to an evenly spaced view: the
second element of `a(range(0,10,2))` is slot 2, but linear access number 1 of its
reinterpretation is slot 1. -/
theorem C07_fast_dims_witness :
    let v : View := ⟨0, ⟨[5], [2], [0], [0], .strided⟩⟩
    let v' : View := ⟨0, addFastDims v.lay 1⟩
    (ofShape [10] [0] [0] .contiguous).bind (slice · [.rng 0 10 2]) = some (v.off, v.lay) ∧
    v'.lay.prop = .strided ∧ InRange v'.lay.len [1, 0] ∧
    lin (memOrder v'.lay.so v'.lay.len) (memOrder v'.lay.so [1, 0]) = 1 ∧
    linear v' 1 = some 1 ∧ element v' [.idx 1, .idx 0] = some 2 := by decide

example : -- one block of full ranges in the middle: evenly spaced with stride 5
    slice ⟨[3, 4, 5], [20, 5, 1], [0, 1, 2], [0, 0, 0], .contiguous⟩ [.all, .all, .idx 2] =
      some (2, ⟨[3, 4], [20, 5], [0, 1], [0, 0], .strided⟩) ∧
    linear ⟨2, ⟨[3, 4], [20, 5], [0, 1], [0, 0], .strided⟩⟩ 7 = some 37 := by decide

/-! ## C08 -/

/-- **C08** One allowed view operation on a regular layout: the recorded memory order is a
permutation of the dimensions, passes the library's validity test, and the view is again
regular (so this continues along any chain). -/
theorem C08_order_valid (v : View) (hw : WF v.lay) (hs : SmallestOK v.lay) (hr : Regular v.lay) (o : Op)
    (ha : Allowed v.lay.len o) :
    ∃ v', step v o = some v' ∧ WF v'.lay ∧ SmallestOK v'.lay ∧ Regular v'.lay ∧ SortsStrides v'.lay ∧ v'.lay.isStrideOrderValid = some true := by
  obtain ⟨v', h1, h2⟩ := step_facts hw hs ha
  have hr' := step_regular hw hs ha hr h1
  exact ⟨v', h1, h2.wf, h2.smallest, hr', sortsStrides_of_regular hr', isStrideOrderValid_of_regular h2.wf hr'⟩

/-- **C08** The library's test answers exactly whether the recorded memory order sorts the
absolute strides of the dimensions of extent greater than one. -/
theorem C08_test_exact (m : IdxMap) (hw : WF m) :
    ∃ b, m.isStrideOrderValid = some b ∧ (b = true ↔ SortsStrides m) := isStrideOrderValid_eq hw

/-- **C08** Every chain of allowed view operations on a freshly built array of positive extents
keeps a valid memory order. -/
theorem C08_chain_order_valid (len : List Int) (so se : List Nat) (prop : LayoutProp)
    (hp : IsPerm so) (hl : so.length = len.length) (hse : se.length = len.length) (hpos : ∀ l ∈ len, 0 < l)
    (os : List Op) (hos : ChainAllowed len os) :
    ∃ m v, ofShape len so se prop = some m ∧ run ⟨0, m⟩ os = some v ∧ IsPerm v.lay.so ∧
      v.lay.so.length = v.lay.len.length ∧ SortsStrides v.lay ∧ v.lay.isStrideOrderValid = some true := by
  obtain ⟨m, h1, hw, hd, rfl, rfl, rfl, rfl⟩ := ofShape_spec len so se prop hp hl hse
  have key : ∀ (os : List Op) (v : View), WF v.lay → SmallestOK v.lay → Regular v.lay → ChainAllowed v.lay.len os →
      ∃ v', run v os = some v' ∧ WF v'.lay ∧ Regular v'.lay := by
    intro os
    induction os with
    | nil => intro v a _ c _; exact ⟨v, rfl, a, c⟩
    | cons o os ih =>
      intro v a b c d
      obtain ⟨v1, e1, e2⟩ := step_facts a b d.1
      obtain ⟨v2, f1, f2⟩ := ih v1 e2.wf e2.smallest (step_regular a b d.1 c e1) (d.2 _ e2.shape)
      exact ⟨v2, by simp [run, e1, f1], f2⟩
  obtain ⟨v, g1, g2, g3⟩ := key os ⟨0, m⟩ hw (flagsOK_of_dense hd).smallest (regular_of_dense hw hd hpos) hos
  exact ⟨m, v, h1, g1, g2.perm, g2.so_len, sortsStrides_of_regular g3, isStrideOrderValid_of_regular g2 g3⟩

/-- **C08** A fresh array with a zero extent need not pass the library's own validity test (the
debug check of the layout-converting constructors then aborts). -/
theorem C08_empty_witness : (ofShape [2, 0, 3] [0, 1, 2] [0, 0, 0] .contiguous).bind isStrideOrderValid = some false := by decide

example : Regular ⟨[4, 3], [-6, 2], [0, 1], [0, 0], .none⟩ ∧
    Allowed [4, 3] (.slice [.all, .ell, .idx 1]) := by
  refine ⟨by decide, by decide, by decide, ?_⟩
  exact ⟨trivial, ⟨by decide, by decide⟩, trivial⟩

/-! ## C12 -/

/-- **C12 (partial)** With unit fast dimensions added, element `(i..., 0, ..., 0)` is element
`(i...)`; these are all the elements; the promises stay truthful and linear access unchanged
unless the layout class is "evenly spaced, not unit stride" (there the claim is false:
`C07_fast_dims_witness`, `C12_strided_witness`). -/
theorem C12_same_elements_partial (v : View) (hw : WF v.lay) (hf : FlagsOK v.lay) (n : Nat) :
    ∃ v', step v (.addFast n) = some v' ∧ v'.lay.len = v.lay.len ++ List.replicate n 1 ∧ WF v'.lay ∧
      (∀ idx, InRange v.lay.len idx → InRange v'.lay.len (idx ++ List.replicate n 0) ∧
        element v' ((idx ++ List.replicate n 0).map .idx) = element v (idx.map .idx)) ∧
      (∀ jdx, InRange v'.lay.len jdx → ∃ idx, InRange v.lay.len idx ∧ jdx = idx ++ List.replicate n 0) ∧
      (FastDimsOK v.lay.prop → FlagsOK v'.lay ∧ ∀ x, linear v' x = linear v x) := by
  obtain ⟨v', h1, rfl, h3⟩ := addFast_step hw hf.smallest n
  refine ⟨_, h1, rfl, h3.wf, ?_, ?_, ?_⟩
  · intro idx hi
    have hin : InRange (v.lay.len ++ List.replicate n 1) (idx ++ List.replicate n 0) := by
      rw [inRange_append]
      rw [← hi.length_eq]
      simp only [List.take_left, List.drop_left]
      exact ⟨hi, inRange_ones.mpr rfl⟩
    refine ⟨hin, ?_⟩
    have e := h3.offset _ hin
    simp only [source] at e
    rw [← hi.length_eq, List.take_left] at e
    rw [element, element, call_idx h3.wf h3.smallest _ hin.length_eq, call_idx hw hf.smallest _ hi.length_eq]
    simp [e]
  · intro jdx hj
    obtain ⟨a, b⟩ := inRange_append.mp hj
    refine ⟨_, a, ?_⟩
    conv => lhs; rw [← List.take_append_drop v.lay.len.length jdx]
    rw [inRange_ones.mp b]
  · intro hok
    refine ⟨addFast_flagsOK hw hf hok n, fun x => ?_⟩
    by_cases hs : v.lay.prop = .strided
    · rw [hs] at hok; exact absurd (hok rfl) (by decide)
    · have e : (addFastDims v.lay n).prop = v.lay.prop := rfl
      simp only [linear]
      rw [e, if_neg hs, if_neg hs]

/-- **C12** Linear access of the reinterpreted evenly spaced view reaches a slot that is not
an element of the view at all. -/
theorem C12_strided_witness :
    let v : View := ⟨0, ⟨[5], [2], [0], [0], .strided⟩⟩
    ∀ v', step v (.addFast 1) = some v' → linear v' 1 ≠ linear v 1 ∧
      ∀ i, element v [.idx i] ≠ linear v' 1 := by
  intro v v' h
  have : v' = ⟨0, ⟨[5, 1], [2, 1], [0, 1], [0, 0], .strided⟩⟩ := by
    simp [step, addFastDims, completeOrder, v] at h; exact h.symm
  subst this
  refine ⟨by decide, fun i => ?_⟩
  have h1 : element v [.idx i] = some (i * 2) := by
    have hw : WF v.lay := ⟨by decide, rfl, rfl, rfl⟩
    rw [element, show ([CArg.idx i] : List CArg) = [i].map .idx from rfl, call_idx hw (fun h => by simp [v, LayoutProp.strided] at h) [i] rfl]
    simp [Spec.offset, v, dot]; omega
  have h2 : linear ⟨0, ⟨[5, 1], [2, 1], [0, 1], [0, 0], .strided⟩⟩ 1 = some 1 := by decide
  rw [h1, h2]
  simp only [ne_eq, Option.some.injEq]; omega

example : FastDimsOK .contiguous ∧ FastDimsOK .none ∧ FastDimsOK .smallest ∧ ¬ FastDimsOK .strided := by
  simp [FastDimsOK, LayoutProp.contiguous, LayoutProp.none, LayoutProp.smallest, LayoutProp.strided]

end Nda.LayoutTransforms
