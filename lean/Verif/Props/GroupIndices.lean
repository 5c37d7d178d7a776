import Verif.Lemmas.GroupIndices
/-!
# C13: grouping indices
-/
namespace Nda.GroupIndices
open Nda Nda.Spec Nda.Perm Nda.IdxMap Nda.LayoutTransforms

theorem posOf_inverse {so : List Nat} (hp : IsPerm so) : ∃ r, inverse so = some r ∧ PosOf so r := by
  obtain ⟨r, h1, h2, h3⟩ := inverse_spec so hp
  exact ⟨r, h1, hp, h2, h3⟩

theorem mapM_total {l : List Int} {g : List Nat} (hg : ∀ k ∈ g, k < l.length) : g.mapM (fun u => rd l u) = some (memOrder g l) :=
  apply_eq_memOrder hg

theorem mapM_of_some {α β : Type} {f : α → Option β} {h : α → β} : ∀ {l : List α}, (∀ a ∈ l, f a = some (h a)) → l.mapM f = some (l.map h)
  | [], _ => rfl
  | a :: l, hf => by
    rw [List.mapM_cons, hf a List.mem_cons_self, mapM_of_some (fun b hb => hf b (List.mem_cons_of_mem _ hb))]; rfl

theorem mapM_none_of_mem {α β : Type} {f : α → Option β} : ∀ {l : List α} {a : α}, a ∈ l → f a = none → l.mapM f = none
  | b :: l, a, hm, hf => by
    rw [List.mapM_cons]
    rcases List.mem_cons.mp hm with rfl | hm
    · rw [hf]; rfl
    · cases f b with
      | none => rfl
      | some x => simp [mapM_none_of_mem hm hf]

theorem foldl_min_perm {a b : List Int} (h : a.Perm b) (s : Int) : a.foldl (fun s x => min s x) s = b.foldl (fun s x => min s x) s := by
  obtain ⟨a1, a2⟩ := foldl_min_spec a s
  obtain ⟨b1, b2⟩ := foldl_min_spec b s
  have h1 := a2 _ ((h.cons s).mem_iff.mpr b1)
  have h2 := b2 _ ((h.cons s).mem_iff.mp a1)
  omega

/-- **C13** Grouping is accepted (compiles) exactly for partitions of the dimensions into
groups that are adjacent in memory. -/
theorem C13_accepts_iff (m : IdxMap) (hw : WF m) (hc : m.prop = .contiguous) (grps : List (List Nat)) (hne : ∀ g ∈ grps, g ≠ []) :
    (groupLayout m grps).isSome ↔ Partitions m.len.length grps ∧ ∀ g ∈ grps, Adjacent m.so g := by
  obtain ⟨r, hr, hpos⟩ := posOf_inverse hw.perm
  constructor
  · intro h
    unfold groupLayout at h
    rw [if_neg (by simp [hc])] at h
    cases hp : isPartition m.rank grps with
    | none => rw [hp] at h; simp at h
    | some ok =>
      rw [hp] at h
      simp only [Option.bind_eq_bind, Option.bind_some] at h
      cases ok with
      | false => simp at h
      | true =>
        have hP := (isPartition_iff _ _).mp hp
        refine ⟨hP, ?_⟩
        intro g hg
        by_contra hA
        obtain ⟨hnd, _⟩ := List.nodup_flatten.mp (hP.nodup_iff.mpr List.nodup_range)
        have hlt : ∀ k ∈ g, k < m.so.length := fun k hk => by
          have := List.mem_range.mp (hP.mem_iff.mp (List.mem_flatten.mpr ⟨g, hg, hk⟩))
          rw [hw.so_len]; exact this
        have hnone : minMemPos m.so.length r g = none := by
          cases hmm : minMemPos m.so.length r g with
          | none => rfl
          | some s =>
            exact absurd ((adjacent_iff hpos hlt (hnd g hg) (hne g hg)).mpr
              ⟨s, (minMemPos_iff hpos hlt (hnd g hg) (hne g hg) s).mp hmm⟩) hA
        have hgo : groupedOrder m.so grps = none := by
          simp [groupedOrder, hr, mapM_none_of_mem hg hnone]
        rw [hgo] at h
        simp only [if_true] at h
        cases h1 : grps.mapM (totalLen m) with
        | none => rw [h1] at h; simp at h
        | some _ =>
          rw [h1] at h
          cases h2 : grps.mapM (minStrideOfGrp m) with
          | none => rw [h2] at h; simp at h
          | some _ => rw [h2] at h; simp at h
  · rintro ⟨hP, hA⟩
    have hlt : ∀ g ∈ grps, ∀ k ∈ g, k < m.len.length := fun g hg k hk =>
      List.mem_range.mp (hP.mem_iff.mp (List.mem_flatten.mpr ⟨g, hg, hk⟩))
    obtain ⟨q, q1, _⟩ := groupedOrder_spec hpos hr (by rw [hw.so_len]; exact hP) hne hA
    unfold groupLayout
    rw [if_neg (by simp [hc]), (isPartition_iff m.rank _).mpr hP]
    have e1 : grps.mapM (totalLen m) = some (grps.map (fun g => (memOrder g m.len).foldl (fun l x => l * x) 1)) :=
      mapM_of_some (fun g hg => by simp [totalLen, mapM_total (hlt g hg)])
    have e2 : grps.mapM (minStrideOfGrp m) = some (grps.map (fun g => (memOrder g m.str).foldl (fun s x => min s x) m.size)) :=
      mapM_of_some (fun g hg => by simp [minStrideOfGrp, mapM_total (l := m.str) (fun k hk => by rw [hw.str_len]; exact hlt g hg k hk)])
    simp [e1, e2, q1]

/-- **C13** For every dense layout and every accepted grouping into non-empty groups, there is
one dimension per group, of the product of its extents, and the number of elements is unchanged.
If there are elements the new layout is again dense; the element at the merged tuple is the
original one, and every tuple of the new shape is reached. -/
theorem C13_group (m m' : IdxMap) (hw : WF m) (hd : Dense m) (hn : NonNeg m.len) (grps : List (List Nat))
    (hne : ∀ g ∈ grps, g ≠ []) (h : groupLayout m grps = some m') :
    m'.len = grps.map (fun g => Spec.prod (memOrder g m.len)) ∧ m'.size = m.size ∧ WF m' ∧
    ((∀ l ∈ m.len, 0 < l) → Dense m' ∧ FlagsOK m') ∧
    (∀ idx, InRange m.len idx → InRange m'.len (grps.map (mergedIndex m.so m.len idx)) ∧
      m'.call ((grps.map (mergedIndex m.so m.len idx)).map .idx) = m.call (idx.map .idx)) ∧
    (∀ J, InRange m'.len J → ∃ idx, InRange m.len idx ∧ J = grps.map (mergedIndex m.so m.len idx)) := by
  have hc : m.prop = .contiguous := by
    by_contra hc
    rw [groupLayout, if_pos hc] at h; cases h
  obtain ⟨hP, hA⟩ := (C13_accepts_iff m hw hc grps hne).mp (by rw [h]; rfl)
  obtain ⟨r, hr, hpos⟩ := posOf_inverse hw.perm
  have hlt : ∀ g ∈ grps, ∀ k ∈ g, k < m.len.length := fun g hg k hk =>
    List.mem_range.mp (hP.mem_iff.mp (List.mem_flatten.mpr ⟨g, hg, hk⟩))
  obtain ⟨hnd, _⟩ := List.nodup_flatten.mp (hP.nodup_iff.mpr List.nodup_range)
  obtain ⟨q, q1, q2, q3, q4⟩ := groupedOrder_spec hpos hr (by rw [hw.so_len]; exact hP) hne hA
  have e1 : grps.mapM (totalLen m) = some (grps.map (fun g => Spec.prod (memOrder g m.len))) :=
    mapM_of_some (fun g hg => by
      have := foldl_mul 1 (memOrder g m.len)
      simp only [totalLen, mapM_total (hlt g hg), Option.bind_eq_bind, Option.bind_some, Option.pure_def]
      rw [this, Int.one_mul])
  have e2 : grps.mapM (minStrideOfGrp m) = some (grps.map (fun g => (memOrder g m.str).foldl (fun s x => min s x) m.size)) :=
    mapM_of_some (fun g hg => by simp [minStrideOfGrp, mapM_total (l := m.str) (fun k hk => by rw [hw.str_len]; exact hlt g hg k hk)])
  have hm' : m' = ⟨grps.map (fun g => Spec.prod (memOrder g m.len)),
      grps.map (fun g => (memOrder g m.str).foldl (fun s x => min s x) m.size), q, List.replicate grps.length 0, .contiguous⟩ := by
    unfold groupLayout at h
    rw [if_neg (by simp [hc]), (isPartition_iff m.rank _).mpr hP] at h
    simp only [Option.bind_eq_bind, Option.bind_some, if_true, e1, e2, q1, Option.pure_def, Option.some.injEq] at h
    exact h.symm
  have hbp : ∀ g ∈ grps, (block m.so g).Perm g := fun g hg =>
    block_perm hw.perm (fun k hk => by rw [hw.so_len]; exact hlt g hg k hk) (hnd g hg)
  have hqlt : ∀ i ∈ q, i < grps.length := fun i hi => by have := IsPerm.lt q2 hi; omega
  have hgm : ∀ i ∈ q, grps.getD i [] ∈ grps := by
    intro i hi
    rw [List.getD_eq_getElem?_getD, List.getElem?_eq_getElem (hqlt i hi)]; exact List.getElem_mem _
  -- values listed in the new stride order
  have hmo : ∀ F : List Nat → Int, memOrder q (grps.map F) = q.map (fun i => F (grps.getD i [])) := by
    intro F
    apply List.map_congr_left
    intro i hi
    simp [List.getD_eq_getElem?_getD, List.getElem?_eq_getElem (hqlt i hi)]
  have hlenq : memOrder q (grps.map (fun g => Spec.prod (memOrder g m.len))) =
      (q.map (fun i => block m.so (grps.getD i []))).map (fun b => Spec.prod (b.map (fun k => m.len.getD k 0))) := by
    rw [hmo, List.map_map]
    apply List.map_congr_left
    intro i hi
    simp only [Function.comp_apply]
    rw [prod_eq_list_prod, prod_eq_list_prod]
    exact List.Perm.prod_eq ((hbp _ (hgm i hi)).symm.map _)
  have hprod : Spec.prod (grps.map (fun g => Spec.prod (memOrder g m.len))) = Spec.prod m.len := by
    rw [← prod_memOrder q2 (by simp [q3]), hlenq, ← prod_memOrder hw.perm hw.so_len.symm]
    have hsoeq : memOrder m.so m.len = (q.map (fun i => block m.so (grps.getD i []))).flatten.map (fun k => m.len.getD k 0) := by
      rw [q4]; rfl
    rw [hsoeq, List.map_flatten, prod_flatten]
    congr 1
    rw [List.map_map, List.map_map, List.map_map]; rfl
  have hW : WF m' := by
    subst hm'
    exact ⟨q2, by simp [q3], by simp, by simp⟩
  have hD : (∀ l ∈ m.len, 0 < l) → Dense m' := by
    intro hp
    subst hm'
    unfold Dense EvenlySpaced
    simp only
    rw [hlenq, hmo]
    have hstr : q.map (fun i => (memOrder (grps.getD i []) m.str).foldl (fun s x => min s x) m.size) =
        (q.map (fun i => block m.so (grps.getD i []))).map (fun b => (b.map (fun k => m.str.getD k 0)).foldl (fun s x => min s x) m.size) := by
      rw [List.map_map]
      apply List.map_congr_left
      intro i hi
      simp only [Function.comp_apply]
      exact foldl_min_perm ((hbp _ (hgm i hi)).symm.map _) _
    rw [hstr, minStrides_dense (f := fun k => m.len.getD k 0)]
    · simp only [Int.one_mul, List.map_id']
    · rw [q4]
      intro k hk
      have : k < m.len.length := by rw [← hw.so_len]; exact IsPerm.lt hw.perm hk
      rw [List.getD_eq_getElem?_getD, List.getElem?_eq_getElem this]
      exact hp _ (List.getElem_mem _)
    · intro b hb
      obtain ⟨i, hi, rfl⟩ := List.mem_map.mp hb
      intro e
      have := (hbp _ (hgm i hi)).length_eq
      rw [e] at this
      exact hne _ (hgm i hi) (List.length_eq_zero_iff.mp this.symm)
    · rw [q4]
      have := hd
      unfold Dense EvenlySpaced memOrder at this
      simpa using this
    · rw [q4, size_eq, ← prod_memOrder hw.perm hw.so_len.symm]; exact Int.le_refl _
  -- the merged tuple, in the new stride order
  have hidx : ∀ idx, memOrder q (grps.map (mergedIndex m.so m.len idx)) = (q.map (fun i => block m.so (grps.getD i []))).map
      (fun b => lin (b.map (fun k => m.len.getD k 0)) (b.map (fun k => idx.getD k 0))) := by
    intro idx
    rw [hmo, List.map_map]; rfl
  have hin : ∀ idx, InRange m.len idx → InRange m'.len (grps.map (mergedIndex m.so m.len idx)) := by
    intro idx hi
    rw [← inRange_memOrder q2 (by subst hm'; simp [q3]) (by simp [q3]), hidx]
    have : m'.len = grps.map (fun g => Spec.prod (memOrder g m.len)) := by rw [hm']
    rw [this, hlenq]
    apply inRange_flatten
    rw [q4]
    exact (inRange_memOrder hw.perm hw.so_len.symm (by rw [hi.length_eq, hw.so_len])).mpr hi
  have hlin : ∀ idx, lin (memOrder q m'.len) (memOrder q (grps.map (mergedIndex m.so m.len idx))) =
      lin (memOrder m.so m.len) (memOrder m.so idx) := by
    intro idx
    have : m'.len = grps.map (fun g => Spec.prod (memOrder g m.len)) := by rw [hm']
    rw [hidx, this, hlenq, ← lin_flatten, q4]; rfl
  have hq' : m'.so = q := by rw [hm']
  refine ⟨by rw [hm'], by rw [size_eq, size_eq, hm']; exact hprod, hW, fun hp => ⟨hD hp, flagsOK_of_dense (hD hp)⟩, ?_, ?_⟩
  · intro idx hi
    have hp := hi.nonneg_len
    refine ⟨hin idx hi, ?_⟩
    rw [call_idx hW (flagsOK_of_dense (hD hp)).smallest _ (hin idx hi).length_eq, call_idx hw (flagsOK_of_dense hd).smallest _ hi.length_eq,
      offset_evenlySpaced hW (hD hp) (hin idx hi).length_eq, offset_evenlySpaced hw hd hi.length_eq, hq', hlin]
  · intro J hJ
    have hml : m'.len.length = q.length := by rw [hm']; simp [q3]
    have hJ' := (inRange_memOrder q2 hml (by rw [hJ.length_eq, hml])).mpr hJ
    have hb := lin_bounds hJ'
    rw [prod_memOrder q2 hml] at hb
    have hpl : Spec.prod m'.len = Spec.prod m.len := by rw [hm']; exact hprod
    rw [hpl, ← prod_memOrder hw.perm hw.so_len.symm] at hb
    obtain ⟨x, x1, x2⟩ := lin_surj ((nonNeg_memOrder hw.perm hw.so_len.symm).mpr hn) _ hb.1 hb.2
    -- un-permute x
    obtain ⟨idx, i1, i2⟩ : ∃ idx : List Int, idx.length = m.so.length ∧ memOrder m.so idx = x := by
      have hxl : x.length = m.so.length := by rw [x1.length_eq, memOrder_length]
      obtain ⟨y, y1, y2, y3⟩ := applyInverse_spec m.so x hw.perm hxl
      refine ⟨y, y2, ?_⟩
      apply List.ext_getElem (by rw [memOrder_length, hxl])
      intro u hu hu'
      have hu2 : u < m.so.length := by omega
      have := y3 u hu2
      simp only [memOrder, List.getElem_map, List.getD_eq_getElem?_getD, this, List.getElem?_eq_getElem hu', Option.getD_some]
    have hi : InRange m.len idx := by
      rw [← inRange_memOrder hw.perm hw.so_len.symm i1, i2]; exact x1
    refine ⟨idx, hi, ?_⟩
    have hme := (inRange_memOrder q2 hml (by simp [q3])).mpr (hin idx hi)
    have := lin_inj hJ' hme (by rw [hlin, i2, x2])
    exact memOrder_inj q2 (by rw [hJ.length_eq, hml]) (by simp [q3]) this

/-- **C13** The view version: same storage, same element. -/
theorem C13_view (v v' : View) (hw : WF v.lay) (hd : Dense v.lay) (hn : NonNeg v.lay.len) (grps : List (List Nat))
    (hne : ∀ g ∈ grps, g ≠ []) (h : groupView v grps = some v') (idx : List Int) (hi : InRange v.lay.len idx) :
    element v' ((grps.map (mergedIndex v.lay.so v.lay.len idx)).map .idx) = element v (idx.map .idx) := by
  unfold groupView at h
  cases hg : groupLayout v.lay grps with
  | none => rw [hg] at h; simp at h
  | some lay =>
    rw [hg] at h
    simp only [Option.bind_eq_bind, Option.bind_some, Option.pure_def, Option.some.injEq] at h
    subst h
    have := ((C13_group v.lay lay hw hd hn grps hne hg).2.2.2.2.1 idx hi).2
    simp only [element, this]

/-- A (2,3,4,5) array with memory order (2,0,1,3): groups {1,0}, {2}, {3}. -/
example : ∃ m', groupLayout ⟨[2, 3, 4, 5], [15, 5, 30, 1], [2, 0, 1, 3], [0, 0, 0, 0], .contiguous⟩ [[1, 0], [3], [2]] = some m' ∧
    m'.len = [6, 5, 4] ∧ m'.str = [5, 1, 30] ∧ m'.so = [2, 0, 1] := ⟨_, by rfl, by decide, by decide, by decide⟩

example : WF ⟨[2, 3, 4, 5], [15, 5, 30, 1], [2, 0, 1, 3], [0, 0, 0, 0], .contiguous⟩ ∧
    Dense ⟨[2, 3, 4, 5], [15, 5, 30, 1], [2, 0, 1, 3], [0, 0, 0, 0], .contiguous⟩ ∧ Partitions 4 [[1, 0], [3], [2]] ∧
    Adjacent [2, 0, 1, 3] [1, 0] ∧ ¬ Adjacent [2, 0, 1, 3] [2, 3] := by
  refine ⟨⟨(by decide : IsPerm [2, 0, 1, 3]), rfl, rfl, rfl⟩, (by decide : memOrder [2, 0, 1, 3] [15, 5, 30, 1] = (dense (memOrder [2, 0, 1, 3] [2, 3, 4, 5])).map (1 * ·)), by decide, by decide, by decide⟩

end Nda.GroupIndices
