import Verif.Props.Assign
/-!
# C18: assigning a scalar
-/
namespace Nda.Assign
open Nda Nda.Spec Nda.Perm Nda.LayoutTransforms Nda.Loops Nda.Grid

variable {α : Type}

/-- Writing one value at a list of addresses. -/
theorem write_all (x : α) : ∀ (K : List Int) (mem : List α), (∀ k ∈ K, 0 ≤ k ∧ k < mem.length) →
    ∃ mem', K.foldlM (fun mem k => wrInt mem k x) mem = some mem' ∧ mem'.length = mem.length ∧
      (∀ k ∈ K, val mem' k = some x) ∧ ∀ k, k ∉ K → val mem' k = val mem k
  | [], mem, _ => ⟨mem, rfl, rfl, by simp, by simp⟩
  | k :: K, mem, h => by
    obtain ⟨m1, e1, l1, v1, f1⟩ := wrInt_spec (h k List.mem_cons_self) x
    obtain ⟨m2, e2, l2, v2, f2⟩ := write_all x K m1 (fun j hj => by rw [l1]; exact h j (List.mem_cons_of_mem _ hj))
    refine ⟨m2, ?_, by omega, ?_, ?_⟩
    · rw [List.foldlM_cons, e1]; exact e2
    · intro j hj
      by_cases hjK : j ∈ K
      · exact v2 j hjK
      · rcases List.mem_cons.mp hj with rfl | hj
        · rw [f2 _ hjK, v1]
        · exact absurd hj hjK
    · intro j hj
      rw [List.mem_cons, not_or] at hj
      rw [f2 j hj.2, f1 j hj.1]

theorem write_view {a : View} {mem : List α} (hfit : Fits' a mem.length) {L : List (List Int)} (hL : ∀ x, x ∈ L ↔ InRange a.lay.len x) (x : α) :
    ∃ mem', (L.map (addr a)).foldlM (fun mem k => wrInt mem k x) mem = some mem' ∧ Updated a (fun _ => some x) mem mem' := by
  obtain ⟨m1, e1, l1, v1, f1⟩ := write_all x (L.map (addr a)) mem (by
    intro k hk
    obtain ⟨y, hy, rfl⟩ := List.mem_map.mp hk
    exact hfit y ((hL y).mp hy))
  refine ⟨m1, e1, l1, fun idx hidx => v1 _ (List.mem_map_of_mem ((hL idx).mpr hidx)), fun k hk => f1 k ?_⟩
  intro hmem
  obtain ⟨y, hy, rfl⟩ := List.mem_map.mp hmem
  exact hk ⟨y, (hL y).mp hy, rfl⟩

theorem strideLoop_spec {σ : Type} {c : Int} (hc : 0 < c) (body : Int → σ → Option σ) (L : Nat) :
    ∀ (n : Nat) (k : Nat) (fuel : Nat) (s : σ), k + n = L → n < fuel →
      strideLoop (L * c) c body fuel (k * c) s = ((List.range' k n).map (fun (i : Nat) => (i : Int) * c)).foldlM (fun s i => body i s) s := by
  intro n
  induction n with
  | zero =>
    intro k fuel s hk hf
    obtain ⟨g, rfl⟩ : ∃ g, fuel = g + 1 := ⟨fuel - 1, by omega⟩
    have : k = L := by omega
    subst this
    rw [strideLoop, if_neg (by omega)]; rfl
  | succ n ih =>
    intro k fuel s hk hf
    obtain ⟨g, rfl⟩ : ∃ g, fuel = g + 1 := ⟨fuel - 1, by omega⟩
    rw [strideLoop, if_pos (Int.mul_lt_mul_of_pos_right (by omega) hc), List.range'_succ, List.map_cons, List.foldlM_cons]
    congr 1; funext s'
    have := ih (k + 1) g s' (by omega) (by omega)
    rw [show (((k + 1 : Nat) : Int)) * c = k * c + c by push_cast; ring] at this
    exact this

/-- The stride of the fastest dimension is positive. -/
def FastestPos (m : IdxMap) : Prop := ∀ u, m.so.getLast? = some u → 0 < m.str.getD u 0

/-- **C18** Filling with a scalar sets every element and nothing else.

Missing for the full claim: evenly spaced (not contiguous) layouts with a non-positive stride,
where nothing is assigned (`C18_negative_stride`), and layouts without the even spacing promise
with a zero extent after a non-zero one, where the loop does not end (C16). -/
theorem C18_fill_partial (fuel : Nat) (a : View) (x : α) (mem : List α) (ha : Good a mem.length) (h0 : a.lay.len ≠ [] ∨ a.lay.prop = .contiguous)
    (hfuel : (Spec.prod a.lay.len).toNat < fuel)
    (hstr : a.lay.prop = .strided → Spec.prod a.lay.len = 0 ∨ FastestPos a.lay)
    (hit : a.lay.prop.strided1d = false → (∀ l ∈ a.lay.len, 0 < l) ∨ (memOrder a.lay.so a.lay.len).head? = some 0) :
    ∃ mem', assignScalar fuel a x mem = some mem' ∧ Updated a (fun _ => some x) mem mem' := by
  have hE := memEnum_memBox ha.wf.perm ha.wf.so_len.symm
  rw [assignScalar, fillWithScalar]
  by_cases hst : a.lay.prop.strided1d = true
  · rw [if_pos hst]
    obtain ⟨c, hc⟩ := ha.flags.strided hst
    by_cases hcon : a.lay.prop.hasContiguous = true
    · simp only [hcon, if_true]
      have hprop : a.lay.prop = .contiguous := by
        revert hcon; cases a.lay.prop with
        | mk s o => cases s <;> cases o <;> simp [LayoutProp.hasContiguous, LayoutProp.contiguous]
      obtain ⟨c1, h1, e1⟩ := linear_eq ha.wf (Or.inr hprop) hst hc ha.flags 1
      have hc1 : c1 = 1 := by
        rw [linear, if_neg (by rw [hprop]; decide), if_pos hprop] at e1
        simpa using e1.symm
      subst hc1
      have ho := offsets_evenly ha.wf ha.nonneg h1
      obtain ⟨mem', e, hu⟩ := write_view ha.fits hE.mem_iff x
      refine ⟨mem', ?_, hu⟩
      rw [← e, forLoop, IdxMap.size_eq]
      have : (memBox a.lay.so a.lay.len).map (addr a) = ((memBox a.lay.so a.lay.len).map (dot a.lay.str)).map (a.off + ·) := by
        rw [List.map_map]; rfl
      rw [this, ho, List.map_map, List.foldlM_map]
      simp
    · have hprop : a.lay.prop = .strided := by
        revert hcon hst; cases a.lay.prop with
        | mk s o => cases s <;> cases o <;> simp [LayoutProp.hasContiguous, LayoutProp.strided]
      have h0' : a.lay.len ≠ [] := h0.resolve_right (by rw [hprop]; decide)
      obtain ⟨u, hu, _, hms⟩ := IdxMap.minStride_eq ha.wf h0'
      have hcu : a.lay.minStride = some c := by rw [hms, IdxMap.fastestIs_of_evenlySpaced hc u hu]
      simp only [hcon, hcu, IdxMap.size_eq]
      have ho := offsets_evenly ha.wf ha.nonneg hc
      obtain ⟨mem', e, hup⟩ := write_view ha.fits hE.mem_iff x
      refine ⟨mem', ?_, hup⟩
      rw [← e]
      have h1 : (memBox a.lay.so a.lay.len).map (addr a) = ((memBox a.lay.so a.lay.len).map (dot a.lay.str)).map (a.off + ·) := by
        rw [List.map_map]; rfl
      rw [h1, ho, List.map_map, List.foldlM_map]
      obtain ⟨N, hN⟩ : ∃ N : Nat, Spec.prod a.lay.len = N := ⟨(Spec.prod a.lay.len).toNat, by have := prod_nonneg ha.nonneg; omega⟩
      rw [hN]
      rcases hstr hprop with hz | hpos
      · have : N = 0 := by rw [hN] at hz; exact_mod_cast hz
        subst this
        simp [strideLoop]
      · have hcp : 0 < c := by
          have := hpos u hu
          rwa [IdxMap.fastestIs_of_evenlySpaced hc u hu] at this
        have hle : N < ((N : Int) * c).toNat + 1 := by
          have : (N : Int) * 1 ≤ N * c := Int.mul_le_mul_of_nonneg_left (by omega) (by omega)
          omega
        have := strideLoop_spec hcp (fun i (mem : List α) => wrInt mem (a.off + i) x) N N 0 _ mem (by omega) hle
        simp only [Nat.cast_zero, zero_mul] at this
        simp only [Option.bind_eq_bind, Option.bind_some, Bool.false_eq_true, if_false]
        rw [this, List.foldlM_map, ← List.range_eq_range']
        apply foldlM_congr
        intro i _ s
        simp [mul_comm]
  · rw [if_neg hst]
    have hst' : a.lay.prop.strided1d = false := by simpa using hst
    have h0' : a.lay.len ≠ [] := h0.resolve_right (fun h => hst (by rw [h]; rfl))
    have hz : (∀ l ∈ a.lay.len, 0 < l) ∨ a.lay.prop.strided1d = true ∨ (memOrder a.lay.so a.lay.len).head? = some 0 := by
      rcases hit hst' with h | h
      · exact Or.inl h
      · exact Or.inr (Or.inr h)
    obtain ⟨L, hL, b, e, hb, he, hrun⟩ := IdxMap.C16_iterate_partial a.lay ha.wf ha.flags h0' ha.nonneg hz
    rw [hb, he]
    have hlen : L.length = (Spec.prod a.lay.len).toNat := by
      have h1 : L.Perm (box a.lay.len) := (List.perm_ext_iff_of_nodup hL.nodup (lexEnum_box _).nodup).mpr
        (fun y => by rw [hL.mem_iff, mem_box])
      have h2 := box_length ha.nonneg
      rw [h1.length_eq]; omega
    obtain ⟨mem', em, hup⟩ := write_view ha.fits hL.mem_iff x
    refine ⟨mem', ?_, hup⟩
    simp only [Option.bind_eq_bind, Option.bind_some]
    rw [hrun _ _ _ fuel (by omega), ← em, List.foldlM_map]
    rfl

/-- **C18 (negative)** On an evenly spaced, not contiguous layout with a non-positive stride the
assignment of a scalar does nothing at all. -/
theorem C18_negative_stride (fuel : Nat) (a : View) (x : α) (mem : List α) (hw : WF a.lay) (hn : NonNeg a.lay.len)
    (hprop : a.lay.prop = .strided) (u : Nat) (hu : a.lay.so.getLast? = some u) (hneg : a.lay.str.getD u 0 ≤ 0) :
    assignScalar fuel a x mem = some mem := by
  have h0 : a.lay.len ≠ [] := by
    intro h
    have : a.lay.so = [] := List.length_eq_zero_iff.mp (by rw [hw.so_len, h]; rfl)
    rw [this] at hu; simp at hu
  obtain ⟨u', hu', _, hms⟩ := IdxMap.minStride_eq hw h0
  rw [hu] at hu'; cases hu'
  have hp := prod_nonneg hn
  have : a.lay.prop.hasContiguous = false := by rw [hprop]; rfl
  have hle : Spec.prod a.lay.len * a.lay.str.getD u 0 ≤ 0 := Int.mul_nonpos_of_nonneg_of_nonpos hp hneg
  rw [assignScalar, fillWithScalar, if_pos (by rw [hprop]; rfl)]
  simp only [this, hms, Option.bind_eq_bind, Option.bind_some, Bool.false_eq_true, if_false, IdxMap.size_eq]
  rw [strideLoop, if_neg (by omega)]

/-- The reversed view `a(range(9, -1, -1)) = 5` of an array of 10 zeros changes nothing. -/
theorem C18_reversed_witness :
    ∃ v, sliceView ⟨0, ⟨[10], [1], [0], [0], .contiguous⟩⟩ [.rng 9 (-1) (-1)] = some v ∧ v.lay.len = [10] ∧
      v.lay.prop = .strided ∧ v.lay.str = [-1] ∧
      assignScalar 100 v 5 (List.replicate 10 0) = some (List.replicate 10 (0 : Nat)) :=
  ⟨_, rfl, rfl, rfl, rfl, by decide⟩

/-- **C18** Assigning a scalar to a matrix: the diagonal gets the scalar, the rest zero. -/
theorem C18_matrix_partial (fuel : Nat) (a : View) (zero x : α) (mem : List α) (n0 n1 : Int) (hlen : a.lay.len = [n0, n1])
    (ha : Good a mem.length) (h1 : OneToOne a) (hfuel : (n0 * n1).toNat < fuel)
    (hstr : a.lay.prop = .strided → n0 * n1 = 0 ∨ FastestPos a.lay)
    (hit : a.lay.prop.strided1d = false → (0 < n0 ∧ 0 < n1) ∨ (memOrder a.lay.so a.lay.len).head? = some 0) :
    ∃ mem', assignScalarMatrix fuel a zero x mem = some mem' ∧
      Updated a (fun idx => if idx.getD 0 0 = idx.getD 1 0 then some x else some zero) mem mem' := by
  have hprod : Spec.prod a.lay.len = n0 * n1 := by rw [hlen]; simp [Spec.prod]
  obtain ⟨m1, e1, u1⟩ := C18_fill_partial fuel a zero mem ha (Or.inl (by rw [hlen]; simp)) (by rw [hprod]; exact hfuel)
    (by rw [hprod]; exact hstr) (by
      intro h
      rcases hit h with ⟨h1, h2⟩ | h
      · left; rw [hlen]; intro l hl; simp at hl; rcases hl with rfl | rfl <;> assumption
      · exact Or.inr h)
  have hdiag : ∀ i : Nat, i < (min n0 n1).toNat → InRange a.lay.len [(i : Int), i] := by
    intro i hi
    rw [hlen]
    refine ⟨⟨by omega, by omega⟩, ⟨by omega, by omega⟩, trivial⟩
  have hK : ∀ k ∈ (List.range (min n0 n1).toNat).map (fun (i : Nat) => addr a [(i : Int), i]), 0 ≤ k ∧ k < (m1.length : Int) := by
    intro k hk
    obtain ⟨i, hi, rfl⟩ := List.mem_map.mp hk
    rw [u1.size]
    exact ha.fits _ (hdiag i (List.mem_range.mp hi))
  obtain ⟨m2, e2, l2, v2, f2⟩ := write_all x _ m1 hK
  refine ⟨m2, ?_, by rw [l2, u1.size], ?_, ?_⟩
  · rw [assignScalarMatrix]
    rw [assignScalar] at e1
    rw [e1, hlen]
    simp only [Option.bind_eq_bind, Option.bind_some, rd, List.getElem?_cons_zero, List.getElem?_cons_succ]
    rw [← e2, forLoop, List.foldlM_map]
    apply foldlM_congr
    intro i hi s
    rw [store, Int.ofNat_eq_natCast, element_eq ha.wf ha.flags (hdiag i (List.mem_range.mp hi))]
    rfl
  · intro idx hidx
    have hidx' := hidx
    rw [hlen] at hidx'
    obtain ⟨i, j, rfl⟩ : ∃ i j, idx = [i, j] := by
      have := hidx'.length_eq
      match idx, this with
      | [i, j], _ => exact ⟨i, j, rfl⟩
    obtain ⟨⟨hi0, hi1⟩, ⟨hj0, hj1⟩, -⟩ := hidx'
    simp only [List.getD_cons_zero, List.getD_cons_succ]
    split
    · rename_i h
      subst h
      apply v2
      refine List.mem_map.mpr ⟨i.toNat, List.mem_range.mpr (by omega), ?_⟩
      rw [show ((i.toNat : Nat) : Int) = i by omega]
    · rename_i h
      rw [f2, u1.elems _ hidx]
      intro hmem
      obtain ⟨k, hk, e⟩ := List.mem_map.mp hmem
      have := h1 _ _ (hdiag k (List.mem_range.mp hk)) hidx e
      simp only [List.cons.injEq, and_true] at this
      omega
  · intro k hk
    rw [f2, u1.frame k hk]
    intro hmem
    obtain ⟨i, hi, e⟩ := List.mem_map.mp hmem
    exact hk ⟨_, hdiag i (List.mem_range.mp hi), e⟩

example : assignScalarMatrix 10 ⟨1, ⟨[2, 2], [3, 1], [0, 1], [0, 0], .smallest⟩⟩ 0 7 [9, 9, 9, 9, 9, (9 : Nat)] =
    some [9, 7, 0, 9, 0, 7] := by decide
example : assignScalar 10 ⟨1, ⟨[3], [2], [0], [0], .strided⟩⟩ 7 [9, 9, 9, 9, 9, (9 : Nat)] = some [9, 7, 9, 7, 9, 7] := by decide

end Nda.Assign
