import Verif.Lemmas.Views
import Verif.Spec.Contiguous
/-!
# The contiguity test
-/
namespace Nda.IdxMap
open Nda Nda.Spec Nda.Perm Nda.LayoutTransforms Nda.Slice

theorem foldl_max_ge (xs : List Int) (a : Int) :
    a ≤ xs.foldl (fun acc y => if acc < y then y else acc) a ∧
    (∀ x ∈ xs, x ≤ xs.foldl (fun acc y => if acc < y then y else acc) a) ∧
    (xs.foldl (fun acc y => if acc < y then y else acc) a = a ∨
      xs.foldl (fun acc y => if acc < y then y else acc) a ∈ xs) := by
  induction xs generalizing a with
  | nil => simp
  | cons x xs ih =>
    simp only [List.foldl_cons, List.mem_cons]
    have hb : a ≤ (if a < x then x else a) ∧ x ≤ (if a < x then x else a) ∧
        ((if a < x then x else a) = a ∨ (if a < x then x else a) = x) := by
      split <;> refine ⟨?_, ?_, ?_⟩ <;> omega
    generalize (if a < x then x else a) = b at *
    obtain ⟨h1, h2, h3⟩ := ih b
    refine ⟨by omega, ?_, ?_⟩
    · rintro y (rfl | hy)
      · omega
      · exact h2 y hy
    · rcases h3 with h3 | h3
      · rcases hb.2.2 with h | h
        · left; rw [h3, h]
        · right; left; rw [h3, h]
      · right; right; exact h3

theorem maxElement_spec {l : List Int} (h : l ≠ []) :
    ∃ x, maxElement l = some x ∧ x ∈ l ∧ ∀ y ∈ l, y ≤ x := by
  cases l with
  | nil => exact absurd rfl h
  | cons a xs =>
    obtain ⟨h1, h2, h3⟩ := foldl_max_ge xs a
    refine ⟨_, rfl, ?_, ?_⟩
    · rcases h3 with h3 | h3
      · rw [h3]; simp
      · exact List.mem_cons_of_mem _ h3
    · intro y hy
      rcases List.mem_cons.mp hy with rfl | hy
      · exact h1
      · exact h2 y hy

/-- Nested strides with extents > 1: at least as spread as a dense box, and dense only if tight. -/
theorem nested_reach : ∀ {ss ls : List Int}, Nested ss ls → (∀ l ∈ ls, 1 < l) →
    Spec.prod ls ≤ reach ss ls + 1 ∧ (reach ss ls + 1 = Spec.prod ls → ss = dense ls)
  | [], [], _, _ => by simp [Spec.prod, reach, dense]
  | s :: ss, l :: ls, h, hl => by
    obtain ⟨i1, i2⟩ := nested_reach h.2 (fun x hx => hl x (List.mem_cons_of_mem _ hx))
    have h1 := h.1
    have hl1 := hl l List.mem_cons_self
    simp only [Spec.prod, reach, dense]
    have e : l * Spec.prod ls = Spec.prod ls * (l - 1) + Spec.prod ls := by
      rw [Int.mul_sub, Int.mul_comm]; omega
    have hm : Spec.prod ls * (l - 1) ≤ s * (l - 1) := Int.mul_le_mul_of_nonneg_right (by omega) (by omega)
    refine ⟨by rw [e]; omega, fun hh => ?_⟩
    rw [e] at hh
    have e1 : s * (l - 1) = Spec.prod ls * (l - 1) := by omega
    have e2 : reach ss ls + 1 = Spec.prod ls := by omega
    have e3 : s = Spec.prod ls := Int.eq_of_mul_eq_mul_right (by omega) e1
    rw [e3, i2 e2]

/-- In a nested list of strides, the first product bounds all, and the reach. -/
theorem nested_first {s l : Int} {ss ls : List Int} (h : Nested (s :: ss) (l :: ls)) (hl : ∀ x ∈ l :: ls, 1 < x) :
    reach (s :: ss) (l :: ls) + 1 ≤ s * l ∧ ∀ p ∈ List.zipWith (· * ·) ss ls, p ≤ s * l := by
  have h1 := h.1
  have hl1 := hl l List.mem_cons_self
  have hr := reach_nonneg_of_nested h.2 (fun x hx => by have := hl x (List.mem_cons_of_mem _ hx); omega)
  have e : s * l = s * (l - 1) + s := by rw [Int.mul_sub]; omega
  refine ⟨by simp only [reach]; omega, ?_⟩
  have key : ∀ {ss ls : List Int}, Nested ss ls → (∀ x ∈ ls, 1 < x) →
      ∀ p ∈ List.zipWith (· * ·) ss ls, p ≤ 2 * reach ss ls := by
    intro ss
    induction ss with
    | nil => intro ls _ _ p hp; simp at hp
    | cons s ss ih =>
      intro ls hn hl p hp
      cases ls with
      | nil => exact hn.elim
      | cons l ls =>
        have hl1 := hl l List.mem_cons_self
        have hr := reach_nonneg_of_nested hn.2 (fun x hx => by have := hl x (List.mem_cons_of_mem _ hx); omega)
        have h1 := hn.1
        have hge : s * 1 ≤ s * (l - 1) := Int.mul_le_mul_of_nonneg_left (by omega) (by omega)
        simp only [List.zipWith_cons_cons, List.mem_cons] at hp
        simp only [reach]
        rcases hp with rfl | hp
        · have e : s * l = s * (l - 1) + s := by rw [Int.mul_sub]; omega
          omega
        · have := ih hn.2 (fun x hx => hl x (List.mem_cons_of_mem _ hx)) p hp
          omega
  intro p hp
  have := key h.2 (fun x hx => hl x (List.mem_cons_of_mem _ hx)) p hp
  have h2 : s * 2 ≤ s * l := Int.mul_le_mul_of_nonneg_left (by omega) (by omega)
  omega

/-- Dropping the unit dimensions of a list of (stride, extent, index) changes nothing. -/
theorem drop_units (so : List Nat) (S L I : Nat → Int) (hL : ∀ k ∈ so, 0 < L k)
    (hI : ∀ k ∈ so, 0 ≤ I k ∧ I k < L k) :
    dot (so.map S) (so.map I) = dot ((so.filter (fun k => decide (1 < L k))).map S) ((so.filter (fun k => decide (1 < L k))).map I) ∧
    Spec.prod (so.map L) = Spec.prod ((so.filter (fun k => decide (1 < L k))).map L) ∧
    InRange ((so.filter (fun k => decide (1 < L k))).map L) ((so.filter (fun k => decide (1 < L k))).map I) := by
  induction so with
  | nil => exact ⟨rfl, rfl, trivial⟩
  | cons k so ih =>
    obtain ⟨i1, i2, i3⟩ := ih (fun j hj => hL j (List.mem_cons_of_mem _ hj)) (fun j hj => hI j (List.mem_cons_of_mem _ hj))
    have h1 := hL k List.mem_cons_self
    have h2 := hI k List.mem_cons_self
    by_cases hk : 1 < L k
    · simp only [List.filter_cons, hk, decide_true, if_true, List.map_cons, dot, Spec.prod, InRange, i1, i2, true_and]
      exact ⟨h2, i3⟩
    · have e1 : L k = 1 := by omega
      have e2 : I k = 0 := by omega
      simp only [List.filter_cons, hk, decide_false, Bool.false_eq_true, if_false, List.map_cons, dot, Spec.prod, i1, i2]
      rw [e1, e2]
      exact ⟨by omega, by omega, i3⟩

theorem isContiguous_eq {m : IdxMap} (hw : WF m) (h0 : m.len ≠ []) (hsz : Spec.prod m.len ≠ 0) :
    ∃ x, x ∈ List.zipWith (· * ·) m.str m.len ∧ (∀ y ∈ List.zipWith (· * ·) m.str m.len, y ≤ x) ∧
      m.isContiguous = some (decide (x = Spec.prod m.len)) := by
  have hne : m.strTimesLen ≠ [] := by
    intro h
    apply h0
    have := congrArg List.length h
    simp only [strTimesLen, List.length_zipWith, List.length_nil, hw.str_len, Nat.min_self] at this
    exact List.eq_nil_of_length_eq_zero this
  obtain ⟨x, h1, h2, h3⟩ := maxElement_spec hne
  refine ⟨x, h2, h3, ?_⟩
  simp [isContiguous, size_eq, hsz, h1]

/-- The dimensions of extent > 1 in memory order. -/
def bigs (m : IdxMap) : List Nat := m.so.filter (fun k => decide (1 < m.len.getD k 0))

theorem regular_bigs {m : IdxMap} (hr : Regular m) (hp : BigPos m) :
    Nested ((bigs m).map (fun k => m.str.getD k 0)) ((bigs m).map (fun k => m.len.getD k 0)) := by
  unfold Regular at hr
  rw [(bigDims_eq m).1, (bigDims_eq m).2] at hr
  have : (bigs m).map (fun k => ((m.str.getD k 0).natAbs : Int)) = (bigs m).map (fun k => m.str.getD k 0) := by
    apply List.map_congr_left
    intro k hk
    have := hp k (by simpa using (List.mem_filter.mp hk).2)
    omega
  rw [← this]; exact hr

theorem bigs_gt {m : IdxMap} : ∀ l ∈ (bigs m).map (fun k => m.len.getD k 0), 1 < l := by
  intro l hl
  obtain ⟨k, hk, rfl⟩ := List.mem_map.mp hl
  simpa using (List.mem_filter.mp hk).2

theorem mem_products {m : IdxMap} (hw : WF m) {y : Int} :
    y ∈ List.zipWith (· * ·) m.str m.len ↔ ∃ k, k < m.len.length ∧ y = m.str.getD k 0 * m.len.getD k 0 := by
  rw [List.mem_iff_getElem]
  constructor
  · rintro ⟨k, hk, rfl⟩
    simp only [List.length_zipWith, hw.str_len, Nat.min_self] at hk
    refine ⟨k, hk, ?_⟩
    simp [hk, hw.str_len]
  · rintro ⟨k, hk, rfl⟩
    refine ⟨k, by simpa [hw.str_len] using hk, ?_⟩
    simp [hk, hw.str_len]

theorem mem_bigs {m : IdxMap} (hw : WF m) {k : Nat} (hk : k < m.len.length) (h : 1 < m.len.getD k 0) : k ∈ bigs m := by
  refine List.mem_filter.mpr ⟨(IsPerm.mem_iff hw.perm).mpr (by rw [hw.so_len]; exact hk), by simpa using h⟩

theorem prod_bigs {m : IdxMap} (hw : WF m) (hpos : ∀ l ∈ m.len, 0 < l) :
    Spec.prod m.len = Spec.prod ((bigs m).map (fun k => m.len.getD k 0)) := by
  rw [← prod_memOrder hw.perm hw.so_len.symm]
  have hL : ∀ k ∈ m.so, 0 < m.len.getD k 0 := by
    intro k hk
    have hk' : k < m.len.length := by have := IsPerm.lt hw.perm hk; rw [hw.so_len] at this; exact this
    apply hpos
    simp [hk']
  exact (drop_units m.so (fun k => m.str.getD k 0) (fun k => m.len.getD k 0) (fun _ => 0) hL
    (fun k hk => ⟨Int.le_refl _, hL k hk⟩)).2.1

/-- Offsets only depend on the dimensions of extent > 1. -/
theorem offset_bigs {m : IdxMap} (hw : WF m) {idx : List Int} (hi : InRange m.len idx) :
    Spec.offset m idx = dot ((bigs m).map (fun k => m.str.getD k 0)) ((bigs m).map (fun k => idx.getD k 0)) ∧
    InRange ((bigs m).map (fun k => m.len.getD k 0)) ((bigs m).map (fun k => idx.getD k 0)) := by
  have hil := hi.length_eq
  have hpos := hi.nonneg_len
  have hL : ∀ k ∈ m.so, 0 < m.len.getD k 0 := by
    intro k hk
    have hk' : k < m.len.length := by have := IsPerm.lt hw.perm hk; rw [hw.so_len] at this; exact this
    apply hpos
    simp [hk']
  have hI : ∀ k ∈ m.so, 0 ≤ idx.getD k 0 ∧ idx.getD k 0 < m.len.getD k 0 := by
    intro k hk
    have hk' : k < m.len.length := by have := IsPerm.lt hw.perm hk; rw [hw.so_len] at this; exact this
    have := (inRange_iff.mp hi).2 k hk'
    simpa [hk', hil] using this
  obtain ⟨d1, d2, d3⟩ := drop_units m.so (fun k => m.str.getD k 0) (fun k => m.len.getD k 0) (fun k => idx.getD k 0) hL hI
  refine ⟨?_, d3⟩
  rw [Spec.offset, ← dot_memOrder hw.perm (by rw [hw.str_len, hw.so_len]) (by rw [hil, hw.so_len])]
  exact d1

/-- Any index tuple of the dimensions of extent > 1 extends to one of the array. -/
theorem extend_bigs {m : IdxMap} (hw : WF m) (hpos : ∀ l ∈ m.len, 0 < l) {y : List Int}
    (hy : InRange ((bigs m).map (fun k => m.len.getD k 0)) y) :
    ∃ idx, InRange m.len idx ∧ (bigs m).map (fun k => idx.getD k 0) = y := by
  have hnd : (bigs m).Nodup := List.Nodup.filter _ (IsPerm.nodup hw.perm)
  obtain ⟨hyl, hyr⟩ := inRange_iff.mp hy
  simp only [List.length_map] at hyl hyr
  have hlt : ∀ k ∈ bigs m, k < m.len.length := by
    intro k hk
    have := IsPerm.lt hw.perm (List.mem_filter.mp hk).1
    rw [hw.so_len] at this; exact this
  have hg : ∀ k, k < m.len.length → ((List.range m.len.length).map (fun k => if k ∈ bigs m then y.getD ((bigs m).idxOf k) 0 else 0)).getD k 0 =
      if k ∈ bigs m then y.getD ((bigs m).idxOf k) 0 else 0 := by
    intro k hk; simp [hk]
  refine ⟨(List.range m.len.length).map (fun k => if k ∈ bigs m then y.getD ((bigs m).idxOf k) 0 else 0), ?_, ?_⟩
  · rw [inRange_iff]
    refine ⟨by simp, fun k hk => ?_⟩
    rw [hg k hk]
    by_cases hb : k ∈ bigs m
    · rw [if_pos hb]
      have hix := List.idxOf_lt_length_of_mem hb
      have := hyr _ hix
      simpa [List.getElem?_eq_getElem hix, List.getElem_idxOf hix] using this
    · rw [if_neg hb]
      exact ⟨Int.le_refl _, hpos _ (by simp [hk])⟩
  · apply List.ext_getElem (by simp [hyl])
    intro i h1 h2
    simp only [List.length_map] at h1
    rw [List.getElem_map, hg _ (hlt _ (List.getElem_mem h1)), if_pos (List.getElem_mem h1), hnd.idxOf_getElem i h1]
    simp [h2]

end Nda.IdxMap
