import Verif.Lemmas.SliceFlags
import Verif.Model.GroupIndices
import Verif.Spec.Groups
/-!
# Lemmas on grouping of dimensions
-/
namespace Nda.GroupIndices
open Nda Nda.Spec Nda.Perm Nda.IdxMap

theorem foldl_maxr : ∀ (vs : List Nat) (a : Nat), (vs.foldl (fun M v => if v > M then v else M) a) ∈ a :: vs ∧
    ∀ v ∈ a :: vs, v ≤ vs.foldl (fun M v => if v > M then v else M) a
  | [], a => by simp
  | v :: vs, a => by
    simp only [List.foldl_cons]
    obtain ⟨h1, h2⟩ := foldl_maxr vs (if v > a then v else a)
    generalize vs.foldl (fun M v => if v > M then v else M) (if v > a then v else a) = x at *
    split at h1 <;> split at h2 <;> first | omega | skip
    all_goals
      have h3 := h2 _ List.mem_cons_self
      refine ⟨?_, ?_⟩
      · simp only [List.mem_cons] at h1 ⊢; tauto
      · intro w hw
        simp only [List.mem_cons] at hw
        rcases hw with rfl | rfl | hw
        · omega
        · omega
        · exact h2 w (List.mem_cons_of_mem _ hw)

theorem foldl_minr : ∀ (vs : List Nat) (a : Nat), (vs.foldl (fun m v => if v < m then v else m) a) ∈ a :: vs ∧
    ∀ v ∈ a :: vs, vs.foldl (fun m v => if v < m then v else m) a ≤ v
  | [], a => by simp
  | v :: vs, a => by
    simp only [List.foldl_cons]
    obtain ⟨h1, h2⟩ := foldl_minr vs (if v < a then v else a)
    generalize vs.foldl (fun m v => if v < m then v else m) (if v < a then v else a) = x at *
    split at h1 <;> split at h2 <;> first | omega | skip
    all_goals
      have h3 := h2 _ List.mem_cons_self
      refine ⟨?_, ?_⟩
      · simp only [List.mem_cons] at h1 ⊢; tauto
      · intro w hw
        simp only [List.mem_cons] at hw
        rcases hw with rfl | rfl | hw
        · omega
        · omega
        · exact h2 w (List.mem_cons_of_mem _ hw)

theorem foldl_min_spec : ∀ (vs : List Int) (a : Int), (vs.foldl (fun s x => min s x) a) ∈ a :: vs ∧
    ∀ v ∈ a :: vs, vs.foldl (fun s x => min s x) a ≤ v
  | [], a => by simp
  | v :: vs, a => by
    simp only [List.foldl_cons]
    obtain ⟨h1, h2⟩ := foldl_min_spec vs (min a v)
    generalize vs.foldl (fun s x => min s x) (min a v) = x at *
    have h3 := h2 _ List.mem_cons_self
    refine ⟨?_, ?_⟩
    · simp only [List.mem_cons] at h1 ⊢
      rcases h1 with h1 | h1
      · omega
      · exact Or.inr (Or.inr h1)
    · intro w hw
      simp only [List.mem_cons] at hw
      rcases hw with rfl | rfl | hw
      · omega
      · omega
      · exact h2 w (List.mem_cons_of_mem _ hw)

/-! ## The partition test -/

theorem countLoop_ok (R : Nat) (xs : List Nat) (c : List Nat) (hc : c.length = R) (hx : ∀ x ∈ xs, x < R) :
    ∃ c', countLoop R (xs.map Int.ofNat) c = some c' ∧ c'.length = R ∧ ∀ k, k < R → c'[k]? = (c[k]?).map (· + xs.count k) := by
  induction xs generalizing c with
  | nil => exact ⟨c, rfl, hc, fun k hk => by simp⟩
  | cons x xs ih =>
    have hxR := hx x List.mem_cons_self
    have h1 : rdInt c (Int.ofNat x) = some c[x] := by
      simp only [rdInt, Int.ofNat_eq_natCast]
      rw [if_pos (by omega)]
      simp [hc, hxR]
    have h2 : wrInt c (Int.ofNat x) (c[x] + 1) = some (c.set x (c[x] + 1)) := by
      simp only [wrInt, Int.ofNat_eq_natCast]
      rw [if_pos (by omega)]
      simp [wr, hc, hxR]
    obtain ⟨c', g1, g2, g3⟩ := ih (c.set x (c[x] + 1)) (by simpa using hc) (fun y hy => hx y (List.mem_cons_of_mem _ hy))
    refine ⟨c', ?_, g2, ?_⟩
    · simp only [List.map_cons, countLoop]
      rw [if_neg (by simp), if_neg (by simp; omega), h1]
      simp only [Option.bind_eq_bind, Option.bind_some, h2, g1]
    · intro k hk
      rw [g3 k hk, List.getElem?_set]
      by_cases hkx : x = k
      · subst hkx
        simp [hc, hk]; omega
      · simp [hkx]

theorem countLoop_bad (R : Nat) (xs : List Nat) (c : List Nat) (x : Nat) (hm : x ∈ xs) (hx : R ≤ x) :
    countLoop R (xs.map Int.ofNat) c = none := by
  induction xs generalizing c with
  | nil => simp at hm
  | cons y xs ih =>
    simp only [List.map_cons, countLoop]
    rw [if_neg (by simp)]
    by_cases hy : R ≤ y
    · rw [if_pos (by simp; omega)]
    · rw [if_neg (by simp; omega)]
      have hm' : x ∈ xs := by
        rcases List.mem_cons.mp hm with rfl | h
        · omega
        · exact h
      cases h1 : rdInt c (Int.ofNat y) with
      | none => rfl
      | some k =>
        simp only [Option.bind_eq_bind, Option.bind_some]
        cases h2 : wrInt c (Int.ofNat y) (k + 1) with
        | none => rfl
        | some c' => simp only [Option.bind_some]; exact ih c' hm'

theorem isPartition_iff (R : Nat) (grps : List (List Nat)) :
    isPartition R grps = some true ↔ Partitions R grps := by
  unfold isPartition Partitions
  rw [← List.length_flatten]
  simp only
  constructor
  · intro h
    split at h
    · cases h
    split at h
    · cases h
    have hl : grps.flatten.length = R := by omega
    by_cases hx : ∀ x ∈ grps.flatten, x < R
    · obtain ⟨c', g1, g2, g3⟩ := countLoop_ok R grps.flatten (mkInit R 0) (by simp [mkInit]) hx
      rw [g1] at h
      simp only [Option.bind_eq_bind, Option.bind_some, Option.pure_def, Option.some.injEq, decide_eq_true_eq] at h
      have hlt : ∀ k, k < R → grps.flatten.count k = 1 := by
        intro k hk
        have := g3 k hk
        rw [h] at this
        simp [mkInit, hk] at this
        omega
      refine (List.perm_iff_count.mpr fun k => ?_)
      by_cases hk : k < R
      · rw [hlt k hk]
        exact (List.count_eq_one_of_mem List.nodup_range (List.mem_range.mpr hk)).symm
      · rw [List.count_eq_zero_of_not_mem (fun h' => hk (hx k h')),
          List.count_eq_zero_of_not_mem (fun h' => hk (List.mem_range.mp h'))]
    · push Not at hx
      obtain ⟨x, hm, hx⟩ := hx
      rw [countLoop_bad R _ _ x hm hx] at h
      cases h
  · intro h
    have hl : grps.flatten.length = R := by rw [h.length_eq]; simp
    have hx : ∀ x ∈ grps.flatten, x < R := fun x hx => List.mem_range.mp (h.mem_iff.mp hx)
    rw [if_neg (by omega), if_neg (by omega)]
    obtain ⟨c', g1, g2, g3⟩ := countLoop_ok R grps.flatten (mkInit R 0) (by simp [mkInit]) hx
    rw [g1]
    simp only [Option.bind_eq_bind, Option.bind_some, Option.pure_def, Option.some.injEq, decide_eq_true_eq]
    apply List.ext_getElem?
    intro k
    by_cases hk : k < R
    · rw [g3 k hk, h.count_eq, List.count_eq_one_of_mem List.nodup_range (List.mem_range.mpr hk)]
      simp [mkInit, hk]
    · rw [List.getElem?_eq_none (by omega), List.getElem?_eq_none (by simp [mkInit]; omega)]

/-! ## Memory positions -/

/-- `r` is the position map of `so`. -/
structure PosOf (so r : List Nat) : Prop where
  perm : IsPerm so
  len : r.length = so.length
  pos : ∀ u, ∀ hu : u < so.length, r[so[u]]? = some u

theorem PosOf.getD {so r : List Nat} (h : PosOf so r) {u : Nat} (hu : u < so.length) : r.getD so[u] 0 = u := by
  rw [List.getD_eq_getElem?_getD, h.pos u hu]; rfl

theorem PosOf.map_so {so r : List Nat} (h : PosOf so r) : so.map (fun k => r.getD k 0) = List.range so.length := by
  apply List.ext_getElem (by simp)
  intro u hu hu'
  simp only [List.getElem_map, List.getElem_range]
  exact h.getD (by simpa using hu)

theorem PosOf.so_pos {so r : List Nat} (h : PosOf so r) {k : Nat} (hk : k < so.length) :
    so[r.getD k 0]? = some k ∧ r.getD k 0 < so.length := by
  obtain ⟨u, hu, e⟩ := IsPerm.exists_idx h.perm hk
  subst e
  rw [h.getD hu]
  exact ⟨List.getElem?_eq_getElem hu, hu⟩

theorem PosOf.inj {so r : List Nat} (h : PosOf so r) {j k : Nat} (hj : j < so.length) (hk : k < so.length)
    (e : r.getD j 0 = r.getD k 0) : j = k := by
  have h1 := (h.so_pos hj).1
  have h2 := (h.so_pos hk).1
  rw [e, h2] at h1
  simpa using h1.symm

theorem rd_mapM {so r : List Nat} (h : PosOf so r) {g : List Nat} (hg : ∀ k ∈ g, k < so.length) :
    g.mapM (fun k => rd r k) = some (g.map (fun k => r.getD k 0)) := by
  obtain ⟨x, h1, h2, h3⟩ := mapM_rd r g (fun k hk => by rw [h.len]; exact hg k hk)
  rw [h1]; congr 1
  apply List.ext_getElem? 
  intro u
  by_cases hu : u < g.length
  · rw [h3 u hu, List.getElem?_map, List.getElem?_eq_getElem hu, Option.map_some, List.getD_eq_getElem?_getD,
      List.getElem?_eq_getElem (show g[u] < r.length by rw [h.len]; exact hg _ (List.getElem_mem hu))]
    rfl
  · rw [List.getElem?_eq_none (by omega), List.getElem?_eq_none (by simp; omega)]

/-- The group lies at the memory positions `s, s+1, ...`. -/
def AtPos (r : List Nat) (g : List Nat) (s : Nat) : Prop :=
  (g.map (fun k => r.getD k 0)).Perm (List.range' s g.length)

theorem minMemPos_iff {so r g : List Nat} (h : PosOf so r) (hg : ∀ k ∈ g, k < so.length) (hn : g.Nodup) (hne : g ≠ []) (s : Nat) :
    minMemPos so.length r g = some s ↔ AtPos r g s := by
  unfold minMemPos
  rw [rd_mapM h hg]
  simp only [Option.bind_eq_bind, Option.bind_some]
  have hvne : g.map (fun k => r.getD k 0) ≠ [] := by simpa using hne
  have hvlt : ∀ v ∈ g.map (fun k => r.getD k 0), v < so.length := by
    intro v hv
    obtain ⟨k, hk, rfl⟩ := List.mem_map.mp hv
    exact (h.so_pos (hg k hk)).2
  have hvn : (g.map (fun k => r.getD k 0)).Nodup := by
    apply List.Nodup.map_on _ hn
    intro a ha b hb e
    exact h.inj (hg a ha) (hg b hb) e
  have hvl : (g.map (fun k => r.getD k 0)).length = g.length := by simp
  have hAt : AtPos r g s ↔ (g.map (fun k => r.getD k 0)).Perm (List.range' s g.length) := Iff.rfl
  rw [hAt]
  generalize g.map (fun k => r.getD k 0) = vs at *
  rw [← hvl]
  obtain ⟨M1, M2⟩ := foldl_maxr vs 0
  obtain ⟨m1, m2⟩ := foldl_minr vs so.length
  generalize vs.foldl (fun M v => if v > M then v else M) 0 = M at *
  generalize vs.foldl (fun m v => if v < m then v else m) so.length = m at *
  obtain ⟨v0, hv0⟩ := List.exists_mem_of_ne_nil vs hvne
  have hmv : m ∈ vs := by
    rcases List.mem_cons.mp m1 with e | e
    · have := m2 v0 (List.mem_cons_of_mem _ hv0); have := hvlt v0 hv0; omega
    · exact e
  have hmM : m ≤ M := by have := M2 m (List.mem_cons_of_mem _ hmv); omega
  have hMv : M ∈ vs := by
    rcases List.mem_cons.mp M1 with e | e
    · have h0 := M2 m (List.mem_cons_of_mem _ hmv); have : M = m := by omega
      rw [this]; exact hmv
    · exact e
  have hsub : vs ⊆ List.range' m (M - m + 1) := by
    intro v hv
    have a1 := M2 v (List.mem_cons_of_mem _ hv)
    have a2 := m2 v (List.mem_cons_of_mem _ hv)
    rw [List.mem_range'_1]; omega
  constructor
  · intro h1
    split at h1
    · rename_i hc
      obtain rfl : m = s := by simpa using h1
      have e : vs.length = M - m + 1 := by omega
      rw [e]
      exact (List.subperm_of_subset hvn hsub).perm_of_length_le (by simp [e])
    · cases h1
  · intro hp
    have hmem : ∀ v, v ∈ vs ↔ s ≤ v ∧ v < s + vs.length := fun v => by rw [hp.mem_iff, List.mem_range'_1]
    have hpos : 0 < vs.length := List.length_pos_iff.mpr hvne
    have b1 := m2 s (List.mem_cons_of_mem _ ((hmem s).mpr (by omega)))
    have b2 := (hmem m).mp hmv
    have b3 := M2 (s + vs.length - 1) (List.mem_cons_of_mem _ ((hmem _).mpr (by omega)))
    have b4 := (hmem M).mp hMv
    rw [if_pos (by omega)]
    show some m = some s
    congr 1; omega

/-- A group at consecutive positions is a piece of the stride order. -/
theorem atPos_block {so r g : List Nat} (h : PosOf so r) (hg : ∀ k ∈ g, k < so.length) {s : Nat} (ha : AtPos r g s) :
    block so g = (so.drop s).take g.length ∧ s + g.length ≤ so.length ∨ g = [] := by
  by_cases hne : g = []
  · exact Or.inr hne
  left
  have hmem : ∀ v, v ∈ g.map (fun k => r.getD k 0) ↔ s ≤ v ∧ v < s + g.length := fun v => by
    rw [ha.mem_iff, List.mem_range'_1]
  have hpos : 0 < g.length := List.length_pos_iff.mpr hne
  have hbd : s + g.length ≤ so.length := by
    obtain ⟨k, hk, e⟩ := List.mem_map.mp ((hmem (s + g.length - 1)).mpr (by omega))
    have := (h.so_pos (hg k hk)).2
    omega
  refine ⟨?_, hbd⟩
  have hin : ∀ u, ∀ hu : u < so.length, so[u] ∈ g ↔ s ≤ u ∧ u < s + g.length := by
    intro u hu
    rw [← hmem u]
    constructor
    · intro hm; exact List.mem_map.mpr ⟨so[u], hm, h.getD hu⟩
    · intro hm
      obtain ⟨k, hk, e⟩ := List.mem_map.mp hm
      have : k = so[u] := h.inj (hg k hk) (IsPerm.getElem_lt h.perm hu) (by rw [e, h.getD hu])
      rwa [← this]
  have hsplit : so = so.take s ++ ((so.drop s).take g.length ++ (so.drop s).drop g.length) := by
    rw [List.take_append_drop, List.take_append_drop]
  unfold block
  conv_lhs => rw [hsplit]
  rw [List.filter_append, List.filter_append]
  have e1 : (so.take s).filter (fun k => decide (k ∈ g)) = [] := by
    rw [List.filter_eq_nil_iff]
    intro k hk
    obtain ⟨u, hu, rfl⟩ := List.mem_iff_getElem.mp hk
    simp only [List.length_take] at hu
    simp only [List.getElem_take, decide_eq_true_eq]
    rw [hin u (by omega)]; omega
  have e2 : ((so.drop s).take g.length).filter (fun k => decide (k ∈ g)) = (so.drop s).take g.length := by
    rw [List.filter_eq_self]
    intro k hk
    obtain ⟨u, hu, rfl⟩ := List.mem_iff_getElem.mp hk
    simp only [List.length_take, List.length_drop] at hu
    simp only [List.getElem_take, List.getElem_drop, decide_eq_true_eq]
    rw [hin (s + u) (by omega)]; omega
  have e3 : ((so.drop s).drop g.length).filter (fun k => decide (k ∈ g)) = [] := by
    rw [List.filter_eq_nil_iff]
    intro k hk
    obtain ⟨u, hu, rfl⟩ := List.mem_iff_getElem.mp hk
    simp only [List.length_drop] at hu
    simp only [List.getElem_drop, decide_eq_true_eq]
    rw [hin (s + (g.length + u)) (by omega)]; omega
  rw [e1, e2, e3]; simp

theorem block_perm {so g : List Nat} (hp : IsPerm so) (hg : ∀ k ∈ g, k < so.length) (hn : g.Nodup) : (block so g).Perm g := by
  apply (List.perm_ext_iff_of_nodup ((IsPerm.nodup hp).filter _) hn).mpr
  intro k
  simp only [List.mem_filter, decide_eq_true_eq]
  constructor
  · exact fun h => h.2
  · exact fun h => ⟨(IsPerm.mem_iff hp).mpr (hg k h), h⟩

theorem adjacent_iff {so r g : List Nat} (h : PosOf so r) (hg : ∀ k ∈ g, k < so.length) (hn : g.Nodup) (hne : g ≠ []) :
    Adjacent so g ↔ ∃ s, AtPos r g s := by
  constructor
  · rintro ⟨a, c, e⟩
    refine ⟨a.length, ?_⟩
    have hb := block_perm h.perm hg hn
    have hl := hb.length_eq
    generalize block so g = b at *
    subst e
    refine (hb.symm.map _).trans ?_
    rw [← hl]
    apply List.Perm.of_eq
    apply List.ext_getElem (by simp)
    intro u hu hu'
    simp only [List.length_map] at hu
    have := h.getD (u := a.length + u) (by simp; omega)
    rw [List.getElem_append_left (by simp; omega), List.getElem_append_right (by omega)] at this
    simpa using this
  · rintro ⟨s, ha⟩
    rcases atPos_block h hg ha with ⟨e, _⟩ | e
    · unfold Adjacent
      rw [e]
      exact (List.take_prefix _ _).isInfix.trans (List.drop_suffix _ _).isInfix
    · exact absurd e hne

/-! ## The new stride order -/

theorem countP_lt_mono {l : List Nat} {x y : Nat} (hx : x ∈ l) (h : x < y) :
    l.countP (fun m => decide (m < x)) < l.countP (fun m => decide (m < y)) := by
  induction l with
  | nil => simp at hx
  | cons a l ih =>
    have hle : ∀ l : List Nat, l.countP (fun m => decide (m < x)) ≤ l.countP (fun m => decide (m < y)) := by
      intro l
      apply List.countP_mono_left
      intro m _ hm
      simp only [decide_eq_true_eq] at hm ⊢; omega
    rcases List.mem_cons.mp hx with rfl | hx
    · have := hle l
      simp only [List.countP_cons, Nat.lt_irrefl, decide_false, h, decide_true, if_true]
      simp; omega
    · have := ih hx
      simp only [List.countP_cons, decide_eq_true_eq]
      split <;> split <;> omega

theorem countP_lt_length {l : List Nat} {x : Nat} (hx : x ∈ l) : l.countP (fun m => decide (m < x)) < l.length := by
  have h1 := List.length_eq_countP_add_countP (fun m => decide (m < x)) (l := l)
  have h2 : 0 < l.countP (fun m => !decide (m < x)) := List.countP_pos_iff.mpr ⟨x, hx, by simp⟩
  simp only [Bool.not_eq_true] at h1
  have h3 : (l.countP fun a => decide (decide (a < x) = false)) = l.countP (fun m => !decide (m < x)) := by
    congr 1; funext m; by_cases h : m < x <;> simp [h]
  omega

theorem ranks_perm {l : List Nat} (hn : l.Nodup) : IsPerm (l.map (fun x => l.countP (fun m => decide (m < x)))) := by
  apply isPerm_of_nodup_lt
  · apply List.Nodup.map_on _ hn
    intro x hx y hy e
    rcases Nat.lt_trichotomy x y with h | h | h
    · have := countP_lt_mono hx h; omega
    · exact h
    · have := countP_lt_mono hy h; omega
  · intro k hk
    obtain ⟨x, hx, rfl⟩ := List.mem_map.mp hk
    simpa using countP_lt_length hx

theorem atPos_mem {so r g : List Nat} (_h : PosOf so r) {s k : Nat} (ha : AtPos r g s) (hk : k ∈ g) :
    s ≤ r.getD k 0 ∧ r.getD k 0 < s + g.length := by
  have := ha.mem_iff.mp (List.mem_map.mpr ⟨k, hk, rfl⟩)
  rwa [List.mem_range'_1] at this

theorem atPos_at {r g : List Nat} {s u : Nat} (ha : AtPos r g s) (h1 : s ≤ u) (h2 : u < s + g.length) : ∃ k ∈ g, r.getD k 0 = u := by
  have := ha.mem_iff.mpr (List.mem_range'_1.mpr ⟨h1, h2⟩)
  exact List.mem_map.mp this

/-- Disjoint groups: the one that starts later starts after the end of the other. -/
theorem atPos_disjoint {so r g g' : List Nat} (h : PosOf so r) (hg : ∀ k ∈ g, k < so.length) (hg' : ∀ k ∈ g', k < so.length)
    (hd : ∀ k ∈ g, k ∉ g') (hne : g' ≠ []) {s s' : Nat} (ha : AtPos r g s) (ha' : AtPos r g' s') (hs : s ≤ s') : s + g.length ≤ s' := by
  by_contra hc
  have hpos : 0 < g'.length := List.length_pos_iff.mpr hne
  obtain ⟨k, hk, e⟩ := atPos_at ha hs (by omega)
  obtain ⟨k', hk', e'⟩ := atPos_at ha' (Nat.le_refl s') (by omega)
  have : k = k' := h.inj (hg k hk) (hg' k' hk') (by rw [e, e'])
  subst this
  exact hd k hk hk'

theorem groupedOrder_spec {so r : List Nat} (h : PosOf so r) (hr : inverse so = some r) {grps : List (List Nat)} (hP : Partitions so.length grps)
    (hne : ∀ g ∈ grps, g ≠ []) (hA : ∀ g ∈ grps, Adjacent so g) :
    ∃ q, groupedOrder so grps = some q ∧ IsPerm q ∧ q.length = grps.length ∧
      (q.map (fun i => block so (grps.getD i []))).flatten = so := by
  have hlt : ∀ g ∈ grps, ∀ k ∈ g, k < so.length := fun g hg k hk =>
    List.mem_range.mp (hP.mem_iff.mp (List.mem_flatten.mpr ⟨g, hg, hk⟩))
  obtain ⟨hnd, hdis⟩ := List.nodup_flatten.mp (hP.nodup_iff.mpr List.nodup_range)
  have hmin : ∀ g ∈ grps, ∃ s, minMemPos so.length r g = some s ∧ AtPos r g s := by
    intro g hg
    obtain ⟨s, hs⟩ := (adjacent_iff h (hlt g hg) (hnd g hg) (hne g hg)).mp (hA g hg)
    exact ⟨s, (minMemPos_iff h (hlt g hg) (hnd g hg) (hne g hg) s).mpr hs, hs⟩
  have hmins : ∃ ss, grps.mapM (minMemPos so.length r) = some ss ∧ ss.length = grps.length ∧
      ∀ i, i < grps.length → AtPos r (grps.getD i []) (ss.getD i 0) := by
    clear hP hA hdis
    induction grps with
    | nil => exact ⟨[], rfl, rfl, by simp⟩
    | cons g gs ih =>
      obtain ⟨ss, e1, e2, e3⟩ := ih (fun g hg => hne g (List.mem_cons_of_mem _ hg)) (fun g hg => hlt g (List.mem_cons_of_mem _ hg))
        (fun g hg => hnd g (List.mem_cons_of_mem _ hg)) (fun g hg => hmin g (List.mem_cons_of_mem _ hg))
      obtain ⟨s, s1, s2⟩ := hmin g List.mem_cons_self
      refine ⟨s :: ss, by simp [List.mapM_cons, s1, e1], by simp [e2], ?_⟩
      intro i hi
      cases i with
      | zero => simpa using s2
      | succ i => simpa using e3 i (by simpa using hi)
  obtain ⟨ss, e1, e2, e3⟩ := hmins
  have hgm : ∀ i, i < grps.length → grps.getD i [] ∈ grps := by
    intro i hi
    rw [List.getD_eq_getElem?_getD, List.getElem?_eq_getElem hi]; exact List.getElem_mem hi
  have hdisj : ∀ i j, i < grps.length → j < grps.length → i ≠ j → ∀ k ∈ grps.getD i [], k ∉ grps.getD j [] := by
    intro i j hi hj hij k hk hk'
    rw [List.getD_eq_getElem?_getD, List.getElem?_eq_getElem hi] at hk
    rw [List.getD_eq_getElem?_getD, List.getElem?_eq_getElem hj] at hk'
    rw [List.pairwise_iff_getElem] at hdis
    rcases Nat.lt_or_gt_of_ne hij with c | c
    · exact hdis i j hi hj c hk hk'
    · exact hdis j i hj hi c hk' hk
  have hapart : ∀ i j, i < grps.length → j < grps.length → i ≠ j → ss.getD i 0 ≤ ss.getD j 0 →
      ss.getD i 0 + (grps.getD i []).length ≤ ss.getD j 0 := by
    intro i j hi hj hij hle
    exact atPos_disjoint h (hlt _ (hgm i hi)) (hlt _ (hgm j hj)) (hdisj i j hi hj hij) (hne _ (hgm j hj)) (e3 i hi) (e3 j hj) hle
  have hgpos : ∀ i, i < grps.length → 0 < (grps.getD i []).length := fun i hi => List.length_pos_iff.mpr (hne _ (hgm i hi))
  have hssn : ss.Nodup := by
    rw [List.nodup_iff_injective_getElem]
    intro ⟨i, hi⟩ ⟨j, hj⟩ hij
    simp only at hij
    by_contra hc
    have hc' : i ≠ j := fun e => hc (by subst e; rfl)
    have e : ss.getD i 0 = ss.getD j 0 := by simp [List.getD_eq_getElem?_getD, hi, hj, hij]
    have := hapart i j (by omega) (by omega) hc' (by omega)
    have := hgpos i (by omega)
    omega
  have hout := ranks_perm hssn
  obtain ⟨q, q1, q2, q3⟩ := inverse_spec _ hout
  have hq := isPerm_of_leftInv hout q2 q3
  simp only [List.length_map] at q2 q3
  refine ⟨q, by simp [groupedOrder, hr, e1, q1], hq, by omega, ?_⟩
  have hqlt : ∀ i ∈ q, i < grps.length := fun i hi => by have := IsPerm.lt hq hi; omega
  -- positions increase along the stride order
  have hso : so.Pairwise (fun a b => r.getD a 0 < r.getD b 0) := by
    rw [← List.pairwise_map (f := fun k => r.getD k 0) (R := (· < ·)), h.map_so]
    exact List.pairwise_lt_range
  have hpw : (q.map (fun i => block so (grps.getD i []))).flatten.Pairwise (fun a b => r.getD a 0 < r.getD b 0) := by
    rw [List.pairwise_flatten]
    constructor
    · intro l hl
      obtain ⟨i, _, rfl⟩ := List.mem_map.mp hl
      exact hso.filter _
    · rw [List.pairwise_map, List.pairwise_iff_getElem]
      intro a b ha hb hab x hx y hy
      have hbx : x ∈ grps.getD q[a] [] := by simpa [block] using (List.mem_filter.mp hx).2
      have hby : y ∈ grps.getD q[b] [] := by simpa [block] using (List.mem_filter.mp hy).2
      have hqa := hqlt _ (List.getElem_mem ha)
      have hqb := hqlt _ (List.getElem_mem hb)
      have key : ∀ a, ∀ ha : a < q.length, ss.countP (fun m => decide (m < ss.getD q[a] 0)) = a := by
        intro a ha
        obtain ⟨i, hi, e⟩ := IsPerm.exists_idx hout (k := a) (by simp; omega)
        simp only [List.length_map] at hi
        have := q3 i hi
        rw [e, List.getElem?_eq_getElem ha] at this
        have hqi : q[a] = i := by simpa using this
        rw [hqi]
        simp only [List.getElem_map] at e
        rw [List.getD_eq_getElem?_getD, List.getElem?_eq_getElem hi]
        exact e
      have hss : ss.getD q[a] 0 < ss.getD q[b] 0 := by
        by_contra hc
        have ka := key a ha
        have kb := key b hb
        have : ss.countP (fun m => decide (m < ss.getD q[b] 0)) ≤ ss.countP (fun m => decide (m < ss.getD q[a] 0)) := by
          apply List.countP_mono_left
          intro m _ hm
          simp only [decide_eq_true_eq] at hm ⊢; omega
        omega
      have hne' : q[a] ≠ q[b] := fun e => by rw [e] at hss; omega
      have := hapart _ _ hqa hqb hne' (by omega)
      have := atPos_mem h (e3 _ hqa) hbx
      have := atPos_mem h (e3 _ hqb) hby
      omega
  have hperm : (q.map (fun i => block so (grps.getD i []))).flatten.Perm so := by
    have hrange : q.Perm (List.range grps.length) := by rw [show grps.length = q.length by omega]; exact hq
    refine ((hrange.map _).flatten).trans ?_
    have he : (List.range grps.length).map (fun i => block so (grps.getD i [])) = grps.map (block so) := by
      apply List.ext_getElem (by simp)
      intro u hu hu'
      simp only [List.length_map, List.length_range] at hu
      simp [List.getElem?_eq_getElem hu]
    rw [he, ← List.flatMap_def]
    refine (List.Perm.flatMap_left (g := id) grps (fun g hg => block_perm h.perm (hlt g hg) (hnd g hg))).trans ?_
    rw [List.flatMap_id]
    exact hP.trans h.perm.symm
  exact hperm.eq_of_pairwise (fun a b _ _ h1 h2 => by omega) hpw hso

/-! ## Strides and merged indices -/

theorem lin_append : ∀ (a b i j : List Int), i.length = a.length → lin (a ++ b) (i ++ j) = lin a i * Spec.prod b + lin b j
  | [], b, [], j, _ => by simp [lin]
  | x :: a, b, y :: i, j, h => by
    simp only [List.cons_append, lin, prod_append, lin_append a b i j (by simpa using h)]; ring

theorem prod_flatten (L : List (List Int)) : Spec.prod L.flatten = Spec.prod (L.map Spec.prod) := by
  induction L with
  | nil => rfl
  | cons b L ih => simp [prod_append, Spec.prod, ih]

theorem lin_flatten (L : List (List Nat)) (f g : Nat → Int) :
    lin (L.flatten.map f) (L.flatten.map g) = lin (L.map (fun b => Spec.prod (b.map f))) (L.map (fun b => lin (b.map f) (b.map g))) := by
  induction L with
  | nil => rfl
  | cons b L ih =>
    simp only [List.flatten_cons, List.map_append, List.map_cons, lin]
    rw [lin_append _ _ _ _ (by simp), ih]
    congr 2
    rw [List.map_flatten, prod_flatten, List.map_map]
    rfl

theorem inRange_append_iff : ∀ (a b i j : List Int), i.length = a.length → (InRange (a ++ b) (i ++ j) ↔ InRange a i ∧ InRange b j)
  | [], b, [], j, _ => by simp [InRange]
  | x :: a, b, y :: i, j, h => by
    simp only [List.cons_append, InRange, inRange_append_iff a b i j (by simpa using h)]; tauto

theorem inRange_flatten (L : List (List Nat)) (f g : Nat → Int) (h : InRange (L.flatten.map f) (L.flatten.map g)) :
    InRange (L.map (fun b => Spec.prod (b.map f))) (L.map (fun b => lin (b.map f) (b.map g))) := by
  induction L with
  | nil => trivial
  | cons b L ih =>
    simp only [List.flatten_cons, List.map_append] at h
    rw [inRange_append_iff _ _ _ _ (by simp)] at h
    exact ⟨lin_bounds h.1, ih h.2⟩

/-- The smallest stride of each block of a dense layout is the number of elements after it. -/
theorem minStrides_dense (L : List (List Nat)) (f g : Nat → Int) (hpos : ∀ k ∈ L.flatten, 0 < f k) (hne : ∀ b ∈ L, b ≠ [])
    (hd : L.flatten.map g = dense (L.flatten.map f)) (sz : Int) (hsz : Spec.prod (L.flatten.map f) ≤ sz) :
    L.map (fun b => (b.map g).foldl (fun s x => min s x) sz) = dense (L.map (fun b => Spec.prod (b.map f))) := by
  induction L with
  | nil => rfl
  | cons b L ih =>
    simp only [List.flatten_cons, List.map_append] at hd hpos hsz
    rw [Slice.dense_append] at hd
    obtain ⟨h1, h2⟩ := List.append_inj hd (by simp [dense_length])
    have hp : 0 < Spec.prod (L.flatten.map f) := prod_pos (by
      intro l hl; obtain ⟨k, hk, rfl⟩ := List.mem_map.mp hl; exact hpos k (List.mem_append_right _ hk))
    have hpb : 0 < Spec.prod (b.map f) := prod_pos (by
      intro l hl; obtain ⟨k, hk, rfl⟩ := List.mem_map.mp hl; exact hpos k (List.mem_append_left _ hk))
    rw [prod_append] at hsz
    have hle : Spec.prod (L.flatten.map f) ≤ sz := by nlinarith
    simp only [List.map_cons, dense]
    rw [ih (fun k hk => hpos k (List.mem_append_right _ hk)) (fun b hb => hne b (List.mem_cons_of_mem _ hb)) h2 hle]
    congr 1
    have hP : Spec.prod (L.map (fun b => Spec.prod (b.map f))) = Spec.prod (L.flatten.map f) := by
      rw [List.map_flatten, prod_flatten, List.map_map]; rfl
    rw [hP, h1]
    have hbne : b.map f ≠ [] := by simpa using hne b List.mem_cons_self
    have hbp : ∀ l ∈ b.map f, 0 < l := by
      intro l hl; obtain ⟨k, hk, rfl⟩ := List.mem_map.mp hl; exact hpos k (List.mem_append_left _ hk)
    generalize Spec.prod (L.flatten.map f) = c at *
    generalize b.map f = bl at *
    obtain ⟨m1, m2⟩ := foldl_min_spec ((dense bl).map (c * ·)) sz
    generalize ((dense bl).map (c * ·)).foldl (fun s x => min s x) sz = x at *
    have hlow : ∀ bl : List Int, (∀ l ∈ bl, 0 < l) → ∀ d ∈ dense bl, 1 ≤ d := by
      intro bl
      induction bl with
      | nil => simp [dense]
      | cons y ys ih =>
        intro hy d hd'
        rcases List.mem_cons.mp hd' with rfl | hd'
        · exact prod_pos (fun l hl => hy l (List.mem_cons_of_mem _ hl))
        · exact ih (fun l hl => hy l (List.mem_cons_of_mem _ hl)) d hd'
    have hlast : (1 : Int) ∈ dense bl := by
      have := dense_getLast? bl hbne
      exact List.mem_of_getLast? this
    have h3 : x ≤ c := by
      have := m2 (c * 1) (List.mem_cons_of_mem _ (List.mem_map.mpr ⟨1, hlast, rfl⟩))
      omega
    rcases List.mem_cons.mp m1 with e | e
    · omega
    · obtain ⟨d, hd', rfl⟩ := List.mem_map.mp e
      have := hlow bl hbp d hd'
      nlinarith

end Nda.GroupIndices
