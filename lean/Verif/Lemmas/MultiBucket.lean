import Verif.Lemmas.Bucket
/-! # The multi-bucket allocator is correct -/
namespace Nda.Alloc
open Spec

/-- State of a multi-bucket allocator with live blocks `L`. -/
structure MInv (C : Nat) (m : Multi) (L R : List Blk) : Prop where
  regions : R = m.vec.map (Bucket.region C)
  sorted : (m.vec.map Bucket.p).Pairwise (fun x y : Int => x + 64 * (C : Int) ≤ y)
  ne : m.vec ≠ []
  cur : m.cur ≤ m.vec.length
  each : ∀ b ∈ m.vec, BInv C b (L.filter (b.owns C))
  cover : ∀ k ∈ L, ∃ b ∈ m.vec, b.owns C k = true

theorem owns_iff {C : Nat} {b : Bucket} {k : Blk} : b.owns C k = true ↔ b.p ≤ k.ptr ∧ k.ptr < b.p + 64 * C := by
  simp [Bucket.owns]

theorem owns_congr {C : Nat} {b b' : Bucket} (h : b'.p = b.p) : b'.owns C = b.owns C := by
  funext k; simp [Bucket.owns, h]

theorem owns_of_inside {C : Nat} {b : Bucket} {k : Blk} (h : Inside k (b.region C)) (hs : 0 < k.s) : b.owns C k = true := by
  rw [owns_iff]
  unfold Inside Bucket.region at h
  push_cast at h
  omega

theorem sorted_lt {C : Nat} {v : List Bucket} (h : (v.map Bucket.p).Pairwise (fun x y : Int => x + 64 * (C : Int) ≤ y)) {i j : Nat} {b b' : Bucket}
    (hi : v[i]? = some b) (hj : v[j]? = some b') (hij : i < j) : b.p + 64 * C ≤ b'.p := by
  obtain ⟨hi', rfl⟩ := List.getElem?_eq_some_iff.1 hi
  obtain ⟨hj', rfl⟩ := List.getElem?_eq_some_iff.1 hj
  have := List.pairwise_iff_getElem.1 h i j (by simpa) (by simpa) hij
  simpa using this

/-- Only one bucket owns a block. -/
theorem owns_unique {C : Nat} {v : List Bucket} (h : (v.map Bucket.p).Pairwise (fun x y : Int => x + 64 * (C : Int) ≤ y)) {i j : Nat} {b b' : Bucket}
    (hi : v[i]? = some b) (hj : v[j]? = some b') {k : Blk} (ho : b.owns C k = true) (ho' : b'.owns C k = true) : i = j := by
  rw [owns_iff] at ho ho'
  rcases Nat.lt_trichotomy i j with hlt | heq | hgt
  · have := sorted_lt h hi hj hlt; omega
  · exact heq
  · have := sorted_lt h hj hi hgt; omega

theorem minv_sound {C : Nat} {m : Multi} {L R : List Blk} (h : MInv C m L R) :
    L.Pairwise Apart ∧ ∀ k ∈ L, 0 < k.s ∧ ∃ r ∈ R, Inside k r := by
  constructor
  · rw [List.pairwise_iff_forall_sublist]
    intro a b hab
    have ha : a ∈ L := hab.subset (by simp)
    have hb : b ∈ L := hab.subset (by simp)
    obtain ⟨ba, hba, hoa⟩ := h.cover a ha
    obtain ⟨bb, hbb, hob⟩ := h.cover b hb
    obtain ⟨i, hi⟩ := List.mem_iff_getElem?.1 hba
    obtain ⟨j, hj⟩ := List.mem_iff_getElem?.1 hbb
    by_cases hij : i = j
    · subst hij
      rw [hi] at hj; cases hj
      have h1 := (binv_sound (h.each ba hba)).1
      rw [List.pairwise_iff_forall_sublist] at h1
      apply h1
      have := hab.filter (ba.owns C)
      simpa [hoa, hob] using this
    · have hA := ((binv_sound (h.each ba hba)).2 a (by simp [ha, hoa])).2
      have hB := ((binv_sound (h.each bb hbb)).2 b (by simp [hb, hob])).2
      refine Apart.inside ?_ hA hB
      unfold Apart Bucket.region
      push_cast
      rcases Nat.lt_or_gt_of_ne hij with h' | h'
      · left; exact sorted_lt h.sorted hi hj h'
      · right; exact sorted_lt h.sorted hj hi h'
  · intro k hk
    obtain ⟨b, hb, ho⟩ := h.cover k hk
    have := (binv_sound (h.each b hb)).2 k (by simp [hk, ho])
    exact ⟨this.1, _, h.regions ▸ List.mem_map_of_mem hb, this.2⟩

theorem minv_init {C : Nat} (hC : 0 < C) {sys : Sys} (h : SysOk sys) :
    ∃ R, MInv C (Multi.init C sys).1 [] R ∧ Keeps sys (Multi.init C sys).2 [] sys.regions R := by
  obtain ⟨h1, h2, _⟩ := bucket_init_keeps hC h (R := []) (F := sys.regions) (List.Perm.refl _) [] (by simp)
  refine ⟨_, ⟨rfl, ?_, ?_, ?_, ?_, by simp⟩, h1⟩
  · simp [Multi.init]
  · simp [Multi.init]
  · simp [Multi.init]
  · intro b hb
    simp only [Multi.init, List.mem_singleton] at hb
    subst hb
    exact h2

theorem firstPos_eq {q : Bucket → Bool} {v : List Bucket} {n : Nat} (hn : n ≤ v.length) (hlo : ∀ i b, i < n → v[i]? = some b → q b = false)
    (hat : ∀ b, v[n]? = some b → q b = true) : Multi.firstPos q v = n := by
  unfold Multi.firstPos
  rcases Nat.lt_or_ge n v.length with h | h
  · rw [List.findIdx_eq h]
    refine ⟨hat _ (List.getElem?_eq_getElem h), fun j hj => ?_⟩
    exact hlo j _ hj (List.getElem?_eq_getElem (by omega))
  · have : n = v.length := by omega
    subst this
    rw [List.findIdx_eq_length]
    intro b hb
    obtain ⟨i, hi⟩ := List.mem_iff_getElem?.1 hb
    obtain ⟨hi', _⟩ := List.getElem?_eq_some_iff.1 hi
    exact hlo i b hi' hi

theorem firstPos_spec (q : Bucket → Bool) (v : List Bucket) : Multi.firstPos q v ≤ v.length ∧
    (∀ i b, i < Multi.firstPos q v → v[i]? = some b → q b = false) ∧ (∀ b, v[Multi.firstPos q v]? = some b → q b = true) := by
  unfold Multi.firstPos
  refine ⟨List.findIdx_le_length, fun i b hi hb => ?_, fun b hb => ?_⟩
  · obtain ⟨hi', rfl⟩ := List.getElem?_eq_some_iff.1 hb
    simpa using List.not_of_lt_findIdx hi
  · obtain ⟨hi', rfl⟩ := List.getElem?_eq_some_iff.1 hb
    exact List.findIdx_getElem

theorem insertIdx_take_drop (b : Bucket) : ∀ (v : List Bucket) (n : Nat), n ≤ v.length → v.insertIdx n b = v.take n ++ b :: v.drop n
  | v, 0, _ => by simp
  | [], n + 1, h => by simp at h
  | a :: v, n + 1, h => by
    simp only [List.insertIdx_succ_cons, List.take_succ_cons, List.drop_succ_cons, List.cons_append, List.cons.injEq, true_and]
    exact insertIdx_take_drop b v n (by simpa using h)

theorem findNonFull_spec {C : Nat} (hC : 0 < C) {m : Multi} {L R F : List Blk} {sys : Sys} (h : MInv C m L R) (hs : SysOk sys)
    (hr : sys.regions.Perm (R ++ F)) :
    ∃ R', MInv C (m.findNonFull C sys).1 L R' ∧ Keeps sys (m.findNonFull C sys).2 L F R' ∧
      ∃ b, (m.findNonFull C sys).1.vec[(m.findNonFull C sys).1.cur]? = some b ∧ b.isFull = false := by
  unfold Multi.findNonFull
  obtain ⟨f1, f2, f3⟩ := firstPos_spec (fun b => !b.isFull) m.vec
  by_cases hc : Multi.firstPos (fun b => !b.isFull) m.vec ≠ m.vec.length
  · simp only [if_pos hc]
    refine ⟨R, ⟨h.regions, h.sorted, h.ne, f1, h.each, h.cover⟩, Keeps.refl hs hr, ?_⟩
    have hlt : Multi.firstPos (fun b => !b.isFull) m.vec < m.vec.length := by omega
    refine ⟨_, List.getElem?_eq_getElem hlt, ?_⟩
    have := f3 _ (List.getElem?_eq_getElem hlt)
    simpa using this
  · simp only [if_neg hc]
    obtain ⟨k1, k2, k3⟩ := bucket_init_keeps hC hs hr L (fun l hl => ((minv_sound h).2 l hl).2)
    generalize hb : (Bucket.init C sys).1 = b at *
    generalize hsys' : (Bucket.init C sys).2 = sys' at *
    obtain ⟨g1, g2, g3⟩ := firstPos_spec (fun b' => decide (b.p < b'.p)) m.vec
    generalize hpos : Multi.firstPos (fun b' => decide (b.p < b'.p)) m.vec = pos at *
    have hap : ∀ b' ∈ m.vec, b.p + 64 * C ≤ b'.p ∨ b'.p + 64 * C ≤ b.p := by
      intro b' hb'
      have := k3 (b'.region C) (hr.symm.subset (List.mem_append_left _ (h.regions ▸ List.mem_map_of_mem hb')))
      unfold Apart Bucket.region at this
      push_cast at this
      exact this
    have hins : m.vec.insertIdx pos b = m.vec.take pos ++ b :: m.vec.drop pos := insertIdx_take_drop _ _ _ g1
    have hlow : ∀ b' ∈ m.vec.take pos, b'.p + 64 * C ≤ b.p := by
      intro b' hb'
      obtain ⟨i, hi⟩ := List.mem_iff_getElem?.1 hb'
      have hi' : i < pos ∧ m.vec[i]? = some b' := by
        rw [List.getElem?_take] at hi
        split at hi
        · exact ⟨by assumption, hi⟩
        · simp at hi
      have h1 := g2 i b' hi'.1 hi'.2
      simp only [decide_eq_false_iff_not] at h1
      rcases hap b' (List.mem_of_mem_take hb') with h2 | h2
      · have : 0 < (C : Int) := by omega
        omega
      · exact h2
    have hhigh : ∀ b' ∈ m.vec.drop pos, b.p + 64 * C ≤ b'.p := by
      intro b' hb'
      obtain ⟨i, hi⟩ := List.mem_iff_getElem?.1 hb'
      rw [List.getElem?_drop] at hi
      have hposlt : pos < m.vec.length := by
        obtain ⟨h', _⟩ := List.getElem?_eq_some_iff.1 hi; omega
      have h1 := g3 _ (List.getElem?_eq_getElem hposlt)
      simp only [decide_eq_true_eq] at h1
      have h3 : m.vec[pos].p ≤ b'.p := by
        rcases Nat.eq_zero_or_pos i with rfl | hi0
        · rw [Nat.add_zero, List.getElem?_eq_getElem hposlt] at hi
          cases hi; exact le_refl _
        · have := sorted_lt h.sorted (List.getElem?_eq_getElem hposlt) hi (by omega)
          omega
      rcases hap b' (List.mem_of_mem_drop hb') with h2 | h2
      · exact h2
      · omega
    have hnoown : ∀ k ∈ L, b.owns C k = false := by
      intro k hk
      obtain ⟨b', hb', ho⟩ := h.cover k hk
      rw [Bool.eq_false_iff]
      intro hbo
      rw [owns_iff] at ho hbo
      rcases hap b' hb' with h2 | h2 <;> omega
    refine ⟨(m.vec.insertIdx pos b).map (Bucket.region C), ⟨rfl, ?_, ?_, ?_, ?_, ?_⟩, ?_, ?_⟩
    · show ((m.vec.insertIdx pos b).map Bucket.p).Pairwise _
      rw [hins, List.map_append, List.map_cons, List.pairwise_append, List.pairwise_cons]
      have hs' := h.sorted
      rw [← List.take_append_drop pos m.vec, List.map_append, List.pairwise_append] at hs'
      refine ⟨hs'.1, ⟨?_, hs'.2.1⟩, ?_⟩
      · intro x hx
        obtain ⟨b', hb', rfl⟩ := List.mem_map.1 hx
        exact hhigh b' hb'
      · intro x hx y hy
        rcases List.mem_cons.1 hy with rfl | hy'
        · obtain ⟨b', hb', rfl⟩ := List.mem_map.1 hx
          exact hlow b' hb'
        · exact hs'.2.2 x hx y hy'
    · show m.vec.insertIdx pos b ≠ []
      rw [hins]; simp
    · show pos ≤ (m.vec.insertIdx pos b).length
      rw [hins]; simp; omega
    · intro b' hb'
      have hb'' : b' = b ∨ b' ∈ m.vec := by
        have : b' ∈ m.vec.insertIdx pos b := hb'
        rw [List.mem_insertIdx g1] at this; exact this
      rcases hb'' with rfl | hb''
      · have : L.filter (b'.owns C) = [] := by
          rw [List.filter_eq_nil_iff]; intro k hk; simp [hnoown k hk]
        rw [this]; exact k2
      · exact h.each b' hb''
    · intro k hk
      obtain ⟨b', hb', ho⟩ := h.cover k hk
      exact ⟨b', (List.mem_insertIdx g1).2 (Or.inr hb'), ho⟩
    · refine ⟨k1.ok, k1.regions.trans ?_, k1.live, k1.others⟩
      apply List.Perm.append_right
      rw [h.regions, ← List.map_cons]
      exact (List.perm_insertIdx b m.vec g1).symm.map _
    · refine ⟨b, ?_, ?_⟩
      · show (m.vec.insertIdx pos b)[pos]? = some b
        rw [List.getElem?_insertIdx_self, if_pos g1]
      · have := (binv_count hC k2).2.1
        simp only [List.length_nil] at this
        rw [Bool.eq_false_iff]
        intro hf; have := this.1 hf; omega

theorem filter_erase' {p : Blk → Bool} {k : Blk} : ∀ (L : List Blk), (L.erase k).filter p = (if p k then (L.filter p).erase k else L.filter p)
  | [] => by simp
  | a :: l => by
    by_cases ha : a = k
    · subst ha
      by_cases hp : p a <;> simp [hp]
    · rw [List.erase_cons_tail (by simpa using ha)]
      by_cases hpa : p a
      · simp only [List.filter_cons, hpa, if_true, filter_erase' l]
        split
        · rw [List.erase_cons_tail (by simpa using ha)]
        · rfl
      · simp only [List.filter_cons, hpa, filter_erase' l]
        simp

/-- Replacing one bucket. -/
theorem minv_set {C : Nat} (hC : 0 < C) {m : Multi} {L L' R : List Blk} (h : MInv C m L R) {j : Nat} {b b' : Bucket} (hj : m.vec[j]? = some b)
    (hp : b'.p = b.p) (hb' : BInv C b' (L'.filter (b.owns C)))
    (hother : ∀ b'', b''.p ≠ b.p → b'' ∈ m.vec → L'.filter (b''.owns C) = L.filter (b''.owns C))
    (hcover : ∀ k ∈ L', k ∈ L ∨ b.owns C k = true) : MInv C ⟨m.vec.set j b', j⟩ L' R := by
  obtain ⟨hlt, hget⟩ := List.getElem?_eq_some_iff.1 hj
  refine ⟨?_, ?_, ?_, ?_, ?_, ?_⟩
  · show R = (m.vec.set j b').map _
    rw [h.regions, List.map_set]
    have : b'.region C = (m.vec.map (Bucket.region C))[j]'(by simpa) := by
      simp [Bucket.region, hp, hget]
    rw [this, List.set_getElem_self]
  · show ((m.vec.set j b').map Bucket.p).Pairwise _
    rw [List.map_set]
    have : b'.p = (m.vec.map Bucket.p)[j]'(by simpa) := by simp [hp, hget]
    rw [this, List.set_getElem_self]; exact h.sorted
  · show m.vec.set j b' ≠ []
    intro hn; have := congrArg List.length hn; simp only [List.length_set, List.length_nil] at this; omega
  · show j ≤ (m.vec.set j b').length
    rw [List.length_set]; omega
  · intro b'' hb''
    have hb2 : b'' ∈ m.vec.set j b' := hb''
    obtain ⟨i, hi⟩ := List.mem_iff_getElem?.1 hb2
    rw [List.getElem?_set] at hi
    split at hi
    · rename_i hji
      subst hji
      simp only [Option.some.injEq] at hi
      subst hi
      rw [owns_congr hp]; exact hb'
    · rename_i hji
      have hmem := List.mem_of_getElem? hi
      have hne : b''.p ≠ b.p := by
        intro he
        rcases Nat.lt_or_gt_of_ne hji with h' | h'
        · have := sorted_lt h.sorted hj hi h'
          omega
        · have := sorted_lt h.sorted hi hj h'
          omega
      rw [hother b'' hne hmem]
      exact h.each b'' hmem
  · intro k hk
    rcases hcover k hk with hk | hk
    · obtain ⟨b'', hb'', ho⟩ := h.cover k hk
      obtain ⟨i, hi⟩ := List.mem_iff_getElem?.1 hb''
      by_cases hij : i = j
      · subst hij
        rw [hj] at hi; cases hi
        refine ⟨b', List.mem_set hlt _, ?_⟩
        rw [owns_congr hp]; exact ho
      · refine ⟨b'', ?_, ho⟩
        apply List.mem_iff_getElem?.2
        refine ⟨i, ?_⟩
        show (m.vec.set j b')[i]? = _
        rw [List.getElem?_set_ne (Ne.symm hij)]; exact hi
    · exact ⟨b', List.mem_set hlt _, by rw [owns_congr hp]; exact hk⟩

/-- Allocation from the bucket in use. -/
theorem alloc_cur {C n : Nat} (hC : 0 < C) {m : Multi} {L R : List Blk} (h : MInv C m L R) (hn : 0 < n ∧ n ≤ C) {b : Bucket}
    (hb : m.vec[m.cur]? = some b) {k : Blk} {b' : Bucket} (he : b.allocate C n = some (k, b')) :
    k.s = n ∧ MInv C ⟨m.vec.set m.cur b', m.cur⟩ (k :: L) R ∧ b.owns C k = true := by
  have hmem := List.mem_of_getElem? hb
  obtain ⟨h1, h2, h3, _, h5, _⟩ := binv_allocate hC (h.each b hmem) hn he
  have ho : b.owns C k = true := owns_of_inside h5 (by omega)
  refine ⟨h1, minv_set hC h hb h2 ?_ ?_ ?_, ho⟩
  · rw [List.filter_cons, if_pos ho]; exact h3
  · intro b'' hne hm
    rw [List.filter_cons, if_neg]
    intro ho'
    obtain ⟨i, hi⟩ := List.mem_iff_getElem?.1 hm
    have := owns_unique h.sorted hi hb ho' ho
    subst this
    rw [hb] at hi; cases hi; exact hne rfl
  · intro k' hk'
    rcases List.mem_cons.1 hk' with rfl | hk'
    · exact Or.inr ho
    · exact Or.inl hk'

theorem allocate_not_full {C n : Nat} {b : Bucket} (h : b.isFull = false) : ∃ k b', b.allocate C n = some (k, b') := by
  have hne : b.flags ≠ 0#64 := by
    intro he; simp [Bucket.isFull, he] at h
  obtain ⟨pos, hp⟩ := ctz_isSome hne
  exact ⟨⟨b.p + pos * C, n⟩, { b with flags := b.flags &&& ~~~(1#64 <<< pos) }, by simp [Bucket.allocate, hne, hp]⟩

/-- `multi_bucket::allocate` always succeeds, and does its job. -/
theorem multi_allocate {C n : Nat} (hC : 0 < C) {m : Multi} {L R F : List Blk} {sys : Sys} (h : MInv C m L R) (hs : SysOk sys)
    (hr : sys.regions.Perm (R ++ F)) (hn : 0 < n ∧ n ≤ C) :
    ∃ k m' sys' R', m.allocate C n sys = some (k, m', sys') ∧ k.s = n ∧ MInv C m' (k :: L) R' ∧ Keeps sys sys' L F R' := by
  have key : ∃ m1 sys1 R1 b, m.ready C sys = (m1, sys1) ∧ MInv C m1 L R1 ∧ Keeps sys sys1 L F R1 ∧
      m1.vec[m1.cur]? = some b ∧ b.isFull = false := by
    obtain ⟨R1, g1, g2, b, g3, g4⟩ := findNonFull_spec hC h hs hr
    unfold Multi.ready
    cases hc : m.vec[m.cur]? with
    | none => exact ⟨_, _, R1, b, rfl, g1, g2, g3, g4⟩
    | some b0 =>
      cases hf : b0.isFull with
      | true => exact ⟨_, _, R1, b, by simp only [hf, cond_true], g1, g2, g3, g4⟩
      | false => exact ⟨m, sys, R, b0, by simp only [hf, cond_false], h, Keeps.refl hs hr, hc, hf⟩
  obtain ⟨m1, sys1, R1, b, e1, g1, g2, g3, g4⟩ := key
  obtain ⟨k, b', he⟩ := allocate_not_full (C := C) (n := n) g4
  obtain ⟨a1, a2, _⟩ := alloc_cur hC g1 hn g3 he
  refine ⟨k, _, sys1, R1, ?_, a1, a2, g2⟩
  unfold Multi.allocate
  rw [e1]
  simp [g3, he]

/-- The bucket that receives a released block. -/
theorem multi_route {C : Nat} (hC : 0 < C) {m : Multi} {L R : List Blk} (h : MInv C m L R) {k : Blk} (hk : k ∈ L) :
    ∃ j b b', m.vec[j]? = some b ∧ b.owns C k = true ∧ b.deallocate C k = some b' ∧ b'.p = b.p ∧
      MInv C ⟨m.vec.set j b', j⟩ (L.erase k) R ∧ (b'.isEmpty = true → (L.erase k).filter (b.owns C) = []) ∧
      ∀ sys, m.deallocate C k sys =
        if m.cur = j then some (⟨m.vec.set j b', j⟩, sys)
        else if b'.isEmpty = true ∧ 1 < m.vec.length then (Multi.mk (m.vec.set j b') j).erase sys
        else some (⟨m.vec.set j b', j⟩, sys) := by
  obtain ⟨b, hb, ho⟩ := h.cover k hk
  obtain ⟨j, hj⟩ := List.mem_iff_getElem?.1 hb
  have hlt : j < m.vec.length := (List.getElem?_eq_some_iff.1 hj).1
  have hkf : k ∈ L.filter (b.owns C) := List.mem_filter.2 ⟨hk, ho⟩
  obtain ⟨b', d1, d2, d3⟩ := binv_deallocate hC (h.each b hb) hkf
  have hfe : (L.erase k).filter (b.owns C) = (L.filter (b.owns C)).erase k := by rw [filter_erase', if_pos ho]
  refine ⟨j, b, b', hj, ho, d1, d2, minv_set hC h hj d2 ?_ ?_ ?_, ?_, ?_⟩
  · rw [hfe]; exact d3
  · intro b'' hne hm
    rw [filter_erase', if_neg]
    intro ho'
    obtain ⟨i, hi⟩ := List.mem_iff_getElem?.1 hm
    have := owns_unique h.sorted hi hj ho' ho
    subst this
    rw [hj] at hi; cases hi; exact hne rfl
  · intro k' hk'; exact Or.inl (List.mem_of_mem_erase hk')
  · intro he
    rw [hfe]
    exact (binv_count hC d3).2.2.1 he
  · intro sys
    unfold Multi.deallocate
    by_cases hcur : m.cur = j
    · rw [if_pos hcur, hcur, hj]
      simp [Option.filter, ho, d1]
    · rw [if_neg hcur]
      have hnone : (m.vec[m.cur]?).filter (fun b => b.owns C k) = none := by
        cases hc : m.vec[m.cur]? with
        | none => rfl
        | some b0 =>
          simp only [Option.filter]
          rw [if_neg]
          intro ho0
          exact hcur (owns_unique h.sorted hc hj ho0 ho)
      have hpos : Multi.firstPos (fun b => !decide (b.p ≤ k.ptr)) m.vec = j + 1 := by
        rw [owns_iff] at ho
        apply firstPos_eq (by omega)
        · intro i b0 hi hb0
          have : b0.p ≤ b.p := by
            rcases Nat.lt_or_ge i j with h' | h'
            · have := sorted_lt h.sorted hb0 hj h'; omega
            · have : i = j := by omega
              subst this; rw [hj] at hb0; cases hb0; exact le_refl _
          simp; omega
        · intro b0 hb0
          have := sorted_lt h.sorted hj hb0 (by omega)
          simp; omega
      rw [hnone]
      simp only [hpos, Nat.add_sub_cancel, hj, d1, Option.bind_eq_bind, Option.bind_some, List.length_set]
      rw [if_neg (by omega)]
      cases he : b'.isEmpty with
      | false => simp
      | true =>
        simp only [Bool.not_true, Bool.false_eq_true, if_false, true_and]
        by_cases hl : m.vec.length ≤ 1
        · rw [if_pos hl, if_neg (by omega)]; simp
        · rw [if_neg hl, if_pos (by omega)]

/-- The bucket that has become empty is given back. -/
theorem multi_erase {C : Nat} {m : Multi} {L R F : List Blk} {sys : Sys} (h : MInv C m L R) (hs : SysOk sys)
    (hr : sys.regions.Perm (R ++ F)) {b : Bucket} (hb : m.vec[m.cur]? = some b) (he : L.filter (b.owns C) = []) (hl : 1 < m.vec.length) :
    ∃ m' sys' R', m.erase sys = some (m', sys') ∧ m'.vec = m.vec.eraseIdx m.cur ∧ MInv C m' L R' ∧ Keeps sys sys' L F R' := by
  obtain ⟨hlt, hget⟩ := List.getElem?_eq_some_iff.1 hb
  have hmemR : b.region C ∈ R := h.regions ▸ List.mem_map_of_mem (List.mem_of_getElem? hb)
  obtain ⟨sys', f1, f2, f3, f4⟩ := free_keeps hs hr hmemR L
  have hRn : R.Nodup := by
    have h1 := (apart_perm hr).1 hs.apart
    rw [List.pairwise_append] at h1
    exact nodup_of_apart h1.1 (fun r hr' => hs.pos r (hr.symm.subset (List.mem_append_left _ hr')))
  have hRe : R.erase (b.region C) = (m.vec.eraseIdx m.cur).map (Bucket.region C) := by
    have hlen : m.cur < R.length := by rw [h.regions]; simpa
    have hg : R[m.cur] = b.region C := by simp [h.regions, hget]
    rw [← hg, hRn.erase_getElem, h.regions, List.eraseIdx_map]
  refine ⟨⟨m.vec.eraseIdx m.cur, (m.vec.eraseIdx m.cur).length⟩, sys', _, ?_, rfl, ⟨rfl, ?_, ?_, le_refl _, ?_, ?_⟩, hRe ▸ f4⟩
  · unfold Multi.erase
    simp only [hb, Option.bind_eq_bind, Option.bind_some]
    rw [show b.p = (b.region C).ptr from rfl, f1]; rfl
  · show ((m.vec.eraseIdx m.cur).map Bucket.p).Pairwise _
    exact h.sorted.sublist ((List.eraseIdx_sublist _ _).map _)
  · show m.vec.eraseIdx m.cur ≠ []
    intro hn; have := congrArg List.length hn
    rw [List.length_eraseIdx_of_lt hlt] at this
    simp only [List.length_nil] at this; omega
  · intro b'' hb''
    exact h.each b'' ((List.eraseIdx_sublist _ _).subset hb'')
  · intro k hk
    obtain ⟨b'', hb'', ho⟩ := h.cover k hk
    obtain ⟨i, hi⟩ := List.mem_iff_getElem?.1 hb''
    have hne : i ≠ m.cur := by
      rintro rfl
      rw [hb] at hi; cases hi
      rw [List.filter_eq_nil_iff] at he
      exact he k hk ho
    refine ⟨b'', ?_, ho⟩
    show b'' ∈ m.vec.eraseIdx m.cur
    rw [List.mem_eraseIdx_iff_getElem?]
    exact ⟨i, hne, hi⟩

theorem multi_deallocate {C : Nat} (hC : 0 < C) {m : Multi} {L R F : List Blk} {sys : Sys} (h : MInv C m L R) (hs : SysOk sys)
    (hr : sys.regions.Perm (R ++ F)) {k : Blk} (hk : k ∈ L) :
    ∃ m' sys' R', m.deallocate C k sys = some (m', sys') ∧ MInv C m' (L.erase k) R' ∧ Keeps sys sys' (L.erase k) F R' ∧
      ∃ j b b', m.vec[j]? = some b ∧ b.owns C k = true ∧ b.deallocate C k = some b' ∧
        (m'.vec = m.vec.set j b' ∨ (b'.isEmpty = true ∧ 1 < m.vec.length ∧ m'.vec = m.vec.eraseIdx j)) := by
  obtain ⟨j, b, b', r1, r2, r3, r4, r5, r6, r7⟩ := multi_route hC h hk
  by_cases hcur : m.cur = j
  · refine ⟨_, sys, R, by rw [r7, if_pos hcur], r5, Keeps.refl hs hr, j, b, b', r1, r2, r3, Or.inl rfl⟩
  · by_cases he : b'.isEmpty = true ∧ 1 < m.vec.length
    · have hlt : j < m.vec.length := (List.getElem?_eq_some_iff.1 r1).1
      obtain ⟨m', sys', R', e1, e2, e3, e4⟩ := multi_erase (b := b') r5 hs hr (by show (m.vec.set j b')[j]? = _; simp [hlt])
        (by rw [owns_congr r4]; exact r6 he.1) (by simpa using he.2)
      refine ⟨m', sys', R', by rw [r7, if_neg hcur, if_pos he, e1], e3, e4, j, b, b', r1, r2, r3, Or.inr ⟨he.1, he.2, ?_⟩⟩
      rw [e2]
      show (m.vec.set j b').eraseIdx j = _
      rw [List.eraseIdx_set_eq]
    · exact ⟨_, sys, R, by rw [r7, if_neg hcur, if_neg he], r5, Keeps.refl hs hr, j, b, b', r1, r2, r3, Or.inl rfl⟩

theorem multi_lawful {C : Nat} (hC : 0 < C) : Lawful (multiBucket C) True (fun n => 0 < n ∧ n ≤ C) (MInv C) where
  init sys h := minv_init hC h
  sound st L R h _ := minv_sound h
  allocate st L R F sys n k st' sys' hi hs hr hn he := by
    obtain ⟨k1, m1, sys1, R1, e, h1, h2, h3⟩ := multi_allocate hC hi hs hr hn
    rw [show (multiBucket C).allocate n st sys = st.allocate C n sys from rfl, e] at he
    cases he
    exact ⟨h1, R1, h2, h3⟩
  allocateZero st L R F sys n k st' sys' hi hs hr hn he := by
    obtain ⟨k1, m1, sys1, R1, e, h1, h2, h3⟩ := multi_allocate hC hi hs hr hn
    simp only [multiBucket, e, Option.bind_eq_bind, Option.bind_some, Option.pure_def, Option.some.injEq, Prod.mk.injEq] at he
    obtain ⟨rfl, rfl, rfl⟩ := he
    subst h1
    obtain ⟨s1, s2⟩ := minv_sound h2
    rw [List.pairwise_cons] at s1
    refine ⟨rfl, fun _ => zero_zeroed _ _ _, R1, h2, zero_keeps h3 (s2 k1 List.mem_cons_self).2 s1.1⟩
  deallocate st L R F sys k hi hs hr hk := by
    obtain ⟨m', sys', R', e, h1, h2, _⟩ := multi_deallocate hC hi hs hr hk
    exact ⟨m', sys', R', e, h1, h2⟩

end Nda.Alloc
