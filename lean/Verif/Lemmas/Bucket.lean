import Verif.Lemmas.Alloc
import Mathlib.Data.List.Perm.Basic
import Mathlib.Data.List.Perm.Subperm
import Mathlib.Tactic.Ring
/-! # The malloc allocator and the bucket allocator are correct -/
namespace Nda.Alloc
open Spec

theorem mallocator_lawful : Lawful mallocator True (0 < ·) (fun _ L R => R.Perm L ∧ ∀ b ∈ L, 0 < b.s) where
  init sys h := ⟨[], ⟨List.Perm.refl _, by simp⟩, Keeps.refl h (List.Perm.refl _)⟩
  sound st L R h hR := by
    refine ⟨(apart_perm h.1).1 hR, fun b hb => ⟨h.2 b hb, b, h.1.symm.subset hb, inside_refl b⟩⟩
  allocate st L R F sys n k st' sys' hi hs hr hn he := by
    simp only [mallocator, Option.some.injEq, Prod.mk.injEq] at he
    obtain ⟨rfl, _, rfl⟩ := he
    refine ⟨rfl, _, ⟨List.Perm.cons _ hi.1, ?_⟩, malloc_keeps hs hr hn L⟩
    intro b hb
    rcases List.mem_cons.1 hb with rfl | hb
    · exact hn
    · exact hi.2 b hb
  allocateZero st L R F sys n k st' sys' hi hs hr hn he := by
    simp only [mallocator, Option.some.injEq, Prod.mk.injEq] at he
    obtain ⟨rfl, _, rfl⟩ := he
    refine ⟨rfl, fun _ => zero_zeroed _ _ _, _, ⟨List.Perm.cons _ hi.1, ?_⟩, zero_keeps (malloc_keeps hs hr hn L) ⟨_, List.mem_cons_self, inside_refl _⟩ ?_⟩
    · intro b hb
      rcases List.mem_cons.1 hb with rfl | hb
      · exact hn
      · exact hi.2 b hb
    · intro b hb
      exact malloc_apart hs n b (hr.symm.subset (List.mem_append_left _ (hi.1.symm.subset hb)))
  deallocate st L R F sys k hi hs hr hk := by
    obtain ⟨sys', h1, _, _, h2⟩ := free_keeps hs hr (hi.1.symm.subset hk) (L.erase k)
    refine ⟨(), sys', R.erase k, ?_, ⟨hi.1.erase k, fun b hb => hi.2 b (List.mem_of_mem_erase hb)⟩, h2⟩
    simp [mallocator, h1]

/-! ### Bits -/

theorem ctz_some {x : BitVec 64} {pos : Nat} (h : ctz x = some pos) : pos < 64 ∧ x.getLsbD pos = true ∧ ∀ j < pos, x.getLsbD j = false := by
  have h1 := List.find?_some h
  have h2 := List.mem_of_find?_eq_some h
  refine ⟨List.mem_range.1 h2, h1, fun j hj => ?_⟩
  unfold ctz at h
  rw [List.find?_eq_some_iff_getElem] at h
  obtain ⟨_, i, hi, he, hb⟩ := h
  simp only [List.getElem_range] at he hb
  have := hb j (by omega)
  simpa using this

theorem ctz_isSome {x : BitVec 64} (h : x ≠ 0#64) : ∃ pos, ctz x = some pos := by
  cases hc : ctz x with
  | some p => exact ⟨p, rfl⟩
  | none =>
    exfalso; apply h
    unfold ctz at hc
    rw [List.find?_eq_none] at hc
    apply BitVec.eq_of_getLsbD_eq
    intro i hi
    have := hc i (List.mem_range.2 hi)
    simpa using this

theorem clear_bit (x : BitVec 64) {p : Nat} (hp : p < 64) {j : Nat} (hj : j < 64) :
    (x &&& ~~~(1#64 <<< p)).getLsbD j = (x.getLsbD j && !decide (j = p)) := by
  simp only [BitVec.getLsbD_and, BitVec.getLsbD_not, BitVec.getLsbD_shiftLeft, BitVec.getLsbD_one]
  by_cases h : j = p
  · subst h; simp [hj]
  · rcases Nat.lt_or_gt_of_ne h with h' | h'
    · simp [hj, h, h']
    · have : ¬ j < p := by omega
      have h2 : j - p ≠ 0 := by omega
      simp [hj, h, this, h2]

theorem set_bit (x : BitVec 64) {p : Nat} (hp : p < 64) {j : Nat} (hj : j < 64) :
    (x ||| (1#64 <<< p)).getLsbD j = (x.getLsbD j || decide (j = p)) := by
  simp only [BitVec.getLsbD_or, BitVec.getLsbD_shiftLeft, BitVec.getLsbD_one]
  by_cases h : j = p
  · subst h; simp [hj]
  · rcases Nat.lt_or_gt_of_ne h with h' | h'
    · simp [hj, h, h']
    · have : ¬ j < p := by omega
      have h2 : j - p ≠ 0 := by omega
      simp [hj, h, this, h2]

/-! ### Buckets -/

/-- State of a bucket with live blocks `L`. -/
structure BInv (C : Nat) (b : Bucket) (L : List Blk) : Prop where
  size : ∀ k ∈ L, 0 < k.s ∧ k.s ≤ C
  chunk : ∀ k ∈ L, ∃ pos : Nat, pos < 64 ∧ k.ptr = b.p + (pos : Int) * C
  nodup : (L.map Blk.ptr).Nodup
  flags : ∀ pos : Nat, pos < 64 → ( b.flags.getLsbD pos = false ↔ b.p + (pos : Int) * C ∈ L.map Blk.ptr)

/-- The region of a bucket. -/
def Bucket.region (C : Nat) (b : Bucket) : Blk := ⟨b.p, 64 * C⟩

theorem chunk_inj {C : Nat} (hC : 0 < C) {p : Int} {i j : Nat} (h : p + (i : Int) * C = p + (j : Int) * C) : i = j := by
  have h1 : (i : Int) * C = (j : Int) * C := by omega
  have h2 := mul_right_cancel₀ (by omega : (C : Int) ≠ 0) h1
  omega

theorem chunk_inside {C n pos : Nat} {p : Int} (hn : n ≤ C) (hp : pos < 64) : Inside ⟨p + (pos : Int) * C, n⟩ ⟨p, 64 * C⟩ := by
  have h1 : (pos : Int) * C + C ≤ 64 * C := by
    have : (pos + 1 : Int) ≤ 64 := by omega
    nlinarith [Int.natCast_nonneg C]
  have h2 : 0 ≤ (pos : Int) * C := by positivity
  unfold Inside
  push_cast
  omega

theorem chunk_apart {C n n' i j : Nat} {p : Int} (hn : n ≤ C) (hn' : n' ≤ C) (h : i ≠ j) :
    Apart ⟨p + (i : Int) * C, n⟩ ⟨p + (j : Int) * C, n'⟩ := by
  unfold Apart
  rcases Nat.lt_or_gt_of_ne h with h' | h'
  · left
    have : (i : Int) * C + C ≤ (j : Int) * C := by
      have : (i + 1 : Int) ≤ j := by omega
      nlinarith [Int.natCast_nonneg C]
    simp only; omega
  · right
    have : (j : Int) * C + C ≤ (i : Int) * C := by
      have : (j + 1 : Int) ≤ i := by omega
      nlinarith [Int.natCast_nonneg C]
    simp only; omega

theorem binv_sound {C : Nat} {b : Bucket} {L : List Blk} (h : BInv C b L) :
    L.Pairwise Apart ∧ ∀ k ∈ L, 0 < k.s ∧ Inside k (b.region C) := by
  constructor
  · have hn := h.nodup
    have hs := h.size; have hc := h.chunk
    clear h
    induction L with
    | nil => simp
    | cons a l ih =>
      rw [List.map_cons, List.nodup_cons] at hn
      rw [List.pairwise_cons]
      refine ⟨fun k hk => ?_, ih hn.2 (fun k hk => hs k (List.mem_cons_of_mem _ hk)) (fun k hk => hc k (List.mem_cons_of_mem _ hk))⟩
      obtain ⟨i, hi, hai⟩ := hc a List.mem_cons_self
      obtain ⟨j, hj, hkj⟩ := hc k (List.mem_cons_of_mem _ hk)
      have hne : i ≠ j := by
        rintro rfl
        exact hn.1 (by rw [hai, ← hkj]; exact List.mem_map_of_mem hk)
      have := chunk_apart (p := b.p) (hs a List.mem_cons_self).2 (hs k (List.mem_cons_of_mem _ hk)).2 hne
      rw [← hai, ← hkj] at this; exact this
  · intro k hk
    obtain ⟨i, hi, hai⟩ := h.chunk k hk
    have := chunk_inside (p := b.p) (h.size k hk).2 hi
    rw [← hai] at this
    exact ⟨(h.size k hk).1, this⟩

theorem binv_init (C : Nat) (p : Int) : BInv C ⟨p, BitVec.allOnes 64⟩ [] := by
  refine ⟨by simp, by simp, by simp, fun pos hp => ?_⟩
  show (BitVec.allOnes 64).getLsbD pos = false ↔ _
  rw [BitVec.getLsbD_allOnes]; simp [hp]

/-- What `allocate` does. -/
theorem binv_allocate {C n : Nat} (hC : 0 < C) {b : Bucket} {L : List Blk} (h : BInv C b L) (hn : 0 < n ∧ n ≤ C) {k : Blk} {b' : Bucket}
    (he : b.allocate C n = some (k, b')) :
    k.s = n ∧ b'.p = b.p ∧ BInv C b' (k :: L) ∧ (∀ l ∈ L, Apart k l) ∧ Inside k (b.region C) ∧
    ∃ pos : Nat, pos < 64 ∧ k.ptr = b.p + (pos : Int) * C ∧ k.ptr ∉ L.map Blk.ptr ∧ ∀ j : Nat, j < pos → b.p + (j : Int) * C ∈ L.map Blk.ptr := by
  unfold Bucket.allocate at he
  split at he
  · simp at he
  · simp only [Option.bind_eq_bind, Option.bind_eq_some_iff, Option.pure_def, Option.some.injEq, Prod.mk.injEq] at he
    obtain ⟨pos, hpos, rfl, rfl⟩ := he
    obtain ⟨hlt, hset, hlow⟩ := ctz_some hpos
    have hnot : b.p + (pos : Int) * C ∉ L.map Blk.ptr := by
      rw [← h.flags pos hlt]; simp [hset]
    refine ⟨rfl, rfl, ⟨?_, ?_, ?_, ?_⟩, ?_, chunk_inside hn.2 hlt, pos, hlt, rfl, hnot, fun j hj => (h.flags j (by omega)).1 (hlow j hj)⟩
    · intro k hk
      rcases List.mem_cons.1 hk with rfl | hk
      · exact hn
      · exact h.size k hk
    · intro k hk
      rcases List.mem_cons.1 hk with rfl | hk
      · exact ⟨pos, hlt, rfl⟩
      · exact h.chunk k hk
    · rw [List.map_cons, List.nodup_cons]; exact ⟨hnot, h.nodup⟩
    · intro j hj
      simp only [clear_bit _ hlt hj, List.map_cons, List.mem_cons]
      by_cases hjp : j = pos
      · subst hjp; simp
      · simp only [hjp, decide_false, Bool.not_false, Bool.and_true, h.flags j hj]
        constructor
        · exact Or.inr
        · rintro (h' | h')
          · exact absurd (chunk_inj hC h') hjp
          · exact h'
    · intro l hl
      obtain ⟨i, hi, hli⟩ := h.chunk l hl
      have hne : pos ≠ i := by
        rintro rfl; exact hnot (by rw [← hli]; exact List.mem_map_of_mem hl)
      have := chunk_apart (p := b.p) hn.2 (h.size l hl).2 hne
      rw [← hli] at this; exact this

/-- What `deallocate` does. -/
theorem binv_deallocate {C : Nat} (hC : 0 < C) {b : Bucket} {L : List Blk} (h : BInv C b L) {k : Blk} (hk : k ∈ L) :
    ∃ b', b.deallocate C k = some b' ∧ b'.p = b.p ∧ BInv C b' (L.erase k) := by
  obtain ⟨pos, hlt, hp⟩ := h.chunk k hk
  have hdiv : (k.ptr - b.p).tdiv C = pos := by
    rw [hp, show b.p + (pos : Int) * C - b.p = (pos : Int) * C by ring]
    exact Int.mul_tdiv_cancel _ (by omega)
  have hnd : L.Nodup := List.Nodup.of_map _ h.nodup
  have hsub : ∀ l, l ∈ L.erase k ↔ l ∈ L ∧ l ≠ k := fun l => by rw [hnd.mem_erase_iff]; exact and_comm
  refine ⟨{ b with flags := b.flags ||| (1#64 <<< pos) }, ?_, rfl, ?_⟩
  · unfold Bucket.deallocate
    rw [if_neg (by omega), hdiv]
    simp [hlt]
  · refine ⟨fun l hl => h.size l (List.mem_of_mem_erase hl), fun l hl => h.chunk l (List.mem_of_mem_erase hl), ?_, ?_⟩
    · exact h.nodup.sublist (List.erase_sublist.map _)
    · intro j hj
      simp only [set_bit _ hlt hj, Bool.or_eq_false_iff, decide_eq_false_iff_not, h.flags j hj, List.mem_map, hsub]
      constructor
      · rintro ⟨⟨l, hl, hlp⟩, hne⟩
        refine ⟨l, ⟨hl, ?_⟩, hlp⟩
        rintro rfl; exact hne (chunk_inj hC (hlp.symm.trans hp))
      · rintro ⟨l, ⟨hl, hne⟩, hlp⟩
        refine ⟨⟨l, hl, hlp⟩, ?_⟩
        rintro rfl
        exact hne (List.inj_on_of_nodup_map h.nodup hl hk (hlp.trans hp.symm))

theorem bucket_init_keeps {C : Nat} (hC : 0 < C) {sys : Sys} (h : SysOk sys) {R F : List Blk} (hr : sys.regions.Perm (R ++ F))
    (L : List Blk) (hL : ∀ l ∈ L, ∃ r ∈ R, Inside l r) :
    Keeps sys (Bucket.init C sys).2 L F ((Bucket.init C sys).1.region C :: R) ∧ BInv C (Bucket.init C sys).1 [] ∧
    ∀ r ∈ sys.regions, Apart ((Bucket.init C sys).1.region C) r := by
  refine ⟨zero_keeps (malloc_keeps h hr (by omega) L) ⟨_, List.mem_cons_self, inside_refl _⟩ ?_, binv_init C _, malloc_apart h (64 * C)⟩
  intro l hl
  obtain ⟨r, hrm, hi⟩ := hL l hl
  exact Apart.inside (malloc_apart h (64 * C) r (hr.symm.subset (List.mem_append_left _ hrm))) (inside_refl _) hi

theorem bucket_lawful {C : Nat} (hC : 0 < C) :
    Lawful (bucket C) True (fun n => 0 < n ∧ n ≤ C) (fun b L R => R = [b.region C] ∧ BInv C b L) where
  init sys h := by
    obtain ⟨h1, h2, _⟩ := bucket_init_keeps hC h (R := []) (F := sys.regions) (List.Perm.refl _) [] (by simp)
    exact ⟨_, ⟨rfl, h2⟩, h1⟩
  sound st L R h hR := by
    obtain ⟨rfl, h⟩ := h
    obtain ⟨h1, h2⟩ := binv_sound h
    exact ⟨h1, fun b hb => ⟨(h2 b hb).1, _, List.mem_singleton_self _, (h2 b hb).2⟩⟩
  allocate st L R F sys n k st' sys' hi hs hr hn he := by
    obtain ⟨rfl, hi⟩ := hi
    simp only [bucket, Option.bind_eq_bind, Option.bind_eq_some_iff, Option.pure_def, Option.some.injEq, Prod.mk.injEq] at he
    obtain ⟨⟨k', b'⟩, he, rfl, rfl, rfl⟩ := he
    obtain ⟨h1, h2, h3, _⟩ := binv_allocate hC hi hn he
    exact ⟨h1, _, ⟨rfl, h3⟩, Keeps.refl hs (by rw [Bucket.region, h2]; exact hr)⟩
  allocateZero st L R F sys n k st' sys' hi hs hr hn he := by
    obtain ⟨rfl, hi⟩ := hi
    simp only [bucket, Option.bind_eq_bind, Option.bind_eq_some_iff, Option.pure_def, Option.some.injEq, Prod.mk.injEq] at he
    obtain ⟨⟨k', b'⟩, he, rfl, rfl, rfl⟩ := he
    obtain ⟨h1, h2, h3, h4, h5, _⟩ := binv_allocate hC hi hn he
    subst h1
    refine ⟨rfl, fun _ => zero_zeroed _ _ _, _, ⟨rfl, h3⟩, zero_keeps (Keeps.refl hs ?_) ⟨_, List.mem_singleton_self _, ?_⟩ h4⟩
    · rw [Bucket.region, h2]; exact hr
    · rw [Bucket.region, h2]; exact h5
  deallocate st L R F sys k hi hs hr hk := by
    obtain ⟨rfl, hi⟩ := hi
    obtain ⟨b', h1, h2, h3⟩ := binv_deallocate hC hi hk
    refine ⟨b', sys, [b'.region C], ?_, ⟨rfl, h3⟩, Keeps.refl hs ?_⟩
    · simp [bucket, h1]
    · rw [Bucket.region, h2]; exact hr

/-- Full and empty. -/
theorem binv_count {C : Nat} (hC : 0 < C) {b : Bucket} {L : List Blk} (h : BInv C b L) :
    L.length ≤ 64 ∧ (b.isFull = true ↔ L.length = 64) ∧ (b.isEmpty = true ↔ L = []) := by
  have hcand : ((List.range 64).map (fun (i : Nat) => b.p + (i : Int) * C)).Nodup :=
    List.Nodup.map (fun i j hij => chunk_inj hC hij) List.nodup_range
  have hsub : L.map Blk.ptr ⊆ (List.range 64).map (fun (i : Nat) => b.p + (i : Int) * C) := by
    intro x hx
    obtain ⟨k, hk, rfl⟩ := List.mem_map.1 hx
    obtain ⟨pos, hp, hpp⟩ := h.chunk k hk
    exact List.mem_map.2 ⟨pos, List.mem_range.2 hp, hpp.symm⟩
  have hle := (h.nodup.subperm hsub).length_le
  simp only [List.length_map, List.length_range] at hle
  refine ⟨hle, ⟨fun hf => ?_, fun hl => ?_⟩, ⟨fun hf => ?_, fun hl => ?_⟩⟩
  · simp only [Bucket.isFull, beq_iff_eq] at hf
    have hsub' : (List.range 64).map (fun (i : Nat) => b.p + (i : Int) * C) ⊆ L.map Blk.ptr := by
      intro x hx
      obtain ⟨pos, hp, rfl⟩ := List.mem_map.1 hx
      exact (h.flags pos (List.mem_range.1 hp)).1 (by rw [hf]; simp)
    have := (hcand.subperm hsub').length_le
    simp only [List.length_map, List.length_range] at this
    omega
  · simp only [Bucket.isFull, beq_iff_eq]
    have hperm := (h.nodup.subperm hsub).perm_of_length_le (by simp [hl])
    apply BitVec.eq_of_getLsbD_eq
    intro i hi
    rw [(h.flags i hi).2 (hperm.symm.subset (List.mem_map.2 ⟨i, List.mem_range.2 hi, rfl⟩))]
    simp
  · simp only [Bucket.isEmpty, beq_iff_eq] at hf
    cases L with
    | nil => rfl
    | cons k l =>
      exfalso
      obtain ⟨pos, hp, hpp⟩ := h.chunk k List.mem_cons_self
      have := (h.flags pos hp).2 (by rw [← hpp]; simp)
      rw [hf] at this
      rw [BitVec.getLsbD_allOnes] at this; simp [hp] at this
  · subst hl
    simp only [Bucket.isEmpty, beq_iff_eq]
    apply BitVec.eq_of_getLsbD_eq
    intro i hi
    have := (h.flags i hi)
    cases hb : b.flags.getLsbD i with
    | false => exact absurd (this.1 hb) (by simp)
    | true => rw [BitVec.getLsbD_allOnes]; simp [hi]

end Nda.Alloc
