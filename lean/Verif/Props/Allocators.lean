import Verif.Lemmas.AllocWrap
/-!
# C30, C31, C32: the allocators

A client of an allocator performs an arbitrary history of requests, releases of blocks it holds, and
writes into blocks it holds (`World.run`), in a system whose heap chooses addresses by an arbitrary
strategy that respects the contract of `malloc` (`SysOk`).  `Safe`, `Contents` (`Spec/Alloc.lean`) say
what the client may expect.
-/
namespace Nda.Alloc
open Spec

/-- A system for the examples: 16 bytes at 100 are in use, memory is full of sevens, the heap grows
upwards. -/
def sampleSys : Sys where
  pick _ regs _ := regs.foldl (fun a r => max a (r.ptr + r.s)) 0
  time := 0
  regions := [⟨100, 16⟩]
  mem := fun _ => 7

theorem sampleSys_ok : SysOk sampleSys := by
  refine ⟨?_, by simp [sampleSys], by simp [sampleSys]⟩
  intro t regs n r hr
  right
  have key : ∀ (l : List Blk) (a : Int), (∀ r ∈ l, r.ptr + r.s ≤ l.foldl (fun (a : Int) (r : Blk) => max a (r.ptr + (r.s : Int))) a) ∧
      a ≤ l.foldl (fun (a : Int) (r : Blk) => max a (r.ptr + (r.s : Int))) a := by
    intro l
    induction l with
    | nil => simp
    | cons c l ih =>
      intro a
      have h1 := ih (max a (c.ptr + c.s))
      simp only [List.foldl_cons, List.mem_cons]
      refine ⟨?_, le_trans (le_max_left _ _) h1.2⟩
      rintro r (rfl | hr)
      · exact le_trans (le_max_right _ _) h1.2
      · exact h1.1 r hr
  exact (key regs 0).1 r hr

/-! ### The bucket -/

/-- **C30.**  After every history of a bucket with chunks of `C` bytes (requests of 1 to `C` bytes),
the live blocks do not overlap and lie inside the bucket, each at the start of a chunk; `is_full` and
`empty` are right; every further operation leaves the contents of live blocks alone. -/
theorem C30_bucket {C : Nat} (hC : 0 < C) {sys0 : Sys} (h0 : SysOk sys0) {ops : List Op} (hs : Sizes (fun n => 0 < n ∧ n ≤ C) ops)
    {w : World Bucket} (hr : (World.start (bucket C) sys0).run (bucket C) ops = some w) :
    Safe sys0 w ∧
    (∀ k ∈ w.held, Inside k ⟨w.st.p, 64 * C⟩ ∧ ∃ pos : Nat, pos < 64 ∧ k.ptr = w.st.p + (pos : Int) * C) ∧
    ⟨w.st.p, 64 * C⟩ ∈ w.sys.regions ∧
    w.held.length ≤ 64 ∧ (w.st.isFull = true ↔ w.held.length = 64) ∧ (w.st.isEmpty = true ↔ w.held = []) ∧
    ∀ op, Sizes (fun n => 0 < n ∧ n ≤ C) [op] → ∀ w', w.step (bucket C) op = some w' → Contents True w w' op := by
  obtain ⟨⟨R, hc⟩, h1, h2⟩ := history (bucket_lawful hC) h0 hs hr
  obtain ⟨hR, hb⟩ := hc.inv
  obtain ⟨c1, c2, c3⟩ := binv_count hC hb
  refine ⟨h1, fun k hk => ⟨((binv_sound hb).2 k hk).2, hb.chunk k hk⟩, ?_, c1, c2, c3, h2⟩
  apply hc.keeps.regions.symm.subset
  rw [hR]; simp [Bucket.region]

/-- **C30** (which chunk is handed out).  The next request gets the lowest chunk that no live block
occupies, and is refused (the program aborts) exactly when 64 blocks are live.  Hence a released chunk
is available again, and only then. -/
theorem C30_next {C : Nat} (hC : 0 < C) {sys0 : Sys} (h0 : SysOk sys0) {ops : List Op} (hs : Sizes (fun n => 0 < n ∧ n ≤ C) ops)
    {w : World Bucket} (hr : (World.start (bucket C) sys0).run (bucket C) ops = some w) {n : Nat} (hn : 0 < n ∧ n ≤ C) :
    (w.held.length = 64 → w.step (bucket C) (.alloc n) = none) ∧
    (w.held.length ≠ 64 → ∃ w', w.step (bucket C) (.alloc n) = some w' ∧ ∃ pos : Nat, pos < 64 ∧
      w'.held = ⟨w.st.p + (pos : Int) * C, n⟩ :: w.held ∧
      (∀ k ∈ w.held, k.ptr ≠ w.st.p + (pos : Int) * C) ∧
      ∀ j : Nat, j < pos → ∃ k ∈ w.held, k.ptr = w.st.p + (j : Int) * C) := by
  obtain ⟨⟨R, hc⟩, h1, h2⟩ := history (bucket_lawful hC) h0 hs hr
  obtain ⟨hR, hb⟩ := hc.inv
  obtain ⟨c1, c2, c3⟩ := binv_count hC hb
  constructor
  · intro hl
    have hf := c2.2 hl
    simp only [Bucket.isFull, beq_iff_eq] at hf
    simp [World.step, bucket, Bucket.allocate, hf]
  · intro hl
    have hf : w.st.isFull = false := by
      rw [Bool.eq_false_iff]; intro h; exact hl (c2.1 h)
    obtain ⟨k, b', he⟩ := allocate_not_full (C := C) (n := n) hf
    obtain ⟨a1, _, _, _, _, pos, p1, p2, p3, p4⟩ := binv_allocate hC hb hn he
    refine ⟨⟨b', w.sys, k :: w.held⟩, by simp [World.step, bucket, he], pos, p1, ?_, ?_, ?_⟩
    · obtain ⟨ptr, s⟩ := k
      simp only at a1 p2
      rw [a1, p2]
    · intro l hl' he'
      apply p3
      rw [p2, ← he']; exact List.mem_map_of_mem hl'
    · intro j hj
      obtain ⟨l, hl', he'⟩ := List.mem_map.1 (p4 j hj)
      exact ⟨l, hl', he'⟩

/-- Releasing a live block always succeeds. -/
theorem C30_release {C : Nat} (hC : 0 < C) {sys0 : Sys} (h0 : SysOk sys0) {ops : List Op} (hs : Sizes (fun n => 0 < n ∧ n ≤ C) ops)
    {w : World Bucket} (hr : (World.start (bucket C) sys0).run (bucket C) ops = some w) (i : Nat) :
    ∃ w', w.step (bucket C) (.free i) = some w' := by
  obtain ⟨⟨R, hc⟩, _, _⟩ := history (bucket_lawful hC) h0 hs hr
  simp only [World.step]
  cases hk : w.held[i]? with
  | none => exact ⟨_, rfl⟩
  | some k =>
    obtain ⟨st', sys', R', he, _⟩ := (bucket_lawful hC).deallocate _ _ _ _ _ _ hc.inv hc.keeps.ok hc.keeps.regions (List.mem_of_getElem? hk)
    exact ⟨_, by simp only [he]; rfl⟩

/-- A history: three requests, release of the second, a fourth request, which gets its chunk. -/
example : ((World.start (bucket 8) sampleSys).run (bucket 8) [.alloc 8, .alloc 5, .allocZero 8, .free 1, .alloc 3]).map World.held
    = some [⟨124, 3⟩, ⟨132, 8⟩, ⟨116, 8⟩] := by decide

example : Sizes (fun n => 0 < n ∧ n ≤ 8) [.alloc 8, .alloc 5, .allocZero 8, .free 1, .alloc 3] := by
  simp [Sizes]

/-- The bucket does not check the size of a request (the `FIXME` at line 113): two requests that are
too big overlap. -/
theorem C30_oversize_witness : ∃ w, (World.start (bucket 8) sampleSys).run (bucket 8) [.alloc 16, .alloc 16] = some w ∧
    ¬ w.held.Pairwise Apart := by
  refine ⟨_, rfl, ?_⟩
  intro h
  have : Apart ⟨124, 16⟩ ⟨116, 16⟩ := by
    rw [List.pairwise_cons] at h
    exact h.1 _ List.mem_cons_self
  simp only [Apart] at this
  omega

/-! ### The multi-bucket allocator -/

/-- **C31.**  Every history of a multi-bucket allocator runs to completion; the live blocks do not
overlap; the buckets are sorted by address, do not overlap, there is at least one; each live block
belongs to exactly one of them. -/
theorem C31_multi_bucket {C : Nat} (hC : 0 < C) {sys0 : Sys} (h0 : SysOk sys0) {ops : List Op} (hs : Sizes (fun n => 0 < n ∧ n ≤ C) ops) :
    ∃ w, (World.start (multiBucket C) sys0).run (multiBucket C) ops = some w ∧ Safe sys0 w ∧
      w.st.vec ≠ [] ∧ w.st.vec.Pairwise (fun b b' => b.p + 64 * (C : Int) ≤ b'.p) ∧
      (∀ b ∈ w.st.vec, ⟨b.p, 64 * C⟩ ∈ w.sys.regions) ∧
      (∀ k ∈ w.held, ∃ b ∈ w.st.vec, Inside k ⟨b.p, 64 * C⟩ ∧ ∀ b' ∈ w.st.vec, Inside k ⟨b'.p, 64 * C⟩ → b' = b) ∧
      ∀ op, Sizes (fun n => 0 < n ∧ n ≤ C) [op] → ∀ w', w.step (multiBucket C) op = some w' → Contents True w w' op := by
  obtain ⟨R0, hc0⟩ := start_client (multi_lawful hC) h0
  obtain ⟨w, hw⟩ := total_run (multi_lawful hC) (multi_total hC) hc0 hs
  obtain ⟨⟨R, hc⟩, h1, h2⟩ := history (multi_lawful hC) h0 hs hw
  have hm := hc.inv
  refine ⟨w, hw, h1, hm.ne, ?_, ?_, ?_, h2⟩
  · have := hm.sorted
    rw [List.pairwise_map] at this
    exact this
  · intro b hb
    apply hc.keeps.regions.symm.subset
    rw [hm.regions]
    exact List.mem_append_left _ (List.mem_map_of_mem (f := Bucket.region C) hb)
  · intro k hk
    obtain ⟨b, hb, ho⟩ := hm.cover k hk
    have hin := (binv_sound (hm.each b hb)).2 k (List.mem_filter.2 ⟨hk, ho⟩)
    refine ⟨b, hb, hin.2, fun b' hb' hin' => ?_⟩
    obtain ⟨i, hi⟩ := List.mem_iff_getElem?.1 hb
    obtain ⟨j, hj⟩ := List.mem_iff_getElem?.1 hb'
    have ho' : b'.owns C k = true := owns_of_inside hin' hin.1
    have := owns_unique hm.sorted hi hj ho ho'
    subst this
    rw [hi] at hj; cases hj; rfl

/-- **C31** (routing).  Releasing a live block gives it back to the bucket in which it lies: that bucket
alone changes, by marking the chunk free, or, if it is then empty and there are others, by being given
back to the system. -/
theorem C31_routing {C : Nat} (hC : 0 < C) {sys0 : Sys} (h0 : SysOk sys0) {ops : List Op} (hs : Sizes (fun n => 0 < n ∧ n ≤ C) ops)
    {w : World Multi} (hr : (World.start (multiBucket C) sys0).run (multiBucket C) ops = some w) {i : Nat} {k : Blk} (hk : w.held[i]? = some k) :
    ∃ w' j b, w.step (multiBucket C) (.free i) = some w' ∧ w.st.vec[j]? = some b ∧ Inside k ⟨b.p, 64 * C⟩ ∧
      ∃ b' : Bucket, b'.p = b.p ∧
        (∃ pos : Nat, pos < 64 ∧ k.ptr = b.p + (pos : Int) * C ∧ b.flags.getLsbD pos = false ∧
          ∀ q : Nat, q < 64 → b'.flags.getLsbD q = (b.flags.getLsbD q || decide (q = pos))) ∧
        (w'.st.vec = w.st.vec.set j b' ∨ (b'.isEmpty = true ∧ 1 < w.st.vec.length ∧ w'.st.vec = w.st.vec.eraseIdx j)) := by
  obtain ⟨⟨R, hc⟩, _, _⟩ := history (multi_lawful hC) h0 hs hr
  have hm := hc.inv
  have hkm := List.mem_of_getElem? hk
  obtain ⟨m', sys', R', e, _, _, j, b, b', r1, r2, r3, r4⟩ := multi_deallocate hC hm hc.keeps.ok hc.keeps.regions hkm
  have hb := hm.each b (List.mem_of_getElem? r1)
  have hkf : k ∈ w.held.filter (b.owns C) := List.mem_filter.2 ⟨hkm, r2⟩
  obtain ⟨pos, p1, p2⟩ := hb.chunk k hkf
  have hdiv : (k.ptr - b.p).tdiv C = pos := by
    rw [p2, show b.p + (pos : Int) * C - b.p = (pos : Int) * C by ring]
    exact Int.mul_tdiv_cancel _ (by omega)
  have hb' : b' = { b with flags := b.flags ||| (1#64 <<< pos) } := by
    unfold Bucket.deallocate at r3
    rw [if_neg (by omega), hdiv] at r3
    simpa [p1] using r3.symm
  refine ⟨⟨m', sys', w.held.eraseIdx i⟩, j, b, ?_, r1, ((binv_sound hb).2 k hkf).2, b', by rw [hb'],
    ⟨pos, p1, p2, ?_, fun q hq => ?_⟩, r4⟩
  · simp only [World.step, hk, show (multiBucket C).deallocate k w.st w.sys = w.st.deallocate C k w.sys from rfl, e]; rfl
  · rw [hb.flags pos p1, ← p2]; exact List.mem_map_of_mem hkf
  · rw [hb']; exact set_bit _ p1 hq

/-- 66 requests need a second bucket; releasing the first two blocks of the second bucket empties it. -/
example : ((World.start (multiBucket 1) sampleSys).run (multiBucket 1) (List.replicate 66 (.alloc 1))).map (fun w => (w.st.vec.map Bucket.p, w.st.cur))
    = some ([116, 180], 1) := by decide +kernel

/-! ### The composed allocators -/

section
variable {σ τ : Type} {A : Allocator σ} {B : Allocator τ} {z : Prop} {okA okB ok : Nat → Prop}
  {IA : σ → List Blk → List Blk → Prop} {IB : τ → List Blk → List Blk → Prop}

/-- **C32** (segregator).  If both parts are correct allocators then so is the segregator: after every
history, its live blocks do not overlap (also those from different parts), and the live blocks of each
part are exactly the blocks it has handed out, so that every release goes to the part the block came
from. -/
theorem C32_segregator (T : Nat) (hA : Lawful A z okA IA) (hB : Lawful B z okB IB) {sys0 : Sys} (h0 : SysOk sys0) {ops : List Op}
    (hs : Sizes (fun n => if n ≤ T then okA n else okB n) ops) {w : World (σ × τ)}
    (hr : (World.start (segregator T A B) sys0).run (segregator T A B) ops = some w) :
    Safe sys0 w ∧
    (∃ RA RB, IA w.st.1 (w.held.filter (fun k => k.s ≤ T)) RA ∧ IB w.st.2 (w.held.filter (fun k => ¬ k.s ≤ T)) RB) ∧
    (∀ i, ∃ w', w.step (segregator T A B) (.free i) = some w') ∧
    ∀ op, Sizes (fun n => if n ≤ T then okA n else okB n) [op] → ∀ w', w.step (segregator T A B) op = some w' → Contents z w w' op := by
  have law := segregator_lawful T hA hB
  obtain ⟨⟨R, hc⟩, h1, h2⟩ := history law h0 hs hr
  obtain ⟨RA, RB, _, ha, hb⟩ := hc.inv
  refine ⟨h1, ⟨RA, RB, ha, hb⟩, fun i => ?_, h2⟩
  simp only [World.step]
  cases hk : w.held[i]? with
  | none => exact ⟨_, rfl⟩
  | some k =>
    obtain ⟨st', sys', R', he, _⟩ := law.deallocate _ _ _ _ _ _ hc.inv hc.keeps.ok hc.keeps.regions (List.mem_of_getElem? hk)
    exact ⟨_, by simp only [he]; rfl⟩

/-- **C32** (leak checker).  After every history, the counter is the total size of the live blocks; it
reports a leak exactly if a block is live; it never aborts on a release. -/
theorem C32_leak_check (hA : Lawful A z ok IA) {sys0 : Sys} (h0 : SysOk sys0) {ops : List Op} (hs : Sizes ok ops) {w : World (σ × Int)}
    (hr : (World.start (leakCheck A) sys0).run (leakCheck A) ops = some w) :
    Safe sys0 w ∧ w.st.2 = (w.held.map (fun k => (k.s : Int))).sum ∧ (leakCheckEmpty w.st = true ↔ w.held = []) ∧
    (∀ i, ∃ w', w.step (leakCheck A) (.free i) = some w') ∧
    ∀ op, Sizes ok [op] → ∀ w', w.step (leakCheck A) op = some w' → Contents z w w' op := by
  have law := leakCheck_lawful hA
  obtain ⟨⟨R, hc⟩, h1, h2⟩ := history law h0 hs hr
  refine ⟨h1, hc.inv.2, ?_, fun i => ?_, h2⟩
  · simp only [leakCheckEmpty, beq_iff_eq, hc.inv.2]
    constructor
    · intro ht
      cases hh : w.held with
      | nil => rfl
      | cons k l =>
        rw [hh, total_cons] at ht
        have := h1.pos k (by rw [hh]; exact List.mem_cons_self)
        have := total_nonneg l
        omega
    · intro hh; rw [hh]; simp [total]
  · simp only [World.step]
    cases hk : w.held[i]? with
    | none => exact ⟨_, rfl⟩
    | some k =>
      obtain ⟨st', sys', R', he, _⟩ := law.deallocate _ _ _ _ _ _ hc.inv hc.keeps.ok hc.keeps.regions (List.mem_of_getElem? hk)
      exact ⟨_, by simp only [he]; rfl⟩

/-- `k` leading zeros among 64 bits. -/
theorem clz_bucket (n i : Nat) (hi : i < 65) : (clz n == some i) = (decide (2 ^ (63 - i) ≤ n) && decide (n < 2 ^ (64 - i))) := by
  rw [Bool.eq_iff_iff]
  simp only [beq_iff_eq, Bool.and_eq_true, decide_eq_true_eq]
  unfold clz
  by_cases h0 : n = 0
  · have : 0 < 2 ^ (63 - i) := Nat.two_pow_pos _
    simp only [h0, true_or, if_true]
    constructor
    · nofun
    · omega
  by_cases h64 : 2 ^ 64 ≤ n
  · have : 2 ^ (64 - i) ≤ 2 ^ 64 := Nat.pow_le_pow_right (by omega) (by omega)
    simp only [h64, or_true, if_true]
    constructor
    · nofun
    · omega
  have hlog := (Nat.log2_lt h0 (k := 64)).mpr (by omega)
  have hle := Nat.log2_self_le h0
  have hlt := Nat.lt_log2_self (n := n)
  rw [if_neg (by omega), Option.some.injEq]
  constructor
  · intro h
    have e : 63 - i = n.log2 := by omega
    have e' : 64 - i = n.log2 + 1 := by omega
    rw [e, e']; exact ⟨hle, hlt⟩
  · rintro ⟨h1, h2⟩
    have a : 63 - i < n.log2 + 1 := (Nat.pow_lt_pow_iff_right (by omega : 1 < 2)).mp (by omega)
    have b : n.log2 < 64 - i := (Nat.pow_lt_pow_iff_right (by omega : 1 < 2)).mp (by omega)
    omega

/-- **C32** (statistics; partial: zeroing requests are not honoured, see the witness).  The blocks are
safe; entry `i` of the histogram counts the requests of `2 ^ (63 - i)` to `2 ^ (64 - i) - 1` bytes. -/
theorem C32_stats_partial (hA : Lawful A z ok IA) {sys0 : Sys} (h0 : SysOk sys0) {ops : List Op} (hs : Sizes ok ops) {w : World (σ × List Nat)}
    (hr : (World.start (stats A) sys0).run (stats A) ops = some w) :
    Safe sys0 w ∧
    (∀ i < 65, w.st.2[i]? = some (ops.countP (requestIn (2 ^ (63 - i)) (2 ^ (64 - i))))) ∧
    ∀ op, Sizes ok [op] → ∀ w', w.step (stats A) op = some w' → Contents False w w' op := by
  obtain ⟨⟨R, hc⟩, h1, h2⟩ := history (stats_lawful hA) h0 hs hr
  refine ⟨h1, ?_, h2⟩
  clear hc h2 h1 hs
  have count_get : ∀ n (h h' : List Nat), count n h = some h' → ∀ i, h'[i]? = (h[i]?).map (· + (if clz n = some i then 1 else 0)) := by
    intro n h h' he i
    simp only [count, Option.bind_eq_bind, Option.bind_eq_some_iff, Option.pure_def, Option.some.injEq] at he
    obtain ⟨c, hc, x, hx, rfl⟩ := he
    rw [hc, List.getElem?_set]
    by_cases hci : c = i
    · subst hci
      obtain ⟨hl, hx'⟩ := List.getElem?_eq_some_iff.1 hx
      simp [hl, hx']
    · simp [hci]
  have key : ∀ (ops : List Op) (w0 w : World (σ × List Nat)), w0.run (stats A) ops = some w → ∀ i,
      w.st.2[i]? = (w0.st.2[i]?).map (· + ops.countP (fun op => match op with
      | .alloc n => clz n == some i
      | .allocZero n => clz n == some i
      | _ => false)) := by
    intro ops
    induction ops with
    | nil =>
      intro w0 w hr i
      simp only [World.run, List.foldlM_nil, Option.pure_def, Option.some.injEq] at hr
      subst hr; simp
    | cons op ops ih =>
      intro w0 w hr i
      simp only [World.run, List.foldlM_cons, Option.bind_eq_bind, Option.bind_eq_some_iff] at hr
      obtain ⟨w1, e1, e2⟩ := hr
      rw [ih w1 w e2 i]
      have hstep : w1.st.2[i]? = (w0.st.2[i]?).map (· + [op].countP (fun op => match op with
          | .alloc n => clz n == some i
          | .allocZero n => clz n == some i
          | _ => false)) := by
        cases op with
        | alloc n =>
          simp only [World.step, stats, Option.bind_eq_bind, Option.bind_eq_some_iff, Option.pure_def, Option.some.injEq] at e1
          obtain ⟨⟨k, st, sys⟩, ⟨h, hh, ⟨k', a, s'⟩, _, e⟩, rfl⟩ := e1
          simp only [Prod.mk.injEq] at e
          obtain ⟨rfl, rfl, rfl⟩ := e
          simp only [count_get _ _ _ hh i, List.countP_cons, List.countP_nil, Nat.zero_add, beq_iff_eq]
        | allocZero n =>
          simp only [World.step, stats, Option.bind_eq_bind, Option.bind_eq_some_iff, Option.pure_def, Option.some.injEq] at e1
          obtain ⟨⟨k, st, sys⟩, ⟨h, hh, ⟨k', a, s'⟩, _, e⟩, rfl⟩ := e1
          simp only [Prod.mk.injEq] at e
          obtain ⟨rfl, rfl, rfl⟩ := e
          simp only [count_get _ _ _ hh i, List.countP_cons, List.countP_nil, Nat.zero_add, beq_iff_eq]
        | free j =>
          simp only [World.step] at e1
          split at e1
          · simp only [Option.some.injEq] at e1; subst e1; simp
          · simp only [stats, Option.bind_eq_bind, Option.bind_eq_some_iff, Option.pure_def, Option.some.injEq] at e1
            obtain ⟨⟨st, sys⟩, ⟨⟨a, s'⟩, _, e⟩, rfl⟩ := e1
            simp only [Prod.mk.injEq] at e
            obtain ⟨rfl, rfl⟩ := e
            simp
        | write j off x =>
          simp only [World.step] at e1
          split at e1
          · simp only [Option.some.injEq] at e1; subst e1; simp
          · split at e1 <;> (simp only [Option.some.injEq] at e1; subst e1; simp)
      rw [hstep, List.countP_cons, List.countP_cons, List.countP_nil]
      cases w0.st.2[i]? with
      | none => rfl
      | some x => simp only [Option.map_some, Option.some.injEq]; omega
  intro i hi
  rw [key ops _ w hr i]
  have : (World.start (stats A) sys0).st.2[i]? = some 0 := by
    show (List.replicate 65 0)[i]? = some 0
    rw [List.getElem?_replicate, if_pos hi]
  rw [this, Option.map_some, Nat.zero_add]
  congr 2
  funext op
  cases op <;> simp only [requestIn, clz_bucket _ _ hi]

end

/-- **C32** (false for `stats`): a zeroing request returns a block that is not zero. -/
theorem C32_stats_zero_witness : ∃ w, (World.start (stats mallocator) sampleSys).run (stats mallocator) [.allocZero 4] = some w ∧
    w.held = [⟨116, 4⟩] ∧ ¬ Zeroed ⟨116, 4⟩ w.sys.mem := by
  refine ⟨_, rfl, rfl, fun h => ?_⟩
  have := h 116 ⟨by decide, by decide⟩
  exact absurd this (by decide)

/-- **C32** (zeroed memory).  A zeroing request to any combination of malloc, buckets, segregators and
leak checkers returns zeroed memory; here for a leak checker over a segregator over a multi-bucket
allocator and malloc, for all histories, which all run to completion. -/
theorem C32_composed {C : Nat} (hC : 0 < C) {sys0 : Sys} (h0 : SysOk sys0) {ops : List Op} (hs : Sizes (0 < ·) ops) :
    ∃ w, (World.start (leakCheck (segregator C (multiBucket C) mallocator)) sys0).run (leakCheck (segregator C (multiBucket C) mallocator)) ops = some w ∧
      Safe sys0 w ∧ w.st.2 = (w.held.map (fun k => (k.s : Int))).sum ∧
      ∀ n, 0 < n → ∃ w' k, w.step (leakCheck (segregator C (multiBucket C) mallocator)) (.allocZero n) = some w' ∧
        w'.held = k :: w.held ∧ k.s = n ∧ Zeroed k w'.sys.mem := by
  have lawS := segregator_lawful C (multi_lawful hC) mallocator_lawful
  have totS := segregator_total C (multi_total hC) (mallocator_total (ok := (0 < ·)) (fun _ L R => R.Perm L ∧ ∀ b ∈ L, 0 < b.s))
  have law := leakCheck_lawful lawS
  have tot := leakCheck_total totS
  have hok : ∀ n, 0 < n → (fun n => if n ≤ C then 0 < n ∧ n ≤ C else 0 < n) n := by
    intro n hn
    show if n ≤ C then 0 < n ∧ n ≤ C else 0 < n
    split
    · exact ⟨hn, by assumption⟩
    · exact hn
  have hs' : Sizes (fun n => if n ≤ C then 0 < n ∧ n ≤ C else 0 < n) ops := by
    intro op hop
    have := hs op hop
    cases op with
    | alloc n => exact hok n this
    | allocZero n => exact hok n this
    | free i => trivial
    | write i o x => trivial
  obtain ⟨R0, hc0⟩ := start_client law h0
  obtain ⟨w, hw⟩ := total_run law tot hc0 hs'
  obtain ⟨⟨R, hc⟩, h1, h2⟩ := history law h0 hs' hw
  refine ⟨w, hw, h1, hc.inv.2, fun n hn => ?_⟩
  have hsz : Sizes (fun n => if n ≤ C then 0 < n ∧ n ≤ C else 0 < n) [.allocZero n] := by
    intro op hop
    simp only [List.mem_singleton] at hop
    subst hop
    exact hok n hn
  obtain ⟨w', hw'⟩ := total_run law tot hc hsz
  have hw'' : w.step (leakCheck (segregator C (multiBucket C) mallocator)) (.allocZero n) = some w' := by
    simpa [World.run] using hw'
  obtain ⟨k, k1, k2, k3, _⟩ := h2 _ hsz w' hw''
  exact ⟨w', k, hw'', k1, k2, k3 trivial⟩

/-- A history over a composed allocator: small blocks come from the bucket at 116, the big one from
malloc. -/
example : ((World.start (leakCheck (segregator 8 (multiBucket 8) mallocator)) sampleSys).run (leakCheck (segregator 8 (multiBucket 8) mallocator))
    [.alloc 8, .alloc 100, .alloc 4, .free 1]).map (fun w => (w.held, w.st.2)) = some ([⟨124, 4⟩, ⟨116, 8⟩], 12) := by decide +kernel

end Nda.Alloc
