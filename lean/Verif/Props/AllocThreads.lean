import Verif.Lemmas.AllocThreads
import Verif.Props.Allocators
import Mathlib.Algebra.BigOperators.Group.List.Basic
import Mathlib.Data.List.Induction
/-!
# C91: an allocator used by several threads

The operations of the threads are sequences of single accesses (Model/AllocThreads), in any order.  The full statement would be: for every allocator of the library, for any number of
threads with any requests, releases and writes, in any order of their accesses, the blocks of all threads are apart, no operation aborts and nobody changes the contents of a block but the
thread that holds it.  This is proved for the default allocator `mallocator`.  It is false for all other allocators (the race theorems below): `flags`, `memory_used` and `hist` are plain
variables.  For them it is proved when the requests and releases of different threads do not overlap in time; writes to blocks may take place at any time, also while another thread is
inside a request or a release (`ExRuns`).  The accesses of all allocators of the library are `BlindA`: they do not read the contents of blocks (`mallocator_blind`, `bucket_blind`,
`multi_blind`, `segregator_blind`, `leakCheck_blind`, `stats_blind`).
-/
namespace Nda.Alloc
open Spec

section
variable {σ : Type} {A : PAlloc σ} {A' : Allocator σ} {z : Prop} {ok : Nat → Prop} {Inv : σ → List Blk → List Blk → Prop}

/-- **C91** (mutual exclusion).  Any number of threads use one allocator, and their requests and releases do not overlap in time.  Then the blocks of all threads are apart in every state,
also while one of them is inside an operation; between the operations the threads together are as safe as one client. -/
theorem C91_exclusive_partial (hr : Refines A A') (hb : BlindA A) (law : Lawful A' z ok Inv) {sys0 : Sys} (h0 : SysOk sys0) {progs : List (List Op)} (hs : ∀ ops ∈ progs, Sizes ok ops)
    {s : AState σ} (hruns : ExRuns A (fun _ => True) (AState.start (A'.init sys0) progs) s) : (allHeld s).Pairwise Apart ∧ (Quiet s → Safe sys0 (worldOf s)) := by
  obtain ⟨R0, hc0⟩ := start_client law h0
  obtain ⟨_, w, R, l, c⟩ := runs_lin hr hb law hruns (start_sizes hs) start_lin hc0
  refine ⟨lin_apart law l c, fun hq => ?_⟩
  obtain ⟨_, h2, h3⟩ := quiet_world l hq
  exact safe_perm (c.safe law) h2.symm h3

theorem total_step (law : Lawful A' z ok Inv) (tot : Total A' ok Inv) {sys0 : Sys} {w : World σ} {R : List Blk} (hc : Client Inv sys0 w R) {o : Op} (ho : Sizes ok [o]) : w.step A' o ≠ none := by
  obtain ⟨w', h⟩ := total_run law tot hc ho
  intro hn
  simp [World.run, hn] at h

/-- **C91** (mutual exclusion, contents).  Thread `i` rests while the others do anything: it holds the same blocks afterwards, with the same contents.  With an allocator that never gives up
this is so at every time, also in the middle of operations. -/
theorem C91_private_partial (hr : Refines A A') (hb : BlindA A) (law : Lawful A' z ok Inv) {sys0 : Sys} (h0 : SysOk sys0) {progs : List (List Op)} (hs : ∀ ops ∈ progs, Sizes ok ops)
    {s u : AState σ} (hruns : ExRuns A (fun _ => True) (AState.start (A'.init sys0) progs) s) (hq : Total A' ok Inv ∨ Quiet s ∧ Quiet u) {i : Nat} (hothers : ExRuns A (· ≠ i) s u)
    {t : AThr σ} (ht : s.thr[i]? = some t) : u.thr[i]? = some t ∧ ∀ b ∈ t.held, Same b s.sh.2.mem u.sh.2.mem := by
  obtain ⟨R0, hc0⟩ := start_client law h0
  obtain ⟨hs1, w, R, l, c⟩ := runs_lin hr hb law hruns (start_sizes hs) start_lin hc0
  obtain ⟨_, h1, w', R', l', c', h2⟩ := runs_private hr hb law hothers hs1 l c ht
  have hin : ∀ {v : AState σ}, v.thr[i]? = some t → ∀ b ∈ t.held, b ∈ allHeld v := fun hv b hb =>
    List.mem_flatten.2 ⟨t.held, List.mem_map.2 ⟨t, List.mem_of_getElem? hv, rfl⟩, hb⟩
  have hd : Quiet s ∨ ∀ o m, Sizes ok [o] → (⟨w.st, withMem w.sys m, w.held⟩ : World σ).step A' o ≠ none := by
    rcases hq with tot | hq
    · exact Or.inr fun o m ho => total_step law tot (client_mem c m) ho
    · exact Or.inl hq.1
  have hd' : Quiet u ∨ ∀ o m, Sizes ok [o] → (⟨w'.st, withMem w'.sys m, w'.held⟩ : World σ).step A' o ≠ none := by
    rcases hq with tot | hq
    · exact Or.inr fun o m ho => total_step law tot (client_mem c' m) ho
    · exact Or.inl hq.2
  refine ⟨h1, fun b hb a ha => ?_⟩
  rw [lin_mem l' hd' (hin h1 b hb) a ha, lin_mem l hd (hin ht b hb) a ha]
  exact h2 b hb a ha

/-- **C91** (mutual exclusion, no aborts).  With an allocator that never gives up (malloc, `multi_bucket`, a segregator or leak checker over them), no thread aborts. -/
theorem C91_no_abort_partial (hr : Refines A A') (hb : BlindA A) (law : Lawful A' z ok Inv) (tot : Total A' ok Inv) {sys0 : Sys} (h0 : SysOk sys0) {progs : List (List Op)}
    (hs : ∀ ops ∈ progs, Sizes ok ops) {s : AState σ} (hruns : ExRuns A (fun _ => True) (AState.start (A'.init sys0) progs) s) {i : Nat} (hgo : MayGo s i ∨ Writes s i) :
    s.step A i ≠ .abort := by
  obtain ⟨R0, hc0⟩ := start_client law h0
  obtain ⟨hs1, w, R, l, c⟩ := runs_lin hr hb law hruns (start_sizes hs) start_lin hc0
  intro hab
  obtain ⟨o, ho, hn⟩ := (step_lin hr hb law l c hs1 hgo).2 hab
  exact total_step law tot c ho hn

end

/-! ### The default allocator -/

/-- Nothing or one access. -/
def Short {S R : Type} (p : Prog S R) : Prop := (∃ r, p = .ret r) ∨ ∃ f c, p = .act f c ∧ ∀ s, (∃ r, c s = .ret r) ∨ c s = .fail

theorem mallocator_short (held : List Blk) (o : Op) : Short (opProg mallocatorP held o) := by
  cases o with
  | alloc n => exact Or.inr ⟨_, _, rfl, fun s => Or.inl ⟨_, rfl⟩⟩
  | allocZero n => exact Or.inr ⟨_, _, rfl, fun s => Or.inl ⟨_, rfl⟩⟩
  | free i =>
    simp only [opProg]
    cases held[i]? with
    | none => exact Or.inl ⟨_, rfl⟩
    | some k =>
      refine Or.inr ⟨_, _, rfl, fun s => ?_⟩
      by_cases h : (s.2.free k.ptr).isSome = true
      · left; simp only [h, if_true, Prog.bind]; exact ⟨_, rfl⟩
      · right; simp only [h, Bool.false_eq_true, if_false, Prog.bind]
  | write i off x =>
    simp only [opProg]
    cases held[i]? with
    | none => exact Or.inl ⟨_, rfl⟩
    | some k =>
      simp only
      split
      · exact Or.inr ⟨_, _, rfl, fun s => Or.inl ⟨_, rfl⟩⟩
      · exact Or.inl ⟨_, rfl⟩

theorem malloc_law : Lawful mallocator True (0 < ·) (fun _ L R => R.Perm L ∧ ∀ b ∈ L, 0 < b.s) := mallocator_lawful

theorem malloc_total : Total mallocator (0 < ·) (fun _ L R => R.Perm L ∧ ∀ b ∈ L, 0 < b.s) := mallocator_total _

theorem advance_quiet {s u : AState Unit} {i : Nat} {held : List Blk} {ops : List Op} {p : Prog (Unit × Sys) (Option Blk)} (hp : Short p) (hq : Quiet s) (h : advance s i held ops p = .ok u)
    (hi : i < s.thr.length) (hnf : ∀ t, u.thr[i]? = some t → t.cur ≠ some .fail) : Quiet u := by
  have key : ∀ t', u.thr = s.thr.set i t' → t'.cur = none → Quiet u := by
    intro t' e1 e2 t ht
    rw [e1] at ht
    rcases mem_set_cases ht with rfl | ht
    · simp [Busy, e2]
    · exact hq t ht
  rcases hp with ⟨r, rfl⟩ | ⟨f, c, rfl, hc⟩
  · simp only [advance, AOut.ok.injEq] at h
    subst h
    exact key _ rfl rfl
  · simp only [advance, AOut.ok.injEq] at h
    subst h
    rcases hc s.sh with ⟨r, hr⟩ | hf
    · exact key (settle held ops (c s.sh)) rfl (by rw [hr]; rfl)
    · exact absurd (by rw [hf]; rfl) (hnf (settle held ops (c s.sh)) (List.getElem?_set_self hi))

theorem malloc_runs {sys0 : Sys} {P : Nat → Prop} {s u : AState Unit} {w : World Unit} {R : List Blk} (hruns : ARuns mallocatorP P s u) (hs : AllSizes (0 < ·) s)
    (hlin : Lin mallocator (0 < ·) s w) (hc : Client (fun _ L R => R.Perm L ∧ ∀ b ∈ L, 0 < b.s) sys0 w R) (hq : Quiet s) :
    Quiet u ∧ ExRuns mallocatorP P s u ∧ AllSizes (0 < ·) u ∧ ∃ w' R', Lin mallocator (0 < ·) u w' ∧ Client (fun _ L R => R.Perm L ∧ ∀ b ∈ L, 0 < b.s) sys0 w' R' := by
  induction hruns with
  | refl => exact ⟨hq, .refl _, hs, w, R, hlin, hc⟩
  | @tail v v' j _ hj hstep ih =>
    obtain ⟨q1, e1, s1, w1, R1, l1, c1⟩ := ih
    have hgo : MayGo v j := fun j' t ht hb => absurd hb (q1 t (List.mem_of_getElem? ht))
    obtain ⟨h1, w2, tj, htj, ⟨t', hset⟩, h2, h3⟩ := (step_lin mallocator_refines mallocator_blind malloc_law l1 c1 s1 (Or.inl hgo)).1 _ hstep
    obtain ⟨R2, c2⟩ := trans_client malloc_law h2 c1
    refine ⟨?_, .tail e1 hj (Or.inl hgo) hstep, h1, w2, R2, h3, c2⟩
    have hcur : tj.cur = none := by
      have := q1 tj (List.mem_of_getElem? htj)
      simpa [Busy] using this
    obtain ⟨hjl, _⟩ := List.getElem?_eq_some_iff.1 htj
    have hnf : ∀ t, v'.thr[j]? = some t → t.cur ≠ some .fail := by
      intro t ht hf
      cases h3 with
      | quiet a1 a2 a3 a4 => exact absurd (a4 t (List.mem_of_getElem? ht)) (by simp [Busy, hf])
      | busy j' t1 p r Z a1 a2 a3 ab a4 a5 a6 a7 =>
        by_cases hjj : j = j'
        · subst hjj
          rw [ht, Option.some.injEq] at a1
          subst a1
          rw [hf, Option.some.injEq] at a2
          subst a2
          have := a4 v'.sh.2.mem
          simp [Prog.run] at this
        · exact absurd (a3 j t hjj ht) (by simp [Busy, hf])
      | doomed j' t1 p o a1 a2 a3 ab a4 a5 a6 a7 => exact total_step malloc_law malloc_total c2 a6 (a7 w2.sys.mem)
    cases hops : tj.ops with
    | nil => simp [AState.step, htj, hcur, hops] at hstep
    | cons o os =>
      have : v.step mallocatorP j = advance v j (during tj.held o) os (opProg mallocatorP tj.held o) := by simp [AState.step, htj, hcur, hops]
      rw [this] at hstep
      exact advance_quiet (mallocator_short _ _) q1 hstep hjl hnf

/-- **C91** (the default allocator).  Any number of threads allocate, release and write with `mallocator`, in any order and without any locks: together they are as safe as one client, no
operation aborts, and while a thread rests its blocks keep their contents. -/
theorem C91_mallocator {sys0 : Sys} (h0 : SysOk sys0) {progs : List (List Op)} (hs : ∀ ops ∈ progs, Sizes (0 < ·) ops) {s : AState Unit}
    (hruns : ARuns mallocatorP (fun _ => True) (AState.start ((), sys0) progs) s) :
    Safe sys0 (worldOf s) ∧ (∀ i, s.step mallocatorP i ≠ .abort) ∧
      ∀ i u t, ARuns mallocatorP (· ≠ i) s u → s.thr[i]? = some t → u.thr[i]? = some t ∧ ∀ b ∈ t.held, Same b s.sh.2.mem u.sh.2.mem := by
  obtain ⟨R0, hc0⟩ := start_client malloc_law h0
  have hq0 : Quiet (AState.start ((), sys0) progs) := by
    intro t ht
    simp only [AState.start, List.mem_map] at ht
    obtain ⟨ops, _, rfl⟩ := ht
    simp [Busy]
  obtain ⟨q, e, hs1, w, R, l, c⟩ := malloc_runs hruns (start_sizes hs) (start_lin (A' := mallocator)) hc0 hq0
  refine ⟨(C91_exclusive_partial mallocator_refines mallocator_blind malloc_law h0 hs e).2 q, fun i => ?_, fun i u t hu ht => ?_⟩
  · exact C91_no_abort_partial mallocator_refines mallocator_blind malloc_law malloc_total h0 hs e (Or.inl fun j t hj hb => absurd hb (q t (List.mem_of_getElem? hj)))
  · obtain ⟨q', e', _⟩ := malloc_runs hu hs1 l c q
    exact C91_private_partial mallocator_refines mallocator_blind malloc_law h0 hs e (Or.inl malloc_total) e' ht

/-- Two threads with `mallocator`, their accesses in turn. -/
example : (match (AState.start ((), sampleSys) [[.alloc 8, .write 0 3 5, .free 0], [.allocZero 4, .alloc 2]]).follow mallocatorP [0, 1, 0, 1] with
    | .ok s => some (s.thr.map AThr.held, s.sh.2.mem 119, s.sh.2.mem 124)
    | _ => none) = some ([[⟨116, 8⟩], [⟨128, 2⟩, ⟨124, 4⟩]], 5, 0) := by decide +kernel

/-- **C91** (the allocator of the tests, `NDA_TEST_DEFAULT_ALLOC_MBUCKET`, policies.hpp:24-26).  Under mutual exclusion: safe, no aborts, the leak checker counts the bytes of
all threads, and a thread's blocks keep their contents while it rests. -/
theorem C91_test_allocator_partial {C : Nat} (hC : 0 < C) {sys0 : Sys} (h0 : SysOk sys0) {progs : List (List Op)} (hs : ∀ ops ∈ progs, Sizes (0 < ·) ops)
    {s : AState ((Multi × Unit) × Int)}
    (hruns : ExRuns (leakCheckP (segregatorP C (multiBucketP C) mallocatorP)) (fun _ => True) (AState.start ((leakCheck (segregator C (multiBucket C) mallocator)).init sys0) progs) s) :
    (Quiet s → Safe sys0 (worldOf s) ∧ s.sh.1.2 = ((allHeld s).map (fun k => (k.s : Int))).sum) ∧
      (∀ i, MayGo s i ∨ Writes s i → s.step (leakCheckP (segregatorP C (multiBucketP C) mallocatorP)) i ≠ .abort) ∧
      ∀ i u t, ExRuns (leakCheckP (segregatorP C (multiBucketP C) mallocatorP)) (· ≠ i) s u → s.thr[i]? = some t →
        u.thr[i]? = some t ∧ ∀ b ∈ t.held, Same b s.sh.2.mem u.sh.2.mem := by
  have lawS := segregator_lawful C (multi_lawful hC) mallocator_lawful
  have totS := segregator_total C (multi_total hC) (mallocator_total (ok := (0 < ·)) (fun _ L R => R.Perm L ∧ ∀ b ∈ L, 0 < b.s))
  have law := leakCheck_lawful lawS
  have tot := leakCheck_total totS
  have bl := leakCheck_blind (segregator_blind C (multi_blind C) mallocator_blind)
  have ref := leakCheck_refines (segregator_refines C (multi_refines C) mallocator_refines)
  have hs' : ∀ ops ∈ progs, Sizes (fun n => if n ≤ C then 0 < n ∧ n ≤ C else 0 < n) ops := by
    intro ops hops op hop
    have hok : ∀ n, 0 < n → (if n ≤ C then 0 < n ∧ n ≤ C else 0 < n) := by
      intro n hn
      split
      · exact ⟨hn, by assumption⟩
      · exact hn
    have := hs ops hops op hop
    cases op with
    | alloc n => exact hok n this
    | allocZero n => exact hok n this
    | free i => trivial
    | write i o x => trivial
  refine ⟨fun hq => ⟨(C91_exclusive_partial ref bl law h0 hs' hruns).2 hq, ?_⟩, fun i hgo => C91_no_abort_partial ref bl law tot h0 hs' hruns hgo,
    fun i u t hu ht => C91_private_partial ref bl law h0 hs' hruns (Or.inl tot) hu ht⟩
  obtain ⟨R0, hc0⟩ := start_client law h0
  obtain ⟨_, w, R, l, c⟩ := runs_lin ref bl law hruns (start_sizes hs') start_lin hc0
  obtain ⟨e1, _, e3⟩ := quiet_world l hq
  rw [← e1, c.inv.2]
  exact (e3.map (fun k : Blk => (k.s : Int))).sum_eq

/-- Two threads with this allocator, one operation after another. -/
example : (match (AState.start ((leakCheck (segregator 8 (multiBucket 8) mallocator)).init sampleSys) [[.alloc 8, .free 0], [.alloc 100, .alloc 4]]).follow
      (leakCheckP (segregatorP 8 (multiBucketP 8) mallocatorP)) [0, 0, 0, 0, 0, 0, 0, 0, 1, 1, 1] with
    | .ok s => some (s.thr.map AThr.held, s.sh.1.2)
    | _ => none) = some ([[⟨116, 8⟩], [⟨628, 100⟩]], 108) := by decide +kernel

/-- Thread `i` may make its next access under mutual exclusion. -/
def allowed {σ : Type} (s : AState σ) (i : Nat) : Bool :=
  s.thr.zipIdx.all (fun q => q.1.cur.isNone || q.2 == i) ||
    (match s.thr[i]? with | some ⟨_, none, .write _ _ _ :: _⟩ => true | _ => false)

theorem allowed_spec {σ : Type} {s : AState σ} {i : Nat} (h : allowed s i = true) : MayGo s i ∨ Writes s i := by
  simp only [allowed, Bool.or_eq_true] at h
  rcases h with h | h
  · refine Or.inl fun j t ht hb => ?_
    have := List.all_eq_true.1 h (t, j) (List.mem_zipIdx_iff_getElem?.2 ht)
    simp only [Bool.or_eq_true, Option.isNone_iff_eq_none, beq_iff_eq] at this
    exact this.resolve_left hb
  · right
    split at h
    · rename_i held k off x os ht
      exact ⟨_, k, off, x, os, ht, rfl, rfl⟩
    · simp at h

/-- The threads of `sched` make their accesses in this order, if that respects mutual exclusion. -/
def exFollow {σ : Type} (A : PAlloc σ) : List Nat → AState σ → AOut σ
  | [], s => .ok s
  | i :: is, s => if allowed s i then (match s.step A i with | .ok s' => exFollow A is s' | o => o) else .done

theorem exRuns_head {σ : Type} {A : PAlloc σ} {P : Nat → Prop} {s t u : AState σ} {i : Nat} (h1 : P i) (h2 : MayGo s i ∨ Writes s i) (h3 : s.step A i = .ok t) (h : ExRuns A P t u) :
    ExRuns A P s u := by
  induction h with
  | refl => exact .tail (.refl s) h1 h2 h3
  | tail _ a b c ih => exact .tail ih a b c

theorem exFollow_runs {σ : Type} {A : PAlloc σ} {P : Nat → Prop} : ∀ {sched : List Nat} {s u : AState σ}, (∀ i ∈ sched, P i) → exFollow A sched s = .ok u → ExRuns A P s u := by
  intro sched
  induction sched with
  | nil => intro s u _ h; simp only [exFollow, AOut.ok.injEq] at h; subst h; exact .refl _
  | cons i is ih =>
    intro s u hP h
    simp only [exFollow] at h
    split at h
    · rename_i ha
      split at h
      · rename_i s' hs'
        exact exRuns_head (hP i List.mem_cons_self) (allowed_spec ha) hs' (ih (fun j hj => hP j (List.mem_cons_of_mem _ hj)) h)
      · rename_i hne
        exact absurd h (hne u)
    · simp at h

/-- The hypotheses of the theorems on mutual exclusion, with the allocator of the tests: thread 1 has a block; thread 0 makes a request (8 accesses), and in the middle of it thread 1 writes to
its block. -/
example : (match exFollow (leakCheckP (segregatorP 8 (multiBucketP 8) mallocatorP)) ([1, 1, 1] ++ [0, 0, 0, 0] ++ [1] ++ [0, 0, 0, 0])
      (AState.start ((leakCheck (segregator 8 (multiBucket 8) mallocator)).init sampleSys) [[.allocZero 8], [.alloc 100, .write 0 7 9]]) with
    | .ok s => some (s.thr.map AThr.held, s.thr.map (fun t => t.cur.isSome), s.sh.1.2, s.sh.2.mem 635)
    | _ => none) = some ([[], [⟨628, 100⟩]], [true, false], 100, 9) := by decide +kernel

/-! ### Races -/

theorem follow_runs {σ : Type} {A : PAlloc σ} {P : Nat → Prop} : ∀ {sched : List Nat} {s u : AState σ}, (∀ i ∈ sched, P i) → s.follow A sched = .ok u → ARuns A P s u := by
  intro sched
  induction sched using List.reverseRecOn with
  | nil => intro s u _ h; simp only [AState.follow, AOut.ok.injEq] at h; subst h; exact .refl _
  | append_singleton is i ih =>
    intro s u hP h
    have key : ∀ (is : List Nat) (s : AState σ), s.follow A (is ++ [i]) = .ok u → ∃ v, s.follow A is = .ok v ∧ v.step A i = .ok u := by
      intro is
      induction is with
      | nil =>
        intro s h
        simp only [List.nil_append, AState.follow] at h
        refine ⟨s, rfl, ?_⟩
        split at h
        · rename_i s' hs'; rw [hs']; simpa using h
        · exact h
      | cons j js ih' =>
        intro s h
        simp only [List.cons_append, AState.follow] at h ⊢
        split at h
        · rename_i s' hs'
          obtain ⟨v, h1, h2⟩ := ih' s' h
          exact ⟨v, by simp [h1], h2⟩
        · rename_i hne
          exact absurd h (hne u)
    obtain ⟨v, h1, h2⟩ := key is s h
    exact .tail (ih (fun j hj => hP j (List.mem_append_left _ hj)) h1) (hP i (by simp)) h2

/-- **C91** (the bucket).  Two threads make requests to a bucket that has a free chunk, in whatever state it is: there is an order of their accesses in which both get the same chunk. -/
theorem C91_bucket_race {C : Nat} {b : Bucket} (hb : b.flags ≠ 0#64) (sys : Sys) (n m : Nat) (opsA opsB : List Op) (heldA heldB : List Blk) :
    ∃ s kA kB, ARuns (bucketP C) (fun _ => True) ⟨(b, sys), [⟨heldA, none, .alloc n :: opsA⟩, ⟨heldB, none, .alloc m :: opsB⟩]⟩ s ∧
      s.thr = [⟨kA :: heldA, none, opsA⟩, ⟨kB :: heldB, none, opsB⟩] ∧ kA.s = n ∧ kB.s = m ∧ kA.ptr = kB.ptr ∧ (0 < n → 0 < m → ¬ Apart kA kB) := by
  obtain ⟨pos, hpos⟩ := ctz_isSome hb
  refine ⟨⟨({ b with flags := b.flags &&& ~~~(1#64 <<< pos) }, sys), [⟨⟨b.p + pos * C, n⟩ :: heldA, none, opsA⟩, ⟨⟨b.p + pos * C, m⟩ :: heldB, none, opsB⟩]⟩,
    ⟨b.p + pos * C, n⟩, ⟨b.p + pos * C, m⟩, follow_runs (sched := [0, 1, 0, 1, 0, 1, 0, 1]) (fun _ _ => trivial) ?_, rfl, rfl, rfl, rfl, ?_⟩
  · simp [AState.follow, AState.step, opProg, bucketP, allocAt, Prog.load, Prog.store, Prog.bind, advance, settle, during, hb, hpos, putFlags]
  · intro h1 h2 h
    simp only [Apart] at h
    omega

/-- The hypothesis of the last theorem in a bucket that is in use: chunk 2 is free; both threads get it. -/
example : (match (⟨(⟨100, 0b1100#64⟩, sampleSys), [⟨[], none, [.alloc 8]⟩, ⟨[], none, [.alloc 5]⟩]⟩ : AState Bucket).follow (bucketP 8) [0, 1, 0, 1, 0, 1, 0, 1] with
    | .ok s => some (s.thr.map AThr.held, s.sh.1.flags)
    | _ => none) = some ([[⟨116, 8⟩], [⟨116, 5⟩]], 0b1000#64) := by decide +kernel

/-- **C91** (`multi_bucket`).  The same for two threads that make requests to a `multi_bucket` whose current bucket has a free chunk. -/
theorem C91_multi_bucket_race {C : Nat} {q : Multi} {b : Bucket} (hq : q.vec[q.cur]? = some b) (hb : b.flags ≠ 0#64) (sys : Sys) (n m : Nat) (opsA opsB : List Op) (heldA heldB : List Blk) :
    ∃ s kA kB, ARuns (multiBucketP C) (fun _ => True) ⟨(q, sys), [⟨heldA, none, .alloc n :: opsA⟩, ⟨heldB, none, .alloc m :: opsB⟩]⟩ s ∧
      s.thr = [⟨kA :: heldA, none, opsA⟩, ⟨kB :: heldB, none, opsB⟩] ∧ kA.s = n ∧ kB.s = m ∧ kA.ptr = kB.ptr ∧ (0 < n → 0 < m → ¬ Apart kA kB) := by
  obtain ⟨pos, hpos⟩ := ctz_isSome hb
  have hf : b.isFull = false := by simp [Bucket.isFull, hb]
  have key : ∃ u, (⟨(q, sys), [⟨heldA, none, .alloc n :: opsA⟩, ⟨heldB, none, .alloc m :: opsB⟩]⟩ : AState Multi).follow (multiBucketP C) [0, 1, 0, 1, 0, 1, 0, 1, 0, 1, 0, 1] = .ok u ∧
      u.thr = [⟨⟨b.p + pos * C, n⟩ :: heldA, none, opsA⟩, ⟨⟨b.p + pos * C, m⟩ :: heldB, none, opsB⟩] := by
    simp [AState.follow, AState.step, opProg, multiBucketP, multiAllocP, allocAt, Prog.load, Prog.store, Prog.bind, advance, settle, during, hq, hb, hpos, hf, putFlagsAt]
  obtain ⟨u, h1, h2⟩ := key
  refine ⟨u, _, _, follow_runs (fun _ _ => trivial) h1, h2, rfl, rfl, rfl, fun h1 h2 h => ?_⟩
  simp only [Apart] at h
  omega

/-- **C91** (the last chunk).  Two threads make requests to a bucket with one free chunk: one of them has found that the bucket is not full, the other takes the chunk, and the first calls
`__builtin_ctzll(0)`, which is undefined (`abort` here), instead of the `std::abort` of a full bucket. -/
theorem C91_last_chunk_race {C : Nat} {b : Bucket} {pos : Nat} (hpos : ctz b.flags = some pos) (hlast : b.flags &&& ~~~(1#64 <<< pos) = 0#64) (sys : Sys) (n m : Nat) :
    ∃ s, ARuns (bucketP C) (fun _ => True) ⟨(b, sys), [⟨[], none, [.alloc n]⟩, ⟨[], none, [.alloc m]⟩]⟩ s ∧ s.sh.1.isFull = true ∧ s.step (bucketP C) 0 = .abort ∧
      s.thr[1]? = some ⟨[⟨b.p + pos * C, m⟩], none, []⟩ := by
  have hb : b.flags ≠ 0#64 := by
    intro h
    obtain ⟨_, h2, _⟩ := ctz_some hpos
    rw [h] at h2
    simp at h2
  have hz : ctz 0#64 = none := by decide
  refine ⟨⟨({ b with flags := 0#64 }, sys), [⟨[], some .fail, []⟩, ⟨[⟨b.p + pos * C, m⟩], none, []⟩]⟩, follow_runs (sched := [0, 1, 1, 1, 1, 0]) (fun _ _ => trivial) ?_, rfl, ?_, rfl⟩
  · simp [AState.follow, AState.step, opProg, bucketP, allocAt, Prog.load, Prog.store, Prog.bind, advance, settle, during, hb, hpos, putFlags, hlast, hz]
  · simp [AState.step, advance]

/-- A bucket with one free chunk. -/
example : ctz (0b1000#64) = some 3 ∧ 0b1000#64 &&& ~~~(1#64 <<< 3) = 0#64 := by decide

/-- **C91** (`leak_check`).  Two threads make one block each and release it, with the leak checker over malloc: there is an order of the accesses in which the increment of one of them is lost,
and the program aborts although nothing is wrong. -/
theorem C91_leak_check_race (sys : Sys) {n m : Nat} (hn : 0 < n) :
    ∃ s, ARuns (leakCheckP mallocatorP) (fun _ => True) (AState.start (((), 0), sys) [[.alloc n, .free 0], [.alloc m, .free 0]]) s ∧ s.step (leakCheckP mallocatorP) 0 = .abort := by
  have key : ∃ u, (AState.start (((), 0), sys) [[.alloc n, .free 0], [.alloc m, .free 0]]).follow (leakCheckP mallocatorP) [0, 1, 0, 1, 0, 1, 1, 1, 1, 1, 0, 0, 0] = .ok u ∧
      u.step (leakCheckP mallocatorP) 0 = .abort := by
    have hneg : (0 : Int) - (n : Int) < 0 := by omega
    simp [AState.start, AState.follow, AState.step, opProg, leakCheckP, mallocatorP, addUsed, Prog.lift, Prog.load, Prog.store, Prog.bind, advance, settle, during, getL, putL, Sys.malloc, Sys.free,
      hn]
  obtain ⟨u, h1, h2⟩ := key
  exact ⟨u, follow_runs (fun _ _ => trivial) h1, h2⟩

/-- **C91** (`stats`).  Two threads make requests of the same order of magnitude: there is an order of the accesses in which only one of them is counted. -/
theorem C91_stats_race (sys : Sys) {n m i h : Nat} {hist : List Nat} (hn : clz n = some i) (hm : clz m = some i) (hi : hist[i]? = some h) :
    ∃ s, ARuns (statsP mallocatorP) (fun _ => True) ⟨(((), hist), sys), [⟨[], none, [.alloc n]⟩, ⟨[], none, [.alloc m]⟩]⟩ s ∧
      s.thr.map (fun t => t.held.map Blk.s) = [[n], [m]] ∧ s.sh.1.2[i]? = some (h + 1) := by
  have key : ∃ u, (⟨(((), hist), sys), [⟨[], none, [.alloc n]⟩, ⟨[], none, [.alloc m]⟩]⟩ : AState (Unit × List Nat)).follow (statsP mallocatorP) [0, 1, 0, 1, 0, 1] = .ok u ∧
      u.thr.map (fun t => t.held.map Blk.s) = [[n], [m]] ∧ u.sh.1.2[i]? = some (h + 1) := by
    obtain ⟨hl, he⟩ := List.getElem?_eq_some_iff.1 hi
    simp [AState.follow, AState.step, opProg, statsP, countP, mallocatorP, hn, hm, hl, he, Prog.lift, Prog.load, Prog.store, Prog.bind, advance, settle, during, getL, putL, Sys.malloc]
  obtain ⟨u, h1, h2⟩ := key
  exact ⟨u, follow_runs (fun _ _ => trivial) h1, h2⟩

/-- Sizes with the same number of leading zeros. -/
example : clz 8 = some 60 ∧ clz 15 = some 60 := by decide +kernel

end Nda.Alloc
