import Verif.Lemmas.ThreadsCode
/-!
# C86: threads that work on disjoint parts of the arrays
-/
namespace Nda.Threads
open Nda Nda.Spec LayoutTransforms Assign Arith Loops Programs Programs.Spec Threads.Spec

variable {α : Type}

theorem steps_trans {s t u : State α} (h1 : Steps s t) (h2 : Steps t u) : Steps s u := by
  induction h2 with
  | refl => exact h1
  | tail _ h ih => exact .tail ih h

theorem follow_steps : ∀ (is : List Nat) {s s' : State α}, follow is s = some s' → Steps s s'
  | [], s, s', h => by cases h; exact .refl _
  | i :: is, (ts, mem), s', h => by
      rw [follow] at h
      split at h
      · rename_i k c hi
        simp only [Option.bind_eq_bind, Option.bind_eq_some_iff] at h
        obtain ⟨x, hx, h⟩ := h
        exact steps_trans (.tail (.refl _) (.read hi hx)) (follow_steps is h)
      · rename_i k x c hi
        simp only [Option.bind_eq_bind, Option.bind_eq_some_iff] at h
        obtain ⟨m, hx, h⟩ := h
        exact steps_trans (.tail (.refl _) (.write hi hx)) (follow_steps is h)
      · cases h

theorem inv_completes {fps : List Fp} : ∀ (ts : List (Act α)), Acc Advance ts → ∀ mem : List α, Inv fps ts mem.length → ∃ s', Steps (ts, mem) s' ∧ Finished s'.1 := by
  intro ts hacc
  induction hacc with
  | intro ts _ ih =>
      intro mem hinv
      by_cases hf : Finished ts
      · exact ⟨_, .refl _, hf⟩
      · simp only [Finished, not_forall] at hf
        obtain ⟨t, ht, hd⟩ := hf
        obtain ⟨i, hi⟩ := List.getElem?_of_mem ht
        obtain ⟨t', mem', hs⟩ := inv_progress hinv hi hd
        obtain ⟨s', h1, h2⟩ := ih _ (step_advance hs) mem' (step_inv (s := (ts, mem)) hinv hs).1
        exact ⟨s', steps_trans (.tail (.refl _) hs) h1, h2⟩

/-- One thread runs to its end while the others wait. -/
theorem steps_run : ∀ (t : Act α) {ts : List (Act α)} {mem mem' : List α} {i : Nat}, ts[i]? = some t → runAct t mem = some mem' → Steps (ts, mem) (ts.set i .done, mem')
  | .done, ts, mem, mem', i, hi, h => by
      cases h
      have : ts.set i .done = ts := by
        obtain ⟨h, e⟩ := List.getElem?_eq_some_iff.mp hi
        rw [← e, List.set_getElem_self]
      rw [this]
      exact .refl _
  | .fail, _, _, _, _, _, h => by cases h
  | .read k c, ts, mem, mem', i, hi, h => by
      simp only [runAct, Option.bind_eq_bind, Option.bind_eq_some_iff] at h
      obtain ⟨x, hx, h⟩ := h
      have hl := (List.getElem?_eq_some_iff.mp hi).1
      have := steps_run (c x) (ts := ts.set i (c x)) (i := i) (by rw [List.getElem?_set_self hl]) h
      rw [List.set_set] at this
      exact steps_trans (.tail (.refl _) (.read hi hx)) this
  | .write k x c, ts, mem, mem', i, hi, h => by
      simp only [runAct, Option.bind_eq_bind, Option.bind_eq_some_iff] at h
      obtain ⟨m, hx, h⟩ := h
      have hl := (List.getElem?_eq_some_iff.mp hi).1
      have := steps_run c (ts := ts.set i c) (i := i) (by rw [List.getElem?_set_self hl]) h
      rw [List.set_set] at this
      exact steps_trans (.tail (.refl _) (.write hi hx)) this

/-- Threads one after another in any order are an interleaving. -/
theorem steps_order {fps : List Fp} : ∀ (order : List Nat) (ts : List (Act α)) (mem : List α), Inv fps ts mem.length → order.Nodup → (∀ i ∈ order, i < ts.length) →
    ∃ us mem', Steps (ts, mem) (us, mem') ∧ seqAll (order.map (fun i => ts.getD i .done)) mem = some mem' ∧ us.length = ts.length ∧
      ∀ i, us[i]? = if i ∈ order then some .done else ts[i]?
  | [], ts, mem, _, _, _ => ⟨ts, mem, .refl _, rfl, rfl, by simp⟩
  | i :: order, ts, mem, hinv, hnd, hlt => by
      rw [List.nodup_cons] at hnd
      have hil := hlt i (by simp)
      have hi : ts[i]? = some ts[i] := List.getElem?_eq_getElem hil
      obtain ⟨fp, g1, g2⟩ := forall₂_get hinv.foot hi
      obtain ⟨m1, e1, l1, _⟩ := run_foot g2 (hinv.inside fp (List.mem_of_getElem? g1))
      have hst := steps_run _ hi e1
      have hinv' := (steps_inv (s := (ts, mem)) hinv hst).1
      obtain ⟨us, m2, h1, h2, h3, h4⟩ := steps_order order (ts.set i .done) m1 hinv' hnd.2 (fun j hj => by rw [List.length_set]; exact hlt j (by simp [hj]))
      refine ⟨us, m2, steps_trans hst h1, ?_, by rw [h3, List.length_set], fun j => ?_⟩
      · have : order.map (fun j => (ts.set i .done).getD j .done) = order.map (fun j => ts.getD j .done) := by
          refine List.map_congr_left (fun j hj => ?_)
          have hne : i ≠ j := fun h => hnd.1 (h ▸ hj)
          simp only [List.getD_eq_getElem?_getD, List.getElem?_set_ne hne]
        rw [this] at h2
        simp only [List.map_cons, seqAll, List.getD_eq_getElem?_getD, hi, Option.getD_some, e1, Option.bind_some]
        simpa only [List.getD_eq_getElem?_getD] using h2
      · rw [h4]
        by_cases hj : j ∈ order
        · simp [hj]
        · by_cases hji : j = i
          · subst hji
            rw [if_neg hj, if_pos (by simp), List.getElem?_set_self hil]
          · rw [if_neg hj, if_neg (by simp [hj, hji]), List.getElem?_set_ne (Ne.symm hji)]

section
variable [Add α] [Sub α] [Mul α] [Div α] [Neg α] [Zero α]

/-- C86: several threads run statements on views of the arrays of one program; no element that one of them writes is read or written by another.  Then in every state that any
interleaving of their loads and stores can reach: no two threads are at conflicting accesses (no data race), every thread that has not finished can go on, and if all have finished then the
memory is that of the threads one after another, and the arrays are as the statements say (C67). -/
theorem C86_threads (hz : Arith.Spec.ZeroLaws α) (triv : Bool) (junk : α) (env : List View) (ts : List (List (Stmt α))) (mem : List α) (A : Arrays α) (he : EnvOK env mem.length)
    (hA : Holds env mem A) (hs : ∀ t ∈ ts, ∀ s ∈ t, OK env s ∧ NoSwap s) (hi : Independent (lensOf env) ts) (us : List (Act α)) (mem' : List α)
    (hst : Steps (ts.map (thread env), mem) (us, mem')) :
    ¬ Race us ∧ (∀ i t, us[i]? = some t → t ≠ .done → ∃ t' mem'', Step (us, mem') (us.set i t', mem'')) ∧
      (Finished us → runAll triv junk env ts.flatten mem = some (some mem') ∧ ∃ A', Effects (lensOf env) ts.flatten A A' ∧ Holds env mem' A') := by
  obtain ⟨h1, h2, h3⟩ := steps_inv (s := (ts.map (thread env), mem)) (inv_start he hA ts hs hi) hst
  refine ⟨inv_no_race h1, fun i t ht hd => inv_progress h1 ht hd, fun hf => ?_⟩
  have e : runAll triv junk env ts.flatten mem = some (some mem') := by
    rw [seqAll_threads triv junk env ts mem (fun t ht s hst => (hs t ht s hst).2), ← h3, seq_finished _ hf]; rfl
  refine ⟨e, ?_⟩
  obtain ⟨m, A', g1, g2, g3, g4⟩ := C67_program hz triv junk env ts.flatten mem A he hA (fun s hsf => by
    obtain ⟨t, ht, h⟩ := List.mem_flatten.mp hsf
    exact (hs t ht s h).1)
  rw [e] at g1
  cases g1
  exact ⟨A', g3, g4⟩

omit [Zero α] [Add α] [Sub α] [Mul α] [Div α] [Neg α] in
/-- C86: no execution of threads goes on for ever. -/
theorem C86_ends (f : Nat → State α) : ¬ ∀ n, Step (f n) (f (n + 1)) := by
  intro h
  have : ∀ ts : List (Act α), Acc Advance ts → ∀ n, (f n).1 ≠ ts := by
    intro ts ha
    induction ha with
    | intro ts _ ih =>
        intro n hn
        exact ih _ (hn ▸ step_advance (h n)) (n + 1) rfl
  exact this _ (advance_wf _) 0 rfl

/-- C86: every execution that has been started can be brought to its end. -/
theorem C86_completes (env : List View) (ts : List (List (Stmt α))) (mem : List α) (A : Arrays α) (he : EnvOK env mem.length) (hA : Holds env mem A)
    (hs : ∀ t ∈ ts, ∀ s ∈ t, OK env s ∧ NoSwap s) (hi : Independent (lensOf env) ts) (s : State α) (hst : Steps (ts.map (thread env), mem) s) :
    ∃ s', Steps s s' ∧ Finished s'.1 :=
  inv_completes s.1 (advance_wf _) s.2 (steps_inv (s := (ts.map (thread env), mem)) (inv_start he hA ts hs hi) hst).1

/-- C86: a thread alone does what the statements do in the sequential model (C67), access by access. -/
theorem C86_alone (triv : Bool) (junk : α) (env : List View) (ss : List (Stmt α)) (mem : List α) (hs : ∀ s ∈ ss, NoSwap s) :
    runAll triv junk env ss mem = (runAct (thread env ss) mem).map some :=
  run_thread triv junk env ss mem hs

/-- C86: the threads one after another, in any order, leave the same memory. -/
theorem C86_any_order (triv : Bool) (junk : α) (env : List View) (ts : List (List (Stmt α))) (mem : List α) (A : Arrays α) (he : EnvOK env mem.length) (hA : Holds env mem A)
    (hs : ∀ t ∈ ts, ∀ s ∈ t, OK env s ∧ NoSwap s) (hi : Independent (lensOf env) ts) (order : List Nat) (ho : order.Perm (List.range ts.length)) :
    runAll triv junk env (order.flatMap (fun i => ts.getD i [])) mem = runAll triv junk env ts.flatten mem := by
  have hinv := inv_start he hA ts hs hi
  have hmem : ∀ i, i ∈ order ↔ i < ts.length := fun i => by rw [ho.mem_iff, List.mem_range]
  obtain ⟨us, mem', h1, h2, h3, h4⟩ := steps_order order (ts.map (thread env)) mem hinv (ho.nodup_iff.mpr List.nodup_range) (fun i h => by rw [List.length_map]; exact (hmem i).mp h)
  have hf : Finished us := by
    intro t ht
    obtain ⟨i, hi'⟩ := List.getElem?_of_mem ht
    have hlt := (List.getElem?_eq_some_iff.mp hi').1
    rw [h3, List.length_map] at hlt
    rw [h4, if_pos ((hmem i).mpr hlt)] at hi'
    exact (Option.some.inj hi').symm
  have h5 := (steps_inv (s := (ts.map (thread env), mem)) hinv h1).2.2
  have key : order.map (fun i => (ts.map (thread env)).getD i .done) = (order.map (fun i => ts.getD i [])).map (thread env) := by
    rw [List.map_map]
    refine List.map_congr_left (fun i hi' => ?_)
    have hlt := (hmem i).mp hi'
    simp [List.getD_eq_getElem?_getD, List.getElem?_eq_getElem hlt]
  rw [List.flatMap_def, seqAll_threads triv junk env _ mem ?_, seqAll_threads triv junk env ts mem (fun t ht s hst => (hs t ht s hst).2), ← key, h2, ← h5,
    seq_finished _ hf]
  intro t ht s hst
  obtain ⟨i, hi', rfl⟩ := List.mem_map.mp ht
  have hlt := (hmem i).mp hi'
  rw [List.getD_eq_getElem?_getD, List.getElem?_eq_getElem hlt] at hst
  exact (hs _ (List.getElem_mem hlt) s hst).2

theorem finished_replicate {ts : List (Act α)} : Finished ts ↔ ts = List.replicate ts.length .done := by
  rw [List.eq_replicate_iff]
  exact ⟨fun h => ⟨rfl, h⟩, fun h => h.2⟩

/-- C86: parallel regions with a join after each (as in `#pragma omp parallel` or with joined `std::thread`s): the threads of one region must be independent, those of different regions may
use the same elements.  Whatever the interleavings, the memory is that of the sequential program and the arrays are as the statements say. -/
theorem C86_forkjoin (hz : Arith.Spec.ZeroLaws α) (triv : Bool) (junk : α) (env : List View) : ∀ (regions : List (List (List (Stmt α)))) (mem mem' : List α) (A : Arrays α),
    EnvOK env mem.length → Holds env mem A → (∀ ts ∈ regions, (∀ t ∈ ts, ∀ s ∈ t, OK env s ∧ NoSwap s) ∧ Independent (lensOf env) ts) →
    ForkJoin (regions.map (fun ts => ts.map (thread env))) mem mem' →
    runAll triv junk env regions.flatten.flatten mem = some (some mem') ∧ ∃ A', Effects (lensOf env) regions.flatten.flatten A A' ∧ Holds env mem' A' := by
  intro regions mem mem' A he hA hr hfj
  have hns : ∀ t ∈ regions.flatten, ∀ s ∈ t, OK env s ∧ NoSwap s := by
    intro t ht
    obtain ⟨ts, h1, h2⟩ := List.mem_flatten.mp ht
    exact (hr ts h1).1 t h2
  have e : runAll triv junk env regions.flatten.flatten mem = some (some mem') := by
    rw [seqAll_threads triv junk env _ mem (fun t ht s hst => (hns t ht s hst).2)]
    clear hns
    induction regions generalizing mem A with
    | nil => cases hfj; rfl
    | cons ts regions ih =>
        cases hfj with
        | cons h hrest =>
            rename_i mid
            obtain ⟨h1, h2⟩ := hr ts (by simp)
            have hfin : Finished (List.replicate (ts.map (thread env)).length (.done : Act α)) := fun t ht => (List.mem_replicate.mp ht).2
            obtain ⟨_, _, h5⟩ := C86_threads hz triv junk env ts mem A he hA h1 h2 _ _ h
            obtain ⟨h6, B, _, h7⟩ := h5 hfin
            have hlen := (steps_inv (s := (ts.map (thread env), mem)) (inv_start he hA ts h1 h2) h).2.1
            have := ih mid B (by rw [show mid.length = mem.length from hlen]; exact he) h7 (fun ts hts => hr ts (by simp [hts])) hrest
            rw [seqAll_threads triv junk env ts mem (fun t ht s hst => (h1 t ht s hst).2)] at h6
            have h8 : seqAll (ts.map (thread env)) mem = some mid := by
              cases h9 : seqAll (ts.map (thread env)) mem with
              | none => rw [h9] at h6; cases h6
              | some m => rw [h9] at h6; cases h6; rfl
            have happ : ∀ (us vs : List (Act α)) (m : List α), seqAll (us ++ vs) m = (seqAll us m).bind (seqAll vs) := by
              intro us
              induction us with
              | nil => intro vs m; rfl
              | cons u us ihu =>
                  intro vs m
                  simp only [List.cons_append, seqAll]
                  cases runAct u m with
                  | none => rfl
                  | some m' => exact ihu vs m'
            rw [List.flatten_cons, List.map_append, happ, h8]
            exact this
  refine ⟨e, ?_⟩
  obtain ⟨m, A', g1, g2, g3, g4⟩ := C67_program hz triv junk env regions.flatten.flatten mem A he hA (fun s hsf => by
    obtain ⟨t, ht, h⟩ := List.mem_flatten.mp hsf
    exact (hns t ht s h).1)
  rw [e] at g1
  cases g1
  exact ⟨A', g3, g4⟩

/-- C86: parallel regions can always be run to their end. -/
theorem C86_forkjoin_ends (hz : Arith.Spec.ZeroLaws α) (junk : α) (env : List View) : ∀ (regions : List (List (List (Stmt α)))) (mem : List α) (A : Arrays α),
    EnvOK env mem.length → Holds env mem A → (∀ ts ∈ regions, (∀ t ∈ ts, ∀ s ∈ t, OK env s ∧ NoSwap s) ∧ Independent (lensOf env) ts) →
    ∃ mem', ForkJoin (regions.map (fun ts => ts.map (thread env))) mem mem'
  | [], mem, _, _, _, _ => ⟨mem, .nil mem⟩
  | ts :: regions, mem, A, he, hA, hr => by
      obtain ⟨h1, h2⟩ := hr ts (by simp)
      obtain ⟨⟨us, mid⟩, h3, h4⟩ := C86_completes env ts mem A he hA h1 h2 _ (.refl _)
      have hin := steps_inv (s := (ts.map (thread env), mem)) (inv_start he hA ts h1 h2) h3
      obtain ⟨_, B, _, h7⟩ := (C86_threads hz true junk env ts mem A he hA h1 h2 us mid h3).2.2 h4
      obtain ⟨mem', h8⟩ := C86_forkjoin_ends hz junk env regions mid B (by rw [show mid.length = mem.length from hin.2.1]; exact he) h7 (fun ts hts => hr ts (by simp [hts]))
      have hl : us.length = (ts.map (thread env)).length := by
        rw [← hin.1.foot.length_eq]; simp
      rw [show us = List.replicate (ts.map (thread env)).length .done by rw [← hl]; exact finished_replicate.mp h4] at h3
      exact ⟨mem', .cons h3 h8⟩

end

/-! ### Which places have no elements in common -/

/-- C86: places of different variables. -/
theorem C86_variables (lens : List (List Int)) (p q : Place) (h : p.name ≠ q.name) (x : Elem) (hp : Of lens p x) : ¬ Of lens q x := by
  rintro ⟨_, _, _, _, rfl⟩
  obtain ⟨_, _, _, _, h2⟩ := hp
  exact h (congrArg Prod.fst h2).symm

/-- C86: parts of the rows `a(i, ...)` and `a(j, ...)` of one array, with any further operations on them. -/
theorem C86_rows (lens : List (List Int)) (n : Nat) (i j : Int) (hij : i ≠ j) (as bs : List Arg) (os us : List Op) (x : Elem) (hp : Of lens ⟨n, .slice (.idx i :: as) :: os⟩ x) :
    ¬ Of lens ⟨n, .slice (.idx j :: bs) :: us⟩ x := by
  have key : ∀ {k : Int} {cs : List Arg} {vs : List Op}, Of lens ⟨n, .slice (.idx k :: cs) :: vs⟩ x → x.2.head? = some k := by
    rintro k cs vs ⟨_, _, _, _, rfl⟩
    simp [src, sourceChain, source, expand, expandArg, coords]
  intro hq
  have := key hp
  rw [key hq] at this
  exact hij (Option.some.inj this).symm

/-- C86: the blocks `a(range(f, l), ...)`: the first index of their elements is in `[f, l)`. -/
theorem C86_block (lens : List (List Int)) (n : Nat) (f l : Int) (hl : l ≠ -1) (as : List Arg) (x : Elem) (hp : Of lens ⟨n, [.slice (.rng f l 1 :: as)]⟩ x) :
    ∃ i, x.2.head? = some i ∧ f ≤ i ∧ i < l := by
  obtain ⟨ext, idx, ⟨len, _, mid, hsh, hmid⟩, hr, rfl⟩ := hp
  simp only [ChainShape] at hmid
  subst hmid
  have hexp : expand len.length (.rng f l 1 :: as) = .rng f l 1 :: as.flatMap (expandArg (len.length + 1 - (as.length + 1))) := by
    simp [expand, expandArg]
  have hexp' : ∀ N, expand N (.rng f l 1 :: as) = .rng f l 1 :: as.flatMap (expandArg (N + 1 - (as.length + 1))) := by
    intro N; simp [expand, expandArg]
  simp only [ShapeAfter, hexp] at hsh
  match len, hsh, hr with
  | m :: ms, hsh, hr =>
  match ext, idx, hsh, hr with
  | e :: es, k :: ks, hsh, hr =>
  obtain ⟨⟨_, _, h3⟩, _⟩ := hsh
  obtain ⟨⟨h4, h5⟩, _⟩ := hr
  have := (h3 k h4).mp h5
  simp only [stop, hl, false_and, if_false, show (0 : Int) < 1 from by decide, if_true] at this
  refine ⟨f + 1 * k, ?_, by omega, by omega⟩
  simp [src, sourceChain, source, hexp', coords]

/-- C86: blocks of disjoint ranges. -/
theorem C86_blocks (lens : List (List Int)) (n : Nat) (f l f' l' : Int) (hl : l ≠ -1) (hl' : l' ≠ -1) (hd : l ≤ f' ∨ l' ≤ f) (as bs : List Arg) (x : Elem)
    (hp : Of lens ⟨n, [.slice (.rng f l 1 :: as)]⟩ x) : ¬ Of lens ⟨n, [.slice (.rng f' l' 1 :: bs)]⟩ x := by
  intro hq
  obtain ⟨i, h1, h2, h3⟩ := C86_block lens n f l hl as x hp
  obtain ⟨j, g1, g2, g3⟩ := C86_block lens n f' l' hl' bs x hq
  rw [h1] at g1
  cases g1
  omega

/-! ### Two threads on rows of an array and columns of another -/

/-- `a(0, _) *= 2; b(_, 0) = 7` and `a(1, _) += b(_, 1)`. -/
def exThreads : List (List (Stmt Int)) :=
  [[.compoundScalar .mul .A ⟨0, [.slice [.idx 0, .all]]⟩ 2, .fill ⟨1, [.slice [.all, .idx 0]]⟩ 7],
   [.compound .add .A ⟨0, [.slice [.idx 1, .all]]⟩ (.arr .A ⟨1, [.slice [.all, .idx 1]]⟩)]]

theorem place_row (k : Int) (h0 : 0 ≤ k) (h1 : k < 2) : PlaceOK exEnv ⟨0, [.slice [.idx k, .all]]⟩ [3] :=
  ⟨_, rfl, ⟨⟨by decide, Or.inl ⟨by simp, rfl⟩, ⟨⟨h0, h1⟩, trivial, trivial⟩⟩, fun _ _ => trivial⟩, ⟨nofun, fun _ _ => trivial⟩, [3], ⟨rfl, trivial⟩, rfl⟩
theorem place_bcol (k : Int) (h0 : 0 ≤ k) (h1 : k < 2) : PlaceOK exEnv ⟨1, [.slice [.all, .idx k]]⟩ [3] :=
  ⟨_, rfl, ⟨⟨by decide, Or.inl ⟨by simp, rfl⟩, ⟨trivial, ⟨h0, h1⟩, trivial⟩⟩, fun _ _ => trivial⟩, ⟨nofun, fun _ _ => trivial⟩, [3], ⟨rfl, trivial⟩, rfl⟩

theorem exThreads_ok : ∀ t ∈ exThreads, ∀ s ∈ t, OK exEnv s ∧ NoSwap s := by
  intro t ht s hs
  simp only [exThreads, List.mem_cons, List.not_mem_nil, or_false] at ht
  rcases ht with rfl | rfl
  · simp only [List.mem_cons, List.not_mem_nil, or_false] at hs
    rcases hs with rfl | rfl
    · exact ⟨⟨[3], place_row 0 (by decide) (by decide), nofun⟩, trivial⟩
    · refine ⟨⟨[3], place_bcol 0 (by decide) (by decide), by simp, by decide, fun v hv h => ?_⟩, trivial⟩
      rw [show view exEnv ⟨1, [.slice [.all, .idx 0]]⟩ = some ⟨6, ⟨[3], [1], [0], [0], .contiguous⟩⟩ by decide] at hv
      cases hv
      cases h
  · simp only [List.mem_singleton] at hs
    subst hs
    refine ⟨⟨[3], place_row 1 (by decide) (by decide), trivial, nofun, nofun, fun q hq => ?_⟩, trivial⟩
    simp only [places, List.mem_singleton] at hq
    subst hq
    exact ⟨rfl, place_bcol 1 (by decide) (by decide), nofun⟩

theorem bcol {k : Int} {x : Elem} (h : Of (lensOf exEnv) ⟨1, [.slice [.all, .idx k]]⟩ x) : x.2.getD 1 0 = k := by
  obtain ⟨ext, idx, ⟨len, hl, mid, hsh, hmid⟩, hr, rfl⟩ := h
  cases hl
  simp only [ChainShape] at hmid
  subst hmid
  match ext, idx, hsh, hr with
  | [e], [i], _, _ => simp [src, lensOf, exEnv, sourceChain, source, expand, expandArg, coords]

theorem exThreads_independent : Independent (lensOf exEnv) exThreads := by
  have d1 : ∀ x, Of (lensOf exEnv) ⟨0, [.slice [.idx 0, .all]]⟩ x → ¬ Of (lensOf exEnv) ⟨0, [.slice [.idx 1, .all]]⟩ x :=
    fun x => C86_rows _ 0 0 1 (by decide) _ _ _ _ x
  have d2 : ∀ x, Of (lensOf exEnv) ⟨0, [.slice [.idx 0, .all]]⟩ x → ¬ Of (lensOf exEnv) ⟨1, [.slice [.all, .idx 1]]⟩ x := fun x => C86_variables _ _ _ (by decide) x
  have d3 : ∀ x, Of (lensOf exEnv) ⟨0, [.slice [.idx 1, .all]]⟩ x → ¬ Of (lensOf exEnv) ⟨1, [.slice [.all, .idx 0]]⟩ x := fun x => C86_variables _ _ _ (by decide) x
  have d4 : ∀ x, Of (lensOf exEnv) ⟨1, [.slice [.all, .idx 0]]⟩ x → ¬ Of (lensOf exEnv) ⟨1, [.slice [.all, .idx 1]]⟩ x := by
    intro x h h'
    have := bcol h
    rw [bcol h'] at this
    cases this
  refine List.Pairwise.cons (fun u hu => ?_) (List.pairwise_singleton _ _)
  simp only [List.mem_singleton] at hu
  subst hu
  constructor
  · intro s hs s' hs' x hx
    simp only [List.mem_cons, List.not_mem_nil, or_false] at hs hs'
    subst hs'
    rcases hs with rfl | rfl
    · refine ⟨d1 x hx, ?_⟩
      rintro (h | ⟨q, hq, h⟩)
      · exact d1 x hx h
      · simp only [places, List.mem_singleton] at hq
        subst hq
        exact d2 x hx h
    · refine ⟨fun h => d3 x h hx, ?_⟩
      rintro (h | ⟨q, hq, h⟩)
      · exact d3 x h hx
      · simp only [places, List.mem_singleton] at hq
        subst hq
        exact d4 x hx h
  · intro s hs s' hs' x hx
    simp only [List.mem_cons, List.not_mem_nil, or_false] at hs hs'
    subst hs
    rcases hs' with rfl | rfl
    · exact ⟨fun h => d1 x h hx, fun h => d1 x h hx⟩
    · exact ⟨d3 x hx, fun h => h⟩

/-- Two interleavings, the same memory. -/
example : (follow ([0, 0, 1, 1, 1] ++ [0, 0, 1, 1, 1] ++ [0, 0, 1, 1, 1] ++ [0, 0, 0]) (exThreads.map (thread exEnv), [1, 2, 3, 4, 5, 6, 10, 20, 30, 40, 50, 60])).map (·.2) =
    some [2, 4, 6, 44, 55, 66, 7, 7, 7, 40, 50, 60] := by decide +kernel
example : (follow ([1, 1, 1, 0, 1, 1, 1] ++ [0, 0, 1, 0, 0, 0, 0] ++ [0, 0, 1, 1]) (exThreads.map (thread exEnv), [1, 2, 3, 4, 5, 6, 10, 20, 30, 40, 50, 60])).map (·.2) =
    some [2, 4, 6, 44, 55, 66, 7, 7, 7, 40, 50, 60] := by decide +kernel

/-- The hypotheses of `C86_threads`. -/
example (us : List (Act Int)) (mem' : List Int) (h : Steps (exThreads.map (thread exEnv), [1, 2, 3, 4, 5, 6, 10, 20, 30, 40, 50, 60]) (us, mem')) (hf : Finished us) :
    mem' = [2, 4, 6, 44, 55, 66, 7, 7, 7, 40, 50, 60] := by
  obtain ⟨env, h0, _, _, A, hA⟩ := C67_start (α := Int) [([0, 1], [2, 3]), ([1, 0], [3, 2])] (by
    intro d hd
    simp only [List.mem_cons, List.not_mem_nil, or_false] at hd
    rcases hd with rfl | rfl
    · exact ⟨by decide, rfl, by simp [NonNeg]⟩
    · exact ⟨by decide, rfl, by simp [NonNeg]⟩) [1, 2, 3, 4, 5, 6, 10, 20, 30, 40, 50, 60] (by decide)
  rw [show declare 0 [([0, 1], [2, 3]), ([1, 0], [3, 2])] = some exEnv by decide] at h0
  cases h0
  have h1 := ((C86_threads (α := Int) ⟨by simp, by simp, by simp, by simp⟩ true 0 exEnv exThreads [1, 2, 3, 4, 5, 6, 10, 20, 30, 40, 50, 60] A exEnv_ok hA exThreads_ok exThreads_independent us mem' h).2.2 hf).1
  have h2 : runAll true 0 exEnv exThreads.flatten [1, 2, 3, 4, 5, 6, 10, 20, 30, 40, 50, 60] = some (some [2, 4, 6, 44, 55, 66, 7, 7, 7, 40, 50, 60]) := by decide +kernel
  rw [h2] at h1
  cases h1
  rfl

/-- The arrays hold some values at the start. -/
theorem exHolds : ∃ A, Holds exEnv ([1, 2, 3, 4, 5, 6, 10, 20, 30, 40, 50, 60] : List Int) A := by
  obtain ⟨env, h0, _, _, A, hA⟩ := C67_start (α := Int) [([0, 1], [2, 3]), ([1, 0], [3, 2])] (by
    intro d hd
    simp only [List.mem_cons, List.not_mem_nil, or_false] at hd
    rcases hd with rfl | rfl
    · exact ⟨by decide, rfl, by simp [NonNeg]⟩
    · exact ⟨by decide, rfl, by simp [NonNeg]⟩) [1, 2, 3, 4, 5, 6, 10, 20, 30, 40, 50, 60] (by decide)
  rw [show declare 0 [([0, 1], [2, 3]), ([1, 0], [3, 2])] = some exEnv by decide] at h0
  cases h0
  exact ⟨A, hA⟩

/-- From the middle of an execution: it can be brought to its end. -/
example : ∃ s', Steps ((follow [0, 0, 1, 1, 1] (exThreads.map (thread exEnv), [1, 2, 3, 4, 5, 6, 10, 20, 30, 40, 50, 60])).getD ([], [])) s' ∧ Finished s'.1 := by
  obtain ⟨A, hA⟩ := exHolds
  refine C86_completes exEnv exThreads [1, 2, 3, 4, 5, 6, 10, 20, 30, 40, 50, 60] A exEnv_ok hA exThreads_ok exThreads_independent _ (follow_steps [0, 0, 1, 1, 1] ?_)
  rfl

/-- The second thread first. -/
example : runAll true 0 exEnv ([1, 0].flatMap (fun i => exThreads.getD i [])) [1, 2, 3, 4, 5, 6, 10, 20, 30, 40, 50, 60] =
    some (some [2, 4, 6, 44, 55, 66, 7, 7, 7, 40, 50, 60]) := by
  obtain ⟨A, hA⟩ := exHolds
  rw [C86_any_order true 0 exEnv exThreads [1, 2, 3, 4, 5, 6, 10, 20, 30, 40, 50, 60] A exEnv_ok hA exThreads_ok exThreads_independent [1, 0] (by decide)]
  decide +kernel

/-- Two parallel regions: the second reads what the first wrote. -/
example : ∃ mem', ForkJoin ([exThreads, exThreads].map (fun ts => ts.map (thread exEnv))) [1, 2, 3, 4, 5, 6, 10, 20, 30, 40, 50, 60] mem' ∧
    mem' = [4, 8, 12, 84, 105, 126, 7, 7, 7, 40, 50, 60] := by
  obtain ⟨A, hA⟩ := exHolds
  have hr : ∀ ts ∈ [exThreads, exThreads], (∀ t ∈ ts, ∀ s ∈ t, OK exEnv s ∧ NoSwap s) ∧ Independent (lensOf exEnv) ts := by
    intro ts hts
    simp only [List.mem_cons, List.not_mem_nil, or_false, or_self] at hts
    subst hts
    exact ⟨exThreads_ok, exThreads_independent⟩
  have hz : Arith.Spec.ZeroLaws Int := ⟨by simp, by simp, by simp, by simp⟩
  obtain ⟨mem', h⟩ := C86_forkjoin_ends hz 0 exEnv [exThreads, exThreads] [1, 2, 3, 4, 5, 6, 10, 20, 30, 40, 50, 60] A exEnv_ok hA hr
  refine ⟨mem', h, ?_⟩
  have h1 := (C86_forkjoin hz true 0 exEnv [exThreads, exThreads] [1, 2, 3, 4, 5, 6, 10, 20, 30, 40, 50, 60] mem' A exEnv_ok hA hr h).1
  have h2 : runAll true 0 exEnv [exThreads, exThreads].flatten.flatten [1, 2, 3, 4, 5, 6, 10, 20, 30, 40, 50, 60] =
      some (some [4, 8, 12, 84, 105, 126, 7, 7, 7, 40, 50, 60]) := by decide +kernel
  rw [h2] at h1
  cases h1
  rfl

/-- Element (1, 2) is in the second row and in the block of rows 1 and 2, so not in the first row and not in the block of row 0. -/
example : ¬ Of [[3, 4]] ⟨0, [.slice [.idx 0, .all]]⟩ (0, [1, 2]) ∧ ¬ Of [[3, 4]] ⟨0, [.slice [.rng 0 1 1, .all]]⟩ (0, [1, 2]) :=
  ⟨C86_rows [[3, 4]] 0 1 0 (by decide) [.all] [.all] [] [] _ ⟨[4], [2], ⟨_, rfl, [4], ⟨rfl, trivial⟩, rfl⟩, by simp [InRange], rfl⟩,
   C86_blocks [[3, 4]] 0 1 3 0 1 (by decide) (by decide) (by decide) [.all] [.all] _
    ⟨[2, 4], [0, 2], ⟨_, rfl, [2, 4], ⟨⟨by decide, by decide, fun k _ => by simp [stop]; omega⟩, rfl, trivial⟩, rfl⟩, by simp [InRange], rfl⟩⟩

/-! ### What goes wrong -/

/-- One variable with one element. -/
def oneEnv : List View := [⟨0, ⟨[1], [1], [0], [0], .contiguous⟩⟩]

/-- `a += 1` in two threads. -/
def bothAdd : List (List (Stmt Int)) := [[.compoundScalar .add .A ⟨0, []⟩ 1], [.compoundScalar .add .A ⟨0, []⟩ 1]]

/-- C86: without disjointness the claim is false: `a += 1` in two threads is a race, and one of the two increments can be lost. -/
theorem C86_race_witness :
    (∃ us mem', Steps (bothAdd.map (thread oneEnv), [0]) (us, mem') ∧ Race us) ∧
    (∃ us, Steps (bothAdd.map (thread oneEnv), [0]) (us, [2]) ∧ Finished us) ∧ ∃ us, Steps (bothAdd.map (thread oneEnv), [0]) (us, [1]) ∧ Finished us := by
  refine ⟨⟨[.write 0 1 .done, .read 0 (fun x => .write 0 (x + 1) .done)], [0], follow_steps [0] rfl, 0, 1, _, _, 0, true, false, by decide, rfl, rfl, rfl, rfl, Or.inl rfl⟩,
    ⟨[.done, .done], follow_steps [0, 0, 1, 1] rfl, ?_⟩, ⟨[.done, .done], follow_steps [0, 1, 0, 1] rfl, ?_⟩⟩ <;>
  · intro t ht
    simp only [List.mem_cons, List.not_mem_nil, or_false, or_self] at ht
    exact ht

/-- Two calls of `rand` for new arrays with one element each, at the addresses 1 and 2; the generator is at 0. -/
def bothRand (g : Nat → Nat) : List (Act Nat) :=
  [((randCode 0 g ⟨1, ⟨[1], [1], [0], [0], .contiguous⟩⟩).getD id) .done, ((randCode 0 g ⟨2, ⟨[1], [1], [0], [0], .contiguous⟩⟩).getD id) .done]

/-- C86: `rand` in two threads is a race although the arrays are different: the generator is static (basic_array.hpp:315-316).  Both arrays can get the same sample. -/
theorem C86_rand_witness (g : Nat → Nat) :
    (∃ us mem', Steps (bothRand g, [0, 0, 0]) (us, mem') ∧ Race us) ∧
    (∃ us, Steps (bothRand g, [0, 0, 0]) (us, [2, g 0, g 1]) ∧ Finished us) ∧ ∃ us, Steps (bothRand g, [0, 0, 0]) (us, [1, g 0, g 0]) ∧ Finished us := by
  refine ⟨⟨_, [0, 0, 0], follow_steps [0] rfl, 0, 1, _, _, 0, true, false, by decide, rfl, rfl, rfl, rfl, Or.inl rfl⟩,
    ⟨[.done, .done], follow_steps [0, 0, 0, 1, 1, 1] rfl, ?_⟩, ⟨[.done, .done], follow_steps [0, 1, 0, 1, 0, 1] rfl, ?_⟩⟩ <;>
  · intro t ht
    simp only [List.mem_cons, List.not_mem_nil, or_false, or_self] at ht
    exact ht

end Nda.Threads
