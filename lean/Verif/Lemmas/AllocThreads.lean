import Verif.Spec.AllocThreads
import Verif.Lemmas.AllocBlind
import Verif.Lemmas.AllocWrap
/-!
# Lemmas: an allocator used by several threads
-/
namespace Nda.Alloc
open Spec

section
variable {S S' R R' : Type}

theorem Prog.run_bind (p : Prog S R) (k : R → Prog S R') : ∀ s, (p.bind k).run s = (p.run s).bind (fun r => (k r.1).run r.2) := by
  induction p with
  | ret r => intro s; simp [Prog.bind, Prog.run]
  | fail => intro s; simp [Prog.bind, Prog.run]
  | act f c ih => intro s; simp only [Prog.bind, Prog.run]; exact ih s (f s)

theorem Prog.run_lift {get : S → S'} {put : S' → S → S} (h1 : ∀ x s, get (put x s) = x) (h2 : ∀ s, put (get s) s = s) (h3 : ∀ x y s, put x (put y s) = put x s) (p : Prog S' R) :
    ∀ s, (p.lift get put).run s = (p.run (get s)).map (fun r => (r.1, put r.2 s)) := by
  induction p with
  | ret r => intro s; simp [Prog.lift, Prog.run, h2]
  | fail => intro s; simp [Prog.lift, Prog.run]
  | act f c ih =>
    intro s
    simp only [Prog.lift, Prog.run]
    rw [ih, h1]
    simp only [h3]

end

section
variable {σ τ R : Type}

theorem run_liftL (p : Prog (σ × Sys) R) (s : (σ × τ) × Sys) : (p.lift getL putL).run s = (p.run (s.1.1, s.2)).map (fun r => (r.1, ((r.2.1, s.1.2), r.2.2))) :=
  Prog.run_lift (get := getL (σ := σ) (τ := τ)) (put := putL) (fun _ _ => rfl) (fun _ => rfl) (fun _ _ _ => rfl) p s

theorem run_liftR (p : Prog (τ × Sys) R) (s : (σ × τ) × Sys) : (p.lift getR putR).run s = (p.run (s.1.2, s.2)).map (fun r => (r.1, ((s.1.1, r.2.1), r.2.2))) :=
  Prog.run_lift (get := getR (σ := σ) (τ := τ)) (put := putR) (fun _ _ => rfl) (fun _ => rfl) (fun _ _ _ => rfl) p s

theorem run_thenZero (n : Nat) (p : Prog (σ × Sys) Blk) (s : σ × Sys) : (thenZero n p).run s = (p.run s).map (fun r => (r.1, (r.2.1, r.2.2.zero r.1.ptr n))) := by
  rw [thenZero, Prog.run_bind]
  cases p.run s <;> rfl

end

/-! ### The accesses of an operation alone are the operation -/

theorem mallocator_refines : Refines mallocatorP mallocator where
  allocate n st sys := rfl
  allocateZero n st sys := rfl
  deallocate k st sys := by
    simp only [mallocatorP, mallocator, Prog.run]
    cases h : sys.free k.ptr with
    | none => simp [Prog.run]
    | some s => simp [Prog.run]

theorem run_allocAt {S : Type} {get : S → Option Bucket} {put : BitVec 64 → S → S} {C n : Nat} {s : S} {b : Bucket} (hb : get s = some b) :
    (allocAt get put C n).run s = (b.allocate C n).map (fun r => (r.1, put r.2.flags s)) := by
  simp only [allocAt, Prog.load, Prog.store, Prog.run, hb, id, Bucket.allocate]
  by_cases h0 : b.flags = 0#64
  · simp [h0, Prog.run]
  · simp only [h0, if_false, Prog.run, id, hb, Option.bind_some]
    cases hc : ctz b.flags with
    | none => simp [Prog.run]
    | some pos => simp [Prog.run, hb]

theorem run_deallocAt {S : Type} {get : S → Option Bucket} {put : BitVec 64 → S → S} {C : Nat} {k : Blk} {s : S} {b : Bucket} (hb : get s = some b) :
    (deallocAt get put C k).run s = (b.deallocate C k).map (fun r => ((), put r.flags s)) := by
  simp only [deallocAt, Prog.load, Prog.store, Prog.run, hb, id, Bucket.deallocate]
  by_cases h0 : C = 0
  · simp [h0, Prog.run]
  · simp only [h0, if_false]
    split <;> simp [Prog.run]

theorem allocate_p {C n : Nat} {b : Bucket} {r : Blk × Bucket} (h : b.allocate C n = some r) : r.2 = { b with flags := r.2.flags } := by
  simp only [Bucket.allocate, Option.bind_eq_bind] at h
  split at h
  · simp at h
  · simp only [Option.pure_def, Option.bind_some] at h
    obtain ⟨pos, _, hp⟩ := Option.bind_eq_some_iff.1 h
    simp only [Option.some.injEq] at hp
    subst hp; rfl

theorem deallocate_p {C : Nat} {k : Blk} {b r : Bucket} (h : b.deallocate C k = some r) : r = { b with flags := r.flags } := by
  simp only [Bucket.deallocate] at h
  split at h
  · simp at h
  · split at h
    · simp only [Option.some.injEq] at h
      subst h; rfl
    · simp at h

theorem bucket_refines (C : Nat) : Refines (bucketP C) (bucket C) where
  allocate n st sys := by
    simp only [bucketP, bucket]
    rw [run_allocAt (get := fun s : Bucket × Sys => some s.1) (s := (st, sys)) (b := st) rfl]
    cases h : st.allocate C n with
    | none => rfl
    | some r => simp [putFlags, ← allocate_p h]
  allocateZero n st sys := by
    simp only [bucketP, bucket]
    rw [run_thenZero, run_allocAt (get := fun s : Bucket × Sys => some s.1) (s := (st, sys)) (b := st) rfl]
    cases h : st.allocate C n with
    | none => rfl
    | some r => simp [putFlags, ← allocate_p h]
  deallocate k st sys := by
    simp only [bucketP, bucket]
    rw [run_deallocAt (get := fun s : Bucket × Sys => some s.1) (s := (st, sys)) (b := st) rfl]
    cases h : st.deallocate C k with
    | none => rfl
    | some r => simp [putFlags, ← deallocate_p h]

theorem modify_flags {v : List Bucket} {i : Nat} {b b' : Bucket} (h : v[i]? = some b) (hb : b' = { b with flags := b'.flags }) :
    v.modify i (fun x => { x with flags := b'.flags }) = v.set i b' := by
  apply List.ext_getElem?
  intro j
  rw [List.getElem?_modify, List.getElem?_set]
  by_cases hj : i = j
  · subst hj
    obtain ⟨hl, _⟩ := List.getElem?_eq_some_iff.1 h
    simp only [if_true, h, hl]
    exact congrArg some hb.symm
  · simp [hj]

theorem run_multiAlloc (C n : Nat) (m : Multi) (sys : Sys) : (multiAllocP C n).run (m, sys) = (m.allocate C n sys).map (fun r => (r.1, (r.2.1, r.2.2))) := by
  have last : ∀ (m : Multi) (sys : Sys), (Prog.load fun s : Multi × Sys => allocAt (fun s' => s'.1.vec[s.1.cur]?) (putFlagsAt s.1.cur) C n).run (m, sys) =
      (do let b ← m.vec[m.cur]?
          let (k, b) ← b.allocate C n
          return (k, (⟨m.vec.set m.cur b, m.cur⟩, sys)) : Option (Blk × (Multi × Sys))) := by
    intro m sys
    simp only [Prog.load, Prog.run, id]
    cases hb : m.vec[m.cur]? with
    | none => simp [allocAt, Prog.load, Prog.run, hb]
    | some b =>
      rw [run_allocAt (get := fun s : Multi × Sys => s.1.vec[m.cur]?) (s := (m, sys)) (b := b) hb]
      cases h : b.allocate C n with
      | none => simp [h]
      | some r => simp [h, putFlagsAt, modify_flags hb (allocate_p h)]
  simp only [multiAllocP]
  rw [Prog.load, Prog.run]
  simp only [id]
  have fin : ∀ (m : Multi) (sys : Sys), (do let b ← m.vec[m.cur]?
                                            let (k, b) ← b.allocate C n
                                            return (k, (⟨m.vec.set m.cur b, m.cur⟩, sys)) : Option (Blk × (Multi × Sys))) =
      (do let b ← m.vec[m.cur]?
          let (k, b) ← b.allocate C n
          return (k, ⟨m.vec.set m.cur b, m.cur⟩, sys) : Option (Blk × Multi × Sys)).map (fun r => (r.1, (r.2.1, r.2.2))) := by
    intro m sys
    cases m.vec[m.cur]? with
    | none => rfl
    | some b => cases h : b.allocate C n <;> simp [h]
  simp only [Multi.allocate, Multi.ready]
  cases hb : m.vec[m.cur]? with
  | none =>
    simp only [if_true, Prog.store, Prog.run]
    exact (last _ _).trans (fin _ _)
  | some b =>
    cases hf : b.isFull with
    | true =>
      simp only [hf, if_true, Prog.store, Prog.run, cond_true]
      exact (last _ _).trans (fin _ _)
    | false =>
      simp only [hf, cond_false]
      rw [if_neg (by simp)]
      exact (last _ _).trans (fin _ _)

theorem run_multiDealloc (C : Nat) (k : Blk) (m : Multi) (sys : Sys) : (multiDeallocP C k).run (m, sys) = (m.deallocate C k sys).map (fun r => ((), r)) := by
  simp only [multiDeallocP, Multi.deallocate]
  rw [Prog.load, Prog.run]
  simp only [id]
  cases hb : (m.vec[m.cur]?).filter (fun b => b.owns C k) with
  | some b =>
    have hb' : m.vec[m.cur]? = some b := (Option.filter_eq_some_iff.1 hb).1
    simp only
    rw [run_deallocAt (get := fun s : Multi × Sys => s.1.vec[m.cur]?) (s := (m, sys)) (b := b) hb']
    cases h : b.deallocate C k with
    | none => rfl
    | some r => simp [putFlagsAt, modify_flags hb' (deallocate_p h)]
  | none =>
    simp only [Prog.load, Prog.store, Prog.run, id]
    generalize Multi.firstPos (fun b => !decide (b.p ≤ k.ptr)) m.vec = pos
    by_cases hp : pos = 0
    · simp [hp, Prog.run]
    · simp only [hp, if_false, Prog.run, id]
      rw [Prog.run_bind]
      cases hv : m.vec[pos - 1]? with
      | none => simp [deallocAt, Prog.load, Prog.run, hv]
      | some b =>
        rw [run_deallocAt (get := fun s : Multi × Sys => s.1.vec[pos - 1]?) (s := (⟨m.vec, pos - 1⟩, sys)) (b := b) hv]
        cases h : b.deallocate C k with
        | none => simp [h]
        | some r =>
          obtain ⟨hl, _⟩ := List.getElem?_eq_some_iff.1 hv
          simp only [Option.map_some, Option.bind_some, putFlagsAt, modify_flags hv (deallocate_p h), Prog.run, id, List.getElem?_set_self hl,
            Option.pure_def, Option.bind_eq_bind, h]
          by_cases he : r.isEmpty = true
          · simp only [he, Bool.not_true, Bool.false_eq_true, if_false, Prog.run, id]
            by_cases hl1 : (m.vec.set (pos - 1) r).length ≤ 1
            · simp only [hl1, if_true, Prog.run, Option.map_some]
            · simp only [hl1, if_false, Prog.run]
              cases Multi.erase ⟨m.vec.set (pos - 1) r, pos - 1⟩ sys with
              | none => simp [Prog.run]
              | some x => simp [Prog.run]
          · simp [he, Prog.run]

theorem multi_refines (C : Nat) : Refines (multiBucketP C) (multiBucket C) where
  allocate n st sys := run_multiAlloc C n st sys
  allocateZero n st sys := by
    simp only [multiBucketP, multiBucket]
    rw [run_thenZero, run_multiAlloc]
    cases st.allocate C n sys <;> rfl
  deallocate k st sys := run_multiDealloc C k st sys

section
variable {σ τ : Type} {A : PAlloc σ} {A' : Allocator σ} {B : PAlloc τ} {B' : Allocator τ}

theorem segregator_refines (T : Nat) (hA : Refines A A') (hB : Refines B B') : Refines (segregatorP T A B) (segregator T A' B') where
  allocate n st sys := by
    simp only [segregatorP, segregator]
    split
    · rw [run_liftL, hA.allocate]; cases A'.allocate n st.1 sys <;> rfl
    · rw [run_liftR, hB.allocate]; cases B'.allocate n st.2 sys <;> rfl
  allocateZero n st sys := by
    simp only [segregatorP, segregator]
    split
    · rw [run_liftL, hA.allocateZero]; cases A'.allocateZero n st.1 sys <;> rfl
    · rw [run_liftR, hB.allocateZero]; cases B'.allocateZero n st.2 sys <;> rfl
  deallocate k st sys := by
    simp only [segregatorP, segregator]
    split
    · rw [run_liftL, hA.deallocate]; cases A'.deallocate k st.1 sys <;> rfl
    · rw [run_liftR, hB.deallocate]; cases B'.deallocate k st.2 sys <;> rfl

theorem leakCheck_refines (hA : Refines A A') : Refines (leakCheckP A) (leakCheck A') where
  allocate n st sys := by
    simp only [leakCheckP, leakCheck]
    rw [Prog.run_bind, run_liftL, hA.allocate]
    cases A'.allocate n st.1 sys <;> rfl
  allocateZero n st sys := by
    simp only [leakCheckP, leakCheck]
    rw [Prog.run_bind, run_liftL, hA.allocateZero]
    cases A'.allocateZero n st.1 sys <;> rfl
  deallocate k st sys := by
    simp only [leakCheckP, leakCheck, Prog.load, Prog.store, Prog.run, id]
    by_cases h : st.2 - (k.s : Int) < 0
    · simp [h, Prog.run]
    · simp only [h, if_false]
      rw [run_liftL, hA.deallocate]
      cases A'.deallocate k st.1 sys <;> rfl

theorem run_countP {σ R : Type} (n : Nat) (c : Prog ((σ × List Nat) × Sys) R) (st : σ × List Nat) (sys : Sys) :
    (countP n c).run (st, sys) = (count n st.2).bind (fun h => c.run ((st.1, h), sys)) := by
  simp only [countP, count]
  cases clz n with
  | none => simp [Prog.run]
  | some i =>
    simp only [Prog.load, Prog.run, id, Option.bind_eq_bind, Option.bind_some]
    cases st.2[i]? with
    | none => simp [Prog.run]
    | some h => simp [Prog.store, Prog.run]

theorem stats_refines (hA : Refines A A') : Refines (statsP A) (stats A') where
  allocate n st sys := by
    simp only [statsP, stats]
    rw [run_countP]
    cases count n st.2 with
    | none => rfl
    | some h => simp only [Option.bind_some]; rw [run_liftL, hA.allocate]; simp only [Option.bind_eq_bind, Option.bind_some]; cases A'.allocate n st.1 sys <;> rfl
  allocateZero n st sys := by
    simp only [statsP, stats]
    rw [run_countP]
    cases count n st.2 with
    | none => rfl
    | some h => simp only [Option.bind_some]; rw [run_liftL, hA.allocate]; simp only [Option.bind_eq_bind, Option.bind_some]; cases A'.allocate n st.1 sys <;> rfl
  deallocate k st sys := by
    simp only [statsP, stats]
    rw [run_liftL, hA.deallocate]
    cases A'.deallocate k st.1 sys <;> rfl

end

/-! ### Linearisation -/

section
variable {σ : Type} {A : PAlloc σ} {A' : Allocator σ} {z : Prop} {ok : Nat → Prop} {Inv : σ → List Blk → List Blk → Prop}

theorem set_map_held {l : List (AThr σ)} {i : Nat} (t : AThr σ) : (l.set i t).map AThr.held = (l.map AThr.held).set i t.held := by
  rw [List.map_set]

theorem flatten_set_perm : ∀ {L : List (List Blk)} {i : Nat} {h h' : List Blk}, L[i]? = some h → ∀ {rest : List Blk},
    L.flatten.Perm (h ++ rest) → ((L.set i h').flatten).Perm (h' ++ rest)
  | [], i, h, h', hi, rest, hp => by simp at hi
  | a :: L, 0, h, h', hi, rest, hp => by
      simp only [List.getElem?_cons_zero, Option.some.injEq] at hi
      subst hi
      simp only [List.set_cons_zero, List.flatten_cons] at hp ⊢
      exact ((List.perm_append_left_iff _).1 hp).append_left h'
  | a :: L, i + 1, h, h', hi, rest, hp => by
      simp only [List.getElem?_cons_succ] at hi
      simp only [List.set_cons_succ, List.flatten_cons] at hp ⊢
      obtain ⟨r1, hr1⟩ : ∃ r1, L.flatten.Perm (h ++ r1) := by
        obtain ⟨s, t, e⟩ := List.append_of_mem (List.mem_of_getElem? hi)
        refine ⟨s.flatten ++ t.flatten, ?_⟩
        rw [e]
        simp only [List.flatten_append, List.flatten_cons]
        rw [← List.append_assoc, ← List.append_assoc]
        exact (List.perm_append_comm).append_right _
      have h1 := flatten_set_perm hi (h' := h') hr1
      have h2 : (a ++ r1).Perm rest := by
        have e1 : (a ++ L.flatten).Perm (h ++ (a ++ r1)) := by
          refine (hr1.append_left a).trans ?_
          rw [← List.append_assoc, ← List.append_assoc]
          exact (List.perm_append_comm).append_right _
        exact (List.perm_append_left_iff h).1 (e1.symm.trans hp)
      refine (h1.append_left a).trans ?_
      refine List.Perm.trans ?_ (h2.append_left h')
      rw [← List.append_assoc, ← List.append_assoc]
      exact (List.perm_append_comm).append_right _

/-- The blocks of thread `i` and the others. -/
theorem allHeld_split {s : AState σ} {i : Nat} {t : AThr σ} (ht : s.thr[i]? = some t) :
    ∃ rest, (allHeld s).Perm (t.held ++ rest) ∧ ∀ (sh : σ × Sys) (t' : AThr σ), (allHeld ⟨sh, s.thr.set i t'⟩).Perm (t'.held ++ rest) := by
  have hi : (s.thr.map AThr.held)[i]? = some t.held := by simp [ht]
  obtain ⟨a, b, e⟩ := List.append_of_mem (List.mem_of_getElem? hi)
  have hp : (allHeld s).Perm (t.held ++ (a.flatten ++ b.flatten)) := by
    unfold allHeld
    rw [e]
    simp only [List.flatten_append, List.flatten_cons]
    rw [← List.append_assoc, ← List.append_assoc]
    exact (List.perm_append_comm).append_right _
  refine ⟨_, hp, fun sh t' => ?_⟩
  unfold allHeld
  simp only [set_map_held]
  exact flatten_set_perm hi hp

/-- What the threads have done so far, as a history of one client, in which an operation takes place when its thread starts it.  Inside an operation of thread `i`, its remaining accesses
lead to the state of the client and give `r`; they write zeros to the addresses in `Z`, where no thread holds a block.  Or they fail, and so does the operation for the client. -/
inductive Lin (A' : Allocator σ) (ok : Nat → Prop) (s : AState σ) (w : World σ) : Prop where
  | quiet (h1 : w.st = s.sh.1) (h2 : w.sys = s.sh.2) (h3 : w.held.Perm (allHeld s)) (h4 : Quiet s)
  | busy (i : Nat) (t : AThr σ) (p : Prog (σ × Sys) (Option Blk)) (r : Option Blk) (Z : Int → Bool) (h1 : s.thr[i]? = some t) (h2 : t.cur = some p)
      (h3 : ∀ (j : Nat) (t' : AThr σ), j ≠ i → s.thr[j]? = some t' → ¬ Busy t') (hb : Blind p)
      (h4 : ∀ m, p.run (s.sh.1, withMem s.sh.2 m) = some (r, (w.st, withMem w.sys (zap Z m)))) (h5 : w.sys.mem = zap Z s.sh.2.mem)
      (h6 : ∀ b ∈ allHeld s, ∀ a, Covers b a → Z a = false) (h7 : w.held.Perm (r.toList ++ allHeld s))
  | doomed (i : Nat) (t : AThr σ) (p : Prog (σ × Sys) (Option Blk)) (o : Op) (h1 : s.thr[i]? = some t) (h2 : t.cur = some p)
      (h3 : ∀ (j : Nat) (t' : AThr σ), j ≠ i → s.thr[j]? = some t' → ¬ Busy t') (hb : Blind p) (h4 : ∀ m, p.run (s.sh.1, withMem s.sh.2 m) = none)
      (h5 : ∃ l, w.held.Perm (l ++ allHeld s)) (h6 : Sizes ok [o]) (h7 : ∀ m, (⟨w.st, withMem w.sys m, w.held⟩ : World σ).step A' o = none)

/-- An operation of a thread is an operation of the client. -/
theorem begin_op (hr : Refines A A') {t : AThr σ} {o : Op} (ho : Sizes ok [o]) {wh rest : List Blk} (hw : wh.Perm (t.held ++ rest)) :
    ∃ o', Sizes ok [o'] ∧
      (∀ st sys r sh, (opProg A t.held o).run (st, sys) = some (r, sh) → ∃ held, (⟨st, sys, wh⟩ : World σ).step A' o' = some ⟨sh.1, sh.2, held⟩ ∧ held.Perm (r.toList ++ (during t.held o ++ rest))) ∧
      (∀ st sys, (opProg A t.held o).run (st, sys) = none → (⟨st, sys, wh⟩ : World σ).step A' o' = none) ∧
      (∀ k off x, o' = .write k off x → (∃ b ∈ during t.held o, wh[k]? = some b) ∨ wh[k]? = none) ∧
      (∀ k off x, o' = .write k off x → ∃ k', o = .write k' off x) := by
  cases o with
  | alloc n =>
    refine ⟨.alloc n, ho, ?_, ?_, by simp, by simp⟩
    · intro st sys r sh hrun
      simp only [opProg, Prog.run_bind, hr.allocate] at hrun
      obtain ⟨x, hx, he⟩ := Option.bind_eq_some_iff.1 hrun
      obtain ⟨y, hy, he'⟩ := Option.map_eq_some_iff.1 hx
      subst he'
      simp only [Prog.run, Option.some.injEq, Prod.mk.injEq] at he
      obtain ⟨rfl, rfl⟩ := he
      refine ⟨y.1 :: wh, by simp [World.step, hy], ?_⟩
      simpa [during] using hw.cons y.1
    · intro st sys hrun
      simp only [opProg, Prog.run_bind, hr.allocate] at hrun
      cases hy : A'.allocate n st sys with
      | none => simp [World.step, hy]
      | some y => rw [hy] at hrun; simp [Prog.run] at hrun
  | allocZero n =>
    refine ⟨.allocZero n, ho, ?_, ?_, by simp, by simp⟩
    · intro st sys r sh hrun
      simp only [opProg, Prog.run_bind, hr.allocateZero] at hrun
      obtain ⟨x, hx, he⟩ := Option.bind_eq_some_iff.1 hrun
      obtain ⟨y, hy, he'⟩ := Option.map_eq_some_iff.1 hx
      subst he'
      simp only [Prog.run, Option.some.injEq, Prod.mk.injEq] at he
      obtain ⟨rfl, rfl⟩ := he
      refine ⟨y.1 :: wh, by simp [World.step, hy], ?_⟩
      simpa [during] using hw.cons y.1
    · intro st sys hrun
      simp only [opProg, Prog.run_bind, hr.allocateZero] at hrun
      cases hy : A'.allocateZero n st sys with
      | none => simp [World.step, hy]
      | some y => rw [hy] at hrun; simp [Prog.run] at hrun
  | free k =>
    cases hk : t.held[k]? with
    | none =>
      have hd : during t.held (.free k) = t.held := by simp only [during]; exact List.eraseIdx_of_length_le (List.getElem?_eq_none_iff.1 hk)
      rw [hd]
      refine ⟨.free wh.length, fun _ h => by simp only [List.mem_singleton] at h; subst h; trivial, ?_, ?_, by simp, by simp⟩
      · intro st sys r sh hrun
        simp only [opProg, hk, Prog.run, Option.some.injEq, Prod.mk.injEq] at hrun
        obtain ⟨rfl, rfl⟩ := hrun
        exact ⟨wh, by simp [World.step], by simpa using hw⟩
      · intro st sys hrun; simp [opProg, hk, Prog.run] at hrun
    | some b =>
      have hb : b ∈ wh := hw.symm.subset (List.mem_append_left _ (List.mem_of_getElem? hk))
      obtain ⟨j, hj⟩ := List.mem_iff_getElem?.1 hb
      obtain ⟨hkl, hke⟩ := List.getElem?_eq_some_iff.1 hk
      obtain ⟨hjl, hje⟩ := List.getElem?_eq_some_iff.1 hj
      have p1 : t.held.Perm (b :: t.held.eraseIdx k) := by rw [← hke]; exact (List.getElem_cons_eraseIdx_perm hkl).symm
      have p2 : wh.Perm (b :: wh.eraseIdx j) := by rw [← hje]; exact (List.getElem_cons_eraseIdx_perm hjl).symm
      have p3 : (wh.eraseIdx j).Perm (t.held.eraseIdx k ++ rest) := by
        have := (p2.symm.trans hw).trans (p1.append_right rest)
        exact (List.perm_cons b).1 this
      refine ⟨.free j, fun _ h => by simp only [List.mem_singleton] at h; subst h; trivial, ?_, ?_, by simp, by simp⟩
      · intro st sys r sh hrun
        simp only [opProg, hk, Prog.run_bind, hr.deallocate] at hrun
        obtain ⟨x, hx, he⟩ := Option.bind_eq_some_iff.1 hrun
        obtain ⟨y, hy, he'⟩ := Option.map_eq_some_iff.1 hx
        subst he'
        simp only [Prog.run, Option.some.injEq, Prod.mk.injEq] at he
        obtain ⟨rfl, rfl⟩ := he
        exact ⟨wh.eraseIdx j, by simp [World.step, hj, hy], by simpa [during] using p3⟩
      · intro st sys hrun
        simp only [opProg, hk, Prog.run_bind, hr.deallocate] at hrun
        cases hy : A'.deallocate b st sys with
        | none => simp [World.step, hj, hy]
        | some y => rw [hy] at hrun; simp [Prog.run] at hrun
  | write k off x =>
    simp only [during]
    cases hk : t.held[k]? with
    | none =>
      refine ⟨.write wh.length off x, fun _ h => by simp only [List.mem_singleton] at h; subst h; trivial, ?_, ?_, ?_, ?_⟩
      · intro st sys r sh hrun
        simp only [opProg, hk, Prog.run, Option.some.injEq, Prod.mk.injEq] at hrun
        obtain ⟨rfl, rfl⟩ := hrun
        exact ⟨wh, by simp [World.step], by simpa using hw⟩
      · intro st sys hrun; simp [opProg, hk, Prog.run] at hrun
      · intro k' off' x' he
        simp only [Op.write.injEq] at he
        right; rw [← he.1]; simp
      · intro k' off' x' he
        simp only [Op.write.injEq] at he
        exact ⟨k, by rw [he.2.1, he.2.2]⟩
    | some b =>
      have hb : b ∈ wh := hw.symm.subset (List.mem_append_left _ (List.mem_of_getElem? hk))
      obtain ⟨j, hj⟩ := List.mem_iff_getElem?.1 hb
      refine ⟨.write j off x, fun _ h => by simp only [List.mem_singleton] at h; subst h; trivial, ?_, ?_, ?_, ?_⟩
      · intro st sys r sh hrun
        simp only [opProg, hk] at hrun
        refine ⟨wh, ?_, ?_⟩
        · simp only [World.step, hj]
          split at hrun
          · rename_i hlt
            simp only [Prog.store, Prog.run, Option.some.injEq, Prod.mk.injEq] at hrun
            obtain ⟨rfl, rfl⟩ := hrun
            simp [hlt]
          · rename_i hlt
            simp only [Prog.run, Option.some.injEq, Prod.mk.injEq] at hrun
            obtain ⟨rfl, rfl⟩ := hrun
            simp [hlt]
        · split at hrun
          · simp only [Prog.store, Prog.run, Option.some.injEq, Prod.mk.injEq] at hrun
            obtain ⟨rfl, rfl⟩ := hrun
            simpa using hw
          · simp only [Prog.run, Option.some.injEq, Prod.mk.injEq] at hrun
            obtain ⟨rfl, rfl⟩ := hrun
            simpa using hw
      · intro st sys hrun
        simp only [opProg, hk] at hrun
        split at hrun <;> simp [Prog.store, Prog.run] at hrun
      · intro k' off' x' he
        simp only [Op.write.injEq] at he
        left; rw [← he.1]; exact ⟨b, List.mem_of_getElem? hk, hj⟩
      · intro k' off' x' he
        simp only [Op.write.injEq] at he
        exact ⟨k, by rw [he.2.1, he.2.2]⟩

theorem settle_held {held : List Blk} {ops : List Op} {p : Prog (σ × Sys) (Option Blk)} (h : ∀ r, p ≠ .ret r) : settle held ops p = ⟨held, some p, ops⟩ := by
  cases p with
  | ret r => exact absurd rfl (h r)
  | fail => rfl
  | act f c => rfl

theorem settle_ops {held : List Blk} {ops : List Op} {p : Prog (σ × Sys) (Option Blk)} : (settle held ops p).ops = ops := by cases p <;> rfl

/-- The threads have operations of the right sizes. -/
def AllSizes (ok : Nat → Prop) (s : AState σ) : Prop := ∀ t ∈ s.thr, Sizes ok t.ops

/-- The client makes no step, or one step for thread `t`. -/
def Trans (A' : Allocator σ) (ok : Nat → Prop) (held : List Blk) (w w' : World σ) : Prop :=
  w' = w ∨ ∃ o, Sizes ok [o] ∧ w.step A' o = some w' ∧ ∀ k off x, o = .write k off x → (∃ b ∈ held, w.held[k]? = some b) ∨ w.held[k]? = none

theorem mem_set_cases {α : Type} {l : List α} {i : Nat} {a b : α} (h : b ∈ l.set i a) : b = a ∨ b ∈ l := by
  rcases List.mem_or_eq_of_mem_set h with h | h
  · exact Or.inr h
  · exact Or.inl h

theorem others_quiet {s : AState σ} {i : Nat} {t' : AThr σ} (hn : ∀ (j : Nat) (t' : AThr σ), j ≠ i → s.thr[j]? = some t' → ¬ Busy t') (j : Nat) (t : AThr σ) (hji : j ≠ i)
    (hj : (s.thr.set i t')[j]? = some t) : ¬ Busy t := by
  rw [List.getElem?_set_ne (fun h => hji h.symm)] at hj
  exact hn j t hji hj

/-- One access of an operation that will succeed. -/
theorem advance_busy {s u : AState σ} {w : World σ} {i : Nat} {t : AThr σ} {held rest : List Blk} {ops : List Op} {p : Prog (σ × Sys) (Option Blk)} {r : Option Blk} {Z : Int → Bool}
    (ht : s.thr[i]? = some t) (hn : ∀ (j : Nat) (t' : AThr σ), j ≠ i → s.thr[j]? = some t' → ¬ Busy t') (hb : Blind p)
    (hsplit : ∀ (sh : σ × Sys) (t' : AThr σ), (allHeld ⟨sh, s.thr.set i t'⟩).Perm (t'.held ++ rest))
    (h4 : ∀ m, p.run (s.sh.1, withMem s.sh.2 m) = some (r, (w.st, withMem w.sys (zap Z m)))) (h5 : w.sys.mem = zap Z s.sh.2.mem)
    (h6 : ∀ b ∈ held ++ rest, ∀ a, Covers b a → Z a = false) (h7 : w.held.Perm (r.toList ++ (held ++ rest))) (hadv : advance s i held ops p = .ok u) : Lin A' ok u w := by
  obtain ⟨hil, _⟩ := List.getElem?_eq_some_iff.1 ht
  have wmem : withMem w.sys (zap Z s.sh.2.mem) = w.sys := by rw [← h5]; rfl
  have quietCase : ∀ (sh : σ × Sys) (r' : Option Blk), p.run s.sh = some (r', sh) → Lin A' ok ⟨sh, s.thr.set i (settle held ops (.ret r'))⟩ w := by
    intro sh r' hrun
    have e := h4 s.sh.2.mem
    rw [withMem_self, wmem] at e
    have e' : p.run s.sh = some (r, (w.st, w.sys)) := e
    rw [e', Option.some.injEq, Prod.mk.injEq] at hrun
    obtain ⟨rfl, rfl⟩ := hrun
    refine .quiet rfl rfl ?_ ?_
    · refine h7.trans ((hsplit _ _).trans ?_).symm
      simp [settle]
    · intro t' ht'
      rcases List.mem_iff_getElem?.1 ht' with ⟨j, hj⟩
      by_cases hji : j = i
      · subst hji
        simp only at hj
        rw [List.getElem?_set_self hil, Option.some.injEq] at hj
        subst hj
        simp [settle, Busy]
      · exact others_quiet hn j t' hji hj
  cases p with
  | ret r' =>
    simp only [advance, AOut.ok.injEq] at hadv
    subst hadv
    exact quietCase s.sh r' rfl
  | fail => simp [advance] at hadv
  | act f c =>
    simp only [advance, AOut.ok.injEq] at hadv
    subst hadv
    by_cases hret : ∃ r', c s.sh = .ret r'
    · obtain ⟨r', hr⟩ := hret
      rw [hr]
      exact quietCase (f s.sh) r' (by simp only [Prog.run]; rw [hr]; rfl)
    · have hst := settle_held (held := held) (ops := ops) (p := c s.sh) (fun r hr => hret ⟨r, hr⟩)
      rw [hst]
      have hsp := hsplit (f s.sh) ⟨held, some (c s.sh), ops⟩
      obtain ⟨b1, b2, b3⟩ := hb
      obtain ⟨Z1, hZ1⟩ := b2 s.sh.1 s.sh.2
      have hself : f s.sh = ((f s.sh).1, withMem (f s.sh).2 (zap Z1 s.sh.2.mem)) := hZ1 s.sh.2.mem
      have hmem : (f s.sh).2.mem = zap Z1 s.sh.2.mem := congrArg (fun q => q.2.mem) hself
      have hrun : ∀ m, (c s.sh).run ((f s.sh).1, withMem (f s.sh).2 (zap Z1 m)) = some (r, (w.st, withMem w.sys (zap Z m))) := by
        intro m
        have := h4 m
        simp only [Prog.run] at this
        rw [b1, hZ1] at this
        exact this
      rcases (b3 s.sh).run (f s.sh).1 (f s.sh).2 with hnone | ⟨r2, st2, sys2, Z2, hsome⟩
      · have := hrun s.sh.2.mem
        rw [hnone] at this
        simp at this
      · have hcmp : ∀ m, r2 = r ∧ st2 = w.st ∧ withMem sys2 (zap Z2 (zap Z1 m)) = withMem w.sys (zap Z m) := by
          intro m
          have := hrun m
          rw [hsome, Option.some.injEq, Prod.mk.injEq, Prod.mk.injEq] at this
          exact this
        have hzz : ∀ m, zap Z2 (zap Z1 m) = zap Z m := fun m => congrArg Sys.mem (hcmp m).2.2
        have hsys : ∀ m, withMem sys2 m = withMem w.sys m := by
          intro m
          have := congrArg (fun s => withMem s m) (hcmp m).2.2
          simpa only [withMem_withMem] using this
        have hZ2 : ∀ a, Z a = false → Z2 a = false := by
          intro a ha
          have := congrFun (hzz (fun _ => 1)) a
          simp only [zap, ha] at this
          rw [Bool.eq_false_iff]
          intro hc
          simp [hc] at this
        refine .busy i ⟨held, some (c s.sh), ops⟩ (c s.sh) r Z2 (List.getElem?_set_self hil) rfl (others_quiet hn) (b3 _) ?_ ?_ ?_ ?_
        · intro m
          rw [hsome, (hcmp m).1, (hcmp m).2.1, hsys]
        · rw [h5, hmem, hzz]
        · intro b hb a ha
          exact hZ2 a (h6 b (hsp.subset hb) a ha)
        · exact h7.trans (hsp.symm.append_left _)

/-- One access of an operation that will fail. -/
theorem advance_doomed {s u : AState σ} {w : World σ} {i : Nat} {t : AThr σ} {held rest : List Blk} {ops : List Op} {p : Prog (σ × Sys) (Option Blk)} {o : Op}
    (ht : s.thr[i]? = some t) (hn : ∀ (j : Nat) (t' : AThr σ), j ≠ i → s.thr[j]? = some t' → ¬ Busy t') (hb : Blind p)
    (hsplit : ∀ (sh : σ × Sys) (t' : AThr σ), (allHeld ⟨sh, s.thr.set i t'⟩).Perm (t'.held ++ rest)) (h4 : ∀ m, p.run (s.sh.1, withMem s.sh.2 m) = none)
    (h5 : ∃ l, w.held.Perm (l ++ (held ++ rest))) (h6 : Sizes ok [o]) (h7 : ∀ m, (⟨w.st, withMem w.sys m, w.held⟩ : World σ).step A' o = none)
    (hadv : advance s i held ops p = .ok u) : Lin A' ok u w := by
  obtain ⟨hil, _⟩ := List.getElem?_eq_some_iff.1 ht
  cases p with
  | ret r => have := h4 s.sh.2.mem; simp [Prog.run] at this
  | fail => simp [advance] at hadv
  | act f c =>
    simp only [advance, AOut.ok.injEq] at hadv
    subst hadv
    obtain ⟨b1, b2, b3⟩ := hb
    obtain ⟨Z1, hZ1⟩ := b2 s.sh.1 s.sh.2
    have hrun : ∀ m, (c s.sh).run ((f s.sh).1, withMem (f s.sh).2 (zap Z1 m)) = none := by
      intro m
      have := h4 m
      simp only [Prog.run] at this
      rw [b1, hZ1] at this
      exact this
    have hnone : ∀ m, (c s.sh).run ((f s.sh).1, withMem (f s.sh).2 m) = none := by
      rcases (b3 s.sh).run (f s.sh).1 (f s.sh).2 with hnone | ⟨r2, st2, sys2, Z2, hsome⟩
      · exact hnone
      · have := hrun s.sh.2.mem
        rw [hsome] at this
        simp at this
    have hret : ∀ r, c s.sh ≠ .ret r := by
      intro r hr
      have := hnone s.sh.2.mem
      rw [hr] at this
      simp [Prog.run] at this
    rw [settle_held hret]
    have hsp := hsplit (f s.sh) ⟨held, some (c s.sh), ops⟩
    refine .doomed i ⟨held, some (c s.sh), ops⟩ (c s.sh) o (List.getElem?_set_self hil) rfl (others_quiet hn) (b3 _) hnone ?_ h6 h7
    obtain ⟨l, hl⟩ := h5
    exact ⟨l, hl.trans (hsp.symm.append_left l)⟩

/-- Only writes look at memory or change it otherwise. -/
theorem opProg_blind (hb : BlindA A) (held : List Blk) {o : Op} (ho : ∀ k off x, o ≠ .write k off x) : Blind (opProg A held o) := by
  cases o with
  | alloc n => exact (hb.allocate n).bind fun _ => trivial
  | allocZero n => exact (hb.allocateZero n).bind fun _ => trivial
  | free i =>
    simp only [opProg]
    cases held[i]? with
    | none => trivial
    | some k => exact (hb.deallocate k).bind fun _ => trivial
  | write k off x => exact absurd rfl (ho k off x)

/-- The contents of memory do not matter to a client's blocks. -/
theorem client_mem {sys0 : Sys} {w : World σ} {R : List Blk} (h : Client Inv sys0 w R) (m : Int → Nat) : Client Inv (withMem sys0 m) ⟨w.st, withMem w.sys m, w.held⟩ R where
  inv := h.inv
  keeps := ⟨⟨h.keeps.ok.fresh, h.keeps.ok.apart, h.keeps.ok.pos⟩, h.keeps.regions, fun b _ x _ => rfl, fun b _ x _ => rfl⟩

/-- What an operation zeroes is in no block that is held before and after. -/
theorem zaps_apart (law : Lawful A' z ok Inv) {sys0 : Sys} {w : World σ} {R : List Blk} (hc : Client Inv sys0 w R) {o : Op} (ho : Sizes ok [o]) (hnw : ∀ k off x, o ≠ .write k off x)
    {st' : σ} {sys' : Sys} {held : List Blk} {Z : Int → Bool} (h : (⟨w.st, withMem w.sys (fun _ => 1), w.held⟩ : World σ).step A' o = some ⟨st', withMem sys' (zap Z (fun _ => 1)), held⟩)
    {b : Blk} (hb : b ∈ w.held) (hb' : b ∈ held) {a : Int} (ha : Covers b a) : Z a = false := by
  have hcon := (step_client law (client_mem hc (fun _ => 1)) ho h).2
  have hsame : Same b (fun _ => 1) (zap Z (fun _ => 1)) := by
    cases o with
    | alloc n => obtain ⟨k, _, _, h⟩ := hcon; exact h b hb
    | allocZero n => obtain ⟨k, _, _, _, h⟩ := hcon; exact h b hb
    | free k => exact hcon.2 b hb'
    | write k off y => exact absurd rfl (hnw k off y)
  have := hsame a ha
  rw [Bool.eq_false_iff]
  intro hcz
  simp [zap, hcz] at this

theorem advance_abort {s : AState σ} {i : Nat} {held : List Blk} {ops : List Op} {p : Prog (σ × Sys) (Option Blk)} (h : advance s i held ops p = .abort) : p = .fail := by
  cases p <;> simp [advance] at h; rfl

theorem advance_thr {s u : AState σ} {i : Nat} {held : List Blk} {ops : List Op} {p : Prog (σ × Sys) (Option Blk)} (h : advance s i held ops p = .ok u) :
    ∃ t', u.thr = s.thr.set i t' ∧ t'.ops = ops := by
  cases p with
  | ret r => simp only [advance, AOut.ok.injEq] at h; subst h; exact ⟨_, rfl, settle_ops⟩
  | fail => simp [advance] at h
  | act f c => simp only [advance, AOut.ok.injEq] at h; subst h; exact ⟨_, rfl, settle_ops⟩

theorem advance_sizes {s u : AState σ} {i : Nat} {held : List Blk} {ops : List Op} {p : Prog (σ × Sys) (Option Blk)} (h : advance s i held ops p = .ok u) (hs : AllSizes ok s) (ho : Sizes ok ops) :
    AllSizes ok u := by
  obtain ⟨t', h1, h2⟩ := advance_thr h
  intro t ht
  rw [h1] at ht
  rcases mem_set_cases ht with rfl | ht
  · rw [h2]; exact ho
  · exact hs t ht

theorem during_sub {held : List Blk} {o : Op} {b : Blk} (h : b ∈ during held o) : b ∈ held := by
  cases o with
  | free i => exact List.mem_of_mem_eraseIdx h
  | alloc n => exact h
  | allocZero n => exact h
  | write i off x => exact h

/-- A thread writes to a block that it holds, or does nothing. -/
theorem write_cases (A : PAlloc σ) (held : List Blk) (k off x : Nat) : opProg A held (.write k off x) = .ret none ∨
    ∃ b ∈ held, off < b.s ∧ opProg A held (.write k off x) = .store (fun s => (s.1, { s.2 with mem := fun a => if a = b.ptr + off then x else s.2.mem a })) (.ret none) := by
  simp only [opProg]
  cases hk : held[k]? with
  | none => exact Or.inl rfl
  | some b =>
    by_cases h : off < b.s
    · exact Or.inr ⟨b, List.mem_of_getElem? hk, h, by simp [h]⟩
    · left; simp [h]

/-- The blocks of the threads do not change when thread `i` has done a write. -/
theorem allHeld_write {s : AState σ} {i : Nat} {t : AThr σ} (ht : s.thr[i]? = some t) (sh : σ × Sys) (os : List Op) : allHeld ⟨sh, s.thr.set i ⟨t.held, none, os⟩⟩ = allHeld s := by
  unfold allHeld
  simp only [set_map_held]
  have hi : (s.thr.map AThr.held)[i]? = some t.held := by simp [ht]
  obtain ⟨hl, he⟩ := List.getElem?_eq_some_iff.1 hi
  conv_lhs => rw [← he]
  rw [List.set_getElem_self]

/-- A write of a thread while another one is inside an operation. -/
theorem write_lin {s : AState σ} {w : World σ} (hlin : Lin A' ok s w) {i : Nat} {t : AThr σ} (ht : s.thr[i]? = some t) (hcur : t.cur = none) {k off x : Nat} {os : List Op}
    (hops : t.ops = .write k off x :: os) :
    ∃ u, s.step A i = .ok u ∧ ∃ w', (∃ t', u.thr = s.thr.set i t' ∧ t'.ops = os) ∧ Trans A' ok t.held w w' ∧ Lin A' ok u w' := by
  have hstep : s.step A i = advance s i t.held os (opProg A t.held (.write k off x)) := by simp [AState.step, ht, hcur, hops, during]
  obtain ⟨hil, _⟩ := List.getElem?_eq_some_iff.1 ht
  have hthr : ∀ (j : Nat) (t' : AThr σ), (s.thr.set i ⟨t.held, none, os⟩)[j]? = some t' → Busy t' → s.thr[j]? = some t' := by
    intro j t' hj hb
    by_cases hji : j = i
    · subst hji
      rw [List.getElem?_set_self hil, Option.some.injEq] at hj
      subst hj
      simp [Busy] at hb
    · rwa [List.getElem?_set_ne (fun h => hji h.symm)] at hj
  have hkeep : ∀ (j : Nat) (t' : AThr σ), s.thr[j]? = some t' → Busy t' → (s.thr.set i ⟨t.held, none, os⟩)[j]? = some t' := by
    intro j t' hj hb
    have hji : j ≠ i := by
      rintro rfl
      rw [ht, Option.some.injEq] at hj
      subst hj
      exact hb hcur
    rwa [List.getElem?_set_ne (fun h => hji h.symm)]
  have hq : Quiet s → ∀ sh, Quiet (⟨sh, s.thr.set i ⟨t.held, none, os⟩⟩ : AState σ) := by
    intro hq sh t' ht'
    rcases mem_set_cases ht' with rfl | h
    · simp [Busy]
    · exact hq t' h
  have hn' : ∀ (i' : Nat), (∀ (j : Nat) (t' : AThr σ), j ≠ i' → s.thr[j]? = some t' → ¬ Busy t') →
      ∀ (j : Nat) (t' : AThr σ), j ≠ i' → (s.thr.set i ⟨t.held, none, os⟩)[j]? = some t' → ¬ Busy t' := by
    intro i' h j t' hj hjt hb
    exact h j t' hj (hthr j t' hjt hb) hb
  rcases write_cases A t.held k off x with hp | ⟨b, hb, hoff, hp⟩
  · refine ⟨⟨s.sh, s.thr.set i ⟨t.held, none, os⟩⟩, by rw [hstep, hp]; rfl, w, ⟨_, rfl, rfl⟩, Or.inl rfl, ?_⟩
    have hall := allHeld_write ht s.sh os
    cases hlin with
    | quiet h1 h2 h3 h4 => exact .quiet h1 h2 (by rw [hall]; exact h3) (hq h4 _)
    | busy i' t1 p r Z h1 h2 h3 hb h4 h5 h6 h7 =>
      exact .busy i' t1 p r Z (hkeep i' t1 h1 (by simp [Busy, h2])) h2 (hn' i' h3) hb h4 h5 (by rw [hall]; exact h6) (by rw [hall]; exact h7)
    | doomed i' t1 p o h1 h2 h3 hb h4 h5 h6 h7 =>
      exact .doomed i' t1 p o (hkeep i' t1 h1 (by simp [Busy, h2])) h2 (hn' i' h3) hb h4 (by rw [hall]; exact h5) h6 h7
  · have hbs : b ∈ allHeld s := List.mem_flatten.2 ⟨t.held, List.mem_map.2 ⟨t, List.mem_of_getElem? ht, rfl⟩, hb⟩
    have hbw : b ∈ w.held := by
      cases hlin with
      | quiet h1 h2 h3 h4 => exact h3.symm.subset hbs
      | busy i' t1 p r Z h1 h2 h3 hb h4 h5 h6 h7 => exact h7.symm.subset (List.mem_append_right _ hbs)
      | doomed i' t1 p o h1 h2 h3 hb h4 h5 h6 h7 => obtain ⟨l, hl⟩ := h5; exact hl.symm.subset (List.mem_append_right _ hbs)
    obtain ⟨k', hk'⟩ := List.mem_iff_getElem?.1 hbw
    have hws : w.step A' (.write k' off x) = some ⟨w.st, withMem w.sys (fun a => if a = b.ptr + off then x else w.sys.mem a), w.held⟩ := by
      simp [World.step, hk', hoff, withMem]
    refine ⟨⟨(s.sh.1, withMem s.sh.2 (fun a => if a = b.ptr + off then x else s.sh.2.mem a)), s.thr.set i ⟨t.held, none, os⟩⟩, by rw [hstep, hp]; rfl, _, ⟨_, rfl, rfl⟩,
      Or.inr ⟨.write k' off x, fun _ h => by simp only [List.mem_singleton] at h; subst h; trivial, hws, fun k1 off1 x1 he => ?_⟩, ?_⟩
    · simp only [Op.write.injEq] at he
      left
      rw [← he.1]
      exact ⟨b, hb, hk'⟩
    have hall := allHeld_write ht (s.sh.1, withMem s.sh.2 (fun a => if a = b.ptr + off then x else s.sh.2.mem a)) os
    cases hlin with
    | quiet h1 h2 h3 h4 => exact .quiet h1 (by rw [h2]) (by rw [hall]; exact h3) (hq h4 _)
    | busy i' t1 p r Z h1 h2 h3 hb' h4 h5 h6 h7 =>
      refine .busy i' t1 p r Z (hkeep i' t1 h1 (by simp [Busy, h2])) h2 (hn' i' h3) hb' h4 ?_ (by rw [hall]; exact h6) (by rw [hall]; exact h7)
      have hz : Z (b.ptr + off) = false := h6 b hbs _ (by simp only [Covers]; omega)
      funext a
      simp only [withMem, zap]
      by_cases ha : a = b.ptr + off
      · subst ha
        simp [hz]
      · have := congrFun h5 a
        simp only [zap] at this
        simp [ha, this]
    | doomed i' t1 p o h1 h2 h3 hb' h4 h5 h6 h7 =>
      exact .doomed i' t1 p o (hkeep i' t1 h1 (by simp [Busy, h2])) h2 (hn' i' h3) hb' h4 (by rw [hall]; exact h5) h6 h7

/-- One step of a thread that may go on. -/
theorem step_lin (hr : Refines A A') (hbl : BlindA A) (law : Lawful A' z ok Inv) {s : AState σ} {w : World σ} (hlin : Lin A' ok s w) {sys0 : Sys} {R : List Blk} (hc : Client Inv sys0 w R)
    (hs : AllSizes ok s) {i : Nat} (hgo : MayGo s i ∨ Writes s i) :
    (∀ u, s.step A i = .ok u → AllSizes ok u ∧ ∃ w' t, s.thr[i]? = some t ∧ (∃ t', u.thr = s.thr.set i t') ∧ Trans A' ok t.held w w' ∧ Lin A' ok u w') ∧
    (s.step A i = .abort → ∃ o, Sizes ok [o] ∧ w.step A' o = none) := by
  have hwrite : ∀ {t : AThr σ} {k off x : Nat} {os : List Op}, s.thr[i]? = some t → t.cur = none → t.ops = .write k off x :: os →
      (∀ u, s.step A i = .ok u → AllSizes ok u ∧ ∃ w' t, s.thr[i]? = some t ∧ (∃ t', u.thr = s.thr.set i t') ∧ Trans A' ok t.held w w' ∧ Lin A' ok u w') ∧
      (s.step A i = .abort → ∃ o, Sizes ok [o] ∧ w.step A' o = none) := by
    intro t k off x os ht hc hops
    obtain ⟨u, h1, w', ⟨t', h2, h2'⟩, h3, h4⟩ := write_lin (A := A) hlin ht hc hops
    refine ⟨fun u' hu' => ?_, fun hab => by rw [h1] at hab; simp at hab⟩
    rw [h1, AOut.ok.injEq] at hu'
    subst hu'
    refine ⟨fun t1 ht1 => ?_, w', t, ht, ⟨t', h2⟩, h3, h4⟩
    rw [h2] at ht1
    rcases mem_set_cases ht1 with rfl | h
    · rw [h2']
      exact fun o ho => hs t (List.mem_of_getElem? ht) o (by rw [hops]; exact List.mem_cons_of_mem _ ho)
    · exact hs t1 h
  rcases hgo with hgo | ⟨t, k, off, x, os, ht, hcur, hops⟩
  case inr => exact hwrite ht hcur hops
  cases ht : s.thr[i]? with
  | none => simp [AState.step, ht]
  | some t =>
    have hmem := List.mem_of_getElem? ht
    obtain ⟨rest, hp, hsplit⟩ := allHeld_split ht
    cases hlin with
    | quiet h1 h2 h3 h4 =>
      have hcur : t.cur = none := by
        have := h4 t hmem
        simpa [Busy] using this
      cases hops : t.ops with
      | nil => simp [AState.step, ht, hcur, hops]
      | cons o os =>
        by_cases hw : ∃ k off x, o = .write k off x
        · obtain ⟨k, off, x, rfl⟩ := hw
          have := hwrite ht hcur hops
          rw [ht] at this
          exact this
        have hnw : ∀ k off x, o ≠ .write k off x := fun k off x e => hw ⟨k, off, x, e⟩
        have hso : Sizes ok [o] := fun x hx => by simp only [List.mem_singleton] at hx; subst hx; exact hs t hmem x (by rw [hops]; exact List.mem_cons_self)
        have hsos : Sizes ok os := fun x hx => hs t hmem x (by rw [hops]; exact List.mem_cons_of_mem _ hx)
        have hwh : w.held.Perm (t.held ++ rest) := h3.trans hp
        obtain ⟨o', b1, b3, b4, b5, b6⟩ := begin_op hr hso hwh
        have hnw' : ∀ k off x, o' ≠ .write k off x := fun k off x e => by
          obtain ⟨k', e'⟩ := b6 k off x e
          exact hnw k' off x e'
        have hstep : s.step A i = advance s i (during t.held o) os (opProg A t.held o) := by simp [AState.step, ht, hcur, hops]
        have hbp : Blind (opProg A t.held o) := opProg_blind hbl t.held hnw
        have hothers : ∀ (j : Nat) (t' : AThr σ), j ≠ i → s.thr[j]? = some t' → ¬ Busy t' := fun j t' _ hj => h4 t' (List.mem_of_getElem? hj)
        obtain ⟨st, sys, wh⟩ := w
        simp only at h1 h2 hwh b3 b4 b5 h3
        rw [hstep]
        rcases hbp.run s.sh.1 s.sh.2 with hnone | ⟨r, st', sys', Z, hsome⟩
        · have hnone' : ∀ m, (⟨st, withMem sys m, wh⟩ : World σ).step A' o' = none := by
            intro m
            rw [h1, h2]
            exact b4 _ _ (hnone m)
          refine ⟨fun u hu => ⟨advance_sizes hu hs hsos, ⟨st, sys, wh⟩, t, rfl, ?_, Or.inl rfl, ?_⟩, fun _ => ⟨o', b1, hnone' sys.mem⟩⟩
          · obtain ⟨t', q, _⟩ := advance_thr hu
            exact ⟨t', q⟩
          · refine advance_doomed ht hothers hbp hsplit hnone ?_ b1 hnone' hu
            simp only
            cases o with
            | alloc n => exact ⟨[], hwh⟩
            | allocZero n => exact ⟨[], hwh⟩
            | write k off x => exact ⟨[], hwh⟩
            | free k =>
              simp only [during]
              by_cases hk : k < t.held.length
              · refine ⟨[t.held[k]], hwh.trans ?_⟩
                exact ((List.getElem_cons_eraseIdx_perm hk).symm).append_right rest
              · rw [List.eraseIdx_of_length_le (by omega)]
                exact ⟨[], hwh⟩
        · have hsome' : ∀ m, ∃ held, (⟨st, withMem sys m, wh⟩ : World σ).step A' o' = some ⟨st', withMem sys' (zap Z m), held⟩ ∧ held.Perm (r.toList ++ (during t.held o ++ rest)) := by
            intro m
            rw [h1, h2]
            exact b3 _ _ _ _ (hsome m)
          obtain ⟨held, c1, c2⟩ := hsome' sys.mem
          obtain ⟨heldo, d1, d2⟩ := hsome' (fun _ => 1)
          refine ⟨fun u hu => ⟨advance_sizes hu hs hsos, ⟨st', withMem sys' (zap Z sys.mem), held⟩, t, rfl, ?_, Or.inr ⟨o', b1, c1, fun k off x e => absurd e (hnw' k off x)⟩, ?_⟩, fun hab => ?_⟩
          · obtain ⟨t', q, _⟩ := advance_thr hu
            exact ⟨t', q⟩
          · refine advance_busy (Z := Z) (r := r) ht hothers hbp hsplit ?_ ?_ ?_ c2 hu
            · intro m
              rw [hsome m]
              rfl
            · rw [h2]; rfl
            · intro b hb a ha
              refine zaps_apart law hc b1 hnw' d1 (hwh.symm.subset ?_) (d2.symm.subset (List.mem_append_right _ hb)) ha
              rcases List.mem_append.1 hb with h | h
              · exact List.mem_append_left _ (during_sub h)
              · exact List.mem_append_right _ h
          · have := hsome s.sh.2.mem
            rw [advance_abort hab] at this
            simp [Prog.run] at this
    | busy j t1 p r Z h1 h2 h3 hb h4 h5 h6 h7 =>
      have hji : j = i := hgo j t1 h1 (by simp [Busy, h2])
      subst hji
      have htt : t1 = t := by rw [h1] at ht; exact Option.some.inj ht
      subst htt
      have hstep : s.step A j = advance s j t1.held t1.ops p := by simp [AState.step, h1, h2]
      rw [hstep]
      refine ⟨fun u hu => ⟨advance_sizes hu hs (hs t1 hmem), w, t1, rfl, ?_, Or.inl rfl, ?_⟩, fun hab => ?_⟩
      · obtain ⟨t', q, _⟩ := advance_thr hu
        exact ⟨t', q⟩
      · exact advance_busy (rest := rest) h1 h3 hb hsplit h4 h5 (fun b hb => h6 b (hp.symm.subset hb)) (h7.trans (hp.append_left _)) hu
      · have := h4 s.sh.2.mem
        rw [advance_abort hab] at this
        simp [Prog.run] at this
    | doomed j t1 p o h1 h2 h3 hb h4 h5 h6 h7 =>
      have hji : j = i := hgo j t1 h1 (by simp [Busy, h2])
      subst hji
      have htt : t1 = t := by rw [h1] at ht; exact Option.some.inj ht
      subst htt
      have hstep : s.step A j = advance s j t1.held t1.ops p := by simp [AState.step, h1, h2]
      rw [hstep]
      refine ⟨fun u hu => ⟨advance_sizes hu hs (hs t1 hmem), w, t1, rfl, ?_, Or.inl rfl, ?_⟩, fun hab => ⟨o, h6, h7 w.sys.mem⟩⟩
      · obtain ⟨t', q, _⟩ := advance_thr hu
        exact ⟨t', q⟩
      · obtain ⟨l, hl⟩ := h5
        exact advance_doomed (rest := rest) h1 h3 hb hsplit h4 ⟨l, hl.trans (hp.append_left l)⟩ h6 h7 hu

theorem lin_held {s : AState σ} {w : World σ} (h : Lin A' ok s w) : ∃ l, w.held.Perm (l ++ allHeld s) := by
  cases h with
  | quiet h1 h2 h3 h4 => exact ⟨[], h3⟩
  | busy j t1 p r Z h1 h2 h3 hb h4 h5 h6 h7 => exact ⟨r.toList, h7⟩
  | doomed j t1 p o h1 h2 h3 hb h4 h5 h6 h7 => exact h5

theorem trans_client (law : Lawful A' z ok Inv) {sys0 : Sys} {w w' : World σ} {held : List Blk} (ht : Trans A' ok held w w') {R : List Blk} (hc : Client Inv sys0 w R) : ∃ R', Client Inv sys0 w' R' := by
  rcases ht with rfl | ⟨o, h1, h2, _⟩
  · exact ⟨R, hc⟩
  · exact (step_client law hc h1 h2).1

/-- Every state that is reached under mutual exclusion is a state of one client. -/
theorem runs_lin (hr : Refines A A') (hbl : BlindA A) (law : Lawful A' z ok Inv) {sys0 : Sys} {P : Nat → Prop} {s u : AState σ} {w : World σ} {R : List Blk} (hruns : ExRuns A P s u) (hs : AllSizes ok s)
    (hlin : Lin A' ok s w) (hc : Client Inv sys0 w R) : AllSizes ok u ∧ ∃ w' R', Lin A' ok u w' ∧ Client Inv sys0 w' R' := by
  induction hruns with
  | refl => exact ⟨hs, w, R, hlin, hc⟩
  | tail _ _ hgo hstep ih =>
    obtain ⟨hs', w1, R1, l1, c1⟩ := ih
    obtain ⟨h1, w2, t, _, _, h2, h3⟩ := (step_lin hr hbl law l1 c1 hs' hgo).1 _ hstep
    obtain ⟨R2, c2⟩ := trans_client law h2 c1
    exact ⟨h1, w2, R2, h3, c2⟩

theorem start_lin {sys0 : Sys} {progs : List (List Op)} : Lin A' ok (AState.start (A'.init sys0) progs) (World.start A' sys0) := by
  refine .quiet rfl rfl ?_ ?_
  · have : allHeld (AState.start (A'.init sys0) progs) = [] := by
      simp [allHeld, AState.start]
    rw [this]; exact List.Perm.refl _
  · intro t ht
    simp only [AState.start, List.mem_map] at ht
    obtain ⟨ops, _, rfl⟩ := ht
    simp [Busy]

theorem start_sizes {sh : σ × Sys} {progs : List (List Op)} (h : ∀ ops ∈ progs, Sizes ok ops) : AllSizes ok (AState.start sh progs) := by
  intro t ht
  simp only [AState.start, List.mem_map] at ht
  obtain ⟨ops, h1, rfl⟩ := ht
  exact h ops h1

theorem safe_perm {sys0 : Sys} {w w' : World σ} (h : Safe sys0 w) (h1 : w'.sys = w.sys) (h2 : w.held.Perm w'.held) : Safe sys0 w' where
  apart := (apart_perm h2).1 h.apart
  pos b hb := h.pos b (h2.symm.subset hb)
  inside b hb := by rw [h1]; exact h.inside b (h2.symm.subset hb)
  others q hq := by rw [h1]; exact h.others q hq

theorem apart_symm {a b : Blk} (h : Apart a b) : Apart b a := h.symm

theorem lin_apart (law : Lawful A' z ok Inv) {sys0 : Sys} {s : AState σ} {w : World σ} {R : List Blk} (h : Lin A' ok s w) (hc : Client Inv sys0 w R) : (allHeld s).Pairwise Apart := by
  obtain ⟨l, hl⟩ := lin_held h
  have := (apart_perm hl).1 (hc.safe law).apart
  exact (List.pairwise_append.1 this).2.1

theorem apart_threads {s : AState σ} (h : (allHeld s).Pairwise Apart) {i j : Nat} (hij : i ≠ j) {ti tj : AThr σ} (hi : s.thr[i]? = some ti) (hj : s.thr[j]? = some tj) {a b : Blk}
    (ha : a ∈ ti.held) (hb : b ∈ tj.held) : Apart a b := by
  have hp := (List.pairwise_flatten.1 h).2
  have gi : (s.thr.map AThr.held)[i]? = some ti.held := by simp [hi]
  have gj : (s.thr.map AThr.held)[j]? = some tj.held := by simp [hj]
  obtain ⟨li, ei⟩ := List.getElem?_eq_some_iff.1 gi
  obtain ⟨lj, ej⟩ := List.getElem?_eq_some_iff.1 gj
  rw [List.pairwise_iff_getElem] at hp
  rcases Nat.lt_or_gt_of_ne hij with h' | h'
  · exact hp i j li lj h' a (by rw [ei]; exact ha) b (by rw [ej]; exact hb)
  · exact apart_symm (hp j i lj li h' b (by rw [ej]; exact hb) a (by rw [ei]; exact ha))

theorem held_mem {s : AState σ} {w : World σ} (h : Lin A' ok s w) {i : Nat} {t : AThr σ} (ht : s.thr[i]? = some t) {b : Blk} (hb : b ∈ t.held) : b ∈ w.held := by
  obtain ⟨l, hl⟩ := lin_held h
  refine hl.symm.subset (List.mem_append_right _ ?_)
  exact List.mem_flatten.2 ⟨t.held, List.mem_map.2 ⟨t, List.mem_of_getElem? ht, rfl⟩, hb⟩

/-- The steps of other threads do not touch the blocks of thread `i`. -/
theorem runs_private (hr : Refines A A') (hbl : BlindA A) (law : Lawful A' z ok Inv) {sys0 : Sys} {i : Nat} {s u : AState σ} {w : World σ} {R : List Blk} (hruns : ExRuns A (· ≠ i) s u) (hs : AllSizes ok s)
    (hlin : Lin A' ok s w) (hc : Client Inv sys0 w R) {t : AThr σ} (ht : s.thr[i]? = some t) :
    AllSizes ok u ∧ u.thr[i]? = some t ∧ ∃ w' R', Lin A' ok u w' ∧ Client Inv sys0 w' R' ∧ ∀ b ∈ t.held, Same b w.sys.mem w'.sys.mem := by
  induction hruns with
  | refl => exact ⟨hs, ht, w, R, hlin, hc, fun b _ x _ => rfl⟩
  | @tail v v' j _ hj hgo hstep ih =>
    obtain ⟨hs', ht', w1, R1, l1, c1, m1⟩ := ih
    obtain ⟨h1, w2, tj, htj, ⟨t', hset⟩, h2, h3⟩ := (step_lin hr hbl law l1 c1 hs' hgo).1 _ hstep
    obtain ⟨R2, c2⟩ := trans_client law h2 c1
    have htv : v'.thr[i]? = some t := by rw [hset, List.getElem?_set_ne hj]; exact ht'
    refine ⟨h1, htv, w2, R2, h3, c2, fun b hb x hx => ?_⟩
    rw [← m1 b hb x hx]
    have hb1 : b ∈ w1.held := held_mem l1 ht' hb
    have hb2 : b ∈ w2.held := held_mem h3 htv hb
    rcases h2 with rfl | ⟨o, o1, o2, o3⟩
    · rfl
    · have hcon := (step_client law c1 o1 o2).2
      cases o with
      | alloc n => obtain ⟨k, _, _, h⟩ := hcon; exact h b hb1 x hx
      | allocZero n => obtain ⟨k, _, _, _, h⟩ := hcon; exact h b hb1 x hx
      | free k => exact hcon.2 b hb2 x hx
      | write k off y =>
        rw [hcon.2 b hb1 x hx, if_neg]
        rintro ⟨b', e1, e2, e3⟩
        rcases o3 k off y rfl with ⟨b1, f1, f2⟩ | f
        · rw [f2, Option.some.injEq] at e1
          subst e1
          have hap := apart_threads (lin_apart law l1 c1) (fun h => hj h.symm) ht' htj hb f1
          simp only [Covers] at hx
          rcases hap with h | h <;> omega
        · rw [f] at e1; simp at e1

/-- The client sees the contents of the blocks of all threads as they are, unless there will be an abort. -/
theorem lin_mem {s : AState σ} {w : World σ} (h : Lin A' ok s w) (hd : Quiet s ∨ ∀ o m, Sizes ok [o] → (⟨w.st, withMem w.sys m, w.held⟩ : World σ).step A' o ≠ none) {b : Blk}
    (hb : b ∈ allHeld s) : Same b w.sys.mem s.sh.2.mem := by
  intro a ha
  cases h with
  | quiet h1 h2 h3 h4 => rw [h2]
  | busy j t1 p r Z h1 h2 h3 hbl h4 h5 h6 h7 => rw [h5]; simp [zap, h6 b hb a ha]
  | doomed j t1 p o h1 h2 h3 hbl h4 h5 h6 h7 =>
    rcases hd with hq | hd
    · exact absurd (hq t1 (List.mem_of_getElem? h1)) (by simp [Busy, h2])
    · exact absurd (h7 w.sys.mem) (hd o w.sys.mem h6)

theorem quiet_world {s : AState σ} {w : World σ} (h : Lin A' ok s w) (hq : Quiet s) : w.st = s.sh.1 ∧ w.sys = s.sh.2 ∧ w.held.Perm (allHeld s) := by
  cases h with
  | quiet h1 h2 h3 h4 => exact ⟨h1, h2, h3⟩
  | busy j t1 p r Z h1 h2 h3 hb h4 h5 h6 h7 => exact absurd (hq t1 (List.mem_of_getElem? h1)) (by simp [Busy, h2])
  | doomed j t1 p o h1 h2 h3 hb h4 h5 h6 h7 => exact absurd (hq t1 (List.mem_of_getElem? h1)) (by simp [Busy, h2])

end
end Nda.Alloc
