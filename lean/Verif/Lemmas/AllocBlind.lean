import Verif.Spec.AllocThreads
import Verif.Lemmas.AllocWrap
/-!
# Lemmas: allocators do not look at the contents of memory
-/
namespace Nda.Alloc
open Spec

section
variable {σ τ R R' : Type}

theorem zap_zap (Z Z' : Int → Bool) (m : Int → Nat) : zap Z (zap Z' m) = zap (fun a => Z a || Z' a) m := by
  funext a
  simp only [zap]
  by_cases h : Z a <;> by_cases h' : Z' a <;> simp [h, h']

theorem zap_false (m : Int → Nat) : zap (fun _ => false) m = m := by
  funext a; simp [zap]

theorem withMem_self (sys : Sys) : withMem sys sys.mem = sys := rfl

theorem withMem_withMem (sys : Sys) (m m' : Int → Nat) : withMem (withMem sys m) m' = withMem sys m' := rfl

theorem Spec.Blind.load {c : σ × Sys → Prog (σ × Sys) R} (h : ∀ st sys m, c (st, withMem sys m) = c (st, sys)) (h' : ∀ s, Blind (c s)) : Blind (.load c) :=
  ⟨h, fun st sys => ⟨fun _ => false, fun m => by simp [zap_false, withMem]⟩, h'⟩

theorem Spec.Blind.store {f : σ × Sys → σ × Sys} {c : Prog (σ × Sys) R} (h : ∀ st sys, ∃ Z, ∀ m, f (st, withMem sys m) = ((f (st, sys)).1, withMem (f (st, sys)).2 (zap Z m))) (h' : Blind c) :
    Blind (.store f c) := ⟨fun _ _ _ => rfl, h, fun _ => h'⟩

theorem Spec.Blind.bind {p : Prog (σ × Sys) R} {k : R → Prog (σ × Sys) R'} (hp : Blind p) (hk : ∀ r, Blind (k r)) : Blind (p.bind k) := by
  induction p with
  | ret r => exact hk r
  | fail => trivial
  | act f c ih =>
    obtain ⟨h1, h2, h3⟩ := hp
    exact ⟨fun st sys m => by simp only [h1], h2, fun s => ih s (h3 s)⟩

theorem Spec.Blind.liftL {p : Prog (σ × Sys) R} (hp : Blind p) : Blind (p.lift (getL (σ := σ) (τ := τ)) putL) := by
  induction p with
  | ret r => trivial
  | fail => trivial
  | act f c ih =>
    obtain ⟨h1, h2, h3⟩ := hp
    refine ⟨fun st sys m => ?_, fun st sys => ?_, fun s => ih _ (h3 _)⟩
    · simp only [getL]; rw [h1]
    · obtain ⟨Z, hZ⟩ := h2 st.1 sys
      exact ⟨Z, fun m => by simp only [getL, putL]; rw [hZ]⟩

theorem Spec.Blind.liftR {p : Prog (τ × Sys) R} (hp : Blind p) : Blind (p.lift (getR (σ := σ) (τ := τ)) putR) := by
  induction p with
  | ret r => trivial
  | fail => trivial
  | act f c ih =>
    obtain ⟨h1, h2, h3⟩ := hp
    refine ⟨fun st sys m => ?_, fun st sys => ?_, fun s => ih _ (h3 _)⟩
    · simp only [getR]; rw [h1]
    · obtain ⟨Z, hZ⟩ := h2 st.2 sys
      exact ⟨Z, fun m => by simp only [getR, putR]; rw [hZ]⟩

/-- The outcome of blind accesses, for all contents of memory. -/
theorem Spec.Blind.run {p : Prog (σ × Sys) R} (hp : Blind p) : ∀ (st : σ) (sys : Sys),
    (∀ m, p.run (st, withMem sys m) = none) ∨ ∃ r st' sys' Z, ∀ m, p.run (st, withMem sys m) = some (r, (st', withMem sys' (zap Z m))) := by
  induction p with
  | ret r => exact fun st sys => Or.inr ⟨r, st, sys, fun _ => false, fun m => by simp [Prog.run, zap_false]⟩
  | fail => exact fun st sys => Or.inl fun m => rfl
  | act f c ih =>
    intro st sys
    obtain ⟨h1, h2, h3⟩ := hp
    obtain ⟨Z, hZ⟩ := h2 st sys
    rcases ih (st, sys) (h3 _) (f (st, sys)).1 (f (st, sys)).2 with h | ⟨r, st', sys', Z', h⟩
    · exact Or.inl fun m => by simp only [Prog.run]; rw [h1, hZ]; exact h _
    · exact Or.inr ⟨r, st', sys', fun a => Z' a || Z a, fun m => by simp only [Prog.run]; rw [h1, hZ, h, zap_zap]⟩

end

/-! ### The allocators -/

theorem zero_zap (sys : Sys) (a : Int) (n : Nat) (m : Int → Nat) :
    (withMem sys m).zero a n = withMem (sys.zero a n) (zap (fun x => decide (a ≤ x ∧ x < a + n)) m) := by
  have : (fun x => if a ≤ x ∧ x < a + n then 0 else m x) = zap (fun x => decide (a ≤ x ∧ x < a + n)) m := by
    funext x; simp only [zap, decide_eq_true_eq]
  simp only [Sys.zero, withMem, this]

theorem free_withMem (sys : Sys) (a : Int) (m : Int → Nat) : (withMem sys m).free a = (sys.free a).map (fun s => withMem s m) := by
  simp only [Sys.free, withMem]
  split <;> simp [*]

theorem malloc_withMem (sys : Sys) (n : Nat) (m : Int → Nat) : (withMem sys m).malloc n = ((sys.malloc n).1, withMem (sys.malloc n).2 m) := rfl

theorem mallocator_blind : BlindA mallocatorP where
  allocate n := ⟨fun _ _ _ => rfl, fun st sys => ⟨fun _ => false, fun m => by rw [zap_false]; rfl⟩, fun _ => trivial⟩
  allocateZero n := ⟨fun _ _ _ => rfl, fun st sys => ⟨_, fun m => by
    simp only [malloc_withMem]; rw [zero_zap]⟩, fun _ => trivial⟩
  deallocate k := by
    refine ⟨fun st sys m => by simp only [free_withMem, Option.isSome_map], fun st sys => ⟨fun _ => false, fun m => ?_⟩, fun s => ?_⟩
    · simp only [free_withMem, zap_false]
      cases sys.free k.ptr <;> rfl
    · simp only; split <;> trivial

section
variable {σ : Type}

theorem thenZero_blind {n : Nat} {p : Prog (σ × Sys) Blk} (hp : Blind p) : Blind (thenZero n p) :=
  hp.bind fun k => .store (fun st sys => ⟨_, fun m => by simp only; rw [zero_zap]⟩) trivial

theorem allocAt_blind {get : σ × Sys → Option Bucket} {put : BitVec 64 → σ × Sys → σ × Sys} (hg : ∀ st sys m, get (st, withMem sys m) = get (st, sys))
    (hp : ∀ x st sys m, put x (st, withMem sys m) = ((put x (st, sys)).1, withMem (put x (st, sys)).2 m)) (C n : Nat) : Blind (allocAt get put C n) := by
  refine .load (fun st sys m => by simp only [hg]) fun s => ?_
  split
  · trivial
  · split
    · trivial
    · refine .load (fun st sys m => by simp only [hg]) fun s => ?_
      split
      · trivial
      · refine .load (fun st sys m => by simp only [hg]) fun s => ?_
        split
        · trivial
        · exact .store (fun st sys => ⟨fun _ => false, fun m => by rw [zap_false]; exact hp _ _ _ _⟩) trivial

theorem deallocAt_blind {get : σ × Sys → Option Bucket} {put : BitVec 64 → σ × Sys → σ × Sys} (hg : ∀ st sys m, get (st, withMem sys m) = get (st, sys))
    (hp : ∀ x st sys m, put x (st, withMem sys m) = ((put x (st, sys)).1, withMem (put x (st, sys)).2 m)) (C : Nat) (k : Blk) : Blind (deallocAt get put C k) := by
  refine .load (fun st sys m => by simp only [hg]) fun s => ?_
  split
  · trivial
  · split
    · trivial
    · simp only
      split
      · exact .store (fun st sys => ⟨fun _ => false, fun m => by rw [zap_false]; exact hp _ _ _ _⟩) trivial
      · trivial

theorem bucket_blind (C : Nat) : BlindA (bucketP C) where
  allocate n := allocAt_blind (get := fun s => some s.1) (put := putFlags) (fun _ _ _ => rfl) (fun _ _ _ _ => rfl) C n
  allocateZero n := thenZero_blind (allocAt_blind (get := fun s => some s.1) (put := putFlags) (fun _ _ _ => rfl) (fun _ _ _ _ => rfl) C n)
  deallocate k := deallocAt_blind (get := fun s => some s.1) (put := putFlags) (fun _ _ _ => rfl) (fun _ _ _ _ => rfl) C k

theorem multiAlloc_blind (C n : Nat) : Blind (multiAllocP C n) := by
  have hlast : Blind (.load fun s => allocAt (fun s' => s'.1.vec[s.1.cur]?) (putFlagsAt s.1.cur) C n : Prog (Multi × Sys) Blk) :=
    .load (fun _ _ _ => rfl) fun s => allocAt_blind (fun _ _ _ => rfl) (fun _ _ _ _ => rfl) C n
  have hfind : Blind (.store (fun s => s.1.findNonFull C s.2) (.load fun s => allocAt (fun s' => s'.1.vec[s.1.cur]?) (putFlagsAt s.1.cur) C n) : Prog (Multi × Sys) Blk) := by
    refine .store (fun st sys => ?_) hlast
    by_cases hc : Multi.firstPos (fun b => !b.isFull) st.vec ≠ st.vec.length
    · refine ⟨fun _ => false, fun m => ?_⟩
      simp only [Multi.findNonFull]
      rw [if_pos hc, if_pos hc, zap_false]
    · have hi : ∀ m, Bucket.init C (withMem sys m) = ((Bucket.init C sys).1, withMem (Bucket.init C sys).2 (zap (fun x => decide ((sys.malloc (64 * C)).1 ≤ x ∧
          x < (sys.malloc (64 * C)).1 + (64 * C : Nat))) m)) := by
        intro m
        simp only [Bucket.init, malloc_withMem]
        rw [zero_zap]
      refine ⟨fun x => decide ((sys.malloc (64 * C)).1 ≤ x ∧ x < (sys.malloc (64 * C)).1 + (64 * C : Nat)), fun m => ?_⟩
      simp only [Multi.findNonFull]
      rw [if_neg hc, if_neg hc, hi]
  refine .load (fun _ _ _ => rfl) fun s => ?_
  have h : ∀ b : Bool, Blind (if b = true then .store (fun s => s.1.findNonFull C s.2) (.load fun s => allocAt (fun s' => s'.1.vec[s.1.cur]?) (putFlagsAt s.1.cur) C n)
      else (.load fun s => allocAt (fun s' => s'.1.vec[s.1.cur]?) (putFlagsAt s.1.cur) C n : Prog (Multi × Sys) Blk)) := by
    intro b
    cases b
    · exact hlast
    · exact hfind
  exact h _

theorem multiDealloc_blind (C : Nat) (k : Blk) : Blind (multiDeallocP C k) := by
  refine .load (fun _ _ _ => rfl) fun s => ?_
  split
  · exact deallocAt_blind (fun _ _ _ => rfl) (fun _ _ _ _ => rfl) C k
  · refine .load (fun _ _ _ => rfl) fun s => ?_
    simp only
    split
    · trivial
    · refine .store (fun st sys => ⟨fun _ => false, fun m => by rw [zap_false]⟩) (.load (fun _ _ _ => rfl) fun s => ?_)
      refine (deallocAt_blind (fun _ _ _ => rfl) (fun _ _ _ _ => rfl) C k).bind fun _ => .load (fun _ _ _ => rfl) fun s => ?_
      split
      · trivial
      · split
        · trivial
        · refine .load (fun _ _ _ => rfl) fun s => ?_
          split
          · trivial
          · have he : ∀ (st : Multi) (sys : Sys) (m : Int → Nat), st.erase (withMem sys m) = (st.erase sys).map (fun r => (r.1, withMem r.2 m)) := by
              intro st sys m
              simp only [Multi.erase]
              cases st.vec[st.cur]? with
              | none => rfl
              | some b =>
                simp only [Option.bind_eq_bind, Option.bind_some, free_withMem]
                cases sys.free b.p <;> rfl
            refine ⟨fun st sys m => by simp only [he, Option.isSome_map], fun st sys => ⟨fun _ => false, fun m => ?_⟩, fun s => ?_⟩
            · simp only [he, zap_false]
              cases st.erase sys <;> rfl
            · simp only; split <;> trivial

theorem multi_blind (C : Nat) : BlindA (multiBucketP C) where
  allocate n := multiAlloc_blind C n
  allocateZero n := thenZero_blind (multiAlloc_blind C n)
  deallocate k := multiDealloc_blind C k

variable {τ : Type} {A : PAlloc σ} {B : PAlloc τ}

theorem segregator_blind (T : Nat) (hA : BlindA A) (hB : BlindA B) : BlindA (segregatorP T A B) where
  allocate n := by simp only [segregatorP]; split; exacts [(hA.allocate n).liftL, (hB.allocate n).liftR]
  allocateZero n := by simp only [segregatorP]; split; exacts [(hA.allocateZero n).liftL, (hB.allocateZero n).liftR]
  deallocate k := by simp only [segregatorP]; split; exacts [(hA.deallocate k).liftL, (hB.deallocate k).liftR]

theorem addUsed_blind (k : Blk) : Blind (addUsed (σ := σ) k) :=
  .load (fun _ _ _ => rfl) fun s => .store (fun st sys => ⟨fun _ => false, fun m => by rw [zap_false]⟩) trivial

theorem leakCheck_blind (hA : BlindA A) : BlindA (leakCheckP A) where
  allocate n := (hA.allocate n).liftL.bind addUsed_blind
  allocateZero n := (hA.allocateZero n).liftL.bind addUsed_blind
  deallocate k := by
    refine .load (fun _ _ _ => rfl) fun s => .store (fun st sys => ⟨fun _ => false, fun m => by rw [zap_false]⟩) (.load (fun _ _ _ => rfl) fun s => ?_)
    split
    · trivial
    · exact (hA.deallocate k).liftL

theorem countP_blind {R : Type} (n : Nat) {c : Prog ((σ × List Nat) × Sys) R} (hc : Blind c) : Blind (countP n c) := by
  unfold countP
  split
  · trivial
  · refine .load (fun _ _ _ => rfl) fun s => ?_
    split
    · trivial
    · exact .store (fun st sys => ⟨fun _ => false, fun m => by rw [zap_false]⟩) hc

theorem stats_blind (hA : BlindA A) : BlindA (statsP A) where
  allocate n := countP_blind n (hA.allocate n).liftL
  allocateZero n := countP_blind n (hA.allocate n).liftL
  deallocate k := (hA.deallocate k).liftL

end
end Nda.Alloc
