import Verif.Spec.Alloc
import Mathlib.Data.List.Nodup
import Mathlib.Tactic.Linarith
/-! # Histories of correct allocators, the system heap -/
namespace Nda.Alloc
open Spec

theorem Apart.symm {a b : Blk} (h : Apart a b) : Apart b a := Or.symm h

theorem Apart.inside {a b r q : Blk} (h : Apart r q) (ha : Inside a r) (hb : Inside b q) : Apart a b := by
  unfold Apart Inside at *; omega

theorem Apart.covers {a b : Blk} {x : Int} (h : Apart a b) (ha : Covers a x) (hb : Covers b x) : False := by
  unfold Apart Covers at *; omega

theorem Inside.covers {a b : Blk} {x : Int} (h : Inside a b) (ha : Covers a x) : Covers b x := by
  unfold Inside Covers at *; omega

theorem inside_refl (a : Blk) : Inside a a := ⟨le_refl _, le_refl _⟩

theorem nodup_of_apart {L : List Blk} (h : L.Pairwise Apart) (hp : ∀ b ∈ L, 0 < b.s) : L.Nodup := by
  induction L with
  | nil => simp
  | cons a l ih =>
    rw [List.pairwise_cons] at h
    rw [List.nodup_cons]
    refine ⟨fun hm => ?_, ih h.2 (fun b hb => hp b (List.mem_cons_of_mem _ hb))⟩
    have h1 := h.1 a hm
    have h2 := hp a List.mem_cons_self
    unfold Apart at h1; omega

theorem apart_perm {L L' : List Blk} (h : L.Perm L') : L.Pairwise Apart ↔ L'.Pairwise Apart :=
  h.pairwise_iff (fun h => Apart.symm h)

theorem pairwise_ne {L : List Blk} (h : L.Pairwise Apart) {a b : Blk} (ha : a ∈ L) (hb : b ∈ L) (hne : a ≠ b) : Apart a b := by
  induction L with
  | nil => simp at ha
  | cons c l ih =>
    rw [List.pairwise_cons] at h
    rcases List.mem_cons.1 ha with rfl | ha' <;> rcases List.mem_cons.1 hb with rfl | hb'
    · exact absurd rfl hne
    · exact h.1 b hb'
    · exact Apart.symm (h.1 a ha')
    · exact ih h.2 ha' hb'

/-- `malloc` in a sane system. -/
theorem malloc_keeps {sys : Sys} (h : SysOk sys) {R F : List Blk} (hr : sys.regions.Perm (R ++ F)) {n : Nat} (hn : 0 < n) (L : List Blk) :
    Keeps sys (sys.malloc n).2 L F (⟨(sys.malloc n).1, n⟩ :: R) := by
  refine ⟨⟨h.fresh, ?_, ?_⟩, ?_, fun b _ x _ => rfl, fun b _ x _ => rfl⟩
  · simp only [Sys.malloc, List.pairwise_cons]
    exact ⟨fun r hr => h.fresh _ _ _ r hr, h.apart⟩
  · simp only [Sys.malloc, List.mem_cons]
    rintro r (rfl | hr)
    · exact hn
    · exact h.pos r hr
  · simp only [Sys.malloc, List.cons_append]
    exact List.Perm.cons _ hr

/-- The fresh region is apart from what was there. -/
theorem malloc_apart {sys : Sys} (h : SysOk sys) (n : Nat) : ∀ r ∈ sys.regions, Apart ⟨(sys.malloc n).1, n⟩ r :=
  fun r hr => h.fresh _ _ _ r hr

/-- Zeroing a part of one's own regions that is apart from the live blocks. -/
theorem zero_keeps {sys0 sys : Sys} {L F R : List Blk} {a : Int} {n : Nat} (h : Keeps sys0 sys L F R)
    (hin : ∃ r ∈ R, Inside ⟨a, n⟩ r) (hap : ∀ b ∈ L, Apart ⟨a, n⟩ b) : Keeps sys0 (sys.zero a n) L F R := by
  have hreg : (sys.zero a n).regions = sys.regions := rfl
  refine ⟨⟨h.ok.fresh, h.ok.apart, h.ok.pos⟩, h.regions, fun b hb x hx => ?_, fun b hb x hx => ?_⟩
  · simp only [Sys.zero]
    rw [if_neg]
    · exact h.live b hb x hx
    · intro hc; exact Apart.covers (hap b hb) hc hx
  · simp only [Sys.zero]
    rw [if_neg]
    · exact h.others b hb x hx
    · intro hc
      obtain ⟨r, hr, hi⟩ := hin
      have hp := (apart_perm h.regions).1 h.ok.apart
      rw [List.pairwise_append] at hp
      exact Apart.covers (hp.2.2 r hr b hb) (Inside.covers hi hc) hx

theorem zero_zeroed (sys : Sys) (a : Int) (n : Nat) : Zeroed ⟨a, n⟩ (sys.zero a n).mem := by
  intro x hx; exact if_pos (show a ≤ x ∧ x < a + n from hx)

/-- `free` of one's own region. -/
theorem free_keeps {sys : Sys} (h : SysOk sys) {R F : List Blk} (hr : sys.regions.Perm (R ++ F)) {r : Blk} (hm : r ∈ R) (L : List Blk) :
    ∃ sys', sys.free r.ptr = some sys' ∧ sys'.regions = sys.regions.erase r ∧ sys'.mem = sys.mem ∧ Keeps sys sys' L F (R.erase r) := by
  have hmem : r ∈ sys.regions := hr.symm.subset (List.mem_append_left _ hm)
  have hf : sys.regions.find? (fun q => q.ptr == r.ptr) = some r := by
    cases hq : sys.regions.find? (fun q => q.ptr == r.ptr) with
    | none => rw [List.find?_eq_none] at hq; exact absurd (hq r hmem) (by simp)
    | some q =>
      have h1 := List.mem_of_find?_eq_some hq
      have h2 : q.ptr = r.ptr := by have := List.find?_some hq; simpa using this
      by_cases he : q = r
      · rw [he]
      · have := pairwise_ne h.apart h1 hmem he
        have hp1 := h.pos q h1; have hp2 := h.pos r hmem
        unfold Apart at this; omega
  refine ⟨{ sys with regions := sys.regions.erase r }, ?_, rfl, rfl, ⟨h.fresh, ?_, ?_⟩, ?_, fun b _ x _ => rfl, fun b _ x _ => rfl⟩
  · simp only [Sys.free, hf]
  · exact h.apart.sublist List.erase_sublist
  · intro q hq; exact h.pos q (List.mem_of_mem_erase hq)
  · show (sys.regions.erase r).Perm (R.erase r ++ F)
    rw [← List.erase_append_left _ hm]
    exact hr.erase r

theorem Keeps.trans {s1 s2 s3 : Sys} {L F R R' : List Blk} (h : Keeps s1 s2 L F R) (h' : Keeps s2 s3 L F R') : Keeps s1 s3 L F R' :=
  ⟨h'.ok, h'.regions, fun b hb x hx => (h'.live b hb x hx).trans (h.live b hb x hx),
    fun b hb x hx => (h'.others b hb x hx).trans (h.others b hb x hx)⟩

theorem Keeps.refl {s : Sys} {L F R : List Blk} (h : SysOk s) (hr : s.regions.Perm (R ++ F)) : Keeps s s L F R :=
  ⟨h, hr, fun _ _ _ _ => rfl, fun _ _ _ _ => rfl⟩

/-- The state of a client of a lawful allocator. -/
structure Client {σ : Type} (Inv : σ → List Blk → List Blk → Prop) (sys0 : Sys) (w : World σ) (R : List Blk) : Prop where
  inv : Inv w.st w.held R
  keeps : Keeps sys0 w.sys [] sys0.regions R

variable {σ : Type} {A : Allocator σ} {z : Prop} {ok : Nat → Prop} {Inv : σ → List Blk → List Blk → Prop}

theorem Client.apartR {sys0 : Sys} {w : World σ} {R : List Blk} (h : Client Inv sys0 w R) : R.Pairwise Apart := by
  have := (apart_perm h.keeps.regions).1 h.keeps.ok.apart
  rw [List.pairwise_append] at this; exact this.1

theorem Client.safe (law : Lawful A z ok Inv) {sys0 : Sys} {w : World σ} {R : List Blk} (h : Client Inv sys0 w R) : Safe sys0 w := by
  obtain ⟨h1, h2⟩ := law.sound _ _ _ h.inv h.apartR
  refine ⟨h1, fun b hb => (h2 b hb).1, fun b hb => ?_, fun q hq => ⟨h.keeps.regions.symm.subset (List.mem_append_right _ hq), h.keeps.others q hq⟩⟩
  obtain ⟨r, hr, hi⟩ := (h2 b hb).2
  refine ⟨r, h.keeps.regions.symm.subset (List.mem_append_left _ hr), hi, fun q hq => ?_⟩
  have := (apart_perm h.keeps.regions).1 h.keeps.ok.apart
  rw [List.pairwise_append] at this; exact this.2.2 r hr q hq

theorem keeps_weaken {s0 s s' : Sys} {L F R R' : List Blk} (h : Keeps s0 s [] F R) (h' : Keeps s s' L F R') : Keeps s0 s' [] F R' :=
  ⟨h'.ok, h'.regions, by simp, fun b hb x hx => (h'.others b hb x hx).trans (h.others b hb x hx)⟩

theorem step_client (law : Lawful A z ok Inv) {sys0 : Sys} {w w' : World σ} {R : List Blk} (h : Client Inv sys0 w R)
    {op : Op} (hs : Sizes ok [op]) (hstep : w.step A op = some w') : (∃ R', Client Inv sys0 w' R') ∧ Contents z w w' op := by
  have hso := hs op List.mem_cons_self
  obtain ⟨hap, hpos⟩ := law.sound _ _ _ h.inv h.apartR
  cases op with
  | alloc n =>
    simp only [World.step, Option.bind_eq_bind, Option.bind_eq_some_iff] at hstep
    obtain ⟨⟨k, st, sys⟩, he, hw⟩ := hstep
    obtain rfl : World.mk st sys (k :: w.held) = w' := by simpa using hw
    obtain ⟨hk, R', hi, hkeep⟩ := law.allocate _ _ _ _ _ _ _ _ _ h.inv h.keeps.ok h.keeps.regions hso he
    exact ⟨⟨R', hi, keeps_weaken h.keeps hkeep⟩, k, rfl, hk, hkeep.live⟩
  | allocZero n =>
    simp only [World.step, Option.bind_eq_bind, Option.bind_eq_some_iff] at hstep
    obtain ⟨⟨k, st, sys⟩, he, hw⟩ := hstep
    obtain rfl : World.mk st sys (k :: w.held) = w' := by simpa using hw
    obtain ⟨hk, hz, R', hi, hkeep⟩ := law.allocateZero _ _ _ _ _ _ _ _ _ h.inv h.keeps.ok h.keeps.regions hso he
    exact ⟨⟨R', hi, keeps_weaken h.keeps hkeep⟩, k, rfl, hk, hz, hkeep.live⟩
  | free i =>
    simp only [World.step] at hstep
    cases hk : w.held[i]? with
    | none =>
      rw [hk] at hstep; simp only [Option.some.injEq] at hstep; subst hstep
      refine ⟨⟨R, h⟩, ?_, fun b _ x _ => rfl⟩
      rw [List.getElem?_eq_none_iff] at hk
      rw [List.eraseIdx_of_length_le hk]
    | some k =>
      rw [hk] at hstep
      obtain ⟨hi, rfl⟩ := List.getElem?_eq_some_iff.1 hk
      obtain ⟨st', sys', R', he, hinv, hkeep⟩ := law.deallocate _ _ _ _ _ _ h.inv h.keeps.ok h.keeps.regions (List.getElem_mem hi)
      simp only [he, Option.bind_eq_bind, Option.bind_some, Option.pure_def, Option.some.injEq] at hstep
      subst hstep
      have hnd := nodup_of_apart hap (fun b hb => (hpos b hb).1)
      have hee : w.held.erase w.held[i] = w.held.eraseIdx i := hnd.erase_getElem i hi
      rw [hee] at hinv hkeep
      exact ⟨⟨R', hinv, keeps_weaken h.keeps hkeep⟩, rfl, hkeep.live⟩
  | write i off x =>
    simp only [World.step] at hstep
    cases hk : w.held[i]? with
    | none =>
      rw [hk] at hstep; simp only [Option.some.injEq] at hstep; subst hstep
      refine ⟨⟨R, h⟩, rfl, fun b _ a _ => ?_⟩
      rw [if_neg]; rintro ⟨k, hk', _⟩; rw [hk] at hk'; simp at hk'
    | some k =>
      rw [hk] at hstep
      simp only at hstep
      split at hstep
      · rename_i hoff
        simp only [Option.some.injEq] at hstep; subst hstep
        have hkm : k ∈ w.held := List.mem_of_getElem? hk
        refine ⟨⟨R, h.inv, ⟨h.keeps.ok.fresh, h.keeps.ok.apart, h.keeps.ok.pos⟩, h.keeps.regions, by simp, fun b hb a ha => ?_⟩, rfl, fun b _ a _ => ?_⟩
        · simp only
          rw [if_neg]
          · exact h.keeps.others b hb a ha
          · rintro rfl
            obtain ⟨r, hr, hi⟩ := (hpos k hkm).2
            have := (apart_perm h.keeps.regions).1 h.keeps.ok.apart
            rw [List.pairwise_append] at this
            refine Apart.covers (this.2.2 r hr b hb) (Inside.covers hi ?_) ha
            unfold Covers; omega
        · simp only
          by_cases ha : a = k.ptr + off
          · rw [if_pos ha, if_pos ⟨k, by simp [hk], hoff, ha⟩]
          · rw [if_neg ha, if_neg]
            rintro ⟨k', hk', _, ha'⟩
            simp only [hk, Option.some.injEq] at hk'; subst hk'; exact ha ha'
      · rename_i hoff
        simp only [Option.some.injEq] at hstep; subst hstep
        refine ⟨⟨R, h⟩, rfl, fun b _ a _ => ?_⟩
        rw [if_neg]; rintro ⟨k', hk', ho, _⟩
        rw [hk, Option.some.injEq] at hk'; subst hk'; exact hoff ho

theorem start_client (law : Lawful A z ok Inv) {sys0 : Sys} (h0 : SysOk sys0) : ∃ R, Client Inv sys0 (World.start A sys0) R := by
  obtain ⟨R, h1, h2⟩ := law.init sys0 h0
  exact ⟨R, h1, h2⟩

theorem run_client (law : Lawful A z ok Inv) {sys0 : Sys} {ops : List Op} : ∀ {w w' : World σ} {R : List Blk}, Client Inv sys0 w R →
    Sizes ok ops → w.run A ops = some w' → ∃ R', Client Inv sys0 w' R' := by
  induction ops with
  | nil =>
    intro w w' R h _ hr
    simp only [World.run, List.foldlM_nil, Option.pure_def, Option.some.injEq] at hr
    subst hr; exact ⟨R, h⟩
  | cons op ops ih =>
    intro w w' R h hs hr
    simp only [World.run, List.foldlM_cons, Option.bind_eq_bind, Option.bind_eq_some_iff] at hr
    obtain ⟨w1, h1, h2⟩ := hr
    obtain ⟨⟨R1, hc⟩, _⟩ := step_client law h (fun o ho => by simp only [List.mem_singleton] at ho; subst ho; exact hs o List.mem_cons_self) h1
    exact ih hc (fun o ho => hs o (List.mem_cons_of_mem _ ho)) h2

/-- Every history from the start of a lawful allocator. -/
theorem history (law : Lawful A z ok Inv) {sys0 : Sys} (h0 : SysOk sys0) {ops : List Op} (hs : Sizes ok ops) {w : World σ}
    (hr : (World.start A sys0).run A ops = some w) :
    (∃ R, Client Inv sys0 w R) ∧ Safe sys0 w ∧
    ∀ op, Sizes ok [op] → ∀ w', w.step A op = some w' → Contents z w w' op := by
  obtain ⟨R0, hc0⟩ := start_client law h0
  obtain ⟨R, hc⟩ := run_client law hc0 hs hr
  exact ⟨⟨R, hc⟩, hc.safe law, fun op hop w' hw' => (step_client law hc hop hw').2⟩

end Nda.Alloc
