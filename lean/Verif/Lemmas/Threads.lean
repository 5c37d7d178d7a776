import Verif.Spec.Threads
import Verif.Props.Programs
import Mathlib.Data.List.Forall2
/-!
# Lemmas for C86: threads
-/
namespace Nda.Threads
open Nda Nda.Spec LayoutTransforms Assign Arith Loops Programs Programs.Spec Threads.Spec

variable {α : Type}

/-! ### Footprints -/

/-- Addresses that are read and written. -/
structure Fp where
  R : Int → Prop
  W : Int → Prop

/-- All accesses are in the footprint, whatever is read; nothing fails. -/
def Foot (fp : Fp) : Act α → Prop
  | .done => True
  | .fail => False
  | .read k c => fp.R k ∧ ∀ x, Foot fp (c x)
  | .write k _ c => fp.W k ∧ Foot fp c

theorem Foot.mono {fp fq : Fp} (hR : ∀ k, fp.R k → fq.R k) (hW : ∀ k, fp.W k → fq.W k) : ∀ {t : Act α}, Foot fp t → Foot fq t
  | .done, _ => trivial
  | .read _ _, h => ⟨hR _ h.1, fun x => (h.2 x).mono hR hW⟩
  | .write _ _ _, h => ⟨hW _ h.1, h.2.mono hR hW⟩

/-- The footprint is inside a memory of `n` elements. -/
def Inside (n : Nat) (fp : Fp) : Prop := (∀ k, fp.R k → 0 ≤ k ∧ k < n) ∧ ∀ k, fp.W k → 0 ≤ k ∧ k < n

/-- No conflict. -/
def Apart (p q : Fp) : Prop := (∀ k, p.W k → ¬ q.R k ∧ ¬ q.W k) ∧ ∀ k, q.W k → ¬ p.R k ∧ ¬ p.W k

theorem wr_some {mem mem' : List α} {k : Int} {x : α} (h : wrInt mem k x = some mem') : (0 ≤ k ∧ k < mem.length) ∧ mem' = mem.set k.toNat x := by
  simp only [wrInt, wr] at h
  split at h
  · split at h
    · rename_i h0 h1
      exact ⟨⟨h0, by omega⟩, (Option.some.inj h).symm⟩
    · cases h
  · cases h

theorem wr_ok {mem : List α} {k : Int} {x : α} (h : 0 ≤ k ∧ k < mem.length) : wrInt mem k x = some (mem.set k.toNat x) := by
  rw [wrInt, if_pos h.1, wr, if_pos (by omega)]

theorem rd_wr_ne {mem mem' : List α} {k j : Int} {x : α} (h : wrInt mem k x = some mem') (hjk : j ≠ k) : rdInt mem' j = rdInt mem j := by
  obtain ⟨m, e, _, _, hf⟩ := wrInt_spec (wr_some h).1 x
  rw [h] at e; cases e
  rw [rdInt_eq, rdInt_eq, hf j hjk]

theorem wr_length {mem mem' : List α} {k : Int} {x : α} (h : wrInt mem k x = some mem') : mem'.length = mem.length := by
  rw [(wr_some h).2]; simp

/-- A thread alone in its memory. -/
theorem run_foot {fp : Fp} : ∀ {t : Act α} {mem : List α}, Foot fp t → Inside mem.length fp →
    ∃ mem', runAct t mem = some mem' ∧ mem'.length = mem.length ∧ ∀ k, ¬ fp.W k → rdInt mem' k = rdInt mem k
  | .done, mem, _, _ => ⟨mem, rfl, rfl, fun _ _ => rfl⟩
  | .read k c, mem, h, hi => by
      obtain ⟨x, hx⟩ := val_isSome (hi.1 k h.1)
      rw [← rdInt_eq] at hx
      obtain ⟨m, e, l, f⟩ := run_foot (h.2 x) hi
      exact ⟨m, by simp [runAct, hx, e], l, f⟩
  | .write k x c, mem, h, hi => by
      obtain ⟨m1, e1, l1, _, _⟩ := wrInt_spec (hi.2 k h.1) x
      obtain ⟨m, e, l, f⟩ := run_foot h.2 (by rw [l1]; exact hi)
      refine ⟨m, by simp [runAct, e1, e], by rw [l, l1], fun j hj => ?_⟩
      rw [f j hj, rd_wr_ne e1 (fun hjk => hj (by rw [hjk]; exact h.1))]

theorem wr_comm {mem m1 m2 : List α} {k j : Int} {x y : α} (hjk : j ≠ k) (h1 : wrInt mem k x = some m1) (h2 : wrInt mem j y = some m2) :
    ∃ m, wrInt m1 j y = some m ∧ wrInt m2 k x = some m := by
  obtain ⟨b1, rfl⟩ := wr_some h1
  obtain ⟨b2, rfl⟩ := wr_some h2
  refine ⟨(mem.set k.toNat x).set j.toNat y, wr_ok (by simpa using b2), ?_⟩
  rw [wr_ok (by simpa using b1), List.set_comm _ _ (by omega)]

/-- A store elsewhere before or after a thread. -/
theorem run_wr {fp : Fp} {k : Int} {x : α} (hR : ¬ fp.R k) (hW : ¬ fp.W k) : ∀ {t : Act α} {mem mem' m : List α}, Foot fp t → wrInt mem k x = some mem' → runAct t mem = some m →
    ∃ m', runAct t mem' = some m' ∧ wrInt m k x = some m'
  | .done, mem, mem', m, _, hw, hr => by cases hr; exact ⟨mem', rfl, hw⟩
  | .read j c, mem, mem', m, h, hw, hr => by
      simp only [runAct, Option.bind_eq_bind, Option.bind_eq_some_iff] at hr
      obtain ⟨y, hy, hr⟩ := hr
      obtain ⟨m', e, e'⟩ := run_wr hR hW (h.2 y) hw hr
      refine ⟨m', ?_, e'⟩
      simp only [runAct, rd_wr_ne hw (fun hjk => hR (by rw [← hjk]; exact h.1)), hy]
      exact e
  | .write j y c, mem, mem', m, h, hw, hr => by
      simp only [runAct, Option.bind_eq_bind, Option.bind_eq_some_iff] at hr
      obtain ⟨m1, h1, hr⟩ := hr
      obtain ⟨m2, e1, e2⟩ := wr_comm (fun hjk => hW (by rw [← hjk]; exact h.1)) hw h1
      obtain ⟨m', e, e'⟩ := run_wr hR hW h.2 e2 hr
      exact ⟨m', by simp only [runAct, e1]; exact e, e'⟩

/-! ### The machine -/

/-- The threads one after another. -/
def seqAll : List (Act α) → List α → Option (List α)
  | [], mem => some mem
  | t :: ts, mem => (runAct t mem).bind (seqAll ts)

/-- The threads stay in their footprints. -/
structure Inv (fps : List Fp) (ts : List (Act α)) (n : Nat) : Prop where
  foot : List.Forall₂ Foot fps ts
  inside : ∀ fp ∈ fps, Inside n fp
  apart : fps.Pairwise Apart

theorem Inv.tail {fp : Fp} {fps : List Fp} {t : Act α} {ts : List (Act α)} {n : Nat} (h : Inv (fp :: fps) (t :: ts) n) : Inv fps ts n :=
  ⟨(List.forall₂_cons.mp h.foot).2, fun p hp => h.inside p (by simp [hp]), (List.pairwise_cons.mp h.apart).2⟩

theorem forall₂_get {fps : List Fp} {ts : List (Act α)} (h : List.Forall₂ Foot fps ts) {i : Nat} {t : Act α} (hi : ts[i]? = some t) :
    ∃ fp, fps[i]? = some fp ∧ Foot fp t := by
  induction h generalizing i with
  | nil => simp at hi
  | cons hd _ ih =>
      cases i with
      | zero => simp only [List.getElem?_cons_zero, Option.some.injEq] at hi ⊢; subst hi; exact ⟨_, rfl, hd⟩
      | succ i => simpa using ih (by simpa using hi)

theorem forall₂_set {fps : List Fp} {ts : List (Act α)} (h : List.Forall₂ Foot fps ts) {i : Nat} {fp : Fp} {t : Act α} (hi : fps[i]? = some fp) (ht : Foot fp t) :
    List.Forall₂ Foot fps (ts.set i t) := by
  induction h generalizing i with
  | nil => simp at hi
  | cons hd tl ih =>
      cases i with
      | zero => simp only [List.getElem?_cons_zero, Option.some.injEq] at hi; subst hi; exact List.Forall₂.cons ht tl
      | succ i => exact List.Forall₂.cons hd (ih (by simpa using hi))

/-- The invariant is kept, and so is the result of running the threads one after another. -/
theorem step_inv {fps : List Fp} {s s' : State α} (h : Inv fps s.1 s.2.length) (hs : Step s s') : Inv fps s'.1 s'.2.length ∧ s'.2.length = s.2.length := by
  cases hs with
  | read hi hx =>
      obtain ⟨fp, h1, h2⟩ := forall₂_get h.foot hi
      exact ⟨⟨forall₂_set h.foot h1 (h2.2 _), h.inside, h.apart⟩, rfl⟩
  | write hi hx =>
      obtain ⟨fp, h1, h2⟩ := forall₂_get h.foot hi
      have hl := wr_length hx
      exact ⟨⟨forall₂_set h.foot h1 h2.2, by rw [hl]; exact h.inside, h.apart⟩, hl⟩

theorem seq_read : ∀ {fps : List Fp} {ts : List (Act α)} {mem : List α} {i : Nat} {k : Int} {c : α → Act α} {x : α}, Inv fps ts mem.length →
    ts[i]? = some (.read k c) → rdInt mem k = some x → seqAll (ts.set i (c x)) mem = seqAll ts mem
  | fps, [], mem, i, k, c, x, h, hi, hx => by simp at hi
  | fps, t :: ts, mem, 0, k, c, x, h, hi, hx => by
      simp only [List.getElem?_cons_zero, Option.some.injEq] at hi
      subst hi
      simp [seqAll, runAct, hx]
  | fps, t :: ts, mem, i + 1, k, c, x, h, hi, hx => by
      obtain ⟨fp, fps, rfl⟩ : ∃ fp fps', fps = fp :: fps' := by
        cases fps with
        | nil => have := h.foot; cases this
        | cons a b => exact ⟨a, b, rfl⟩
      have hi' : ts[i]? = some (.read k c) := by simpa using hi
      obtain ⟨m1, e1, l1, f1⟩ := run_foot (List.forall₂_cons.mp h.foot).1 (h.inside fp (by simp))
      obtain ⟨fq, g1, g2⟩ := forall₂_get h.tail.foot hi'
      have hap := (List.pairwise_cons.mp h.apart).1 fq (List.mem_of_getElem? g1)
      simp only [List.set_cons_succ, seqAll, e1, Option.bind_some]
      exact seq_read (by rw [l1]; exact h.tail) hi' (by rw [f1 k (fun hw => (hap.1 k hw).1 g2.1), hx])

theorem seq_write : ∀ {fps : List Fp} {ts : List (Act α)} {mem mem' : List α} {i : Nat} {k : Int} {c : Act α} {x : α}, Inv fps ts mem.length →
    ts[i]? = some (.write k x c) → wrInt mem k x = some mem' → seqAll (ts.set i c) mem' = seqAll ts mem
  | fps, [], mem, mem', i, k, c, x, h, hi, hx => by simp at hi
  | fps, t :: ts, mem, mem', 0, k, c, x, h, hi, hx => by
      simp only [List.getElem?_cons_zero, Option.some.injEq] at hi
      subst hi
      simp [seqAll, runAct, hx]
  | fps, t :: ts, mem, mem', i + 1, k, c, x, h, hi, hx => by
      obtain ⟨fp, fps, rfl⟩ : ∃ fp fps', fps = fp :: fps' := by
        cases fps with
        | nil => have := h.foot; cases this
        | cons a b => exact ⟨a, b, rfl⟩
      have hi' : ts[i]? = some (.write k x c) := by simpa using hi
      have ht := (List.forall₂_cons.mp h.foot).1
      obtain ⟨m1, e1, l1, f1⟩ := run_foot ht (h.inside fp (by simp))
      obtain ⟨fq, g1, g2⟩ := forall₂_get h.tail.foot hi'
      have hap := (List.pairwise_cons.mp h.apart).1 fq (List.mem_of_getElem? g1)
      obtain ⟨m2, e2, e3⟩ := run_wr (fun hr => (hap.2 k g2.1).1 hr) (fun hw => (hap.2 k g2.1).2 hw) ht hx e1
      simp only [List.set_cons_succ, seqAll, e1, e2, Option.bind_some]
      exact seq_write (by rw [l1]; exact h.tail) hi' e3

theorem step_seq {fps : List Fp} {s s' : State α} (h : Inv fps s.1 s.2.length) (hs : Step s s') : seqAll s'.1 s'.2 = seqAll s.1 s.2 := by
  cases hs with
  | read hi hx => exact seq_read h hi hx
  | write hi hx => exact seq_write h hi hx

theorem steps_inv {fps : List Fp} {s s' : State α} (h : Inv fps s.1 s.2.length) (hs : Steps s s') :
    Inv fps s'.1 s'.2.length ∧ s'.2.length = s.2.length ∧ seqAll s'.1 s'.2 = seqAll s.1 s.2 := by
  induction hs with
  | refl => exact ⟨h, rfl, rfl⟩
  | tail _ h2 ih => exact ⟨(step_inv ih.1 h2).1, by rw [(step_inv ih.1 h2).2, ih.2.1], by rw [step_seq ih.1 h2, ih.2.2]⟩

theorem inv_progress {fps : List Fp} {ts : List (Act α)} {mem : List α} (h : Inv fps ts mem.length) {i : Nat} {t : Act α} (hi : ts[i]? = some t) (hd : t ≠ .done) :
    ∃ t' mem', Step (ts, mem) (ts.set i t', mem') := by
  obtain ⟨fp, g1, g2⟩ := forall₂_get h.foot hi
  have hin := h.inside fp (List.mem_of_getElem? g1)
  cases t with
  | done => exact absurd rfl hd
  | fail => exact g2.elim
  | read k c =>
      obtain ⟨x, hx⟩ := val_isSome (hin.1 k g2.1)
      rw [← rdInt_eq] at hx
      exact ⟨_, _, .read hi hx⟩
  | write k x c =>
      obtain ⟨m1, e1, _⟩ := wrInt_spec (hin.2 k g2.1) x
      exact ⟨_, _, .write hi e1⟩

theorem pairwise_get {fps : List Fp} (h : fps.Pairwise Apart) {i j : Nat} {p q : Fp} (hi : fps[i]? = some p) (hj : fps[j]? = some q) (hij : i ≠ j) : Apart p q := by
  obtain ⟨hi', ei⟩ := List.getElem?_eq_some_iff.mp hi
  obtain ⟨hj', ej⟩ := List.getElem?_eq_some_iff.mp hj
  rcases Nat.lt_or_gt_of_ne hij with g | g
  · have := List.pairwise_iff_getElem.mp h i j hi' hj' g
    rwa [ei, ej] at this
  · have := List.pairwise_iff_getElem.mp h j i hj' hi' g
    rw [ei, ej] at this
    exact ⟨this.2, this.1⟩

theorem inv_no_race {fps : List Fp} {ts : List (Act α)} {n : Nat} (h : Inv fps ts n) : ¬ Race ts := by
  rintro ⟨i, j, a, b, k, w, w', hij, hi, hj, ha, hb, hw⟩
  obtain ⟨p, p1, p2⟩ := forall₂_get h.foot hi
  obtain ⟨q, q1, q2⟩ := forall₂_get h.foot hj
  have hap := pairwise_get h.apart p1 q1 hij
  have acc : ∀ {fp : Fp} {t : Act α} {k : Int} {w : Bool}, Foot fp t → access t = some (k, w) → (w = true → fp.W k) ∧ (w = false → fp.R k) := by
    intro fp t k w hf ht
    cases t <;> simp only [access, Option.some.injEq, Prod.mk.injEq, reduceCtorEq] at ht
    · obtain ⟨rfl, rfl⟩ := ht; exact ⟨nofun, fun _ => hf.1⟩
    · obtain ⟨rfl, rfl⟩ := ht; exact ⟨fun _ => hf.1, nofun⟩
  obtain ⟨a1, a2⟩ := acc p2 ha
  obtain ⟨b1, b2⟩ := acc q2 hb
  cases w
  · cases w'
    · simp at hw
    · exact (hap.2 k (b1 rfl)).1 (a2 rfl)
  · cases w'
    · exact (hap.1 k (a1 rfl)).1 (b2 rfl)
    · exact (hap.1 k (a1 rfl)).2 (b1 rfl)

theorem seq_finished : ∀ {ts : List (Act α)} (mem : List α), Finished ts → seqAll ts mem = some mem
  | [], _, _ => rfl
  | t :: ts, mem, h => by
      rw [h t (by simp)] at *
      simp only [seqAll, runAct, Option.bind_some]
      exact seq_finished mem (fun u hu => h u (by simp [hu]))

/-! ### Every execution ends -/

/-- The rest of a thread after one access. -/
inductive Child : Act α → Act α → Prop where
  | read (k : Int) (c : α → Act α) (x : α) : Child (c x) (.read k c)
  | write (k : Int) (x : α) (c : Act α) : Child c (.write k x c)

theorem child_wf : ∀ t : Act α, Acc Child t
  | .done => ⟨_, fun _ h => by cases h⟩
  | .fail => ⟨_, fun _ h => by cases h⟩
  | .read _ c => ⟨_, fun _ h => by cases h; exact child_wf _⟩
  | .write _ _ c => ⟨_, fun _ h => by cases h; exact child_wf c⟩

/-- One thread advances. -/
def Advance (us ts : List (Act α)) : Prop := ∃ i t u, ts[i]? = some t ∧ Child u t ∧ us = ts.set i u

theorem advance_cons {t : Act α} (ht : Acc Child t) : ∀ {ts : List (Act α)}, Acc Advance ts → Acc Advance (t :: ts) := by
  induction ht with
  | intro t _ iht =>
      intro ts hts
      induction hts with
      | intro ts hts ihts =>
          refine ⟨_, ?_⟩
          rintro us ⟨i, a, u, hi, hc, rfl⟩
          cases i with
          | zero =>
              simp only [List.getElem?_cons_zero, Option.some.injEq] at hi
              subst hi
              exact iht u hc ⟨_, hts⟩
          | succ i =>
              exact ihts _ ⟨i, a, u, by simpa using hi, hc, rfl⟩

theorem advance_wf : ∀ ts : List (Act α), Acc Advance ts
  | [] => ⟨_, by rintro _ ⟨i, t, u, h, _⟩; simp at h⟩
  | t :: ts => advance_cons (child_wf t) (advance_wf ts)

theorem step_advance {s s' : State α} (h : Step s s') : Advance s'.1 s.1 := by
  cases h with
  | read h _ => exact ⟨_, _, _, h, .read _ _ _, rfl⟩
  | write h _ => exact ⟨_, _, _, h, .write _ _ _, rfl⟩

end Nda.Threads
