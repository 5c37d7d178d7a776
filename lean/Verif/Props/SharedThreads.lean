import Verif.Lemmas.SharedThreads
import Mathlib.Tactic.FinCases
/-!
# C90: storage that several threads share
-/
namespace Nda.SharedThreads
open Spec

theorem steps_trans {s t u : State} (h1 : Steps s t) (h2 : Steps t u) : Steps s u := by
  induction h2 with
  | refl => exact h1
  | tail _ h ih => exact .tail ih h

theorem steps_inv {s s' : State} (h : Inv s) (hs : Steps s s') : Inv s' := by
  induction hs with
  | refl => exact h
  | tail _ hst ih =>
      cases hst with
      | mk i e =>
          rcases step_inv ih i with ⟨e', _⟩ | ⟨u, e', hu⟩
          · rw [e] at e'; cases e'
          · rw [e] at e'; cases e'; exact hu

theorem follow_steps : ∀ (is : List Nat) {s s' : State}, follow is s = .ok s' → Steps s s'
  | [], s, s', h => by cases h; exact .refl _
  | i :: is, s, s', h => by
      rw [follow] at h
      split at h
      · rename_i u hu
        exact steps_trans (.tail (.refl _) (.mk i hu)) (follow_steps is h)
      · rename_i hne
        exact absurd h (hne _)

theorem mem_elems {b : Option Nat} {w : Bool} {l : Loc} {u : Bool} (h : (l, u) ∈ Spec.elems b w) : ∃ b', b = some b' ∧ l = .elems b' ∧ u = w := by
  cases b with
  | none => simp [Spec.elems] at h
  | some b => simp [Spec.elems] at h; exact ⟨b, rfl, h.1, h.2⟩

/-- What a thread is about to touch says what it uses. -/
theorem touches_cases {s : State} (h : Inv s) {i : Nat} {t : Thr} (hi : s.thr[i]? = some t) {l : Loc} {w : Bool} (ht : (l, w) ∈ touches s t) :
    (∃ a, l = .members a ∧ using' t a ∧ (w = true → Op.kill a ∈ t.ops)) ∨
      (∃ a, l = .sptr a ∧ (sharing t a ∨ Op.kill a ∈ t.ops) ∧ (w = true → Op.kill a ∈ t.ops ∨ (sharing t a ∧ ∃ v, s.arr a = some v ∧ v.blk ≠ none ∧ v.sptr = none))) ∨
      ∃ b, l = .elems b ∧ ((w = true ∧ isFree b t = true) ∨ (w = false ∧ number (isFree b) s.thr = 0)) := by
  have hpk := h.pcs i t hi
  unfold touches at ht
  cases hp : t.pc with
  | idle =>
      cases hops : t.ops with
      | nil => simp [hp, hops] at ht
      | cons o ops =>
          have hin : ∀ o', o' = o → o' ∈ o :: ops := fun o' e => by rw [e]; simp
          cases o with
          | share a x =>
              simp only [hp, hops, List.mem_cons, Prod.mk.injEq, List.not_mem_nil, or_false] at ht
              have hs : sharing t a := .inl ⟨x, by rw [hops]; simp⟩
              rcases ht with ⟨rfl, rfl⟩ | ⟨rfl, rfl⟩
              · exact .inl ⟨a, rfl, .inr hs, fun e => by cases e⟩
              · exact .inr (.inl ⟨a, rfl, .inl hs, fun e => by cases e⟩)
          | copy x y => simp [hp, hops] at ht
          | drop x => simp [hp, hops] at ht
          | read x =>
              simp only [hp, hops] at ht
              obtain ⟨b, e1, rfl, rfl⟩ := mem_elems ht
              rw [Option.bind_eq_some_iff] at e1
              obtain ⟨hd, e2, e3⟩ := e1
              exact .inr (.inr ⟨b, rfl, .inr ⟨rfl, (h.live_hd hi e2 e3).2⟩⟩)
          | readArr a =>
              simp only [hp, hops, List.mem_cons, Prod.mk.injEq] at ht
              rcases ht with ⟨rfl, rfl⟩ | ht
              · exact .inl ⟨a, rfl, .inl ⟨.readArr a, by rw [hops]; simp, by simp [uses]⟩, fun e => by cases e⟩
              · obtain ⟨b, e1, rfl, rfl⟩ := mem_elems ht
                rw [Option.bind_eq_some_iff] at e1
                obtain ⟨v, e2, e3⟩ := e1
                exact .inr (.inr ⟨b, rfl, .inr ⟨rfl, (h.live_arr e2 e3).2⟩⟩)
          | kill a =>
              simp only [hp, hops, List.mem_cons, Prod.mk.injEq, List.not_mem_nil, or_false] at ht
              have hk : Op.kill a ∈ t.ops := by rw [hops]; simp
              rcases ht with ⟨rfl, rfl⟩ | ⟨rfl, rfl⟩
              · exact .inl ⟨a, rfl, .inl ⟨_, hk, by simp [uses]⟩, fun _ => by rw [← hops]; exact hk⟩
              · exact .inr (.inl ⟨a, rfl, .inr (by rw [← hops]; exact hk), fun _ => .inl (by rw [← hops]; exact hk)⟩)
  | publish a x =>
      simp only [PcOk, hp] at hpk
      simp only [hp, List.mem_cons, Prod.mk.injEq, List.not_mem_nil, or_false] at ht
      have hs : sharing t a := .inr (.inl ⟨x, hp⟩)
      rcases ht with ⟨rfl, rfl⟩ | ⟨rfl, rfl⟩
      · exact .inl ⟨a, rfl, .inr hs, fun e => by cases e⟩
      · exact .inr (.inl ⟨a, rfl, .inl hs, fun _ => .inr ⟨hs, hpk.2⟩⟩)
  | release a x c => simp [hp] at ht
  | load a x =>
      simp only [hp, List.mem_cons, Prod.mk.injEq, List.not_mem_nil, or_false] at ht
      obtain ⟨rfl, rfl⟩ := ht
      exact .inr (.inl ⟨a, rfl, .inl (.inr (.inr (.inl ⟨x, hp⟩))), fun e => by cases e⟩)
  | incr a x c =>
      simp only [hp, List.mem_cons, Prod.mk.injEq, List.not_mem_nil, or_false] at ht
      obtain ⟨rfl, rfl⟩ := ht
      exact .inl ⟨a, rfl, .inr (.inr (.inr (.inr ⟨x, c, hp⟩))), fun e => by cases e⟩
  | free b next =>
      simp only [hp, List.mem_cons, Prod.mk.injEq, List.not_mem_nil, or_false] at ht
      obtain ⟨rfl, rfl⟩ := ht
      exact .inr (.inr ⟨b, rfl, .inl ⟨rfl, by simp [isFree, hp]⟩⟩)

theorem no_conflict {s : State} (h : Inv s) {i j : Nat} {ti tj : Thr} (hij : i ≠ j) (hi : s.thr[i]? = some ti) (hj : s.thr[j]? = some tj) {l : Loc} {w : Bool}
    (h1 : (l, true) ∈ touches s ti) (h2 : (l, w) ∈ touches s tj) : False := by
  have kill_uses : ∀ (t : Thr) (a : Nat), Op.kill a ∈ t.ops → using' t a := fun t a hk => .inl ⟨_, hk, by simp [uses]⟩
  rcases touches_cases h hi h1 with ⟨a, rfl, _, k1⟩ | ⟨a, rfl, _, k1⟩ | ⟨b, rfl, k1⟩
  · rcases touches_cases h hj h2 with ⟨a', e, u, _⟩ | ⟨a', e, _⟩ | ⟨b, e, _⟩
    · cases e; exact hij (h.killer a i j ti tj hi hj (k1 rfl) u)
    · cases e
    · cases e
  · rcases touches_cases h hj h2 with ⟨a', e, _⟩ | ⟨a', e, u, _⟩ | ⟨b, e, _⟩
    · cases e
    · cases e
      rcases k1 rfl with k1 | ⟨k1, v, g1, g2, g3⟩
      · refine hij (h.killer a i j ti tj hi hj k1 ?_)
        rcases u with u | u
        · exact .inr u
        · exact kill_uses _ _ u
      · rcases u with u | u
        · exact hij (h.once a v g1 g2 g3 i j ti tj hi hj k1 u)
        · exact hij (h.killer a j i tj ti hj hi u (.inr k1)).symm
    · cases e
  · rcases touches_cases h hj h2 with ⟨a', e, _⟩ | ⟨a', e, _⟩ | ⟨b', e, u⟩
    · cases e
    · cases e
    · cases e
      have f1 : isFree b ti = true := by
        rcases k1 with k1 | k1
        · exact k1.2
        · cases k1.1
      rcases u with ⟨_, u⟩ | ⟨_, u⟩
      · have := number_two hij hi hj f1 u
        have h3 := h.charge b
        have h4 : live s b ≤ 1 := by unfold live; split <;> omega
        omega
      · have := number_pos hi f1
        omega

/-- Threads that follow the rule (an array that has not been shared before is shared in one thread only, an array that is destroyed in a thread is not used in another), in any
interleaving and in any number: there is never undefined behaviour (no block is read or released after its release, no destroyed array or handle is used) and never a data race.

Partial: the rule is needed although sharing leaves the array const, see `C90_race`. -/
theorem C90_safe_partial {s s' : State} (h : Start s) (hf : ∀ (i : Nat) (t : Thr), s.thr[i]? = some t → Fine t.ops (shape s) (vars t)) (hd : Disciplined s) (hs : Steps s s') :
    (∀ i, step s' i ≠ .ub) ∧ ¬ Race s' := by
  have hinv := steps_inv (start_inv h hf hd) hs
  constructor
  · intro i e
    rcases step_inv hinv i with ⟨e', _⟩ | ⟨u, e', _⟩ <;> rw [e] at e' <;> cases e'
  · rintro ⟨i, j, ti, tj, l, wi, wj, hij, hi, hj, h1, h2, hw⟩
    rcases hw with rfl | rfl
    · exact no_conflict hinv hij hi hj h1 h2
    · exact no_conflict hinv (fun e => hij e.symm) hj hi h2 h1

/-- At every moment of such an execution the counter of every control block is the number of arrays and handles that have it, and everything that an array or a handle refers to is
live. -/
theorem C90_counts_partial {s s' : State} (h : Start s) (hf : ∀ (i : Nat) (t : Thr), s.thr[i]? = some t → Fine t.ops (shape s) (vars t)) (hd : Disciplined s) (hs : Steps s s') :
    (∀ (c : Nat) (k : Ctrl), s'.ctrls[c]? = some k → k.refs = owners s' c) ∧ ∀ b : Nat, Held s' b → s'.blocks[b]? = some true := by
  have hinv := steps_inv (start_inv h hf hd) hs
  refine ⟨hinv.refs, fun b hb => ?_⟩
  rcases hb with ⟨a, v, e1, e2⟩ | ⟨t, ht, x, hd, e1, e2⟩
  · exact (hinv.live_arr e1 e2).1
  · obtain ⟨i, hi⟩ := List.getElem?_of_mem ht
    exact (hinv.live_hd hi e1 e2).1

/-- When the threads have come to their end, a block is live exactly if an array or a handle refers to it; if all arrays and handles are gone, then every block has been released
(once: a second release would be undefined behaviour). -/
theorem C90_released_partial {s s' : State} (h : Start s) (hf : ∀ (i : Nat) (t : Thr), s.thr[i]? = some t → Fine t.ops (shape s) (vars t)) (hd : Disciplined s) (hs : Steps s s')
    (hfin : Finished s') : (∀ b : Nat, s'.blocks[b]? = some true ↔ Held s' b) ∧ (Empty s' → ∀ b : Nat, s'.blocks[b]? ≠ some true) := by
  have hinv := steps_inv (start_inv h hf hd) hs
  have key : ∀ b : Nat, s'.blocks[b]? = some true ↔ Held s' b := by
    refine fun b => ⟨fun hb => ?_, (C90_counts_partial h hf hd hs).2 b⟩
    have hc := hinv.charge b
    have h1 : number (isFree b) s'.thr = 0 := by
      unfold number
      refine List.sum_eq_zero (fun n hn => ?_)
      obtain ⟨t, ht, rfl⟩ := List.mem_map.mp hn
      simp [isFree, (hfin t ht).2]
    have h2 : live s' b = 1 := by unfold live; rw [if_pos hb]
    have h3 : inCharge s' b ≠ 0 := by omega
    have ex : ∀ {β : Type} {p : β → Bool} {l : List β}, number p l ≠ 0 → ∃ (i : Nat) (x : β), l[i]? = some x ∧ p x = true := by
      intro β p l hne
      by_contra hno
      refine hne (List.sum_eq_zero (fun n hn => ?_))
      obtain ⟨x, hx, rfl⟩ := List.mem_map.mp hn
      obtain ⟨i, hi⟩ := List.getElem?_of_mem hx
      rw [if_neg (fun e => hno ⟨i, x, hi, e⟩)]
    have h4 : number (unshared b) s'.arrs ≠ 0 ∨ number (inUse b) s'.ctrls ≠ 0 := by unfold inCharge at h3; omega
    rcases h4 with h4 | h4
    · obtain ⟨a, w, e1, e2⟩ := ex h4
      cases w with
      | none => simp at e2
      | some v =>
          simp only [unshared_some, Bool.and_eq_true, beq_iff_eq] at e2
          exact .inl ⟨a, v, by simp [State.arr, e1], e2.1⟩
    · obtain ⟨c, k, e1, e2⟩ := ex h4
      simp only [inUse_mk, Bool.and_eq_true, beq_iff_eq, bne_iff_ne] at e2
      have h5 := hinv.refs c k e1
      unfold owners at h5
      have h6 : number (pointsTo c) s'.arrs ≠ 0 ∨ (s'.thr.map (ownT c)).sum ≠ 0 := by
        change _ = _ + (s'.thr.map (ownT c)).sum at h5
        omega
      rcases h6 with h6 | h6
      · obtain ⟨a, w, g1, g2⟩ := ex h6
        cases w with
        | none => simp at g2
        | some v =>
            simp only [pointsTo_some, beq_iff_eq] at g2
            have ha : s'.arr a = some v := by simp [State.arr, g1]
            obtain ⟨k', f1, f2⟩ := hinv.arrs a v c ha g2
            rw [e1, Option.some.injEq] at f1
            subst f1
            exact .inl ⟨a, v, ha, by rw [f2, e2.1]⟩
      · have : ∃ t ∈ s'.thr, ownT c t ≠ 0 := by
          by_contra hno
          refine h6 (List.sum_eq_zero (fun n hn => ?_))
          obtain ⟨t, ht, rfl⟩ := List.mem_map.mp hn
          by_contra hne
          exact hno ⟨t, ht, hne⟩
        obtain ⟨t, ht, hne⟩ := this
        obtain ⟨x, w, g1, g2⟩ := ex hne
        cases w with
        | none => simp at g2
        | some hd =>
            simp only [holds_some, beq_iff_eq] at g2
            obtain ⟨i, hi⟩ := List.getElem?_of_mem ht
            have hx : t.hd x = some hd := by simp [Thr.hd, g1]
            obtain ⟨k', f1, _, f2⟩ := hinv.refs_hd hi hx g2
            rw [e1, Option.some.injEq] at f1
            subst f1
            exact .inr ⟨t, ht, x, hd, hx, by rw [f2, e2.1]⟩
  refine ⟨key, fun he b hb => ?_⟩
  rcases (key b).mp hb with ⟨a, v, e, _⟩ | ⟨t, ht, x, hd, e, _⟩
  · rw [he.1 a] at e; cases e
  · rw [he.2 t ht x] at e; cases e

/-! ### Executions end -/

def pcWork : Pc → Nat
  | .idle => 0
  | .publish _ _ => 5
  | .release _ _ _ => 4
  | .load _ _ => 2
  | .incr _ _ _ => 1
  | .free _ next => 1 + pcWork next

def work (t : Thr) : Nat := 6 * t.ops.length + pcWork t.pc

theorem decr_work {s s' : State} {i : Nat} {t : Thr} {c : Nat} {pc : Pc} (h : s.decr i t c pc = .ok s') :
    ∃ t', s'.thr = s.thr.set i t' ∧ t'.ops = t.ops ∧ pcWork t'.pc ≤ 1 + pcWork pc := by
  unfold State.decr at h
  split at h
  · cases h
  · rename_i k _
    split at h
    · cases h
    · cases h
      refine ⟨_, rfl, rfl, ?_⟩
      simp only
      split
      · simp [pcWork]
      · omega

theorem incr_thr {s s' : State} {c : Nat} (h : s.incr c = some s') : s'.thr = s.thr := by
  unfold State.incr at h
  split at h
  · cases h
  · split at h
    · cases h
    · cases h; rfl

theorem incr_set {s s' : State} {c i : Nat} {t' : Thr} (h : s.incr c = some s') : (s'.setThr i t').thr = s.thr.set i t' := by
  simp only [State.setThr, incr_thr h]

theorem begin_work {s s' : State} {i : Nat} {t : Thr} (hp : t.pc = .idle) {o : Op} (h : begin s i t o = .ok s') : ∃ t', s'.thr = s.thr.set i t' ∧ t'.ops = t.ops ∧ pcWork t'.pc ≤ 5 := by
  cases o with
  | share a x =>
      simp only [begin] at h
      split at h
      · split at h
        · cases h
        · split at h
          · cases h; exact ⟨_, rfl, rfl, by simp [hp, pcWork]⟩
          · cases h
            refine ⟨_, rfl, rfl, ?_⟩
            simp only
            split <;> simp [pcWork]
      · cases h
  | copy x y =>
      simp only [begin] at h
      split at h
      · split at h
        · cases h
        · split at h
          · cases h; exact ⟨_, rfl, rfl, by simp [hp, pcWork]⟩
          · split at h
            · cases h
            · rename_i e
              cases h
              refine ⟨_, incr_set e, rfl, by simp [hp, pcWork]⟩
      · cases h
  | drop x =>
      simp only [begin] at h
      split at h
      · cases h
      · split at h
        · cases h; exact ⟨_, rfl, rfl, by simp [hp, pcWork]⟩
        · obtain ⟨t', h1, h2, h3⟩ := decr_work h
          exact ⟨t', h1, h2, by simp only [pcWork] at h3; omega⟩
  | read x =>
      simp only [begin] at h
      split at h
      · cases h
      · split at h
        · cases h
        · split at h
          · cases h; exact ⟨_, rfl, rfl, by simp [hp, pcWork]⟩
          · cases h
  | readArr a =>
      simp only [begin] at h
      split at h
      · cases h
      · split at h
        · cases h
        · split at h
          · cases h; exact ⟨_, rfl, rfl, by simp [hp, pcWork]⟩
          · cases h
  | kill a =>
      simp only [begin] at h
      split at h
      · cases h
      · split at h
        · obtain ⟨t', h1, h2, h3⟩ := decr_work h
          exact ⟨t', h1, h2, by simp only [pcWork] at h3; omega⟩
        · split at h
          · cases h; exact ⟨_, rfl, rfl, by simp [hp, pcWork]⟩
          · cases h; exact ⟨_, rfl, rfl, by simp [pcWork]⟩

theorem step_work {s s' : State} {i : Nat} (h : step s i = .ok s') : (s'.thr.map work).sum + 1 ≤ (s.thr.map work).sum := by
  have key : ∃ t t', s.thr[i]? = some t ∧ s'.thr = s.thr.set i t' ∧ work t' + 1 ≤ work t := by
    unfold step at h
    split at h
    · cases h
    · rename_i t hi
      refine ⟨t, ?_⟩
      split at h
      · rename_i hp
        split at h
        · cases h
        · rename_i o ops hops
          obtain ⟨t', h1, h2, h3⟩ := begin_work (t := { t with ops := ops }) hp h
          refine ⟨t', hi, h1, ?_⟩
          simp only [work, h2, hops, hp, pcWork, List.length_cons]; omega
      · rename_i a x hp
        split at h
        · cases h
        · split at h
          · cases h
          · simp only at h
            split at h
            · cases h; exact ⟨_, hi, rfl, by simp [work, hp, pcWork]⟩
            · cases h; exact ⟨_, hi, rfl, by simp [work, hp, pcWork]⟩
      · rename_i a x c hp
        obtain ⟨t', h1, h2, h3⟩ := decr_work h
        exact ⟨t', hi, h1, by simp only [work, h2, hp, pcWork] at h3 ⊢; omega⟩
      · rename_i a x hp
        split at h
        · cases h
        · split at h
          · cases h
          · cases h; exact ⟨_, hi, rfl, by simp [work, hp, pcWork]⟩
      · rename_i a x c hp
        split at h
        · cases h
        · split at h
          · cases h
          · rename_i e
            cases h
            exact ⟨_, hi, incr_set e, by simp [work, hp, pcWork]⟩
      · rename_i b next hp
        split at h
        · cases h; exact ⟨_, hi, rfl, by simp only [work, hp, pcWork]; omega⟩
        · cases h
  obtain ⟨t, t', h1, h2, h3⟩ := key
  have := sum_set work s.thr i t t' h1
  rw [h2]
  omega

theorem follow_work : ∀ (is : List Nat) {s s' : State}, follow is s = .ok s' → is.length + (s'.thr.map work).sum ≤ (s.thr.map work).sum
  | [], s, s', h => by cases h; simp
  | i :: is, s, s', h => by
      rw [follow] at h
      split at h
      · rename_i u hu
        have h1 := step_work hu
        have h2 := follow_work is h
        simp only [List.length_cons]; omega
      · rename_i hne
        exact absurd h (hne _)

theorem completes : ∀ (n : Nat) {s : State}, (s.thr.map work).sum ≤ n → Inv s → ∃ s', Steps s s' ∧ Finished s'
  | n, s, hn, hinv => by
      by_cases hf : Finished s
      · exact ⟨s, .refl _, hf⟩
      · simp only [Finished, not_forall] at hf
        obtain ⟨t, ht, hne⟩ := hf
        obtain ⟨i, hi⟩ := List.getElem?_of_mem ht
        rcases step_inv hinv i with ⟨_, e⟩ | ⟨u, e, hu⟩
        · exact absurd (e t hi) hne
        · have := step_work e
          cases n with
          | zero => omega
          | succ n =>
              obtain ⟨s', h1, h2⟩ := completes n (by omega) hu
              exact ⟨s', steps_trans (.tail (.refl _) (.mk i e)) h1, h2⟩

/-- Every execution ends: a schedule has at most six steps for every operation (this needs no rule); and threads that follow the rule never block each other, so that every execution can
go on until all threads are at their end. -/
theorem C90_completes_partial {s s' : State} (h : Start s) (hf : ∀ (i : Nat) (t : Thr), s.thr[i]? = some t → Fine t.ops (shape s) (vars t)) (hd : Disciplined s) :
    (∀ is, follow is s = .ok s' → is.length ≤ 6 * (s.thr.map (fun t => t.ops.length)).sum) ∧ (Steps s s' → ∃ s'', Steps s' s'' ∧ Finished s'') := by
  refine ⟨fun is e => ?_, fun hs => completes _ (Nat.le_refl _) (steps_inv (start_inv h hf hd) hs)⟩
  have h1 := follow_work is e
  have h2 : ∀ l : List Thr, (∀ t ∈ l, t.pc = .idle) → (l.map work).sum = 6 * (l.map (fun t => t.ops.length)).sum := by
    intro l
    induction l with
    | nil => simp
    | cons t l ih =>
        intro hl
        have h3 := ih (fun t ht => hl t (List.mem_cons_of_mem _ ht))
        have h4 := hl t (by simp)
        simp only [List.map_cons, List.sum_cons, h3, work, h4, pcWork]; omega
  rw [h2 s.thr h.idle] at h1
  omega

/-! ### Without the rule -/

/-- Two threads that are about to make the first shared handles of the same array, in any state: there is an execution with a data race (on the member `sptr`), although the array is
const for both. -/
theorem C90_race {s : State} {i j : Nat} {ti tj : Thr} {a x y : Nat} {oi oj : List Op} {v : Arr} (hij : i ≠ j) (hi : s.thr[i]? = some ti) (hj : s.thr[j]? = some tj)
    (pi : ti.pc = .idle) (pj : tj.pc = .idle) (ei : ti.ops = .share a x :: oi) (ej : tj.ops = .share a y :: oj) (hx : ti.hs[x]? = some none)
    (ha : s.arr a = some v) (hb : v.blk ≠ none) (hs : v.sptr = none) : ∃ s', Steps s s' ∧ Race s' := by
  obtain ⟨b, hb⟩ := Option.ne_none_iff_exists'.mp hb
  have he : Thr.empty { ti with ops := oi } x = true := by simp [Thr.empty, hx]
  have hst : step s i = .ok (s.setThr i { ti with ops := oi, pc := .publish a x }) := by
    simp only [step, hi, pi, ei, begin]
    rw [if_pos (by simp [Thr.empty, hx])]
    simp only [ha, hb, hs, if_true]
  refine ⟨_, .tail (.refl _) (.mk i hst), i, j, { ti with ops := oi, pc := .publish a x }, tj, .sptr a, true, false, hij, ?_, ?_, ?_, ?_, .inl rfl⟩
  · change (s.thr.set i _)[i]? = _
    rw [getElem?_set' hi, if_pos rfl]
  · change (s.thr.set i _)[j]? = _
    rw [getElem?_set' hi, if_neg hij]; exact hj
  · simp [touches]
  · simp [touches, pj, ej]

/-- One array of one block; two threads make a shared handle of it; the first thread is ready soon, the second one reads. -/
def twoSharers : State :=
  ⟨[true], [], [some ⟨some 0, none⟩], [⟨[.share 0 0, .drop 0], .idle, [none]⟩, ⟨[.share 0 0, .read 0, .drop 0], .idle, [none]⟩]⟩

/-- And even if all accesses to `sptr` were atomic: both threads find it null, each makes a control block of its own, and when the first one has dropped its handle, the block is
released while the array and the handle of the second thread still refer to it. -/
theorem C90_release_witness : follow [0, 1, 0, 0, 0, 1, 1, 1, 1, 0, 0, 1] twoSharers = .ub ∧
    (∃ s', follow [0, 1, 0, 0, 0, 1, 1, 1, 1, 0, 0] twoSharers = .ok s' ∧ s'.blocks = [false] ∧ Held s' 0 ∧ s'.arr 0 = some ⟨some 0, some 1⟩) ∧
    -- one after the other, in both orders, all is well
    (∃ s', follow [0, 0, 0, 0, 0, 1, 1, 1, 1, 1] twoSharers = .ok s' ∧ Finished s' ∧ s'.blocks = [true]) ∧
    ∃ s', follow [1, 1, 1, 1, 1, 1, 0, 0, 0, 0] twoSharers = .ok s' ∧ Finished s' ∧ s'.blocks = [true] := by
  refine ⟨by decide, ⟨_, rfl, rfl, .inl ⟨0, _, rfl, rfl⟩, rfl⟩, ⟨_, rfl, ?_, rfl⟩, ⟨_, rfl, ?_, rfl⟩⟩
  all_goals
    unfold Finished
    decide

/-! ### An example -/

/-- Three threads.  Array 0 has been shared before (a handle of it is in the third thread), array 1 has not, array 2 is empty. -/
def sharedBefore : State :=
  ⟨[true, true], [⟨2, 0⟩], [some ⟨some 0, some 0⟩, some ⟨some 1, none⟩, some ⟨none, none⟩],
    [⟨[.share 0 0, .read 0, .share 1 1, .drop 0, .readArr 0], .idle, [none, none]⟩, ⟨[.share 0 0, .readArr 1, .copy 0 1, .drop 0, .read 1], .idle, [none, none]⟩,
      ⟨[.share 2 1, .read 0, .copy 1 2, .drop 0], .idle, [some ⟨some 0, some 0⟩, none, none]⟩]⟩

theorem sharedBefore_start : Start sharedBefore := by
  refine ⟨?_, ?_, ?_, ?_, ?_⟩
  · intro t ht; fin_cases ht <;> rfl
  · intro c k h
    match c with
    | 0 => cases h; rfl
    | c + 1 => simp [sharedBefore] at h
  · intro b
    match b with
    | 0 => rfl
    | 1 => rfl
    | b + 2 => simp [sharedBefore, inCharge, number, live]
  · intro a v c h1 h2
    match a with
    | 0 => cases h1; cases h2; exact ⟨_, rfl, rfl⟩
    | 1 => cases h1; cases h2
    | 2 => cases h1; cases h2
    | a + 3 => simp [sharedBefore, State.arr] at h1
  · intro t ht x h hx
    fin_cases ht
    · match x with
      | 0 => cases hx
      | 1 => cases hx
      | x + 2 => simp [Thr.hd] at hx
    · match x with
      | 0 => cases hx
      | 1 => cases hx
      | x + 2 => simp [Thr.hd] at hx
    · match x with
      | 0 => cases hx; exact .inr ⟨0, _, rfl, rfl, rfl⟩
      | 1 => cases hx
      | 2 => cases hx
      | x + 3 => simp [Thr.hd] at hx

theorem sharedBefore_fine : ∀ (i : Nat) (t : Thr), sharedBefore.thr[i]? = some t → Fine t.ops (shape sharedBefore) (vars t) := by
  intro i t hi
  match i with
  | 0 => cases hi; exact ⟨rfl, true, rfl, rfl, rfl, true, rfl, ⟨true, rfl⟩, rfl, trivial⟩
  | 1 => cases hi; exact ⟨rfl, true, rfl, rfl, rfl, true, rfl, ⟨true, rfl⟩, rfl, trivial⟩
  | 2 => cases hi; exact ⟨rfl, false, rfl, rfl, rfl, false, rfl, ⟨true, rfl⟩, trivial⟩
  | i + 3 => simp [sharedBefore] at hi

theorem sharedBefore_disciplined : Disciplined sharedBefore := by
  constructor
  · intro a v h1 h2 h3 i j ⟨ti, x, hi, mi⟩ ⟨tj, y, hj, mj⟩
    have ha : a = 1 := by
      match a with
      | 0 => cases h1; cases h3
      | 1 => rfl
      | 2 => cases h1; exact absurd rfl h2
      | a + 3 => simp [sharedBefore, State.arr] at h1
    subst ha
    have : ∀ (i : Nat) (t : Thr) (x : Nat), sharedBefore.thr[i]? = some t → Op.share 1 x ∈ t.ops → i = 0 := by
      intro i t x hi hm
      match i with
      | 0 => rfl
      | 1 => cases hi; simp at hm
      | 2 => cases hi; simp at hm
      | i + 3 => simp [sharedBefore] at hi
    rw [this i ti x hi mi, this j tj y hj mj]
  · rintro a i j ⟨t, hi, hm⟩
    match i with
    | 0 => cases hi; simp at hm
    | 1 => cases hi; simp at hm
    | 2 => cases hi; simp at hm
    | i + 3 => simp [sharedBefore] at hi

/-- All interleavings of these three threads are safe. -/
example (s' : State) (hs : Steps sharedBefore s') : (∀ i, step s' i ≠ .ub) ∧ ¬ Race s' :=
  C90_safe_partial sharedBefore_start sharedBefore_fine sharedBefore_disciplined hs

/-- One of them, to the end: the first thread shares array 1 while the second reads it. -/
example : ∃ s', follow [0, 1, 2, 2, 1, 0, 0, 1, 0, 0, 2, 2, 0, 1, 0, 0, 1, 0, 1, 0, 1] sharedBefore = .ok s' ∧ s'.blocks = [true, true] ∧ s'.ctrls = [⟨2, 0⟩, ⟨2, 1⟩] := ⟨_, rfl, rfl, rfl⟩

/-- The other theorems at the same state. -/
example (s' : State) (hs : Steps sharedBefore s') := C90_counts_partial sharedBefore_start sharedBefore_fine sharedBefore_disciplined hs
example (s' : State) (hs : Steps sharedBefore s') := C90_released_partial sharedBefore_start sharedBefore_fine sharedBefore_disciplined hs
example : ∃ s', Steps sharedBefore s' ∧ Finished s' := (C90_completes_partial (s' := sharedBefore) sharedBefore_start sharedBefore_fine sharedBefore_disciplined).2 (.refl _)

/-- The hypotheses of `C90_race`: two threads share the same array for the first time. -/
example : ∃ s', Steps twoSharers s' ∧ Race s' := C90_race (i := 0) (j := 1) (v := ⟨some 0, none⟩) (by decide) rfl rfl rfl rfl rfl rfl rfl rfl nofun rfl

end Nda.SharedThreads
