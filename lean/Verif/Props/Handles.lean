import Verif.Lemmas.Handles
import Verif.Spec.Handles
/-!
# C28: heap storage is released exactly once and never used after release
-/
namespace Nda.Mem

variable {V : Type}

open Spec

/-- What the abstract memory calls an error (`none`): any use of a released block, destruction of a
missing object, construction over a live object (non-trivial types), release of a block with live
objects in it (non-trivial types). -/
theorem C28_errors (hp : Heap V) (triv : Bool) (b i : Nat) (v : V) (blk : Block V) (hb : hp[b]? = some blk) :
    (blk.freed = true → hp.construct triv b i v = none ∧ hp.destroy b i = none ∧ hp.dealloc triv b = none ∧ hp.read b i = none ∧
      hp.write triv b i v = none) ∧
    (blk.cells[i]? = some none → hp.destroy b i = none ∧ hp.read b i = none ∧ hp.write false b i v = none) ∧
    (∀ w, blk.cells[i]? = some (some w) → hp.construct false b i v = none ∧ hp.dealloc false b = none) := by
  refine ⟨fun hf => ?_, fun hc => ?_, fun w hc => ?_⟩
  · have : hp.live b = none := by simp [Heap.live, hb, hf]
    simp [Heap.construct, Heap.destroy, Heap.dealloc, Heap.read, Heap.write, this]
  · cases hf : blk.freed
    · have : hp.live b = some blk := Heap.live_some.mpr ⟨hb, hf⟩
      simp [Heap.destroy, Heap.read, Heap.write, this, hc]
    · have : hp.live b = none := by simp [Heap.live, hb, hf]
      simp [Heap.destroy, Heap.read, Heap.write, this]
  · cases hf : blk.freed
    · have : hp.live b = some blk := Heap.live_some.mpr ⟨hb, hf⟩
      have ha : ∃ x, x ∈ blk.cells ∧ ¬x = none := ⟨some w, List.mem_of_getElem? hc, by simp⟩
      simp [Heap.construct, Heap.dealloc, this, hc, ha]
    · have : hp.live b = none := by simp [Heap.live, hb, hf]
      simp [Heap.construct, Heap.dealloc, this]

example : Heap.dealloc false ([⟨[some 7, none], false⟩] : Heap Nat) 0 = none := by decide

theorem run_own (triv : Bool) (dflt : V) (ops : List (HOp V)) (p : Prog V) (o : Own triv p.mem (Prog.handles p.vars))
    (hc : CarefulRun triv dflt p ops) :
    ∃ p', p.run triv dflt ops = some p' ∧ Own triv p'.mem (Prog.handles p'.vars) ∧ p'.vars.length = p.vars.length ∧ p.mem.pairs ≤ p'.mem.pairs := by
  induction ops generalizing p with
  | nil => exact ⟨p, rfl, o, rfl, Nat.le_refl _⟩
  | cons op ops ih =>
      obtain ⟨h1, h2⟩ := hc
      obtain ⟨p1, h3, h4, h5, h9⟩ := Prog.step_own dflt p o op (by
        intro d hd h hh hs
        cases h with
        | heap x n s => simp only [Handle.sptr] at hs; subst hs; exact ⟨x, n, rfl⟩
        | shared x n s =>
            simp only [Handle.sptr] at hs; subst hs
            refine absurd ?_ (h1 d hd x n)
            unfold Prog.var at hh
            cases hv : p.vars[d]? with
            | none => rw [hv] at hh; cases hh
            | some y => rw [hv] at hh; simp at hh; rw [hh])
      obtain ⟨p2, h6, h7, h8, h10⟩ := ih p1 h4 (h2 p1 h3)
      refine ⟨p2, ?_, h7, h8.trans h5, Nat.le_trans h9 h10⟩
      simp only [Prog.run, List.foldlM_cons, h3]
      exact h6

theorem start_own (triv : Bool) (n : Nat) : Own triv (Prog.start n : Prog V).mem (Prog.handles (Prog.start n : Prog V).vars) := by
  have : Prog.handles (Prog.start n : Prog V).vars = [] := by
    simp only [Prog.handles, Prog.start]
    rw [List.filterMap_replicate]; simp
  rw [this]
  exact ⟨by simp [Prog.start], by simp, by simp [Prog.start], by simp, by simp [Prog.start], by simp⟩

theorem mem_handles_iff {vars : List (Option Handle)} {h : Handle} : h ∈ Prog.handles vars ↔ ∃ i : Nat, vars[i]? = some (some h) := by
  simp only [Prog.handles, List.mem_filterMap, id]
  constructor
  · rintro ⟨a, ha, rfl⟩; exact List.mem_iff_getElem?.mp ha
  · rintro ⟨i, hi⟩; exact ⟨_, List.mem_of_getElem? hi, rfl⟩

/-- The block of an owner is not released, and conversely. -/
theorem own_iff {triv : Bool} {p : Prog V} (o : Own triv p.mem (Prog.handles p.vars)) {b : Nat} {blk : Block V} (hb : p.mem.hp[b]? = some blk) :
    blk.freed = false ↔ ∃ i, Owns p i b := by
  have hown := o.own b blk hb
  constructor
  · intro hf
    rw [hf, if_neg (by simp)] at hown
    have : 0 < (Prog.handles p.vars).countP (excl b) ∨ 0 < p.mem.ctrls.countP (ctl b) := by omega
    rcases this with h | h
    · obtain ⟨x, hx, he⟩ := List.countP_pos_iff.mp h
      obtain ⟨i, hi⟩ := mem_handles_iff.mp hx
      refine ⟨i, Or.inl ?_⟩
      cases x with
      | shared => cases he
      | heap d n s =>
          cases d with
          | none => cases he
          | some b' =>
              cases s with
              | some => cases he
              | none =>
                  have : b' = b := by simpa [excl] using he
                  subst this; exact ⟨n, hi⟩
    · obtain ⟨k, hk, he⟩ := List.countP_pos_iff.mp h
      simp only [ctl, Bool.and_eq_true, bne_iff_ne, beq_iff_eq] at he
      obtain ⟨c, hc⟩ := List.mem_iff_getElem?.mp hk
      have h2 := o.count c k hc
      have : 0 < (Prog.handles p.vars).countP (refs c) := by have := he.1; omega
      obtain ⟨x, hx, hr⟩ := List.countP_pos_iff.mp this
      obtain ⟨i, hi⟩ := mem_handles_iff.mp hx
      exact ⟨i, Or.inr ⟨x, c, k, hi, by simpa [refs] using hr, hc, he.2⟩⟩
  · rintro ⟨i, h | ⟨h, c, k, h1, h2, h3, h4⟩⟩
    · obtain ⟨n, hi⟩ := h
      obtain ⟨cells, hl, -⟩ := o.excl_live (mem_handles_iff.mpr ⟨i, hi⟩) (b := b) (by simp [excl])
      have := (Heap.live_some.mp hl).1
      rw [hb] at this; cases this; rfl
    · have hx := mem_handles_iff.mpr ⟨i, h1⟩
      have hc : k.count ≠ 0 := by
        rw [o.count c k h3]
        exact Nat.pos_iff_ne_zero.mp (List.countP_pos_iff.mpr ⟨h, hx, by simp [refs, h2]⟩)
      obtain ⟨cells, hl, -⟩ := o.ctrl_live (List.mem_of_getElem? h3) hc h4
      have := (Heap.live_some.mp hl).1
      rw [hb] at this; cases this; rfl

/-- C28.  No history of operations on heap and shared handles, for trivial or non-trivial value types,
makes an error (see `C28_errors`), as long as it does not use elements through moved-from shared
handles; at any time, a block is unreleased exactly if one of the variables owns it; and every handle
that owns something refers to an unreleased block of the right size, full of objects.

Missing: the claim for moved-from shared handles is false (`C28_moved_shared_witness`), and the small
`blk_T_t` objects are never deleted (`C28_pair_leak`). -/
theorem C28_history_partial (triv : Bool) (dflt : V) (n : Nat) (ops : List (HOp V)) (hc : CarefulRun triv dflt (Prog.start n) ops) :
    ∃ p, (Prog.start n).run triv dflt ops = some p ∧
      (∀ (b : Nat) blk, p.mem.hp[b]? = some blk → (blk.freed = false ↔ ∃ i : Nat, Owns p i b)) ∧
      (∀ (i : Nat) h, p.vars[i]? = some (some h) → (∀ x n, h ≠ .shared x n none) → Intact triv p h) := by
  obtain ⟨p, h1, o, -⟩ := run_own triv dflt ops _ (start_own triv n) hc
  refine ⟨p, h1, fun b blk hb => own_iff o hb, fun i h hi hne => ?_⟩
  have hm := mem_handles_iff.mpr ⟨i, hi⟩
  unfold Intact
  cases hd : h.data with
  | none => exact o.null h hm hd
  | some b =>
      obtain ⟨cells, hl, hF⟩ := o.handle_live hm (by
        intro hs
        cases h with
        | heap x n s => simp only [Handle.sptr] at hs; subst hs; exact ⟨x, n, rfl⟩
        | shared x n s => simp only [Handle.sptr] at hs; subst hs; exact absurd rfl (hne x n)) hd
      exact ⟨cells, (Heap.live_some.mp hl).1, hF.1, hF.2⟩

/-- A history with copies, moves, sharing, self-assignments: three variables. -/
def sampleHist : List (HOp Nat) :=
  [.newFrom 0 [1, 2, 3], .share 1 0, .copy 2 0, .copyAssign 2 2, .write 2 1 9, .moveAssign 0 2, .read 1 2, .moveAssign 0 0, .destroy 1, .destroy 0, .destroy 2]

/-- A check for careful histories. -/
def carefulCheck (triv : Bool) (dflt : V) : Prog V → List (HOp V) → Bool
  | _, [] => true
  | p, op :: ops =>
      (match op with
        | .read d _ | .write d _ _ => (match p.vars[d]? with | some (some (.shared _ _ none)) => false | _ => true)
        | _ => true) && (match p.step triv dflt op with | some p' => carefulCheck triv dflt p' ops | none => true)

theorem carefulRun_of_check (triv : Bool) (dflt : V) (p : Prog V) (ops : List (HOp V)) (h : carefulCheck triv dflt p ops = true) :
    CarefulRun triv dflt p ops := by
  induction ops generalizing p with
  | nil => trivial
  | cons op ops ih =>
      simp only [carefulCheck, Bool.and_eq_true] at h
      refine ⟨fun d hd x n hx => ?_, fun p' hp' => ih p' ?_⟩
      · rcases hd with ⟨i, rfl⟩ | ⟨i, v, rfl⟩
        · simp [hx] at h
        · simp [hx] at h
      · have := h.2; rw [hp'] at this; exact this

example : CarefulRun false 0 (Prog.start 3) sampleHist := carefulRun_of_check _ _ _ _ (by decide +kernel)
example : ((Prog.start 3).run false 0 sampleHist).isSome = true := by decide +kernel

/-- When all variables are gone, all blocks are released. -/
theorem C28_no_leak (triv : Bool) (dflt : V) (n : Nat) (ops : List (HOp V)) (hc : CarefulRun triv dflt (Prog.start n) ops) (p : Prog V)
    (hp : (Prog.start n).run triv dflt ops = some p) (hend : ∀ (i : Nat) h, p.vars[i]? ≠ some (some h)) :
    ∀ blk ∈ p.mem.hp, blk.freed = true := by
  obtain ⟨p', h1, h2, -⟩ := C28_history_partial triv dflt n ops hc
  rw [hp] at h1; cases h1
  intro blk hb
  obtain ⟨b, hb⟩ := List.mem_iff_getElem?.mp hb
  cases hf : blk.freed
  · obtain ⟨i, h⟩ := (h2 b blk hb).mp hf
    rcases h with ⟨m, h⟩ | ⟨x, c, k, h, -⟩
    · exact absurd h (hend i _)
    · exact absurd h (hend i _)
  · rfl

example : ((Prog.start 3).run false 0 sampleHist).map (fun p => (p.mem.hp.map (·.freed), p.vars)) = some ([true, true, true], [none, none, none]) := by
  decide +kernel

/-- A copy has a block of its own with the same elements; everything else stays as it was. -/
theorem C28_copy {triv : Bool} {dflt : V} {n : Nat} {ops : List (HOp V)} (hc : CarefulRun triv dflt (Prog.start n) ops) {p : Prog V}
    (hp : (Prog.start n).run triv dflt ops = some p) {d s b k : Nat} {sp : Option Nat} (hs : p.vars[s]? = some (some (.heap (some b) k sp)))
    (hk : k ≠ 0) (hd : p.vars[d]? = some none) :
    ∃ p' b', p.step triv dflt (.copy d s) = some p' ∧ p'.vars[d]? = some (some (.heap (some b') k none)) ∧ b' ≠ b ∧
      (∃ cells, p'.mem.hp[b']? = some ⟨cells, false⟩ ∧ p.mem.hp[b]? = some ⟨cells, false⟩) ∧
      (∀ x : Nat, x < p.mem.hp.length → p'.mem.hp[x]? = p.mem.hp[x]?) ∧ ∀ i : Nat, i ≠ d → p'.vars[i]? = p.vars[i]? := by
  obtain ⟨p0, h1, o, -⟩ := run_own triv dflt ops _ (start_own triv n) hc
  rw [hp] at h1; cases h1
  have hm := mem_handles_iff.mpr ⟨s, hs⟩
  rcases Own.copy_cells o hm with ⟨h0, -⟩ | ⟨b1, cells, hb1, hF, hl, hcopy⟩
  · exact absurd h0 hk
  · cases hb1
    have hdl : d < p.vars.length := (List.getElem?_eq_some_iff.mp hd).1
    have hvs : p.var s = some (.heap (some b) k sp) := by simp [Prog.var, hs]
    have hvd : p.var d = none := by simp [Prog.var, hd]
    refine ⟨{ p with mem := { p.mem with hp := p.mem.hp ++ [(⟨cells, false⟩ : Block V)] } }.setVar d (some (.heap (some p.mem.hp.length) k none)),
      p.mem.hp.length, ?_, ?_, ?_, ⟨cells, ?_, ?_⟩, ?_, ?_⟩
    · simp only [Prog.step, hvs, hvd, hdl, and_self, if_true, hcopy]; rfl
    · simp [Prog.setVar, hdl]
    · exact (Nat.ne_of_lt (Heap.lt_of_live hl)).symm
    · simp [Prog.setVar]
    · exact (Heap.live_some.mp hl).1
    · intro x hx; simp only [Prog.setVar]; rw [List.getElem?_append_left hx]
    · intro i hi; simp only [Prog.setVar]; rw [List.getElem?_set_ne (Ne.symm hi)]

example : ((Prog.start 2).run false 0 [.newFrom 0 [4, 5], .copy 1 0]).map (fun p => p.mem.hp) = some [⟨[some 4, some 5], false⟩, ⟨[some 4, some 5], false⟩] := by
  decide +kernel

/-- A moved-from shared handle still has its pointer, but no share: after the new owner is gone, reading
through it touches a released block. -/
theorem C28_moved_shared_witness :
    (Prog.start 3).run false 0 [.newFrom 0 [1, 2], .share 1 0, .destroy 0, .moveShared 2 1, .read 1 0, .destroy 2] ≠ none ∧
    (Prog.start 3).run false 0 [.newFrom 0 [1, 2], .share 1 0, .destroy 0, .moveShared 2 1, .destroy 2, .read 1 0] = none := by
  decide +kernel

/-- The deleter of the shared pointer (handle.hpp:98) does not delete the `blk_T_t` that `get_sptr` made:
their number never goes down, whatever is done after the history `ops`, and there are such histories
with a positive number. -/
theorem C28_pair_leak (triv : Bool) (dflt : V) (n : Nat) (ops ops' : List (HOp V)) (hc : CarefulRun triv dflt (Prog.start n) ops)
    (p p' : Prog V) (h : (Prog.start n).run triv dflt ops = some p) (hc' : CarefulRun triv dflt p ops') (h' : p.run triv dflt ops' = some p') :
    p.mem.pairs ≤ p'.mem.pairs := by
  obtain ⟨q, h1, o, -⟩ := run_own triv dflt ops _ (start_own triv n) hc
  rw [h] at h1; cases h1
  obtain ⟨q', h2, -, -, h3⟩ := run_own triv dflt ops' p o hc'
  rw [h'] at h2; cases h2; exact h3

example : ((Prog.start 3).run false 0 sampleHist).map (fun p => p.mem.pairs) = some 1 := by decide +kernel

end Nda.Mem
