import Verif.Lemmas.Handles
import Verif.Spec.Collected
/-!
# Programs on handles simulate programs without memory management
-/
namespace Nda.Mem.NoRelease

variable {V : Type}

open Spec

/-- Blocks that are not released are as before. -/
def Keeps (m m' : Mem V) : Prop :=
  m'.hp.length = m.hp.length ∧ ∀ (b : Nat) blk, m'.hp[b]? = some blk → blk.freed = false → m.hp[b]? = some blk

theorem Keeps.refl (m : Mem V) : Keeps m m := ⟨rfl, fun _ _ h _ => h⟩

theorem Keeps.trans {m m' m'' : Mem V} (h : Keeps m m') (h' : Keeps m' m'') : Keeps m m'' :=
  ⟨h'.1.trans h.1, fun b blk hb hf => h.2 b blk (h'.2 b blk hb hf) hf⟩

theorem destroyFrom_frame (b : Nat) : ∀ (n i : Nat) (hp hp' : Heap V), Heap.destroyFrom b n i hp = some hp' →
    hp'.length = hp.length ∧ ∀ x : Nat, x ≠ b → hp'[x]? = hp[x]?
  | 0, _, hp, hp', h => by cases h; exact ⟨rfl, fun _ _ => rfl⟩
  | n + 1, i, hp, hp', h => by
      rw [Heap.destroyFrom] at h
      cases h1 : hp.destroy b i with
      | none => rw [h1] at h; cases h
      | some hp1 =>
          rw [h1] at h
          obtain ⟨h2, h3⟩ := destroyFrom_frame b n (i + 1) hp1 hp' h
          have : ∃ k, hp1 = hp.set b k := by
            unfold Heap.destroy at h1
            cases hl : hp.live b with
            | none => simp [hl] at h1
            | some blk =>
                simp only [hl, Option.bind_eq_bind, Option.bind_some] at h1
                split at h1
                · exact ⟨_, (Option.some.inj h1).symm⟩
                · cases h1
          obtain ⟨k, rfl⟩ := this
          exact ⟨by simpa using h2, fun x hx => by rw [h3 x hx, List.getElem?_set_ne (Ne.symm hx)]⟩

theorem dealloc_frame {triv : Bool} {b : Nat} {hp hp' : Heap V} (h : hp.dealloc triv b = some hp') :
    hp'.length = hp.length ∧ (∀ x : Nat, x ≠ b → hp'[x]? = hp[x]?) ∧ ∀ blk, hp'[b]? = some blk → blk.freed = true := by
  unfold Heap.dealloc at h
  cases hl : hp.live b with
  | none => simp [hl] at h
  | some blk =>
      have hb := Heap.lt_of_live hl
      simp only [hl, Option.bind_eq_bind, Option.bind_some] at h
      split at h
      all_goals first
        | cases h; done
        | (cases h
           refine ⟨by simp, fun x hx => by rw [List.getElem?_set_ne (Ne.symm hx)], fun k hk => ?_⟩
           rw [List.getElem?_set_self hb] at hk; cases hk; rfl)

theorem destruct_keeps {triv : Bool} {d : Option Nat} {n : Nat} {m m' : Mem V} (h : m.destruct triv d n = some m') : Keeps m m' := by
  cases d with
  | none => cases h; exact Keeps.refl _
  | some b =>
      have : ∃ hp1 hp2 : Heap V, (hp1.length = m.hp.length ∧ ∀ x : Nat, x ≠ b → hp1[x]? = m.hp[x]?) ∧ hp1.dealloc triv b = some hp2 ∧
          m' = { m with hp := hp2 } := by
        cases triv with
        | true =>
            simp only [Mem.destruct, Option.bind_eq_bind, if_true, Option.bind_some] at h
            obtain ⟨hp2, h3, h4⟩ := Option.bind_eq_some_iff.mp h
            exact ⟨m.hp, hp2, ⟨rfl, fun _ _ => rfl⟩, h3, (Option.some.inj h4).symm⟩
        | false =>
            simp only [Mem.destruct, Option.bind_eq_bind, Bool.false_eq_true, if_false] at h
            obtain ⟨hp1, h1, h2⟩ := Option.bind_eq_some_iff.mp h
            obtain ⟨hp2, h3, h4⟩ := Option.bind_eq_some_iff.mp h2
            exact ⟨hp1, hp2, destroyFrom_frame b n 0 _ _ h1, h3, (Option.some.inj h4).symm⟩
      obtain ⟨hp1, hp2, f1, h3, rfl⟩ := this
      obtain ⟨g1, g2, g3⟩ := dealloc_frame h3
      refine ⟨g1.trans f1.1, fun x blk hx hf => ?_⟩
      by_cases hxb : x = b
      · subst hxb; have := g3 blk hx; rw [this] at hf; cases hf
      · rw [← f1.2 x hxb, ← g2 x hxb]; exact hx

theorem drop_keeps {triv : Bool} {d : Option Nat} {n : Nat} {s : Option Nat} {m m' : Mem V} (h : m.drop triv d n s = some m') : Keeps m m' := by
  unfold Mem.drop at h
  split at h
  · exact destruct_keeps h
  · cases h; exact Keeps.refl _

theorem release_keeps {triv : Bool} {s : Option Nat} {m m' : Mem V} (h : m.release triv s = some m') : Keeps m m' := by
  cases s with
  | none => cases h; exact Keeps.refl _
  | some c =>
      simp only [Mem.release, Option.bind_eq_bind] at h
      obtain ⟨k, -, h⟩ := Option.bind_eq_some_iff.mp h
      by_cases h0 : k.count = 0
      · simp [h0] at h
      · by_cases h1 : k.count - 1 ≠ 0
        · simp [h0, h1] at h
          cases h; exact ⟨rfl, fun _ _ h _ => h⟩
        · simp only [h0, h1, if_false] at h
          cases hf : k.foreign with
          | true =>
              simp only [hf, if_true] at h
              cases hd : k.data with
              | none => simp [hd] at h; cases h; exact ⟨rfl, fun _ _ h _ => h⟩
              | some b =>
                  simp only [hd] at h
                  have h' : ∃ hp, m.hp.dealloc true b = some hp ∧ m'.hp = hp := by
                    cases hq : m.hp.dealloc true b with
                    | none => simp [hq] at h
                    | some hp => simp [hq] at h; exact ⟨hp, rfl, by rw [← h]⟩
                  obtain ⟨hp, h2, rfl⟩ := h'
                  obtain ⟨g1, g2, g3⟩ := dealloc_frame h2
                  refine ⟨g1, fun x blk hx hf => ?_⟩
                  by_cases hxb : x = b
                  · subst hxb; have := g3 blk hx; rw [this] at hf; cases hf
                  · rw [← g2 x hxb]; exact hx
          | false =>
              simp only [hf, Bool.false_eq_true, if_false] at h
              have := destruct_keeps h
              exact this

theorem dtor_keeps {triv : Bool} {x : Handle} {m m' : Mem V} (h : m.dtor triv x = some m') : Keeps m m' := by
  cases x with
  | heap d n s =>
      simp only [Mem.dtor, Option.bind_eq_bind] at h
      obtain ⟨m1, h1, h2⟩ := Option.bind_eq_some_iff.mp h
      exact (drop_keeps h1).trans (release_keeps h2)
  | shared d n s => exact release_keeps h

theorem acquire_keeps {s : Option Nat} {m m' : Mem V} (h : m.acquire s = some m') : Keeps m m' := by
  cases s with
  | none => cases h; exact Keeps.refl _
  | some c =>
      simp only [Mem.acquire, Option.bind_eq_bind] at h
      obtain ⟨k, -, h⟩ := Option.bind_eq_some_iff.mp h
      cases h; exact ⟨rfl, fun _ _ h _ => h⟩

/-- Every block that is not released has the contents of the storage with its number. -/
structure Same (m : Mem V) (store : List (List (Option V))) : Prop where
  len : store.length = m.hp.length
  cont : ∀ (b : Nat) blk, m.hp[b]? = some blk → blk.freed = false → store[b]? = some blk.cells

theorem Same.keeps {m m' : Mem V} {st : List (List (Option V))} (h : Same m st) (k : Keeps m m') : Same m' st :=
  ⟨h.len.trans k.1.symm, fun b blk hb hf => h.cont b blk (k.2 b blk hb hf) hf⟩

theorem Same.alloc {m : Mem V} {st : List (List (Option V))} (h : Same m st) (cells : List (Option V)) (cs : List Ctrl) (pr : Nat) :
    Same ⟨m.hp ++ [⟨cells, false⟩], cs, pr⟩ (st ++ [cells]) := by
  refine ⟨by simp [h.len], fun b blk hb hf => ?_⟩
  by_cases hlt : b < m.hp.length
  · rw [List.getElem?_append_left hlt] at hb
    rw [List.getElem?_append_left (by rw [h.len]; exact hlt)]
    exact h.cont b blk hb hf
  · have hb2 := (List.getElem?_eq_some_iff.mp hb).1
    simp only [List.length_append, List.length_cons, List.length_nil] at hb2
    have : b = m.hp.length := by omega
    subst this
    simp at hb; subst hb
    simp [← h.len]

theorem write_same {triv : Bool} {m : Mem V} {st : List (List (Option V))} (h : Same m st) {b i : Nat} {v : V} {hp : Heap V}
    (hw : m.hp.write triv b i v = some hp) (cs : List Ctrl) (pr : Nat) : Same ⟨hp, cs, pr⟩ (st.modify b (·.set i (some v))) := by
  unfold Heap.write at hw
  cases hl : m.hp.live b with
  | none => simp [hl] at hw
  | some blk =>
      have hb := Heap.lt_of_live hl
      obtain ⟨hb1, hb2⟩ := Heap.live_some.mp hl
      have e : hp = m.hp.set b { blk with cells := blk.cells.set i (some v) } := by
        simp only [hl, Option.bind_eq_bind, Option.bind_some] at hw
        split at hw
        · cases hw
        · split at hw
          · exact (Option.some.inj hw).symm
          · cases hw
        · exact (Option.some.inj hw).symm
      subst e
      refine ⟨by simp [h.len], fun x k hx hf => ?_⟩
      by_cases hxb : x = b
      · subst hxb
        simp only at hx
        rw [List.getElem?_set_self hb] at hx
        cases hx
        rw [List.getElem?_modify_eq, h.cont x blk hb1 hb2]; rfl
      · simp only at hx
        rw [List.getElem?_set_ne (Ne.symm hxb)] at hx
        rw [List.getElem?_modify_ne _ _ (Ne.symm hxb)]
        exact h.cont x k hx hf

/-- Variables and contents of a program and of the program without memory management. -/
structure Sim (p : Prog V) (g : Collected V) : Prop where
  same : Same p.mem g.store
  vars : g.vars = p.vars.map (Option.map refOf)

theorem Sim.var {p : Prog V} {g : Collected V} (h : Sim p g) (i : Nat) : g.var i = (p.var i).map refOf := by
  simp only [Collected.var, Prog.var, h.vars, List.getElem?_map]
  cases p.vars[i]? with
  | none => rfl
  | some x => cases x <;> rfl

theorem Sim.unused {p : Prog V} {g : Collected V} (h : Sim p g) (i : Nat) : g.unused i = true ↔ p.var i = none ∧ i < p.vars.length := by
  simp only [Collected.unused, h.var i, h.vars, List.length_map, decide_eq_true_eq]
  cases p.var i <;> simp

theorem Sim.put {p : Prog V} {g : Collected V} (h : Sim p g) (i : Nat) (x : Option Handle) (m : Mem V) (hm : Same m g.store) :
    Sim ({ p with mem := m }.setVar i x) (g.put i (x.map refOf)) :=
  ⟨hm, by simp [Collected.put, Prog.setVar, h.vars, List.map_set]⟩

theorem Sim.make {p : Prog V} {g : Collected V} (h : Sim p g) (i : Nat) (cells : List (Option V)) (hn : cells.length ≠ 0) :
    Sim ({ p with mem := { p.mem with hp := p.mem.hp ++ [(⟨cells, false⟩ : Block V)] } }.setVar i (some (.heap (some p.mem.hp.length) cells.length none))) (g.make i cells) := by
  unfold Collected.make
  rw [if_neg hn]
  exact ⟨h.same.alloc cells _ _, by simp [Prog.setVar, h.vars, List.map_set, refOf, h.same.len]⟩

theorem Sim.makeNull {p : Prog V} {g : Collected V} (h : Sim p g) (i : Nat) (cells : List (Option V)) (hn : cells.length = 0) :
    Sim (p.setVar i (some Handle.null)) (g.make i cells) := by
  unfold Collected.make
  rw [if_pos hn]
  exact h.put i (some Handle.null) p.mem h.same

/-- A variable becomes a handle that is the same reference. -/
theorem Sim.again {p : Prog V} {g : Collected V} (h : Sim p g) {i : Nat} {x y : Handle} (hx : p.var i = some x) (hy : refOf y = refOf x)
    (m : Mem V) (hm : Same m g.store) : Sim ({ p with mem := m }.setVar i (some y)) g := by
  refine ⟨hm, ?_⟩
  have := (h.put i (some y) m hm).vars
  rw [← this]
  simp only [Collected.put, Option.map_some, hy]
  have hq := h.var i
  rw [hx] at hq
  simp only [Collected.var, Option.map_some] at hq
  refine (List.ext_getElem? fun j => ?_)
  by_cases hj : i = j
  · subst hj
    rw [List.getElem?_set]
    cases hz : g.vars[i]? with
    | none => rw [hz] at hq; cases hq
    | some z =>
        rw [hz] at hq
        have hlt := (List.getElem?_eq_some_iff.mp hz).1
        simp at hq
        simp [hlt, hq]
  · rw [List.getElem?_set_ne hj]

/-- What `new` and its like make. -/
theorem new_eq (triv : Bool) (dflt : V) (n : Nat) (m : Mem V) (hn : n ≠ 0) :
    m.new triv dflt n = some (.heap (some m.hp.length) n none,
      { m with hp := m.hp ++ [⟨List.replicate n (if triv then none else some dflt), false⟩] }) := by
  unfold Mem.new; rw [if_neg hn]
  cases triv with
  | true => simp [Heap.alloc]
  | false =>
      have := Own.construct_fresh false m.hp (fun _ _ => some dflt) n (List.replicate n dflt) (by simp)
        (fun j _ hj => by rw [List.getElem?_replicate, if_pos hj])
      simp only [Heap.alloc, Bool.false_eq_true, if_false, this]
      simp

theorem newZero_eq (z : V) (n : Nat) (m : Mem V) (hn : n ≠ 0) :
    m.newZero z n = some (.heap (some m.hp.length) n none, { m with hp := m.hp ++ [⟨List.replicate n (some z), false⟩] }) := by
  unfold Mem.newZero; rw [if_neg hn]
  simp [Heap.alloc]

theorem newFrom_eq (triv : Bool) (vs : List V) (m : Mem V) (hn : vs.length ≠ 0) :
    m.newFrom triv vs = some (.heap (some m.hp.length) vs.length none, { m with hp := m.hp ++ [⟨vs.map some, false⟩] }) := by
  unfold Mem.newFrom; rw [if_neg hn]
  have := Own.construct_fresh triv m.hp (fun i _ => vs[i]?) vs.length vs rfl (fun j _ _ => rfl)
  simp only [Heap.alloc, this]
  rfl

/-- A copy. -/
theorem Sim.copy {triv : Bool} {p : Prog V} {g : Collected V} (h : Sim p g) (o : Own triv p.mem (Prog.handles p.vars))
    {s : Nat} {x : Option Nat} {n : Nat} {sp : Option Nat} (hs : p.var s = some (.heap x n sp)) (i : Nat) {t : Handle} {m : Mem V}
    (hc : p.mem.copy triv (.heap x n sp) = some (t, m)) :
    Sim ({ p with mem := m }.setVar i (some t)) (g.make i (g.cells ⟨false, x, n⟩)) := by
  rcases Own.copy_cells o (Prog.mem_handles hs) with ⟨h0, hq⟩ | ⟨b, cells, rfl, hF, hl, hq⟩
  · rw [hc] at hq; cases hq
    subst h0
    refine h.makeNull i _ ?_
    cases x with
    | none => rfl
    | some b =>
        obtain ⟨cells, hl, hF⟩ := o.handle_live (Prog.mem_handles hs) (b := b) (by
          intro h; exact ⟨_, _, by simp only [Handle.sptr] at h; subst h; rfl⟩) rfl
        obtain ⟨h1, h2⟩ := Heap.live_some.mp hl
        have := h.same.cont b _ h1 h2
        simp only [Collected.cells, this, Option.getD_some]
        exact hF.1
  · rw [hc] at hq; cases hq
    obtain ⟨h1, h2⟩ := Heap.live_some.mp hl
    have e : g.cells ⟨false, some b, n⟩ = cells := by simp [Collected.cells, h.same.cont b _ h1 h2]
    have hlen : cells.length = n := hF.1
    rw [e]
    by_cases hn : n = 0
    · exfalso
      have : p.mem.copy triv (.heap (some b) n sp) = some (Handle.null, p.mem) := by
        unfold Mem.copy; rw [if_pos]; exact hn
      rw [this] at hc; simp [Handle.null] at hc
    · have := h.make i cells (by omega)
      rw [hlen] at this; exact this

theorem Sim.skip {p p' : Prog V} {g : Collected V} (h : Sim p g) (hp : some p = some p') : Sim p' g := by cases hp; exact h

/-- One statement. -/
theorem step_sim {triv : Bool} {dflt : V} {p p' : Prog V} {g : Collected V} (h : Sim p g) (o : Own triv p.mem (Prog.handles p.vars))
    (op : HOp V) (hs : p.step triv dflt op = some p') : Sim p' (g.step triv dflt op) := by
  cases op with
  | new d n =>
      simp only [Prog.step] at hs
      simp only [Collected.step, h.unused d]
      by_cases hg : p.var d = none ∧ d < p.vars.length
      · rw [if_pos hg] at hs ⊢
        by_cases hn : n = 0
        · subst hn
          cases (show some (p.setVar d (some Handle.null)) = some p' from hs)
          exact h.makeNull d _ (by simp)
        · rw [new_eq triv dflt n p.mem hn] at hs
          have := h.make d (List.replicate n (if triv then none else some dflt)) (by simpa using hn)
          rw [List.length_replicate] at this
          cases hs; exact this
      · rw [if_neg hg] at hs ⊢
        exact h.skip hs
  | newZero d n =>
      simp only [Prog.step] at hs
      simp only [Collected.step, h.unused d]
      split_ifs at hs ⊢ with hg
      · by_cases hn : n = 0
        · subst hn
          cases (show some (p.setVar d (some Handle.null)) = some p' from hs)
          exact h.makeNull d _ (by simp)
        · rw [newZero_eq dflt n p.mem hn] at hs
          have := h.make d (List.replicate n (some dflt)) (by simpa using hn)
          rw [List.length_replicate] at this
          cases hs; exact this
      · exact h.skip hs
  | newFrom d vs =>
      simp only [Prog.step] at hs
      simp only [Collected.step, h.unused d]
      split_ifs at hs ⊢ with hg
      · by_cases hn : vs.length = 0
        · have e : p.mem.newFrom triv vs = some (Handle.null, p.mem) := by unfold Mem.newFrom; rw [if_pos hn]
          rw [e] at hs
          cases hs
          exact h.makeNull d _ (by simpa using hn)
        · rw [newFrom_eq triv vs p.mem hn] at hs
          have := h.make d (vs.map some) (by simpa using hn)
          rw [List.length_map] at this
          cases hs; exact this
      · exact h.skip hs
  | foreign d vs =>
      simp only [Prog.step] at hs
      simp only [Collected.step, h.unused d]
      split_ifs at hs ⊢ with hg
      · cases hs
        exact ⟨h.same.alloc _ _ _, by simp [Prog.setVar, Mem.foreign, h.vars, List.map_set, refOf, h.same.len]⟩
      · exact h.skip hs
  | copy d s =>
      simp only [Prog.step] at hs
      simp only [Collected.step, h.var s, h.unused d]
      cases hv : p.var s with
      | none => rw [hv] at hs; exact h.skip hs
      | some x =>
          cases x with
          | shared => rw [hv] at hs; exact h.skip hs
          | heap x n sp =>
              simp only [hv] at hs
              simp only [Option.map_some, refOf]
              split_ifs at hs ⊢ with hg
              · cases hc : p.mem.copy triv (.heap x n sp) with
                | none => rw [hc] at hs; cases hs
                | some r =>
                    obtain ⟨t, m⟩ := r
                    rw [hc] at hs; cases hs
                    exact h.copy o hv d hc
              · exact h.skip hs
  | move d s =>
      simp only [Prog.step] at hs
      simp only [Collected.step, h.var s, h.unused d]
      cases hv : p.var s with
      | none => rw [hv] at hs; exact h.skip hs
      | some x =>
          cases x with
          | shared => rw [hv] at hs; exact h.skip hs
          | heap x n sp =>
              simp only [hv] at hs
              simp only [Option.map_some, refOf]
              split_ifs at hs ⊢ with hg
              · cases hs
                exact (h.put d (some (.heap x n sp)) p.mem h.same).put s (some Handle.null) p.mem h.same
              · exact h.skip hs
  | copyAssign d s =>
      simp only [Prog.step] at hs
      simp only [Collected.step, h.var s, h.var d]
      cases hvd : p.var d with
      | none => rw [hvd] at hs; exact h.skip hs
      | some y =>
          cases y with
          | shared => rw [hvd] at hs; exact h.skip hs
          | heap y k sq =>
              cases hv : p.var s with
              | none => rw [hvd, hv] at hs; exact h.skip hs
              | some x =>
                  cases x with
                  | shared => rw [hvd, hv] at hs; exact h.skip hs
                  | heap x n sp =>
                      simp only [hvd, hv, Option.bind_eq_bind] at hs
                      simp only [Option.map_some, refOf]
                      obtain ⟨⟨t, m⟩, h1, h2⟩ := Option.bind_eq_some_iff.mp hs
                      obtain ⟨m1, h3, h4⟩ := Option.bind_eq_some_iff.mp h2
                      obtain ⟨m2, h5, h6⟩ := Option.bind_eq_some_iff.mp h4
                      obtain ⟨m3, h7, h8⟩ := Option.bind_eq_some_iff.mp h6
                      cases h8
                      have := h.copy o hv d h1
                      exact ⟨this.same.keeps (((drop_keeps h3).trans (release_keeps h5)).trans (dtor_keeps h7)), this.vars⟩
  | moveAssign d s =>
      simp only [Prog.step] at hs
      simp only [Collected.step, h.var s, h.var d]
      cases hvd : p.var d with
      | none => rw [hvd] at hs; exact h.skip hs
      | some y =>
          cases y with
          | shared => rw [hvd] at hs; exact h.skip hs
          | heap y k sq =>
              cases hv : p.var s with
              | none => rw [hvd, hv] at hs; exact h.skip hs
              | some x =>
                  cases x with
                  | shared => rw [hvd, hv] at hs; exact h.skip hs
                  | heap x n sp =>
                      simp only [hvd, hv, Option.bind_eq_bind] at hs
                      simp only [Option.map_some, refOf]
                      obtain ⟨m1, h3, h4⟩ := Option.bind_eq_some_iff.mp hs
                      split_ifs at h4 with hds
                      · subst hds
                        cases h4
                        have := h.put d (some (.heap none 0 sq)) m1 (h.same.keeps (drop_keeps h3))
                        refine ⟨this.same, ?_⟩
                        rw [← this.vars]
                        simp [Collected.put, refOf, Collected.empty]
                      · obtain ⟨m2, h5, h6⟩ := Option.bind_eq_some_iff.mp h4
                        cases h6
                        have hm := h.same.keeps ((drop_keeps h3).trans (release_keeps h5))
                        exact (h.put d (some (.heap x n sp)) m2 hm).put s (some Handle.null) m2 hm
  | share d s =>
      simp only [Prog.step] at hs
      simp only [Collected.step, h.var s, h.unused d]
      cases hv : p.var s with
      | none => rw [hv] at hs; exact h.skip hs
      | some x =>
          cases x with
          | shared => rw [hv] at hs; exact h.skip hs
          | heap x n sp =>
              simp only [hv, Option.bind_eq_bind] at hs
              simp only [Option.map_some, refOf]
              split_ifs at hs ⊢ with hg
              · obtain ⟨⟨a, b, m⟩, h1, h2⟩ := Option.bind_eq_some_iff.mp hs
                cases h2
                have key : Keeps p.mem m ∧ refOf a = ⟨true, x, n⟩ ∧ refOf b = ⟨false, x, n⟩ := by
                  cases x with
                  | none => cases h1; exact ⟨Keeps.refl _, rfl, rfl⟩
                  | some x =>
                      cases sp with
                      | none => cases h1; exact ⟨⟨rfl, fun _ _ h _ => h⟩, rfl, rfl⟩
                      | some c =>
                          simp only [Mem.share, Option.bind_eq_bind] at h1
                          obtain ⟨m', h3, h4⟩ := Option.bind_eq_some_iff.mp h1
                          cases h4; exact ⟨acquire_keeps h3, rfl, rfl⟩
                have hm := h.same.keeps key.1
                have h1 : Sim ({ p with mem := m }.setVar s (some b)) g := h.again hv (key.2.2.trans rfl) m hm
                have := h1.put d (some a) m hm
                rw [Option.map_some, key.2.1] at this
                exact this
              · exact h.skip hs
  | copyShared d s =>
      simp only [Prog.step] at hs
      simp only [Collected.step, h.var s, h.unused d]
      cases hv : p.var s with
      | none => rw [hv] at hs; exact h.skip hs
      | some x =>
          cases x with
          | heap => rw [hv] at hs; exact h.skip hs
          | shared x n sp =>
              simp only [hv, Option.bind_eq_bind] at hs
              simp only [Option.map_some, refOf]
              split_ifs at hs ⊢ with hg
              · obtain ⟨m, h1, h2⟩ := Option.bind_eq_some_iff.mp hs
                cases h2
                exact h.put d (some (.shared x n sp)) m (h.same.keeps (acquire_keeps h1))
              · exact h.skip hs
  | moveShared d s =>
      simp only [Prog.step] at hs
      simp only [Collected.step, h.var s, h.unused d]
      cases hv : p.var s with
      | none => rw [hv] at hs; exact h.skip hs
      | some x =>
          cases x with
          | heap => rw [hv] at hs; exact h.skip hs
          | shared x n sp =>
              simp only [hv] at hs
              simp only [Option.map_some, refOf]
              split_ifs at hs ⊢ with hg
              · cases hs
                have hne : d ≠ s := by rintro rfl; rw [hg.1] at hv; cases hv
                have := h.put d (some (.shared x n sp)) p.mem h.same
                have hv' : (p.setVar d (some (.shared x n sp))).var s = some (.shared x n sp) := by
                  show ((p.vars.set d _)[s]?).join = _
                  rw [List.getElem?_set_ne hne]; exact hv
                exact this.again hv' (y := .shared x n none) rfl p.mem h.same
              · exact h.skip hs
  | copyAssignShared d s =>
      simp only [Prog.step] at hs
      simp only [Collected.step, h.var s, h.var d]
      cases hvd : p.var d with
      | none => rw [hvd] at hs; exact h.skip hs
      | some y =>
          cases y with
          | heap => rw [hvd] at hs; exact h.skip hs
          | shared y k sq =>
              cases hv : p.var s with
              | none => rw [hvd, hv] at hs; exact h.skip hs
              | some x =>
                  cases x with
                  | heap => rw [hvd, hv] at hs; exact h.skip hs
                  | shared x n sp =>
                      simp only [hvd, hv, Option.bind_eq_bind] at hs
                      simp only [Option.map_some, refOf]
                      obtain ⟨m1, h3, h4⟩ := Option.bind_eq_some_iff.mp hs
                      obtain ⟨m2, h5, h6⟩ := Option.bind_eq_some_iff.mp h4
                      cases h6
                      exact h.put d (some (.shared x n sp)) m2 (h.same.keeps ((acquire_keeps h3).trans (release_keeps h5)))
  | moveAssignShared d s =>
      simp only [Prog.step] at hs
      simp only [Collected.step, h.var s, h.var d]
      cases hvd : p.var d with
      | none => rw [hvd] at hs; exact h.skip hs
      | some y =>
          cases y with
          | heap => rw [hvd] at hs; exact h.skip hs
          | shared y k sq =>
              cases hv : p.var s with
              | none => rw [hvd, hv] at hs; exact h.skip hs
              | some x =>
                  cases x with
                  | heap => rw [hvd, hv] at hs; exact h.skip hs
                  | shared x n sp =>
                      simp only [hvd, hv, Option.bind_eq_bind] at hs
                      simp only [Option.map_some, refOf]
                      split_ifs at hs with hds
                      · subst hds; cases hs
                        refine ⟨h.same, ?_⟩
                        have h1 := (h.put d (some (.shared x n sp)) p.mem h.same).vars
                        have h2 := (h.again hv (rfl : refOf (.shared x n sp) = _) p.mem h.same).vars
                        simp only [Option.map_some, refOf] at h1
                        rw [h1, ← h2, h.vars]
                      · obtain ⟨m2, h5, h6⟩ := Option.bind_eq_some_iff.mp hs
                        cases h6
                        have hm := h.same.keeps (release_keeps h5)
                        have := h.put d (some (.shared x n sp)) m2 hm
                        have hv' : (p.setVar d (some (.shared x n sp))).var s = some (.shared x n sp) := by
                          show ((p.vars.set d _)[s]?).join = _
                          rw [List.getElem?_set_ne hds]; exact hv
                        exact this.again hv' (y := .shared x n none) rfl m2 hm
  | destroy d =>
      simp only [Prog.step] at hs
      simp only [Collected.step]
      cases hv : p.var d with
      | none =>
          rw [hv] at hs
          cases hs
          refine ⟨h.same, ?_⟩
          have hq := h.var d
          rw [hv] at hq
          simp only [Collected.var, Option.map_none] at hq
          simp only [Collected.put]
          rw [← h.vars]
          refine (List.ext_getElem? fun j => ?_)
          by_cases hj : d = j
          · subst hj
            rw [List.getElem?_set]
            cases hz : g.vars[d]? with
            | none => simp [List.getElem?_eq_none_iff.mp hz]
            | some z =>
                rw [hz] at hq
                have hlt := (List.getElem?_eq_some_iff.mp hz).1
                simp at hq
                simp [hlt, hq]
          · rw [List.getElem?_set_ne hj]
      | some x =>
          simp only [hv, Option.bind_eq_bind] at hs
          obtain ⟨m, h1, h2⟩ := Option.bind_eq_some_iff.mp hs
          cases h2
          exact h.put d none m (h.same.keeps (dtor_keeps h1))
  | read d i =>
      simp only [Prog.step] at hs
      simp only [Collected.step]
      cases hv : p.var d with
      | none => rw [hv] at hs; exact h.skip hs
      | some x =>
          simp only [hv, Option.bind_eq_bind] at hs
          by_cases hi : i < x.size
          · rw [if_pos hi] at hs
            obtain ⟨b, -, hs⟩ := Option.bind_eq_some_iff.mp hs
            obtain ⟨blk, -, hs⟩ := Option.bind_eq_some_iff.mp hs
            cases hq : blk.cells[i]? with
            | none => simp [hq] at hs
            | some c =>
                cases c with
                | some v => simp only [hq] at hs; exact h.skip hs
                | none =>
                    simp only [hq] at hs
                    cases triv with
                    | true => exact h.skip hs
                    | false => cases hs
          · rw [if_neg hi] at hs; exact h.skip hs
  | write d i v =>
      simp only [Prog.step] at hs
      simp only [Collected.step, h.var d]
      cases hv : p.var d with
      | none => rw [hv] at hs; exact h.skip hs
      | some x =>
          have hx : refOf x = ⟨(refOf x).shared, x.data, x.size⟩ := by cases x <;> rfl
          simp only [hv, Option.bind_eq_bind] at hs
          rw [Option.map_some, hx]
          split_ifs at hs with hi
          · obtain ⟨b, h1, h2⟩ := Option.bind_eq_some_iff.mp hs
            obtain ⟨hp, h3, h4⟩ := Option.bind_eq_some_iff.mp h2
            cases h4
            rw [h1]
            simp only [if_pos hi]
            exact ⟨write_same h.same h3 _ _, h.vars⟩
          · cases hd : x.data with
            | none => exact h.skip hs
            | some b => simp only [if_neg hi]; exact h.skip hs

end Nda.Mem.NoRelease
