import Verif.Props.Handles
import Verif.Lemmas.Collected
/-!
# C97: programs on handles behave as if no storage was ever released
-/
namespace Nda.Mem.NoRelease

variable {V : Type}

open Spec

theorem run_sim {triv : Bool} {dflt : V} (ops : List (HOp V)) (p : Prog V) (g : Collected V) (o : Own triv p.mem (Prog.handles p.vars))
    (h : Sim p g) (hc : CarefulRun triv dflt p ops) :
    ∃ p', p.run triv dflt ops = some p' ∧ Own triv p'.mem (Prog.handles p'.vars) ∧ Sim p' (g.run triv dflt ops) := by
  induction ops generalizing p g with
  | nil => exact ⟨p, rfl, o, h⟩
  | cons op ops ih =>
      obtain ⟨p1, h1, o1, -, -⟩ := run_own triv dflt [op] p o ⟨hc.1, fun _ _ => trivial⟩
      have hs : p.step triv dflt op = some p1 := by
        have : (p.step triv dflt op).bind some = some p1 := h1
        simpa using this
      obtain ⟨p2, h2, o2, s2⟩ := ih p1 (g.step triv dflt op) o1 (step_sim h o op hs) (hc.2 p1 hs)
      refine ⟨p2, ?_, o2, s2⟩
      simp only [Prog.run, List.foldlM_cons, hs]
      exact h2

theorem start_sim (n : Nat) : Sim (Prog.start n : Prog V) (Collected.start n) :=
  ⟨⟨rfl, fun b blk hb => by simp [Prog.start] at hb⟩, by simp [Prog.start, Collected.start]⟩

/-- C97.  Whatever a program does with heap and shared handles (as long as it does not use elements
through a shared handle that was moved from), its variables are the references of the program in which no
storage is ever released; and what every handle (other than moved-from shared ones) refers to is there,
not released, with the elements that the storage has in that program. -/
theorem C97_collected (triv : Bool) (dflt : V) (n : Nat) (ops : List (HOp V)) (hc : CarefulRun triv dflt (Prog.start n) ops) :
    ∃ p, (Prog.start n).run triv dflt ops = some p ∧
      p.vars.map (Option.map refOf) = ((Collected.start n).run triv dflt ops).vars ∧
      ∀ (i : Nat) h, p.vars[i]? = some (some h) → (∀ x k, h ≠ .shared x k none) → ∀ b, h.data = some b →
        ∃ cells, p.mem.hp[b]? = some ⟨cells, false⟩ ∧ cells.length = h.size ∧ ((Collected.start n).run triv dflt ops).store[b]? = some cells := by
  obtain ⟨p, h1, o, s⟩ := run_sim ops _ _ (start_own triv n) (start_sim n) hc
  refine ⟨p, h1, s.vars.symm, fun i h hi hne b hb => ?_⟩
  obtain ⟨cells, hl, hF⟩ := o.handle_live (mem_handles_iff.mpr ⟨i, hi⟩) (by
    intro hs
    cases h with
    | heap x n s => simp only [Handle.sptr] at hs; subst hs; exact ⟨x, n, rfl⟩
    | shared x n s => simp only [Handle.sptr] at hs; subst hs; exact absurd rfl (hne x n)) hb
  obtain ⟨hb1, hb2⟩ := Heap.live_some.mp hl
  exact ⟨cells, hb1, hF.1, s.same.cont b _ hb1 hb2⟩

/-- A statement that does not change variable `d` or elements leaves both as they are (in the program
without memory management; storage may be added). -/
theorem step_same (triv : Bool) (dflt : V) (g : Collected V) (op : HOp V) (d : Nat) (h : ¬ Changes d op) :
    (g.step triv dflt op).vars[d]? = g.vars[d]? ∧ ∀ (b : Nat) cells, g.store[b]? = some cells → (g.step triv dflt op).store[b]? = some cells := by
  have put : ∀ (g : Collected V) (x : Nat) (r : Option Ref), x ≠ d → (g.put x r).vars[d]? = g.vars[d]? ∧
      ∀ (b : Nat) cells, g.store[b]? = some cells → (g.put x r).store[b]? = some cells :=
    fun g x r hx => ⟨by simp only [Collected.put]; rw [List.getElem?_set_ne hx], fun _ _ h => h⟩
  have app : ∀ (st : List (List (Option V))) (k : List (Option V)) (b : Nat) (cells : List (Option V)), st[b]? = some cells → (st ++ [k])[b]? = some cells :=
    fun st k b cells h => by rw [List.getElem?_append_left (List.getElem?_eq_some_iff.mp h).1]; exact h
  have make : ∀ (x : Nat) (cells : List (Option V)), x ≠ d → (g.make x cells).vars[d]? = g.vars[d]? ∧
      ∀ (b : Nat) cs, g.store[b]? = some cs → (g.make x cells).store[b]? = some cs := by
    intro x cells hx
    unfold Collected.make
    split
    · exact put g x _ hx
    · exact ⟨by simp only; rw [List.getElem?_set_ne hx], fun b cs h => app _ _ _ _ h⟩
  have two : ∀ (x y : Nat) (r q : Option Ref), x ≠ d → y ≠ d → ((g.put x r).put y q).vars[d]? = g.vars[d]? ∧
      ∀ (b : Nat) cells, g.store[b]? = some cells → ((g.put x r).put y q).store[b]? = some cells :=
    fun x y r q hx hy => ⟨(put _ y q hy).1.trans (put g x r hx).1, fun _ _ h => h⟩
  have id' : g.vars[d]? = g.vars[d]? ∧ ∀ (b : Nat) cells, g.store[b]? = some cells → g.store[b]? = some cells := ⟨rfl, fun _ _ h => h⟩
  cases op with
  | write => exact absurd trivial h
  | read => exact id'
  | destroy x => exact put g x _ h
  | foreign x vs =>
      simp only [Collected.step]
      split
      · refine ⟨?_, fun b cs h => app _ _ _ _ h⟩
        simp only; rw [List.getElem?_set_ne h]
      · exact id'
  | new x n => simp only [Collected.step]; by_cases hg : g.unused x = true <;> simp only [hg] <;> first | exact make x _ h | exact id'
  | newZero x n => simp only [Collected.step]; by_cases hg : g.unused x = true <;> simp only [hg] <;> first | exact make x _ h | exact id'
  | newFrom x vs => simp only [Collected.step]; by_cases hg : g.unused x = true <;> simp only [hg] <;> first | exact make x _ h | exact id'
  | copy x y => simp only [Collected.step]; split <;> [(split <;> [exact make x _ h; exact id']); exact id']
  | share x y => simp only [Collected.step]; split <;> [(split <;> [exact put g x _ h; exact id']); exact id']
  | copyShared x y => simp only [Collected.step]; split <;> [(split <;> [exact put g x _ h; exact id']); exact id']
  | moveShared x y =>
      simp only [Collected.step]; split <;> [(split <;> [exact put g x _ (fun e => h (Or.inl e)); exact id']); exact id']
  | move x y =>
      simp only [Collected.step]
      split <;> [(split <;> [exact two x y _ _ (fun e => h (Or.inl e)) (fun e => h (Or.inr e)); exact id']); exact id']
  | copyAssign x y => simp only [Collected.step]; split <;> [exact make x _ h; exact id']
  | copyAssignShared x y => simp only [Collected.step]; split <;> [exact put g x _ h; exact id']
  | moveAssignShared x y => simp only [Collected.step]; split <;> [exact put g x _ (fun e => h (Or.inl e)); exact id']
  | moveAssign x y =>
      simp only [Collected.step]; split <;> [exact two x y _ _ (fun e => h (Or.inl e)) (fun e => h (Or.inr e)); exact id']

theorem run_same (triv : Bool) (dflt : V) (d : Nat) (ops : List (HOp V)) (h : ∀ op ∈ ops, ¬ Changes d op) (g : Collected V) :
    (g.run triv dflt ops).vars[d]? = g.vars[d]? ∧ ∀ (b : Nat) cells, g.store[b]? = some cells → (g.run triv dflt ops).store[b]? = some cells := by
  induction ops generalizing g with
  | nil => exact ⟨rfl, fun _ _ h => h⟩
  | cons op ops ih =>
      obtain ⟨h1, h2⟩ := step_same triv dflt g op d (h op (by simp))
      obtain ⟨h3, h4⟩ := ih (fun x hx => h x (by simp [hx])) (g.step triv dflt op)
      exact ⟨h3.trans h1, fun b cells hb => h4 b cells (h2 b cells hb)⟩

/-- A shared handle that is not changed keeps its share. -/
theorem step_shared {triv : Bool} {dflt : V} {p p' : Prog V} {op : HOp V} {d : Nat} (h : ¬ Changes d op) (hs : p.step triv dflt op = some p')
    {x : Option Nat} {n : Nat} {c : Option Nat} (hd : p.vars[d]? = some (some (.shared x n c))) : p'.vars[d]? = some (some (.shared x n c)) := by
  have one : ∀ (m : Mem V) (y : Nat) (r : Option Handle), y ≠ d → ({ p with mem := m }.setVar y r).vars[d]? = some (some (.shared x n c)) := by
    intro m y r hy; simp only [Prog.setVar]; rw [List.getElem?_set_ne hy]; exact hd
  have two : ∀ (m : Mem V) (y z : Nat) (r q : Option Handle), y ≠ d → z ≠ d →
      (({ p with mem := m }.setVar y r).setVar z q).vars[d]? = some (some (.shared x n c)) := by
    intro m y z r q hy hz; simp only [Prog.setVar]; rw [List.getElem?_set_ne hz, List.getElem?_set_ne hy]; exact hd
  have skip : some p = some p' → p'.vars[d]? = some (some (.shared x n c)) := by intro h; cases h; exact hd
  have hv : p.var d = some (.shared x n c) := by simp [Prog.var, hd]
  cases op with
  | write => exact absurd trivial h
  | read y i =>
      simp only [Prog.step] at hs
      split at hs
      · by_cases hi : i < (‹Handle›).size
        · rw [if_pos hi] at hs
          simp only [Option.bind_eq_bind] at hs
          obtain ⟨b, -, hs⟩ := Option.bind_eq_some_iff.mp hs
          obtain ⟨blk, -, hs⟩ := Option.bind_eq_some_iff.mp hs
          cases hq : blk.cells[i]? with
          | none => simp [hq] at hs
          | some c =>
              cases c with
              | some v => simp only [hq] at hs; exact skip hs
              | none =>
                  simp only [hq] at hs
                  cases triv with
                  | true => exact skip hs
                  | false => cases hs
        · rw [if_neg hi] at hs; exact skip hs
      · exact skip hs
  | destroy y =>
      simp only [Prog.step] at hs
      split at hs
      · obtain ⟨m, -, hs⟩ := Option.bind_eq_some_iff.mp hs; cases hs; exact one m y _ h
      · exact skip hs
  | new y k =>
      simp only [Prog.step] at hs
      split at hs
      · obtain ⟨m, -, hs⟩ := Option.bind_eq_some_iff.mp hs; cases hs; exact one _ y _ h
      · exact skip hs
  | newZero y k =>
      simp only [Prog.step] at hs
      split at hs
      · obtain ⟨m, -, hs⟩ := Option.bind_eq_some_iff.mp hs; cases hs; exact one _ y _ h
      · exact skip hs
  | newFrom y vs =>
      simp only [Prog.step] at hs
      split at hs
      · obtain ⟨m, -, hs⟩ := Option.bind_eq_some_iff.mp hs; cases hs; exact one _ y _ h
      · exact skip hs
  | foreign y vs =>
      simp only [Prog.step] at hs
      split at hs
      · cases hs; exact one _ y _ h
      · exact skip hs
  | copy y z =>
      simp only [Prog.step] at hs
      split at hs
      · split at hs
        · obtain ⟨m, -, hs⟩ := Option.bind_eq_some_iff.mp hs; cases hs; exact one _ y _ h
        · exact skip hs
      · exact skip hs
  | copyShared y z =>
      simp only [Prog.step] at hs
      split at hs
      · split at hs
        · obtain ⟨m, -, hs⟩ := Option.bind_eq_some_iff.mp hs; cases hs; exact one _ y _ h
        · exact skip hs
      · exact skip hs
  | share y z =>
      simp only [Prog.step] at hs
      split at hs
      · next hz =>
          have hzd : z ≠ d := by rintro rfl; rw [hv] at hz; cases hz
          split at hs
          · obtain ⟨m, -, hs⟩ := Option.bind_eq_some_iff.mp hs; cases hs; exact two _ z y _ _ hzd h
          · exact skip hs
      · exact skip hs
  | move y z =>
      simp only [Prog.step] at hs
      split at hs
      · split at hs
        · cases hs; exact two p.mem y z _ _ (fun e => h (Or.inl e)) (fun e => h (Or.inr e))
        · exact skip hs
      · exact skip hs
  | moveShared y z =>
      simp only [Prog.step] at hs
      split at hs
      · split at hs
        · cases hs; exact two p.mem y z _ _ (fun e => h (Or.inl e)) (fun e => h (Or.inr e))
        · exact skip hs
      · exact skip hs
  | copyAssign y z =>
      simp only [Prog.step, Option.bind_eq_bind] at hs
      split at hs
      · obtain ⟨m, -, hs⟩ := Option.bind_eq_some_iff.mp hs
        obtain ⟨m1, -, hs⟩ := Option.bind_eq_some_iff.mp hs
        obtain ⟨m2, -, hs⟩ := Option.bind_eq_some_iff.mp hs
        obtain ⟨m3, -, hs⟩ := Option.bind_eq_some_iff.mp hs
        cases hs; exact one m3 y _ h
      · exact skip hs
  | copyAssignShared y z =>
      simp only [Prog.step, Option.bind_eq_bind] at hs
      split at hs
      · obtain ⟨m, -, hs⟩ := Option.bind_eq_some_iff.mp hs
        obtain ⟨m1, -, hs⟩ := Option.bind_eq_some_iff.mp hs
        cases hs; exact one m1 y _ h
      · exact skip hs
  | moveAssign y z =>
      simp only [Prog.step, Option.bind_eq_bind] at hs
      split at hs
      · obtain ⟨m, -, hs⟩ := Option.bind_eq_some_iff.mp hs
        split at hs
        · cases hs; exact one m y _ (fun e => h (Or.inl e))
        · obtain ⟨m1, -, hs⟩ := Option.bind_eq_some_iff.mp hs
          cases hs; exact two m1 y z _ _ (fun e => h (Or.inl e)) (fun e => h (Or.inr e))
      · exact skip hs
  | moveAssignShared y z =>
      simp only [Prog.step, Option.bind_eq_bind] at hs
      split at hs
      · split at hs
        · exact skip hs
        · obtain ⟨m1, -, hs⟩ := Option.bind_eq_some_iff.mp hs
          cases hs; exact two m1 y z _ _ (fun e => h (Or.inl e)) (fun e => h (Or.inr e))
      · exact skip hs

theorem run_shared {triv : Bool} {dflt : V} {d : Nat} (ops : List (HOp V)) (h : ∀ op ∈ ops, ¬ Changes d op) {p p' : Prog V}
    (hs : p.run triv dflt ops = some p') {x : Option Nat} {n : Nat} {c : Option Nat} (hd : p.vars[d]? = some (some (.shared x n c))) :
    p'.vars[d]? = some (some (.shared x n c)) := by
  induction ops generalizing p with
  | nil => cases hs; exact hd
  | cons op ops ih =>
      simp only [Prog.run, List.foldlM_cons, Option.bind_eq_bind] at hs
      obtain ⟨p1, h1, h2⟩ := Option.bind_eq_some_iff.mp hs
      exact ih (fun y hy => h y (by simp [hy])) h2 (step_shared (h op (by simp)) h1 hd)

/-- Careful histories in two parts. -/
theorem carefulRun_append {triv : Bool} {dflt : V} (ops ops' : List (HOp V)) (p : Prog V) (h : CarefulRun triv dflt p (ops ++ ops')) :
    CarefulRun triv dflt p ops := by
  induction ops generalizing p with
  | nil => trivial
  | cons op ops ih => exact ⟨h.1, fun p' hp => ih p' (h.2 p' hp)⟩

/-- Storage lives as long as something refers to it.  A handle `d` that owns something (alone or with
others) sees the same elements after any further statements, as long as these do not change `d` itself
and nobody writes elements: in particular if `d` is a shared handle made from an array that has been
destroyed, moved, or assigned to since. -/
theorem C97_kept_alive (triv : Bool) (dflt : V) (n : Nat) (ops ops' : List (HOp V)) (hc : CarefulRun triv dflt (Prog.start n) (ops ++ ops'))
    (p : Prog V) (hp : (Prog.start n).run triv dflt ops = some p) (d : Nat) (hn : ∀ op ∈ ops', ¬ Changes d op) (h : Handle)
    (hd : p.vars[d]? = some (some h)) (hne : ∀ x k, h ≠ .shared x k none) (b : Nat) (hb : h.data = some b) :
    ∃ p' h' cells, (Prog.start n).run triv dflt (ops ++ ops') = some p' ∧ p'.vars[d]? = some (some h') ∧ h'.data = some b ∧ h'.size = h.size ∧
      p.mem.hp[b]? = some ⟨cells, false⟩ ∧ p'.mem.hp[b]? = some ⟨cells, false⟩ := by
  obtain ⟨q, q1, q2, q3⟩ := C97_collected triv dflt n ops (carefulRun_append ops ops' _ hc)
  rw [hp] at q1; cases q1
  obtain ⟨cells, c1, -, c3⟩ := q3 d h hd hne b hb
  obtain ⟨p', r1, r2, r3⟩ := C97_collected triv dflt n (ops ++ ops') hc
  have e : (Collected.start n : Collected V).run triv dflt (ops ++ ops') = ((Collected.start n).run triv dflt ops).run triv dflt ops' := by
    simp [Collected.run]
  obtain ⟨s1, s2⟩ := run_same triv dflt d ops' hn ((Collected.start n).run triv dflt ops)
  rw [e] at r2 r3
  rw [← r2, ← q2, List.getElem?_map, List.getElem?_map, hd] at s1
  cases hv : p'.vars[d]? with
  | none => rw [hv] at s1; cases s1
  | some x =>
      rw [hv] at s1
      cases x with
      | none => cases s1
      | some h' =>
          have s1 : refOf h' = refOf h := by simpa using s1
          have hdat : h'.data = h.data ∧ h'.size = h.size := by
            cases h <;> cases h' <;> simp_all [refOf, Handle.data, Handle.size]
          refine ⟨p', h', cells, r1, hv, hdat.1.trans hb, hdat.2, c1, ?_⟩
          have hne' : ∀ x k, h' ≠ .shared x k none := by
            intro x k e
            cases h with
            | heap => rw [e] at s1; simp [refOf] at s1
            | shared y j c =>
                have hrun : p.run triv dflt ops' = some p' := by
                  have := r1
                  simp only [Prog.run, List.foldlM_append] at this hp ⊢
                  rw [hp] at this; exact this
                have := run_shared ops' hn hrun hd
                rw [hv, e] at this
                cases this
                exact hne _ _ rfl
          obtain ⟨cells', t1, -, t3⟩ := r3 d h' hv hne' b (hdat.1.trans hb)
          rw [s2 b cells c3] at t3
          cases t3; exact t1

/-- An array is shared, then destroyed, and its name is used again; the shared handle still has the elements;
a write through a second shared handle is seen by both. -/
def sharedHist : List (HOp Nat) := [.newFrom 0 [4, 5, 6], .share 1 0]
def afterShared : List (HOp Nat) := [.copyShared 2 1, .copy 3 0, .destroy 0, .newZero 0 2, .moveAssign 0 3, .destroy 2, .destroy 0]

example : CarefulRun false 0 (Prog.start 4) (sharedHist ++ afterShared) := carefulRun_of_check _ _ _ _ (by decide +kernel)
example : ∀ op ∈ afterShared, ¬ Changes 1 op := by simp [afterShared, Changes]
example : ((Prog.start 4).run false 0 (sharedHist ++ afterShared)).map (fun p => (p.vars, p.mem.hp[0]?)) =
    some ([none, some (.shared (some 0) 3 (some 0)), none, some Handle.null], some ⟨[some 4, some 5, some 6], false⟩) := by decide +kernel
example : ((Collected.start 4).run false 0 (sharedHist ++ [.copyShared 2 1, .destroy 0, .write 2 1 9])) =
    ⟨[[some 4, some 9, some 6]], [none, some ⟨true, some 0, 3⟩, some ⟨true, some 0, 3⟩, none]⟩ := by decide +kernel
example : CarefulRun false 0 (Prog.start 4) (sharedHist ++ [.copyShared 2 1, .destroy 0, .write 2 1 9]) :=
  carefulRun_of_check _ _ _ _ (by decide +kernel)

example := C97_collected false 0 4 (sharedHist ++ afterShared) (carefulRun_of_check _ _ _ _ (by decide +kernel))

/-- Handle 1 keeps the storage alive. -/
example := C97_kept_alive false 0 4 sharedHist afterShared (carefulRun_of_check _ _ _ _ (by decide +kernel)) _ rfl 1 (by simp [afterShared, Changes]) _ rfl (by simp) 0 rfl

end Nda.Mem.NoRelease
