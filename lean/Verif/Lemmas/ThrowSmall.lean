import Verif.Spec.ThrowSmall
import Verif.Lemmas.Sso
/-!
# Programs with lost blocks behave like programs without them; loops that fail
-/
namespace Nda.Mem.SProg
open Nda.Mem Nda.Exc Spec

variable {V : Type} {K : Nat} {p g : SProg V} {L : List (Nat × Block V)}

/-- `p` is `g` with other contents in the blocks `L`, which are released in `g`. -/
structure Sim (L : List (Nat × Block V)) (p g : SProg V) : Prop where
  vars : p.vars = g.vars
  len : p.hp.length = g.hp.length
  off : ∀ b : Nat, b ∉ L.map Prod.fst → p.hp[b]? = g.hp[b]?
  on : ∀ e ∈ L, p.hp[e.1]? = some e.2 ∧ ∃ blk, g.hp[e.1]? = some blk ∧ blk.freed = true

/-- If the second succeeds, so does the first. -/
def SimO (L : List (Nat × Block V)) (o1 o2 : Option (SProg V)) : Prop := ∀ g', o2 = some g' → ∃ p', o1 = some p' ∧ Sim L p' g'

theorem Sim.var (h : Sim L p g) (d : Nat) : p.var d = g.var d := by unfold SProg.var; rw [h.vars]

theorem Sim.setVar (h : Sim L p g) (d : Nat) (x : Option (Sso V)) : Sim L (p.setVar d x) (g.setVar d x) :=
  ⟨by simp [SProg.setVar, h.vars], h.len, h.off, h.on⟩

theorem Sim.live (h : Sim L p g) {b : Nat} {blk : Block V} (hb : g.hp.live b = some blk) :
    p.hp.live b = some blk ∧ b ∉ L.map Prod.fst := by
  have hb' := Heap.live_some.mp hb
  have hn : b ∉ L.map Prod.fst := by
    intro hm
    obtain ⟨e, he, rfl⟩ := List.mem_map.mp hm
    obtain ⟨-, blk', h1, h2⟩ := h.on e he
    rw [hb'.1] at h1; cases h1; rw [hb'.2] at h2; cases h2
  exact ⟨Heap.live_some.mpr ⟨by rw [h.off b hn]; exact hb'.1, hb'.2⟩, hn⟩

theorem Sim.set (h : Sim L p g) {b : Nat} (hb : b ∉ L.map Prod.fst) (blk : Block V) :
    Sim L { p with hp := p.hp.set b blk } { g with hp := g.hp.set b blk } := by
  refine ⟨h.vars, by simp [h.len], fun c hc => ?_, fun e he => ?_⟩
  · by_cases e : b = c
    · subst e; simp only [List.getElem?_set_self', h.off b hb]
    · simp only [List.getElem?_set_ne e]; exact h.off c hc
  · have : b ≠ e.1 := by rintro rfl; exact hb (List.mem_map.mpr ⟨e, he, rfl⟩)
    simp only [List.getElem?_set_ne this]; exact h.on e he

theorem Sim.append (h : Sim L p g) (blk : Block V) :
    Sim L { p with hp := p.hp ++ [blk] } { g with hp := g.hp ++ [blk] } := by
  refine ⟨h.vars, by simp [h.len], fun c hc => ?_, fun e he => ?_⟩
  · simp only [List.getElem?_append, h.len, h.off c hc]
  · obtain ⟨h1, blk', h2, h3⟩ := h.on e he
    have h4 := (List.getElem?_eq_some_iff.mp h1).1
    have h5 := (List.getElem?_eq_some_iff.mp h2).1
    exact ⟨by simp only [List.getElem?_append_left h4, h1], blk', by simp only [List.getElem?_append_left h5, h2], h3⟩

theorem Sim.cell (h : Sim L p g) {d i : Nat} {c : Option V} (hc : g.cell d i = some c) : p.cell d i = some c := by
  unfold SProg.cell at hc ⊢
  rw [h.var d]
  cases hx : g.var d with
  | none => rw [hx] at hc; cases hc
  | some x =>
      rw [hx] at hc
      simp only [Option.bind_eq_bind, Option.bind_some] at hc ⊢
      cases hd : x.data with
      | null => rw [hd] at hc; cases hc
      | inline => rw [hd] at hc; exact hc
      | block b =>
          rw [hd] at hc
          simp only [Option.bind_eq_some_iff] at hc ⊢
          obtain ⟨blk, h1, h2⟩ := hc
          exact ⟨blk, (h.live h1).1, h2⟩

theorem Sim.setCell (h : Sim L p g) (d i : Nat) (c : Option V) : SimO L (p.setCell d i c) (g.setCell d i c) := by
  intro g' hg
  unfold SProg.setCell at hg ⊢
  rw [h.var d]
  cases hx : g.var d with
  | none => rw [hx] at hg; cases hg
  | some x =>
      rw [hx] at hg
      simp only [Option.bind_eq_bind, Option.bind_some] at hg ⊢
      cases hd : x.data with
      | null => rw [hd] at hg; cases hg
      | inline =>
          rw [hd] at hg
          simp only at hg ⊢
          split at hg
          · rename_i hi
            cases hg
            exact ⟨_, by rw [if_pos hi]; rfl, h.setVar d _⟩
          · cases hg
      | block b =>
          rw [hd] at hg
          simp only [Option.bind_eq_some_iff] at hg
          obtain ⟨blk, h1, h2⟩ := hg
          split at h2
          · rename_i hi
            cases h2
            obtain ⟨h3, h4⟩ := h.live h1
            exact ⟨_, by simp only [h3, Option.bind_some, if_pos hi]; rfl, h.set h4 _⟩
          · cases h2

theorem Sim.construct (h : Sim L p g) (d i : Nat) (c : Option V) : SimO L (p.construct false d i c) (g.construct false d i c) := by
  intro g' hg
  unfold SProg.construct at hg ⊢
  simp only [Option.bind_eq_bind, Option.bind_eq_some_iff] at hg ⊢
  obtain ⟨old, h1, h2⟩ := hg
  split at h2
  · cases h2
  · rename_i hn
    obtain ⟨p', h3, h4⟩ := h.setCell d i c g' h2
    exact ⟨p', ⟨old, h.cell h1, by rw [if_neg hn]; exact h3⟩, h4⟩

theorem Sim.destroyCell (h : Sim L p g) (d i : Nat) : SimO L (p.destroyCell d i) (g.destroyCell d i) := by
  intro g' hg
  unfold SProg.destroyCell at hg ⊢
  simp only [Option.bind_eq_bind, Option.bind_eq_some_iff] at hg ⊢
  obtain ⟨old, h1, h2⟩ := hg
  split at h2
  · cases h2
  · rename_i hn
    obtain ⟨p', h3, h4⟩ := h.setCell d i none g' h2
    exact ⟨p', ⟨old, h.cell h1, by rw [if_neg hn]; exact h3⟩, h4⟩

/-- Arguments of constructors are read in the same way. -/
def SameArgs (L : List (Nat × Block V)) (f : Nat → SProg V → Option (Option V)) : Prop :=
  ∀ i (p g : SProg V) c, Sim L p g → f i g = some c → f i p = some c

theorem Sim.constructFrom {f : Nat → SProg V → Option (Option V)} (hf : SameArgs L f) (d n i : Nat) :
    ∀ {p g : SProg V}, Sim L p g → SimO L (constructFrom false d f n i p) (constructFrom false d f n i g) := by
  induction n generalizing i with
  | zero => intro p g h g' hg; cases hg; exact ⟨p, rfl, h⟩
  | succ n ih =>
      intro p g h g' hg
      simp only [SProg.constructFrom, Option.bind_eq_bind, Option.bind_eq_some_iff] at hg ⊢
      obtain ⟨c, h1, g1, h2, h3⟩ := hg
      obtain ⟨p1, h4, h5⟩ := h.construct d i c g1 h2
      obtain ⟨p', h6, h7⟩ := ih (i + 1) h5 g' h3
      exact ⟨p', ⟨c, hf i p g c h h1, p1, h4, h6⟩, h7⟩

theorem Sim.destroyFrom (d n i : Nat) : ∀ {p g : SProg V}, Sim L p g → SimO L (destroyFrom d n i p) (destroyFrom d n i g) := by
  induction n generalizing i with
  | zero => intro p g h g' hg; cases hg; exact ⟨p, rfl, h⟩
  | succ n ih =>
      intro p g h g' hg
      simp only [SProg.destroyFrom, Option.bind_eq_bind, Option.bind_eq_some_iff] at hg ⊢
      obtain ⟨g1, h2, h3⟩ := hg
      obtain ⟨p1, h4, h5⟩ := h.destroyCell d i g1 h2
      obtain ⟨p', h6, h7⟩ := ih (i + 1) h5 g' h3
      exact ⟨p', ⟨p1, h4, h6⟩, h7⟩

theorem Sim.cleanBlock (h : Sim L p g) (x : Sso V) : SimO L (cleanBlock false K x p) (cleanBlock false K x g) := by
  intro g' hg
  unfold SProg.cleanBlock at hg ⊢
  split at hg
  · rename_i hK
    rw [if_pos hK]
    cases hd : x.data with
    | null => rw [hd] at hg; cases hg
    | inline => rw [hd] at hg; cases hg
    | block b =>
        rw [hd] at hg
        simp only [Option.bind_eq_bind, Option.bind_eq_some_iff, Heap.dealloc] at hg ⊢
        obtain ⟨hp, ⟨blk, h1, h2⟩, h3⟩ := hg
        obtain ⟨h4, h5⟩ := h.live h1
        by_cases hc : (!false && blk.cells.any Option.isSome) = true
        · simp [hc] at h2
          revert h2; simp at hc; obtain ⟨c, hc1, hc2⟩ := hc
          intro h2
          exact absurd (h2.1 c hc1) (by cases c <;> simp_all)
        · cases h3
          have h2' : some (g.hp.set b { blk with freed := true }) = some hp := by
            rw [← h2]; simp only [if_neg hc]; rfl
          cases h2'
          refine ⟨{ p with hp := p.hp.set b { blk with freed := true } }, ⟨_, ⟨blk, h4, ?_⟩, rfl⟩, h.set h5 _⟩
          simp only [if_neg hc]; rfl
  · rename_i hK
    cases hg
    exact ⟨p, by rw [if_neg hK], h⟩

theorem Sim.nullify (h : Sim L p g) (d : Nat) : SimO L (p.nullify d) (g.nullify d) := by
  intro g' hg
  unfold SProg.nullify at hg ⊢
  simp only [Option.bind_eq_bind, Option.bind_eq_some_iff] at hg ⊢
  obtain ⟨x, h1, h2⟩ := hg
  cases h2
  exact ⟨_, ⟨x, by rw [h.var]; exact h1, rfl⟩, h.setVar d _⟩

theorem Sim.clean (h : Sim L p g) (d : Nat) : SimO L (p.clean false K d) (g.clean false K d) := by
  intro g' hg
  unfold SProg.clean at hg ⊢
  simp only [Option.bind_eq_bind, Option.bind_eq_some_iff] at hg ⊢
  obtain ⟨x, h1, h2⟩ := hg
  by_cases hn : x.data = .null
  · rw [if_pos hn] at h2
    cases h2
    exact ⟨p, ⟨x, by rw [h.var]; exact h1, by rw [if_pos hn]; rfl⟩, h⟩
  · rw [if_neg hn] at h2
    simp only [Option.bind_eq_some_iff] at h2
    obtain ⟨g1, h3, g2, h4, h5⟩ := h2
    simp only [SProg.cleanElems, Bool.false_eq_true, if_false] at h3
    obtain ⟨p1, h6, s1⟩ := Sim.destroyFrom d x.size 0 h g1 h3
    obtain ⟨p2, h7, s2⟩ := s1.cleanBlock (K := K) x g2 h4
    obtain ⟨p3, h8, s3⟩ := s2.nullify d g' h5
    refine ⟨p3, ⟨x, by rw [h.var]; exact h1, ?_⟩, s3⟩
    rw [if_neg hn]
    simp only [SProg.cleanElems, Bool.false_eq_true, if_false, h6, Option.bind_some, h7, h8]

theorem Sim.grab (h : Sim L p g) (d n : Nat) : SimO L (p.grab K d n) (g.grab K d n) := by
  intro g' hg
  unfold SProg.grab at hg ⊢
  simp only [Option.bind_eq_bind, Option.bind_eq_some_iff] at hg ⊢
  obtain ⟨x, h1, h2⟩ := hg
  by_cases hK : K < n
  · rw [if_pos hK] at h2
    cases h2
    refine ⟨_, ⟨x, by rw [h.var]; exact h1, by rw [if_pos hK]; rfl⟩, ?_⟩
    rw [h.len]
    exact (h.append _).setVar d _
  · rw [if_neg hK] at h2
    cases h2
    exact ⟨_, ⟨x, by rw [h.var]; exact h1, by rw [if_neg hK]; rfl⟩, h.setVar d _⟩

theorem Sim.empty (h : Sim L p g) (s : Nat) : SimO L (p.empty s) (g.empty s) := by
  intro g' hg
  unfold SProg.empty at hg ⊢
  simp only [Option.bind_eq_bind, Option.bind_eq_some_iff] at hg ⊢
  obtain ⟨x, h1, h2⟩ := hg
  cases h2
  exact ⟨_, ⟨x, by rw [h.var]; exact h1, rfl⟩, h.setVar s _⟩

theorem sameArgs_cell (s : Nat) : SameArgs L (fun i p => (p : SProg V).cell s i) := fun _ _ _ _ h hc => h.cell hc

theorem Sim.build (h : Sim L p g) {f : Nat → SProg V → Option (Option V)} (hf : SameArgs L f) (d n : Nat) :
    SimO L (p.build false K d n f) (g.build false K d n f) := by
  intro g' hg
  unfold SProg.build at hg ⊢
  by_cases hn : n = 0
  · simp only [if_pos hn] at hg ⊢
    cases hg
    exact ⟨_, rfl, h.setVar d _⟩
  · simp only [if_neg hn, Option.bind_eq_bind, Option.bind_eq_some_iff] at hg ⊢
    obtain ⟨g1, h1, h2⟩ := hg
    obtain ⟨p1, h3, s1⟩ := (h.setVar d _).grab d n g1 h1
    obtain ⟨p2, h4, s2⟩ := Sim.constructFrom hf d n 0 s1 g' h2
    exact ⟨p2, ⟨p1, h3, h4⟩, s2⟩

theorem Sim.take (h : Sim L p g) (d s : Nat) : SimO L (p.take false K d s) (g.take false K d s) := by
  intro g' hg
  unfold SProg.take at hg ⊢
  rw [h.var d, h.var s]
  simp only [Option.bind_eq_bind, Option.bind_eq_some_iff] at hg ⊢
  obtain ⟨x, hx, y, hy, hg⟩ := hg
  by_cases hK : K < y.size
  · rw [if_pos hK] at hg
    obtain ⟨p', h1, h2⟩ := (h.setVar d _).empty s g' hg
    exact ⟨p', ⟨x, hx, y, hy, by rw [if_pos hK]; exact h1⟩, h2⟩
  · rw [if_neg hK] at hg
    by_cases h0 : y.size ≠ 0
    · rw [if_pos h0] at hg
      simp only [Option.bind_eq_some_iff] at hg
      obtain ⟨g1, h1, h2⟩ := hg
      obtain ⟨p1, h3, s1⟩ := Sim.constructFrom (sameArgs_cell s) d y.size 0 (h.setVar d _) g1 h1
      obtain ⟨p', h4, s2⟩ := s1.empty s g' h2
      refine ⟨p', ⟨x, hx, y, hy, ?_⟩, s2⟩
      rw [if_neg hK, if_pos h0]
      simp only [h3, Option.bind_some, h4]
    · rw [if_neg h0] at hg
      obtain ⟨p', h1, h2⟩ := (h.setVar d _).empty s g' hg
      exact ⟨p', ⟨x, hx, y, hy, by rw [if_neg hK, if_neg h0]; exact h1⟩, h2⟩

theorem Sim.assign (h : Sim L p g) (d s : Nat) : SimO L (p.assign false K d s) (g.assign false K d s) := by
  intro g' hg
  unfold SProg.assign at hg ⊢
  simp only [Option.bind_eq_bind, Option.bind_eq_some_iff] at hg ⊢
  obtain ⟨g1, h1, y, hy, hg⟩ := hg
  obtain ⟨p1, h2, s1⟩ := h.clean d g1 h1
  by_cases h0 : y.size = 0
  · rw [if_pos h0] at hg
    simp only [Option.bind_eq_some_iff] at hg
    obtain ⟨x, hx, hg⟩ := hg
    cases hg
    refine ⟨_, ⟨p1, h2, y, by rw [s1.var]; exact hy, ?_⟩, s1.setVar d _⟩
    rw [if_pos h0, s1.var d, hx]; rfl
  · rw [if_neg h0] at hg
    simp only [Option.bind_eq_some_iff] at hg
    obtain ⟨g2, h3, h4⟩ := hg
    obtain ⟨p2, h5, s2⟩ := s1.grab d y.size g2 h3
    obtain ⟨p3, h6, s3⟩ := Sim.constructFrom (sameArgs_cell s) d y.size 0 s2 g' h4
    refine ⟨p3, ⟨p1, h2, y, by rw [s1.var]; exact hy, ?_⟩, s3⟩
    rw [if_neg h0]
    simp only [h5, Option.bind_some, h6]

theorem Sim.step (h : Sim L p g) (dflt : V) (op : SOp V) : SimO L (p.step false K dflt op) (g.step false K dflt op) := by
  intro g' hg
  have hl : p.vars.length = g.vars.length := by rw [h.vars]
  have same : ∀ {g1 : SProg V}, some g = some g1 → ∃ p', some p = some p' ∧ Sim L p' g1 := by
    intro g1 e; cases e; exact ⟨p, rfl, h⟩
  cases op with
  | new d n =>
      simp only [SProg.step, h.var, hl] at hg ⊢
      split at hg
      · rename_i hc; rw [if_pos hc]; exact h.build (f := fun _ _ => some (some dflt)) (fun _ _ _ _ _ hc => hc) d n g' hg
      · rename_i hc; rw [if_neg hc]; exact same hg
  | newZero d n =>
      simp only [SProg.step, h.var, hl] at hg ⊢
      split at hg
      · rename_i hc; rw [if_pos hc]; exact h.build (f := fun _ _ => some (some dflt)) (fun _ _ _ _ _ hc => hc) d n g' hg
      · rename_i hc; rw [if_neg hc]; exact same hg
  | newFrom d vs =>
      simp only [SProg.step, h.var, hl] at hg ⊢
      split at hg
      · rename_i hc; rw [if_pos hc]; exact h.build (f := fun i _ => vs[i]?.map some) (fun _ _ _ _ _ hc => hc) d _ g' hg
      · rename_i hc; rw [if_neg hc]; exact same hg
  | copy d s =>
      simp only [SProg.step, h.var, hl] at hg ⊢
      cases hs : g.var s with
      | none => rw [hs] at hg; exact same hg
      | some y =>
          rw [hs] at hg
          simp only at hg ⊢
          split at hg
          · rename_i hc; rw [if_pos hc]; exact h.build (sameArgs_cell s) d _ g' hg
          · rename_i hc; rw [if_neg hc]; exact same hg
  | move d s =>
      simp only [SProg.step, h.var, hl] at hg ⊢
      cases hs : g.var s with
      | none => rw [hs] at hg; exact same hg
      | some y =>
          rw [hs] at hg
          simp only at hg ⊢
          split at hg
          · rename_i hc; rw [if_pos hc]; exact (h.setVar d _).take d s g' hg
          · rename_i hc; rw [if_neg hc]; exact same hg
  | copyAssign d s =>
      simp only [SProg.step, h.var] at hg ⊢
      cases hd : g.var d with
      | none => rw [hd] at hg; exact same hg
      | some x =>
          cases hs : g.var s with
          | none => rw [hd, hs] at hg; exact same hg
          | some y =>
              rw [hd, hs] at hg
              exact h.assign d s g' hg
  | moveAssign d s =>
      simp only [SProg.step, h.var] at hg ⊢
      cases hd : g.var d with
      | none => rw [hd] at hg; exact same hg
      | some x =>
          cases hs : g.var s with
          | none => rw [hd, hs] at hg; exact same hg
          | some y =>
              rw [hd, hs] at hg
              simp only [Option.bind_eq_bind, Option.bind_eq_some_iff] at hg ⊢
              obtain ⟨g1, h1, h2⟩ := hg
              obtain ⟨p1, h3, s1⟩ := h.clean d g1 h1
              obtain ⟨p2, h4, s2⟩ := s1.take d s g' h2
              exact ⟨p2, ⟨p1, h3, h4⟩, s2⟩
  | destroy d =>
      simp only [SProg.step, h.var] at hg ⊢
      cases hd : g.var d with
      | none => rw [hd] at hg; exact same hg
      | some x =>
          rw [hd] at hg
          simp only [Option.bind_eq_bind, Option.bind_eq_some_iff] at hg ⊢
          obtain ⟨g1, h1, x1, hx1, h2⟩ := hg
          obtain ⟨p1, h3, s1⟩ := h.clean d g1 h1
          split at h2
          · cases h2
          · rename_i hc
            cases h2
            exact ⟨_, ⟨p1, h3, x1, by rw [s1.var]; exact hx1, by rw [if_neg hc]; rfl⟩, s1.setVar d none⟩
  | write d i v =>
      simp only [SProg.step, h.var] at hg ⊢
      cases hd : g.var d with
      | none => rw [hd] at hg; exact same hg
      | some x =>
          rw [hd] at hg
          simp only at hg ⊢
          split at hg
          · rename_i hi
            rw [if_pos hi]
            simp only [Option.bind_eq_bind, Option.bind_eq_some_iff] at hg ⊢
            obtain ⟨old, h1, h2⟩ := hg
            split at h2
            · cases h2
            · rename_i hc
              obtain ⟨p', h3, h4⟩ := h.setCell d i (some v) g' h2
              exact ⟨p', ⟨old, h.cell h1, by rw [if_neg hc]; exact h3⟩, h4⟩
          · rename_i hi; rw [if_neg hi]; exact same hg

/-! ## Loops that fail -/

theorem firstFail_succ (fails : Nat → Bool) (t n : Nat) :
    firstFail fails t (n + 1) = if fails t then some 0 else (firstFail fails (t + 1) n).map (· + 1) := by
  unfold firstFail
  rw [List.range_succ_eq_map, List.find?_cons, Nat.add_zero]
  cases fails t with
  | true => rfl
  | false =>
      rw [if_neg (by simp), List.find?_map]
      have : ((fun j => fails (t + j)) ∘ Nat.succ) = fun j => fails (t + 1 + j) := by
        funext j; simp only [Function.comp, Nat.succ_eq_add_one]; congr 1; omega
      simp only [this]

theorem firstFail_lt {fails : Nat → Bool} {t n k : Nat} (h : firstFail fails t n = some k) : k < n := by
  have := List.mem_of_find?_eq_some h
  simpa using this

/-- The loop with failures, when it would succeed without. -/
theorem fill_spec (fails : Nat → Bool) (d : Nat) (f : Nat → SProg V → Option (Option V)) (n : Nat) :
    ∀ (i : Nat) (p p' : SProg V) (t c : Nat), constructFrom false d f n i p = some p' →
      (firstFail fails t n = none → Small.fill fails d f n i ⟨p, t, c⟩ = .ok ⟨p', t + n, c⟩) ∧
      ∀ k, firstFail fails t n = some k → ∃ pk, constructFrom false d f k i p = some pk ∧
        Small.fill fails d f n i ⟨p, t, c⟩ = .threw ⟨pk, t + k + 1, c⟩ ∧ pk.cell d (i + k) = some none := by
  induction n with
  | zero =>
      intro i p p' t c h
      cases h
      exact ⟨fun _ => rfl, fun k hk => by simp [firstFail] at hk⟩
  | succ n ih =>
      intro i p p' t c h
      simp only [SProg.constructFrom, Option.bind_eq_bind, Option.bind_eq_some_iff] at h
      obtain ⟨e, h1, p1, h2, h3⟩ := h
      have h2' := h2
      simp only [SProg.construct, Option.bind_eq_bind, Option.bind_eq_some_iff] at h2'
      obtain ⟨old, h4, h5⟩ := h2'
      split at h5
      · cases h5
      · rename_i hn
        have ho : old = none := by
          cases old with
          | none => rfl
          | some v => exact absurd ⟨trivial, Or.inl rfl⟩ hn
        subst ho
        cases e with
        | none => exact absurd ⟨trivial, Or.inr rfl⟩ hn
        | some v =>
            rw [firstFail_succ]
            by_cases hf : fails t = true
            · rw [if_pos hf]
              refine ⟨fun h => by simp at h, fun k hk => ?_⟩
              cases hk
              refine ⟨p, rfl, ?_, h4⟩
              simp [Small.fill, h1, hf]
            · rw [if_neg hf]
              obtain ⟨i1, i2⟩ := ih (i + 1) p1 p' (t + 1) c h3
              have hstep : Small.fill fails d f (n + 1) i ⟨p, t, c⟩ = Small.fill fails d f n (i + 1) ⟨p1, t + 1, c⟩ := by
                simp [Small.fill, h1, hf, h2]
              rw [hstep]
              refine ⟨fun h => ?_, fun k hk => ?_⟩
              · rw [i1 (by simpa using h)]; congr 2; omega
              · obtain ⟨j, hj, rfl⟩ := Option.map_eq_some_iff.mp hk
                obtain ⟨pk, h6, h7, h8⟩ := i2 j hj
                refine ⟨pk, ?_, ?_, ?_⟩
                · simp [SProg.constructFrom, h1, h2, h6]
                · rw [h7]; congr 2; omega
                · rw [← h8]; congr 1; omega

theorem setCell_var {p p' : SProg V} {d i : Nat} {c : Option V} (h : p.setCell d i c = some p') {x : Sso V} (hx : p.var d = some x) :
    ∃ x', p'.var d = some x' ∧ x'.data = x.data ∧ x'.size = x.size := by
  have hd := lt_of_var' hx
  simp only [SProg.setCell, hx, Option.bind_eq_bind, Option.bind_some] at h
  cases hdt : x.data with
  | null => rw [hdt] at h; cases h
  | inline =>
      rw [hdt] at h
      simp only at h
      split at h
      · cases h; exact ⟨_, var_set_self hd _, rfl, rfl⟩
      · cases h
  | block b =>
      rw [hdt] at h
      simp only [Option.bind_eq_some_iff] at h
      obtain ⟨blk, -, h⟩ := h
      split at h
      · cases h; exact ⟨x, hx, hdt, rfl⟩
      · cases h

theorem constructFrom_var {d : Nat} {f : Nat → SProg V → Option (Option V)} (n : Nat) : ∀ {i : Nat} {p p' : SProg V} {x : Sso V},
    constructFrom false d f n i p = some p' → p.var d = some x → ∃ x', p'.var d = some x' ∧ x'.data = x.data ∧ x'.size = x.size := by
  induction n with
  | zero => intro i p p' x h hx; cases h; exact ⟨x, hx, rfl, rfl⟩
  | succ n ih =>
      intro i p p' x h hx
      simp only [SProg.constructFrom, SProg.construct, Option.bind_eq_bind, Option.bind_eq_some_iff] at h
      obtain ⟨e, -, p1, ⟨old, -, h2⟩, h3⟩ := h
      split at h2
      · cases h2
      · obtain ⟨x1, h4, h5, h6⟩ := setCell_var h2 hx
        obtain ⟨x2, h7, h8, h9⟩ := ih h3 h4
        exact ⟨x2, h7, h8.trans h5, h9.trans h6⟩

/-- Setting one cell leaves the others alone. -/
theorem setCell_cell_ne {p p' : SProg V} {d i j : Nat} {c : Option V} (h : p.setCell d i c = some p') (hij : i ≠ j) : p'.cell d j = p.cell d j := by
  simp only [SProg.setCell, Option.bind_eq_bind, Option.bind_eq_some_iff] at h
  obtain ⟨x, hx, h⟩ := h
  have hd := lt_of_var' hx
  cases hdt : x.data with
  | null => rw [hdt] at h; cases h
  | inline =>
      rw [hdt] at h
      simp only at h
      split at h
      · cases h
        simp only [SProg.cell, var_set_self hd, hx, Option.bind_eq_bind, Option.bind_some, hdt]
        rw [List.getElem?_set_ne hij]
      · cases h
  | block b =>
      rw [hdt] at h
      simp only [Option.bind_eq_some_iff] at h
      obtain ⟨blk, hb, h⟩ := h
      split at h
      · cases h
        have hb' := Heap.live_some.mp hb
        have hlt := (List.getElem?_eq_some_iff.mp hb'.1).1
        have : Heap.live (p.hp.set b { blk with cells := blk.cells.set i c }) b = some { blk with cells := blk.cells.set i c } :=
          Heap.live_some.mpr ⟨by simp [hlt], hb'.2⟩
        simp only [SProg.cell, var_hp, hx, Option.bind_eq_bind, Option.bind_some, hdt, this, hb]
        rw [List.getElem?_set_ne hij]
      · cases h

/-- The destructor meets an element that does not exist. -/
theorem destroyFrom_raw {d k : Nat} (n : Nat) : ∀ {i : Nat} {p : SProg V}, i ≤ k → k < i + n → p.cell d k = some none →
    destroyFrom d n i p = none := by
  induction n with
  | zero => intro i p h1 h2; omega
  | succ n ih =>
      intro i p h1 h2 h3
      rw [SProg.destroyFrom]
      by_cases e : i = k
      · subst e
        simp [SProg.destroyCell, h3]
      · cases hc : p.destroyCell d i with
        | none => rfl
        | some p1 =>
            simp only [Option.bind_eq_bind, Option.bind_some]
            refine ih (by omega) (by omega) ?_
            simp only [SProg.destroyCell, Option.bind_eq_bind, Option.bind_eq_some_iff] at hc
            obtain ⟨old, -, h4⟩ := hc
            split at h4
            · cases h4
            · rw [setCell_cell_ne h4 e]; exact h3

end Nda.Mem.SProg
