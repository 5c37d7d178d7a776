import Verif.Lemmas.Exceptions
/-!
# C69: what arrays do when the constructors of their elements throw

`World` says which calls of constructors throw, which allocations fail, whether `ASSERT` is compiled in and
whether the stack is unwound before `std::terminate`; all theorems hold for every such world.
-/
namespace Nda.Exc
open Nda.Mem Spec

variable {V : Type}

/-- What a program sees of variable `d`: its size and the elements it can read. -/
def Shows (p : St V) (d : Nat) (y : Option (AArr V)) : Prop :=
  match p.var d, y with
  | none, none => True
  | some x, some y => x.len = y.len ∧ ∀ i, (x.data.bind fun b => p.m.hp.read b i) = y.elems[i]?
  | _, _ => False

/-- A state that some program of `N` variables reaches, catching exceptions. -/
def Reach (w : World) (dflt : V) (N : Nat) (p : St V) : Prop :=
  ∃ ops tr, (St.init N).run w dflt ops = .ok (p, tr)

/-- The blocks that are not released. -/
def unreleased (p : St V) : Nat := p.m.hp.countP fun blk => !blk.freed

/-- The arrays with memory. -/
def owners (p : St V) : Nat := p.vars.countP fun o => (o.bind Arr.data).isSome

section
variable {w : World} {dflt : V} {N : Nat} {p : St V}

theorem Reach.rel (h : Reach w dflt N p) : ∃ s : AS V, R p s := by
  obtain ⟨ops, tr, h⟩ := h
  have := run_rel w dflt (R.init N) ops
  rw [h] at this
  generalize AS.run w dflt (AS.init N) ops = q at this
  cases q <;> simp only [Rel] at this
  exact ⟨_, this.1⟩

theorem read_of {hp : Heap V} {x : Arr} {y : AArr V} (h : ArrOK hp x y) (i : Nat) :
    (x.data.bind fun b => hp.read b i) = y.elems[i]? := by
  rcases h.2 with ⟨a1, a2, -⟩ | ⟨b, a1, a2, a3, a4, a5⟩
  · simp [a1, a2]
  · rw [a1]
    simp only [Option.bind_some, Heap.read, Heap.live, a5]
    simp only [Option.bind_eq_bind, Option.bind_some, Bool.false_eq_true, if_false, Option.pure_def, List.getElem?_map]
    cases y.elems[i]? <;> rfl

theorem R.arr {s : AS V} (h : R p s) {d : Nat} {x : Arr} (hx : p.var d = some x) : ∃ y, s.var d = some y ∧ ArrOK p.m.hp x y := by
  obtain ⟨E, hp, hs, r⟩ := h
  rw [var_of hp] at hx
  cases hd : (E[d]?).join with
  | none => rw [hd] at hx; cases hx
  | some e =>
      obtain ⟨ex, ey⟩ := e
      rw [hd] at hx; cases hx
      exact ⟨ey, by rw [avar_of hs, hd]; rfl, (r.perm (alive_take hd).symm).arr⟩

theorem R.tick {s : AS V} (h : R p s) : p.m.tick = s.tick := by
  obtain ⟨E, -, -, r⟩ := h; exact r.tick

theorem R.blocks {s : AS V} (h : R p s) : p.m.hp.length = s.blocks := by
  obtain ⟨E, -, -, r⟩ := h; exact r.blocks

theorem R.shows {s : AS V} (h : R p s) (d : Nat) : Shows p d (s.var d) := by
  cases hx : p.var d with
  | none =>
      obtain ⟨E, hp, hs, r⟩ := h
      rw [var_of hp] at hx
      have : s.var d = none := by rw [avar_of hs]; simpa using hx
      unfold Shows; rw [var_of hp, this]; simp only [hx]
  | some x =>
      obtain ⟨y, hy, ha⟩ := h.arr hx
      unfold Shows
      rw [hx, hy]
      exact ⟨ha.1, read_of ha⟩

end

/-- **C69.** Whatever throws, a program on arrays ends as the program on lists does: normally and with the same
elements in every variable and the same exceptions seen, by `std::terminate`, or with undefined behaviour. -/
theorem C69_refines (w : World) (dflt : V) (N : Nat) (ops : List (Op V)) :
    Same (fun a b => a.2 = b.2 ∧ ∀ d, Shows a.1 d (b.1.var d)) ((St.init N).run w dflt ops) ((AS.init N).run w dflt ops) := by
  have := run_rel w dflt (R.init N) ops
  generalize St.run w dflt (St.init N) ops = o at this
  generalize AS.run w dflt (AS.init N) ops = q at this
  cases o <;> cases q <;> simp only [Rel] at this <;> simp only [Same]
  exact ⟨this.2, this.1.shows⟩

/-- Only the second of two elements throws. -/
def second : World := ⟨fun t => t == 1, fun _ => false, true, true⟩

example : (St.init 2).run second 0 [.make 0 1, .resize 0 3, .read 0 0, .resize 0 1, .read 0 0] =
    .ok (⟨⟨[⟨[some 0], false⟩, ⟨[none, none, none], false⟩], 2⟩, [some ⟨1, some 0, 1⟩, none]⟩, [false, true, false, false, false]) := by
  decide +kernel

/-! ## Memory -/

theorem leaked_step (w : World) (dflt : V) (s : AS V) (op : Op V) :
    (∀ s', s.step w dflt op = .ok s' → s'.leaked = s.leaked) ∧
    (∀ s', s.step w dflt op = .threw s' → s'.leaked = s.leaked + 1 ∧ ∃ d n, op = .resize d n) := by
  have hg : ∀ n, (∀ s', s.grow w n = .ok s' → s'.leaked = s.leaked) ∧ (∀ s', s.grow w n = .threw s' → s'.leaked = s.leaked + 1) := by
    intro n
    unfold AS.grow
    split
    · simp
    · split
      · split <;> simp
      · split
        · simp +contextual [eq_comm]
        · simp +contextual [eq_comm]
  have hd : ∀ y, (∀ r, s.dup w y = .ok r → r.2.leaked = s.leaked) := by
    intro y r
    unfold AS.dup
    split
    · rintro ⟨⟩; rfl
    · split
      · split
        · simp
        · rintro ⟨⟩; rfl
      · split
        · simp
        · split
          · rintro ⟨⟩; rfl
          · simp
  have ht : ∀ (s : AS V) n k s', s.touch w n k = .ok s' → s'.leaked = s.leaked := by
    intro s n k s'
    unfold AS.touch
    split
    · simp
    · split
      · rintro ⟨⟩; rfl
      · simp
  cases op with
  | make d n =>
      unfold AS.step
      dsimp only
      split
      · cases hq : s.grow w n with
        | ok s' => simp [AS.setVar, (hg _).1 _ hq]
        | threw s' => simp
        | terminate => simp
        | ub => simp
      · simp
  | build d vs =>
      unfold AS.step
      dsimp only
      split
      · cases hq : s.grow w vs.length with
        | ok s' => simp [AS.setVar, (hg _).1 _ hq]
        | threw s' => cases w.unwinds <;> simp
        | terminate => simp
        | ub => simp
      · simp
  | copy d x =>
      unfold AS.step
      dsimp only
      split
      · split
        · split
          · split <;> simp
          · rename_i y _ _ _
            cases hq : s.dup w y with
            | ok r => simp [AS.setVar, hd _ _ hq]
            | threw s' => simp
            | terminate => simp
            | ub => simp
        · simp
      · simp
  | move d x =>
      unfold AS.step
      dsimp only
      split
      · split <;> simp [AS.setVar]
      · simp
  | moveAssign d x =>
      unfold AS.step
      dsimp only
      split <;> simp [AS.setVar]
  | copyAssign d x =>
      unfold AS.step
      dsimp only
      split
      · rename_i y _ _
        cases hq : s.dup w y with
        | ok r => simp [AS.setVar, hd _ _ hq]
        | threw s' => simp
        | terminate => simp
        | ub => simp
      · simp
  | assign d vs =>
      unfold AS.step
      dsimp only
      split
      · rename_i x hx
        have h1 : ∀ s', (if AS.needs x vs.length = true then s.grow w vs.length else .ok s) = .ok s' → s'.leaked = s.leaked := by
          intro s'; split
          · exact (hg _).1 s'
          · rintro ⟨⟩; rfl
        cases hq : (if AS.needs x vs.length = true then s.grow w vs.length else .ok s) with
        | ok s1 =>
            dsimp only
            cases hq2 : s1.touch w vs.length vs.length with
            | ok s2 => simp [AS.setVar, ht _ _ _ _ hq2, h1 _ hq]
            | threw s' => simp
            | terminate => simp
            | ub => simp
        | threw s' => simp
        | terminate => simp
        | ub => simp
      · simp
  | fill d v =>
      unfold AS.step
      dsimp only
      split
      · rename_i x hx
        cases hq2 : s.touch w x.len x.elems.length with
        | ok s2 => simp [AS.setVar, ht _ _ _ _ hq2]
        | threw s' => simp
        | terminate => simp
        | ub => simp
      · simp
  | resize d n =>
      unfold AS.step
      dsimp only
      split
      · split
        · cases hq : s.grow w n with
          | ok s' => simp [AS.setVar, (hg _).1 _ hq]
          | threw s' => simp [AS.setVar, (hg _).2 _ hq]
          | terminate => simp
          | ub => simp
        · simp [AS.setVar]
      · simp
  | read d i =>
      unfold AS.step
      dsimp only
      split
      · split
        · split <;> simp
        · simp
      · simp
  | destroy d =>
      unfold AS.step
      dsimp only
      split <;> simp [AS.setVar]

theorem leaked_run (w : World) (dflt : V) (s : AS V) (ops : List (Op V)) {s' : AS V} {tr : List Bool}
    (h : s.run w dflt ops = .ok (s', tr)) : s'.leaked = s.leaked + tr.count true := by
  induction ops generalizing s tr with
  | nil => simp [AS.run] at h; rw [← h.1, h.2]; rfl
  | cons op ops ih =>
      unfold AS.run at h
      obtain ⟨h1, h2⟩ := leaked_step w dflt s op
      cases hq : s.step w dflt op with
      | ok q =>
          rw [hq] at h
          dsimp only at h
          cases hr : q.run w dflt ops with
          | ok r =>
              rw [hr] at h
              simp only [Out.bind, Out.ok.injEq, Prod.mk.injEq] at h
              obtain ⟨rfl, rfl⟩ := h
              have := ih q (tr := r.2) hr
              rw [this, h1 q hq]; simp
          | threw r => rw [hr] at h; simp [Out.bind] at h
          | terminate => rw [hr] at h; simp [Out.bind] at h
          | ub => rw [hr] at h; simp [Out.bind] at h
      | threw q =>
          rw [hq] at h
          dsimp only at h
          cases hr : q.run w dflt ops with
          | ok r =>
              rw [hr] at h
              simp only [Out.bind, Out.ok.injEq, Prod.mk.injEq] at h
              obtain ⟨rfl, rfl⟩ := h
              have := ih q (tr := r.2) hr
              rw [this, (h2 q hq).1]; simp; omega
          | threw r => rw [hr] at h; simp [Out.bind] at h
          | terminate => rw [hr] at h; simp [Out.bind] at h
          | ub => rw [hr] at h; simp [Out.bind] at h
      | terminate => rw [hq] at h; simp at h
      | ub => rw [hq] at h; simp at h

theorem countP_owns (H : List (Arr × AArr V)) (n : Nat) (hH : ∀ e ∈ H, ∀ b, e.1.data = some b → b < n) :
    ((List.range n).map fun b => H.countP (owns b)).sum = H.countP fun e => e.1.data.isSome := by
  induction H with
  | nil =>
      simp only [List.countP_nil]
      induction n with
      | zero => rfl
      | succ n ih => rw [List.range_succ, List.map_append, List.sum_append, ih (by simp)]; rfl
  | cons e H ih =>
      have hsum : ∀ (f g : Nat → Nat) (l : List Nat), (l.map fun b => f b + g b).sum = (l.map f).sum + (l.map g).sum := by
        intro f g l
        induction l with
        | nil => rfl
        | cons a l ihl => simp only [List.map_cons, List.sum_cons, ihl]; omega
      simp only [List.countP_cons]
      rw [hsum, ih (fun e' he' => hH e' (by simp [he']))]
      congr 1
      cases hd : e.1.data with
      | none =>
          have : ∀ b, owns b e = false := by intro b; simp [owns, hd]
          simp only [this, Bool.false_eq_true, if_false, Option.isSome_none]
          clear ih hH
          induction n with
          | zero => rfl
          | succ n ih => rw [List.range_succ, List.map_append, List.sum_append, ih]; rfl
      | some b0 =>
          have hb := hH e (by simp) b0 hd
          have : ∀ b, (if owns b e = true then 1 else 0) = if b0 = b then 1 else 0 := by
            intro b; simp [owns, hd]
          simp only [this, Option.isSome_some, if_true]
          clear ih hH this
          induction n with
          | zero => omega
          | succ n ih =>
              rw [List.range_succ, List.map_append, List.sum_append]
              by_cases h : b0 < n
              · rw [ih h]; simp; omega
              · have : b0 = n := by omega
                subst this
                have hz : ∀ k, k ≤ b0 → ((List.range k).map fun b => if b0 = b then 1 else 0).sum = 0 := by
                  intro k hk
                  induction k with
                  | zero => rfl
                  | succ k ihk =>
                      rw [List.range_succ, List.map_append, List.sum_append, ihk (by omega)]
                      simp; omega
                rw [hz b0 (Nat.le_refl _)]; simp

theorem sum_count (L : List Nat) (n : Nat) (hL : ∀ b ∈ L, b < n) : ((List.range n).map fun b => L.count b).sum = L.length := by
  have := countP_owns (V := Unit) (L.map fun b => (⟨0, some b, 0⟩, ⟨0, [], 0⟩)) n (by
    intro e he b hb
    obtain ⟨c, hc, rfl⟩ := List.mem_map.mp he
    cases hb
    exact hL _ hc)
  have e1 : ∀ b, List.countP (owns b) (L.map fun b => ((⟨0, some b, 0⟩, ⟨0, [], 0⟩) : Arr × AArr Unit)) = L.count b := by
    intro b
    rw [List.countP_map, List.count]
    congr 1
  simp only [e1] at this
  rw [this, List.countP_map]
  simp [Function.comp_def]

theorem unreleased_eq {hp : Heap V} {H : List (Arr × AArr V)} {L : List Nat} (g : G hp H L) :
    hp.countP (fun blk => !blk.freed) = (H.countP fun e => e.1.data.isSome) + L.length := by
  have hsum : ∀ (f g : Nat → Nat) (l : List Nat), (l.map fun b => f b + g b).sum = (l.map f).sum + (l.map g).sum := by
    intro f g l
    induction l with
    | nil => rfl
    | cons a l ihl => simp only [List.map_cons, List.sum_cons, ihl]; omega
  rw [← countP_owns H hp.length (fun e he b hb => g.lt_of_owns he hb), ← sum_count L hp.length g.lk, ← hsum]
  have hc : ∀ (l : Heap V), l.countP (fun blk => !blk.freed) = ((List.range l.length).map fun b => if (l[b]?.map Block.freed) = some false then 1 else 0).sum := by
    intro l
    induction l with
    | nil => rfl
    | cons k l ih =>
        rw [List.countP_cons, List.length_cons, List.range_succ_eq_map, List.map_cons, List.sum_cons, List.map_map]
        have : ((fun b => if ((k :: l)[b]?.map Block.freed) = some false then 1 else 0) ∘ Nat.succ) =
            fun b => if (l[b]?.map Block.freed) = some false then 1 else 0 := by
          funext b; simp [Function.comp]
        rw [this, ← ih]
        cases hk : k.freed <;> simp [hk] <;> omega
  rw [hc hp]
  congr 1
  apply List.map_congr_left
  intro b hb
  simp at hb
  have hb' : hp[b]? = some hp[b] := List.getElem?_eq_getElem hb
  have := g.cnt b _ hb'
  rw [hb', this]
  cases hf : hp[b].freed <;> simp [hf]

/-- **C69.** Every exception that a program catches costs one block, for ever: the blocks that are not released
are those of the arrays, and one for each exception.  (Only `resize` throws: `C69_only_resize`.) -/
theorem C69_leaks (w : World) (dflt : V) (N : Nat) (ops : List (Op V)) (p : St V) (tr : List Bool)
    (h : (St.init N).run w dflt ops = .ok (p, tr)) : unreleased p = owners p + tr.count true := by
  have hr := run_rel w dflt (R.init N) ops
  rw [h] at hr
  cases hq : AS.run w dflt (AS.init N) ops with
  | ok b =>
      rw [hq] at hr
      obtain ⟨⟨E, hp, hs, r⟩, he⟩ := hr
      obtain ⟨-, -, L, h3, g⟩ := r
      have hl := leaked_run w dflt (AS.init N) ops (s' := b.1) (tr := b.2) hq
      dsimp only at he
      unfold unreleased owners
      dsimp only at g hp
      rw [unreleased_eq g, h3, hl, he, hp]
      simp only [AS.init, Nat.zero_add]
      congr 1
      rw [List.countP_map]
      unfold alive
      clear hp hs h3 g hl hq h
      induction E with
      | nil => rfl
      | cons o E ih =>
          cases o with
          | none => simpa [List.countP_cons] using ih
          | some e => simpa [List.countP_cons] using ih
  | threw b => rw [hq] at hr; simp [Rel] at hr
  | terminate => rw [hq] at hr; simp [Rel] at hr
  | ub => rw [hq] at hr; simp [Rel] at hr

/-- **C69.** The only operation from which an exception reaches the program is `resize`. -/
theorem C69_only_resize (w : World) (dflt : V) (N : Nat) (p : St V) (hp : Reach w dflt N p) (op : Op V) (q : St V)
    (h : p.step w dflt op = .threw q) : ∃ d n, op = .resize d n := by
  obtain ⟨s, hR⟩ := hp.rel
  have := step_rel w dflt hR op
  rw [h] at this
  cases hq : s.step w dflt op <;> rw [hq] at this <;> simp only [Rel] at this
  exact ((leaked_step w dflt s op).2 _ hq).2

/-! ## `resize` -/

theorem needs_newStorage (w : World) (dflt : V) (n : Nat) (m : M V) (hn : n ≠ 0) (ho : w.oom m.hp.length = false) {j : Nat}
    (hf : firstFail w m.tick n = some j) :
    newStorage w dflt n m = .threw ((none, 0), ⟨m.hp ++ [⟨List.replicate j (some dflt) ++ List.replicate (n - j) none, false⟩], m.tick + j + 1⟩) := by
  have hj := firstFail_lt hf
  unfold newStorage allocate
  rw [if_neg hn, ho]
  simp only [Bool.false_eq_true, if_false, Heap.alloc]
  have := fresh_spec w (fun _ _ => some dflt) (List.replicate n dflt) m (by
    intro j cells hj; simp at hj; simp [hj])
  rw [List.length_replicate] at this
  rw [this, hf]
  simp [Out.bind, Nat.min_eq_left (Nat.le_of_lt hj)]

/-- **C69.** `resize` to `n` elements when the constructor of the `j`-th new element throws: the exception reaches the
caller, the array announces `n` elements but keeps its old storage, and the new block, with `j` elements that are
never destroyed, is lost. -/
theorem C69_resize (w : World) (dflt : V) (p : St V) (d n j : Nat) (x : Arr) (hx : p.var d = some x)
    (hs : x.data = none ∨ x.size ≠ n) (ho : w.oom p.m.hp.length = false) (hj : j < n)
    (hok : ∀ k < j, w.fails (p.m.tick + k) = false) (hfail : w.fails (p.m.tick + j) = true) :
    p.step w dflt (.resize d n) = .threw
      ⟨⟨p.m.hp ++ [⟨List.replicate j (some dflt) ++ List.replicate (n - j) none, false⟩], p.m.tick + j + 1⟩,
        p.vars.set d (some ⟨n, x.data, x.size⟩)⟩ := by
  have hff : firstFail w p.m.tick n = some j := by
    unfold firstFail
    rw [List.find?_range_eq_some]
    exact ⟨by simpa using hfail, by simpa using hj, fun k hk => by simp [hok k hk]⟩
  unfold St.step
  dsimp only
  rw [hx]
  dsimp only
  unfold resize
  dsimp only
  rw [if_pos hs, needs_newStorage w dflt n p.m (by omega) ho hff]
  rfl

example : (St.init 1).run (V := Nat) ⟨fun t => t == 4, fun _ => false, true, true⟩ 7 [.make 0 2, .resize 0 5] =
    .ok (⟨⟨[⟨[some 7, some 7], false⟩, ⟨[some 7, some 7, none, none, none], false⟩], 5⟩, [some ⟨5, some 0, 2⟩]⟩, [false, true]) := by
  decide +kernel

/-- **C69.** After that, element `i` of the announced `n` can be read only if it was an element before: every other
index within the shape is undefined behaviour. -/
theorem C69_resize_then_read (w : World) (dflt : V) (N : Nat) (p : St V) (hp : Reach w dflt N p) (d n j : Nat) (x : Arr)
    (hx : p.var d = some x) (hs : x.data = none ∨ x.size ≠ n) (ho : w.oom p.m.hp.length = false) (hj : j < n)
    (hok : ∀ k < j, w.fails (p.m.tick + k) = false) (hfail : w.fails (p.m.tick + j) = true) (i : Nat) (hi : i < n) :
    ∃ q, p.step w dflt (.resize d n) = .threw q ∧
      q.step w dflt (.read d i) = if x.data ≠ none ∧ i < x.size then .ok q else .ub := by
  refine ⟨_, C69_resize w dflt p d n j x hx hs ho hj hok hfail, ?_⟩
  obtain ⟨s, hR⟩ := hp.rel
  obtain ⟨y, hy, ha⟩ := hR.arr hx
  have hd : d < p.vars.length := by
    rcases Nat.lt_or_ge d p.vars.length with h | h
    · exact h
    · unfold St.var at hx; rw [List.getElem?_eq_none h] at hx; cases hx
  have ha' := G.ArrOK_append ha ⟨List.replicate j (some dflt) ++ List.replicate (n - j) none, false⟩
  have hrd := read_of ha' i
  unfold St.step
  simp only [St.var, List.getElem?_set_self hd, Option.join_some, if_pos hi]
  rw [hrd]
  rcases ha.2 with ⟨a1, a2, -⟩ | ⟨b, a1, a2, a3, a4, a5⟩
  · simp [a1, a2]
  · rw [a4, a1]
    by_cases hlt : i < y.elems.length
    · simp [hlt]
    · rw [List.getElem?_eq_none (by omega)]; simp [hlt]

/-- **C69.** … and resizing back to the size of the storage cannot fail and gives the old array back. -/
theorem C69_resize_back (w : World) (dflt : V) (p : St V) (d n j b : Nat) (x : Arr) (hx : p.var d = some x) (hb : x.data = some b)
    (hs : x.size ≠ n) (ho : w.oom p.m.hp.length = false) (hj : j < n)
    (hok : ∀ k < j, w.fails (p.m.tick + k) = false) (hfail : w.fails (p.m.tick + j) = true) :
    ∃ q q', p.step w dflt (.resize d n) = .threw q ∧ q.step w dflt (.resize d x.size) = .ok q' ∧
      q'.var d = some ⟨x.size, x.data, x.size⟩ ∧ q'.m = q.m := by
  refine ⟨_, ⟨⟨p.m.hp ++ [⟨List.replicate j (some dflt) ++ List.replicate (n - j) none, false⟩], p.m.tick + j + 1⟩,
        p.vars.set d (some ⟨x.size, x.data, x.size⟩)⟩, C69_resize w dflt p d n j x hx (Or.inr hs) ho hj hok hfail, ?_⟩
  have hd : d < p.vars.length := by
    rcases Nat.lt_or_ge d p.vars.length with h | h
    · exact h
    · unfold St.var at hx; rw [List.getElem?_eq_none h] at hx; cases hx
  refine ⟨?_, ?_, ?_⟩
  · unfold St.step
    simp only [St.var, List.getElem?_set_self hd, Option.join_some]
    unfold resize
    simp [hb, St.upd, St.setVar]
  · simp [St.var, hd]
  · rfl

/-! ## Copies -/

/-- **C69.** A copy assignment during which the copy of an element throws is undefined behaviour: the destructor of the
half-made copy destroys elements that were never constructed. -/
theorem C69_copy_assign (w : World) (dflt : V) (N : Nat) (p : St V) (hp : Reach w dflt N p) (d s j : Nat) (x y : Arr)
    (hx : p.var d = some x) (hy : p.var s = some y) (hm : y.data ≠ none) (ho : w.oom p.m.hp.length = false)
    (hj : j < y.size) (hfail : w.fails (p.m.tick + j) = true) :
    p.step w dflt (.copyAssign d s) = .ub := by
  obtain ⟨a, hR⟩ := hp.rel
  obtain ⟨ax, hax, -⟩ := hR.arr hx
  obtain ⟨ay, hay, hok⟩ := hR.arr hy
  have hrel := step_rel w dflt hR (.copyAssign d s)
  have : a.step w dflt (.copyAssign d s) = .ub := by
    unfold AS.step
    simp only [hax, hay]
    rcases hok.2 with ⟨a1, -⟩ | ⟨b, a1, a2, a3, a4, a5⟩
    · exact absurd a1 hm
    · rw [hR.blocks] at ho
      rw [hR.tick] at hfail
      have hff : firstFail w a.tick ay.elems.length ≠ none := by
        rw [ne_eq, firstFail_none_iff]
        intro h; rw [h j (by omega)] at hfail; cases hfail
      unfold AS.dup
      simp only [a3, false_and, if_false, ho, Bool.false_eq_true]
      cases hq : firstFail w a.tick ay.elems.length with
      | none => exact absurd hq hff
      | some k => rfl
  rw [this] at hrel
  cases hq : p.step w dflt (.copyAssign d s) <;> rw [hq] at hrel <;> simp [Rel] at hrel

example : (St.init 2).run (V := Nat) ⟨fun t => t == 4, fun _ => false, true, false⟩ 7 [.make 0 2, .make 1 1, .copyAssign 1 0] = .ub := by
  decide +kernel

/-- **C69.** Without memory and without `ASSERT`, a copy succeeds: the new array announces all elements and has none of
them, and every read within its shape is undefined behaviour. -/
theorem C69_copy_without_memory (w : World) (dflt : V) (p : St V) (d s : Nat) (y : Arr)
    (hd : p.var d = none) (hdl : d < p.vars.length) (hy : p.var s = some y) (hsz : y.size ≠ 0) (ho : w.oom p.m.hp.length = true)
    (hna : w.asserts = false) :
    ∃ q, p.step w dflt (.copy d s) = .ok q ∧ q.var d = some ⟨y.len, none, y.size⟩ ∧
      ∀ i < y.len, q.step w dflt (.read d i) = .ub := by
  refine ⟨⟨p.m, p.vars.set d (some ⟨y.len, none, y.size⟩)⟩, ?_, ?_, ?_⟩
  · unfold St.step
    simp only [hy, hd, hdl, true_and, if_true]
    unfold copyStorage allocate
    simp [hsz, ho, hna, St.born, Out.noexcept, St.setVar]
  · simp [St.var, hdl]
  · intro i hi
    unfold St.step
    simp [St.var, hdl, hi]

example : (St.init 2).run (V := Nat) ⟨fun _ => false, fun b => b == 1, false, false⟩ 7 [.make 0 2, .copy 1 0] =
    .ok (⟨⟨[⟨[some 7, some 7], false⟩], 2⟩, [some ⟨2, some 0, 2⟩, some ⟨2, none, 2⟩]⟩, [false, false]) := by
  decide +kernel

/-! ## When nothing fails -/

/-- Nothing throws, and there is memory. -/
def Quiet (w : World) : Prop := (∀ t, w.fails t = false) ∧ ∀ b, w.oom b = false

/-- No moves. -/
def NoMove (op : Op V) : Prop := match op with | .move .. => False | .moveAssign .. => False | _ => True

theorem quiet_step {w : World} (hw : Quiet w) (dflt : V) (s : AS V) (hs : ∀ d y, s.var d = some y → y.elems.length = y.len ∧ y.null = 0)
    (op : Op V) (ho : NoMove op) :
    ∃ s', s.step w dflt op = .ok s' ∧ ∀ d y, s'.var d = some y → y.elems.length = y.len ∧ y.null = 0 := by
  have hff : ∀ t n, firstFail w t n = none := fun t n => firstFail_none_iff.mpr fun j _ => hw.1 _
  have hset : ∀ (s s' : AS V) (d : Nat) (o : Option (AArr V)), s'.vars = s.vars →
      (∀ d y, s.var d = some y → y.elems.length = y.len ∧ y.null = 0) → (∀ y, o = some y → y.elems.length = y.len ∧ y.null = 0) →
      ∀ d' y, (s'.setVar d o).var d' = some y → y.elems.length = y.len ∧ y.null = 0 := by
    intro s s' d o hv h1 h2 d' y h
    unfold AS.setVar AS.var at h
    dsimp only at h
    rw [hv] at h
    by_cases hd : d = d'
    · subst hd
      by_cases hl : d < s.vars.length
      · rw [List.getElem?_set_self hl] at h; exact h2 y h
      · rw [List.getElem?_eq_none (by simp; omega)] at h; cases h
    · rw [List.getElem?_set_ne hd] at h; exact h1 d' y h
  have hg : ∀ n, ∃ s', s.grow w n = .ok s' ∧ s'.vars = s.vars := by
    intro n; unfold AS.grow; rw [hw.2, hff]
    by_cases hn : n = 0
    · exact ⟨s, by simp [hn], rfl⟩
    · exact ⟨{ s with tick := s.tick + n, blocks := s.blocks + 1 }, by simp only [hn, Bool.false_eq_true, if_false], rfl⟩
  have hdup : ∀ y : AArr V, y.null = 0 → ∃ s', s.dup w y = .ok (y, s') ∧ s'.vars = s.vars := by
    intro y hy; unfold AS.dup; rw [hw.2, hff]
    by_cases hn : y.elems = []
    · exact ⟨s, by simp [hn, hy], rfl⟩
    · exact ⟨{ s with tick := s.tick + y.elems.length, blocks := s.blocks + 1 },
        by simp only [hn, false_and, Bool.false_eq_true, if_false], rfl⟩
  have ht : ∀ (s : AS V) n, ∃ s', s.touch w n n = .ok s' ∧ s'.vars = s.vars := by
    intro s n; unfold AS.touch; rw [hff]; exact ⟨{ s with tick := s.tick + n }, by simp only [Nat.le_refl, if_true], rfl⟩
  cases op with
  | make d n =>
      unfold AS.step; dsimp only
      split
      · obtain ⟨s', e, hv⟩ := hg n
        rw [e]
        exact ⟨_, rfl, hset s s' d _ hv hs (by rintro y ⟨⟩; simp)⟩
      · exact ⟨s, rfl, hs⟩
  | build d vs =>
      unfold AS.step; dsimp only
      split
      · obtain ⟨s', e, hv⟩ := hg vs.length
        rw [e]
        exact ⟨_, rfl, hset s s' d _ hv hs (by rintro y ⟨⟩; simp)⟩
      · exact ⟨s, rfl, hs⟩
  | copy d x =>
      unfold AS.step; dsimp only
      cases hx : s.var x with
      | none => exact ⟨s, rfl, hs⟩
      | some y =>
          dsimp only
          split
          · obtain ⟨s', e, hv⟩ := hdup y (hs x y hx).2
            rw [if_neg (by rw [hff]; simp), e]
            exact ⟨_, rfl, hset s s' d _ hv hs (by rintro z ⟨⟩; exact hs x y hx)⟩
          · exact ⟨s, rfl, hs⟩
  | move d x => exact absurd ho (by simp [NoMove])
  | moveAssign d x => exact absurd ho (by simp [NoMove])
  | copyAssign d x =>
      unfold AS.step; dsimp only
      cases hd : s.var d with
      | none => exact ⟨s, rfl, hs⟩
      | some z =>
          cases hx : s.var x with
          | none => exact ⟨s, rfl, hs⟩
          | some y =>
              obtain ⟨s', e, hv⟩ := hdup y (hs x y hx).2
              dsimp only
              rw [e]
              exact ⟨_, rfl, hset s s' d _ hv hs (by rintro z ⟨⟩; exact hs x y hx)⟩
  | assign d vs =>
      unfold AS.step; dsimp only
      cases hd : s.var d with
      | none => exact ⟨s, rfl, hs⟩
      | some x =>
          dsimp only
          have : ∃ s', (if AS.needs x vs.length = true then s.grow w vs.length else .ok s) = .ok s' ∧ s'.vars = s.vars := by
            split
            · exact hg _
            · exact ⟨s, rfl, rfl⟩
          obtain ⟨s1, e1, hv1⟩ := this
          obtain ⟨s2, e2, hv2⟩ := ht s1 vs.length
          rw [e1]; dsimp only; rw [e2]
          exact ⟨_, rfl, hset s s2 d _ (hv2.trans hv1) hs (by rintro z ⟨⟩; simp)⟩
  | fill d v =>
      unfold AS.step; dsimp only
      cases hd : s.var d with
      | none => exact ⟨s, rfl, hs⟩
      | some x =>
          dsimp only
          obtain ⟨h1, h2⟩ := hs d x hd
          rw [h1]
          obtain ⟨s2, e2, hv2⟩ := ht s x.len
          rw [e2]
          exact ⟨_, rfl, hset s s2 d _ hv2 hs (by rintro z ⟨⟩; simp [h1, h2])⟩
  | resize d n =>
      unfold AS.step; dsimp only
      cases hd : s.var d with
      | none => exact ⟨s, rfl, hs⟩
      | some x =>
          dsimp only
          by_cases hnd : AS.needs x n = true
          · obtain ⟨s', e, hv⟩ := hg n
            rw [if_pos hnd, e]
            exact ⟨_, rfl, hset s s' d _ hv hs (by rintro y ⟨⟩; simp)⟩
          · rw [if_neg hnd]
            have : x.elems ≠ [] ∧ x.elems.length = n := by simpa [AS.needs] using hnd
            exact ⟨_, rfl, hset s s d _ rfl hs (by rintro y ⟨⟩; exact ⟨this.2, (hs d x hd).2⟩)⟩
  | read d i =>
      unfold AS.step; dsimp only
      cases hd : s.var d with
      | none => exact ⟨s, rfl, hs⟩
      | some x =>
          dsimp only
          rw [(hs d x hd).1]
          by_cases hi : i < x.len
          · rw [if_pos hi, if_pos hi]; exact ⟨s, rfl, hs⟩
          · rw [if_neg hi]; exact ⟨s, rfl, hs⟩
  | destroy d =>
      unfold AS.step; dsimp only
      cases hd : s.var d with
      | none => exact ⟨s, rfl, hs⟩
      | some x => exact ⟨_, rfl, hset s s d _ rfl hs (by rintro y ⟨⟩)⟩

/-- **C69.** When nothing throws and there is memory, every program without moves ends normally: no exception, no
`std::terminate`, no undefined behaviour, no block lost. -/
theorem C69_quiet (w : World) (hw : Quiet w) (dflt : V) (N : Nat) (ops : List (Op V)) (ho : ∀ op ∈ ops, NoMove op) :
    ∃ p, (St.init N).run w dflt ops = .ok (p, List.replicate ops.length false) ∧ unreleased p = owners p := by
  have key : ∀ (ops : List (Op V)) (s : AS V), (∀ op ∈ ops, NoMove op) → (∀ d y, s.var d = some y → y.elems.length = y.len ∧ y.null = 0) →
      ∃ s', s.run w dflt ops = .ok (s', List.replicate ops.length false) := by
    intro ops
    induction ops with
    | nil => intro s _ _; exact ⟨s, rfl⟩
    | cons op ops ih =>
        intro s ho hs
        obtain ⟨s1, e, hs1⟩ := quiet_step hw dflt s hs op (ho op (by simp))
        obtain ⟨s2, e2⟩ := ih s1 (fun o h => ho o (by simp [h])) hs1
        exact ⟨s2, by unfold AS.run; rw [e]; dsimp only; rw [e2]; rfl⟩
  obtain ⟨s', e⟩ := key ops (AS.init N) ho (by
    intro d y h
    unfold AS.var AS.init at h
    dsimp only at h
    rw [List.getElem?_replicate] at h
    split at h <;> cases h)
  have hr := run_rel w dflt (R.init N) ops
  rw [e] at hr
  cases hq : (St.init N : St V).run w dflt ops with
  | ok a =>
      rw [hq] at hr
      obtain ⟨-, h2⟩ := hr
      obtain ⟨p, tr⟩ := a
      dsimp only at h2
      subst h2
      refine ⟨p, rfl, ?_⟩
      have := C69_leaks w dflt N ops p _ hq
      simpa [List.count_replicate] using this
  | threw a => rw [hq] at hr; simp [Rel] at hr
  | terminate => rw [hq] at hr; simp [Rel] at hr
  | ub => rw [hq] at hr; simp [Rel] at hr

example : Quiet ⟨fun _ => false, fun _ => false, true, true⟩ ∧ NoMove (V := Nat) (.copyAssign 0 1) := ⟨⟨fun _ => rfl, fun _ => rfl⟩, trivial⟩

/-! ### The theorems at these programs -/

/-- `make a of one element`, in a world where the second constructor call throws. -/
def oneMade : St Nat := ⟨⟨[⟨[some 0], false⟩], 1⟩, [some ⟨1, some 0, 1⟩, none]⟩

theorem oneMade_reach : Reach second 0 2 oneMade := ⟨[.make 0 1], [false], by decide +kernel⟩

/-- The hypotheses of `C69_resize`, `C69_resize_then_read` and `C69_resize_back`: the first constructor call of `a.resize(3)` throws. -/
example := C69_resize second 0 oneMade 0 3 0 ⟨1, some 0, 1⟩ rfl (.inr (by decide)) rfl (by decide) (fun _ h => absurd h (Nat.not_lt_zero _)) rfl
example := C69_resize_then_read second 0 2 oneMade oneMade_reach 0 3 0 ⟨1, some 0, 1⟩ rfl (.inr (by decide)) rfl (by decide) (fun _ h => absurd h (Nat.not_lt_zero _)) rfl 2 (by decide)
example := C69_resize_back second 0 oneMade 0 3 0 0 ⟨1, some 0, 1⟩ rfl rfl (by decide) rfl (by decide) (fun _ h => absurd h (Nat.not_lt_zero _)) rfl

/-- The hypotheses of `C69_only_resize`: this is the operation that throws. -/
example : ∃ q, oneMade.step second 0 (.resize 0 3) = .threw q ∧ ∃ d n, (Op.resize 0 3 : Op Nat) = .resize d n :=
  ⟨_, rfl, C69_only_resize second 0 2 oneMade oneMade_reach (.resize 0 3) _ rfl⟩

/-- The hypotheses of `C69_leaks`: one block lost, by the one exception. -/
example : ∃ p tr, (St.init 2).run second 0 [.make 0 1, .resize 0 3] = .ok (p, tr) ∧ tr = [false, true] ∧ unreleased p = owners p + 1 :=
  ⟨_, _, rfl, rfl, C69_leaks second 0 2 [.make 0 1, .resize 0 3] _ _ rfl⟩

/-- The hypotheses of `C69_copy_assign` and `C69_copy_without_memory`. -/
def failing (t b : Nat) : World := ⟨fun k => k == t, fun k => k == b, false, true⟩

def twoMade : St Nat := ⟨⟨[⟨[some 7, some 7], false⟩, ⟨[some 7], false⟩], 3⟩, [some ⟨2, some 0, 2⟩, some ⟨1, some 1, 1⟩, none]⟩

example := C69_copy_assign (failing 4 9) 7 3 twoMade ⟨[.make 0 2, .make 1 1], [false, false], by decide +kernel⟩ 1 0 1 ⟨1, some 1, 1⟩ ⟨2, some 0, 2⟩ rfl rfl nofun rfl (by decide) rfl
example := C69_copy_without_memory (failing 9 2) 7 twoMade 2 0 ⟨2, some 0, 2⟩ rfl (by decide) rfl (by decide) rfl rfl

example := C69_quiet (V := Nat) ⟨fun _ => false, fun _ => false, true, true⟩ ⟨fun _ => rfl, fun _ => rfl⟩ 0 2 [.make 0 2, .make 1 1, .copyAssign 1 0, .resize 0 4]
  (by intro op h; simp only [List.mem_cons, List.not_mem_nil, or_false] at h; rcases h with rfl | rfl | rfl | rfl <;> trivial)

end Nda.Exc
