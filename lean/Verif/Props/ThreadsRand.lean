import Verif.Props.Threads
import Verif.Props.Factories
/-!
# C86: random arrays in several threads
-/
namespace Nda.Threads
open Nda Nda.Spec LayoutTransforms Assign Arith Loops Programs Threads.Spec Factories Nda.Matrix

theorem rangeFor_sim {σ τ : Type} {f : Int → σ → Option σ} {h : Int → τ → Option τ} {R : σ → τ → Prop} (hfh : ∀ o s t t', R s t → h o t = some t' → ∃ s', f o s = some s' ∧ R s' t') (e : Grid) :
    ∀ (fuel : Nat) (it : Grid) (s : σ) (t t' : τ), R s t → Grid.rangeFor h e fuel it t = some t' → ∃ s', Grid.rangeFor f e fuel it s = some s' ∧ R s' t'
  | 0, _, _, _, _, _, he => by simp [Grid.rangeFor] at he
  | fuel + 1, it, s, t, t', hR, he => by
      rw [Grid.rangeFor] at he ⊢
      split at he
      · rename_i hq
        cases he
        exact ⟨s, by rw [if_pos hq], hR⟩
      · rename_i hq
        simp only [Option.bind_eq_bind, Option.bind_eq_some_iff] at he
        obtain ⟨t1, h1, h2⟩ := he
        obtain ⟨s1, h3, h4⟩ := hfh _ _ _ _ hR h1
        obtain ⟨s', h5, h6⟩ := rangeFor_sim hfh e fuel _ s1 t1 t' h4 h2
        exact ⟨s', by rw [if_neg hq]; simp only [h3, Option.bind_eq_bind, Option.bind_some]; exact h5, h6⟩

/-- The code generated so far leads to this state of generator and memory. -/
def Gives (m : List Nat) (s : Nat) (code : Code Nat) (st : Nat × List Nat) : Prop :=
  st.2.length = m.length ∧ ∀ rest, runAct (code rest) (m ++ [s]) = runAct rest (st.2 ++ [st.1])

theorem rand_code (g : Nat → Nat) (a : View) (s s' : Nat) (m m' : List Nat) (h : fillFrom (drawReal id g) a s m = some (s', m')) :
    ∃ c, randCode (m.length : Int) g a = some c ∧ Gives m s c (s', m') := by
  simp only [fillFrom, Option.bind_eq_bind, Option.bind_eq_some_iff] at h
  obtain ⟨b, hb, e, he, h⟩ := h
  simp only [randCode, hb, he, Option.bind_eq_bind, Option.bind_some]
  refine rangeFor_sim (R := Gives m s) ?_ e _ b id (s, m) (s', m') ⟨rfl, fun _ => rfl⟩ h
  rintro o code ⟨n, mm⟩ st' ⟨r1, r3⟩ hst
  simp only [Option.bind_eq_some_iff, drawReal, id_eq] at hst
  obtain ⟨m2, hw, hst⟩ := hst
  cases hst
  refine ⟨_, rfl, ?_⟩
  obtain ⟨hr, rfl⟩ := wr_some hw
  simp only at r1 r3 hr
  refine ⟨by simpa using r1, fun rest => ?_⟩
  · rw [r3]
    have h1 : rdInt (mm ++ [n]) (m.length : Int) = some n := by simp [rdInt, ← r1]
    have h2 : wrInt (mm ++ [n]) (m.length : Int) (n + 1) = some (mm ++ [n + 1]) := by
      rw [wr_ok (by simp; omega)]; simp [← r1]
    have h3 : wrInt (mm ++ [n + 1]) (a.off + o) (g n) = some (mm.set (a.off + o).toNat (g n) ++ [n + 1]) := by
      rw [wr_ok (by simp; omega), List.set_append_left _ _ (by omega)]
    simp only [runAct, h1, h2, h3, Option.bind_eq_bind, Option.bind_some]

/-- The first accesses: the generator is read and then written. -/
def Starts (gen : Int) (code : Code Nat) : Prop := ∀ rest, ∃ (v : Nat → Nat) (c : Nat → Act Nat), code rest = .read gen (fun n => .write gen (v n) (c n))

theorem rand_starts (gen : Int) (g : Nat → Nat) (a : View) (s s' : Nat) (m m' : List Nat) (h : fillFrom (drawReal id g) a s m = some (s', m')) (hs : s' ≠ s) :
    ∃ c, randCode gen g a = some c ∧ Starts gen c := by
  simp only [fillFrom, Option.bind_eq_bind, Option.bind_eq_some_iff] at h
  obtain ⟨b, hb, e, he, h⟩ := h
  simp only [randCode, hb, he, Option.bind_eq_bind, Option.bind_some]
  obtain ⟨c, hc, _, hR⟩ := rangeFor_sim (f := fun o code => some (fun rest => code (.read gen (fun n => .write gen (n + 1) (.write (a.off + o) (g n) rest)))))
    (R := fun (code : Code Nat) (st : Nat × List Nat) => s ≤ st.1 ∧ ((st.1 = s ∧ ∀ rest, code rest = rest) ∨ Starts gen code)) (by
    rintro o code ⟨n, mm⟩ st' ⟨r1, r2⟩ hst
    simp only [Option.bind_eq_some_iff, drawReal, id_eq] at hst
    obtain ⟨m2, hw, hst⟩ := hst
    cases hst
    refine ⟨_, rfl, by simp only at r1 ⊢; omega, .inr fun rest => ?_⟩
    rcases r2 with ⟨_, r2⟩ | r2
    · exact ⟨fun n => n + 1, _, r2 _⟩
    · exact r2 _) e _ b id (s, m) (s', m')
    ⟨Nat.le_refl _, .inl ⟨rfl, fun _ => rfl⟩⟩ h
  exact ⟨c, hc, hR.resolve_left (fun h => hs h.1)⟩

/-- C86.  A thread that makes a random array, load by load and store by store, alone: what `rand` (C76) makes, the generator included. -/
theorem C86_rand_alone (g : Nat → Nat) (junk : Nat) (so : List Nat) (len : List Int) (hp : IsPerm so) (hl : so.length = len.length) (h0 : len ≠ []) (hn : NonNeg len) (s : Nat) (mem : List Nat) :
    ∃ r s' mem' m c, rand (drawReal id g) junk so len s mem = some (r, s', mem') ∧ fresh junk so len mem = some (r, m) ∧ randCode (m.length : Int) g r = some c ∧
      runAct (c .done) (m ++ [s]) = some (mem' ++ [s']) := by
  obtain ⟨r, m, mem', L, x, e1, e2, -, -, -, -⟩ := fill_new (drawReal id g) junk so len hp hl h0 hn s mem
  obtain ⟨c, hc, hg⟩ := rand_code g r _ _ _ _ e2
  refine ⟨r, _, mem', m, c, ?_, e1, hc, by rw [hg.2]; rfl⟩
  simp only [rand, e1, e2, Option.bind_eq_bind, Option.bind_some]
  rfl

/-- C86.  Two threads that make random arrays, of any shapes with elements, at the same time: a data race on the static generator, although the arrays are new and different. -/
theorem C86_rand_race (g : Nat → Nat) (junk : Nat) (so so' : List Nat) (len len' : List Int) (hp : IsPerm so) (hl : so.length = len.length) (h0 : len ≠ []) (hn : ∀ l ∈ len, 0 < l)
    (hp' : IsPerm so') (hl' : so'.length = len'.length) (h0' : len' ≠ []) (hn' : ∀ l ∈ len', 0 < l) (s : Nat) (mem : List Nat) :
    ∃ a m b m' c c', fresh junk so len mem = some (a, m) ∧ fresh junk so' len' m = some (b, m') ∧ randCode (m'.length : Int) g a = some c ∧ randCode (m'.length : Int) g b = some c' ∧
      ∃ us mem', Steps ([c .done, c' .done], m' ++ [s]) (us, mem') ∧ Race us := by
  have one : ∀ s, (drawReal id g s).2 = s + 1 := fun _ => rfl
  obtain ⟨a, m, ma, L, _, e1, e2, -, n1, -, -⟩ := fill_new (drawReal id g) junk so len hp hl h0 (fun x hx => (hn x hx).le) s mem
  obtain ⟨b, m', mb, L', _, e3, e4, -, n2, -, -⟩ := fill_new (drawReal id g) junk so' len' hp' hl' h0' (fun x hx => (hn' x hx).le) s m
  have p1 := prod_pos hn
  have p2 := prod_pos hn'
  obtain ⟨c, hc, sc⟩ := rand_starts (m'.length : Int) g a _ _ _ _ e2 (by rw [after_const one]; omega)
  obtain ⟨c', hc', sc'⟩ := rand_starts (m'.length : Int) g b _ _ _ _ e4 (by rw [after_const one]; omega)
  obtain ⟨v, k, hk⟩ := sc .done
  obtain ⟨v', k', hk'⟩ := sc' .done
  refine ⟨a, m, b, m', c, c', e1, e3, hc, hc', [.write (m'.length : Int) (v s) (k s), c' .done], m' ++ [s], .tail (.refl _) ?_, 0, 1, _, _, (m'.length : Int), true, false, by decide, rfl, rfl, rfl, ?_,
    .inl rfl⟩
  · rw [hk]
    exact Step.read (i := 0) (k := (m'.length : Int)) (x := s) (c := fun n => .write (m'.length : Int) (v n) (k n)) rfl (by simp [rdInt])
  · rw [hk']; rfl

/-- A matrix of two rows and a vector. -/
example (g : Nat → Nat) : ∃ a m b m' c c', fresh 9 [0, 1] [2, 3] [] = some (a, m) ∧ fresh 9 [0] [4] m = some (b, m') ∧ randCode (m'.length : Int) g a = some c ∧ randCode (m'.length : Int) g b = some c' ∧
    ∃ us mem', Steps ([c .done, c' .done], m' ++ [7]) (us, mem') ∧ Race us :=
  C86_rand_race g 9 [0, 1] [0] [2, 3] [4] (Perm.isPerm_range 2) rfl (by simp) (by simp) (Perm.isPerm_range 1) rfl (by simp) (by simp) 7 []

/-- One of them alone. -/
example (g : Nat → Nat) : ∃ r s' mem' m c, rand (drawReal id g) 9 [0, 1] [2, 3] 7 [] = some (r, s', mem') ∧ fresh 9 [0, 1] [2, 3] [] = some (r, m) ∧ randCode (m.length : Int) g r = some c ∧
    runAct (c .done) (m ++ [7]) = some (mem' ++ [s']) :=
  C86_rand_alone g 9 [0, 1] [2, 3] (Perm.isPerm_range 2) rfl (by simp) (by simp [NonNeg]) 7 []

end Nda.Threads
