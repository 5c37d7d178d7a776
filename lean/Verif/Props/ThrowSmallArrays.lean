import Verif.Spec.ThrowSmallArrays
import Verif.Props.ThrowSmall
import Verif.Props.Exceptions
/-!
# C101: arrays with small-buffer storage when elements throw
-/
namespace Nda.Mem.SmallArr
open Nda.Mem Nda.Exc Nda.Mem.Spec SProg Small SmallArr.Spec

variable {V : Type} {K : Nat}

/-- What the storage should hold. -/
def obs (s : SS V) : Obs V := ⟨s.vars.map (Option.map fun x => x.elems.map some) ++ [none], s.tick, s.leaks, s.lost⟩

@[simp] theorem obs_tick (s : SS V) : (obs s).tick = s.tick := rfl
@[simp] theorem obs_leaks (s : SS V) : (obs s).leaks = s.leaks := rfl
@[simp] theorem obs_lost (s : SS V) : (obs s).lost = s.lost := rfl

theorem obs_length (s : SS V) : (obs s).vals.length = s.vars.length + 1 := by simp [obs]

theorem obs_get (s : SS V) (d : Nat) : (obs s).vals.get d = (s.var d).map fun x => x.elems.map some := by
  simp only [obs, Vals.get, SS.var]
  rcases Nat.lt_trichotomy d s.vars.length with h | h | h
  · rw [List.getElem?_append_left (by simpa using h)]
    simp only [List.getElem?_map, List.getElem?_eq_getElem h, Option.map_some, Option.join_some]
  · rw [List.getElem?_append_right (by simp [h])]
    simp [h]
  · rw [List.getElem?_eq_none (by simp; omega), List.getElem?_eq_none (by omega)]; rfl

theorem obs_set (s : SS V) {d : Nat} (hd : d < s.vars.length) (x : Option (SA V)) :
    (obs (s.setVar d x)).vals = (obs s).vals.set d (x.map fun x => x.elems.map some) := by
  simp only [obs, SS.setVar]
  rw [List.set_append_left _ _ (by simpa using hd), List.map_set]

theorem obs_tmp (s : SS V) : (obs s).vals[s.vars.length]? = some none := by
  simp [obs]

theorem var_lt {s : SS V} {d : Nat} {x : SA V} (h : s.var d = some x) : d < s.vars.length := by
  unfold SS.var at h
  by_contra hc
  rw [List.getElem?_eq_none (by omega)] at h
  cases h

/-- The invariant. -/
structure AInv (dflt : V) (K : Nat) (p : AProg V) (s : SS V) : Prop where
  inv : Inv dflt K p.q (obs s)
  len : p.lens.length = s.vars.length
  lens : ∀ d x, s.var d = some x → p.lens[d]? = some x.len

section inv
variable {dflt : V} {q : TProg V} {o : Obs V}

theorem inv_length (h : Inv dflt K q o) : q.p.vars.length = o.vals.length := by
  obtain ⟨g, L, r, s, -⟩ := h
  rw [s.vars, r.len]

theorem inv_var (h : Inv dflt K q o) (d : Nat) : match q.p.var d, o.vals.get d with
    | some x, some l => x.size = l.length ∧ (x.data = .null ↔ l = []) ∧ (∀ c ∈ l, c.isSome) ∧
        (0 < l.length → l.length ≤ K → x.data = .inline ∧ (x.buf.filter Option.isSome).length = l.length)
    | none, none => True
    | _, _ => False := by
  obtain ⟨g, L, r, s, -⟩ := h
  rw [s.var]
  have := r.rel d
  cases hx : g.var d with
  | none => rw [hx] at this; rw [r.dead hx]; trivial
  | some x =>
      obtain ⟨l, hl, ok⟩ := r.alive hx
      rw [hl]
      refine ⟨ok.size, ?_, ok.all rfl, ?_⟩
      · rcases ok.data with ⟨h1, h2, -⟩ | ⟨h1, -, h2, -⟩ | ⟨h1, -, b, h2, -⟩
        · simp [h1, h2]
        · simp [h1, h2]
        · rw [h2]
          constructor
          · intro h; cases h
          · rintro rfl; simp at h1
      · intro h0 hK
        rcases ok.data with ⟨h1, h2, -⟩ | ⟨h1, -, h2, rest, h3, h4⟩ | ⟨h1, -⟩
        · subst h1; simp at h0
        · refine ⟨h2, ?_⟩
          rw [h3, List.filter_append, List.length_append, List.filter_eq_self.mpr (ok.all rfl)]
          have : rest.filter Option.isSome = [] := by
            rw [List.filter_eq_nil_iff]
            intro c hc
            rw [h4 rfl c hc]; simp
          rw [this]; rfl
        · omega

theorem inv_tick (h : Inv dflt K q o) : q.tick = o.tick := by
  obtain ⟨g, L, r, s, ht, -⟩ := h
  exact ht

theorem inv_cell (h : Inv dflt K q o) {d : Nat} {l : List (Option V)} (hl : o.vals.get d = some l) (i : Nat) :
    (i < l.length → ∃ v, q.p.cell d i = some (some v)) ∧ (l.length ≤ i → ∀ v, q.p.cell d i ≠ some (some v)) := by
  obtain ⟨g, L, r, s, -⟩ := h
  cases hx : g.var d with
  | none => rw [r.dead hx] at hl; cases hl
  | some x =>
      obtain ⟨l', hl', ok⟩ := r.alive hx
      rw [hl] at hl'; cases hl'
      refine ⟨fun hi => ?_, fun hi v hc => ?_⟩
      · have h1 := ok.cell hx hi
        rw [List.getElem?_eq_getElem hi] at h1
        have h2 := ok.all rfl _ (List.getElem_mem hi)
        obtain ⟨v, hv⟩ := Option.isSome_iff_exists.mp h2
        rw [hv] at h1
        exact ⟨v, s.cell h1⟩
      · simp only [SProg.cell, s.var, hx, Option.bind_eq_bind, Option.bind_some] at hc
        rcases ok.data with ⟨-, h2, -⟩ | ⟨-, -, h2, rest, h3, h4⟩ | ⟨-, -, b, h2, h3⟩
        · rw [h2] at hc; cases hc
        · rw [h2] at hc
          simp only at hc
          rw [h3, List.getElem?_append_right hi] at hc
          have := h4 rfl _ (List.mem_of_getElem? hc)
          cases this
        · rw [h2] at hc
          simp only [(s.live (Heap.live_some.mpr ⟨h3, rfl⟩)).1, Option.bind_some] at hc
          rw [List.getElem?_eq_none hi] at hc
          cases hc

theorem inv_none (h : Inv dflt K q o) {d : Nat} : q.p.var d = none ↔ o.vals.get d = none := by
  have := inv_var h d
  cases h1 : q.p.var d <;> cases h2 : o.vals.get d <;> rw [h1, h2] at this <;> simp_all

theorem inv_some (h : Inv dflt K q o) {d : Nat} {l : List (Option V)} (hl : o.vals.get d = some l) :
    ∃ x, q.p.var d = some x ∧ x.size = l.length ∧ (x.data = .null ↔ l = []) ∧ (∀ c ∈ l, c.isSome) ∧
        (0 < l.length → l.length ≤ K → x.data = .inline ∧ (x.buf.filter Option.isSome).length = l.length) := by
  have := inv_var h d
  cases h1 : q.p.var d with
  | none => rw [h1, hl] at this; exact this.elim
  | some x => rw [h1, hl] at this; exact ⟨x, rfl, this⟩

/-- No failure. -/
theorem inv_ok (fails : Nat → Bool) (h : Inv dflt K q o) (op : SOp V) (hf : firstFail fails o.tick (work K o.vals op) = none)
    (ha : SAllowed false K o.vals op) :
    ∃ q', Small.step fails K dflt q op = .ok q' ∧ Inv dflt K q' { o with vals := sstep false dflt o.vals op, tick := o.tick + work K o.vals op } := by
  have := h.step fails op (by unfold TAllowed; rw [hf]; exact ha)
  simp only [tstep, hf] at this
  cases hq : Small.step fails K dflt q op with
  | ok q' => rw [hq] at this; exact ⟨q', rfl, this⟩
  | threw q' => rw [hq] at this; exact this.elim
  | terminate => rw [hq] at this; exact this.elim
  | ub => rw [hq] at this; exact this.elim

theorem inv_new_fail (fails : Nat → Bool) (h : Inv dflt K q o) {d n k : Nat} (hd : o.vals.get d = none) (hl : d < o.vals.length)
    (hf : firstFail fails o.tick n = some k) :
    ∃ q', Small.step fails K dflt q (.new d n) = .threw q' ∧ Inv dflt K q'
      { o with tick := o.tick + k + 1
               leaks := if K < n then o.leaks ++ [(n, k)] else o.leaks
               lost := if K < n then o.lost else o.lost + k } := by
  have hw : work K o.vals (.new d n) = n := by simp [work, hd, hl]
  have := h.step fails (.new d n) (by unfold TAllowed; rw [hw, hf]; trivial)
  simp only [tstep, hw, hf] at this
  cases hq : Small.step fails K dflt q (.new d n) with
  | ok q' => rw [hq] at this; exact this.elim
  | threw q' => rw [hq] at this; exact ⟨q', rfl, this⟩
  | terminate => rw [hq] at this; exact this.elim
  | ub => rw [hq] at this; exact this.elim

theorem inv_assign_fail (fails : Nat → Bool) (h : Inv dflt K q o) {d s k : Nat} {op : SOp V} (hop : op = .copyAssign d s ∨ op = .moveAssign d s)
    (hds : d ≠ s) (hf : firstFail fails o.tick (work K o.vals op) = some k) : Small.step fails K dflt q op = .terminate := by
  have := h.step fails op (by unfold TAllowed; rw [hf]; rcases hop with rfl | rfl <;> exact hds)
  simp only [tstep, hf] at this
  rcases hop with rfl | rfl <;> simp only at this
  all_goals
    revert this
    cases Small.step fails K dflt q _ <;> simp

end inv

/-! ## The temporary of `resize` -/

theorem finish_of_destroy (fails : Nat → Bool) {dflt : V} {s : Nat} {q q' : TProg V} {x : Sso V} (hx : q.p.var s = some x)
    (h : Small.step fails K dflt q (.destroy s) = .ok q') : finish K s q = .ok q' := by
  simp only [Small.step, SProg.step, hx, Option.bind_eq_bind] at h
  cases hc : q.p.clean false K s with
  | none => rw [hc] at h; simp [lift] at h
  | some p1 =>
      rw [hc] at h
      simp only [Option.bind_some] at h
      cases hv : p1.var s with
      | none => rw [hv] at h; simp [lift] at h
      | some y =>
          rw [hv] at h
          simp only [Option.bind_some] at h
          split at h
          · simp [lift] at h
          · rename_i hn
            simp only [lift] at h
            cases h
            have hb : y.buf.filter Option.isSome = [] := by
              rw [List.filter_eq_nil_iff]
              intro c hc' hs
              exact hn ⟨trivial, List.any_eq_true.mpr ⟨c, hc', hs⟩⟩
            simp [finish, hc, lift, next, Out.bind, abandonNew, hv, hb]

theorem set_same {α : Type} {l : List α} {i : Nat} {a : α} (h : l[i]? = some a) : l.set i a = l := by
  apply List.ext_getElem?
  intro j
  by_cases hj : j = i
  · subst hj
    rw [List.getElem?_set_self (List.getElem?_eq_some_iff.mp h).1, h]
  · rw [List.getElem?_set_ne (Ne.symm hj)]

theorem destroyFrom_inline {s : Nat} (n : Nat) : ∀ {i : Nat} {p p' : SProg V} {x : Sso V}, p.var s = some x → x.data = .inline →
    destroyFrom s n i p = some p' → ∃ x', p' = p.setVar s (some x') ∧ x'.data = .inline ∧ p'.var s = some x' := by
  induction n with
  | zero =>
      intro i p p' x hx hd h
      cases h
      refine ⟨x, ?_, hd, hx⟩
      have hl := lt_of_var' hx
      have : p.vars[s]? = some (some x) := by
        unfold SProg.var at hx
        cases hv : p.vars[s]? with
        | none => rw [hv] at hx; cases hx
        | some y => rw [hv] at hx; cases y <;> simp_all
      simp only [SProg.setVar]
      rw [set_same this]
  | succ n ih =>
      intro i p p' x hx hd h
      simp only [destroyFrom, destroyCell, Option.bind_eq_bind, Option.bind_eq_some_iff] at h
      obtain ⟨p1, ⟨old, h1, h2⟩, h3⟩ := h
      split at h2
      · cases h2
      simp only [SProg.setCell, hx, hd, Option.bind_eq_bind, Option.bind_some] at h2
      split at h2
      · cases h2
        obtain ⟨x', e1, e2, e3⟩ := ih (p := p.setVar s (some { x with buf := x.buf.set i none, data := .inline })) (var_set_self (lt_of_var' hx) _) rfl h3
        refine ⟨x', ?_, e2, e3⟩
        rw [e1]
        simp [SProg.setVar]
      · cases h2

/-- Moving out of a buffer makes the same elements as copying out of it. -/
theorem move_of_copy (fails : Nat → Bool) {dflt : V} {d s : Nat} {q q2 : TProg V} {x y : Sso V} (hd : q.p.var d = some x) (hs : q.p.var s = some y)
    (h0 : y.size ≠ 0) (hK : y.size ≤ K) (h : Small.step fails K dflt q (.copyAssign d s) = .ok q2) :
    Small.step fails K dflt q (.moveAssign d s) = (lift q2 (q2.p.empty s)).noexcept := by
  simp only [Small.step, hd, hs, Small.assign] at h ⊢
  cases hc : q.p.clean false K d with
  | none => rw [hc] at h; simp [lift, next, Out.bind, Out.noexcept] at h
  | some p1 =>
      obtain ⟨y1, hy1, e1⟩ := clean_size hc hs
      obtain ⟨x1, hx1, -⟩ := clean_size hc hd
      rw [hc] at h
      simp only [lift, next, Out.bind, hx1, hy1, e1, if_neg h0, SProg.grab, Option.bind_eq_bind, Option.bind_some, if_neg (show ¬ K < y.size by omega)] at h
      simp only [lift, next, Out.bind, Small.take, hx1, hy1, e1, if_neg (show ¬ K < y.size by omega), if_pos h0]
      have h' : fill fails d (fun i p => p.cell s i) y.size 0 { q with p := p1.setVar d (some { x1 with data := .inline, size := y.size }) } = .ok q2 := by
        revert h
        show Out.noexcept (fill fails d (fun i p => p.cell s i) y.size 0 { q with p := p1.setVar d (some { x1 with data := .inline, size := y.size }) }) = _ → _
        cases fill fails d (fun i p => p.cell s i) y.size 0 { q with p := p1.setVar d (some { x1 with data := .inline, size := y.size }) } <;> simp [Out.noexcept]
      rw [h']

/-- A temporary whose elements were moved out of its buffer: as if they had been copied and destroyed, except that they are not destroyed. -/
theorem move_finish (fails : Nat → Bool) {dflt : V} {d s n : Nat} {q q2 q3 : TProg V} {x y y2 : Sso V} (hd : q.p.var d = some x) (hs : q.p.var s = some y)
    (h0 : y.size ≠ 0) (hK : y.size ≤ K) (h : Small.step fails K dflt q (.copyAssign d s) = .ok q2) (hs2 : q2.p.var s = some y2) (hi : y2.data = .inline)
    (hsz : y2.size ≤ K) (hb : (y2.buf.filter Option.isSome).length = n) (h3 : Small.step fails K dflt q2 (.destroy s) = .ok q3) :
    next (Small.step fails K dflt q (.moveAssign d s)) (finish K s) = .ok { q3 with lost := q3.lost + n } := by
  rw [move_of_copy fails hd hs h0 hK h]
  have hl := lt_of_var' hs2
  have e : q2.p.empty s = some (q2.p.setVar s (some { y2 with data := .null, size := 0 })) := by
    simp [SProg.empty, hs2]
  rw [e]
  have hv : (q2.p.setVar s (some { y2 with data := .null, size := 0 })).var s = some { y2 with data := .null, size := 0 } := var_set_self hl _
  have hc : (q2.p.setVar s (some { y2 with data := .null, size := 0 })).clean false K s = some (q2.p.setVar s (some { y2 with data := .null, size := 0 })) := by
    simp [SProg.clean, hv]
  simp only [lift, Out.noexcept, next, Out.bind, finish, hc, abandonNew, hv]
  simp only [Small.step, SProg.step, hs2, Option.bind_eq_bind, SProg.clean, hi, reduceCtorEq, if_false, Option.bind_some, SProg.cleanElems, Bool.false_eq_true] at h3
  cases hf : destroyFrom s y2.size 0 q2.p with
  | none => rw [hf] at h3; simp [lift] at h3
  | some p1 =>
      obtain ⟨x', e1, e2, e3⟩ := destroyFrom_inline _ hs2 hi hf
      rw [hf] at h3
      simp only [Option.bind_some, SProg.cleanBlock, if_neg (show ¬ K < y2.size by omega), SProg.nullify, e3, Option.bind_eq_bind] at h3
      have hv1 : (p1.setVar s (some { x' with data := .null })).var s = some { x' with data := .null } := var_set_self (lt_of_var' e3) _
      simp only [Option.pure_def, Option.bind_some, hv1] at h3
      split at h3
      · simp [lift] at h3
      · simp only [lift] at h3
        cases h3
        simp only [e1, hb]
        simp [SProg.setVar]

theorem firstFail_zero (fails : Nat → Bool) (t : Nat) : firstFail fails t 0 = none := rfl

theorem vals_back {a : Vals V} {d tmp : Nat} (h : a[tmp]? = some none) (hne : d ≠ tmp) (A B : Option (List (Option V))) :
    ((a.set tmp A).set d B).set tmp none = a.set d B := by
  rw [List.set_comm _ _ hne, List.set_set, set_same h]

theorem get_of_getElem {a : Vals V} {i : Nat} {x : Option (List (Option V))} (h : a[i]? = some x) : a.get i = x := by simp [Vals.get, h]

theorem get_lt {a : Vals V} {i : Nat} {l : List (Option V)} (h : a.get i = some l) : i < a.length := by
  unfold Vals.get at h
  by_contra hc
  rw [List.getElem?_eq_none (by omega)] at h
  cases h

/-- `sto = storage_t{n}`. -/
theorem renew_spec (fails : Nat → Bool) {dflt : V} {q : TProg V} {o : Obs V} (h : Inv dflt K q o) {d tmp n : Nat} {l0 : List (Option V)}
    (ht : o.vals[tmp]? = some none) (hd : o.vals.get d = some l0) (hne : d ≠ tmp) :
    (∀ k, firstFail fails o.tick n = some k → ∃ q', renew fails K dflt d tmp n q = .threw q' ∧ Inv dflt K q'
      { o with tick := o.tick + k + 1
               leaks := if K < n then o.leaks ++ [(n, k)] else o.leaks
               lost := if K < n then o.lost else o.lost + k }) ∧
    (firstFail fails o.tick n = none → K < n → ∃ q', renew fails K dflt d tmp n q = .ok q' ∧ Inv dflt K q'
      { o with vals := o.vals.set d (some (List.replicate n (some dflt))), tick := o.tick + n }) ∧
    (firstFail fails o.tick n = none → n ≤ K → (∃ k, firstFail fails (o.tick + n) n = some k) → renew fails K dflt d tmp n q = .terminate) ∧
    (firstFail fails o.tick n = none → n ≤ K → firstFail fails (o.tick + n) n = none → ∃ q', renew fails K dflt d tmp n q = .ok q' ∧ Inv dflt K q'
      { o with vals := o.vals.set d (some (List.replicate n (some dflt))), tick := o.tick + n + n, lost := o.lost + n }) := by
  have htg := get_of_getElem ht
  have htl : tmp < o.vals.length := (List.getElem?_eq_some_iff.mp ht).1
  have hdl : d < o.vals.length := get_lt hd
  refine ⟨fun k hk => ?_, ?_⟩
  · obtain ⟨q', h1, h2⟩ := inv_new_fail fails h htg htl hk
    exact ⟨q', by simp [renew, h1, next, Out.bind], h2⟩
  -- the temporary
  have mk : firstFail fails o.tick n = none → ∃ q1, Small.step fails K dflt q (.new tmp n) = .ok q1 ∧ Inv dflt K q1
      { o with vals := o.vals.set tmp (some (List.replicate n (some dflt))), tick := o.tick + n } := by
    intro hf
    have hw : work K o.vals (.new tmp n) = n := by simp [work, htg, htl]
    obtain ⟨q1, h1, h2⟩ := inv_ok fails h (.new tmp n) (by rw [hw]; exact hf) trivial
    refine ⟨q1, h1, ?_⟩
    rw [hw] at h2
    simpa [sstep, htg, htl, dfltCell] using h2
  have g1 : Vals.get (o.vals.set tmp (some (List.replicate n (some dflt)))) tmp = some (List.replicate n (some dflt)) := get_set_self htl _
  have g2 : Vals.get (o.vals.set tmp (some (List.replicate n (some dflt)))) d = some l0 := by rw [get_set_ne hne]; exact hd
  -- nothing to move, or a block
  have easy : (K < n ∨ n = 0) → firstFail fails o.tick n = none → ∃ q', renew fails K dflt d tmp n q = .ok q' ∧ Inv dflt K q'
      { o with vals := o.vals.set d (some (List.replicate n (some dflt))), tick := o.tick + n } := by
    intro hn hf
    obtain ⟨q1, h1, i1⟩ := mk hf
    have hw : work K (o.vals.set tmp (some (List.replicate n (some dflt)))) (.moveAssign d tmp) = 0 := by
      simp only [work, g1, g2, List.length_replicate]
      rcases hn with hn | hn
      · rw [if_neg (by omega)]
      · simp [hn]
    obtain ⟨q2, h2, i2⟩ := inv_ok fails i1 (.moveAssign d tmp) (by simp only [hw]; exact firstFail_zero _ _) (by
      intro _ l hl
      simp only [g1] at hl
      cases hl
      rcases hn with hn | hn
      · right; simpa using hn
      · left; simp [hn])
    simp only [hw, sstep, g1, g2, Nat.add_zero] at i2
    obtain ⟨q3, h3, i3⟩ := inv_ok fails i2 (.destroy tmp) (firstFail_zero _ _) trivial
    simp only [work, sstep, Nat.add_zero, List.set_set, vals_back ht hne] at i3
    obtain ⟨y, hy, -⟩ := inv_some i2 (d := tmp) (l := []) (get_set_self (by simpa using htl) _)
    refine ⟨q3, ?_, i3⟩
    simp only [renew, h1, h2, next, Out.bind]
    exact finish_of_destroy fails hy h3
  refine ⟨fun hf hK => easy (Or.inl hK) hf, fun hf hK hf2 => ?_, fun hf hK hf2 => ?_⟩
  · obtain ⟨k, hk⟩ := hf2
    obtain ⟨q1, h1, i1⟩ := mk hf
    have hw : work K (o.vals.set tmp (some (List.replicate n (some dflt)))) (.moveAssign d tmp) = n := by
      simp only [work, g1, g2, List.length_replicate, if_pos hK]
    have := inv_assign_fail fails i1 (d := d) (s := tmp) (k := k) (Or.inr rfl) hne (by simp only [hw]; exact hk)
    simp [renew, h1, this, next, Out.bind]
  · by_cases h0 : n = 0
    · obtain ⟨q', h1, h2⟩ := easy (Or.inr h0) hf
      refine ⟨q', h1, ?_⟩
      subst h0
      exact h2
    · obtain ⟨q1, h1, i1⟩ := mk hf
      have hw : work K (o.vals.set tmp (some (List.replicate n (some dflt)))) (.copyAssign d tmp) = n := by
        simp only [work, g1, g2, List.length_replicate]
      obtain ⟨q2, h2, i2⟩ := inv_ok fails i1 (.copyAssign d tmp) (by simp only [hw]; exact hf2) (fun e => absurd e hne)
      simp only [hw, sstep, g1, g2] at i2
      obtain ⟨q3, h3, i3⟩ := inv_ok fails i2 (.destroy tmp) (firstFail_zero _ _) trivial
      simp only [work, sstep, Nat.add_zero, vals_back ht hne] at i3
      obtain ⟨x, hx, -⟩ := inv_some i1 g2
      obtain ⟨y, hy, hy1, -⟩ := inv_some i1 g1
      obtain ⟨y2, hy2, e1, -, -, e2⟩ := inv_some i2 (d := tmp) (l := List.replicate n (some dflt)) (by rw [get_set_ne (Ne.symm hne)]; exact g1)
      simp only [List.length_replicate] at hy1 e1 e2
      obtain ⟨e3, e4⟩ := e2 (by omega) hK
      have := move_finish fails hx hy (by omega) (by omega) h2 hy2 e3 (by omega) e4 h3
      refine ⟨{ q3 with lost := q3.lost + n }, ?_, ?_⟩
      · simp only [renew, h1, next, Out.bind]
        exact this
      · obtain ⟨g, L, r, s, a1, a2, a3⟩ := i3
        exact ⟨g, L, r, s, a1, by simp only [a2], a3⟩

/-- Assignments to elements. -/
theorem put_spec (fails : Nat → Bool) {dflt : V} {d : Nat} (vs : List V) : ∀ {i : Nat} {q : TProg V} {o : Obs V} {l : List (Option V)}, Inv dflt K q o →
    o.vals.get d = some l → i ≤ l.length →
    (∀ k, firstFail fails o.tick (min vs.length (l.length - i)) = some k → ∃ q', put fails K dflt d i vs q = .threw q') ∧
    (firstFail fails o.tick (min vs.length (l.length - i)) = none →
      (vs.length ≤ l.length - i → ∃ q', put fails K dflt d i vs q = .ok q' ∧ Inv dflt K q'
        { o with vals := o.vals.set d (some (l.take i ++ vs.map some ++ l.drop (i + vs.length))), tick := o.tick + vs.length }) ∧
      (l.length - i < vs.length → put fails K dflt d i vs q = .ub)) := by
  induction vs with
  | nil =>
      intro i q o l h hl hi
      refine ⟨fun k hk => by simp [firstFail] at hk, fun _ => ⟨fun _ => ⟨q, rfl, ?_⟩, fun hc => by simp at hc⟩⟩
      have : o.vals.set d (some (l.take i ++ ([] : List V).map some ++ l.drop (i + 0))) = o.vals := by
        apply set_same
        simp only [List.map_nil, List.append_nil, Nat.add_zero, List.take_append_drop]
        unfold Vals.get at hl
        cases hv : o.vals[d]? with
        | none => rw [hv] at hl; cases hl
        | some y => rw [hv] at hl; cases y <;> simp_all
      simp only [List.length_nil, this]
      exact h
  | cons v vs ih =>
      intro i q o l h hl hi
      obtain ⟨x, hx, hsz, -⟩ := inv_some h hl
      simp only [put, hx, hsz]
      by_cases hlt : i < l.length
      · rw [if_pos hlt]
        have hm : min (v :: vs).length (l.length - i) = min vs.length (l.length - (i + 1)) + 1 := by
          simp only [List.length_cons]; omega
        rw [hm, SProg.firstFail_succ]
        have hw : work K o.vals (.write d i v) = 1 := by simp [work, hl, hlt]
        by_cases hf : fails o.tick = true
        · rw [if_pos hf]
          refine ⟨fun k _ => ?_, fun hc => by simp at hc⟩
          simp [Small.step, hx, hsz, hlt, inv_tick h, hf, next, Out.bind]
        · rw [if_neg hf]
          obtain ⟨q1, h1, i1⟩ := inv_ok fails h (.write d i v) (by rw [hw, SProg.firstFail_succ, if_neg hf]; rfl) trivial
          simp only [hw, sstep, hl] at i1
          have hdl := get_lt hl
          obtain ⟨j1, j2⟩ := ih (i := i + 1) i1 (get_set_self hdl _) (by rw [List.length_set]; omega)
          simp only [List.length_set] at j1 j2
          simp only [h1, next, Out.bind]
          refine ⟨fun k hk => ?_, fun hn => ?_⟩
          · obtain ⟨j, hj, rfl⟩ := Option.map_eq_some_iff.mp hk
            exact j1 j hj
          · obtain ⟨j3, j4⟩ := j2 (by simpa using hn)
            refine ⟨fun hle => ?_, fun hgt => j4 (by simp only [List.length_cons] at hgt; omega)⟩
            obtain ⟨q', h2, i2⟩ := j3 (by simp only [List.length_cons] at hle; omega)
            refine ⟨q', h2, ?_⟩
            simp only [List.set_set] at i2
            have e : (l.set i (some v)).take (i + 1) ++ vs.map some ++ (l.set i (some v)).drop (i + 1 + vs.length) =
                l.take i ++ (v :: vs).map some ++ l.drop (i + (v :: vs).length) := by
              rw [List.drop_set_of_lt (by omega), List.take_set, List.take_succ_eq_append_getElem hlt, List.set_append_right _ _ (by simp; omega)]
              simp only [List.length_cons, List.map_cons, List.length_take, Nat.min_eq_left hi, Nat.sub_self, List.set_cons_zero, List.append_assoc,
                List.cons_append, List.nil_append]
              congr 4
              omega
            rw [e] at i2
            simp only [List.length_cons]
            rw [show o.tick + (vs.length + 1) = o.tick + 1 + vs.length by omega]
            exact i2
      · rw [if_neg hlt]
        have : l.length - i = 0 := by omega
        refine ⟨fun k hk => by simp [this, firstFail] at hk, fun _ => ⟨fun hle => by simp only [List.length_cons] at hle; omega, fun _ => rfl⟩⟩

theorem built_spec (fails : Nat → Bool) (unwinds : Bool) {d n : Nat} {f : Nat → SProg V → Option (Option V)} {q : TProg V} {p' : SProg V}
    (h : q.p.build false K d n f = some p') :
    (firstFail fails q.tick n = none → built fails unwinds K d n f q = Small.build fails K d n f (unwind K d) q) ∧
    (∀ k, firstFail fails q.tick n = some k → built fails unwinds K d n f q = if unwinds then .ub else .terminate) := by
  obtain ⟨p, t, c⟩ := q
  refine ⟨fun hn => ?_, fun k hk => ?_⟩
  · rw [built, build_ok fails _ h hn, build_ok fails _ h hn]; rfl
  · obtain ⟨p1, pk, h3, h4, h5, h6⟩ := build_fail fails (t := t) (c := c) (if unwinds then unwind K d else .threw) h hk
    rw [built, h6]
    cases unwinds
    · rfl
    · simp only [if_true, unwind_ub h3 h4 h5 (firstFail_lt hk)]; rfl

/-! ## One operation -/

theorem svar_set {s : SS V} {d : Nat} (hd : d < s.vars.length) (x : Option (SA V)) (e : Nat) :
    (s.setVar d x).var e = if e = d then x else s.var e := by
  unfold SS.var SS.setVar
  by_cases h : e = d
  · subst h; simp [hd]
  · simp [h, List.getElem?_set_ne (Ne.symm h)]

theorem svar_mk {vs : List (Option (SA V))} {d t lo : Nat} {lk : List (Nat × Nat)} (hd : d < vs.length) {x : Option (SA V)} :
    (SS.setVar ⟨vs, t, lk, lo⟩ d x).var d = x := by
  simp [SS.var, SS.setVar, hd]

/-- A new value of variable `d`. -/
theorem AInv.put {dflt : V} {p : AProg V} {s : SS V} (h : AInv dflt K p s) {d : Nat} (hd : d < s.vars.length) (x : SA V) {t lo : Nat} {lk : List (Nat × Nat)}
    {q' : TProg V} (hq : Inv dflt K q' ⟨(obs s).vals.set d (some (x.elems.map some)), t, lk, lo⟩) :
    AInv dflt K ⟨q', p.lens.set d x.len⟩ (SS.setVar ⟨s.vars, t, lk, lo⟩ d (some x)) := by
  refine ⟨?_, ?_, ?_⟩
  · have := obs_set (⟨s.vars, t, lk, lo⟩ : SS V) hd (some x)
    have e : obs (SS.setVar ⟨s.vars, t, lk, lo⟩ d (some x)) = ⟨(obs s).vals.set d (some (x.elems.map some)), t, lk, lo⟩ := by
      show (⟨(obs (SS.setVar ⟨s.vars, t, lk, lo⟩ d (some x))).vals, t, lk, lo⟩ : Obs V) = _
      rw [this]; rfl
    rw [e]; exact hq
  · simp [SS.setVar, h.len]
  · intro e y hy
    rw [svar_set (s := ⟨s.vars, t, lk, lo⟩) hd] at hy
    by_cases he : e = d
    · subst he
      rw [if_pos rfl] at hy
      cases hy
      exact List.getElem?_set_self (by rw [h.len]; exact hd)
    · rw [if_neg he] at hy
      simp only
      rw [List.getElem?_set_ne (Ne.symm he)]
      exact h.lens e y hy

/-- Outcomes that agree. -/
def Same {S T : Type} (R : S → T → Prop) : Out T → Out S → Prop
  | .ok t, .ok s => R s t
  | .threw t, .threw s => R s t
  | .terminate, .terminate => True
  | .ub, .ub => True
  | _, _ => False

theorem AInv.var {dflt : V} {p : AProg V} {s : SS V} (h : AInv dflt K p s) {d : Nat} {x : SA V} (hx : s.var d = some x) :
    ∃ y, p.q.p.var d = some y ∧ y.size = x.elems.length ∧ (y.data = .null ↔ x.elems = []) ∧ SmallArr.len p d = x.len := by
  obtain ⟨y, h1, h2, h3, -⟩ := inv_some h.inv (d := d) (l := x.elems.map some) (by rw [obs_get, hx]; rfl)
  refine ⟨y, h1, by simpa using h2, by simpa using h3, ?_⟩
  simp [SmallArr.len, h.lens d x hx]

theorem AInv.dead {dflt : V} {p : AProg V} {s : SS V} (h : AInv dflt K p s) {d : Nat} : p.q.p.var d = none ↔ s.var d = none := by
  rw [inv_none h.inv, obs_get]
  cases s.var d <;> simp

theorem AInv.free {dflt : V} {p : AProg V} {s : SS V} (h : AInv dflt K p s) {d : Nat} :
    (p.q.p.var d = none ∧ d < p.lens.length) ↔ (s.var d = none ∧ d < s.vars.length) := by rw [h.dead, h.len]

theorem AInv.tick {dflt : V} {p : AProg V} {s : SS V} (h : AInv dflt K p s) : p.q.tick = s.tick := inv_tick h.inv

/-- `resize`. -/
theorem AInv.resize (fails : Nat → Bool) {dflt : V} {p : AProg V} {s : SS V} (h : AInv dflt K p s) {d : Nat} (n : Nat) {x : SA V} {y : Sso V}
    (hx : s.var d = some x) (hy : p.q.p.var d = some y) :
    Same (AInv dflt K) (s.remake fails K dflt d n x) (SmallArr.resize fails K dflt d n y p) := by
  obtain ⟨y', hy', e1, e2, -⟩ := h.var hx
  rw [hy] at hy'; cases hy'
  have hd := var_lt hx
  have hg : (obs s).vals.get d = some (x.elems.map some) := by rw [obs_get, hx]; rfl
  unfold SS.remake SmallArr.resize
  by_cases hc : x.elems = [] ∨ x.elems.length ≠ n
  · have hc' : y.data = .null ∨ y.size ≠ n := by rw [e2, e1]; exact hc
    rw [if_pos hc, if_pos hc', h.len]
    obtain ⟨r1, r2, r3, r4⟩ := renew_spec fails h.inv (d := d) (tmp := s.vars.length) (n := n) (obs_tmp s) hg (by omega)
    cases hf : firstFail fails s.tick n with
    | some k =>
        obtain ⟨q', h1, h2⟩ := r1 k hf
        rw [h1]
        refine h.put hd { x with len := n } ?_
        rw [set_same]
        · exact h2
        · have := hg
          unfold Vals.get at this
          cases hv : (obs s).vals[d]? with
          | none => rw [hv] at this; cases this
          | some z => rw [hv] at this; cases z <;> simp_all
    | none =>
        simp only
        by_cases hK : K < n
        · rw [if_pos hK]
          obtain ⟨q', h1, h2⟩ := r2 hf hK
          rw [h1]
          exact h.put hd ⟨n, List.replicate n dflt⟩ (by simpa using h2)
        · rw [if_neg hK]
          unfold SS.calls
          simp only
          cases hf2 : firstFail fails (s.tick + n) n with
          | some k => rw [r3 hf (by omega) ⟨k, hf2⟩]; trivial
          | none =>
              obtain ⟨q', h1, h2⟩ := r4 hf (by omega) hf2
              rw [h1]
              exact h.put hd ⟨n, List.replicate n dflt⟩ (by simpa using h2)
  · have hc' : ¬ (y.data = .null ∨ y.size ≠ n) := by rw [e2, e1]; exact hc
    rw [if_neg hc, if_neg hc']
    refine h.put hd { x with len := n } ?_
    rw [set_same]
    · exact h.inv
    · have := hg
      unfold Vals.get at this
      cases hv : (obs s).vals[d]? with
      | none => rw [hv] at this; cases this
      | some z => rw [hv] at this; cases z <;> simp_all

theorem build_of_inv {dflt : V} {q : TProg V} {o : Obs V} (h : Inv dflt K q o) (op : SOp V) (ha : SAllowed false K o.vals op) :
    ∃ p', q.p.step false K dflt op = some p' := by
  obtain ⟨g, L, r, s, -⟩ := h
  obtain ⟨g', h1, -⟩ := r.step dflt op ha
  obtain ⟨p', h2, -⟩ := s.step dflt op g' h1
  exact ⟨p', h2⟩

theorem AInv.step (fails : Nat → Bool) (unwinds : Bool) {dflt : V} {p : AProg V} {s : SS V} (h : AInv dflt K p s) (op : Op V) (ha : Allowed K s op) :
    Same (AInv dflt K) (s.step fails unwinds K dflt op) (SmallArr.step fails unwinds K dflt p op) := by
  have gs : ∀ {d : Nat} {x : SA V}, s.var d = some x → (obs s).vals.get d = some (x.elems.map some) := by
    intro d x hx; rw [obs_get, hx]; rfl
  have gn : ∀ {d : Nat}, s.var d = none → (obs s).vals.get d = none := by
    intro d hx; rw [obs_get, hx]; rfl
  have gl : ∀ {d : Nat}, d < s.vars.length → d < (obs s).vals.length := by
    intro d hd; rw [obs_length]; omega
  cases op with
  | make d n =>
      simp only [SS.step, SmallArr.step, h.free]
      split
      · rename_i hc
        have hw : work K (obs s).vals (.new d n) = n := by simp [work, gn hc.1, gl hc.2]
        unfold SS.calls
        cases hf : firstFail fails s.tick n with
        | some k =>
            obtain ⟨q', h1, -⟩ := inv_new_fail fails h.inv (gn hc.1) (gl hc.2) hf
            rw [h1]; trivial
        | none =>
            obtain ⟨q', h1, h2⟩ := inv_ok fails h.inv (.new d n) (by rw [hw]; exact hf) trivial
            rw [h1]
            rw [hw] at h2
            exact h.put hc.2 ⟨n, List.replicate n dflt⟩ (by simpa [sstep, gn hc.1, gl hc.2, dfltCell] using h2)
      · exact h
  | build d vs =>
      simp only [SS.step, SmallArr.step, h.free]
      split
      · rename_i hc
        have hc' : p.q.p.var d = none ∧ d < p.q.p.vars.length := ⟨h.dead.mpr hc.1, by rw [inv_length h.inv]; exact gl hc.2⟩
        have hw : work K (obs s).vals (.newFrom d vs) = vs.length := by simp [work, gn hc.1, gl hc.2]
        obtain ⟨p', hp'⟩ := build_of_inv h.inv (.newFrom d vs) trivial
        simp only [SProg.step, if_pos hc'] at hp'
        obtain ⟨b1, b2⟩ := built_spec fails unwinds hp'
        rw [h.tick] at b1 b2
        unfold SS.calls
        cases hf : firstFail fails s.tick vs.length with
        | some k => rw [b2 k hf]; cases unwinds <;> trivial
        | none =>
            obtain ⟨q', h1, h2⟩ := inv_ok fails h.inv (.newFrom d vs) (by rw [hw]; exact hf) trivial
            simp only [Small.step, if_pos hc'] at h1
            rw [b1 hf, h1]
            rw [hw] at h2
            exact h.put hc.2 ⟨vs.length, vs⟩ (by simpa [sstep, gn hc.1, gl hc.2] using h2)
      · exact h
  | copy d e =>
      simp only [SS.step, SmallArr.step, h.free]
      cases he : s.var e with
      | none => rw [h.dead.mpr he]; exact h
      | some y =>
          obtain ⟨x, hx, hsz, -, hlen⟩ := h.var he
          rw [hx]
          simp only
          split
          · rename_i hc
            have hc' : p.q.p.var d = none ∧ d < p.q.p.vars.length := ⟨h.dead.mpr hc.1, by rw [inv_length h.inv]; exact gl hc.2⟩
            have hw : work K (obs s).vals (.copy d e) = y.elems.length := by simp [work, gn hc.1, gl hc.2, gs he]
            obtain ⟨p', hp'⟩ := build_of_inv h.inv (.copy d e) trivial
            simp only [SProg.step, hx, if_pos hc'] at hp'
            obtain ⟨b1, b2⟩ := built_spec fails unwinds hp'
            rw [h.tick, hsz] at b1 b2
            unfold SS.calls
            cases hf : firstFail fails s.tick y.elems.length with
            | some k => rw [hsz, b2 k hf]; cases unwinds <;> trivial
            | none =>
                obtain ⟨q', h1, h2⟩ := inv_ok fails h.inv (.copy d e) (by rw [hw]; exact hf) trivial
                simp only [Small.step, hx, if_pos hc', hsz] at h1
                rw [hsz, b1 hf, h1, hlen]
                rw [hw] at h2
                exact h.put hc.2 y (by simpa [sstep, gn hc.1, gl hc.2, gs he] using h2)
          · exact h
  | move d e =>
      simp only [SS.step, SmallArr.step, h.free]
      cases he : s.var e with
      | none => rw [h.dead.mpr he]; exact h
      | some y =>
          obtain ⟨x, hx, hsz, -, hlen⟩ := h.var he
          rw [hx]
          simp only
          split
          · rename_i hc
            have hde : e ≠ d := by rintro rfl; rw [hc.1] at he; cases he
            have hK := ha y he
            have hw : work K (obs s).vals (.move d e) = 0 := by
              simp only [work, gs he, List.length_map]
              rcases hK with hK | hK
              · simp [hK]
              · rw [if_neg (by omega)]
            obtain ⟨q', h1, h2⟩ := inv_ok fails h.inv (.move d e) (by rw [hw]; exact firstFail_zero _ _) (by
              intro _ l hl
              rw [gs he] at hl; cases hl
              rcases hK with hK | hK
              · left; simp [hK]
              · right; simpa using hK)
            rw [h1, hlen]
            rw [hw] at h2
            simp only [sstep, gs he, if_pos (And.intro (gn hc.1) (gl hc.2)), Nat.add_zero] at h2
            have he' := var_lt he
            have hs := obs_set s hc.2 (some y)
            have hs2 := obs_set (s.setVar d (some y)) (d := e) (by simpa [SS.setVar] using he') (some ⟨y.len, []⟩)
            refine ⟨?_, ?_, ?_⟩
            · have : obs ((s.setVar d (some y)).setVar e (some ⟨y.len, []⟩)) =
                  { obs s with vals := ((obs s).vals.set d (some (y.elems.map some))).set e (some []) } := by
                show (⟨(obs ((s.setVar d (some y)).setVar e (some ⟨y.len, []⟩))).vals, _, _, _⟩ : Obs V) = _
                rw [hs2, hs]; rfl
              rw [this]; exact h2
            · simp [SS.setVar, h.len]
            · intro i z hz
              rw [svar_set (by simpa [SS.setVar] using he'), svar_set hc.2] at hz
              simp only
              by_cases hi : i = e
              · subst hi
                rw [if_pos rfl] at hz; cases hz
                rw [List.getElem?_set_ne (Ne.symm hde)]
                exact h.lens i y he
              · rw [if_neg hi] at hz
                by_cases hj : i = d
                · subst hj
                  rw [if_pos rfl] at hz; cases hz
                  exact List.getElem?_set_self (by rw [h.len]; exact hc.2)
                · rw [if_neg hj] at hz
                  rw [List.getElem?_set_ne (Ne.symm hj)]
                  exact h.lens i z hz
          · exact h
  | moveAssign d e =>
      simp only [SS.step, SmallArr.step]
      obtain ⟨hde, ha⟩ := ha
      cases hd : s.var d with
      | none => rw [h.dead.mpr hd]; exact h
      | some w =>
          obtain ⟨xd, hxd, -⟩ := h.var hd
          rw [hxd]
          cases he : s.var e with
          | none => rw [h.dead.mpr he]; exact h
          | some y =>
              obtain ⟨x, hx, hsz, -, hlen⟩ := h.var he
              rw [hx]
              simp only
              have hK := ha y he
              have hw : work K (obs s).vals (.moveAssign d e) = 0 := by
                simp only [work, gs he, gs hd, List.length_map]
                rcases hK with hK | hK
                · simp [hK]
                · rw [if_neg (by omega)]
              obtain ⟨q', h1, h2⟩ := inv_ok fails h.inv (.moveAssign d e) (by rw [hw]; exact firstFail_zero _ _) (by
                intro _ l hl
                rw [gs he] at hl; cases hl
                rcases hK with hK | hK
                · left; simp [hK]
                · right; simpa using hK)
              rw [h1, hlen]
              rw [hw] at h2
              simp only [sstep, gs he, gs hd, Nat.add_zero] at h2
              have he' := var_lt he
              have hd' := var_lt hd
              have hs := obs_set s hd' (some y)
              have hs2 := obs_set (s.setVar d (some y)) (d := e) (by simpa [SS.setVar] using he') (some ⟨y.len, []⟩)
              refine ⟨?_, ?_, ?_⟩
              · have : obs ((s.setVar d (some y)).setVar e (some ⟨y.len, []⟩)) =
                    { obs s with vals := ((obs s).vals.set d (some (y.elems.map some))).set e (some []) } := by
                  show (⟨(obs ((s.setVar d (some y)).setVar e (some ⟨y.len, []⟩))).vals, _, _, _⟩ : Obs V) = _
                  rw [hs2, hs]; rfl
                rw [this]; exact h2
              · simp [SS.setVar, h.len]
              · intro i z hz
                rw [svar_set (by simpa [SS.setVar] using he'), svar_set hd'] at hz
                simp only
                by_cases hi : i = e
                · subst hi
                  rw [if_pos rfl] at hz; cases hz
                  rw [List.getElem?_set_ne hde]
                  exact h.lens i y he
                · rw [if_neg hi] at hz
                  by_cases hj : i = d
                  · subst hj
                    rw [if_pos rfl] at hz; cases hz
                    exact List.getElem?_set_self (by rw [h.len]; exact hd')
                  · rw [if_neg hj] at hz
                    rw [List.getElem?_set_ne (Ne.symm hj)]
                    exact h.lens i z hz
  | copyAssign d e =>
      simp only [SS.step, SmallArr.step]
      cases hd : s.var d with
      | none => rw [h.dead.mpr hd]; exact h
      | some w =>
          obtain ⟨xd, hxd, -⟩ := h.var hd
          rw [hxd]
          cases he : s.var e with
          | none => rw [h.dead.mpr he]; exact h
          | some y =>
              obtain ⟨x, hx, hsz, -, hlen⟩ := h.var he
              rw [hx]
              simp only
              have hw : work K (obs s).vals (.copyAssign d e) = y.elems.length := by simp [work, gs he, gs hd]
              unfold SS.calls
              cases hf : firstFail fails s.tick y.elems.length with
              | some k =>
                  rw [inv_assign_fail fails h.inv (Or.inl rfl) ha (by rw [hw]; exact hf)]; trivial
              | none =>
                  obtain ⟨q', h1, h2⟩ := inv_ok fails h.inv (.copyAssign d e) (by rw [hw]; exact hf) (fun e => absurd e ha)
                  rw [h1, hlen]
                  rw [hw] at h2
                  exact h.put (var_lt hd) y (by simpa [sstep, gs hd, gs he] using h2)
  | assign d vs =>
      simp only [SS.step, SmallArr.step]
      cases hd : s.var d with
      | none => rw [h.dead.mpr hd]; exact h
      | some w =>
          obtain ⟨xd, hxd, -⟩ := h.var hd
          rw [hxd]
          simp only
          have hr := h.resize fails vs.length hd hxd
          have hsv : ∀ s1, s.remake fails K dflt d vs.length w = .ok s1 → ∃ l : List V, s1.var d = some ⟨vs.length, l⟩ ∧ l.length = vs.length := by
            intro s1 h1
            have hd' := var_lt hd
            unfold SS.remake at h1
            split at h1
            · split at h1
              · cases h1
              · split at h1
                · cases h1
                  exact ⟨List.replicate vs.length dflt, by simp [SS.var, SS.setVar, hd'], by simp⟩
                · unfold SS.calls at h1
                  split at h1
                  · cases h1
                    exact ⟨List.replicate vs.length dflt, by simp [SS.var, SS.setVar, hd'], by simp⟩
                  · cases h1
            · rename_i hn
              cases h1
              exact ⟨w.elems, by rw [svar_set hd', if_pos rfl], by
                by_contra hc
                exact hn (Or.inr hc)⟩
          cases hs1 : s.remake fails K dflt d vs.length w with
          | ok s1 =>
              rw [hs1] at hr
              cases hp1 : SmallArr.resize fails K dflt d vs.length xd p with
              | ok p1 =>
                  rw [hp1] at hr
                  have hr : AInv dflt K p1 s1 := hr
                  obtain ⟨l, hl, hll⟩ := hsv s1 hs1
                  obtain ⟨c1, c2⟩ := put_spec fails vs (i := 0) hr.inv (d := d) (l := l.map some) (by rw [obs_get, hl]; rfl) (Nat.zero_le _)
                  simp only [List.length_map, hll, Nat.sub_zero, Nat.min_self] at c1 c2
                  simp only [Out.bind]
                  unfold SS.calls
                  cases hf : firstFail fails s1.tick vs.length with
                  | some k => obtain ⟨q', h1⟩ := c1 k hf; rw [h1]; trivial
                  | none =>
                      obtain ⟨q', h1, h2⟩ := (c2 hf).1 (Nat.le_refl _)
                      rw [h1]
                      have hd1 := var_lt hl
                      have e2 : p1.lens.set d vs.length = p1.lens := set_same (hr.lens d _ hl)
                      have := hr.put hd1 ⟨vs.length, vs⟩ (t := s1.tick + vs.length) (lk := s1.leaks) (lo := s1.lost) (q' := q') (by
                        have e : (l.map some).drop (0 + vs.length) = [] := by
                          apply List.drop_eq_nil_of_le; simp [hll]
                        rw [e] at h2
                        simpa using h2)
                      rw [e2] at this
                      exact this
              | threw p1 => rw [hp1] at hr; exact hr.elim
              | terminate => rw [hp1] at hr; exact hr.elim
              | ub => rw [hp1] at hr; exact hr.elim
          | threw s1 =>
              rw [hs1] at hr
              cases hp1 : SmallArr.resize fails K dflt d vs.length xd p <;> rw [hp1] at hr <;> first | exact hr.elim | trivial
          | terminate =>
              rw [hs1] at hr
              cases hp1 : SmallArr.resize fails K dflt d vs.length xd p <;> rw [hp1] at hr <;> first | exact hr.elim | trivial
          | ub =>
              rw [hs1] at hr
              cases hp1 : SmallArr.resize fails K dflt d vs.length xd p <;> rw [hp1] at hr <;> first | exact hr.elim | trivial
  | fill d v =>
      simp only [SS.step, SmallArr.step]
      cases hd : s.var d with
      | none => rw [h.dead.mpr hd]; exact h
      | some w =>
          obtain ⟨xd, hxd, -, -, hlen⟩ := h.var hd
          rw [hxd]
          simp only [hlen]
          obtain ⟨c1, c2⟩ := put_spec fails (List.replicate w.len v) (i := 0) h.inv (gs hd) (Nat.zero_le _)
          simp only [List.length_map, Nat.sub_zero, List.length_replicate] at c1 c2
          unfold SS.calls
          cases hf : firstFail fails s.tick (min w.len w.elems.length) with
          | some k => obtain ⟨q', h1⟩ := c1 k hf; rw [h1]; trivial
          | none =>
              simp only
              by_cases hle : w.len ≤ w.elems.length
              · obtain ⟨q', h1, h2⟩ := (c2 hf).1 hle
                rw [h1, if_pos hle, Nat.min_eq_left hle]
                have e2 : p.lens.set d w.len = p.lens := set_same (h.lens d _ hd)
                have := h.put (var_lt hd) ⟨w.len, List.replicate w.len v ++ w.elems.drop w.len⟩ (t := s.tick + w.len) (lk := s.leaks) (lo := s.lost) (q' := q') (by
                  simpa using h2)
                rw [e2] at this
                exact this
              · rw [(c2 hf).2 (by omega), if_neg hle]; trivial
  | resize d n =>
      simp only [SS.step, SmallArr.step]
      cases hd : s.var d with
      | none => rw [h.dead.mpr hd]; exact h
      | some w =>
          obtain ⟨xd, hxd, -⟩ := h.var hd
          rw [hxd]
          exact h.resize fails n hd hxd
  | read d i =>
      simp only [SS.step, SmallArr.step]
      cases hd : s.var d with
      | none => rw [h.dead.mpr hd]; exact h
      | some w =>
          obtain ⟨xd, hxd, hsz, hnull, hlen⟩ := h.var hd
          rw [hxd]
          simp only [hlen]
          by_cases hi : i < w.len
          · rw [if_pos hi]
            obtain ⟨k1, k2⟩ := inv_cell h.inv (gs hd) i
            simp only [List.length_map] at k1 k2
            by_cases hl : i < w.elems.length
            · obtain ⟨v, hv⟩ := k1 hl
              rw [hv, if_neg (by omega)]; exact h
            · rw [if_pos ⟨hi, by omega⟩]
              split
              · rename_i v hv
                exact absurd hv (k2 (by omega) v)
              · trivial
          · rw [if_neg hi, if_neg (fun hc => hi hc.1)]; exact h
  | destroy d =>
      simp only [SS.step, SmallArr.step]
      cases hd : s.var d with
      | none => rw [h.dead.mpr hd]; exact h
      | some w =>
          obtain ⟨xd, hxd, -⟩ := h.var hd
          rw [hxd]
          simp only
          obtain ⟨q', h1, h2⟩ := inv_ok fails h.inv (.destroy d) (firstFail_zero _ _) trivial
          rw [h1]
          simp only [sstep, work, Nat.add_zero] at h2
          have hd' := var_lt hd
          refine ⟨?_, by simpa [SS.setVar] using h.len, ?_⟩
          · have : obs (s.setVar d none) = { obs s with vals := (obs s).vals.set d none } := by
              show (⟨(obs (s.setVar d none)).vals, _, _, _⟩ : Obs V) = _
              rw [obs_set s hd']; rfl
            rw [this]; exact h2
          · intro i z hz
            rw [svar_set hd'] at hz
            split at hz
            · cases hz
            · exact h.lens i z hz

/-! ## Programs -/

theorem AInv.holds {dflt : V} {p : AProg V} {s : SS V} (h : AInv dflt K p s) : Spec.Holds dflt K p s := by
  have sh := h.inv.shows
  refine ⟨fun i => ?_, h.lens, sh.tick, sh.lost, sh.unique, fun i x hx => (sh.place i x hx).2.2, sh.blocks⟩
  rw [sh.vals i, obs_get, Option.map_map]
  congr 1
  funext x
  simp [Function.comp]

theorem AInv.start (dflt : V) (K n : Nat) : AInv dflt K (SmallArr.start n) (SS.init n) := by
  refine ⟨?_, by simp [SmallArr.start, SS.init], ?_⟩
  · refine ⟨SProg.start (n + 1), [], ?_, ⟨rfl, rfl, fun _ _ => rfl, fun _ he => by cases he⟩, rfl, rfl, by simp, .nil⟩
    have e : (obs (SS.init n : SS V)).vals = List.replicate (n + 1) none := by
      simp [obs, SS.init, List.replicate_succ']
    rw [e]
    exact SProg.start_rep false K (n + 1)
  · intro d x hx
    unfold SS.var SS.init at hx
    simp only [List.getElem?_replicate] at hx
    split at hx <;> cases hx

theorem AInv.run (fails : Nat → Bool) (unwinds : Bool) {dflt : V} (ops : List (Op V)) : ∀ {p : AProg V} {s : SS V}, AInv dflt K p s →
    AllowedRun fails unwinds K dflt s ops →
    Agrees (AInv dflt K) (Small.run (SmallArr.step fails unwinds K dflt) p ops) (Small.run (SS.step fails unwinds K dflt) s ops) := by
  induction ops with
  | nil => intro p s h _; exact ⟨h, rfl⟩
  | cons op ops ih =>
      intro p s h ha
      obtain ⟨h1, h2⟩ := ha
      have h3 := h.step fails unwinds op h1
      simp only [Small.run]
      cases ho : s.step fails unwinds K dflt op <;> cases hq : SmallArr.step fails unwinds K dflt p op <;> rw [ho, hq] at h3 <;>
        simp only [Same] at h3 <;> rw [ho] at h2 <;> simp only at h2 ⊢
      · have := ih h3 h2
        revert this
        cases Small.run (SmallArr.step fails unwinds K dflt) _ ops <;> cases Small.run (SS.step fails unwinds K dflt) _ ops <;> simp [Agrees, Out.bind]
      · have := ih h3 h2
        revert this
        cases Small.run (SmallArr.step fails unwinds K dflt) _ ops <;> cases Small.run (SS.step fails unwinds K dflt) _ ops <;> simp [Agrees, Out.bind]
      · trivial
      · trivial

theorem agrees_mono {S T : Type} {R R' : S → T → Prop} (hR : ∀ s t, R s t → R' s t) {a : Out (S × List Bool)} {b : Out (T × List Bool)}
    (h : Agrees R a b) : Agrees R' a b := by
  cases a <;> cases b <;> simp only [Agrees] at h ⊢
  exact ⟨hR _ _ h.1, h.2⟩

/-- C101.  Arrays with small-buffer storage whose elements throw: a program that catches every exception ends, continues, is terminated or is undefined
exactly as the program on lists of values says (`SS.step`), throws where it says, and its arrays have the sizes and the elements it says; the
blocks that are not released are those of the arrays and the ones lost by `resize`.  For all programs, all numbers of elements, all inline
capacities, and whichever calls fail.

Missing: as in C29 and C85, moves out of buffers and assignments of arrays to themselves. -/
theorem C101_refines_partial (fails : Nat → Bool) (unwinds : Bool) (K : Nat) (dflt : V) (n : Nat) (ops : List (Op V))
    (h : AllowedRun fails unwinds K dflt (SS.init n) ops) :
    Agrees (Spec.Holds dflt K) (Small.run (SmallArr.step fails unwinds K dflt) (SmallArr.start n) ops)
      (Small.run (SS.step fails unwinds K dflt) (SS.init n) ops) :=
  agrees_mono (fun _ _ h => h.holds) (AInv.run fails unwinds ops (AInv.start dflt K n) h)

/-- The states that programs reach. -/
def Reach (fails : Nat → Bool) (unwinds : Bool) (K : Nat) (dflt : V) (n : Nat) (p : AProg V) : Prop :=
  ∃ ops e, AllowedRun fails unwinds K dflt (SS.init n) ops ∧ Small.run (SmallArr.step fails unwinds K dflt) (SmallArr.start n) ops = .ok (p, e)

theorem Reach.inv {fails : Nat → Bool} {unwinds : Bool} {dflt : V} {n : Nat} {p : AProg V} (h : Reach fails unwinds K dflt n p) : ∃ s, AInv dflt K p s := by
  obtain ⟨ops, e, ha, hr⟩ := h
  have := AInv.run fails unwinds ops (AInv.start dflt K n) ha
  rw [hr] at this
  cases hs : Small.run (SS.step fails unwinds K dflt) (SS.init n) ops with
  | ok r => rw [hs] at this; exact ⟨r.1, this.1⟩
  | threw r => rw [hs] at this; exact this.elim
  | terminate => rw [hs] at this; exact this.elim
  | ub => rw [hs] at this; exact this.elim

theorem noexcept_ne {α : Type} {o : Out α} {a : α} : o.noexcept ≠ .threw a := by cases o <;> simp [Out.noexcept]

theorem on_ne {lens : List Nat} {o : Out (TProg V)} (h : ∀ q, o ≠ .threw q) {p : AProg V} : on lens o ≠ .threw p := by
  cases o <;> simp [on, Out.bind]
  exact absurd rfl (h _)

/-- C101.  The only operation of an array that lets an exception out is `resize`. -/
theorem C101_only_resize (fails : Nat → Bool) (unwinds : Bool) (K : Nat) (dflt : V) (p p' : AProg V) (op : Op V)
    (h : SmallArr.step fails unwinds K dflt p op = .threw p') : ∃ d n, op = .resize d n := by
  have hl : ∀ (q : TProg V) (o : Option (SProg V)) (q' : TProg V), lift q o ≠ .threw q' := by
    intro q o q'; cases o <;> simp [lift]
  have hstep : ∀ (q : TProg V) (d s : Nat) (q' : TProg V), Small.step fails K dflt q (.move d s) ≠ .threw q' ∧
      Small.step fails K dflt q (.moveAssign d s) ≠ .threw q' ∧ Small.step fails K dflt q (.copyAssign d s) ≠ .threw q' := by
    intro q d s q'
    refine ⟨?_, ?_, ?_⟩ <;> simp only [Small.step] <;> split <;> try split
    all_goals first | exact noexcept_ne | simp
  cases op with
  | resize d n => exact ⟨d, n, rfl⟩
  | make d n => simp only [SmallArr.step] at h; split at h; exacts [absurd h (on_ne fun _ => noexcept_ne), by cases h]
  | build d vs => simp only [SmallArr.step, built] at h; split at h; exacts [absurd h (on_ne fun _ => noexcept_ne), by cases h]
  | copy d e =>
      simp only [SmallArr.step, built] at h
      split at h
      · split at h; exacts [absurd h (on_ne fun _ => noexcept_ne), by cases h]
      · cases h
  | move d e =>
      simp only [SmallArr.step] at h
      split at h
      · split at h; exacts [absurd h (on_ne fun q => (hstep _ d e q).1), by cases h]
      · cases h
  | moveAssign d e => simp only [SmallArr.step] at h; split at h; exacts [absurd h (on_ne fun q => (hstep _ d e q).2.1), by cases h]
  | copyAssign d e => simp only [SmallArr.step] at h; split at h; exacts [absurd h (on_ne fun q => (hstep _ d e q).2.2), by cases h]
  | assign d vs => simp only [SmallArr.step] at h; split at h; exacts [absurd h noexcept_ne, by cases h]
  | fill d v => simp only [SmallArr.step] at h; split at h; exacts [absurd h noexcept_ne, by cases h]
  | read d i =>
      simp only [SmallArr.step] at h
      split at h
      · split at h
        · split at h <;> cases h
        · cases h
      · cases h
  | destroy d => simp only [SmallArr.step, Small.step] at h; split at h; exacts [absurd h (on_ne fun q => hl _ _ q), by cases h]

/-- C101, disagreement.  After an exception of `resize` the array has the new shape and the old elements: the accesses that its shape allows are
undefined from the old number of elements on. -/
theorem C101_resize_throws (fails : Nat → Bool) (unwinds : Bool) (K : Nat) (dflt : V) (N : Nat) (p : AProg V) (hp : Reach fails unwinds K dflt N p)
    (d n k : Nat) (x : Sso V) (hx : p.q.p.var d = some x) (hn : x.size ≠ n) (hk : firstFail fails p.q.tick n = some k) :
    ∃ p', SmallArr.step fails unwinds K dflt p (.resize d n) = .threw p' ∧ contents p'.q.p d = contents p.q.p d ∧ len p' d = n ∧
      ∀ i, x.size ≤ i → i < n → SmallArr.step fails unwinds K dflt p' (.read d i) = .ub := by
  obtain ⟨s, hs⟩ := hp.inv
  cases hv : s.var d with
  | none => rw [hs.dead.mpr hv] at hx; cases hx
  | some w =>
      obtain ⟨y, hy, hsz, -, -⟩ := hs.var hv
      rw [hx] at hy; cases hy
      have hd := var_lt hv
      have h1 := hs.step fails unwinds (.resize d n) trivial
      simp only [SS.step, hv, SS.remake] at h1
      rw [if_pos (Or.inr (by rw [← hsz]; exact hn)), ← hs.tick, hk] at h1
      cases hq : SmallArr.step fails unwinds K dflt p (.resize d n) with
      | threw p' =>
          rw [hq] at h1
          simp only [Same] at h1
          refine ⟨p', rfl, ?_, ?_, ?_⟩
          · rw [h1.holds.elems, hs.holds.elems, hv, svar_mk hd]; rfl
          · have := h1.lens d { w with len := n } (by rw [svar_mk hd])
            simp [len, this]
          · intro i hi hin
            have h2 := h1.step fails unwinds (.read d i) trivial
            simp only [SS.step] at h2
            rw [svar_mk hd] at h2
            simp only at h2
            rw [if_pos ⟨hin, by rw [← hsz]; exact hi⟩] at h2
            revert h2
            cases SmallArr.step fails unwinds K dflt p' (.read d i) <;> simp [Same]
      | ok p' => rw [hq] at h1; exact h1.elim
      | terminate => rw [hq] at h1; exact h1.elim
      | ub => rw [hq] at h1; exact h1.elim

/-- C101, disagreement.  `resize` to a number of elements that fits into the buffer makes every element twice, and never destroys the first ones: `n`
elements are lost each time, although nothing fails. -/
theorem C101_small_resize (fails : Nat → Bool) (unwinds : Bool) (K : Nat) (dflt : V) (N : Nat) (p : AProg V) (hp : Reach fails unwinds K dflt N p)
    (d n : Nat) (x : Sso V) (hx : p.q.p.var d = some x) (hn : x.size ≠ n) (hK : n ≤ K) (hf : firstFail fails p.q.tick (n + n) = none) :
    ∃ p', SmallArr.step fails unwinds K dflt p (.resize d n) = .ok p' ∧ contents p'.q.p d = some (List.replicate n (some (some dflt))) ∧
      p'.q.lost = p.q.lost + n ∧ p'.q.tick = p.q.tick + (n + n) := by
  obtain ⟨s, hs⟩ := hp.inv
  have hf1 : firstFail fails p.q.tick n = none := by
    simp only [firstFail, List.find?_eq_none, List.mem_range] at hf ⊢
    exact fun j hj => hf j (by omega)
  have hf2 : firstFail fails (p.q.tick + n) n = none := by
    simp only [firstFail, List.find?_eq_none, List.mem_range] at hf ⊢
    intro j hj
    rw [Nat.add_assoc]
    exact hf (n + j) (by omega)
  cases hv : s.var d with
  | none => rw [hs.dead.mpr hv] at hx; cases hx
  | some w =>
      obtain ⟨y, hy, hsz, -, -⟩ := hs.var hv
      rw [hx] at hy; cases hy
      have hd := var_lt hv
      have h1 := hs.step fails unwinds (.resize d n) trivial
      simp only [SS.step, hv, SS.remake, SS.calls] at h1
      rw [if_pos (Or.inr (by rw [← hsz]; exact hn)), ← hs.tick, hf1] at h1
      simp only [if_neg (show ¬ K < n by omega), hf2] at h1
      cases hq : SmallArr.step fails unwinds K dflt p (.resize d n) with
      | ok p' =>
          rw [hq] at h1
          simp only [Same] at h1
          have ho := h1.holds
          refine ⟨p', rfl, ?_, ?_, ?_⟩
          · rw [ho.elems, svar_mk hd]; simp
          · rw [ho.lost, hs.holds.lost]; rfl
          · rw [ho.tick]; simp only [SS.setVar]; omega
      | threw p' => rw [hq] at h1; exact h1.elim
      | terminate => rw [hq] at h1; exact h1.elim
      | ub => rw [hq] at h1; exact h1.elim

theorem run_append {S O : Type} (step : S → O → Out S) (ops ops2 : List O) : ∀ {q q1 q2 : S} {e1 e2 : List Bool}, Small.run step q ops = .ok (q1, e1) →
    Small.run step q1 ops2 = .ok (q2, e2) → Small.run step q (ops ++ ops2) = .ok (q2, e1 ++ e2) := by
  induction ops with
  | nil => intro q q1 q2 e1 e2 h h2; simp only [Small.run, Out.ok.injEq, Prod.mk.injEq] at h; obtain ⟨rfl, rfl⟩ := h; exact h2
  | cons op ops ih =>
      intro q q1 q2 e1 e2 h h2
      simp only [Small.run, List.cons_append] at h ⊢
      cases hs : step q op <;> rw [hs] at h <;> simp only at h ⊢
      all_goals try cases h
      all_goals
        rename_i q'
        cases hr : Small.run step q' ops <;> rw [hr] at h <;> simp only [Out.bind] at h
        all_goals try cases h
        rename_i r
        rw [ih hr h2]; rfl

theorem allowed_append (fails : Nat → Bool) (unwinds : Bool) (dflt : V) (ops ops2 : List (Op V)) : ∀ {s s1 : SS V} {e : List Bool},
    AllowedRun fails unwinds K dflt s ops → Small.run (SS.step fails unwinds K dflt) s ops = .ok (s1, e) → AllowedRun fails unwinds K dflt s1 ops2 →
    AllowedRun fails unwinds K dflt s (ops ++ ops2) := by
  induction ops with
  | nil => intro s s1 e _ h h2; simp only [Small.run, Out.ok.injEq, Prod.mk.injEq] at h; obtain ⟨rfl, rfl⟩ := h; exact h2
  | cons op ops ih =>
      intro s s1 e ha h h2
      refine ⟨ha.1, ?_⟩
      have ha2 := ha.2
      simp only [Small.run] at h
      cases hs : s.step fails unwinds K dflt op <;> rw [hs] at h ha2 <;> simp only at h ha2 ⊢
      all_goals
        rename_i s'
        cases hr : Small.run (SS.step fails unwinds K dflt) s' ops <;> rw [hr] at h <;> simp only [Out.bind] at h
        all_goals try cases h
        exact ih ha2 hr h2

theorem firstFail_split (fails : Nat → Bool) (t n m : Nat) : firstFail fails t (n + m) =
    match firstFail fails t n with
    | some k => some k
    | none => (firstFail fails (t + n) m).map (n + ·) := by
  simp only [firstFail, List.range_add, List.find?_append]
  cases List.find? (fun k => fails (t + k)) (List.range n) with
  | some k => rfl
  | none =>
      simp only [Option.none_or, List.find?_map]
      congr 2
      funext k
      simp [Function.comp, Nat.add_assoc]

/-- C101, disagreement.  The constructor with one integer per dimension goes through a temporary: if the elements fit into the buffer, they are made twice
and the first ones are never destroyed; an exception of any constructor ends the program. -/
theorem C101_ints (fails : Nat → Bool) (unwinds : Bool) (K : Nat) (dflt : V) (N : Nat) (p : AProg V) (hp : Reach fails unwinds K dflt N p)
    (d n : Nat) (hd : p.q.p.var d = none) (hd' : d < p.lens.length) :
    (∀ p', makeInts fails K dflt d n p = .ok p' → Reach fails unwinds K dflt N p') ∧
    match firstFail fails p.q.tick (if n ≤ K then n + n else n) with
    | some _ => makeInts fails K dflt d n p = .terminate
    | none => ∃ p', makeInts fails K dflt d n p = .ok p' ∧ contents p'.q.p d = some (List.replicate n (some (some dflt))) ∧
        (∀ e, e ≠ d → contents p'.q.p e = contents p.q.p e) ∧ len p' d = n ∧
        p'.q.lost = p.q.lost + (if n ≤ K then n else 0) := by
  obtain ⟨ops, e, ha, hr⟩ := hp
  have hrun := AInv.run fails unwinds ops (AInv.start dflt K N) ha
  rw [hr] at hrun
  cases hso : Small.run (SS.step fails unwinds K dflt) (SS.init N) ops <;> rw [hso] at hrun <;> simp only [Agrees] at hrun
  rename_i r
  obtain ⟨s, es⟩ := r
  obtain ⟨hs, -⟩ := hrun
  simp only at hs
  have hfree := hs.free.mp ⟨hd, hd'⟩
  -- the default storage
  have h0 := hs.step fails unwinds (.make d 0) trivial
  simp only [SS.step, if_pos hfree, SS.calls, firstFail_zero] at h0
  have e0 : SmallArr.step fails unwinds K dflt p (.make d 0) = on (p.lens.set d 0) (Small.step fails K dflt p.q (.new d 0)) := by
    simp only [SmallArr.step, if_pos (show p.q.p.var d = none ∧ d < p.lens.length from ⟨hd, hd'⟩)]
    have : ∀ q', Small.step fails K dflt p.q (.new d 0) ≠ .threw q' := by
      intro q'; simp only [Small.step]; split
      · simp [Small.build]
      · simp
    revert this
    cases Small.step fails K dflt p.q (.new d 0) <;> simp [Out.noexcept]
  cases hm : SmallArr.step fails unwinds K dflt p (.make d 0) <;> rw [hm] at h0 <;> simp only [Same] at h0
  rename_i p1
  have hs1 : SS.step fails unwinds K dflt s (.make d 0) = .ok (SS.setVar { s with tick := s.tick + 0 } d (some ⟨0, List.replicate 0 dflt⟩)) := by
    simp only [SS.step, if_pos hfree, SS.calls, firstFail_zero]
  have hv1 : (SS.setVar { s with tick := s.tick + 0 } d (some ⟨0, List.replicate 0 dflt⟩)).var d = some ⟨0, []⟩ := by
    rw [svar_mk hfree.2]; rfl
  obtain ⟨y, hy, -, -, -⟩ := h0.var hv1
  have e1 : makeInts fails K dflt d n p = (SmallArr.step fails unwinds K dflt p1 (.resize d n)).noexcept := by
    unfold makeInts
    rw [if_pos ⟨hd, hd'⟩, ← e0, hm]
    simp only [Out.bind, hy, SmallArr.step]
  constructor
  · intro p' h'
    rw [e1] at h'
    have h2 : SmallArr.step fails unwinds K dflt p1 (.resize d n) = .ok p' := by
      revert h'
      cases SmallArr.step fails unwinds K dflt p1 (.resize d n) <;> simp [Out.noexcept]
    refine ⟨ops ++ [.make d 0, .resize d n], e ++ [false, false], allowed_append fails unwinds dflt ops _ ha hso ?_,
      run_append _ ops _ hr ?_⟩
    · refine ⟨trivial, ?_⟩
      rw [hs1]
      refine ⟨trivial, ?_⟩
      split <;> trivial
    · simp only [Small.run, hm, h2, Out.bind]
  · have h2 := h0.step fails unwinds (.resize d n) trivial
    simp only [SS.step, hv1, SS.remake, SS.calls, true_or, if_true] at h2
    have ht : (SS.setVar { s with tick := s.tick + 0 } d (some ⟨0, List.replicate 0 dflt⟩)).tick = p.q.tick := by
      rw [hs.tick]; rfl
    rw [ht] at h2
    rw [e1]
    have hfin : ∀ p' t lo, AInv dflt K p' (SS.setVar (SS.mk (SS.setVar { s with tick := s.tick + 0 } d (some ⟨0, List.replicate 0 dflt⟩)).vars t s.leaks lo) d
        (some ⟨n, List.replicate n dflt⟩)) → contents p'.q.p d = some (List.replicate n (some (some dflt))) ∧
        (∀ e, e ≠ d → contents p'.q.p e = contents p.q.p e) ∧ len p' d = n ∧ p'.q.lost = lo := by
      intro p' t lo hi
      have hl : d < (SS.setVar { s with tick := s.tick + 0 } d (some ⟨0, List.replicate 0 dflt⟩)).vars.length := by
        simp [SS.setVar]; exact hfree.2
      refine ⟨?_, ?_, ?_, ?_⟩
      · rw [hi.holds.elems, svar_mk hl]; simp
      · intro e' he
        rw [hi.holds.elems, hs.holds.elems]
        simp only [SS.var, SS.setVar, List.set_set]
        rw [List.getElem?_set_ne (Ne.symm he)]
      · have := hi.lens d ⟨n, List.replicate n dflt⟩ (by rw [svar_mk hl])
        simp [len, this]
      · rw [hi.holds.lost]; rfl
    have hlo : p.q.lost = s.lost := hs.holds.lost
    by_cases hK : K < n
    · simp only [if_neg (show ¬ n ≤ K by omega)]
      simp only [if_pos hK] at h2
      cases hf : firstFail fails p.q.tick n with
      | some k =>
          rw [hf] at h2
          cases hq : SmallArr.step fails unwinds K dflt p1 (.resize d n) <;> rw [hq] at h2 <;> simp only [Same] at h2
          rfl
      | none =>
          rw [hf] at h2
          cases hq : SmallArr.step fails unwinds K dflt p1 (.resize d n) <;> rw [hq] at h2 <;> simp only [Same] at h2
          rename_i p'
          obtain ⟨f1, f2, f3, f4⟩ := hfin p' _ _ h2
          exact ⟨p', rfl, f1, f2, f3, by rw [f4, hlo]; rfl⟩
    · simp only [if_pos (show n ≤ K by omega)]
      simp only [if_neg hK] at h2
      rw [firstFail_split]
      cases hf : firstFail fails p.q.tick n with
      | some k =>
          rw [hf] at h2
          cases hq : SmallArr.step fails unwinds K dflt p1 (.resize d n) <;> rw [hq] at h2 <;> simp only [Same] at h2
          rfl
      | none =>
          rw [hf] at h2
          simp only at h2 ⊢
          cases hf2 : firstFail fails (p.q.tick + n) n with
          | some k =>
              rw [hf2] at h2
              cases hq : SmallArr.step fails unwinds K dflt p1 (.resize d n) <;> rw [hq] at h2 <;> simp only [Same] at h2
              rfl
          | none =>
              rw [hf2] at h2
              cases hq : SmallArr.step fails unwinds K dflt p1 (.resize d n) <;> rw [hq] at h2 <;> simp only [Same] at h2
              rename_i p'
              obtain ⟨f1, f2, f3, f4⟩ := hfin p' _ _ h2
              exact ⟨p', rfl, f1, f2, f3, by rw [f4, hlo]; rfl⟩

/-! ## The same arrays with storage on the heap -/

/-- The arrays of `s`, as `Verif.Spec.Exceptions` writes them. -/
def toA (x : SA V) : Exc.Spec.AArr V := ⟨x.len, x.elems, 0⟩

theorem toA_var {s : SS V} {a : Exc.Spec.AS V} (h : a.vars = s.vars.map (Option.map toA)) (d : Nat) : a.var d = (s.var d).map toA := by
  unfold Exc.Spec.AS.var SS.var
  rw [h, List.getElem?_map]
  cases s.vars[d]? <;> simp

theorem toA_set {vs : List (Option (SA V))} {d : Nat} (x : SA V) : (vs.set d (some x)).map (Option.map toA) = (vs.map (Option.map toA)).set d (some (toA x)) := by
  rw [List.map_set]; rfl

theorem quiet_same (fails : Nat → Bool) (unwinds : Bool) {w : World} (hq : ∀ t, fails t = false) (hw : Quiet w) (dflt : V) {s : SS V} {a : Exc.Spec.AS V}
    (h : a.vars = s.vars.map (Option.map toA)) (op : Op V) :
    Exc.Spec.Same (fun (a : Exc.Spec.AS V) (s : SS V) => a.vars = s.vars.map (Option.map toA)) (a.step w dflt op) (s.step fails unwinds K dflt op) := by
  have hf : ∀ t n, firstFail fails t n = none := by
    intro t n; simp [firstFail, hq]
  have hff : ∀ t n, Exc.Spec.firstFail w t n = none := by
    intro t n; simp [Exc.Spec.firstFail, hw.1]
  have hlen : a.vars.length = s.vars.length := by rw [h, List.length_map]
  have hdead : ∀ d, (a.var d = none ∧ d < a.vars.length) ↔ (s.var d = none ∧ d < s.vars.length) := by
    intro d; rw [toA_var h, hlen]; cases s.var d <;> simp
  have hg : ∀ n, ∃ a', a.grow w n = .ok a' ∧ a'.vars = a.vars := by
    intro n; unfold Exc.Spec.AS.grow; rw [hw.2, hff]
    by_cases hn : n = 0
    · exact ⟨a, by simp [hn], rfl⟩
    · exact ⟨{ a with tick := a.tick + n, blocks := a.blocks + 1 }, by simp only [hn, Bool.false_eq_true, if_false], rfl⟩
  have hdup : ∀ y : SA V, ∃ a', a.dup w (toA y) = .ok (toA y, a') ∧ a'.vars = a.vars := by
    intro y; unfold Exc.Spec.AS.dup; rw [hw.2, hff]
    by_cases hn : y.elems = []
    · exact ⟨a, by simp [toA, hn], rfl⟩
    · exact ⟨{ a with tick := a.tick + y.elems.length, blocks := a.blocks + 1 }, by simp [toA, hn], rfl⟩
  have hset : ∀ (a' : Exc.Spec.AS V) (d : Nat) (x : SA V) (t lo : Nat) (lk : List (Nat × Nat)), a'.vars = a.vars →
      (a'.setVar d (some (toA x))).vars = (SS.setVar ⟨s.vars, t, lk, lo⟩ d (some x)).vars.map (Option.map toA) := by
    intro a' d x t lo lk ha
    simp only [Exc.Spec.AS.setVar, SS.setVar, ha, h, toA_set]
  have hrem : ∀ (d n : Nat) (x : SA V), s.var d = some x → ∃ t lo, s.remake fails K dflt d n x =
      .ok (SS.setVar ⟨s.vars, t, s.leaks, lo⟩ d (some ⟨n, if x.elems = [] ∨ x.elems.length ≠ n then List.replicate n dflt else x.elems⟩)) := by
    intro d n x hx
    unfold SS.remake SS.calls
    by_cases hc : x.elems = [] ∨ x.elems.length ≠ n
    · simp only [if_pos hc, hf]
      by_cases hK : K < n
      · exact ⟨s.tick + n, s.lost, by simp [hK]⟩
      · exact ⟨s.tick + n + n, s.lost + n, by simp [hK]⟩
    · simp only [if_neg hc]
      exact ⟨s.tick, s.lost, rfl⟩
  have hneeds : ∀ (x : SA V) (n : Nat), Exc.Spec.AS.needs (toA x) n = true ↔ (x.elems = [] ∨ x.elems.length ≠ n) := by
    intro x n
    by_cases h1 : x.elems = [] <;> by_cases h2 : x.elems.length = n <;> simp [Exc.Spec.AS.needs, toA, h1, h2]
  cases op with
  | make d n =>
      simp only [Exc.Spec.AS.step, SS.step, SS.calls, hf, hdead]
      split
      · obtain ⟨a', e, ha⟩ := hg n
        rw [e]
        exact hset a' d ⟨n, List.replicate n dflt⟩ _ _ _ ha
      · exact h
  | build d vs =>
      simp only [Exc.Spec.AS.step, SS.step, SS.calls, hf, hdead]
      split
      · obtain ⟨a', e, ha⟩ := hg vs.length
        rw [e]
        exact hset a' d ⟨vs.length, vs⟩ _ _ _ ha
      · exact h
  | copy d e =>
      simp only [Exc.Spec.AS.step, SS.step, SS.calls, hf, hff, hdead, toA_var h e]
      cases he : s.var e with
      | none => exact h
      | some y =>
          simp only [Option.map_some]
          split
          · obtain ⟨a', e', ha⟩ := hdup y
            rw [e']
            simp only [ne_eq, not_true_eq_false, and_false, if_false]
            exact hset a' d y _ _ _ ha
          · exact h
  | move d e =>
      simp only [Exc.Spec.AS.step, SS.step, hdead, toA_var h e]
      cases he : s.var e with
      | none => exact h
      | some y =>
          simp only [Option.map_some]
          split
          · simp only [Exc.Spec.Same, Exc.Spec.AS.setVar, SS.setVar, h, toA_set]; rfl
          · exact h
  | moveAssign d e =>
      simp only [Exc.Spec.AS.step, SS.step, toA_var h e, toA_var h d]
      cases hd : s.var d with
      | none => exact h
      | some x =>
          cases he : s.var e with
          | none => exact h
          | some y => simp only [Option.map_some, Exc.Spec.Same, Exc.Spec.AS.setVar, SS.setVar, h, toA_set]; rfl
  | copyAssign d e =>
      simp only [Exc.Spec.AS.step, SS.step, SS.calls, hf, toA_var h e, toA_var h d]
      cases hd : s.var d with
      | none => exact h
      | some x =>
          cases he : s.var e with
          | none => exact h
          | some y =>
              obtain ⟨a', e', ha⟩ := hdup y
              simp only [Option.map_some]
              rw [e']
              exact hset a' d y _ _ _ ha
  | assign d vs =>
      simp only [Exc.Spec.AS.step, SS.step, SS.calls, hf, toA_var h d]
      cases hd : s.var d with
      | none => exact h
      | some x =>
          obtain ⟨t, lo, hr⟩ := hrem d vs.length x hd
          simp only [Option.map_some, hr]
          have : ∃ a', (if Exc.Spec.AS.needs (toA x) vs.length = true then a.grow w vs.length else .ok a) = .ok a' ∧ a'.vars = a.vars := by
            split
            · exact hg _
            · exact ⟨a, rfl, rfl⟩
          obtain ⟨a', e', ha⟩ := this
          rw [e']
          simp only [Exc.Spec.AS.touch, hff, Nat.le_refl, if_true, Exc.Spec.Same, Exc.Spec.AS.setVar, SS.setVar, ha, h, List.set_set]
          rw [toA_set]; rfl
  | fill d v =>
      simp only [Exc.Spec.AS.step, SS.step, SS.calls, hf, toA_var h d]
      cases hd : s.var d with
      | none => exact h
      | some x =>
          simp only [Option.map_some, Exc.Spec.AS.touch, hff, toA]
          by_cases hl : x.len ≤ x.elems.length
          · simp only [if_pos hl]
            exact hset { a with tick := a.tick + x.len } d ⟨x.len, List.replicate x.len v ++ x.elems.drop x.len⟩ _ _ _ rfl
          · simp only [if_neg hl]; trivial
  | resize d n =>
      simp only [Exc.Spec.AS.step, SS.step, toA_var h d]
      cases hd : s.var d with
      | none => exact h
      | some x =>
          obtain ⟨t, lo, hr⟩ := hrem d n x hd
          simp only [Option.map_some, hr]
          by_cases hc : x.elems = [] ∨ x.elems.length ≠ n
          · rw [if_pos ((hneeds x n).mpr hc), if_pos hc]
            obtain ⟨a', e', ha⟩ := hg n
            rw [e']
            exact hset a' d ⟨n, List.replicate n dflt⟩ _ _ _ ha
          · rw [if_neg (fun hn => hc ((hneeds x n).mp hn)), if_neg hc]
            exact hset a d ⟨n, x.elems⟩ _ _ _ rfl
  | read d i =>
      simp only [Exc.Spec.AS.step, SS.step, toA_var h d]
      cases hd : s.var d with
      | none => exact h
      | some x =>
          simp only [Option.map_some, toA]
          by_cases h1 : i < x.len
          · by_cases h2 : i < x.elems.length
            · rw [if_pos h1, if_pos h2, if_neg (by omega)]; exact h
            · rw [if_pos h1, if_neg h2, if_pos ⟨h1, by omega⟩]; trivial
          · rw [if_neg h1, if_neg (fun hc => h1 hc.1)]; exact h
  | destroy d =>
      simp only [Exc.Spec.AS.step, SS.step, toA_var h d]
      cases hd : s.var d with
      | none => exact h
      | some x =>
          simp only [Option.map_some, Exc.Spec.Same, Exc.Spec.AS.setVar, SS.setVar, h]
          rw [List.map_set]; rfl

theorem quiet_run (fails : Nat → Bool) (unwinds : Bool) {w : World} (hq : ∀ t, fails t = false) (hw : Quiet w) (dflt : V) (ops : List (Op V)) :
    ∀ {s : SS V} {a : Exc.Spec.AS V}, a.vars = s.vars.map (Option.map toA) →
    Exc.Spec.Same (fun (x : Exc.Spec.AS V × List Bool) (y : SS V × List Bool) => x.1.vars = y.1.vars.map (Option.map toA) ∧ x.2 = y.2)
      (a.run w dflt ops) (Small.run (SS.step fails unwinds K dflt) s ops) := by
  induction ops with
  | nil => intro s a h; exact ⟨h, rfl⟩
  | cons op ops ih =>
      intro s a h
      have h1 := quiet_same (K := K) fails unwinds hq hw dflt h op
      simp only [Exc.Spec.AS.run, Small.run]
      cases ha : a.step w dflt op <;> cases hs : s.step fails unwinds K dflt op <;> rw [ha, hs] at h1 <;> simp only [Exc.Spec.Same] at h1 ⊢
      all_goals
        have := ih h1
        revert this
        cases Exc.Spec.AS.run w dflt _ ops <;> cases Small.run (SS.step fails unwinds K dflt) _ ops <;> simp [Exc.Spec.Same, Out.bind]

/-- C101.  When nothing throws and there is memory, a program ends in the same way with small arrays and with arrays on the heap, and the arrays have the
same sizes and elements. -/
theorem C101_heap (fails : Nat → Bool) (hq : ∀ t, fails t = false) (w : World) (hw : Quiet w) (unwinds : Bool) (K : Nat) (dflt : V) (n : Nat)
    (ops : List (Op V)) (h : AllowedRun fails unwinds K dflt (SS.init n) ops) :
    match Small.run (SmallArr.step fails unwinds K dflt) (SmallArr.start n) ops, (St.init n).run w dflt ops with
    | .ok (p, e), .ok (p', e') => e = e' ∧ ∀ d, match contents p.q.p d, p'.var d with
        | some l, some x => len p d = x.len ∧ ∀ i, (l[i]?).join.join = x.data.bind fun b => p'.m.hp.read b i
        | none, none => True
        | _, _ => False
    | .terminate, .terminate => True
    | .ub, .ub => True
    | _, _ => False := by
  have h1 := AInv.run fails unwinds ops (AInv.start dflt K n) h
  have h2 := quiet_run (K := K) fails unwinds hq hw dflt ops (s := SS.init n) (a := Exc.Spec.AS.init n) (by simp [Exc.Spec.AS.init, SS.init])
  have h3 := C69_refines w dflt n ops
  cases ho : Small.run (SS.step fails unwinds K dflt) (SS.init n) ops <;> rw [ho] at h1 h2 <;>
    cases ha : (Exc.Spec.AS.init n).run w dflt ops <;> rw [ha] at h2 h3 <;> simp only [Exc.Spec.Same] at h2 <;>
    cases hp : Small.run (SmallArr.step fails unwinds K dflt) (SmallArr.start n) ops <;> rw [hp] at h1 <;> simp only [Agrees] at h1 <;>
    cases hs : (St.init n).run w dflt ops <;> rw [hs] at h3 <;> simp only [Exc.Spec.Same] at h3 <;> try trivial
  rename_i s a p p'
  obtain ⟨p, e⟩ := p
  obtain ⟨p', e'⟩ := p'
  obtain ⟨s, es⟩ := s
  obtain ⟨a, ea⟩ := a
  simp only at h1 h2 h3 ⊢
  refine ⟨by rw [h1.2, h3.1, h2.2], fun d => ?_⟩
  have h4 := h3.2 d
  rw [toA_var h2.1] at h4
  rw [h1.1.holds.elems d]
  cases hv : s.var d with
  | none =>
      rw [hv] at h4
      unfold Exc.Shows at h4
      cases hx : p'.var d with
      | none => trivial
      | some x => rw [hx] at h4; exact h4.elim
  | some y =>
      rw [hv] at h4
      unfold Exc.Shows at h4
      cases hx : p'.var d with
      | none => rw [hx] at h4; exact h4.elim
      | some x =>
          rw [hx] at h4
          obtain ⟨h5, h6⟩ := h4
          obtain ⟨-, -, -, -, hl⟩ := h1.1.var hv
          refine ⟨by rw [hl, h5]; rfl, fun i => ?_⟩
          rw [h6 i]
          simp only [toA, List.getElem?_map]
          cases y.elems[i]? <;> rfl

/-! ## Programs that meet the hypotheses -/

/-- A check for allowed operations. -/
def allowedCheck1 (K : Nat) (s : SS V) : Op V → Bool
  | .move _ x => match s.var x with
      | some y => y.elems.isEmpty || decide (K < y.elems.length)
      | none => true
  | .moveAssign d x => d != x && match s.var x with
      | some y => y.elems.isEmpty || decide (K < y.elems.length)
      | none => true
  | .copyAssign d x => d != x
  | _ => true

/-- A check for allowed programs. -/
def allowedCheck (fails : Nat → Bool) (unwinds : Bool) (K : Nat) (dflt : V) : SS V → List (Op V) → Bool
  | _, [] => true
  | s, op :: ops => allowedCheck1 K s op &&
      match s.step fails unwinds K dflt op with
      | .ok s | .threw s => allowedCheck fails unwinds K dflt s ops
      | _ => true

theorem allowed_of_check1 {s : SS V} {op : Op V} (h : allowedCheck1 K s op = true) : Allowed K s op := by
  cases op <;> simp only [allowedCheck1, Allowed] at h ⊢
  · intro y hy; rw [hy] at h; simpa using h
  · simp only [Bool.and_eq_true] at h
    refine ⟨bne_iff_ne.mp h.1, fun y hy => ?_⟩
    have := h.2
    rw [hy] at this; simpa using this
  · exact bne_iff_ne.mp h

theorem allowed_of_check (fails : Nat → Bool) (unwinds : Bool) (dflt : V) (ops : List (Op V)) : ∀ {s : SS V}, allowedCheck fails unwinds K dflt s ops = true →
    AllowedRun fails unwinds K dflt s ops := by
  induction ops with
  | nil => intro s _; trivial
  | cons op ops ih =>
      intro s h
      simp only [allowedCheck, Bool.and_eq_true] at h
      refine ⟨allowed_of_check1 h.1, ?_⟩
      have h2 := h.2
      cases ho : s.step fails unwinds K dflt op <;> rw [ho] at h2 <;> simp only at h2 ⊢
      · exact ih h2
      · exact ih h2

/-- Two arrays; a `resize` that throws; assignment, `resize` within the buffer, and a move of a block. -/
def sampleArr : List (Op Nat) :=
  [.build 0 [1, 2], .copy 1 0, .resize 0 3, .assign 0 [4, 5, 6], .resize 1 1, .fill 1 9, .read 1 0, .moveAssign 1 0, .destroy 0]

/-- Call number 5 fails: the second element of `resize(3)`. -/
def fifth (t : Nat) : Bool := t == 5

theorem sampleArr_allowed : AllowedRun fifth true 2 0 (SS.init 2) sampleArr := allowed_of_check _ _ _ _ (by decide +kernel)

example := C101_refines_partial (V := Nat) fifth true 2 0 2 sampleArr sampleArr_allowed

example : Small.run (SS.step fifth true 2 0) (SS.init 2) sampleArr =
    .ok (⟨[none, some ⟨3, [4, 5, 6]⟩], 15, [(3, 1)], 1⟩, [false, false, true, false, false, false, false, false, false]) := by decide +kernel
example : (match Small.run (SmallArr.step fifth true 2 0) (SmallArr.start 2) sampleArr with
      | .ok (p, _) => some (contents p.q.p 1)
      | _ => none) = some (some [some (some 4), some (some 5), some (some 6)]) := by decide +kernel
example : (match Small.run (SmallArr.step fifth true 2 0) (SmallArr.start 2) sampleArr with
      | .ok (p, _) => some (p.q.p.hp.map fun b => (b.cells, b.freed))
      | _ => none) = some [([some 0, none, none], false), ([some 4, some 5, some 6], false)] := by decide +kernel
example : (match Small.run (SmallArr.step fifth true 2 0) (SmallArr.start 2) sampleArr with
      | .ok (p, e) => some (p.q.lost, e)
      | _ => none) = some (1, [false, false, true, false, false, false, false, false, false]) := by decide +kernel

/-- The state after `build` and `copy`. -/
def twoArr (fails : Nat → Bool) : AProg Nat :=
  match Small.run (SmallArr.step fails true 2 0) (SmallArr.start 2) [.build 0 [1, 2], .copy 1 0] with
  | .ok (p, _) => p
  | _ => SmallArr.start 2

theorem twoArr_reach : Reach fifth true 2 0 2 (twoArr fifth) :=
  ⟨[.build 0 [1, 2], .copy 1 0], [false, false], allowed_of_check _ _ _ _ (by decide +kernel), by decide +kernel⟩

example := C101_resize_throws fifth true 2 0 2 (twoArr fifth) twoArr_reach 0 3 1 ⟨[some 1, some 2], .inline, 2⟩ (by decide +kernel) (by decide) (by decide +kernel)
example := C101_small_resize (fun _ => false) true 2 0 2 (twoArr fun _ => false)
  ⟨[.build 0 [1, 2], .copy 1 0], [false, false], allowed_of_check _ _ _ _ (by decide +kernel), by decide +kernel⟩ 0 1 ⟨[some 1, some 2], .inline, 2⟩
  (by decide +kernel) (by decide) (by decide) (by decide +kernel)
example := C101_ints (fun t => t == 2) true 2 0 2 (SmallArr.start 2) ⟨[], [], trivial, rfl⟩ 1 2 (by decide) (by decide)
example : makeInts (fun t => t == 2) 2 0 1 2 (SmallArr.start 2) = .terminate ∧
    (match makeInts (fun t => t == 4) 2 0 1 2 (SmallArr.start 2) with | .ok p => some (contents p.q.p 1, p.q.lost) | _ => none) =
      some (some [some (some 0), some (some 0)], 2) := by decide +kernel
example : ∃ p', SmallArr.step fifth true 2 0 (twoArr fifth) (.resize 0 3) = .threw p' ∧ ∃ d n, (Op.resize 0 3 : Op Nat) = .resize d n :=
  let ⟨p', h, _⟩ := C101_resize_throws fifth true 2 0 2 (twoArr fifth) twoArr_reach 0 3 1 ⟨[some 1, some 2], .inline, 2⟩ (by decide +kernel) (by decide) (by decide +kernel)
  ⟨p', h, C101_only_resize fifth true 2 0 (twoArr fifth) p' (.resize 0 3) h⟩
example := C101_heap (V := Nat) (fun _ => false) (fun _ => rfl) ⟨fun _ => false, fun _ => false, true, true⟩ ⟨fun _ => rfl, fun _ => rfl⟩ true 2 0 2 sampleArr
  (allowed_of_check _ _ _ _ (by decide +kernel))

/-- What the hypotheses exclude: assignment of an array to itself is undefined; after a move out of a buffer, the next elements are made over the
old ones.  And constructors that throw: terminated, or undefined if the stack is unwound. -/
theorem C101_witness :
    Small.run (SmallArr.step (fun _ => false) true 2 0) (SmallArr.start 1) [.build 0 [1, 2], .copyAssign 0 0] = .ub ∧
    Small.run (SmallArr.step (fun _ => false) true 2 0) (SmallArr.start 2) [.build 0 [1, 2], .move 1 0, .resize 0 1] = .ub ∧
    Small.run (SmallArr.step (fun t => t == 1) false 2 0) (SmallArr.start 1) [.build 0 [1, 2]] = .terminate ∧
    Small.run (SmallArr.step (fun t => t == 1) true 2 0) (SmallArr.start 1) [.build 0 [1, 2]] = .ub ∧
    Small.run (SmallArr.step (fun t => t == 1) true 2 0) (SmallArr.start 1) [.make 0 2] = .terminate := by
  decide +kernel

end Nda.Mem.SmallArr
