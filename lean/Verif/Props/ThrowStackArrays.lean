import Verif.Spec.ThrowStackArrays
import Verif.Spec.Exceptions
import Verif.Props.ThrowSmall
/-!
# C102: arrays on the stack when elements throw
-/
namespace Nda.Mem.StackArr
open Nda.Mem Nda.Exc Nda.Mem.Spec SProg Nda.Mem.Small Nda.Mem.Small.Stack StackArr.Spec

variable {V : Type} {N : Nat → Nat}

/-- What the storage should hold. -/
def emb (s : KS V) : StackH.Vars V := s.vars.map (Option.map fun l => l.map some) ++ [none]

theorem emb_length (s : KS V) : (emb s).length = s.vars.length + 1 := by simp [emb]

theorem emb_var (s : KS V) (d : Nat) : StackH.var (emb s) d = (s.var d).map fun l => l.map some := by
  simp only [emb, StackH.var, KS.var]
  rcases Nat.lt_trichotomy d s.vars.length with h | h | h
  · rw [List.getElem?_append_left (by simpa using h)]
    simp only [List.getElem?_map, List.getElem?_eq_getElem h, Option.map_some, Option.join_some]
  · rw [List.getElem?_append_right (by simp [h])]
    simp [h]
  · rw [List.getElem?_eq_none (by simp; omega), List.getElem?_eq_none (by omega)]; rfl

theorem emb_set (s : KS V) {d : Nat} (hd : d < s.vars.length) (x : Option (List V)) :
    emb (s.setVar d x) = (emb s).set d (x.map fun l => l.map some) := by
  simp only [emb, KS.setVar]
  rw [List.set_append_left _ _ (by simpa using hd), List.map_set]

theorem emb_tmp (s : KS V) : (emb s)[s.vars.length]? = some none := by simp [emb]

theorem emb_tick (s : KS V) (t : Nat) : emb { s with tick := t } = emb s := rfl

theorem var_lt {s : KS V} {d : Nat} {l : List V} (h : s.var d = some l) : d < s.vars.length := by
  unfold KS.var at h
  rcases Nat.lt_or_ge d s.vars.length with h1 | h1
  · exact h1
  · rw [List.getElem?_eq_none h1] at h; cases h

theorem var_set {s : KS V} {d : Nat} (hd : d < s.vars.length) (x : Option (List V)) (e : Nat) :
    (s.setVar d x).var e = if e = d then x else s.var e := by
  unfold KS.var KS.setVar
  by_cases h : e = d
  · subst h; simp [hd]
  · rw [if_neg h, List.getElem?_set_ne (Ne.symm h)]

/-- The state of a program and that of the program on lists. -/
structure KInv (N : Nat → Nat) (q : TVars V) (s : KS V) : Prop where
  p : q.p = emb s
  tick : q.tick = s.tick
  full : ∀ i l, s.var i = some l → l.length = N i

theorem KInv.set {q : TVars V} {s : KS V} (h : KInv N q s) {d : Nat} (hd : d < s.vars.length) (x : Option (List V)) (hx : ∀ l, x = some l → l.length = N d) (t : Nat) :
    KInv N ⟨(emb s).set d (x.map fun l => l.map some), t⟩ (KS.setVar { s with tick := t } d x) := by
  refine ⟨?_, rfl, ?_⟩
  · exact (emb_set _ hd x).symm
  · intro i l hl
    rw [var_set (s := { s with tick := t }) hd] at hl
    split at hl
    · rename_i e; subst e; exact hx l hl
    · exact h.full i l hl

theorem free_iff (s : KS V) (t d : Nat) : free (⟨emb s, t⟩ : TVars V) d = true ↔ (s.var d = none ∧ d < s.vars.length) := by
  simp only [free, emb_length, emb_var, Bool.and_eq_true, decide_eq_true_eq, Option.isNone_iff_eq_none, Option.map_eq_none_iff]
  exact ⟨fun h => ⟨h.2, by omega⟩, fun h => ⟨by omega, h.1⟩⟩

theorem alive_iff (s : KS V) (t d : Nat) : alive (⟨emb s, t⟩ : TVars V) d = true ↔ ∃ l, s.var d = some l := by
  simp only [alive, emb_length, emb_var, Bool.and_eq_true, decide_eq_true_eq, Option.isSome_map, Option.isSome_iff_exists]
  exact ⟨fun h => h.2, fun ⟨l, h⟩ => ⟨by have := var_lt h; omega, l, h⟩⟩

theorem alive_eq (s : KS V) (t d : Nat) : alive (⟨emb s, t⟩ : TVars V) d = (s.var d).isSome := by
  rw [Bool.eq_iff_iff, alive_iff, Option.isSome_iff_exists]

/-- The loop that makes the elements `vs` in a buffer without elements. -/
theorem fill_raw (fails : Nat → Bool) {p : StackH.Vars V} {d : Nat} (hd : d < p.length) (vs : List V) {f : Nat → StackH.Vars V → Option (Option V)}
    (hf : ∀ j x, j < vs.length → f j (p.set d (some x)) = (vs[j]?).map some) (t : Nat) :
    (firstFail fails t vs.length = none →
      Stack.fill fails d f vs.length 0 ⟨p.set d (some (List.replicate vs.length none)), t⟩ = .ok ⟨p.set d (some (vs.map some)), t + vs.length⟩) ∧
    ∀ k, firstFail fails t vs.length = some k → ∃ q, Stack.fill fails d f vs.length 0 ⟨p.set d (some (List.replicate vs.length none)), t⟩ = .threw q ∧
      unwound d (.threw q) = .ub := by
  have hc : StackH.constructFrom false d f vs.length 0 (p.set d (some (List.replicate vs.length none))) = some (p.set d (some (vs.map some))) := by
    have := StackH.constructFrom_spec (triv := false) (d := d) (p := p) hd (f := f) (l := vs.map some) (x := List.replicate vs.length none) (by simp)
      (fun _ => ⟨fun c hc => List.eq_of_mem_replicate hc, fun c hc => by obtain ⟨v, -, rfl⟩ := List.mem_map.mp hc; rfl⟩)
      (fun j hj => by rw [hf j _ (by simpa using hj), List.getElem?_map]) vs.length 0 (by simp)
    simpa using this
  refine ⟨(StackH.fill_spec fails d f vs.length 0 _ _ t hc).1, fun k hk => ?_⟩
  obtain ⟨pk, x, h1, -⟩ := (StackH.fill_spec fails d f vs.length 0 _ _ t hc).2 k hk
  refine ⟨_, h1, ?_⟩
  rw [← h1]
  exact StackH.unwound_ub hc hk

theorem built_spec (fails : Nat → Bool) (unwinds : Bool) {p : StackH.Vars V} {d : Nat} (hd : d < p.length) (vs : List V) {f : Nat → StackH.Vars V → Option (Option V)}
    (hf : ∀ j x, j < vs.length → f j (p.set d (some x)) = (vs[j]?).map some) (t : Nat) :
    built fails unwinds vs.length d vs.length f ⟨p, t⟩ = match firstFail fails t vs.length with
      | none => .ok ⟨p.set d (some (vs.map some)), t + vs.length⟩
      | some _ => if unwinds then .ub else .terminate := by
  obtain ⟨h1, h2⟩ := fill_raw fails hd vs hf t
  unfold built
  cases hk : firstFail fails t vs.length with
  | none => simp only [h1 hk]; cases unwinds <;> rfl
  | some k =>
      obtain ⟨q, h3, h4⟩ := h2 k hk
      simp only [h3]
      cases unwinds
      · rfl
      · simp only [if_true, h4]; rfl

theorem set_none {s : KS V} {d : Nat} {A B : Option (List (Option V))} (hne : d ≠ s.vars.length) :
    ((((emb s).set d A).set s.vars.length B).set s.vars.length none) = (emb s).set d A := by
  rw [List.set_set]
  apply List.ext_getElem?
  intro j
  by_cases hj : j = s.vars.length
  · subst hj
    rw [List.getElem?_set_self (by simp [emb_length]), List.getElem?_set_ne hne, emb_tmp]
  · rw [List.getElem?_set_ne (Ne.symm hj)]

/-- Move assignment from the temporary to a buffer without elements. -/
theorem moveIn_spec (fails : Nat → Bool) (dflt : V) {s : KS V} {d : Nat} (hd : d < s.vars.length) (vs : List V) (t : Nat) :
    moveIn fails vs.length dflt d s.vars.length ⟨((emb s).set d (some (List.replicate vs.length none))).set s.vars.length (some (vs.map some)), t⟩ =
      match firstFail fails t vs.length with
      | none => .ok ⟨(emb s).set d (some (vs.map some)), t + vs.length⟩
      | some _ => .terminate := by
  have hne : d ≠ s.vars.length := by omega
  have hl : d < ((emb s).set s.vars.length (some (vs.map some))).length := by simp [emb_length]; omega
  obtain ⟨h1, h2⟩ := fill_raw fails hl vs (f := fun i p => do let y ← StackH.var p s.vars.length; y[i]?)
    (fun j x hj => by
      simp only [StackH.var]
      rw [List.getElem?_set_ne hne, List.getElem?_set_self (by simp [emb_length])]
      simp) t
  have hv1 : StackH.var (((emb s).set s.vars.length (some (vs.map some))).set d (some (List.replicate vs.length none))) d = some (List.replicate vs.length none) := by
    simp only [StackH.var]; rw [List.getElem?_set_self hl]; rfl
  have hv2 : ∀ x, StackH.var (((emb s).set s.vars.length (some (vs.map some))).set d x) s.vars.length = some (vs.map some) := by
    intro x
    simp only [StackH.var]; rw [List.getElem?_set_ne hne, List.getElem?_set_self (by simp [emb_length])]; rfl
  rw [List.set_comm _ _ hne]
  unfold moveIn
  simp only [Stack.step, hv1, hv2, if_true]
  cases hk : firstFail fails t vs.length with
  | none =>
      rw [h1 hk]
      simp only [Out.noexcept, next, Out.bind, StackH.step, hv2]
      rw [if_neg]
      · simp only [Out.ok.injEq, TVars.mk.injEq, and_true]
        rw [← List.set_comm _ _ hne, set_none hne]
      · simp
  | some k =>
      obtain ⟨q, h3, -⟩ := h2 k hk
      rw [h3]; rfl

/-- Element assignments. -/
theorem put_spec (fails : Nat → Bool) (n : Nat) (dflt : V) {p : StackH.Vars V} {d : Nat} (hd : d < p.length) (vs : List V) : ∀ (pre : List V) (old : List V) (t : Nat),
    old.length = vs.length →
    (put fails n dflt d pre.length vs ⟨p.set d (some ((pre ++ old).map some)), t⟩).noexcept =
      match firstFail fails t vs.length with
      | none => .ok ⟨p.set d (some ((pre ++ vs).map some)), t + vs.length⟩
      | some _ => .terminate := by
  induction vs with
  | nil =>
      intro pre old t ho
      have : old = [] := List.eq_nil_of_length_eq_zero ho
      subst this
      rfl
  | cons v vs ih =>
      intro pre old t ho
      cases old with
      | nil => simp at ho
      | cons o old =>
          have hv : StackH.var (p.set d (some ((pre ++ o :: old).map some))) d = some ((pre ++ o :: old).map some) := by
            simp only [StackH.var]; rw [List.getElem?_set_self hd]; rfl
          have hi : pre.length < ((pre ++ o :: old).map some).length := by simp
          simp only [put, hv, if_pos hi, Stack.step, List.length_cons]
          rw [firstFail_succ]
          by_cases hf : fails t = true
          · simp only [if_pos hf]; rfl
          · simp only [if_neg hf, StackH.step, hv]
            have hg : ((pre ++ o :: old).map some)[pre.length]? = some (some o) := by simp
            simp only [hg]
            rw [if_neg (by simp)]
            simp only [next, Out.bind, List.set_set]
            have hs : ((pre ++ o :: old).map some).set pre.length (some v) = (((pre ++ [v]) ++ old).map some) := by
              simp
            rw [hs]
            have := ih (pre ++ [v]) old (t + 1) (by simpa using ho)
            simp only [List.length_append, List.length_singleton] at this
            rw [this]
            cases firstFail fails (t + 1) vs.length with
            | none => simp only [Option.map_none, List.append_assoc, List.singleton_append]; congr 2; omega
            | some k => rfl

theorem set_self {s : KS V} {d : Nat} {l : List V} (h : s.var d = some l) : (emb s).set d (some (l.map some)) = emb s := by
  have hd := var_lt h
  apply List.ext_getElem?
  intro j
  by_cases hj : j = d
  · subst hj
    rw [List.getElem?_set_self (by rw [emb_length]; omega)]
    have h2 : StackH.var (emb s) j = some (l.map some) := by rw [emb_var, h]; rfl
    unfold StackH.var at h2
    rw [List.getElem?_eq_getElem (show j < (emb s).length by rw [emb_length]; omega)] at h2 ⊢
    simp only [Option.join_some] at h2
    rw [h2]
  · rw [List.getElem?_set_ne (Ne.symm hj)]

/-- Placement new over an element that exists. -/
theorem fill_over (fails : Nat → Bool) {s : KS V} {d e : Nat} {x y : List V} (hx : s.var d = some x) (hy : s.var e = some y) (hl : x.length = y.length) (t : Nat) :
    Stack.fill fails d (fun i p => do let y ← StackH.var p e; y[i]?) y.length 0 ⟨emb s, t⟩ =
      if y.length = 0 then .ok ⟨emb s, t⟩ else if fails t then .threw ⟨emb s, t + 1⟩ else .ub := by
  cases y with
  | nil => rfl
  | cons v y =>
      cases x with
      | nil => simp at hl
      | cons w x =>
          have h1 : StackH.var (emb s) e = some ((v :: y).map some) := by rw [emb_var, hy]; rfl
          have h2 : StackH.var (emb s) d = some ((w :: x).map some) := by rw [emb_var, hx]; rfl
          simp only [List.length_cons, Stack.fill, h1, Option.bind_eq_bind, Option.bind_some, List.map_cons, List.getElem?_cons_zero]
          by_cases hf : fails t = true
          · simp [hf]
          · simp [hf, StackH.construct, h2]

theorem KInv.step (fails : Nat → Bool) (unwinds : Bool) (dflt : V) {q : TVars V} {s : KS V} (h : KInv N q s) (op : KOp V) (ha : Allowed N op) :
    Exc.Spec.Same (KInv N) (StackArr.step fails unwinds N dflt q op) (s.step fails unwinds N dflt op) := by
  obtain ⟨p, t⟩ := q
  obtain ⟨hp, ht, hful⟩ := h
  simp only at hp ht
  subst hp ht
  have h : KInv N ⟨emb s, s.tick⟩ s := ⟨rfl, rfl, hful⟩
  have hval : ∀ (d e : Nat), N d = N e → ∀ y : List V, s.var e = some y → s.var d = none ∧ d < s.vars.length → ∀ mv,
      Exc.Spec.Same (KInv N) (Stack.step fails (N d) dflt ⟨emb s, s.tick⟩ (.copy d e, mv)) (s.calls fails y.length .terminate fun s => .ok (s.setVar d (some y))) := by
    intro d e hN y hy hd mv
    have hne : d ≠ e := by rintro rfl; rw [hy] at hd; cases hd.1
    have h1 : StackH.var (emb s) e = some (y.map some) := by rw [emb_var, hy]; rfl
    have h2 : StackH.var (emb s) d = none ∧ d < (emb s).length := by rw [emb_var, hd.1, emb_length]; exact ⟨rfl, by omega⟩
    obtain ⟨f1, f2⟩ := fill_raw fails h2.2 y (f := fun i p => do let y ← StackH.var p e; y[i]?)
      (fun j x hj => by
        have : StackH.var ((emb s).set d (some x)) e = StackH.var (emb s) e := by
          simp only [StackH.var]; rw [List.getElem?_set_ne hne]
        simp only [this, h1]; simp) s.tick
    have hly : y.length = N d := by rw [hful e y hy, hN]
    simp only [Stack.step, h1, if_pos h2, KS.calls]
    rw [← hly]
    cases hk : firstFail fails s.tick y.length with
    | none =>
        rw [f1 hk]
        exact h.set hd.2 (some y) (fun l hl => by cases hl; exact hly) _
    | some k =>
        obtain ⟨q, h3, -⟩ := f2 k hk
        rw [h3]; trivial
  cases op with
  | default d => exact ha.elim
  | ints d n =>
      simp only [Allowed] at ha
      subst ha
      simp only [StackArr.step, KS.step, free_iff, emb_length, Nat.add_sub_cancel]
      split
      · rename_i hd
        have hb := built_spec fails unwinds (p := (emb s).set d (some (List.replicate (N d) none))) (d := s.vars.length) (by simp [emb_length])
          (List.replicate (N d) dflt) (f := fun _ _ => some (some dflt)) (fun j x hj => by
            simp only [List.length_replicate] at hj
            simp [List.getElem?_replicate, hj]) s.tick
        have hm := moveIn_spec fails dflt hd.2 (List.replicate (N d) dflt)
        simp only [List.length_replicate] at hb hm
        rw [hb]
        simp only [KS.calls]
        cases hk : firstFail fails s.tick (N d) with
        | some k => cases unwinds <;> trivial
        | none =>
            simp only [next, Out.bind]
            rw [hm]
            cases hk2 : firstFail fails (s.tick + N d) (N d) with
            | some k => trivial
            | none => exact h.set hd.2 (some (List.replicate (N d) dflt)) (fun l hl => by cases hl; simp) _
      · exact h
  | op o =>
    cases o with
    | make d n =>
        simp only [Allowed] at ha
        subst ha
        simp only [StackArr.step, KS.step, free_iff]
        split
        · rename_i hd
          have hb := built_spec fails unwinds (p := emb s) (d := d) (by rw [emb_length]; omega)
            (List.replicate (N d) dflt) (f := fun _ _ => some (some dflt)) (fun j x hj => by
              simp only [List.length_replicate] at hj
              simp [List.getElem?_replicate, hj]) s.tick
          simp only [List.length_replicate] at hb
          rw [hb]
          simp only [KS.calls]
          cases hk : firstFail fails s.tick (N d) with
          | some k => cases unwinds <;> trivial
          | none => exact h.set hd.2 (some (List.replicate (N d) dflt)) (fun l hl => by cases hl; simp) _
        · exact h
    | build d vs =>
        simp only [Allowed] at ha
        simp only [StackArr.step, KS.step, free_iff]
        split
        · rename_i hd
          have hb := built_spec fails unwinds (p := emb s) (d := d) (by rw [emb_length]; omega) vs (f := fun i _ => vs[i]?.map some) (fun j x hj => rfl) s.tick
          rw [← ha, hb]
          simp only [KS.calls]
          cases hk : firstFail fails s.tick vs.length with
          | some k => cases unwinds <;> trivial
          | none => exact h.set hd.2 (some vs) (fun l hl => by cases hl; exact ha) _
        · exact h
    | copy d e =>
        simp only [StackArr.step, KS.step, Bool.and_eq_true, free_iff, alive_eq, beq_iff_eq]
        cases he : s.var e with
        | none => simp; exact h
        | some y =>
            by_cases hc : s.var d = none ∧ d < s.vars.length ∧ N d = N e
            · rw [if_pos ⟨⟨⟨hc.1, hc.2.1⟩, rfl⟩, hc.2.2⟩]
              simp only [if_pos hc]
              exact hval d e hc.2.2 y he ⟨hc.1, hc.2.1⟩ _
            · rw [if_neg (fun hh => hc ⟨hh.1.1.1, hh.1.1.2, hh.2⟩)]
              simp only [if_neg hc]; exact h
    | move d e =>
        simp only [StackArr.step, KS.step, Bool.and_eq_true, free_iff, alive_eq, beq_iff_eq]
        cases he : s.var e with
        | none => simp; exact h
        | some y =>
            by_cases hc : s.var d = none ∧ d < s.vars.length ∧ N d = N e
            · rw [if_pos ⟨⟨⟨hc.1, hc.2.1⟩, rfl⟩, hc.2.2⟩]
              simp only [if_pos hc]
              exact hval d e hc.2.2 y he ⟨hc.1, hc.2.1⟩ _
            · rw [if_neg (fun hh => hc ⟨hh.1.1.1, hh.1.1.2, hh.2⟩)]
              simp only [if_neg hc]; exact h
    | moveAssign d e =>
        simp only [StackArr.step, KS.step, Bool.and_eq_true, alive_eq, beq_iff_eq]
        cases hd : s.var d with
        | none => simp; exact h
        | some x =>
          cases he : s.var e with
          | none => simp; exact h
          | some y =>
            by_cases hc : N d = N e
            · rw [if_pos ⟨⟨rfl, rfl⟩, hc⟩]
              simp only [if_pos hc, Stack.step, emb_var, hd, he, Option.map_some, KS.overwrite]
              have hl : x.length = y.length := by rw [hful d x hd, hful e y he, hc]
              rw [← hful d x hd, hl, fill_over fails hd he hl]
              simp only [if_true]
              split
              · exact h
              · split <;> trivial
            · rw [if_neg (fun hh => hc hh.2)]
              simp only [if_neg hc]; exact h
    | copyAssign d e =>
        simp only [StackArr.step, KS.step, Bool.and_eq_true, alive_eq, beq_iff_eq]
        cases hd : s.var d with
        | none => simp; exact h
        | some x =>
          cases he : s.var e with
          | none => simp; exact h
          | some y =>
            by_cases hc : N d = N e
            · rw [if_pos ⟨⟨rfl, rfl⟩, hc⟩]
              simp only [if_pos hc, Stack.step, emb_var, hd, he, Option.map_some, KS.overwrite]
              have hl : x.length = y.length := by rw [hful d x hd, hful e y he, hc]
              rw [← hful d x hd, hl, fill_over fails hd he hl]
              simp only [Bool.false_eq_true, if_false]
              split
              · exact h
              · split
                · exact ⟨rfl, rfl, hful⟩
                · trivial
            · rw [if_neg (fun hh => hc hh.2)]
              simp only [if_neg hc]; exact h
    | assign d vs =>
        simp only [Allowed] at ha
        simp only [StackArr.step, KS.step, alive_eq]
        cases hd : s.var d with
        | none => simp; exact h
        | some x =>
            have hdl := var_lt hd
            rw [if_pos (show (some x).isSome = true from rfl)]
            have := put_spec fails (N d) dflt (p := emb s) (d := d) (by rw [emb_length]; omega) vs [] x s.tick (by rw [hful d x hd, ha])
            simp only [List.nil_append, List.length_nil, set_self hd] at this
            simp only [StackArr.resize, ha, ne_eq, not_true_eq_false, if_false, next, Out.bind, KS.calls]
            rw [this, ha]
            cases firstFail fails s.tick (N d) with
            | some k => trivial
            | none => exact h.set hdl (some vs) (fun l hl => by cases hl; exact ha) _
    | fill d v =>
        simp only [StackArr.step, KS.step, alive_eq]
        cases hd : s.var d with
        | none => simp; exact h
        | some x =>
            have hdl := var_lt hd
            rw [if_pos (show (some x).isSome = true from rfl)]
            have := put_spec fails (N d) dflt (p := emb s) (d := d) (by rw [emb_length]; omega) (List.replicate (N d) v) [] x s.tick (by rw [hful d x hd]; simp)
            simp only [List.nil_append, List.length_nil, set_self hd, List.length_replicate] at this
            rw [this]
            simp only [KS.calls, hful d x hd]
            cases firstFail fails s.tick (N d) with
            | some k => trivial
            | none => exact h.set hdl (some (List.replicate (N d) v)) (fun l hl => by cases hl; simp) _
    | resize d n =>
        simp only [Allowed] at ha
        simp only [StackArr.step, KS.step, StackArr.resize, ha, ne_eq, not_true_eq_false, if_false, ite_self]
        exact h
    | read d i =>
        simp only [StackArr.step, KS.step, Bool.and_eq_true, alive_eq, decide_eq_true_eq]
        split
        · rename_i hc
          obtain ⟨hx, hi⟩ := hc
          obtain ⟨x, hx⟩ := Option.isSome_iff_exists.mp hx
          simp only [emb_var, hx, Option.map_some, Option.bind_some, List.getElem?_map]
          rw [List.getElem?_eq_getElem (show i < x.length by rw [hful d x hx]; exact hi)]
          exact h
        · exact h
    | destroy d =>
        simp only [StackArr.step, KS.step, alive_eq]
        cases hd : s.var d with
        | none => simp; exact h
        | some x =>
            rw [if_pos (show (some x).isSome = true from rfl)]
            simp only [Stack.step, StackH.step, emb_var, hd, Option.map_some]
            rw [if_neg (by simp)]
            exact h.set (var_lt hd) none (fun l hl => by cases hl) _

theorem KInv.start (n : Nat) : KInv N (StackArr.start n : TVars V) (KS.init n) := by
  refine ⟨?_, rfl, ?_⟩
  · simp [StackArr.start, emb, KS.init, List.replicate_succ']
  · intro i l hl
    unfold KS.var KS.init at hl
    simp only [List.getElem?_replicate] at hl
    split at hl <;> cases hl

theorem KInv.run (fails : Nat → Bool) (unwinds : Bool) (dflt : V) (ops : List (KOp V)) : ∀ {q : TVars V} {s : KS V}, KInv N q s → (∀ op ∈ ops, Allowed N op) →
    Agrees (KInv N) (Small.run (StackArr.step fails unwinds N dflt) q ops) (Small.run (KS.step fails unwinds N dflt) s ops) := by
  induction ops with
  | nil => intro q s h _; exact ⟨h, rfl⟩
  | cons op ops ih =>
      intro q s h ha
      have h3 := h.step fails unwinds dflt op (ha op (by simp))
      have ha' : ∀ op ∈ ops, Allowed N op := fun o ho => ha o (by simp [ho])
      simp only [Small.run]
      cases ho : s.step fails unwinds N dflt op <;> cases hq : StackArr.step fails unwinds N dflt q op <;> rw [ho, hq] at h3 <;>
        simp only [Exc.Spec.Same] at h3 ⊢
      · have := ih h3 ha'
        revert this
        cases Small.run (StackArr.step fails unwinds N dflt) _ ops <;> cases Small.run (KS.step fails unwinds N dflt) _ ops <;> simp [Agrees, Out.bind]
      · have := ih h3 ha'
        revert this
        cases Small.run (StackArr.step fails unwinds N dflt) _ ops <;> cases Small.run (KS.step fails unwinds N dflt) _ ops <;> simp [Agrees, Out.bind]
      · trivial
      · trivial

theorem KInv.holds {q : TVars V} {s : KS V} (h : KInv N q s) : Spec.Holds N q s :=
  ⟨fun i => by rw [h.p, emb_var], h.full, h.tick⟩

/-- C102.  Arrays on the stack whose elements throw: a program that catches every exception ends, continues, is terminated or is undefined exactly as the program on lists of
values says (`KS.step`), throws where it says, and every array alive has exactly the elements it says, all of them made.  For all programs, all numbers of elements, and whichever
calls fail.

Missing: arrays from the default constructor (`C102_default`), which have no elements. -/
theorem C102_refines_partial (fails : Nat → Bool) (unwinds : Bool) (N : Nat → Nat) (dflt : V) (n : Nat) (ops : List (KOp V)) (h : ∀ op ∈ ops, Allowed N op) :
    Agrees (Spec.Holds N) (Small.run (StackArr.step fails unwinds N dflt) (StackArr.start n) ops) (Small.run (KS.step fails unwinds N dflt) (KS.init n) ops) := by
  have := KInv.run fails unwinds dflt ops (KInv.start n) h
  revert this
  cases Small.run (StackArr.step fails unwinds N dflt) (StackArr.start n) ops <;> cases Small.run (KS.step fails unwinds N dflt) (KS.init n) ops <;> simp only [Agrees, imp_self]
  exact fun hh => ⟨hh.1.holds, hh.2⟩

/-- The states that programs reach. -/
def Reach (fails : Nat → Bool) (unwinds : Bool) (N : Nat → Nat) (dflt : V) (n : Nat) (q : TVars V) : Prop :=
  ∃ ops e, (∀ op ∈ ops, Allowed N op) ∧ Small.run (StackArr.step fails unwinds N dflt) (StackArr.start n) ops = .ok (q, e)

theorem Reach.inv {fails : Nat → Bool} {unwinds : Bool} {dflt : V} {n : Nat} {q : TVars V} (h : Reach fails unwinds N dflt n q) : ∃ s, KInv N q s := by
  obtain ⟨ops, e, ha, hr⟩ := h
  have := KInv.run fails unwinds dflt ops (KInv.start n) ha
  rw [hr] at this
  cases hs : Small.run (KS.step fails unwinds N dflt) (KS.init n) ops <;> rw [hs] at this <;> simp only [Agrees] at this
  exact ⟨_, this.1⟩

/-- C102.  Only the copy assignment of an array lets an exception out, that of its first element, and all arrays are as before. -/
theorem C102_only_copy_assignment (fails : Nat → Bool) (unwinds : Bool) (N : Nat → Nat) (dflt : V) (n : Nat) (q q' : TVars V) (hq : Reach fails unwinds N dflt n q) (op : KOp V)
    (ha : Allowed N op) (h : StackArr.step fails unwinds N dflt q op = .threw q') :
    (∃ d e, op = .op (.copyAssign d e)) ∧ fails q.tick = true ∧ q' = { q with tick := q.tick + 1 } := by
  obtain ⟨s, hs⟩ := hq.inv
  have h1 := hs.step fails unwinds dflt op ha
  rw [h] at h1
  cases ho : s.step fails unwinds N dflt op <;> rw [ho] at h1 <;> simp only [Exc.Spec.Same] at h1
  rename_i s'
  have hcalls : ∀ (n : Nat) (bad : Out (KS V)) (s : KS V) (good : KS V → Out (KS V)), (∀ x, bad ≠ .threw x) → (∀ s x, good s ≠ .threw x) → ∀ x, s.calls fails n bad good ≠ .threw x := by
    intro n bad s good h1 h2 x
    unfold KS.calls
    split
    · exact h2 _ x
    · exact h1 x
  have hun : ∀ x : KS V, (if unwinds = true then (Out.ub : Out (KS V)) else .terminate) ≠ .threw x := by intro x; cases unwinds <;> simp
  cases op with
  | default d => cases ho
  | ints d n =>
      simp only [KS.step] at ho
      split at ho
      · exact absurd ho (hcalls _ _ _ _ hun (fun s x => hcalls _ _ _ _ (by simp) (by simp) x) _)
      · cases ho
  | op o =>
    cases o with
    | make d n =>
        simp only [KS.step] at ho
        split at ho
        · exact absurd ho (hcalls _ _ _ _ hun (by simp) _)
        · cases ho
    | build d n =>
        simp only [KS.step] at ho
        split at ho
        · exact absurd ho (hcalls _ _ _ _ hun (by simp) _)
        · cases ho
    | copy d e =>
        simp only [KS.step] at ho
        split at ho
        · split at ho
          · exact absurd ho (hcalls _ _ _ _ (by simp) (by simp) _)
          · cases ho
        · cases ho
    | move d e =>
        simp only [KS.step] at ho
        split at ho
        · split at ho
          · exact absurd ho (hcalls _ _ _ _ (by simp) (by simp) _)
          · cases ho
        · cases ho
    | moveAssign d e =>
        simp only [KS.step, KS.overwrite] at ho
        repeat' split at ho
        all_goals cases ho
    | copyAssign d e =>
        simp only [KS.step, KS.overwrite] at ho
        split at ho
        · split at ho
          · split at ho
            · cases ho
            · split at ho
              · rename_i hf
                cases ho
                refine ⟨⟨d, e, rfl⟩, by rw [hs.tick]; exact hf, ?_⟩
                have e1 := h1.p
                have e2 := h1.tick
                rw [emb_tick, ← hs.p] at e1
                rw [← hs.tick] at e2
                cases q'; simp_all
              · cases ho
          · cases ho
        · cases ho
    | assign d vs =>
        simp only [KS.step] at ho
        split at ho
        · exact absurd ho (hcalls _ _ _ _ (by simp) (by simp) _)
        · cases ho
    | fill d v =>
        simp only [KS.step] at ho
        split at ho
        · exact absurd ho (hcalls _ _ _ _ (by simp) (by simp) _)
        · cases ho
    | resize d n => cases ho
    | read d i => cases ho
    | destroy d =>
        simp only [KS.step] at ho
        split at ho <;> cases ho

/-- C102, disagreement.  Assignment between two arrays on the stack with elements is undefined (the new elements are made over the old ones) unless an
element throws at once, for every program that gets there. -/
theorem C102_assign (fails : Nat → Bool) (unwinds : Bool) (N : Nat → Nat) (dflt : V) (n : Nat) (q : TVars V) (hq : Reach fails unwinds N dflt n q) (d e : Nat)
    (hd : alive q d = true) (he : alive q e = true) (hN : N d = N e) (hpos : 0 < N d) (hf : fails q.tick = false) :
    StackArr.step fails unwinds N dflt q (.op (.copyAssign d e)) = .ub ∧ StackArr.step fails unwinds N dflt q (.op (.moveAssign d e)) = .ub := by
  obtain ⟨s, hs⟩ := hq.inv
  have hq' : q = ⟨emb s, s.tick⟩ := by
    have := hs.p; have := hs.tick
    cases q; simp_all
  rw [hq', alive_iff] at hd he
  obtain ⟨x, hx⟩ := hd
  obtain ⟨y, hy⟩ := he
  have hl : y.length ≠ 0 := by rw [hs.full e y hy]; omega
  have hf' : fails s.tick = false := by rw [← hs.tick]; exact hf
  have h1 := hs.step fails unwinds dflt (.op (.copyAssign d e)) trivial
  have h2 := hs.step fails unwinds dflt (.op (.moveAssign d e)) trivial
  simp only [KS.step, hx, hy, if_pos hN, KS.overwrite, if_neg hl, hf', Bool.false_eq_true, if_false] at h1 h2
  constructor
  · cases ho : StackArr.step fails unwinds N dflt q (.op (.copyAssign d e)) <;> rw [ho] at h1 <;> simp only [Exc.Spec.Same] at h1
  · cases ho : StackArr.step fails unwinds N dflt q (.op (.moveAssign d e)) <;> rw [ho] at h2 <;> simp only [Exc.Spec.Same] at h2

/-- C102, disagreement.  The default constructor of an array on the stack makes no elements: reading one, assigning to one and the destructor are undefined. -/
theorem C102_default (fails : Nat → Bool) (unwinds : Bool) (N : Nat → Nat) (dflt : V) (n : Nat) (q : TVars V) (hq : Reach fails unwinds N dflt n q) (d : Nat)
    (hd : free q d = true) (hpos : 0 < N d) :
    ∃ q', StackArr.step fails unwinds N dflt q (.default d) = .ok q' ∧ StackArr.step fails unwinds N dflt q' (.op (.destroy d)) = .ub ∧
      (∀ i, i < N d → StackArr.step fails unwinds N dflt q' (.op (.read d i)) = .ub) ∧
      ∀ v, StackArr.step fails unwinds N dflt q' (.op (.fill d v)) = if fails q.tick then .terminate else .ub := by
  simp only [free, Bool.and_eq_true, decide_eq_true_eq] at hd
  obtain ⟨h1, h2⟩ := hd
  have hl : d < q.p.length := by omega
  have hv : StackH.var (q.p.set d (some (List.replicate (N d) none))) d = some (List.replicate (N d) (none : Option V)) := by
    simp only [StackH.var]; rw [List.getElem?_set_self hl]; rfl
  have hal : alive (⟨q.p.set d (some (List.replicate (N d) none)), q.tick⟩ : TVars V) d = true := by
    simp [alive, hv, h1]
  obtain ⟨m, hm⟩ : ∃ m, N d = m + 1 := ⟨N d - 1, by omega⟩
  refine ⟨⟨q.p.set d (some (List.replicate (N d) none)), q.tick⟩, ?_, ?_, ?_, ?_⟩
  · simp [StackArr.step, free, h1, h2]
  · simp only [StackArr.step, hal, if_true, Stack.step, StackH.step, hv]
    rw [if_pos (by simp [hm, List.replicate_succ])]
  · intro i hi
    simp only [StackArr.step, hal, Bool.true_and, decide_eq_true_eq, if_pos hi, hv, Option.bind_some]
    rw [List.getElem?_replicate, if_pos hi]
  · intro v
    have hv' := hv
    have hal' := hal
    simp only [hm, List.replicate_succ] at hv' hal'
    simp only [StackArr.step, hm, List.replicate_succ, hal', if_true, put, hv', List.length_cons, Nat.zero_lt_succ, Stack.step]
    by_cases hf : fails q.tick = true
    · simp [hf, next, Out.bind, Out.noexcept]
    · simp [hf, next, Out.bind, Out.noexcept, StackH.step, hv']

/-! ## Programs that meet the hypotheses -/

/-- Arrays 0 and 1 have two elements, array 2 has three. -/
def sizes (d : Nat) : Nat := if d = 2 then 3 else 2

/-- Constructors, a copy, a copy assignment that throws, and assignments of elements. -/
def sampleStack : List (KOp Nat) :=
  [.ints 0 2, .op (.build 2 [7, 8, 9]), .op (.fill 0 5), .op (.copy 1 0), .op (.copyAssign 0 1), .op (.assign 1 [3, 4]), .op (.read 1 1), .op (.resize 2 3), .op (.destroy 0)]

/-- Call number 11 fails: the first of the copy assignment. -/
def eleventh (t : Nat) : Bool := t == 11

theorem sampleStack_allowed : ∀ op ∈ sampleStack, Allowed sizes op := by
  intro op h
  simp only [sampleStack, List.mem_cons, List.not_mem_nil, or_false] at h
  rcases h with rfl | rfl | rfl | rfl | rfl | rfl | rfl | rfl | rfl <;> simp [Allowed, sizes]

example := C102_refines_partial (V := Nat) eleventh true sizes 0 3 sampleStack sampleStack_allowed

example : Small.run (KS.step eleventh true sizes 0) (KS.init 3) sampleStack =
    .ok (⟨[none, some [3, 4], some [7, 8, 9]], 14⟩, [false, false, false, false, true, false, false, false, false]) := by decide +kernel
example : Small.run (StackArr.step eleventh true sizes 0) (StackArr.start 3) sampleStack =
    .ok (⟨[none, some [some 3, some 4], some [some 7, some 8, some 9], none], 14⟩, [false, false, false, false, true, false, false, false, false]) := by decide +kernel

/-- The state after the first four operations. -/
def fourOps (fails : Nat → Bool) : TVars Nat :=
  match Small.run (StackArr.step fails true sizes 0) (StackArr.start 3) (sampleStack.take 4) with
  | .ok (q, _) => q
  | _ => StackArr.start 3

theorem fourOps_reach : Reach eleventh true sizes 0 3 (fourOps eleventh) :=
  ⟨sampleStack.take 4, [false, false, false, false], fun op h => sampleStack_allowed op (List.mem_of_mem_take h), by decide +kernel⟩

theorem fourOps_throws : StackArr.step eleventh true sizes 0 (fourOps eleventh) (.op (.copyAssign 0 1)) = .threw { fourOps eleventh with tick := 12 } := by decide +kernel
example := C102_only_copy_assignment eleventh true sizes 0 3 _ _ fourOps_reach (.op (.copyAssign 0 1)) trivial fourOps_throws
example := C102_assign (fun _ => false) true sizes 0 3 (fourOps fun _ => false)
  ⟨sampleStack.take 4, [false, false, false, false], fun op h => sampleStack_allowed op (List.mem_of_mem_take h), by decide +kernel⟩ 0 1 (by decide +kernel) (by decide +kernel) rfl
  (by decide) rfl
example := C102_default eleventh true sizes 0 3 (StackArr.start 3) ⟨[], [], by simp, rfl⟩ 2 (by decide) (by decide)

end Nda.Mem.StackArr
