import Verif.Lemmas.Sso
/-!
# C29: small-buffer and stack storage keep their contents and make and destroy each element once
-/
namespace Nda.Mem

variable {V : Type}

open Spec

namespace SProg

theorem Rep.run {triv : Bool} {K : Nat} (dflt : V) (ops : List (SOp V)) (p : SProg V) (a : Vals V) (r : Rep triv K p a)
    (h : SAllowedRun triv K dflt a ops) :
    ∃ p', p.run triv K dflt ops = some p' ∧ Rep triv K p' (srun triv dflt a ops) := by
  induction ops generalizing p a with
  | nil => exact ⟨p, rfl, r⟩
  | cons op ops ih =>
      obtain ⟨h1, h2⟩ := h
      obtain ⟨p1, h3, h4⟩ := r.step dflt op h1
      obtain ⟨p2, h5, h6⟩ := ih p1 _ h4 h2
      refine ⟨p2, ?_, h6⟩
      simp only [SProg.run, List.foldlM_cons, h3]
      exact h5

theorem start_rep (triv : Bool) (K n : Nat) : Rep triv K (SProg.start n : SProg V) (List.replicate n none) := by
  have hv : ∀ i, (SProg.start n : SProg V).var i = none := by
    intro i; simp only [SProg.var, SProg.start, List.getElem?_replicate]; split <;> rfl
  have hg : ∀ i, Vals.get (List.replicate n none : Vals V) i = none := by
    intro i; simp only [Vals.get, List.getElem?_replicate]; split <;> rfl
  refine ⟨by simp [SProg.start], fun i => by rw [hv, hg]; exact trivial, fun b blk hb => ?_, fun i j x y b hi => ?_⟩
  · simp [SProg.start] at hb
  · rw [hv] at hi; cases hi

end SProg

/-- C29, `handle_sso`.  Every history of allowed operations runs without error -- in particular each element is
constructed once, in raw memory, and destroyed once, and blocks are released once --, and after it

* the variables alive and their elements are those of the history on plain lists of values;
* up to `K` elements are in the buffer of the handle, more are in a block of their own;
* the unreleased blocks are those of the variables alive.

Missing: copy self-assignment (`C29_self_assign_witness`) and, for non-trivial types, moves of inline elements
(`C29_inline_move_witness`), where the claim is false. -/
theorem C29_sso_partial (triv : Bool) (K : Nat) (dflt : V) (n : Nat) (ops : List (SOp V))
    (h : SAllowedRun triv K dflt (List.replicate n none) ops) :
    ∃ p, (SProg.start n).run triv K dflt ops = some p ∧
      (∀ i, contents p i = ((srun triv dflt (List.replicate n none) ops).get i).map (List.map some)) ∧
      (∀ i x, p.var i = some x →
        (x.data = .null ↔ x.size = 0) ∧ (x.data = .inline ↔ 0 < x.size ∧ x.size ≤ K) ∧ ((∃ b, x.data = .block b) ↔ K < x.size)) ∧
      (∀ (b : Nat) blk, p.hp[b]? = some blk → (blk.freed = false ↔ ∃ i x, p.var i = some x ∧ x.data = .block b)) ∧
      (∀ i j x y b, p.var i = some x → p.var j = some y → x.data = .block b → y.data = .block b → i = j) := by
  obtain ⟨p, h1, r⟩ := SProg.Rep.run dflt ops _ _ (SProg.start_rep triv K n) h
  refine ⟨p, h1, fun i => ?_, fun i x hx => ?_, fun b blk hb => ⟨fun hf => r.blocks.owned b blk hb hf, ?_⟩, r.blocks.unique⟩
  · unfold contents
    cases hv : p.var i with
    | none => rw [r.dead hv]; rfl
    | some x =>
        obtain ⟨l, hl, ho⟩ := r.alive hv
        rw [hl]
        simp only [Option.map_some, Option.some.injEq]
        apply List.ext_getElem (by simp [ho.size])
        intro k h2 h3
        have hk : k < l.length := by simpa using h3
        simp only [List.getElem_map, List.getElem_range]
        rw [ho.cell hv hk, List.getElem?_eq_getElem hk]
  · obtain ⟨l, hl, ho⟩ := r.alive hx
    have hs := ho.size
    rcases ho.data with ⟨rfl, h2⟩ | ⟨h2, h3, h4, -⟩ | ⟨h2, h3, b, h4, -⟩
    · simp at hs; simp [h2.1, hs]
    · have : 0 < l.length := List.length_pos_iff.mpr h2
      simp [h4, hs, this, h3, h2]
    · have h5 : l ≠ [] := by rintro rfl; simp at h2
      simp [h4, hs, h5]; omega
  · rintro ⟨i, x, hx, hd⟩
    obtain ⟨l, hl, ho⟩ := r.alive hx
    rcases ho.data with ⟨-, h2, -⟩ | ⟨-, -, h2, -⟩ | ⟨-, -, b', h2, h3⟩
    · rw [h2] at hd; cases hd
    · rw [h2] at hd; cases hd
    · rw [h2] at hd; cases hd; rw [hb] at h3; cases h3; rfl

/-- A check for allowed histories. -/
def sallowedCheck (triv : Bool) (K : Nat) (dflt : V) : Vals V → List (SOp V) → Bool
  | _, [] => true
  | a, op :: ops =>
      (match op with
        | .copyAssign d s => d != s || (match a.get d with | some l => l.length == 0 || (triv && decide (l.length ≤ K)) | none => true)
        | .move _ s | .moveAssign _ s => triv || (match a.get s with | some l => l.length == 0 || decide (K < l.length) | none => true)
        | _ => true) && sallowedCheck triv K dflt (sstep triv dflt a op) ops

theorem sallowed_of_check (triv : Bool) (K : Nat) (dflt : V) (a : Vals V) (ops : List (SOp V)) (h : sallowedCheck triv K dflt a ops = true) :
    SAllowedRun triv K dflt a ops := by
  induction ops generalizing a with
  | nil => trivial
  | cons op ops ih =>
      simp only [sallowedCheck, Bool.and_eq_true] at h
      refine ⟨?_, ih _ h.2⟩
      cases op <;> simp only [SAllowed]
      case copyAssign d s =>
        intro hs l hl
        simp [hs] at h
        rw [hs] at hl
        simpa [hl] using h.1
      case move d s =>
        intro ht l hl
        simpa [ht, hl] using h.1
      case moveAssign d s =>
        intro ht l hl
        simpa [ht, hl] using h.1

/-- Inline and heap handles, copied, moved and assigned to each other. -/
def sampleSso : List (SOp Nat) :=
  [.newFrom 0 [1, 2], .newFrom 1 [3, 4, 5], .copy 2 0, .copyAssign 2 1, .copyAssign 1 0, .write 2 1 9, .moveAssign 0 2, .destroy 2, .move 2 0,
   .new 3 1]

example : SAllowedRun false 2 0 (List.replicate 4 none) sampleSso := sallowed_of_check _ _ _ _ _ (by decide +kernel)
example : ((SProg.start 4).run false 2 0 sampleSso).map (fun p => [0, 1, 2, 3].map (contents p)) =
    some [some [], some [some (some 1), some (some 2)], some [some (some 3), some (some 9), some (some 5)], some [some (some 0)]] := by
  decide +kernel

/-- When all variables are gone, all blocks are released. -/
theorem C29_no_leak (triv : Bool) (K : Nat) (dflt : V) (n : Nat) (ops : List (SOp V))
    (h : SAllowedRun triv K dflt (List.replicate n none) ops) (p : SProg V) (hp : (SProg.start n).run triv K dflt ops = some p)
    (hend : ∀ i, p.var i = none) : ∀ blk ∈ p.hp, blk.freed = true := by
  obtain ⟨p', h1, -, -, h2, -⟩ := C29_sso_partial triv K dflt n ops h
  rw [hp] at h1; cases h1
  intro blk hb
  obtain ⟨b, hb⟩ := List.mem_iff_getElem?.mp hb
  cases hf : blk.freed
  · obtain ⟨i, x, hx, -⟩ := (h2 b blk hb).mp hf
    rw [hend] at hx; cases hx
  · rfl

example : ((SProg.start 4).run false 2 0 (sampleSso ++ [.destroy 0, .destroy 1, .destroy 2, .destroy 3])).map
    (fun p => (p.hp.map (·.freed), p.vars)) = some ([true, true], [none, none, none, none]) := by decide +kernel

/-- Copy self-assignment (handle.hpp:447-462 has no test for it): the elements of a heap block are lost (trivial
types) or read after their destruction (non-trivial types). -/
theorem C29_self_assign_witness :
    ((SProg.start 1).run true 2 0 [.newFrom 0 [1, 2, 3], .copyAssign 0 0]).map (contents · 0) = some (some [some none, some none, some none]) ∧
    (SProg.start 1).run false 2 0 [.newFrom 0 [1, 2, 3], .copyAssign 0 0] = none ∧
    (SProg.start 1).run false 2 0 [.newFrom 0 [1, 2], .copyAssign 0 0] = none := by
  decide +kernel

/-- Moves of inline elements of non-trivial type (handle.hpp:342-371): the elements of the source are never
destroyed, and a later construction in the buffer overwrites them. -/
theorem C29_inline_move_witness :
    (SProg.start 2).run false 2 0 [.newFrom 0 [1, 2], .move 1 0] ≠ none ∧
    (SProg.start 2).run false 2 0 [.newFrom 0 [1, 2], .move 1 0, .destroy 0] = none ∧
    (SProg.start 2).run false 2 0 [.newFrom 0 [1, 2], .move 1 0, .copyAssign 0 1] = none := by
  decide +kernel

/-! ## `handle_stack` -/
namespace StackH

theorem var_eq_get (p : Vars V) (i : Nat) : var p i = Vals.get p i := rfl

theorem lt_of_var {p : Vars V} {d : Nat} {x : List (Option V)} (h : var p d = some x) : d < p.length := by
  rcases Nat.lt_or_ge d p.length with h1 | h1
  · exact h1
  · rw [var, List.getElem?_eq_none h1] at h; cases h

/-- The loops that construct the elements: the result is `l`. -/
theorem constructFrom_spec {triv : Bool} {d : Nat} {p : Vars V} (hd : d < p.length) {f : Nat → Vars V → Option (Option V)} {l x : List (Option V)}
    (hx : x.length = l.length) (hraw : triv = false → (∀ c ∈ x, c = none) ∧ ∀ c ∈ l, c.isSome)
    (hf : ∀ j, j < l.length → f j (p.set d (some (l.take j ++ x.drop j))) = l[j]?) (n i : Nat) (hn : i + n = l.length) :
    constructFrom triv d f n i (p.set d (some (l.take i ++ x.drop i))) = some (p.set d (some l)) := by
  induction n generalizing i with
  | zero =>
      have : i = l.length := by omega
      subst this
      rw [constructFrom, List.take_length, ← hx, List.drop_length, List.append_nil]
  | succ n ih =>
      have hi : i < l.length := by omega
      have hix : i < x.length := by omega
      rw [constructFrom, hf i hi, List.getElem?_eq_getElem hi]
      simp only [Option.bind_eq_bind, Option.bind_some]
      have hlen : (l.take i).length = i := by rw [List.length_take]; omega
      have hget : (l.take i ++ x.drop i)[i]? = some x[i] := by
        rw [List.getElem?_append_right (by omega), hlen, Nat.sub_self, List.getElem?_drop, Nat.add_zero, List.getElem?_eq_getElem hix]
      have hset : (l.take i ++ x.drop i).set i l[i] = l.take (i + 1) ++ x.drop (i + 1) := by
        rw [List.set_append_right _ _ (by omega), hlen, Nat.sub_self, List.drop_eq_getElem_cons hix, List.set_cons_zero,
          ← List.take_append_getElem hi, List.append_assoc]
        rfl
      have hc : construct triv (p.set d (some (l.take i ++ x.drop i))) d i l[i] = some (p.set d (some (l.take (i + 1) ++ x.drop (i + 1)))) := by
        have hv : var (p.set d (some (l.take i ++ x.drop i))) d = some (l.take i ++ x.drop i) := by simp [var, hd]
        simp only [construct, hv, hget, Option.bind_eq_bind, Option.bind_some]
        rw [if_neg, hset, List.set_set]; rfl
        rintro ⟨ht, h⟩
        obtain ⟨h1, h2⟩ := hraw ht
        rcases h with h | h
        · rw [h1 _ (List.getElem_mem hix)] at h; cases h
        · have := h2 _ (List.getElem_mem hi)
          rw [Option.isNone_iff_eq_none.mp h] at this; cases this
      rw [hc]
      exact ih (i + 1) (by omega)

/-- Every variable alive has `N` elements; objects of a non-trivial type exist. -/
def Ok (triv : Bool) (N : Nat) (p : Vars V) : Prop :=
  ∀ i x, var p i = some x → x.length = N ∧ (triv = false → ∀ c ∈ x, c.isSome)

theorem Ok.set {triv : Bool} {N : Nat} {p : Vars V} (h : Ok triv N p) (d : Nat) {l : List (Option V)} (h1 : l.length = N)
    (h2 : triv = false → ∀ c ∈ l, c.isSome) : Ok triv N (p.set d (some l)) := by
  intro i x hx
  by_cases e : i = d
  · subst e
    have hd : i < p.length := by have := lt_of_var hx; simpa using this
    simp [var, hd] at hx; subst hx; exact ⟨h1, h2⟩
  · rw [var, List.getElem?_set_ne (Ne.symm e)] at hx; exact h i x hx

theorem step_spec (triv : Bool) (N : Nat) (dflt : V) (p : Vars V) (op : Op V) (hok : Ok triv N p) (ha : KAllowed triv op) :
    step triv N dflt p op = some (kstep triv N dflt p op) ∧ Ok triv N (kstep triv N dflt p op) := by
  have fill : ∀ (d : Nat) (l : List (Option V)) (f : Nat → Vars V → Option (Option V)), d < p.length → l.length = N →
      (triv = false → ∀ c ∈ l, c.isSome) → (∀ j x, j < l.length → f j (p.set d (some x)) = l[j]?) →
      constructFrom triv d f N 0 (p.set d (some (List.replicate N none))) = some (p.set d (some l)) := by
    intro d l f hd hl h1 h2
    have := constructFrom_spec (triv := triv) (d := d) (p := p) hd (f := f) (l := l) (x := List.replicate N none) (by simp [hl])
      (fun ht => ⟨fun c hc => List.eq_of_mem_replicate hc, h1 ht⟩) (fun j hj => h2 j _ hj) N 0 (by omega)
    simpa using this
  cases op with
  | raw d =>
      simp only [step, kstep]
      by_cases hg : var p d = none ∧ d < p.length
      · rw [if_pos hg, if_pos (show Vals.get p d = none ∧ d < p.length from hg)]
        exact ⟨rfl, hok.set d (by simp) (fun ht => by simp only [KAllowed] at ha; rw [ht] at ha; cases ha)⟩
      · rw [if_neg hg, if_neg (show ¬ (Vals.get p d = none ∧ d < p.length) from hg)]; exact ⟨rfl, hok⟩
  | new d =>
      simp only [step, kstep]
      by_cases hg : var p d = none ∧ d < p.length
      · rw [if_pos hg, if_pos (show Vals.get p d = none ∧ d < p.length from hg)]
        have h1 : triv = false → ∀ c ∈ List.replicate N (dfltCell triv dflt), c.isSome := by
          intro ht c hc; rw [List.eq_of_mem_replicate hc]; subst ht; rfl
        refine ⟨fill d _ _ hg.2 (by simp) h1 (fun j x hj => ?_), hok.set d (by simp) h1⟩
        rw [List.length_replicate] at hj
        simp [hj, dfltCell]
      · rw [if_neg hg, if_neg (show ¬ (Vals.get p d = none ∧ d < p.length) from hg)]; exact ⟨rfl, hok⟩
  | newFrom d vs =>
      simp only [step, kstep]
      by_cases hg : var p d = none ∧ d < p.length ∧ vs.length = N
      · rw [if_pos hg, if_pos (show Vals.get p d = none ∧ d < p.length ∧ vs.length = N from hg)]
        have h1 : triv = false → ∀ c ∈ vs.map some, c.isSome := by
          intro ht c hc; simp at hc; obtain ⟨v, -, rfl⟩ := hc; rfl
        exact ⟨fill d _ _ hg.2.1 (by simp [hg.2.2]) h1 (fun j x hj => by rw [List.getElem?_map]), hok.set d (by simp [hg.2.2]) h1⟩
      · rw [if_neg hg, if_neg (show ¬ (Vals.get p d = none ∧ d < p.length ∧ vs.length = N) from hg)]; exact ⟨rfl, hok⟩
  | copy d s =>
      simp only [step, kstep]
      cases hs : var p s with
      | none => rw [show Vals.get p s = none from hs]; exact ⟨rfl, hok⟩
      | some l =>
          rw [show Vals.get p s = some l from hs]
          simp only
          by_cases hg : var p d = none ∧ d < p.length
          · rw [if_pos hg, if_pos (show Vals.get p d = none ∧ d < p.length from hg)]
            obtain ⟨h1, h2⟩ := hok s l hs
            refine ⟨fill d l _ hg.2 h1 h2 (fun j x hj => ?_), hok.set d h1 h2⟩
            have hne : s ≠ d := by rintro rfl; rw [hg.1] at hs; cases hs
            have : var (p.set d (some x)) s = some l := by rw [var, List.getElem?_set_ne (Ne.symm hne)]; exact hs
            simp [this]
          · rw [if_neg hg, if_neg (show ¬ (Vals.get p d = none ∧ d < p.length) from hg)]; exact ⟨rfl, hok⟩
  | assign d s =>
      simp only [KAllowed] at ha
      subst ha
      simp only [step, kstep, var_eq_get]
      cases hd : Vals.get p d with
      | none => exact ⟨rfl, hok⟩
      | some x =>
          cases hs : Vals.get p s with
          | none => exact ⟨rfl, hok⟩
          | some l =>
              simp only
              obtain ⟨h1, h2⟩ := hok s l hs
              obtain ⟨h3, -⟩ := hok d x hd
              have hlt := lt_of_var (p := p) (d := d) hd
              refine ⟨?_, hok.set d h1 h2⟩
              have hp : p.set d (some x) = p := SProg.set_same (a := p) hd
              have := constructFrom_spec (triv := true) (d := d) (p := p) hlt (f := fun i p => do let y ← var p s; y[i]?) (l := l) (x := x)
                (by rw [h1, h3]) (fun ht => by cases ht) (fun j hj => ?_) N 0 (by omega)
              · simp only [List.take_zero, List.drop_zero, List.nil_append, hp] at this
                exact this
              · by_cases e : s = d
                · subst e
                  rw [hd] at hs; cases hs
                  rw [List.take_append_drop, hp]
                  simp [var_eq_get, hd]
                · have : var (p.set d (some (l.take j ++ x.drop j))) s = some l := by rw [var, List.getElem?_set_ne (Ne.symm e)]; exact hs
                  simp [this]
  | destroy d =>
      have hdel : Ok triv N (p.set d none) := by
        intro i x hx
        by_cases e : i = d
        · subst e
          have hd : i < p.length := by have := lt_of_var hx; simpa using this
          simp [var, hd] at hx
        · rw [var, List.getElem?_set_ne (Ne.symm e)] at hx; exact hok i x hx
      refine ⟨?_, hdel⟩
      simp only [step, kstep, var_eq_get]
      cases hd : Vals.get p d with
      | none => rw [SProg.set_dead (a := p) hd]
      | some x =>
          simp only
          rw [if_neg]
          rintro ⟨ht, h⟩
          obtain ⟨c, hc, hn⟩ := List.any_eq_true.mp h
          have := (hok d x hd).2 ht c hc
          rw [Option.isNone_iff_eq_none.mp hn] at this; cases this
  | write d i v =>
      simp only [step, kstep, var_eq_get]
      cases hd : Vals.get p d with
      | none => exact ⟨rfl, hok⟩
      | some x =>
          simp only
          obtain ⟨h1, h2⟩ := hok d x hd
          have h3 : triv = false → ∀ c ∈ x.set i (some v), c.isSome := by
            intro ht c hc
            rcases List.mem_or_eq_of_mem_set hc with h | rfl
            · exact h2 ht c h
            · rfl
          refine ⟨?_, hok.set d (by simp [h1]) h3⟩
          cases hi : x[i]? with
          | none =>
              have e : x.set i (some v) = x := List.set_eq_of_length_le (List.getElem?_eq_none_iff.mp hi)
              rw [e, SProg.set_same (a := p) hd]
          | some c =>
              simp only
              rw [if_neg]
              rintro ⟨ht, hn⟩
              have := h2 ht c (List.mem_of_getElem? hi)
              rw [Option.isNone_iff_eq_none.mp hn] at this; cases this

end StackH

/-- C29, `handle_stack`: histories do to the variables what they should, without error (elements are made in raw
memory and destroyed once).  For non-trivial types, without default construction and assignment, for which the
claim is false (`C29_stack_witness`). -/
theorem C29_stack_partial (triv : Bool) (N : Nat) (dflt : V) (n : Nat) (ops : List (StackH.Op V)) (h : ∀ op ∈ ops, KAllowed triv op) :
    StackH.run triv N dflt (List.replicate n none) ops = some (krun triv N dflt (List.replicate n none) ops) := by
  have key : ∀ (ops : List (StackH.Op V)) (p : StackH.Vars V), StackH.Ok triv N p → (∀ op ∈ ops, KAllowed triv op) →
      StackH.run triv N dflt p ops = some (krun triv N dflt p ops) := by
    intro ops
    induction ops with
    | nil => intro p _ _; rfl
    | cons op ops ih =>
        intro p hok h
        obtain ⟨h1, h2⟩ := StackH.step_spec triv N dflt p op hok (h op (by simp))
        simp only [StackH.run, List.foldlM_cons, h1]
        exact ih _ h2 (fun o ho => h o (by simp [ho]))
  refine key ops _ (fun i x hx => ?_) h
  simp only [StackH.var, List.getElem?_replicate] at hx
  split at hx <;> cases hx

example : StackH.run true 2 0 [none, none] [.newFrom 0 [1, 2], .raw 1, .assign 1 0, .write 1 0 7, .assign 1 1, .destroy 0]
    = some [none, some [some 7, some 2]] := by decide +kernel
example : StackH.run false 2 0 [none, none] [.newFrom 0 [1, 2], .copy 1 0, .write 1 0 7, .destroy 0] = some [none, some [some 7, some 2]] := by
  decide +kernel

/-- Non-trivial types: the destructor destroys elements that the default constructor has not made
(handle.hpp:244-250), and assignments construct new elements over the existing ones (254-257, 274-277). -/
theorem C29_stack_witness :
    StackH.run false 2 0 [none, none] [.raw 0, .destroy 0] = none ∧
    StackH.run false 2 0 [none, none] [.new 0, .new 1, .assign 1 0] = none := by
  decide +kernel

end Nda.Mem
