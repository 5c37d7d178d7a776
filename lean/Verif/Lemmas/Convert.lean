import Verif.Spec.Convert
import Verif.Props.Handles
import Verif.Props.Sso
import Mathlib.Data.List.Induction
/-!
# Lemmas: conversions between kinds of storage
-/
namespace Nda.Mem

variable {V : Type} {triv : Bool} {w : World V}

open Spec

/-- All handles of a world own their blocks and have their elements. -/
structure WInv (triv : Bool) (w : World V) : Prop where
  h : Own triv w.h.mem (Prog.handles w.h.vars)
  s : ∀ K, ∃ a, SProg.Rep triv K (w.s K) a
  k : ∀ N, StackH.Ok triv N (w.k N)

theorem valsOf_eq {K : Nat} {p : SProg V} {a : Vals V} (r : SProg.Rep triv K p a) : valsOf p = a := by
  have hc : ∀ i, contents p i = (a.get i).map (List.map some) := by
    intro i
    unfold contents
    cases hv : p.var i with
    | none => rw [r.dead hv]; rfl
    | some x =>
        obtain ⟨l, hl, ho⟩ := r.alive hv
        rw [hl]
        simp only [Option.map_some, Option.some.injEq]
        apply List.ext_getElem (by simp [ho.size])
        intro k h2 h3
        have hk : k < l.length := by simpa using h3
        simp only [List.getElem_map, List.getElem_range]
        rw [ho.cell hv hk, List.getElem?_eq_getElem hk]
  unfold valsOf
  apply List.ext_getElem (by simp [r.len])
  intro i h1 h2
  simp only [List.getElem_map, List.getElem_range, hc]
  have : a.get i = a[i] := by simp [Vals.get, List.getElem?_eq_getElem h2]
  rw [this]
  cases a[i] with
  | none => rfl
  | some l =>
      simp only [Option.map_some, List.map_map, Option.some.injEq]
      have : (Option.join ∘ some : Option V → Option V) = id := by funext x; rfl
      rw [this, List.map_id]

theorem usable_handle {i : Nat} {x : Handle} (hu : Usable w (.h i)) (hx : w.h.var i = some x) : Own.usable x := by
  intro hs
  cases x with
  | heap d n s => simp only [Handle.sptr] at hs; subst hs; exact ⟨d, n, rfl⟩
  | shared d n s =>
      simp only [Handle.sptr] at hs; subst hs
      refine absurd ?_ (hu d n)
      unfold Prog.var at hx
      cases hv : w.h.vars[i]? with
      | none => rw [hv] at hx; cases hx
      | some y => rw [hv] at hx; simp at hx; rw [hx]

/-- The elements of a usable variable are all there. -/
theorem WInv.source (o : WInv triv w) {src : Obj} {n : Nat} (hs : w.size src = some n) (hu : Usable w src) :
    ∃ l : List (Option V), l.length = n ∧ (triv = false → ∀ c ∈ l, c.isSome) ∧ ∀ j, j < n → w.cell src j = l[j]? := by
  cases src with
  | h i =>
      simp only [World.size, Option.map_eq_some_iff] at hs
      obtain ⟨x, hx, rfl⟩ := hs
      have hm : x ∈ Prog.handles w.h.vars := Prog.mem_handles hx
      cases hd : x.data with
      | none =>
          have := o.h.null x hm hd
          rw [this]
          exact ⟨[], rfl, by simp, fun j hj => absurd hj (by omega)⟩
      | some b =>
          obtain ⟨cells, hl, hF⟩ := o.h.handle_live hm (usable_handle hu hx) hd
          exact ⟨cells, hF.1, hF.2, fun j _ => by simp [World.cell, hx, hd, hl]⟩
  | s K i =>
      simp only [World.size, Option.map_eq_some_iff] at hs
      obtain ⟨x, hx, rfl⟩ := hs
      obtain ⟨a, r⟩ := o.s K
      obtain ⟨l, -, ho⟩ := r.alive hx
      exact ⟨l, ho.size.symm, ho.all, fun j hj => ho.cell hx (by rw [← ho.size]; exact hj)⟩
  | k N i =>
      simp only [World.size, Option.map_eq_some_iff] at hs
      obtain ⟨x, hx, rfl⟩ := hs
      obtain ⟨h1, h2⟩ := o.k N i x hx
      exact ⟨x, h1, h2, fun j hj => by simp [World.cell, hx]⟩

theorem elems_eq {src : Obj} {n : Nat} (hs : w.size src = some n) {l : List (Option V)} (hl : l.length = n)
    (hc : ∀ j, j < n → w.cell src j = l[j]?) : elems w src = some (l.map some) := by
  unfold elems
  rw [hs]
  simp only [Option.map_some, Option.some.injEq]
  apply List.ext_getElem (by simp [hl])
  intro k h2 h3
  have hk : k < l.length := by simpa using h3
  simp only [List.getElem_map, List.getElem_range]
  rw [hc k (by omega), List.getElem?_eq_getElem hk]

theorem mapM_range {α : Type} (f : Nat → Option α) (l : List α) (hf : ∀ j, j < l.length → f j = l[j]?) : (List.range l.length).mapM f = some l := by
  induction l using List.reverseRecOn with
  | nil => rfl
  | append_singleton l a ih =>
      have h1 : (List.range l.length).mapM f = some l := ih fun j hj => by
        rw [hf j (by simp; omega), List.getElem?_append_left hj]
      rw [List.length_append, List.length_singleton, List.range_succ, List.mapM_append, h1]
      have := hf l.length (by simp)
      rw [List.getElem?_append_right (Nat.le_refl _)] at this
      simp at this
      simp [this]

theorem newCells_made (m : Mem V) (l : List (Option V)) (hl : triv = false → ∀ c ∈ l, c.isSome) (f : Nat → Option (Option V))
    (hf : ∀ j, j < l.length → f j = l[j]?) :
    (l = [] ∧ m.newCells triv l.length f = some (Handle.null, m)) ∨
      (l ≠ [] ∧ m.newCells triv l.length f = some (.heap (some m.hp.length) l.length none, { m with hp := m.hp ++ [⟨l, false⟩] })) := by
  unfold Mem.newCells
  by_cases hn : l = []
  · left; subst hn; simp
  · right
    refine ⟨hn, ?_⟩
    rw [if_neg (fun h => hn (List.length_eq_zero_iff.mp h))]
    cases triv with
    | true => simp [Heap.alloc, mapM_range f l hf]
    | false =>
        obtain ⟨vs, hvs⟩ : ∃ vs : List V, l = vs.map some := by
          refine ⟨l.filterMap id, ?_⟩
          have h2 : ∀ c ∈ l, c.isSome = true := hl rfl
          clear hl hf hn
          induction l with
          | nil => rfl
          | cons c cs ih =>
              obtain ⟨v, rfl⟩ := Option.isSome_iff_exists.mp (h2 c (by simp))
              have e := ih (fun c hc => h2 c (by simp [hc]))
              simp only [List.filterMap_cons, id, List.map_cons]
              exact congrArg _ e
        subst hvs
        have := Own.construct_fresh false m.hp (fun i _ => (f i).join) (vs.map some).length vs (by simp) (fun j cells hj => by
          simp only [hf j hj]
          have hj' : j < vs.length := by simpa using hj
          simp [hj'])
        simp only [Heap.alloc, Bool.false_eq_true, if_false, this]
        rfl

theorem full_of {l : List (Option V)} (hl : triv = false → ∀ c ∈ l, c.isSome) : Full triv ⟨l, false⟩ l.length := ⟨rfl, hl⟩

/-- The conversion to a heap handle. -/
theorem WInv.toHeap (dflt : V) (o : WInv triv w) {src : Obj} {n d : Nat} (hs : w.size src = some n) (hu : Usable w src) (hd : Free w (.h d)) :
    ∃ m x l, w.step triv dflt (.toHeap d src) = some (w.setH ({ w.h with mem := m }.setVar d (some x))) ∧
      WInv triv (w.setH ({ w.h with mem := m }.setVar d (some x))) ∧ l.length = n ∧ (triv = false → ∀ c ∈ l, c.isSome) ∧
      (∀ j, j < n → w.cell src j = l[j]?) ∧
      ((l = [] ∧ x = Handle.null ∧ m = w.h.mem) ∨
        (l ≠ [] ∧ x = .heap (some w.h.mem.hp.length) n none ∧ m = { w.h.mem with hp := w.h.mem.hp ++ [⟨l, false⟩] })) := by
  obtain ⟨l, h1, h2, h3⟩ := o.source hs hu
  obtain ⟨hd1, hd2⟩ := hd
  have put : ∀ {h : Handle} {m : Mem V}, Own triv m (h :: Prog.handles w.h.vars) → Own triv m (Prog.handles (w.h.vars.set d (some h))) :=
    fun h3 => h3.perm (Prog.handles_put hd1 hd2 _)
  have hm := newCells_made w.h.mem l h2 (w.cell src) (fun j hj => h3 j (by omega))
  rw [h1] at hm
  rcases hm with ⟨h4, h5⟩ | ⟨h4, h5⟩
  · refine ⟨w.h.mem, Handle.null, l, ?_, ⟨put o.h.null_cons, o.s, o.k⟩, h1, h2, h3, Or.inl ⟨h4, rfl, rfl⟩⟩
    simp only [World.step, hs]
    rw [if_pos ⟨hd1, hd2⟩, h5]; rfl
  · refine ⟨{ w.h.mem with hp := w.h.mem.hp ++ [⟨l, false⟩] }, .heap (some w.h.mem.hp.length) n none, l, ?_, ⟨put (o.h.cons_new (h1 ▸ full_of h2)), o.s, o.k⟩, h1, h2, h3, Or.inr ⟨h4, rfl, rfl⟩⟩
    simp only [World.step, hs]
    rw [if_pos ⟨hd1, hd2⟩, h5]; rfl

/-- The conversion to a small-buffer handle. -/
theorem WInv.toSso (dflt : V) (o : WInv triv w) {src : Obj} {n K d : Nat} (hs : w.size src = some n) (hu : Usable w src) (hd : Free w (.s K d)) :
    ∃ p l a, w.step triv dflt (.toSso K d src) = some (w.setS K p) ∧ WInv triv (w.setS K p) ∧ l.length = n ∧ (triv = false → ∀ c ∈ l, c.isSome) ∧
      (∀ j, j < n → w.cell src j = l[j]?) ∧ SProg.Rep triv K (w.s K) a ∧ SProg.Rep triv K p (a.set d (some l)) := by
  obtain ⟨l, h1, h2, h3⟩ := o.source hs hu
  obtain ⟨a, r⟩ := o.s K
  obtain ⟨p, h4, h5⟩ := r.build hd.1 hd.2 l h2 (fun j _ => w.cell src j) (fun j q hj _ => h3 j (by omega))
  refine ⟨p, l, a, ?_, ⟨o.h, fun K' => ?_, o.k⟩, h1, h2, h3, r, h5⟩
  · simp only [World.step, hs]
    rw [if_pos ⟨hd.1, hd.2⟩, ← h1, h4]; rfl
  · simp only [World.setS]
    split_ifs with e
    · subst e; exact ⟨_, h5⟩
    · exact o.s K'

/-- One operation. -/
theorem WInv.step (dflt : V) (o : WInv triv w) (op : WOp V) (ha : WAllowed triv w op) :
    ∃ w', w.step triv dflt op = some w' ∧ WInv triv w' := by
  cases op with
  | h op =>
      obtain ⟨p, h1, h2, -⟩ := Prog.step_own dflt w.h o.h op (by
        intro d hd x hx hs
        exact usable_handle (w := w) (i := d) (fun y n => ha d hd y n) hx hs)
      exact ⟨w.setH p, by simp [World.step, h1], ⟨h2, o.s, o.k⟩⟩
  | s K op =>
      obtain ⟨a, r⟩ := o.s K
      have ha' : SAllowed triv K (valsOf (w.s K)) op := ha
      rw [valsOf_eq r] at ha'
      obtain ⟨p, h1, h2⟩ := r.step dflt op ha'
      refine ⟨w.setS K p, by simp [World.step, h1], ⟨o.h, fun K' => ?_, o.k⟩⟩
      simp only [World.setS]
      split_ifs with e
      · subst e; exact ⟨_, h2⟩
      · exact o.s K'
  | k N op =>
      obtain ⟨h1, h2⟩ := StackH.step_spec triv N dflt (w.k N) op (o.k N) ha
      refine ⟨w.setK N _, by simp only [World.step, h1]; rfl, ⟨o.h, o.s, fun N' => ?_⟩⟩
      simp only [World.setK]
      split_ifs with e
      · subst e; exact h2
      · exact o.k N'
  | toHeap d src =>
      by_cases h1 : ∃ n, w.size src = some n
      · obtain ⟨n, h1⟩ := h1
        by_cases h2 : w.h.var d = none ∧ d < w.h.vars.length
        · obtain ⟨m, x, l, h3, h4, -⟩ := o.toHeap dflt h1 ha h2
          exact ⟨_, h3, h4⟩
        · exact ⟨w, by simp only [World.step, h1]; rw [if_neg h2], o⟩
      · have : w.size src = none := by
          cases h : w.size src with
          | none => rfl
          | some n => exact absurd ⟨n, h⟩ h1
        exact ⟨w, by simp only [World.step, this], o⟩
  | toSso K d src =>
      by_cases h1 : ∃ n, w.size src = some n
      · obtain ⟨n, h1⟩ := h1
        by_cases h2 : (w.s K).var d = none ∧ d < (w.s K).vars.length
        · obtain ⟨p, l, a, h3, h4, -⟩ := o.toSso dflt h1 ha h2
          exact ⟨_, h3, h4⟩
        · exact ⟨w, by simp only [World.step, h1]; rw [if_neg h2], o⟩
      · have : w.size src = none := by
          cases h : w.size src with
          | none => rfl
          | some n => exact absurd ⟨n, h⟩ h1
        exact ⟨w, by simp only [World.step, this], o⟩

theorem WInv.run (dflt : V) (ops : List (WOp V)) (w : World V) (o : WInv triv w) (h : WAllowedRun triv dflt w ops) :
    ∃ w', w.run triv dflt ops = some w' ∧ WInv triv w' := by
  induction ops generalizing w with
  | nil => exact ⟨w, rfl, o⟩
  | cons op ops ih =>
      obtain ⟨w1, h1, o1⟩ := o.step dflt op h.1
      obtain ⟨w2, h2, o2⟩ := ih w1 o1 (h.2 w1 h1)
      refine ⟨w2, ?_, o2⟩
      simp only [World.run, List.foldlM_cons, h1]
      exact h2

theorem start_winv (triv : Bool) (n : Nat) : WInv triv (World.start n : World V) where
  h := start_own triv n
  s K := ⟨_, SProg.start_rep triv K n⟩
  k N := by
    intro i x hx
    simp only [World.start, StackH.var, List.getElem?_replicate] at hx
    split at hx <;> cases hx

end Nda.Mem
