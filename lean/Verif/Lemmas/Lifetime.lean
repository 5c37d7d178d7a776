import Verif.Spec.Lifetime
import Mathlib.Tactic.Common
/-!
# Ownership of storage
-/
namespace Nda.Lifetime
open Nda.Lifetime.Spec

def ownedOpt : Option Obj → List Nat
  | some o => o.owned
  | none => []

def ownedAll (vars : List (Option Obj)) : List Nat := vars.flatMap ownedOpt

/-- Every block in existence is owned exactly once: by a variable or by one of the temporaries with blocks `T`. -/
structure G (s : St) (T : List Nat) : Prop where
  cnt : ∀ b, (ownedAll s.vars).count b + T.count b = s.live.count b
  nodup : s.live.Nodup
  fresh : ∀ b ∈ s.live, b < s.next

theorem G.perm {s : St} {T T' : List Nat} (h : G s T) (e : ∀ b, T'.count b = T.count b) : G s T' := ⟨fun b => by rw [e]; exact h.cnt b, h.nodup, h.fresh⟩

theorem G.live {s : St} {T : List Nat} (h : G s T) {b : Nat} (hb : b ∈ T) : b ∈ s.live := by
  have := h.cnt b
  have h2 := List.count_pos_iff.mpr hb
  exact List.count_pos_iff.mp (by omega)

theorem get_eq {s : St} {x : Nat} {o : Obj} (h : s.get x = some o) : s.vars[x]? = some (some o) := by
  unfold St.get at h
  cases h1 : s.vars[x]? with
  | none => rw [h1] at h; cases h
  | some y => rw [h1] at h; cases y with
      | none => cases h
      | some z => simp at h; rw [h]

theorem get_of {s : St} {x : Nat} {o : Option Obj} (h : s.vars[x]? = some o) : s.get x = o := by
  unfold St.get; rw [h]; rfl

theorem get_lt {s : St} {x : Nat} {o : Obj} (h : s.get x = some o) : x < s.vars.length := (List.getElem?_eq_some_iff.mp (get_eq h)).1

theorem owned_mem {s : St} {x : Nat} {o : Obj} (h : s.get x = some o) {b : Nat} (hb : b ∈ o.owned) : b ∈ ownedAll s.vars :=
  List.mem_flatMap.mpr ⟨some o, List.mem_of_getElem? (get_eq h), hb⟩

theorem G.live_var {s : St} {T : List Nat} (h : G s T) {x : Nat} {o : Obj} (hx : s.get x = some o) {b : Nat} (hb : b ∈ o.owned) : b ∈ s.live := by
  have := h.cnt b
  have h2 := List.count_pos_iff.mpr (owned_mem hx hb)
  exact List.count_pos_iff.mp (by omega)

theorem ownedAll_set (b : Nat) (o : Option Obj) : ∀ (vars : List (Option Obj)) (x : Nat) (old : Option Obj), vars[x]? = some old →
    (ownedAll (vars.set x o)).count b + (ownedOpt old).count b = (ownedAll vars).count b + (ownedOpt o).count b
  | [], x, old, h => by simp at h
  | a :: vars, 0, old, h => by
      simp only [List.getElem?_cons_zero, Option.some.injEq] at h
      subst h
      simp only [List.set_cons_zero, ownedAll, List.flatMap_cons, List.count_append]
      omega
  | a :: vars, x + 1, old, h => by
      have := ownedAll_set b o vars x old (by simpa using h)
      simp only [List.set_cons_succ, ownedAll, List.flatMap_cons, List.count_append] at this ⊢
      omega

/-- A variable and the temporaries exchange blocks. -/
theorem G.put {s : St} {T T' : List Nat} (h : G s T) {x : Nat} {old : Option Obj} (hx : s.vars[x]? = some old) (o : Option Obj)
    (e : ∀ b, T'.count b + (ownedOpt o).count b = T.count b + (ownedOpt old).count b) : G (s.put x o) T' := by
  refine ⟨fun b => ?_, h.nodup, h.fresh⟩
  have h1 := h.cnt b
  have h2 := ownedAll_set b o s.vars x old hx
  have h3 := e b
  show (ownedAll (s.vars.set x o)).count b + T'.count b = s.live.count b
  omega

theorem G.push {s : St} {T T' : List Nat} (h : G s T) (o : Obj) (e : ∀ b, T'.count b + o.owned.count b = T.count b) : G (s.push o) T' := by
  refine ⟨fun b => ?_, h.nodup, h.fresh⟩
  have h1 := h.cnt b
  have h3 := e b
  show (ownedAll (s.vars ++ [some o])).count b + T'.count b = s.live.count b
  simp only [ownedAll, List.flatMap_append, List.flatMap_cons, List.flatMap_nil, List.append_nil, List.count_append] at h1 ⊢
  simp only [ownedOpt]
  omega

theorem G.alloc {s : St} {T : List Nat} (h : G s T) : G s.alloc.1 (s.alloc.2 :: T) := by
  refine ⟨fun b => ?_, ?_, ?_⟩
  · have := h.cnt b
    simp only [St.alloc, List.count_cons]
    omega
  · refine List.nodup_cons.mpr ⟨fun hm => ?_, h.nodup⟩
    exact absurd (h.fresh _ hm) (Nat.lt_irrefl _)
  · intro b hb
    rcases List.mem_cons.mp hb with rfl | hb
    · exact Nat.lt_succ_self _
    · exact Nat.lt_succ_of_lt (h.fresh b hb)

theorem free_cnt : ∀ (bs : List Nat) {s s' : St}, St.free bs s = some s' →
    s'.vars = s.vars ∧ s'.next = s.next ∧ s'.live.Sublist s.live ∧ ∀ b, s'.live.count b + bs.count b = s.live.count b
  | [], s, s', e => by cases e; exact ⟨rfl, rfl, List.Sublist.refl _, fun b => by simp⟩
  | b :: bs, s, s', e => by
      simp only [St.free] at e
      split at e
      · rename_i hb
        obtain ⟨h1, h2, h3, h4⟩ := free_cnt bs e
        refine ⟨h1, h2, h3.trans List.erase_sublist, fun c => ?_⟩
        have h5 := h4 c
        simp only [List.count_erase] at h5
        have h6 := List.count_pos_iff.mpr hb
        simp only [List.count_cons]
        by_cases hc : c = b
        · subst hc
          simp at h5 ⊢
          omega
        · have hc1 : ¬ b = c := fun h => hc h.symm
          simp [hc, hc1] at h5 ⊢
          omega
      · cases e

theorem free_G (bs : List Nat) {s s' : St} {T : List Nat} (e : St.free bs s = some s') (h : G s (bs ++ T)) : G s' T := by
  obtain ⟨h1, h2, h3, h4⟩ := free_cnt bs e
  refine ⟨fun b => ?_, h.nodup.sublist h3, fun b hb => h2 ▸ h.fresh b (h3.subset hb)⟩
  have h5 := h.cnt b
  have h6 := h4 b
  rw [h1]
  simp only [List.count_append] at h5
  omega

theorem free_ok : ∀ (bs : List Nat) {s : St} {T : List Nat}, G s (bs ++ T) → ∃ s', St.free bs s = some s'
  | [], s, T, _ => ⟨s, rfl⟩
  | b :: bs, s, T, h => by
      have hb : b ∈ s.live := h.live (by simp)
      have hstep : St.free [b] s = some { s with live := s.live.erase b } := by simp [St.free, hb]
      have h1 := free_G [b] hstep (T := bs ++ T) h
      obtain ⟨s', e⟩ := free_ok bs h1
      exact ⟨s', by simp [St.free, hb, e]⟩

/-- Storage is handed over or allocated: the blocks `A` become the blocks `B`; no variable changes. -/
structure Eff (s s' : St) (A B : List Nat) : Prop where
  vars : s'.vars = s.vars
  live : ∀ b ∈ s.live, b ∈ s'.live
  nodup : s.live.Nodup → (∀ b ∈ s.live, b < s.next) → s'.live.Nodup ∧ (∀ b ∈ s'.live, b < s'.next)
  cnt : ∀ b, s'.live.count b + A.count b = s.live.count b + B.count b

theorem Eff.refl (s : St) {A B : List Nat} (h : ∀ b, A.count b = B.count b) : Eff s s A B := ⟨rfl, fun _ h => h, fun a b => ⟨a, b⟩, fun b => by rw [h]⟩

theorem Eff.comp {s s1 s2 : St} {A B A' B' C D : List Nat} (h : Eff s s1 A B) (h' : Eff s1 s2 A' B')
    (e : ∀ b, C.count b + B.count b + B'.count b = D.count b + A.count b + A'.count b) : Eff s s2 C D :=
  ⟨h'.vars.trans h.vars, fun b hb => h'.live b (h.live b hb), fun a b => h'.nodup (h.nodup a b).1 (h.nodup a b).2,
   fun b => by have h1 := h.cnt b; have h2 := h'.cnt b; have h3 := e b; omega⟩

theorem Eff.to {s s' : St} {A B C D : List Nat} (h : Eff s s' A B) (e : ∀ b, C.count b + B.count b = D.count b + A.count b) : Eff s s' C D :=
  ⟨h.vars, h.live, h.nodup, fun b => by have h1 := h.cnt b; have h3 := e b; omega⟩

theorem Eff.alloc (s : St) : Eff s s.alloc.1 [] [s.alloc.2] := by
  refine ⟨rfl, fun _ h => List.mem_cons_of_mem _ h, fun a b => ⟨List.nodup_cons.mpr ⟨fun hm => ?_, a⟩, ?_⟩, fun b => ?_⟩
  · exact absurd (b _ hm) (Nat.lt_irrefl _)
  · intro c hc
    rcases List.mem_cons.mp hc with rfl | hc
    · exact Nat.lt_succ_self _
    · exact Nat.lt_succ_of_lt (b c hc)
  · simp only [St.alloc, List.count_cons, List.count_nil]; omega

theorem Eff.G {s s' : St} {A B T T' : List Nat} (h : Eff s s' A B) (g : G s T) (e : ∀ b, T'.count b + A.count b = T.count b + B.count b) : Lifetime.G s' T' :=
  ⟨fun b => by have h1 := h.cnt b; have h2 := g.cnt b; have h3 := e b; rw [h.vars]; omega, (h.nodup g.nodup g.fresh).1, (h.nodup g.nodup g.fresh).2⟩

/-- What `copyObj` does. -/
theorem copyObj_eff : ∀ (o : Obj) {s s' : St} {o' : Obj}, copyObj o s = some (s', o') → Eff s s' [] o'.owned
  | .arr none, s, s', o', e => by cases e; exact Eff.refl _ (fun _ => rfl)
  | .arr (some b), s, s', o', e => by
      simp only [copyObj] at e
      split at e
      · cases e; exact Eff.alloc s
      · cases e
  | .view b, s, s', o', e => by cases e; exact Eff.refl _ (fun _ => rfl)
  | .ref x, s, s', o', e => by cases e; exact Eff.refl _ (fun _ => rfl)
  | .dangling, s, s', o', e => by cases e
  | .un c o, s, s', o', e => by
      simp only [copyObj, Option.bind_eq_bind, Option.bind_eq_some_iff] at e
      obtain ⟨⟨s1, o1⟩, e1, e2⟩ := e
      cases e2
      exact (copyObj_eff o e1 :)
  | .bin c l r, s, s', o', e => by
      simp only [copyObj, Option.bind_eq_bind, Option.bind_eq_some_iff] at e
      obtain ⟨⟨s1, o1⟩, e1, ⟨s2, o2⟩, e2, e3⟩ := e
      cases e3
      exact (copyObj_eff l e1).comp (copyObj_eff r e2) (by intro b; simp [Obj.owned])

/-- What `moveObj` does. -/
theorem moveObj_eff : ∀ (o : Obj) {s s' : St} {o' k : Obj}, moveObj o s = some (s', o', k) → Eff s s' o.owned (o'.owned ++ k.owned)
  | .arr b, s, s', o', k, e => by cases e; exact Eff.refl _ (fun _ => by simp [Obj.owned])
  | .view b, s, s', o', k, e => by cases e; exact Eff.refl _ (fun _ => by simp [Obj.owned])
  | .ref x, s, s', o', k, e => by cases e; exact Eff.refl _ (fun _ => by simp [Obj.owned])
  | .dangling, s, s', o', k, e => by cases e
  | .un c o, s, s', o', k, e => by
      cases c with
      | true =>
          simp only [moveObj, if_true, Option.bind_eq_bind, Option.bind_eq_some_iff] at e
          obtain ⟨⟨s1, o1⟩, e1, e2⟩ := e
          cases e2
          exact (copyObj_eff _ e1).to (by intro b; simp; omega)
      | false =>
          simp only [moveObj, Bool.false_eq_true, if_false, Option.bind_eq_bind, Option.bind_eq_some_iff] at e
          obtain ⟨⟨s1, o1, k1⟩, e1, e2⟩ := e
          cases e2
          exact (moveObj_eff o e1 :)
  | .bin c l r, s, s', o', k, e => by
      cases c with
      | true =>
          simp only [moveObj, if_true, Option.bind_eq_bind, Option.bind_eq_some_iff] at e
          obtain ⟨⟨s1, o1⟩, e1, e2⟩ := e
          cases e2
          exact (copyObj_eff _ e1).to (by intro b; simp; omega)
      | false =>
          simp only [moveObj, Bool.false_eq_true, if_false, Option.bind_eq_bind, Option.bind_eq_some_iff] at e
          obtain ⟨⟨s1, o1, k1⟩, e1, ⟨s2, o2, k2⟩, e2, e3⟩ := e
          cases e3
          exact (moveObj_eff l e1).comp (moveObj_eff r e2) (by intro b; simp [Obj.owned]; omega)

theorem vars_of_get {s s' : St} (h : s'.vars = s.vars) {x : Nat} {o : Obj} (e : s.get x = some o) : s'.vars[x]? = some (some o) := by rw [h]; exact get_eq e

theorem hold_G {s s' : St} {v : Val} {o : Obj} {ts T : List Nat} (e : hold s v = some (s', o, ts)) (h : G s (T ++ v.owned)) : G s' (T ++ ts ++ o.owned) := by
  cases v with
  | lv x => cases e; simpa [Obj.owned, Val.owned] using h
  | xv x =>
      simp only [hold, Option.bind_eq_bind, Option.bind_eq_some_iff] at e
      obtain ⟨o1, e1, ⟨s1, o2, k⟩, e2, e3⟩ := e
      cases e3
      have ef := moveObj_eff _ e2
      have hs := vars_of_get ef.vars e1
      refine ⟨fun b => ?_, (ef.nodup h.nodup h.fresh).1, (ef.nodup h.nodup h.fresh).2⟩
      have h1 := h.cnt b
      have h2 := ef.cnt b
      have h3 := ownedAll_set b (some k) s1.vars x (some o1) hs
      rw [ef.vars] at h3
      show (ownedAll (s1.vars.set x (some k))).count b + _ = s1.live.count b
      rw [ef.vars]
      simp only [Val.owned, List.append_nil, List.count_append, ownedOpt, List.count_nil] at h1 h2 h3 ⊢
      omega
  | pv o1 =>
      simp only [hold, Option.bind_eq_bind, Option.bind_eq_some_iff] at e
      obtain ⟨⟨s1, o2, k⟩, e2, e3⟩ := e
      cases e3
      exact (moveObj_eff _ e2).G h (by intro b; simp [Val.owned]; omega)
  | xt o1 =>
      simp only [hold, Option.bind_eq_bind, Option.bind_eq_some_iff] at e
      obtain ⟨⟨s1, o2, k⟩, e2, e3⟩ := e
      cases e3
      exact (moveObj_eff _ e2).G h (by intro b; simp [Val.owned]; omega)

theorem construct_G {s s' : St} {v : Val} {o : Obj} {ts T : List Nat} (e : construct s v = some (s', o, ts)) (h : G s (T ++ v.owned)) : G s' (T ++ ts ++ o.owned) := by
  cases v with
  | lv x =>
      simp only [construct, Option.bind_eq_bind, Option.bind_eq_some_iff] at e
      obtain ⟨o1, e1, ⟨s1, o2⟩, e2, e3⟩ := e
      cases e3
      exact (copyObj_eff _ e2).G h (by intro b; simp [Val.owned])
  | xv x => exact hold_G (v := .xv x) e h
  | pv o1 => cases e; simpa [Val.owned] using h
  | xt o1 => exact hold_G (v := .xt o1) e h

theorem sliceWith_owned {f : Nat → Option Obj} (hf : ∀ x o, f x = some o → o.owned = []) : ∀ (o : Obj) {o' : Obj}, sliceWith f o = some o' → o'.owned = []
  | .arr b, o', e => by cases e; rfl
  | .view b, o', e => by cases e; rfl
  | .ref x, o', e => hf _ _ e
  | .dangling, o', e => by cases e
  | .un c o, o', e => by
      simp only [sliceWith, Option.bind_eq_bind, Option.bind_eq_some_iff] at e
      obtain ⟨o1, e1, e2⟩ := e
      cases e2
      exact (sliceWith_owned hf o e1 :)
  | .bin c l r, o', e => by
      simp only [sliceWith, Option.bind_eq_bind, Option.bind_eq_some_iff] at e
      obtain ⟨o1, e1, o2, e2, e3⟩ := e
      cases e3
      simp [Obj.owned, sliceWith_owned hf l e1, sliceWith_owned hf r e2]

/-- A slice owns nothing. -/
theorem sliceVar_owned {s : St} : ∀ (n : Nat) {x : Nat} {o : Obj}, sliceVar s n x = some o → o.owned = []
  | 0, x, o, e => by cases e
  | n + 1, x, o, e => by
      simp only [sliceVar, Option.bind_eq_bind, Option.bind_eq_some_iff] at e
      obtain ⟨o1, e1, e2⟩ := e
      exact sliceWith_owned (fun x o h => sliceVar_owned n h) o1 e2

theorem eval_G : ∀ (e : E) {s s' : St} {v : Val} {ts T : List Nat}, eval e s = some (s', v, ts) → G s T → G s' (T ++ ts ++ v.owned)
  | .name x, s, s', v, ts, T, e, h => by
      simp only [eval, Option.bind_eq_bind, Option.bind_eq_some_iff] at e
      obtain ⟨y, -, e2⟩ := e
      cases e2; simpa [Val.owned] using h
  | .move x, s, s', v, ts, T, e, h => by
      simp only [eval, Option.bind_eq_bind, Option.bind_eq_some_iff] at e
      obtain ⟨y, -, e2⟩ := e
      cases e2; simpa [Val.owned] using h
  | .make, s, s', v, ts, T, e, h => by
      cases e
      exact h.alloc.perm (by intro b; simp [Val.owned, Obj.owned, St.alloc, List.count_cons])
  | .slice e1, s, s', v, ts, T, e, h => by
      simp only [eval, Option.bind_eq_bind, Option.bind_eq_some_iff] at e
      obtain ⟨⟨s1, v1, ts1⟩, e1, e2⟩ := e
      have g := eval_G _ e1 h
      cases v1 with
      | lv x =>
          simp only [Option.bind_eq_some_iff] at e2
          obtain ⟨o, e3, e4⟩ := e2
          cases e4
          exact g.perm (by intro b; simp [Val.owned, sliceVar_owned _ e3])
      | xv x =>
          simp only [Option.bind_eq_some_iff] at e2
          obtain ⟨o, e3, e4⟩ := e2
          cases e4
          exact g.perm (by intro b; simp [Val.owned, sliceVar_owned _ e3])
      | pv o1 =>
          simp only [Option.bind_eq_some_iff] at e2
          obtain ⟨o, e3, e4⟩ := e2
          cases e4
          exact g.perm (by intro b; simp [Val.owned, sliceWith_owned (fun x o h => sliceVar_owned _ h) _ e3])
      | xt o1 =>
          simp only [Option.bind_eq_some_iff] at e2
          obtain ⟨o, e3, e4⟩ := e2
          cases e4
          exact g.perm (by intro b; simp [Val.owned, sliceWith_owned (fun x o h => sliceVar_owned _ h) _ e3])
  | .un c e1, s, s', v, ts, T, e, h => by
      simp only [eval, Option.bind_eq_bind, Option.bind_eq_some_iff] at e
      obtain ⟨⟨s1, v1, ts1⟩, e1, ⟨s2, o2, us⟩, e2, e3⟩ := e
      cases e3
      exact (hold_G e2 (eval_G _ e1 h)).perm (by intro b; simp [Val.owned, Obj.owned])
  | .bin c l r, s, s', v, ts, T, e, h => by
      simp only [eval, Option.bind_eq_bind, Option.bind_eq_some_iff] at e
      obtain ⟨⟨s1, v1, ts1⟩, e1, ⟨s2, v2, ts2⟩, e2, ⟨s3, o3, us3⟩, e3, ⟨s4, o4, us4⟩, e4, e5⟩ := e
      cases e5
      have g1 := eval_G _ e1 h
      have g2 := eval_G _ e2 g1
      have g3 := hold_G e3 (T := T ++ ts1 ++ ts2 ++ v2.owned) (g2.perm (by intro b; simp; omega))
      have g4 := hold_G e4 (T := T ++ ts1 ++ ts2 ++ us3 ++ o3.owned) (g3.perm (by intro b; simp; omega))
      exact g4.perm (by intro b; simp [Val.owned, Obj.owned]; omega)
  | .regular e1, s, s', v, ts, T, e, h => by
      simp only [eval, Option.bind_eq_bind, Option.bind_eq_some_iff] at e
      obtain ⟨⟨s1, v1, ts1⟩, e1, e2⟩ := e
      have g := eval_G _ e1 h
      split at e2
      · split at e2
        · rename_i o he
          cases v1 with
          | pv o1 => cases he; cases e2; exact g
          | _ => cases he
        · cases e2; exact g
      · simp only [Option.bind_eq_some_iff] at e2
        obtain ⟨-, -, e4⟩ := e2
        cases e4
        refine g.alloc.perm (fun b => ?_)
        show List.count b (T ++ (ts1 ++ v1.owned) ++ [s1.next]) = List.count b (s1.next :: (T ++ ts1 ++ v1.owned))
        simp [List.count_cons]
        omega

theorem isArr_pv {s : St} {o : Obj} (h : isArr s (.pv o) = true) : ∃ b, o = .arr b := by
  cases o <;> simp [isArr] at h
  exact ⟨_, rfl⟩

theorem owned_arr (b : Option Nat) : (Obj.arr b).owned = b.toList := by cases b <;> rfl

theorem assignArr_G {s s' : St} {x : Nat} {old : Option Nat} {v : Val} {T : List Nat} (hx : s.get x = some (.arr old)) (ha : isArr s v = true)
    (e : assignArr s x old v = some s') (h : G s (T ++ v.owned)) : G s' T := by
  have tmp : ∀ o : Obj, G s (T ++ o.owned) → (do let s ← St.free old.toList s; return s.put x (some o)) = some s' → G s' T := by
    intro o h e
    simp only [Option.bind_eq_bind, Option.bind_eq_some_iff] at e
    obtain ⟨s2, e3, e4⟩ := e
    cases e4
    obtain ⟨f1, f2, f3, f4⟩ := free_cnt _ e3
    refine ⟨fun b => ?_, h.nodup.sublist f3, fun b hb => ?_⟩
    · have h1 := h.cnt b
      have h2 := f4 b
      have h3 := ownedAll_set b (some o) s.vars x _ (get_eq hx)
      show (ownedAll (s2.vars.set x (some o))).count b + _ = s2.live.count b
      rw [f1]
      simp only [List.count_append, ownedOpt, owned_arr] at h1 h2 h3 ⊢
      omega
    · show b < s2.next
      rw [f2]; exact h.fresh b (f3.subset hb)
  cases v with
  | lv z =>
      simp only [assignArr, Option.bind_eq_bind, Option.bind_eq_some_iff] at e
      obtain ⟨o, e1, ⟨s1, o2⟩, e2, s2, e3, e4⟩ := e
      cases e4
      have ef := copyObj_eff _ e2
      obtain ⟨f1, f2, f3, f4⟩ := free_cnt _ e3
      have n1 := ef.nodup h.nodup h.fresh
      refine ⟨fun b => ?_, n1.1.sublist f3, fun b hb => ?_⟩
      · have h1 := h.cnt b
        have h2 := f4 b
        have h3 := ownedAll_set b (some o2) s.vars x _ (get_eq hx)
        have h4 := ef.cnt b
        show (ownedAll (s2.vars.set x (some o2))).count b + _ = s2.live.count b
        rw [f1, ef.vars]
        simp only [Val.owned, List.append_nil, ownedOpt, owned_arr, List.count_nil] at h1 h2 h3 h4 ⊢
        omega
      · show b < s2.next
        rw [f2]; exact n1.2 b (f3.subset hb)
  | xv z =>
      simp only [assignArr, Option.bind_eq_bind, Option.bind_eq_some_iff] at e
      obtain ⟨o, e1, s2, e3, e4⟩ := e
      cases e4
      obtain ⟨f1, f2, f3, f4⟩ := free_cnt _ e3
      refine ⟨fun b => ?_, h.nodup.sublist f3, fun b hb => ?_⟩
      · have h1 := h.cnt b
        have h2 := f4 b
        have h3 := ownedAll_set b (some o) s.vars x _ (get_eq hx)
        show (ownedAll ((s2.vars.set x (some o)).set z (some (.arr none)))).count b + _ = s2.live.count b
        rw [f1]
        by_cases hz : z = x
        · subst hz
          rw [hx] at e1
          cases e1
          have h5 := ownedAll_set b (some (.arr none)) (s.vars.set z (some (.arr old))) z (some (.arr old)) (by simp [get_lt hx])
          simp only [Val.owned, List.append_nil, ownedOpt, owned_arr, Option.toList, List.count_nil] at h1 h2 h3 h5 ⊢
          omega
        · have h5 := ownedAll_set b (some (.arr none)) (s.vars.set x (some o)) z (some o) (by rw [List.getElem?_set_ne (Ne.symm hz)]; exact get_eq e1)
          simp only [Val.owned, List.append_nil, ownedOpt, owned_arr, Option.toList, List.count_nil] at h1 h2 h3 h5 ⊢
          omega
      · show b < s2.next
        rw [f2]; exact h.fresh b (f3.subset hb)
  | pv o => exact tmp o h e
  | xt o => exact tmp o h e

/-- New storage for an array. -/
theorem renew_G {s s1 : St} {x : Nat} {old : Option Nat} {T : List Nat} (hx : s.get x = some (.arr old)) (e : St.free old.toList s = some s1) (h : G s T) :
    G (s1.alloc.1.put x (some (.arr (some s1.alloc.2)))) T := by
  obtain ⟨f1, f2, f3, f4⟩ := free_cnt _ e
  have ef := Eff.alloc s1
  have n1 := ef.nodup (h.nodup.sublist f3) (fun b hb => f2 ▸ h.fresh b (f3.subset hb))
  refine ⟨fun b => ?_, n1.1, n1.2⟩
  have h1 := h.cnt b
  have h2 := f4 b
  have h3 := ownedAll_set b (some (.arr (some s1.alloc.2))) s.vars x _ (get_eq hx)
  have h4 := ef.cnt b
  show (ownedAll (s1.alloc.1.vars.set x _)).count b + _ = s1.alloc.1.live.count b
  rw [ef.vars, f1]
  simp only [ownedOpt, owned_arr, Option.toList, List.count_nil] at h1 h2 h3 h4 ⊢
  omega

theorem exec_G (c : Stmt) {s s' : St} (e : exec c s = some s') (h : G s []) : G s' [] := by
  cases c with
  | decl e1 =>
      simp only [exec, Option.bind_eq_bind, Option.bind_eq_some_iff] at e
      obtain ⟨⟨s1, v, ts⟩, h1, ⟨s2, o, us⟩, h2, h3⟩ := e
      have g1 := eval_G _ h1 h
      have g2 := construct_G h2 g1
      exact free_G _ h3 (g2.push o (by intro b; simp; omega))
  | bind e1 =>
      simp only [exec, Option.bind_eq_bind, Option.bind_eq_some_iff] at e
      obtain ⟨⟨s1, v, ts⟩, h1, h3⟩ := e
      have g1 := eval_G _ h1 h
      cases v with
      | lv x => exact free_G _ h3 (g1.push (.ref x) (by intro b; simp [Obj.owned, Val.owned]))
      | xv x => exact free_G _ h3 (g1.push (.ref x) (by intro b; simp [Obj.owned, Val.owned]))
      | pv o => exact free_G _ h3 (g1.push o (by intro b; simp [Val.owned]))
      | xt o => exact free_G _ h3 (g1.push .dangling (by intro b; simp [Val.owned, Obj.owned]))
  | drop x =>
      simp only [exec, Option.bind_eq_bind, Option.bind_eq_some_iff] at e
      obtain ⟨o, h1, h2⟩ := e
      exact free_G _ h2 (h.put (get_eq h1) none (by intro b; simp [ownedOpt]))
  | read e1 =>
      simp only [exec, Option.bind_eq_bind, Option.bind_eq_some_iff] at e
      obtain ⟨⟨s1, v, ts⟩, h1, -, -, h3⟩ := e
      exact free_G _ h3 ((eval_G _ h1 h).perm (by intro b; simp))
  | assign x e1 other =>
      simp only [exec, Option.bind_eq_bind, Option.bind_eq_some_iff] at e
      obtain ⟨y, -, ⟨s1, v, ts⟩, h1, o, h2, h3⟩ := e
      have g1 := eval_G _ h1 h
      cases o with
      | arr old =>
          simp only at h3
          split at h3
          · rename_i ha
            simp only [Option.bind_eq_some_iff] at h3
            obtain ⟨s2, h4, h5⟩ := h3
            have g2 := assignArr_G (T := ts) h2 ha h4 g1
            exact free_G _ h5 (g2.perm (by intro b; simp))
          · split at h3
            · simp only [Option.bind_eq_some_iff] at h3
              obtain ⟨s2, h4, -, -, h6⟩ := h3
              exact free_G _ h6 ((renew_G h2 h4 g1).perm (by intro b; simp))
            · simp only [Option.bind_eq_some_iff] at h3
              obtain ⟨-, -, -, -, h6⟩ := h3
              exact free_G _ h6 (g1.perm (by intro b; simp))
      | view b =>
          simp only [Option.bind_eq_some_iff] at h3
          obtain ⟨-, -, -, -, h6⟩ := h3
          exact free_G _ h6 (g1.perm (by intro b; simp))
      | ref _ => cases h3
      | dangling => cases h3
      | un _ _ => cases h3
      | bin _ _ _ => cases h3
  | resize x =>
      simp only [exec, Option.bind_eq_bind, Option.bind_eq_some_iff] at e
      obtain ⟨y, -, o, h2, h3⟩ := e
      cases o with
      | arr old =>
          simp only [Option.bind_eq_some_iff] at h3
          obtain ⟨s2, h4, h6⟩ := h3
          cases h6
          exact renew_G h2 h4 h
      | _ => cases h3

theorem run_G : ∀ (P : List Stmt) {s s' : St}, run P s = some s' → G s [] → G s' []
  | [], s, s', e, h => by cases e; exact h
  | c :: P, s, s', e, h => by
      simp only [run, Option.bind_eq_bind, Option.bind_eq_some_iff] at e
      obtain ⟨s1, e1, e2⟩ := e
      exact run_G P e2 (exec_G c e1 h)

theorem init_G : G St.init [] := ⟨fun b => rfl, List.nodup_nil, fun b hb => by cases hb⟩

end Nda.Lifetime
