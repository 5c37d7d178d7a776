import Verif.Spec.SharedThreads
import Mathlib.Algebra.BigOperators.Group.List.Basic
import Mathlib.Tactic.Set
import Mathlib.Tactic.ByContra
/-!
# Lemmas for threads that share the storage of arrays
-/
namespace Nda.SharedThreads
open Spec

@[simp] theorem pointsTo_some (c : Nat) (v : Arr) : pointsTo c (some v) = (v.sptr == some c) := rfl
@[simp] theorem pointsTo_none (c : Nat) : pointsTo c none = false := rfl
@[simp] theorem holds_some (c : Nat) (h : Hd) : holds c (some h) = (h.ctrl == some c) := rfl
@[simp] theorem holds_none (c : Nat) : holds c none = false := rfl
@[simp] theorem unshared_some (b : Nat) (v : Arr) : unshared b (some v) = (v.blk == some b && v.sptr == none) := rfl
@[simp] theorem unshared_none (b : Nat) : unshared b none = false := rfl
@[simp] theorem inUse_mk (b : Nat) (k : Ctrl) : inUse b k = (k.blk == b && k.refs != 0) := rfl

theorem sum_set {β : Type} (f : β → Nat) : ∀ (l : List β) (i : Nat) (x y : β), l[i]? = some x → ((l.set i y).map f).sum + f x = (l.map f).sum + f y
  | [], i, x, y, h => by simp at h
  | z :: l, 0, x, y, h => by
      simp only [List.getElem?_cons_zero, Option.some.injEq] at h
      subst h
      simp only [List.set_cons_zero, List.map_cons, List.sum_cons]; omega
  | z :: l, i + 1, x, y, h => by
      simp only [List.getElem?_cons_succ] at h
      have := sum_set f l i x y h
      simp only [List.set_cons_succ, List.map_cons, List.sum_cons]; omega

theorem number_set {β : Type} (p : β → Bool) (l : List β) (i : Nat) (x y : β) (h : l[i]? = some x) :
    number p (l.set i y) + (if p x then 1 else 0) = number p l + (if p y then 1 else 0) := sum_set _ l i x y h

theorem number_append {β : Type} (p : β → Bool) (l : List β) (x : β) : number p (l ++ [x]) = number p l + (if p x then 1 else 0) := by
  simp [number]

theorem le_sum {β : Type} {f : β → Nat} : ∀ {l : List β} {i : Nat} {x : β}, l[i]? = some x → f x ≤ (l.map f).sum
  | [], _, _, h => by simp at h
  | z :: l, 0, x, h => by
      simp only [List.getElem?_cons_zero, Option.some.injEq] at h
      subst h; simp
  | z :: l, i + 1, x, h => by
      have := le_sum (f := f) (l := l) (by simpa using h)
      simp only [List.map_cons, List.sum_cons]; omega

theorem number_pos {β : Type} {p : β → Bool} {l : List β} {i : Nat} {x : β} (h : l[i]? = some x) (hp : p x = true) : 1 ≤ number p l := by
  have := le_sum (f := fun x => if p x then 1 else 0) h
  simp only [hp, if_true] at this
  exact this

theorem number_two {β : Type} {p : β → Bool} {l : List β} {i j : Nat} {x y : β} (hij : i ≠ j) (h : l[i]? = some x) (h' : l[j]? = some y) (hp : p x = true) (hq : p y = true) :
    2 ≤ number p l := by
  induction l generalizing i j with
  | nil => simp at h
  | cons z l ih =>
      cases i with
      | zero =>
          cases j with
          | zero => exact absurd rfl hij
          | succ j =>
              simp only [List.getElem?_cons_zero, Option.some.injEq, List.getElem?_cons_succ] at h h'
              have := number_pos h' hq
              subst h
              simp only [number, List.map_cons, List.sum_cons, if_pos hp] at this ⊢; omega
      | succ i =>
          cases j with
          | zero =>
              simp only [List.getElem?_cons_zero, Option.some.injEq, List.getElem?_cons_succ] at h h'
              have := number_pos h hp
              subst h'
              simp only [number, List.map_cons, List.sum_cons, if_pos hq] at this ⊢; omega
          | succ j =>
              simp only [List.getElem?_cons_succ] at h h'
              have := ih (fun e => hij (by rw [e])) h h'
              simp only [number, List.map_cons, List.sum_cons] at this ⊢; omega

/-- The variables of a thread after the operation in which it is. -/
def after (t : Thr) : List (Option Bool) :=
  match t.pc with
  | .publish _ x => (vars t).set x (some true)
  | .load _ x => (vars t).set x (some true)
  | .incr _ x _ => (vars t).set x (some true)
  | _ => vars t

/-- A thread is sharing, or will share, array `a`. -/
def sharing (t : Thr) (a : Nat) : Prop :=
  (∃ x, .share a x ∈ t.ops) ∨ (∃ x, t.pc = .publish a x) ∨ (∃ x, t.pc = .load a x) ∨ ∃ x c, t.pc = .incr a x c

def using' (t : Thr) (a : Nat) : Prop := (∃ o ∈ t.ops, uses a o = true) ∨ sharing t a

/-- What holds where a thread is. -/
def PcOk (s : State) (t : Thr) : Prop :=
  match t.pc with
  | .idle => True
  | .publish a x => t.hs[x]? = some none ∧ ∃ v, s.arr a = some v ∧ v.blk ≠ none ∧ v.sptr = none
  | .release _ _ _ => False
  | .load a x => t.hs[x]? = some none ∧ ∃ v c, s.arr a = some v ∧ v.sptr = some c
  | .incr a x c => t.hs[x]? = some none ∧ ∃ v, s.arr a = some v ∧ v.sptr = some c
  | .free _ next => next = .idle

def isFree (b : Nat) (t : Thr) : Bool := match t.pc with | .free b' _ => b' == b | _ => false

def ownT (c : Nat) (t : Thr) : Nat := number (holds c) t.hs

def HdOk (s : State) (h : Hd) : Prop := (h.ctrl = none ∧ h.blk = none) ∨ ∃ c k, h.ctrl = some c ∧ s.ctrls[c]? = some k ∧ h.blk = some k.blk

structure Inv (s : State) : Prop where
  refs : ∀ c k, s.ctrls[c]? = some k → k.refs = owners s c
  charge : ∀ b, inCharge s b + number (isFree b) s.thr = live s b
  arrs : ∀ a v c, s.arr a = some v → v.sptr = some c → ∃ k, s.ctrls[c]? = some k ∧ v.blk = some k.blk
  handles : ∀ (i : Nat) (t : Thr), s.thr[i]? = some t → ∀ x h, t.hd x = some h → HdOk s h
  pcs : ∀ (i : Nat) (t : Thr), s.thr[i]? = some t → PcOk s t
  fine : ∀ (i : Nat) (t : Thr), s.thr[i]? = some t → Fine t.ops (shape s) (after t)
  once : ∀ a v, s.arr a = some v → v.blk ≠ none → v.sptr = none → ∀ (i j : Nat) (ti tj : Thr), s.thr[i]? = some ti → s.thr[j]? = some tj → sharing ti a → sharing tj a → i = j
  killer : ∀ (a i j : Nat) (ti tj : Thr), s.thr[i]? = some ti → s.thr[j]? = some tj → Op.kill a ∈ ti.ops → using' tj a → i = j

theorem start_inv {s : State} (h : Start s) (hf : ∀ (i : Nat) (t : Thr), s.thr[i]? = some t → Fine t.ops (shape s) (vars t)) (hd : Disciplined s) : Inv s := by
  have hidle : ∀ (i : Nat) (t : Thr), s.thr[i]? = some t → t.pc = .idle := fun i t hi => h.idle t (List.mem_of_getElem? hi)
  have hsh : ∀ (i : Nat) (t : Thr) (a : Nat), s.thr[i]? = some t → sharing t a → Shares s i a := by
    intro i t a hi hs
    have := hidle i t hi
    rcases hs with ⟨x, hx⟩ | ⟨x, hx⟩ | ⟨x, hx⟩ | ⟨x, c, hx⟩
    · exact ⟨t, x, hi, hx⟩
    all_goals rw [this] at hx; cases hx
  refine ⟨h.refs, fun b => ?_, h.arrs, fun i t hi => h.handles t (List.mem_of_getElem? hi), fun i t hi => ?_, fun i t hi => ?_, ?_, ?_⟩
  · rw [← h.charge b]
    have : number (isFree b) s.thr = 0 := by
      unfold number
      refine List.sum_eq_zero (fun n hn => ?_)
      obtain ⟨t, ht, rfl⟩ := List.mem_map.mp hn
      simp [isFree, h.idle t ht]
    omega
  · simp [PcOk, hidle i t hi]
  · have := hf i t hi
    simpa only [after, hidle i t hi] using this
  · intro a v ha hb hp i j ti tj hi hj h1 h2
    exact hd.1 a v ha hb hp i j (hsh i ti a hi h1) (hsh j tj a hj h2)
  · intro a i j ti tj hi hj hk hu
    refine hd.2 a i j ⟨ti, hi, hk⟩ ?_
    rcases hu with ⟨o, ho, hu⟩ | hu
    · exact ⟨tj, o, hj, ho, hu⟩
    · obtain ⟨t, x, h1, h2⟩ := hsh j tj a hj hu
      exact ⟨t, _, h1, h2, by simp [uses]⟩

/-! ### One step -/

theorem getElem?_set' {β : Type} {l : List β} {i j : Nat} {x y : β} (hi : l[i]? = some x) : (l.set i y)[j]? = if i = j then some y else l[j]? := by
  have hl := (List.getElem?_eq_some_iff.mp hi).1
  by_cases h : i = j
  · subst h; simp [hl]
  · simp [List.getElem?_set_ne h, h]

/-- The arrays, as the threads see them, are those of before: some may be gone, some may have got a shared pointer. -/
def ArrStep (s s' : State) : Prop := ∀ a v', s'.arr a = some v' → ∃ v, s.arr a = some v ∧ v'.blk = v.blk ∧ (v.sptr ≠ none → v'.sptr = v.sptr)

def CtrlStep (s s' : State) : Prop := ∀ (c : Nat) (k : Ctrl), s.ctrls[c]? = some k → ∃ k', s'.ctrls[c]? = some k' ∧ k'.blk = k.blk

theorem HdOk.mono {s s' : State} (hc : CtrlStep s s') {h : Hd} (hh : HdOk s h) : HdOk s' h := by
  rcases hh with hh | ⟨c, k, h1, h2, h3⟩
  · exact .inl hh
  · obtain ⟨k', e1, e2⟩ := hc c k h2
    exact .inr ⟨c, k', h1, e1, by rw [e2, h3]⟩

theorem Inv.step' {s s' : State} {i : Nat} {t t' : Thr} (h : Inv s) (hi : s.thr[i]? = some t) (hthr : s'.thr = s.thr.set i t') (hA : ArrStep s s') (hC : CtrlStep s s')
    (hrefs : ∀ (c : Nat) (k : Ctrl), s'.ctrls[c]? = some k → k.refs = owners s' c) (hcharge : ∀ b, inCharge s' b + number (isFree b) s'.thr = live s' b)
    (harrs : ∀ a v c, s'.arr a = some v → v.sptr = some c → ∃ k, s'.ctrls[c]? = some k ∧ v.blk = some k.blk) (hhd : ∀ x h, t'.hd x = some h → HdOk s' h)
    (hpc : PcOk s' t') (hfine : Fine t'.ops (shape s') (after t'))
    (hoth : ∀ (j : Nat) (tj : Thr), j ≠ i → s.thr[j]? = some tj → PcOk s' tj ∧ Fine tj.ops (shape s') (after tj))
    (hsh : ∀ a, sharing t' a → sharing t a) (hk : ∀ a, Op.kill a ∈ t'.ops → Op.kill a ∈ t.ops) (hu : ∀ a, using' t' a → using' t a) : Inv s' := by
  have get : ∀ (j : Nat) (tj : Thr), s'.thr[j]? = some tj → (j = i ∧ tj = t') ∨ (j ≠ i ∧ s.thr[j]? = some tj) := by
    intro j tj hj
    rw [hthr, getElem?_set' hi] at hj
    by_cases e : i = j
    · rw [if_pos e, Option.some.injEq] at hj; exact .inl ⟨e.symm, hj.symm⟩
    · rw [if_neg e] at hj; exact .inr ⟨fun h => e h.symm, hj⟩
  have old : ∀ (j : Nat) (tj : Thr), s'.thr[j]? = some tj → ∃ tj0, s.thr[j]? = some tj0 ∧ (∀ a, sharing tj a → sharing tj0 a) ∧ (∀ a, Op.kill a ∈ tj.ops → Op.kill a ∈ tj0.ops) ∧
      ∀ a, using' tj a → using' tj0 a := by
    intro j tj hj
    rcases get j tj hj with ⟨rfl, rfl⟩ | ⟨_, hj⟩
    · exact ⟨t, hi, hsh, hk, hu⟩
    · exact ⟨tj, hj, fun _ h => h, fun _ h => h, fun _ h => h⟩
  refine ⟨hrefs, hcharge, harrs, fun j tj hj => ?_, fun j tj hj => ?_, fun j tj hj => ?_, ?_, ?_⟩
  · rcases get j tj hj with ⟨_, rfl⟩ | ⟨_, hj⟩
    · exact hhd
    · exact fun x hd' e => (h.handles j tj hj x hd' e).mono hC
  · rcases get j tj hj with ⟨_, rfl⟩ | ⟨hne, hj⟩
    · exact hpc
    · exact (hoth j tj hne hj).1
  · rcases get j tj hj with ⟨_, rfl⟩ | ⟨hne, hj⟩
    · exact hfine
    · exact (hoth j tj hne hj).2
  · intro a v ha hb hp p q tp tq hp' hq' h1 h2
    obtain ⟨v0, e1, e2, e3⟩ := hA a v ha
    obtain ⟨t1, f1, f2, _⟩ := old p tp hp'
    obtain ⟨t2, g1, g2, _⟩ := old q tq hq'
    refine h.once a v0 e1 (by rw [← e2]; exact hb) ?_ p q t1 t2 f1 g1 (f2 a h1) (g2 a h2)
    by_contra hc
    rw [e3 hc] at hp; exact hc hp
  · intro a p q tp tq hp' hq' h1 h2
    obtain ⟨t1, f1, _, f2, _⟩ := old p tp hp'
    obtain ⟨t2, g1, _, _, g2⟩ := old q tq hq'
    exact h.killer a p q t1 t2 f1 g1 (f2 a h1) (g2 a h2)

theorem ArrStep.rfl' {s s' : State} (h : s'.arrs = s.arrs) : ArrStep s s' := fun a v' e => ⟨v', by simpa only [State.arr, h] using e, rfl, fun _ => rfl⟩

theorem CtrlStep.rfl' {s s' : State} (h : s'.ctrls = s.ctrls) : CtrlStep s s' := fun c k e => ⟨k, by rw [h]; exact e, rfl⟩

/-- The number of owners after a thread has changed. -/
theorem owners_set {s s' : State} {i : Nat} {t t' : Thr} (hi : s.thr[i]? = some t) (hthr : s'.thr = s.thr.set i t') (c : Nat) :
    owners s' c + ownT c t + number (pointsTo c) s.arrs =
      owners s c + ownT c t' + number (pointsTo c) s'.arrs := by
  have := sum_set (ownT c) s.thr i t t' hi
  unfold owners
  rw [hthr]
  change _ + ((s.thr.set i t').map (ownT c)).sum + _ + _ = _ + (s.thr.map (ownT c)).sum + _ + _
  omega

theorem frees_set {s s' : State} {i : Nat} {t t' : Thr} (hi : s.thr[i]? = some t) (hthr : s'.thr = s.thr.set i t') (b : Nat) :
    number (isFree b) s'.thr + (if isFree b t then 1 else 0) = number (isFree b) s.thr + (if isFree b t' then 1 else 0) := by
  rw [hthr]; exact number_set _ _ _ _ _ hi

/-- Only thread `i` has changed, and not what it owns. -/
theorem Inv.thread {s s' : State} {i : Nat} {t t' : Thr} (h : Inv s) (hi : s.thr[i]? = some t) (hthr : s'.thr = s.thr.set i t') (ha : s'.arrs = s.arrs) (hc : s'.ctrls = s.ctrls)
    (hb : s'.blocks = s.blocks) (hown : ∀ c, ownT c t' = ownT c t) (hfree : ∀ b, isFree b t' = isFree b t) (hhd : ∀ x h, t'.hd x = some h → HdOk s h)
    (hpc : PcOk s t') (hfine : Fine t'.ops (shape s) (after t'))
    (hsh : ∀ a, sharing t' a → sharing t a) (hk : ∀ a, Op.kill a ∈ t'.ops → Op.kill a ∈ t.ops) (hu : ∀ a, using' t' a → using' t a) : Inv s' := by
  have hshape : shape s' = shape s := by simp only [shape, ha]
  have hpcs : ∀ t, PcOk s t → PcOk s' t := by
    intro t h
    have : s'.arr = s.arr := by funext a; simp only [State.arr, ha]
    unfold PcOk at h ⊢
    rw [this]; exact h
  have hC := CtrlStep.rfl' hc
  refine h.step' hi hthr (.rfl' ha) hC (fun c k e => ?_) (fun b => ?_) ?_ (fun x hd' e => (hhd x hd' e).mono hC) (hpcs _ hpc) (by rw [hshape]; exact hfine)
    (fun j tj _ hj => ⟨hpcs _ (h.pcs j tj hj), by rw [hshape]; exact h.fine j tj hj⟩) hsh hk hu
  · have := owners_set (s' := s') hi hthr c
    rw [ha, hown c] at this
    rw [hc] at e
    have := h.refs c k e
    omega
  · have h1 := frees_set (s' := s') hi hthr b
    rw [hfree b] at h1
    have h2 := h.charge b
    have h3 : inCharge s' b = inCharge s b := by simp only [inCharge, ha, hc]
    have h4 : live s' b = live s b := by simp only [live, hb]
    omega
  · intro a v c e1 e2
    have : s'.arr = s.arr := by funext a; simp only [State.arr, ha]
    rw [this] at e1; rw [hc]
    exact h.arrs a v c e1 e2

theorem arr_eq {s s' : State} (ha : s'.arrs = s.arrs) : s'.arr = s.arr := by funext a; simp only [State.arr, ha]

theorem shape_eq {s s' : State} (ha : s'.arrs = s.arrs) : shape s' = shape s := by simp only [shape, ha]

theorem pcOk_eq {s s' : State} (ha : s'.arrs = s.arrs) {t : Thr} (h : PcOk s t) : PcOk s' t := by
  unfold PcOk at h ⊢
  rw [arr_eq ha]; exact h

theorem ctrlStep_set {s s' : State} {c : Nat} {k : Ctrl} {r : Nat} (hk : s.ctrls[c]? = some k) (hc : s'.ctrls = s.ctrls.set c { k with refs := r }) : CtrlStep s s' := by
  intro c' k' e
  rw [hc, getElem?_set' hk]
  by_cases h : c = c'
  · subst h
    rw [e] at hk; cases hk
    exact ⟨_, if_pos rfl, rfl⟩
  · exact ⟨k', by rw [if_neg h]; exact e, rfl⟩

/-- Thread `i` has one more handle with control block `c`. -/
theorem Inv.more {s s' : State} {i : Nat} {t t' : Thr} {c : Nat} {k : Ctrl} (h : Inv s) (hi : s.thr[i]? = some t) (hthr : s'.thr = s.thr.set i t') (ha : s'.arrs = s.arrs)
    (hk : s.ctrls[c]? = some k) (hr : k.refs ≠ 0) (hc : s'.ctrls = s.ctrls.set c { k with refs := k.refs + 1 })
    (hb : s'.blocks = s.blocks) (hown : ∀ c', ownT c' t' = ownT c' t + if c' = c then 1 else 0) (hfree : ∀ b, isFree b t' = isFree b t) (hhd : ∀ x h, t'.hd x = some h → HdOk s h)
    (hpc : PcOk s t') (hfine : Fine t'.ops (shape s) (after t'))
    (hsh : ∀ a, sharing t' a → sharing t a) (hkl : ∀ a, Op.kill a ∈ t'.ops → Op.kill a ∈ t.ops) (hu : ∀ a, using' t' a → using' t a) : Inv s' := by
  have hC := ctrlStep_set hk hc
  refine h.step' hi hthr (.rfl' ha) hC (fun c' k' e => ?_) (fun b => ?_) ?_ (fun x hd' e => (hhd x hd' e).mono hC) (pcOk_eq ha hpc) (by rw [shape_eq ha]; exact hfine)
    (fun j tj _ hj => ⟨pcOk_eq ha (h.pcs j tj hj), by rw [shape_eq ha]; exact h.fine j tj hj⟩) hsh hkl hu
  · have h1 := owners_set (s' := s') hi hthr c'
    rw [ha, hown c'] at h1
    rw [hc, getElem?_set' hk] at e
    by_cases hcc : c = c'
    · subst hcc
      rw [if_pos rfl, Option.some.injEq] at e
      have h2 := h.refs c k hk
      rw [if_pos rfl] at h1
      rw [← e]; simp only; omega
    · rw [if_neg hcc] at e
      rw [if_neg (fun e => hcc e.symm)] at h1
      have h2 := h.refs c' k' e
      omega
  · have h1 := frees_set (s' := s') hi hthr b
    rw [hfree b] at h1
    have h2 := h.charge b
    have h3 : inCharge s' b = inCharge s b := by
      have := number_set (inUse b) s.ctrls c k { k with refs := k.refs + 1 } hk
      simp only [inCharge, ha, hc]
      have e : inUse b { k with refs := k.refs + 1 } = inUse b k := by simp [hr]
      rw [e] at this
      omega
    have h4 : live s' b = live s b := by simp only [live, hb]
    omega
  · intro a v c' e1 e2
    rw [arr_eq ha] at e1
    obtain ⟨k1, g1, g2⟩ := h.arrs a v c' e1 e2
    obtain ⟨k2, g3, g4⟩ := hC c' k1 g1
    exact ⟨k2, g3, by rw [g4]; exact g2⟩

/-- An owner of control block `c` is gone: a handle of thread `i` or an array. -/
theorem Inv.less {s s' : State} {i : Nat} {t t' : Thr} {c : Nat} {k : Ctrl} (h : Inv s) (hi : s.thr[i]? = some t) (hthr : s'.thr = s.thr.set i t')
    (hrem : ∀ a v, s'.arr a = some v → s.arr a = some v)
    (hk : s.ctrls[c]? = some k) (hr : k.refs ≠ 0) (hc : s'.ctrls = s.ctrls.set c { k with refs := k.refs - 1 })
    (hb : s'.blocks = s.blocks)
    (hown : ∀ c', ownT c' t' + number (pointsTo c') s'.arrs + (if c' = c then 1 else 0) =
      ownT c' t + number (pointsTo c') s.arrs)
    (hun : ∀ b, number (unshared b) s'.arrs =
      number (unshared b) s.arrs)
    (hp : t.pc = .idle) (hp' : t'.pc = if k.refs = 1 then .free k.blk .idle else .idle) (hhd : ∀ x h, t'.hd x = some h → HdOk s h)
    (hfine : Fine t'.ops (shape s') (after t'))
    (hoth : ∀ (j : Nat) (tj : Thr), j ≠ i → s.thr[j]? = some tj → PcOk s' tj ∧ Fine tj.ops (shape s') (after tj))
    (hsh : ∀ a, sharing t' a → sharing t a) (hkl : ∀ a, Op.kill a ∈ t'.ops → Op.kill a ∈ t.ops) (hu : ∀ a, using' t' a → using' t a) : Inv s' := by
  have hC := ctrlStep_set hk hc
  refine h.step' hi hthr (fun a v' e => ⟨v', hrem a v' e, rfl, fun _ => rfl⟩) hC (fun c' k' e => ?_) (fun b => ?_) ?_ (fun x hd' e => (hhd x hd' e).mono hC) ?_ hfine hoth hsh hkl hu
  · have h1 := owners_set (s' := s') hi hthr c'
    have h0 := hown c'
    rw [hc, getElem?_set' hk] at e
    by_cases hcc : c = c'
    · subst hcc
      rw [if_pos rfl, Option.some.injEq] at e
      have h2 := h.refs c k hk
      rw [if_pos rfl] at h0
      rw [← e]; simp only; omega
    · rw [if_neg hcc] at e
      rw [if_neg (fun e => hcc e.symm)] at h0
      have h2 := h.refs c' k' e
      omega
  · have h1 := frees_set (s' := s') hi hthr b
    have h2 := h.charge b
    have h4 : live s' b = live s b := by simp only [live, hb]
    have h5 := number_set (inUse b) s.ctrls c k { k with refs := k.refs - 1 } hk
    have h6 := hun b
    simp only [inCharge, hc] at h2 ⊢
    generalize number (inUse b) (s.ctrls.set c { k with refs := k.refs - 1 }) = N at h5 ⊢
    have e1 : isFree b t = false := by simp [isFree, hp]
    rw [e1] at h1
    by_cases hone : k.refs = 1
    · rw [if_pos hone] at hp'
      have e2 : isFree b t' = (k.blk == b) := by simp [isFree, hp']
      rw [e2] at h1
      by_cases hbb : k.blk = b
      · simp [hbb, hone] at h1 h5; omega
      · simp [hbb] at h1 h5; omega
    · rw [if_neg hone] at hp'
      have e2 : isFree b t' = false := by simp [isFree, hp']
      rw [e2] at h1
      have e : inUse b { k with refs := k.refs - 1 } = inUse b k := by
        have : (k.refs - 1 != 0) = true := by simp; omega
        have : (k.refs != 0) = true := by simp; omega
        simp [*]
      rw [e] at h5
      simp at h1
      omega
  · intro a v c' e1 e2
    obtain ⟨k1, g1, g2⟩ := h.arrs a v c' (hrem a v e1) e2
    obtain ⟨k2, g3, g4⟩ := hC c' k1 g1
    exact ⟨k2, g3, by rw [g4]; exact g2⟩
  · unfold PcOk
    rw [hp']
    by_cases hone : k.refs = 1
    · rw [if_pos hone]
    · rw [if_neg hone]; trivial

/-! ### What the programs need -/

theorem hs_of_vars {t : Thr} {x : Nat} (h : (vars t)[x]? = some none) : t.hs[x]? = some none := by
  simp only [vars, List.getElem?_map, Option.map_eq_some_iff] at h
  obtain ⟨v, h1, h2⟩ := h
  cases v with
  | none => exact h1
  | some v => cases h2

theorem hd_of_vars {t : Thr} {x : Nat} {n : Bool} (h : (vars t)[x]? = some (some n)) : ∃ hd, t.hs[x]? = some (some hd) ∧ t.hd x = some hd ∧ hd.blk.isSome = n := by
  simp only [vars, List.getElem?_map, Option.map_eq_some_iff] at h
  obtain ⟨v, h1, w, h2, h3⟩ := h
  cases v with
  | none => cases h2
  | some v =>
      cases h2
      exact ⟨w, h1, by simp [Thr.hd, h1], h3⟩

theorem arr_of_shape {s : State} {a : Nat} {n : Bool} (h : (shape s)[a]? = some (some n)) : ∃ v, s.arrs[a]? = some (some v) ∧ s.arr a = some v ∧ v.blk.isSome = n := by
  simp only [shape, List.getElem?_map, Option.map_eq_some_iff] at h
  obtain ⟨v, h1, w, h2, h3⟩ := h
  cases v with
  | none => cases h2
  | some v =>
      cases h2
      exact ⟨w, h1, by simp [State.arr, h1], h3⟩

theorem arrs_of_arr {s : State} {a : Nat} {v : Arr} (h : s.arr a = some v) : s.arrs[a]? = some (some v) := by
  unfold State.arr at h
  cases e : s.arrs[a]? with
  | none => rw [e] at h; cases h
  | some w => rw [e] at h; simp only [Option.join_some] at h; rw [h]

theorem hs_of_hd {t : Thr} {x : Nat} {h : Hd} (e : t.hd x = some h) : t.hs[x]? = some (some h) := by
  unfold Thr.hd at e
  cases e' : t.hs[x]? with
  | none => rw [e'] at e; cases e
  | some w => rw [e'] at e; simp only [Option.join_some] at e; rw [e]

/-- A control block with an owner is in use. -/
theorem Inv.refs_hd {s : State} (h : Inv s) {i : Nat} {t : Thr} (hi : s.thr[i]? = some t) {x : Nat} {hd : Hd} (hx : t.hd x = some hd) {c : Nat} (hc : hd.ctrl = some c) :
    ∃ k, s.ctrls[c]? = some k ∧ k.refs ≠ 0 ∧ hd.blk = some k.blk := by
  rcases h.handles i t hi x hd hx with ⟨e, _⟩ | ⟨c', k, e1, e2, e3⟩
  · rw [e] at hc; cases hc
  · rw [hc, Option.some.injEq] at e1; subst e1
    refine ⟨k, e2, ?_, e3⟩
    rw [h.refs c k e2]
    have h1 : 1 ≤ ownT c t := number_pos (hs_of_hd hx) (by simp [hc])
    have h2 := le_sum (f := ownT c) hi
    have : owners s c = _ + (s.thr.map (ownT c)).sum := rfl
    omega

theorem Inv.refs_arr {s : State} (h : Inv s) {a : Nat} {v : Arr} (ha : s.arr a = some v) {c : Nat} (hc : v.sptr = some c) :
    ∃ k, s.ctrls[c]? = some k ∧ k.refs ≠ 0 ∧ v.blk = some k.blk := by
  obtain ⟨k, e1, e2⟩ := h.arrs a v c ha hc
  refine ⟨k, e1, ?_, e2⟩
  rw [h.refs c k e1]
  have h1 : 1 ≤ number (pointsTo c) s.arrs := number_pos (arrs_of_arr ha) (by simp [hc])
  unfold owners; omega

theorem live_true {s : State} {b : Nat} (h : 1 ≤ live s b) : s.blocks[b]? = some true := by
  unfold live at h
  split at h
  · assumption
  · omega

/-- A block that a control block in use refers to is live, and nobody is about to release it. -/
theorem Inv.live_ctrl {s : State} (h : Inv s) {c : Nat} {k : Ctrl} (hk : s.ctrls[c]? = some k) (hr : k.refs ≠ 0) : s.blocks[k.blk]? = some true ∧ number (isFree k.blk) s.thr = 0 := by
  have h1 := h.charge k.blk
  have h2 : 1 ≤ number (inUse k.blk) s.ctrls := number_pos hk (by simp [hr])
  have h3 : live s k.blk ≤ 1 := by unfold live; split <;> omega
  unfold inCharge at h1
  exact ⟨live_true (by omega), by omega⟩

theorem Inv.live_arr {s : State} (h : Inv s) {a b : Nat} {v : Arr} (ha : s.arr a = some v) (hb : v.blk = some b) : s.blocks[b]? = some true ∧ number (isFree b) s.thr = 0 := by
  cases hp : v.sptr with
  | some c =>
      obtain ⟨k, e1, e2, e3⟩ := h.refs_arr ha hp
      rw [hb, Option.some.injEq] at e3; subst e3
      exact h.live_ctrl e1 e2
  | none =>
      have h1 := h.charge b
      have h2 : 1 ≤ number (unshared b) s.arrs := number_pos (arrs_of_arr ha) (by simp [hb, hp])
      have h3 : live s b ≤ 1 := by unfold live; split <;> omega
      unfold inCharge at h1
      exact ⟨live_true (by omega), by omega⟩

theorem Inv.live_hd {s : State} (h : Inv s) {i : Nat} {t : Thr} (hi : s.thr[i]? = some t) {x : Nat} {hd : Hd} (hx : t.hd x = some hd) {b : Nat} (hb : hd.blk = some b) :
    s.blocks[b]? = some true ∧ number (isFree b) s.thr = 0 := by
  rcases h.handles i t hi x hd hx with ⟨_, e⟩ | ⟨c, k, e1, e2, e3⟩
  · rw [e] at hb; cases hb
  · obtain ⟨k', g1, g2, g3⟩ := h.refs_hd hi hx e1
    rw [hb, Option.some.injEq] at g3; subst g3
    exact h.live_ctrl g1 g2

/-- The other threads do not care about an array that they do not use. -/
theorem fine_set : ∀ (ops : List Op) (arrs vars : List (Option Bool)) (a : Nat) (w : Option Bool), (∀ o ∈ ops, uses a o = false) → Fine ops arrs vars → Fine ops (arrs.set a w) vars
  | [], _, _, _, _, _, _ => trivial
  | o :: ops, arrs, vars, a, w, hu, h => by
      have hu' := fun o ho => hu o (List.mem_cons_of_mem _ ho)
      have h0 := hu o (by simp)
      cases o with
      | share a' x =>
          obtain ⟨h1, n, h2, h3⟩ := h
          have hne : a ≠ a' := by simp [uses] at h0; omega
          exact ⟨h1, n, by rw [List.getElem?_set_ne hne]; exact h2, fine_set ops _ _ a w hu' h3⟩
      | copy x y => obtain ⟨h1, n, h2, h3⟩ := h; exact ⟨h1, n, h2, fine_set ops _ _ a w hu' h3⟩
      | drop x => exact ⟨h.1, fine_set ops _ _ a w hu' h.2⟩
      | read x => exact ⟨h.1, fine_set ops _ _ a w hu' h.2⟩
      | readArr a' =>
          have hne : a ≠ a' := by simp [uses] at h0; omega
          exact ⟨by rw [List.getElem?_set_ne hne]; exact h.1, fine_set ops _ _ a w hu' h.2⟩
      | kill a' =>
          have hne : a ≠ a' := by simp [uses] at h0; omega
          obtain ⟨⟨n, h1⟩, h2⟩ := h
          refine ⟨⟨n, by rw [List.getElem?_set_ne hne]; exact h1⟩, ?_⟩
          rw [List.set_comm _ _ hne]
          exact fine_set ops _ _ a w hu' h2

/-! ### The cases -/

/-- A thread that has begun an operation that is not `share`. -/
theorem rest_ok {t t' : Thr} {o : Op} {ops : List Op} (hops : t.ops = o :: ops) (hops' : t'.ops = ops) (hp : t'.pc = .idle ∨ ∃ b, t'.pc = .free b .idle) :
    (∀ a, sharing t' a → sharing t a) ∧ (∀ a, Op.kill a ∈ t'.ops → Op.kill a ∈ t.ops) ∧ ∀ a, using' t' a → using' t a := by
  have hsh : ∀ a, sharing t' a → sharing t a := by
    intro a h
    rcases h with ⟨x, h⟩ | ⟨x, h⟩ | ⟨x, h⟩ | ⟨x, c, h⟩
    · rw [hops'] at h; exact .inl ⟨x, by rw [hops]; exact List.mem_cons_of_mem _ h⟩
    all_goals rcases hp with hp | ⟨b, hp⟩ <;> rw [hp] at h <;> cases h
  refine ⟨hsh, fun a h => ?_, fun a h => ?_⟩
  · rw [hops'] at h; rw [hops]; exact List.mem_cons_of_mem _ h
  · rcases h with ⟨o', h1, h2⟩ | h
    · rw [hops'] at h1; exact .inl ⟨o', by rw [hops]; exact List.mem_cons_of_mem _ h1, h2⟩
    · exact .inr (hsh a h)

theorem ownT_set {t t' : Thr} {x : Nat} {w w' : Option Hd} (hx : t.hs[x]? = some w) (h : t'.hs = t.hs.set x w') (c : Nat) :
    ownT c t' + (if w.bind Hd.ctrl == some c then 1 else 0) = ownT c t + (if w'.bind Hd.ctrl == some c then 1 else 0) := by
  unfold ownT
  rw [h]
  exact number_set _ _ _ _ _ hx

theorem hd_set {t t' : Thr} {x : Nat} {w w' : Option Hd} (hx : t.hs[x]? = some w) (h : t'.hs = t.hs.set x w') {y : Nat} {hd : Hd} (e : t'.hd y = some hd) :
    (x = y ∧ w' = some hd) ∨ t.hd y = some hd := by
  unfold Thr.hd at e ⊢
  rw [h, getElem?_set' hx] at e
  by_cases hxy : x = y
  · rw [if_pos hxy] at e; exact .inl ⟨hxy, by simpa using e⟩
  · rw [if_neg hxy] at e; exact .inr e

theorem vars_set {t t' : Thr} {x : Nat} {w' : Option Hd} (h : t'.hs = t.hs.set x w') : vars t' = (vars t).set x (w'.map (fun h => h.blk.isSome)) := by
  unfold vars; rw [h, List.map_set]

theorem after_idle {t : Thr} (h : t.pc = .idle) : after t = vars t := by simp only [after, h]

theorem after_free {t : Thr} (h : t.pc = .idle ∨ ∃ b, t.pc = .free b .idle) : after t = vars t := by
  rcases h with h | ⟨b, h⟩ <;> simp only [after, h]

theorem share_ok {s : State} (h : Inv s) {i : Nat} {t : Thr} (hi : s.thr[i]? = some t) (hp : t.pc = .idle) {a x : Nat} {ops : List Op} (hops : t.ops = .share a x :: ops) :
    ∃ s', begin s i { t with ops := ops } (.share a x) = .ok s' ∧ Inv s' := by
  have hf := h.fine i t hi
  rw [hops, after_idle hp] at hf
  obtain ⟨f1, n, f2, f3⟩ := hf
  have hx := hs_of_vars f1
  obtain ⟨v, g1, g2, g3⟩ := arr_of_shape f2
  have he : Thr.empty { t with ops := ops } x = true := by simp [Thr.empty, hx]
  rw [begin, if_pos he]
  simp only [g2]
  cases hb : v.blk with
  | none =>
      simp only
      refine ⟨_, rfl, ?_⟩
      obtain ⟨r1, r2, r3⟩ := rest_ok (t' := { t with ops := ops, hs := t.hs.set x (some ⟨none, none⟩) }) hops rfl (.inl hp)
      refine h.thread hi rfl rfl rfl rfl (fun c => ?_) (fun b => rfl) (fun y hd e => ?_) ?_ ?_ r1 r2 r3
      · have := ownT_set (t' := { t with ops := ops, hs := t.hs.set x (some ⟨none, none⟩) }) hx rfl c
        simpa using this
      · rcases hd_set (t' := { t with ops := ops, hs := t.hs.set x (some ⟨none, none⟩) }) hx rfl e with ⟨_, e⟩ | e
        · cases e; exact .inl ⟨rfl, rfl⟩
        · exact h.handles i t hi y hd e
      · simp [PcOk, hp]
      · have : n = false := by rw [← g3, hb]; rfl
        subst this
        rw [after_idle (by exact hp), vars_set (t := t) rfl]
        exact f3
  | some b =>
      simp only
      refine ⟨_, rfl, ?_⟩
      have hn : n = true := by rw [← g3, hb]; rfl
      subst hn
      have hmem : Op.share a x ∈ t.ops := by rw [hops]; simp
      have hsh : ∀ a', sharing { t with ops := ops, pc := if v.sptr = none then Pc.publish a x else .load a x } a' → sharing t a' := by
        intro a' hs
        rcases hs with ⟨y, hs⟩ | ⟨y, hs⟩ | ⟨y, hs⟩ | ⟨y, c, hs⟩
        · exact .inl ⟨y, by rw [hops]; exact List.mem_cons_of_mem _ hs⟩
        · simp only at hs
          split at hs
          · cases hs; exact .inl ⟨_, hmem⟩
          · cases hs
        · simp only at hs
          split at hs
          · cases hs
          · cases hs; exact .inl ⟨_, hmem⟩
        · simp only at hs
          split at hs <;> cases hs
      refine h.thread hi rfl rfl rfl rfl (fun c => rfl) (fun b => ?_) (fun y hd e => h.handles i t hi y hd e) ?_ ?_ hsh (fun a' hk => by rw [hops]; exact List.mem_cons_of_mem _ hk)
        (fun a' hu => ?_)
      · by_cases hs : v.sptr = none <;> simp [isFree, hp, hs]
      · cases hs : v.sptr with
        | none => simp only [PcOk, if_true]; exact ⟨hx, v, g2, by rw [hb]; simp, hs⟩
        | some c => simp only [PcOk, reduceCtorEq, if_false]; exact ⟨hx, v, c, g2, hs⟩
      · cases hs : v.sptr with
        | none => simpa only [after, if_true, vars] using f3
        | some c => simpa only [after, reduceCtorEq, if_false, vars] using f3
      · rcases hu with ⟨o, h1, h2⟩ | hu
        · exact .inl ⟨o, by rw [hops]; exact List.mem_cons_of_mem _ h1, h2⟩
        · exact .inr (hsh a' hu)

theorem copy_ok {s : State} (h : Inv s) {i : Nat} {t : Thr} (hi : s.thr[i]? = some t) (hp : t.pc = .idle) {x y : Nat} {ops : List Op} (hops : t.ops = .copy x y :: ops) :
    ∃ s', begin s i { t with ops := ops } (.copy x y) = .ok s' ∧ Inv s' := by
  have hf := h.fine i t hi
  rw [hops, after_idle hp] at hf
  obtain ⟨f1, n, f2, f3⟩ := hf
  have hy := hs_of_vars f1
  obtain ⟨hd, g1, g2, g3⟩ := hd_of_vars f2
  have he : Thr.empty { t with ops := ops } y = true := by simp [Thr.empty, hy]
  have g2' : Thr.hd { t with ops := ops } x = some hd := g2
  rw [begin, if_pos he]
  simp only [g2']
  obtain ⟨r1, r2, r3⟩ := rest_ok (t' := { t with ops := ops, hs := t.hs.set y (some hd) }) hops rfl (.inl hp)
  have hh : ∀ z hd', Thr.hd { t with ops := ops, hs := t.hs.set y (some hd) } z = some hd' → HdOk s hd' := by
    intro z hd' e
    rcases hd_set (t := t) hy rfl e with ⟨_, e⟩ | e
    · cases e; exact h.handles i t hi x hd g2
    · exact h.handles i t hi z hd' e
  have hfine : Fine ops (shape s) (after { t with ops := ops, hs := t.hs.set y (some hd) }) := by
    rw [after_idle (by exact hp), vars_set (t := t) rfl]
    simpa only [Option.map_some, g3] using f3
  have hown := fun c => ownT_set (t' := { t with ops := ops, hs := t.hs.set y (some hd) }) hy rfl c
  cases hc : hd.ctrl with
  | none =>
      simp only
      refine ⟨_, rfl, h.thread hi rfl rfl rfl rfl (fun c => ?_) (fun b => rfl) hh (by simp [PcOk, hp]) hfine r1 r2 r3⟩
      have := hown c
      simpa [hc] using this
  | some c =>
      obtain ⟨k, e1, e2, e3⟩ := h.refs_hd hi g2 hc
      simp only [State.incr, e1, if_neg e2]
      refine ⟨_, rfl, h.more hi rfl rfl e1 e2 rfl rfl (fun c' => ?_) (fun b => rfl) hh (by simp [PcOk, hp]) hfine r1 r2 r3⟩
      have := hown c'
      simp only [Option.bind_none, Option.bind_some, hc] at this
      by_cases hcc : c = c'
      · subst hcc; simpa using this
      · have hcc' : ¬ c' = c := fun e => hcc e.symm
        simpa [hcc, hcc'] using this

theorem drop_ok {s : State} (h : Inv s) {i : Nat} {t : Thr} (hi : s.thr[i]? = some t) (hp : t.pc = .idle) {x : Nat} {ops : List Op} (hops : t.ops = .drop x :: ops) :
    ∃ s', begin s i { t with ops := ops } (.drop x) = .ok s' ∧ Inv s' := by
  have hf := h.fine i t hi
  rw [hops, after_idle hp] at hf
  obtain ⟨⟨n, f1⟩, f3⟩ := hf
  obtain ⟨hd, g1, g2, g3⟩ := hd_of_vars f1
  have g2' : Thr.hd { t with ops := ops } x = some hd := g2
  rw [begin]
  simp only [g2']
  have hh : ∀ pc z hd', Thr.hd { ops := ops, pc := pc, hs := t.hs.set x none } z = some hd' → HdOk s hd' := by
    intro pc z hd' e
    rcases hd_set (t := t) g1 rfl e with ⟨_, e⟩ | e
    · cases e
    · exact h.handles i t hi z hd' e
  have hown := fun pc c => ownT_set (t' := { ops := ops, pc := pc, hs := t.hs.set x none }) g1 rfl c
  cases hc : hd.ctrl with
  | none =>
      simp only
      obtain ⟨r1, r2, r3⟩ := rest_ok (t' := { t with ops := ops, hs := t.hs.set x none }) hops rfl (.inl hp)
      refine ⟨_, rfl, h.thread hi rfl rfl rfl rfl (fun c => ?_) (fun b => rfl) (hh _) (by simp [PcOk, hp]) ?_ r1 r2 r3⟩
      · have := hown t.pc c
        simpa [hc] using this
      · rw [after_idle (by exact hp), vars_set (t := t) rfl]
        exact f3
  | some c =>
      obtain ⟨k, e1, e2, e3⟩ := h.refs_hd hi g2 hc
      simp only [State.decr, e1, if_neg e2]
      have hpc : ({ ops := ops, pc := if k.refs = 1 then Pc.free k.blk .idle else .idle, hs := t.hs.set x none } : Thr).pc = .idle ∨
          ∃ b, ({ ops := ops, pc := if k.refs = 1 then Pc.free k.blk .idle else .idle, hs := t.hs.set x none } : Thr).pc = .free b .idle := by
        simp only
        split
        · exact .inr ⟨_, rfl⟩
        · exact .inl rfl
      obtain ⟨r1, r2, r3⟩ := rest_ok hops rfl hpc
      refine ⟨_, rfl, h.less hi rfl (fun a v e => e) e1 e2 rfl rfl (fun c' => ?_) (fun b => rfl) hp rfl (hh _) ?_ (fun j tj _ hj => ⟨pcOk_eq rfl (h.pcs j tj hj), h.fine j tj hj⟩) r1 r2 r3⟩
      · have := hown (if k.refs = 1 then Pc.free k.blk .idle else .idle) c'
        simp only [Option.bind_none, Option.bind_some, hc] at this
        by_cases hcc : c = c'
        · subst hcc
          have : ownT c { ops := ops, pc := if k.refs = 1 then Pc.free k.blk .idle else .idle, hs := t.hs.set x none } + 1 = ownT c t := by simpa using this
          simp only [State.setThr, if_true]
          omega
        · have hcc' : ¬ c' = c := fun e => hcc e.symm
          have : ownT c' { ops := ops, pc := if k.refs = 1 then Pc.free k.blk .idle else .idle, hs := t.hs.set x none } = ownT c' t := by simpa [hcc, hcc'] using this
          simp only [State.setThr, if_neg hcc']
          omega
      · have : after { ops := ops, pc := if k.refs = 1 then Pc.free k.blk .idle else .idle, hs := t.hs.set x none } = (vars t).set x none := by
          have e := vars_set (t := t) (t' := { ops := ops, pc := if k.refs = 1 then Pc.free k.blk .idle else .idle, hs := t.hs.set x none }) (w' := none) rfl
          rw [Option.map_none] at e
          rw [← e]
          exact after_free (by by_cases hk : k.refs = 1 <;> simp [hk])
        rw [this]; exact f3

theorem read_ok {s : State} (h : Inv s) {i : Nat} {t : Thr} (hi : s.thr[i]? = some t) (hp : t.pc = .idle) {x : Nat} {ops : List Op} (hops : t.ops = .read x :: ops) :
    ∃ s', begin s i { t with ops := ops } (.read x) = .ok s' ∧ Inv s' := by
  have hf := h.fine i t hi
  rw [hops, after_idle hp] at hf
  obtain ⟨f1, f3⟩ := hf
  obtain ⟨hd, g1, g2, g3⟩ := hd_of_vars f1
  have g2' : Thr.hd { t with ops := ops } x = some hd := g2
  obtain ⟨b, hb⟩ := Option.isSome_iff_exists.mp g3
  obtain ⟨r1, r2, r3⟩ := rest_ok (t' := { t with ops := ops }) hops rfl (.inl hp)
  rw [begin]
  simp only [g2', hb, (h.live_hd hi g2 hb).1, if_true]
  exact ⟨_, rfl, h.thread hi rfl rfl rfl rfl (fun _ => rfl) (fun _ => rfl) (fun z hd' e => h.handles i t hi z hd' e) (by simp [PcOk, hp]) (by rw [after_idle (by exact hp)]; exact f3) r1 r2 r3⟩

theorem readArr_ok {s : State} (h : Inv s) {i : Nat} {t : Thr} (hi : s.thr[i]? = some t) (hp : t.pc = .idle) {a : Nat} {ops : List Op} (hops : t.ops = .readArr a :: ops) :
    ∃ s', begin s i { t with ops := ops } (.readArr a) = .ok s' ∧ Inv s' := by
  have hf := h.fine i t hi
  rw [hops, after_idle hp] at hf
  obtain ⟨f1, f3⟩ := hf
  obtain ⟨v, g1, g2, g3⟩ := arr_of_shape f1
  obtain ⟨b, hb⟩ := Option.isSome_iff_exists.mp g3
  obtain ⟨r1, r2, r3⟩ := rest_ok (t' := { t with ops := ops }) hops rfl (.inl hp)
  rw [begin]
  simp only [g2, hb, (h.live_arr g2 hb).1, if_true]
  exact ⟨_, rfl, h.thread hi rfl rfl rfl rfl (fun _ => rfl) (fun _ => rfl) (fun z hd' e => h.handles i t hi z hd' e) (by simp [PcOk, hp]) (by rw [after_idle (by exact hp)]; exact f3) r1 r2 r3⟩

/-- A thread that does not use array `a` does not care when it is gone. -/
theorem others_kill {s s' : State} (h : Inv s) {i : Nat} {t : Thr} (hi : s.thr[i]? = some t) {a : Nat} (hk : Op.kill a ∈ t.ops) (ha : s'.arrs = s.arrs.set a none) :
    ∀ (j : Nat) (tj : Thr), j ≠ i → s.thr[j]? = some tj → PcOk s' tj ∧ Fine tj.ops (shape s') (after tj) := by
  intro j tj hne hj
  have hnu : ¬ using' tj a := fun hu => hne (h.killer a i j t tj hi hj hk hu).symm
  have harr : ∀ a', a' ≠ a → s'.arr a' = s.arr a' := by
    intro a' hne
    unfold State.arr
    rw [ha, List.getElem?_set_ne (fun e => hne e.symm)]
  constructor
  · have hp := h.pcs j tj hj
    unfold PcOk at hp ⊢
    cases hpc : tj.pc with
    | idle => simp
    | release a' x c => simp only [hpc] at hp
    | publish a' x =>
        have : a' ≠ a := fun e => hnu (.inr (.inr (.inl ⟨x, by rw [← e]; exact hpc⟩)))
        simp only [hpc] at hp ⊢
        rw [harr a' this]; exact hp
    | load a' x =>
        have : a' ≠ a := fun e => hnu (.inr (.inr (.inr (.inl ⟨x, by rw [← e]; exact hpc⟩))))
        simp only [hpc] at hp ⊢
        rw [harr a' this]; exact hp
    | incr a' x c =>
        have : a' ≠ a := fun e => hnu (.inr (.inr (.inr (.inr ⟨x, c, by rw [← e]; exact hpc⟩))))
        simp only [hpc] at hp ⊢
        rw [harr a' this]; exact hp
    | free b next => simp only [hpc] at hp ⊢; exact hp
  · have : shape s' = (shape s).set a none := by unfold shape; rw [ha, List.map_set]; rfl
    rw [this]
    refine fine_set _ _ _ _ _ (fun o ho => ?_) (h.fine j tj hj)
    by_contra hc
    exact hnu (.inl ⟨o, ho, by simpa using hc⟩)

theorem kill_ok {s : State} (h : Inv s) {i : Nat} {t : Thr} (hi : s.thr[i]? = some t) (hp : t.pc = .idle) {a : Nat} {ops : List Op} (hops : t.ops = .kill a :: ops) :
    ∃ s', begin s i { t with ops := ops } (.kill a) = .ok s' ∧ Inv s' := by
  have hf := h.fine i t hi
  rw [hops, after_idle hp] at hf
  obtain ⟨⟨n, f1⟩, f3⟩ := hf
  obtain ⟨v, g1, g2, g3⟩ := arr_of_shape f1
  have hmem : Op.kill a ∈ t.ops := by rw [hops]; simp
  rw [begin]
  simp only [g2]
  have hrem : ∀ (s' : State), s'.arrs = s.arrs.set a none → ∀ a' v', s'.arr a' = some v' → s.arr a' = some v' := by
    intro s' ha a' v' e
    unfold State.arr at e ⊢
    rw [ha, getElem?_set' g1] at e
    by_cases hne : a = a'
    · rw [if_pos hne] at e; cases e
    · rw [if_neg hne] at e; exact e
  have hshape : ∀ (s' : State), s'.arrs = s.arrs.set a none → shape s' = (shape s).set a none := by
    intro s' ha
    unfold shape; rw [ha, List.map_set]; rfl
  cases hs : v.sptr with
  | some c =>
      obtain ⟨k, e1, e2, e3⟩ := h.refs_arr g2 hs
      have e1' : (s.setArr a none).ctrls[c]? = some k := e1
      simp only [State.decr, e1', if_neg e2]
      have hpc : ({ ops := ops, pc := if k.refs = 1 then Pc.free k.blk .idle else .idle, hs := t.hs } : Thr).pc = .idle ∨
          ∃ b, ({ ops := ops, pc := if k.refs = 1 then Pc.free k.blk .idle else .idle, hs := t.hs } : Thr).pc = .free b .idle := by
        by_cases hk : k.refs = 1 <;> simp [hk]
      obtain ⟨r1, r2, r3⟩ := rest_ok hops rfl hpc
      refine ⟨_, rfl, h.less hi rfl (hrem _ rfl) e1 e2 rfl rfl (fun c' => ?_) (fun b => ?_) hp rfl (fun x hd e => h.handles i t hi x hd e) ?_ (others_kill h hi hmem rfl) r1 r2 r3⟩
      · have := number_set (pointsTo c') s.arrs a (some v) none g1
        simp only [State.setThr, State.setArr, ownT]
        by_cases hcc : c = c'
        · subst hcc
          simp [hs] at this ⊢
          omega
        · have hcc' : ¬ c' = c := fun e => hcc e.symm
          simp [hs, hcc] at this
          simp only [if_neg hcc']
          omega
      · have := number_set (unshared b) s.arrs a (some v) none g1
        simp [hs] at this
        exact this
      · rw [hshape _ rfl, after_free hpc]; exact f3
  | none =>
      have harrs : ∀ (s' : State), s'.arrs = s.arrs.set a none → s'.ctrls = s.ctrls → ∀ a' v' c, s'.arr a' = some v' → v'.sptr = some c → ∃ k, s'.ctrls[c]? = some k ∧ v'.blk = some k.blk := by
        intro s' ha hc a' v' c e1 e2
        rw [hc]
        exact h.arrs a' v' c (hrem s' ha a' v' e1) e2
      have hrefs : ∀ (s' : State) (t' : Thr), s'.arrs = s.arrs.set a none → s'.ctrls = s.ctrls → s'.thr = s.thr.set i t' → t'.hs = t.hs →
          ∀ (c : Nat) (k : Ctrl), s'.ctrls[c]? = some k → k.refs = owners s' c := by
        intro s' t' ha hc ht hh c k e
        rw [hc] at e
        have h1 := owners_set hi ht c
        have h2 : ownT c t' = ownT c t := by unfold ownT; rw [hh]
        have h3 := number_set (pointsTo c) s.arrs a (some v) none g1
        simp [hs] at h3
        rw [ha, h3, h2] at h1
        have := h.refs c k e
        omega
      cases hb : v.blk with
      | none =>
          simp only
          obtain ⟨r1, r2, r3⟩ := rest_ok (t' := { t with ops := ops }) hops rfl (.inl hp)
          refine ⟨_, rfl, h.step' hi rfl (fun a' v' e => ⟨v', hrem _ rfl a' v' e, rfl, fun _ => rfl⟩) (.rfl' rfl) (hrefs _ _ rfl rfl rfl rfl) (fun b => ?_) (harrs _ rfl rfl)
            (fun x hd e => h.handles i t hi x hd e) (by simp [PcOk, hp]) ?_ (others_kill h hi hmem rfl) r1 r2 r3⟩
          · have h1 := frees_set (s' := (s.setArr a none).setThr i { t with ops := ops }) hi rfl b
            have h2 := number_set (unshared b) s.arrs a (some v) none g1
            have h3 := h.charge b
            have h4 : isFree b { t with ops := ops } = isFree b t := rfl
            rw [h4] at h1
            simp [hs, hb] at h2
            simp only [inCharge] at h3 ⊢
            simp only [State.setThr, State.setArr] at h1 ⊢
            rw [h2]
            change _ = live s b
            omega
          · rw [hshape _ rfl, after_idle (by exact hp)]; exact f3
      | some b0 =>
          simp only
          have hpc : ({ t with ops := ops, pc := .free b0 .idle } : Thr).pc = .idle ∨ ∃ b, ({ t with ops := ops, pc := .free b0 .idle } : Thr).pc = .free b .idle := .inr ⟨_, rfl⟩
          obtain ⟨r1, r2, r3⟩ := rest_ok hops rfl hpc
          refine ⟨_, rfl, h.step' hi rfl (fun a' v' e => ⟨v', hrem _ rfl a' v' e, rfl, fun _ => rfl⟩) (.rfl' rfl) (hrefs _ _ rfl rfl rfl rfl) (fun b => ?_) (harrs _ rfl rfl)
            (fun x hd e => h.handles i t hi x hd e) (by simp [PcOk]) ?_ (others_kill h hi hmem rfl) r1 r2 r3⟩
          · have h1 := frees_set (s' := (s.setArr a none).setThr i { t with ops := ops, pc := .free b0 .idle }) hi rfl b
            have h2 := number_set (unshared b) s.arrs a (some v) none g1
            have h3 := h.charge b
            have h4 : isFree b { t with ops := ops, pc := .free b0 .idle } = (b0 == b) := rfl
            have h5 : isFree b t = false := by simp [isFree, hp]
            rw [h4, h5] at h1
            simp only [inCharge] at h3 ⊢
            simp only [State.setThr, State.setArr] at h1 ⊢
            change _ = live s b
            by_cases hbb : b0 = b
            · subst hbb; simp [hs, hb] at h1 h2; omega
            · simp [hs, hb, hbb] at h1 h2; omega
          · rw [hshape _ rfl, after_free hpc]; exact f3

theorem publish_ok {s : State} (h : Inv s) {i : Nat} {t : Thr} (hi : s.thr[i]? = some t) {a x : Nat} (hp : t.pc = .publish a x) : ∃ s', step s i = .ok s' ∧ Inv s' := by
  have hpk := h.pcs i t hi
  simp only [PcOk, hp] at hpk
  obtain ⟨hx, v, ha, hb, hs⟩ := hpk
  obtain ⟨b, hb⟩ := Option.ne_none_iff_exists'.mp hb
  have ha' := arrs_of_arr ha
  simp only [step, hi, hp, ha, hb, hs]
  refine ⟨_, rfl, ?_⟩
  set s' : State := ({ s with ctrls := s.ctrls ++ [(⟨1, b⟩ : Ctrl)] : State }.setArr a (some { blk := some b, sptr := some s.ctrls.length })).setThr i { t with pc := .load a x } with hs'
  have harr : ∀ a', s'.arr a' = if a = a' then some { blk := some b, sptr := some s.ctrls.length } else s.arr a' := by
    intro a'
    change ((s.arrs.set a (some { blk := some b, sptr := some s.ctrls.length }))[a']?).join = _
    rw [getElem?_set' ha']
    by_cases e : a = a'
    · rw [if_pos e, if_pos e]; rfl
    · rw [if_neg e, if_neg e]; rfl
  have hshape : shape s' = shape s := by
    change (s.arrs.set a (some { blk := some b, sptr := some s.ctrls.length })).map _ = s.arrs.map _
    rw [List.map_set]
    have hl := (List.getElem?_eq_some_iff.mp ha').1
    have : s.arrs[a] = some v := (List.getElem?_eq_some_iff.mp ha').2
    refine List.ext_getElem (by simp) (fun n h1 h2 => ?_)
    by_cases e : a = n
    · subst e; simp [this, hb]
    · simp [e]
  have hct : ∀ (c : Nat), s'.ctrls[c]? = if c = s.ctrls.length then some ⟨1, b⟩ else s.ctrls[c]? := by
    intro c
    change (s.ctrls ++ [(⟨1, b⟩ : Ctrl)])[c]? = _
    by_cases e : c = s.ctrls.length
    · subst e; simp
    · rw [if_neg e]
      by_cases hl : c < s.ctrls.length
      · rw [List.getElem?_append_left hl]
      · rw [List.getElem?_eq_none (by simp; omega), List.getElem?_eq_none (by omega)]
  have hC : CtrlStep s s' := by
    intro c k e
    have : c ≠ s.ctrls.length := by have := (List.getElem?_eq_some_iff.mp e).1; omega
    exact ⟨k, by rw [hct, if_neg this]; exact e, rfl⟩
  have hsh : ∀ a', sharing { t with pc := .load a x } a' → sharing t a' := by
    intro a' hs
    rcases hs with ⟨y, hs⟩ | ⟨y, hs⟩ | ⟨y, hs⟩ | ⟨y, c, hs⟩
    · exact .inl ⟨y, hs⟩
    · cases hs
    · cases hs; exact .inr (.inl ⟨_, hp⟩)
    · cases hs
  refine h.step' hi rfl ?_ hC (fun c k e => ?_) (fun b' => ?_) ?_ (fun y hd e => (h.handles i t hi y hd e).mono hC) ?_ ?_ ?_ hsh (fun _ h => h) (fun a' hu => ?_)
  · intro a' v' e
    rw [harr] at e
    by_cases hne : a = a'
    · subst hne
      rw [if_pos rfl, Option.some.injEq] at e
      subst e
      exact ⟨v, ha, hb.symm, fun hc => absurd hs hc⟩
    · rw [if_neg hne] at e
      exact ⟨v', e, rfl, fun _ => rfl⟩
  · have h1 := owners_set (s' := s') hi rfl c
    have h2 : ownT c { t with pc := .load a x } = ownT c t := rfl
    have h3 : number (pointsTo c) s'.arrs + _ = _ :=
      number_set (pointsTo c) s.arrs a (some v) (some { blk := some b, sptr := some s.ctrls.length }) ha'
    rw [hct] at e
    by_cases hcl : c = s.ctrls.length
    · -- nobody had the new control block before
      have h0 : owners s c = 0 := by
        unfold owners
        have n1 : number (pointsTo c) s.arrs = 0 := by
          by_contra hne
          have : ∃ w ∈ s.arrs, pointsTo c w = true := by
            by_contra hno
            refine hne ?_
            unfold number
            refine List.sum_eq_zero (fun n hn => ?_)
            obtain ⟨w, hw, rfl⟩ := List.mem_map.mp hn
            rw [if_neg (fun e => hno ⟨w, hw, e⟩)]
          obtain ⟨w, hw, e⟩ := this
          obtain ⟨q, hq⟩ := List.getElem?_of_mem hw
          cases w with
          | none => simp at e
          | some w =>
              obtain ⟨k, e1, _⟩ := h.arrs q w c (by simp [State.arr, hq]) (by simpa using e)
              rw [hcl, List.getElem?_eq_none (Nat.le_refl _)] at e1; cases e1
        have n2 : (s.thr.map (ownT c)).sum = 0 := by
          refine List.sum_eq_zero (fun n hn => ?_)
          obtain ⟨tj, htj, rfl⟩ := List.mem_map.mp hn
          obtain ⟨j, hj⟩ := List.getElem?_of_mem htj
          refine List.sum_eq_zero (fun n hn => ?_)
          obtain ⟨w, hw, rfl⟩ := List.mem_map.mp hn
          rw [if_neg]
          intro e
          obtain ⟨q, hq⟩ := List.getElem?_of_mem hw
          cases w with
          | none => simp at e
          | some w =>
              have hw' : w.ctrl = some c := by simpa using e
              rcases h.handles j tj hj q w (by simp [Thr.hd, hq]) with ⟨e1, _⟩ | ⟨c', k, e1, e2, _⟩
              · rw [hw'] at e1; cases e1
              · rw [hw', Option.some.injEq] at e1
                rw [← e1, hcl, List.getElem?_eq_none (Nat.le_refl _)] at e2; cases e2
        change _ + (s.thr.map (ownT c)).sum = 0
        omega
      rw [if_pos hcl, Option.some.injEq] at e
      subst e
      simp [hs, hcl] at h3
      simp only [hcl] at h0 h1 h2 ⊢
      omega
    · rw [if_neg hcl] at e
      have := h.refs c k e
      have hcl' : ¬ s.ctrls.length = c := fun e => hcl e.symm
      simp [hs, hcl'] at h3
      omega
  · have h1 := frees_set (s' := s') hi rfl b'
    have h2 := number_set (unshared b') s.arrs a (some v) (some { blk := some b, sptr := some s.ctrls.length }) ha'
    have h3 := h.charge b'
    have h4 : isFree b' { t with pc := .load a x } = false := rfl
    have h5 : isFree b' t = false := by simp [isFree, hp]
    have h6 := number_append (inUse b') s.ctrls ⟨1, b⟩
    rw [h4, h5] at h1
    simp only [inCharge] at h3 ⊢
    simp only [hs', State.setThr, State.setArr] at h1 ⊢
    change _ = live s b'
    by_cases hbb : b = b'
    · simp [hs, hb, hbb] at h1 h2 h6 ⊢; omega
    · simp [hs, hb, hbb] at h1 h2 h6 ⊢; omega
  · intro a' v' c e1 e2
    rw [harr] at e1
    by_cases hne : a = a'
    · rw [if_pos hne, Option.some.injEq] at e1
      subst e1
      simp only [Option.some.injEq] at e2
      exact ⟨⟨1, b⟩, by rw [hct, if_pos e2.symm], rfl⟩
    · rw [if_neg hne] at e1
      obtain ⟨k, g1, g2⟩ := h.arrs a' v' c e1 e2
      obtain ⟨k', g3, g4⟩ := hC c k g1
      exact ⟨k', g3, by rw [g4]; exact g2⟩
  · simp only [PcOk]
    exact ⟨hx, _, _, by rw [harr, if_pos rfl], rfl⟩
  · rw [hshape]
    have := h.fine i t hi
    simpa only [after, hp, vars] using this
  · intro j tj hne hj
    refine ⟨?_, by rw [hshape]; exact h.fine j tj hj⟩
    have hpj := h.pcs j tj hj
    have hsi : sharing t a := .inr (.inl ⟨x, hp⟩)
    have hnot : ¬ sharing tj a := fun hsj => hne (h.once a v ha (by rw [hb]; simp) hs i j t tj hi hj hsi hsj).symm
    unfold PcOk at hpj ⊢
    cases hpc : tj.pc with
    | idle => simp
    | release a' x c => simp only [hpc] at hpj
    | publish a' x =>
        have : a ≠ a' := fun e => hnot (.inr (.inl ⟨x, by rw [e]; exact hpc⟩))
        simp only [hpc] at hpj ⊢
        rw [harr, if_neg this]; exact hpj
    | load a' x =>
        have : a ≠ a' := fun e => hnot (.inr (.inr (.inl ⟨x, by rw [e]; exact hpc⟩)))
        simp only [hpc] at hpj ⊢
        rw [harr, if_neg this]; exact hpj
    | incr a' x c =>
        have : a ≠ a' := fun e => hnot (.inr (.inr (.inr ⟨x, c, by rw [e]; exact hpc⟩)))
        simp only [hpc] at hpj ⊢
        rw [harr, if_neg this]; exact hpj
    | free b next => simp only [hpc] at hpj ⊢; exact hpj
  · rcases hu with hu | hu
    · exact .inl hu
    · exact .inr (hsh a' hu)

theorem load_ok {s : State} (h : Inv s) {i : Nat} {t : Thr} (hi : s.thr[i]? = some t) {a x : Nat} (hp : t.pc = .load a x) : ∃ s', step s i = .ok s' ∧ Inv s' := by
  have hpk := h.pcs i t hi
  simp only [PcOk, hp] at hpk
  obtain ⟨hx, v, c, ha, hs⟩ := hpk
  simp only [step, hi, hp, ha, hs]
  have hsh : ∀ a', sharing { t with pc := .incr a x c } a' → sharing t a' := by
    intro a' hs
    rcases hs with ⟨y, hs⟩ | ⟨y, hs⟩ | ⟨y, hs⟩ | ⟨y, c, hs⟩
    · exact .inl ⟨y, hs⟩
    · cases hs
    · cases hs
    · cases hs; exact .inr (.inr (.inl ⟨_, hp⟩))
  refine ⟨_, rfl, h.thread hi rfl rfl rfl rfl (fun _ => rfl) (fun b => by simp [isFree, hp]) (fun z hd' e => h.handles i t hi z hd' e) ?_ ?_ hsh (fun _ h => h) (fun a' hu => ?_)⟩
  · simp only [PcOk]; exact ⟨hx, v, ha, hs⟩
  · have := h.fine i t hi
    simpa only [after, hp, vars] using this
  · rcases hu with hu | hu
    · exact .inl hu
    · exact .inr (hsh a' hu)

theorem incr_ok {s : State} (h : Inv s) {i : Nat} {t : Thr} (hi : s.thr[i]? = some t) {a x c : Nat} (hp : t.pc = .incr a x c) : ∃ s', step s i = .ok s' ∧ Inv s' := by
  have hpk := h.pcs i t hi
  simp only [PcOk, hp] at hpk
  obtain ⟨hx, v, ha, hs⟩ := hpk
  obtain ⟨k, e1, e2, e3⟩ := h.refs_arr ha hs
  simp only [step, hi, hp, ha, State.incr, e1, if_neg e2]
  have hsh : ∀ a', sharing { t with pc := .idle, hs := t.hs.set x (some ⟨v.blk, some c⟩) } a' → sharing t a' := by
    intro a' hs
    rcases hs with ⟨y, hs⟩ | ⟨y, hs⟩ | ⟨y, hs⟩ | ⟨y, c, hs⟩
    · exact .inl ⟨y, hs⟩
    all_goals cases hs
  refine ⟨_, rfl, h.more hi rfl rfl e1 e2 rfl rfl (fun c' => ?_) (fun b => by simp [isFree, hp]) (fun z hd' e => ?_) (by simp [PcOk]) ?_ hsh (fun _ h => h) (fun a' hu => ?_)⟩
  · have := ownT_set (t' := { t with pc := .idle, hs := t.hs.set x (some ⟨v.blk, some c⟩) }) hx rfl c'
    simp only [Option.bind_none, Option.bind_some] at this
    by_cases hcc : c = c'
    · subst hcc; simpa using this
    · have hcc' : ¬ c' = c := fun e => hcc e.symm
      simpa [hcc, hcc'] using this
  · rcases hd_set (t := t) hx rfl e with ⟨_, e⟩ | e
    · cases e; exact .inr ⟨c, k, rfl, e1, e3⟩
    · exact h.handles i t hi z hd' e
  · have := h.fine i t hi
    rw [after_idle rfl, vars_set (t := t) rfl]
    simpa only [after, hp, e3, Option.map_some, Option.isSome_some] using this
  · rcases hu with hu | hu
    · exact .inl hu
    · exact .inr (hsh a' hu)

theorem free_ok {s : State} (h : Inv s) {i : Nat} {t : Thr} (hi : s.thr[i]? = some t) {b : Nat} {next : Pc} (hp : t.pc = .free b next) : ∃ s', step s i = .ok s' ∧ Inv s' := by
  have hpk := h.pcs i t hi
  simp only [PcOk, hp] at hpk
  subst hpk
  have hc := h.charge b
  have h1 : 1 ≤ number (isFree b) s.thr := number_pos hi (by simp [isFree, hp])
  have hlive : s.blocks[b]? = some true := live_true (by omega)
  simp only [step, hi, hp, hlive, if_true]
  have hsh : ∀ a', sharing { t with pc := .idle } a' → sharing t a' := by
    intro a' hs
    rcases hs with ⟨y, hs⟩ | ⟨y, hs⟩ | ⟨y, hs⟩ | ⟨y, c, hs⟩
    · exact .inl ⟨y, hs⟩
    all_goals cases hs
  refine ⟨_, rfl, h.step' hi rfl (.rfl' rfl) (.rfl' rfl) (fun c k e => ?_) (fun b' => ?_) (fun a' v' c => h.arrs a' v' c) (fun z hd' e => h.handles i t hi z hd' e) (by simp [PcOk]) ?_
    (fun j tj _ hj => ⟨pcOk_eq rfl (h.pcs j tj hj), h.fine j tj hj⟩) hsh (fun _ h => h) (fun a' hu => ?_)⟩
  · exact h.refs c k e ▸ (by
      have := owners_set (s' := { s with blocks := s.blocks.set b false }.setThr i { t with pc := .idle }) hi rfl c
      have h2 : ownT c { t with pc := .idle } = ownT c t := rfl
      simp only [State.setThr] at this ⊢
      omega)
  · have h2 := frees_set (s' := { s with blocks := s.blocks.set b false }.setThr i { t with pc := .idle }) hi rfl b'
    have h3 := h.charge b'
    have h4 : isFree b' { t with pc := .idle } = false := rfl
    have h5 : isFree b' t = (b == b') := by simp [isFree, hp]
    rw [h4, h5] at h2
    change inCharge s b' + _ = if (s.blocks.set b false)[b']? = some true then 1 else 0
    unfold live at h3
    rw [getElem?_set' hlive]
    by_cases hbb : b = b'
    · subst hbb
      simp [hlive] at h2 h3 ⊢
      omega
    · simp [hbb] at h2 ⊢
      omega
  · have := h.fine i t hi
    rw [after_free (.inr ⟨b, hp⟩)] at this
    exact this
  · rcases hu with hu | hu
    · exact .inl hu
    · exact .inr (hsh a' hu)

/-- A thread is at its end, or it makes a step, and the invariant stays. -/
theorem step_inv {s : State} (h : Inv s) (i : Nat) : (step s i = .done ∧ ∀ t, s.thr[i]? = some t → t.ops = [] ∧ t.pc = .idle) ∨ ∃ s', step s i = .ok s' ∧ Inv s' := by
  cases hi : s.thr[i]? with
  | none => exact .inl ⟨by simp [step, hi], fun t e => by cases e⟩
  | some t =>
      cases hp : t.pc with
      | idle =>
          cases hops : t.ops with
          | nil => exact .inl ⟨by simp [step, hi, hp, hops], fun t' e => by cases e; exact ⟨hops, hp⟩⟩
          | cons o ops =>
              right
              have : step s i = begin s i { t with ops := ops } o := by simp [step, hi, hp, hops]
              rw [this]
              cases o with
              | share a x => exact share_ok h hi hp hops
              | copy x y => exact copy_ok h hi hp hops
              | drop x => exact drop_ok h hi hp hops
              | read x => exact read_ok h hi hp hops
              | readArr a => exact readArr_ok h hi hp hops
              | kill a => exact kill_ok h hi hp hops
      | publish a x => exact .inr (publish_ok h hi hp)
      | release a x c => have := h.pcs i t hi; simp only [PcOk, hp] at this
      | load a x => exact .inr (load_ok h hi hp)
      | incr a x c => exact .inr (incr_ok h hi hp)
      | free b next => exact .inr (free_ok h hi hp)

end Nda.SharedThreads
