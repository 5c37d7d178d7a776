import Verif.Spec.SmallArrays
import Verif.Props.Sso
import Verif.Lemmas.ValuesAssign
/-!
# Arrays with small-buffer storage as values: lemmas
-/
namespace Nda.SmallArr
open Nda Nda.Mem Nda.Spec Nda.Arr Nda.Arr.Spec Loops Nda.Perm LayoutTransforms Nda.IdxMap Nda.Slice Nda.Mem.SProg

variable {V : Type}

/-- Lists of cells. -/
abbrev Cells (V : Type) := Mem.Spec.Vals V

/-! ### Operations on one variable leave the handles of the others -/

/-- The handles of the variables outside `T` are as before. -/
def Fr (T : Nat → Prop) (p q : SProg V) : Prop := ∀ x, ¬ T x → q.var x = p.var x

theorem Fr.refl (T : Nat → Prop) (p : SProg V) : Fr T p p := fun _ _ => rfl

theorem Fr.trans {T : Nat → Prop} {p q r : SProg V} (h : Fr T p q) (h' : Fr T q r) : Fr T p r := fun x hx => (h' x hx).trans (h x hx)

theorem Fr.setVar {T : Nat → Prop} {d : Nat} (hd : T d) (p : SProg V) (y : Option (Sso V)) : Fr T p (p.setVar d y) := fun x hx =>
  var_set_ne (by rintro rfl; exact hx hd) y

theorem setCell_fr {T : Nat → Prop} {p q : SProg V} {d i : Nat} {c : Option V} (hd : T d) (h : p.setCell d i c = some q) : Fr T p q := by
  simp only [SProg.setCell, Option.bind_eq_bind] at h
  obtain ⟨x, hx, h⟩ := Option.bind_eq_some_iff.mp h
  split at h
  · cases h
  · split at h
    · cases h; exact Fr.setVar hd _ _
    · cases h
  · obtain ⟨blk, -, h⟩ := Option.bind_eq_some_iff.mp h
    split at h
    · cases h; exact fun _ _ => rfl
    · cases h

theorem construct_fr {T : Nat → Prop} {triv : Bool} {p q : SProg V} {d i : Nat} {c : Option V} (hd : T d) (h : p.construct triv d i c = some q) : Fr T p q := by
  simp only [SProg.construct, Option.bind_eq_bind] at h
  obtain ⟨old, -, h⟩ := Option.bind_eq_some_iff.mp h
  split at h
  · cases h
  · exact setCell_fr hd h

theorem constructFrom_fr {T : Nat → Prop} {triv : Bool} {d : Nat} {f : Nat → SProg V → Option (Option V)} (hd : T d) :
    ∀ (n i : Nat) {p q : SProg V}, SProg.constructFrom triv d f n i p = some q → Fr T p q
  | 0, _, _, _, h => by cases h; exact Fr.refl _ _
  | n + 1, i, p, q, h => by
      simp only [SProg.constructFrom, Option.bind_eq_bind] at h
      obtain ⟨c, -, h⟩ := Option.bind_eq_some_iff.mp h
      obtain ⟨p1, h1, h⟩ := Option.bind_eq_some_iff.mp h
      exact (construct_fr hd h1).trans (constructFrom_fr hd n (i + 1) h)

theorem clean_fr {T : Nat → Prop} {K d : Nat} {p q : SProg V} (hd : T d) (h : p.clean true K d = some q) : Fr T p q := by
  simp only [SProg.clean, Option.bind_eq_bind, cleanElems, if_true, Option.bind_some] at h
  obtain ⟨x, hx, h⟩ := Option.bind_eq_some_iff.mp h
  split at h
  · cases h; exact Fr.refl _ _
  · obtain ⟨p1, h1, h⟩ := Option.bind_eq_some_iff.mp h
    have f1 : Fr T p p1 := by
      simp only [cleanBlock] at h1
      split at h1
      · split at h1
        · simp only [Option.bind_eq_bind] at h1
          obtain ⟨hp, -, h1⟩ := Option.bind_eq_some_iff.mp h1
          cases h1; exact fun _ _ => rfl
        · cases h1
      · cases h1; exact Fr.refl _ _
    simp only [nullify, Option.bind_eq_bind] at h
    obtain ⟨y, -, h⟩ := Option.bind_eq_some_iff.mp h
    cases h
    exact f1.trans (Fr.setVar hd _ _)

theorem grab_fr {T : Nat → Prop} {K d n : Nat} {p q : SProg V} (hd : T d) (h : p.grab K d n = some q) : Fr T p q := by
  simp only [grab, Option.bind_eq_bind] at h
  obtain ⟨x, hx, h⟩ := Option.bind_eq_some_iff.mp h
  split at h
  · cases h
    intro z hz
    rw [var_set_ne (by rintro rfl; exact hz hd)]; rfl
  · cases h; exact Fr.setVar hd _ _

theorem build_fr {T : Nat → Prop} {triv : Bool} {K d n : Nat} {f : Nat → SProg V → Option (Option V)} {p q : SProg V} (hd : T d)
    (h : p.build triv K d n f = some q) : Fr T p q := by
  simp only [SProg.build] at h
  split at h
  · cases h; exact Fr.setVar hd _ _
  · simp only [Option.bind_eq_bind] at h
    obtain ⟨p1, h1, h⟩ := Option.bind_eq_some_iff.mp h
    exact (Fr.setVar hd _ _).trans ((grab_fr hd h1).trans (constructFrom_fr hd _ _ h))

theorem empty_fr {T : Nat → Prop} {s : Nat} {p q : SProg V} (hs : T s) (h : p.empty s = some q) : Fr T p q := by
  simp only [SProg.empty, Option.bind_eq_bind] at h
  obtain ⟨x, -, h⟩ := Option.bind_eq_some_iff.mp h
  cases h; exact Fr.setVar hs _ _

theorem take_fr {T : Nat → Prop} {triv : Bool} {K d s : Nat} {p q : SProg V} (hd : T d) (hs : T s) (h : p.take triv K d s = some q) : Fr T p q := by
  simp only [SProg.take, Option.bind_eq_bind] at h
  obtain ⟨x, -, h⟩ := Option.bind_eq_some_iff.mp h
  obtain ⟨y, -, h⟩ := Option.bind_eq_some_iff.mp h
  split at h
  · exact (Fr.setVar hd _ _).trans (empty_fr hs h)
  · split at h
    · obtain ⟨p1, h1, h⟩ := Option.bind_eq_some_iff.mp h
      exact (Fr.setVar hd _ _).trans ((constructFrom_fr hd _ _ h1).trans (empty_fr hs h))
    · exact (Fr.setVar hd _ _).trans (empty_fr hs h)

theorem new_fr {T : Nat → Prop} {K d n : Nat} {dflt : V} {p q : SProg V} (hd : T d) (h : p.step true K dflt (.new d n) = some q) : Fr T p q := by
  simp only [SProg.step] at h
  split at h
  · exact build_fr hd h
  · cases h; exact Fr.refl _ _

theorem moveAssign_fr {T : Nat → Prop} {K d s : Nat} {dflt : V} {p q : SProg V} (hd : T d) (hs : T s) (h : p.step true K dflt (.moveAssign d s) = some q) : Fr T p q := by
  simp only [SProg.step] at h
  split at h
  · simp only [Option.bind_eq_bind] at h
    obtain ⟨p1, h1, h⟩ := Option.bind_eq_some_iff.mp h
    exact (clean_fr hd h1).trans (take_fr hd hs h)
  · cases h; exact Fr.refl _ _

theorem destroy_fr {T : Nat → Prop} {K d : Nat} {dflt : V} {p q : SProg V} (hd : T d) (h : p.step true K dflt (.destroy d) = some q) : Fr T p q := by
  simp only [SProg.step] at h
  split at h
  · simp only [Option.bind_eq_bind] at h
    obtain ⟨p1, h1, h⟩ := Option.bind_eq_some_iff.mp h
    obtain ⟨x, -, h⟩ := Option.bind_eq_some_iff.mp h
    split at h
    · cases h
    · cases h; exact (clean_fr hd h1).trans (Fr.setVar hd _ _)
  · cases h; exact Fr.refl _ _

/-! ### Reads through pointers -/

theorem load_ok {K : Nat} {q : SProg V} {x : Nat} {y : Sso V} {l : List (Option V)} (ho : VarOk true K q.hp y l) (hy : q.var x = some y) {k : Nat} (hk : k < l.length) :
    SAProg.load q x y.data k = (l[k]?).join := by
  rcases ho.data with ⟨h1, -⟩ | ⟨-, -, h2, rest, h3, -⟩ | ⟨-, -, b, h2, h3⟩
  · subst h1; simp at hk
  · rw [h2]
    simp only [SAProg.load, hy, Option.bind_eq_bind, Option.bind_some, h3, List.getElem?_append_left hk]
    cases l[k]? <;> rfl
  · rw [h2]
    simp only [SAProg.load, Heap.read, Heap.live_some.mpr ⟨h3, rfl⟩, Option.bind_eq_bind, Option.bind_some]
    cases l[k]? <;> rfl

/-! ### Writes -/

/-- The loop of an assignment to (a view of) the array that holds `l`. -/
theorem writeLoop {K : Nat} {q : SProg V} {c : Cells V} (r : Rep true K q c) {d : Nat} {l : List (Option V)} (hl : c.get d = some l) (hne : l ≠ [])
    (lay : IdxMap) (off : Int) (len : List Int) (ps : List Int → Nat)
    (hps : ∀ idx, InRange len idx → ∃ k, lay.call (idx.map .idx) = some k ∧ off + k = (ps idx : Int) ∧ ps idx < l.length)
    (hinj : ∀ idx jdx, InRange len idx → InRange len jdx → ps idx = ps jdx → idx = jdx) (f : List Int → SProg V → Option V) (w : List Int → Option V)
    (hw : ∀ idx, InRange len idx → (w idx).isSome)
    (hf : ∀ idx, InRange len idx → ∀ (q' : SProg V) (l' : List (Option V)), l'.length = l.length → (∀ j : Nat, (∀ jdx, InRange len jdx → ps jdx ≠ j) → l'[j]? = l[j]?) →
      l'[ps idx]? = l[ps idx]? → Rep true K q' (c.set d (some l')) → Fr (· = d) q q' → (∀ x x', q.var d = some x → q'.var d = some x' → x'.data = x.data) → f idx q' = w idx) :
    ∃ q' l', forEach len (fun idx q => do
        let x ← f idx q
        let k ← lay.call (idx.map .idx)
        SAProg.writeAt q d (off + k) x) q = some q' ∧ Rep true K q' (c.set d (some l')) ∧
      l'.length = l.length ∧ (∀ j : Nat, (∀ jdx, InRange len jdx → ps jdx ≠ j) → l'[j]? = l[j]?) ∧
      ∀ idx, InRange len idx → l'[ps idx]? = some (w idx) := by
  have hx : ∃ x, q.var d = some x ∧ VarOk true K q.hp x l := by
    cases hv : q.var d with
    | none => have := r.dead hv; rw [hl] at this; cases this
    | some x =>
        obtain ⟨l0, h0, ho⟩ := r.alive hv
        rw [hl] at h0; cases h0
        exact ⟨x, rfl, ho⟩
  obtain ⟨x, hx, ho⟩ := hx
  obtain ⟨rest, hH, -⟩ := ho.holds hx hne
  have hrep : ∀ l' : List (Option V), l'.length = l.length → Rep true K (q.upd d (l' ++ rest)) (c.set d (some l')) := fun l' hl' =>
    r.upd hx hl hl' hne (by intro h; cases h) hH
  have hfr : ∀ cells, Fr (· = d) q (q.upd d cells) := by
    intro cells z hz
    cases hH with
    | inline x' h1 h2 h3 => rw [upd_inline h1 h2]; exact var_set_ne hz _
    | block x' b h1 h2 h3 => rw [upd_block h1 h2]; rfl
  have hdat : ∀ cells (y y' : Sso V), q.var d = some y → (q.upd d cells).var d = some y' → y'.data = y.data := by
    intro cells y y' hy hy'
    cases hH with
    | inline x' h1 h2 h3 =>
        rw [upd_inline h1 h2, var_set_self (lt_of_var' h1)] at hy'
        rw [h1] at hy
        cases hy; cases hy'; rfl
    | block x' b h1 h2 h3 =>
        rw [upd_block h1 h2] at hy'
        change q.var d = some y' at hy'
        rw [hy] at hy'; cases hy'; rfl
  have := fold_set (fun cells => q.upd d (cells ++ rest))
    (fun idx q => do
      let x ← f idx q
      let k ← lay.call (idx.map .idx)
      SAProg.writeAt q d (off + k) x) ps w l (box len)
    ((List.nodup_map_iff_inj_on (lexEnum_box len).nodup).mpr (fun x hx y hy e => hinj x y (mem_box.mp hx) (mem_box.mp hy) e))
    (fun x hx => (hps x (mem_box.mp hx)).choose_spec.2.2) (fun x hx => hw x (mem_box.mp hx))
    (fun x hx cells' hl' hout halt hsame => by
      have hx' := mem_box.mp hx
      obtain ⟨k, hk1, hk2, hk3⟩ := hps x hx'
      have hv := hf x hx' (q.upd d (cells' ++ rest)) cells' hl' (fun j hj => hout j (fun y hy => hj y (mem_box.mp hy))) hsame (hrep cells' hl') (hfr _) (hdat _)
      obtain ⟨v, hv'⟩ := Option.isSome_iff_exists.mp (hw x hx')
      have hlt : ps x < cells'.length := by rw [hl']; exact hk3
      rw [hv'] at hv
      simp only [hv, hk1, hk2, Option.bind_eq_bind, Option.bind_some, SAProg.writeAt]
      rw [if_neg (by omega), Int.toNat_natCast, (hH.upd (cells' ++ rest)).setCell (by simp; omega), hH.upd_upd, hv', List.set_append_left _ _ hlt])
  obtain ⟨cells', g1, g2, g3, g4, g5⟩ := this
  refine ⟨_, cells', ?_, hrep cells' g2, g2, fun j hj => g3 j (fun x hx => hj x (mem_box.mp hx)), fun idx hi => g5 idx (mem_box.mpr hi)⟩
  rw [hH.upd_self] at g1
  rw [forEach_eq]; exact g1

/-! ### The invariant -/

/-- Layout, cells and value of one array fit together. -/
def CRel (so : List Nat) (m : Option IdxMap) (l : Option (List (Option V))) (x : Option (Val V)) : Prop :=
  match l, x with
  | none, none => True
  | some l, some x => ∃ m', m = some m' ∧ m'.len = x.shape ∧ IsShape so x.shape ∧ WF m' ∧ (layoutOf so x.shape = some m' ∨ prod x.shape = 0) ∧
      (if x.moved then l = [] else (l.length : Int) = prod x.shape) ∧
      (x.moved = false → ∀ idx v, InRange x.shape idx → x.el idx = some v → l[pos m' idx]? = some (some v))
  | _, _ => False

structure SInv (K : Nat) (so : Nat → List Nat) (s : SAProg V) (a : Arr.Spec.Vals V) (c : Cells V) : Prop where
  rep : Rep true K s.prog c
  clen : c.length = s.lays.length + 1
  alen : a.length = s.lays.length
  tmp : c.get s.lays.length = none
  rel : ∀ d, d < s.lays.length → CRel (so d) (s.lays[d]?) (c.get d) (a.get d)

section
variable {K : Nat} {so : Nat → List Nat} {s : SAProg V} {a : Arr.Spec.Vals V} {c : Cells V}

/-- One array changes. -/
theorem SInv.update (i : SInv K so s a c) {d : Nat} (hd : d < s.lays.length) {q : SProg V} {m : IdxMap} {l : Option (List (Option V))} {x : Option (Val V)}
    (hr : Rep true K q (c.set d l)) (h : CRel (so d) (some m) l x) : SInv K so ⟨q, s.lays.set d m⟩ (a.set d x) (c.set d l) := by
  refine ⟨hr, by simp [i.clen], by simp [i.alen], ?_, fun e he => ?_⟩
  · simp only [List.length_set]
    rw [SProg.get_set_ne (by omega)]; exact i.tmp
  · simp only [List.length_set] at he
    by_cases hde : e = d
    · subst hde
      rw [SProg.get_set_self (by rw [i.clen]; omega), set_get_self (by rw [i.alen]; exact he)]
      simp only [List.getElem?_set_self he]
      exact h
    · rw [SProg.get_set_ne hde, set_get_ne hde]
      simp only [List.getElem?_set_ne (Ne.symm hde)]
      exact i.rel e he

/-- What is known of an array that is alive. -/
theorem SInv.alive (i : SInv K so s a c) {d : Nat} {x : Val V} (h : a.get d = some x) :
    ∃ m y l, s.alive d = true ∧ d < s.lays.length ∧ s.lays[d]? = some m ∧ s.prog.var d = some y ∧ c.get d = some l ∧ VarOk true K s.prog.hp y l ∧
      m.len = x.shape ∧ IsShape (so d) x.shape ∧ WF m ∧ (layoutOf (so d) x.shape = some m ∨ prod x.shape = 0) ∧
      (if x.moved then l = [] else (l.length : Int) = prod x.shape) ∧
      (x.moved = false → ∀ idx v, InRange x.shape idx → x.el idx = some v → l[pos m idx]? = some (some v)) := by
  have hd : d < s.lays.length := by
    by_contra hc
    rw [Vals.get, List.getElem?_eq_none (by rw [i.alen]; omega)] at h; cases h
  have hrel := i.rel d hd
  rw [h] at hrel
  cases hc : c.get d with
  | none => rw [hc] at hrel; exact hrel.elim
  | some l =>
      rw [hc] at hrel
      obtain ⟨m, h1, h2⟩ := hrel
      cases hv : s.prog.var d with
      | none => have := i.rep.dead hv; rw [hc] at this; cases this
      | some y =>
          obtain ⟨l0, h0, ho⟩ := i.rep.alive hv
          rw [hc] at h0; cases h0
          exact ⟨m, y, l, by simp [SAProg.alive, hd, hv], hd, h1, rfl, rfl, ho, h2⟩

theorem SInv.cells_none (i : SInv K so s a c) {d : Nat} (h : a.get d = none) : c.get d = none := by
  by_cases hd : d < s.lays.length
  · have := i.rel d hd
    rw [h] at this
    cases hc : c.get d with
    | none => rfl
    | some l => rw [hc] at this; exact this.elim
  · by_cases e : d = s.lays.length
    · subst e; exact i.tmp
    · rw [Mem.Spec.Vals.get, List.getElem?_eq_none (by rw [i.clen]; omega)]; rfl

theorem SInv.var_none (i : SInv K so s a c) {d : Nat} (h : a.get d = none) : s.prog.var d = none := by
  cases hv : s.prog.var d with
  | none => rfl
  | some y =>
      obtain ⟨l, h1, -⟩ := i.rep.alive hv
      rw [i.cells_none h] at h1; cases h1

theorem SInv.dead (i : SInv K so s a c) {d : Nat} (h : a.get d = none) : s.alive d = false := by
  simp [SAProg.alive, i.var_none h]

theorem SInv.free (i : SInv K so s a c) {d : Nat} : s.free d = true ↔ d < a.length ∧ a.get d = none := by
  simp only [SAProg.free, Bool.and_eq_true, decide_eq_true_eq, i.alen, Option.isNone_iff_eq_none]
  refine and_congr_right fun hd => ⟨fun h => ?_, i.var_none⟩
  cases ha : a.get d with
  | none => rfl
  | some x =>
      obtain ⟨m, y, l, -, -, -, h1, -⟩ := i.alive ha
      rw [h] at h1; cases h1

/-- The element from the cells. -/
theorem elemIn_cell {q : SProg V} {x k : Nat} {m : IdxMap} {y : Sso V} {l : List (Option V)} (h1 : s.lays[x]? = some m) (h2 : s.prog.var x = some y) {jdx : List Int}
    (h3 : m.call (jdx.map .idx) = some (k : Int)) (hk : k < l.length) (h4 : ∃ z, q.var x = some z ∧ z.data = y.data ∧ VarOk true K q.hp z l) :
    s.elemIn q x jdx = (l[k]?).join := by
  obtain ⟨z, h5, h6, h7⟩ := h4
  simp only [SAProg.elemIn, h1, h2, h3, Option.bind_eq_bind, Option.bind_some]
  rw [if_neg (by omega), Int.toNat_natCast, ← h6]
  exact load_ok h7 h5 hk

/-- Reads of variable `x` of memory in which its handle and cells are as in the beginning. -/
theorem SInv.read (i : SInv K so s a c) (hso : ∀ i, IsPerm (so i)) {q : SProg V} {c' : Cells V} (r : Rep true K q c') {x : Nat} (hq : q.var x = s.prog.var x) (hc : c'.get x = c.get x)
    {jdx : List Int} {v : V} (h : a.elt x jdx = some v) : s.elemIn q x jdx = some v := by
  obtain ⟨w, h1, h2, h3, h4⟩ := Vals.elt_some h
  obtain ⟨m, y, l, -, g1, g2, g3, g4, g5, g6, g7, g8, g9, g10, g11⟩ := i.alive h1
  have h0 := prod_pos_of_inRange (hso x) g7 h3
  have hml := g9.resolve_right h0
  obtain ⟨m', k1, k2, k3, k4, k5, -⟩ := layoutOf_spec (hso x) g7
  rw [hml] at k1; cases k1
  rw [h2] at g10
  simp only [Bool.false_eq_true, if_false] at g10
  have hlt : pos m jdx < l.length := by have := (k5 jdx h3).2; omega
  rw [elemIn_cell (K := K) g2 g3 (k5 jdx h3).1 hlt]
  · rw [g11 h2 jdx v h3 h4]; rfl
  · rw [g3] at hq
    obtain ⟨l', e1, e2⟩ := r.alive hq
    rw [hc, g4] at e1; cases e1
    exact ⟨y, hq, rfl, e2⟩

theorem SInv.represents (i : SInv K so s a c) (hso : ∀ i, IsPerm (so i)) : Spec.Represents s a := by
  intro d
  cases h : a.get d with
  | none => exact i.var_none h
  | some x =>
      obtain ⟨m, y, l, -, g1, g2, g3, g4, g5, g6, g7, g8, g9, g10, g11⟩ := i.alive h
      refine ⟨⟨m, g2, g6⟩, fun hm idx v hi hv => ?_, fun hm idx => ?_⟩
      · exact i.read hso i.rep rfl rfl (by simp only [Vals.elt, h, hm, hi]; simpa using hv)
      · rw [hm] at g10
        simp only [if_true] at g10
        subst g10
        have : y.data = .null := by
          rcases g5.data with ⟨-, h2, -⟩ | ⟨h1, -⟩ | ⟨h1, -⟩
          · exact h2
          · exact absurd rfl h1
          · simp at h1
        simp only [SAProg.elem, SAProg.elemIn, g2, g3, this, Option.bind_eq_bind, Option.bind_some]
        cases m.call (idx.map .idx) with
        | none => rfl
        | some k => simp only [Option.bind_some, SAProg.load]; split <;> rfl

theorem SInv.start (K : Nat) (so : Nat → List Nat) (n : Nat) : SInv K so (SAProg.start n : SAProg V) (List.replicate n none) (List.replicate (n + 1) none) := by
  have hg : ∀ (n i : Nat), Mem.Spec.Vals.get (List.replicate n none : Cells V) i = none := by
    intro n i; simp only [Mem.Spec.Vals.get, List.getElem?_replicate]; split <;> rfl
  have hg' : ∀ (n i : Nat), Vals.get (List.replicate n none : Arr.Spec.Vals V) i = none := by
    intro n i; simp only [Vals.get, List.getElem?_replicate]; split <;> rfl
  exact ⟨SProg.start_rep true K (n + 1), by simp [SAProg.start], by simp [SAProg.start], hg _ _, fun d _ => by rw [hg, hg']; exact trivial⟩

end
end Nda.SmallArr
