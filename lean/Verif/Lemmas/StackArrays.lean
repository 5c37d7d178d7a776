import Verif.Spec.StackArrays
import Verif.Props.Sso
import Verif.Lemmas.ValuesAssign
/-!
# Arrays on the stack as values: lemmas
-/
namespace Nda.StackArr
open Nda Nda.Mem Nda.Spec Nda.Arr Nda.Arr.Spec Loops Nda.Perm LayoutTransforms Nda.IdxMap Nda.Slice Nda.StackArr.Spec

variable {V : Type}

theorem capacity_prod : ∀ ext : List Nat, (capacity ext : Int) = prod (ext.map Int.ofNat)
  | [] => rfl
  | n :: ext => by
      have := capacity_prod ext
      simp only [capacity, List.foldr_cons, List.map_cons, prod] at this ⊢
      push_cast
      rw [this]; rfl

/-- The layout of variable `d`. -/
structure LayOk (t : Types) (d : Nat) (m : IdxMap) : Prop where
  eq : StackArr.layoutOf (t.so d) (t.ext d) (shapeOf t d) = some m
  len : m.len = shapeOf t d
  size : m.size = (capacity (t.ext d) : Int)
  wf : WF m
  small : SmallestOK m
  call : ∀ idx, InRange (shapeOf t d) idx → m.call (idx.map .idx) = some (pos m idx : Int) ∧ pos m idx < capacity (t.ext d)
  inj : ∀ idx jdx, InRange (shapeOf t d) idx → InRange (shapeOf t d) jdx → pos m idx = pos m jdx → idx = jdx
  surj : ∀ k, k < capacity (t.ext d) → ∃ idx, InRange (shapeOf t d) idx ∧ pos m idx = k

theorem layOk {t : Types} (ht : TypesOK t) (d : Nat) : ∃ m, LayOk t d m := by
  obtain ⟨hp, hl, hpos⟩ := ht d
  have hlen : (t.so d).length = (shapeOf t d).length := by simp [shapeOf, hl]
  have hse : (t.ext d).length = (shapeOf t d).length := by simp [shapeOf]
  have hn : NonNeg (shapeOf t d) := by
    intro x hx
    simp only [shapeOf, List.mem_map] at hx
    obtain ⟨n, -, rfl⟩ := hx
    exact Int.natCast_nonneg n
  obtain ⟨m, h1, h2, h3, h4, h5, h6⟩ := IdxMap.C03_fresh_bijection (shapeOf t d) (t.so d) (t.ext d) .contiguous hp hlen hse hn
  obtain ⟨m', e1, e2, e3, -⟩ := ofShape_spec (shapeOf t d) (t.so d) (t.ext d) .contiguous hp hlen hse
  rw [h1] at e1; cases e1
  have hcap : m.size = (capacity (t.ext d) : Int) := by rw [h3, capacity_prod]; rfl
  have hpos : ∀ idx, InRange (shapeOf t d) idx → m.call (idx.map .idx) = some (pos m idx : Int) ∧ pos m idx < capacity (t.ext d) := by
    intro idx hi
    obtain ⟨k, hk, h0, hlt⟩ := h4 idx hi
    have : pos m idx = k.toNat := by simp [pos, hk]
    rw [hcap] at hlt
    rw [this]
    refine ⟨by rw [hk]; simp [h0], by omega⟩
  refine ⟨m, h1, h2, hcap, e2, (flagsOK_of_dense e3).smallest, hpos, fun idx jdx hi hj e => h5 idx jdx hi hj ?_, fun k hk => ?_⟩
  · rw [(hpos idx hi).1, (hpos jdx hj).1, e]
  · obtain ⟨idx, hi, hc⟩ := h6 (k : Int) (by omega) (by rw [hcap]; omega)
    exact ⟨idx, hi, by simp [pos, hc]⟩

/-! ### Variables -/

theorem var_set_self {q : StackH.Vars V} {d : Nat} (h : d < q.length) (l : Option (List (Option V))) : StackH.var (q.set d l) d = l := by
  simp [StackH.var, h]

theorem var_set_ne {q : StackH.Vars V} {d x : Nat} (h : x ≠ d) (l : Option (List (Option V))) : StackH.var (q.set d l) x = StackH.var q x := by
  simp only [StackH.var]; rw [List.getElem?_set_ne (Ne.symm h)]

theorem set_same {q : StackH.Vars V} {d : Nat} {l : List (Option V)} (h : StackH.var q d = some l) : q.set d (some l) = q := SProg.set_same (a := q) h

/-! ### Writes -/

/-- The functions that give one element a value: `put` writes cell `k` if `ok` holds of what was there. -/
def Puts (put : StackH.Vars V → Nat → Int → V → Option (StackH.Vars V)) (ok : Option V → Prop) : Prop :=
  ∀ (q : StackH.Vars V) (d k : Nat) (v : V) (l : List (Option V)) (c : Option V), StackH.var q d = some l → l[k]? = some c → ok c → put q d k v = some (q.set d (some (l.set k (some v))))

theorem puts_write (triv : Bool) : Puts (V := V) (KProg.writeAt triv) (fun c => triv = false → c.isSome) := by
  intro q d k v l c hl hc ho
  simp only [KProg.writeAt, hl, Option.bind_eq_bind, Option.bind_some]
  rw [if_neg (by omega), Int.toNat_natCast, hc]
  simp only [Option.bind_some]
  rw [if_neg]
  · rfl
  · rintro ⟨h1, h2⟩
    have := ho h1
    rw [Option.isNone_iff_eq_none.mp h2] at this; cases this

theorem puts_place : Puts (V := V) (KProg.placeAt false) (fun c => c = none) := by
  intro q d k v l c hl hc ho
  subst ho
  simp only [KProg.placeAt, StackH.construct, hl, Option.bind_eq_bind, Option.bind_some]
  rw [if_neg (by omega), Int.toNat_natCast, hc]
  simp

/-- The loop of an assignment to (a view of) the array with elements `l`. -/
theorem writeLoop {put : StackH.Vars V → Nat → Int → V → Option (StackH.Vars V)} {ok : Option V → Prop} (hput : Puts put ok) {q : StackH.Vars V} {d : Nat} {l : List (Option V)}
    (hl : StackH.var q d = some l) (hok : ∀ c ∈ l, ok c)
    (lay : IdxMap) (off : Int) (len : List Int) (ps : List Int → Nat)
    (hps : ∀ idx, InRange len idx → ∃ k, lay.call (idx.map .idx) = some k ∧ off + k = (ps idx : Int) ∧ ps idx < l.length)
    (hinj : ∀ idx jdx, InRange len idx → InRange len jdx → ps idx = ps jdx → idx = jdx) (f : List Int → StackH.Vars V → Option V) (w : List Int → Option V)
    (hw : ∀ idx, InRange len idx → (w idx).isSome)
    (hf : ∀ idx, InRange len idx → ∀ l' : List (Option V), l'.length = l.length → (∀ j : Nat, (∀ jdx, InRange len jdx → ps jdx ≠ j) → l'[j]? = l[j]?) →
      l'[ps idx]? = l[ps idx]? → f idx (q.set d (some l')) = w idx) :
    ∃ l', forEach len (fun idx q => do
        let x ← f idx q
        let k ← lay.call (idx.map .idx)
        put q d (off + k) x) q = some (q.set d (some l')) ∧
      l'.length = l.length ∧ (∀ j : Nat, (∀ jdx, InRange len jdx → ps jdx ≠ j) → l'[j]? = l[j]?) ∧
      (∀ j : Nat, l'[j]? = l[j]? ∨ ∃ v, l'[j]? = some (some v)) ∧
      ∀ idx, InRange len idx → l'[ps idx]? = some (w idx) := by
  have hd : d < q.length := StackH.lt_of_var hl
  obtain ⟨cells', g1, g2, g3, g4, g5⟩ := fold_set (fun cells => q.set d (some cells))
    (fun idx q => do
      let x ← f idx q
      let k ← lay.call (idx.map .idx)
      put q d (off + k) x) ps w l (box len)
    ((List.nodup_map_iff_inj_on (lexEnum_box len).nodup).mpr (fun x hx y hy e => hinj x y (mem_box.mp hx) (mem_box.mp hy) e))
    (fun x hx => (hps x (mem_box.mp hx)).choose_spec.2.2) (fun x hx => hw x (mem_box.mp hx))
    (fun x hx cells' hl' hout halt hsame => by
      have hx' := mem_box.mp hx
      obtain ⟨k, hk1, hk2, hk3⟩ := hps x hx'
      have hv := hf x hx' cells' hl' (fun j hj => hout j (fun y hy => hj y (mem_box.mp hy))) hsame
      obtain ⟨v, hv'⟩ := Option.isSome_iff_exists.mp (hw x hx')
      rw [hv'] at hv
      simp only [hv, hk1, hk2, Option.bind_eq_bind, Option.bind_some]
      rw [hput _ d (ps x) v cells' l[ps x] (var_set_self hd _) (by rw [hsame, List.getElem?_eq_getElem hk3]) (hok _ (List.getElem_mem hk3)), List.set_set, hv'])
  refine ⟨cells', ?_, g2, fun j hj => g3 j (fun x hx => hj x (mem_box.mp hx)), g4, fun idx hi => g5 idx (mem_box.mpr hi)⟩
  rw [set_same hl] at g1
  rw [forEach_eq]; exact g1

/-! ### The invariant -/

/-- Layout, cells and value of one array fit together. -/
def KRel (triv : Bool) (t : Types) (d : Nat) (m : Option IdxMap) (l : Option (List (Option V))) (x : Option (Val V)) : Prop :=
  match l, x with
  | none, none => True
  | some l, some x => ∃ m', m = some m' ∧ LayOk t d m' ∧ x.shape = shapeOf t d ∧ x.moved = false ∧ l.length = capacity (t.ext d) ∧ (triv = false → ∀ c ∈ l, c.isSome) ∧
      ∀ idx v, InRange x.shape idx → x.el idx = some v → l[pos m' idx]? = some (some v)
  | _, _ => False

structure KInv (triv : Bool) (t : Types) (s : KProg V) (a : Vals V) : Prop where
  vlen : s.vars.length = s.lays.length + 1
  alen : a.length = s.lays.length
  rel : ∀ d, d < s.lays.length → KRel triv t d (s.lays[d]?) (StackH.var s.vars d) (a.get d)
  tmp : StackH.var s.vars s.lays.length = none

section
variable {triv : Bool} {t : Types} {s : KProg V} {a : Vals V}

/-- One array changes. -/
theorem KInv.update (i : KInv triv t s a) {d : Nat} (hd : d < s.lays.length) {m : IdxMap} {l : Option (List (Option V))} {x : Option (Val V)}
    (h : KRel triv t d (some m) l x) : KInv triv t ⟨s.vars.set d l, s.lays.set d m⟩ (a.set d x) := by
  refine ⟨by simp [i.vlen], by simp [i.alen], fun e he => ?_, ?_⟩
  · simp only [List.length_set] at he
    by_cases hde : e = d
    · subst hde
      simp only
      rw [var_set_self (by rw [i.vlen]; omega), Arr.set_get_self (by rw [i.alen]; exact he), List.getElem?_set_self he]
      exact h
    · simp only
      rw [var_set_ne hde, Arr.set_get_ne hde, List.getElem?_set_ne (Ne.symm hde)]
      exact i.rel e he
  · simp only [List.length_set]
    rw [var_set_ne (by omega)]; exact i.tmp

theorem KInv.update' (i : KInv triv t s a) {d : Nat} {m : IdxMap} (hm : s.lays[d]? = some m) {l : Option (List (Option V))} {x : Option (Val V)}
    (h : KRel triv t d (some m) l x) : KInv triv t ⟨s.vars.set d l, s.lays⟩ (a.set d x) := by
  have hd : d < s.lays.length := (List.getElem?_eq_some_iff.mp hm).1
  have := i.update hd (m := m) h
  have e : s.lays.set d m = s.lays := by
    obtain ⟨h1, h2⟩ := List.getElem?_eq_some_iff.mp hm
    rw [← h2]; exact List.set_getElem_self h1
  rw [e] at this; exact this

/-- What is known of an array that is alive. -/
theorem KInv.alive (i : KInv triv t s a) {d : Nat} {x : Val V} (h : a.get d = some x) :
    ∃ m l, s.alive d = true ∧ d < s.lays.length ∧ s.lays[d]? = some m ∧ StackH.var s.vars d = some l ∧ LayOk t d m ∧ x.shape = shapeOf t d ∧ x.moved = false ∧
      l.length = capacity (t.ext d) ∧ (triv = false → ∀ c ∈ l, c.isSome) ∧ ∀ idx v, InRange x.shape idx → x.el idx = some v → l[pos m idx]? = some (some v) := by
  have hd : d < s.lays.length := by
    by_contra hc
    rw [Vals.get, List.getElem?_eq_none (by rw [i.alen]; omega)] at h; cases h
  have hrel := i.rel d hd
  rw [h] at hrel
  cases hc : StackH.var s.vars d with
  | none => rw [hc] at hrel; exact hrel.elim
  | some l =>
      rw [hc] at hrel
      obtain ⟨m, h1, h2⟩ := hrel
      exact ⟨m, l, by simp [KProg.alive, hd, hc], hd, h1, rfl, h2⟩

theorem KInv.var_none (i : KInv triv t s a) {d : Nat} (h : a.get d = none) : StackH.var s.vars d = none := by
  by_cases hd : d < s.lays.length
  · have := i.rel d hd
    rw [h] at this
    cases hc : StackH.var s.vars d with
    | none => rfl
    | some l => rw [hc] at this; exact this.elim
  · by_cases e : d = s.lays.length
    · subst e; exact i.tmp
    · rw [StackH.var, List.getElem?_eq_none (by rw [i.vlen]; omega)]; rfl

theorem KInv.dead (i : KInv triv t s a) {d : Nat} (h : a.get d = none) : s.alive d = false := by
  simp [KProg.alive, i.var_none h]

theorem KInv.free (i : KInv triv t s a) {d : Nat} : s.free d = true ↔ d < a.length ∧ a.get d = none := by
  simp only [KProg.free, Bool.and_eq_true, decide_eq_true_eq, i.alen, Option.isNone_iff_eq_none]
  refine and_congr_right fun hd => ⟨fun h => ?_, i.var_none⟩
  cases ha : a.get d with
  | none => rfl
  | some x =>
      obtain ⟨m, l, -, -, -, h1, -⟩ := i.alive ha
      rw [h] at h1; cases h1

/-- The element from the cells. -/
theorem elemIn_cell {q : StackH.Vars V} {x k : Nat} {m : IdxMap} {l : List (Option V)} (h1 : s.lays[x]? = some m) {jdx : List Int} (h2 : m.call (jdx.map .idx) = some (k : Int))
    (h3 : StackH.var q x = some l) : s.elemIn q x jdx = (l[k]?).join := by
  simp only [KProg.elemIn, h1, h2, h3, Option.bind_eq_bind, Option.bind_some]
  rw [if_neg (by omega), Int.toNat_natCast]

/-- Reads of variable `x` of memory in which its cells are as in the beginning. -/
theorem KInv.read (i : KInv triv t s a) {q : StackH.Vars V} {x : Nat} (hq : StackH.var q x = StackH.var s.vars x) {jdx : List Int} {v : V} (h : a.elt x jdx = some v) :
    s.elemIn q x jdx = some v := by
  obtain ⟨w, h1, h2, h3, h4⟩ := Vals.elt_some h
  obtain ⟨m, l, -, g1, g2, g3, g4, g5, g6, g7, g8, g9⟩ := i.alive h1
  rw [elemIn_cell g2 (g4.call jdx (by rw [← g5]; exact h3)).1 (hq.trans g3), g9 jdx v h3 h4]; rfl

theorem KInv.represents (i : KInv triv t s a) : Spec.Represents t s a := by
  intro d
  cases h : a.get d with
  | none => exact i.var_none h
  | some x =>
      obtain ⟨m, l, -, g1, g2, g3, g4, g5, g6, g7, g8, g9⟩ := i.alive h
      exact ⟨⟨m, g2, g4.len⟩, g5, fun idx v hi hv => i.read rfl (by simp only [Vals.elt, h, g6, hi]; simpa using hv)⟩

theorem KInv.start (triv : Bool) (t : Types) (n : Nat) : KInv triv t (KProg.start n : KProg V) (List.replicate n none) := by
  have hg : ∀ (n i : Nat), StackH.var (List.replicate n none : StackH.Vars V) i = none := by
    intro n i; simp only [StackH.var, List.getElem?_replicate]; split <;> rfl
  have hg' : ∀ (n i : Nat), Vals.get (List.replicate n none : Vals V) i = none := by
    intro n i; simp only [Vals.get, List.getElem?_replicate]; split <;> rfl
  exact ⟨by simp [KProg.start], by simp [KProg.start], fun d _ => by simp only [KProg.start]; rw [hg, hg']; exact trivial, hg _ _⟩

/-! ### The statements -/

/-- The statement runs and does to the values what it should. -/
def KSteps (triv : Bool) (dflt : V) (t : Types) (s : KProg V) (a : Vals V) (op : VOp V) : Prop :=
  ∃ s', s.vstep triv dflt t op = some s' ∧ KInv triv t s' (vnext triv dflt (rankOf t.so) a (asCopy t op))

/-- Handle loops that fill raw memory. -/
theorem constructAll {q : StackH.Vars V} {d : Nat} (hd : d < q.length) {N : Nat} {f : Nat → StackH.Vars V → Option (Option V)} {l : List (Option V)} (hl : l.length = N)
    (hsome : triv = false → ∀ c ∈ l, c.isSome) (hf : ∀ j x, j < N → f j (q.set d (some x)) = l[j]?) :
    StackH.constructFrom triv d f N 0 (q.set d (some (List.replicate N none))) = some (q.set d (some l)) := by
  have := StackH.constructFrom_spec (triv := triv) (d := d) (p := q) hd (f := f) (l := l) (x := List.replicate N none) (by simp [hl])
    (fun h => ⟨fun c hc => List.eq_of_mem_replicate hc, hsome h⟩) (fun j hj => hf j _ (by omega)) N 0 (by omega)
  simpa using this

theorem new_rel {d : Nat} {m : IdxMap} (hm : LayOk t d m) {l : List (Option V)} (hl : l.length = capacity (t.ext d)) (hs : triv = false → ∀ c ∈ l, c.isSome) {el : List Int → Option V}
    (h : ∀ idx v, InRange (shapeOf t d) idx → el idx = some v → l[pos m idx]? = some (some v)) : KRel triv t d (some m) (some l) (some ⟨shapeOf t d, false, el⟩) :=
  ⟨m, rfl, hm, rfl, rfl, hl, hs, h⟩

variable (dflt : V)

theorem KInv.new_lt (i : KInv triv t s a) {d : Nat} (h : d < a.length ∧ a.get d = none) : d < s.lays.length ∧ d < s.vars.length ∧ StackH.var s.vars d = none :=
  ⟨by rw [← i.alen]; exact h.1, by rw [i.vlen, ← i.alen]; omega, i.var_none h.2⟩

theorem default_ok (ht : TypesOK t) (i : KInv true t s a) (d : Nat) (junk : List Int) : KSteps true dflt t s a (.default d junk) := by
  simp only [KSteps, KProg.vstep, vnext, asCopy, Vals.put]
  by_cases hf : s.free d = true
  · have hf' := i.free.mp hf
    obtain ⟨h1, h2, h3⟩ := i.new_lt hf'
    obtain ⟨m, hm⟩ := layOk ht d
    have hany : (t.ext d).any (· == 0) = false := by
      rw [List.any_eq_false]
      intro n hn
      have := (ht d).2.2 n hn
      simp; omega
    have hdef : IdxMap.default (t.so d) (t.ext d) .contiguous junk = some m := by
      rw [IdxMap.default, hany]
      exact hm.eq
    rw [if_pos hf, if_pos hf']
    simp only [hdef, Option.bind_eq_bind, Option.bind_some, KProg.withLay, StackH.step, h3, true_and, h2, if_true]
    exact ⟨_, rfl, i.update h1 (new_rel hm (by simp) (by intro h; cases h) (fun idx v _ h => by cases h))⟩
  · rw [if_neg hf, if_neg (fun h => hf (i.free.mpr h))]
    exact ⟨s, rfl, i⟩

theorem make_ok (ht : TypesOK t) (i : KInv triv t s a) (d : Nat) : KSteps triv dflt t s a (.make d (shapeOf t d)) := by
  simp only [KSteps, KProg.vstep, vnext, asCopy, Vals.put]
  by_cases hf : s.free d = true
  · have hf' := i.free.mp hf
    obtain ⟨h1, h2, h3⟩ := i.new_lt hf'
    obtain ⟨m, hm⟩ := layOk ht d
    have hsome : triv = false → ∀ c ∈ List.replicate (capacity (t.ext d)) (if triv then none else some dflt), c.isSome := by
      intro h c hc; rw [List.eq_of_mem_replicate hc, h]; rfl
    rw [if_pos hf, if_pos hf']
    simp only [hm.eq, Option.bind_eq_bind, Option.bind_some, KProg.withLay, StackH.step, h3, true_and, h2, if_true]
    rw [constructAll (triv := triv) h2 (l := List.replicate (capacity (t.ext d)) (if triv then none else some dflt)) (by simp) hsome (fun j x hj => by simp [hj])]
    refine ⟨_, rfl, i.update h1 (new_rel hm (by simp) hsome (fun idx v hi h => ?_))⟩
    rw [List.getElem?_replicate, if_pos (hm.call idx hi).2, h]
  · rw [if_neg hf, if_neg (fun h => hf (i.free.mpr h))]
    exact ⟨s, rfl, i⟩

theorem zeros_ok (ht : TypesOK t) (i : KInv true t s a) (d : Nat) : KSteps true dflt t s a (.zeros d (shapeOf t d)) := by
  simp only [KSteps, KProg.vstep, vnext, asCopy, Vals.put]
  by_cases hf : s.free d = true
  · have hf' := i.free.mp hf
    obtain ⟨h1, h2, h3⟩ := i.new_lt hf'
    obtain ⟨m, hm⟩ := layOk ht d
    rw [if_pos hf, if_pos hf']
    simp only [hm.eq, Option.bind_eq_bind, Option.bind_some, KProg.zeroed]
    rw [constructAll (triv := true) h2 (l := List.replicate (capacity (t.ext d)) (some dflt)) (by simp) (by intro h; cases h) (fun j x hj => by simp [hj])]
    refine ⟨_, rfl, i.update h1 (new_rel hm (by simp) (by intro h; cases h) (fun idx v hi h => ?_))⟩
    rw [List.getElem?_replicate, if_pos (hm.call idx hi).2, h]
  · rw [if_neg hf, if_neg (fun h => hf (i.free.mpr h))]
    exact ⟨s, rfl, i⟩

theorem LayOk.congr {d e : Nat} (h : t.so d = t.so e ∧ t.ext d = t.ext e) {m : IdxMap} (hm : LayOk t e m) : LayOk t d m := by
  have hs : shapeOf t d = shapeOf t e := by simp [shapeOf, h.2]
  exact ⟨by rw [hs, h.1, h.2]; exact hm.eq, by rw [hs]; exact hm.len, by rw [h.2]; exact hm.size, hm.wf, hm.small, by rw [hs, h.2]; exact hm.call, by rw [hs]; exact hm.inj, by rw [hs, h.2]; exact hm.surj⟩

theorem KRel.congr {d e : Nat} (h : t.so d = t.so e ∧ t.ext d = t.ext e) {m : Option IdxMap} {l : Option (List (Option V))} {x : Option (Val V)} (hr : KRel triv t e m l x) : KRel triv t d m l x := by
  have hs : shapeOf t d = shapeOf t e := by simp [shapeOf, h.2]
  cases l <;> cases x
  · trivial
  · exact hr.elim
  · exact hr.elim
  · obtain ⟨m', h1, h2, h3, h4, h5, h6⟩ := hr
    exact ⟨m', h1, h2.congr h, by rw [hs]; exact h3, h4, by rw [h.2]; exact h5, h6⟩

theorem KInv.krel (i : KInv triv t s a) {d : Nat} {x : Val V} (h : a.get d = some x) :
    ∃ m l, s.alive d = true ∧ d < s.lays.length ∧ s.lays[d]? = some m ∧ StackH.var s.vars d = some l ∧ l.length = capacity (t.ext d) ∧ (triv = false → ∀ c ∈ l, c.isSome) ∧
      KRel triv t d (some m) (some l) (some x) := by
  obtain ⟨m, l, g0, g1, g2, g3, g4, g5, g6, g7, g8, g9⟩ := i.alive h
  exact ⟨m, l, g0, g1, g2, g3, g7, g8, m, rfl, g4, g5, g6, g7, g8, g9⟩

theorem copy_ok' (i : KInv triv t s a) (d e : Nat) (hs : t.so d = t.so e ∧ t.ext d = t.ext e) :
    ∃ s', (if s.free d && s.alive e then do
      let m ← s.lays[e]?
      s.withLay triv dflt (capacity (t.ext d)) d m (.copy d e) else some s) = some s' ∧ KInv triv t s' (match a.get e with | some x => a.put d x | none => a) := by
  cases he : a.get e with
  | none =>
      simp only [i.dead he, Bool.and_false, Bool.false_eq_true, if_false]
      exact ⟨s, rfl, i⟩
  | some x =>
      obtain ⟨m, l, g0, g1, g2, g3, g4, g5, g6⟩ := i.krel he
      simp only [g0, Bool.and_true, Vals.put]
      by_cases hf : s.free d = true
      · have hf' := i.free.mp hf
        obtain ⟨h1, h2, h3⟩ := i.new_lt hf'
        have hne : e ≠ d := by rintro rfl; rw [h3] at g3; cases g3
        rw [if_pos hf, if_pos hf']
        simp only [g2, Option.bind_eq_bind, Option.bind_some, KProg.withLay, StackH.step, g3, h3, true_and, h2, if_true, StackH.assign]
        rw [constructAll (triv := triv) h2 (l := l) (by rw [g4, hs.2]) g5 (fun j x hj => by rw [var_set_ne hne, g3]; rfl)]
        exact ⟨_, rfl, i.update h1 (g6.congr hs)⟩
      · rw [if_neg hf, if_neg (fun h => hf (i.free.mpr h))]
        exact ⟨s, rfl, i⟩

theorem assign_ok' (i : KInv true t s a) (d e : Nat) (hs : t.so d = t.so e ∧ t.ext d = t.ext e) :
    ∃ s', (if s.alive d && s.alive e then do
      let m ← s.lays[e]?
      s.withLay true dflt (capacity (t.ext d)) d m (.assign d e) else some s) = some s' ∧ KInv true t s' (match a.get e with | some x => a.upd d x | none => a) := by
  cases he : a.get e with
  | none =>
      simp only [i.dead he, Bool.and_false, Bool.false_eq_true, if_false]
      exact ⟨s, rfl, i⟩
  | some x =>
      obtain ⟨m, l, g0, g1, g2, g3, g4, g5, g6⟩ := i.krel he
      simp only [g0, Bool.and_true, Vals.upd]
      cases hd : a.get d with
      | none =>
          simp only [i.dead hd, Bool.false_eq_true, if_false, if_true]
          exact ⟨s, rfl, i⟩
      | some y =>
          obtain ⟨m', l', j0, j1, j2, j3, j4, j5, j6⟩ := i.krel hd
          have hlt : d < s.vars.length := StackH.lt_of_var j3
          simp only [j0, if_true, g2, Option.bind_eq_bind, Option.bind_some, KProg.withLay, StackH.step, g3, j3, StackH.assign, reduceCtorEq, if_false]
          have hc := StackH.constructFrom_spec (triv := true) (d := d) (p := s.vars) hlt (f := fun i p => do let y ← StackH.var p e; y[i]?) (l := l) (x := l')
            (by rw [j4, g4, hs.2]) (fun ht => by cases ht) (fun j hj => by
              by_cases hde : e = d
              · subst hde
                rw [g3] at j3; cases j3
                rw [List.take_append_drop, set_same g3, g3]; rfl
              · rw [var_set_ne hde, g3]; rfl) (capacity (t.ext d)) 0 (by rw [g4, hs.2]; omega)
          simp only [List.take_zero, List.drop_zero, List.nil_append, set_same j3, Option.bind_eq_bind] at hc
          rw [hc]
          exact ⟨_, rfl, i.update j1 (g6.congr hs)⟩

theorem resize_ok' (ht : TypesOK t) (i : KInv triv t s a) {d : Nat} {x : Val V} (hx : a.get d = some x) : s.resize triv dflt t d (shapeOf t d) = some s := by
  obtain ⟨m, l, g0, g1, g2, g3, g4, g5, g6, g7, g8, g9⟩ := i.alive hx
  have e : s.lays.set d m = s.lays := by
    obtain ⟨h1, h2⟩ := List.getElem?_eq_some_iff.mp g2
    rw [← h2]; exact List.set_getElem_self h1
  simp only [KProg.resize, g4.eq, Option.bind_eq_bind, Option.bind_some, g4.size, ne_eq, not_true_eq_false, if_false, e]
  rfl

theorem resize_ok (ht : TypesOK t) (i : KInv triv t s a) (d : Nat) : KSteps triv dflt t s a (.resize d (shapeOf t d)) := by
  simp only [KSteps, KProg.vstep, vnext, asCopy]
  cases hd : a.get d with
  | none =>
      simp only [i.dead hd, Bool.false_eq_true, if_false]
      exact ⟨s, rfl, i⟩
  | some x =>
      obtain ⟨m, l, g0, g1, g2, g3, g4, g5, g6, g7, g8, g9⟩ := i.alive hd
      rw [if_pos g0, resize_ok' dflt ht i hd]
      refine ⟨s, rfl, ?_⟩
      have := i.update' g2 (l := some l) (new_rel (el := fun idx => if x.moved = false ∧ x.shape = shapeOf t d then x.el idx else none) g4 g7 g8 (fun idx v hi h => by
        simp only [g6, g5, and_self, if_true] at h
        exact g9 idx v (by rw [g5]; exact hi) h))
      rw [set_same g3] at this
      exact this

theorem destroy_ok (i : KInv triv t s a) (d : Nat) : KSteps triv dflt t s a (.destroy d) := by
  simp only [KSteps, KProg.vstep, vnext, asCopy]
  cases hd : a.get d with
  | none =>
      simp only [i.dead hd, Bool.false_eq_true, if_false]
      refine ⟨s, rfl, ?_⟩
      have : a.set d none = a := by
        apply List.ext_getElem?
        intro j
        by_cases hj : j = d
        · subst hj
          by_cases hl : j < a.length
          · rw [List.getElem?_set_self hl]
            have h' := hd
            rw [Vals.get, List.getElem?_eq_getElem hl] at h'
            rw [List.getElem?_eq_getElem hl]; exact congrArg some h'.symm
          · rw [List.getElem?_eq_none (by simp; omega), List.getElem?_eq_none (by omega)]
        · rw [List.getElem?_set_ne (Ne.symm hj)]
      rw [this]; exact i
  | some x =>
      obtain ⟨m, l, g0, g1, g2, g3, g4, g5, g6, g7, g8, g9⟩ := i.alive hd
      have hn : ¬ (triv = false ∧ l.any Option.isNone = true) := by
        rintro ⟨h1, h2⟩
        obtain ⟨c, hc, hn⟩ := List.any_eq_true.mp h2
        have := g8 h1 c hc
        rw [Option.isNone_iff_eq_none.mp hn] at this; cases this
      simp only [g0, if_true, StackH.step, g3, Option.bind_eq_bind, if_neg hn, Option.bind_some]
      exact ⟨_, rfl, i.update' g2 (l := none) (x := none) trivial⟩

/-- All elements of `d`. -/
theorem assignAll_ok {put : StackH.Vars V → Nat → Int → V → Option (StackH.Vars V)} {ok : Option V → Prop} (hput : Puts put ok) {d : Nat} {m : IdxMap} (hm : LayOk t d m)
    {q : StackH.Vars V} {l : List (Option V)} (hl : StackH.var q d = some l) (hlen : l.length = capacity (t.ext d)) (hok : ∀ c ∈ l, ok c) (rhs : List Int → Comp V)
    (w : List Int → Option V) (hw : ∀ idx, InRange (shapeOf t d) idx → (w idx).isSome)
    (hf : ∀ idx, InRange (shapeOf t d) idx → ∀ l' : List (Option V), l'.length = l.length → l'[pos m idx]? = l[pos m idx]? → (rhs idx).eval (s.elemIn (q.set d (some l'))) = w idx) :
    ∃ l', KProg.assignAll put s m d rhs q = some (q.set d (some l')) ∧ l'.length = capacity (t.ext d) ∧ (∀ c ∈ l', c.isSome) ∧
      ∀ idx, InRange (shapeOf t d) idx → l'[pos m idx]? = some (w idx) := by
  obtain ⟨l', e1, e2, -, -, e5⟩ := writeLoop hput hl hok m 0 (shapeOf t d) (pos m) (fun idx hi => ⟨_, (hm.call idx hi).1, by omega, by have := (hm.call idx hi).2; omega⟩) hm.inj
    (fun idx q => (rhs idx).eval (s.elemIn q)) w hw (fun idx hi l' h1 _ h3 => hf idx hi l' h1 h3)
  refine ⟨l', ?_, by omega, fun c hc => ?_, e5⟩
  · simp only [Int.zero_add] at e1
    rw [KProg.assignAll, hm.len]; exact e1
  · obtain ⟨k, hk, rfl⟩ := List.mem_iff_getElem.mp hc
    obtain ⟨idx, hi, hp⟩ := hm.surj k (by omega)
    have := e5 idx hi
    rw [hp, List.getElem?_eq_getElem hk] at this
    rw [Option.some.inj this]; exact hw idx hi

theorem build_ok (ht : TypesOK t) (i : KInv triv t s a) (d : Nat) (rhs : List Int → Comp V) (hr : ∀ idx, InRange (shapeOf t d) idx → ((rhs idx).eval a.elt).isSome) :
    KSteps triv dflt t s a (.build d (shapeOf t d) rhs) := by
  simp only [KSteps, KProg.vstep, vnext, asCopy, Vals.put]
  by_cases hf : s.free d = true
  · have hf' := i.free.mp hf
    obtain ⟨h1, h2, h3⟩ := i.new_lt hf'
    obtain ⟨m, hm⟩ := layOk ht d
    rw [if_pos hf, if_pos hf']
    simp only [hm.eq, Option.bind_eq_bind, Option.bind_some]
    have hread : ∀ idx, InRange (shapeOf t d) idx → ∀ l' : List (Option V),
        (rhs idx).eval (s.elemIn ((s.vars.set d (some (List.replicate (capacity (t.ext d)) none))).set d (some l'))) = (rhs idx).eval a.elt := by
      intro idx hi l'
      obtain ⟨v, hv⟩ := Option.isSome_iff_exists.mp (hr idx hi)
      rw [hv]
      refine Comp.eval_mono (fun z jdx u hu => i.read ?_ hu) hv
      have hz : z ≠ d := by
        rintro rfl
        obtain ⟨w, k1, -⟩ := Vals.elt_some hu
        rw [hf'.2] at k1; cases k1
      rw [List.set_set, var_set_ne hz]
    have key : ∀ (put : StackH.Vars V → Nat → Int → V → Option (StackH.Vars V)) (ok : Option V → Prop), Puts put ok → ok none →
        ∃ l', KProg.assignAll put s m d rhs (s.vars.set d (some (List.replicate (capacity (t.ext d)) none))) = some (s.vars.set d (some l')) ∧
          KInv triv t ⟨s.vars.set d (some l'), s.lays.set d m⟩ (a.set d (some ⟨shapeOf t d, false, fun idx => (rhs idx).eval a.elt⟩)) := by
      intro put ok hput hok
      obtain ⟨l', e1, e2, e3, e4⟩ := assignAll_ok (s := s) hput hm (var_set_self h2 _) (by simp) (fun c hc => by rw [List.eq_of_mem_replicate hc]; exact hok) rhs
        (fun idx => (rhs idx).eval a.elt) hr (fun idx hi l' _ _ => hread idx hi l')
      rw [List.set_set] at e1
      exact ⟨l', e1, i.update h1 (new_rel hm e2 (fun _ => e3) (fun idx v hi h => by rw [e4 idx hi]; exact congrArg some h))⟩
    cases triv with
    | true =>
        obtain ⟨l', e1, e2⟩ := key _ _ (puts_write true) (by intro h; cases h)
        simp only [if_true, e1, Option.bind_some]
        exact ⟨_, rfl, e2⟩
    | false =>
        obtain ⟨l', e1, e2⟩ := key _ _ puts_place rfl
        simp only [Bool.false_eq_true, if_false, e1, Option.bind_some]
        exact ⟨_, rfl, e2⟩
  · rw [if_neg hf, if_neg (fun h => hf (i.free.mpr h))]
    exact ⟨s, rfl, i⟩

theorem assign_ok (ht : TypesOK t) (i : KInv triv t s a) (d : Nat) (rhs : List Int → Comp V)
    (hr : ∀ idx, InRange (shapeOf t d) idx → ((rhs idx).eval (a.eltAssign d (shapeOf t d) idx)).isSome) : KSteps triv dflt t s a (.assign d (shapeOf t d) rhs) := by
  simp only [KSteps, KProg.vstep, vnext, asCopy, Vals.upd]
  cases hd : a.get d with
  | none =>
      simp only [i.dead hd, Bool.false_eq_true, if_false, if_true]
      exact ⟨s, rfl, i⟩
  | some x =>
      obtain ⟨m, l, g0, g1, g2, g3, g4, g5, g6, g7, g8, g9⟩ := i.alive hd
      simp only [g0, if_true, resize_ok' dflt ht i hd, Option.bind_eq_bind, Option.bind_some, g2, reduceCtorEq, if_false]
      obtain ⟨l', e1, e2, e3, e4⟩ := assignAll_ok (s := s) (puts_write triv) g4 g3 g7 (fun c hc h => g8 h c hc) rhs (fun idx => (rhs idx).eval (a.eltAssign d (shapeOf t d) idx)) hr
        (fun idx hi l' hl' hsame => by
          obtain ⟨v, hv⟩ := Option.isSome_iff_exists.mp (hr idx hi)
          rw [hv]
          refine Comp.eval_mono (fun z jdx u hu => ?_) hv
          simp only [Vals.eltAssign] at hu
          split at hu
          · cases hu
          · rename_i hc
            by_cases hz : z = d
            · subst hz
              simp only [true_and, not_not] at hc
              obtain ⟨rfl, -⟩ := hc
              obtain ⟨w, k1, k2, k3, k4⟩ := Vals.elt_some hu
              rw [hd] at k1; cases k1
              rw [elemIn_cell g2 (g4.call jdx hi).1 (var_set_self (StackH.lt_of_var g3) _), hsame, g9 jdx u k3 k4]; rfl
            · exact i.read (var_set_ne hz _) hu)
      rw [e1]
      exact ⟨_, rfl, i.update' g2 (new_rel g4 e2 (fun _ => e3) (fun idx v hi h => by rw [e4 idx hi]; exact congrArg some h))⟩

theorem fill_ok (i : KInv triv t s a) (d : Nat) (v : V) : KSteps triv dflt t s a (.fill d v) := by
  simp only [KSteps, KProg.vstep, vnext, asCopy]
  cases hd : a.get d with
  | none =>
      simp only [i.dead hd, Bool.false_eq_true, if_false]
      exact ⟨s, rfl, i⟩
  | some x =>
      obtain ⟨m, l, g0, g1, g2, g3, g4, g5, g6, g7, g8, g9⟩ := i.alive hd
      simp only [g0, if_true, g2, Option.bind_eq_bind, Option.bind_some, g4.size, forLoop]
      obtain ⟨l', e1, e2, e3, e4, e5⟩ := fold_set (fun cells => s.vars.set d (some cells)) (fun (k : Nat) q => KProg.writeAt triv q d (Int.ofNat k) v) id (fun _ => some v) l
        (List.range (capacity (t.ext d))) (by simpa using List.nodup_range) (fun k hk => by have := List.mem_range.mp hk; simp only [id]; omega) (fun _ _ => rfl)
        (fun k hk cells hl' _ _ hsame => by
          have hk' := List.mem_range.mp hk
          have hkl : k < l.length := by omega
          rw [show KProg.writeAt triv _ d (Int.ofNat k) v = _ from puts_write triv _ d k v cells l[k] (var_set_self (StackH.lt_of_var g3) _)
            (by rw [show cells[k]? = l[k]? from hsame, List.getElem?_eq_getElem hkl]) (fun h => g8 h _ (List.getElem_mem hkl)), List.set_set]
          rfl)
      rw [set_same g3] at e1
      simp only [Int.toNat_natCast]
      rw [e1]
      refine ⟨_, rfl, i.update' g2 ⟨m, rfl, g4, g5, g6, by omega, fun h c hc => ?_, fun idx u hi hu => ?_⟩⟩
      · obtain ⟨k, hk, rfl⟩ := List.mem_iff_getElem.mp hc
        have := e5 k (List.mem_range.mpr (by omega))
        rw [show (id k) = k from rfl, List.getElem?_eq_getElem hk] at this
        rw [Option.some.inj this]; rfl
      · simp only at hi hu
        rw [show l'[pos m idx]? = _ from e5 (pos m idx) (List.mem_range.mpr (g4.call idx (by rw [← g5]; exact hi)).2)]; exact congrArg some hu

theorem put_ok (i : KInv triv t s a) (d : Nat) (ops : List Op) (ext : List Int) (rhs : List Int → Comp V)
    (hr : ∀ x, a.get d = some x → x.moved = false ∧ ChainAllowed x.shape ops ∧ ChainShape x.shape ops ext ∧
      ∀ idx, InRange ext idx → ((rhs idx).eval (a.eltPut d x.shape.length ops ext idx)).isSome) : KSteps triv dflt t s a (.put d ops ext rhs) := by
  simp only [KSteps, KProg.vstep, vnext, asCopy]
  cases hd : a.get d with
  | none =>
      simp only [i.dead hd, Bool.false_eq_true, if_false]
      exact ⟨s, rfl, i⟩
  | some x =>
      obtain ⟨-, hca, hcs, hval⟩ := hr x hd
      obtain ⟨m, l, g0, g1, g2, g3, g4, g5, g6, g7, g8, g9⟩ := i.alive hd
      have j6 : m.len = x.shape := by rw [g4.len, g5]
      simp only [g0, if_true, KProg.putAll, g2, Option.bind_eq_bind, Option.bind_some]
      obtain ⟨v, r1, r2, r3, r4, r5, r6⟩ := run_facts (v := ⟨0, m⟩) (os := ops) g4.wf g4.small (by rw [j6]; exact hca)
      have r7 := run_shape (v := ⟨0, m⟩) (os := ops) g4.wf g4.small (by rw [j6]; exact hca) r1
      simp only [j6, Int.zero_add] at r4 r5 r6 r7
      have hext : v.lay.len = ext := Programs.chainShape_unique hca r7 hcs
      rw [hext] at r4 r5 r6
      have hin : ∀ idx, InRange x.shape idx → InRange (shapeOf t d) idx := fun idx h => by rw [← g5]; exact h
      have hcall : ∀ jdx, InRange x.shape jdx → offset m jdx = (pos m jdx : Int) := by
        intro jdx hj
        have h1 := (g4.call jdx (hin _ hj)).1
        rw [call_idx g4.wf g4.small jdx (by rw [j6]; exact hj.length_eq)] at h1
        exact Option.some.inj h1
      have hinj : ∀ idx jdx, InRange x.shape idx → InRange x.shape jdx → pos m idx = pos m jdx → idx = jdx := fun idx jdx hi hj => g4.inj idx jdx (hin _ hi) (hin _ hj)
      obtain ⟨l', e1, e2, e3, e4, e5⟩ := writeLoop (puts_write triv) g3 (fun c hc h => g8 h c hc) v.lay v.off ext (fun idx => pos m (sourceChain x.shape.length ops idx))
        (fun idx hi => ⟨offset v.lay idx, call_idx r2 r3 idx (by rw [hext]; exact hi.length_eq), by rw [r6 idx hi]; exact hcall _ (r4 idx hi), by
          have := (g4.call _ (hin _ (r4 idx hi))).2; omega⟩)
        (fun idx jdx hi hj e => r5 idx jdx hi hj (hinj _ _ (r4 idx hi) (r4 jdx hj) e)) (fun idx q => (rhs idx).eval (s.elemIn q))
        (fun idx => (rhs idx).eval (a.eltPut d x.shape.length ops ext idx)) hval
        (fun idx hi l' hl' hout hsame => by
          obtain ⟨v, hv⟩ := Option.isSome_iff_exists.mp (hval idx hi)
          rw [hv]
          refine Comp.eval_mono (fun z jdx u hu => ?_) hv
          simp only [Vals.eltPut] at hu
          split at hu
          · cases hu
          · rename_i hc
            by_cases hz : z = d
            · subst hz
              obtain ⟨w, k1, k2, k3, k4⟩ := Vals.elt_some hu
              rw [hd] at k1; cases k1
              have hsame' : l'[pos m jdx]? = l[pos m jdx]? := by
                by_cases hn : inView x.shape.length ops ext jdx = none
                · exact hout _ (fun kdx hk e => inView_none hn hk (hinj _ _ (r4 kdx hk) k3 e))
                · by_cases hn' : inView x.shape.length ops ext jdx = some idx
                  · rw [← (inView_some hn').2]; exact hsame
                  · exact absurd ⟨rfl, hn, hn'⟩ hc
              rw [elemIn_cell g2 (g4.call jdx (hin _ k3)).1 (var_set_self (StackH.lt_of_var g3) _), hsame', g9 jdx u k3 k4]; rfl
            · exact i.read (var_set_ne hz _) hu)
      refine ⟨⟨s.vars.set d (some l'), s.lays⟩, ?_, i.update' g2 ⟨m, rfl, g4, g5, g6, by omega, fun h c hc => ?_, fun jdx u hj hu => ?_⟩⟩
      · rw [r1, Option.bind_some, hext]
        simp only [Option.bind_eq_bind] at e1
        rw [e1]; rfl
      · obtain ⟨k, hk, rfl⟩ := List.mem_iff_getElem.mp hc
        rcases e4 k with h1 | ⟨v, h1⟩
        · rw [List.getElem?_eq_getElem hk, List.getElem?_eq_getElem (by omega)] at h1
          rw [Option.some.inj h1]; exact g8 h _ (List.getElem_mem _)
        · rw [List.getElem?_eq_getElem hk] at h1
          rw [Option.some.inj h1]; rfl
      · simp only at hj hu
        simp only [putEl] at hu
        cases hn : inView x.shape.length ops ext jdx with
        | some idx =>
            rw [hn] at hu
            obtain ⟨k1, k2⟩ := inView_some hn
            rw [← k2, e5 idx k1]
            exact congrArg some hu
        | none =>
            rw [hn] at hu
            rw [e3 _ (fun kdx hk e => inView_none hn hk (hinj _ _ (r4 kdx hk) hj e))]
            exact g9 jdx u hj hu

/-- One statement. -/
theorem KInv.step (ht : TypesOK t) (i : KInv triv t s a) (op : VOp V) (h : Spec.KAllowed triv t a op) : KSteps triv dflt t s a op := by
  cases op with
  | default d junk => simp only [Spec.KAllowed] at h; subst h; exact default_ok dflt ht i d junk
  | make d shape => simp only [Spec.KAllowed] at h; subst h; exact make_ok dflt ht i d
  | zeros d shape => obtain ⟨h1, h2⟩ := h; subst h1 h2; exact zeros_ok dflt ht i d
  | build d shape rhs => obtain ⟨h1, -, h2⟩ := h; subst h1; exact build_ok dflt ht i d rhs h2
  | copy d e => exact copy_ok' dflt i d e h
  | move d e => exact copy_ok' dflt i d e h
  | copyAssign d e => obtain ⟨h1, h2⟩ := h; subst h1; exact assign_ok' dflt i d e h2
  | moveAssign d e => obtain ⟨h1, h2⟩ := h; subst h1; exact assign_ok' dflt i d e h2
  | resize d shape => simp only [Spec.KAllowed] at h; subst h; exact resize_ok dflt ht i d
  | assign d shape rhs => obtain ⟨h1, -, h2⟩ := h; subst h1; exact assign_ok dflt ht i d rhs h2
  | fill d v => exact fill_ok dflt i d v
  | put d ops ext rhs => exact put_ok dflt i d ops ext rhs h
  | destroy d => exact destroy_ok dflt i d

end

theorem KInv.run {triv : Bool} {t : Types} (dflt : V) (ht : TypesOK t) : ∀ {ops : List (VOp V)} {s : KProg V} {a : Vals V}, KInv triv t s a → Spec.KAllowedRun triv dflt t a ops →
    ∃ s', s.vrun triv dflt t ops = some s' ∧ KInv triv t s' (kfinal triv dflt t a ops)
  | [], s, a, i, _ => ⟨s, rfl, i⟩
  | op :: ops, s, a, i, h => by
      obtain ⟨s1, h1, h2⟩ := i.step dflt ht op h.1
      obtain ⟨s2, h3, h4⟩ := KInv.run dflt ht h2 h.2
      refine ⟨s2, ?_, h4⟩
      rw [KProg.vrun, List.foldlM_cons, h1]; exact h3

end Nda.StackArr
