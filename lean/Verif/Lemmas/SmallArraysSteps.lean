import Verif.Lemmas.SmallArrays
/-!
# Arrays with small-buffer storage as values: the statements
-/
namespace Nda.SmallArr
open Nda Nda.Mem Nda.Spec Nda.Arr Nda.Arr.Spec Loops Nda.Perm LayoutTransforms Nda.IdxMap Nda.Slice Nda.Mem.SProg

variable {V : Type} {K : Nat} {so : Nat → List Nat} {s : SAProg V} {a : Arr.Spec.Vals V} {c : Cells V}

/-- The statement runs and does to the values what it should. -/
def SSteps (K : Nat) (dflt : V) (so : Nat → List Nat) (s : SAProg V) (a : Arr.Spec.Vals V) (op : VOp V) : Prop :=
  ∃ s' c', s.vstep K dflt so op = some s' ∧ SInv K so s' (vnext true dflt (rankOf so) a op) c'

theorem SInv.withLay (dflt : V) (i : SInv K so s a c) {d : Nat} (hd : d < s.lays.length) {op : SOp V} (hop : Mem.Spec.SAllowed true K c op) {m : IdxMap}
    {l : Option (List (Option V))} {x : Option (Val V)} (hc : Mem.Spec.sstep true dflt c op = c.set d l) (h : CRel (so d) (some m) l x) :
    ∃ s', s.withLay K dflt d m op = some s' ∧ SInv K so s' (a.set d x) (c.set d l) ∧ s'.lays = s.lays.set d m ∧ s.prog.step true K dflt op = some s'.prog := by
  obtain ⟨q, h1, h2⟩ := i.rep.step dflt op hop
  rw [hc] at h2
  exact ⟨⟨q, s.lays.set d m⟩, by simp [SAProg.withLay, h1], i.update hd h2 h, rfl, h1⟩

theorem SInv.guard (i : SInv K so s a c) {d : Nat} (hf : d < a.length ∧ a.get d = none) : c.get d = none ∧ d < c.length :=
  ⟨i.cells_none hf.2, by rw [i.clen, ← i.alen]; omega⟩

theorem default_ok (dflt : V) (hso : ∀ i, IsPerm (so i)) (hne : ∀ i, so i ≠ []) (i : SInv K so s a c) (d : Nat) (junk : List Int) (hj : junk.length = (so d).length) :
    SSteps K dflt so s a (.default d junk) := by
  simp only [SSteps, SAProg.vstep, vnext, rankOf]
  by_cases hf : s.free d = true
  · have hf' := i.free.mp hf
    have hd : d < s.lays.length := by rw [← i.alen]; exact hf'.1
    have hany : (List.replicate (so d).length 0).any (· == 0) = true := by
      cases hsd : so d with
      | nil => exact absurd hsd (hne d)
      | cons x xs => simp [List.replicate_succ]
    rw [if_pos hf, put_set hf']
    rw [IdxMap.default, if_pos hany]
    simp only [Option.bind_eq_bind, Option.bind_some]
    obtain ⟨s', h1, h2, -⟩ := i.withLay dflt hd (op := .new d 0) trivial (m := { len := mkInit (so d).length 0, str := junk, so := so d, se := List.replicate (so d).length 0, prop := .contiguous })
      (l := some []) (x := some ⟨List.replicate (so d).length 0, false, fun _ => none⟩)
      (by simp only [Mem.Spec.sstep, if_pos (i.guard hf')]; rfl)
      ⟨_, rfl, by simp [mkInit], isShape_zero _, ⟨hso d, by simp [mkInit], by simp [mkInit, hj], by simp [mkInit]⟩, by
        right
        cases hsd : so d with
        | nil => exact absurd hsd (hne d)
        | cons x xs => simp [List.replicate_succ, prod], by
        cases hsd : so d with
        | nil => exact absurd hsd (hne d)
        | cons x xs => simp [List.replicate_succ, prod], fun _ idx v _ h => by cases h⟩
    exact ⟨s', _, h1, h2⟩
  · rw [if_neg hf, put_same (fun h => hf (i.free.mpr h))]
    exact ⟨s, c, rfl, i⟩

/-- Construction of an array of this shape from a handle that holds `l`. -/
theorem SInv.make (dflt : V) (hso : ∀ i, IsPerm (so i)) (i : SInv K so s a c) {d : Nat} (hf' : d < a.length ∧ a.get d = none) {shape : List Int} (hs : IsShape (so d) shape) {op : SOp V}
    (hop : Mem.Spec.SAllowed true K c op) {l : List (Option V)} (hc : Mem.Spec.sstep true dflt c op = c.set d (some l)) (hl : l.length = (prod shape).toNat) {el : List Int → Option V}
    (hel : ∀ m, layoutOf (so d) shape = some m → ∀ idx v, InRange shape idx → pos m idx < l.length → el idx = some v → l[pos m idx]? = some (some v)) {m : IdxMap} (hm : layoutOf (so d) shape = some m) :
    ∃ s', s.withLay K dflt d m op = some s' ∧ SInv K so s' (a.set d (some ⟨shape, false, el⟩)) (c.set d (some l)) ∧ s'.lays = s.lays.set d m ∧ s.prog.step true K dflt op = some s'.prog := by
  have hd : d < s.lays.length := by rw [← i.alen]; exact hf'.1
  obtain ⟨m', g1, g2, g3, g4, g5, -⟩ := layoutOf_spec (hso d) hs
  rw [hm] at g1; cases g1
  exact i.withLay dflt hd hop hc ⟨m, rfl, g2, hs, layoutOf_wf (hso d) hs hm, Or.inl hm, by simp only [Bool.false_eq_true, if_false]; omega,
    fun _ idx v hi hv => hel m hm idx v hi (by rw [hl]; exact (g5 idx hi).2) hv⟩

theorem make_ok (dflt : V) (hso : ∀ i, IsPerm (so i)) (i : SInv K so s a c) (d : Nat) {shape : List Int} (hs : IsShape (so d) shape) : SSteps K dflt so s a (.make d shape) := by
  simp only [SSteps, SAProg.vstep, vnext]
  by_cases hf : s.free d = true
  · have hf' := i.free.mp hf
    obtain ⟨m, g1, g2, g3, g4, -⟩ := layoutOf_spec (hso d) hs
    rw [if_pos hf, put_set hf']
    simp only [g1, Option.bind_eq_bind, Option.bind_some]
    rw [if_neg (by omega), g3]
    obtain ⟨s', h1, h2, -⟩ := i.make dflt hso hf' hs (op := .new d (prod shape).toNat) trivial (l := List.replicate (prod shape).toNat none)
      (by simp only [Mem.Spec.sstep, if_pos (i.guard hf')]; rfl) (by simp) (el := fun _ => if true then none else some dflt) (fun m hm idx v hi hk hv => by simp at hv) g1
    exact ⟨s', _, h1, h2⟩
  · rw [if_neg hf, put_same (fun h => hf (i.free.mpr h))]
    exact ⟨s, c, rfl, i⟩

theorem zeros_ok (dflt : V) (hso : ∀ i, IsPerm (so i)) (i : SInv K so s a c) (d : Nat) {shape : List Int} (hs : IsShape (so d) shape) : SSteps K dflt so s a (.zeros d shape) := by
  simp only [SSteps, SAProg.vstep, vnext]
  by_cases hf : s.free d = true
  · have hf' := i.free.mp hf
    obtain ⟨m, g1, g2, g3, g4, -⟩ := layoutOf_spec (hso d) hs
    rw [if_pos hf, put_set hf']
    simp only [g1, Option.bind_eq_bind, Option.bind_some]
    rw [if_neg (by omega), g3]
    obtain ⟨s', h1, h2, -⟩ := i.make dflt hso hf' hs (op := .newZero d (prod shape).toNat) trivial (l := List.replicate (prod shape).toNat (some dflt))
      (by simp only [Mem.Spec.sstep, if_pos (i.guard hf')]) (by simp) (el := fun _ => some dflt) (fun m hm idx v hi hk hv => by
        rw [List.length_replicate] at hk
        rw [List.getElem?_replicate, if_pos hk]; exact congrArg some hv) g1
    exact ⟨s', _, h1, h2⟩
  · rw [if_neg hf, put_same (fun h => hf (i.free.mpr h))]
    exact ⟨s, c, rfl, i⟩

/-- The relation is about the value and the stride order only. -/
theorem CRel.moved {o : List Nat} {m : Option IdxMap} {l : List (Option V)} {x : Val V} (h : CRel o m (some l) (some x)) :
    CRel o m (some []) (some (⟨x.shape, true, fun _ => none⟩ : Val V)) := by
  obtain ⟨m', h1, h2, h3, h4, h5, -, -⟩ := h
  exact ⟨m', h1, h2, h3, h4, h5, rfl, fun h => by cases h⟩

theorem SInv.crel (i : SInv K so s a c) {d : Nat} {x : Val V} (h : a.get d = some x) :
    ∃ m l, s.lays[d]? = some m ∧ c.get d = some l ∧ d < s.lays.length ∧ s.alive d = true ∧ CRel (so d) (some m) (some l) (some x) := by
  obtain ⟨m, y, l, g0, g1, g2, g3, g4, g5, g6⟩ := i.alive h
  exact ⟨m, l, g2, g4, g1, g0, m, rfl, g6⟩

theorem copy_ok (dflt : V) (i : SInv K so s a c) (d t : Nat) (hs : so d = so t) : SSteps K dflt so s a (.copy d t) := by
  simp only [SSteps, SAProg.vstep, vnext]
  cases ht : a.get t with
  | none =>
      simp only [i.dead ht, Bool.and_false, Bool.false_eq_true, if_false]
      exact ⟨s, c, rfl, i⟩
  | some x =>
      obtain ⟨m, l, g1, g2, g3, g4, g5⟩ := i.crel ht
      by_cases hf : s.free d = true
      · have hf' := i.free.mp hf
        have hd : d < s.lays.length := by rw [← i.alen]; exact hf'.1
        simp only [hf, g4, Bool.and_self, if_true, g1, Option.bind_eq_bind, Option.bind_some]
        rw [put_set hf']
        obtain ⟨s', h1, h2, -⟩ := i.withLay dflt hd (op := .copy d t) trivial (m := m) (l := some l) (x := some x)
          (by simp only [Mem.Spec.sstep, g2, if_pos (i.guard hf')]) (by rw [hs]; exact g5)
        exact ⟨s', _, h1, h2⟩
      · simp only [hf, Bool.false_and, Bool.false_eq_true, if_false]
        rw [put_same (fun h => hf (i.free.mpr h))]
        exact ⟨s, c, rfl, i⟩

/-- Two arrays change. -/
theorem SInv.withLay2 (dflt : V) (i : SInv K so s a c) {d t : Nat} (hd : d < s.lays.length) {op : SOp V} (hop : Mem.Spec.SAllowed true K c op) {m : IdxMap}
    {l : List (Option V)} {x : Val V} (ht : a.get t = some x) (hm : s.lays[t]? = some m) (hl : c.get t = some l) (hs : so d = so t)
    (hc : Mem.Spec.sstep true dflt c op = (c.set d (some l)).set t (some [])) :
    ∃ s' c', s.withLay K dflt d m op = some s' ∧ SInv K so s' ((a.set d (some x)).set t (some ⟨x.shape, true, fun _ => none⟩)) c' := by
  obtain ⟨q, h1, h2⟩ := i.rep.step dflt op hop
  rw [hc] at h2
  obtain ⟨m', l', g1, g2, g3, g4, g5⟩ := i.crel ht
  rw [hm] at g1; cases g1
  rw [hl] at g2; cases g2
  refine ⟨⟨q, s.lays.set d m⟩, _, by simp [SAProg.withLay, h1], h2, by simp [i.clen], by simp [i.alen], ?_, fun e he => ?_⟩
  · simp only [List.length_set]
    rw [SProg.get_set_ne (by omega), SProg.get_set_ne (by omega)]; exact i.tmp
  · simp only [List.length_set] at he
    by_cases het : e = t
    · subst het
      rw [SProg.get_set_self (by simp only [List.length_set]; rw [i.clen]; omega), set_get_self (by simp only [List.length_set]; rw [i.alen]; exact he)]
      have : (s.lays.set d m)[e]? = some m := by
        by_cases hde : d = e
        · subst hde; simp [he]
        · rw [List.getElem?_set_ne hde]; exact hm
      simp only [this]
      exact g5.moved
    · rw [SProg.get_set_ne het, set_get_ne het]
      by_cases hde : e = d
      · subst hde
        rw [SProg.get_set_self (by rw [i.clen]; omega), set_get_self (by rw [i.alen]; exact he)]
        simp only [List.getElem?_set_self he]
        rw [hs]; exact g5
      · rw [SProg.get_set_ne hde, set_get_ne hde]
        simp only [List.getElem?_set_ne (Ne.symm hde)]
        exact i.rel e he

theorem move_ok (dflt : V) (i : SInv K so s a c) (d t : Nat) (hs : so d = so t) : SSteps K dflt so s a (.move d t) := by
  simp only [SSteps, SAProg.vstep, vnext]
  cases ht : a.get t with
  | none =>
      simp only [i.dead ht, Bool.and_false, Bool.false_eq_true, if_false]
      exact ⟨s, c, rfl, i⟩
  | some x =>
      obtain ⟨m, l, g1, g2, g3, g4, g5⟩ := i.crel ht
      by_cases hf : s.free d = true
      · have hf' := i.free.mp hf
        have hd : d < s.lays.length := by rw [← i.alen]; exact hf'.1
        simp only [hf, g4, Bool.and_self, if_true, g1, Option.bind_eq_bind, Option.bind_some, if_pos hf']
        obtain ⟨s', c', h1, h2⟩ := i.withLay2 dflt hd (op := .move d t) (fun h => by cases h) ht g1 g2 hs
          (by simp only [Mem.Spec.sstep, g2, if_pos (i.guard hf')])
        exact ⟨s', c', h1, h2⟩
      · simp only [hf, Bool.false_and, Bool.false_eq_true, if_false]
        rw [if_neg (fun h => hf (i.free.mpr h))]
        exact ⟨s, c, rfl, i⟩

theorem moveAssign_ok (dflt : V) (i : SInv K so s a c) (d t : Nat) (hs : so d = so t) : SSteps K dflt so s a (.moveAssign d t) := by
  simp only [SSteps, SAProg.vstep, vnext]
  cases ht : a.get t with
  | none =>
      simp only [i.dead ht, Bool.and_false, Bool.false_eq_true, if_false]
      exact ⟨s, c, rfl, i⟩
  | some x =>
      obtain ⟨m, l, g1, g2, g3, g4, g5⟩ := i.crel ht
      cases hd : a.get d with
      | none =>
          simp only [i.dead hd, Bool.false_and, Bool.false_eq_true, if_false, if_true]
          exact ⟨s, c, rfl, i⟩
      | some w =>
          obtain ⟨md, ld, k1, k2, k3, k4, -⟩ := i.crel hd
          simp only [k4, g4, Bool.and_self, if_true, g1, Option.bind_eq_bind, Option.bind_some, reduceCtorEq, if_false]
          exact i.withLay2 dflt k3 (op := .moveAssign d t) (fun h => by cases h) ht g1 g2 hs
            (by simp only [Mem.Spec.sstep, g2, k2])

theorem copyAssign_ok (dflt : V) (i : SInv K so s a c) (d t : Nat) (hs : so d = so t) (hself : Spec.SmallSelf K a (.copyAssign d t)) : SSteps K dflt so s a (.copyAssign d t) := by
  simp only [SSteps, SAProg.vstep, vnext]
  cases ht : a.get t with
  | none =>
      simp only [i.dead ht, Bool.and_false, Bool.false_eq_true, if_false]
      exact ⟨s, c, rfl, i⟩
  | some x =>
      obtain ⟨m, l, g1, g2, g3, g4, g5⟩ := i.crel ht
      cases hd : a.get d with
      | none =>
          simp only [i.dead hd, Bool.false_and, Bool.false_eq_true, if_false, Vals.upd, hd, if_true]
          exact ⟨s, c, rfl, i⟩
      | some w =>
          obtain ⟨md, ld, k1, k2, k3, k4, k5⟩ := i.crel hd
          simp only [k4, g4, Bool.and_self, if_true, g1, Option.bind_eq_bind, Option.bind_some, Vals.upd, hd, reduceCtorEq, if_false]
          obtain ⟨s', h1, h2, -⟩ := i.withLay dflt k3 (op := .copyAssign d t) (m := m) (l := some l) (x := some x)
            (fun e l0 hl0 => by
              rw [k2] at hl0; cases hl0
              obtain ⟨m', -, -, -, -, -, j1, -⟩ := k5
              rcases hself e w hd with h | h
              · rw [h] at j1; exact Or.inl (by simpa using j1)
              · by_cases hm : w.moved = true
                · rw [hm] at j1; exact Or.inl (by simpa using j1)
                · rw [if_neg hm] at j1; exact Or.inr ⟨rfl, by omega⟩)
            (by simp only [Mem.Spec.sstep, g2, k2]) (by rw [hs]; exact g5)
          exact ⟨s', _, h1, h2⟩

theorem destroy_ok (dflt : V) (i : SInv K so s a c) (d : Nat) : SSteps K dflt so s a (.destroy d) := by
  simp only [SSteps, SAProg.vstep, vnext]
  cases hd : a.get d with
  | none =>
      refine ⟨s, c, by simp [i.dead hd], ?_⟩
      have : a.set d none = a := by
        by_cases h : d < a.length
        · rw [Vals.get, List.getElem?_eq_getElem h] at hd
          have hd : a[d] = none := by simpa using hd
          rw [← hd]; exact List.set_getElem_self h
        · exact List.set_eq_of_length_le (by omega)
      rw [this]; exact i
  | some x =>
      obtain ⟨m, l, g1, g2, g3, g4, g5⟩ := i.crel hd
      obtain ⟨q, h1, h2⟩ := i.rep.step dflt (.destroy d) trivial
      have := i.update g3 (m := m) (l := none) (x := none) h2 trivial
      rw [lays_self g1] at this
      exact ⟨⟨q, s.lays⟩, _, by simp [g4, h1], this⟩

/-- `sto = storage_t{n}`. -/
theorem newStorage_ok (dflt : V) (i : SInv K so s a c) {d : Nat} (hd : d < s.lays.length) {l : List (Option V)} (hl : c.get d = some l) (n : Nat) (lays : List IdxMap) (hlen : lays.length = s.lays.length) :
    ∃ q, SAProg.newStorage K dflt ⟨s.prog, lays⟩ d n = some ⟨q, lays⟩ ∧ Rep true K q (c.set d (some (List.replicate n none))) ∧ ∀ x, x < s.lays.length → x ≠ d → q.var x = s.prog.var x := by
  have htl : s.lays.length < c.length := by rw [i.clen]; omega
  have hne : d ≠ s.lays.length := by omega
  obtain ⟨q1, h1, r1⟩ := i.rep.step dflt (.new s.lays.length n) trivial
  simp only [Mem.Spec.sstep, if_pos (⟨i.tmp, htl⟩ : c.get s.lays.length = none ∧ s.lays.length < c.length)] at r1
  obtain ⟨q2, h2, r2⟩ := r1.step dflt (.moveAssign d s.lays.length) (fun h => by cases h)
  simp only [Mem.Spec.sstep, SProg.get_set_ne hne, hl, SProg.get_set_self htl] at r2
  obtain ⟨q3, h3, r3⟩ := r2.step dflt (.destroy s.lays.length) trivial
  simp only [Mem.Spec.sstep, List.set_set] at r3
  refine ⟨q3, ?_, ?_, fun x hx hxd => ?_⟩
  · simp [SAProg.newStorage, SAProg.tmp, hlen, h1, h2, h3]
  · have e : ((c.set s.lays.length (some (List.replicate n (Mem.Spec.dfltCell true dflt)))).set d (some (List.replicate n (Mem.Spec.dfltCell true dflt)))).set s.lays.length none =
        c.set d (some (List.replicate n none)) := by
      rw [List.set_comm _ _ hne, List.set_set, SProg.set_dead i.tmp]; rfl
    rw [e] at r3; exact r3
  · have hxt : x ≠ s.lays.length := by omega
    have f1 := new_fr (T := fun z => z = d ∨ z = s.lays.length) (Or.inr rfl) h1
    have f2 := moveAssign_fr (T := fun z => z = d ∨ z = s.lays.length) (Or.inl rfl) (Or.inr rfl) h2
    have f3 := destroy_fr (T := fun z => z = d ∨ z = s.lays.length) (Or.inr rfl) h3
    exact ((f1.trans f2).trans f3) x (by simp [hxd, hxt])

/-- `resize`: new cells, or the old ones if there are as many. -/
theorem resize_ok' (dflt : V) (hso : ∀ i, IsPerm (so i)) (i : SInv K so s a c) {d : Nat} {x : Val V} (hx : a.get d = some x) {l : List (Option V)} (hl : c.get d = some l)
    {shape : List Int} (hs : IsShape (so d) shape) {m : IdxMap} (hm : layoutOf (so d) shape = some m) :
    ∃ q l', s.resize K dflt (so d) d shape = some ⟨q, s.lays.set d m⟩ ∧ Rep true K q (c.set d (some l')) ∧ (l'.length : Int) = prod shape ∧
      (∀ z, z < s.lays.length → z ≠ d → q.var z = s.prog.var z) ∧
      (((l.length : Int) = prod shape ∧ l ≠ [] ∧ q = s.prog ∧ l' = l) ∨ (¬ ((l.length : Int) = prod shape ∧ l ≠ []) ∧ l' = List.replicate (prod shape).toNat none)) := by
  obtain ⟨m', y, l0, g0, g1, g2, g3, g4, g5, g6⟩ := i.alive hx
  rw [hl] at g4; cases g4
  obtain ⟨m1, k1, k2, k3, k4, -⟩ := layoutOf_spec (hso d) hs
  rw [hm] at k1; cases k1
  have hnull : y.data = .null ↔ l = [] := by
    rcases g5.data with ⟨h1, h2, -⟩ | ⟨h1, -, h2, -⟩ | ⟨h1, -, b, h2, -⟩
    · simp [h1, h2]
    · simp [h1, h2]
    · rw [h2]; simp only [reduceCtorEq, false_iff]; rintro rfl; simp at h1
  simp only [SAProg.resize, hm, g3, Option.bind_eq_bind, Option.bind_some, k3, hnull, g5.size]
  by_cases hc : l = [] ∨ (l.length : Int) ≠ prod shape
  · rw [if_pos hc, if_neg (by omega)]
    obtain ⟨q, h1, h2, h3⟩ := newStorage_ok dflt i g1 hl (prod shape).toNat (s.lays.set d m) (by simp)
    refine ⟨q, _, h1, h2, by simp; omega, h3, Or.inr ⟨fun h => ?_, rfl⟩⟩
    rcases hc with hc | hc
    · exact h.2 hc
    · exact hc h.1
  · rw [if_neg hc]
    simp only [not_or, not_not] at hc
    exact ⟨s.prog, l, rfl, by rw [SProg.set_same hl]; exact i.rep, hc.2, fun _ _ _ => rfl, Or.inl ⟨hc.2, hc.1, rfl, rfl⟩⟩

theorem resize_ok (dflt : V) (hso : ∀ i, IsPerm (so i)) (i : SInv K so s a c) (d : Nat) {shape : List Int} (hs : IsShape (so d) shape) : SSteps K dflt so s a (.resize d shape) := by
  simp only [SSteps, SAProg.vstep, vnext]
  cases hd : a.get d with
  | none =>
      simp only [i.dead hd, Bool.false_eq_true, if_false]
      exact ⟨s, c, rfl, i⟩
  | some x =>
      obtain ⟨m', y, l, g0, g1, g2, g3, g4, g5, g6, g7, g8, g9, g10, g11⟩ := i.alive hd
      obtain ⟨m, k1, k2, k3, k4, k5, -⟩ := layoutOf_spec (hso d) hs
      obtain ⟨q, l', h1, h2, h3, h4, h5⟩ := resize_ok' dflt hso i hd g4 hs k1
      simp only [g0, if_true, h1]
      refine ⟨_, _, rfl, i.update g1 h2 ⟨m, rfl, k2, hs, layoutOf_wf (hso d) hs k1, Or.inl k1, by simp only [Bool.false_eq_true, if_false]; exact h3, fun _ idx v hi hv => ?_⟩⟩
      simp only at hv hi
      split at hv
      · rename_i hc
        obtain ⟨hc1, rfl⟩ := hc
        have h0 := prod_pos_of_inRange (hso d) hs hi
        rw [hc1] at g10
        simp only [Bool.false_eq_true, if_false] at g10
        have hne : l ≠ [] := by rintro rfl; simp at g10; omega
        rcases h5 with ⟨-, -, -, rfl⟩ | ⟨h5, -⟩
        · have := g9.resolve_right h0
          rw [k1] at this; cases this
          exact g11 hc1 idx v hi hv
        · exact absurd ⟨g10, hne⟩ h5
      · cases hv

theorem box_nil {shape : List Int} {o : List Nat} (hso : IsPerm o) (hs : IsShape o shape) (h0 : prod shape = 0) : box shape = [] := by
  rw [List.eq_nil_iff_forall_not_mem]
  intro idx hi
  exact prod_pos_of_inRange hso hs (mem_box.mp hi) h0

theorem build_ok (dflt : V) (hso : ∀ i, IsPerm (so i)) (i : SInv K so s a c) (d : Nat) {shape : List Int} (hs : IsShape (so d) shape) (rhs : List Int → Comp V)
    (hr : ∀ idx, InRange shape idx → ((rhs idx).eval a.elt).isSome) : SSteps K dflt so s a (.build d shape rhs) := by
  simp only [SSteps, SAProg.vstep, vnext]
  by_cases hf : s.free d = true
  · have hf' := i.free.mp hf
    have hd : d < s.lays.length := by rw [← i.alen]; exact hf'.1
    obtain ⟨m, g1, g2, g3, g4, g5, g6, -⟩ := layoutOf_spec (hso d) hs
    rw [if_pos hf, put_set hf']
    simp only [g1, Option.bind_eq_bind, Option.bind_some]
    rw [if_neg (by omega), g3]
    obtain ⟨s1, h1, h2, h3, h4⟩ := i.make dflt hso hf' hs (op := .new d (prod shape).toNat) trivial (l := List.replicate (prod shape).toNat none)
      (by simp only [Mem.Spec.sstep, if_pos (i.guard hf')]; rfl) (by simp) (el := fun _ => none) (fun m hm idx v hi hk hv => by cases hv) g1
    rw [h1, Option.bind_some]
    have hlay : s1.lays[d]? = some m := by rw [h3]; simp [hd]
    by_cases h0 : prod shape = 0
    · rw [if_pos h0]
      refine ⟨s1, c.set d (some (List.replicate (prod shape).toNat none)), rfl, ?_⟩
      have := i.update hd (m := m) (x := some ⟨shape, false, fun idx => (rhs idx).eval a.elt⟩) h2.rep
        ⟨m, rfl, g2, hs, layoutOf_wf (hso d) hs g1, Or.inl g1, by simp [h0], fun _ idx v hi _ => absurd h0 (prod_pos_of_inRange (hso d) hs hi)⟩
      rw [← h3] at this; exact this
    · rw [if_neg h0]
      have hlc : Mem.Spec.Vals.get (c.set d (some (List.replicate (prod shape).toNat (none : Option V)))) d = some (List.replicate (prod shape).toNat none) :=
        SProg.get_set_self (i.guard hf').2 _
      obtain ⟨q, l', e1, e2, e3, e4, e5⟩ := writeLoop h2.rep hlc (by intro h; have := congrArg List.length h; simp at this; omega) m 0 shape (pos m)
        (fun idx hi => ⟨_, (g5 idx hi).1, by omega, by simpa using (g5 idx hi).2⟩) g6 (fun idx q => (rhs idx).eval (s.elemIn q)) (fun idx => (rhs idx).eval a.elt) hr
        (fun idx hi q' l' _ _ _ r' fr _ => by
          obtain ⟨v, hv⟩ := Option.isSome_iff_exists.mp (hr idx hi)
          rw [hv]
          refine Comp.eval_mono (fun z jdx u hu => ?_) hv
          have hz : z ≠ d := by
            rintro rfl
            obtain ⟨w, k1, -⟩ := Vals.elt_some hu
            rw [hf'.2] at k1; cases k1
          refine i.read hso r' ?_ ?_ hu
          · rw [fr z hz]; exact new_fr (T := (· = d)) rfl h4 z hz
          · rw [SProg.get_set_ne hz, SProg.get_set_ne hz])
      simp only [Int.zero_add] at e1
      rw [List.set_set] at e2
      refine ⟨⟨q, s1.lays⟩, c.set d (some l'), ?_, ?_⟩
      · simp only [SAProg.assignAll, hlay, Option.bind_eq_bind, Option.bind_some, g2]
        simp only [Option.bind_eq_bind] at e1
        rw [e1]; rfl
      · rw [h3]
        refine i.update hd e2 ⟨m, rfl, g2, hs, layoutOf_wf (hso d) hs g1, Or.inl g1, by simp only [Bool.false_eq_true, if_false]; rw [e3]; simp; omega, fun _ idx v hi hv => ?_⟩
        rw [e5 idx hi]; exact congrArg some hv
  · rw [if_neg hf, put_same (fun h => hf (i.free.mpr h))]
    exact ⟨s, c, rfl, i⟩

theorem assign_ok (dflt : V) (hso : ∀ i, IsPerm (so i)) (i : SInv K so s a c) (d : Nat) {shape : List Int} (hs : IsShape (so d) shape) (rhs : List Int → Comp V)
    (hr : ∀ idx, InRange shape idx → ((rhs idx).eval (a.eltAssign d shape idx)).isSome) : SSteps K dflt so s a (.assign d shape rhs) := by
  simp only [SSteps, SAProg.vstep, vnext, Vals.upd]
  cases hd : a.get d with
  | none =>
      simp only [i.dead hd, Bool.false_eq_true, if_false, if_true]
      exact ⟨s, c, rfl, i⟩
  | some x =>
      obtain ⟨m', y, l, j0, j1, j2, j3, j4, j5, j6, j7, j8, j9, j10, j11⟩ := i.alive hd
      obtain ⟨m, g1, g2, g3, g4, g5, g6, -⟩ := layoutOf_spec (hso d) hs
      obtain ⟨q1, l1, h1, h2, h3, h4, h5⟩ := resize_ok' dflt hso i hd j4 hs g1
      have hlay : (s.lays.set d m)[d]? = some m := by simp [j1]
      simp only [j0, if_true, h1, Option.bind_eq_bind, Option.bind_some, SAProg.assignAll, hlay, reduceCtorEq, if_false]
      by_cases h0 : prod shape = 0
      · rw [g2, forEach_eq, box_nil (hso d) hs h0]
        refine ⟨⟨q1, s.lays.set d m⟩, _, rfl, i.update j1 h2 ⟨m, rfl, g2, hs, layoutOf_wf (hso d) hs g1, Or.inl g1, by simp only [Bool.false_eq_true, if_false]; exact h3,
          fun _ idx v hi _ => absurd h0 (prod_pos_of_inRange (hso d) hs hi)⟩⟩
      · have hlc : Mem.Spec.Vals.get (c.set d (some l1)) d = some l1 := SProg.get_set_self (by rw [i.clen]; omega) _
        obtain ⟨q, l', e1, e2, e3, e4, e5⟩ := writeLoop h2 hlc (by rintro rfl; simp at h3; omega) m 0 shape (pos m)
          (fun idx hi => ⟨_, (g5 idx hi).1, by omega, by have := (g5 idx hi).2; omega⟩) g6 (fun idx q => (rhs idx).eval (s.elemIn q))
          (fun idx => (rhs idx).eval (a.eltAssign d shape idx)) hr
          (fun idx hi q' l' hl' hout hsame r' fr hdat => by
            obtain ⟨v, hv⟩ := Option.isSome_iff_exists.mp (hr idx hi)
            rw [hv]
            refine Comp.eval_mono (fun z jdx u hu => ?_) hv
            simp only [Vals.eltAssign] at hu
            split at hu
            · cases hu
            · rename_i hc
              by_cases hz : z = d
              · subst hz
                simp only [true_and, not_not] at hc
                obtain ⟨rfl, hsh⟩ := hc
                obtain ⟨w, k1, k2, k3, k4⟩ := Vals.elt_some hu
                rw [hd] at k1; cases k1
                rw [hd] at hsh
                simp only [Option.map_some, Option.some.injEq] at hsh
                subst hsh
                rw [k2] at j10
                simp only [Bool.false_eq_true, if_false] at j10
                rcases h5 with ⟨-, -, rfl, rfl⟩ | ⟨h5, -⟩
                · have hml := j9.resolve_right h0
                  rw [g1] at hml; cases hml
                  have hlt : pos m' jdx < l'.length := by rw [hl']; have := (g5 jdx hi).2; omega
                  have hvar : ∃ y', q'.var z = some y' ∧ VarOk true K q'.hp y' l' := by
                    have hg := SProg.get_set_self (a := c.set z (some l1)) (d := z) (by rw [List.length_set, i.clen]; omega) (some l')
                    cases hq : q'.var z with
                    | none => have := r'.dead hq; rw [hg] at this; cases this
                    | some y' =>
                        obtain ⟨l2, t1, t2⟩ := r'.alive hq
                        rw [hg] at t1; cases t1
                        exact ⟨y', rfl, t2⟩
                  obtain ⟨y', t1, t2⟩ := hvar
                  rw [elemIn_cell (K := K) j2 j3 (g5 jdx hi).1 hlt ⟨y', t1, hdat y y' j3 t1, t2⟩, hsame, j11 k2 jdx u k3 k4]; rfl
                · exact absurd ⟨j10, by rintro rfl; simp at j10; omega⟩ h5
              · have hzl : z < s.lays.length := by
                  obtain ⟨w, k1, -⟩ := Vals.elt_some hu
                  obtain ⟨-, -, -, -, t, -⟩ := i.alive k1
                  exact t
                refine i.read hso r' ?_ ?_ hu
                · rw [fr z hz]; exact h4 z hzl hz
                · rw [SProg.get_set_ne hz, SProg.get_set_ne hz])
        simp only [Int.zero_add] at e1
        rw [List.set_set] at e2
        refine ⟨⟨q, s.lays.set d m⟩, c.set d (some l'), ?_, ?_⟩
        · rw [g2]
          simp only [Option.bind_eq_bind] at e1
          rw [e1]; rfl
        · refine i.update j1 e2 ⟨m, rfl, g2, hs, layoutOf_wf (hso d) hs g1, Or.inl g1, by simp only [Bool.false_eq_true, if_false]; omega, fun _ idx v hi hv => ?_⟩
          rw [e5 idx hi]; exact congrArg some hv

theorem fill_ok (dflt : V) (hso : ∀ i, IsPerm (so i)) (i : SInv K so s a c) (d : Nat) (v : V) (ha : ∀ x, a.get d = some x → x.moved = true → prod x.shape = 0) :
    SSteps K dflt so s a (.fill d v) := by
  simp only [SSteps, SAProg.vstep, vnext]
  cases hd : a.get d with
  | none =>
      simp only [i.dead hd, Bool.false_eq_true, if_false]
      exact ⟨s, c, rfl, i⟩
  | some x =>
      obtain ⟨m, y, l, j0, j1, j2, j3, j4, j5, j6, j7, j8, j9, j10, j11⟩ := i.alive hd
      have hsz : m.size = prod x.shape := by rw [← j6]; exact IdxMap.size_eq m
      simp only [j0, if_true, j2, Option.bind_eq_bind, Option.bind_some, hsz, forLoop]
      by_cases h0 : prod x.shape = 0
      · rw [h0]
        simp only [Int.toNat_zero, List.range_zero, List.foldlM_nil]
        have := i.update j1 (m := m) (l := some l) (x := some { x with el := fun _ => some v }) (q := s.prog) (by rw [SProg.set_same j4]; exact i.rep)
          ⟨m, rfl, j6, j7, j8, j9, j10, fun _ idx v hi _ => absurd h0 (prod_pos_of_inRange (hso d) j7 hi)⟩
        rw [lays_self j2] at this
        exact ⟨s, _, rfl, this⟩
      · have hmv : x.moved = false := by
          by_contra hc
          exact h0 (ha x hd (by simpa using hc))
        rw [hmv] at j10
        simp only [Bool.false_eq_true, if_false] at j10
        have hne : l ≠ [] := by rintro rfl; simp at j10; omega
        obtain ⟨rest, hH, -⟩ := j5.holds j3 hne
        obtain ⟨l', e1, e2, e3, e4, e5⟩ := fold_set (fun cells => s.prog.upd d (cells ++ rest)) (fun (k : Nat) q => SAProg.writeAt q d (Int.ofNat k) v) id (fun _ => some v) l
          (List.range (prod x.shape).toNat) (by simpa using List.nodup_range) (fun k hk => by have := List.mem_range.mp hk; simp only [id]; omega) (fun _ _ => rfl)
          (fun k hk cells hl' _ _ _ => by
            have hk' := List.mem_range.mp hk
            have hlt : k < cells.length := by omega
            simp only [SAProg.writeAt, id]
            rw [if_neg (by simp), show (Int.ofNat k).toNat = k from rfl, (hH.upd (cells ++ rest)).setCell (by simp; omega), hH.upd_upd, List.set_append_left _ _ hlt])
        rw [hH.upd_self] at e1
        rw [e1]
        have := i.update j1 (m := m) (l := some l') (x := some { x with el := fun _ => some v }) (i.rep.upd j3 j4 e2 hne (by intro h; cases h) hH)
          ⟨m, rfl, j6, j7, j8, j9, by simp only [hmv, Bool.false_eq_true, if_false]; omega, fun _ idx u hi hu => by
            obtain ⟨m1, g1, g2, g3, g4, g5, -⟩ := layoutOf_spec (hso d) j7
            rw [j9.resolve_right h0] at g1; cases g1
            rw [show l'[pos m idx]? = _ from e5 (pos m idx) (List.mem_range.mpr (g5 idx hi).2)]; exact congrArg some hu⟩
        rw [lays_self j2] at this
        exact ⟨⟨_, s.lays⟩, _, rfl, this⟩

theorem put_ok (dflt : V) (hso : ∀ i, IsPerm (so i)) (i : SInv K so s a c) (d : Nat) (ops : List Op) (ext : List Int) (rhs : List Int → Comp V)
    (hr : ∀ x, a.get d = some x → x.moved = false ∧ ChainAllowed x.shape ops ∧ ChainShape x.shape ops ext ∧
      ∀ idx, InRange ext idx → ((rhs idx).eval (a.eltPut d x.shape.length ops ext idx)).isSome) : SSteps K dflt so s a (.put d ops ext rhs) := by
  simp only [SSteps, SAProg.vstep, vnext]
  cases hd : a.get d with
  | none =>
      simp only [i.dead hd, Bool.false_eq_true, if_false]
      exact ⟨s, c, rfl, i⟩
  | some x =>
      obtain ⟨hmv, hca, hcs, hval⟩ := hr x hd
      obtain ⟨m, y, l, j0, j1, j2, j3, j4, j5, j6, j7, j8, j9, j10, j11⟩ := i.alive hd
      simp only [j0, if_true, SAProg.putAll, j2, Option.bind_eq_bind, Option.bind_some]
      by_cases h0 : prod x.shape = 0
      · obtain ⟨v, r1, r2, r3⟩ := run_wf (v := ⟨0, m⟩) j8 (by rw [j6]; exact hca)
        simp only [j6] at r2 r3
        have hbox : box v.lay.len = [] := by
          rw [List.eq_nil_iff_forall_not_mem]
          intro idx hi
          exact prod_pos_of_inRange (hso _) j7 (r3 idx (mem_box.mp hi)) h0
        rw [r1, Option.bind_some, forEach_eq, hbox]
        have := i.update j1 (m := m) (l := some l) (x := some { x with el := putEl a d ops ext rhs x }) (q := s.prog) (by rw [SProg.set_same j4]; exact i.rep)
          ⟨m, rfl, j6, j7, j8, j9, j10, fun _ idx v hi _ => absurd h0 (prod_pos_of_inRange (hso d) j7 hi)⟩
        rw [lays_self j2] at this
        exact ⟨s, _, rfl, this⟩
      · have hml : layoutOf (so d) x.shape = some m := j9.resolve_right h0
        have hsm : SmallestOK m := by
          obtain ⟨m', e1, -, e3, -⟩ := ofShape_spec x.shape (so d) (List.replicate (so d).length 0) .contiguous (hso d) j7.1.symm (by simp [j7.1])
          rw [layoutOf, e1] at hml; cases hml
          exact (flagsOK_of_dense e3).smallest
        obtain ⟨v, r1, r2, r3, r4, r5, r6⟩ := run_facts (v := ⟨0, m⟩) (os := ops) j8 hsm (by rw [j6]; exact hca)
        have r7 := run_shape (v := ⟨0, m⟩) (os := ops) j8 hsm (by rw [j6]; exact hca) r1
        simp only [j6, Int.zero_add] at r4 r5 r6 r7
        have hext : v.lay.len = ext := Programs.chainShape_unique hca r7 hcs
        rw [hext] at r4 r5 r6
        rw [hmv] at j10
        simp only [Bool.false_eq_true, if_false] at j10
        have hne : l ≠ [] := by rintro rfl; simp at j10; omega
        obtain ⟨m', g1, g2, g3, g4, g5, g6, g7⟩ := layoutOf_spec (hso d) j7
        rw [hml] at g1; cases g1
        have hcall : ∀ jdx, InRange x.shape jdx → offset m jdx = (pos m jdx : Int) := by
          intro jdx hj
          have h1 := (g5 jdx hj).1
          rw [call_idx j8 hsm jdx (by rw [j6]; exact hj.length_eq)] at h1
          exact Option.some.inj h1
        obtain ⟨q, l', e1, e2, e3, e4, e5⟩ := writeLoop i.rep j4 hne v.lay v.off ext (fun idx => pos m (sourceChain x.shape.length ops idx))
          (fun idx hi => ⟨offset v.lay idx, call_idx r2 r3 idx (by rw [hext]; exact hi.length_eq), by rw [r6 idx hi]; exact hcall _ (r4 idx hi), by
            have := (g5 _ (r4 idx hi)).2; omega⟩)
          (fun idx jdx hi hj e => r5 idx jdx hi hj (g6 _ _ (r4 idx hi) (r4 jdx hj) e)) (fun idx q => (rhs idx).eval (s.elemIn q))
          (fun idx => (rhs idx).eval (a.eltPut d x.shape.length ops ext idx)) hval
          (fun idx hi q' l' hl' hout hsame r' fr hdat => by
            obtain ⟨v, hv⟩ := Option.isSome_iff_exists.mp (hval idx hi)
            rw [hv]
            refine Comp.eval_mono (fun z jdx u hu => ?_) hv
            simp only [Vals.eltPut] at hu
            split at hu
            · cases hu
            · rename_i hc
              by_cases hz : z = d
              · subst hz
                obtain ⟨w, k1, k2, k3, k4⟩ := Vals.elt_some hu
                rw [hd] at k1; cases k1
                have hsame' : l'[pos m jdx]? = l[pos m jdx]? := by
                  by_cases hn : inView x.shape.length ops ext jdx = none
                  · refine hout _ (fun kdx hk e => inView_none hn hk ?_)
                    exact g6 _ _ (r4 kdx hk) k3 e
                  · by_cases hn' : inView x.shape.length ops ext jdx = some idx
                    · rw [← (inView_some hn').2]; exact hsame
                    · exact absurd ⟨rfl, hn, hn'⟩ hc
                have hlt : pos m jdx < l'.length := by rw [hl']; have := (g5 jdx k3).2; omega
                have hvar : ∃ y', q'.var z = some y' ∧ VarOk true K q'.hp y' l' := by
                  have hg := SProg.get_set_self (a := c) (d := z) (by rw [i.clen]; omega) (some l')
                  cases hq : q'.var z with
                  | none => have := r'.dead hq; rw [hg] at this; cases this
                  | some y' =>
                      obtain ⟨l2, t1, t2⟩ := r'.alive hq
                      rw [hg] at t1; cases t1
                      exact ⟨y', rfl, t2⟩
                obtain ⟨y', t1, t2⟩ := hvar
                rw [elemIn_cell (K := K) j2 j3 (g5 jdx k3).1 hlt ⟨y', t1, hdat y y' j3 t1, t2⟩, hsame', j11 k2 jdx u k3 k4]; rfl
              · exact i.read hso r' (fr z hz) (SProg.get_set_ne hz _) hu)
        have := i.update j1 (m := m) (x := some { x with el := putEl a d ops ext rhs x }) e2
          ⟨m, rfl, j6, j7, j8, j9, by simp only [hmv, Bool.false_eq_true, if_false]; omega, fun _ jdx u hj hu => by
            simp only at hj hu
            simp only [putEl] at hu
            cases hn : inView x.shape.length ops ext jdx with
            | some idx =>
                rw [hn] at hu
                obtain ⟨k1, k2⟩ := inView_some hn
                rw [← k2, e5 idx k1]
                exact congrArg some hu
            | none =>
                rw [hn] at hu
                rw [e4 _ (fun kdx hk e => inView_none hn hk (g6 _ _ (r4 kdx hk) hj e))]
                exact j11 hmv jdx u hj hu⟩
        rw [lays_self j2] at this
        refine ⟨⟨q, s.lays⟩, _, ?_, this⟩
        rw [r1, Option.bind_some, hext]
        simp only [Option.bind_eq_bind] at e1
        rw [e1]; rfl

/-- One statement. -/
theorem SInv.step (dflt : V) (hso : ∀ i, IsPerm (so i)) (hne : ∀ i, so i ≠ []) (i : SInv K so s a c) (op : VOp V) (h : VAllowed so a op) (hself : Spec.SmallSelf K a op) :
    SSteps K dflt so s a op := by
  cases op with
  | default d junk => exact default_ok dflt hso hne i d junk h
  | make d shape => exact make_ok dflt hso i d h
  | zeros d shape => exact zeros_ok dflt hso i d h
  | build d shape rhs => exact build_ok dflt hso i d h.1 rhs h.2
  | copy d s => exact copy_ok dflt i d s h
  | move d s => exact move_ok dflt i d s h
  | copyAssign d s => exact copyAssign_ok dflt i d s h hself
  | moveAssign d s => exact moveAssign_ok dflt i d s h
  | resize d shape => exact resize_ok dflt hso i d h
  | assign d shape rhs => exact assign_ok dflt hso i d h.1 rhs h.2
  | fill d v => exact fill_ok dflt hso i d v h
  | put d ops ext rhs => exact put_ok dflt hso i d ops ext rhs h
  | destroy d => exact destroy_ok dflt i d

theorem SInv.run (dflt : V) (hso : ∀ i, IsPerm (so i)) (hne : ∀ i, so i ≠ []) : ∀ {ops : List (VOp V)} {s : SAProg V} {a : Arr.Spec.Vals V} {c : Cells V}, SInv K so s a c →
    VAllowedRun true dflt so a ops → Spec.SmallSelfRun K dflt so a ops → ∃ s' c', s.vrun K dflt so ops = some s' ∧ SInv K so s' (vfinal true dflt (rankOf so) a ops) c'
  | [], s, a, c, i, _, _ => ⟨s, c, rfl, i⟩
  | op :: ops, s, a, c, i, h, h' => by
      obtain ⟨s1, c1, h1, h2⟩ := i.step dflt hso hne op h.1 h'.1
      obtain ⟨s2, c2, h3, h4⟩ := SInv.run dflt hso hne h2 h.2 h'.2
      refine ⟨s2, c2, ?_, h4⟩
      rw [SAProg.vrun, List.foldlM_cons, h1]; exact h3

end Nda.SmallArr
