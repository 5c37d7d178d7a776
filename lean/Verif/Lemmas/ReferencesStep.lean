import Verif.Lemmas.References
/-!
# Views as references: the statements
-/
namespace Nda.Arr
open Nda Nda.Mem Nda.Spec Spec Nda.Mem.Spec Loops Nda.Perm LayoutTransforms Nda.IdxMap Nda.Slice

variable {V : Type}

/-! ### Chains after chains -/

theorem chainAllowed_append : ∀ {o1 : List Op} {len : List Int} {o2 : List Op}, ChainAllowed len o1 → (∀ mid, ChainShape len o1 mid → ChainAllowed mid o2) → ChainAllowed len (o1 ++ o2)
  | [], _, _, _, h => h _ rfl
  | o :: o1, len, o2, h1, h2 => ⟨h1.1, fun l' hl' => chainAllowed_append (h1.2 l' hl') (fun mid hm => h2 mid ⟨l', hl', hm⟩)⟩

theorem chainShape_append : ∀ {o1 : List Op} {len mid : List Int} {o2 : List Op} {ext : List Int}, ChainShape len o1 mid → ChainShape mid o2 ext → ChainShape len (o1 ++ o2) ext
  | [], _, _, _, _, h1, h2 => by cases h1; exact h2
  | o :: o1, len, mid, o2, ext, ⟨l', h1, h1'⟩, h2 => ⟨l', h1, chainShape_append h1' h2⟩

theorem run_append : ∀ (o1 o2 : List Op) (v : View), LayoutTransforms.run v (o1 ++ o2) = (LayoutTransforms.run v o1).bind (fun v' => LayoutTransforms.run v' o2)
  | [], _, _ => rfl
  | o :: o1, o2, v => by
      simp only [List.cons_append, LayoutTransforms.run, Option.bind_eq_bind]
      cases LayoutTransforms.step v o with
      | none => rfl
      | some v1 => exact run_append o1 o2 v1

/-! ### More elements of the right-hand side -/

theorem build_mono {triv : Bool} {dflt : V} {so : List Nat} {p p' : AProg V} {d : Nat} {shape : List Int} {f g : List Int → Heap V → Option V}
    (hfg : ∀ idx hp v, f idx hp = some v → g idx hp = some v) (h : p.step triv dflt so (.build d shape f) = some p') : p.step triv dflt so (.build d shape g) = some p' := by
  simp only [AProg.step] at h ⊢
  split at h
  · rename_i hf
    rw [if_pos hf]
    simp only [Option.bind_eq_bind] at h ⊢
    obtain ⟨m, h1, h⟩ := Option.bind_eq_some_iff.mp h
    obtain ⟨y, h2, h⟩ := Option.bind_eq_some_iff.mp h
    rw [h1, Option.bind_some]
    have : AProg.buildHandle triv m g p.prog.mem = some y := by
      simp only [AProg.buildHandle] at h2 ⊢
      split at h2
      · cases h2
      · rename_i c1
        rw [if_neg c1]
        split at h2
        · rename_i c2; rw [if_pos c2]; exact h2
        · rename_i c2
          rw [if_neg c2]
          simp only [Option.bind_eq_bind, Heap.alloc] at h2 ⊢
          obtain ⟨hp, h3, h2⟩ := Option.bind_eq_some_iff.mp h2
          have : AProg.placeAll triv m g p.prog.mem.hp.length (p.prog.mem.hp ++ [⟨List.replicate m.size.toNat none, false⟩]) = some hp := by
            rw [AProg.placeAll, forEach_eq] at h3 ⊢
            refine foldlM_mono (fun idx s s' e => ?_) h3
            simp only [Option.bind_eq_bind] at e ⊢
            obtain ⟨v, e1, e⟩ := Option.bind_eq_some_iff.mp e
            rw [hfg _ _ _ e1]; exact e
          rw [this]; exact h2
    rw [this]; exact h
  · rename_i hf
    rw [if_neg hf]; exact h

theorem assign_mono {triv : Bool} {dflt : V} {so : List Nat} {p p' : AProg V} {d : Nat} {shape : List Int} {f g : List Int → Heap V → Option V}
    (hfg : ∀ idx hp v, f idx hp = some v → g idx hp = some v) (h : p.step triv dflt so (.assign d shape f) = some p') : p.step triv dflt so (.assign d shape g) = some p' := by
  simp only [AProg.step] at h ⊢
  split at h
  · rename_i hf
    rw [if_pos hf]
    simp only [Option.bind_eq_bind] at h ⊢
    obtain ⟨p1, h1, h⟩ := Option.bind_eq_some_iff.mp h
    rw [h1, Option.bind_some]
    simp only [AProg.assignAll, Option.bind_eq_bind] at h ⊢
    obtain ⟨m, h2, h⟩ := Option.bind_eq_some_iff.mp h
    obtain ⟨q, h3, h⟩ := Option.bind_eq_some_iff.mp h
    rw [h2, Option.bind_some]
    rw [forEach_eq] at h3 ⊢
    rw [foldlM_mono (fun idx s s' e => ?_) h3]
    · exact h
    · obtain ⟨v, e1, e⟩ := Option.bind_eq_some_iff.mp e
      rw [hfg _ _ _ e1]; exact e
  · rename_i hf
    rw [if_neg hf]; exact h

/-- Writing through the pointer of the view. -/
theorem putInto_of_loop {triv : Bool} {q q' : Prog V} {d : Nat} {h : Handle} (hv : q.var d = some h) (v : View) {f g : List Int → Heap V → Option V}
    (hfg : ∀ idx hp v, f idx hp = some v → g idx hp = some v)
    (hl : forEach v.lay.len (fun idx q => do
      let x ← f idx q.mem.hp
      let k ← v.lay.call (idx.map .idx)
      AProg.writeAt triv q d (v.off + k) x) q = some q') : RProg.putInto triv q ⟨h.data, v⟩ g = some q' := by
  rw [RProg.putInto, forEach_eq]
  rw [forEach_eq] at hl
  refine foldlM_mono_inv (Q := SameVars q) (fun idx s s' hs e => ?_) (fun idx s s' hs e => ?_) ⟨rfl, rfl⟩ hl
  · simp only [Option.bind_eq_bind] at e
    obtain ⟨_, -, e⟩ := Option.bind_eq_some_iff.mp e
    obtain ⟨_, -, e⟩ := Option.bind_eq_some_iff.mp e
    exact hs.trans (writeAt_same e)
  · simp only [Option.bind_eq_bind] at e ⊢
    obtain ⟨x, e1, e⟩ := Option.bind_eq_some_iff.mp e
    obtain ⟨k, e2, e⟩ := Option.bind_eq_some_iff.mp e
    rw [hfg _ _ _ e1, Option.bind_some, e2, Option.bind_some]
    have : s.var d = some h := by rw [Prog.var, hs.1]; exact hv
    simp only [AProg.writeAt, this, Option.bind_eq_bind, Option.bind_some] at e
    simp only [RProg.writeRef, Option.bind_eq_bind]
    exact e

/-! ### The invariant -/

namespace Spec.World

theorem owner_some {S : World V} {id d : Nat} (h : S.owner id = some d) : (∃ x, S.vals.get d = some x) ∧ S.ids d = id := by
  have := List.find?_some h
  simp only [Bool.and_eq_true, beq_iff_eq] at this
  exact ⟨Option.isSome_iff_exists.mp this.1, this.2⟩

theorem owner_none {S : World V} {id d : Nat} {x : Val V} (h : S.owner id = none) (hx : S.vals.get d = some x) : S.ids d ≠ id := by
  intro e
  have hd : d < S.vals.length := by
    by_contra hc
    rw [Vals.get, List.getElem?_eq_none (by omega)] at hx; cases hx
  have := List.find?_eq_none.mp h d (List.mem_range.mpr hd)
  simp [hx, e] at this

end Spec.World

/-- The view `R` in memory is the view `r`. -/
structure RefOK (so : Nat → List Nat) (p : AProg V) (S : World V) (R : Ref) (r : RefVal) (q : List Nat) (m : IdxMap) : Prop where
  old : r.id < S.next
  allowed : ChainAllowed r.shape r.ops
  ext : ChainShape r.shape r.ops r.ext
  perm : IsPerm q
  isShape : IsShape q r.shape
  wf : WF m
  len : m.len = r.shape
  lay : prod r.shape ≠ 0 → layoutOf q r.shape = some m
  view : LayoutTransforms.run ⟨0, m⟩ r.ops = some R.view
  blk : ∀ d x, S.vals.get d = some x → S.ids d = r.id → so d = q ∧ blockOf p d = R.blk
  lt : ∀ b, R.blk = some b → b < p.prog.mem.hp.length
  own : ∀ b d x, R.blk = some b → S.vals.get d = some x → blockOf p d = some b → S.ids d = r.id

structure RInv (triv : Bool) (so : Nat → List Nat) (P : RProg V) (S : World V) : Prop where
  v : VInv triv so P.p S.vals
  idlt : ∀ d x, S.vals.get d = some x → S.ids d < S.next
  inj : ∀ i j x y, S.vals.get i = some x → S.vals.get j = some y → S.ids i = S.ids j → i = j
  noRef : ∀ w, S.refs w = none → P.refs w = none
  ok : ∀ w r, S.refs w = some r → ∃ R q m, P.refs w = some R ∧ RefOK so P.p S R r q m

section
variable {triv : Bool} {so : Nat → List Nat} {p : AProg V} {S : World V}

theorem smallest_of_layoutOf {q : List Nat} (hq : IsPerm q) {shape : List Int} (hs : IsShape q shape) {m : IdxMap} (h : layoutOf q shape = some m) : SmallestOK m := by
  obtain ⟨m', e1, -, e3, -⟩ := ofShape_spec shape q (List.replicate q.length 0) .contiguous hq hs.1.symm (by simp [hs.1])
  rw [layoutOf, e1] at h; cases h
  exact (flagsOK_of_dense e3).smallest

/-- The layout of the array that has the storage, if it has the shape. -/
theorem RefOK.lays {R : Ref} {r : RefVal} {q : List Nat} {m : IdxMap} (k : RefOK so p S R r q m) (i : VInv triv so p S.vals) {d : Nat} {x : Val V} (hx : S.vals.get d = some x)
    (hid : S.ids d = r.id) (hsh : x.shape = r.shape) (h0 : prod r.shape ≠ 0) : p.lays[d]? = some m := by
  obtain ⟨m', y, n, -, h1, h2, h3, h4, h5, h6, -⟩ := i.alive hx
  rw [hsh, (k.blk d x hx hid).1, k.lay h0] at h6
  rcases h6 with h | h
  · cases h; exact h2
  · exact absurd h h0

/-- The element of the view is the element of the array. -/
theorem RefOK.elem {R : Ref} {r : RefVal} {q : List Nat} {m : IdxMap} (k : RefOK so p S R r q m) (i : VInv triv so p S.vals) {d : Nat} {x : Val V} (hx : S.vals.get d = some x)
    (hid : S.ids d = r.id) (hsh : x.shape = r.shape) {idx : List Int} (hi : InRange r.ext idx) (hp : Heap V) :
    RProg.refElem hp R idx = p.elemIn hp d (sourceChain r.shape.length r.ops idx) := by
  obtain ⟨v, r1, r2, r3⟩ := run_wf (v := ⟨0, m⟩) k.wf (by rw [k.len]; exact k.allowed)
  rw [k.view] at r1; cases r1
  simp only [k.len] at r2 r3
  have he : R.view.lay.len = r.ext := Programs.chainShape_unique k.allowed r2 k.ext
  have hsrc := r3 idx (by rw [he]; exact hi)
  have h0 := prod_pos_of_inRange k.perm k.isShape hsrc
  have hlay := k.lays i hx hid hsh h0
  have hsm := smallest_of_layoutOf k.perm k.isShape (k.lay h0)
  obtain ⟨v, s1, s2, s3, s4, s5, s6⟩ := run_facts (v := ⟨0, m⟩) (os := r.ops) k.wf hsm (by rw [k.len]; exact k.allowed)
  rw [k.view] at s1; cases s1
  simp only [k.len, Int.zero_add] at s6
  have e := s6 idx (by rw [he]; exact hi)
  have c1 := call_idx s2 s3 idx (by rw [he]; exact hi.length_eq)
  have c2 := call_idx k.wf hsm (sourceChain r.shape.length r.ops idx) (by rw [k.len]; exact hsrc.length_eq)
  have hb := (k.blk d x hx hid).2
  obtain ⟨_, y, n, -, -, -, h3, -⟩ := i.alive hx
  have hy : R.blk = y := by rw [← hb]; simp [blockOf, h3, Handle.data]
  simp only [RProg.refElem, AProg.elemIn, AProg.elem, hlay, Option.bind_eq_bind, Option.bind_some, c1, c2]
  rw [show Prog.var { p.prog with mem := { p.prog.mem with hp := hp } } d = some (.heap y n none) from h3, hy, ← e]
  rfl

end

section
variable {triv : Bool} {so : Nat → List Nat} {P : RProg V} {S : World V}

/-- Reads through views are reads of arrays. -/
theorem RInv.deref_eval (i : RInv triv so P S) (hp : Heap V) : ∀ {c : RComp V} {v : V}, (S.deref c).eval (P.p.elemIn hp) = some v →
    c.eval (P.p.elemIn hp) (fun w jdx => (P.refs w).bind fun r => RProg.refElem hp r jdx) = some v
  | .ret _, _, e => e
  | .arr x idx k, v, e => by
      simp only [World.deref, Comp.eval, RComp.eval, Option.bind_eq_bind] at e ⊢
      obtain ⟨u, h1, h2⟩ := Option.bind_eq_some_iff.mp e
      rw [h1]
      exact i.deref_eval hp h2
  | .ref w idx k, v, e => by
      simp only [World.deref] at e
      cases hr : S.resolve w idx with
      | none =>
          rw [hr] at e
          simp only [Comp.eval, Option.bind_eq_bind] at e
          obtain ⟨u, h1, h2⟩ := Option.bind_eq_some_iff.mp e
          have : P.p.lays[S.vals.length]? = none := List.getElem?_eq_none (by rw [i.v.alen])
          simp only [AProg.elemIn, AProg.elem, this, Option.bind_eq_bind, Option.bind_none] at h1
          cases h1
      | some dj =>
          obtain ⟨d, jdx⟩ := dj
          rw [hr] at e
          simp only [Comp.eval, RComp.eval, Option.bind_eq_bind] at e ⊢
          obtain ⟨u, h1, h2⟩ := Option.bind_eq_some_iff.mp e
          simp only [World.resolve, Option.bind_eq_bind] at hr
          obtain ⟨r, e1, hr⟩ := Option.bind_eq_some_iff.mp hr
          obtain ⟨d', e2, hr⟩ := Option.bind_eq_some_iff.mp hr
          obtain ⟨x, e3, hr⟩ := Option.bind_eq_some_iff.mp hr
          split at hr
          · rename_i hc
            cases hr
            obtain ⟨R, q, m, e4, k⟩ := i.ok w r e1
            rw [e4, Option.bind_some, k.elem i.v e3 (World.owner_some e2).2 hc.1 hc.2, h1, Option.bind_some]
            exact i.deref_eval hp h2
          · cases hr

theorem RInv.access (i : RInv triv so P S) (rhs : List Int → RComp V) (idx : List Int) (hp : Heap V) (v : V)
    (h : P.p.access (fun idx => S.deref (rhs idx)) idx hp = some v) : P.access rhs idx hp = some v := i.deref_eval hp h

/-- A statement on arrays. -/
theorem RInv.stmt (dflt : V) (i : RInv triv so P S) {op : VOp V} {p' : AProg V} (hv : VInv triv so p' (vnext triv dflt (rankOf so) S.vals op))
    (ht : Tracks so P.p p' S.vals (vnext triv dflt (rankOf so) S.vals op) (origin S.vals op)) : RInv triv so { P with p := p' } (S.stmt triv dflt (rankOf so) op) := by
  have hids : ∀ j, (S.stmt triv dflt (rankOf so) op).ids j = match origin S.vals op j with
      | some k => S.ids k
      | .none => S.next := fun _ => rfl
  refine ⟨hv, fun d x hx => ?_, fun a b x y hx hy e => ?_, i.noRef, fun w r hr => ?_⟩
  · rw [hids]
    show _ < S.next + 1
    cases ho : origin S.vals op d with
    | none => simp
    | some k =>
        obtain ⟨y, h1, -⟩ := ht.old d k x hx ho
        have := i.idlt k y h1
        simp only; omega
  · rw [hids, hids] at e
    refine ht.inj a b x y hx hy ?_
    cases ha : origin S.vals op a with
    | none =>
        cases hb : origin S.vals op b with
        | none => rfl
        | some l =>
            rw [ha, hb] at e
            obtain ⟨z, h1, -⟩ := ht.old b l y hy hb
            have := i.idlt l z h1
            simp only at e; omega
    | some k =>
        obtain ⟨z, h1, -⟩ := ht.old a k x hx ha
        have := i.idlt k z h1
        cases hb : origin S.vals op b with
        | none => rw [ha, hb] at e; simp only at e; omega
        | some l =>
            obtain ⟨z', h2, -⟩ := ht.old b l y hy hb
            rw [ha, hb] at e
            rw [i.inj k l z z' h1 h2 e]
  · obtain ⟨R, q, m, h1, k⟩ := i.ok w r hr
    refine ⟨R, q, m, h1, ⟨?_, k.allowed, k.ext, k.perm, k.isShape, k.wf, k.len, k.lay, k.view, fun d x hx hid => ?_, fun b hb => ?_, fun b d x hb hx hbl => ?_⟩⟩
    · show _ < S.next + 1
      have := k.old; omega
    · rw [hids] at hid
      cases ho : origin S.vals op d with
      | none =>
          rw [ho] at hid
          have := k.old
          simp only at hid; omega
      | some l =>
          rw [ho] at hid
          obtain ⟨z, e1, e2, e3⟩ := ht.old d l x hx ho
          obtain ⟨g1, g2⟩ := k.blk l z e1 hid
          exact ⟨e3.trans g1, e2.trans g2⟩
    · exact Nat.lt_of_lt_of_le (k.lt b hb) ht.len
    · rw [hids]
      cases ho : origin S.vals op d with
      | none =>
          have := ht.new d x hx ho b hbl
          have := k.lt b hb
          omega
      | some l =>
          obtain ⟨z, e1, e2, e3⟩ := ht.old d l x hx ho
          exact k.own b l z hb e1 (e2.symm.trans hbl)

theorem RInv.setRef (i : RInv triv so P S) (w : Nat) {R : Option Ref} {r : Option RefVal} (h0 : r = .none → R = .none)
    (h : ∀ r', r = some r' → ∃ R' q m, R = some R' ∧ RefOK so P.p S R' r' q m) : RInv triv so (P.setRef w R) (S.setRef w r) := by
  refine ⟨i.v, i.idlt, i.inj, fun u hu => ?_, fun u r' hu => ?_⟩
  · simp only [World.setRef, RProg.setRef] at hu ⊢
    split
    · rename_i e; rw [if_pos e] at hu; exact h0 hu
    · rename_i e; rw [if_neg e] at hu; exact i.noRef u hu
  · simp only [World.setRef, RProg.setRef] at hu ⊢
    by_cases e : u = w
    · rw [if_pos e] at hu ⊢
      obtain ⟨R', q, m, h1, k⟩ := h r' hu
      exact ⟨R', q, m, h1, ⟨k.old, k.allowed, k.ext, k.perm, k.isShape, k.wf, k.len, k.lay, k.view, k.blk, k.lt, k.own⟩⟩
    · rw [if_neg e] at hu ⊢
      obtain ⟨R', q, m, h1, k⟩ := i.ok u r' hu
      exact ⟨R', q, m, h1, ⟨k.old, k.allowed, k.ext, k.perm, k.isShape, k.wf, k.len, k.lay, k.view, k.blk, k.lt, k.own⟩⟩

/-- One statement. -/
theorem RInv.step (dflt : V) (hso : ∀ i, IsPerm (so i)) (hne : ∀ i, so i ≠ []) (i : RInv triv so P S) (op : ROp V) (h : S.Allowed so op) :
    ∃ P', P.step triv dflt so op = some P' ∧ RInv triv so P' (S.next' triv dflt (rankOf so) op) := by
  cases op with
  | plain op =>
      obtain ⟨p', h1, h2⟩ := i.v.step dflt hso hne op h
      exact ⟨{ P with p := p' }, by simp only [RProg.step, h1, Option.bind_eq_bind, Option.bind_some]; rfl, i.stmt dflt h2 (i.v.tracks dflt hso h h1)⟩
  | build d shape rhs =>
      obtain ⟨p', h1, h2⟩ := i.v.step dflt hso hne (.build d shape (fun idx => S.deref (rhs idx))) h
      have := build_mono (dflt := dflt) (i.access rhs) h1
      exact ⟨{ P with p := p' }, by simp only [RProg.step, this, Option.bind_eq_bind, Option.bind_some]; rfl, i.stmt dflt h2 (i.v.tracks dflt hso h h1)⟩
  | assign d shape rhs =>
      obtain ⟨p', h1, h2⟩ := i.v.step dflt hso hne (.assign d shape (fun idx => S.deref (rhs idx))) h
      have := assign_mono (dflt := dflt) (i.access rhs) h1
      exact ⟨{ P with p := p' }, by simp only [RProg.step, this, Option.bind_eq_bind, Option.bind_some]; rfl, i.stmt dflt h2 (i.v.tracks dflt hso h h1)⟩
  | put d ops ext rhs =>
      obtain ⟨p', h1, h2⟩ := i.v.step dflt hso hne (.put d ops ext (fun idx => S.deref (rhs idx))) h
      refine ⟨{ P with p := p' }, ?_, i.stmt dflt h2 (i.v.tracks dflt hso h h1)⟩
      simp only [AProg.vstep] at h1
      simp only [RProg.step]
      split at h1
      · rename_i hal
        rw [if_pos hal]
        simp only [AProg.putAll, Option.bind_eq_bind] at h1
        obtain ⟨m, e1, h1⟩ := Option.bind_eq_some_iff.mp h1
        obtain ⟨v, e2, h1⟩ := Option.bind_eq_some_iff.mp h1
        obtain ⟨q, e3, h1⟩ := Option.bind_eq_some_iff.mp h1
        cases h1
        obtain ⟨y, hy⟩ : ∃ y, P.p.prog.var d = some y := by
          simp only [AProg.alive, Bool.and_eq_true] at hal
          exact Option.isSome_iff_exists.mp hal.2
        simp only [RProg.viewOf, e1, hy, e2, Option.bind_eq_bind, Option.bind_some]
        have := putInto_of_loop hy v (i.access rhs) e3
        rw [show ((pure ⟨y.data, v⟩ : Option Ref)) = some ⟨y.data, v⟩ from rfl, Option.bind_some, this]; rfl
      · rename_i hal
        rw [if_neg hal]; cases h1; rfl
  | bind w d ops ext =>
      simp only [RProg.step, World.next']
      cases hx : S.vals.get d with
      | none =>
          rw [i.v.dead hx]
          exact ⟨P, rfl, i⟩
      | some x =>
          obtain ⟨m, y, n, hal, h1, h2, h3, h4, h5, h6, -⟩ := i.v.alive hx
          obtain ⟨hca, hcs⟩ := h x hx
          have hwf := i.v.wf d m (by rw [hx]; simp) h2
          obtain ⟨v, r1, r2, r3⟩ := run_wf (v := ⟨0, m⟩) hwf (by rw [h4]; exact hca)
          rw [if_pos hal]
          refine ⟨P.setRef w (some ⟨y, v⟩), by simp only [RProg.viewOf, h2, h3, r1, Option.bind_eq_bind, Option.bind_some]; rfl, i.setRef w nofun ?_⟩
          rintro r' e
          cases e
          have hblk : blockOf P.p d = y := by simp [blockOf, h3, Handle.data]
          refine ⟨_, so d, m, rfl, ⟨i.idlt d x hx, hca, hcs, hso d, h5, hwf, h4, fun h0 => h6.resolve_right h0, r1, fun c z hz e => ?_, fun b hb => ?_, fun b c z hb hz hbl => ?_⟩⟩
          · have := i.inj c d z x hz hx e
            subst this
            exact ⟨rfl, hblk⟩
          · exact (i.v.blocks (c := d) (d := d + 1) (by omega) hx (hblk.trans hb)).2
          · by_cases e : c = d
            · rw [e]
            · exact absurd (hblk.trans hb) (i.v.blocks e hz hbl).1
  | sub w u ops ext =>
      simp only [RProg.step, World.next']
      cases hr : S.refs u with
      | none =>
          rw [i.noRef u hr]
          exact ⟨P, rfl, i⟩
      | some r =>
          obtain ⟨R, q, m, h1, k⟩ := i.ok u r hr
          obtain ⟨hca, hcs⟩ := h r hr
          have ha2 : ChainAllowed r.shape (r.ops ++ ops) := chainAllowed_append k.allowed (fun mid hm => by
            rw [Programs.chainShape_unique k.allowed hm k.ext]; exact hca)
          obtain ⟨v, r1, r2, r3⟩ := run_wf (v := ⟨0, m⟩) k.wf (by rw [k.len]; exact ha2)
          have r1' := r1
          rw [run_append, k.view, Option.bind_some] at r1'
          rw [h1]
          refine ⟨P.setRef w (some ⟨R.blk, v⟩), by simp only [r1', Option.bind_eq_bind, Option.bind_some]; rfl, i.setRef w nofun ?_⟩
          rintro r' e
          cases e
          exact ⟨_, q, m, rfl, ⟨k.old, ha2, chainShape_append k.ext hcs, k.perm, k.isShape, k.wf, k.len, k.lay, r1, k.blk, k.lt, k.own⟩⟩
  | putRef w ext rhs =>
      simp only [RProg.step, World.next']
      cases hr : S.refs w with
      | none =>
          rw [i.noRef w hr]
          exact ⟨P, rfl, i⟩
      | some r =>
          obtain ⟨R, q, m, h1, k⟩ := i.ok w r hr
          obtain ⟨d, x, hd, hx, hsh, hva⟩ := h r hr
          obtain ⟨p', g1, g2⟩ := i.v.step dflt hso hne _ hva
          rw [h1]
          simp only [hd]
          refine ⟨{ P with p := p' }, ?_, i.stmt dflt g2 (i.v.tracks dflt hso hva g1)⟩
          have hid := (World.owner_some hd).2
          obtain ⟨m', y, n, hal, f1, f2, f3, f4, f5, f6, -⟩ := i.v.alive hx
          simp only [AProg.vstep, hal, if_true, AProg.putAll, f2, Option.bind_eq_bind, Option.bind_some] at g1
          obtain ⟨v, e2, g1⟩ := Option.bind_eq_some_iff.mp g1
          obtain ⟨q', e3, g1⟩ := Option.bind_eq_some_iff.mp g1
          cases g1
          have hy : R.blk = y := by rw [← (k.blk d x hx hid).2]; simp [blockOf, f3, Handle.data]
          have key : RProg.putInto triv P.p.prog R (P.access rhs) = some q' := by
            by_cases h0 : prod r.shape = 0
            · have nobox : ∀ {m0 : IdxMap} {v0 : View}, WF m0 → m0.len = r.shape → LayoutTransforms.run ⟨0, m0⟩ r.ops = some v0 → box v0.lay.len = [] := by
                intro m0 v0 hw hl hv
                obtain ⟨v1, r1, r2, r3⟩ := run_wf (v := ⟨0, m0⟩) hw (by rw [hl]; exact k.allowed)
                rw [hv] at r1; cases r1
                simp only [hl] at r3
                rw [List.eq_nil_iff_forall_not_mem]
                intro idx hi
                exact prod_pos_of_inRange k.perm k.isShape (r3 idx (mem_box.mp hi)) h0
              rw [forEach_eq, nobox (i.v.wf d m' (by rw [hx]; simp) f2) (f4.trans hsh) e2] at e3
              rw [RProg.putInto, forEach_eq, nobox k.wf k.len k.view]
              exact e3
            · have hl := k.lays i.v hx hid hsh h0
              rw [f2] at hl; cases hl
              rw [k.view] at e2; cases e2
              have := putInto_of_loop f3 R.view (i.access rhs) e3
              rw [show R = ⟨(Handle.heap y n none).data, R.view⟩ from by rw [show (Handle.heap y n none).data = y from rfl, ← hy]]
              exact this
          rw [key]; rfl
  | swap w u =>
      refine ⟨_, rfl, ?_⟩
      simp only [World.next']
      have hk : ∀ v r', S.refs v = some r' → ∃ R' q m, P.refs v = some R' ∧ RefOK so P.p S R' r' q m := i.ok
      have j := i.setRef w (R := P.refs u) (r := S.refs u) (i.noRef u) (hk u)
      refine j.setRef u (i.noRef w) (fun r' hr' => ?_)
      obtain ⟨R', q, m, h1, k⟩ := hk w r' hr'
      exact ⟨R', q, m, h1, ⟨k.old, k.allowed, k.ext, k.perm, k.isShape, k.wf, k.len, k.lay, k.view, k.blk, k.lt, k.own⟩⟩

theorem RInv.run (dflt : V) (hso : ∀ i, IsPerm (so i)) (hne : ∀ i, so i ≠ []) : ∀ {ops : List (ROp V)} {P : RProg V} {S : World V}, RInv triv so P S →
    World.AllowedRun triv dflt so S ops → ∃ P', P.run triv dflt so ops = some P' ∧ RInv triv so P' (S.final triv dflt (rankOf so) ops)
  | [], P, S, i, _ => ⟨P, rfl, i⟩
  | op :: ops, P, S, i, h => by
      obtain ⟨P1, h1, h2⟩ := i.step dflt hso hne op h.1
      obtain ⟨P2, h3, h4⟩ := RInv.run dflt hso hne h2 h.2
      refine ⟨P2, ?_, h4⟩
      rw [RProg.run, List.foldlM_cons, h1]; exact h3

theorem RInv.start (triv : Bool) (so : Nat → List Nat) (n : Nat) : RInv triv so (RProg.start n : RProg V) (World.start n) := by
  have hg : ∀ d, Vals.get (List.replicate n (none : Option (Val V))) d = .none := by
    intro d; simp only [Vals.get, List.getElem?_replicate]; split <;> rfl
  refine ⟨VInv.start triv so n, fun d x hx => ?_, fun a b x y hx => ?_, fun _ _ => rfl, nofun⟩
  · rw [World.start, hg] at hx; cases hx
  · rw [World.start, hg] at hx; cases hx

/-- Every handle is the handle of an array. -/
theorem VInv.handle_of {p : AProg V} {a : Vals V} (i : VInv triv so p a) {h : Handle} (hh : h ∈ Prog.handles p.prog.vars) :
    ∃ d x y n, a.get d = some x ∧ h = .heap y n .none ∧ p.prog.var d = some h := by
  rw [Prog.handles, List.mem_filterMap] at hh
  obtain ⟨o, h1, rfl⟩ := hh
  obtain ⟨d, h2⟩ := List.mem_iff_getElem?.mp h1
  have hv : p.prog.var d = some h := by rw [Prog.var, h2]; rfl
  by_cases hdl : d < p.lays.length
  · have hrel := i.inv.rel.rel d hdl
    cases hx : a.get d with
    | none =>
        rw [shapes_get, hx, hv] at hrel; exact hrel.elim
    | some x =>
        obtain ⟨_, y, n, -, -, -, h3, -⟩ := i.alive hx
        rw [hv] at h3
        exact ⟨d, x, y, n, hx, Option.some.inj h3, hv⟩
  · exfalso
    by_cases e : d = p.lays.length
    · subst e; rw [i.inv.rel.tmp] at hv; cases hv
    · rw [Prog.var, List.getElem?_eq_none (by rw [i.inv.rel.vlen]; omega)] at hv; cases hv

/-- A view whose storage no array has. -/
theorem RInv.dangling (i : RInv triv so P S) {w : Nat} {r : RefVal} {R : Ref} (hr : S.refs w = some r) (hR : P.refs w = some R) (ho : S.owner r.id = .none) :
    ∀ b, R.blk = some b → P.p.prog.mem.hp.live b = .none := by
  intro b hb
  obtain ⟨R', q, m, h1, k⟩ := i.ok w r hr
  rw [hR] at h1; cases h1
  cases hl : P.p.prog.mem.hp.live b with
  | none => rfl
  | some blk =>
      exfalso
      obtain ⟨hg, hf⟩ := Heap.live_some.mp hl
      have hown := i.v.inv.own.own b blk hg
      rw [hf] at hown
      simp only [Bool.false_eq_true, if_false] at hown
      rcases Nat.lt_or_ge 0 ((Prog.handles P.p.prog.vars).countP (excl b)) with hc | hc
      · obtain ⟨h, hm, hx⟩ := List.countP_pos_iff.mp hc
        obtain ⟨d, x, y, n, e1, rfl, e3⟩ := i.v.handle_of hm
        have hy : y = some b := by
          cases y with
          | none => cases hx
          | some b' => simp only [excl, beq_iff_eq] at hx; rw [hx]
        exact World.owner_none ho e1 (k.own b d x hb e1 (by simp [blockOf, e3, Handle.data, hy]))
      · have hc' : 0 < P.p.prog.mem.ctrls.countP (ctl b) := by omega
        obtain ⟨kk, hm, hx⟩ := List.countP_pos_iff.mp hc'
        obtain ⟨c, hcc⟩ := List.mem_iff_getElem?.mp hm
        have hcnt := i.v.inv.own.count c kk hcc
        simp only [ctl, Bool.and_eq_true, bne_iff_ne, ne_eq] at hx
        obtain ⟨h, hm', hx'⟩ := List.countP_pos_iff.mp (Nat.pos_of_ne_zero (hcnt ▸ hx.1))
        obtain ⟨d, x, y, n, e1, rfl, e3⟩ := i.v.handle_of hm'
        simp [refs, Handle.sptr] at hx'

theorem RInv.represents (i : RInv triv so P S) : RRepresents P S := by
  refine ⟨i.v.represents, fun w => ?_⟩
  cases hr : S.refs w with
  | none => exact i.noRef w hr
  | some r =>
      obtain ⟨R, q, m, h1, k⟩ := i.ok w r hr
      refine ⟨fun d x hd hx hsh idx hi => ?_, fun ho idx => ?_⟩
      · rw [RProg.elem, h1, Option.bind_some, k.elem i.v hx (World.owner_some hd).2 hsh hi]; rfl
      · rw [RProg.elem, h1, Option.bind_some]
        simp only [RProg.refElem, Option.bind_eq_bind]
        cases hb : R.blk with
        | none => rfl
        | some b =>
            rw [Option.bind_some]
            cases R.view.lay.call (idx.map .idx) with
            | none => rfl
            | some c =>
                rw [Option.bind_some]
                split
                · rfl
                · simp only [Heap.read, i.dangling hr h1 ho b hb, Option.bind_eq_bind, Option.bind_none]

end
end Nda.Arr
