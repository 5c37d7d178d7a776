import Verif.Lemmas.ValuesAssign
import Verif.Spec.References
/-!
# Views as references: what happens to the storage of arrays
-/
namespace Nda.Arr
open Nda Nda.Mem Nda.Spec Spec Nda.Mem.Spec Loops Nda.Perm LayoutTransforms Nda.IdxMap Nda.Slice

variable {V : Type}

/-! ### Loops -/

theorem foldlM_mono {σ α : Type} {F G : α → σ → Option σ} (h : ∀ x s s', F x s = some s' → G x s = some s') : ∀ {L : List α} {s s' : σ},
    L.foldlM (fun s x => F x s) s = some s' → L.foldlM (fun s x => G x s) s = some s'
  | [], _, _, e => e
  | x :: L, s, s', e => by
      simp only [List.foldlM_cons, Option.bind_eq_bind] at e ⊢
      obtain ⟨s1, h1, h2⟩ := Option.bind_eq_some_iff.mp e
      rw [h _ _ _ h1]
      exact foldlM_mono h h2

theorem foldlM_inv {σ α : Type} {F : α → σ → Option σ} {Q : σ → Prop} (h : ∀ x s s', Q s → F x s = some s' → Q s') : ∀ {L : List α} {s s' : σ},
    L.foldlM (fun s x => F x s) s = some s' → Q s → Q s'
  | [], _, _, e, q => by cases e; exact q
  | x :: L, s, s', e, q => by
      simp only [List.foldlM_cons, Option.bind_eq_bind] at e
      obtain ⟨s1, h1, h2⟩ := Option.bind_eq_some_iff.mp e
      exact foldlM_inv h h2 (h _ _ _ q h1)

/-- As `foldlM_mono`, where an invariant may be used. -/
theorem foldlM_mono_inv {σ α : Type} {F G : α → σ → Option σ} {Q : σ → Prop} (hq : ∀ x s s', Q s → F x s = some s' → Q s')
    (h : ∀ x s s', Q s → F x s = some s' → G x s = some s') : ∀ {L : List α} {s s' : σ}, Q s →
    L.foldlM (fun s x => F x s) s = some s' → L.foldlM (fun s x => G x s) s = some s'
  | [], _, _, _, e => e
  | x :: L, s, s', q, e => by
      simp only [List.foldlM_cons, Option.bind_eq_bind] at e ⊢
      obtain ⟨s1, h1, h2⟩ := Option.bind_eq_some_iff.mp e
      rw [h _ _ _ q h1]
      exact foldlM_mono_inv hq h (hq _ _ _ q h1) h2

/-- Same variables, no new blocks. -/
def SameVars (q0 q : Prog V) : Prop := q.vars = q0.vars ∧ q.mem.hp.length = q0.mem.hp.length

theorem write_len {triv : Bool} {hp hp' : Heap V} {b k : Nat} {v : V} (h : hp.write triv b k v = some hp') : hp'.length = hp.length := by
  simp only [Heap.write, Option.bind_eq_bind] at h
  obtain ⟨blk, -, h2⟩ := Option.bind_eq_some_iff.mp h
  split at h2
  · cases h2
  · split at h2
    · cases h2; simp
    · cases h2
  · cases h2; simp

theorem writeAt_same {triv : Bool} {q q' : Prog V} {d : Nat} {k : Int} {v : V} (h : AProg.writeAt triv q d k v = some q') : SameVars q q' := by
  simp only [AProg.writeAt, Option.bind_eq_bind] at h
  obtain ⟨h0, -, h⟩ := Option.bind_eq_some_iff.mp h
  obtain ⟨b, -, h⟩ := Option.bind_eq_some_iff.mp h
  split at h
  · cases h
  · obtain ⟨hp, h1, h2⟩ := Option.bind_eq_some_iff.mp h
    cases h2
    exact ⟨rfl, write_len h1⟩

theorem SameVars.trans {q q' q'' : Prog V} (h : SameVars q q') (h' : SameVars q' q'') : SameVars q q'' := ⟨h'.1.trans h.1, h'.2.trans h.2⟩

theorem destroy_len {hp hp' : Heap V} {b i : Nat} (h : hp.destroy b i = some hp') : hp'.length = hp.length := by
  simp only [Heap.destroy, Option.bind_eq_bind] at h
  obtain ⟨blk, -, h2⟩ := Option.bind_eq_some_iff.mp h
  split at h2
  · cases h2; simp
  · cases h2

theorem destroyFrom_len {b : Nat} : ∀ {n i : Nat} {hp hp' : Heap V}, Heap.destroyFrom b n i hp = some hp' → hp'.length = hp.length
  | 0, _, _, _, h => by cases h; rfl
  | n + 1, i, hp, hp', h => by
      simp only [Heap.destroyFrom, Option.bind_eq_bind] at h
      obtain ⟨hp1, h1, h2⟩ := Option.bind_eq_some_iff.mp h
      rw [destroyFrom_len h2, destroy_len h1]

theorem dealloc_len {triv : Bool} {hp hp' : Heap V} {b : Nat} (h : hp.dealloc triv b = some hp') : hp'.length = hp.length := by
  simp only [Heap.dealloc, Option.bind_eq_bind] at h
  obtain ⟨blk, -, h2⟩ := Option.bind_eq_some_iff.mp h
  split at h2
  · cases h2
  · cases h2; simp

theorem drop_len {triv : Bool} {m m' : Mem V} {y : Option Nat} {n : Nat} {s : Option Nat} (h : m.drop triv y n s = some m') : m'.hp.length = m.hp.length := by
  simp only [Mem.drop] at h
  split at h
  · cases y with
    | none => simp only [Mem.destruct] at h; cases h; rfl
    | some b =>
        simp only [Mem.destruct, Option.bind_eq_bind] at h
        cases triv with
        | true =>
            simp only [if_true, Option.bind_some] at h
            obtain ⟨hp2, h3, h4⟩ := Option.bind_eq_some_iff.mp h
            cases h4
            exact dealloc_len h3
        | false =>
            simp only [Bool.false_eq_true, if_false] at h
            obtain ⟨hp1, h1, h2⟩ := Option.bind_eq_some_iff.mp h
            obtain ⟨hp2, h3, h4⟩ := Option.bind_eq_some_iff.mp h2
            cases h4
            simp only
            rw [dealloc_len h3, destroyFrom_len h1]
  · cases h; rfl

theorem construct_len {triv : Bool} {hp hp' : Heap V} {b k : Nat} {v : V} (h : hp.construct triv b k v = some hp') : hp'.length = hp.length := by
  simp only [Heap.construct, Option.bind_eq_bind] at h
  obtain ⟨blk, -, h2⟩ := Option.bind_eq_some_iff.mp h
  split at h2
  · cases h2
  · split at h2
    · cases h2; simp
    · cases h2
  · cases h2; simp

/-! ### Where the storage of arrays comes from -/

/-- `o j`: the array whose storage array `j` has now. -/
structure Tracks (so : Nat → List Nat) (p p' : AProg V) (a a' : Vals V) (o : Nat → Option Nat) : Prop where
  len : p.prog.mem.hp.length ≤ p'.prog.mem.hp.length
  old : ∀ j i x', a'.get j = some x' → o j = some i → ∃ x, a.get i = some x ∧ blockOf p' j = blockOf p i ∧ so j = so i
  new : ∀ j x', a'.get j = some x' → o j = none → ∀ b, blockOf p' j = some b → p.prog.mem.hp.length ≤ b
  inj : ∀ i j x y, a'.get i = some x → a'.get j = some y → o i = o j → i = j

theorem Tracks.refl (so : Nat → List Nat) (p : AProg V) (a : Vals V) {o : Nat → Option Nat} (ho : ∀ j, a.get j ≠ none → o j = some j) : Tracks so p p a a o where
  len := Nat.le_refl _
  old j i x' hx h := by rw [ho j (by rw [hx]; simp)] at h; cases h; exact ⟨x', hx, rfl, rfl⟩
  new j x' hx h := by rw [ho j (by rw [hx]; simp)] at h; cases h
  inj i j x y hx hy h := by
    rw [ho i (by rw [hx]; simp), ho j (by rw [hy]; simp)] at h; exact Option.some.inj h

/-- One array changes. -/
theorem Tracks.set {so : Nat → List Nat} {p p' : AProg V} {a : Vals V} {X : Option (Val V)} {o : Nat → Option Nat} {d : Nat} (hda : d < a.length) {h : Option Handle}
    (hdv : d < p.prog.vars.length) (hvars : p'.prog.vars = p.prog.vars.set d h)
    (hlen : p.prog.mem.hp.length ≤ p'.prog.mem.hp.length) (ho : ∀ j, j ≠ d → o j = some j)
    (hd : ∀ x', X = some x' → (o d = none ∧ ∀ b, h.bind Handle.data = some b → p.prog.mem.hp.length ≤ b) ∨
      (o d = some d ∧ ∃ x, a.get d = some x ∧ h.bind Handle.data = blockOf p d)) :
    Tracks so p p' a (a.set d X) o := by
  have hvd : p'.prog.var d = h := by simp only [Prog.var, hvars, List.getElem?_set_self hdv, Option.join_some]
  have hvj : ∀ j, j ≠ d → p'.prog.var j = p.prog.var j := fun j hj => by simp only [Prog.var, hvars]; rw [List.getElem?_set_ne (Ne.symm hj)]
  have hod : ∀ x', X = some x' → o d = none ∨ o d = some d := fun x' hx => (hd x' hx).imp (·.1) (·.1)
  refine ⟨hlen, fun j i x' hx hi => ?_, fun j x' hx hi b hb => ?_, fun i j x y hx hy hij => ?_⟩
  · by_cases e : j = d
    · subst e
      rw [set_get_self hda] at hx
      rcases hd x' hx with ⟨h1, -⟩ | ⟨h1, x, h2, h3⟩
      · rw [h1] at hi; cases hi
      · rw [h1] at hi; cases hi
        exact ⟨x, h2, by rw [blockOf, hvd]; exact h3, rfl⟩
    · rw [set_get_ne e] at hx
      rw [ho j e] at hi; cases hi
      exact ⟨x', hx, by rw [blockOf, hvj j e]; rfl, rfl⟩
  · by_cases e : j = d
    · subst e
      rw [set_get_self hda] at hx
      rcases hd x' hx with ⟨h1, h2⟩ | ⟨h1, -⟩
      · exact h2 b (by rw [← hvd]; exact hb)
      · rw [h1] at hi; cases hi
    · rw [ho j e] at hi; cases hi
  · by_cases e : i = d
    · subst e
      by_cases e' : j = i
      · exact e'.symm
      · rw [ho j e'] at hij
        rw [set_get_self hda] at hx
        rcases hod x hx with h | h
        · rw [h] at hij; cases hij
        · rw [h] at hij; exact Option.some.inj hij
    · by_cases e' : j = d
      · subst e'
        rw [ho i e] at hij
        rw [set_get_self hda] at hy
        rcases hod y hy with h | h
        · rw [h] at hij; cases hij
        · rw [h] at hij; exact Option.some.inj hij
      · rw [ho i e, ho j e'] at hij; exact Option.some.inj hij

section
variable {triv : Bool} {so : Nat → List Nat} {p p' : AProg V} {a : Vals V}

theorem made_fresh {n : Nat} {r : Option (Handle × Mem V)} {m m' : Mem V} {h : Handle} (hm : Own.Made triv m n r) (hr : r = some (h, m')) :
    m.hp.length ≤ m'.hp.length ∧ ∀ b, h.data = some b → m.hp.length ≤ b := by
  rcases hm with ⟨-, e⟩ | ⟨cells, -, e⟩
  · rw [hr] at e; cases e
    exact ⟨Nat.le_refl _, fun b hb => by cases hb⟩
  · rw [hr] at e; cases e
    refine ⟨by simp, fun b hb => ?_⟩
    simp only [Handle.data, Option.some.injEq] at hb
    omega

/-- A new array. -/
theorem tracks_new (i : VInv triv so p a) {d : Nat} (hf : p.free d = true) {x : Val V} {h : Handle} {mem : Mem V} {m : IdxMap}
    (hp' : p' = ⟨⟨mem, p.prog.vars.set d (some h)⟩, p.lays.set d m⟩) (hlen : p.prog.mem.hp.length ≤ mem.hp.length) (hfr : ∀ b, h.data = some b → p.prog.mem.hp.length ≤ b) :
    Tracks so p p' a (a.put d x) (fun j => if a.get d = none ∧ j = d then none else some j) := by
  have hf' := i.free.mp hf
  subst hp'
  rw [put_set hf']
  refine Tracks.set hf'.1 (by rw [i.inv.rel.vlen, ← i.alen]; omega) rfl hlen
    (fun j hj => by simp [hj]) (fun x' _ => Or.inl ⟨by simp [hf'.2], fun b hb => hfr b hb⟩)

/-- No new array. -/
theorem tracks_same (i : VInv triv so p a) {d : Nat} (hf : ¬ p.free d = true) (x : Val V) :
    Tracks so p p a (a.put d x) (fun j => if a.get d = none ∧ j = d then none else some j) := by
  rw [put_same (fun h => hf (i.free.mpr h))]
  refine Tracks.refl so p a (fun j hj => ?_)
  by_cases e : j = d
  · subst e; simp [hj]
  · simp [e]

theorem forEach_same {m : IdxMap} {d : Nat} {off : Int} {f : List Int → Heap V → Option V} {len : List Int} {q q' : Prog V}
    (h : forEach len (fun idx q => do
      let v ← f idx q.mem.hp
      let k ← m.call (idx.map .idx)
      AProg.writeAt triv q d (off + k) v) q = some q') : SameVars q q' := by
  rw [forEach_eq] at h
  refine foldlM_inv (Q := SameVars q) (fun idx s s' hs e => ?_) h ⟨rfl, rfl⟩
  simp only [Option.bind_eq_bind] at e
  obtain ⟨v, -, e⟩ := Option.bind_eq_some_iff.mp e
  obtain ⟨k, -, e⟩ := Option.bind_eq_some_iff.mp e
  exact hs.trans (writeAt_same e)

/-- Only elements change. -/
theorem tracks_elems {o : Nat → Option Nat} (ho : ∀ j, o j = some j) {d : Nat} {x : Val V} (hx : a.get d = some x) (i : VInv triv so p a) (hv : SameVars p.prog p'.prog)
    (el : List Int → Option V) : Tracks so p p' a (a.set d (some { x with el := el })) o := by
  obtain ⟨m, y, n, -, h1, h2, h3, -⟩ := i.alive hx
  have hdv : d < p.prog.vars.length := by rw [i.inv.rel.vlen]; omega
  refine Tracks.set (by rw [i.alen]; exact h1) (h := p.prog.var d) hdv ?_ (by rw [hv.2]) (fun j _ => ho j)
    (fun x' hx' => Or.inr ⟨ho d, x, hx, rfl⟩)
  rw [hv.1]
  have : p.prog.var d = p.prog.vars[d] := by rw [Prog.var, List.getElem?_eq_getElem hdv]; rfl
  rw [this]; exact (List.set_getElem_self hdv).symm


/-- Storage is handed over. -/
theorem tracks_move (i : VInv triv so p a) {o : Nat → Option Nat} {d s : Nat} (hda : d < a.length) (hne : d ≠ s) {x : Val V} (hx : a.get s = some x) {y : Option Nat}
    {n : Nat} (hs3 : p.prog.var s = some (.heap y n none)) (hty : so d = so s)
    (hvars : p'.prog.vars = (p.prog.vars.set d (some (.heap y n none))).set s (some Handle.null)) 
    (hlen : p.prog.mem.hp.length ≤ p'.prog.mem.hp.length) (ho : ∀ j, o j = if j = s then none else if j = d then some s else some j) :
    Tracks so p p' a ((a.set d (some x)).set s (some ⟨x.shape, true, fun _ => none⟩)) o := by
  obtain ⟨_, _, _, -, h1, -⟩ := i.alive hx
  have hsa : s < a.length := by rw [i.alen]; exact h1
  have hdl : d < p.lays.length := by rw [← i.alen]; exact hda
  have hsv : s < p.prog.vars.length := by rw [i.inv.rel.vlen]; omega
  have hdv : d < p.prog.vars.length := by rw [i.inv.rel.vlen]; omega
  have hvs : p'.prog.var s = some Handle.null := by simp [Prog.var, hvars, hsv]
  have hvd : p'.prog.var d = some (.heap y n none) := by
    simp only [Prog.var, hvars]; rw [List.getElem?_set_ne (Ne.symm hne), List.getElem?_set_self hdv]; rfl
  have hvj : ∀ j, j ≠ s → j ≠ d → p'.prog.var j = p.prog.var j := fun j h1 h2 => by
    simp only [Prog.var, hvars]; rw [List.getElem?_set_ne (Ne.symm h1), List.getElem?_set_ne (Ne.symm h2)]
  refine ⟨hlen, fun j k x' hx' hk => ?_, fun j x' hx' hk b hb => ?_, fun j k x1 x2 hx1 hx2 hjk => ?_⟩
  · rw [ho] at hk
    by_cases e : j = s
    · rw [if_pos e] at hk; cases hk
    · rw [if_neg e] at hk
      rw [set_get_ne e] at hx'
      by_cases e' : j = d
      · rw [if_pos e'] at hk; cases hk
        subst e'
        rw [set_get_self hda] at hx'; cases hx'
        exact ⟨x, hx, by rw [blockOf, blockOf, hvd, hs3], hty⟩
      · rw [if_neg e'] at hk; cases hk
        rw [set_get_ne e'] at hx'
        exact ⟨x', hx', by rw [blockOf, blockOf, hvj j e e'], rfl⟩
  · rw [ho] at hk
    by_cases e : j = s
    · subst e
      rw [blockOf, hvs] at hb; cases hb
    · rw [if_neg e] at hk
      split at hk <;> cases hk
  · rw [ho, ho] at hjk
    have hds : ∀ j, j ≠ s → j ≠ d → some j ≠ some s := fun j h _ e => h (Option.some.inj e)
    by_cases e1 : j = s <;> by_cases e2 : k = s <;> by_cases e3 : j = d <;> by_cases e4 : k = d <;> simp_all

/-- An array is resized. -/
theorem tracks_resize (dflt : V) (hso : ∀ i, IsPerm (so i)) (i : VInv triv so p a) {o : Nat → Option Nat} {d : Nat} {x : Val V} (hw : a.get d = some x) {shape : List Int}
    (hs : IsShape (so d) shape) (h : p.resize triv dflt (so d) d shape = some p') (ho : ∀ j, o j = if j = d ∧ ¬ KeepsSize (a.get d) shape then none else some j)
    (el : List Int → Option V) : Tracks so p p' a (a.set d (some ⟨shape, false, el⟩)) o := by
  obtain ⟨md, yd, nd, hald, hd1, hd2, hd3, hd4, hd5, hd6, hd7, hd8⟩ := i.alive hw
  obtain ⟨m, y', mem, h1, h2, h3, h4, h5, h6, h7, h8, h9⟩ := resize_spec dflt hso i.inv hd1 hd3 hs
  rw [h2] at h; cases h
  have hblk : blockOf p d = yd := by simp [blockOf, hd3, Handle.data]
  refine Tracks.set (by rw [i.alen]; exact hd1) (by rw [i.inv.rel.vlen]; omega) rfl h8
    (fun j hj => by rw [ho]; simp [hj]) (fun x' hx' => ?_)
  cases hx'
  by_cases hk : KeepsSize (a.get d) shape
  · right
    have hk' := hk
    rw [hw] at hk'
    obtain ⟨k1, k2⟩ := hk'
    rw [k1] at hd7
    simp only [Bool.false_eq_true, if_false] at hd7
    obtain ⟨-, e⟩ := h5 (by rw [hd7, k2]) (by
      by_cases h0 : prod x.shape = 0
      · right; omega
      · obtain ⟨b, cells, rfl, -⟩ := hd8 h0 k1
        exact Or.inl (by simp))
    exact ⟨by rw [ho]; simp [hk], x, hw, by rw [hblk, e]; rfl⟩
  · left
    refine ⟨by rw [ho]; simp [hk], fun b hb => ?_⟩
    have hb : y' = some b := hb
    have hcase : yd = none ∨ (nd : Int) ≠ prod shape := by
      by_contra hc
      rw [not_or, not_not] at hc
      obtain ⟨c1, c2⟩ := hc
      apply hk
      rw [hw]
      have hmv : x.moved = false := by
        by_contra hm
        rw [Bool.not_eq_false] at hm
        rw [hm] at hd7
        exact c1 hd7.1
      rw [hmv] at hd7
      simp only [Bool.false_eq_true, if_false] at hd7
      exact ⟨hmv, by rw [← hd7, c2]⟩
    rcases h9 hcase with h | h
    · rw [h] at hb; cases hb
    · rw [h] at hb; cases hb; exact Nat.le_refl _


theorem put_eq_self {x : Option (Val V)} {d : Nat} (h : a.get d = x) (hd : d < a.length) : a.set d x = a := by
  rw [Vals.get, List.getElem?_eq_getElem hd] at h
  simp only [Option.join_some] at h
  rw [← h]; exact List.set_getElem_self hd

/-- Where the storage comes from, for every statement. -/
theorem VInv.tracks (dflt : V) (hso : ∀ i, IsPerm (so i)) (i : VInv triv so p a) {op : VOp V} (ha : VAllowed so a op) (h : p.vstep triv dflt so op = some p') :
    Tracks so p p' a (vnext triv dflt (rankOf so) a op) (origin a op) := by
  have free_var : ∀ {d}, p.free d = true → p.prog.var d = none ∧ d < p.prog.vars.length := by
    intro d hf
    simp only [AProg.free, Bool.and_eq_true, decide_eq_true_eq, Option.isNone_iff_eq_none] at hf
    exact ⟨hf.2, by rw [i.inv.rel.vlen]; omega⟩
  cases op with
  | default d junk =>
      simp only [AProg.vstep, AProg.step] at h
      split at h
      · rename_i hf
        simp only [Option.bind_eq_bind] at h
        obtain ⟨m, -, h⟩ := Option.bind_eq_some_iff.mp h
        cases h
        exact tracks_new i hf rfl (Nat.le_refl _) (fun b hb => by cases hb)
      · cases h; exact tracks_same i (by assumption) _
  | make d shape =>
      simp only [AProg.vstep, AProg.step] at h
      split at h
      · rename_i hf
        obtain ⟨hv, hdv⟩ := free_var hf
        simp only [Option.bind_eq_bind] at h
        obtain ⟨m, -, h⟩ := Option.bind_eq_some_iff.mp h
        split at h
        · cases h
        · simp only [Prog.step, hv, hdv, and_self, if_true, Option.bind_eq_bind] at h
          obtain ⟨q, h1, h⟩ := Option.bind_eq_some_iff.mp h
          obtain ⟨⟨y, m1⟩, h2, h1⟩ := Option.bind_eq_some_iff.mp h1
          cases h1; cases h
          obtain ⟨g1, g2⟩ := made_fresh (Own.new_made triv dflt _ _) h2
          exact tracks_new i hf rfl g1 g2
      · cases h; exact tracks_same i (by assumption) _
  | zeros d shape =>
      simp only [AProg.vstep, AProg.step] at h
      split at h
      · rename_i hf
        obtain ⟨hv, hdv⟩ := free_var hf
        simp only [Option.bind_eq_bind] at h
        obtain ⟨m, -, h⟩ := Option.bind_eq_some_iff.mp h
        split at h
        · cases h
        · simp only [Prog.step, hv, hdv, and_self, if_true, Option.bind_eq_bind] at h
          obtain ⟨q, h1, h⟩ := Option.bind_eq_some_iff.mp h
          obtain ⟨⟨y, m1⟩, h2, h1⟩ := Option.bind_eq_some_iff.mp h1
          cases h1; cases h
          obtain ⟨g1, g2⟩ := made_fresh (Own.newZero_made triv dflt _ _) h2
          exact tracks_new i hf rfl g1 g2
      · cases h; exact tracks_same i (by assumption) _
  | build d shape rhs =>
      simp only [AProg.vstep, AProg.step] at h
      split at h
      · rename_i hf
        simp only [Option.bind_eq_bind] at h
        obtain ⟨m, -, h⟩ := Option.bind_eq_some_iff.mp h
        obtain ⟨⟨y, m1⟩, h2, h⟩ := Option.bind_eq_some_iff.mp h
        cases h
        simp only [AProg.buildHandle] at h2
        split at h2
        · cases h2
        · split at h2
          · cases h2
            exact tracks_new i hf rfl (Nat.le_refl _) (fun b hb => by cases hb)
          · simp only [Heap.alloc, Option.bind_eq_bind] at h2
            obtain ⟨hp, h3, h2⟩ := Option.bind_eq_some_iff.mp h2
            cases h2
            have hl : hp.length = p.prog.mem.hp.length + 1 := by
              rw [AProg.placeAll, forEach_eq] at h3
              have := foldlM_inv (Q := fun s : Heap V => s.length = p.prog.mem.hp.length + 1) (fun idx s s' hs e => by
                simp only [Option.bind_eq_bind] at e
                obtain ⟨v, -, e⟩ := Option.bind_eq_some_iff.mp e
                obtain ⟨k, -, e⟩ := Option.bind_eq_some_iff.mp e
                split at e
                · cases e
                · rw [construct_len e]; exact hs) h3 (by simp)
              exact this
            refine tracks_new i hf rfl (by simp only; omega) (fun b hb => ?_)
            simp only [Handle.data, Option.some.injEq] at hb
            omega
      · cases h; exact tracks_same i (by assumption) _
  | copy d s =>
      simp only [AProg.vstep, AProg.step] at h
      cases hx : a.get s with
      | none =>
          rw [i.dead hx] at h
          simp only [Bool.and_false] at h
          cases h
          simp only [vnext, hx]
          refine Tracks.refl so p a (fun j hj => ?_)
          by_cases e : j = d
          · subst e; simp [origin, hj]
          · simp [origin, e]
      | some x =>
          obtain ⟨m, y, n, hal, hs1, hs2, hs3, -⟩ := i.alive hx
          simp only [vnext, hx]
          by_cases hf : p.free d = true
          · obtain ⟨hv, hdv⟩ := free_var hf
            simp only [hf, hal, Bool.and_self, if_true, hs2, Option.bind_eq_bind, Option.bind_some, Prog.step, hs3, hv, hdv, and_self] at h
            obtain ⟨q, h1, h⟩ := Option.bind_eq_some_iff.mp h
            obtain ⟨⟨z, m1⟩, h2, h1⟩ := Option.bind_eq_some_iff.mp h1
            cases h1; cases h
            obtain ⟨g1, g2⟩ := made_fresh (i.inv.own.copy_made (Prog.mem_handles (s := s) hs3)) h2
            exact tracks_new i hf rfl g1 g2
          · simp only [hf, Bool.false_and] at h
            cases h; exact tracks_same i hf _
  | move d s =>
      simp only [AProg.vstep, AProg.step] at h
      cases hx : a.get s with
      | none =>
          rw [i.dead hx] at h
          simp only [Bool.and_false] at h
          cases h
          simp only [vnext, hx]
          exact Tracks.refl so p a (fun j hj => by simp [origin, hx])
      | some x =>
          obtain ⟨m, y, n, hal, hs1, hs2, hs3, -⟩ := i.alive hx
          simp only [vnext, hx]
          by_cases hf : p.free d = true
          · have hf' := i.free.mp hf
            obtain ⟨hv, hdv⟩ := free_var hf
            have hne : d ≠ s := by rintro rfl; rw [hx] at hf'; cases hf'.2
            simp only [hf, hal, Bool.and_self, if_true, hs2, Option.bind_eq_bind, Option.bind_some, Prog.step, hs3, hv, hdv, and_self, Prog.setVar] at h
            cases h
            rw [if_pos hf']
            exact tracks_move i hf'.1 hne hx hs3 ha rfl (Nat.le_refl _) (fun j => by simp [origin, hf', hx])
          · simp only [hf, Bool.false_and] at h
            cases h
            have hf' : ¬ (d < a.length ∧ a.get d = none) := fun h => hf (i.free.mpr h)
            rw [if_neg hf']
            refine Tracks.refl so p a (fun j hj => ?_)
            simp only [origin]
            rw [if_neg (fun h => hf' ⟨h.1, h.2.1⟩)]
  | copyAssign d s =>
      simp only [AProg.vstep, AProg.step] at h
      cases hx : a.get s with
      | none =>
          rw [i.dead hx] at h
          simp only [Bool.and_false] at h
          cases h
          simp only [vnext, hx]
          exact Tracks.refl so p a (fun j hj => by simp [origin, hx])
      | some x =>
          obtain ⟨m, y, n, hal, hs1, hs2, hs3, -⟩ := i.alive hx
          simp only [vnext, hx, Vals.upd]
          cases hw : a.get d with
          | none =>
              rw [i.dead hw] at h
              simp only [Bool.false_and] at h
              cases h
              simp only [if_true]
              refine Tracks.refl so p a (fun j hj => ?_)
              have : j ≠ d := by rintro rfl; exact hj hw
              simp [origin, this]
          | some w =>
              obtain ⟨md, yd, nd, hald, hd1, hd2, hd3, -⟩ := i.alive hw
              simp only [reduceCtorEq, if_false]
              simp only [hald, hal, Bool.and_self, if_true, hs2, Option.bind_eq_bind, Option.bind_some, Prog.step, hs3, hd3] at h
              obtain ⟨q, h1, h⟩ := Option.bind_eq_some_iff.mp h
              cases h
              obtain ⟨⟨z, m1⟩, h2, h1⟩ := Option.bind_eq_some_iff.mp h1
              obtain ⟨m2, h3, h1⟩ := Option.bind_eq_some_iff.mp h1
              simp only [Mem.release, Mem.dtor, Handle.null, Mem.drop, Option.bind_some] at h1
              simp at h1
              cases h1
              obtain ⟨g1, g2⟩ := made_fresh (i.inv.own.copy_made (Prog.mem_handles (s := s) hs3)) h2
              refine Tracks.set (by rw [i.alen]; exact hd1) (by rw [i.inv.rel.vlen]; omega) rfl
                (by rw [← drop_len h3] at g1; exact g1) (fun j hj => by simp [origin, hj]) (fun x' _ => Or.inl ⟨by simp [origin, hx], fun b hb => g2 b hb⟩)
  | moveAssign d s =>
      simp only [AProg.vstep, AProg.step] at h
      cases hx : a.get s with
      | none =>
          rw [i.dead hx] at h
          simp only [Bool.and_false] at h
          cases h
          simp only [vnext, hx]
          exact Tracks.refl so p a (fun j hj => by simp [origin, hx])
      | some x =>
          obtain ⟨m, y, n, hal, hs1, hs2, hs3, -⟩ := i.alive hx
          simp only [vnext, hx]
          cases hw : a.get d with
          | none =>
              rw [i.dead hw] at h
              simp only [Bool.false_and] at h
              cases h
              simp only [if_true]
              exact Tracks.refl so p a (fun j hj => by simp [origin, hw])
          | some w =>
              obtain ⟨md, yd, nd, hald, hd1, hd2, hd3, -⟩ := i.alive hw
              simp only [reduceCtorEq, if_false]
              simp only [hald, hal, Bool.and_self, if_true, hs2, Option.bind_eq_bind, Option.bind_some, Prog.step, hs3, hd3] at h
              obtain ⟨q, h1, h⟩ := Option.bind_eq_some_iff.mp h
              cases h
              obtain ⟨m2, h3, h1⟩ := Option.bind_eq_some_iff.mp h1
              by_cases e : d = s
              · subst e
                rw [if_pos rfl] at h1
                simp only [Prog.setVar] at h1
                cases h1
                rw [List.set_set]
                refine Tracks.set (by rw [i.alen]; exact hd1) (by rw [i.inv.rel.vlen]; omega) rfl
                  (by rw [drop_len h3]) (fun j hj => by simp [origin, hj]) (fun x' _ => Or.inl ⟨by simp [origin, hx], fun b hb => by cases hb⟩)
              · rw [if_neg e] at h1
                simp only [Mem.release, Option.bind_some, Prog.setVar] at h1
                cases h1
                exact tracks_move i (by rw [i.alen]; exact hd1) e hx hs3 ha rfl (by rw [drop_len h3]) (fun j => by simp [origin, hx, hw])
  | resize d shape =>
      cases hw : a.get d with
      | none =>
          simp only [AProg.vstep, AProg.step, i.dead hw] at h
          cases h
          simp only [vnext, hw]
          refine Tracks.refl so p a (fun j hj => ?_)
          have : j ≠ d := by rintro rfl; exact hj hw
          simp [origin, this]
      | some x =>
          obtain ⟨md, yd, nd, hald, hd1, hd2, hd3, -⟩ := i.alive hw
          simp only [AProg.vstep, AProg.step, hald, if_true] at h
          simp only [vnext, hw]
          exact tracks_resize dflt hso i hw ha h (fun j => rfl) _
  | assign d shape rhs =>
      cases hw : a.get d with
      | none =>
          simp only [AProg.vstep, AProg.step, i.dead hw] at h
          cases h
          simp only [vnext, Vals.upd, hw, if_true]
          refine Tracks.refl so p a (fun j hj => ?_)
          have : j ≠ d := by rintro rfl; exact hj hw
          simp [origin, this]
      | some x =>
          obtain ⟨md, yd, nd, hald, hd1, hd2, hd3, -⟩ := i.alive hw
          simp only [AProg.vstep, AProg.step, hald, if_true, Option.bind_eq_bind] at h
          obtain ⟨p1, h1, h2⟩ := Option.bind_eq_some_iff.mp h
          simp only [vnext, Vals.upd, hw, reduceCtorEq, if_false]
          have ht := tracks_resize dflt hso i hw ha.1 h1 (o := origin a (.assign d shape rhs)) (fun j => rfl) (fun idx => (rhs idx).eval (a.eltAssign d shape idx))
          simp only [AProg.assignAll, Option.bind_eq_bind] at h2
          obtain ⟨m, -, h2⟩ := Option.bind_eq_some_iff.mp h2
          obtain ⟨q, h3, h2⟩ := Option.bind_eq_some_iff.mp h2
          cases h2
          have hs := forEach_same (off := 0) (by simpa using h3)
          refine ⟨by simp only; rw [hs.2]; exact ht.len, fun j k x' hx hk => ?_, fun j x' hx hk b hb => ht.new j x' hx hk b ?_, ht.inj⟩
          · obtain ⟨y, k1, k2, k3⟩ := ht.old j k x' hx hk
            refine ⟨y, k1, ?_, k3⟩
            rw [← k2]; simp only [blockOf, Prog.var, hs.1]
          · rw [← hb]; simp only [blockOf, Prog.var, hs.1]
  | fill d v =>
      cases hw : a.get d with
      | none =>
          simp only [AProg.vstep, AProg.step, i.dead hw] at h
          cases h
          simp only [vnext, hw]
          exact Tracks.refl so p a (fun j _ => rfl)
      | some x =>
          obtain ⟨md, yd, nd, hald, hd1, hd2, hd3, -⟩ := i.alive hw
          simp only [AProg.vstep, AProg.step, hald, if_true, Option.bind_eq_bind] at h
          obtain ⟨m, -, h⟩ := Option.bind_eq_some_iff.mp h
          obtain ⟨q, h1, h⟩ := Option.bind_eq_some_iff.mp h
          cases h
          simp only [vnext, hw]
          have hs : SameVars p.prog q := foldlM_inv (Q := SameVars p.prog) (fun k s s' hs e => hs.trans (writeAt_same e)) h1 ⟨rfl, rfl⟩
          exact tracks_elems (p' := ⟨q, p.lays⟩) (fun _ => rfl) hw i hs _
  | put d ops ext rhs =>
      cases hw : a.get d with
      | none =>
          simp only [AProg.vstep, i.dead hw] at h
          cases h
          simp only [vnext, hw]
          exact Tracks.refl so p a (fun j _ => rfl)
      | some x =>
          obtain ⟨md, yd, nd, hald, hd1, hd2, hd3, -⟩ := i.alive hw
          simp only [AProg.vstep, hald, if_true, AProg.putAll, Option.bind_eq_bind] at h
          obtain ⟨m, -, h⟩ := Option.bind_eq_some_iff.mp h
          obtain ⟨v, -, h⟩ := Option.bind_eq_some_iff.mp h
          obtain ⟨q, h1, h⟩ := Option.bind_eq_some_iff.mp h
          cases h
          simp only [vnext, hw]
          exact tracks_elems (p' := ⟨q, p.lays⟩) (fun _ => rfl) hw i (forEach_same h1) _
  | destroy d =>
      cases hw : a.get d with
      | none =>
          simp only [AProg.vstep, AProg.step, i.dead hw] at h
          cases h
          simp only [vnext]
          by_cases hd : d < a.length
          · rw [put_eq_self hw hd]; exact Tracks.refl so p a (fun j _ => rfl)
          · rw [List.set_eq_of_length_le (by omega)]; exact Tracks.refl so p a (fun j _ => rfl)
      | some x =>
          obtain ⟨md, yd, nd, hald, hd1, hd2, hd3, -⟩ := i.alive hw
          simp only [AProg.vstep, AProg.step, hald, if_true, Prog.step, hd3, Mem.dtor, Option.bind_eq_bind] at h
          obtain ⟨q, h1, h⟩ := Option.bind_eq_some_iff.mp h
          cases h
          obtain ⟨m2, h2, h1⟩ := Option.bind_eq_some_iff.mp h1
          obtain ⟨m3, h3, h2⟩ := Option.bind_eq_some_iff.mp h2
          simp only [Mem.release] at h2
          cases h2; cases h1
          simp only [vnext]
          exact Tracks.set (by rw [i.alen]; exact hd1) (by rw [i.inv.rel.vlen]; omega) rfl
            (by rw [show (({ p.prog with mem := m2 } : Prog V).setVar d none).mem = m2 from rfl, drop_len h3]) (fun j hj => rfl) (fun x' hx' => by cases hx')

end
end Nda.Arr
