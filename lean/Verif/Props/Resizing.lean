import Verif.Props.Arrays
import Verif.Props.Overlap
import Verif.Lemmas.Check
/-!
# C19: expressions that read ahead, assignments that resize their target

`a = rhs` resizes `a` before `rhs` is read (basic_array.hpp:358-363): if the number of elements
changes, the storage of `a` is released first.
-/
namespace Nda.Assign
open Nda Nda.Spec Nda.Perm Nda.LayoutTransforms Nda.Loops Nda.Grid

variable {α : Type}

/-- **C19** Assigning an expression whose element at a position reads no location that the (lexicographic)
traversal has written before: the result is computed from the values before the assignment.  (Contains
`C19_pointwise`, and expressions like `a(i) + a(i + 1)`.) -/
theorem C19_read_ahead (sa sb : Space) (sameType : Bool) (a : View) (f : List Int → List α → Option α) (mem : List α)
    (ha : Good a mem.length) (h1 : OneToOne a) (hsa : sa ≠ .device) (hsb : sb ≠ .device)
    (hd : ∀ idx, InRange a.lay.len idx → ∃ x, f idx mem = some x)
    (hind : ∀ idx, InRange a.lay.len idx → ∀ mem2 : List α, mem2.length = mem.length →
      (∀ k, (∀ jdx, InRange a.lay.len jdx → LexLt jdx idx → addr a jdx ≠ k) → val mem2 k = val mem k) → f idx mem2 = f idx mem) :
    ∃ mem', assign sa sb sameType a (.expr f) mem = some (some mem') ∧ Updated a (fun idx => f idx mem) mem mem' := by
  obtain ⟨mem', e, hu⟩ := assign_enum ha.fits h1 (enum_box a) (fun x mem => f x mem)
    (fun pre x post e mem2 hl hk => by
      have hx : InRange a.lay.len x := mem_box.mp (by rw [e]; simp)
      refine hind x hx mem2 hl (fun k hk' => hk k (fun y hy ey => ?_))
      have hy' : InRange a.lay.len y := mem_box.mp (by rw [e]; simp [hy])
      have hs := (lexEnum_box a.lay.len).sorted
      rw [e, List.pairwise_append] at hs
      exact hk' y hy' (hs.2.2 y hy x (by simp)) ey)
    (fun x hx => hd x (mem_box.mp hx))
  refine ⟨mem', ?_, hu⟩
  rw [assign, fallback, if_neg (by simp [hsa, hsb]), elementwise_eq ha.wf ha.flags]
  simp only [Rhs.get]
  rw [e]; rfl

/-- `v(i) = v(i) + v(i + 1)`, for all contents of memory. -/
example (mem : List Int) (hm : mem.length = 4) :
    let a : View := ⟨0, ⟨[3], [1], [0], [0], .contiguous⟩⟩
    let f : List Int → List Int → Option Int := fun idx mem => do let x ← val mem idx.sum; let y ← val mem (idx.sum + 1); return x + y
    ∃ mem', assign .host .host true a (.expr f) mem = some (some mem') ∧ Updated a (fun idx => f idx mem) mem mem' := by
  intro a f
  refine C19_read_ahead .host .host true a f mem (hm ▸ good_of (by decide) rfl rfl rfl (by decide) 1 (by decide) (by simp [a, NonNeg]) (by decide)) (oneToOne_of (by decide)) (by decide) (by decide) ?_ ?_
  · intro idx hi
    match idx, hi with
    | [i], hi =>
        obtain ⟨x, hx⟩ := (val_isSome (mem := mem) (k := i) (by simp [a, InRange] at hi; omega))
        obtain ⟨y, hy⟩ := (val_isSome (mem := mem) (k := i + 1) (by simp [a, InRange] at hi; omega))
        exact ⟨x + y, by simp [f, hx, hy]⟩
  · intro idx hi mem2 hl hk
    match idx, hi with
    | [i], hi =>
        have e1 := hk i (fun jdx hj hlt e => by
          match jdx, hj with
          | [j], hj => simp [LexLt, addr, a, Spec.dot] at hlt e; omega)
        have e2 := hk (i + 1) (fun jdx hj hlt e => by
          match jdx, hj with
          | [j], hj => simp [LexLt, addr, a, Spec.dot] at hlt e; omega)
        simp [f, e1, e2]

end Nda.Assign

namespace Nda.Arr
open Nda Nda.Mem Nda.Spec Spec Nda.Mem.Spec Loops Nda.Perm

variable {V : Type}

/-- Block `b` has been released. -/
def Spec.Released (hp : Heap V) (b : Nat) : Prop := ∃ blk, hp[b]? = some blk ∧ blk.freed = true

/-- `f` reads block `b` to compute the element `idx`: once the block is released it has no value. -/
def Spec.Reads (b : Nat) (idx : List Int) (f : List Int → Heap V → Option V) : Prop := ∀ hp, Spec.Released hp b → f idx hp = none

theorem released_drop {triv : Bool} {b k : Nat} {m m' : Mem V} (h : m.drop triv (some b) k none = some m') : Spec.Released m'.hp b := by
  simp only [Mem.drop, ne_eq, reduceCtorEq, not_false_eq_true, and_self, if_true, Mem.destruct, Option.bind_eq_bind] at h
  obtain ⟨hp1, hp2, h2, h⟩ : ∃ hp1 hp2, Heap.dealloc triv hp1 b = some hp2 ∧ some (⟨hp2, m.ctrls, m.pairs⟩ : Mem V) = some m' := by
    split at h
    · obtain ⟨hp1, -, h⟩ := Option.bind_eq_some_iff.mp h
      obtain ⟨hp2, h2, h⟩ := Option.bind_eq_some_iff.mp h
      exact ⟨hp1, hp2, h2, h⟩
    · obtain ⟨hp1, -, h⟩ := Option.bind_eq_some_iff.mp h
      obtain ⟨hp2, h2, h⟩ := Option.bind_eq_some_iff.mp h
      exact ⟨hp1, hp2, h2, h⟩
  cases h
  simp only [Heap.dealloc, Option.bind_eq_bind] at h2
  obtain ⟨blk, hl, h2⟩ := Option.bind_eq_some_iff.mp h2
  have hb := Heap.lt_of_live hl
  split at h2
  · cases h2
  · simp only [pure, Option.some.injEq] at h2
    subst h2
    exact ⟨_, List.getElem?_set_self hb, rfl⟩

theorem newStorage_released {triv : Bool} {dflt : V} {p r : AProg V} {d n b k : Nat} (hne : d ≠ p.tmp) (hv : p.prog.var d = some (.heap (some b) k none))
    (htv : p.prog.var p.tmp = none) (ht : p.tmp < p.prog.vars.length) (h : p.newStorage triv dflt d n = some r) : Spec.Released r.prog.mem.hp b := by
  simp only [AProg.newStorage, Option.bind_eq_bind] at h
  obtain ⟨q1, h1, h⟩ := Option.bind_eq_some_iff.mp h
  obtain ⟨q2, h2, h⟩ := Option.bind_eq_some_iff.mp h
  obtain ⟨q3, h3, h⟩ := Option.bind_eq_some_iff.mp h
  cases h
  simp only [Prog.step, htv, ht, and_self, if_true, Option.bind_eq_bind] at h1
  obtain ⟨⟨h0, m0⟩, hn, h1⟩ := Option.bind_eq_some_iff.mp h1
  cases h1
  have hvd : Prog.var (({ p.prog with mem := m0 } : Prog V).setVar p.tmp (some h0)) d = some (.heap (some b) k none) := by
    simp only [Prog.var, Prog.setVar]; rw [List.getElem?_set_ne (Ne.symm hne)]; exact hv
  have hvt : Prog.var (({ p.prog with mem := m0 } : Prog V).setVar p.tmp (some h0)) p.tmp = some h0 := by
    simp [Prog.var, Prog.setVar, ht]
  obtain ⟨y, c, hh⟩ : ∃ y c, h0 = .heap y c none := by
    rcases Own.new_made triv dflt n p.prog.mem with ⟨-, e⟩ | ⟨_, -, e⟩ <;> (rw [hn] at e; cases e)
    · exact ⟨_, _, rfl⟩
    · exact ⟨_, _, rfl⟩
  subst hh
  simp only [Prog.step, hvd, hvt, Option.bind_eq_bind] at h2
  obtain ⟨m1, hd, h2⟩ := Option.bind_eq_some_iff.mp h2
  simp only [if_neg hne, Mem.release, Option.bind_some, pure, Option.some.injEq] at h2
  subst h2
  have hvt2 : Prog.var ((({ ({ p.prog with mem := m0 } : Prog V).setVar p.tmp (some (.heap y c none)) with mem := m1 } : Prog V).setVar d (some (.heap y c none))).setVar p.tmp
      (some Handle.null)) p.tmp = some Handle.null := by
    simp [Prog.var, Prog.setVar, ht]
  simp only [Prog.step, hvt2] at h3
  simp only [Mem.dtor, Handle.null, Mem.drop, Mem.release, Option.bind_eq_bind, Option.bind_some, Prog.setVar, ne_eq, not_true_eq_false, and_false, if_false, pure,
    Option.some.injEq] at h3
  subst h3
  exact released_drop hd

theorem resize_released {triv : Bool} {dflt : V} {so : List Nat} (hso : IsPerm so) {p r : AProg V} {a : Shapes} (i : Inv triv (fun _ => so) p a) {d b k : Nat}
    (hd : d < p.lays.length) (hv : p.prog.var d = some (.heap (some b) k none)) {shape : List Int} (hs : IsShape so shape) (hk : (k : Int) ≠ prod shape)
    (h : p.resize triv dflt so d shape = some r) : Spec.Released r.prog.mem.hp b := by
  obtain ⟨m, h1, -, h3, -⟩ := layoutOf_spec hso hs
  simp only [AProg.resize, h1, hv, Option.bind_eq_bind, Option.bind_some] at h
  rw [if_pos (Or.inr (by rw [h3]; exact hk))] at h
  split at h
  · cases h
  · refine newStorage_released (p := { p with lays := p.lays.set d m }) ?_ hv ?_ ?_ h
    · simp only [AProg.tmp, List.length_set]; omega
    · simpa [AProg.tmp] using i.rel.tmp
    · simp only [AProg.tmp, List.length_set]; rw [i.rel.vlen]; omega

theorem writeAt_var {triv : Bool} {p q : Prog V} {d : Nat} {k : Int} {v : V} (h : AProg.writeAt triv p d k v = some q) :
    q.vars = p.vars ∧ ∀ b, (∀ h, p.var d = some h → h.data ≠ some b) → q.mem.hp[b]? = p.mem.hp[b]? := by
  simp only [AProg.writeAt, Option.bind_eq_bind] at h
  obtain ⟨hd, e1, h⟩ := Option.bind_eq_some_iff.mp h
  obtain ⟨b', e2, h⟩ := Option.bind_eq_some_iff.mp h
  split at h
  · cases h
  · obtain ⟨hp, e3, h⟩ := Option.bind_eq_some_iff.mp h
    cases h
    refine ⟨rfl, fun b hb => ?_⟩
    have hne : b' ≠ b := by rintro rfl; exact hb hd e1 e2
    simp only [Heap.write, Option.bind_eq_bind] at e3
    obtain ⟨blk, -, e3⟩ := Option.bind_eq_some_iff.mp e3
    split at e3
    · cases e3
    · split at e3
      · cases e3; exact List.getElem?_set_ne hne
      · cases e3
    · cases e3; exact List.getElem?_set_ne hne

/-- C19, assignments that resize: if `a = rhs` changes the number of elements of `a`, and some element of `rhs` is
computed from an element of `a`, the storage of `a` is released before that element is read: for any
array of any history, rank and stride order. -/
theorem C19_resize (triv : Bool) (dflt : V) (so : List Nat) (hso : IsPerm so) (hne : so ≠ []) (p : AProg V) (a : Shapes)
    (hr : Reachable triv dflt so p a) (d : Nat) (x shape : List Int) (hx : a.get d = some (x, false)) (hs : IsShape so shape)
    (hp : prod x ≠ prod shape) (f : List Int → Heap V → Option V) (b : Nat) (hb : blockOf p d = some b) (idx : List Int) (hi : InRange shape idx)
    (hf : Reads b idx f) : p.step triv dflt so (.assign d shape f) = none := by
  have i := reachable_inv hso hne hr
  have hda : p.alive d = true := by
    by_contra h
    rw [i.rel.not_alive h] at hx; cases hx
  obtain ⟨m0, y, k, moved, hd1, hd2, hd3, hd4, hd5, hd6, hd7⟩ := i.rel.alive hda
  rw [hd4] at hx; cases hx
  simp only [Bool.false_eq_true, if_false] at hd7
  have hy : y = some b := by simpa [blockOf, hd3, Handle.data] using hb
  subst hy
  obtain ⟨m, y', mem, h1, h2, h3, h4, h5, h6, h7⟩ := resize_spec dflt (fun _ => hso) i hd1 hd3 hs
  have hrel := resize_released hso i hd1 hd3 hs (by rw [hd7]; exact hp) h2
  obtain ⟨m', g1, g2, -⟩ := layoutOf_spec hso hs
  rw [h1] at g1; cases g1
  have hdv : d < p.prog.vars.length := by rw [i.rel.vlen]; omega
  have hvar : Prog.var (⟨mem, p.prog.vars.set d (some (.heap y' (prod shape).toNat none))⟩ : Prog V) d = some (.heap y' (prod shape).toNat none) := by
    simp [Prog.var, hdv]
  have hy' : y' ≠ some b := by
    rintro rfl
    obtain ⟨blk, e1, e2⟩ := hrel
    obtain ⟨cells, hl, -⟩ := h3.own.excl_live (Prog.mem_handles (s := d) hvar) (b := b) (by simp [excl])
    have := Heap.live_some.mp hl
    simp only at e1
    rw [this.1] at e1; cases e1
    cases e2
  have hlay : (p.lays.set d m)[d]? = some m := by simp [hd1]
  simp only [AProg.step, hda, if_true, h2, Option.bind_eq_bind, Option.bind_some, AProg.assignAll, hlay]
  rw [g2, forEach_eq]
  have hmem : idx ∈ box shape := mem_box.mpr hi
  -- the released block stays released in the loop
  have loop : ∀ (l : List (List Int)) (q : Prog V), idx ∈ l → Spec.Released q.mem.hp b → q.var d = some (.heap y' (prod shape).toNat none) →
      l.foldlM (fun q idx => (f idx q.mem.hp).bind fun v => (m.call (idx.map .idx)).bind fun k => AProg.writeAt triv q d k v) q = none := by
    intro l
    induction l with
    | nil => intro q h; cases h
    | cons j l ih =>
        intro q hj hq hqv
        rw [List.foldlM_cons]
        simp only [Option.bind_eq_bind]
        rw [Option.bind_eq_none_iff]
        intro q' hq'
        rcases List.mem_cons.mp hj with rfl | hj
        · rw [hf _ hq] at hq'; cases hq'
        · obtain ⟨v, -, hq'⟩ := Option.bind_eq_some_iff.mp hq'
          obtain ⟨k', -, hq'⟩ := Option.bind_eq_some_iff.mp hq'
          obtain ⟨w1, w2⟩ := writeAt_var hq'
          refine ih q' hj ?_ ?_
          · obtain ⟨blk, e1, e2⟩ := hq
            refine ⟨blk, ?_, e2⟩
            rw [w2 b (fun h hh => by rw [hqv] at hh; cases hh; exact hy'), e1]
          · rw [← hqv]; simp only [Prog.var, w1]
  rw [loop (box shape) _ hmem hrel hvar]
  rfl

/-- `a = a(range(1, 3))` for `a` of four elements: an element of the right-hand side reads the storage of `a`. -/
example (p : AProg Nat) (hp : (AProg.start 1 : AProg Nat).run true 0 [0] [.build 0 [4] (fun idx _ => some (idx.head!.toNat + 10))] = some p) :
    p.step true 0 [0] (.assign 0 [2] (fun idx hp => hp.read 0 (idx.head!.toNat + 1))) = none := by
  have hb : blockOf p 0 = some 0 := by
    have : ((AProg.start 1 : AProg Nat).run true 0 [0] [.build 0 [4] (fun idx _ => some (idx.head!.toNat + 10))]).map (fun p => blockOf p 0) = some (some 0) := by
      decide +kernel
    rw [hp] at this; simpa using this
  refine C19_resize true 0 [0] (by decide) (by decide) p [some ([4], false)] ⟨1, [.build 0 [4] (fun idx _ => some (idx.head!.toNat + 10))], ⟨⟨⟨rfl, by simp [NonNeg]⟩, fun _ _ _ _ => rfl⟩, fun _ _ => trivial⟩, hp, rfl⟩ 0 [4] [2] rfl
    ⟨rfl, by simp [NonNeg]⟩ (by decide) _ 0 hb [1] (by decide) ?_
  rintro hp ⟨blk, h1, h2⟩
  simp [Heap.read, Heap.live, h1, h2]

end Nda.Arr
