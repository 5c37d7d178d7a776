import Verif.Props.Assign
import Verif.Props.IdxMap
import Verif.Lemmas.Views
import Verif.Model.Arrays
/-!
# New arrays at the end of memory, and views of good views
-/
namespace Nda.Assign
open Nda LayoutTransforms Nda.Spec Nda.Perm IdxMap

variable {α : Type}

theorem Good.mono {v : View} {n k : Nat} (h : Good v n) (hk : n ≤ k) : Good v k :=
  ⟨h.wf, h.flags, h.nonneg, fun idx hi => ⟨(h.fits idx hi).1, by have := (h.fits idx hi).2; omega⟩⟩

/-- The layout of a new array: everything the assignments need. -/
structure Fresh (so : List Nat) (len : List Int) (base : Nat) (m : IdxMap) : Prop where
  eq : Arr.layoutOf so len = some m
  len_eq : m.len = len
  so_eq : m.so = so
  prop_eq : m.prop = .contiguous
  size_eq : m.size = prod len
  wf : WF m
  flags : FlagsOK m
  dense : Dense m
  one : OneToOne ⟨(base : Int), m⟩
  good : ∀ n, base + (prod len).toNat ≤ n → Good ⟨(base : Int), m⟩ n
  above : ∀ idx, InRange len idx → (base : Int) ≤ addr ⟨(base : Int), m⟩ idx ∧ addr ⟨(base : Int), m⟩ idx < base + prod len

theorem fresh_spec {so : List Nat} {len : List Int} (hp : IsPerm so) (hl : so.length = len.length) (hn : NonNeg len) (base : Nat) :
    ∃ m, Fresh so len base m := by
  obtain ⟨m, e1, hw, hd, hml, hmso, -, hmp⟩ := IdxMap.ofShape_spec len so (List.replicate so.length 0) .contiguous hp hl (by simp [hl])
  obtain ⟨m', e2, -, hsz, hin, hinj, -⟩ := IdxMap.C03_fresh_bijection len so (List.replicate so.length 0) .contiguous hp hl (by simp [hl]) hn
  rw [e1] at e2; cases e2
  have hn : 0 ≤ prod len := prod_nonneg hn
  have hflags : FlagsOK m := IdxMap.flagsOK_of_dense hd
  have haddr : ∀ idx, InRange len idx → ∃ k, m.call (idx.map .idx) = some k ∧ addr ⟨(base : Int), m⟩ idx = base + k ∧ 0 ≤ k ∧ k < m.size := by
    intro idx hi
    obtain ⟨k, hk, hk0, hk1⟩ := hin idx hi
    refine ⟨k, hk, ?_, hk0, hk1⟩
    have : element ⟨(base : Int), m⟩ (idx.map .idx) = some (addr ⟨(base : Int), m⟩ idx) := element_eq hw hflags (by rw [show (View.mk (base : Int) m).lay.len = len from hml]; exact hi)
    simp only [element] at this
    rw [hk] at this
    simpa using this.symm
  have habove : ∀ idx, InRange len idx → (base : Int) ≤ addr ⟨(base : Int), m⟩ idx ∧ addr ⟨(base : Int), m⟩ idx < base + prod len := by
    intro idx hi
    obtain ⟨k, -, hk, h3, h4⟩ := haddr idx hi
    rw [hk]; omega
  refine ⟨m, e1, hml, hmso, hmp, hsz, hw, hflags, hd, ?_, ?_, habove⟩
  · intro idx jdx hi hj he
    rw [show (View.mk (base : Int) m).lay.len = len from hml] at hi hj
    obtain ⟨k, hk, hk', -⟩ := haddr idx hi
    obtain ⟨k2, hk2, hk2', -⟩ := haddr jdx hj
    apply hinj idx jdx hi hj
    rw [hk, hk2]; congr 1; omega
  · intro n hn'
    refine ⟨hw, hflags, by rw [show (View.mk (base : Int) m).lay.len = len from hml]; assumption, fun idx hi => ?_⟩
    rw [show (View.mk (base : Int) m).lay.len = len from hml] at hi
    have := habove idx hi
    omega

theorem val_append_left {mem : List α} (l : List α) {k : Int} (hk : k < mem.length) : val (mem ++ l) k = val mem k := by
  unfold val
  split
  · rfl
  · rw [List.getElem?_append_left (by omega)]

theorem val_none {mem : List α} {k : Int} (hk : (mem.length : Int) ≤ k) : val mem k = none := by
  unfold val
  rw [if_neg (by omega), List.getElem?_eq_none (by omega)]

/-- A view operation on a good view (slices and permutations of the indices). -/
theorem step_good {v : View} {n : Nat} (hv : Good v n) (h1 : OneToOne v) {o : Op} (ha : Allowed v.lay.len o) (ho : ∀ k, o ≠ .addFast k) :
    ∃ v', step v o = some v' ∧ Good v' n ∧ OneToOne v' ∧ ShapeAfter v.lay.len o v'.lay.len ∧
      (∀ idx, InRange v'.lay.len idx → InRange v.lay.len (source v.lay.len.length o idx) ∧ addr v' idx = addr v (source v.lay.len.length o idx)) := by
  obtain ⟨v', e, hf⟩ := step_facts hv.wf hv.flags.smallest ha
  have hfl := step_flagsOK hv.wf hv.flags ha (fun k hk => absurd hk (ho k)) e
  have haddr : ∀ idx, InRange v'.lay.len idx → InRange v.lay.len (source v.lay.len.length o idx) ∧ addr v' idx = addr v (source v.lay.len.length o idx) :=
    fun idx hi => ⟨hf.inRange idx hi, hf.offset idx hi⟩
  refine ⟨v', e, ⟨hf.wf, hfl, ?_, fun idx hi => ?_⟩, ?_, hf.shape, haddr⟩
  · have hs := hf.shape
    cases o with
    | addFast k => exact absurd rfl (ho k)
    | permute p =>
      obtain ⟨hl, hm⟩ := hs
      have := hv.nonneg
      rw [← hm] at this
      exact (nonNeg_memOrder ha.1 (by rw [hl, ha.2])).mp this
    | slice args =>
      have key : ∀ (X : List Arg) (L e : List Int), NonNeg L → SliceShape X L e → NonNeg e := by
        intro X
        induction X with
        | nil => intro L e _ h; cases L <;> cases e <;> simp_all [SliceShape, NonNeg]
        | cons a X ih =>
          intro L e hL h
          cases L with
          | nil => cases a <;> exact h.elim
          | cons l L =>
            have hL' : NonNeg L := fun x hx => hL x (by simp [hx])
            cases a with
            | idx i => exact ih L e hL' h
            | ell => cases e <;> exact h.elim
            | all =>
              cases e with
              | nil => exact h.elim
              | cons x e =>
                intro y hy
                rcases List.mem_cons.mp hy with rfl | hy
                · rw [h.1]; exact hL l (by simp)
                · exact ih L e hL' h.2 y hy
            | rng f la st =>
              cases e with
              | nil => exact h.elim
              | cons x e =>
                intro y hy
                rcases List.mem_cons.mp hy with rfl | hy
                · exact h.1.2.1
                · exact ih L e hL' h.2 y hy
      exact key _ _ _ hv.nonneg hs
  · obtain ⟨h2, h3⟩ := haddr idx hi
    rw [h3]; exact hv.fits _ h2
  · intro idx jdx hi hj he
    obtain ⟨a1, a2⟩ := haddr idx hi
    obtain ⟨b1, b2⟩ := haddr jdx hj
    exact hf.inj idx jdx hi hj (h1 _ _ a1 b1 (by rw [← a2, ← b2, he]))

/-- What a right-hand side gives, read from the first `n` elements of memory: the values `x`. -/
def Yields (rhs : Rhs α) (len : List Int) (mem : List α) (x : List Int → α) : Prop :=
  match rhs with
  | .inMem v null => Good v mem.length ∧ v.lay.len = len ∧ (null = true → prod len = 0) ∧ ∀ idx, InRange len idx → val mem (addr v idx) = some (x idx)
  | .expr f => ∀ idx, InRange len idx → ∀ mem2 : List α, (∀ k : Int, k < mem.length → val mem2 k = val mem k) → f idx mem2 = some (x idx)

/-- Assigning to a view of new memory. -/
theorem assign_new {a : View} {rhs : Rhs α} {len : List Int} {mem mem2 : List α} {x : List Int → α} (hy : Yields rhs len mem x) (ha : Good a mem2.length)
    (h1 : OneToOne a) (hlen : a.lay.len = len) (h0 : len ≠ []) (hab : ∀ idx, InRange len idx → (mem.length : Int) ≤ addr a idx)
    (hm : ∀ k : Int, k < mem.length → val mem2 k = val mem k) (hle : mem.length ≤ mem2.length) :
    ∃ mem3, assign .host .host true a rhs mem2 = some (some mem3) ∧ Updated a (fun idx => some (x idx)) mem2 mem3 := by
  cases rhs with
  | inMem v null =>
      obtain ⟨hg, hvl, hnull, hv⟩ := hy
      obtain ⟨mem3, e, hu⟩ := C17_assign_host true null a v mem2 ha (hg.mono hle) (by rw [hvl, hlen]) h1
        (fun idx jdx hi hj he => by
          rw [hlen] at hi
          have := hab idx hi
          have := (hg.fits jdx hj).2
          omega) (by rw [hlen]; exact hnull) (Or.inl (by rw [hlen]; exact h0))
      refine ⟨mem3, e, hu.size, fun idx hi => ?_, hu.frame⟩
      rw [hlen] at hi
      rw [hu.elems idx (by rw [hlen]; exact hi), hm _ (hg.fits idx (by rw [hvl]; exact hi)).2, hv idx hi]
  | expr f =>
      have hf : ∀ idx, InRange a.lay.len idx → f idx mem2 = some (x idx) := fun idx hi => hy idx (by rw [← hlen]; exact hi) mem2 hm
      obtain ⟨mem3, e, hu⟩ := C17_assign_expr .host .host true a f mem2 ha h1 (by decide) (by decide) (fun idx hi => ⟨_, hf idx hi⟩)
        (fun idx hi mem4 _ hk => by
          rw [hf idx hi]
          refine hy idx (by rw [← hlen]; exact hi) mem4 (fun k hkl => ?_)
          rw [← hm k hkl]
          apply hk
          rintro ⟨jdx, hj, he⟩
          have := hab jdx (by rw [← hlen]; exact hj)
          omega)
      exact ⟨mem3, e, hu.size, fun idx hi => by rw [hu.elems idx hi, hf idx hi], hu.frame⟩

end Nda.Assign
