import Verif.Lemmas.BlockCopy
/-!
# C17 to C21: assignment and comparison of arrays
-/
namespace Nda.Assign
open Nda Nda.Spec Nda.Perm Nda.LayoutTransforms Nda.Loops Nda.Grid

variable {α : Type}

/-! ### C20 -/

/-- **C20** For a non-empty regularly spaced layout `get_block_layout` succeeds exactly when at most
one dimension is strided with respect to the next faster one; then walking the reported blocks
meets the elements in memory order, each once.

Missing for the full claim: layouts that are not regularly spaced (`C20_irregular_witness`: a
wrong answer), sizes beyond 32 bits (`C20_truncation_witness`), zero sizes (division by zero,
`C20_empty_witness`). -/
theorem C20_block_layout_partial (m : IdxMap) (hw : WF m) (hb : BlockOK m) :
    ∃ r, getBlockLayout m = some r ∧
      (r.isSome = true ↔ gaps (memOrder m.so m.len) (memOrder m.so m.str) ≤ 1) ∧
      ∀ b, r = some b → 0 < b.n ∧ 0 < b.size ∧ b.size ≤ b.str ∧ b.n * b.size = Spec.prod m.len ∧
        ∃ L, MemEnum m.so m.len L ∧ L.map (offset m) = blockWalk b.n b.size b.str := by
  rcases getBlockLayout_spec hw hb with ⟨h, e⟩ | ⟨h, b, e, h1, h2, h3, h4, h5⟩
  · exact ⟨none, e, by simp; omega, by simp⟩
  · refine ⟨some b, e, by simp [h], ?_⟩
    rintro b' ⟨⟩
    exact ⟨h1, h2, h3, h4, _, memEnum_memBox hw.perm hw.so_len.symm, h5⟩

/-- Rows of a wider matrix. -/
example : let m : IdxMap := ⟨[4, 2, 2], [6, 2, 1], [0, 1, 2], [0, 0, 0], .smallest⟩
    WF m ∧ BlockOK m ∧ getBlockLayout m = some (some ⟨4, 4, 6⟩) := by
  refine ⟨⟨by decide, rfl, rfl, rfl⟩, ⟨by decide, by decide, by decide, by decide⟩, by decide⟩

/-- **C20 (negative)** The view `a(range, range(0, 1, 6))` of a 2 by 3 array has lengths (2,1) and
strides (3,6): its elements are at offsets 0 and 3, but two blocks of one element 6 apart are
reported. -/
theorem C20_irregular_witness :
    (∃ v, sliceView ⟨0, ⟨[2, 3], [3, 1], [0, 1], [0, 0], .contiguous⟩⟩ [.all, .rng 0 1 6] = some v ∧
      v.lay.len = [2, 1] ∧ v.lay.str = [3, 6] ∧ v.lay.so = [0, 1] ∧
      getBlockLayout v.lay = some (some ⟨2, 1, 6⟩) ∧ blockWalk 2 1 6 = [0, 6] ∧
      (box v.lay.len).map (offset v.lay) = [0, 3]) := by
  refine ⟨_, rfl, rfl, rfl, rfl, by decide, by decide, by decide⟩

/-- **C20 (negative)** A contiguous array of 2^32 + 5 elements is reported as one block of 5. -/
theorem C20_truncation_witness :
    getBlockLayout ⟨[4294967301], [1], [0], [0], .contiguous⟩ = some (some ⟨1, 5, 5⟩) := by decide

/-- **C20 (negative)** A zero extent after the first dimension divides by zero. -/
theorem C20_empty_witness : getBlockLayout ⟨[2, 0], [3, 1], [0, 1], [0, 0], .smallest⟩ = none := by decide

/-! ### C17 -/

/-- Copying along any enumeration of `a`. -/
theorem copy_enum {a b : View} {mem : List α} (ha : Good a mem.length) (hb : Good b mem.length)
    (hlen : b.lay.len = a.lay.len) (h1 : OneToOne a) (hsep : Separate a b) {L : List (List Int)} (hL : Enumerates a L) :
    ∃ mem', L.foldlM (fun mem x => exec mem ⟨addr a x, fun mem => val mem (addr b x)⟩) mem = some mem' ∧
      Updated a (fun idx => val mem (addr b idx)) mem mem' := by
  apply assign_enum ha.fits h1 hL (fun x mem => val mem (addr b x))
  · intro pre x post e mem2 _ hk
    apply hk
    intro y hy
    exact hsep y x ((hL.2 y).mp (by rw [e]; simp [hy])) (by rw [hlen]; exact (hL.2 x).mp (by rw [e]; simp))
  · intro x hx
    exact val_isSome (hb.fits x (by rw [hlen]; exact (hL.2 x).mp hx))

theorem elementwise_copy {a b : View} {null : Bool} {mem : List α} (ha : Good a mem.length) (hb : Good b mem.length)
    (hlen : b.lay.len = a.lay.len) (h1 : OneToOne a) (hsep : Separate a b) :
    ∃ mem', elementwise a (.inMem b null) mem = some mem' ∧ Updated a (fun idx => val mem (addr b idx)) mem mem' := by
  rw [elementwise_eq ha.wf ha.flags]
  have : ∀ (x : List Int), x ∈ box a.lay.len → ∀ s : List α, exec s ⟨addr a x, fun mem => (Rhs.inMem b null).get x mem⟩ =
      exec s ⟨addr a x, fun mem => val mem (addr b x)⟩ := by
    intro x hx s
    have hx' : InRange b.lay.len x := by rw [hlen]; exact mem_box.mp hx
    simp only [exec, Rhs.get, load, element_eq hb.wf hb.flags hx', rdInt_eq]
    rfl
  rw [foldlM_congr _ _ this]
  exact copy_enum ha hb hlen h1 hsep (enum_box a)

/-- **C17** Assigning `b` to an array or view `a` of the same shape that shares no memory with it:
every element of `a` gets the value of the corresponding element of `b` and nothing else changes
(in particular `b`), whichever path is taken; the only other outcome is the runtime error for
device memory that cannot be copied by blocks.

Hypotheses: layouts that keep their promises, elements of `a` at distinct addresses, all inside
memory; a null storage handle only for an empty array; an evenly spaced layout of rank 0 is
contiguous.  Missing for the full claim: block copies between non-host arrays of irregular
spacing, zero size or more than 2^31 elements (C20). -/
theorem C17_assign_partial (sa sb : Space) (sameType null : Bool) (a b : View) (mem : List α)
    (ha : Good a mem.length) (hb : Good b mem.length) (hlen : b.lay.len = a.lay.len)
    (h1 : OneToOne a) (hsep : Separate a b) (hnull : null = true → Spec.prod a.lay.len = 0)
    (h0 : a.lay.len ≠ [] ∨ (a.lay.prop = .contiguous ∧ b.lay.prop = .contiguous))
    (hblk : (sa = .host ∧ sb = .host) ∨ sameType = false ∨ a.lay.so ≠ b.lay.so ∨ (BlockOK a.lay ∧ BlockOK b.lay)) :
    (∃ mem', assign sa sb sameType a (.inMem b null) mem = some (some mem') ∧
        Updated a (fun idx => val mem (addr b idx)) mem mem') ∨
      (assign sa sb sameType a (.inMem b null) mem = some none ∧ (sa = .device ∨ sb = .device)) := by
  have hfb : (∃ mem', fallback sa sb a (.inMem b null) mem = some (some mem') ∧
        Updated a (fun idx => val mem (addr b idx)) mem mem') ∨
      (fallback sa sb a (.inMem b null) mem = some none ∧ (sa = .device ∨ sb = .device)) := by
    rw [fallback]
    by_cases hd : sa = .device ∨ sb = .device
    · right; rw [if_pos hd]; exact ⟨rfl, hd⟩
    · left
      obtain ⟨mem', e, hu⟩ := elementwise_copy (null := null) ha hb hlen h1 hsep
      rw [if_neg hd, e]
      exact ⟨mem', rfl, hu⟩
  rw [assign]
  by_cases hso : a.lay.so = b.lay.so
  · rw [if_pos hso]
    cases null with
    | true =>
      left
      refine ⟨mem, rfl, rfl, ?_, fun _ _ => rfl⟩
      intro idx hidx
      have := prod_pos hidx.nonneg_len
      rw [hnull rfl] at this; omega
    | false =>
      simp only [Bool.false_eq_true, if_false]
      by_cases hh : sa = .host ∧ sb = .host
      · rw [if_pos hh]
        by_cases hs : (a.lay.prop.strided1d && b.lay.prop.strided1d) = true
        · rw [if_pos hs]
          left
          rw [Bool.and_eq_true] at hs
          rw [linearCopy_eq ha.wf hb.wf ha.flags hb.flags ha.nonneg hlen hso h0 hs.1 hs.2]
          obtain ⟨mem', e, hu⟩ := copy_enum ha hb hlen h1 hsep (enum_memBox ha.wf)
          rw [e]; exact ⟨mem', rfl, hu⟩
        · rw [if_neg hs]; exact hfb
      · rw [if_neg hh]
        by_cases ht : sameType = true
        · have hblk' : BlockOK a.lay ∧ BlockOK b.lay := by
            rcases hblk with h | h | h | h
            · exact absurd h hh
            · rw [ht] at h; cases h
            · exact absurd hso h
            · exact h
          rw [if_pos ht]
          rcases blockCopy_eq ha.wf hb.wf hblk'.1 hblk'.2 hlen hso hsep mem with e | e
          · rw [e]; exact hfb
          · obtain ⟨mem', e', hu⟩ := copy_enum ha hb hlen h1 hsep (enum_memBox ha.wf)
            rw [e, e']
            exact Or.inl ⟨mem', rfl, hu⟩
        · rw [if_neg ht]; exact hfb
  · rw [if_neg hso]; exact hfb

/-- **C17** On the host the assignment always succeeds. -/
theorem C17_assign_host (sameType null : Bool) (a b : View) (mem : List α)
    (ha : Good a mem.length) (hb : Good b mem.length) (hlen : b.lay.len = a.lay.len)
    (h1 : OneToOne a) (hsep : Separate a b) (hnull : null = true → Spec.prod a.lay.len = 0)
    (h0 : a.lay.len ≠ [] ∨ (a.lay.prop = .contiguous ∧ b.lay.prop = .contiguous)) :
    ∃ mem', assign .host .host sameType a (.inMem b null) mem = some (some mem') ∧
      Updated a (fun idx => val mem (addr b idx)) mem mem' := by
  rcases C17_assign_partial .host .host sameType null a b mem ha hb hlen h1 hsep hnull h0 (Or.inl ⟨rfl, rfl⟩) with h | ⟨_, h⟩
  · exact h
  · rcases h with h | h <;> cases h

/-- **C17** Assigning a lazy expression (any function giving an element on demand) that does not
read the elements of `a`. -/
theorem C17_assign_expr (sa sb : Space) (sameType : Bool) (a : View) (f : List Int → List α → Option α) (mem : List α)
    (ha : Good a mem.length) (h1 : OneToOne a) (hsa : sa ≠ .device) (hsb : sb ≠ .device)
    (hd : ∀ idx, InRange a.lay.len idx → ∃ x, f idx mem = some x)
    (hind : ∀ idx, InRange a.lay.len idx → ∀ mem2 : List α, mem2.length = mem.length →
      (∀ k, ¬ Occupies a k → val mem2 k = val mem k) → f idx mem2 = f idx mem) :
    ∃ mem', assign sa sb sameType a (.expr f) mem = some (some mem') ∧ Updated a (fun idx => f idx mem) mem mem' := by
  obtain ⟨mem', e, hu⟩ := assign_enum ha.fits h1 (enum_box a) (fun x mem => f x mem)
    (fun pre x post e mem2 hl hk => hind x (mem_box.mp (by rw [e]; simp)) mem2 hl
      (fun k hk' => hk k (fun y hy ey => hk' ⟨y, mem_box.mp (by rw [e]; simp [hy]), ey⟩)))
    (fun x hx => hd x (mem_box.mp hx))
  refine ⟨mem', ?_, hu⟩
  rw [assign, fallback, if_neg (by simp [hsa, hsb]), elementwise_eq ha.wf ha.flags]
  simp only [Rhs.get]
  rw [e]; rfl

/-- A 2 by 2 block of a 2 by 3 matrix, and a Fortran-order 2 by 2 matrix after it, in 10 elements:
the hypotheses of C17 hold. -/
example : let a : View := ⟨0, ⟨[2, 2], [3, 1], [0, 1], [0, 0], .smallest⟩⟩
    let b : View := ⟨6, ⟨[2, 2], [1, 2], [1, 0], [0, 0], .contiguous⟩⟩
    Good a 10 ∧ Good b 10 ∧ OneToOne a ∧ Separate a b := by
  have hbox : ∀ (P : List Int → Prop) [DecidablePred P], (∀ x ∈ box [2, 2], P x) → ∀ x, InRange [2, 2] x → P x :=
    fun P _ h x hx => h x (mem_box.mpr hx)
  refine ⟨⟨⟨by decide, rfl, rfl, rfl⟩, ⟨by intro _ u hu; cases hu; rfl, by intro h; cases h⟩, by decide, ?_⟩,
    ⟨⟨by decide, rfl, rfl, rfl⟩, ⟨by intro _ u hu; cases hu; rfl, fun _ => ⟨1, by unfold EvenlySpaced; decide⟩⟩, by decide, ?_⟩, ?_, ?_⟩
  · exact fun x hx => hbox (fun x => 0 ≤ addr ⟨0, ⟨[2, 2], [3, 1], [0, 1], [0, 0], .smallest⟩⟩ x ∧ addr ⟨0, ⟨[2, 2], [3, 1], [0, 1], [0, 0], .smallest⟩⟩ x < 10) (by decide) x hx
  · exact fun x hx => hbox (fun x => 0 ≤ addr ⟨6, ⟨[2, 2], [1, 2], [1, 0], [0, 0], .contiguous⟩⟩ x ∧ addr ⟨6, ⟨[2, 2], [1, 2], [1, 0], [0, 0], .contiguous⟩⟩ x < 10) (by decide) x hx
  · intro x y hx hy
    have : ∀ x ∈ box [2, 2], ∀ y ∈ box [2, 2], addr ⟨0, ⟨[2, 2], [3, 1], [0, 1], [0, 0], .smallest⟩⟩ x = addr ⟨0, ⟨[2, 2], [3, 1], [0, 1], [0, 0], .smallest⟩⟩ y → x = y := by decide
    exact this x (mem_box.mpr hx) y (mem_box.mpr hy)
  · intro x y hx hy
    have : ∀ x ∈ box [2, 2], ∀ y ∈ box [2, 2], addr ⟨0, ⟨[2, 2], [3, 1], [0, 1], [0, 0], .smallest⟩⟩ x ≠ addr ⟨6, ⟨[2, 2], [1, 2], [1, 0], [0, 0], .contiguous⟩⟩ y := by decide
    exact this x (mem_box.mpr hx) y (mem_box.mpr hy)
example : assign .host .host true ⟨0, ⟨[2, 2], [3, 1], [0, 1], [0, 0], .smallest⟩⟩
    (.inMem ⟨6, ⟨[2, 2], [1, 2], [1, 0], [0, 0], .contiguous⟩⟩ false) [0, 0, 0, 0, 0, 0, 1, 2, 3, 4] =
    some (some [1, 3, 0, 2, 4, 0, 1, 2, 3, (4 : Nat)]) := by decide

/-! ### C21 -/

/-- **C21** Comparison of arrays: `true` exactly when the shapes agree and all elements compare
equal, whatever the memory layouts. -/
theorem C21_equality {β : Type} (eq : α → β → Bool) (lenA lenB : List Int) (getA : List Int → Option α) (getB : List Int → Option β)
    (hA : ∀ idx, InRange lenA idx → ∃ x, getA idx = some x) (hB : ∀ idx, InRange lenB idx → ∃ y, getB idx = some y) :
    ∃ r, arrayEq eq lenA lenB getA getB = some r ∧
      (r = true ↔ lenA = lenB ∧ ∀ idx, InRange lenA idx → ∀ x y, getA idx = some x → getB idx = some y → eq x y = true) := by
  unfold arrayEq
  by_cases hl : lenA = lenB
  · subst hl
    rw [if_neg (by simp), forEach_eq]
    have key : ∀ (L : List (List Int)) (r : Bool), (∀ x ∈ L, InRange lenA x) →
        ∃ r', L.foldlM (fun s idx => do let x ← getA idx; let y ← getB idx; return (s && eq x y)) r = some r' ∧
          (r' = true ↔ r = true ∧ ∀ idx ∈ L, ∀ x y, getA idx = some x → getB idx = some y → eq x y = true) := by
      intro L
      induction L with
      | nil => intro r _; exact ⟨r, rfl, by simp⟩
      | cons i L ih =>
        intro r h
        obtain ⟨x, hx⟩ := hA i (h i List.mem_cons_self)
        obtain ⟨y, hy⟩ := hB i (h i List.mem_cons_self)
        obtain ⟨r', e, hr'⟩ := ih (r && eq x y) (fun z hz => h z (List.mem_cons_of_mem _ hz))
        refine ⟨r', ?_, ?_⟩
        · rw [List.foldlM_cons, hx, hy]; exact e
        · rw [hr', Bool.and_eq_true]
          constructor
          · rintro ⟨⟨h1, h2⟩, h3⟩
            refine ⟨h1, fun idx hidx => ?_⟩
            rcases List.mem_cons.mp hidx with rfl | hidx
            · intro x' y' hx' hy'
              rw [hx] at hx'; rw [hy] at hy'
              cases hx'; cases hy'; exact h2
            · exact h3 idx hidx
          · rintro ⟨h1, h2⟩
            exact ⟨⟨h1, h2 i List.mem_cons_self x y hx hy⟩, fun idx hidx => h2 idx (List.mem_cons_of_mem _ hidx)⟩
    obtain ⟨r, e, hr⟩ := key (box lenA) true (fun x hx => mem_box.mp hx)
    refine ⟨r, e, ?_⟩
    rw [hr]
    simp [mem_box]
  · exact ⟨false, by rw [if_pos hl], by simp [hl]⟩

/-- **C21** For arrays in memory with layouts that keep their promises: equality of the shapes and
of the contents at corresponding addresses. -/
theorem C21_views (eq : α → α → Bool) (heq : ∀ x y, eq x y = true ↔ x = y) (a b : View) (mem : List α)
    (ha : Good a mem.length) (hb : Good b mem.length) :
    ∃ r, arrayEq eq a.lay.len b.lay.len (fun idx => load a idx mem) (fun idx => load b idx mem) = some r ∧
      (r = true ↔ a.lay.len = b.lay.len ∧ ∀ idx, InRange a.lay.len idx → val mem (addr a idx) = val mem (addr b idx)) := by
  obtain ⟨r, e, hr⟩ := C21_equality eq a.lay.len b.lay.len (fun idx => load a idx mem) (fun idx => load b idx mem)
    (fun idx h => by simp only [load_eq ha h]; exact val_isSome (ha.fits idx h))
    (fun idx h => by simp only [load_eq hb h]; exact val_isSome (hb.fits idx h))
  refine ⟨r, e, ?_⟩
  rw [hr]
  constructor
  · rintro ⟨hl, h⟩
    refine ⟨hl, fun idx hidx => ?_⟩
    obtain ⟨x, hx⟩ := val_isSome (ha.fits idx hidx)
    obtain ⟨y, hy⟩ := val_isSome (hb.fits idx (by rw [← hl]; exact hidx))
    rw [hx, hy]
    congr 1
    exact (heq x y).mp (h idx hidx x y (by rw [load_eq ha hidx, hx]) (by rw [load_eq hb (by rw [← hl]; exact hidx), hy]))
  · rintro ⟨hl, h⟩
    refine ⟨hl, fun idx hidx x y hx hy => ?_⟩
    rw [load_eq ha hidx] at hx
    rw [load_eq hb (by rw [← hl]; exact hidx)] at hy
    have := h idx hidx
    rw [hx, hy] at this
    exact (heq x y).mpr (Option.some.inj this)

/-- **C21** With an equality of elements that is reflexive, symmetric and transitive, so is the
equality of arrays (accesses always succeed in range). -/
theorem C21_equivalence (eq : α → α → Bool) (hr : ∀ x, eq x x = true) (hs : ∀ x y, eq x y = true → eq y x = true)
    (ht : ∀ x y z, eq x y = true → eq y z = true → eq x z = true) (lenA lenB lenC : List Int) (A B C : List Int → Option α)
    (hA : ∀ idx, InRange lenA idx → ∃ x, A idx = some x) (hB : ∀ idx, InRange lenB idx → ∃ x, B idx = some x)
    (hC : ∀ idx, InRange lenC idx → ∃ x, C idx = some x) :
    arrayEq eq lenA lenA A A = some true ∧
    arrayEq eq lenA lenB A B = arrayEq eq lenB lenA B A ∧
    (arrayEq eq lenA lenB A B = some true → arrayEq eq lenB lenC B C = some true → arrayEq eq lenA lenC A C = some true) := by
  obtain ⟨r1, e1, h1⟩ := C21_equality eq lenA lenA A A hA hA
  obtain ⟨r2, e2, h2⟩ := C21_equality eq lenA lenB A B hA hB
  obtain ⟨r3, e3, h3⟩ := C21_equality eq lenB lenA B A hB hA
  obtain ⟨r4, e4, h4⟩ := C21_equality eq lenB lenC B C hB hC
  obtain ⟨r5, e5, h5⟩ := C21_equality eq lenA lenC A C hA hC
  refine ⟨?_, ?_, ?_⟩
  · rw [e1, h1.mpr ⟨rfl, fun idx _ x y hx hy => by rw [hx] at hy; cases hy; exact hr x⟩]
  · rw [e2, e3]
    congr 1
    rw [Bool.eq_iff_iff, h2, h3]
    constructor
    · rintro ⟨hl, h⟩; subst hl; exact ⟨rfl, fun idx hi x y hx hy => hs _ _ (h idx hi y x hy hx)⟩
    · rintro ⟨hl, h⟩; subst hl; exact ⟨rfl, fun idx hi x y hx hy => hs _ _ (h idx hi y x hy hx)⟩
  · rw [e2, e4, e5]
    intro g1 g2
    obtain ⟨l1, q1⟩ := h2.mp (Option.some.inj g1)
    obtain ⟨l2, q2⟩ := h4.mp (Option.some.inj g2)
    subst l1; subst l2
    rw [h5.mpr ⟨rfl, fun idx hi x z hx hz => by
      obtain ⟨y, hy⟩ := hB idx hi
      exact ht x y z (q1 idx hi x y hx hy) (q2 idx hi y z hy hz)⟩]

example : arrayEq (· == ·) [2, 2] [2, 2] (fun idx => load ⟨0, ⟨[2, 2], [2, 1], [0, 1], [0, 0], .contiguous⟩⟩ idx [1, 2, 3, 4, 1, 3, 2, 4])
    (fun idx => load ⟨4, ⟨[2, 2], [1, 2], [1, 0], [0, 0], .contiguous⟩⟩ idx [1, 2, 3, 4, 1, 3, 2, (4 : Nat)]) = some true := by decide

end Nda.Assign
