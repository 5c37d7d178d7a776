import Verif.Props.Solve
import Verif.Props.Scalar
import Verif.Spec.Drivers
/-!
# Rectangular matrices in memory: blocks by columns, new matrices, parts of matrices
-/
namespace Nda.Linalg
open Nda Nda.Spec LayoutTransforms Assign Loops Nda.Matrix Blas

variable {α : Type}

/-- Entries by integer indices. -/
def ofMat2 [Zero α] {n r : Nat} (M : Matrix (Fin n) (Fin r) α) : Int → Int → α := fun i j => if h : i.toNat < n ∧ j.toNat < r then M ⟨i.toNat, h.1⟩ ⟨j.toNat, h.2⟩ else 0

theorem toMat2_ofMat2 [Zero α] {n r : Nat} (M : Matrix (Fin n) (Fin r) α) : toMat2 n r (ofMat2 M) = M := by
  ext i j; simp [toMat2, ofMat2]

theorem ofMat2_apply [Zero α] {n r : Nat} (M : Matrix (Fin n) (Fin r) α) (i : Fin n) (j : Fin r) : ofMat2 M (i : Int) (j : Int) = M i j := by
  simp [ofMat2]

theorem toMat2_congr {n r : Nat} {A B : Int → Int → α} (h : ∀ i j : Int, 0 ≤ i → i < n → 0 ≤ j → j < r → A i j = B i j) : toMat2 n r A = toMat2 n r B := by
  ext i j
  exact h i j (by omega) (by exact_mod_cast i.isLt) (by omega) (by exact_mod_cast j.isLt)

theorem colMajor2_of {v : View} {n r ml : Nat} {ld : Int} (h : LMat v n r ml true ld) {mem : List α} {A : Int → Int → α} (hA : Entries v n r mem A) : ColMajor2 v.off ld n r mem (toMat2 n r A) := by
  intro i j
  rw [← addrF h]
  exact hA i j (by omega) (by exact_mod_cast i.isLt) (by omega) (by exact_mod_cast j.isLt)

theorem entries2_of [Zero α] {v : View} {n r ml : Nat} {ld : Int} (h : LMat v n r ml true ld) {mem : List α} {M : Matrix (Fin n) (Fin r) α} (hM : ColMajor2 v.off ld n r mem M) :
    Entries v n r mem (ofMat2 M) := by
  intro i j h1 h2 h3 h4
  obtain ⟨i, rfl⟩ := Int.eq_ofNat_of_zero_le h1
  obtain ⟨j, rfl⟩ := Int.eq_ofNat_of_zero_le h3
  have := hM ⟨i, by omega⟩ ⟨j, by omega⟩
  rw [← addrF h] at this
  rw [this]
  simp [ofMat2, show i < n by omega, show j < r by omega]

theorem inBlock_iff {v : View} {n r ml : Nat} {ld : Int} (h : LMat v n r ml true ld) (k : Int) : InBlock v.off ld n r k ↔ Occupies v k := by
  constructor
  · rintro ⟨i, j, e⟩
    refine ⟨[i, j], ?_, by rw [addrF h, e]⟩
    rw [h.len, inRange2]
    exact ⟨i, j, rfl, by omega, by exact_mod_cast i.isLt, by omega, by exact_mod_cast j.isLt⟩
  · rintro ⟨idx, hi, e⟩
    rw [h.len, inRange2] at hi
    obtain ⟨i, j, rfl, h1, h2, h3, h4⟩ := hi
    obtain ⟨i, rfl⟩ := Int.eq_ofNat_of_zero_le h1
    obtain ⟨j, rfl⟩ := Int.eq_ofNat_of_zero_le h3
    rw [addrF h] at e
    exact ⟨⟨i, by omega⟩, ⟨j, by omega⟩, e⟩

theorem blockIn_of {v : View} {n r : Nat} {ld : Int} {mem : List α} (h : LMat v n r mem.length true ld) : BlockIn v.off ld n r mem := by
  intro k hk
  obtain ⟨idx, hi, e⟩ := (inBlock_iff h k).mp hk
  have := h.good.fits idx hi
  rw [← e]
  unfold val
  rw [if_neg (by omega)]
  rw [List.getElem?_eq_getElem (by omega)]
  rfl

/-- A new matrix without values. -/
theorem fresh_matrix (junk : α) (f : Bool) {n0 n1 : Int} (p0 : 0 < n0) (p1 : 0 < n1) (b0 : n0 < 2147483648) (b1 : n1 < 2147483648) (mem : List α) :
    ∃ r mem', fresh junk (if f then [1, 0] else [0, 1]) [n0, n1] mem = some (r, mem') ∧ Ext mem mem' ∧ LMat r n0 n1 mem'.length f (if f then n0 else n1) ∧ r.lay.prop = .contiguous ∧
      r.lay.size = n0 * n1 ∧ ∀ idx, InRange [n0, n1] idx → (mem.length : Int) ≤ addr r idx := by
  obtain ⟨m, hm, e1, hlen⟩ := fresh_eq junk (so := if f then [1, 0] else [0, 1]) (len := [n0, n1]) (by cases f <;> decide) (by cases f <;> rfl) (nonneg2 (by omega) (by omega)) mem
  refine ⟨_, _, e1, ⟨by rw [hlen]; omega, fun k hk => val_append_left _ hk⟩, fresh_lmat hm p0 p1 b0 b1 (by rw [hlen]), hm.prop_eq, ?_, fun idx hi => (hm.above idx hi).1⟩
  rw [show (View.mk (mem.length : Int) m).lay.size = _ from hm.size_eq]
  simp [prod]

/-! ### Parts of a matrix -/

theorem isCount_one {f l : Int} (hfl : f ≤ l) (e : Int) : IsCount f l 1 e ↔ e = l - f := by
  rw [IsCount]
  constructor
  · rintro ⟨-, h0, h⟩
    simp only [zero_lt_one, if_true] at h
    by_contra hne
    rcases lt_or_gt_of_ne hne with hlt | hgt
    · have := (h e h0).mpr (by omega); omega
    · have := (h (l - f) (by omega)).mp (by omega); omega
  · rintro rfl
    exact ⟨by decide, by omega, fun k hk => by simp only [zero_lt_one, if_true]; omega⟩

theorem argOK_rng {f l N : Int} (hf : 0 ≤ f) (hfl : f ≤ l) (hl : l ≤ N) : ∀ k e, IsCount f (stop l 1 N) 1 e → 0 ≤ k → k < e → 0 ≤ f + k * 1 ∧ f + k * 1 < N := by
  intro k e he hk0 hke
  have hstop : stop l 1 N = l := by simp [stop]; omega
  rw [hstop, isCount_one hfl] at he
  omega

/-- `v(range(a, b), range(c, d))`. -/
theorem _root_.Nda.Blas.LMat.part {v : View} {n0 n1 : Int} {n : Nat} {f : Bool} {ld : Int} (h : LMat v n0 n1 n f ld) {a b c d : Int} (ha : 0 ≤ a) (hab : a ≤ b) (hb : b ≤ n0) (hc : 0 ≤ c) (hcd : c ≤ d)
    (hd : d ≤ n1) : ∃ w, sliceView v [.rng a b 1, .rng c d 1] = some w ∧ LMat w (b - a) (d - c) n f ld ∧ ∀ i j, addr w [i, j] = addr v [a + i, c + j] := by
  have hal : Allowed v.lay.len (.slice [.rng a b 1, .rng c d 1]) := by
    refine ⟨by rw [h.len]; simp, by rw [h.len]; left; exact ⟨by simp, rfl⟩, ?_⟩
    rw [h.len]
    exact ⟨⟨by decide, argOK_rng ha hab hb⟩, ⟨by decide, argOK_rng hc hcd hd⟩, trivial⟩
  obtain ⟨w, e, hg, -, -, -⟩ := step_good h.good h.one hal (by intro k h; cases h)
  have ht : sliceView v [.rng a b 1, .rng c d 1] = some w := e
  have hse : ∃ e0 e1, v.lay.se = [e0, e1] := by
    have := h.good.wf.se_len
    rw [h.len] at this
    match hv : v.lay.se, this with
    | [a, b], _ => exact ⟨a, b, rfl⟩
  obtain ⟨e0, e1, hse⟩ := hse
  have hlay : v.lay = ⟨[n0, n1], if f then [1, ld] else [ld, 1], if f then [1, 0] else [0, 1], [e0, e1], v.lay.prop⟩ := by
    rw [← h.len, ← h.str, ← h.so, ← hse]
  have h1 : Slice.nOfP 2 2 [true, true] 128 1 = some [0, 1] := by decide
  have h2 : Slice.qOfP 2 2 [true, true] 128 1 = some [0, 1] := by decide
  have h3 : Slice.slicedOrder (if f then [1, 0] else [0, 1]) [0, 1] = some (if f then [1, 0] else [0, 1]) := by cases f <;> decide
  have h5 : Slice.ellipsisPosition [.rng a b 1, .rng c d 1] = 128 := by rfl
  have h6 : Slice.qOfN 0 128 1 = 0 ∧ Slice.qOfN 1 128 1 = 1 := by decide
  have hr : List.range 2 = [0, 1] := by decide
  have r1 : ∀ x y z : Int, 0 ≤ x → x ≤ y → rangeSize x (if y = -1 then z else y) 1 = some (y - x) := by
    intro x y z h1 h2
    rw [if_neg (by omega)]
    simp [rangeSize]; omega
  have hw : w = ⟨v.off + (if f then a + c * ld else c + a * ld), ⟨[b - a, d - c], if f then [1, ld] else [ld, 1], if f then [1, 0] else [0, 1], [0, 0], .none⟩⟩ := by
    rw [sliceView, hlay] at ht
    cases f <;>
    · simp [Slice.slice, IdxMap.rank, Slice.isRange, Slice.isEll, Slice.isRangeAll, h1, h2, h5, h6, hr, rd, rdInt, Slice.getOffset, Slice.getL, Slice.getS, Slice.sliceLayoutProp] at ht h3
      rw [h3] at ht
      simp [r1 _ _ _ ha hab, r1 _ _ _ hc hcd] at ht
      rw [← ht]
      simp
      try ring
  have hl : LMat w (b - a) (d - c) n f ld := by
    have hwd := h.wide
    have := h.b0
    have := h.b1
    refine ⟨hg, by rw [hw], by rw [hw], by rw [hw], h.pos, ?_, h.ldb, by omega, by omega, by omega, by omega⟩
    cases f
    · simp only [Bool.false_eq_true, if_false] at hwd ⊢; omega
    · simp only [if_true] at hwd ⊢; omega
  refine ⟨w, ht, hl, fun i j => ?_⟩
  rw [hl.addr_eq, h.addr_eq, hw]
  cases f <;> simp <;> ring

/-- `v(_, range(c, d))`. -/
theorem _root_.Nda.Blas.LMat.cols {v : View} {n0 n1 : Int} {n : Nat} {f : Bool} {ld : Int} (h : LMat v n0 n1 n f ld) {c d : Int} (hc : 0 ≤ c) (hcd : c ≤ d)
    (hd : d ≤ n1) : ∃ w, sliceView v [.all, .rng c d 1] = some w ∧ LMat w n0 (d - c) n f ld ∧ ∀ i j, addr w [i, j] = addr v [i, c + j] := by
  have hal : Allowed v.lay.len (.slice [.all, .rng c d 1]) := by
    refine ⟨by rw [h.len]; simp, by rw [h.len]; left; exact ⟨by simp, rfl⟩, ?_⟩
    rw [h.len]
    exact ⟨trivial, ⟨by decide, argOK_rng hc hcd hd⟩, trivial⟩
  obtain ⟨w, e, hg, -, -, -⟩ := step_good h.good h.one hal (by intro k h; cases h)
  have ht : sliceView v [.all, .rng c d 1] = some w := e
  have hse : ∃ e0 e1, v.lay.se = [e0, e1] := by
    have := h.good.wf.se_len
    rw [h.len] at this
    match hv : v.lay.se, this with
    | [a, b], _ => exact ⟨a, b, rfl⟩
  obtain ⟨e0, e1, hse⟩ := hse
  have hlay : v.lay = ⟨[n0, n1], if f then [1, ld] else [ld, 1], if f then [1, 0] else [0, 1], [e0, e1], v.lay.prop⟩ := by
    rw [← h.len, ← h.str, ← h.so, ← hse]
  have h1 : Slice.nOfP 2 2 [true, true] 128 1 = some [0, 1] := by decide
  have h2 : Slice.qOfP 2 2 [true, true] 128 1 = some [0, 1] := by decide
  have h3 : Slice.slicedOrder (if f then [1, 0] else [0, 1]) [0, 1] = some (if f then [1, 0] else [0, 1]) := by cases f <;> decide
  have h5 : Slice.ellipsisPosition [.all, .rng c d 1] = 128 := by rfl
  have h6 : Slice.qOfN 0 128 1 = 0 ∧ Slice.qOfN 1 128 1 = 1 := by decide
  have hr : List.range 2 = [0, 1] := by decide
  have r1 : ∀ x y z : Int, 0 ≤ x → x ≤ y → rangeSize x (if y = -1 then z else y) 1 = some (y - x) := by
    intro x y z h1 h2
    rw [if_neg (by omega)]
    simp [rangeSize]; omega
  have hw : w = ⟨v.off + (if f then c * ld else c), ⟨[n0, d - c], if f then [1, ld] else [ld, 1], if f then [1, 0] else [0, 1], [e0, 0], .none⟩⟩ := by
    rw [sliceView, hlay] at ht
    cases f <;>
    · simp [Slice.slice, IdxMap.rank, Slice.isRange, Slice.isEll, Slice.isRangeAll, h1, h2, h5, h6, hr, rd, rdInt, Slice.getOffset, Slice.getL, Slice.getS, Slice.sliceLayoutProp] at ht h3
      rw [h3] at ht
      simp [r1 _ _ _ hc hcd] at ht
      rw [← ht]
      simp
  have hl : LMat w n0 (d - c) n f ld := by
    have hwd := h.wide
    have := h.b1
    refine ⟨hg, by rw [hw], by rw [hw], by rw [hw], h.pos, ?_, h.ldb, h.nn0, by omega, h.b0, by omega⟩
    cases f
    · simp only [Bool.false_eq_true, if_false] at hwd ⊢; omega
    · simp only [if_true] at hwd ⊢; omega
  refine ⟨w, ht, hl, fun i j => ?_⟩
  rw [hl.addr_eq, h.addr_eq, hw]
  cases f <;> simp <;> ring

/-- A matrix as BLAS wants it. -/
theorem _root_.Nda.Blas.LMat.blas {v : View} {n0 n1 : Int} {n : Nat} {f : Bool} {ld : Int} (h : LMat v n0 n1 n f ld) : BlasMatrix v n0 n1 := by
  refine ⟨h.len, ?_, h.b0, h.b1⟩
  have h1 := h.so
  have h2 := h.str
  have h3 := h.wide
  cases f
  · exact Or.inr ⟨by simpa using h1, ld, by simpa using h2, h.pos, by simpa using h3, h.ldb⟩
  · exact Or.inl ⟨by simpa using h1, ld, by simpa using h2, h.pos, by simpa using h3, h.ldb⟩

end Nda.Linalg
