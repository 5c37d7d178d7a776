import Verif.Model.Blas
import Verif.Spec.Blas
import Verif.Lemmas.Writes
import Verif.Lemmas.Blocks
import Verif.Props.Matrix
import Mathlib.Algebra.BigOperators.Intervals
/-!
# Lemmas for the BLAS interface
-/
namespace Nda.Blas
open Nda LayoutTransforms Assign Loops Matrix Nda.Spec Nda.Perm

variable {α : Type}

theorem sumM_eq [AddCommMonoid α] (n : Int) (f : Int → Option α) (g : Int → α) (h : ∀ l, 0 ≤ l → l < n → f l = some (g l)) : sumM n f = some (sumTo n g) := by
  have key : ∀ k : Nat, (k : Int) ≤ n ∨ k = 0 → (List.range k).foldlM (fun acc (l : Nat) => do let x ← f (Int.ofNat l); return acc + x) (0 : α) = some (∑ l ∈ Finset.range k, g (l : Int)) := by
    intro k
    induction k with
    | zero => intro _; rfl
    | succ k ih =>
      intro hk
      have hk : ((k + 1 : Nat) : Int) ≤ n := by omega
      rw [List.range_succ, List.foldlM_append, ih (by omega), Finset.sum_range_succ]
      have := h k (by omega) (by push_cast at hk; omega)
      simp only [Option.bind_eq_bind, Option.bind_some, List.foldlM_cons, List.foldlM_nil]
      rw [show f (Int.ofNat k) = _ from this]
      rfl
  exact key n.toNat (by omega)

theorem sumTo_congr [AddCommMonoid α] {n : Int} {f g : Int → α} (h : ∀ l, 0 ≤ l → l < n → f l = g l) : sumTo n f = sumTo n g := by
  unfold sumTo
  apply Finset.sum_congr rfl
  intro l hl
  rw [Finset.mem_range] at hl
  exact h l (by omega) (by omega)

theorem mapM_some {β γ : Type} {f : β → Option γ} {g : β → γ} : ∀ {l : List β}, (∀ x ∈ l, f x = some (g x)) → l.mapM f = some (l.map g)
  | [], _ => rfl
  | x :: l, h => by
    rw [List.mapM_cons, h x (by simp), mapM_some (l := l) (fun y hy => h y (by simp [hy]))]
    rfl

theorem mem_pairs {m n i j : Int} : (i, j) ∈ pairs m n ↔ 0 ≤ i ∧ i < m ∧ 0 ≤ j ∧ j < n := by
  simp only [pairs, List.mem_flatMap, List.mem_map, List.mem_range, Prod.mk.injEq, Int.ofNat_eq_natCast]
  constructor
  · rintro ⟨a, ha, b, hb, rfl, rfl⟩; omega
  · rintro ⟨a, b, c, d⟩
    exact ⟨i.toNat, by omega, j.toNat, by omega, by omega, by omega⟩

/-- Writing all entries of a matrix. -/
theorem write_matrix {c : View} {n0 n1 : Int} {mem : List α} (hlen : c.lay.len = [n0, n1]) (hfit : Fits' c mem.length) (h1 : OneToOne c) {f : Int × Int → Option (Int × α)}
    {g : Int → Int → α} (h : ∀ i j, 0 ≤ i → i < n0 → 0 ≤ j → j < n1 → f (i, j) = some (addr c [i, j], g i j)) :
    ∃ mem', (do let ws ← (pairs n0 n1).mapM f; storeAll ws mem) = some mem' ∧ Updated c (fun idx => some (g (idx.getD 0 0) (idx.getD 1 0))) mem mem' := by
  have hm : (pairs n0 n1).mapM f = some ((pairs n0 n1).map (fun ij => (addr c [ij.1, ij.2], g ij.1 ij.2))) := by
    apply mapM_some
    rintro ⟨i, j⟩ hij
    rw [mem_pairs] at hij
    exact h i j hij.1 hij.2.1 hij.2.2.1 hij.2.2.2
  have hin : ∀ i j, (i, j) ∈ pairs n0 n1 → InRange c.lay.len [i, j] := by
    intro i j hij
    rw [mem_pairs] at hij
    rw [hlen, inRange2]; exact ⟨i, j, rfl, hij⟩
  obtain ⟨mem', e, hl, hfr, hv⟩ := writeAll_spec ((pairs n0 n1).map (fun ij => (addr c [ij.1, ij.2], g ij.1 ij.2))) mem (by
    intro w hw
    rw [List.mem_map] at hw
    obtain ⟨⟨i, j⟩, hij, rfl⟩ := hw
    exact hfit _ (hin i j hij))
  refine ⟨mem', by rw [hm]; exact e, hl, ?_, ?_⟩
  · intro idx hi
    rw [hlen, inRange2] at hi
    obtain ⟨i, j, rfl, hij⟩ := hi
    refine hv _ _ (List.mem_map.mpr ⟨(i, j), mem_pairs.mpr hij, rfl⟩) ?_
    intro w hw he
    rw [List.mem_map] at hw
    obtain ⟨⟨i', j'⟩, hij', rfl⟩ := hw
    have := h1 [i', j'] [i, j] (hin _ _ hij') (hin _ _ (mem_pairs.mpr hij)) he
    simp only [List.cons.injEq, and_true] at this
    simp [this.1, this.2]
  · intro k hk
    apply hfr
    intro w hw
    rw [List.mem_map] at hw
    obtain ⟨⟨i, j⟩, hij, rfl⟩ := hw
    intro he
    exact hk ⟨[i, j], hin i j hij, he⟩

/-- Writing all elements of a vector. -/
theorem write_vector {c : View} {n : Int} {mem : List α} (hlen : c.lay.len = [n]) (hfit : Fits' c mem.length) (h1 : OneToOne c) {f : Int → Option (Int × α)}
    {g : Int → α} (h : ∀ i, 0 ≤ i → i < n → f i = some (addr c [i], g i)) :
    ∃ mem', (do let ws ← ((List.range n.toNat).map Int.ofNat).mapM f; storeAll ws mem) = some mem' ∧ Updated c (fun idx => some (g (idx.getD 0 0))) mem mem' := by
  have hmem : ∀ i, i ∈ (List.range n.toNat).map Int.ofNat ↔ 0 ≤ i ∧ i < n := by
    intro i
    simp only [List.mem_map, List.mem_range, Int.ofNat_eq_natCast]
    constructor
    · rintro ⟨a, ha, rfl⟩; omega
    · rintro ⟨a, b⟩; exact ⟨i.toNat, by omega, by omega⟩
  generalize (List.range n.toNat).map Int.ofNat = L at hmem
  have hm : L.mapM f = some (L.map (fun i => (addr c [i], g i))) := by
    apply mapM_some
    intro i hi
    rw [hmem] at hi
    exact h i hi.1 hi.2
  have hin : ∀ i, i ∈ L → InRange c.lay.len [i] := by
    intro i hi
    rw [hmem] at hi
    rw [hlen, inRange1]; exact ⟨i, rfl, hi⟩
  obtain ⟨mem', e, hl, hfr, hv⟩ := writeAll_spec (L.map (fun i => (addr c [i], g i))) mem (by
    intro w hw
    rw [List.mem_map] at hw
    obtain ⟨i, hi, rfl⟩ := hw
    exact hfit _ (hin i hi))
  refine ⟨mem', by rw [hm]; exact e, hl, ?_, ?_⟩
  · intro idx hi
    rw [hlen, inRange1] at hi
    obtain ⟨i, rfl, hij⟩ := hi
    refine hv _ _ (List.mem_map.mpr ⟨i, (hmem i).mpr hij, rfl⟩) ?_
    intro w hw he
    rw [List.mem_map] at hw
    obtain ⟨i', hij', rfl⟩ := hw
    have := h1 [i'] [i] (hin _ hij') (hin _ ((hmem i).mpr hij)) he
    simp only [List.cons.injEq, and_true] at this
    simp [this]
  · intro k hk
    apply hfr
    intro w hw
    rw [List.mem_map] at hw
    obtain ⟨i, hij, rfl⟩ := hw
    intro he
    exact hk ⟨[i], hin i hij, he⟩

/-! ### Layout facts -/

/-- A matrix for BLAS inside memory of `n` elements, with its order (`f`: Fortran) and leading dimension. -/
structure LMat (v : View) (n0 n1 : Int) (n : Nat) (f : Bool) (ld : Int) : Prop where
  good : Good v n
  len : v.lay.len = [n0, n1]
  so : v.lay.so = if f then [1, 0] else [0, 1]
  str : v.lay.str = if f then [1, ld] else [ld, 1]
  pos : 1 ≤ ld
  wide : (if f then n0 else n1) ≤ ld
  ldb : ld < 2147483648
  nn0 : 0 ≤ n0
  nn1 : 0 ≤ n1
  b0 : n0 < 2147483648
  b1 : n1 < 2147483648

theorem _root_.Nda.Spec.BlasMatrix.lmat {v : View} {n0 n1 : Int} (h : BlasMatrix v n0 n1) {n : Nat} (hg : Good v n) : ∃ f ld, LMat v n0 n1 n f ld ∧ (f = true ↔ v.lay.so = [1, 0]) := by
  have hn := hg.nonneg
  rw [h.len] at hn
  have h0 : 0 ≤ n0 := hn n0 (by simp)
  have h1 : 0 ≤ n1 := hn n1 (by simp)
  rcases h.order with ⟨hso, ld, hs, a, b, c⟩ | ⟨hso, ld, hs, a, b, c⟩
  · exact ⟨true, ld, ⟨hg, h.len, by simp [hso], by simp [hs], a, by simpa using b, c, h0, h1, h.bound0, h.bound1⟩, by simp [hso]⟩
  · exact ⟨false, ld, ⟨hg, h.len, by simp [hso], by simp [hs], a, by simpa using b, c, h0, h1, h.bound0, h.bound1⟩, by simp [hso]⟩

namespace LMat

variable {v : View} {n0 n1 : Int} {n : Nat} {f : Bool} {ld : Int}

theorem mono (h : LMat v n0 n1 n f ld) {k : Nat} (hk : n ≤ k) : LMat v n0 n1 k f ld := { h with good := h.good.mono hk }

theorem hasF_eq (h : LMat v n0 n1 n f ld) : hasF v = f := by
  unfold hasF IdxMap.isStrideOrderF
  rw [show v.lay.rank = 2 by simp [IdxMap.rank, h.len], h.so]
  cases f <;> decide

theorem hasC_eq (h : LMat v n0 n1 n f ld) : hasC v = !f := by
  unfold hasC IdxMap.isStrideOrderC
  rw [show v.lay.rank = 2 by simp [IdxMap.rank, h.len], h.so]
  cases f <;> decide

theorem ld_eq (h : LMat v n0 n1 n f ld) : getLd v = some ld := by
  have := toInt32_id (x := ld) (by have := h.pos; omega) h.ldb
  rw [getLd, h.hasF_eq, h.str]
  cases f <;> simp [rd, this]

theorem addr_eq (h : LMat v n0 n1 n f ld) (i j : Int) : addr v [i, j] = v.off + (if f then i + j * ld else j + i * ld) := by
  rw [addr, h.str]
  cases f <;> simp [Spec.dot] <;> ring

theorem one (h : LMat v n0 n1 n f ld) : OneToOne v := by
  intro idx jdx hi hj he
  rw [h.len, inRange2] at hi hj
  obtain ⟨i, j, rfl, a, b, c, d⟩ := hi
  obtain ⟨i', j', rfl, a', b', c', d'⟩ := hj
  rw [h.addr_eq, h.addr_eq] at he
  have key : ∀ x y x' y' : Int, 0 ≤ x → x < ld → 0 ≤ x' → x' < ld → x + y * ld = x' + y' * ld → x = x' ∧ y = y' := by
    intro x y x' y' h1 h2 h3 h4 h5
    have hy : y = y' := by
      rcases lt_trichotomy y y' with hh | hh | hh
      · nlinarith
      · exact hh
      · nlinarith
    subst hy
    exact ⟨by omega, rfl⟩
  have hw := h.wide
  cases f with
  | true =>
    simp only [if_true] at he hw
    obtain ⟨rfl, rfl⟩ := key i j i' j' a (by omega) a' (by omega) (by omega)
    rfl
  | false =>
    simp only [Bool.false_eq_true, if_false] at he hw
    obtain ⟨rfl, rfl⟩ := key j i j' i' c (by omega) c' (by omega) (by omega)
    rfl

theorem transpose (h : LMat v n0 n1 n f ld) : ∃ v', transposeMatrix v = some v' ∧ LMat v' n1 n0 n (!f) ld ∧ ∀ i j, addr v' [i, j] = addr v [j, i] := by
  have ha : Allowed v.lay.len (.permute [1, 0]) := ⟨by decide, by rw [h.len]; rfl⟩
  obtain ⟨v', e, hg, -, -, -⟩ := step_good h.good h.one ha (by intro k h; cases h)
  have ht : transposeMatrix v = some v' := e
  have hse : ∃ e0 e1, v.lay.se = [e0, e1] := by
    have := h.good.wf.se_len
    rw [h.len] at this
    match hv : v.lay.se, this with
    | [a, b], _ => exact ⟨a, b, rfl⟩
  obtain ⟨e0, e1, hse⟩ := hse
  have hf : v' = ⟨v.off, ⟨[n1, n0], if f then [ld, 1] else [1, ld], if f then [0, 1] else [1, 0], [e1, e0], v.lay.prop⟩⟩ := by
    rw [transposeMatrix, permuted, IdxMap.transpose, h.len, h.str, h.so, hse] at ht
    cases f <;>
    · simp [Perm.compose, Perm.applyInverse, Perm.scatter, mkInit, wr, rd] at ht
      rw [← ht]; rfl
  have hl : LMat v' n1 n0 n (!f) ld := by
    refine ⟨hg, by rw [hf], by rw [hf]; cases f <;> rfl, by rw [hf]; cases f <;> rfl, h.pos, ?_, h.ldb, h.nn1, h.nn0, h.b1, h.b0⟩
    have := h.wide
    cases f <;> simpa using this
  refine ⟨v', ht, hl, fun i j => ?_⟩
  rw [hl.addr_eq, h.addr_eq, hf]
  cases f <;> simp

end LMat

theorem opPos_eq {x : Mat} {n0 n1 : Int} {n : Nat} {f : Bool} {ld : Int} (h : LMat x.v n0 n1 n f ld) {t : Tag} (ht : getOp x.conj (hasC x.v) = .ok t) (i l : Int) :
    opPos t x.v.off ld i l = addr x.v [i, l] := by
  rw [h.addr_eq]
  rw [h.hasC_eq] at ht
  cases f <;> cases hx : x.conj <;> rw [hx] at ht <;> simp [getOp] at ht <;> subst ht <;> simp [opPos] <;> ring

theorem overlap_false {reads writes : List Int} : overlap reads writes = false ↔ ∀ k ∈ reads, k ∉ writes := by
  simp [overlap, List.any_eq_false]

theorem mem_matAddrs {m n k : Int} {f : Int → Int → Int} : k ∈ matAddrs m n f ↔ ∃ i j, 0 ≤ i ∧ i < m ∧ 0 ≤ j ∧ j < n ∧ f i j = k := by
  simp only [matAddrs, List.mem_map, Prod.exists, mem_pairs]
  constructor
  · rintro ⟨i, j, ⟨a, b, c, d⟩, e⟩; exact ⟨i, j, a, b, c, d, e⟩
  · rintro ⟨i, j, a, b, c, d, e⟩; exact ⟨i, j, ⟨a, b, c, d⟩, e⟩

theorem mem_vecAddrs {p n inc k : Int} : k ∈ vecAddrs p n inc ↔ ∃ i, 0 ≤ i ∧ i < n ∧ vecPos p n inc i = k := by
  simp only [vecAddrs, List.mem_map, List.mem_range, Int.ofNat_eq_natCast]
  constructor
  · rintro ⟨i, hi, e⟩; exact ⟨i, by omega, by omega, e⟩
  · rintro ⟨i, a, b, e⟩; exact ⟨i.toNat, by omega, by rw [show ((i.toNat : Nat) : Int) = i by omega]; exact e⟩

theorem separate2 {a b : View} {n0 n1 m0 m1 : Int} (h : Separate a b) (ha : a.lay.len = [n0, n1]) (hb : b.lay.len = [m0, m1]) {i j i' j' : Int} (hi : 0 ≤ i ∧ i < n0) (hj : 0 ≤ j ∧ j < n1)
    (hi' : 0 ≤ i' ∧ i' < m0) (hj' : 0 ≤ j' ∧ j' < m1) : addr a [i, j] ≠ addr b [i', j'] :=
  h _ _ (by rw [ha, inRange2]; exact ⟨i, j, rfl, hi.1, hi.2, hj.1, hj.2⟩) (by rw [hb, inRange2]; exact ⟨i', j', rfl, hi'.1, hi'.2, hj'.1, hj'.2⟩)

theorem opGet_eq {x : Mat} {n0 n1 : Int} {mem : List α} {f : Bool} {ld : Int} (h : LMat x.v n0 n1 mem.length f ld) {t : Tag} (ht : getOp x.conj (hasC x.v) = .ok t) (cj : α → α) {A : Int → Int → α}
    (hA : Entries x.v n0 n1 mem A) {i l : Int} (hi : 0 ≤ i ∧ i < n0) (hl : 0 ≤ l ∧ l < n1) :
    opGet cj t x.v.off ld mem i l = some (mayConj cj x.conj A i l) := by
  have hv := hA i l hi.1 hi.2 hl.1 hl.2
  rw [h.addr_eq] at hv
  rw [h.hasC_eq] at ht
  cases f <;> cases hx : x.conj <;> rw [hx] at ht <;> simp [getOp] at ht <;> subst ht <;> simp [opGet, opPos, rdInt_eq, mayConj] at hv ⊢
  · rw [← hv]; congr 1; ring
  · rw [show x.v.off + l + i * ld = x.v.off + (l + i * ld) by ring]
    exact ⟨_, hv, rfl⟩
  · rw [← hv]; congr 1; ring

/-- The call for a result in Fortran order. -/
theorem gemmFortran_eq [CommSemiring α] [DecidableEq α] (cj : α → α) (alpha beta : α) {x y : Mat} {c : View} {n0 n1 n2 : Int} {mem : List α} {fx fy : Bool} {lx ly lc : Int}
    (hx : LMat x.v n0 n1 mem.length fx lx) (hy : LMat y.v n1 n2 mem.length fy ly) (hc : LMat c n0 n2 mem.length true lc) {A B C : Int → Int → α}
    (hA : Entries x.v n0 n1 mem A) (hB : Entries y.v n1 n2 mem B) (hC : Entries c n0 n2 mem C) (hvx : x.conj = true → fx = false) (hvy : y.conj = true → fy = false)
    (hsx : Separate x.v c) (hsy : Separate y.v c) :
    ∃ mem', gemmFortran cj alpha x y beta c mem = .ok mem' ∧
      Updated c (fun idx => some (alpha * sumTo n1 (fun l => mayConj cj x.conj A (idx.getD 0 0) l * mayConj cj y.conj B l (idx.getD 1 0)) + beta * C (idx.getD 0 0) (idx.getD 1 0))) mem mem' := by
  have hop : ∀ {z : Mat} {a b : Int} {fz : Bool} {lz : Int}, LMat z.v a b mem.length fz lz → (z.conj = true → fz = false) → ∃ t, getOp z.conj (hasC z.v) = .ok t ∧ (t = .N ↔ fz = true) := by
    intro z a b fz lz hz hv
    rw [hz.hasC_eq]
    cases hzc : z.conj <;> cases fz <;> simp [hzc, getOp] at hv ⊢
  obtain ⟨ta, hta, hta'⟩ := hop hx hvx
  obtain ⟨tb, htb, htb'⟩ := hop hy hvy
  have hm : toInt32 n0 = n0 := toInt32_id hc.nn0 hc.b0
  have hk : toInt32 n1 = n1 := toInt32_id hx.nn1 hx.b1
  have hn : toInt32 n2 = n2 := toInt32_id hc.nn1 hc.b1
  have hcond : ¬ (n0 < 0 ∨ n2 < 0 ∨ n1 < 0 ∨ lx < max 1 (if ta = .N then n0 else n1) ∨ ly < max 1 (if tb = .N then n1 else n2) ∨ lc < max 1 n0) := by
    have hwx := hx.wide; have hwy := hy.wide; have hwc := hc.wide
    have := hx.pos; have := hy.pos; have := hc.pos
    have := hx.nn1; have := hc.nn0; have := hc.nn1
    simp only [if_true] at hwc
    have e1 : (if ta = .N then n0 else n1) ≤ lx := by
      by_cases hf : fx = true
      · rw [if_pos (hta'.mpr hf)]; simpa [hf] using hwx
      · rw [if_neg (fun h => hf (hta'.mp h))]; simpa [hf] using hwx
    have e2 : (if tb = .N then n1 else n2) ≤ ly := by
      by_cases hf : fy = true
      · rw [if_pos (htb'.mpr hf)]; simpa [hf] using hwy
      · rw [if_neg (fun h => hf (htb'.mp h))]; simpa [hf] using hwy
    omega
  obtain ⟨mem', e, hu⟩ := write_matrix (c := c) (n0 := n0) (n1 := n2) (mem := mem) hc.len hc.good.fits hc.one (f := gemmEntry cj ta tb n1 alpha x.v.off lx y.v.off ly beta c.off lc mem)
    (g := fun i j => alpha * sumTo n1 (fun l => mayConj cj x.conj A i l * mayConj cj y.conj B l j) + beta * C i j) (by
      intro i j a b c' d
      have hs := sumM_eq n1 (fun l => do
          let x ← opGet cj ta x.v.off lx mem i l
          let y ← opGet cj tb y.v.off ly mem l j
          return x * y) (fun l => mayConj cj x.conj A i l * mayConj cj y.conj B l j) (by
        intro l h0 h1
        rw [opGet_eq hx hta cj hA ⟨a, b⟩ ⟨h0, h1⟩, opGet_eq hy htb cj hB ⟨h0, h1⟩ ⟨c', d⟩]
        rfl)
      have hp : c.off + i + j * lc = addr c [i, j] := by rw [hc.addr_eq]; simp; ring
      have hax : ∀ s : α, axpby alpha s beta mem (addr c [i, j]) = some (alpha * s + beta * C i j) := by
        intro s
        unfold axpby
        split
        · rename_i hb; rw [hb]; simp
        · rw [rdInt_eq, hC i j a b c' d]; rfl
      simp only [gemmEntry]
      rw [hs, hp]
      simp only [Option.bind_eq_bind, Option.bind_some, hax]
      rfl)
  refine ⟨mem', ?_, hu⟩
  have r0 : rd x.v.lay.len 0 = some n0 := by rw [hx.len]; rfl
  have r1 : rd x.v.lay.len 1 = some n1 := by rw [hx.len]; rfl
  have r2 : rd y.v.lay.len 1 = some n2 := by rw [hy.len]; rfl
  simp only [gemmFortran, hta, htb, r0, r1, r2, hx.ld_eq, hy.ld_eq, hc.ld_eq, orUb, bind, Except.bind, hm, hk, hn, f77gemm]
  rw [if_neg hcond]
  have hov : overlap (matAddrs n0 n1 (opPos ta x.v.off lx) ++ matAddrs n1 n2 (opPos tb y.v.off ly)) (matAddrs n0 n2 (fun i j => c.off + i + j * lc)) = false := by
    rw [overlap_false]
    have hp : ∀ i j, c.off + i + j * lc = addr c [i, j] := by intro i j; rw [hc.addr_eq]; simp; ring
    intro k hk hk2
    obtain ⟨i', j', a', b', c', d', rfl⟩ := mem_matAddrs.mp hk2
    rw [hp] at hk
    rcases List.mem_append.mp hk with hk | hk
    · obtain ⟨i, j, a, b, c'', d, he⟩ := mem_matAddrs.mp hk
      rw [opPos_eq hx hta] at he
      exact separate2 hsx hx.len hc.len ⟨a, b⟩ ⟨c'', d⟩ ⟨a', b'⟩ ⟨c', d'⟩ he
    · obtain ⟨i, j, a, b, c'', d, he⟩ := mem_matAddrs.mp hk
      rw [opPos_eq hy htb] at he
      exact separate2 hsy hy.len hc.len ⟨a, b⟩ ⟨c'', d⟩ ⟨a', b'⟩ ⟨c', d'⟩ he
  rw [hov]
  simp only [Bool.false_eq_true, if_false]
  have e' : ((pairs n0 n2).mapM (gemmEntry cj ta tb n1 alpha x.v.off lx y.v.off ly beta c.off lc mem)).bind (fun ws => storeAll ws mem) = some mem' := e
  rw [e']

end Nda.Blas
