import Verif.Props.LapackRef
import Mathlib.LinearAlgebra.Matrix.Notation
import Verif.Spec.LapackRect
/-!
# C72: triangular factorisation of rectangular matrices
-/
namespace Nda.Linalg
open Nda Nda.Spec LayoutTransforms Assign Loops Nda.Matrix Blas

variable {α : Type}

/-- The call made. -/
theorem getrf_call {L : Lapack α} {v : View} {m n : Nat} {mem : List α} {f : Bool} {ld : Int} (h : LMat v m n mem.length f ld) : getrf L v mem = L.getrf m n v.off ld mem := by
  have hm : toInt32 (m : Int) = m := toInt32_id (Int.natCast_nonneg m) h.b0
  have hn : toInt32 (n : Int) = n := toInt32_id (Int.natCast_nonneg n) h.b1
  have e0 : rd v.lay.len 0 = some (m : Int) := by rw [h.len]; rfl
  have e1 : rd v.lay.len 1 = some (n : Int) := by rw [h.len]; rfl
  simp only [getrf, e0, e1, h.ld_eq, orUb, bind, Except.bind, hm, hn]

/-- A rectangular Mathlib matrix as a function of integers. -/
def ofRect [Zero α] {m n : Nat} (M : Matrix (Fin m) (Fin n) α) (i j : Int) : α := if h : i.toNat < m ∧ j.toNat < n then M ⟨i.toNat, h.1⟩ ⟨j.toNat, h.2⟩ else 0

section LU
variable [Field α]

/-- Every matrix has a pivoted triangular factorisation. -/
theorem exists_factoredRect {m n : Nat} (A : Matrix (Fin m) (Fin n) α) : ∃ F piv, FactoredRect A F piv := by
  obtain ⟨F, piv, h1, h2⟩ := exists_part m (fun i j => ofRect A (i : Int) (j : Int)) (min m n) (by omega)
  refine ⟨fun i j => F i j, fun k => ⟨piv k, (h1 k k.isLt).2⟩, ?_⟩
  have key : ∀ (l : List (Fin (min m n))) (B : Matrix (Fin m) (Fin n) α) (C : Nat → Nat → α), (∀ (i : Fin m) (j : Fin n), B i j = C i j) →
      ∀ (i : Fin m) (j : Fin n), (l.foldl (fun A k => swapRect A k ⟨piv k, (h1 k k.isLt).2⟩) B) i j = ((l.map Fin.val).foldl (fun A i => swapR A i (piv i)) C) i j := by
    intro l
    induction l with
    | nil => intro B C h i j; exact h i j
    | cons k l ih =>
      intro B C h i j
      rw [List.foldl_cons, List.map_cons, List.foldl_cons]
      apply ih
      intro i j
      simp only [swapR, swapRect, Fin.ext_iff]
      split_ifs <;> exact h _ _
  unfold FactoredRect interchangedRect
  ext i j
  rw [key _ A (fun i j => ofRect A (i : Int) (j : Int)) (fun i j => by simp [ofRect]) i j]
  have hr : (List.finRange (min m n)).map Fin.val = List.range (min m n) := by simp [List.finRange_eq_pmap_range, List.map_pmap]
  rw [hr, h2 i j i.isLt, Matrix.mul_apply]
  have hi := i.isLt
  have hj := j.isLt
  have hs : ∀ l : Fin (min m n), lowerRect (fun (i : Fin m) (j : Fin n) => F i j) i l * upperRect (fun (i : Fin m) (j : Fin n) => F i j) l j =
      (fun l : Nat => (if l < i then F i l else if l = i then 1 else 0) * (if l ≤ j then F l j else 0)) (l : Nat) := by
    intro l
    simp only [lowerRect, upperRect]
  rw [Finset.sum_congr rfl (fun l _ => hs l), ← Finset.sum_range (fun l : Nat => (if l < (i : Nat) then F i l else if l = i then 1 else 0) * (if l ≤ (j : Nat) then F l j else 0))]
  by_cases hin : (i : Nat) < min m n
  · rw [← Finset.sum_subset (s₁ := Finset.range (min (min m n) (min (i : Nat) ((j : Nat) + 1))) ∪ {(i : Nat)}) (s₂ := Finset.range (min m n))]
    · rw [Finset.sum_union (by rw [Finset.disjoint_singleton_right, Finset.mem_range]; omega), Finset.sum_singleton]
      congr 1
      · apply Finset.sum_congr rfl
        intro l hl
        rw [Finset.mem_range] at hl
        rw [if_pos (by omega), if_pos (by omega)]
      · rw [if_neg (lt_irrefl _), if_pos rfl, one_mul]
        by_cases hc : (i : Nat) ≤ j
        · rw [if_pos (Or.inl hc), if_pos hc]
        · rw [if_neg (by omega), if_neg hc]
    · intro l hl
      simp only [Finset.mem_union, Finset.mem_range, Finset.mem_singleton] at hl ⊢
      omega
    · intro l hl hn
      simp only [Finset.mem_union, Finset.mem_range, Finset.mem_singleton, not_or] at hl hn
      by_cases h1 : l < (i : Nat)
      · rw [if_neg (show ¬ l ≤ (j : Nat) by omega), mul_zero]
      · rw [if_neg h1, if_neg hn.2, zero_mul]
  · rw [if_neg (by omega), add_zero]
    rw [← Finset.sum_subset (s₁ := Finset.range (min (min m n) (min (i : Nat) ((j : Nat) + 1)))) (s₂ := Finset.range (min m n))]
    · apply Finset.sum_congr rfl
      intro l hl
      rw [Finset.mem_range] at hl
      rw [if_pos (by omega), if_pos (by omega)]
    · intro l hl
      simp only [Finset.mem_range] at hl ⊢
      omega
    · intro l hl hn
      simp only [Finset.mem_range] at hl hn
      rw [if_neg (show ¬ l ≤ (j : Nat) by omega), mul_zero]

end LU

/-- There is a LAPACK that factorises matrices of every shape, over every field. -/
theorem C72_getrf_exists [Field α] : ∃ L : Lapack α, GetrfRectOK L := by
  classical
  let postF : Int → Int → Int → Int → List α → (List α × List Int × Int) → Prop := fun m' n' a ld mem r =>
    ∀ (m n : Nat) (A : Matrix (Fin m) (Fin n) α), m' = m → n' = n → 0 < m → 0 < n → (m : Int) ≤ ld → ColMajor2 a ld m n mem A →
    ∃ (F : Matrix (Fin m) (Fin n) α) (piv : Fin (min m n) → Fin m), r.1.length = mem.length ∧
      (∀ k, (∀ (i : Fin m) (j : Fin n), a + (i : Int) + (j : Int) * ld ≠ k) → val r.1 k = val mem k) ∧ ColMajor2 a ld m n r.1 F ∧ PivotsRect r.2.1 piv ∧ FactoredRect A F piv ∧
      0 ≤ r.2.2 ∧ (r.2.2 = 0 ↔ ∀ k : Fin (min m n), F ⟨k, by omega⟩ ⟨k, by omega⟩ ≠ 0)
  refine ⟨⟨fun m n a ld mem => if h : ∃ r, postF m n a ld mem r then .ok h.choose else .error .ub, fun _ _ _ _ _ => .error .ub, fun _ _ _ _ _ _ _ _ _ => .error .ub⟩, ?_⟩
  intro m n a ld mem A pm pn _ _ hld _ hA
  have hex : ∃ r, postF m n a ld mem r := by
    obtain ⟨F, piv, hfac⟩ := exists_factoredRect A
    obtain ⟨mem', w1, w2, w3⟩ := block_write hA hld F
    refine ⟨(mem', (List.finRange (min m n)).map (fun k => (piv k : Int) + 1), if ∀ k : Fin (min m n), F ⟨k, by omega⟩ ⟨k, by omega⟩ ≠ 0 then 0 else 1), ?_⟩
    intro m' n' A' hm hn pm' pn' hld' hA'
    have hm : m = m' := by exact_mod_cast hm
    have hn : n = n' := by exact_mod_cast hn
    subst hm hn
    obtain rfl := colMajor_unique hA hA'
    refine ⟨F, piv, w1, w2, w3, ⟨by simp, fun k => by rw [List.getElem?_map, List.getElem?_eq_getElem (by rw [List.length_finRange]; exact k.isLt)]; simp⟩, hfac, by split_ifs <;> simp, ?_⟩
    by_cases hall : ∀ k : Fin (min m n), F ⟨k, by omega⟩ ⟨k, by omega⟩ ≠ 0
    · simp only [if_pos hall]; simpa using hall
    · simp only [if_neg hall]; simpa using hall
  obtain ⟨F, piv, hpost⟩ := hex.choose_spec m n A rfl rfl pm pn hld hA
  exact ⟨_, _, _, F, piv, dif_pos hex, hpost⟩

/-- The assumption for all shapes includes the one made for square matrices in C45, C46 and C53. -/
theorem C72_getrf_square [Field α] {L : Lapack α} (hL : GetrfRectOK L) : GetrfOK L := by
  intro n a ld mem A p h1 h2 h3 hA
  obtain ⟨mem', ipiv, info, F, piv, e, q1, q2, q3, q4, q5, q6, q7⟩ := hL n n a ld mem A p p h1 h1 h2 h3 hA
  have hn : n = min n n := (min_self n).symm
  refine ⟨mem', ipiv, info, F, fun k => piv (Fin.cast hn k), e, ⟨q1, q2⟩, q3, ⟨by rw [q4.1, ← hn], fun k => q4.2 (Fin.cast hn k)⟩, ?_, q6, ?_⟩
  · unfold Factored
    have hl : (List.finRange (min n n)) = (List.finRange n).map (Fin.cast hn) := by
      apply List.ext_getElem
      · simp
      · intro i _ _
        simp
    have hi : interchanged A (fun k => piv (Fin.cast hn k)) = interchangedRect A piv := by
      unfold interchanged interchangedRect
      rw [hl, List.foldl_map]
      congr 1
      funext B k
      ext i j
      simp only [swapRows, swapRect, Fin.ext_iff, Fin.val_cast]
    rw [hi, q5]
    ext i j
    rw [Matrix.mul_apply, Matrix.mul_apply]
    refine Fintype.sum_equiv (finCongr hn.symm) _ _ (fun l => ?_)
    simp only [lowerRect, upperRect, lower, upper, Fin.lt_def, Fin.le_def, Fin.ext_iff, finCongr_apply, Fin.val_cast]
    congr 2
    by_cases hc : (l : Nat) = i
    · rw [if_pos hc, if_pos hc.symm]
    · rw [if_neg hc, if_neg (fun h => hc h.symm)]
  · rw [q7]
    exact ⟨fun h i => h (Fin.cast hn i), fun h k => h (Fin.cast hn.symm k)⟩

/-- The call is legal and names the elements of the view for every matrix in Fortran order. -/
theorem C72_fortran_block {L : Lapack α} {v : View} {m n : Nat} {mem : List α} {ld : Int} (h : LMat v m n mem.length true ld) :
    getrf L v mem = L.getrf m n v.off ld mem ∧ NamesView m n v.off ld v := by
  refine ⟨getrf_call h, by simpa using h.wide, fun k => ⟨?_, ?_⟩⟩
  · rintro ⟨i, j, i0, i1, j0, j1, rfl⟩
    refine ⟨[i, j], by rw [h.len, inRange2]; exact ⟨i, j, rfl, i0, i1, j0, j1⟩, ?_⟩
    rw [h.addr_eq]; simp; ring
  · rintro ⟨idx, hidx, rfl⟩
    rw [h.len, inRange2] at hidx
    obtain ⟨i, j, rfl, i0, i1, j0, j1⟩ := hidx
    refine ⟨i, j, i0, i1, j0, j1, ?_⟩
    rw [h.addr_eq]; simp; ring

/-- The call is legal and names the elements of the view for a matrix in C order if and only if the matrix is square. -/
theorem C72_c_order_block {L : Lapack α} {v : View} {m n : Nat} (pm : 0 < m) (pn : 0 < n) {mem : List α} {ld : Int} (h : LMat v m n mem.length false ld) :
    getrf L v mem = L.getrf m n v.off ld mem ∧ (NamesView m n v.off ld v ↔ m = n) := by
  have haddr : ∀ i j, addr v [i, j] = v.off + j + i * ld := by
    intro i j; rw [h.addr_eq]; simp; ring
  have hw : (n : Int) ≤ ld := by simpa using h.wide
  refine ⟨getrf_call h, fun hv => ?_, ?_⟩
  · obtain ⟨h1, h2⟩ := hv
    by_contra hne
    rcases Nat.lt_or_gt_of_ne hne with hlt | hgt
    · obtain ⟨idx, hidx, he⟩ := (h2 (v.off + 0 + ((n : Int) - 1) * ld)).mp ⟨0, (n : Int) - 1, by omega, by omega, by omega, by omega, rfl⟩
      rw [h.len, inRange2] at hidx
      obtain ⟨i, j, rfl, i0, i1, j0, j1⟩ := hidx
      rw [haddr] at he
      have : (i + 1) * ld ≤ ((n : Int) - 1) * ld := Int.mul_le_mul_of_nonneg_right (by omega) (by omega)
      have : (i + 1) * ld = i * ld + ld := by ring
      omega
    · obtain ⟨idx, hidx, he⟩ := (h2 (v.off + ((m : Int) - 1) + 0 * ld)).mp ⟨(m : Int) - 1, 0, by omega, by omega, by omega, by omega, rfl⟩
      rw [h.len, inRange2] at hidx
      obtain ⟨i, j, rfl, i0, i1, j0, j1⟩ := hidx
      rw [haddr] at he
      by_cases hi : i = 0
      · subst hi; omega
      · have : 1 * ld ≤ i * ld := Int.mul_le_mul_of_nonneg_right (by omega) (by omega)
        omega
  · rintro rfl
    refine ⟨hw, fun k => ⟨?_, ?_⟩⟩
    · rintro ⟨i, j, i0, i1, j0, j1, rfl⟩
      exact ⟨[j, i], by rw [h.len, inRange2]; exact ⟨j, i, rfl, j0, j1, i0, i1⟩, haddr _ _⟩
    · rintro ⟨idx, hidx, rfl⟩
      rw [h.len, inRange2] at hidx
      obtain ⟨i, j, rfl, i0, i1, j0, j1⟩ := hidx
      exact ⟨j, i, j0, j1, i0, i1, (haddr _ _).symm⟩

/-- `getrf` on an `m` by `n` matrix in Fortran order: afterwards the elements of the view are the two factors of the matrix with its rows interchanged, and no other element has changed.
The part for C order is missing: `C72_c_order_block`. -/
theorem C72_getrf_partial [Field α] {L : Lapack α} (hL : GetrfRectOK L) {v : View} {m n : Nat} (pm : 0 < m) (pn : 0 < n) {mem : List α} (hb : BlasMatrix v m n) (hg : Good v mem.length)
    (hf : v.lay.so = [1, 0]) {A : Matrix (Fin m) (Fin n) α} (hA : ∀ (i : Fin m) (j : Fin n), val mem (addr v [(i : Int), (j : Int)]) = some (A i j)) :
    ∃ (mem' : List α) (ipiv : List Int) (info : Int) (F : Matrix (Fin m) (Fin n) α) (piv : Fin (min m n) → Fin m), getrf L v mem = .ok (mem', ipiv, info) ∧ mem'.length = mem.length ∧
      (∀ k, ¬ Occupies v k → val mem' k = val mem k) ∧ (∀ (i : Fin m) (j : Fin n), val mem' (addr v [(i : Int), (j : Int)]) = some (F i j)) ∧ PivotsRect ipiv piv ∧
      interchangedRect A piv = lowerRect F * upperRect F ∧ (info = 0 ↔ ∀ k : Fin (min m n), upperRect F k ⟨k, by omega⟩ ≠ 0) := by
  obtain ⟨f, ld, h, hff⟩ := hb.lmat hg
  obtain rfl := hff.mpr hf
  have haddr : ∀ i j, addr v [i, j] = v.off + i + j * ld := by
    intro i j; rw [h.addr_eq]; simp; ring
  obtain ⟨mem', ipiv, info, F, piv, e, h1, h2, h3, h4, h5, -, h7⟩ := hL m n v.off ld mem A pm pn h.b0 h.b1 (by simpa using h.wide) h.ldb (fun i j => by rw [← haddr]; exact hA i j)
  refine ⟨mem', ipiv, info, F, piv, by rw [getrf_call h, e], h1, fun k hk => h2 k (fun i j he => hk ?_), fun i j => by rw [haddr]; exact h3 i j, h4, h5, ?_⟩
  · refine ⟨[(i : Int), (j : Int)], by rw [h.len, inRange2]; exact ⟨i, j, rfl, by omega, by exact_mod_cast i.isLt, by omega, by exact_mod_cast j.isLt⟩, by rw [haddr]; exact he⟩
  · rw [h7]; simp [upperRect]

/-! ### Examples -/

/-- Rows 0 and 1 of a 3 by 2 array in Fortran order, as in `a(range(0, 2), range::all)`. -/
def exTop : View := ⟨0, ⟨[2, 2], [1, 3], [1, 0], [0, 0], .smallest⟩⟩

/-- A 2 by 3 matrix in Fortran order. -/
def exWide : View := ⟨0, ⟨[2, 3], [1, 2], [1, 0], [0, 0], .contiguous⟩⟩

/-- A 2 by 3 matrix in C order. -/
def exWideC : View := ⟨0, ⟨[2, 3], [3, 1], [0, 1], [0, 0], .contiguous⟩⟩

theorem exWide_good : Good exWide 6 := good_of (by decide) rfl rfl rfl (by decide) 1 (by decide) (by decide) (by decide)

theorem exWideC_good : Good exWideC 6 := good_of (by decide) rfl rfl rfl (by decide) 1 (by decide) (by decide) (by decide)

/-- `C72_getrf_partial` on `[[0, 1, 2], [3, 4, 5]]`: two pivots, and the product of the factors. -/
example (L : Lapack ℚ) (hL : GetrfRectOK L) : ∃ mem' ipiv info, getrf L exWide [0, 3, 1, 4, 2, 5] = .ok (mem', ipiv, info) ∧ ipiv.length = 2 := by
  obtain ⟨mem', ipiv, info, F, piv, e, -, -, -, hp, -⟩ := C72_getrf_partial hL (v := exWide) (m := 2) (n := 3) (by decide) (by decide) (mem := [0, 3, 1, 4, 2, 5])
    ⟨rfl, Or.inl ⟨rfl, 2, rfl, by decide, by decide, by decide⟩, by decide, by decide⟩ exWide_good rfl (A := !![0, 1, 2; 3, 4, 5]) (by decide +kernel)
  exact ⟨mem', ipiv, info, e, hp.1⟩

/-- `C72_c_order_block` on a 2 by 3 matrix: the call reaches element 6 of an array of 6 elements. -/
example (L : Lapack ℚ) : getrf L exWideC [0, 1, 2, 3, 4, 5] = L.getrf 2 3 0 3 [0, 1, 2, 3, 4, 5] ∧ ¬ NamesView 2 3 0 3 exWideC := by
  obtain ⟨h1, h2⟩ := C72_c_order_block (L := L) (v := exWideC) (m := 2) (n := 3) (by decide) (by decide) (mem := [0, 1, 2, 3, 4, 5]) (ld := 3)
    ⟨exWideC_good, rfl, rfl, rfl, by decide, by decide, by decide, by decide, by decide, by decide, by decide⟩
  exact ⟨h1, fun h => absurd (h2.mp h) (by decide)⟩

/-- `C72_fortran_block` on rows of a larger array. -/
example (L : Lapack ℚ) : NamesView 2 2 0 3 exTop :=
  (C72_fortran_block (L := L) (v := exTop) (m := 2) (n := 2) (mem := [0, 1, 2, 3, 4, 5]) (ld := 3)
    ⟨good_of (by decide) rfl rfl rfl (by decide) 1 (by decide) (by decide) (by decide), rfl, rfl, rfl, by decide, by decide, by decide, by decide, by decide, by decide, by decide⟩).2

/-- `FactoredRect` is a real condition: `[[0, 1, 2], [3, 4, 5]]` is factorised with the rows exchanged first, and by no pivots that leave the rows in place. -/
theorem C72_pivot_witness : FactoredRect (!![0, 1, 2; 3, 4, 5] : Matrix (Fin 2) (Fin 3) ℚ) !![3, 4, 5; 0, 1, 2] (fun _ => 1) ∧
    ¬ ∃ F, FactoredRect (!![0, 1, 2; 3, 4, 5] : Matrix (Fin 2) (Fin 3) ℚ) F (fun k => ⟨k, by omega⟩) := by
  constructor
  · unfold FactoredRect
    decide +kernel
  · rintro ⟨F, h⟩
    have h0 := congrFun (congrFun h 0) 0
    have h1 := congrFun (congrFun h 1) 0
    rw [Matrix.mul_apply] at h0 h1
    have e0 : interchangedRect (!![0, 1, 2; 3, 4, 5] : Matrix (Fin 2) (Fin 3) ℚ) (fun k => ⟨k, by omega⟩) 0 0 = 0 := by decide +kernel
    have e1 : interchangedRect (!![0, 1, 2; 3, 4, 5] : Matrix (Fin 2) (Fin 3) ℚ) (fun k => ⟨k, by omega⟩) 1 0 = 3 := by decide +kernel
    rw [e0] at h0
    rw [e1] at h1
    have hs : ∀ f : Fin (min 2 3) → ℚ, ∑ l, f l = f ⟨0, by decide⟩ + f ⟨1, by decide⟩ := fun f => Fin.sum_univ_two f
    rw [hs] at h0 h1
    simp [lowerRect, upperRect] at h0 h1
    rw [← h0] at h1
    simp at h1

end Nda.Linalg
