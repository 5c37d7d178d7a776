import Verif.Props.Cases2
import Verif.Props.Blas
import Verif.Props.BlasVec
import Verif.Props.Batch
import Verif.Props.BatchMkl
import Verif.Props.Linalg
import Verif.Props.LapackRef
import Verif.Props.Solve
import Verif.Props.Divide
import Verif.Props.Factories
import Verif.Props.Eigen
import Verif.Props.LeastSquares
import Verif.Props.MinNorm
import Verif.Props.Svd
import Verif.Props.Tridiagonal
import Verif.Props.Hermitian
import Verif.Props.Norm
/-!
# Concrete cases for the theorems on linear algebra and on factories

Each theorem is applied to a concrete case that meets its hypotheses.
-/
namespace Nda

/-! ### Products (C41–C44, C55) -/

section
open Blas Spec Assign

/-- The elements of a view, in memory. -/
def elsOf (mem : List Int) (v : View) (idx : List Int) : Int := (val mem (addr v idx)).getD 0

theorem elsOf_val {mem : List Int} {v : View} (hg : Good v mem.length) (idx : List Int) (hi : InRange v.lay.len idx) : val mem (addr v idx) = some (elsOf mem v idx) := by
  obtain ⟨h0, h1⟩ := hg.fits idx hi
  unfold elsOf val
  rw [if_neg (by omega)]
  have : (addr v idx).toNat < mem.length := by omega
  rw [List.getElem?_eq_getElem this]
  rfl

theorem entries_self {mem : List Int} {v : View} {n0 n1 : Int} (hg : Good v mem.length) (hl : v.lay.len = [n0, n1]) : Entries v n0 n1 mem (fun i j => elsOf mem v [i, j]) :=
  fun i j h0 h1 h2 h3 => elsOf_val hg [i, j] (by rw [hl]; exact ⟨⟨h0, h1⟩, ⟨h2, h3⟩, trivial⟩)

theorem elements_self {mem : List Int} {v : View} {n : Int} (hg : Good v mem.length) (hl : v.lay.len = [n]) : Elements v n mem (fun i => elsOf mem v [i]) :=
  fun i h0 h1 => elsOf_val hg [i] (by rw [hl]; exact ⟨⟨h0, h1⟩, trivial⟩)

theorem exBlock_blas : BlasMatrix exBlock 2 2 := ⟨rfl, Or.inr ⟨rfl, 3, rfl, by decide, by decide, by decide⟩, by decide, by decide⟩
theorem exF_blas (off : Int) : BlasMatrix (exF off) 2 2 := ⟨rfl, Or.inl ⟨rfl, 2, rfl, by decide, by decide, by decide⟩, by decide, by decide⟩
theorem exBlock_good : Good exBlock exMem.length := good_of (by decide) rfl rfl rfl (by decide) 1 nofun (by decide) (by decide)
theorem exF6_good : Good (exF 6) exMem.length := good_of (by decide) rfl rfl rfl (by decide) 1 (by decide) (by decide) (by decide)
theorem exF10_good : Good (exF 10) exMem.length := good_of (by decide) rfl rfl rfl (by decide) 1 (by decide) (by decide) (by decide)
theorem exVec_blas (off s : Int) (h1 : 1 ≤ s) (h2 : s < 2147483648) : BlasVector (exVec off 2 s) 2 := ⟨rfl, ⟨s, rfl, h1, h2⟩, by decide⟩
theorem exVec6_good : Good (exVec 6 2 2) exMem.length := good_of (by decide) rfl rfl rfl (by decide) 1 nofun (by decide) (by decide)
theorem exVec10_good : Good (exVec 10 2 1) exMem.length := good_of (by decide) rfl rfl rfl (by decide) 1 nofun (by decide) (by decide)
theorem exVecR_good : Good (exVec 1 2 (-1)) exMem.length := good_of (by decide) rfl rfl rfl (by decide) 1 nofun (by decide) (by decide)

example := C41_gemm (fun x : Int => -x) 1 10 exBlock (exF 6) true false (exF 10) 2 2 2 exMem exBlock_blas (exF_blas 6) (exF_blas 10) exBlock_good exF6_good exF10_good _ _ _
  (entries_self exBlock_good rfl) (entries_self exF6_good rfl) (entries_self exF10_good rfl) (fun _ => by unfold SameOrder; decide) nofun (separate_of (by decide)) (separate_of (by decide))
example := C41_gemm_rejects (fun x : Int => -x) 1 10 exBlock (exF 6) false true (exF 10) 2 2 2 exMem exBlock_blas (exF_blas 6) (exF_blas 10) exBlock_good exF6_good exF10_good (.inr ⟨rfl, rfl⟩)
theorem exBlock_operand : OperandOK (fun x : Int => -x) (.mat ⟨exBlock, false⟩ false) 2 2 exMem (mayConj (fun x => -x) false (fun i j => elsOf exMem exBlock [i, j])) := ⟨exBlock_blas, exBlock_good, _, entries_self exBlock_good rfl, rfl⟩
theorem exF6_operand : OperandOK (fun x : Int => -x) (.mat ⟨exF 6, true⟩ true) 2 2 exMem (mayConj (fun x => -x) true (fun i j => elsOf exMem (exF 6) [i, j])) := ⟨exF_blas 6, exF6_good, _, entries_self exF6_good rfl, rfl⟩
example := C41_matmul_partial (fun x : Int => -x) 9 _ _ 2 2 2 (by decide) (by decide) (by decide) (by decide) (by decide) (by decide) exMem _ _ exBlock_operand exF6_operand
example := C41_generic_partial (2 : Int) 3 2 2 2 (fun idx _ => some (idx.sum)) (fun idx _ => some (idx.getD 0 0 - idx.getD 1 0)) (exF 10) exMem rfl exF10_good (oneToOne_of (by decide))
  (fun i k => i + k) (fun k j => k - j) (fun i k _ _ _ _ _ _ => by simp) (fun k j _ _ _ _ _ _ => by simp)

example := C42_gemv_partial (fun x : Int => -x) 1 10 exBlock true (exVec 6 2 2) (exVec 10 2 1) 2 2 (by decide) (by decide) exMem exBlock_blas (exVec_blas _ _ (by decide) (by decide))
  (exVec_blas _ _ (by decide) (by decide)) exBlock_good exVec6_good exVec10_good _ _ _ (entries_self exBlock_good rfl) (elements_self exVec6_good rfl) (elements_self exVec10_good rfl) (fun _ => rfl)
  (separate_of (by decide)) (separate_of (by decide))
example := C42_gemv_rejects (fun x : Int => -x) 1 10 (exF 6) (exVec 6 2 2) (exVec 10 2 1) 2 2 exMem (exF_blas 6) exF6_good rfl
theorem exVecR_yields : Yields (.inMem (exVec 1 2 (-1)) false) [2] exMem (fun idx => elsOf exMem (exVec 1 2 (-1)) [idx.getD 0 0]) :=
  ⟨exVecR_good, rfl, nofun, fun idx hi => by
    rw [Matrix.inRange1] at hi
    obtain ⟨i, rfl, h0, h1⟩ := hi
    exact elements_self exVecR_good rfl i h0 h1⟩
theorem exVec6_yields : Yields (.inMem (exVec 6 2 2) false) [2] exMem (fun idx => elsOf exMem (exVec 6 2 2) [idx.getD 0 0]) :=
  ⟨exVec6_good, rfl, nofun, fun idx hi => by
    rw [Matrix.inRange1] at hi
    obtain ⟨i, rfl, h0, h1⟩ := hi
    exact elements_self exVec6_good rfl i h0 h1⟩
example := C42_matvecmul_partial (fun x : Int => -x) 9 _ (.inMem (exVec 1 2 (-1)) false) 2 2 (by decide) (by decide) (by decide) (by decide) exMem _ (fun i => elsOf exMem (exVec 1 2 (-1)) [i]) exF6_operand exVecR_yields
example := C42_generic_partial (2 : Int) 3 2 2 (fun idx _ => some (idx.sum)) (fun idx _ => some (idx.getD 0 0)) (exVec 10 2 1) exMem rfl exVec10_good (oneToOne_of (by decide))
  (fun i k => i + k) (fun k => k) (fun i k _ _ _ _ _ _ => by simp) (fun k _ _ _ _ => by simp)
example := C43_ger (10 : Int) (exVec 6 2 2) (exVec 10 2 1) exBlock 2 2 exMem (exVec_blas _ _ (by decide) (by decide)) (exVec_blas _ _ (by decide) (by decide)) exBlock_blas exVec6_good exVec10_good exBlock_good
  _ _ _ (elements_self exVec6_good rfl) (elements_self exVec10_good rfl) (entries_self exBlock_good rfl) (separate_of (by decide)) (separate_of (by decide))
example := C43_outer_positions .C .F matC matF mem8 ⟨matC_good, show memOrder _ _ = _ by decide, by decide⟩ ⟨matF_good, show memOrder _ _ = _ by decide, by decide⟩ trivial trivial (by decide) (by decide) (by decide) (by decide)
example := C43_outer_partial .C .C matC matC mem8 ⟨matC_good, show memOrder _ _ = _ by decide, by decide⟩ ⟨matC_good, show memOrder _ _ = _ by decide, by decide⟩ trivial trivial rfl rfl (by decide) (by decide) (by decide) (by decide)
example := C44_blas_dot_partial (fun x : Int => -x) (exVec 6 2 2) (exVec 10 2 1) 2 exMem (exVec_blas _ _ (by decide) (by decide)) (exVec_blas _ _ (by decide) (by decide)) exVec6_good exVec10_good _ _
  (elements_self exVec6_good rfl) (elements_self exVec10_good rfl)
example := C44_dot_partial (fun x : Int => -x) 9 2 (by decide) (by decide) (.inMem (exVec 6 2 2) false) (.inMem (exVec 1 2 (-1)) false) false true exMem _ (fun i => elsOf exMem (exVec 1 2 (-1)) [i])
  ⟨exVec_blas _ _ (by decide) (by decide), exVec6_good, elements_self exVec6_good rfl⟩ exVecR_yields
example := C44_generic_partial (fun x : Int => -x) 2 (by decide) (.inMem (exVec 6 2 2) false) (.inMem (exVec 1 2 (-1)) false) false exMem (fun i => elsOf exMem (exVec 6 2 2) [i]) (fun i => elsOf exMem (exVec 1 2 (-1)) [i]) exVec6_yields exVecR_yields nofun nofun
example := C44_scal_partial (10 : Int) (exVec 6 2 2) 2 exMem (exVec_blas _ _ (by decide) (by decide)) exVec6_good _ (elements_self exVec6_good rfl)

example := C55_vbatch (id : Int → Int) 1 10 2 _ _ _ _ _ _ false false _ _ _ exBatchMem exBatch_ok _ _ _ (fun i hi => entries_self (exBatch_ok.bx i hi).2.1 (exBatch_ok.bx i hi).1.len)
  (fun i hi => entries_self (exBatch_ok.by' i hi).2.1 (exBatch_ok.by' i hi).1.len) (fun i hi => entries_self (exBatch_ok.bz i hi).2.1 (exBatch_ok.bz i hi).1.len)
theorem exBatch_same : BatchOK 2 (fun _ => exC 0 2) (fun _ => exC 10 2) (fun i => if i = 0 then exC 14 2 else exC 18 2) [0, 1] [0, 1] [0, 1] false false (fun _ => 2) (fun _ => 2) (fun _ => 2) exBatchMem :=
  ⟨fun _ _ => exBatch_ok.bx 0 (by decide), exBatch_ok.by', exBatch_ok.bz, nofun, nofun, fun _ j _ hj => exBatch_ok.sx 0 j (by decide) hj, exBatch_ok.sy, exBatch_ok.sz⟩
example := C55_batch_partial (id : Int → Int) 1 10 2 _ _ _ _ _ _ false false 2 2 2 exBatchMem exBatch_same _ _ _ (fun i hi => entries_self (exBatch_same.bx i hi).2.1 (exBatch_same.bx i hi).1.len)
  (fun i hi => entries_self (exBatch_same.by' i hi).2.1 (exBatch_same.by' i hi).1.len) (fun i hi => entries_self (exBatch_same.bz i hi).2.1 (exBatch_same.bz i hi).1.len)
  (fun i _ => ⟨rfl, rfl, by by_cases h : i = 0 <;> simp [h, exC]⟩)
theorem exS_good (off : Int) (a b : Int) (h : off = 0 ∧ a = 1 ∧ b = 2 ∨ off = 4 ∧ a = 2 ∧ b = 1 ∨ off = 8 ∧ a = 1 ∧ b = 1) : Good (exS off 2 a b) 10 := by
  rcases h with ⟨rfl, rfl, rfl⟩ | ⟨rfl, rfl, rfl⟩ | ⟨rfl, rfl, rfl⟩ <;> exact good_of (by decide) rfl rfl rfl (by decide) 1 (by decide) (by decide) (by decide)
theorem entries3_self {mem : List Int} {v : View} {n n0 n1 : Int} (hg : Good v mem.length) (hl : v.lay.len = [n, n0, n1]) : Entries3 v n n0 n1 mem (fun k i j => elsOf mem v [k, i, j]) :=
  fun k i j a b h0 h1 h2 h3 => elsOf_val hg [k, i, j] (by rw [hl]; exact ⟨⟨a, b⟩, ⟨h0, h1⟩, ⟨h2, h3⟩, trivial⟩)
example := C55_strided_partial (id : Int → Int) 1 100 (exS 0 2 1 2) (exS 4 2 2 1) (exS 8 2 1 1) false false false false false 2 1 2 1 [1, 2, 3, 4, 5, 6, 7, 8, 1, 2] (by decide)
  ⟨rfl, rfl, ⟨2, 2, rfl, by decide⟩, by decide, by decide, by decide⟩ ⟨rfl, rfl, ⟨2, 1, rfl, by decide⟩, by decide, by decide, by decide⟩ ⟨rfl, rfl, ⟨1, 1, rfl, by decide⟩, by decide, by decide, by decide⟩
  (exS_good _ _ _ (by decide)) (exS_good _ _ _ (by decide)) (exS_good _ _ _ (by decide)) _ _ _ (entries3_self (exS_good _ _ _ (by decide)) rfl) (entries3_self (exS_good _ _ _ (by decide)) rfl)
  (entries3_self (exS_good _ _ _ (by decide)) rfl) nofun nofun (separate_of (by decide)) (separate_of (by decide)) (oneToOne_of (by decide))
example := C55_mkl_strided (α := Int) id 1 ⟨exS 0 2 1 2, false⟩ ⟨exS 4 2 2 1, false⟩ 100 (exS 8 2 1 1) [1, 2, 3, 4, 5, 6, 7, 8, 1, 2] [1, 2, 3, 4, 5, 6, 7, 8, 117, 253] (by decide)

end

/-! ### Inverses, division, predicates (C45, C54, C75) -/

section
open Linalg Blas Spec Assign

example := C45_inverse_in_place noLapack exQ 2 (by decide) (by decide) exMemQ exQ_good exQ_one rfl exEntries exQ_entries
example (L : Lapack ℚ) (hf : GetrfOK L) (hi : GetriOK L) := C45_inverse_in_place_any L hf hi exQ 2 (by decide) exMemQ exQ_blas exQ_good exEntries exQ_entries
theorem exQ_yields : Yields (.inMem exQ false) [((2 : Nat) : Int), ((2 : Nat) : Int)] exMemQ (fun idx => exEntries (idx.getD 0 0) (idx.getD 1 0)) :=
  ⟨exQ_good, rfl, nofun, fun idx hi => by
    rw [Matrix.inRange2] at hi
    obtain ⟨i, j, rfl, h0, h1, h2, h3⟩ := hi
    exact exQ_entries i j h0 h1 h2 h3⟩
example := C45_inverse noLapack 9 [0, 1] (.inr rfl) 2 (by decide) (fun h => absurd h (by decide)) (.inMem exQ false) exMemQ exEntries exQ_yields
/-- A LAPACK that finds every matrix to be the unit matrix. -/
def unitLapack : Lapack ℚ := ⟨fun _ _ _ _ m => .ok (m, [1, 2, 3, 4], 0), fun _ _ _ _ m => .ok (m, 0), fun _ _ _ _ _ _ _ _ _ => .error .runtime⟩
example := C45_lapack_errors unitLapack ⟨0, ⟨[4, 4], [4, 1], [0, 1], [0, 0], .contiguous⟩⟩ 4 4 rfl (by decide) [1, 0, 0, 0, 0, 1, 0, 0, 0, 0, 1, 0, 0, 0, 0, 1] [1, 0, 0, 0, 0, 1, 0, 0, 0, 0, 1, 0, 0, 0, 0, 1] (by decide +kernel)
example := C54_is_diagonal exQ 2 2 rfl exMemQ exQ_good exQ_one
example := C54_is_square exQ 2 2 rfl
example := C54_cross_orthogonal (fun i : Int => i * i) (fun i => 3 - i)
example := C54_cross_product (0 : Int) (.expr fun idx _ => some (idx.getD 0 0)) (.expr fun idx _ => some (7 - idx.getD 0 0)) [5] (fun i => i) (fun i => 7 - i) (fun _ _ _ _ => rfl) (fun _ _ _ _ => rfl)

end

section
open Divide Linalg Blas Spec Assign

theorem exR_yields : Yields (.inMem exR false) [((2 : Nat) : Int), ((2 : Nat) : Int)] Divide.exMem (fun idx => ((2 * idx.getD 0 0 + idx.getD 1 0 + 1 : Int) : ℚ)) :=
  ⟨exR_good, rfl, nofun, fun idx hi => by
    rw [Matrix.inRange2] at hi
    obtain ⟨i, j, rfl, h0, h1, h2, h3⟩ := hi
    obtain ⟨-, -, A, h, e⟩ := exR_ok
    have := h i j h0 h1 h2 h3
    rw [this]
    exact congrArg some (congrFun (congrFun e i) j).symm⟩
example := C75_multiply_divide id noLapack 9 (.mat ⟨exL, false⟩ true) 1 2 (by decide) (by decide) (by decide) (by decide) (fun h => absurd h (by decide)) exR true Divide.exMem _ _ exL_ok exR_ok exR_det
example := C75_scalar noLapack 9 5 2 (by decide) (by decide) (fun h => absurd h (by decide)) (.inMem exR false) Divide.exMem (fun i j => ((2 * i + j + 1 : Int) : ℚ)) exR_yields

end

/-! ### Eigenvalues, singular values, least squares, norms (C56–C62) -/

section
open Linalg Blas Spec Assign

theorem ones2_yields : Yields (.expr fun idx _ => some (if idx.getD 0 0 = idx.getD 1 0 then (2 : ℝ) else 1)) [((2 : Nat) : Int), ((2 : Nat) : Int)] [7]
    (fun idx => if idx.getD 0 0 = idx.getD 1 0 then (2 : ℝ) else 1) := fun _ _ _ _ => rfl
example (D : Drivers ℝ ℝ) (hD : HeevOK D) := C57_eigenelements D hD 0 [1, 0] (.inl rfl) 2 (by decide) (by decide) _ [7] (fun i j => if i = j then (2 : ℝ) else 1) ones2_yields
example (D : Drivers ℝ ℝ) (junk : ℝ) := C59_rejects D junk false 1 2 (by decide) ⟨0, ⟨[1, 2], [2, 1], [0, 1], [0, 0], .contiguous⟩⟩ rfl [3, 4]
example (D : Drivers ℝ ℝ) := C62_gelss_rejects D (exC 0 2) (exF 4) 2 2 2 2 [] 0 [1, 2, 3, 4, 5, 6, 7, 8] ⟨rfl, Or.inr ⟨rfl, 2, rfl, by decide, by decide, by decide⟩, by decide, by decide⟩ (exF_blas 4)
  (good_of (by decide) rfl rfl rfl (by decide) 1 nofun (by decide) (by simp only [List.length_cons, List.length_nil]; decide)) (good_of (by decide) rfl rfl rfl (by decide) 1 (by decide) (by decide) (by simp only [List.length_cons, List.length_nil]; decide)) (.inl rfl)
example (D : Drivers ℝ ℝ) := C58_gesvd_rejects D (exC 0 2) (exF 4) (exF 8) 2 2 [] [1, 2, 3, 4, 5, 6, 7, 8, 0, 0, 0, 0] ⟨rfl, Or.inr ⟨rfl, 2, rfl, by decide, by decide, by decide⟩, by decide, by decide⟩ (exF_blas 4) (exF_blas 8)
  (good_of (by decide) rfl rfl rfl (by decide) 1 nofun (by decide) (by simp only [List.length_cons, List.length_nil]; decide)) (good_of (by decide) rfl rfl rfl (by decide) 1 (by decide) (by decide) (by simp only [List.length_cons, List.length_nil]; decide))
  (good_of (by decide) rfl rfl rfl (by decide) 1 (by decide) (by decide) (by simp only [List.length_cons, List.length_nil]; decide)) (.inl rfl)
example (D : Drivers ℚ ℚ) := C61_gtsv_rejects D (exVec 0 1 1) (exVec 1 2 1) (exVec 3 1 1) ⟨4, ⟨[2, 1, 1], [1, 1, 1], [0, 1, 2], [0, 0, 0], .none⟩⟩ 2 rfl (by decide) (by decide) [1, 2, 3, 4, 5, 6]
example (w : Worker ℝ) := C60_shape_checked (0 : ℝ) (1 / 2) w ⟨1, ⟨[1, 6], [6, 1], [0, 1], [0, 0], .none⟩⟩ 1 6 2 rfl (by decide) (by decide) [1, 1, 2, 4, 5, 6, 7]

end

section
open Norm Spec Assign

theorem pos_yields : Yields (.expr fun idx _ => some ((idx.getD 0 0 : ℝ) + 1)) [3] [] (fun idx => (fun i : Int => (i : ℝ) + 1) (idx.getD 0 0)) := fun _ _ _ _ => rfl
example := C56_norm_partial (K := ℝ) 0 3 (by decide) (by decide) _ false [] (fun i => (i : ℝ) + 1) pos_yields nofun 3 (by norm_num) (fun h => absurd h (by norm_num))
example := C56_norm_partial (K := ℝ) 0 3 (by decide) (by decide) _ false [] (fun i => (i : ℝ) + 1) pos_yields nofun 2 (by norm_num) (fun _ v null e => by cases e)
example := C56_zero (K := ℝ) 0 3 _ false [] (fun i => (i : ℝ) + 1) pos_yields
example := C56_inf (K := ℝ) 0 3 (by decide) _ false [] (fun i => (i : ℝ) + 1) pos_yields
example := C56_neg_inf (K := ℝ) 0 3 (by decide) _ false [] (fun i => (i : ℝ) + 1) pos_yields
example := C56_negative (K := ℝ) 0 3 _ false [] (fun i => (i : ℝ) + 1) pos_yields (fun i => by unfold Norm.seq; positivity) (-1) (by norm_num)

end

/-! ### Factories (C76) -/

section
open Factories Spec

example := C76_zeros (0 : Int) [1, 2, 0] [2, 3, 4] (by decide) rfl (by decide) [7, 8]
example := C76_ones .A nofun (9 : Int) 0 1 [1, 2, 0] [2, 3, 4] (by decide) rfl (by decide) [7, 8]
example := C76_ones_matrix (9 : Int) 0 1 [1, 0] 2 3 (by decide) rfl (by decide) (by decide) [7, 8]
example := C76_free (9 : Int) 0 1 [2, 0, 4] (by decide) [7, 8]
example := C76_arange (fun i => 10 * i) 9 7 (-4) (-2) (by decide) [7, 8]
example := C76_rand_real (fun n : Nat => (n : Int)) (fun n => 100 + n) 0 [1, 0] [2, 3] (by decide) rfl (by decide) (by decide) 4 [7]
example := C76_rand_complex (fun a b : Nat => (a, b)) true (fun n => 100 + n) (0, 0) [1, 0] [2, 3] (by decide) rfl (by decide) (by decide) 4 []
example := C76_rand_range id (fun _ h0 h1 => ⟨h0, h1⟩) (fun n => 1 / (n + 2)) (fun n => ⟨by positivity, by rw [div_lt_one (by positivity)]; linarith [(Nat.cast_nonneg n : (0 : ℚ) ≤ n)]⟩) 0 [1, 0] [2, 3]
  (by decide) rfl (by decide) (by decide) 4 []
example := C76_rand_calls (fun R n => 100 * (R : Int) + n) (fun n => -1 - (n : Int)) 9 [[], [2], [], [1, 2], [1]] ⟨fun _ => 10, 0⟩ [] (by decide)

end

end Nda
