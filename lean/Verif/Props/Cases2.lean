import Verif.Lemmas.Check
import Verif.Props.IdxMap
import Verif.Props.Loops
import Verif.Props.Iterators
import Verif.Props.GroupIndices
import Verif.Props.BoundCheck
import Verif.Props.Arithmetic
import Verif.Props.Algorithms
import Verif.Props.Matrix
import Verif.Props.Scalar
import Verif.Props.StdArray
import Verif.Props.AddressSpace
/-!
# More concrete cases for theorems of other files

Each theorem is applied to a concrete case that meets its hypotheses.
-/
namespace Nda

/-! ### Layouts, loops, iterators, grouped indices and the bound check (C03, C04, C09, C13–C16) -/

section
open IdxMap Spec Perm

/-- A layout of a `2 × 3 × 4` array whose second dimension is the slowest. -/
def lay24 : IdxMap := ⟨[2, 3, 4], [1, 8, 2], [1, 2, 0], [0, 0, 0], .contiguous⟩

/-- A layout with gaps, of a matrix in Fortran order. -/
def layGap : IdxMap := ⟨[4, 5], [3, 40], [1, 0], [0, 0], .none⟩

theorem lay24_wf : WF lay24 := ⟨by decide, rfl, rfl, rfl⟩
theorem lay24_flags : FlagsOK lay24 := ⟨fun _ u hu => by cases hu; rfl, fun _ => ⟨1, (by decide : memOrder lay24.so lay24.str = (dense (memOrder lay24.so lay24.len)).map (1 * ·))⟩⟩
theorem layGap_wf : WF layGap := ⟨by decide, rfl, rfl, rfl⟩
theorem layGap_flags : FlagsOK layGap := ⟨nofun, nofun⟩

example := C03_fresh_bijection [2, 3, 4] [1, 2, 0] [0, 0, 0] .contiguous (by decide) rfl rfl (by decide)
example := C03_empty_ellipsis [2, 3, 4] [1, 2, 0] [0, 0, 0] .contiguous (by decide) rfl rfl [1, 2] [3] rfl
example := C03_strides [2, 3, 4] [1, 2, 0] [0, 0, 0] .contiguous (by decide) rfl rfl 1 (by decide)
example := C04_toIdx_call [2, 3, 4] [1, 2, 0] [0, 0, 0] .contiguous (by decide) rfl rfl (by decide) [1, 2, 3] (by decide)
example := C04_call_toIdx [2, 3, 4] [1, 2, 0] [0, 0, 0] .contiguous (by decide) rfl rfl (by decide) (by decide) 23 (by decide) (by decide)
example := C04_toIdx_nested layGap layGap_wf layGap_flags (by decide) (by decide) [2, 3] (by decide)
example := C09_transpose_element lay24 lay24_wf lay24_flags [2, 0, 1] (by decide) rfl
example := C09_transpose_compose lay24 lay24_wf [2, 0, 1] [1, 0, 2] (by decide) (by decide) rfl rfl
example := C09_transpose_inverse lay24 lay24_wf [2, 0, 1] (by decide) rfl

open Loops in
example := C15_for_each [2, 0, 3]
open Loops in
example := C15_trace [2, 3]
open Loops in
example := C15_enumeration [2, 2] (by decide) [[0, 0], [0, 1], [1, 0], [1, 1]]
  ⟨by decide, fun x => by rw [show [[0, 0], [0, 1], [1, 0], [1, 1]] = box [2, 2] from rfl, mem_box]⟩
open Loops in
example : forEach [2, 0, 3] (fun x (s : List (List Int)) => some (s ++ [x])) [[7]] = some [[7]] := C15_empty [2, 0, 3] 0 (by decide) (by decide) _ _ _
open Loops in
example := C15_static [2, 3, 4] [0, 3, 0] rfl (fun u => by rcases u with _ | _ | _ | u <;> simp) (List (List Int)) (fun x s => some (s ++ [x])) []
open Loops in
example := C15_static_order [2, 3, 4] [1, 2, 0] (by decide) rfl (List (List Int)) (fun x s => some (s ++ [x])) []

open Grid in
example := C16_random_access 5 (-2) [.inc, .add 3, .dec]
open Grid in
example := C16_distance 5 (-2) [.inc, .add 3, .dec] [.inc]
example := C16_iterate_partial layGap layGap_wf layGap_flags (by decide) (by decide) (.inl (by decide))
example := C16_indices layGap layGap_wf (by decide) (by decide) (.inl rfl)
example := C16_empty_never_terminates ⟨[2, 0], [5, 1], [0, 1], [0, 0], .smallest⟩ ⟨by decide, rfl, rfl, rfl⟩ (by decide) rfl 2 [0] rfl (by decide) (by decide)

end

section
open GroupIndices Spec IdxMap LayoutTransforms

/-- A layout of rank 4 whose third dimension is the slowest. -/
def lay120 : IdxMap := ⟨[2, 3, 4, 5], [15, 5, 30, 1], [2, 0, 1, 3], [0, 0, 0, 0], .contiguous⟩

theorem lay120_wf : WF lay120 := ⟨by decide, rfl, rfl, rfl⟩

example := C13_accepts_iff lay120 lay120_wf rfl [[1, 0], [3], [2]] (by decide)
example := C13_group lay120 _ lay120_wf (show memOrder lay120.so lay120.str = dense (memOrder lay120.so lay120.len) by decide) (by decide) [[1, 0], [3], [2]] (by decide) rfl
example := C13_view ⟨7, lay120⟩ _ lay120_wf (show memOrder lay120.so lay120.str = dense (memOrder lay120.so lay120.len) by decide) (by decide) [[1, 0], [3], [2]] (by decide) rfl [1, 2, 3, 4] (by decide)

end

section
open BoundCheck Spec IdxMap Slice

example := C14_exact_partial [3, 5, 4] [.ell, .rng 4 (-1) (-2), .idx 3] (by decide) (by decide) (by decide) (fun f l s h => by simp at h; omega) (by simp [Blind])
example := C14_accepted_safe_partial lay24 lay24_wf lay24_flags.1 [.rng 0 2 1, .ell, .idx 3] (by decide) (by decide) (by decide) (fun f l s h => by simp at h; omega) (by simp [Blind])
example : checkedCall lay24 [.idx 1, .idx 2, .idx 3] = some (some 23) := (C14_element_exact lay24 lay24_wf lay24_flags.1 (by decide) (by decide) [1, 2, 3] rfl).trans (by decide)
example : checkedCall lay24 [.idx 1, .idx 3, .idx 3] = some none := (C14_element_exact lay24 lay24_wf lay24_flags.1 (by decide) (by decide) [1, 3, 3] rfl).trans (by decide)
example : checkedCall lay24 [.idx 1, .ell, .idx 2, .idx 3] = some (some 23) := (C14_element_ellipsis lay24 lay24_wf lay24_flags.1 (by decide) (by decide) [1] [2, 3] rfl).trans (by decide)

end

/-! ### Arithmetic expressions (C26) -/

section
open Arith Arith.Spec Spec Assign LayoutTransforms

/-- A matrix in C order, in the first four cells. -/
def matC : View := ⟨0, ⟨[2, 2], [2, 1], [0, 1], [0, 0], .contiguous⟩⟩
/-- A matrix in Fortran order, in the next four cells. -/
def matF : View := ⟨4, ⟨[2, 2], [1, 2], [1, 0], [0, 0], .contiguous⟩⟩
/-- Memory for both. -/
def mem8 : List Int := [1, 2, 3, 4, 5, 6, 7, 8]
/-- The element of a view in that memory. -/
def el8 (v : View) (idx : List Int) : Int := (val mem8 (addr v idx)).getD 0
/-- `2 + c * f`, by arrays. -/
def exprCF : Expr Int := .scalL .add 2 (.bin .mul (.arr .A matC) (.arr .A matF))
/-- `2 + (c - f)`, by matrices: 2 is added on the diagonal. -/
def exprM : Expr Int := .scalL .add 2 (.bin .sub (.arr .M matC) (.arr .M matF))
/-- `-(f) * 3`. -/
def exprF : Expr Int := .scalR .mul (.neg (.arr .A matF)) 3
/-- `f + f`. -/
def exprFF : Expr Int := .bin .add (.arr .M matF) (.arr .M matF)

theorem matC_good : Good matC 8 := good_of (by decide) rfl rfl rfl (by decide) 1 (by decide) (by decide) (by decide)
theorem matF_good : Good matF 8 := good_of (by decide) rfl rfl rfl (by decide) 1 (by decide) (by decide) (by decide)
theorem matC_one : OneToOne matC := oneToOne_of (by decide)
theorem mat_sep : Separate matC matF := separate_of (by decide)
theorem zeroLaws_int : ZeroLaws Int := ⟨by simp, by simp, by simp, by simp⟩
theorem matC_val (idx : List Int) (hi : InRange matC.lay.len idx) : val mem8 (addr matC idx) = some (el8 matC idx) :=
  (by decide : ∀ idx ∈ box [2, 2], val mem8 (addr matC idx) = some (el8 matC idx)) idx (mem_box.mpr hi)
theorem matF_val (idx : List Int) (hi : InRange matC.lay.len idx) : val mem8 (addr matF idx) = some (el8 matF idx) :=
  (by decide : ∀ idx ∈ box [2, 2], val mem8 (addr matF idx) = some (el8 matF idx)) idx (mem_box.mpr hi)
theorem leaf_cases {v : View} (h : v = matC ∨ v = matF) : Good v 8 ∧ Aligned matC v ∧ v.lay.len = matC.lay.len ∧ ∀ idx, InRange matC.lay.len idx → val mem8 (addr v idx) = some (el8 v idx) := by
  rcases h with rfl | rfl
  · exact ⟨matC_good, Aligned.self matC_one, rfl, matC_val⟩
  · exact ⟨matF_good, Aligned.of_separate mat_sep, rfl, matF_val⟩
theorem exprCF_leaves {v : View} (h : v ∈ leaves exprCF) : v = matC ∨ v = matF := by simpa [exprCF, leaves] using h
theorem exprM_leaves {v : View} (h : v ∈ leaves exprM) : v = matC ∨ v = matF := by simpa [exprM, leaves] using h
theorem exprCF_uniform : Uniform .A [2, 2] exprCF := by simp [exprCF, Uniform, matC, matF]
theorem exprM_uniform : Uniform .M [2, 2] exprM := by simp [exprM, Uniform, matC, matF]

example : exprCF.shape = [2, 2] := C26_shape exprCF_uniform
example : exprCF.get [1, 0] mem8 = some 20 :=
  (C26_eval .A [2, 2] mem8 el8 [1, 0] (by decide) nofun exprCF rfl exprCF_uniform (fun _ hv => ⟨(leaf_cases (exprCF_leaves hv)).1, (leaf_cases (exprCF_leaves hv)).2.2.2 _ (by decide)⟩)).trans (by decide)
example : exprM.get [1, 1] mem8 = some (-2) :=
  (C26_eval .M [2, 2] mem8 el8 [1, 1] (by decide) (fun _ => ⟨rfl, zeroLaws_int⟩) exprM rfl exprM_uniform (fun _ hv => ⟨(leaf_cases (exprM_leaves hv)).1, (leaf_cases (exprM_leaves hv)).2.2.2 _ (by decide)⟩)).trans (by decide)
example := C26_assign .A matC exprCF mem8 el8 matC_good matC_one nofun rfl exprCF_uniform nofun (fun _ hv => leaf_cases (exprCF_leaves hv))
example := C26_assign .M matC exprM mem8 el8 matC_good matC_one nofun rfl exprM_uniform (fun _ => ⟨rfl, zeroLaws_int⟩) (fun _ hv => leaf_cases (exprM_leaves hv))
example := C26_compound_scalar .sub .M matC 10 mem8 el8 matC_good matC_one (fun _ => ⟨rfl, zeroLaws_int⟩) matC_val
example := C26_compound .mul .A matC exprCF mem8 el8 matC_good matC_one rfl (.inr (.inr rfl)) exprCF_uniform nofun
  (fun _ hv => leaf_cases (hv.elim .inl exprCF_leaves))
example := C26_compound .add .M matC exprM mem8 el8 matC_good matC_one rfl (.inl rfl) exprM_uniform (fun _ => ⟨rfl, zeroLaws_int⟩)
  (fun _ hv => leaf_cases (hv.elim .inl exprM_leaves))
example := C26_eval_mixed [2, 2] mem8 el8 [1, 0] (by decide) (.bin .mul (.arr .A matC) (.neg (.arr .A matF))) rfl (by simp [Entrywise, matC, matF])
  (fun v hv => have h : v = matC ∨ v = matF := by simpa [leaves] using hv
    ⟨(leaf_cases h).1, (leaf_cases h).2.2.2 _ (by decide)⟩)

theorem enumF : MemEnum [1, 0] [2, 2] [[0, 0], [1, 0], [0, 1], [1, 1]] := by
  rw [show [[0, 0], [1, 0], [0, 1], [1, 1]] = Grid.memBox [1, 0] [2, 2] from by decide]
  exact Grid.memEnum_memBox (by decide) rfl

example := C26_linear .M [2, 2] mem8 [1, 0] (by decide) (by decide) rfl _ enumF 1 [1, 0] rfl exprFF rfl (by simp [exprFF, Uniform, matF])
  (fun v hv => have h : v = matF := by simpa [exprFF, leaves] using hv
    h ▸ matF_good) rfl rfl
example := C26_linear_agrees [2, 2] mem8 [1, 0] (by decide) (by decide) rfl _ enumF 2 [0, 1] rfl exprFF rfl
  (fun v hv => have h : v = matF := by simpa [exprFF, leaves] using hv
    h ▸ ⟨matF_good, rfl, rfl, rfl⟩) 14 (by decide)

end

/-! ### Algorithms and matrix functions (C25, C27) -/

section
open Algorithms Loops Spec Assign

/-- The elements of the matrix in Fortran order. -/
def getF (idx : List Int) : Option Int := load matF idx mem8

theorem getF_some (idx : List Int) (hi : InRange [2, 2] idx) : ∃ x, getF idx = some x := by
  have h : ∀ idx ∈ box [2, 2], (getF idx).isSome = true := by decide
  exact Option.isSome_iff_exists.mp (h idx (mem_box.mpr hi))

theorem order_int : WeakOrder (fun x y : Int => decide (x < y)) := ⟨by simp, by simp; intros; omega, by simp; intros; omega⟩

example := C25_fold (fun r x => r * 10 + x) [2, 2] getF 0 (box [2, 2]) ⟨by decide, fun x => by rw [mem_box]⟩
example : Algorithms.sum (· + ·) 0 [2, 2] getF = some 26 :=
  (C25_sum [2, 2] getF getF_some [[1, 1], [0, 1], [1, 0], [0, 0]] (by decide) (fun idx => by rw [← mem_box, show box [2, 2] = [[0, 0], [0, 1], [1, 0], [1, 1]] from rfl]; simp; tauto)).trans (by decide)
example : Algorithms.product (· * ·) 1 [2, 2] getF = some 1680 :=
  (C25_product [2, 2] getF getF_some (box [2, 2]) (by decide) (fun idx => mem_box)).trans (by decide)
example := C25_any [2, 2] (fun idx => (getF idx).map (fun x => decide (x = 6))) (fun idx hi => by obtain ⟨x, hx⟩ := getF_some idx hi; exact ⟨_, by rw [hx]; rfl⟩)
example := C25_all [2, 2] (fun idx => (getF idx).map (fun x => decide (4 < x))) (fun idx hi => by obtain ⟨x, hx⟩ := getF_some idx hi; exact ⟨_, by rw [hx]; rfl⟩)
example := C25_max _ order_int [2, 2] getF getF_some (by decide)
example := C25_min _ order_int [2, 2] getF getF_some (by decide)
example := C25_frobenius (fun x : Int => x.natAbs) [2, 2] getF getF_some (box [2, 2]) (by decide) (fun idx => mem_box)
example := C25_in_memory (ρ := Int) matF mem8 matF_good

end

section
open Matrix Arith Arith.Spec Spec Assign LayoutTransforms

/-- A matrix read backwards. -/
def matR : View := ⟨5, ⟨[2, 3], [-3, -1], [0, 1], [0, 0], .none⟩⟩

theorem matR_good : Good matR 8 := good_of (by decide) rfl rfl rfl (by decide) 1 nofun (by decide) (by decide)
theorem matR_one : OneToOne matR := oneToOne_of (by decide)

example := C27_eye (9 : Int) 0 1 3 (by decide) mem8
example := C27_trace 2 2 (by decide) getF (fun idx => (getF idx).getD 0) (fun i hi => by
  have h : ∀ i : Nat, i < 2 → getF [(i : Int), (i : Int)] = some ((getF [(i : Int), (i : Int)]).getD 0) := by decide
  exact h i hi)
example := C27_dagger true (fun x : Int => -x) .M matR 2 3 rfl mem8 matR_good matR_one
example := C27_transpose_call .M (fun x : Int => x * x) matR 2 3 rfl mem8 matR_good matR_one
example := C27_diagonal matR 2 3 rfl 8 matR_good matR_one
example := C27_diagonal_write matC 2 2 rfl mem8 matC_good matC_one ⟨0, ⟨[2], [3], [0], [0], .none⟩⟩ rfl (fun i => 10 * i) [0, 2, 3, 10, 5, 6, 7, 8]
  ⟨rfl, fun idx hi => (by decide : ∀ idx ∈ box [2], val [0, 2, 3, 10, 5, 6, 7, (8 : Int)] (addr ⟨0, ⟨[2], [3], [0], [0], .none⟩⟩ idx) = some (10 * idx.getD 0 0)) idx (mem_box.mpr hi),
    fun k hk => by
      by_cases h0 : k = 0
      · exact absurd ⟨[0], by decide, by rw [h0]; rfl⟩ hk
      by_cases h3 : k = 3
      · exact absurd ⟨[1], by decide, by rw [h3]; rfl⟩ hk
      unfold val
      split
      · rfl
      · obtain ⟨n, rfl⟩ := Int.eq_ofNat_of_zero_le (show 0 ≤ k by omega)
        rcases n with _ | _ | _ | _ | _ | _ | _ | _ | n <;> first | rfl | (exact absurd rfl h0) | (exact absurd rfl h3)⟩
theorem diag_yields : Yields (.inMem ⟨7, ⟨[3], [-2], [0], [0], .none⟩⟩ false) [3] mem8 (fun idx => 8 - 2 * idx.getD 0 0) :=
  ⟨good_of (by decide) rfl rfl rfl (by decide) 1 nofun (by decide) (by decide), rfl, nofun, fun idx hi =>
    (by decide : ∀ idx ∈ box [3], val mem8 (addr ⟨7, ⟨[3], [-2], [0], [0], .none⟩⟩ idx) = some (8 - 2 * idx.getD 0 0)) idx (mem_box.mpr hi)⟩
example := C27_diag 0 3 (by decide) _ mem8 _ diag_yields
theorem matF_yields : Yields (.inMem matF false) [2, 2] mem8 (el8 matF) := ⟨matF_good, rfl, nofun, matF_val⟩
theorem matC_yields : Yields (.inMem matC false) [2, 2] mem8 (el8 matC) := ⟨matC_good, rfl, nofun, matC_val⟩
example := C27_vstack 0 2 2 2 (by decide) (by decide) (by decide) _ _ mem8 _ _ matC_yields matF_yields

end

section
open Assign Spec

example := C18_fill_partial 10 matR 7 mem8 matR_good (.inl (by decide)) (by decide) nofun (fun _ => .inl (by decide))
example : assignScalar 10 ⟨4, ⟨[3], [-2], [0], [0], .strided⟩⟩ 7 [9, 9, 9, 9, 9, (9 : Nat)] = some [9, 9, 9, 9, 9, 9] :=
  C18_negative_stride 10 ⟨4, ⟨[3], [-2], [0], [0], .strided⟩⟩ 7 _ ⟨by decide, rfl, rfl, rfl⟩ (by decide) rfl 0 rfl (by decide)
example := C18_matrix_partial 10 matR 0 7 mem8 2 3 rfl matR_good matR_one (by decide) nofun (fun _ => .inl (by decide))

end

/-! ### `std::array` and address spaces (C63, C73) -/

section
open StdArray

example := C73_arithmetic [7, 7, 7] [1, 2, 3] [10, 20, (30 : Int)] 5 rfl rfl
example := C73_convert (fun n : Nat => (n : Int)) 0 [1, 2, 3] [4, 5]
example := C73_append 0 [1, 2] 3
example := C73_pop 0 [1, 2, 3] 2
example := C73_front_pop 0 [1, 2, 3] 2
example := C73_join 0 [1, 2] [3]
example := C73_round_trips 0 [1, 2] [3, 4, 5] 6
example : StdArray.sum (0 : Int) [2, 3, 4] = some 9 := C73_sum [2, 3, 4]
example : StdArray.product [2, 3, (4 : Int)] = some 24 := C73_product [2, 3, 4]
example := C73_dot_product (fun (a b : Int) => a * b) [1, 2, 3] [4, 5, 6] rfl

end

section
open AddressSpace

example := C63_combine .none [.device, .unified] .unified rfl
example := C63_accepted .host [.none, .device]
example := C63_expression (.call (.expr .scalar (.array .device)) [.array .unified]) .unified rfl
example := C63_one_processor_partial (.call (.expr .scalar (.array .device)) [.array .device, .unary (.array .device)]) .device rfl (by decide)
example := C63_commutes .device .unified
example := C63_compatible [.device, .unified, .device]
example := C63_same .device [.device, .host]

end

end Nda
