import Verif.Props.Cases2
import Verif.Props.Cases
import Verif.Props.Mpi
import Verif.Props.Machine
import Verif.Props.Constness
import Verif.Props.Alignment
import Verif.Props.DeviceErrors
import Verif.Props.H5Names
import Verif.Props.H5Slice
import Verif.Props.Print
import Verif.Props.PrintExpr
import Verif.Props.TestTools
import Verif.Props.Messages

/-!
# Concrete cases: processes, machine integers, constness, alignment, files, text

Each `example` applies a theorem to concrete arrays, so that its hypotheses are seen to hold together.
-/


namespace Nda.Mpi

open Nda LayoutTransforms Assign Loops Matrix Nda.Spec Nda.Perm IdxMap

theorem exProc_rhs : Blk exProc.rhs exProc.mem.length := blk_c 0 [5, 2] [0, 0] .contiguous 10 (by simp) rfl (by decide) (by decide) (by decide)
theorem exProc_target : Blk exProc.target exProc.mem.length := blk_c 10 [0, 0] [0, 0] .contiguous 10 (by simp) rfl (by decide) (by decide) (by decide)

theorem exProc_separate : Separate exProc.rhs exProc.target := fun i j _ hj => by
  match j, hj with
  | a :: b, hj => exact absurd hj.1.2 (by have := hj.1.1; simp; omega)

/-- The arrays of three processes gathered: 15 rows. -/
example := C39_gather (0 : Int) [exProc, exProc, exProc] true 0 1 exProc rfl rfl [5, 5, 5] [2] rfl
  (fun q hq => by simp only [List.mem_cons, List.not_mem_nil, or_false, or_self] at hq; subst hq; exact ⟨exProc_rhs, rfl⟩) exProc_target rfl rfl nofun exProc_separate (by decide)

/-- Five rows in three parts. -/
example := C39_chunks 5 3 (by decide)

example := C39_scatter (0 : Int) [exProc, exProc, exProc] 0 1 exProc exProc rfl rfl 5 [2] rfl rfl exProc_rhs exProc_rhs rfl rfl exProc_target rfl rfl nofun exProc_separate (by decide)

example := C39_cover [2, 0, 3] (by decide) 4 (by decide) (by decide)

example := C40_broadcast (0 : Int) [exProc, ⟨[7, 8], ⟨0, ⟨[1, 2], [2, 1], [0, 1], [0, 0], .contiguous⟩⟩, ⟨0, ⟨[1, 2], [2, 1], [0, 1], [0, 0], .contiguous⟩⟩, false⟩] 1 0 exProc _ rfl rfl exProc_target
  (blk_c 0 [1, 2] [0, 0] .contiguous 2 (by simp) rfl (by decide) (by decide) (by decide)) rfl rfl nofun (by decide)

/-- Two processes with a vector of two elements each, and room for the result behind it. -/
def sumProc (a b : Int) : Proc Int := ⟨[a, b, 0, 0], ⟨0, ⟨[2], [1], [0], [0], .contiguous⟩⟩, ⟨2, ⟨[2], [1], [0], [0], .contiguous⟩⟩, true⟩

theorem sumProc_rhs (a b : Int) : Blk (sumProc a b).rhs (sumProc a b).mem.length := blk_c 0 [2] [0] .contiguous 4 (by simp) rfl (by decide) (by decide) (by decide)
theorem sumProc_target (a b : Int) : Blk (sumProc a b).target (sumProc a b).mem.length := blk_c 2 [2] [0] .contiguous 4 (by simp) rfl (by decide) (by decide) (by decide)

example := C40_reduce (0 : Int) (· + ·) [sumProc 1 2, sumProc 10 20] true 0 0 (sumProc 1 2) rfl rfl [2] [0]
  (fun q hq => by simp only [List.mem_cons, List.not_mem_nil, or_false] at hq; rcases hq with rfl | rfl <;> exact ⟨sumProc_rhs _ _, rfl, rfl⟩) (sumProc_target 1 2) rfl rfl (fun _ => rfl)
  (Or.inr ⟨by decide, fun i j hi hj => by
    match i, hi, j, hj with
    | [_], ⟨⟨a0, a1⟩, _⟩, [_], ⟨⟨b0, b1⟩, _⟩ => simp [sumProc, addr, dot] at *; omega, by decide⟩) (by decide)

/-- The same in place. -/
def inPlace (a b : Int) : Proc Int := ⟨[a, b], ⟨0, ⟨[2], [1], [0], [0], .contiguous⟩⟩, ⟨0, ⟨[2], [1], [0], [0], .contiguous⟩⟩, true⟩

theorem inPlace_rhs (a b : Int) : Blk (inPlace a b).rhs (inPlace a b).mem.length := blk_c 0 [2] [0] .contiguous 2 (by simp) rfl (by decide) (by decide) (by decide)

example := C40_all_reduce_sum (0 : Int) [inPlace 1 2, inPlace 10 20] 0 1 (inPlace 10 20) rfl [2] [0]
  (fun q hq => by simp only [List.mem_cons, List.not_mem_nil, or_false] at hq; rcases hq with rfl | rfl <;> exact ⟨inPlace_rhs _ _, rfl, rfl⟩) rfl (by decide)

/-- Source and destination share the middle element. -/
example := C40_overlap_rejected (0 : Int) (· + ·) [⟨[1, 2, 3], ⟨0, ⟨[2], [1], [0], [0], .contiguous⟩⟩, ⟨1, ⟨[2], [1], [0], [0], .contiguous⟩⟩, true⟩] true 0 0 _ rfl
  (blk_c 0 [2] [0] .contiguous 3 (by simp) rfl (by decide) (by decide) (by decide)) (blk_c 1 [2] [0] .contiguous 3 (by simp) rfl (by decide) (by decide) (by decide)) rfl (by decide) 1
  ⟨[1], ⟨⟨by decide, by decide⟩, trivial⟩, rfl⟩ ⟨[0], ⟨⟨by decide, by decide⟩, trivial⟩, rfl⟩

example := C40_in_place_size (0 : Int) (· + ·) [⟨[1, 2, 3], ⟨0, ⟨[2], [1], [0], [0], .contiguous⟩⟩, ⟨0, ⟨[3], [1], [0], [0], .contiguous⟩⟩, true⟩] true 0 0 _ rfl
  (blk_c 0 [2] [0] .contiguous 3 (by simp) rfl (by decide) (by decide) (by decide)) (blk_c 0 [3] [0] .contiguous 3 (by simp) rfl (by decide) (by decide) (by decide)) rfl (by decide)

example := C40_sizes (0 : Int) (· + ·) [inPlace 1 2, exProc] true 0 0 (inPlace 1 2) exProc rfl (by simp) (by decide)

/-- Two arrays of 2^30 elements. -/
example := C39_overflow (0 : Int)
  (List.replicate 2 ⟨[], ⟨0, ⟨[1073741824], [1], [0], [0], .contiguous⟩⟩, ⟨0, ⟨[0], [1], [0], [0], .contiguous⟩⟩, false⟩) true 0 0 rfl
  (by intro q hq; simp at hq; subst hq; decide) (by decide)

example := C39_strided_rejected (0 : Int) [⟨[1, 2, 3], ⟨0, ⟨[2], [2], [0], [0], .strided⟩⟩, ⟨3, ⟨[0], [1], [0], [0], .contiguous⟩⟩, false⟩] true 0 0 _ rfl (· + ·) (Or.inl (by decide)) rfl

example := C39_gather_shape [exProc, exProc] false 0 1 exProc rfl [5, 5] [2] 5 rfl rfl

example := C39_gather_other (0 : Int) [exProc, exProc] 0 1 exProc rfl (by decide) (by simp [exProc]) exProc_rhs exProc_target

example := C40_reduce_other (0 : Int) (· + ·) [sumProc 1 2, sumProc 10 20] 0 1 (sumProc 10 20) rfl (by decide) (sumProc_rhs _ _) (sumProc_target _ _) (by simp [sumProc])
  (Or.inr ⟨by decide, by decide⟩)

end Nda.Mpi

namespace Nda.Machine

open Nda Nda.Spec IdxMap LayoutTransforms

example := C71_construct [3000000000, 3000000000] [1, 0] [0, 0] .contiguous (by decide) rfl (by decide) (by decide)
example := C71_construct_exact [4294967296, 2147483648] [0, 1] [0, 0] .contiguous (by decide) rfl rfl (by decide) (by decide)
example := C71_chain_partial [3, 5, 6] [0, 1, 2] [0, 0, 0] .contiguous (by decide) rfl rfl (by decide) (by decide) exampleChain exampleChain_allowed exampleChain_modest
example := C71_to_idx ⟨[3, 4], [4, 1], [0, 1], [0, 0], .contiguous⟩ 7 (by decide) (by decide)
example := C71_bound_check_partial [10, 4] [.rng 9 (-1) (-4611686018427387904), .idx 3] (by intro f l s h; simp at h; obtain ⟨rfl, rfl, rfl⟩ := h; decide)
example := C71_iterate_partial ⟨[3, 2], [1, -6], [1, 0], [0, 0], .none⟩ ⟨by decide, by decide, by decide, by decide⟩ ⟨nofun, nofun⟩ (by decide)
  ⟨rfl, by intro l hl; simp at hl; omega, by decide, by decide, by decide⟩ (Or.inl (by decide))
example := C71_bytes_partial 1000 16 (by decide)

end Nda.Machine

namespace Nda.Constness

example := C81_const_view (α := Int) [.derive 0 .slice, .derive 2 .transform, .derive 1 .elem, .write 4 2 7]
  ⟨[[1, 2, 3], [4, 5, 6]], [(0, .view false true), (1, .view false false)]⟩ _ 0 (by decide) (by simp [ConstElem]) rfl

example := C81_const_array_partial (α := Int) [.derive 0 .full, .derive 1 .full, .derive 0 .iterate, .copy 0, .write 4 0 5]
  ⟨[[1, 2]], [(0, .arr true)]⟩ _ 0 (by decide) (by simp [Guarded]) (by simp; rintro i op (⟨rfl, rfl⟩ | ⟨rfl, rfl⟩ | ⟨rfl, rfl⟩) <;> rfl) rfl

example := C81_exact .slice (.arr true) _ (by simp [Guarded]) rfl

end Nda.Constness

namespace Nda.Align

open Nda Nda.Spec LayoutTransforms

example := C84_heap dcomplex ⟨by decide, by decide, by decide⟩ (by decide) 2 1000 6 4096 (by decide) ⟨0, ⟨[2, 3], [3, 1], [0, 1], [0, 0], .contiguous⟩⟩ [1, 2]
example := C84_bucket double ⟨by decide, by decide, by decide⟩ 800
example := C84_inside double 2 6 6 1000 0 (by decide) 5 (by decide) (by decide)

end Nda.Align

namespace Nda.DeviceErrors

example := C78_reported_partial [⟨.gemm, false, .done⟩, ⟨.gemv, true, .fails⟩, ⟨.getrf, false, .done⟩] (by simp [Unchecked])
example := C78_returned [⟨.gemm, false, .done⟩, ⟨.getrf, false, .done⟩] (by decide) 1 _ rfl (by simp [Unchecked])
example := C78_unsynchronised [⟨.gemm, false, .fails⟩, ⟨.gemv, true, .rejected⟩] false (by simp [Unchecked])

end Nda.DeviceErrors

namespace Nda.H5

open Nda Loops Nda.Spec

example := C36_char_buf [[104, 105], [], [33, 0, 34]]
example := C36_round_trip [[104, 105], [], [33]] (by simp)
example := C38_names_distinct [1, 11] [1, 11] (by simp) (by simp) (by simp) (by simp) rfl
example := C38_name_not_shape [1, 11] (by simp) (by simp)
example := C38_round_trip [2, 3] (by simp) (fun i => i.sum) (fun i => some i.sum) (fun _ _ => rfl)

end Nda.H5

namespace Nda.H5

open Nda Loops Nda.Spec Nda.Slice Nda.Assign Nda.LayoutTransforms

/-- A dataset 2×1×2×3 and `file(1, ___, range(0, 3, 2))`: an array 1×2×2. -/
def sel4 : List Arg := [.idx 1, .ell, .rng 0 3 2]

theorem sel4_fits : Fits 4 sel4 := by decide

theorem sel4_inside : Inside (expand 4 sel4) [2, 1, 2, 3] := show Inside [.idx 1, .all, .all, .rng 0 3 2] [2, 1, 2, 3] by
  refine ⟨⟨by decide, by decide⟩, trivial, trivial, ⟨by decide, fun k n h h0 h1 => ?_⟩, trivial⟩
  have := (h.2.2 k h0).1 h1
  simp [stop] at this
  omega

theorem sel4_plain : ∀ a ∈ sel4, Plain a := by decide

theorem sel4_shape : SliceShape (expand 4 sel4) [2, 1, 2, 3] [1, 2, 2] := show SliceShape [.idx 1, .all, .all, .rng 0 3 2] [2, 1, 2, 3] [1, 2, 2] by
  refine ⟨rfl, rfl, ⟨by decide, by decide, fun k h => ?_⟩, trivial⟩
  simp [stop]
  omega

theorem small4 : Small [2, 1, 2, 3] := by simp [Small]

example := C37_selection_partial [2, 1, 2, 3] true sel4 (by decide) small4 sel4_fits sel4_inside sel4_plain
example := C37_read_partial [2, 1, 2, 3] false ((List.range 12).map Int.ofNat) sel4 (by decide) small4 rfl sel4_fits (by decide) sel4_inside sel4_plain
example := C37_same_as_memory_partial [2, 1, 2, 3] ((List.range 12).map Int.ofNat) sel4 [0, 0, 0, 0] .contiguous rfl (by decide) (by decide) small4 rfl (by simp) sel4_fits (by decide) sel4_inside sel4_plain
example := C37_write_partial [2, 1, 2, 3] false ((List.range 12).map Int.ofNat) [100, 101, 102, 103] sel4 [1, 2, 2] (by decide) small4 rfl sel4_fits sel4_inside sel4_plain sel4_shape rfl
example := C37_rank_checked 2 sel4 [2, 1, 2, 3] false (by decide)
example := C37_view_checked [2, 1, 2, 3] false ((List.range 12).map Int.ofNat) sel4 [1, 2, 2] small4 sel4_fits (by decide) sel4_inside sel4_plain
example := C37_whole true [1, 2] [1, 2, 3, (4 : Int)]
example := C37_whole_slice_partial [2, 1, 2, 3] true ((List.range 24).map Int.ofNat) sel4 (by decide) small4 rfl sel4_fits (by decide) sel4_inside sel4_plain

end Nda.H5

namespace Nda.Messages

open Nda Nda.Spec

example := C74_copy_loses ((Stream.mk "AB".toList 2)) "C".toList (by decide) (by decide)
example := C74_thrown "a.hpp".toList "12".toList ["bad ".toList, "shape".toList] 2
example := C74_assert false "a.hpp".toList "12".toList "x > 0".toList (some ["x = ".toList])

end Nda.Messages


namespace Nda.Print

open Nda Nda.Spec Spec Loops Assign Arith

theorem dec1 : Readable ',' ']' decimal := decimal_readable _ _ (by decide) (by decide)
theorem dec2 : Readable ' ' ')' decimal := decimal_readable _ _ (by decide) (by decide)

/-- Vectors of 3 and of 2 integers. -/
example := C65_vector decimal dec1 3 2 (fun i => some i.sum) (fun i => some (-i.sum)) (fun i => i) (fun i => -i) (by simp) (by simp) []
example := C65_matrix_partial decimal dec1 2 3 3 2 (by decide) (fun i => some i.sum) (fun i => some i.sum) (fun i j => i + j) (fun i j => i + j) (by simp) (by simp) []

def vA : View := ⟨0, ⟨[1, 2, 2], [4, 2, 1], [0, 1, 2], [0, 0, 0], .contiguous⟩⟩
def vB : View := ⟨1, ⟨[1, 2, 2], [8, 3, 1], [0, 1, 2], [0, 0, 0], .none⟩⟩
theorem vA_good : Good vA [1, 2, 3, (4 : Int)].length := good_of (by decide) rfl rfl rfl (by decide) 1 (by decide) (by simp [NonNeg, vA]) (by decide)
theorem vB_good : Good vB [0, 1, 2, 0, 3, (5 : Int)].length := good_of (by decide) rfl rfl rfl (by decide) 1 (by decide) (by simp [NonNeg, vB]) (by decide)

example := C65_flat_partial decimal dec1 vA vB _ _ vA_good vB_good (by decide) rfl rfl (Or.inl (by decide)) [] 9 (by decide)
example := C65_print_partial decimal dec1 vA vB _ _ vA_good vB_good (by decide) rfl (Or.inr ⟨rfl, Or.inl (by decide)⟩) [] 9 (by decide)
example := C65_tuple decimal dec2 [1, -2] [1, 2] [] []

/-- `2 * a - (-b)` and `a + b` for `b` the last two elements of `a`. -/
example := C80_expression_partial decimal dec1 dec2 (Or.inl decimal_number) [1, -2, 3] [1, -2, 3] 0
  (.bin .sub (.scalL .mul 2 (.arr .V ⟨0, ⟨[3], [1], [0], [0], .contiguous⟩⟩)) (.neg (.arr .V ⟨1, ⟨[2], [1], [0], [0], .contiguous⟩⟩)))
  (.arr .V ⟨1, ⟨[2], [1], [0], [0], .contiguous⟩⟩)
  ⟨⟨good_of (by decide) rfl rfl rfl (by decide) 1 (by decide) (by simp [NonNeg]) (by decide), Or.inl ⟨3, rfl⟩⟩,
    good_of (by decide) rfl rfl rfl (by decide) 1 (by decide) (by simp [NonNeg]) (by decide), Or.inl ⟨2, rfl⟩⟩
  ⟨good_of (by decide) rfl rfl rfl (by decide) 1 (by decide) (by simp [NonNeg]) (by decide), Or.inl ⟨2, rfl⟩⟩ []

end Nda.Print

namespace Nda.TestTools

open Nda Nda.Spec Nda.Algorithms Loops

theorem intOrder : WeakOrder (fun a b : Int => decide (a < b)) := ⟨by simp, by simp; omega, by simp; omega⟩

example := C64_close_partial (fun a b : Int => decide (a < b)) intOrder id (· - ·) (fun a => (a.natAbs : Int)) 2 [2, 2] [2, 2] (fun idx => some idx.sum) (fun idx => some (max idx.sum 1))
  (by decide) (fun _ _ => ⟨_, rfl⟩) (fun _ _ => ⟨_, rfl⟩)
example := C64_zero_partial (fun a b : Int => decide (a < b)) intOrder (fun a => (a.natAbs : Int)) 2 [2, 2] (fun idx => some idx.sum) (by decide) (fun _ _ => ⟨_, rfl⟩)
example := C64_equal (fun a b : Int => decide (a = b)) [2, 2] [2, 2] (fun idx => some idx.sum) (fun idx => some (max idx.sum 1)) (fun _ _ => ⟨_, rfl⟩) (fun _ _ => ⟨_, rfl⟩)
example := C64_numbers_partial (fun a b : Int => ((a - b).natAbs : Int)) 2 5 3

end Nda.TestTools
