import Verif.Props.Cases2
import Verif.Props.Assign
import Verif.Props.Overlap
import Verif.Props.Arrays
import Verif.Props.InitList
import Verif.Props.Layouts
import Verif.Props.Contiguous
import Verif.Props.ExprSlice
import Verif.Props.AutoAssign
/-!
# More concrete cases for theorems of other files

Each theorem is applied to a concrete case that meets its hypotheses.
-/
namespace Nda

/-! ### Assignment and comparison (C17, C19, C20, C21) -/

section
open Assign Spec LayoutTransforms

/-- Blocks of four elements, six apart. -/
def layBlocks : IdxMap := ⟨[4, 2, 2], [6, 2, 1], [0, 1, 2], [0, 0, 0], .smallest⟩

theorem layBlocks_ok : BlockOK layBlocks := ⟨by decide, by decide, by decide, by decide⟩

example := C20_block_layout_partial layBlocks ⟨by decide, rfl, rfl, rfl⟩ layBlocks_ok
example := C17_assign_partial .host .unified true false matC matF mem8 matC_good matF_good rfl matC_one mat_sep nofun (.inl (by decide)) (.inr (.inr (.inl (by decide))))
example := C17_assign_host false false matC matF mem8 matC_good matF_good rfl matC_one mat_sep nofun (.inl (by decide))
example := C17_assign_expr .host .host true matC (fun idx _ => some (10 * idx.getD 0 0 + idx.getD 1 0)) mem8 matC_good matC_one nofun nofun (fun _ _ => ⟨_, rfl⟩) (fun _ _ _ _ _ => rfl)
example := C21_equality (fun x y : Int => decide (x = y)) [2, 2] [2, 2] getF getF getF_some getF_some
example := C21_views (fun x y : Int => decide (x = y)) (by simp) matC matF mem8 matC_good matF_good
example := C21_equivalence (fun x y : Int => decide (x = y)) (by simp) (by simp +contextual) (by simp +contextual) [2, 2] [2, 2] [2, 2] getF getF getF getF_some getF_some getF_some
example := C19_pointwise .host .host true matC (fun idx mem => (load matC idx mem).map (· + 1)) mem8 matC_good matC_one nofun nofun
  (fun idx hi => by
    have h : ∀ idx ∈ box [2, 2], ((load matC idx mem8).map (· + 1)).isSome = true := by decide
    exact Option.isSome_iff_exists.mp (h idx (mem_box.mpr hi)))
  (fun idx hi mem2 hl h => by
    have e := h _ (.inr rfl)
    rw [load_eq (hl ▸ matC_good) hi, load_eq matC_good hi, e])
example := C19_compound (fun x y : Int => some (x * y)) .host .host matC matF false mem8 matC_good matF_good rfl matC_one nofun nofun
  (fun idx jdx hi hj e => absurd e (mat_sep jdx idx hj hi)) (fun _ _ => ⟨_, rfl⟩)
example := C19_copy_exact (α := Int) true matC ⟨3, ⟨[2, 2], [-2, -1], [0, 1], [0, 0], .none⟩⟩ 8 matC_good
  (good_of (by decide) rfl rfl rfl (by decide) 1 nofun (by decide) (by decide)) rfl matC_one (oneToOne_of (by decide)) (by decide)

end

/-! ### Histories of arrays (C22, C23) -/

section
open Arr Arr.Spec Mem Spec

theorem exampleOps_reach : ∃ p a, Reachable false 0 [1, 0] p a ∧ a.get 2 = some ([2, 2], false) :=
  ⟨_, _, ⟨4, exampleOps, example_allowed false, (run_inv 0 (by decide) (by decide) exampleOps (start_inv false (fun _ => [1, 0]) 4) (example_allowed false)).choose_spec.1, rfl⟩, by decide +kernel⟩

example := C22_history_partial false 0 [1, 0] (by decide) (by decide) 4 exampleOps (example_allowed false)
example : ∃ (p : AProg Nat) (m : IdxMap), layoutOf [1, 0] [4, 1] = some m ∧ p.step false 0 [1, 0] (.resize 2 [4, 1]) = some { p with lays := p.lays.set 2 m } := by
  obtain ⟨p, a, hr, ha⟩ := exampleOps_reach
  exact ⟨p, C22_resize_same false 0 [1, 0] (by decide) (by decide) p a hr 2 [2, 2] [4, 1] ha ⟨rfl, by decide⟩ rfl⟩

theorem start_reach (triv : Bool) (so : List Nat) : Reachable triv 0 so (AProg.start 2 : AProg Nat) [none, none] := ⟨2, [], trivial, rfl, rfl⟩

example := C22_build_values false 0 [1, 0] (by decide) (by decide) (AProg.start 2 : AProg Nat) [none, none] (start_reach _ _) 1 [2, 3] (fun idx _ => some (idx.sum.toNat)) (by decide)
  ⟨⟨rfl, by decide⟩, fun _ _ _ _ => rfl⟩
example := C23_shape2 true [[1, 2, 3], [4, 5, 6]] (by decide) 3 (by simp [Rect2])
example := C23_shape3 true [[[1, 2, 3], [4, 5, 6]]] (by decide) 2 3 (by decide) (by simp [Rect3, Rect2])
example := C23_rank1 true 0 (AProg.start 2 : AProg Nat) [none, none] (start_reach _ _) 1 (by decide) [5, 6, 7]
example := C23_rank2 true true 0 [1, 0] (by decide) rfl (AProg.start 2 : AProg Nat) [none, none] (start_reach _ _) 1 (by decide) [[1, 2, 3], [4, 5, 6]] (by decide) 3 (by simp [Rect2])
example := C23_rank3 true true 0 [1, 2, 0] (by decide) rfl (AProg.start 2 : AProg Nat) [none, none] (start_reach _ _) 1 (by decide) [[[1, 2, 3], [4, 5, 6]]] (by decide) 2 3 (by decide) (by simp [Rect3, Rect2])
example := C23_reject_partial (L := List Nat) shape1 (fun l => [(l.length : Int)]) [1, 2] [[3], [5, 6]] (fun _ _ => rfl)

end

/-! ### Layouts, contiguity and reshaping (C09, C10, C11, C52) -/

section
open IdxMap LayoutTransforms Slice Spec

theorem lay24_dense : Dense lay24 := (by decide : memOrder lay24.so lay24.str = (dense (memOrder lay24.so lay24.len)).map (1 * ·))

example := C52_from_dynamic [7, 2] [2, 0, 1] [0, 3, 0] .contiguous (by decide) rfl (by decide)
example := C52_default [2, 0, 1] [5, 3, 4] .contiguous [9, 9, 9] (by decide) rfl (by decide)
example := C52_static_size ⟨[2, 3], [3, 1], [0, 1], [2, 3], .contiguous⟩ ⟨by decide, rfl, rfl, rfl⟩ (fun u hu => by rcases u with _ | _ | u <;> first | decide | simp at hu) (by decide)
example := C52_equal_iff lay24 ⟨[2, 3, 4], [1, 8, 2], [0, 1, 2], [0, 0, 0], .none⟩ lay24_wf ⟨by decide, rfl, rfl, rfl⟩
example := C52_degrade_sound lay24 lay24_flags .strided rfl [2, 0, 0]
example := C52_convert_keeps lay24 _ lay24_wf [0, 0, 0] .none rfl rfl
example := C52_convert_contiguous_partial ⟨[2, 3], [3, 1], [0, 1], [0, 0], .smallest⟩ _ ⟨by decide, rfl, rfl, rfl⟩ (by decide) (by decide) (by decide)
  (fun u hu => by rcases u with _ | _ | u <;> simp_all) rfl [0, 0] rfl
example := C11_strided_complete ⟨[2, 3], [6, 2], [0, 1], [0, 0], .none⟩ ⟨by decide, rfl, rfl, rfl⟩ (by decide) (by decide) 2 (by decide) (show memOrder _ _ = _ by decide)
example := C09_transposed_view ⟨3, lay24⟩ lay24_wf lay24_flags 0 2 (by decide) (by decide)
example := C09_transposed_twice ⟨3, lay24⟩ lay24_wf 0 2 (by decide) (by decide)
example := C09_matrix_twice ⟨3, layGap⟩ layGap_wf rfl

example := C11_contiguous_sound_partial lay24 lay24_wf (by decide) (by decide) (by decide) (fun u hu => by rcases u with _ | _ | _ | u <;> simp_all [lay24]) (by decide)
theorem lay24_pos : BigPos lay24 := fun u hu => by rcases u with _ | _ | _ | u <;> simp_all [lay24]
example := C11_contiguous_complete_partial lay24 lay24_wf (by decide) (by decide) (by decide) lay24_pos (by decide) (fun u hu h => by rcases u with _ | _ | _ | u <;> first | (exact absurd h (by decide)) | (exact absurd hu (by simp [lay24])))
  (C11_contiguous_sound_partial lay24 lay24_wf (by decide) (by decide) (by decide) lay24_pos (by decide))
theorem stepChain_allowed : ChainAllowed [3, 5] [.slice [.all, .rng 0 5 2], .permute [1, 0]] := by
  have hc : IsCount 0 (stop 5 2 5) 2 3 := ⟨by decide, by decide, fun k hk => by simp [stop]; omega⟩
  refine chainAllowed_cons (len' := [3, 3]) ⟨by decide, by decide, ?_⟩ ⟨rfl, hc, trivial⟩ (chainAllowed_cons (len' := [3, 3]) ⟨by decide, by decide⟩ ⟨by decide, by decide⟩ trivial)
  refine ⟨trivial, ⟨by decide, fun k n hn h0 h1 => ?_⟩, trivial⟩
  have := (hn.2.2 k h0).mp h1
  simp [stop] at this; omega
example := C11_chain_sound_partial [3, 5] [1, 0] [0, 0] .contiguous (by decide) rfl rfl (by decide) [.slice [.all, .rng 0 5 2], .permute [1, 0]] stepChain_allowed
  (fun args h f l s hs => by simp at h; subst h; simp at hs; omega)
example := C10_reshape_partial .F ⟨5, lay24⟩ lay24_wf lay24_flags.1 lay24_dense (by decide) [4, 6] trivial rfl
example := C10_reshape_back_partial .F ⟨5, ⟨[2, 3], [1, 2], [1, 0], [0, 0], .contiguous⟩⟩ ⟨by decide, rfl, rfl, rfl⟩ (show memOrder _ _ = _ by decide) ⟨by decide, by decide, rfl⟩ [3, 1, 2] trivial trivial
example := C10_flatten_partial .C ⟨5, lay24⟩ lay24_wf lay24_flags.1 lay24_dense (by decide) trivial
example := C10_policy lay24 lay24_wf (by decide) [5, 6, 7] rfl

end

/-! ### Slices of expressions (C66) -/

section
open Arith Arith.Spec Spec LayoutTransforms Assign IdxMap Slice

/-- `-(A + 2 * B)`. -/
def exprNeg : Expr Int := .neg (.bin .add (.arr .M mC) (.scalL .mul 2 (.arr .M mF)))
/-- Memory for `A` and `B`. -/
def mem12 : List Int := [0, 1, 2, 3, 4, 5, 10, 11, 12, 13, 14, 15]

theorem exprNeg_leaves {v : View} (hv : v ∈ leaves exprNeg) : v = mC ∨ v = mF := by
  simpa only [exprNeg, leaves, List.singleton_append, List.mem_cons, List.not_mem_nil, or_false] using hv
theorem exprNeg_wf (v : View) (hv : v ∈ leaves exprNeg) : WF v.lay ∧ SmallestOK v.lay := by
  rcases exprNeg_leaves hv with rfl | rfl
  exacts [mC_wf, mF_wf]
theorem exprNeg_shaped : Shaped [2, 3] exprNeg := ⟨rfl, rfl⟩
theorem exprNeg_typed : Typed exprNeg := ⟨⟨nofun, fun _ => rfl, nofun⟩, ⟨nofun, fun _ => rfl, nofun⟩⟩
theorem exprNeg_sliceable : Sliceable exprNeg := ⟨trivial, trivial, by simp⟩
theorem row_slice : SliceOf [2, 3] [.idx 1, .ell] [3] :=
  ⟨by decide, by decide, by simp, by decide, show SliceShape [.idx 1, .all] [2, 3] [3] by simp [SliceShape]⟩
theorem row_inside : Inside (expand 2 [.idx 1, .ell]) [2, 3] := show Inside [.idx 1, .all] [2, 3] by simp [Inside, ArgInside]

example := C66_slice [2, 3] [3] mem12 [.idx 1, .ell] row_slice exprNeg (by decide) exprNeg_shaped exprNeg_typed exprNeg_sliceable exprNeg_wf
example := C66_exists [2, 3] [3] [.idx 1, .ell] row_slice exprNeg (by decide) exprNeg_shaped exprNeg_typed exprNeg_wf
example := C66_chain mem12 [[.idx 1, .ell]] [2, 3] [3] ⟨[3], row_slice, row_inside, rfl⟩ exprNeg (by decide) exprNeg_shaped exprNeg_typed exprNeg_sliceable exprNeg_wf
example := C66_value [2, 3] [3] mem12 [.idx 1, .ell] row_slice row_inside exprNeg (by decide) exprNeg_shaped exprNeg_typed exprNeg_sliceable
  (fun v idx => (val mem12 (addr v idx)).getD 0) (fun v hv => by
    rcases exprNeg_leaves hv with rfl | rfl
    · exact ⟨good_of (by decide) rfl rfl rfl (by decide) 1 (by decide) (by decide) (by decide), fun idx hi =>
        (by decide : ∀ idx ∈ box [2, 3], val mem12 (addr mC idx) = some ((val mem12 (addr mC idx)).getD 0)) idx (mem_box.mpr hi)⟩
    · exact ⟨good_of (by decide) rfl rfl rfl (by decide) 1 (by decide) (by decide) (by decide), fun idx hi =>
        (by decide : ∀ idx ∈ box [2, 3], val mem12 (addr mF idx) = some ((val mem12 (addr mF idx)).getD 0)) idx (mem_box.mpr hi)⟩)

end

/-! ### Sums over placeholders (C49) -/

section
open Clef Clef.Spec

example := C49_sum ints rowCol [(0, .val 3), (1, .val 2)] 63 (fun _ => none) (by decide) (by simp [rowCol, Plain, Plains]) (by decide) (by simp [IsLeaf]) (by simp [rowCol, fv, fvs])
example := C49_sum_one ints (.node .multiplies [.ph 0, .ph 0]) (.val 3) 0 3 5 [0, 1, 2] (by simp [Plain, Plains]) (by decide) rfl trivial rfl (by simp [fv, fvs])
example : sum1 ints (.node .multiplies [.ph 0, .ph 0]) 0 (.val 0) = .error .emptyDomain :=
  C49_empty ints _ (.val 0) 0 0 (by simp [Plain, Plains]) ⟨_, rfl⟩ (by decide) rfl trivial rfl (by simp [fv, fvs])

end

end Nda
