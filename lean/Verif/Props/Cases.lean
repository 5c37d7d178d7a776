import Verif.Lemmas.Check
import Verif.Props.Views
import Verif.Props.Perm
import Verif.Props.Allocators
import Verif.Props.AllocThreads
import Verif.Props.Convert
import Verif.Props.PythonArray
import Verif.Props.Handles
import Verif.Props.Containers
import Verif.Props.Swap
import Verif.Props.Sso
import Verif.Props.Scalars
import Mathlib.Tactic.NormNum
/-!
# Concrete cases for theorems of other files

Each theorem is applied to a concrete case that meets its hypotheses.
-/
namespace Nda

/-! ### Permutations and encodings (C01, C02) -/

section
open Perm

example := C01_applyInverse_apply [2, 0, 3, 1] ["a", "b", "c", "d"] (by decide) rfl
example := C01_apply_applyInverse [2, 0, 3, 1] ["a", "b", "c", "d"] (by decide) rfl
example := C01_apply_compose [2, 0, 3, 1] [3, 0, 1, 2] ["a", "b", "c", "d"] (by decide) (by decide) rfl rfl
example := C01_applyInverse_compose [2, 0, 3, 1] [3, 0, 1, 2] ["a", "b", "c", "d"] (by decide) (by decide) rfl rfl
example := C01_compose_assoc [2, 0, 3, 1] [3, 0, 1, 2] [1, 0, 3, 2] (by decide) (by decide) (by decide) rfl rfl
example := C01_inverse [2, 0, 3, 1] (by decide)
example := C01_applyInverse_eq_apply_inverse [2, 0, 3, 1] ["a", "b", "c", "d"] (by decide) rfl
example := C01_apply_perm [2, 0, 3, 1] ["a", "b", "c", "d"] (by decide) rfl
example : isValid [2, 0, 2] = some false := (C01_isValid_false_iff [2, 0, 2] (by decide)).mpr (fun h => absurd ((C01_isValid_true_iff _).mpr h) (by decide))
example := C01_transposition 4 1 3 (by decide) (by decide)
example := C01_cycle 5 1 3 (by decide) (by decide)
example (ys : List (BitVec 32)) (hl : ys.length = 3) (hy : ∀ y ∈ ys, y.toNat < 16) := C02_encode_injective_partial [2#32, 0#32, 1#32] ys (by decide) hl.symm (by simp) hy
example : encode (List.replicate 9 1#32) = none := C02_encode_undefined _ (by decide)
example := C02_static_extents_partial [3#32, 0#32, 5#32] (by simp) (by simp) (by simp)

end

/-! ### Allocators (C30, C31, C32, C91) -/

section
open Alloc Alloc.Spec

/-- A history of requests. -/
def someOps : List Op := [.alloc 8, .alloc 5, .allocZero 8, .free 1, .alloc 3]

theorem someOps_sizes : Sizes (fun n => 0 < n ∧ n ≤ 8) someOps := by simp [Sizes, someOps]
theorem someOps_pos : Sizes (0 < ·) someOps := by simp [Sizes, someOps]

theorem bucket_runs : ∃ w, (World.start (bucket 8) sampleSys).run (bucket 8) someOps = some w := by
  cases h : (World.start (bucket 8) sampleSys).run (bucket 8) someOps with
  | some w => exact ⟨w, rfl⟩
  | none => exact absurd (show ((World.start (bucket 8) sampleSys).run (bucket 8) someOps).isSome = true by decide +kernel) (by simp [h])

example : ∃ w, (World.start (bucket 8) sampleSys).run (bucket 8) someOps = some w ∧ Safe sampleSys w := by
  obtain ⟨w, h⟩ := bucket_runs
  exact ⟨w, h, (C30_bucket (by decide) sampleSys_ok someOps_sizes h).1⟩

example : ∃ w, (World.start (bucket 8) sampleSys).run (bucket 8) someOps = some w ∧ ∃ w', w.step (bucket 8) (.free 1) = some w' := by
  obtain ⟨w, h⟩ := bucket_runs
  exact ⟨w, h, C30_release (by decide) sampleSys_ok someOps_sizes h 1⟩

example (w : World Bucket) (h : (World.start (bucket 8) sampleSys).run (bucket 8) someOps = some w) :=
  C30_next (n := 4) (by decide) sampleSys_ok someOps_sizes h (by decide)

example := C31_multi_bucket (C := 8) (by decide) sampleSys_ok someOps_sizes

/-- ... `C31_routing`: the first block of the list given back. -/
example : ∃ w k w', (World.start (multiBucket 8) sampleSys).run (multiBucket 8) someOps = some w ∧ w.held[0]? = some k ∧ w.step (multiBucket 8) (.free 0) = some w' := by
  obtain ⟨w, h, -⟩ := C31_multi_bucket (C := 8) (by decide) sampleSys_ok someOps_sizes
  have hl : ((World.start (multiBucket 8) sampleSys).run (multiBucket 8) someOps).map (fun w => w.held.length) = some 3 := by decide +kernel
  rw [h] at hl
  simp only [Option.map_some, Option.some.injEq] at hl
  obtain ⟨k, hk⟩ : ∃ k, w.held[0]? = some k := ⟨w.held[0], List.getElem?_eq_getElem (by omega)⟩
  obtain ⟨w', _, _, h', _⟩ := C31_routing (by decide) sampleSys_ok someOps_sizes h hk
  exact ⟨w, k, w', h, hk, h'⟩

example := C32_composed (C := 8) (by decide) sampleSys_ok someOps_pos

example (n : Nat) (hn : 0 < n) := C91_leak_check_race sampleSys (n := n) (m := 3) hn
example := C91_stats_race sampleSys (n := 8) (m := 15) (i := 60) (h := 2) (hist := List.replicate 65 2) (by decide +kernel) (by decide +kernel) (by decide +kernel)
example := C91_last_chunk_race (C := 8) (b := ⟨100, 0b1000#64⟩) (pos := 3) (by decide) (by decide) sampleSys 8 5
example := C91_bucket_race (C := 8) (b := ⟨100, 0b1100#64⟩) (by decide) sampleSys 8 5 [.free 0] [] [] []
example := C91_multi_bucket_race (C := 8) (q := ⟨[⟨100, 0b1100#64⟩], 0⟩) (b := ⟨100, 0b1100#64⟩) rfl (by decide) sampleSys 8 5 [] [.free 0] [] []

end

/-! ### Handles (C28, C29) -/

section
open Mem Mem.Spec

theorem sampleHist_careful : CarefulRun false 0 (Prog.start 3) sampleHist := carefulRun_of_check _ _ _ _ (by decide +kernel)

example := C28_history_partial false 0 3 sampleHist sampleHist_careful

example : ∃ p, (Prog.start 3).run false 0 sampleHist = some p ∧ ∀ blk ∈ p.mem.hp, blk.freed = true := by
  obtain ⟨p, h, -⟩ := C28_history_partial false 0 3 sampleHist sampleHist_careful
  have hv : ((Prog.start 3).run false 0 sampleHist).map (fun p => p.vars) = some [none, none, none] := by decide +kernel
  rw [h] at hv
  simp only [Option.map_some, Option.some.injEq] at hv
  refine ⟨p, h, C28_no_leak false 0 3 sampleHist sampleHist_careful p h fun i x e => ?_⟩
  rw [hv] at e
  match i, e with
  | 0, e => cases e
  | 1, e => cases e
  | 2, e => cases e

/-- ... `C28_copy`: a copy of an array of two elements. -/
example : ∃ p p', (Prog.start 2).run false 0 [.newFrom 0 [4, 5]] = some p ∧ p.step false 0 (.copy 1 0) = some p' := by
  have hc : CarefulRun false 0 (Prog.start 2) [.newFrom 0 [4, 5]] := carefulRun_of_check _ _ _ _ (by decide +kernel)
  obtain ⟨p, h, -⟩ := C28_history_partial false 0 2 _ hc
  have hv : ((Prog.start 2).run false 0 [.newFrom 0 [4, 5]]).map (fun p => p.vars) = some [some (.heap (some 0) 2 none), none] := by decide +kernel
  rw [h] at hv
  simp only [Option.map_some, Option.some.injEq] at hv
  obtain ⟨p', _, h', _⟩ := C28_copy (d := 1) (s := 0) (b := 0) (k := 2) (sp := none) hc h (by rw [hv]; rfl) (by decide) (by rw [hv]; rfl)
  exact ⟨p, p', h, h'⟩

end

/-! ### Views (C05, C06, C07, C08, C12) -/

section
open LayoutTransforms Slice Spec Perm

theorem exampleChain_allowed : ChainAllowed [3, 5, 6] exampleChain := by
  have hc : IsCount 4 (stop 0 (-2) 5) (-2) 2 := by
    refine ⟨by decide, by decide, fun k hk => ?_⟩
    simp [stop]; omega
  refine chainAllowed_cons (len' := [3, 2, 6]) ⟨by decide, by decide, ?_⟩ ?_ ?_
  · refine ⟨trivial, ⟨by decide, fun k n hn h0 h1 => ?_⟩, trivial, trivial⟩
    have := (hn.2.2 k h0).mp h1
    simp [stop] at this; omega
  · exact ⟨rfl, hc, rfl, trivial⟩
  refine chainAllowed_cons (len' := [2, 6, 3]) ⟨by decide, by decide⟩ ⟨by decide, by decide⟩ ?_
  refine chainAllowed_cons (len' := [2, 6, 3, 1]) trivial rfl ?_
  refine chainAllowed_cons (len' := [6, 3]) ⟨by decide, by decide, ?_⟩ ?_ trivial
  · exact ⟨⟨by decide, by decide⟩, trivial, trivial, ⟨by decide, by decide⟩, trivial⟩
  · exact ⟨rfl, rfl, trivial⟩

example := C05_chain_safe [3, 5, 6] [1, 2, 0] [0, 0, 0] .contiguous (by decide) rfl rfl (by decide) exampleChain exampleChain_allowed
example := C07_flags_hold_partial [3, 5, 6] [1, 2, 0] [0, 0, 0] .contiguous (by decide) rfl rfl exampleChain exampleChain_allowed
example := C07_static_extents_hold [3, 5, 6] [1, 2, 0] [3, 0, 6] .contiguous (by decide) rfl rfl
  (by intro u hu; match u, hu with | 0, _ => rfl | 1, hu => exact absurd rfl hu | 2, _ => rfl | n + 3, hu => exact absurd (by simp) hu) exampleChain exampleChain_allowed
example := C08_chain_order_valid [3, 5, 6] [1, 2, 0] [0, 0, 0] .contiguous (by decide) rfl rfl (by decide) exampleChain exampleChain_allowed
example := C06_rejects ⟨[3, 5, 6], [30, 6, 1], [0, 1, 2], [0, 0, 0], .contiguous⟩ [.ell, .idx 0, .ell] (by decide)
example := C06_shape_unique [.all, .idx 3] [3, 6] [3] [3] ⟨rfl, trivial⟩ ⟨rfl, trivial⟩

/-- A 4 by 3 view, every second element of every sixth, rows in reverse order. -/
def reversedRows : View := ⟨18, ⟨[4, 3], [-6, 2], [0, 1], [0, 0], .none⟩⟩

theorem reversedRows_wf : WF reversedRows.lay := ⟨by decide, rfl, rfl, rfl⟩
theorem reversedRows_flags : FlagsOK reversedRows.lay := ⟨nofun, nofun⟩
theorem middleColumn_allowed : Allowed reversedRows.lay.len (.slice [.all, .ell, .idx 1]) := ⟨by decide, by decide, trivial, ⟨by decide, by decide⟩, trivial⟩

example := C07_slice_keeps_flags reversedRows reversedRows_wf reversedRows_flags _ middleColumn_allowed
example := C08_order_valid reversedRows reversedRows_wf nofun (by decide) _ middleColumn_allowed
example := C08_test_exact reversedRows.lay reversedRows_wf
example := C12_same_elements_partial reversedRows reversedRows_wf reversedRows_flags 2
example := C06_slice_elements reversedRows.lay reversedRows_wf nofun [.rng 3 0 (-2), .all] (by decide) (by decide) (by
  intro f l s h
  simp only [List.mem_cons, Arg.rng.injEq, List.not_mem_nil, or_false, reduceCtorEq] at h
  rw [h.2.2]; decide)

end

/-! ### Arrays and other containers (C24, C77) -/

section
open LayoutTransforms Assign Spec

/-- Two views of eight elements that share none. -/
def lower : View := ⟨0, ⟨[2, 2], [4, 1], [0, 1], [0, 0], .smallest⟩⟩
def upper : View := ⟨7, ⟨[2, 2], [-4, -1], [0, 1], [0, 0], .none⟩⟩

theorem lower_good : Good lower 8 := good_of (by decide) rfl rfl rfl (by decide) 1 nofun (by decide) (by decide)
theorem upper_good : Good upper 8 := good_of (by decide) rfl rfl rfl (by decide) 1 nofun (by decide) (by decide)

example := Swap.C24_deep_swap true 0 lower upper false false [1, 2, 3, 4, 5, 6, 7, 8] lower_good upper_good rfl (oneToOne_of (by decide)) (oneToOne_of (by decide)) (separate_of (by decide))
  (by decide) nofun nofun

/-- Three views. -/
def threeViews : Swap.Env Nat := ⟨[⟨[2], [1], [0], [0], .contiguous⟩, ⟨[3], [2], [0], [0], .strided⟩, ⟨[1], [1], [0], [0], .contiguous⟩], [0, 5, 7], [1, 2, 3]⟩

example := Swap.C24_swap threeViews 0 2 rfl (by decide) (by decide)

open Containers

/-- A `std::vector` of two elements behind a view of every second element. -/
def half : View := ⟨0, ⟨[2], [2], [0], [0], .strided⟩⟩

theorem vec_holds : Containers.Holds [0, 1, 2, 3, 7, 8] 4 [7, 8] := by
  unfold Containers.Holds
  decide

example := C77_range_view ⟨4, 2⟩ [7, 8] [0, 1, 2, 3, 7, 8] rfl vec_holds
example := C77_equal (· == ·) [7, 8] [7, 8] (fun idx => [7, 8][(idx.headD 0).toNat]?) ⟨4, 2⟩ [0, 1, 2, 3, 7, 8] (by intro k hk; simp) rfl vec_holds
example := C77_assign half [7, 8] ⟨4, 2⟩ false [0, 1, 2, 3, 7, 8] (good_of (by decide) rfl rfl rfl (by decide) 2 (by decide) (by decide) (by decide)) (oneToOne_of (by decide)) rfl rfl
  vec_holds nofun (by
    rintro k ⟨idx, hi, rfl⟩
    left
    match idx, hi with
    | [i], hi => simp only [half, Spec.InRange, and_true] at hi; simp [half, addr, Spec.dot]; omega)
example := C77_memset 7 1 3 [0, 0, 0, 0, 0] (by decide) (by decide)

end

/-! ### Conversions of memory (C89) -/

section
open Mem Mem.Spec

theorem inlineWorld_reached : Reaches false 0 inlineWorld := ⟨2, [.s 3 (.newFrom 0 [7, 8, 9])], allowed_plain 0 _ _ (by decide), by
  obtain ⟨w, hw, -⟩ := C89_history_partial false 0 2 [.s 3 (.newFrom 0 [7, 8, 9])] (allowed_plain 0 _ _ (by decide))
  rw [inlineWorld, hw]; rfl⟩

example := C89_convert_partial false 0 inlineWorld inlineWorld_reached .heap 1 (.s 3 0) 3 (by decide +kernel) trivial (by constructor <;> decide +kernel)
example := C89_array_partial false 0 inlineWorld inlineWorld_reached .heap 1 1 ⟨[3], [1], [0], [0], .contiguous⟩ (.s 3 0) 3 (by decide +kernel) trivial
  (by constructor <;> decide +kernel) (by constructor <;> decide +kernel) (by decide)

theorem sampleSso_allowed : SAllowedRun false 2 0 (List.replicate 4 none) sampleSso := sallowed_of_check _ _ _ _ _ (by decide +kernel)

example := C29_sso_partial false 2 0 4 sampleSso sampleSso_allowed

end

/-! ### Python objects (C87) -/

section
open Python Python.Spec

example := C87_accept exWorld 7 17 8 2 _ _ exWorld_numpy 2 (by decide) 1
example := C87_values_partial exWorld 7 17 8 2 _ _ exWorld_numpy 2 (by decide) 1 (by decide +kernel) (fun p _ h => absurd h (by decide +kernel))

end

/-! ### Powers (C79) -/

section
open Scalars

example : powInt ⟨32, true⟩ 3 4 = some 81 := (C79_pow_signed ⟨32, true⟩ rfl (by decide) 3 (by decide) 4).trans (by decide)
example := C79_pow_unsigned ⟨32, false⟩ rfl (by decide) 3 50
example := C79_pow_narrow ⟨16, true⟩ rfl (by decide) (by decide) 2 (by decide) 15
example := C79_pow_negative ⟨32, true⟩ 3 (-2) (by decide)

end

end Nda
