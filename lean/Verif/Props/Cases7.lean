import Verif.Props.Cases
import Verif.Props.Handles
import Verif.Props.Sso
import Verif.Props.ThrowSmall
import Verif.Props.Swap
import Verif.Props.Perm
import Verif.Props.Mpi
import Verif.Props.Scalars
import Verif.Props.Views
import Verif.Props.Promises
import Verif.Props.Divide
import Verif.Props.ProductLayout
import Verif.Props.SpmdExamples
/-!
# Concrete cases, seventh part

Cases that meet the hypotheses of theorems on handles, allocators, views and processes.
-/
namespace Nda.Cases7
open Nda

/-! ### Handles (C28, C29, C85) -/

section
open Mem Mem.Spec

/-- A block with one element and one raw cell. -/
example := C28_errors [(⟨[some 4, none], false⟩ : Block Nat)] true 0 1 7 _ rfl

/-- A released block. -/
example := C28_errors [(⟨[none, none], true⟩ : Block Nat)] false 0 0 7 _ rfl

theorem half_careful : CarefulRun false 0 (Prog.start 3) (sampleHist.take 3) := carefulRun_of_check _ _ _ _ (by decide +kernel)

/-- The number of `blk_T_t` after three operations is at most the number after one more. -/
example (p p' : Prog Nat) (h : (Prog.start 3).run false 0 (sampleHist.take 3) = some p) (h' : p.run false 0 [] = some p') : p.mem.pairs ≤ p'.mem.pairs :=
  C28_pair_leak false 0 3 (sampleHist.take 3) [] half_careful p p' h trivial h'

example (p : SProg Nat) (hp : (SProg.start 4).run false 2 0 (sampleSso ++ [.destroy 0, .destroy 1, .destroy 2, .destroy 3]) = some p) : ∀ blk ∈ p.hp, blk.freed = true := by
  have hv : ((SProg.start 4).run false 2 0 (sampleSso ++ [.destroy 0, .destroy 1, .destroy 2, .destroy 3])).map (·.vars) = some [none, none, none, none] := by decide +kernel
  rw [hp] at hv
  refine C29_no_leak false 2 0 4 _ (sallowed_of_check _ _ _ _ _ (by decide +kernel)) p hp fun i => ?_
  have : p.vars = [none, none, none, none] := by simpa using hv
  rw [SProg.var, this]
  match i with
  | 0 | 1 | 2 | 3 => rfl
  | i + 4 => rfl

example := C85_sso_partial (V := Nat) (fun t => t == 7 || t == 13) 2 0 4 sampleThrow (tallowed_of_check _ _ _ _ _ (by decide +kernel))

end

/-! ### Allocators (C32) -/

section
open Alloc Alloc.Spec

example (w : World (Bucket × Unit)) (hr : (World.start (segregator 8 (bucket 8) mallocator) sampleSys).run (segregator 8 (bucket 8) mallocator) [.alloc 8, .alloc 100, .free 0] = some w) :=
  C32_segregator 8 (bucket_lawful (C := 8) (by decide)) mallocator_lawful sampleSys_ok (by simp [Sizes]) hr

example (w : World (Unit × Int)) (hr : (World.start (leakCheck mallocator) sampleSys).run (leakCheck mallocator) someOps = some w) :=
  C32_leak_check mallocator_lawful sampleSys_ok someOps_pos hr

example (w : World (Unit × List Nat)) (hr : (World.start (stats mallocator) sampleSys).run (stats mallocator) someOps = some w) :=
  C32_stats_partial mallocator_lawful sampleSys_ok someOps_pos hr

end

/-! ### Swaps of views (C24) -/

section
open Swap

/-- Two views are exchanged, then the first takes the place of the second. -/
example := C24_bindings (α := Int) ⟨[⟨[2], [1], [0], [0], .contiguous⟩, ⟨[3], [1], [0], [0], .contiguous⟩], [0, 2], [1, 2, 3, 4, 5]⟩ [.swap 0 1, .rebind 1 0] rfl
  (by intro op h; rcases List.mem_cons.mp h with rfl | h
      · exact ⟨by decide, by decide⟩
      · rw [List.mem_singleton.mp h]; exact ⟨by decide, by decide⟩)

end

/-! ### Permutations (C01), buffers (C39), scalars (C79) -/

section
open Perm

example : apply (identity 3) ["a", "b", "c"] = some ["a", "b", "c"] := (C01_identity 3).2.2 _ rfl
example : apply (reverseIdentity 3) ["a", "b", "c"] = some ["c", "b", "a"] := (C01_reverseIdentity 3).2.2 _ rfl

end

section
/-- Elements 3 to 4 and 5 to 6; elements 3 to 5 and 5 to 6. -/
example : ¬ ∃ k : Int, (3 ≤ k ∧ k < 3 + 2) ∧ (5 ≤ k ∧ k < 5 + 2) := (Mpi.C39_buffers 3 2 5 2).mp (by decide)
example : Mpi.disjoint 3 3 5 2 = false := by
  rw [← Bool.not_eq_true, Mpi.C39_buffers]
  exact fun h => h ⟨5, by decide⟩

end

/-! ### Processes (C93) -/

section
open Spmd Mpi

/-- Process 1 makes no call. -/
example : ∃! o, Runs (fun _ => (· + ·)) (fun r : Fin 2 => exec ⟨true, true, 0, 2, r.val⟩ (if r.val = 0 then .make 0 (.gather 0 true) else .skip) [one 3]) o :=
  C93_outcome (fun _ => (· + ·)) (by decide) _

/-- Arrays with one and two elements are gathered on process 1: the elements of the result are those of the arrays. -/
theorem gathered : Gathered (n := 2) (0 : Int) true 1 false (fun r => ⟨[r.val + 1], List.replicate (r.val + 1) 7, false, true⟩) (fun _ => one 5)
    (fun r => if r.val = 1 then ⟨[3], [7, 7, 7], false, true⟩ else one 5) :=
  ⟨fun r => r.val + 1, [], fun r => ⟨⟨rfl, by intro l hl; rw [List.mem_singleton.mp hl]; omega, by simp⟩, rfl⟩, by decide,
    fun r => match r with
      | 0 => ⟨fun h => (by rcases h with h | h <;> cases h), fun _ => ⟨rfl, rfl⟩⟩
      | 1 => ⟨fun _ => ⟨rfl, fun h => (by cases h), rfl⟩, fun h => absurd (Or.inr rfl) h⟩⟩

example := C93_gather_elements gathered 1 (Or.inr rfl)

theorem scattered : Scattered (1 : Fin 2) exArray (fun _ => one 5) (fun r => if r.val = 0 then ⟨[2, 2], [1, 2, 3, 4], false, true⟩ else ⟨[1, 2], [5, 6], false, true⟩) :=
  ⟨3, [2], exArray_whole, by decide, fun r => match r with
    | 0 => ⟨rfl, fun h => (by cases h), by decide +kernel⟩
    | 1 => ⟨rfl, fun h => (by cases h), by decide +kernel⟩⟩

example := C93_scatter_elements scattered 0
example := C93_scatter_elements scattered 1

/-- The program of the gather, with a target that is an array. -/
theorem gather_means : Means (n := 2) (fun _ => (· + ·)) (0 : Int) true (.assign 1 0 (.gather 1 false))
    (fun r => [⟨[r.val + 1], List.replicate (r.val + 1) 7, false, true⟩, one 5])
    (fun r => [⟨[r.val + 1], List.replicate (r.val + 1) 7, false, true⟩, if r.val = 1 then ⟨[3], [7, 7, 7], false, true⟩ else one 5]) :=
  ⟨_, _, _, fun _ => rfl, fun _ => rfl, fun _ _ => rfl, fun h => absurd h (by decide), ⟨by decide, gathered⟩, fun _ => rfl⟩

example := C93_programs _ _ _ _ _ _ gather_means
example := C93_never_waits _ _ _ _ _ _ gather_means

end

end Nda.Cases7
