import Verif.Props.SpmdErrors
/-!
# C93: cases that meet the hypotheses
-/
namespace Nda.Spmd
open Nda Mpi Assign Matrix

/-- Two processes with arrays of shape 3x2. -/
def exArray (r : Fin 2) : Loc Int := ⟨[3, 2], if r.val = 1 then [1, 2, 3, 4, 5, 6] else [0, 0, 0, 0, 0, 0], false, true⟩

theorem exArray_whole (r : Fin 2) : Whole (exArray r) ∧ (exArray r).shape = 3 :: [2] := by
  refine ⟨⟨rfl, by show ∀ l ∈ [(3 : Int), 2], 0 ≤ l; decide, ?_⟩, rfl⟩
  unfold exArray
  dsimp only
  split <;> rfl

/-- Process 1 scatters its array, both double their part, process 0 gathers. -/
example : ∃ ss' : Fin 2 → Store Int, Runs (fun _ => (· + ·))
      (fun r : Fin 2 => exec ⟨true, true, -1, 2, r.val⟩ (.seq (.make 0 (.scatter 1)) (.seq (.compute (mapVar (2 * ·) 1)) (.make 1 (.gather 0 false)))) [exArray r])
      (.ended (fun r => .ok (ss' r))) ∧ (ss' 0)[2]? = some ⟨[3, 2], [2, 4, 6, 8, 10, 12], false, true⟩ := by
  obtain ⟨ss', h1, h2⟩ := C93_distributed_map (n := 2) (fun _ => (· + ·)) (-1) true (2 * ·) 0 1 0 1 false (by decide) (by decide) (fun r => [exArray r]) (fun _ => rfl)
    exArray (fun _ => rfl) 3 [2] exArray_whole (by decide)
  exact ⟨ss', h1, h2 0 (Or.inr rfl)⟩

/-- One array element on each of two processes. -/
def one (x : Int) : Loc Int := ⟨[1], [x], false, true⟩

/-- Three sums over all processes, in place: 1, 2 becomes 3, 3 then 6, 6 then 12, 12. -/
example : Means (n := 2) (fun _ => (· + ·)) (0 : Int) true (.loop (fun _ _ => 3) (.assign 0 0 (.reduce 1 true 0))) (fun r => [one (r.val + 1)]) (fun _ => [one 12]) := by
  have step : ∀ x y : Int, Means (n := 2) (fun _ => (· + ·)) (0 : Int) true (.assign 0 0 (.reduce 1 true 0)) (fun r => [one (if r.val = 0 then x else y)]) (fun _ => [one (x + y)]) := by
    intro x y
    refine ⟨_, _, fun _ => one (x + y), fun _ => rfl, fun _ => rfl, fun _ _ => rfl, fun _ => ⟨_, _, _, rfl⟩, ⟨by decide, [1], fun r => ⟨⟨rfl, by show ∀ l ∈ [(1 : Int)], 0 ≤ l; decide, rfl⟩, rfl⟩, by decide,
      fun r => ⟨fun _ => ⟨[x + y], ⟨rfl, ?_⟩, rfl, fun h => (by cases h), rfl⟩, fun h => absurd (Or.inl rfl) h⟩⟩, fun _ => rfl⟩
    intro i col hcol
    have h0 := hcol 0
    have h1 := hcol 1
    cases i with
    | zero =>
      have e0 : x = col 0 := by simpa [one] using h0
      have e1 : y = col 1 := by simpa [one] using h1
      simp [List.ofFn_succ, total, e0, e1]
    | succ i => simp [one] at h0
  refine ⟨3, fun _ => rfl, fun _ => [one 3], ?_, fun _ => [one 6], ?_, fun _ => [one 12], ?_, rfl⟩
  · have := step 1 2
    have e : (fun r : Fin 2 => [one (if r.val = 0 then (1 : Int) else 2)]) = fun r => [one (r.val + 1)] := by
      funext r; match r with | 0 => rfl | 1 => rfl
    rw [e] at this; exact this
  · have := step 3 3
    simp only [ite_self] at this; exact this
  · have := step 6 6
    simp only [ite_self] at this; exact this

/-- Process 0 gathers and broadcasts; the arrays have one and two elements. -/
example : ∃ ss' : Fin 2 → Store Int,
      Runs (fun _ => (· + ·)) (fun r : Fin 2 => exec ⟨true, true, 0, 2, r.val⟩ (.assign 1 0 (.gather 0 true)) [⟨[r.val + 1], List.replicate (r.val + 1) 7, false, true⟩, one 5])
        (.ended (fun r => .ok (ss' r))) ∧
      Runs (fun _ => (· + ·))
        (fun r : Fin 2 => exec ⟨true, true, 0, 2, r.val⟩ (.seq (.assign 1 0 (.gather 0 false)) (.broadcast 1 0)) [⟨[r.val + 1], List.replicate (r.val + 1) 7, false, true⟩, one 5])
        (.ended (fun r => .ok (ss' r))) :=
  C93_gather_broadcast (n := 2) (fun _ => (· + ·)) 0 true 1 0 0 (by decide) (by decide) (fun r => [⟨[r.val + 1], List.replicate (r.val + 1) 7, false, true⟩, one 5]) _ _
    (fun _ => rfl) (fun _ => rfl) (fun _ => ⟨rfl, rfl⟩) (fun r => r.val + 1) [] (fun r => ⟨⟨rfl, by intro l hl; rw [List.mem_singleton.mp hl]; omega, by simp⟩, rfl⟩) (by decide)

/-- A view of one element. -/
def oneView (x : Int) : Loc Int := ⟨[1], [x], true, true⟩

/-- The root has a view of two elements, the arrays have one. -/
example : Runs (fun _ => (· + ·)) (fun r : Fin 2 => exec ⟨true, false, 0, 2, r.val⟩ (.seq (.assign 1 0 (.reduce 0 false 0)) .skip) [one 3, ⟨[2], [8, 9], true, true⟩]) .hang :=
  C93_reduce_view_hangs (n := 2) (fun _ => (· + ·)) 0 .skip (fun _ => [one 3, ⟨[2], [8, 9], true, true⟩]) 1 0 0 0 (by decide) (by decide) 1 (by decide) _ _ (fun _ => rfl)
    (fun _ => rfl) [1] (fun _ => ⟨⟨rfl, by decide, rfl⟩, rfl⟩) (by decide) (fun _ => ⟨rfl, rfl⟩) (by decide)

/-- Process 0 has a source with gaps. -/
example : Runs (fun _ => (· + ·)) (fun r : Fin 2 => exec ⟨true, false, 0, 2, r.val⟩ (.seq (.assign 1 0 (.gather 0 true)) .skip) [⟨[1], [3], true, decide (r.val = 1)⟩, one 5])
    .hang :=
  C93_gap_hangs (n := 2) (fun _ => (· + ·)) 0 false .skip (fun r => [⟨[1], [3], true, decide (r.val = 1)⟩, one 5]) 1 0 (.gather 0 true) (by decide) 0 1 _ _ (fun _ => rfl)
    (fun _ => rfl) rfl ⟨rfl, by decide, rfl⟩ (by decide) (by decide) ⟨rfl, rfl⟩

/-- Process 1 has a view of two elements, the root sends one. -/
example : Runs (fun _ => (· + ·)) (fun r : Fin 2 => exec ⟨true, false, 0, 2, r.val⟩ (.seq (.broadcast 0 0) .skip) [⟨[r.val + 1], List.replicate (r.val + 1) 7, true, true⟩]) .hang :=
  C93_broadcast_hangs (n := 2) (fun _ => (· + ·)) 0 false .skip (fun r => [⟨[r.val + 1], List.replicate (r.val + 1) 7, true, true⟩]) 0 0 (by decide) 1 (by decide) _ (fun _ => rfl)
    (fun _ => rfl) (fun _ => rfl) ⟨rfl, by decide, rfl⟩ (by decide) rfl (by decide)

/-- Two elements gathered on process 0; process 1 has a view of two elements as well. -/
example : (∃ ss' : Fin 2 → Store Int,
      Runs (fun _ => (· + ·)) (fun r : Fin 2 => exec ⟨true, false, 0, 2, r.val⟩ (.assign 1 0 (.gather 0 false)) [one 3, ⟨[2], [8, 9], true, true⟩]) (.ended (fun r => .ok (ss' r)))) ∧
    ∀ p, Runs (fun _ => (· + ·)) (fun r : Fin 2 => exec ⟨true, true, 0, 2, r.val⟩ (.seq (.assign 1 0 (.gather 0 false)) p) [one 3, ⟨[2], [8, 9], true, true⟩]) .hang :=
  C93_debug_hangs (n := 2) (fun _ => (· + ·)) 0 (fun _ => [one 3, ⟨[2], [8, 9], true, true⟩]) 1 0 0 (by decide) (by decide) 1 (by decide) _ _ (fun _ => rfl) (fun _ => rfl)
    (fun _ => 1) [] (fun _ => ⟨⟨rfl, by decide, rfl⟩, rfl⟩) (by decide) (fun _ => ⟨rfl, ⟨rfl, by decide, rfl⟩⟩) (by decide) (by decide)

/-- All views have two elements, the arrays one. -/
example : Runs (fun _ => (· + ·)) (fun r : Fin 2 => exec ⟨true, false, 0, 2, r.val⟩ (.seq (.assign 1 0 (.reduce 0 true 0)) .skip) [one 3, ⟨[2], [8, 9], true, true⟩])
    (.ended (fun _ => .terminate)) :=
  C93_terminates (n := 2) (fun _ => (· + ·)) 0 false .skip (fun _ => [one 3, ⟨[2], [8, 9], true, true⟩]) 1 0 0 0 (by decide) _ _ (fun _ => rfl) (fun _ => rfl) (fun _ => rfl)
    (fun _ => rfl) (by decide)

example : Runs (fun _ => (· + ·)) (fun r : Fin 2 => exec ⟨true, false, 0, 2, r.val⟩ (.seq (.assign 0 0 (.gather 0 true)) .skip) [one 3]) (.ended (fun _ => .ub)) :=
  C93_self_gather (n := 2) (fun _ => (· + ·)) 0 false .skip (fun _ => [one 3]) 0 0 (by decide) _ (fun _ => rfl) (fun _ => 1) []
    (fun _ => ⟨⟨rfl, by decide, rfl⟩, rfl, rfl⟩) (by decide)

/-- Process 1 has one array more than process 0. -/
example : Runs (fun _ => (· + ·)) (fun r : Fin 2 => reduceCells ⟨true, false, 0, 2, r.val⟩ 0 true 0 false (List.replicate r.val (one 3)) (List.replicate r.val (one 4))) .hang :=
  C93_cells_hang (n := 2) (fun _ => (· + ·)) 0 false 0 true 0 [] (by simp) (fun r => List.replicate r.val (one 3)) (fun r => List.replicate r.val (one 4)) 0 1 ⟨rfl, rfl⟩
    (one 3) (one 4) [] [] ⟨rfl, rfl⟩ ⟨rfl, by decide, rfl⟩ (by decide) ⟨rfl, rfl⟩

/-- Without MPI: an array built from a gather is a copy. -/
example : exec ⟨false, true, 0, 1, 0⟩ (.make 0 (.gather 0 true)) [one 3] = .leaf (.ok [one 3, one 3]) :=
  C93_no_mpi (fun _ => (· + ·)) 0 true _ (fun _ => [one 3]) (fun _ => [one 3, one 3])
    ⟨fun _ => one 3, fun _ => one 3, fun _ => rfl, ⟨by decide, fun _ => 1, [], fun _ => ⟨⟨rfl, by show ∀ l ∈ [(1 : Int)], 0 ≤ l; decide, rfl⟩, rfl⟩, by decide,
      fun _ => ⟨fun _ => ⟨rfl, fun h => (by cases h), rfl⟩, fun h => absurd (Or.inl rfl) h⟩⟩, fun _ => rfl⟩

/-- A gather of arrays with one and two rows. -/
example : Gathered (n := 2) (0 : Int) true 1 false (fun r => ⟨[r.val + 1], List.replicate (r.val + 1) 7, false, true⟩) (fun _ => one 5)
    (fun r => if r.val = 1 then ⟨[3], [7, 7, 7], false, true⟩ else one 5) :=
  ⟨fun r => r.val + 1, [], fun r => ⟨⟨rfl, by intro l hl; rw [List.mem_singleton.mp hl]; omega, by simp⟩, rfl⟩, by decide,
    fun r => match r with
      | 0 => ⟨fun h => (by rcases h with h | h <;> cases h), fun _ => ⟨rfl, rfl⟩⟩
      | 1 => ⟨fun _ => ⟨rfl, fun h => (by cases h), rfl⟩, fun h => absurd (Or.inr rfl) h⟩⟩

/-- A scatter of three rows to two processes. -/
example : Scattered (1 : Fin 2) exArray (fun _ => one 5) (fun r => if r.val = 0 then ⟨[2, 2], [1, 2, 3, 4], false, true⟩ else ⟨[1, 2], [5, 6], false, true⟩) :=
  ⟨3, [2], exArray_whole, by decide, fun r => match r with
    | 0 => ⟨rfl, fun h => (by cases h), by decide +kernel⟩
    | 1 => ⟨rfl, fun h => (by cases h), by decide +kernel⟩⟩

end Nda.Spmd
