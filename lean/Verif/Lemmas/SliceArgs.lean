import Verif.Spec.Slice
import Verif.Lemmas.IdxMap
/-!
# Slicing: from the argument list to one argument per dimension
-/
namespace Nda.Slice
open Nda Nda.Spec Nda.Perm

/-- Ellipsis read as a full range. -/
def norm : Arg → Arg
  | .ell => .all
  | a => a

theorem isRange_norm (a : Arg) : isRange (norm a) = isRange a := by cases a <;> rfl
theorem isRangeAll_norm (a : Arg) : isRangeAll (norm a) = isRangeAll a := by cases a <;> rfl
theorem getOffset_norm (a : Arg) (s : Int) : getOffset (norm a) s = getOffset a s := by cases a <;> rfl
theorem getL_norm (a : Arg) (l : Int) : getL (norm a) l = getL a l := by cases a <;> rfl
theorem getS_norm (a : Arg) (s : Int) : getS (norm a) s = getS a s := by cases a <;> rfl

theorem isEll_iff (a : Arg) : isEll a = true ↔ a = .ell := by cases a <;> simp [isEll]

theorem countP_isEll (args : List Arg) : args.countP isEll = args.count .ell := by
  rw [List.count]
  apply List.countP_congr
  intro a _
  cases a <;> simp [isEll]

theorem ePosSum_none (args : List Arg) (k : Nat) (h : args.count .ell = 0) :
    IdxMap.ePosSum k (args.map isEll) = 0 := by
  induction args generalizing k with
  | nil => rfl
  | cons a args ih =>
    rw [List.count_eq_zero] at h
    simp only [List.mem_cons, not_or] at h
    have h1 : isEll a = false := by
      cases a <;> simp_all [isEll]
    simp only [List.map_cons, IdxMap.ePosSum, h1]
    rw [ih (k + 1) (List.count_eq_zero.mpr h.2)]; simp

theorem ePosSum_one (pre post : List Arg) (k : Nat) (h1 : pre.count .ell = 0) (h2 : post.count .ell = 0) :
    IdxMap.ePosSum k ((pre ++ .ell :: post).map isEll) = k + pre.length + 1 := by
  induction pre generalizing k with
  | nil =>
    simp only [List.nil_append, List.map_cons, IdxMap.ePosSum, isEll, List.length_nil]
    rw [ePosSum_none post _ h2]; simp
  | cons a pre ih =>
    rw [List.count_eq_zero] at h1
    simp only [List.mem_cons, not_or] at h1
    have h3 : isEll a = false := by
      cases a <;> simp_all [isEll]
    simp only [List.cons_append, List.map_cons, IdxMap.ePosSum, h3, List.length_cons]
    rw [ih (k + 1) (List.count_eq_zero.mpr h1.2)]; simp; omega

theorem ellipsisPosition_none {args : List Arg} (h : args.count .ell = 0) :
    ellipsisPosition args = 128 := by
  simp [ellipsisPosition, ePosSum_none args 0 h]

theorem ellipsisPosition_one {pre post : List Arg} (h1 : pre.count .ell = 0) (h2 : post.count .ell = 0) :
    ellipsisPosition (pre ++ .ell :: post) = pre.length := by
  simp only [ellipsisPosition, ePosSum_one pre post 0 h1 h2]
  rw [if_neg (by omega)]; omega

theorem flatMap_noell {args : List Arg} (k : Nat) (h : args.count .ell = 0) :
    args.flatMap (expandArg k) = args := by
  induction args with
  | nil => rfl
  | cons a args ih =>
    rw [List.count_eq_zero] at h
    simp only [List.mem_cons, not_or] at h
    rw [List.flatMap_cons, ih (List.count_eq_zero.mpr h.2)]
    cases a <;> simp_all [expandArg]

theorem expand_none {args : List Arg} (N : Nat) (h : args.count .ell = 0) : expand N args = args :=
  flatMap_noell _ h

theorem expand_one {pre post : List Arg} (N : Nat) (h1 : pre.count .ell = 0) (h2 : post.count .ell = 0) :
    expand N (pre ++ .ell :: post) =
      pre ++ List.replicate (N + 1 - (pre ++ Arg.ell :: post).length) .all ++ post := by
  unfold expand
  generalize N + 1 - (pre ++ Arg.ell :: post).length = k
  rw [List.flatMap_append, List.flatMap_cons, flatMap_noell k h1, flatMap_noell k h2]
  simp [expandArg]

theorem split_ell {args : List Arg} (h : args.count .ell = 1) :
    ∃ pre post, args = pre ++ .ell :: post ∧ pre.count .ell = 0 ∧ post.count .ell = 0 := by
  have hm : Arg.ell ∈ args := List.count_pos_iff.mp (by omega)
  obtain ⟨pre, post, rfl, hn⟩ := List.eq_append_cons_of_mem hm
  refine ⟨pre, post, rfl, List.count_eq_zero.mpr hn, ?_⟩
  rw [List.count_append, List.count_cons_self] at h
  omega

theorem rdInt_nat {α : Type _} (l : List α) (n : Nat) : rdInt l (n : Int) = l[n]? := by
  simp [rdInt]

theorem rdInt_map {α β : Type _} (f : α → β) (l : List α) (i : Int) :
    rdInt (l.map f) i = (rdInt l i).map f := by
  unfold rdInt; split <;> simp

theorem norm_of_ne {a : Arg} (h : a ≠ .ell) : norm a = a := by cases a <;> simp_all [norm]

theorem map_norm_noell {args : List Arg} (h : args.count .ell = 0) : args.map norm = args := by
  rw [List.count_eq_zero] at h
  conv_rhs => rw [← List.map_id args]
  apply List.map_congr_left
  intro a ha
  exact norm_of_ne (fun he => h (he ▸ ha))

/-- Argument used for each dimension: the code's position arithmetic reads off the argument
list with the ellipsis expanded. -/
theorem argAt {N : Nat} {args : List Arg} (hf : Fits N args) (hN : N ≤ 128) :
    ∃ E : List Arg, E.length = N ∧ E.map norm = expand N args ∧
      (∀ n : Nat, n < N → rdInt args (qOfN n (ellipsisPosition args) ((N : Int) - args.length + 1)) = E[n]?) ∧
      E.countP (fun a => !isRange a) = args.countP (fun a => !isRange a) ∧
      (args.all (fun a => !isRange a || isRangeAll a) = E.all (fun a => !isRange a || isRangeAll a)) := by
  rcases hf with ⟨h0, hl⟩ | ⟨h1, hl⟩
  · refine ⟨args, hl, ?_, ?_, rfl, rfl⟩
    · rw [expand_none N h0, map_norm_noell h0]
    · intro n hn
      rw [ellipsisPosition_none h0, qOfN, if_pos (by omega), rdInt_nat]
  · obtain ⟨pre, post, rfl, hp, hq⟩ := split_ell h1
    rw [expand_one N hp hq, ellipsisPosition_one hp hq]
    simp only [List.length_append, List.length_cons] at hl ⊢
    obtain ⟨k, hk⟩ : ∃ k, N + 1 - (pre.length + (post.length + 1)) = k := ⟨_, rfl⟩
    refine ⟨pre ++ List.replicate k .ell ++ post, by simp; omega, ?_, ?_, ?_, ?_⟩
    · rw [hk]; simp [map_norm_noell hp, map_norm_noell hq, norm]
    · intro n hn
      have hlen : ((N : Int) - ((pre.length + (post.length + 1) : Nat) : Int) + 1) = k := by omega
      rw [hlen, qOfN]
      split
      · rename_i h
        have h : n < pre.length := by omega
        rw [rdInt_nat, List.getElem?_append_left h, List.append_assoc, List.getElem?_append_left h]
      · split
        · rename_i h h'
          rw [rdInt_nat, List.getElem?_append_right (by omega)]
          rw [List.append_assoc, List.getElem?_append_right (by omega),
            List.getElem?_append_left (by simp; omega)]
          have h'' : n - pre.length < k := by omega
          simp [h'']
        · rename_i h h'
          have e : (n : Int) - (k - 1) = ((n - k + 1 : Nat) : Int) := by omega
          rw [e, rdInt_nat, List.getElem?_append_right (by omega), List.append_assoc,
            List.getElem?_append_right (by omega), List.getElem?_append_right (by simp; omega)]
          have e2 : n - k + 1 - pre.length = (n - pre.length - k) + 1 := by omega
          rw [e2, List.getElem?_cons_succ]; simp
    · simp [List.countP_append, List.countP_replicate, isRange]
    · simp [isRange, isRangeAll, List.all_append]

/-- A `Fits` argument list passes the static checks. -/
theorem fits_checks {N : Nat} {args : List Arg} (hf : Fits N args) (hN : N ≤ 128) :
    args.countP isEll ≤ 1 ∧ args.length ≤ N + 1 ∧ (args.countP isEll = 1 ∨ args.length = N) ∧
      args.countP (fun a => !isRange a) ≤ N := by
  obtain ⟨E, h1, _, _, h4, _⟩ := argAt hf hN
  rw [countP_isEll]
  refine ⟨?_, ?_, ?_, ?_⟩
  · rcases hf with ⟨h, _⟩ | ⟨h, _⟩ <;> omega
  · rcases hf with ⟨_, h⟩ | ⟨_, h⟩ <;> omega
  · rcases hf with ⟨_, h⟩ | ⟨h, _⟩
    · right; exact h
    · left; exact h
  · rw [← h4, ← h1]; exact List.countP_le_length

/-- The static checks of the slice reject everything else. -/
theorem slice_none_of_not_fits {m : IdxMap} {args : List Arg} (h : ¬ Fits m.rank args) :
    slice m args = none := by
  simp only [slice]
  rw [if_pos]
  intro hc
  apply h
  rw [countP_isEll] at hc
  rcases hc with ⟨h1, h2, h3, _⟩
  rcases h3 with h3 | h3
  · right; exact ⟨h3, h2⟩
  · by_cases h4 : args.count .ell = 0
    · left; exact ⟨h4, h3⟩
    · right; exact ⟨by omega, h2⟩

theorem rangeSize_isCount {f la st : Int} (h : st ≠ 0) :
    ∃ n, rangeSize f la st = some n ∧ IsCount f la st n := by
  unfold rangeSize
  by_cases h1 : 0 < st
  · rw [if_pos h1]
    refine ⟨_, rfl, h, by omega, ?_⟩
    intro k hk
    rw [if_pos h1]
    have : k < (la - f + st - 1) / st ↔ f + k * st < la := by
      rw [Int.lt_iff_add_one_le, Int.le_ediv_iff_mul_le h1]
      have : (k + 1) * st = k * st + st := by ring
      omega
    omega
  · have h2 : st < 0 := by omega
    rw [if_neg h1, if_pos h2]
    refine ⟨_, rfl, h, by omega, ?_⟩
    intro k hk
    rw [if_neg h1]
    have : k < (f - la + -st - 1) / -st ↔ la < f + k * st := by
      rw [Int.lt_iff_add_one_le, Int.le_ediv_iff_mul_le (by omega)]
      have : (k + 1) * -st = -(k * st) - st := by ring
      omega
    omega

end Nda.Slice
