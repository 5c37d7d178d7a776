import Verif.Lemmas.Views
import Verif.Model.BoundCheck
/-!
# C14: bounds checking
-/
namespace Nda.BoundCheck
open Nda Nda.Spec Nda.Slice Nda.IdxMap Nda.LayoutTransforms

theorem worker_alls (lens : List Int) (loss : Int) (k : Nat) (as : List Arg) (N : Int) (err : Nat) :
    worker lens loss (List.replicate k .all ++ as) N err = worker lens loss as (N + k) err := by
  induction k generalizing N with
  | zero => simp
  | succ k ih =>
    simp only [List.replicate_succ, List.cons_append, worker, ih]
    congr 1; push_cast; omega

/-- The worker treats the ellipsis as that many full ranges. -/
theorem worker_expand (lens : List Int) (loss : Int) (k : Nat) (hk : loss + 1 = k) (as : List Arg) (N : Int) (err : Nat) :
    worker lens loss as N err = worker lens loss (as.flatMap (expandArg k)) N err := by
  induction as generalizing N err with
  | nil => rfl
  | cons a as ih =>
    rw [List.flatMap_cons]
    cases a with
    | idx i =>
      simp only [expandArg, List.singleton_append, worker]
      congr 1; funext l; exact ih _ _
    | all => simp only [expandArg, List.singleton_append, worker]; exact ih _ _
    | rng f l s =>
      simp only [expandArg, List.singleton_append, worker]
      congr 1; funext sz
      split
      · congr 1; funext l; exact ih _ _
      · exact ih _ _
    | ell =>
      simp only [expandArg, worker]
      rw [worker_alls, ← ih]
      congr 1; omega

/-- The one argument the check does not see: "from -1 to the end". -/
def Blind : Arg → Prop
  | .rng f la st => f = -1 ∧ la = -1 ∧ 0 < st
  | _ => False

instance (a : Arg) : Decidable (Blind a) := by cases a <;> unfold Blind <;> infer_instance

theorem isCount_unique {f s st n n' : Int} (h : IsCount f s st n) (h' : IsCount f s st n') : n = n' := by
  obtain ⟨_, a1, a2⟩ := h
  obtain ⟨_, b1, b2⟩ := h'
  rcases Int.lt_trichotomy n n' with c | c | c
  · exact absurd ((a2 n a1).mpr ((b2 n a1).mp c)) (by omega)
  · exact c
  · exact absurd ((b2 n' b1).mpr ((a2 n' b1).mp c)) (by omega)

/-- The test applied to a range is exact. -/
theorem rng_exact {f la st l n : Int} (hst : st ≠ 0) (hl : 0 ≤ l) (hb : ¬ Blind (.rng f la st))
    (hn : rangeSize f la st = some n) :
    (n > 0 ∧ (f < 0 ∨ f ≥ l ∨ f + (n - 1) * st < 0 ∨ f + (n - 1) * st ≥ l)) ↔ ¬ ArgInside (.rng f la st) l := by
  obtain ⟨n', e, hc⟩ := rangeSize_isCount (f := f) (la := la) hst
  rw [hn] at e
  obtain rfl : n = n' := by simpa using e
  simp only [ArgInside, not_and, ne_eq, hst, not_false_eq_true, true_imp_iff]
  by_cases hte : la = -1 ∧ 0 < st
  · -- to the end
    obtain ⟨rfl, hpos⟩ := hte
    have hs : stop (-1) st l = l := by simp [stop, hpos]
    rw [hs]
    simp only [Blind, hpos, and_true] at hb
    have hc' := gl_isCount (f := f) (la := -1) (l := l) hst
    rw [hs] at hc'
    generalize gl (.rng f (-1) st) l = c at hc'
    rcases Int.lt_or_gt_of_ne hb with hf | hf
    · -- f < -1: non-empty and rejected
      have h1 : 0 < n := (hc.2.2 0 (by omega)).mpr (by rw [if_pos hpos]; omega)
      have h2 : 0 < c := (hc'.2.2 0 (by omega)).mpr (by rw [if_pos hpos]; omega)
      constructor
      · intro _ h
        have := h 0 c hc' (by omega) h2
        omega
      · intro _; exact ⟨h1, Or.inl (by omega)⟩
    · have h1 : ¬ 0 < n := by
        intro h
        have := (hc.2.2 0 (by omega)).mp h
        rw [if_pos hpos] at this; omega
      constructor
      · rintro ⟨h, _⟩; exact absurd h h1
      · intro h; exfalso; apply h
        intro k c2 hc2 h0 hk
        have := (hc2.2.2 k h0).mp hk
        rw [if_pos hpos] at this
        have := Int.mul_nonneg h0 (Int.le_of_lt hpos)
        omega
  · have hs : stop la st l = la := by simp only [stop]; rw [if_neg hte]
    rw [hs]
    constructor
    · rintro ⟨h0, h1⟩ h
      have a1 := h 0 n hc (by omega) h0
      have a2 := h (n - 1) n hc (by omega) (by omega)
      omega
    · intro h
      by_contra hcon
      apply h
      intro k c2 hc2 h0 hk
      obtain rfl := isCount_unique hc2 hc
      have hn0 : 0 < c2 := by omega
      have hcon' : ¬ (f < 0 ∨ f ≥ l ∨ f + (c2 - 1) * st < 0 ∨ f + (c2 - 1) * st ≥ l) := fun hx => hcon ⟨hn0, hx⟩
      rcases Int.lt_or_gt_of_ne hst with hneg | hpos
      · have b1 : k * st ≤ 0 := Int.mul_nonpos_of_nonneg_of_nonpos h0 (Int.le_of_lt hneg)
        have b2 : (c2 - 1) * st ≤ k * st := Int.mul_le_mul_of_nonpos_right (by omega) (Int.le_of_lt hneg)
        omega
      · have b1 : 0 ≤ k * st := Int.mul_nonneg h0 (Int.le_of_lt hpos)
        have b2 : k * st ≤ (c2 - 1) * st := Int.mul_le_mul_of_nonneg_right (by omega) (Int.le_of_lt hpos)
        omega

theorem addBit_spec {err n : Nat} (he : err < 2 ^ n) (hn : n < 32) :
    addBit err (n : Int) < 2 ^ (n + 1) ∧ addBit err (n : Int) ≠ 0 := by
  unfold addBit
  have h1 : 2 ^ (n + 1) ≤ 2 ^ 32 := Nat.pow_le_pow_right (by omega) (by omega)
  have h2 : 2 ^ (n + 1) = 2 ^ n + 2 ^ n := by rw [Nat.pow_succ]; omega
  have h3 : 0 < 2 ^ n := Nat.two_pow_pos n
  simp only [Int.toNat_natCast]
  rw [Nat.mod_eq_of_lt (by omega)]
  omega

theorem worker_exact (lens : List Int) (loss : Int) (hn : NonNeg lens) (h32 : lens.length ≤ 32) (X : List Arg) (n err : Nat)
    (hX : Arg.ell ∉ X) (hst : StepsOK X) (hb : ∀ a ∈ X, ¬ Blind a) (hl : n + X.length = lens.length) (he : err < 2 ^ n) :
    ∃ e, worker lens loss X n err = some e ∧ (e ≠ 0 ↔ err ≠ 0 ∨ ¬ Inside X (lens.drop n)) := by
  induction X generalizing n err with
  | nil =>
    refine ⟨err, rfl, ?_⟩
    have : lens.drop n = [] := by simp at hl ⊢; omega
    simp [this, Inside]
  | cons a X ih =>
    simp only [List.length_cons] at hl
    have hnl : n < lens.length := by omega
    have hdrop : lens.drop n = lens[n] :: lens.drop (n + 1) := List.drop_eq_getElem_cons hnl
    have hln : 0 ≤ lens[n] := hn _ (List.getElem_mem hnl)
    have ih' : ∀ err, err < 2 ^ (n + 1) → ∃ e, worker lens loss X ((n : Int) + 1) err = some e ∧
        (e ≠ 0 ↔ err ≠ 0 ∨ ¬ Inside X (lens.drop (n + 1))) := by
      intro err he
      have := ih (n + 1) err (fun h => hX (List.mem_cons_of_mem _ h)) (stepsOK_cons hst)
        (fun b hb' => hb b (List.mem_cons_of_mem _ hb')) (by omega) he
      simpa using this
    have he1 : err < 2 ^ (n + 1) := by
      have : 2 ^ n ≤ 2 ^ (n + 1) := Nat.pow_le_pow_right (by omega) (by omega)
      omega
    have hrd : rdInt lens (n : Int) = some lens[n] := by rw [rdInt_nat, List.getElem?_eq_getElem hnl]
    have hbit := addBit_spec he (by omega)
    have comb : ∀ (bad : Prop) [Decidable bad], (bad ↔ ¬ ArgInside a lens[n]) →
        ∃ e, worker lens loss X ((n : Int) + 1) (if bad then addBit err (n : Int) else err) = some e ∧
          (e ≠ 0 ↔ err ≠ 0 ∨ ¬ Inside (a :: X) (lens.drop n)) := by
      intro bad _ hbad
      by_cases h : bad
      · rw [if_pos h]
        obtain ⟨e, e1, e2⟩ := ih' _ hbit.1
        refine ⟨e, e1, e2.trans ?_⟩
        rw [hdrop]
        have h1 := hbad.mp h
        simp only [Inside, h1, false_and, not_false_eq_true, or_true, iff_true]
        exact Or.inl hbit.2
      · rw [if_neg h]
        obtain ⟨e, e1, e2⟩ := ih' _ he1
        refine ⟨e, e1, e2.trans ?_⟩
        rw [hdrop]
        have h1 : ArgInside a lens[n] := by
          by_contra hc; exact h (hbad.mpr hc)
        simp only [Inside, h1, true_and]
    cases a with
    | ell => exact absurd List.mem_cons_self hX
    | idx i =>
      simp only [worker, hrd, Option.bind_eq_bind, Option.bind_some]
      apply comb
      simp only [ArgInside]; omega
    | all =>
      simp only [worker]
      have := comb False (by simp [ArgInside])
      simpa using this
    | rng f la st =>
      have hs0 : st ≠ 0 := hst f la st List.mem_cons_self
      obtain ⟨sz, hsz, _⟩ := rangeSize_isCount (f := f) (la := la) hs0
      have hex := rng_exact hs0 hln (hb _ List.mem_cons_self) hsz
      simp only [worker, hsz, Option.bind_eq_bind, Option.bind_some, hrd]
      by_cases hp : sz > 0
      · rw [if_pos hp]
        apply comb
        rw [← hex]; simp [hp]
      · rw [if_neg hp]
        have := comb False (by rw [← hex]; simp [hp])
        simpa using this

theorem steps_expand {N : Nat} {args : List Arg} (hst : ∀ f l s, Arg.rng f l s ∈ args → s ≠ 0) : StepsOK (expand N args) := by
  intro f l s hm
  obtain ⟨a, ha, hb⟩ := List.mem_flatMap.mp hm
  cases a with
  | ell => simp [expandArg] at hb
  | idx i => simp [expandArg] at hb
  | all => simp [expandArg] at hb
  | rng f' l' s' =>
    simp only [expandArg, List.mem_singleton, Arg.rng.injEq] at hb
    obtain ⟨rfl, rfl, rfl⟩ := hb
    exact hst _ _ _ ha

theorem blind_expand {N : Nat} {args : List Arg} (hb : ∀ a ∈ args, ¬ Blind a) : ∀ a ∈ expand N args, ¬ Blind a := by
  intro a hm
  obtain ⟨b, hb', hc⟩ := List.mem_flatMap.mp hm
  cases b with
  | ell => simp only [expandArg, List.mem_replicate] at hc; rw [hc.2]; simp [Blind]
  | idx i => simp only [expandArg, List.mem_singleton] at hc; rw [hc]; simp [Blind]
  | all => simp only [expandArg, List.mem_singleton] at hc; rw [hc]; simp [Blind]
  | rng f l s => simp only [expandArg, List.mem_singleton] at hc; rw [hc]; exact hb _ hb'

/-- **C14 (partial)** For every shape and every argument list matching the rank, with no range
"from -1 to the end": the check never reads outside the list of lengths, and it accepts exactly
the argument lists that select coordinates inside the array, wherever the ellipsis stands.
Missing: a range from -1 to -1 is never checked (`C14_blind_witness`). -/
theorem C14_exact_partial (lens : List Int) (args : List Arg) (hn : NonNeg lens) (h32 : lens.length ≤ 32)
    (hf : Fits lens.length args) (hst : ∀ f l s, Arg.rng f l s ∈ args → s ≠ 0) (hb : ∀ a ∈ args, ¬ Blind a) :
    ∃ ok, assertInBounds lens args = some ok ∧ (ok = true ↔ Inside (expand lens.length args) lens) := by
  have hl : (expand lens.length args).length = lens.length := length_expand hf (by omega)
  have hw : worker lens ((lens.length : Int) - args.length) args 0 0 =
      worker lens ((lens.length : Int) - args.length) (expand lens.length args) 0 0 := by
    rcases hf with ⟨h0, hl'⟩ | ⟨_, hl'⟩
    · rw [expand_none _ h0]
    · exact worker_expand _ _ _ (by omega) _ _ _
  obtain ⟨e, e1, e2⟩ := worker_exact lens ((lens.length : Int) - args.length) hn h32 (expand lens.length args) 0 0
    (not_mem_ell_expand _ _) (steps_expand hst) (blind_expand hb) (by omega) (by decide)
  refine ⟨decide (e = 0), by rw [assertInBounds, hw]; rw [show ((0 : Nat) : Int) = 0 from rfl] at e1; rw [e1]; rfl, ?_⟩
  simp only [decide_eq_true_eq]
  simp only [ne_eq, not_true_eq_false, false_or, List.drop_zero] at e2
  by_cases h : e = 0
  · simp only [h, true_iff]; by_contra hc; exact (e2.mpr hc) h
  · simp only [h, false_iff]; exact e2.mp h

/-- **C14 (partial)** An accepted slice never reaches outside the array. -/
theorem C14_accepted_safe_partial (m : IdxMap) (hw : WF m) (hs : SmallestOK m) (args : List Arg) (hn : NonNeg m.len) (h32 : m.len.length ≤ 32)
    (hf : Fits m.rank args) (hst : ∀ f l s, Arg.rng f l s ∈ args → s ≠ 0) (hb : ∀ a ∈ args, ¬ Blind a) :
    (checkedSlice m args = some none ∧ ¬ Inside (expand m.rank args) m.len) ∨
    ∃ off m', checkedSlice m args = some (some (off, m')) ∧
      ∀ p, InRange m'.len p → InRange m.len (coords (expand m.rank args) p) ∧
        ∃ k, m'.call (p.map .idx) = some k ∧ m.call ((coords (expand m.rank args) p).map .idx) = some (off + k) := by
  obtain ⟨ok, h1, h2⟩ := C14_exact_partial m.len args hn h32 hf hst hb
  cases ok with
  | false =>
    left
    refine ⟨by simp [checkedSlice, h1], fun h => ?_⟩
    exact absurd (h2.mpr h) (by decide)
  | true =>
    right
    have hin := h2.mp rfl
    obtain ⟨off, m', g1, hF⟩ := slice_facts hw hf (by unfold rank; omega) (inside_stepsOK hin)
    have hl : (expand m.rank args).length = m.len.length := length_expand hf (by unfold rank; omega)
    have hell := not_mem_ell_expand m.rank args
    refine ⟨off, m', by simp [checkedSlice, h1, g1], ?_⟩
    intro p hp
    have hp' := hp
    rw [hF.len_eq] at hp'
    have hpl : p.length = (expand m.rank args).countP isRange := by rw [hp'.length_eq, keepMap_length _ _ _ hl]
    have hc := inside_coords hell (inside_stepsOK hin) hin hp'
    refine ⟨hc, Spec.offset m' p, call_idx hF.wf (slice_smallestOK hw hs (by rw [hw.so_len]; exact hl.symm) hF) p hp.length_eq, ?_⟩
    rw [call_idx hw hs _ hc.length_eq]
    unfold Spec.offset
    rw [hF.str_eq, hF.off_eq, dot_coords hell _ _ (by rw [hl, hw.str_len]) hpl]

/-- **C14** Element access with bounds checking: rejected exactly when the tuple is outside. -/
theorem C14_element_exact (m : IdxMap) (hw : WF m) (hs : SmallestOK m) (hn : NonNeg m.len) (h32 : m.len.length ≤ 32)
    (idx : List Int) (hl : idx.length = m.len.length) :
    checkedCall m (idx.map .idx) = if InRange m.len idx then some (some (Spec.offset m idx)) else some none := by
  have he : (idx.map Arg.idx).count Arg.ell = 0 := by rw [List.count_eq_zero]; simp
  obtain ⟨ok, h1, h2⟩ := C14_exact_partial m.len (idx.map .idx) hn h32 (Or.inl ⟨he, by simpa using hl⟩) (by simp)
    (by intro a ha; obtain ⟨i, _, rfl⟩ := List.mem_map.mp ha; simp [Blind])
  rw [expand_none _ he] at h2
  have hin : ∀ (idx L : List Int), Inside (idx.map Arg.idx) L ↔ InRange L idx := by
    intro idx
    induction idx with
    | nil => intro L; cases L <;> simp [Inside, InRange]
    | cons i idx ih => intro L; cases L <;> simp [Inside, InRange, ArgInside, ih]
  rw [hin] at h2
  have hm : (idx.map IdxMap.CArg.idx).map toArg = idx.map Arg.idx := by
    rw [List.map_map]; rfl
  unfold checkedCall
  rw [hm, h1]
  simp only [Option.bind_eq_bind, Option.bind_some]
  by_cases h : InRange m.len idx
  · rw [if_pos h, if_pos (h2.mpr h), call_idx hw hs idx hl]; rfl
  · rw [if_neg h, if_neg (fun hc => h (h2.mp hc))]; rfl

/-- **C14** The same with an ellipsis among the integers (it stands for no dimension). -/
theorem C14_element_ellipsis (m : IdxMap) (hw : WF m) (hs : SmallestOK m) (hn : NonNeg m.len) (h32 : m.len.length ≤ 32)
    (is js : List Int) (hl : is.length + js.length = m.len.length) :
    checkedCall m (is.map .idx ++ .ell :: js.map .idx) = if InRange m.len (is ++ js) then some (some (Spec.offset m (is ++ js))) else some none := by
  have h0 : ∀ l : List Int, (l.map Arg.idx).count Arg.ell = 0 := fun l => by rw [List.count_eq_zero]; simp
  have hm : (is.map IdxMap.CArg.idx ++ IdxMap.CArg.ell :: js.map IdxMap.CArg.idx).map toArg = is.map Arg.idx ++ .ell :: js.map .idx := by
    rw [List.map_append, List.map_map, List.map_cons, List.map_map]; rfl
  obtain ⟨ok, h1, h2⟩ := C14_exact_partial m.len (is.map .idx ++ .ell :: js.map .idx) hn h32 (Or.inr ⟨by simp [h0], by simp; omega⟩) (by simp)
    (by intro a ha; simp only [List.mem_append, List.mem_map, List.mem_cons] at ha; rcases ha with ⟨i, _, rfl⟩ | rfl | ⟨i, _, rfl⟩ <;> simp [Blind])
  have he : expand m.len.length (is.map Arg.idx ++ .ell :: js.map .idx) = (is ++ js).map .idx := by
    have : ∀ k (l : List Int), (l.map Arg.idx).flatMap (expandArg k) = l.map Arg.idx := by
      intro k l
      induction l with
      | nil => rfl
      | cons i l ih => simp [expandArg, ih]
    rw [expand, List.flatMap_append, List.flatMap_cons, this, this, List.map_append]
    have e : m.len.length + 1 - (is.map Arg.idx ++ Arg.ell :: js.map Arg.idx).length = 0 := by simp; omega
    rw [e]; simp [expandArg]
  rw [he] at h2
  have hin : ∀ (idx L : List Int), Inside (idx.map Arg.idx) L ↔ InRange L idx := by
    intro idx
    induction idx with
    | nil => intro L; cases L <;> simp [Inside, InRange]
    | cons i idx ih => intro L; cases L <;> simp [Inside, InRange, ArgInside, ih]
  rw [hin] at h2
  unfold checkedCall
  rw [hm, h1]
  simp only [Option.bind_eq_bind, Option.bind_some]
  by_cases h : InRange m.len (is ++ js)
  · rw [if_pos h, if_pos (h2.mpr h), call_ell hw hs is js hl]; rfl
  · rw [if_neg h, if_neg (fun hc => h (h2.mp hc))]; rfl

/-- **C14** The claim fails for `range(-1, -1)`: accepted, and the first element of the slice is
at position -1, outside the array. -/
theorem C14_blind_witness : ∀ l : Int, 0 ≤ l → ∃ off m',
    checkedSlice ⟨[l], [1], [0], [0], .contiguous⟩ [.rng (-1) (-1) 1] = some (some (off, m')) ∧
    m'.len = [l + 1] ∧ off = -1 := by
  intro l hl
  have hr : rangeSize (-1) (-1) 1 = some 0 := by decide
  have hc : assertInBounds [l] [.rng (-1) (-1) 1] = some true := by
    simp [assertInBounds, worker, hr]
  have hw : WF (⟨[l], [1], [0], [0], .contiguous⟩ : IdxMap) := ⟨(by decide : IsPerm [0]), rfl, rfl, rfl⟩
  obtain ⟨off, m', g1, hF⟩ := slice_facts hw (args := [.rng (-1) (-1) 1]) (by change Fits 1 _; decide) (by simp [rank])
    (steps_expand (by simp; omega))
  refine ⟨off, m', by simp [checkedSlice, hc, g1], ?_, ?_⟩
  · rw [hF.len_eq]
    have : expand 1 [Arg.rng (-1) (-1) 1] = [Arg.rng (-1) (-1) 1] := by decide
    simp only [rank, List.length_singleton, this, keepMap, isRange, if_true]
    simp [gl, getL, rangeSize]; omega
  · rw [hF.off_eq]
    have : expand 1 [Arg.rng (-1) (-1) 1] = [Arg.rng (-1) (-1) 1] := by decide
    simp [rank, this, getOffset]

example : Fits 3 [.ell, .rng 4 (-1) (-2), .idx 3] ∧ assertInBounds [3, 5, 4] [.ell, .rng 4 (-1) (-2), .idx 3] = some true ∧
    assertInBounds [3, 5, 3] [.ell, .rng 4 (-1) (-2), .idx 3] = some false ∧
    assertInBounds [3, 4, 4] [.ell, .rng 4 (-1) (-2), .idx 3] = some false := by decide
example : let m : IdxMap := ⟨[2, 3], [3, 1], [0, 1], [0, 0], .contiguous⟩
    checkedCall m [.idx 1, .ell, .idx 2] = some (some 5) ∧ checkedCall m [.idx 1, .ell, .idx 3] = some none := by decide

end Nda.BoundCheck
