import Verif.Lemmas.Machine
import Verif.Props.BoundCheck
/-!
# Lemmas on the layout arithmetic in machine integers: chains, iteration, bound checks
-/
namespace Nda.Machine
open Nda Nda.Spec IdxMap LayoutTransforms

/-! ### Chains -/

theorem volume_append : ∀ (a b : List Int), volume (a ++ b) = volume a * volume b
  | [], b => by simp [volume, prod]
  | x :: a, b => by rw [List.cons_append, volume_cons, volume_cons, volume_append a b, mul_assoc]

theorem extentOf_append : ∀ (a b c d : List Int), c.length = a.length → extentOf (a ++ b) (c ++ d) = extentOf a c + extentOf b d
  | [], b, [], d, _ => by simp [extentOf]
  | x :: a, b, y :: c, d, h => by
    simp only [List.cons_append, extentOf, extentOf_append a b c d (by simpa using h), add_assoc]

theorem volume_ones : ∀ n : Nat, volume (List.replicate n 1) = 1
  | 0 => rfl
  | n + 1 => by rw [List.replicate_succ, volume_cons, volume_ones n]; rfl

theorem extentOf_ones : ∀ n : Nat, extentOf (List.replicate n 1) (List.replicate n 1) = 0
  | 0 => rfl
  | n + 1 => by simp [List.replicate_succ, extentOf, extentOf_ones n]

theorem addFast_small {B : Int} {m : IdxMap} (h : Small B m.len m.str) (n : Nat) : Small B (addFastDims m n).len (addFastDims m n).str := by
  have hB := Small.nonneg_bound h
  refine ⟨by simp [addFastDims, h.same], fun x hx => ?_, ?_, ?_, fun x hx => ?_⟩
  · rcases List.mem_append.mp hx with hx | hx
    · exact h.nonneg x hx
    · rw [(List.mem_replicate.mp hx).2]; omega
  · simp only [addFastDims]; rw [volume_append, volume_ones, mul_one]; exact h.volume
  · simp only [addFastDims]; rw [extentOf_append _ _ _ _ h.same, extentOf_ones, add_zero]; exact h.extent
  · rcases List.mem_append.mp hx with hx | hx
    · exact h.stride x hx
    · rw [(List.mem_replicate.mp hx).2]; simpa using hB

theorem step_small {B : Int} {v v' : View} (hw : WF v.lay) (h : Small B v.lay.len v.lay.str) (hB : 16 * B ≤ 9223372036854775807) {o : Op} (ha : Allowed v.lay.len o)
    (hm : Modest v.lay.len o) (hs : step v o = some v') : stepL v o = some v' ∧ Small B v'.lay.len v'.lay.str := by
  cases o with
  | slice args =>
    obtain ⟨h128, hf, hin⟩ := ha
    obtain ⟨off, m', h1, hF⟩ := Slice.slice_facts hw (args := args) hf h128 (Slice.inside_stepsOK hin)
    have e : v' = ⟨v.off + off, m'⟩ := by
      simp only [step, sliceView, h1, Option.bind_eq_bind, Option.bind_some, Option.pure_def, Option.some.injEq] at hs
      exact hs.symm
    subst e
    have hl := sliceL_eq hw h hB (args := args) hm.1 hf hin hm.2
    refine ⟨by simp only [stepL, hl, h1, Option.bind_eq_bind, Option.bind_some, Option.pure_def], ?_⟩
    show Small B m'.len m'.str
    rw [hF.len_eq, hF.str_eq]
    exact keep_small (Slice.not_mem_ell_expand _ _) hin hm.2 h
  | permute p =>
    obtain ⟨hp, hpl⟩ := ha
    obtain ⟨m', h1, hw', h3, h4, h5, h6, h7, h8⟩ := transpose_spec hw hp hpl
    have e : v' = ⟨v.off, m'⟩ := by
      simp only [step, permuted, h1, Option.bind_eq_bind, Option.bind_some, Option.pure_def, Option.some.injEq] at hs
      exact hs.symm
    refine ⟨hs, ?_⟩
    subst e
    show Small B m'.len m'.str
    rw [← small_memOrder hp (by omega) (by rw [hw'.str_len]; omega), h5, h6]
    exact h
  | addFast n =>
    have e : v' = ⟨v.off, addFastDims v.lay n⟩ := by
      simp only [step, Option.some.injEq] at hs; exact hs.symm
    refine ⟨hs, ?_⟩
    subst e
    exact addFast_small h n

theorem run_small {B : Int} {v : View} (hw : WF v.lay) (hs : SmallestOK v.lay) (h : Small B v.lay.len v.lay.str) (hB : 16 * B ≤ 9223372036854775807) {os : List Op}
    (ha : ChainAllowed v.lay.len os) (hm : ChainModest v.lay.len os) :
    ∃ v', LayoutTransforms.run v os = some v' ∧ runL v os = some v' ∧ WF v'.lay ∧ SmallestOK v'.lay ∧ Small B v'.lay.len v'.lay.str := by
  induction os generalizing v with
  | nil => exact ⟨v, rfl, rfl, hw, hs, h⟩
  | cons o os ih =>
    obtain ⟨v1, h1, hF⟩ := step_facts hw hs ha.1
    obtain ⟨h2, h3⟩ := step_small hw h hB ha.1 hm.1 h1
    obtain ⟨v2, g1, g2, g3⟩ := ih hF.wf hF.smallest h3 (ha.2 _ hF.shape) (hm.2 _ hF.shape)
    exact ⟨v2, by simp [LayoutTransforms.run, h1, g1], by simp [runL, h2, g2], g3⟩

/-! ### Queries -/

theorem isContiguousL_eq {B : Int} {m : IdxMap} (h : Small B m.len m.str) (hB : 2 * B ≤ 9223372036854775807) : isContiguousL m = m.isContiguous := by
  have h1 := Small.nonneg_bound h
  have := h.volume
  rw [isContiguousL, isContiguous, sizeL_eq h.nonneg (by omega), strTimesLenL_eq h hB, size_eq]
  rfl

theorem isStrided1dL_eq {B : Int} {m : IdxMap} (h : Small B m.len m.str) (hB : 2 * B ≤ 9223372036854775807) (hp : ∀ s, m.minStride = some s → |prod m.len * s| ≤ 9223372036854775807) :
    isStrided1dL m = m.isStrided1d := by
  have h1 := Small.nonneg_bound h
  have := h.volume
  rw [isStrided1dL, isStrided1d, sizeL_eq h.nonneg (by omega), strTimesLenL_eq h hB, size_eq]
  simp only [Option.bind_eq_bind, Option.bind_some]
  split
  · rfl
  · cases maxElement m.strTimesLen with
    | none => rfl
    | some mx =>
      cases hs : m.minStride with
      | none => rfl
      | some s =>
        have : mulL (prod m.len) s = some (prod m.len * s) := chk_of_abs (hp s hs)
        simp only [Option.bind_some, this]

theorem prod_zero : ∀ {ls : List Int}, (0 : Int) ∈ ls → prod ls = 0
  | l :: ls, h => by
    rcases List.mem_cons.mp h with rfl | h
    · simp [prod]
    · simp [prod, prod_zero h]

theorem even_bound {B : Int} {m : IdxMap} (hw : WF m) (h : Small B m.len m.str) (h0 : m.len ≠ []) {c : Int} (hc : EvenlySpaced m c) :
    m.minStride = some c ∧ |prod m.len * c| ≤ 2 * B ∧ Small B [prod m.len] [c] := by
  have h1 := Small.nonneg_bound h
  obtain ⟨u, hu, _, hms⟩ := minStride_eq hw h0
  have hms' : m.minStride = some c := by rw [hms, fastestIs_of_evenlySpaced hc u hu]
  have hcB : |c| ≤ B := by
    refine h.stride c ?_
    rw [minStride, hu] at hms'
    simp only [rd] at hms'
    exact List.mem_of_getElem? hms'
  obtain ⟨p1, p2⟩ := prod_le_volume h.nonneg
  have hv := h.volume
  have mk : (max (prod m.len) 1 - 1) * |c| ≤ B → Small B [prod m.len] [c] := fun he => by
    refine ⟨rfl, fun l hl => by simp at hl; omega, ?_, by simpa [extentOf] using he, fun s hs => by simp at hs; subst hs; exact hcB⟩
    have : max (prod m.len) 1 ≤ B := max_le (by omega) h1
    simpa [volume, prod] using this
  refine ⟨hms', ?_⟩
  by_cases hp : ∀ l ∈ m.len, 0 < l
  · obtain ⟨q1, q2, q3⟩ := evenly_bound hw h h0 hc hp
    have := prod_pos hp
    exact ⟨q2, mk (by rw [max_eq_left (by omega)]; exact q3)⟩
  · simp only [not_forall, not_lt] at hp
    obtain ⟨l, hl, hl0⟩ := hp
    have : l = 0 := by have := h.nonneg l hl; omega
    subst this
    have hz : prod m.len = 0 := by
      exact prod_zero hl
    rw [hz] at mk ⊢
    refine ⟨by simp; omega, mk ?_⟩
    simp; omega

/-! ### Linear positions to indices -/

theorem abs_tdiv_le (r s : Int) : |r.tdiv s| ≤ |r| := by
  have h := Int.natAbs_tdiv_le_natAbs r s
  rw [Int.abs_eq_natAbs, Int.abs_eq_natAbs]; omega

theorem abs_tmod_le (r s : Int) : |r.tmod s| ≤ |r| := by
  rw [Int.abs_eq_natAbs, Int.abs_eq_natAbs, Int.natAbs_tmod]
  have := Nat.mod_le r.natAbs s.natAbs
  omega

theorem abs_sub_tmod_le (r s : Int) : |r - r.tmod s| ≤ |r| := by
  have h : r - r.tmod s = s * r.tdiv s := by have := Int.mul_tdiv_add_tmod r s; omega
  rw [h, Int.abs_eq_natAbs, Int.abs_eq_natAbs, Int.natAbs_mul, Int.natAbs_tdiv]
  exact_mod_cast Nat.mul_div_le r.natAbs s.natAbs

theorem residues_head : ∀ {ss : List Int} {r : Int} {rs : List Int}, residues r ss = some rs → ∃ t, rs = r :: t
  | [], _, _, h => by simp [residues] at h
  | [_], r, rs, h => by simp [residues] at h; exact ⟨[], h.symm⟩
  | s :: s' :: ss, r, rs, h => by
    simp only [residues] at h
    split at h
    · cases h
    · obtain ⟨t, _, rfl⟩ := Option.map_eq_some_iff.mp h; exact ⟨t, rfl⟩

theorem residuesL_eq : ∀ (ss : List Int) (r : Int), |r| ≤ 9223372036854775807 → residuesL r ss = residues r ss ∧ ∀ rs, residues r ss = some rs → digitsL rs ss = digits rs ss
  | [], r, _ => ⟨rfl, fun rs h => by simp [residues] at h⟩
  | [s], r, h => ⟨rfl, fun rs hr => by
      simp only [residues, Option.some.injEq] at hr
      subst hr
      simp only [digitsL, digits, divL]
      split
      · rfl
      · rw [chk_of_abs ((abs_tdiv_le r s).trans h)]; rfl⟩
  | s :: s' :: ss, r, h => by
    obtain ⟨i1, i2⟩ := residuesL_eq (s' :: ss) (r.tmod s) ((abs_tmod_le r s).trans h)
    constructor
    · simp only [residuesL, residues, modL]
      split
      · rfl
      · rw [chk_of_abs ((abs_tdiv_le r s).trans h)]
        simp only [Option.map_some, Option.bind_eq_bind, Option.bind_some, i1]
        cases residues (r.tmod s) (s' :: ss) <;> rfl
    · intro rs hr
      simp only [residues] at hr
      split at hr
      · cases hr
      · rename_i hs
        obtain ⟨t, ht, rfl⟩ := Option.map_eq_some_iff.mp hr
        obtain ⟨u, rfl⟩ := residues_head ht
        have hb := abs_sub_tmod_le r s
        have e1 : subL r (r.tmod s) = some (r - r.tmod s) := chk_of_abs (by omega)
        have e2 : divL (r - r.tmod s) s = some ((r - r.tmod s).tdiv s) := by
          rw [divL, if_neg hs]; exact chk_of_abs (by have := abs_tdiv_le (r - r.tmod s) s; omega)
        simp only [digitsL, digits, if_neg hs, e1, e2, Option.bind_eq_bind, Option.bind_some, i2 _ ht]
        cases digits (r.tmod s :: u) (s' :: ss) <;> rfl

theorem toIdxL_eq (m : IdxMap) (x : Int) (h : |x| ≤ 9223372036854775807) : toIdxL m x = m.toIdx x := by
  simp only [toIdxL, toIdx]
  cases Perm.apply m.so m.str with
  | none => rfl
  | some ss =>
    obtain ⟨h1, h2⟩ := residuesL_eq ss x h
    simp only [Option.bind_eq_bind, Option.bind_some, h1]
    cases hr : residues x ss with
    | none => rfl
    | some rs => simp only [Option.bind_some, h2 rs hr]

/-! ### Bound checks -/

theorem workerL_eq (lens : List Int) (loss : Int) : ∀ (as : List Arg) (N : Int) (err : Nat),
    (∀ f l s, Arg.rng f l s ∈ as → |f| ≤ 4611686018427387903 ∧ |l| ≤ 4611686018427387903) → workerL lens loss as N err = BoundCheck.worker lens loss as N err
  | [], _, _, _ => rfl
  | .idx key :: as, N, err, h => by
    simp only [workerL, BoundCheck.worker]
    cases rdInt lens N with
    | none => rfl
    | some l => exact workerL_eq lens loss as _ _ (fun f l s hm => h f l s (List.mem_cons_of_mem _ hm))
  | .all :: as, N, err, h => workerL_eq lens loss as _ _ (fun f l s hm => h f l s (List.mem_cons_of_mem _ hm))
  | .ell :: as, N, err, h => workerL_eq lens loss as _ _ (fun f l s hm => h f l s (List.mem_cons_of_mem _ hm))
  | .rng f la st :: as, N, err, h => by
    have ih := fun N' err' => workerL_eq lens loss as N' err' (fun f l s hm => h f l s (List.mem_cons_of_mem _ hm))
    obtain ⟨b1, b2⟩ := h f la st List.mem_cons_self
    obtain ⟨b1, b1'⟩ := abs_le.mp b1
    obtain ⟨b2, b2'⟩ := abs_le.mp b2
    simp only [workerL, BoundCheck.worker]
    by_cases hst : st = 0
    · subst hst; simp [rangeSize]
    · obtain ⟨n, hn, hc⟩ := Slice.rangeSize_isCount (f := f) (la := la) hst
      have hn0 := hc.2.1
      rw [hn]
      by_cases hpos : 0 < n
      · have hk := (hc.2.2 (n - 1) (by omega)).mp (by omega)
        have hd : |(n - 1) * st| ≤ 9223372036854775806 ∧ |f + (n - 1) * st| ≤ 9223372036854775807 ∧ n ≤ 9223372036854775807 := by
          by_cases hs : 0 < st
          · rw [if_pos hs] at hk
            have h0 : 0 ≤ (n - 1) * st := mul_nonneg (by omega) (by omega)
            have h1 : n - 1 ≤ (n - 1) * st := by nlinarith
            exact ⟨abs_le.mpr ⟨by omega, by omega⟩, abs_le.mpr ⟨by omega, by omega⟩, by omega⟩
          · rw [if_neg hs] at hk
            have hs' : st ≤ -1 := by omega
            have h0 : (n - 1) * st ≤ 0 := mul_nonpos_of_nonneg_of_nonpos (by omega) (by omega)
            have h1 : n - 1 ≤ -((n - 1) * st) := by nlinarith
            exact ⟨abs_le.mpr ⟨by omega, by omega⟩, abs_le.mpr ⟨by omega, by omega⟩, by omega⟩
        have e0 : chk n = some n := chk_of_abs (by rw [abs_of_pos hpos]; exact hd.2.2)
        have e1 : subL n 1 = some (n - 1) := chk_of_abs (by rw [abs_of_nonneg (by omega)]; omega)
        have e2 : mulL (n - 1) st = some ((n - 1) * st) := chk_of_abs (by omega)
        have e3 : addL f ((n - 1) * st) = some (f + (n - 1) * st) := chk_of_abs hd.2.1
        simp only [Option.bind_eq_bind, Option.bind_some, e0, if_pos (show n > 0 from hpos), e1, e2, e3]
        cases rdInt lens N with
        | none => rfl
        | some l => exact ih _ _
      · have : n = 0 := by omega
        subst this
        have e0 : chk 0 = some 0 := rfl
        simp only [Option.bind_eq_bind, Option.bind_some, e0, if_neg (show ¬ (0 : Int) > 0 by omega)]
        exact ih _ _

/-! ### Iterators -/
section
open Grid

theorem mkL_eq {B : Int} (hB : 2 * B ≤ 9223372036854775807) : ∀ {ls ss : List Int} (b : Bool), Small B ls ss → mkL ls ss b = Grid.mk ls ss b := by
  have h0 : ∀ {l s : Int} (b : Bool), 0 ≤ l → (max l 1 - 1) * |s| ≤ B → |s| ≤ B → mulL (if b = true then l else 0) s = some ((if b = true then l else 0) * s) := by
    intro l s b h1 h2 h3
    have m1 : l ≤ max l 1 := le_max_left _ _
    have := mul_le_mul_of_nonneg_right m1 (abs_nonneg s)
    refine chk_of_abs ?_
    cases b
    · simp
    · simp only [if_true]; rw [abs_mul, abs_of_nonneg h1]; nlinarith
  intro ls
  induction ls with
  | nil => intro ss b _; simp [mkL, Grid.mk]
  | cons l ls ih =>
    intro ss b h
    cases ss with
    | nil => simp [mkL, Grid.mk]
    | cons s ss =>
      obtain ⟨t1, t2, t3, t4, t5, t6⟩ := Small.tail h
      have t7 := extentOf_nonneg ls ss
      have e := h0 b t2 (by omega) t4
      cases ls with
      | nil =>
        cases ss with
        | nil => simp only [mkL, Grid.mk, e, Option.bind_eq_bind, Option.bind_some, Option.pure_def]
        | cons a b => simp [mkL, Grid.mk]
      | cons l' ls =>
        simp only [mkL, Grid.mk, e, ih false t1, ih true t1, Option.bind_eq_bind, Option.bind_some, Option.pure_def]

theorem derefL_at : ∀ {ls ss x : List Int}, ls ≠ [] → ss.length = ls.length → InRange ls x → extentOf ls ss ≤ 9223372036854775807 →
    derefL (at' ls ss x) = some (deref (at' ls ss x))
  | [l], [s], [i], _, _, _, _ => rfl
  | l :: l' :: ls, s :: ss, i :: is, _, h, hx, hM => by
    have hs : ss.length = (l' :: ls).length := by simpa using h
    have hM' : extentOf (l' :: ls) ss ≤ 9223372036854775807 := by
      have h1 : 0 ≤ max l 1 - 1 := by have := le_max_right l 1; omega
      have := mul_nonneg h1 (abs_nonneg s)
      rw [extentOf] at hM; omega
    rw [at', derefL, derefL_at (by simp) hs hx.2 hM']
    simp only [Option.bind_eq_bind, Option.bind_some, deref]
    have e := deref_at (ls := l' :: ls) (ss := ss) (x := is) (by simp) hs hx.2.length_eq
    have hb := abs_dot_le (ss := s :: ss) (show InRange (l :: l' :: ls) (i :: is) from hx)
    rw [e]
    refine chk_of_abs ?_
    rw [dot, mul_comm s i] at hb
    exact hb.trans hM

theorem nextL_at {B : Int} (hB : 2 * B ≤ 9223372036854775807) : ∀ {ls ss x : List Int}, ls ≠ [] → Small B ls ss → InRange ls x →
    nextL (at' ls ss x) = some (Grid.next (at' ls ss x))
  | [l], [], [i], _, h, _ => by have := h.same; simp at this
  | [l], s :: s' :: ss, [i], _, h, _ => by have := h.same; simp at this
  | [l], [s], [i], _, h, hx => by
    obtain ⟨t1, t2, t3, t4, t5, t6⟩ := Small.tail h
    obtain ⟨⟨h0, h1⟩, -⟩ := hx
    have m1 : l ≤ max l 1 := le_max_left _ _
    simp only [extentOf, add_zero] at t5
    have hb : |i * s + s| ≤ 9223372036854775807 := by
      have e : i * s + s = (i + 1) * s := by ring
      have := mul_le_mul_of_nonneg_right (show i + 1 ≤ max l 1 by omega) (abs_nonneg s)
      rw [e, abs_mul, abs_of_nonneg (show 0 ≤ i + 1 by omega)]; nlinarith
    have e1 : addL (i * s) s = some (i * s + s) := chk_of_abs hb
    have e2 : addL i 1 = some (i + 1) := chk_of_abs (by rw [abs_of_nonneg (by omega)]; omega)
    simp only [at', List.headD_cons, nextL, next, e1, e2, Option.bind_eq_bind, Option.bind_some, Option.pure_def]
  | l :: l' :: ls, [], i :: is, _, h, _ => by have := h.same; simp at this
  | l :: l' :: ls, s :: ss, i :: is, _, h, hx => by
    obtain ⟨t1, t2, t3, t4, t5, t6⟩ := Small.tail h
    have t7 := extentOf_nonneg (l' :: ls) ss
    obtain ⟨⟨h0, h1⟩, h2⟩ := hx
    have m1 : l ≤ max l 1 := le_max_left _ _
    have hb : |i * s + s| ≤ 9223372036854775807 := by
      have e : i * s + s = (i + 1) * s := by ring
      have := mul_le_mul_of_nonneg_right (show i + 1 ≤ max l 1 by omega) (abs_nonneg s)
      rw [e, abs_mul, abs_of_nonneg (show 0 ≤ i + 1 by omega)]; nlinarith
    have e1 : addL (i * s) s = some (i * s + s) := chk_of_abs hb
    have e2 : addL i 1 = some (i + 1) := chk_of_abs (by rw [abs_of_nonneg (by omega)]; omega)
    rw [at', nextL, nextL_at hB (by simp) t1 h2, next]
    simp only [e1, e2, Option.bind_eq_bind, Option.bind_some, Option.pure_def]
    split <;> rfl

theorem rangeForL_at {B : Int} (hB : 2 * B ≤ 9223372036854775807) {ls ss : List Int} (h0 : ls ≠ []) (h : Small B ls ss) {σ : Type} (f : Int → σ → Option σ) :
    ∀ (fuel : Nat) (x : List Int) (s : σ), (InRange ls x ∨ x = endIdx ls) →
      rangeForL f (at' ls ss (endIdx ls)) fuel (at' ls ss x) s = rangeFor f (at' ls ss (endIdx ls)) fuel (at' ls ss x) s := by
  intro fuel
  induction fuel with
  | zero => intro x s _; rfl
  | succ fuel ih =>
    intro x s hx
    have hl := h.same
    rw [rangeForL, rangeFor]
    rcases hx with hx | rfl
    · split
      · rfl
      · have h1B := Small.nonneg_bound h
        have := h.extent
        rw [derefL_at h0 hl hx (by omega), nextL_at hB h0 h hx]
        simp only [Option.bind_eq_bind, Option.bind_some]
        cases f (deref (at' ls ss x)) s with
        | none => rfl
        | some s' =>
          have hp : ∀ {ls x : List Int}, InRange ls x → ∀ l ∈ ls, 0 < l := by
            intro ls
            induction ls with
            | nil => intro x _ l hl; simp at hl
            | cons a ls ih =>
              intro x hx l hl
              cases x with
              | nil => exact hx.elim
              | cons i is =>
                rcases List.mem_cons.mp hl with rfl | hl
                · have := hx.1; omega
                · exact ih hx.2 l hl
          simp only [Option.bind_some]
          rw [next_at h0 hl hx.length_eq]
          exact ih _ _ (succ_spec h0 (fun l hl' => hp hx l (List.mem_of_mem_tail hl')) hx).2
    · rw [if_pos (by rw [eq_at h0 hl (endIdx_length _) (endIdx_length _)]; simp), if_pos (by rw [eq_at h0 hl (endIdx_length _) (endIdx_length _)]; simp)]

end

end Nda.Machine
