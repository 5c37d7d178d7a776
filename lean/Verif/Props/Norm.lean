import Verif.Model.Norm
import Verif.Props.BlasVec
import Verif.Props.Algorithms
import Verif.Lemmas.Check
import Mathlib.Analysis.Normed.Lp.PiLp
import Mathlib.Analysis.RCLike.Basic
/-!
# C56: norms of vectors

The specification is Mathlib's `p`-norm on finite sequences (`PiLp`).
-/
namespace Nda.Norm
open Nda Loops Assign Blas Algorithms Matrix Nda.Spec

/-- The functions of the standard library over the reals or complex numbers. -/
noncomputable def exact (K : Type) [RCLike K] : Std K ℝ := ⟨starRingEnd K, fun x => ‖x‖, RCLike.re, Real.sqrt, fun x y => x ^ y⟩

variable {K : Type} [RCLike K] [DecidableEq K]

/-- The vector as a sequence. -/
def seq (n : Int) (X : Int → K) : Fin n.toNat → K := fun i => X (i : Nat)

theorem yields_get {x : Rhs K} {n : Int} {mem : List K} {X : Int → K} (h : Yields x [n] mem (fun idx => X (idx.getD 0 0))) {i : Int} (i0 : 0 ≤ i) (i1 : i < n) : x.get [i] mem = some (X i) := by
  have := dotGet_eq h false (by simp) i0 i1
  cases x <;> exact this

theorem sum_abs {x : Rhs K} {n : Int} {mem : List K} {X : Int → K} (h : Yields x [n] mem (fun idx => X (idx.getD 0 0))) (f : K → ℝ) :
    sum (· + ·) (0 : ℝ) [n] (fun idx => (x.get idx mem).map f) = some (∑ i, f (seq n X i)) := by
  rw [C25_sum [n] _ (fun idx hi => ?_) ((List.range n.toNat).map (fun (i : Nat) => [(i : Int)])) ?_ ?_]
  · rw [List.map_map]
    congr 1
    have e : ∀ g : Nat → ℝ, ((List.range n.toNat).map g).sum = ∑ i ∈ Finset.range n.toNat, g i := fun g => rfl
    rw [e, Finset.sum_range]
    apply Finset.sum_congr rfl
    intro i _
    have := i.isLt
    simp only [Function.comp]
    rw [yields_get h (by omega) (by omega)]
    rfl
  · refine List.Nodup.map ?_ List.nodup_range
    intro a b hab
    simpa using hab
  · intro idx
    rw [inRange1]
    simp only [List.mem_map, List.mem_range]
    constructor
    · rintro ⟨i, hi, rfl⟩; exact ⟨_, rfl, by omega, by omega⟩
    · rintro ⟨i, rfl, i0, i1⟩; exact ⟨i.toNat, by omega, by rw [show ((i.toNat : Nat) : Int) = i by omega]⟩
  · rw [inRange1] at hi
    obtain ⟨i, rfl, i0, i1⟩ := hi
    rw [yields_get h i0 i1]
    exact ⟨_, rfl⟩

/-- The scalar product of a vector with itself. -/
theorem sqrt_dot (n : Int) (X : Int → K) : Real.sqrt (RCLike.re (sumTo n (fun i => starRingEnd K (X i) * X i))) = Real.sqrt (∑ i, ‖seq n X i‖ ^ 2) := by
  congr 1
  unfold sumTo
  rw [map_sum, Finset.sum_range]
  apply Finset.sum_congr rfl
  intro i _
  show RCLike.re (starRingEnd K (X i) * X i) = _
  rw [RCLike.conj_mul]
  simp only [seq]
  norm_cast

/-- C56: for every order `p > 0` the result is the `p`-norm.  For `p = 2` an array or view is handed to BLAS, which must then have a positive stride (see `C56_reversed_witness`). -/
theorem C56_norm_partial (junk : K) (n : Int) (hn : 0 ≤ n) (hb : n < 2147483648) (x : Rhs K) (memory : Bool) (mem : List K) (X : Int → K) (hx : Yields x [n] mem (fun idx => X (idx.getD 0 0)))
    (hm : memory = true → ∃ v null, x = .inMem v null) (p : ℝ) (hp : 0 < p) (h2 : p = 2 → ∀ v null, x = .inMem v null → memory = true → BlasVector v n) :
    norm (exact K) junk n x memory (.fin p) mem = some ‖WithLp.toLp (ENNReal.ofReal p) (seq n X)‖ := by
  have hr : (ENNReal.ofReal p).toReal = p := ENNReal.toReal_ofReal hp.le
  rw [PiLp.norm_eq_sum (by rw [hr]; exact hp), hr]
  simp only [norm]
  by_cases c2 : p = 1 + 1
  · rw [if_pos c2]
    have c2' : p = 2 := by rw [c2]; norm_num
    have hok : DotOK x (!memory) n mem X := by
      cases memory with
      | false => cases x <;> exact hx
      | true =>
        obtain ⟨v, null, rfl⟩ := hm rfl
        refine ⟨h2 c2' v null rfl rfl, hx.1, fun i i0 i1 => ?_⟩
        exact hx.2.2.2 [i] (inRange1.mpr ⟨i, rfl, i0, i1⟩)
    obtain ⟨u, mem1, su, e1, -, lu, hu⟩ := dotContainer_eq junk hn hb x (!memory) hok (Ext.refl mem)
    simp only [e1, Option.bind_eq_bind, Option.bind_some, blasDot_eq _ lu lu hu hu]
    show some _ = _
    congr 1
    have := sqrt_dot n X
    simp only [exact]
    rw [this, c2', Real.sqrt_eq_rpow]
    norm_num
  · rw [if_neg c2]
    by_cases c1 : p = 1
    · rw [if_pos c1, c1]
      simp only [exact]
      rw [sum_abs hx]
      simp
    · rw [if_neg c1, if_neg hp.ne']
      simp only [exact]
      rw [sum_abs hx (fun y => ‖y‖ ^ p)]
      rfl

/-- C56: order 0 counts the elements that are not zero. -/
theorem C56_zero (junk : K) (n : Int) (x : Rhs K) (memory : Bool) (mem : List K) (X : Int → K) (hx : Yields x [n] mem (fun idx => X (idx.getD 0 0))) :
    norm (exact K) junk n x memory (.fin 0) mem = some (((Finset.range n.toNat).filter (fun i => X (i : Nat) ≠ 0)).card : ℝ) := by
  have key : ∀ k : Nat, (k : Int) ≤ n ∨ k = 0 → (List.range k).foldlM (fun count i => do
      let y ← x.get [Int.ofNat i] mem
      return if y ≠ 0 then count + 1 else count) 0 = some ((Finset.range k).filter (fun i => X (i : Nat) ≠ 0)).card := by
    intro k
    induction k with
    | zero => intro _; rfl
    | succ k ih =>
      intro hk
      have hk : ((k + 1 : Nat) : Int) ≤ n := by omega
      rw [List.range_succ, List.foldlM_append, ih (by omega)]
      simp only [Option.bind_eq_bind, Option.bind_some, List.foldlM_cons, List.foldlM_nil]
      have hg : x.get [Int.ofNat k] mem = some (X k) := yields_get hx (i := (k : Int)) (by omega) (by omega)
      rw [hg, Finset.range_add_one, Finset.filter_insert]
      simp only [Option.bind_some]
      by_cases h : X k ≠ 0
      · rw [if_pos h, if_pos h, Finset.card_insert_of_notMem (by simp)]; rfl
      · rw [if_neg h, if_neg h]; rfl
  have e := key n.toNat (by omega)
  have h01 : (0 : ℝ) ≠ 1 + 1 := by norm_num
  simp only [norm]
  rw [if_neg h01, if_neg (by norm_num : (0 : ℝ) ≠ 1)]
  simp only [if_true, countNonZero]
  rw [e]
  rfl

theorem absOrder : WeakOrder (fun a b : ℝ => decide (a < b)) := by
  refine ⟨fun x => by simp, fun x y z h1 h2 => ?_, fun x y z h1 h2 => ?_⟩
  · simp only [decide_eq_true_eq] at *; exact h1.trans h2
  · simp only [decide_eq_false_iff_not, not_lt] at *; exact h2.trans h1

theorem abs_defined {x : Rhs K} {n : Int} {mem : List K} {X : Int → K} (hx : Yields x [n] mem (fun idx => X (idx.getD 0 0))) (idx : List Int) (hi : InRange [n] idx) :
    ∃ i : Fin n.toNat, idx = [((i : Nat) : Int)] ∧ (x.get idx mem).map (fun y => ‖y‖) = some ‖seq n X i‖ := by
  rw [inRange1] at hi
  obtain ⟨i, rfl, i0, i1⟩ := hi
  refine ⟨⟨i.toNat, by omega⟩, by simp; omega, ?_⟩
  rw [yields_get hx i0 i1]
  simp only [Option.map_some, seq, show ((i.toNat : Nat) : Int) = i by omega]

/-- C56: order infinity is the maximum norm of a vector that is not empty. -/
theorem C56_inf (junk : K) (n : Int) (hn : 0 < n) (x : Rhs K) (memory : Bool) (mem : List K) (X : Int → K) (hx : Yields x [n] mem (fun idx => X (idx.getD 0 0))) :
    norm (exact K) junk n x memory .inf mem = some ‖WithLp.toLp ⊤ (seq n X)‖ := by
  obtain ⟨r, e, ⟨idx, hi, hr⟩, hmax⟩ := C25_max _ absOrder [n] (fun idx => (x.get idx mem).map (fun y => ‖y‖)) (fun idx hi => by
    obtain ⟨i, -, h⟩ := abs_defined hx idx hi; exact ⟨_, h⟩) (by simpa using hn)
  simp only [norm, exact]
  rw [e]
  congr 1
  obtain ⟨i, rfl, hi'⟩ := abs_defined hx idx hi
  rw [hi'] at hr
  obtain rfl := Option.some.inj hr
  apply le_antisymm
  · exact PiLp.norm_apply_le (p := ⊤) (WithLp.toLp ⊤ (seq n X)) i
  · rw [PiLp.norm_toLp]
    refine (pi_norm_le_iff_of_nonneg (norm_nonneg _)).mpr (fun j => ?_)
    have hj : InRange [n] [((j : Nat) : Int)] := by rw [inRange1]; have := j.isLt; exact ⟨_, rfl, by omega, by omega⟩
    obtain ⟨j', e', hj'⟩ := abs_defined hx _ hj
    have : j' = j := by
      simp only [List.cons.injEq, and_true] at e'
      exact Fin.ext (by omega)
    subst this
    have := hmax _ _ hj hj'
    simpa using this

/-- C56: order minus infinity is the smallest absolute value of a vector that is not empty. -/
theorem C56_neg_inf (junk : K) (n : Int) (hn : 0 < n) (x : Rhs K) (memory : Bool) (mem : List K) (X : Int → K) (hx : Yields x [n] mem (fun idx => X (idx.getD 0 0))) :
    ∃ i, norm (exact K) junk n x memory .negInf mem = some ‖seq n X i‖ ∧ ∀ j, ‖seq n X i‖ ≤ ‖seq n X j‖ := by
  obtain ⟨r, e, ⟨idx, hi, hr⟩, hmin⟩ := C25_min _ absOrder [n] (fun idx => (x.get idx mem).map (fun y => ‖y‖)) (fun idx hi => by
    obtain ⟨i, -, h⟩ := abs_defined hx idx hi; exact ⟨_, h⟩) (by simpa using hn)
  simp only [norm, exact]
  rw [e]
  obtain ⟨i, rfl, hi'⟩ := abs_defined hx idx hi
  rw [hi'] at hr
  obtain rfl := Option.some.inj hr
  refine ⟨i, rfl, fun j => ?_⟩
  have hj : InRange [n] [((j : Nat) : Int)] := by rw [inRange1]; have := j.isLt; exact ⟨_, rfl, by omega, by omega⟩
  obtain ⟨j', e', hj'⟩ := abs_defined hx _ hj
  have : j' = j := by
    simp only [List.cons.injEq, and_true] at e'
    exact Fin.ext (by omega)
  subst this
  have := hmin _ _ hj hj'
  simpa using this

/-- C56: negative orders, as long as no element is zero (the code raises 0 to a negative power, which is infinite). -/
theorem C56_negative (junk : K) (n : Int) (x : Rhs K) (memory : Bool) (mem : List K) (X : Int → K) (hx : Yields x [n] mem (fun idx => X (idx.getD 0 0))) (_h0 : ∀ i, seq n X i ≠ 0) (p : ℝ) (hp : p < 0) :
    norm (exact K) junk n x memory (.fin p) mem = some ((∑ i, ‖seq n X i‖ ^ p) ^ (1 / p)) := by
  simp only [norm]
  rw [if_neg (by linarith), if_neg (by linarith), if_neg hp.ne]
  simp only [exact]
  rw [sum_abs hx (fun y => ‖y‖ ^ p)]
  rfl

/-! ### Cases meeting the hypotheses, and what is missing -/

/-- The vector `(3, -4)` as every second element of memory. -/
noncomputable example : ∃ X : Int → ℝ, Yields (.inMem ⟨0, ⟨[2], [2], [0], [0], .none⟩⟩ false) [2] [(3 : ℝ), 0, -4] (fun idx => X (idx.getD 0 0)) ∧ BlasVector ⟨0, ⟨[2], [2], [0], [0], .none⟩⟩ 2 ∧ X 0 = 3 ∧ X 1 = -4 := by
  refine ⟨fun i => if i = 0 then 3 else -4, ⟨good_of (by decide) rfl rfl rfl (by decide) 1 (by decide) (by decide) (by decide), rfl, by simp, ?_⟩, ⟨rfl, ⟨2, rfl, by decide, by decide⟩, by decide⟩, rfl, rfl⟩
  intro idx hi
  rw [inRange1] at hi
  obtain ⟨i, rfl, i0, i1⟩ := hi
  have : i = 0 ∨ i = 1 := by omega
  rcases this with rfl | rfl
  · simp [val, addr, Spec.dot]
  · simp [val, addr, Spec.dot]

/-- Arithmetic on integers, with `sqrt` left out. -/
def toy : Std Int Int := ⟨id, fun x => x.natAbs, id, id, fun x y => x ^ y.toNat⟩

/-- `3² + (-4)²`, `3 + 4`, two non-zero elements, maximum 4, minimum 3. -/
example : [Order.fin 2, .fin 1, .fin 0, .inf, .negInf].map (fun p => norm toy 9 2 (.inMem ⟨0, ⟨[2], [2], [0], [0], .none⟩⟩ false) true p [3, 0, -4]) = [some 25, some 7, some 2, some 4, some 3] := by decide

/-- Missing from C56: a reversed vector and `p = 2`.  BLAS reads behind the vector `(3, 2, 1)`: the sum of squares is not 14. -/
theorem C56_reversed_witness : norm toy 9 3 (.inMem ⟨2, ⟨[3], [-1], [0], [0], .none⟩⟩ false) true (.fin 2) [1, 2, 3, 10, 20] = some 509 ∧
    norm toy 9 3 (.inMem ⟨2, ⟨[3], [-1], [0], [0], .none⟩⟩ false) true (.fin 1) [1, 2, 3, 10, 20] = some 6 := by decide

/-- The maximum norm of an empty vector reads an element that does not exist. -/
theorem C56_empty_witness : norm toy 9 0 (.inMem ⟨0, ⟨[0], [1], [0], [0], .contiguous⟩⟩ true) true .inf [] = none := by decide

end Nda.Norm
