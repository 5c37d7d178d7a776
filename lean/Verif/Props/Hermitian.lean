import Verif.Model.Hermitian
import Verif.Spec.Hermitian
import Verif.Props.LeastSquares
/-!
# C60: least squares with Hermitian blocks
-/
namespace Nda.Linalg
open Nda Nda.Spec LayoutTransforms Assign Loops Nda.Matrix Blas
open scoped _root_.Matrix

variable {𝕜 : Type} [RCLike 𝕜]

/-! ### The inner adjoint -/

/-- The column of the transposed element. -/
def swapCol (d c : Int) : Int := ((c / (d * d)) * d + c % d) * d + (c / d) % d

theorem split_col {d c N : Int} (hd : 0 < d) (h0 : 0 ≤ c) (h1 : c < N * d * d) :
    0 ≤ c / (d * d) ∧ c / (d * d) < N ∧ 0 ≤ (c / d) % d ∧ (c / d) % d < d ∧ 0 ≤ c % d ∧ c % d < d ∧ c = ((c / (d * d)) * d + (c / d) % d) * d + c % d := by
  have e1 := Int.mul_ediv_add_emod c d
  have e2 := Int.mul_ediv_add_emod (c / d) d
  rw [Int.ediv_ediv_of_nonneg (le_of_lt hd)] at e2
  have hdd : 0 < d * d := Int.mul_pos hd hd
  refine ⟨Int.ediv_nonneg h0 hdd.le, Int.ediv_lt_of_lt_mul hdd (by rw [← mul_assoc]; exact h1), Int.emod_nonneg _ hd.ne', Int.emod_lt_of_pos _ hd, Int.emod_nonneg _ hd.ne', Int.emod_lt_of_pos _ hd, ?_⟩
  generalize c / (d * d) = k at *
  generalize (c / d) % d = a at *
  generalize c / d = l at *
  generalize c % d = b at *
  subst e2
  rw [← e1]
  ring

theorem swapCol_block (d k a b : Nat) (ha : a < d) (hb : b < d) : swapCol d (blockCol d k a b) = blockCol d k b a := by
  have hd : 0 < d := by omega
  have e1 : blockCol d k a b % d = b := by
    unfold blockCol
    rw [Nat.mul_comm, Nat.mul_add_mod, Nat.mod_eq_of_lt hb]
  have e2 : blockCol d k a b / d = k * d + a := by
    unfold blockCol
    rw [Nat.mul_comm, Nat.mul_add_div hd, Nat.div_eq_of_lt hb, Nat.add_zero]
  have e3 : (k * d + a) % d = a := by rw [Nat.mul_comm, Nat.mul_add_mod, Nat.mod_eq_of_lt ha]
  have e4 : (k * d + a) / d = k := by rw [Nat.mul_comm, Nat.mul_add_div hd, Nat.div_eq_of_lt ha, Nat.add_zero]
  have e5 : blockCol d k a b / (d * d) = k := by rw [← Nat.div_div_eq_div_mul, e2, e4]
  unfold swapCol
  rw [← Int.natCast_mul, ← Int.natCast_div, ← Int.natCast_mod, ← Int.natCast_div, ← Int.natCast_mod, e1, e2, e3, e5]
  unfold blockCol
  push_cast
  ring

theorem swapCol_range {d c N : Int} (hd : 0 < d) (h0 : 0 ≤ c) (h1 : c < N * d * d) : 0 ≤ swapCol d c ∧ swapCol d c < N * d * d := by
  obtain ⟨k0, k1, a0, a1, b0, b1, -⟩ := split_col hd h0 h1
  unfold swapCol
  generalize c / (d * d) = k at *
  generalize (c / d) % d = a at *
  generalize c % d = b at *
  constructor
  · positivity
  · have : k * d + b < N * d := by nlinarith
    nlinarith

/-- The strides of a dense array of rank 4. -/
theorem dense4 {m : IdxMap} {n0 n1 n2 n3 : Int} (hw : WF m) (hd : Spec.Dense m) (hl : m.len = [n0, n1, n2, n3]) (hso : m.so = [0, 1, 2, 3]) : m.str = [n1 * n2 * n3, n2 * n3, n3, 1] := by
  have h := hw.str_len
  rw [hl] at h
  unfold Spec.Dense EvenlySpaced at hd
  rw [hl, hso] at hd
  match hv : m.str, h with
  | [a, b, c, e], _ =>
    rw [hv] at hd
    simp [memOrder, Spec.dense, prod] at hd
    obtain ⟨rfl, rfl, rfl, rfl⟩ := hd
    simp [mul_assoc]

theorem addr4 {off : Int} {m : IdxMap} {s0 s1 s2 s3 : Int} (h : m.str = [s0, s1, s2, s3]) (i j k l : Int) : addr ⟨off, m⟩ [i, j, k, l] = off + (s0 * i + (s1 * j + (s2 * k + s3 * l))) := by
  simp [addr, h, Spec.dot]

theorem inRange4 {n0 n1 n2 n3 : Int} {idx : List Int} : InRange [n0, n1, n2, n3] idx ↔
    ∃ i j k l, idx = [i, j, k, l] ∧ 0 ≤ i ∧ i < n0 ∧ 0 ≤ j ∧ j < n1 ∧ 0 ≤ k ∧ k < n2 ∧ 0 ≤ l ∧ l < n3 := by
  constructor
  · intro h
    match idx, h.length_eq with
    | [i, j, k, l], _ =>
      simp [InRange] at h
      exact ⟨i, j, k, l, rfl, by tauto⟩
  · rintro ⟨i, j, k, l, rfl, h⟩
    simp [InRange]
    tauto

theorem innerAdjoint_eq (junk : 𝕜) (p : Policy) (hp : p = .C ∨ p = .Cstride) {l0 N d q : Nat} (p0 : 0 < l0) (pN : 0 < N) (pd : 0 < d) (hq : q = N * d * d) (b0 : (l0 : Int) < 2147483648)
    (bq : (q : Int) < 2147483648) {v : View} {mem : List 𝕜} (gv : Good v mem.length) (lv : v.lay.len = [(l0 : Int), (q : Int)])
    (av : ∀ i j : Int, 0 ≤ i → i < l0 → 0 ≤ j → j < q → addr v [i, j] = v.off + (i * q + j)) {X : Int → Int → 𝕜} (hX : Entries v l0 q mem X) :
    ∃ r mem', innerAdjoint (starRingEnd 𝕜) junk p d v mem = .ok (r, mem') ∧ Ext mem mem' ∧ LMat r l0 q mem'.length false q ∧ Entries r l0 q mem' (fun i c => star (X i (swapCol d c))) ∧
      ∀ idx, InRange [(l0 : Int), (q : Int)] idx → (mem.length : Int) ≤ addr r idx := by
  have pq : 0 < q := by rw [hq]; positivity
  have hqi : (q : Int) = N * d * d := by rw [hq]; push_cast; ring
  have pd' : (0 : Int) < d := by omega
  have pdd : (d : Int) * d ≠ 0 := by positivity
  have r0 : rd v.lay.len 0 = some (l0 : Int) := by rw [lv]; rfl
  have r1 : rd v.lay.len 1 = some (q : Int) := by rw [lv]; rfl
  have t1 : Int.tmod (q : Int) (d * d) = 0 := by
    rw [hqi, mul_assoc]; exact Int.mul_tmod_left _ _
  have t2 : Int.tdiv (q : Int) (d * d) = N := by
    rw [hqi, mul_assoc]; exact Int.mul_tdiv_cancel _ pdd
  -- the array of rank 4
  obtain ⟨m4, e4, l4, w4, d4, so4⟩ : ∃ m4, reshape p v [(l0 : Int), N, d, d] = some ⟨v.off, m4⟩ ∧ m4.len = [(l0 : Int), N, d, d] ∧ WF m4 ∧ Spec.Dense m4 ∧ m4.so = [0, 1, 2, 3] := by
    rcases hp with rfl | rfl
    · obtain ⟨m, h1, h2, h3, h4, h5, -⟩ := ofPolicy_spec (p := .C) (len := [(l0 : Int), N, d, d]) trivial
      exact ⟨m, by rw [reshape, h1]; rfl, h2, h3, h4, by rw [h5, h2]; rfl⟩
    · obtain ⟨m, h1, h2, h3, h4, h5, -⟩ := ofPolicy_spec (p := .Cstride) (len := [(l0 : Int), N, d, d]) trivial
      exact ⟨m, by rw [reshape, h1]; rfl, h2, h3, h4, by rw [h5, h2]; rfl⟩
  have s4 := dense4 w4 d4 l4 so4
  have f4 : FlagsOK (View.mk v.off m4).lay := IdxMap.flagsOK_of_dense d4
  -- with the last two dimensions exchanged
  have ha : Allowed (View.mk v.off m4).lay.len (.permute [0, 1, 3, 2]) := ⟨by decide, by rw [show (View.mk v.off m4).lay.len = _ from l4]; rfl⟩
  obtain ⟨w, ew, hw⟩ := step_facts (v := ⟨v.off, m4⟩) w4 f4.smallest ha
  have fw := step_flagsOK (v := ⟨v.off, m4⟩) w4 f4 ha (fun k hk => by cases hk) ew
  have ew' : permuted ⟨v.off, m4⟩ [0, 1, 3, 2] = some w := ew
  have lw : w.lay.len = [(l0 : Int), N, d, d] := by
    have h1 := hw.shape
    obtain ⟨h2, h3⟩ := h1
    rw [show (View.mk v.off m4).lay.len = _ from l4] at h2 h3
    match hv : w.lay.len, h2 with
    | [a, b, c, e], _ =>
      rw [hv] at h3
      simp [memOrder] at h3
      obtain ⟨rfl, rfl, rfl, rfl⟩ := h3
      rfl
  have aw : ∀ i k a b : Int, 0 ≤ i → i < l0 → 0 ≤ k → k < N → 0 ≤ a → a < d → 0 ≤ b → b < d → addr w [i, k, a, b] = addr v [i, (k * d + b) * d + a] := by
    intro i k a b i0 i1 k0 k1 a0 a1 b0 b1
    have hi : InRange w.lay.len [i, k, a, b] := by rw [lw]; exact inRange4.mpr ⟨i, k, a, b, rfl, i0, i1, k0, k1, a0, a1, b0, b1⟩
    rw [show addr w [i, k, a, b] = _ from hw.offset _ hi]
    have : source (View.mk v.off m4).lay.len.length (.permute [0, 1, 3, 2]) [i, k, a, b] = [i, k, b, a] := rfl
    rw [this]
    show addr ⟨v.off, m4⟩ [i, k, b, a] = _
    have h1 : k * d + b < N * d := by nlinarith
    rw [addr4 s4, av i _ i0 i1 (by positivity) (by rw [hqi]; nlinarith), hqi]
    ring
  -- the new array
  obtain ⟨m, hm, e5, hlen⟩ := fresh_eq junk (so := [0, 1, 2, 3]) (len := [(l0 : Int), N, d, d]) (by decide) rfl (by intro x hx; simp at hx; omega) mem
  have sm := dense4 hm.wf hm.dense hm.len_eq hm.so_eq
  have hpr : (prod [(l0 : Int), N, d, d]) = l0 * q := by
    rw [show prod [(l0 : Int), (N : Int), (d : Int), (d : Int)] = l0 * (N * (d * (d * 1))) from rfl, hqi]; ring
  obtain ⟨mem3, e6, hu⟩ := assign_new (a := ⟨(mem.length : Int), m⟩) (rhs := .expr (fun idx mem => (load w idx mem).map (starRingEnd 𝕜))) (mem := mem) (mem2 := mem ++ List.replicate m.size.toNat junk)
    (x := fun idx => star (X (idx.getD 0 0) ((idx.getD 1 0 * d + idx.getD 3 0) * d + idx.getD 2 0))) (len := [(l0 : Int), N, d, d]) (by
      intro idx hi mem2 hm2
      obtain ⟨i, k, a, b, rfl, i0, i1, k0, k1, a0, a1, b0, b1⟩ := inRange4.mp hi
      beta_reduce
      have h1 : k * d + b < N * d := by nlinarith
      have h2 : 0 ≤ (k * d + b) * d + a := by positivity
      have h3 : (k * d + b) * d + a < q := by rw [hqi]; nlinarith
      have hin : InRange v.lay.len [i, (k * d + b) * d + a] := by rw [lv]; exact inRange2.mpr ⟨_, _, rfl, i0, i1, h2, h3⟩
      rw [load, element_eq hw.wf fw (by rw [lw]; exact hi), aw i k a b i0 i1 k0 k1 a0 a1 b0 b1]
      simp only [Option.bind_eq_bind, Option.bind_some]
      rw [rdInt_eq, hm2 _ (gv.fits _ hin).2, hX _ _ i0 i1 h2 h3]
      rfl) (hm.good _ (by rw [hlen])) hm.one hm.len_eq (by simp) (fun idx hi => (hm.above idx hi).1) (fun k hk => val_append_left _ hk) (by rw [hlen]; omega)
  -- as a matrix
  obtain ⟨m2, hm2⟩ := fresh_spec (so := [0, 1]) (len := [(l0 : Int), (q : Int)]) (by decide) rfl (nonneg2 (by omega) (by omega)) mem.length
  have hlm : LMat ⟨(mem.length : Int), m2⟩ l0 q mem3.length false q := fresh_lmat (f := false) hm2 (by omega) (by omega) b0 bq (by
    rw [hu.size, hlen, hpr]; simp [prod])
  have e7 : reshape .C ⟨(mem.length : Int), m⟩ [(l0 : Int), q] = some ⟨(mem.length : Int), m2⟩ := by
    rw [reshape, show ofPolicy .C [(l0 : Int), (q : Int)] = some m2 from hm2.eq]; rfl
  refine ⟨⟨(mem.length : Int), m2⟩, mem3, ?_, ⟨by rw [hu.size, hlen]; omega, fun k hk => ?_⟩, hlm, ?_, fun idx hi => (hm2.above idx hi).1⟩
  · simp only [innerAdjoint, r0, r1, orUb, lift, bind, Except.bind, pdd, if_false, t1, t2, ne_eq, not_true, e4, ew', lw, e5, e6, e7, pure, Except.pure]
  · rw [hu.frame k, val_append_left _ hk]
    exact not_occupies hm.len_eq (fun idx hi => (hm.above idx hi).1) hk
  · intro i c i0 i1 c0 c1
    obtain ⟨k0, k1, a0, a1, b0, b1, hc⟩ := split_col pd' c0 (by rw [← hqi]; exact c1)
    have hin : InRange [(l0 : Int), N, d, d] [i, c / (d * d), (c / d) % d, c % d] := inRange4.mpr ⟨_, _, _, _, rfl, i0, i1, k0, k1, a0, a1, b0, b1⟩
    have := hu.elems _ (by rw [show (View.mk (mem.length : Int) m).lay.len = _ from hm.len_eq]; exact hin)
    have hadd : addr ⟨(mem.length : Int), m⟩ [i, c / (d * d), (c / d) % d, c % d] = addr ⟨(mem.length : Int), m2⟩ [i, c] := by
      rw [hlm.addr_eq, addr4 sm]
      simp
      rw [hqi]
      linear_combination (-1 : Int) * hc
    rw [hadd] at this
    rw [this]
    rfl

/-! ### The stacked problem -/

/-- `A` above its conjugate. -/
def stackA (m : Nat) (A : Int → Int → 𝕜) : Int → Int → 𝕜 := fun i j => if i < m then A i j else star (A (i - m) j)

/-- `B` above its inner adjoint. -/
def stackB (m d : Nat) (B : Int → Int → 𝕜) : Int → Int → 𝕜 := fun i c => if i < m then B i c else star (B (i - m) (swapCol d c))

theorem sumSq_stack (m n d : Nat) (A B : Int → Int → 𝕜) (c c' : Nat) (hc : swapCol d c = c') (y : Fin n → 𝕜) :
    sumSq (toMat2 (m + m) n (stackA m A) *ᵥ y - column (stackB m d B) c) = sumSq (toMat2 m n A *ᵥ y - column B c) + sumSq (toMat2 m n A *ᵥ star y - column B c') := by
  unfold sumSq
  rw [Fin.sum_univ_add]
  congr 1
  · apply Finset.sum_congr rfl
    intro i _
    have : ((i : Nat) : Int) < m := by have := i.isLt; omega
    simp [toMat2, column, stackA, stackB, Matrix.mulVec, dotProduct, this]
  · apply Finset.sum_congr rfl
    intro i _
    have e : (toMat2 (m + m) n (stackA m A) *ᵥ y - column (stackB m d B) c : Fin (m + m) → 𝕜) (Fin.natAdd m i) = star ((toMat2 m n A *ᵥ star y - column B c' : Fin m → 𝕜) i) := by
      have : ¬ ((i : Nat) : Int) < 0 := by omega
      simp [toMat2, column, stackA, stackB, Matrix.mulVec, dotProduct, hc, this]
    rw [e, norm_star]

theorem fullRank_stack (m n : Nat) (A : Int → Int → 𝕜) : FullRank (toMat2 (m + m) n (stackA m A)) ↔ FullRankBoth (toMat2 m n A) := by
  have key : ∀ y : Fin n → 𝕜, toMat2 (m + m) n (stackA m A) *ᵥ y = 0 ↔ toMat2 m n A *ᵥ y = 0 ∧ toMat2 m n A *ᵥ star y = 0 := by
    intro y
    have z : ∀ {k : Nat} (v : Fin k → 𝕜), v = 0 ↔ sumSq v = 0 := by
      intro k v
      unfold sumSq
      rw [Finset.sum_eq_zero_iff_of_nonneg (fun i _ => by positivity)]
      simp [funext_iff]
    have h := sumSq_stack m n 0 A (fun _ _ => 0) 0 0 (by simp [swapCol]) y
    have c0 : ∀ k : Nat, column (m := k) (fun _ _ => (0 : 𝕜)) 0 = 0 := fun k => rfl
    have c1 : column (m := m + m) (stackB m 0 (fun _ _ => (0 : 𝕜))) 0 = 0 := by funext i; simp [column, stackB]
    rw [c0, c1, sub_zero, sub_zero, sub_zero] at h
    have nn : ∀ {k : Nat} (v : Fin k → 𝕜), 0 ≤ sumSq v := fun v => by unfold sumSq; positivity
    rw [z, z (toMat2 m n A *ᵥ y), z (toMat2 m n A *ᵥ star y), h]
    have h1 := nn (toMat2 m n A *ᵥ y)
    have h2 := nn (toMat2 m n A *ᵥ star y)
    constructor
    · intro h; constructor <;> linarith
    · rintro ⟨h3, h4⟩; linarith
  constructor
  · intro h x h1 h2; exact h x ((key x).mpr ⟨h1, h2⟩)
  · intro h x h1; exact h x ((key x).mp h1).1 ((key x).mp h1).2

theorem blockCol_lt {N d k a b : Nat} (hk : k < N) (ha : a < d) (hb : b < d) : blockCol d k a b < N * d * d := by
  unfold blockCol
  have : k * d + a < N * d := by nlinarith
  nlinarith

/-- The columns of the minimisers of the stacked problem are Hermitian. -/
theorem stack_hermitian {m n N d : Nat} {A B X : Int → Int → 𝕜}
    (h : ∀ j : Fin (N * d * d), Minimiser (toMat2 (m + m) n (stackA m A)) (column (stackB m d B) j) (column X j)) : HermitianBlocks n N d X := by
  intro i k a b
  have h1 := h ⟨blockCol d k a b, blockCol_lt k.isLt a.isLt b.isLt⟩
  have h2 := h ⟨blockCol d k b a, blockCol_lt k.isLt b.isLt a.isLt⟩
  simp only [] at h1 h2
  have s1 := fun y => sumSq_stack m n d A B _ _ (swapCol_block d k a b a.isLt b.isLt) y
  have s2 := fun y => sumSq_stack m n d A B _ _ (swapCol_block d k b a b.isLt a.isLt) y
  have e1 := (h1 (star (column X (blockCol d k b a)))).1
  have e2 := (h2 (star (column X (blockCol d k a b)))).1
  rw [s1, s1, star_star] at e1
  rw [s2, s2, star_star] at e2
  have e3 := (h1 (star (column X (blockCol d k b a)))).2 (by
    rw [s1, s1, star_star]
    linarith)
  have := congrFun e3 i
  exact this.symm

/-- They are minimal among all with Hermitian blocks. -/
theorem stack_minimal {m n N d : Nat} {A B X : Int → Int → 𝕜}
    (h : ∀ j : Fin (N * d * d), Minimiser (toMat2 (m + m) n (stackA m A)) (column (stackB m d B) j) (column X j)) {Y : Int → Int → 𝕜} (hY : HermitianBlocks n N d Y) :
    totalMisfit (toMat2 m n A) B X N d ≤ totalMisfit (toMat2 m n A) B Y N d ∧
    (totalMisfit (toMat2 m n A) B Y N d = totalMisfit (toMat2 m n A) B X N d → ∀ (i : Fin n) (k : Fin N) (a b : Fin d), Y i (blockCol d k a b) = X i (blockCol d k a b)) := by
  have hX := stack_hermitian h
  have star_col : ∀ {Z : Int → Int → 𝕜}, HermitianBlocks n N d Z → ∀ (k : Fin N) (a b : Fin d), star (column (m := n) Z (blockCol d k a b)) = column Z (blockCol d k b a) := by
    intro Z hZ k a b
    funext i
    exact (hZ i k b a).symm
  let F : (Int → Int → 𝕜) → Fin N → Fin d → Fin d → ℝ := fun Z k a b => sumSq (toMat2 (m + m) n (stackA m A) *ᵥ column Z (blockCol d k a b) - column (stackB m d B) (blockCol d k a b))
  have hF : ∀ {Z : Int → Int → 𝕜}, HermitianBlocks n N d Z → ∀ (k : Fin N) (a b : Fin d), F Z k a b = misfit (toMat2 m n A) B Z d k a b + misfit (toMat2 m n A) B Z d k b a := by
    intro Z hZ k a b
    show sumSq _ = _
    rw [sumSq_stack m n d A B _ _ (swapCol_block d k a b a.isLt b.isLt), star_col hZ]
    rfl
  have tot : ∀ {Z : Int → Int → 𝕜}, HermitianBlocks n N d Z → ∑ k : Fin N, ∑ a : Fin d, ∑ b : Fin d, F Z k a b = 2 * totalMisfit (toMat2 m n A) B Z N d := by
    intro Z hZ
    unfold totalMisfit
    rw [Finset.mul_sum]
    apply Finset.sum_congr rfl
    intro k _
    simp only [hF hZ, Finset.sum_add_distrib]
    rw [Finset.sum_comm (f := fun a b : Fin d => misfit (toMat2 m n A) B Z d k b a)]
    ring
  have le : ∀ (k : Fin N) (a b : Fin d), F X k a b ≤ F Y k a b := fun k a b => (h ⟨blockCol d k a b, blockCol_lt k.isLt a.isLt b.isLt⟩ (column Y (blockCol d k a b))).1
  have hsum : ∑ k : Fin N, ∑ a : Fin d, ∑ b : Fin d, F X k a b ≤ ∑ k : Fin N, ∑ a : Fin d, ∑ b : Fin d, F Y k a b :=
    Finset.sum_le_sum fun k _ => Finset.sum_le_sum fun a _ => Finset.sum_le_sum fun b _ => le k a b
  rw [tot hX, tot hY] at hsum
  refine ⟨by linarith, fun he i k a b => ?_⟩
  have heq : ∑ k : Fin N, ∑ a : Fin d, ∑ b : Fin d, F X k a b = ∑ k : Fin N, ∑ a : Fin d, ∑ b : Fin d, F Y k a b := by rw [tot hX, tot hY, he]
  have g1 := (Finset.sum_eq_sum_iff_of_le (fun k _ => Finset.sum_le_sum fun a _ => Finset.sum_le_sum fun b _ => le k a b)).mp heq k (Finset.mem_univ k)
  have g2 := (Finset.sum_eq_sum_iff_of_le (fun a _ => Finset.sum_le_sum fun b _ => le k a b)).mp g1 a (Finset.mem_univ a)
  have g3 := (Finset.sum_eq_sum_iff_of_le (fun b _ => le k a b)).mp g2 b (Finset.mem_univ b)
  exact congrFun ((h ⟨blockCol d k a b, blockCol_lt k.isLt a.isLt b.isLt⟩ (column Y (blockCol d k a b))).2 g3.symm) i

/-! ### The solver -/

/-- `vstack`, with the layout of the result. -/
theorem vstack_lmat {α : Type} (junk : α) (n q p : Int) (hn : 0 < n) (hq : 0 < q) (hp : 0 ≤ p) (b0 : n + p < 2147483648) (b1 : q < 2147483648) (a b : Rhs α) (mem : List α) (x y : List Int → α)
    (ha : Yields a [n, q] mem x) (hb : Yields b [p, q] mem y) :
    ∃ r mem', vstack junk n q p a b mem = some (r, mem') ∧ NewMatrix mem (n + p) q (fun i j => if i < n then x [i, j] else y [i - n, j]) r mem' ∧ LMat r (n + p) q mem'.length false q := by
  obtain ⟨r, mem', e, hN⟩ := C27_vstack junk n q p hn.le hq.le hp a b mem x y ha hb
  refine ⟨r, mem', e, hN, ?_⟩
  obtain ⟨m, hm, e1, hlen⟩ := fresh_eq junk (so := [0, 1]) (len := [n + p, q]) (by decide) rfl (nonneg2 (by omega) (by omega)) mem
  have hr : r = ⟨(mem.length : Int), m⟩ := by
    simp only [vstack, e1, Option.bind_eq_bind, Option.bind_some] at e
    simp only [Option.bind_eq_some_iff, Option.pure_def, Option.some.injEq, Prod.mk.injEq] at e
    obtain ⟨_, -, _, -, _, -, _, -, _, -, _, -, rfl, -⟩ := e
    rfl
  have := fresh_lmat (f := false) hm (by omega) hq b0 b1 (le_refl _)
  rw [hr] at hN ⊢
  exact { this with good := hN.good }

theorem NewMatrix.of {α : Type} {r : View} {n0 n1 : Int} {f : Bool} {ld : Int} {mem mem' : List α} {x : Int → Int → α} (h : LMat r n0 n1 mem'.length f ld) (he : Entries r n0 n1 mem' x) (hx : Ext mem mem')
    (ha : ∀ idx, InRange [n0, n1] idx → (mem.length : Int) ≤ addr r idx) : NewMatrix mem n0 n1 x r mem' :=
  ⟨h.good, h.len, h.one, he, ha, hx.old, hx.grow⟩

variable [DecidableEq 𝕜]

theorem solveHermitian_eq (junk : 𝕜) {m n N d q : Nat} (pn : 0 < n) (hnm : n ≤ m) (pN : 0 < N) (pd : 0 < d) (hq : q = N * d * d) (bm : ((m + m : Nat) : Int) < 2147483648) (bq : (q : Int) < 2147483648)
    {A : Int → Int → 𝕜} (hA : FullRankBoth (toMat2 m n A)) {w : Worker ℝ} {mem : List 𝕜} (hw : Solver (m + m) n (toMat2 (m + m) n (stackA m A)) w mem)
    {b : View} (gb : Good b mem.length) (lb : b.lay.len = [(m : Int), (q : Int)]) (ab : ∀ i j : Int, 0 ≤ i → i < m → 0 ≤ j → j < q → addr b [i, j] = b.off + (i * q + j))
    {B : Int → Int → 𝕜} (hB : Entries b m q mem B) :
    ∃ x err mem' X, solveHermitian (Norm.exact 𝕜) (1 / 2) junk w b (some d) mem = .ok (x, err, mem') ∧ NewMatrix mem n q X x mem' ∧
      (∀ j : Fin (N * d * d), Minimiser (toMat2 (m + m) n (stackA m A)) (column (stackB m d B) j) (column X j)) ∧
      IsLargest (fun j : Fin (N * d * d) => Real.sqrt (sumSq (toMat2 (m + m) n (stackA m A) *ᵥ column X j - column (stackB m d B) j)) / Real.sqrt ((m + m : Nat) : ℝ)) err := by
  have pm : 0 < m := by omega
  have pq : 0 < q := by rw [hq]; positivity
  have bn : (n : Int) < 2147483648 := by omega
  have r0 : rd b.lay.len 0 = some (m : Int) := by rw [lb]; rfl
  have r1 : rd b.lay.len 1 = some (q : Int) := by rw [lb]; rfl
  obtain ⟨bd, mem1, e1, x1, lbd, hbd, -⟩ := innerAdjoint_eq junk .Cstride (Or.inr rfl) pm pN pd hq (by omega) bq gb lb ab hB
  obtain ⟨bs, mem2, e2, n2, lbs⟩ := vstack_lmat junk (m : Int) (q : Int) (m : Int) (by omega) (by omega) (by omega) (by push_cast at bm; exact bm) bq (.inMem b false) (.inMem bd false) mem1
    (fun idx => B (idx.getD 0 0) (idx.getD 1 0)) (fun idx => star (B (idx.getD 0 0) (swapCol d (idx.getD 1 0))))
    ⟨gb.mono x1.grow, lb, by simp, fun idx hi => by
      obtain ⟨i, j, rfl, h1, h2, h3, h4⟩ := inRange2.mp hi
      exact Entries.ext hB lb gb.fits x1 i j h1 h2 h3 h4⟩
    ⟨lbd.good, lbd.len, by simp, fun idx hi => by
      obtain ⟨i, j, rfl, h1, h2, h3, h4⟩ := inRange2.mp hi
      exact hbd i j h1 h2 h3 h4⟩
  have x2 : Ext mem mem2 := x1.trans ⟨n2.grow, n2.old⟩
  rw [← Int.natCast_add] at lbs
  have hbs : Entries bs ((m + m : Nat) : Int) q mem2 (stackB m d B) := by
    intro i j h1 h2 h3 h4
    exact n2.entry i j h1 (by push_cast at h2; exact h2) h3 h4
  obtain ⟨x, err, mem3, X, e3, x3, n3, lx, hmin, hl⟩ := solve_eq junk pn (by omega) pq ((fullRank_stack m n A).mpr hA) (hw.ext x2) lbs hbs
  have hXe : Entries x n q mem3 X := n3.entry
  obtain ⟨xd, mem4, e4, x4, lxd, hxd, -⟩ := innerAdjoint_eq junk .C (Or.inl rfl) pn pN pd hq bn bq lx.good lx.len (fun i j _ _ _ _ => by rw [lx.addr_eq]; simp; ring) hXe
  subst hq
  have hH := stack_hermitian hmin
  have hsym : ∀ (i j : Int), 0 ≤ i → i < n → 0 ≤ j → j < ((N * d * d : Nat) : Int) → star (X i (swapCol d j)) = X i j := by
    intro i j i0 i1 j0 j1
    obtain ⟨k0, k1, a0, a1, b0, b1, hj⟩ := split_col (d := d) (N := N) (by omega) j0 (by push_cast at j1; exact j1)
    obtain ⟨i, rfl⟩ := Int.eq_ofNat_of_zero_le i0
    obtain ⟨k, hk⟩ := Int.eq_ofNat_of_zero_le k0
    obtain ⟨a, ha⟩ := Int.eq_ofNat_of_zero_le a0
    obtain ⟨b, hb⟩ := Int.eq_ofNat_of_zero_le b0
    have hj' : j = (blockCol d k a b : Nat) := by
      rw [hj, hk, ha, hb]; unfold blockCol; push_cast; ring
    rw [hj', swapCol_block d k a b (by omega) (by omega)]
    exact (hH ⟨i, by omega⟩ ⟨k, by omega⟩ ⟨a, by omega⟩ ⟨b, by omega⟩).symm
  obtain ⟨r, mem5, e5, x5, lr, hr, ar⟩ := newMatrix_eq junk false (n0 := n) (n1 := ((N * d * d : Nat) : Int)) (by omega) (by omega) bn bq (mem0 := mem4) (mem := mem4)
    (rhs := .expr (fun idx mem => do
      let a ← load x idx mem
      let b ← load xd idx mem
      return (1 / 2 : 𝕜) * (a + b))) (x := X) (by
      intro idx hi mm hm
      obtain ⟨i, j, rfl, i0, i1, j0, j1⟩ := inRange2.mp hi
      beta_reduce
      have hlen : mem4.length ≤ mm.length := length_of_agree hm
      have lx4 := lx.mono x4.grow
      rw [load_eq (lx4.mono hlen).good (by rw [lx.len]; exact hi), load_eq (lxd.mono hlen).good (by rw [lxd.len]; exact hi), hm _ (lx4.good.fits _ (by rw [lx.len]; exact hi)).2,
        hm _ (lxd.good.fits _ (by rw [lxd.len]; exact hi)).2, hxd i j i0 i1 j0 j1, Entries.ext hXe lx.len lx.good.fits x4 i j i0 i1 j0 j1]
      beta_reduce
      rw [hsym i j i0 i1 j0 j1]
      simp only [Option.bind_eq_bind, Option.bind_some, Option.pure_def, List.getD_cons_zero, List.getD_cons_succ]
      rw [show (1 / 2 : 𝕜) * (X i j + X i j) = X i j by ring]) (Ext.refl mem4)
  have xall : Ext mem mem4 := x2.trans (x3.trans x4)
  refine ⟨r, err, mem5, X, ?_, NewMatrix.of lr hr (xall.trans x5) (fun idx hi => le_trans (by exact_mod_cast xall.grow) (ar idx hi)), hmin, hl⟩
  have rx0 : rd x.lay.len 0 = some (n : Int) := by rw [lx.len]; rfl
  have rx1 : rd x.lay.len 1 = some ((N * d * d : Nat) : Int) := by rw [lx.len]; rfl
  have e1' : innerAdjoint (Norm.exact 𝕜).conj junk .Cstride d b mem = .ok (bd, mem1) := e1
  have e4' : innerAdjoint (Norm.exact 𝕜).conj junk .C d x mem3 = .ok (xd, mem4) := e4
  have e5' := e5
  simp only [if_false, Bool.false_eq_true] at e5'
  simp only [solveHermitian, r0, r1, orUb, lift, bind, Except.bind, e1', e2, e3, e4', rx0, rx1, pure, Except.pure]
  simp only [Option.bind_eq_bind, Option.pure_def] at e5'
  rw [show (fun (idx : List Int) (mem : List 𝕜) => (load x idx mem).bind fun a => (load xd idx mem).bind fun b => some (1 / 2 * (a + b))) = _ from rfl] at e5'
  rw [e5']

theorem workerHermitian_eq {D : Drivers 𝕜 ℝ} (hD : GesvdOK D) (junk : 𝕜) {m n : Nat} (pn : 0 < n) (hnm : n ≤ m) (bm : ((m + m : Nat) : Int) < 2147483648)
    {a : View} {mem : List 𝕜} (ga : Good a mem.length) (la : a.lay.len = [(m : Int), (n : Int)]) {A : Int → Int → 𝕜} (hA : Entries a m n mem A) :
    (FullRankBoth (toMat2 m n A) ∧ ∃ w mem', workerHermitian (starRingEnd 𝕜) (fun x : ℝ => (x : 𝕜)) D junk a mem = .ok (w, mem') ∧ Ext mem mem' ∧
      Solver (m + m) n (toMat2 (m + m) n (stackA m A)) w mem') ∨
    (¬ FullRankBoth (toMat2 m n A) ∧ workerHermitian (starRingEnd 𝕜) (fun x : ℝ => (x : 𝕜)) D junk a mem = .error .infinite) ∨
    (workerHermitian (starRingEnd 𝕜) (fun x : ℝ => (x : 𝕜)) D junk a mem = .error (.call .runtime) ∧
      ∃ m' a lda u ldu vt ldvt mem1 mem2 sv info, D.gesvd m' n a lda u ldu vt ldvt mem1 = .ok (mem2, sv, info) ∧ info ≠ 0) := by
  have pm : 0 < m := by omega
  have r0 : rd a.lay.len 0 = some (m : Int) := by rw [la]; rfl
  have r1 : rd a.lay.len 1 = some (n : Int) := by rw [la]; rfl
  -- what is left to do once the first solver is there
  have rest : ∀ mem1, Ext mem mem1 → ∃ st mem2, vstack junk (m : Int) n m (.inMem a false) (.expr (fun idx mem => (load a idx mem).map (starRingEnd 𝕜))) mem1 = some (st, mem2) ∧ Ext mem mem2 ∧
      Good st mem2.length ∧ st.lay.len = [((m + m : Nat) : Int), (n : Int)] ∧ Entries st ((m + m : Nat) : Int) n mem2 (stackA m A) := by
    intro mem1 x1
    have hA1 := Entries.ext hA la ga.fits x1
    obtain ⟨st, mem2, e, hN⟩ := C27_vstack junk (m : Int) n m (by omega) (by omega) (by omega) (.inMem a false) (.expr (fun idx mem => (load a idx mem).map (starRingEnd 𝕜))) mem1
      (fun idx => A (idx.getD 0 0) (idx.getD 1 0)) (fun idx => star (A (idx.getD 0 0) (idx.getD 1 0)))
      ⟨ga.mono x1.grow, la, by simp, fun idx hi => by
        obtain ⟨i, j, rfl, h1, h2, h3, h4⟩ := inRange2.mp hi
        exact hA1 i j h1 h2 h3 h4⟩
      (fun idx hi mm hm => by
        obtain ⟨i, j, rfl, h1, h2, h3, h4⟩ := inRange2.mp hi
        beta_reduce
        rw [load_eq ((ga.mono x1.grow).mono (length_of_agree hm)) (by rw [la]; exact hi), hm _ ((ga.mono x1.grow).fits _ (by rw [la]; exact hi)).2, hA1 i j h1 h2 h3 h4]
        rfl)
    refine ⟨st, mem2, e, x1.trans ⟨hN.grow, hN.old⟩, hN.good, by rw [hN.len]; push_cast; rfl, ?_⟩
    intro i j h1 h2 h3 h4
    exact hN.entry i j h1 (by push_cast at h2; exact h2) h3 h4
  have hred : (∃ mem1, Ext mem mem1 ∧ workerHermitian (starRingEnd 𝕜) (fun x : ℝ => (x : 𝕜)) D junk a mem = (do
        let (st, mem) ← lift (orUb (vstack junk (m : Int) n m (.inMem a false) (.expr (fun idx mem => (load a idx mem).map (starRingEnd 𝕜))) mem1))
        worker (starRingEnd 𝕜) (fun x : ℝ => (x : 𝕜)) true D junk st mem)) ∨ (workerHermitian (starRingEnd 𝕜) (fun x : ℝ => (x : 𝕜)) D junk a mem = .error (.call .runtime) ∧
      ∃ a lda u ldu vt ldvt mem1 mem2 sv info, D.gesvd m n a lda u ldu vt ldvt mem1 = .ok (mem2, sv, info) ∧ info ≠ 0) := by
    rcases worker_eq hD junk true (fun h => by cases h) pn hnm (by omega) ga la hA with ⟨-, w, mem1, e, hx, -⟩ | ⟨-, e⟩ | ⟨e, h⟩
    · exact Or.inl ⟨mem1, hx, by simp only [workerHermitian, r0, r1, orUb, lift, bind, Except.bind, e, pure, Except.pure, throw, throwThe, MonadExceptOf.throw]⟩
    · exact Or.inl ⟨mem, Ext.refl mem, by simp only [workerHermitian, r0, r1, orUb, lift, bind, Except.bind, e, pure, Except.pure, throw, throwThe, MonadExceptOf.throw]⟩
    · exact Or.inr ⟨by simp only [workerHermitian, r0, r1, orUb, lift, bind, Except.bind, e, pure, Except.pure, throw, throwThe, MonadExceptOf.throw], h⟩
  rcases hred with ⟨mem1, x1, hk⟩ | ⟨e, h⟩
  · obtain ⟨st, mem2, e, x2, gst, lst, hst⟩ := rest mem1 x1
    have hk' : workerHermitian (starRingEnd 𝕜) (fun x : ℝ => (x : 𝕜)) D junk a mem = worker (starRingEnd 𝕜) (fun x : ℝ => (x : 𝕜)) true D junk st mem2 := by
      rw [hk, e]; rfl
    rw [hk']
    rcases worker_eq hD junk true (fun h => by cases h) pn (by omega) bm gst lst hst with ⟨hf, w, mem', e, hx, hw⟩ | ⟨hf, e⟩ | ⟨e, h⟩
    · exact Or.inl ⟨(fullRank_stack m n A).mp hf, w, mem', e, x2.trans hx, hw⟩
    · exact Or.inr (Or.inl ⟨fun h => hf ((fullRank_stack m n A).mpr h), e⟩)
    · exact Or.inr (Or.inr ⟨e, _, h⟩)
  · exact Or.inr (Or.inr ⟨e, (m : Int), h⟩)

/-- C60.  For a matrix `A` with at least as many rows as columns such that `A x = 0`, `A (conj x) = 0` only for `x = 0` (in particular if the columns are linearly independent): for a contiguous right-hand side
with `N` blocks of `d` by `d` numbers in each row, now or later, the new matrix has Hermitian blocks and is the only minimiser of `‖A X - B‖` among those; the error is the largest, over the columns,
of `√((‖A x - b‖² + ‖A x' - b'‖²) / 2m)` where `x'`, `b'` belong to the transposed element. -/
theorem C60_hermitian (D : Drivers 𝕜 ℝ) (hD : GesvdOK D) (junk : 𝕜) (m n : Nat) (pn : 0 < n) (hnm : n ≤ m) (bm : ((m + m : Nat) : Int) < 2147483648)
    (a : View) (mem : List 𝕜) (ga : Good a mem.length) (la : a.lay.len = [(m : Int), (n : Int)]) (A : Int → Int → 𝕜) (hA : Entries a m n mem A) :
    (FullRankBoth (toMat2 m n A) ∧ ∃ w mem', workerHermitian (starRingEnd 𝕜) (fun x : ℝ => (x : 𝕜)) D junk a mem = .ok (w, mem') ∧ Ext mem mem' ∧
      ∀ (mem1 : List 𝕜) (b : View) (N d : Nat) (B : Int → Int → 𝕜), Ext mem' mem1 → 0 < N → 0 < d → ((N * d * d : Nat) : Int) < 2147483648 → Good b mem1.length →
        b.lay.len = [(m : Int), ((N * d * d : Nat) : Int)] → (∀ i j : Int, 0 ≤ i → i < m → 0 ≤ j → j < (N * d * d : Nat) → addr b [i, j] = b.off + (i * (N * d * d : Nat) + j)) →
        Entries b m (N * d * d : Nat) mem1 B →
        ∃ x err mem2 X, solveHermitian (Norm.exact 𝕜) (1 / 2) junk w b (some d) mem1 = .ok (x, err, mem2) ∧ NewMatrix mem1 n (N * d * d : Nat) X x mem2 ∧ HermitianBlocks n N d X ∧
          (∀ Y, HermitianBlocks n N d Y → totalMisfit (toMat2 m n A) B X N d ≤ totalMisfit (toMat2 m n A) B Y N d ∧
            (totalMisfit (toMat2 m n A) B Y N d = totalMisfit (toMat2 m n A) B X N d → ∀ (i : Fin n) (k : Fin N) (a b : Fin d), Y i (blockCol d k a b) = X i (blockCol d k a b))) ∧
          (∃ (k : Fin N) (a b : Fin d), Real.sqrt (misfit (toMat2 m n A) B X d k a b + misfit (toMat2 m n A) B X d k b a) / Real.sqrt (2 * m) = err) ∧
          (∀ (k : Fin N) (a b : Fin d), Real.sqrt (misfit (toMat2 m n A) B X d k a b + misfit (toMat2 m n A) B X d k b a) / Real.sqrt (2 * m) ≤ err)) ∨
    (¬ FullRankBoth (toMat2 m n A) ∧ workerHermitian (starRingEnd 𝕜) (fun x : ℝ => (x : 𝕜)) D junk a mem = .error .infinite) ∨
    (workerHermitian (starRingEnd 𝕜) (fun x : ℝ => (x : 𝕜)) D junk a mem = .error (.call .runtime) ∧
      ∃ m' a lda u ldu vt ldvt mem1 mem2 sv info, D.gesvd m' n a lda u ldu vt ldvt mem1 = .ok (mem2, sv, info) ∧ info ≠ 0) := by
  rcases workerHermitian_eq hD junk pn hnm bm ga la hA with ⟨hf, w, mem', e, hx, hw⟩ | h | h
  · refine Or.inl ⟨hf, w, mem', e, hx, ?_⟩
    intro mem1 b N d B x1 pN pd bq gb lb ab hB
    obtain ⟨x, err, mem2, X, e2, n2, hmin, hl, hle⟩ := solveHermitian_eq junk pn hnm pN pd rfl bm bq hf (hw.ext x1) gb lb ab hB
    have hH := stack_hermitian hmin
    have hval : ∀ (k : Fin N) (a b : Fin d), sumSq (toMat2 (m + m) n (stackA m A) *ᵥ column X (blockCol d k a b) - column (stackB m d B) (blockCol d k a b)) =
        misfit (toMat2 m n A) B X d k a b + misfit (toMat2 m n A) B X d k b a := by
      intro k a b
      have hs : star (column (m := n) X (blockCol d k a b)) = column X (blockCol d k b a) := by
        funext i
        exact (hH i k b a).symm
      rw [sumSq_stack m n d A B _ _ (swapCol_block d k a b a.isLt b.isLt), hs]
      rfl
    have hmm : (((m + m : Nat) : ℝ)) = 2 * m := by push_cast; ring
    rw [hmm] at hl hle
    refine ⟨x, err, mem2, X, e2, n2, hH, fun Y hY => stack_minimal hmin hY, ?_, fun k a b => ?_⟩
    · obtain ⟨j, hj⟩ := hl
      have hjl := j.isLt
      obtain ⟨k0, k1, a0, a1, b0, b1, hjj⟩ := split_col (d := d) (c := (j : Nat)) (N := N) (by omega) (by omega) (by exact_mod_cast hjl)
      obtain ⟨k, hk⟩ := Int.eq_ofNat_of_zero_le k0
      obtain ⟨a, ha⟩ := Int.eq_ofNat_of_zero_le a0
      obtain ⟨b, hb⟩ := Int.eq_ofNat_of_zero_le b0
      have hj' : (j : Nat) = blockCol d k a b := by
        rw [hk, ha, hb] at hjj
        unfold blockCol
        exact_mod_cast hjj
      refine ⟨⟨k, by omega⟩, ⟨a, by omega⟩, ⟨b, by omega⟩, ?_⟩
      rw [← hj, ← hval]
      simp only [hj']
    · have := hle ⟨blockCol d k a b, blockCol_lt k.isLt a.isLt b.isLt⟩
      beta_reduce at this
      rw [hval] at this
      exact this
  · exact Or.inr (Or.inl h)
  · exact Or.inr (Or.inr h)

/-- The inner dimension must be given. -/
theorem C60_dimension_required (junk half : 𝕜) (w : Worker ℝ) (b : View) (mem : List 𝕜) : solveHermitian (Norm.exact 𝕜) half junk w b none mem = .error (.call .runtime) := rfl

/-- The number of columns must be a multiple of `d * d`. -/
theorem C60_shape_checked (junk half : 𝕜) (w : Worker ℝ) (b : View) (m q d : Int) (lb : b.lay.len = [m, q]) (hd : d ≠ 0) (hq : ¬ d * d ∣ q) (mem : List 𝕜) :
    solveHermitian (Norm.exact 𝕜) half junk w b (some d) mem = .error (.call .runtime) := by
  have r0 : rd b.lay.len 0 = some m := by rw [lb]; rfl
  have r1 : rd b.lay.len 1 = some q := by rw [lb]; rfl
  have h1 : ¬ d * d = 0 := by simp [hd]
  have h2 : ¬ Int.tmod q (d * d) = 0 := fun h => hq (Int.dvd_of_tmod_eq_zero h)
  simp only [solveHermitian, innerAdjoint, r0, r1, orUb, lift, bind, Except.bind, h1, if_false, ne_eq, h2, not_false_iff, if_true, throw, throwThe, MonadExceptOf.throw]

/-- `inner_adjoint` of a row with stride 2 reads the elements in between (the debug check of `reshape` would notice). -/
theorem C60_strided_witness : (innerAdjoint (id : Int → Int) 0 .Cstride 1 ⟨0, ⟨[1, 2], [4, 2], [0, 1], [0, 0], .none⟩⟩ [1, 2, 3]).toOption.map (fun r => (val r.2 (addr r.1 [0, 0]), val r.2 (addr r.1 [0, 1]))) =
    some (some 1, some 2) ∧ val [(1 : Int), 2, 3] (addr ⟨0, ⟨[1, 2], [4, 2], [0, 1], [0, 0], .none⟩⟩ [0, 1]) = some 3 := by decide +kernel

/-- With `A = 1`, the best Hermitian block for `(1, 2; 4, 5)` is `(1, 3; 3, 5)`. -/
example (D : Drivers ℝ ℝ) (hD : GesvdOK D) (w : Worker ℝ) (mem' : List ℝ)
    (e : workerHermitian (starRingEnd ℝ) (fun x : ℝ => x) D 0 ⟨0, ⟨[1, 1], [1, 1], [0, 1], [0, 0], .contiguous⟩⟩ [1, 1, 2, 4, 5] = .ok (w, mem')) :
    ∃ x err mem2, solveHermitian (Norm.exact ℝ) (1 / 2) 0 w ⟨1, ⟨[1, 4], [4, 1], [0, 1], [0, 0], .none⟩⟩ (some 2) mem' = .ok (x, err, mem2) ∧ val mem2 (addr x [0, 1]) = some 3 := by
  have hA : Entries ⟨0, ⟨[1, 1], [1, 1], [0, 1], [0, 0], .contiguous⟩⟩ 1 1 [1, 1, 2, 4, 5] (fun _ _ => (1 : ℝ)) := by
    intro i j h1 h2 h3 h4
    obtain rfl : j = 0 := by omega
    obtain rfl : i = 0 := by omega
    rfl
  rcases C60_hermitian D hD 0 1 1 (by decide) (by decide) (by decide) ⟨0, ⟨[1, 1], [1, 1], [0, 1], [0, 0], .contiguous⟩⟩ [1, 1, 2, 4, 5]
    (good_of (by decide) (by decide) (by decide) (by decide) (by decide) 1 (by decide) (by decide) (by decide)) rfl _ hA with ⟨-, w', mem1, e', hx, h⟩ | ⟨-, e'⟩ | ⟨e', -⟩
  · have e2 := e.symm.trans e'
    simp only [Except.ok.injEq, Prod.mk.injEq] at e2
    obtain ⟨rfl, rfl⟩ := e2
    have hg : 5 ≤ mem'.length := hx.grow
    obtain ⟨x, err, mem2, X, e3, n3, hH, hmin, -⟩ := h mem' ⟨1, ⟨[1, 4], [4, 1], [0, 1], [0, 0], .none⟩⟩ 1 2 (fun _ j => if j = 0 then (1 : ℝ) else if j = 1 then 2 else if j = 2 then 4 else 5) (Ext.refl _)
      (by decide) (by decide) (by decide) (good_of (by decide) (by decide) (by decide) (by decide) (by decide) 1 (by decide) (by decide) (by
        intro idx hi
        have : ∀ idx ∈ box [(1 : Int), 4], 0 ≤ addr ⟨1, ⟨[1, 4], [4, 1], [0, 1], [0, 0], .none⟩⟩ idx ∧ addr ⟨1, ⟨[1, 4], [4, 1], [0, 1], [0, 0], .none⟩⟩ idx < 5 := by decide
        have := this idx hi
        omega)) rfl (by intro i j _ _ _ _; simp [addr, Spec.dot]; ring) (by
        intro i j h1 h2 h3 h4
        obtain rfl : i = 0 := by omega
        have h4 : j < 4 := h4
        obtain rfl | rfl | rfl | rfl : j = 0 ∨ j = 1 ∨ j = 2 ∨ j = 3 := by omega
        · rw [hx.old _ (by decide)]; rfl
        · rw [hx.old _ (by decide)]; rfl
        · rw [hx.old _ (by decide)]; rfl
        · rw [hx.old _ (by decide)]; rfl)
    refine ⟨x, err, mem2, e3, ?_⟩
    rw [n3.entry 0 1 (by decide) (by decide) (by decide) (by decide)]
    have h12 : X 0 1 = X 0 2 := hH 0 0 0 1
    have := (hmin (fun _ j => if j = 0 then 1 else if j = 3 then 5 else 3) (by
      intro i k a b
      fin_cases k; fin_cases a <;> fin_cases b <;> simp [blockCol])).1
    simp [totalMisfit, misfit, sumSq, Fin.sum_univ_two, blockCol, toMat2, Matrix.mulVec, dotProduct] at this
    rw [← h12] at this
    congr 1
    nlinarith [sq_nonneg (X 0 1 - 3), sq_nonneg (X 0 0 - 1), sq_nonneg (X 0 3 - 5)]
  · have e2 := e.symm.trans e'; cases e2
  · have e2 := e.symm.trans e'; cases e2

end Nda.Linalg
