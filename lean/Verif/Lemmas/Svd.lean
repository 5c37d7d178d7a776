import Verif.Spec.LeastSquares
import Mathlib.Analysis.InnerProductSpace.PiL2
import Verif.Props.Eigen
/-!
# Singular value decompositions and least squares
-/
namespace Nda.Linalg
open Nda Nda.Spec
open _root_.Matrix (diagonal)
open scoped _root_.Matrix

variable {𝕜 : Type} [RCLike 𝕜]

/-- The matrix with `1/σ` on the diagonal. -/
noncomputable def sigmaInv (n m : Nat) (s : List ℝ) : Matrix (Fin n) (Fin m) 𝕜 := fun i j => if (i : Nat) = j then ((1 / s.getD i 0 : ℝ) : 𝕜) else 0

/-- `V Σ⁻¹ Uᴴ`. -/
noncomputable def pseudo {m n : Nat} (U : Matrix (Fin m) (Fin m) 𝕜) (s : List ℝ) (Vt : Matrix (Fin n) (Fin n) 𝕜) : Matrix (Fin n) (Fin m) 𝕜 := Vtᴴ * sigmaInv n m s * Uᴴ

theorem sumSq_eq {m : Nat} (v : Fin m → 𝕜) : ((sumSq v : ℝ) : 𝕜) = star v ⬝ᵥ v := by
  unfold sumSq dotProduct
  push_cast
  apply Finset.sum_congr rfl
  intro i _
  rw [Pi.star_apply, RCLike.star_def, RCLike.conj_mul]

theorem sumSq_nonneg {m : Nat} (v : Fin m → 𝕜) : 0 ≤ sumSq v := Finset.sum_nonneg (fun i _ => by positivity)

theorem sumSq_zero {m : Nat} {v : Fin m → 𝕜} (h : sumSq v = 0) : v = 0 := by
  funext i
  have := (Finset.sum_eq_zero_iff_of_nonneg (fun i _ => by positivity)).mp h i (Finset.mem_univ i)
  simpa using this

theorem sumSq_unitary {m : Nat} {U : Matrix (Fin m) (Fin m) 𝕜} (h : Uᴴ * U = 1) (v : Fin m → 𝕜) : sumSq (U *ᵥ v) = sumSq v := by
  have : ((sumSq (U *ᵥ v) : ℝ) : 𝕜) = (sumSq v : ℝ) := by
    rw [sumSq_eq, sumSq_eq, Matrix.star_mulVec, ← Matrix.dotProduct_mulVec, Matrix.mulVec_mulVec, h, Matrix.one_mulVec]
  exact_mod_cast this

/-- Normal equations. -/
theorem minimiser_of_normal {m n : Nat} {A : Matrix (Fin m) (Fin n) 𝕜} {b : Fin m → 𝕜} {x : Fin n → 𝕜} (hA : FullRank A) (h : Aᴴ *ᵥ (A *ᵥ x - b) = 0) : Minimiser A b x := by
  intro y
  have key : sumSq (A *ᵥ y - b) = sumSq (A *ᵥ (y - x)) + sumSq (A *ᵥ x - b) := by
    have e : A *ᵥ y - b = A *ᵥ (y - x) + (A *ᵥ x - b) := by rw [Matrix.mulVec_sub]; abel
    have h1 : star (A *ᵥ (y - x)) ⬝ᵥ (A *ᵥ x - b) = 0 := by
      rw [Matrix.star_mulVec, ← Matrix.dotProduct_mulVec, h, dotProduct_zero]
    have h2 : star (A *ᵥ x - b) ⬝ᵥ (A *ᵥ (y - x)) = 0 := by
      have := congrArg star h1
      rw [Matrix.star_dotProduct, star_star, star_zero] at this
      rw [Matrix.star_dotProduct]
      simpa [h1] using this
    have : ((sumSq (A *ᵥ y - b) : ℝ) : 𝕜) = ((sumSq (A *ᵥ (y - x)) + sumSq (A *ᵥ x - b) : ℝ) : 𝕜) := by
      rw [e]
      rw [RCLike.ofReal_add, sumSq_eq, sumSq_eq, sumSq_eq, star_add, add_dotProduct, dotProduct_add, dotProduct_add, h1, h2]
      ring
    exact_mod_cast this
  refine ⟨?_, fun he => ?_⟩
  · rw [key]
    have := sumSq_nonneg (A *ᵥ (y - x))
    linarith
  · rw [key] at he
    have h0 : sumSq (A *ᵥ (y - x)) = 0 := by linarith
    exact sub_eq_zero.mp (hA _ (sumSq_zero h0))

section SVD
variable {m n : Nat} {A : Matrix (Fin m) (Fin n) 𝕜} {U : Matrix (Fin m) (Fin m) 𝕜} {s : List ℝ} {Vt : Matrix (Fin n) (Fin n) 𝕜}

theorem left' (h : SingularDecomposition A U s Vt) : U * Uᴴ = 1 := mul_eq_one_comm.mp h.left
theorem right' (h : SingularDecomposition A U s Vt) : Vt * Vtᴴ = 1 := mul_eq_one_comm.mp h.right

theorem getD_pos (h : SingularDecomposition A U s Vt) (hnm : n ≤ m) (h0 : ∀ x ∈ s, x ≠ 0) (i : Fin n) : s.getD i 0 ≠ 0 := by
  have hi : (i : Nat) < s.length := by rw [h.size]; have := i.isLt; omega
  rw [List.getD_eq_getElem?_getD, List.getElem?_eq_getElem hi]
  exact h0 _ (List.getElem_mem hi)

/-- `Σ Σ⁻¹` is the identity on the first `n` coordinates. -/
theorem sigma_mul_inv (h : SingularDecomposition A U s Vt) (hnm : n ≤ m) (h0 : ∀ x ∈ s, x ≠ 0) :
    (sigma m n s * sigmaInv n m s : Matrix (Fin m) (Fin m) 𝕜) = diagonal (fun i : Fin m => if (i : Nat) < n then 1 else 0) := by
  ext i j
  rw [Matrix.mul_apply, Matrix.diagonal_apply]
  by_cases hi : (i : Nat) < n
  · rw [Finset.sum_eq_single (⟨i, hi⟩ : Fin n)]
    · by_cases hij : i = j
      · subst hij
        have := getD_pos h hnm h0 ⟨i, hi⟩
        simp only at this
        simp only [sigma, sigmaInv, if_true, hi]
        rw [← RCLike.ofReal_mul, mul_one_div_cancel this, RCLike.ofReal_one]
      · have : (i : Nat) ≠ j := fun h => hij (Fin.ext h)
        simp [sigmaInv, hij, this]
    · intro k _ hk
      have : (i : Nat) ≠ k := fun h => hk (Fin.ext h.symm)
      simp [sigma, this]
    · simp
  · rw [Finset.sum_eq_zero]
    · simp [hi]
    · intro k _
      have : (i : Nat) ≠ k := by have := k.isLt; omega
      simp [sigma, this]

theorem inv_mul_sigma (h : SingularDecomposition A U s Vt) (hnm : n ≤ m) (h0 : ∀ x ∈ s, x ≠ 0) : (sigmaInv n m s * sigma m n s : Matrix (Fin n) (Fin n) 𝕜) = 1 := by
  ext i j
  rw [Matrix.mul_apply, Matrix.one_apply, Finset.sum_eq_single (⟨i, by have := i.isLt; omega⟩ : Fin m)]
  · by_cases hij : i = j
    · subst hij
      have := getD_pos h hnm h0 i
      simp only [sigma, sigmaInv, if_true]
      rw [← RCLike.ofReal_mul, one_div_mul_cancel this, RCLike.ofReal_one]
    · have : (i : Nat) ≠ j := fun h => hij (Fin.ext h)
      simp [sigma, hij, this]
  · intro k _ hk
    have : (i : Nat) ≠ k := fun h => hk (Fin.ext h.symm)
    simp [sigmaInv, this]
  · simp

/-- All singular values are nonzero exactly if the columns are independent. -/
theorem fullRank_iff (h : SingularDecomposition A U s Vt) (hnm : n ≤ m) : FullRank A ↔ ∀ x ∈ s, x ≠ 0 := by
  constructor
  · intro hA x hx h0
    subst h0
    obtain ⟨i, hi, he⟩ := List.mem_iff_getElem.mp hx
    have hin : i < n := by rw [h.size] at hi; omega
    let e : Fin n → 𝕜 := Pi.single ⟨i, hin⟩ 1
    have h1 : A *ᵥ (Vtᴴ *ᵥ e) = 0 := by
      rw [Matrix.mulVec_mulVec, h.product, Matrix.mul_assoc, right' h, Matrix.mul_one, ← Matrix.mulVec_mulVec]
      have : (sigma m n s : Matrix (Fin m) (Fin n) 𝕜) *ᵥ e = 0 := by
        funext k
        simp only [e, Matrix.mulVec_single_one, Matrix.col_apply, sigma, Pi.zero_apply]
        by_cases hk : (k : Nat) = i
        · rw [if_pos hk, hk, List.getD_eq_getElem?_getD, List.getElem?_eq_getElem hi, he]; simp
        · rw [if_neg hk]
      rw [this, Matrix.mulVec_zero]
    have h2 := hA _ h1
    have h3 : e = 0 := by
      have := congrArg (Vt *ᵥ ·) h2
      simp only [Matrix.mulVec_mulVec, right' h, Matrix.one_mulVec, Matrix.mulVec_zero] at this
      exact this
    have := congrFun h3 ⟨i, hin⟩
    simp [e] at this
  · intro h0 x hx
    have : pseudo U s Vt * A = 1 := by
      rw [pseudo, h.product]
      calc Vtᴴ * (sigmaInv n m s : Matrix (Fin n) (Fin m) 𝕜) * Uᴴ * (U * (sigma m n s : Matrix (Fin m) (Fin n) 𝕜) * Vt) = Vtᴴ * ((sigmaInv n m s : Matrix (Fin n) (Fin m) 𝕜) * (Uᴴ * U) * (sigma m n s : Matrix (Fin m) (Fin n) 𝕜)) * Vt := by simp only [Matrix.mul_assoc]
        _ = 1 := by rw [h.left, Matrix.mul_one, inv_mul_sigma h hnm h0, Matrix.mul_one, h.right]
    have h2 := congrArg (pseudo U s Vt *ᵥ ·) hx
    simpa [Matrix.mulVec_mulVec, this] using h2

/-- What is left of `b`. -/
theorem residual_eq (h : SingularDecomposition A U s Vt) (hnm : n ≤ m) (h0 : ∀ x ∈ s, x ≠ 0) (b : Fin m → 𝕜) :
    A *ᵥ (pseudo U s Vt *ᵥ b) - b = - (U *ᵥ (diagonal (fun i : Fin m => if (i : Nat) < n then (0 : 𝕜) else 1) *ᵥ (Uᴴ *ᵥ b))) := by
  have e : A * pseudo U s Vt = U * diagonal (fun i : Fin m => if (i : Nat) < n then (1 : 𝕜) else 0) * Uᴴ := by
    rw [pseudo, ← sigma_mul_inv h hnm h0]
    nth_rw 1 [h.product]
    calc U * (sigma m n s : Matrix (Fin m) (Fin n) 𝕜) * Vt * (Vtᴴ * (sigmaInv n m s : Matrix (Fin n) (Fin m) 𝕜) * Uᴴ) = U * ((sigma m n s : Matrix (Fin m) (Fin n) 𝕜) * (Vt * Vtᴴ) * (sigmaInv n m s : Matrix (Fin n) (Fin m) 𝕜)) * Uᴴ := by simp only [Matrix.mul_assoc]
      _ = _ := by rw [right' h, Matrix.mul_one]
  have e1 : (1 : Matrix (Fin m) (Fin m) 𝕜) = diagonal (fun i : Fin m => if (i : Nat) < n then (1 : 𝕜) else 0) + diagonal (fun i : Fin m => if (i : Nat) < n then (0 : 𝕜) else 1) := by
    rw [Matrix.diagonal_add, ← Matrix.diagonal_one]
    congr 1
    funext i
    split_ifs <;> simp
  have e2 : (1 : Matrix (Fin m) (Fin m) 𝕜) = U * diagonal (fun i : Fin m => if (i : Nat) < n then (1 : 𝕜) else 0) * Uᴴ + U * diagonal (fun i : Fin m => if (i : Nat) < n then (0 : 𝕜) else 1) * Uᴴ := by
    rw [← Matrix.add_mul, ← Matrix.mul_add, ← e1, Matrix.mul_one, left' h]
  rw [Matrix.mulVec_mulVec, e, Matrix.mulVec_mulVec, Matrix.mulVec_mulVec]
  have e3 := congrArg (· *ᵥ b) e2
  simp only [Matrix.one_mulVec, Matrix.add_mulVec] at e3
  linear_combination -e3

theorem pseudo_minimiser (h : SingularDecomposition A U s Vt) (hnm : n ≤ m) (h0 : ∀ x ∈ s, x ≠ 0) (b : Fin m → 𝕜) : Minimiser A b (pseudo U s Vt *ᵥ b) := by
  apply minimiser_of_normal ((fullRank_iff h hnm).mpr h0)
  rw [residual_eq h hnm h0, Matrix.mulVec_neg, neg_eq_zero, Matrix.mulVec_mulVec, Matrix.mulVec_mulVec]
  have : Aᴴ * U * diagonal (fun i : Fin m => if (i : Nat) < n then (0 : 𝕜) else 1) = 0 := by
    rw [h.product, Matrix.conjTranspose_mul, Matrix.conjTranspose_mul, Matrix.mul_assoc, Matrix.mul_assoc, Matrix.mul_assoc, ← Matrix.mul_assoc Uᴴ, h.left, Matrix.one_mul]
    have : (sigma m n s : Matrix (Fin m) (Fin n) 𝕜)ᴴ * diagonal (fun i : Fin m => if (i : Nat) < n then (0 : 𝕜) else 1) = 0 := by
      ext i j
      rw [Matrix.mul_diagonal, Matrix.conjTranspose_apply]
      by_cases hj : (j : Nat) < n
      · simp [hj]
      · have : (j : Nat) ≠ i := by have := i.isLt; omega
        simp [sigma, this]
    rw [this, Matrix.mul_zero]
  rw [this, Matrix.zero_mulVec]

theorem residual_sumSq (h : SingularDecomposition A U s Vt) (hnm : n ≤ m) (h0 : ∀ x ∈ s, x ≠ 0) (b : Fin m → 𝕜) :
    sumSq (A *ᵥ (pseudo U s Vt *ᵥ b) - b) = ∑ i : Fin (m - n), ‖∑ k : Fin m, star (U k ⟨n + i, by have := i.isLt; omega⟩) * b k‖ ^ 2 := by
  have hneg : ∀ v : Fin m → 𝕜, sumSq (-v) = sumSq v := fun v => by simp [sumSq]
  rw [residual_eq h hnm h0, hneg, sumSq_unitary h.left]
  unfold sumSq
  have e : ∀ i : Fin m, ‖(diagonal (fun i : Fin m => if (i : Nat) < n then (0 : 𝕜) else 1) *ᵥ (Uᴴ *ᵥ b)) i‖ ^ 2 = if (i : Nat) < n then 0 else ‖∑ k : Fin m, star (U k i) * b k‖ ^ 2 := by
    intro i
    rw [Matrix.mulVec_diagonal]
    split_ifs
    · simp
    · rw [one_mul]; rfl
  rw [Finset.sum_congr rfl (fun i _ => e i)]
  obtain ⟨d, rfl⟩ := Nat.exists_eq_add_of_le hnm
  rw [Fin.sum_univ_add]
  have hz : ∑ i : Fin n, (if ((Fin.castAdd d i : Fin (n + d)) : Nat) < n then (0 : ℝ) else ‖∑ k : Fin (n + d), star (U k (Fin.castAdd d i)) * b k‖ ^ 2) = 0 :=
    Finset.sum_eq_zero (fun i _ => by simp)
  rw [hz, zero_add]
  have hd : d = n + d - n := by omega
  apply Fintype.sum_equiv (finCongr hd)
  intro i
  rw [if_neg (by simp)]
  rfl

end SVD

/-! ### Every matrix has a singular value decomposition -/

/-- Columns of `V`, as vectors. -/
theorem exists_svd {m n : Nat} (A : Matrix (Fin m) (Fin n) 𝕜) : ∃ U s Vt, SingularDecomposition A U s Vt := by
  obtain ⟨ev, Z, hZ⟩ := exists_decomposition (Matrix.isHermitian_conjTranspose_mul_self A)
  -- descending order
  let lam : Fin n → ℝ := fun j => ev.getD (Fin.rev j) 0
  let V : Matrix (Fin n) (Fin n) 𝕜 := Z.submatrix id Fin.rev
  have hV : Vᴴ * V = 1 := by
    have : Vᴴ * V = (Zᴴ * Z).submatrix Fin.rev Fin.rev := by
      ext i j
      simp [V, Matrix.mul_apply]
    rw [this, hZ.unitary]
    exact Matrix.submatrix_one_equiv Fin.revPerm
  have hV' : V * Vᴴ = 1 := mul_eq_one_comm.mp hV
  have hAV : Aᴴ * A * V = V * diagonal (fun j => ((lam j : ℝ) : 𝕜)) := by
    have h := congrArg (fun M : Matrix (Fin n) (Fin n) 𝕜 => M.submatrix id Fin.rev) hZ.vectors
    ext i j
    have h2 := congrFun (congrFun h i) j
    simp only [Matrix.submatrix_apply, id, Matrix.mul_diagonal] at h2
    rw [Matrix.mul_diagonal]
    simpa [V, lam, Matrix.mul_apply] using h2
  have hG : (A * V)ᴴ * (A * V) = diagonal (fun j => ((lam j : ℝ) : 𝕜)) := by
    rw [Matrix.conjTranspose_mul, Matrix.mul_assoc, ← Matrix.mul_assoc Aᴴ, hAV, ← Matrix.mul_assoc, hV, Matrix.one_mul]
  have hcol : ∀ i j, star (fun k => (A * V) k i) ⬝ᵥ (fun k => (A * V) k j) = if i = j then ((lam i : ℝ) : 𝕜) else 0 := by
    intro i j
    have := congrFun (congrFun hG i) j
    rw [Matrix.mul_apply, Matrix.diagonal_apply] at this
    simpa [dotProduct] using this
  have hnn : ∀ j, 0 ≤ lam j := by
    intro j
    have h := hcol j j
    rw [if_pos rfl, ← sumSq_eq] at h
    have : sumSq (fun k => (A * V) k j) = lam j := by exact_mod_cast h
    rw [← this]
    exact sumSq_nonneg _
  have hanti : ∀ i j : Fin n, i ≤ j → lam j ≤ lam i := by
    intro i j hij
    have h1 : (Fin.rev j : Nat) ≤ Fin.rev i := Fin.rev_le_rev.mpr hij
    have hli : (Fin.rev i : Nat) < ev.length := by rw [hZ.size]; exact (Fin.rev i).isLt
    have hlj : (Fin.rev j : Nat) < ev.length := by rw [hZ.size]; exact (Fin.rev j).isLt
    simp only [lam, List.getD_eq_getElem?_getD, List.getElem?_eq_getElem hli, List.getElem?_eq_getElem hlj, Option.getD_some]
    rcases Nat.lt_or_eq_of_le h1 with h | h
    · exact List.pairwise_iff_getElem.mp hZ.ascending _ _ hlj hli h
    · exact le_of_eq (by congr 1)
  let sg : Fin n → ℝ := fun j => Real.sqrt (lam j)
  have hsg : ∀ j, sg j * sg j = lam j := fun j => Real.mul_self_sqrt (hnn j)
  have hsganti : ∀ i j : Fin n, i ≤ j → sg j ≤ sg i := fun i j h => Real.sqrt_le_sqrt (hanti i j h)
  -- left singular vectors
  let w : Fin n → EuclideanSpace 𝕜 (Fin m) := fun j => WithLp.toLp 2 (fun k => ((1 / sg j : ℝ) : 𝕜) * (A * V) k j)
  have hw : ∀ i j : Fin n, sg i ≠ 0 → sg j ≠ 0 → inner 𝕜 (w i) (w j) = if i = j then (1 : 𝕜) else 0 := by
    intro i j hi hj
    have h := hcol i j
    have e : inner 𝕜 (w i) (w j) = ((1 / sg i : ℝ) : 𝕜) * ((1 / sg j : ℝ) : 𝕜) * (star (fun k => (A * V) k i) ⬝ᵥ (fun k => (A * V) k j)) := by
      simp only [w, PiLp.inner_apply, dotProduct, Finset.mul_sum, Pi.star_apply]
      apply Finset.sum_congr rfl
      intro k _
      rw [RCLike.inner_apply, map_mul, RCLike.conj_ofReal, RCLike.star_def]
      ring
    rw [e, h]
    by_cases hij : i = j
    · subst hij
      rw [if_pos rfl, if_pos rfl, ← hsg i, ← RCLike.ofReal_mul, ← RCLike.ofReal_mul]
      have : 1 / sg i * (1 / sg i) * (sg i * sg i) = 1 := by field_simp
      rw [this, RCLike.ofReal_one]
    · rw [if_neg hij, if_neg hij, mul_zero]
  have hsmall : ∀ j : Fin n, sg j ≠ 0 → (j : Nat) < m := by
    intro j hj
    by_contra hc
    have hc : m ≤ j := by omega
    let g : Fin (m + 1) → Fin n := fun k => ⟨k, by have := k.isLt; have := j.isLt; omega⟩
    have hgp : ∀ k, sg (g k) ≠ 0 := by
      intro k
      have h1 : sg j ≤ sg (g k) := hsganti _ _ (by show (k : Nat) ≤ j; have := k.isLt; omega)
      have h2 : 0 ≤ sg j := Real.sqrt_nonneg _
      have h3 : 0 < sg j := lt_of_le_of_ne h2 (Ne.symm hj)
      linarith
    have ho : Orthonormal 𝕜 (fun k => w (g k)) := by
      rw [orthonormal_iff_ite]
      intro a b
      rw [hw _ _ (hgp a) (hgp b)]
      by_cases hab : a = b
      · subst hab; simp
      · have : g a ≠ g b := fun h => hab (Fin.ext (by simpa [g] using h))
        simp [hab, this]
    have := ho.linearIndependent.fintype_card_le_finrank
    simp at this
  let v : Fin m → EuclideanSpace 𝕜 (Fin m) := fun i => if h : (i : Nat) < n then w ⟨i, h⟩ else 0
  let S : Set (Fin m) := {i | ∃ h : (i : Nat) < n, sg ⟨i, h⟩ ≠ 0}
  have hS : Orthonormal 𝕜 (S.domRestrict v) := by
    rw [orthonormal_iff_ite]
    rintro ⟨i, hi, hi'⟩ ⟨j, hj, hj'⟩
    simp only [Set.domRestrict_apply, v, hi, hj, dif_pos]
    rw [hw _ _ hi' hj']
    by_cases hij : i = j
    · subst hij; simp
    · have : (i : Nat) ≠ j := fun h => hij (Fin.ext h)
      simp [hij, this]
  obtain ⟨b, hb⟩ := hS.exists_orthonormalBasis_extension_of_card_eq (by simp)
  let U : Matrix (Fin m) (Fin m) 𝕜 := fun k i => b i k
  have hU : Uᴴ * U = 1 := by
    ext i j
    have h := orthonormal_iff_ite.mp b.orthonormal i j
    rw [Matrix.mul_apply, Matrix.one_apply, ← h, PiLp.inner_apply]
    apply Finset.sum_congr rfl
    intro k _
    rw [RCLike.inner_apply, Matrix.conjTranspose_apply, RCLike.star_def, mul_comm]
  let s : List ℝ := List.ofFn (fun i : Fin (min m n) => sg ⟨i, by have := i.isLt; omega⟩)
  refine ⟨U, s, Vᴴ, ⟨by simp [s], ?_, ?_, hU, by rw [Matrix.conjTranspose_conjTranspose, hV'], ?_⟩⟩
  · intro x hx
    obtain ⟨i, rfl⟩ := (List.mem_ofFn' _ _).mp hx
    exact Real.sqrt_nonneg _
  · rw [List.pairwise_ofFn]
    intro i j hij
    exact hsganti _ _ (le_of_lt hij)
  · have key : A * V = U * sigma m n s := by
      ext k j
      rw [Matrix.mul_apply (M := U)]
      by_cases hjm : (j : Nat) < m
      · rw [Finset.sum_eq_single (⟨j, hjm⟩ : Fin m)]
        · have hsj : s.getD j 0 = sg j := by
            have : (j : Nat) < min m n := by have := j.isLt; omega
            simp [s, List.getD_eq_getElem?_getD, List.getElem?_ofFn, this]
          simp only [sigma, if_true, hsj]
          by_cases h0 : sg j = 0
          · have hz : lam j = 0 := by rw [← hsg j, h0, mul_zero]
            have h := hcol j j
            rw [if_pos rfl, hz, ← sumSq_eq] at h
            have h : sumSq (fun k => (A * V) k j) = 0 := by exact_mod_cast h
            have := congrFun (sumSq_zero h) k
            simp only [Pi.zero_apply] at this
            rw [this, h0]
            simp
          · have := hb ⟨j, hjm⟩ ⟨j.isLt, h0⟩
            show _ = b ⟨j, hjm⟩ k * _
            rw [this]
            simp only [v, j.isLt, dif_pos, w]
            rw [mul_comm, ← mul_assoc, ← RCLike.ofReal_mul, mul_one_div_cancel h0, RCLike.ofReal_one, one_mul]
        · intro i _ hi
          have : (i : Nat) ≠ j := fun h => hi (Fin.ext h)
          simp [sigma, this]
        · simp
      · rw [Finset.sum_eq_zero]
        · have h0 : sg j = 0 := by
            by_contra h
            exact hjm (hsmall j h)
          have hz : lam j = 0 := by rw [← hsg j, h0, mul_zero]
          have h := hcol j j
          rw [if_pos rfl, hz, ← sumSq_eq] at h
          have h : sumSq (fun k => (A * V) k j) = 0 := by exact_mod_cast h
          exact congrFun (sumSq_zero h) k
        · intro i _
          have : (i : Nat) ≠ j := by have := i.isLt; omega
          simp [sigma, this]
    rw [← key, Matrix.mul_assoc, hV', Matrix.mul_one]

end Nda.Linalg
