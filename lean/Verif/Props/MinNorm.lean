import Verif.Props.Svd
import Verif.Spec.MinNorm
/-!
# C62: least squares with dependent columns
-/
namespace Nda.Linalg
open Nda Nda.Spec LayoutTransforms Assign Loops Nda.Matrix Blas
open scoped _root_.Matrix

variable {𝕜 : Type} [RCLike 𝕜]

theorem pythagoras {m : Nat} {u v : Fin m → 𝕜} (h : star u ⬝ᵥ v = 0) : sumSq (u + v) = sumSq u + sumSq v := by
  have h2 : star v ⬝ᵥ u = 0 := by
    have := congrArg star h
    rw [Matrix.star_dotProduct, star_star, star_zero] at this
    rw [Matrix.star_dotProduct]
    simpa [h] using this
  have : ((sumSq (u + v) : ℝ) : 𝕜) = ((sumSq u + sumSq v : ℝ) : 𝕜) := by
    rw [RCLike.ofReal_add, sumSq_eq, sumSq_eq, sumSq_eq, star_add, add_dotProduct, dotProduct_add, dotProduct_add, h, h2]
    ring
  exact_mod_cast this

theorem smallest_of_normal {m n : Nat} {A : Matrix (Fin m) (Fin n) 𝕜} {b : Fin m → 𝕜} {x : Fin n → 𝕜} {w : Fin m → 𝕜} (h : Aᴴ *ᵥ (A *ᵥ x - b) = 0) (hx : x = Aᴴ *ᵥ w) : SmallestMinimiser A b x := by
  intro y
  have key : sumSq (A *ᵥ y - b) = sumSq (A *ᵥ (y - x)) + sumSq (A *ᵥ x - b) := by
    have e : A *ᵥ y - b = A *ᵥ (y - x) + (A *ᵥ x - b) := by rw [Matrix.mulVec_sub]; abel
    rw [e]
    exact pythagoras (by rw [Matrix.star_mulVec, ← Matrix.dotProduct_mulVec, h, dotProduct_zero])
  refine ⟨?_, fun he => ?_⟩
  · rw [key]
    have := sumSq_nonneg (A *ᵥ (y - x))
    linarith
  · rw [key] at he
    have h0 : A *ᵥ (y - x) = 0 := sumSq_zero (by linarith)
    have e : sumSq y = sumSq (y - x) + sumSq x := by
      have e : y = (y - x) + x := by abel
      conv_lhs => rw [e]
      apply pythagoras
      have : star (y - x) ᵥ* Aᴴ = star (A *ᵥ (y - x)) := (Matrix.star_mulVec A (y - x)).symm
      calc star (y - x) ⬝ᵥ x = star (y - x) ⬝ᵥ (Aᴴ *ᵥ w) := by rw [← hx]
        _ = 0 := by rw [Matrix.dotProduct_mulVec, this, h0]; simp
    refine ⟨?_, fun h1 => ?_⟩
    · have := sumSq_nonneg (y - x)
      linarith
    · exact sub_eq_zero.mp (sumSq_zero (by linarith))

/-- The pseudo-inverse gives the smallest minimiser, whatever the rank. -/
theorem pseudo_smallest {m n : Nat} {U : Matrix (Fin m) (Fin m) 𝕜} {s : List ℝ} {Vt : Matrix (Fin n) (Fin n) 𝕜} (hs : s.length = min m n) (hU : Uᴴ * U = 1) (hV : Vtᴴ * Vt = 1) (b : Fin m → 𝕜) :
    SmallestMinimiser (U * sigma m n s * Vt) b (pseudo U s Vt *ᵥ b) := by
  have hV' : Vt * Vtᴴ = 1 := mul_eq_one_comm.mp hV
  have k1 : (sigma m n s : Matrix (Fin m) (Fin n) 𝕜)ᴴ * sigma m n s * sigmaInv n m s = (sigma m n s)ᴴ := by
    rw [sigma_sq hs]
    ext i j
    rw [Matrix.diagonal_mul, Matrix.conjTranspose_apply]
    by_cases h : (i : Nat) = j
    · simp only [sigmaInv, sigma, if_pos h, if_pos h.symm, RCLike.star_def, RCLike.conj_ofReal]
      rw [← RCLike.ofReal_mul, ← h]
      congr 1
      by_cases hz : s.getD i 0 = 0
      · rw [hz]; simp
      · field_simp
    · have h' : ¬ (j : Nat) = i := fun e => h e.symm
      simp [sigmaInv, sigma, h, h']
  have k2 : (sigma m n s : Matrix (Fin m) (Fin n) 𝕜)ᴴ * _root_.Matrix.diagonal (fun i : Fin m => ((1 / (s.getD i 0) ^ 2 : ℝ) : 𝕜)) = sigmaInv n m s := by
    ext i j
    rw [Matrix.mul_diagonal, Matrix.conjTranspose_apply]
    by_cases h : (i : Nat) = j
    · simp only [sigmaInv, sigma, if_pos h, if_pos h.symm, RCLike.star_def, RCLike.conj_ofReal]
      rw [← RCLike.ofReal_mul, ← h]
      congr 1
      by_cases hz : s.getD i 0 = 0
      · rw [hz]; simp
      · field_simp
    · have h' : ¬ (j : Nat) = i := fun e => h e.symm
      simp [sigmaInv, sigma, h, h']
  generalize hS : (sigma m n s : Matrix (Fin m) (Fin n) 𝕜) = S at *
  generalize hP : (sigmaInv n m s : Matrix (Fin n) (Fin m) 𝕜) = P at *
  refine smallest_of_normal (w := (U * _root_.Matrix.diagonal (fun i : Fin m => ((1 / (s.getD i 0) ^ 2 : ℝ) : 𝕜)) * Uᴴ) *ᵥ b) ?_ ?_
  · rw [Matrix.mulVec_sub, sub_eq_zero, Matrix.mulVec_mulVec, Matrix.mulVec_mulVec]
    congr 1
    rw [pseudo, hP, Matrix.conjTranspose_mul, Matrix.conjTranspose_mul]
    calc Vtᴴ * (Sᴴ * Uᴴ) * (U * S * Vt) * (Vtᴴ * P * Uᴴ) = Vtᴴ * Sᴴ * (Uᴴ * U) * S * (Vt * Vtᴴ) * P * Uᴴ := by simp only [Matrix.mul_assoc]
      _ = Vtᴴ * (Sᴴ * S * P) * Uᴴ := by rw [hU, hV']; simp only [Matrix.mul_one, Matrix.mul_assoc]
      _ = Vtᴴ * (Sᴴ * Uᴴ) := by rw [k1, Matrix.mul_assoc]
  · rw [Matrix.mulVec_mulVec]
    congr 1
    rw [pseudo, hP, Matrix.conjTranspose_mul, Matrix.conjTranspose_mul]
    generalize _root_.Matrix.diagonal (fun i : Fin m => ((1 / (s.getD i 0) ^ 2 : ℝ) : 𝕜)) = E at *
    calc Vtᴴ * P * Uᴴ = Vtᴴ * (Sᴴ * E) * Uᴴ := by rw [k2]
      _ = Vtᴴ * Sᴴ * (Uᴴ * U) * E * Uᴴ := by rw [hU]; simp only [Matrix.mul_one, Matrix.mul_assoc]
      _ = Vtᴴ * (Sᴴ * Uᴴ) * (U * E * Uᴴ) := by simp only [Matrix.mul_assoc]

theorem cut_length (c : ℝ) (s : List ℝ) : (cut c s).length = s.length := by simp [cut]

theorem cut_eq {c : ℝ} {s : List ℝ} (h : ∀ x ∈ s, x = 0 ∨ c * s.headD 0 < x) : cut c s = s := by
  unfold cut
  conv_rhs => rw [← List.map_id s]
  apply List.map_congr_left
  intro x hx
  rcases h x hx with rfl | h
  · simp
  · rw [if_neg (not_le.mpr h)]; rfl

/-- The addresses of the first `q` rows. -/
theorem inBlock_rows {v : View} {n r ml q : Nat} {ld : Int} (h : LMat v n r ml true ld) (k : Int) :
    InBlock v.off ld q r k ↔ ∃ i j : Int, 0 ≤ i ∧ i < q ∧ 0 ≤ j ∧ j < r ∧ addr v [i, j] = k := by
  constructor
  · rintro ⟨i, j, e⟩
    exact ⟨i, j, by omega, by omega, by omega, by omega, by rw [addrF h, e]⟩
  · rintro ⟨i, j, h1, h2, h3, h4, e⟩
    obtain ⟨i, rfl⟩ := Int.eq_ofNat_of_zero_le h1
    obtain ⟨j, rfl⟩ := Int.eq_ofNat_of_zero_le h3
    rw [addrF h] at e
    exact ⟨⟨i, by omega⟩, ⟨j, by omega⟩, e⟩

/-- C62.  For matrices in Fortran order that do not overlap, where `b` has at least `m` and at least `n` rows: after a successful call, the array for the singular values begins with those of `A`, the first `n`
rows of `b` hold for each right-hand side the shortest of the vectors that minimise `‖A' x - b‖`, where `A'` is `A` with its singular values up to `rcond` times the largest one set to zero.  If no other singular
values than zero have been left out, `A' = A`.  An error if and only if LAPACK reports one.  Nothing is written outside `a` and these rows of `b`. -/
theorem C62_gelss_partial (D : Drivers 𝕜 ℝ) (hD : GelssOK D) (a b : View) (m n p r : Nat) (pm : 0 < m) (pn : 0 < n) (hm : m ≤ p) (hn : n ≤ p) (mem : List 𝕜) (ha : BlasMatrix a m n) (hb : BlasMatrix b p r)
    (oa : a.lay.so = [1, 0]) (ob : b.lay.so = [1, 0]) (ga : Good a mem.length) (gb : Good b mem.length) (hs : Separate a b) (A B : Int → Int → 𝕜) (hA : Entries a m n mem A) (hB : Entries b m r mem B)
    (s : List ℝ) (c : ℝ) (hc : 0 ≤ c) :
    ∃ la lb mem' sv rank info, D.gelss m n r a.off la b.off lb c mem = .ok (mem', sv, rank, info) ∧
      (info = 0 → gelss D a b s c mem = .ok (sv ++ s.drop (min m n), rank, mem') ∧ mem'.length = mem.length ∧
        (∀ k, ¬ Occupies a k → (¬ ∃ i j : Int, 0 ≤ i ∧ i < max m n ∧ 0 ≤ j ∧ j < r ∧ addr b [i, j] = k) → val mem' k = val mem k) ∧
        ∃ (U : Matrix (Fin m) (Fin m) 𝕜) (Vt : Matrix (Fin n) (Fin n) 𝕜) (X : Int → Int → 𝕜), SingularDecomposition (toMat2 m n A) U sv Vt ∧ rank = kept c sv ∧ Entries b n r mem' X ∧
          (∀ j : Fin r, SmallestMinimiser (U * sigma m n (cut c sv) * Vt) (fun i : Fin m => B i j) (fun i : Fin n => X i j)) ∧
          ((∀ x ∈ sv, x = 0 ∨ c * sv.headD 0 < x) → ∀ j : Fin r, SmallestMinimiser (toMat2 m n A) (fun i : Fin m => B i j) (fun i : Fin n => X i j))) ∧
      (info ≠ 0 → gelss D a b s c mem = .error .runtime) := by
  obtain ⟨f, la, ha, hf⟩ := ha.lmat ga
  obtain rfl := hf.mpr oa
  obtain ⟨f, lb, hb, hf⟩ := hb.lmat gb
  obtain rfl := hf.mpr ob
  have w1 : (m : Int) ≤ la := by simpa using ha.wide
  have w2 : (p : Int) ≤ lb := by simpa using hb.wide
  have hrows : ∀ {q : Nat}, q ≤ p → ∀ k, InBlock b.off lb q r k → Occupies b k := by
    intro q hq k hk
    obtain ⟨i, j, h1, h2, h3, h4, e⟩ := (inBlock_rows hb k).mp hk
    exact ⟨[i, j], by rw [hb.len, inRange2]; exact ⟨i, j, rfl, h1, by omega, h3, h4⟩, e⟩
  have hBm : ColMajor2 b.off lb m r mem (toMat2 m r B) := by
    intro i j
    rw [← addrF hb]
    exact hB i j (by omega) (by omega) (by omega) (by omega)
  obtain ⟨mem', sv, rank, info, e, hlen, hfr, hok⟩ := hD m n r a.off la b.off lb c mem (toMat2 m n A) (toMat2 m r B) pm pn ha.b0 ha.b1 hb.b1 w1 ha.ldb (by omega) hb.ldb hc (colMajor2_of ha hA) hBm
    (fun k hk => by
      obtain ⟨idx, hi, e⟩ := hrows (by omega) k hk
      have := hb.good.fits idx hi
      rw [← e]
      unfold val
      rw [if_neg (by omega), List.getElem?_eq_getElem (by omega)]
      rfl)
    (fun k ⟨h1, h2⟩ => by
      obtain ⟨idx, hi, e1⟩ := (inBlock_iff ha k).mp h1
      obtain ⟨jdx, hj, e2⟩ := hrows (by omega) k h2
      exact hs idx jdx hi hj (e1.trans e2.symm))
  have t1 : toInt32 (m : Int) = m := toInt32_id (Int.natCast_nonneg m) ha.b0
  have t2 : toInt32 (n : Int) = n := toInt32_id (Int.natCast_nonneg n) ha.b1
  have t3 : toInt32 (r : Int) = r := toInt32_id (Int.natCast_nonneg r) hb.b1
  have r0 : rd a.lay.len 0 = some (m : Int) := by rw [ha.len]; rfl
  have r1 : rd a.lay.len 1 = some (n : Int) := by rw [ha.len]; rfl
  have r2 : rd b.lay.len 1 = some (r : Int) := by rw [hb.len]; rfl
  have hmin : (min (m : Int) (n : Int)).toNat = min m n := by omega
  refine ⟨la, lb, mem', sv, rank, info, e, fun h0 => ?_, fun h0 => ?_⟩
  · obtain ⟨U, Vt, X, hS, hr, hX, hmn⟩ := hok h0
    refine ⟨?_, hlen, fun k h1 h2 => hfr k (fun h => h1 ((inBlock_iff ha k).mp h)) (fun h => h2 ?_), U, Vt, ofMat2 X, hS, hr, ?_, ?_, ?_⟩
    · simp only [gelss, ha.hasF_eq, hb.hasF_eq, r0, r1, r2, ha.ld_eq, hb.ld_eq, t1, t2, t3, e, h0, orUb, bind, Except.bind, pure, Except.pure, hmin]
      rfl
    · obtain ⟨i, j, a1, a2, a3, a4, a5⟩ := (inBlock_rows hb k).mp h
      exact ⟨i, j, a1, by omega, a3, a4, a5⟩
    · intro i j h1 h2 h3 h4
      obtain ⟨i, rfl⟩ := Int.eq_ofNat_of_zero_le h1
      obtain ⟨j, rfl⟩ := Int.eq_ofNat_of_zero_le h3
      have := hX ⟨i, by omega⟩ ⟨j, by omega⟩
      rw [← addrF hb] at this
      rw [this]
      exact congrArg some (ofMat2_apply X ⟨i, by omega⟩ ⟨j, by omega⟩).symm
    · intro j
      have : (fun i : Fin n => ofMat2 X (i : Int) (j : Int)) = fun i => X i j := by funext i; exact ofMat2_apply X i j
      rw [this]
      exact hmn j
    · intro hall j
      have : (fun i : Fin n => ofMat2 X (i : Int) (j : Int)) = fun i => X i j := by funext i; exact ofMat2_apply X i j
      rw [this, hS.product]
      have := hmn j
      rwa [cut_eq hall] at this
  · simp only [gelss, ha.hasF_eq, hb.hasF_eq, r0, r1, r2, ha.ld_eq, hb.ld_eq, t1, t2, t3, e, orUb, bind, Except.bind, pure, Except.pure, ne_eq, h0, not_false_eq_true, if_true]
    rfl

omit [RCLike 𝕜] in
/-- Matrices in C order are refused at compile time. -/
theorem C62_gelss_rejects (D : Drivers 𝕜 ℝ) (a b : View) (m n p r : Int) (s : List ℝ) (c : ℝ) (mem : List 𝕜) (ha : BlasMatrix a m n) (hb : BlasMatrix b p r) (ga : Good a mem.length) (gb : Good b mem.length)
    (h : a.lay.so = [0, 1] ∨ b.lay.so = [0, 1]) : gelss D a b s c mem = .error .compile := by
  obtain ⟨f, la, ha, hf⟩ := ha.lmat ga
  obtain ⟨f', lb, hb, hf'⟩ := hb.lmat gb
  have : (f && f') = false := by
    rcases h with h | h
    · have : f = false := by rw [← Bool.not_eq_true]; rw [hf, h]; decide
      simp [this]
    · have : f' = false := by rw [← Bool.not_eq_true]; rw [hf', h]; decide
      simp [this]
  simp only [gelss, ha.hasF_eq, hb.hasF_eq, this]
  rfl

/-- There is such a LAPACK routine. -/
theorem C62_gelss_exists (D0 : Drivers 𝕜 ℝ) : ∃ D : Drivers 𝕜 ℝ, GelssOK D ∧ D.heev = D0.heev ∧ D.gtsv = D0.gtsv ∧ D.gesvd = D0.gesvd := by
  classical
  let post : Int → Int → Int → Int → Int → Int → Int → ℝ → List 𝕜 → (List 𝕜 × List ℝ × Int × Int) → Prop := fun M N R' a lda b ldb c mem res =>
    ∀ (m n r : Nat) (A : Matrix (Fin m) (Fin n) 𝕜) (B : Matrix (Fin m) (Fin r) 𝕜), M = m → N = n → R' = r → ColMajor2 a lda m n mem A → ColMajor2 b ldb m r mem B → res.1.length = mem.length ∧
      (∀ k, ¬ InBlock b ldb (max m n) r k → val res.1 k = val mem k) ∧
      (∃ U Vt X, SingularDecomposition A U res.2.1 Vt ∧ res.2.2.1 = kept c res.2.1 ∧ ColMajor2 b ldb n r res.1 X ∧
        ∀ j, SmallestMinimiser (U * sigma m n (cut c res.2.1) * Vt) (fun i => B i j) (fun i => X i j))
  refine ⟨{ D0 with gelss := fun M N R' a lda b ldb c mem => if h : ∃ res, post M N R' a lda b ldb c mem res then .ok h.choose else .error .ub }, ?_, rfl, rfl, rfl⟩
  intro m n r a lda b ldb c mem A B pm pn _ _ _ _ _ wb _ _ hA hB hin _
  have hex : ∃ res, post m n r a lda b ldb c mem res := by
    obtain ⟨U, s, Vt, hS⟩ := exists_svd A
    have hin' : BlockIn b ldb n r mem := fun k ⟨i, j, e⟩ => hin k ⟨⟨i, by omega⟩, j, e⟩
    obtain ⟨C, hC⟩ := blockIn_colMajor hin'
    let X : Matrix (Fin n) (Fin r) 𝕜 := fun i j => (pseudo U (cut c s) Vt *ᵥ (fun i => B i j)) i
    obtain ⟨mem1, l1, f1, c1⟩ := block_write hC (by omega) X
    refine ⟨(mem1, s, kept c s, 0), ?_⟩
    intro m' n' r' A' B' hm hn hr hA' hB'
    have hm : m = m' := by exact_mod_cast hm
    subst hm
    have hn : n = n' := by exact_mod_cast hn
    subst hn
    have hr : r = r' := by exact_mod_cast hr
    subst hr
    obtain rfl := colMajor_unique hA hA'
    obtain rfl := colMajor_unique hB hB'
    refine ⟨l1, fun k h => f1 k (fun i j e => h ⟨⟨i, by omega⟩, j, e⟩), U, Vt, X, hS, rfl, c1, fun j => ?_⟩
    exact pseudo_smallest (by rw [cut_length]; exact hS.size) hS.left hS.right _
  obtain ⟨h1, h2, h3⟩ := hex.choose_spec m n r A B rfl rfl rfl hA hB
  exact ⟨hex.choose.1, hex.choose.2.1, hex.choose.2.2.1, hex.choose.2.2.2, dif_pos hex, h1, fun k _ h => h2 k h, fun _ => h3⟩

/-- The shortest vector with `x + y = 4` is `(2, 2)`. -/
theorem smallest_ones {x : Fin 2 → ℝ} (h : SmallestMinimiser (!![1, 1] : Matrix (Fin 1) (Fin 2) ℝ) ![4] x) : x = ![2, 2] := by
  have e : ∀ y : Fin 2 → ℝ, sumSq ((!![1, 1] : Matrix (Fin 1) (Fin 2) ℝ) *ᵥ y - ![4]) = (y 0 + y 1 - 4) ^ 2 := by
    intro y
    simp [sumSq, dotProduct, Fin.sum_univ_two]
  have e2 : ∀ y : Fin 2 → ℝ, sumSq y = y 0 ^ 2 + y 1 ^ 2 := by intro y; simp [sumSq, Fin.sum_univ_two]
  obtain ⟨h1, h2⟩ := h ![2, 2]
  rw [e, e] at h1 h2
  have h0 : x 0 + x 1 - 4 = 0 := by
    norm_num at h1
    exact h1
  obtain ⟨h3, h4⟩ := h2 (by rw [h0]; norm_num)
  rw [e2, e2] at h3 h4
  refine (h4 ?_).symm
  simp at h3 ⊢
  nlinarith [sq_nonneg (x 0 - x 1)]

/-- With fewer rows than columns, a right-hand side that has `m` rows only, as documented, is not enough: the solution is written below it.  Here `b` is the first row of a matrix of two rows, and
the second row is overwritten. -/
theorem C62_short_witness (D : Drivers ℝ ℝ) (hD : GelssOK D) (s' mem' : List ℝ) (rank : Int)
    (h : gelss D ⟨0, ⟨[1, 2], [1, 1], [1, 0], [0, 0], .contiguous⟩⟩ ⟨2, ⟨[1, 1], [1, 2], [1, 0], [0, 0], .smallest⟩⟩ [] 0 [1, 1, 4, 9] = .ok (s', rank, mem')) :
    ¬ Occupies ⟨0, ⟨[1, 2], [1, 1], [1, 0], [0, 0], .contiguous⟩⟩ 3 ∧ ¬ Occupies ⟨2, ⟨[1, 1], [1, 2], [1, 0], [0, 0], .smallest⟩⟩ 3 ∧ val mem' 3 = some 2 := by
  have hone : ∀ i : Int, 0 ≤ i → i < 1 → i = 0 := by intro i _ _; omega
  have htwo : ∀ i : Int, 0 ≤ i → i < 2 → i = 0 ∨ i = 1 := by intro i _ _; omega
  refine ⟨?_, ?_, ?_⟩
  · rintro ⟨idx, hi, e⟩
    obtain ⟨i, j, rfl, h1, h2, h3, h4⟩ := inRange2.mp hi
    obtain rfl := hone i h1 h2
    obtain rfl | rfl := htwo j h3 h4 <;> revert e <;> decide
  · rintro ⟨idx, hi, e⟩
    obtain ⟨i, j, rfl, h1, h2, h3, h4⟩ := inRange2.mp hi
    obtain rfl := hone i h1 h2
    obtain rfl := hone j h3 h4
    revert e; decide
  · obtain ⟨mem1, sv, rk, info, e, -, -, hok⟩ := hD 1 2 1 0 1 2 2 0 [1, 1, 4, 9] !![1, 1] !![4] (by decide) (by decide) (by decide) (by decide) (by decide) (by decide) (by decide) (by decide) (by decide) (le_refl _)
      (by intro i j; fin_cases i; fin_cases j <;> rfl) (by intro i j; fin_cases i; fin_cases j; rfl)
      (by rintro k ⟨i, j, rfl⟩; fin_cases i <;> fin_cases j <;> rfl)
      (by rintro k ⟨⟨i, j, e1⟩, ⟨i', j', e2⟩⟩; omega)
    have e' : D.gelss 1 2 1 0 1 2 2 0 [1, 1, 4, 9] = .ok (mem1, sv, rk, info) := e
    have hg : gelss D ⟨0, ⟨[1, 2], [1, 1], [1, 0], [0, 0], .contiguous⟩⟩ ⟨2, ⟨[1, 1], [1, 2], [1, 0], [0, 0], .smallest⟩⟩ [] 0 [1, 1, 4, 9] =
        if info ≠ 0 then .error .runtime else .ok (sv ++ [], rk, mem1) := by
      have : gelss D ⟨0, ⟨[1, 2], [1, 1], [1, 0], [0, 0], .contiguous⟩⟩ ⟨2, ⟨[1, 1], [1, 2], [1, 0], [0, 0], .smallest⟩⟩ [] 0 [1, 1, 4, 9] =
          (D.gelss 1 2 1 0 1 2 2 0 [1, 1, 4, 9]).bind (fun q => if q.2.2.2 ≠ 0 then .error .runtime else .ok (q.2.1 ++ [], q.2.2.1, q.1)) := by
        have f1 : hasF ⟨0, ⟨[1, 2], [1, 1], [1, 0], [0, 0], .contiguous⟩⟩ = true := by decide
        have f2 : hasF ⟨2, ⟨[1, 1], [1, 2], [1, 0], [0, 0], .smallest⟩⟩ = true := by decide
        have l1 : getLd ⟨0, ⟨[1, 2], [1, 1], [1, 0], [0, 0], .contiguous⟩⟩ = some 1 := by decide
        have l2 : getLd ⟨2, ⟨[1, 1], [1, 2], [1, 0], [0, 0], .smallest⟩⟩ = some 2 := by decide
        have t1 : toInt32 1 = 1 := by decide
        have t2 : toInt32 2 = 2 := by decide
        simp only [gelss, f1, f2, l1, l2, orUb, rd, List.getElem?_cons_zero, List.getElem?_cons_succ, bind, Except.bind, t1, t2, e', pure, Except.pure, throw, throwThe, MonadExceptOf.throw]
        by_cases h0 : info = 0 <;> simp [h0]
      rw [this, e']; rfl
    rw [hg] at h
    split_ifs at h with h0
    simp only [Except.ok.injEq, Prod.mk.injEq] at h
    obtain ⟨U, Vt, X, hS, -, hX, hmin⟩ := hok (not_not.mp h0)
    have hx := hmin 0
    rw [cut_eq (fun x hx => by
      rcases eq_or_lt_of_le (hS.nonneg x hx) with h | h
      · exact Or.inl h.symm
      · right; simpa using h), ← hS.product] at hx
    have hb : (fun i : Fin 1 => (!![4] : Matrix (Fin 1) (Fin 1) ℝ) i 0) = ![4] := by funext i; fin_cases i; rfl
    rw [hb] at hx
    have := congrFun (smallest_ones hx) 1
    have h2 := hX 1 0
    rw [← h.2.2]
    have h3 : val mem1 3 = some (X 1 0) := h2
    rw [h3]
    exact congrArg some this

/-- With two rows, the hypotheses of the theorem are met: the solution is `(2, 2)`. -/
example (D : Drivers ℝ ℝ) (hD : GelssOK D) (s' mem' : List ℝ) (rank : Int)
    (h : gelss D ⟨0, ⟨[1, 2], [1, 1], [1, 0], [0, 0], .contiguous⟩⟩ ⟨2, ⟨[2, 1], [1, 2], [1, 0], [0, 0], .contiguous⟩⟩ [] 0 [1, 1, 4, 9] = .ok (s', rank, mem')) :
    val mem' 2 = some 2 ∧ val mem' 3 = some 2 := by
  have hA : Entries ⟨0, ⟨[1, 2], [1, 1], [1, 0], [0, 0], .contiguous⟩⟩ (1 : Nat) (2 : Nat) [1, 1, 4, 9] (fun _ _ => (1 : ℝ)) := by
    intro i j h1 h2 h3 h4
    obtain rfl : i = 0 := by omega
    obtain rfl | rfl : j = 0 ∨ j = 1 := by omega
    · rfl
    · rfl
  have hB : Entries ⟨2, ⟨[2, 1], [1, 2], [1, 0], [0, 0], .contiguous⟩⟩ (1 : Nat) (1 : Nat) [1, 1, 4, 9] (fun _ _ => (4 : ℝ)) := by
    intro i j h1 h2 h3 h4
    obtain rfl : i = 0 := by omega
    obtain rfl : j = 0 := by omega
    rfl
  obtain ⟨_, _, mem1, sv, rk, info, -, hok, hbad⟩ := C62_gelss_partial D hD ⟨0, ⟨[1, 2], [1, 1], [1, 0], [0, 0], .contiguous⟩⟩ ⟨2, ⟨[2, 1], [1, 2], [1, 0], [0, 0], .contiguous⟩⟩ 1 2 2 1 (by decide) (by decide) (by decide)
    (by decide) [1, 1, 4, 9] ⟨rfl, Or.inl ⟨rfl, 1, rfl, by decide, by decide, by decide⟩, by decide, by decide⟩ ⟨rfl, Or.inl ⟨rfl, 2, rfl, by decide, by decide, by decide⟩, by decide, by decide⟩ rfl rfl
    (good_of (by decide) (by decide) (by decide) (by decide) (by decide) 1 (by decide) (by decide) (by decide)) (good_of (by decide) (by decide) (by decide) (by decide) (by decide) 1 (by decide) (by decide) (by decide))
    (separate_of (by decide)) _ _ hA hB [] 0 (le_refl _)
  by_cases h0 : info = 0
  · obtain ⟨e2, -, -, U, Vt, X, hS, -, hX, -, hall⟩ := hok h0
    have e2 := h.symm.trans e2
    simp only [Except.ok.injEq, Prod.mk.injEq] at e2
    have hx := hall (fun x hx => by
      rcases eq_or_lt_of_le (hS.nonneg x hx) with h | h
      · exact Or.inl h.symm
      · right; simpa using h) 0
    have eA : toMat2 1 2 (fun _ _ => (1 : ℝ)) = !![1, 1] := by ext i j; fin_cases i; fin_cases j <;> rfl
    have eb : (fun _ : Fin 1 => (4 : ℝ)) = ![4] := by funext i; fin_cases i; rfl
    rw [eA] at hx
    have hx := smallest_ones (eb ▸ hx)
    have h1 := hX 0 0 (by decide) (by decide) (by decide) (by decide)
    have h2 := hX 1 0 (by decide) (by decide) (by decide) (by decide)
    have x1 : X 0 0 = 2 := congrFun hx 0
    have x2 : X 1 0 = 2 := congrFun hx 1
    rw [x1] at h1
    rw [x2] at h2
    rw [e2.2.2]
    exact ⟨h1, h2⟩
  · have e2 := h.symm.trans (hbad h0)
    cases e2

end Nda.Linalg
