import Verif.Lemmas.Rect
import Verif.Lemmas.Svd
import Verif.Lemmas.Check
/-!
# C58: the singular value decomposition
-/
namespace Nda.Linalg
open Nda Nda.Spec LayoutTransforms Assign Loops Nda.Matrix Blas
open scoped _root_.Matrix

variable {𝕜 : Type} [RCLike 𝕜]

theorem disjoint_blocks {a b : View} {n r n' r' ml ml' : Nat} {la lb : Int} (ha : LMat a n r ml true la) (hb : LMat b n' r' ml' true lb) (h : Separate a b) (k : Int) :
    ¬ (InBlock a.off la n r k ∧ InBlock b.off lb n' r' k) := by
  rintro ⟨h1, h2⟩
  obtain ⟨idx, hi, e1⟩ := (inBlock_iff ha k).mp h1
  obtain ⟨jdx, hj, e2⟩ := (inBlock_iff hb k).mp h2
  exact h idx jdx hi hj (e1.trans e2.symm)

/-- What the call of LAPACK gives. -/
theorem gesvd_eq {D : Drivers 𝕜 ℝ} (hD : GesvdOK D) {a u vt : View} {m n : Nat} (pm : 0 < m) (pn : 0 < n) {mem : List 𝕜} {la lu lv : Int} (ha : LMat a m n mem.length true la)
    (hu : LMat u m m mem.length true lu) (hv : LMat vt n n mem.length true lv) {A : Int → Int → 𝕜} (hA : Entries a m n mem A) (s1 : Separate a u) (s2 : Separate a vt) (s3 : Separate u vt) (s : List ℝ) :
    ∃ mem' sv info, D.gesvd m n a.off la u.off lu vt.off lv mem = .ok (mem', sv, info) ∧ mem'.length = mem.length ∧
      (∀ k, ¬ Occupies a k → ¬ Occupies u k → ¬ Occupies vt k → val mem' k = val mem k) ∧
      (info = 0 → gesvd D a s u vt mem = .ok (sv ++ s.drop (min m n), mem') ∧
        ∃ U Vt, SingularDecomposition (toMat2 m n A) U sv Vt ∧ Entries u m m mem' (ofMat2 U) ∧ Entries vt n n mem' (ofMat2 Vt)) ∧
      (info ≠ 0 → gesvd D a s u vt mem = .error .runtime) := by
  have w1 : (m : Int) ≤ la := by simpa using ha.wide
  have w2 : (m : Int) ≤ lu := by simpa using hu.wide
  have w3 : (n : Int) ≤ lv := by simpa using hv.wide
  obtain ⟨mem', sv, info, e, hlen, hfr, hok⟩ := hD m n a.off la u.off lu vt.off lv mem (toMat2 m n A) pm pn ha.b0 ha.b1 w1 ha.ldb w2 hu.ldb w3 hv.ldb (colMajor2_of ha hA) (blockIn_of hu) (blockIn_of hv)
    (disjoint_blocks ha hu s1) (disjoint_blocks ha hv s2) (disjoint_blocks hu hv s3)
  have t1 : toInt32 (m : Int) = m := toInt32_id (Int.natCast_nonneg m) ha.b0
  have t2 : toInt32 (n : Int) = n := toInt32_id (Int.natCast_nonneg n) ha.b1
  have r0 : rd a.lay.len 0 = some (m : Int) := by rw [ha.len]; rfl
  have r1 : rd a.lay.len 1 = some (n : Int) := by rw [ha.len]; rfl
  have hmin : (min (m : Int) (n : Int)).toNat = min m n := by omega
  refine ⟨mem', sv, info, e, hlen, fun k h1 h2 h3 => hfr k (fun h => h1 ((inBlock_iff ha k).mp h)) (fun h => h2 ((inBlock_iff hu k).mp h)) (fun h => h3 ((inBlock_iff hv k).mp h)), fun h0 => ?_, fun h0 => ?_⟩
  · obtain ⟨U, Vt, hS, hU, hV⟩ := hok h0
    refine ⟨?_, U, Vt, hS, entries2_of hu hU, entries2_of hv hV⟩
    simp only [gesvd, ha.hasF_eq, hu.hasF_eq, hv.hasF_eq, r0, r1, ha.ld_eq, hu.ld_eq, hv.ld_eq, t1, t2, e, h0, orUb, bind, Except.bind, pure, Except.pure, hmin]
    rfl
  · simp only [gesvd, ha.hasF_eq, hu.hasF_eq, hv.hasF_eq, r0, r1, ha.ld_eq, hu.ld_eq, hv.ld_eq, t1, t2, e, orUb, bind, Except.bind, pure, Except.pure, ne_eq, h0, not_false_eq_true, if_true]
    rfl

/-- C58.  For three matrices in Fortran order that do not overlap: the array for the singular values begins with those of `A`, in descending order, `u` and `vt` hold the unitary factors, nothing else has
changed (apart from `a`, which LAPACK destroys); an error if and only if LAPACK reports one. -/
theorem C58_gesvd (D : Drivers 𝕜 ℝ) (hD : GesvdOK D) (a u vt : View) (m n : Nat) (pm : 0 < m) (pn : 0 < n) (mem : List 𝕜) (ha : BlasMatrix a m n) (hu : BlasMatrix u m m) (hv : BlasMatrix vt n n)
    (oa : a.lay.so = [1, 0]) (ou : u.lay.so = [1, 0]) (ov : vt.lay.so = [1, 0]) (ga : Good a mem.length) (gu : Good u mem.length) (gv : Good vt mem.length)
    (s1 : Separate a u) (s2 : Separate a vt) (s3 : Separate u vt) (A : Int → Int → 𝕜) (hA : Entries a m n mem A) (s : List ℝ) :
    ∃ la lu lv mem' sv info, D.gesvd m n a.off la u.off lu vt.off lv mem = .ok (mem', sv, info) ∧
      (info = 0 → gesvd D a s u vt mem = .ok (sv ++ s.drop (min m n), mem') ∧ mem'.length = mem.length ∧ (∀ k, ¬ Occupies a k → ¬ Occupies u k → ¬ Occupies vt k → val mem' k = val mem k) ∧
        ∃ U Vt, SingularDecomposition (toMat2 m n A) (toMat2 m m U) sv (toMat2 n n Vt) ∧ Entries u m m mem' U ∧ Entries vt n n mem' Vt) ∧
      (info ≠ 0 → gesvd D a s u vt mem = .error .runtime) := by
  obtain ⟨f, la, ha, hf⟩ := ha.lmat ga
  obtain rfl := hf.mpr oa
  obtain ⟨f, lu, hu, hf⟩ := hu.lmat gu
  obtain rfl := hf.mpr ou
  obtain ⟨f, lv, hv, hf⟩ := hv.lmat gv
  obtain rfl := hf.mpr ov
  obtain ⟨mem', sv, info, e, hl, hfr, hok, hbad⟩ := gesvd_eq hD pm pn ha hu hv hA s1 s2 s3 s
  refine ⟨la, lu, lv, mem', sv, info, e, fun h0 => ?_, hbad⟩
  obtain ⟨e2, U, Vt, hS, hU, hV⟩ := hok h0
  exact ⟨e2, hl, hfr, ofMat2 U, ofMat2 Vt, by rw [toMat2_ofMat2, toMat2_ofMat2]; exact hS, hU, hV⟩

/-- Matrices in C order are refused at compile time. -/
theorem C58_gesvd_rejects (D : Drivers 𝕜 ℝ) (a u vt : View) (m n : Int) (s : List ℝ) (mem : List 𝕜) (ha : BlasMatrix a m n) (hu : BlasMatrix u m m) (hv : BlasMatrix vt n n)
    (ga : Good a mem.length) (gu : Good u mem.length) (gv : Good vt mem.length) (h : a.lay.so = [0, 1] ∨ u.lay.so = [0, 1] ∨ vt.lay.so = [0, 1]) : gesvd D a s u vt mem = .error .compile := by
  obtain ⟨f, la, ha, hf⟩ := ha.lmat ga
  obtain ⟨f', lu, hu, hf'⟩ := hu.lmat gu
  obtain ⟨f'', lv, hv, hf''⟩ := hv.lmat gv
  have : (f && f' && f'') = false := by
    rcases h with h | h | h
    · have : f = false := by rw [← Bool.not_eq_true]; rw [hf, h]; decide
      simp [this]
    · have : f' = false := by rw [← Bool.not_eq_true]; rw [hf', h]; decide
      simp [this]
    · have : f'' = false := by rw [← Bool.not_eq_true]; rw [hf'', h]; decide
      simp [this]
  simp only [gesvd, ha.hasF_eq, hu.hasF_eq, hv.hasF_eq, this]
  rfl

theorem sigma_sq {m n : Nat} {s : List ℝ} (hs : s.length = min m n) :
    ((sigma m n s : Matrix (Fin m) (Fin n) 𝕜)ᴴ * sigma m n s : Matrix (Fin n) (Fin n) 𝕜) = _root_.Matrix.diagonal (fun j : Fin n => (((s.getD j 0) ^ 2 : ℝ) : 𝕜)) := by
  ext i j
  rw [Matrix.mul_apply, _root_.Matrix.diagonal_apply]
  by_cases hi : (i : Nat) < m
  · rw [Finset.sum_eq_single (⟨i, hi⟩ : Fin m)]
    · by_cases hij : i = j
      · subst hij
        simp only [Matrix.conjTranspose_apply, sigma, if_true, RCLike.star_def, RCLike.conj_ofReal]
        rw [← RCLike.ofReal_mul, pow_two]
      · have : ¬ (i : Nat) = j := fun h => hij (Fin.ext h)
        simp [sigma, this, hij]
    · intro k _ hk
      have : ¬ (k : Nat) = i := fun h => hk (Fin.ext h)
      simp [sigma, this]
    · simp
  · have h0 : s.getD i 0 = 0 := by
      rw [List.getD_eq_getElem?_getD, List.getElem?_eq_none (by omega)]; rfl
    rw [Finset.sum_eq_zero]
    · split_ifs with hij
      · rw [h0]; simp
      · rfl
    · intro k _
      have : ¬ (k : Nat) = i := by have := k.isLt; omega
      simp [sigma, this]

theorem getD_le {s : List ℝ} (hd : s.Pairwise (· ≥ ·)) (hn : ∀ x ∈ s, 0 ≤ x) {i j : Nat} (h : i ≤ j) : 0 ≤ s.getD j 0 ∧ s.getD j 0 ≤ s.getD i 0 := by
  by_cases hj : j < s.length
  · have hi : i < s.length := by omega
    simp only [List.getD_eq_getElem?_getD, List.getElem?_eq_getElem hj, List.getElem?_eq_getElem hi, Option.getD_some]
    refine ⟨hn _ (List.getElem_mem hj), ?_⟩
    rcases Nat.lt_or_eq_of_le h with h | h
    · exact List.pairwise_iff_getElem.mp hd _ _ hi hj h
    · exact le_of_eq (by congr 1; exact h.symm)
  · have e : s.getD j 0 = 0 := by rw [List.getD_eq_getElem?_getD, List.getElem?_eq_none (by omega)]; rfl
    rw [e]
    refine ⟨le_refl _, ?_⟩
    by_cases hi : i < s.length
    · simp only [List.getD_eq_getElem?_getD, List.getElem?_eq_getElem hi, Option.getD_some]
      exact hn _ (List.getElem_mem hi)
    · rw [List.getD_eq_getElem?_getD, List.getElem?_eq_none (by omega)]; simp

/-- The squares of the singular values are the eigenvalues of `Aᴴ A`. -/
theorem _root_.Nda.Spec.SingularDecomposition.gram {m n : Nat} {A : Matrix (Fin m) (Fin n) 𝕜} {U : Matrix (Fin m) (Fin m) 𝕜} {s : List ℝ} {Vt : Matrix (Fin n) (Fin n) 𝕜}
    (h : SingularDecomposition A U s Vt) : EigenDecomposition (Aᴴ * A) (List.ofFn (fun j : Fin n => (s.getD (Fin.rev j) 0) ^ 2)) (Vtᴴ.submatrix id Fin.rev) := by
  have hAA : Aᴴ * A = Vtᴴ * _root_.Matrix.diagonal (fun j : Fin n => (((s.getD j 0) ^ 2 : ℝ) : 𝕜)) * Vt := by
    rw [← sigma_sq (𝕜 := 𝕜) h.size]
    conv_lhs => rw [h.product]
    generalize (sigma m n s : Matrix (Fin m) (Fin n) 𝕜) = S
    rw [Matrix.conjTranspose_mul, Matrix.conjTranspose_mul]
    have e : Vtᴴ * (Sᴴ * Uᴴ) * (U * S * Vt) = Vtᴴ * (Sᴴ * (Uᴴ * U) * S) * Vt := by
      simp only [Matrix.mul_assoc]
    rw [e, h.left, Matrix.mul_one]
  have hV : Vt * Vtᴴ = 1 := mul_eq_one_comm.mp h.right
  refine ⟨by simp, ?_, ?_, ?_⟩
  · rw [List.pairwise_ofFn]
    intro i j hij
    have h1 : (Fin.rev j : Nat) ≤ Fin.rev i := Fin.rev_le_rev.mpr (le_of_lt hij)
    have := getD_le h.descending h.nonneg h1
    nlinarith [this.1, this.2]
  · have : (Vtᴴ.submatrix id Fin.rev)ᴴ * Vtᴴ.submatrix id Fin.rev = (Vt * Vtᴴ).submatrix Fin.rev Fin.rev := by
      ext i j
      simp [Matrix.mul_apply]
    rw [this, hV]
    exact Matrix.submatrix_one_equiv Fin.revPerm
  · have hv : Aᴴ * A * Vtᴴ = Vtᴴ * _root_.Matrix.diagonal (fun j : Fin n => (((s.getD j 0) ^ 2 : ℝ) : 𝕜)) := by
      rw [hAA, Matrix.mul_assoc, hV, Matrix.mul_one]
    ext i j
    have h2 := congrFun (congrFun hv i) (Fin.rev j)
    rw [Matrix.mul_diagonal] at h2 ⊢
    have e : (Aᴴ * A * Vtᴴ.submatrix id Fin.rev) i j = (Aᴴ * A * Vtᴴ) i (Fin.rev j) := by simp [Matrix.mul_apply]
    rw [e, h2]
    simp

/-- The singular values are determined by the matrix. -/
theorem C58_unique {m n : Nat} {A : Matrix (Fin m) (Fin n) 𝕜} {U U' : Matrix (Fin m) (Fin m) 𝕜} {s s' : List ℝ} {Vt Vt' : Matrix (Fin n) (Fin n) 𝕜} (h : SingularDecomposition A U s Vt)
    (h' : SingularDecomposition A U' s' Vt') : s = s' := by
  have e := List.ofFn_injective (C57_unique h.gram.eigenvalues h'.gram.eigenvalues)
  apply List.ext_getElem (by rw [h.size, h'.size])
  intro i h1 h2
  have hi : i < n := by have := h.size; omega
  have := congrFun e (Fin.rev ⟨i, hi⟩)
  simp only [Fin.rev_rev, List.getD_eq_getElem?_getD, List.getElem?_eq_getElem h1, List.getElem?_eq_getElem h2, Option.getD_some] at this
  exact (pow_left_inj₀ (h.nonneg _ (List.getElem_mem h1)) (h'.nonneg _ (List.getElem_mem h2)) (by decide)).mp this

/-! ### There is such a LAPACK routine -/

theorem blockIn_colMajor {α : Type} {b ld : Int} {n r : Nat} {mem : List α} (h : BlockIn b ld n r mem) : ∃ B, ColMajor2 b ld n r mem B := by
  refine ⟨fun i j => (val mem (b + (i : Int) + (j : Int) * ld)).get (h _ ⟨i, j, rfl⟩), fun i j => ?_⟩
  simp

theorem C58_gesvd_exists (D0 : Drivers 𝕜 ℝ) : ∃ D : Drivers 𝕜 ℝ, GesvdOK D ∧ D.heev = D0.heev ∧ D.gtsv = D0.gtsv ∧ D.gelss = D0.gelss := by
  classical
  let post : Int → Int → Int → Int → Int → Int → Int → Int → List 𝕜 → (List 𝕜 × List ℝ × Int) → Prop := fun M N a lda u ldu vt ldvt mem r =>
    ∀ (m n : Nat) (A : Matrix (Fin m) (Fin n) 𝕜), M = m → N = n → ColMajor2 a lda m n mem A → r.1.length = mem.length ∧
      (∀ k, ¬ InBlock a lda m n k → ¬ InBlock u ldu m m k → ¬ InBlock vt ldvt n n k → val r.1 k = val mem k) ∧
      (r.2.2 = 0 → ∃ U Vt, SingularDecomposition A U r.2.1 Vt ∧ ColMajor2 u ldu m m r.1 U ∧ ColMajor2 vt ldvt n n r.1 Vt) ∧ r.2.2 = 0
  refine ⟨{ D0 with gesvd := fun M N a lda u ldu vt ldvt mem => if h : ∃ r, post M N a lda u ldu vt ldvt mem r then .ok h.choose else .error .ub }, ?_, rfl, rfl, rfl⟩
  intro m n a lda u ldu vt ldvt mem A pm pn _ _ _ _ wu _ wv _ hA hu hv d1 d2 d3
  have hex : ∃ r, post m n a lda u ldu vt ldvt mem r := by
    obtain ⟨U, s, Vt, hS⟩ := exists_svd A
    obtain ⟨B, hB⟩ := blockIn_colMajor hu
    obtain ⟨mem1, l1, f1, c1⟩ := block_write hB wu U
    have hv1 : BlockIn vt ldvt n n mem1 := by
      intro k hk
      rw [f1 k (fun i j e => d3 k ⟨⟨i, j, e⟩, hk⟩)]
      exact hv k hk
    obtain ⟨C, hC⟩ := blockIn_colMajor hv1
    obtain ⟨mem2, l2, f2, c2⟩ := block_write hC wv Vt
    refine ⟨(mem2, s, 0), ?_⟩
    intro m' n' A' hm hn hA'
    have hm : m = m' := by exact_mod_cast hm
    subst hm
    have hn : n = n' := by exact_mod_cast hn
    subst hn
    obtain rfl := colMajor_unique hA hA'
    refine ⟨l2.trans l1, fun k _ h2 h3 => ?_, fun _ => ⟨U, Vt, hS, fun i j => ?_, c2⟩, rfl⟩
    · rw [f2 k (fun i j e => h3 ⟨i, j, e⟩), f1 k (fun i j e => h2 ⟨i, j, e⟩)]
    · rw [f2 _ (fun i' j' e => d3 _ ⟨⟨i, j, rfl⟩, ⟨i', j', e⟩⟩)]
      exact c1 i j
  obtain ⟨h1, h2, h3, -⟩ := hex.choose_spec m n A rfl rfl hA
  exact ⟨hex.choose.1, hex.choose.2.1, hex.choose.2.2, dif_pos hex, h1, h2, h3⟩

/-- The singular value of the column `(3, 4)` is 5, whatever LAPACK does. -/
example (D : Drivers ℝ ℝ) (hD : GesvdOK D) (s mem' : List ℝ)
    (e : gesvd D ⟨0, ⟨[2, 1], [1, 2], [1, 0], [0, 0], .contiguous⟩⟩ [7] ⟨2, ⟨[2, 2], [1, 2], [1, 0], [0, 0], .contiguous⟩⟩ ⟨6, ⟨[1, 1], [1, 1], [1, 0], [0, 0], .contiguous⟩⟩ [3, 4, 0, 0, 0, 0, 0] = .ok (s, mem')) :
    s = [5] := by
  have hA : Entries ⟨0, ⟨[2, 1], [1, 2], [1, 0], [0, 0], .contiguous⟩⟩ 2 1 [3, 4, 0, 0, 0, 0, 0] (fun i _ => if i = 0 then (3 : ℝ) else 4) := by
    intro i j h1 h2 h3 h4
    obtain rfl : j = 0 := by omega
    obtain rfl | rfl : i = 0 ∨ i = 1 := by omega
    · rfl
    · rfl
  obtain ⟨_, _, _, mem2, sv, info, -, hok, hbad⟩ := C58_gesvd D hD ⟨0, ⟨[2, 1], [1, 2], [1, 0], [0, 0], .contiguous⟩⟩ ⟨2, ⟨[2, 2], [1, 2], [1, 0], [0, 0], .contiguous⟩⟩
    ⟨6, ⟨[1, 1], [1, 1], [1, 0], [0, 0], .contiguous⟩⟩ 2 1 (by decide) (by decide) [3, 4, 0, 0, 0, 0, 0] ⟨rfl, Or.inl ⟨rfl, 2, rfl, by decide, by decide, by decide⟩, by decide, by decide⟩
    ⟨rfl, Or.inl ⟨rfl, 2, rfl, by decide, by decide, by decide⟩, by decide, by decide⟩ ⟨rfl, Or.inl ⟨rfl, 1, rfl, by decide, by decide, by decide⟩, by decide, by decide⟩ rfl rfl rfl
    (good_of (by decide) (by decide) (by decide) (by decide) (by decide) 1 (by decide) (by decide) (by decide)) (good_of (by decide) (by decide) (by decide) (by decide) (by decide) 1 (by decide) (by decide) (by decide))
    (good_of (by decide) (by decide) (by decide) (by decide) (by decide) 1 (by decide) (by decide) (by decide)) (separate_of (by decide)) (separate_of (by decide)) (separate_of (by decide)) _ hA [7]
  by_cases h0 : info = 0
  · obtain ⟨e2, -, -, U, Vt, hS, -, -⟩ := hok h0
    have e2 := e.symm.trans e2
    simp only [Except.ok.injEq, Prod.mk.injEq] at e2
    have hs : sv = [5] := by
      refine C58_unique hS (U' := !![3 / 5, -4 / 5; 4 / 5, 3 / 5]) (Vt' := 1) ⟨rfl, by simp, by simp, ?_, by simp, ?_⟩
      · ext i j
        fin_cases i <;> fin_cases j <;> simp [Matrix.mul_apply, Fin.sum_univ_two, Matrix.conjTranspose_apply] <;> norm_num
      · ext i j
        fin_cases i <;> fin_cases j <;> simp [Matrix.mul_apply, Matrix.vecMul, dotProduct, Fin.sum_univ_two, toMat2, sigma] <;> norm_num
    rw [e2.1, hs]
    rfl
  · have e2 := e.symm.trans (hbad h0)
    cases e2

end Nda.Linalg
