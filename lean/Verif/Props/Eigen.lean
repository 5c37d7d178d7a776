import Verif.Spec.Drivers
import Verif.Props.LapackRef
import Mathlib.Analysis.Matrix.Spectrum
/-!
# C57: eigenvalues and eigenvectors
-/
namespace Nda.Linalg
open Nda Nda.Spec LayoutTransforms Assign Loops Nda.Matrix Blas
open _root_.Matrix (diagonal)
open scoped _root_.Matrix

variable {𝕜 : Type} [RCLike 𝕜]

theorem triangle_hermitian {n : Nat} {A : Matrix (Fin n) (Fin n) 𝕜} (h : A.IsHermitian) (up : Bool) : triangle up A = A := by
  ext i j
  unfold triangle
  by_cases hij : i = j
  · subst hij
    rw [if_pos rfl]
    have := h.apply i i
    exact RCLike.conj_eq_iff_re.mp this
  · rw [if_neg hij]
    split_ifs
    · rfl
    · exact h.apply i j

theorem triangle_isHermitian {n : Nat} (A : Matrix (Fin n) (Fin n) 𝕜) (up : Bool) : (triangle up A).IsHermitian := by
  ext i j
  rw [Matrix.conjTranspose_apply]
  unfold triangle
  by_cases hij : i = j
  · subst hij
    simp
  · rw [if_neg hij, if_neg (Ne.symm hij)]
    rcases lt_or_gt_of_ne hij with h | h
    · cases up <;> simp [h, not_lt_of_gt h]
    · cases up <;> simp [h, not_lt_of_gt h]

/-- A contiguous matrix in Fortran order, for LAPACK. -/
theorem eigenElementImpl_eq {D : Drivers 𝕜 ℝ} (hD : HeevOK D) {c : View} {n : Nat} (p : 0 < n) {mem : List 𝕜} (h : LMat c n n mem.length true n) {A : Int → Int → 𝕜} (hA : Entries c n n mem A) (v : Bool) :
    ∃ mem' ev info, D.heev v true n c.off n mem = .ok (mem', ev, info) ∧ BlockFrame c.off n n mem mem' ∧
      (info = 0 → eigenElementImpl D c v mem = .ok (ev, mem') ∧ ∃ Z, EigenDecomposition (triangle true (toMat n A)) ev Z ∧ (v = true → Entries c n n mem' (ofMat Z))) ∧
      (info ≠ 0 → eigenElementImpl D c v mem = .error .runtime) := by
  obtain ⟨mem', ev, info, e, hf, hz⟩ := hD v true n c.off n mem (toMat n A) p h.b0 (le_refl _) h.b0 (colMajor_of h hA)
  have hto : toInt32 (n : Int) = n := toInt32_id (Int.natCast_nonneg n) h.b0
  have e0 : rd c.lay.len 0 = some (n : Int) := by rw [h.len]; rfl
  refine ⟨mem', ev, info, e, hf, fun h0 => ?_, fun h0 => ?_⟩
  · obtain ⟨Z, hZ, hv⟩ := hz h0
    refine ⟨?_, Z, hZ, fun hvt => ?_⟩
    · simp only [eigenElementImpl, e0, orUb, bind, Except.bind, hto, e, h0, ne_eq, not_true, if_false, pure, Except.pure]
    · have h' : LMat c n n mem'.length true n := by rw [hf.1]; exact h
      exact entries_of h' (hv hvt)
  · simp only [eigenElementImpl, e0, orUb, bind, Except.bind, hto, e, ne_eq, h0, not_false_eq_true, if_true]
    rfl

/-- What `eigenelements` leaves behind: eigenvalues `ev` and a new matrix with the eigenvectors; nothing that existed before has changed. -/
structure EigenResult (mem : List 𝕜) (n : Nat) (so : List Nat) (H : Matrix (Fin n) (Fin n) 𝕜) (ev : List ℝ) (r : View) (mem' : List 𝕜) : Prop where
  old : Ext mem mem'
  len : r.lay.len = [(n : Int), (n : Int)]
  order : r.lay.so = so
  above : ∀ idx, InRange [(n : Int), (n : Int)] idx → (mem.length : Int) ≤ addr r idx
  decomposition : ∃ Z, Entries r n n mem' Z ∧ EigenDecomposition H ev (toMat n Z)

/-- C57.  For any square matrix, view or expression the eigenvalues and eigenvectors of the Hermitian matrix with the same upper triangle; an error only if LAPACK reports one. -/
theorem C57_eigenelements (D : Drivers 𝕜 ℝ) (hD : HeevOK D) (junk : 𝕜) (so : List Nat) (hso : so = [1, 0] ∨ so = [0, 1]) (n : Nat) (p : 0 < n) (hn : (n : Int) < 2147483648) (rhs : Rhs 𝕜) (mem : List 𝕜)
    (A : Int → Int → 𝕜) (hy : Yields rhs [(n : Int), (n : Int)] mem (fun idx => A (idx.getD 0 0) (idx.getD 1 0))) :
    (∃ ev r mem', eigenelements D junk so n n rhs mem = .ok (ev, r, mem') ∧ EigenResult mem n so (triangle true (toMat n A)) ev r mem') ∨
    (eigenelements D junk so n n rhs mem = .error .runtime ∧ ∃ a mem1 mem2 ev info, D.heev true true n a n mem1 = .ok (mem2, ev, info) ∧ info ≠ 0) := by
  obtain ⟨f, hf⟩ : ∃ f : Bool, so = if f then [1, 0] else [0, 1] := by
    rcases hso with h | h
    · exact ⟨true, h⟩
    · exact ⟨false, h⟩
  have pn : 0 < (n : Int) := by omega
  obtain ⟨c, mem1, e1, x1, l1, E1, ab1⟩ := newMatrix_eq junk true pn pn hn hn hy (Ext.refl mem)
  simp only [if_true] at e1 l1
  obtain ⟨mem2, ev, info, e2, hfr, hok, hbad⟩ := eigenElementImpl_eq hD p l1 E1 true
  by_cases h0 : info = 0
  · obtain ⟨e3, Z, hZ, hv⟩ := hok h0
    have EZ := hv rfl
    have l2 : LMat c n n mem2.length true n := by rw [hfr.1]; exact l1
    have x2 : Ext mem mem2 := by
      refine ⟨by rw [hfr.1]; exact x1.grow, fun k hk => ?_⟩
      rw [frame_of l1 hfr k, x1.old k hk]
      rintro ⟨idx, hi, he⟩
      rw [l1.len] at hi
      have := ab1 idx hi
      omega
    obtain ⟨r, mem3, e4, x3, l3, E3, ab3⟩ := newMatrix_eq junk f pn pn hn hn (rhs := .inMem c false) (x := ofMat Z) (mem0 := mem2)
      ⟨l2.good, l2.len, by simp, fun idx hi => by
        obtain ⟨i, j, rfl, h1, h2, h3, h4⟩ := inRange2.mp hi
        exact EZ i j h1 h2 h3 h4⟩ (Ext.refl mem2)
    refine Or.inl ⟨ev, r, mem3, ?_, ⟨x2.trans x3, l3.len, by rw [l3.so, hf], fun idx hi => ?_, ofMat Z, E3, by rw [toMat_ofMat]; exact hZ⟩⟩
    · rw [hf]
      simp only [eigenelements, e1, orUb, bind, Except.bind, e3, e4, pure, Except.pure]
    · have := ab3 idx hi
      have := x2.grow
      omega
  · refine Or.inr ⟨?_, c.off, mem1, mem2, ev, info, e2, h0⟩
    simp only [eigenelements, e1, orUb, bind, Except.bind, hbad h0]

/-- C57 for a Hermitian (symmetric) matrix. -/
theorem C57_hermitian (D : Drivers 𝕜 ℝ) (hD : HeevOK D) (junk : 𝕜) (so : List Nat) (hso : so = [1, 0] ∨ so = [0, 1]) (n : Nat) (p : 0 < n) (hn : (n : Int) < 2147483648) (rhs : Rhs 𝕜) (mem : List 𝕜)
    (A : Int → Int → 𝕜) (hy : Yields rhs [(n : Int), (n : Int)] mem (fun idx => A (idx.getD 0 0) (idx.getD 1 0))) (hA : (toMat n A).IsHermitian) (ev : List ℝ) (r : View) (mem' : List 𝕜)
    (e : eigenelements D junk so n n rhs mem = .ok (ev, r, mem')) : EigenResult mem n so (toMat n A) ev r mem' := by
  rcases C57_eigenelements D hD junk so hso n p hn rhs mem A hy with ⟨ev2, r2, m2, e2, hr⟩ | ⟨e2, -⟩
  · rw [e] at e2
    simp only [Except.ok.injEq, Prod.mk.injEq] at e2
    obtain ⟨rfl, rfl, rfl⟩ := e2
    rwa [triangle_hermitian hA] at hr
  · rw [e] at e2
    cases e2

/-- `ev`, in ascending order, are the roots of the characteristic polynomial. -/
structure Eigenvalues {n : Nat} (H : Matrix (Fin n) (Fin n) 𝕜) (ev : List ℝ) : Prop where
  ascending : ev.Pairwise (· ≤ ·)
  roots : H.charpoly = (ev.map (fun x => Polynomial.X - Polynomial.C ((x : ℝ) : 𝕜))).prod

theorem _root_.Nda.Spec.EigenDecomposition.eigenvalues {n : Nat} {H Z : Matrix (Fin n) (Fin n) 𝕜} {ev : List ℝ} (h : EigenDecomposition H ev Z) : Eigenvalues H ev := by
  refine ⟨h.ascending, ?_⟩
  have hu : IsUnit Z := by
    rw [Matrix.isUnit_iff_isUnit_det]
    exact Matrix.isUnit_det_of_left_inverse h.unitary
  obtain ⟨Zu, rfl⟩ := hu
  have hH : H = Zu.val * diagonal (fun i : Fin n => ((ev.getD i 0 : ℝ) : 𝕜)) * Zu⁻¹.val := by
    rw [← h.vectors, Matrix.mul_assoc, Units.mul_inv, Matrix.mul_one]
  rw [hH, Matrix.coe_units_inv, Matrix.charpoly_units_conj, Matrix.charpoly_diagonal]
  have : (ev.map (fun x => Polynomial.X - Polynomial.C ((x : ℝ) : 𝕜))) = (List.finRange n).map (fun i : Fin n => Polynomial.X - Polynomial.C ((ev.getD i 0 : ℝ) : 𝕜)) := by
    apply List.ext_getElem
    · simp [h.size]
    · intro i h1 h2
      simp only [List.length_map] at h1
      simp [h1]
  rw [this, ← Fin.prod_univ_def]

/-- The eigenvalues are determined by the matrix. -/
theorem C57_unique {n : Nat} {H : Matrix (Fin n) (Fin n) 𝕜} {ev ev' : List ℝ} (h : Eigenvalues H ev) (h' : Eigenvalues H ev') : ev = ev' := by
  have hr : ∀ {l : List ℝ}, Eigenvalues H l → H.charpoly.roots = ((l.map (fun x => ((x : ℝ) : 𝕜)) : List 𝕜) : Multiset 𝕜) := by
    intro l hl
    rw [hl.roots]
    have := Polynomial.roots_multiset_prod_X_sub_C ((l.map (fun x => ((x : ℝ) : 𝕜)) : List 𝕜) : Multiset 𝕜)
    rw [Multiset.map_coe, Multiset.prod_coe, List.map_map] at this
    exact this
  have hp : (ev.map (fun x => ((x : ℝ) : 𝕜))).Perm (ev'.map (fun x => ((x : ℝ) : 𝕜))) := by
    rw [← Multiset.coe_eq_coe, ← hr h, hr h']
  have hp2 : ev.Perm ev' := by
    have := hp.map (fun x : 𝕜 => RCLike.re x)
    simpa [List.map_map, Function.comp_def] using this
  exact hp2.eq_of_pairwise (fun a b _ _ h1 h2 => le_antisymm h1 h2) h.ascending h'.ascending

/-- C57, eigenvalues only: the same as with eigenvectors; nothing that existed before has changed. -/
theorem C57_eigenvalues (D : Drivers 𝕜 ℝ) (hD : HeevOK D) (junk : 𝕜) (n : Nat) (p : 0 < n) (hn : (n : Int) < 2147483648) (rhs : Rhs 𝕜) (mem : List 𝕜)
    (A : Int → Int → 𝕜) (hy : Yields rhs [(n : Int), (n : Int)] mem (fun idx => A (idx.getD 0 0) (idx.getD 1 0))) :
    (∃ ev mem', eigenvalues D junk n n rhs mem = .ok (ev, mem') ∧ Ext mem mem' ∧ ev.length = n ∧ Eigenvalues (triangle true (toMat n A)) ev ∧
      ∀ so, so = [1, 0] ∨ so = [0, 1] → ∀ ev2 r mem2, eigenelements D junk so n n rhs mem = .ok (ev2, r, mem2) → ev2 = ev) ∨
    (eigenvalues D junk n n rhs mem = .error .runtime ∧ ∃ a mem1 mem2 ev info, D.heev false true n a n mem1 = .ok (mem2, ev, info) ∧ info ≠ 0) := by
  have pn : 0 < (n : Int) := by omega
  obtain ⟨c, mem1, e1, x1, l1, E1, ab1⟩ := newMatrix_eq junk true pn pn hn hn hy (Ext.refl mem)
  simp only [if_true] at e1 l1
  obtain ⟨mem2, ev, info, e2, hfr, hok, hbad⟩ := eigenElementImpl_eq hD p l1 E1 false
  by_cases h0 : info = 0
  · obtain ⟨e3, Z, hZ, -⟩ := hok h0
    refine Or.inl ⟨ev, mem2, ?_, ⟨by rw [hfr.1]; exact x1.grow, fun k hk => ?_⟩, hZ.size, hZ.eigenvalues, fun so hso ev2 r m2 e => ?_⟩
    · simp only [eigenvalues, e1, orUb, bind, Except.bind, e3]
    · rw [frame_of l1 hfr k, x1.old k hk]
      rintro ⟨idx, hi, he⟩
      rw [l1.len] at hi
      have := ab1 idx hi
      omega
    · rcases C57_eigenelements D hD junk so hso n p hn rhs mem A hy with ⟨ev3, r3, m3, e3, hr⟩ | ⟨e3, -⟩
      · rw [e] at e3
        simp only [Except.ok.injEq, Prod.mk.injEq] at e3
        obtain ⟨rfl, rfl, rfl⟩ := e3
        obtain ⟨W, -, hW⟩ := hr.decomposition
        exact C57_unique hW.eigenvalues hZ.eigenvalues
      · rw [e] at e3
        cases e3
  · refine Or.inr ⟨?_, c.off, mem1, mem2, ev, info, e2, h0⟩
    simp only [eigenvalues, e1, orUb, bind, Except.bind, hbad h0]

/-! ### The assumption can be met -/

/-- The spectral theorem, with the eigenvalues in ascending order. -/
theorem exists_decomposition {n : Nat} {H : Matrix (Fin n) (Fin n) 𝕜} (hH : H.IsHermitian) : ∃ ev Z, EigenDecomposition H ev Z := by
  let f := hH.eigenvalues
  let σ := Tuple.sort f
  have hm : Monotone (f ∘ σ) := Tuple.monotone_sort f
  let U : Matrix (Fin n) (Fin n) 𝕜 := hH.eigenvectorUnitary
  have hU : Uᴴ * U = 1 := Matrix.mem_unitaryGroup_iff'.mp hH.eigenvectorUnitary.2
  refine ⟨List.ofFn (f ∘ σ), U.submatrix id σ, ⟨by simp, ?_, ?_, ?_⟩⟩
  · rw [List.pairwise_ofFn]
    intro i j hij
    exact hm (le_of_lt hij)
  · have : (U.submatrix id σ)ᴴ * U.submatrix id σ = (Uᴴ * U).submatrix σ σ := by
      ext i j
      simp [Matrix.mul_apply]
    rw [this, hU, Matrix.submatrix_one_equiv]
  · ext i j
    rw [Matrix.mul_diagonal, Matrix.mul_apply]
    have h := congrFun (hH.mulVec_eigenvectorBasis (σ j)) i
    simp only [Matrix.mulVec, dotProduct, Pi.smul_apply] at h
    have e : ∀ k l, U k l = hH.eigenvectorBasis l k := fun k l => rfl
    simp only [Matrix.submatrix_apply, id, e]
    rw [h, RCLike.real_smul_eq_coe_mul, mul_comm]
    congr 2
    simp [f]

/-- There are `syev` and `heev` as assumed. -/
theorem C57_heev_exists (D0 : Drivers 𝕜 ℝ) : ∃ D : Drivers 𝕜 ℝ, HeevOK D ∧ D.gtsv = D0.gtsv ∧ D.gesvd = D0.gesvd ∧ D.gelss = D0.gelss := by
  classical
  let post : Bool → Bool → Int → Int → Int → List 𝕜 → (List 𝕜 × List ℝ) → Prop := fun v up m a ld mem r => ∀ (n : Nat) (A : Matrix (Fin n) (Fin n) 𝕜), m = n → ColMajor a ld n mem A →
    BlockFrame a ld n mem r.1 ∧ ∃ Z, EigenDecomposition (triangle up A) r.2 Z ∧ (v = true → ColMajor a ld n r.1 Z)
  refine ⟨{ D0 with heev := fun v up m a ld mem => if h : ∃ r, post v up m a ld mem r then .ok (h.choose.1, h.choose.2, 0) else .error .ub }, ?_, rfl, rfl, rfl⟩
  intro v up n a ld mem A p _ hld _ hA
  have hex : ∃ r, post v up n a ld mem r := by
    obtain ⟨ev, Z, hZ⟩ := exists_decomposition (triangle_isHermitian A up)
    obtain ⟨mem', w1, w2, w3⟩ := block_write (n := n) (r := n) hA hld Z
    refine ⟨(mem', ev), ?_⟩
    intro n' A' hn hA'
    have hn : n = n' := by exact_mod_cast hn
    subst hn
    obtain rfl := colMajor_unique (r := n) hA hA'
    exact ⟨⟨w1, w2⟩, Z, hZ, fun _ => w3⟩
  obtain ⟨h1, h2⟩ := hex.choose_spec n A rfl hA
  exact ⟨_, _, _, dif_pos hex, h1, fun _ => h2⟩

/-- The eigenvalues of the symmetric `[[2,1],[1,2]]`, an expression, are 1 and 3. -/
example (D : Drivers ℝ ℝ) (hD : HeevOK D) (ev : List ℝ) (mem' : List ℝ)
    (e : eigenvalues D 0 2 2 (.expr fun idx _ => some (if idx.getD 0 0 = idx.getD 1 0 then 2 else 1)) [7] = .ok (ev, mem')) : ev = [1, 3] := by
  rcases C57_eigenvalues D hD 0 2 (by decide) (by decide) (.expr fun idx _ => some (if idx.getD 0 0 = idx.getD 1 0 then 2 else 1)) [7] (fun i j => if i = j then 2 else 1)
    (fun mem'' _ idx _ => rfl) with ⟨ev2, m2, e2, -, -, hev, -⟩ | ⟨e2, -⟩
  · have e2 := e.symm.trans e2
    simp only [Except.ok.injEq, Prod.mk.injEq] at e2
    obtain ⟨rfl, rfl⟩ := e2
    apply C57_unique hev
    refine ⟨by simp, ?_⟩
    rw [triangle_hermitian]
    · rw [Matrix.charpoly_fin_two]
      simp [toMat, Matrix.trace_fin_two, Matrix.det_fin_two]
      norm_num [Polynomial.C_ofNat]
      ring
    · ext i j
      simp [toMat, eq_comm]
  · have e2 := e.symm.trans e2
    cases e2

end Nda.Linalg
