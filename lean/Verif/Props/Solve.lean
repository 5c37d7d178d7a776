import Verif.Props.Linalg
import Verif.Props.Matrix
import Mathlib.Tactic.NormNum
/-!
# C53, C54: linear systems, matrix predicates, cross product
-/
namespace Nda.Linalg
open Nda Nda.Spec LayoutTransforms Assign Loops Nda.Matrix Blas

variable {α : Type}

/-- A rectangular matrix. -/
def toMat2 (n r : Nat) (x : Int → Int → α) : Matrix (Fin n) (Fin r) α := fun i j => x (i : Int) (j : Int)

/-- The matrix or its conjugate. -/
def maybeConj (cj : α → α) {n : Nat} (conj : Bool) (A : Matrix (Fin n) (Fin n) α) : Matrix (Fin n) (Fin n) α := if conj then A.map cj else A

/-- What is left in memory by `getrf`: the factors of the matrix `A`, or of its transpose if it is stored by rows. -/
def HasLU [Field α] (v : View) {n : Nat} (A : Matrix (Fin n) (Fin n) α) (ipiv : List Int) (mem : List α) : Prop :=
  ∃ f ld F piv, LMat v n n mem.length f ld ∧ ColMajor v.off ld n mem F ∧ Pivots ipiv piv ∧ Factored (seen f A) F piv ∧ ∀ i, F i i ≠ 0

theorem addrF {v : View} {n r : Int} {ml : Nat} {ld : Int} (h : LMat v n r ml true ld) (i j : Int) : addr v [i, j] = v.off + i + j * ld := by
  rw [h.addr_eq]; simp; ring

theorem getrs_eq [Field α] {cj : α → α} {L : Lapack α} (hL : GetrsOK cj L) {x : Mat} {b : View} {n r : Nat} (p : 0 < n) {mem : List α} {A : Matrix (Fin n) (Fin n) α} {ipiv : List Int}
    (ha : HasLU x.v A ipiv mem) (hc : x.conj = true → x.v.lay.so = [0, 1]) {ldb : Int} (hb : LMat b n r mem.length true ldb) {B : Int → Int → α} (hB : Entries b n r mem B) (hs : Separate x.v b) :
    ∃ mem' X, getrs L x b ipiv mem = .ok (mem', 0) ∧ Updated b (fun idx => some (X (idx.getD 0 0) (idx.getD 1 0))) mem mem' ∧ maybeConj cj x.conj A * toMat2 n r X = toMat2 n r B := by
  obtain ⟨f, ld, F, piv, hl, hF, hp, hfac, h0⟩ := ha
  have hop : ∃ t, getOp x.conj (hasC x.v) = .ok t ∧ opMat cj t (seen f A) = maybeConj cj x.conj A := by
    rw [hl.hasC_eq]
    cases f <;> cases hcj : x.conj
    · exact ⟨.T, rfl, rfl⟩
    · exact ⟨.C, rfl, rfl⟩
    · exact ⟨.N, rfl, rfl⟩
    · have h1 := hc hcj
      have h2 := hl.so
      rw [h1] at h2
      exact absurd h2 (by decide)
  obtain ⟨t, et, ht⟩ := hop
  have hBm : ColMajor2 b.off ldb n r mem (toMat2 n r B) := by
    intro i j
    rw [← addrF hb]
    exact hB i j (by omega) (by exact_mod_cast i.isLt) (by omega) (by exact_mod_cast j.isLt)
  obtain ⟨mem', X, e, h1, h2, h3, h4⟩ := hL t n r x.v.off ld b.off ldb mem (seen f A) F (toMat2 n r B) ipiv piv p hl.b0 hb.b1 (by have := hl.wide; cases f <;> simpa using this) hl.ldb
    (by simpa using hb.wide) hb.ldb hF hp hfac h0 hBm (by
      intro i j k l he
      rw [← addr_seen hl, ← addrF hb] at he
      refine hs _ _ ?_ ?_ he
      · rw [hl.len, inRange2]
        cases f
        · exact ⟨j, i, rfl, by omega, by exact_mod_cast j.isLt, by omega, by exact_mod_cast i.isLt⟩
        · exact ⟨i, j, rfl, by omega, by exact_mod_cast i.isLt, by omega, by exact_mod_cast j.isLt⟩
      · rw [hb.len, inRange2]
        exact ⟨k, l, rfl, by omega, by exact_mod_cast k.isLt, by omega, by exact_mod_cast l.isLt⟩)
  let Y : Int → Int → α := fun i j => if h : i.toNat < n ∧ j.toNat < r then X ⟨i.toNat, h.1⟩ ⟨j.toNat, h.2⟩ else 0
  refine ⟨mem', Y, ?_, ⟨h1, ?_, ?_⟩, ?_⟩
  · have e1 : getNcols x.v = some (n : Int) := by
      rw [getNcols, hl.hasF_eq, hl.len]
      have hto : toInt32 (n : Int) = n := toInt32_id (Int.natCast_nonneg n) hl.b0
      cases f <;> simp [rd, hto]
    have e2 : getNcols b = some (r : Int) := by
      rw [getNcols, hb.hasF_eq, hb.len]
      have hto : toInt32 (r : Int) = r := toInt32_id (Int.natCast_nonneg r) hb.b1
      simp [rd, hto]
    simp only [getrs, et, e1, e2, hl.ld_eq, hb.ld_eq, orUb, bind, Except.bind, e]
  · intro idx hi
    rw [hb.len, inRange2] at hi
    obtain ⟨i, j, rfl, i0, i1, j0, j1⟩ := hi
    have hij : i.toNat < n ∧ j.toNat < r := by omega
    have := h3 ⟨i.toNat, hij.1⟩ ⟨j.toNat, hij.2⟩
    rw [addrF hb]
    simp only [show ((i.toNat : Nat) : Int) = i by omega, show ((j.toNat : Nat) : Int) = j by omega] at this
    rw [this]
    simp [Y, hij]
  · intro k hk
    apply h2
    intro i j he
    apply hk
    refine ⟨[(i : Int), (j : Int)], ?_, by rw [addrF hb]; exact he⟩
    rw [hb.len, inRange2]
    exact ⟨i, j, rfl, by omega, by exact_mod_cast i.isLt, by omega, by exact_mod_cast j.isLt⟩
  · have hY : toMat2 n r Y = X := by ext i j; simp [toMat2, Y]
    rw [hY, ← ht, h4]

/-- C53: factorise, then solve.  The matrix can be in either order (its conjugate can be used only in C order), the right-hand sides must be in Fortran order. -/
theorem C53_solve_partial [Field α] (cj : α → α) (L : Lapack α) (hf : GetrfOK L) (hL : GetrsOK cj L) (a b : View) (conjA : Bool) (n r : Nat) (p : 0 < n) (mem : List α) (ha : BlasMatrix a n n)
    (hga : Good a mem.length) (A : Int → Int → α) (hA : Entries a n n mem A) (hc : conjA = true → a.lay.so = [0, 1]) (hb : BlasMatrix b n r) (hbo : b.lay.so = [1, 0]) (hgb : Good b mem.length)
    (B : Int → Int → α) (hB : Entries b n r mem B) (hs : Separate a b) :
    ∃ mem1 ipiv info, getrf L a mem = .ok (mem1, ipiv, info) ∧ (info = 0 ↔ (toMat n A).det ≠ 0) ∧
      ((toMat n A).det ≠ 0 → ∃ mem' X, getrs L ⟨a, conjA⟩ b ipiv mem1 = .ok (mem', 0) ∧ Updated b (fun idx => some (X (idx.getD 0 0) (idx.getD 1 0))) mem1 mem' ∧
        maybeConj cj conjA (toMat n A) * toMat2 n r X = toMat2 n r B ∧ ∀ k, ¬ Occupies a k → ¬ Occupies b k → val mem' k = val mem k) := by
  obtain ⟨f, ld, hl, -⟩ := ha.lmat hga
  obtain ⟨mem1, ipiv, info, F, piv, e, hbf, hF, hp, hfac, -, hinfo⟩ := getrf_eq hf p hl hA
  have hsign : (∏ k, (if piv k ≠ k then (-1 : α) else 1)) ≠ 0 := fun h0 => by
    have := sign_mul_self (α := α) Finset.univ (fun k => piv k ≠ k)
    rw [h0, zero_mul] at this
    exact zero_ne_one this
  have hdet : (toMat n A).det ≠ 0 ↔ ∀ i, F i i ≠ 0 := by
    rw [← seen_det f, det_factored hfac]
    constructor
    · intro h i hi
      exact h (by rw [Finset.prod_eq_zero (f := fun i => F i i) (Finset.mem_univ i) hi, mul_zero])
    · intro h
      exact mul_ne_zero hsign (Finset.prod_ne_zero_iff.mpr (fun i _ => h i))
  refine ⟨mem1, ipiv, info, e, hinfo.trans hdet.symm, fun hd => ?_⟩
  obtain ⟨fb, ldb, hlb, hfb⟩ := hb.lmat hgb
  obtain rfl := hfb.mpr hbo
  have hB1 : Entries b n r mem1 B := by
    intro i j i0 i1 j0 j1
    rw [frame_of hl hbf, hB i j i0 i1 j0 j1]
    rintro ⟨idx, hi, he⟩
    exact hs idx [i, j] hi (by rw [hlb.len, inRange2]; exact ⟨i, j, rfl, i0, i1, j0, j1⟩) he
  obtain ⟨mem', X, e2, hu, hX⟩ := getrs_eq hL (x := ⟨a, conjA⟩) p ⟨f, ld, F, piv, by rw [hbf.1]; exact hl, hF, hp, hfac, hdet.mp hd⟩ hc (by rw [hbf.1]; exact hlb : LMat b n r mem1.length true ldb) hB1 hs
  exact ⟨mem', X, e2, hu, hX, fun k hk hkb => (hu.frame k hkb).trans (frame_of hl hbf k hk)⟩

/-- With square right-hand sides in C order, what is solved is `X * Aᵀ = B`. -/
theorem getrs_c_order [Field α] (cj : α → α) (L : Lapack α) (hL : GetrsOK cj L) (a b : View) (n : Nat) (p : 0 < n) (mem : List α) (A : Matrix (Fin n) (Fin n) α) (ipiv : List Int)
    (ha : HasLU a A ipiv mem) (hb : BlasMatrix b n n) (hbo : b.lay.so = [0, 1]) (hgb : Good b mem.length) (B : Int → Int → α) (hB : Entries b n n mem B) (hs : Separate a b) :
    ∃ mem' X, getrs L ⟨a, false⟩ b ipiv mem = .ok (mem', 0) ∧ Updated b (fun idx => some (X (idx.getD 0 0) (idx.getD 1 0))) mem mem' ∧ toMat n X * A.transpose = toMat n B := by
  obtain ⟨fb, ldb, hlb, hfb⟩ := hb.lmat hgb
  have hfb : fb = false := by
    cases fb
    · rfl
    · exact absurd (hbo.symm.trans (hfb.mp rfl)) (by decide)
  subst hfb
  obtain ⟨f, ld, F, piv, hl, hF, hp, hfac, h0⟩ := ha
  have hop : ∃ t, getOp false (hasC a) = .ok t ∧ opMat cj t (seen f A) = A := by
    rw [hl.hasC_eq]
    cases f
    · exact ⟨.T, rfl, rfl⟩
    · exact ⟨.N, rfl, rfl⟩
  obtain ⟨t, et, ht⟩ := hop
  have hBm : ColMajor2 b.off ldb n n mem (toMat n B).transpose := colMajor_of hlb hB
  obtain ⟨mem', X, e, h1, h2, h3, h4⟩ := hL t n n a.off ld b.off ldb mem (seen f A) F _ ipiv piv p hl.b0 hlb.b1 (by have := hl.wide; cases f <;> simpa using this) hl.ldb
    (by simpa using hlb.wide) hlb.ldb hF hp hfac h0 hBm (by
      intro i j k l he
      rw [← addr_seen hl, ← addr_seen hlb] at he
      refine hs _ _ ?_ ?_ he
      · rw [hl.len, inRange2]
        cases f
        · exact ⟨j, i, rfl, by omega, by exact_mod_cast j.isLt, by omega, by exact_mod_cast i.isLt⟩
        · exact ⟨i, j, rfl, by omega, by exact_mod_cast i.isLt, by omega, by exact_mod_cast j.isLt⟩
      · rw [hlb.len, inRange2]
        exact ⟨l, k, rfl, by omega, by exact_mod_cast l.isLt, by omega, by exact_mod_cast k.isLt⟩)
  refine ⟨mem', ofMat X.transpose, ?_, ⟨h1, ?_, frame_of hlb ⟨h1, h2⟩⟩, ?_⟩
  · have hto : toInt32 (n : Int) = n := toInt32_id (Int.natCast_nonneg n) hl.b0
    have e1 : getNcols a = some (n : Int) := by
      rw [getNcols, hl.hasF_eq, hl.len]
      cases f <;> simp [rd, hto]
    have e2 : getNcols b = some (n : Int) := by
      rw [getNcols, hlb.hasF_eq, hlb.len]
      simp [rd, hto]
    simp only [getrs, et, e1, e2, hl.ld_eq, hlb.ld_eq, orUb, bind, Except.bind, e]
  · intro idx hi
    rw [hlb.len, inRange2] at hi
    obtain ⟨i, j, rfl, i0, i1, j0, j1⟩ := hi
    exact entries_of hlb (M := X) h3 i j i0 i1 j0 j1
  · rw [toMat_ofMat]
    rw [ht] at h4
    have := congrArg Matrix.transpose h4
    rwa [Matrix.transpose_mul, Matrix.transpose_transpose] at this

/-- `[[1,1],[0,1]]` in Fortran order, then the identity in C order. -/
def exMem53 : List ℚ := [1, 0, 1, 1, 1, 0, 0, 1]
def exA53 : View := ⟨0, ⟨[2, 2], [1, 2], [1, 0], [0, 0], .contiguous⟩⟩
def exB53 (so : List Nat) : View := ⟨4, ⟨[2, 2], if so = [0, 1] then [2, 1] else [1, 2], so, [0, 0], .contiguous⟩⟩
def exMat53 : Int → Int → ℚ := fun i j => if i ≤ j then 1 else 0
def exId53 : Int → Int → ℚ := fun i j => if i = j then 1 else 0

theorem exA53_good : Good exA53 8 := good_of (by decide) rfl rfl rfl (by decide) 1 (by decide) (by decide) (by decide)
theorem exA53_blas : BlasMatrix exA53 (2 : Nat) (2 : Nat) := ⟨rfl, Or.inl ⟨rfl, 2, rfl, by decide, by decide, by decide⟩, by decide, by decide⟩
theorem exA53_entries : Entries exA53 (2 : Nat) (2 : Nat) exMem53 exMat53 := by
  intro i j i0 i1 j0 j1
  have hi : i = 0 ∨ i = 1 := by omega
  have hj : j = 0 ∨ j = 1 := by omega
  rcases hi with rfl | rfl <;> rcases hj with rfl | rfl <;> decide +kernel

theorem exB53_good (so : List Nat) (h : so = [0, 1] ∨ so = [1, 0]) : Good (exB53 so) 8 := by
  rcases h with rfl | rfl <;> exact good_of (by decide) rfl rfl rfl (by decide) 1 (by decide) (by decide) (by decide)

theorem exB53_entries (so : List Nat) (h : so = [0, 1] ∨ so = [1, 0]) : Entries (exB53 so) (2 : Nat) (2 : Nat) exMem53 exId53 := by
  intro i j i0 i1 j0 j1
  have hi : i = 0 ∨ i = 1 := by omega
  have hj : j = 0 ∨ j = 1 := by omega
  rcases h with rfl | rfl <;> rcases hi with rfl | rfl <;> rcases hj with rfl | rfl <;> decide +kernel

theorem exB53_separate (so : List Nat) (h : so = [0, 1] ∨ so = [1, 0]) : Separate exA53 (exB53 so) := by
  rcases h with rfl | rfl <;> exact separate_of (by decide)

theorem exMat53_det : (toMat 2 exMat53).det = 1 := by
  rw [Matrix.det_fin_two]; simp [toMat, exMat53]

/-- The hypotheses of `C53_solve_partial`, for every LAPACK as assumed. -/
example (L : Lapack ℚ) (hL : LapackOK id L) : ∃ mem1 ipiv, getrf L exA53 exMem53 = .ok (mem1, ipiv, 0) ∧ ∃ mem' X, getrs L ⟨exA53, false⟩ (exB53 [1, 0]) ipiv mem1 = .ok (mem', 0) ∧
    toMat 2 exMat53 * toMat2 2 2 X = toMat2 2 2 exId53 := by
  obtain ⟨mem1, ipiv, info, e, h1, h2⟩ := C53_solve_partial id L hL.getrf hL.getrs exA53 (exB53 [1, 0]) false 2 2 (by decide) exMem53 exA53_blas exA53_good exMat53 exA53_entries (by simp)
    ⟨rfl, Or.inl ⟨rfl, 2, rfl, by decide, by decide, by decide⟩, by decide, by decide⟩ rfl (exB53_good _ (Or.inr rfl)) exId53 (exB53_entries _ (Or.inr rfl)) (exB53_separate _ (Or.inr rfl))
  have hd : (toMat 2 exMat53).det ≠ 0 := by rw [exMat53_det]; exact one_ne_zero
  obtain rfl := h1.mpr hd
  obtain ⟨mem', X, e2, -, hX, -⟩ := h2 hd
  exact ⟨mem1, ipiv, e, mem', X, e2, hX⟩

/-- Missing from C53: right-hand sides in C order.  For every LAPACK as assumed, factorising `A = [[1,1],[0,1]]` and solving with the identity gives an `X` with `A * X ≠ 1`: the two calls succeed and
leave the inverse of the transpose. -/
theorem C53_c_order_witness (L : Lapack ℚ) (hL : GetrsOK id L) : HasLU exA53 (toMat 2 exMat53) [1, 2] exMem53 ∧
    ∃ mem' X, getrs L ⟨exA53, false⟩ (exB53 [0, 1]) [1, 2] exMem53 = .ok (mem', 0) ∧ Updated (exB53 [0, 1]) (fun idx => some (X (idx.getD 0 0) (idx.getD 1 0))) exMem53 mem' ∧
      toMat 2 X * (toMat 2 exMat53).transpose = toMat 2 exId53 ∧ toMat 2 exMat53 * toMat 2 X ≠ toMat 2 exId53 := by
  obtain ⟨f, ld, hl, hf⟩ := exA53_blas.lmat exA53_good
  obtain rfl := hf.mpr rfl
  have hlu : HasLU exA53 (toMat 2 exMat53) [1, 2] exMem53 := by
    refine ⟨true, ld, toMat 2 exMat53, id, hl, colMajor_of hl exA53_entries, ⟨rfl, by decide⟩, ?_, ?_⟩
    · ext i j; fin_cases i <;> fin_cases j <;> decide +kernel
    · decide +kernel
  refine ⟨hlu, ?_⟩
  obtain ⟨mem', X, e, hu, hX⟩ := getrs_c_order id L hL exA53 (exB53 [0, 1]) 2 (by decide) exMem53 (toMat 2 exMat53) [1, 2] hlu
    ⟨rfl, Or.inr ⟨rfl, 2, rfl, by decide, by decide, by decide⟩, by decide, by decide⟩ rfl (exB53_good _ (Or.inl rfl)) exId53 (exB53_entries _ (Or.inl rfl)) (exB53_separate _ (Or.inl rfl))
  refine ⟨mem', X, e, hu, hX, fun h => ?_⟩
  have a := congrFun (congrFun hX 1) 0
  have b := congrFun (congrFun hX 0) 0
  have c := congrFun (congrFun h 1) 0
  have d := congrFun (congrFun hX 1) 1
  simp [Matrix.mul_apply, Fin.sum_univ_two, toMat, exMat53, exId53] at a b c d
  linarith

/-! ### Predicates, cross product -/

/-- C54: a matrix is found diagonal exactly if it is square and all its elements off the diagonal are zero. -/
theorem C54_is_diagonal [Zero α] [DecidableEq α] (v : View) (n0 n1 : Int) (hlen : v.lay.len = [n0, n1]) (mem : List α) (hv : Good v mem.length) (h1 : OneToOne v) :
    ∃ r, isDiagonal v mem = some r ∧ (r = true ↔ n0 = n1 ∧ ∀ i j, 0 ≤ i → i < n0 → 0 ≤ j → j < n1 → i ≠ j → val mem (addr v [i, j]) = some 0) := by
  have e0 : rd v.lay.len 0 = some n0 := by rw [hlen]; rfl
  have e1 : rd v.lay.len 1 = some n1 := by rw [hlen]; rfl
  by_cases hn : n0 = n1
  swap
  · refine ⟨false, ?_, by simp [hn]⟩
    simp only [isDiagonal, isSquare, e0, e1, Option.bind_eq_bind, Option.bind_some, pure, show (n0 == n1) = false by simpa using hn, Bool.not_false, if_true]
  subst hn
  have hnn : 0 ≤ n0 := hv.nonneg n0 (by rw [hlen]; simp)
  obtain ⟨d, hd, hdl, hdg, hd1, hda⟩ := C27_diagonal v n0 n0 hlen mem.length hv h1
  rw [min_self] at hdl
  have hy : Yields (.inMem d false) [n0] mem (fun idx => (val mem (addr v [idx.getD 0 0, idx.getD 0 0])).getD 0) := by
    refine ⟨hdg, hdl, by simp, fun idx hi => ?_⟩
    rw [inRange1] at hi
    obtain ⟨i, rfl, i0, i1⟩ := hi
    rw [(hda i i0 i1 i1).2]
    obtain ⟨x, hx⟩ := val_isSome (hv.fits [i, i] (by rw [hlen, inRange2]; exact ⟨i, i, rfl, i0, i1, i0, i1⟩))
    simp [hx]
  obtain ⟨r, mem', e2, hr⟩ := C27_diag 0 n0 hnn (.inMem d false) mem _ hy
  obtain ⟨res, e3, hres⟩ := C21_views (fun x y : α => decide (x = y)) (by simp) v r mem' (hv.mono hr.grow) hr.good
  refine ⟨res, ?_, ?_⟩
  · have e4 : rd d.lay.len 0 = some n0 := by rw [hdl]; rfl
    simp only [isDiagonal, isSquare, e0, e1, Option.bind_eq_bind, Option.bind_some, pure, BEq.rfl, Bool.not_true, Bool.false_eq_true, if_false, hd, e4, e2, e3]
  · rw [hres, hlen, hr.len]
    constructor
    · rintro ⟨-, h⟩
      refine ⟨rfl, fun i j i0 i1 j0 j1 hij => ?_⟩
      have := h [i, j] (by rw [inRange2]; exact ⟨i, j, rfl, i0, i1, j0, j1⟩)
      rw [hr.entry i j i0 i1 j0 j1, if_neg hij] at this
      rw [← this, hr.old _ (hv.fits [i, j] (by rw [hlen, inRange2]; exact ⟨i, j, rfl, i0, i1, j0, j1⟩)).2]
    · rintro ⟨-, h⟩
      refine ⟨rfl, fun idx hi => ?_⟩
      rw [inRange2] at hi
      obtain ⟨i, j, rfl, i0, i1, j0, j1⟩ := hi
      have hf := hv.fits [i, j] (by rw [hlen, inRange2]; exact ⟨i, j, rfl, i0, i1, j0, j1⟩)
      rw [hr.old _ hf.2, hr.entry i j i0 i1 j0 j1]
      by_cases hij : i = j
      · subst hij
        obtain ⟨x, hx⟩ := val_isSome hf
        simp [hx]
      · rw [if_neg hij, h i j i0 i1 j0 j1 hij]

/-- C54: `is_matrix_square`. -/
theorem C54_is_square (v : View) (n0 n1 : Int) (hlen : v.lay.len = [n0, n1]) : ∃ r, isSquare v = some r ∧ (r = true ↔ n0 = n1) :=
  ⟨n0 == n1, by simp only [isSquare, hlen, rd, Option.bind_eq_bind]; rfl, by simp⟩

/-- The two predicates on concrete matrices: `[[1,2],[3,4]]`, and its diagonal one. -/
example : isDiagonal exQ exMemQ = some false ∧ isDiagonal exQ [1, 0, 7, 0, 4, 7] = some true ∧ isDiagonal ⟨0, ⟨[1, 2], [2, 1], [0, 1], [0, 0], .contiguous⟩⟩ [(1 : ℚ), 0] = some false := by decide +kernel

/-- The three components of the vector product. -/
def cross [Mul α] [Sub α] (x y : Int → α) : Int → α := fun k => if k = 0 then x 1 * y 2 - x 2 * y 1 else if k = 1 then x 2 * y 0 - x 0 * y 2 else x 0 * y 1 - x 1 * y 0

theorem yields_get {rhs : Rhs α} {len : List Int} {mem mem2 : List α} {x : List Int → α} (hy : Yields rhs len mem x) (hm : ∀ k : Int, k < mem.length → val mem2 k = val mem k)
    (hle : mem.length ≤ mem2.length) {idx : List Int} (hi : InRange len idx) : rhs.get idx mem2 = some (x idx) := by
  cases rhs with
  | expr f => exact hy idx hi mem2 hm
  | inMem v null =>
    obtain ⟨hg, hl, -, hx⟩ := hy
    have hi' : InRange v.lay.len idx := by rw [hl]; exact hi
    rw [Rhs.get, load_eq (hg.mono hle) hi', hm _ (hg.fits idx hi').2, hx idx hi]

theorem store_spec {v : View} {mem : List α} (hg : Good v mem.length) (h1 : OneToOne v) {idx : List Int} (hi : InRange v.lay.len idx) (x : α) :
    ∃ mem', store v idx x mem = some mem' ∧ mem'.length = mem.length ∧ val mem' (addr v idx) = some x ∧
      (∀ jdx, InRange v.lay.len jdx → jdx ≠ idx → val mem' (addr v jdx) = val mem (addr v jdx)) ∧ ∀ k, ¬ Occupies v k → val mem' k = val mem k := by
  obtain ⟨mem', e, w1, w2, w3⟩ := wrInt_spec (hg.fits _ hi) x
  refine ⟨mem', ?_, w1, w2, fun jdx hj hne => w3 _ (fun he => hne (h1 _ _ hj hi he)), fun k hk => w3 k (fun he => hk ⟨_, hi, he.symm⟩)⟩
  rw [Assign.store, element_eq hg.wf hg.flags hi]; exact e

/-- C54: the vector product of two vectors, views or expressions of 3 elements is a new array; nothing else changes. -/
theorem C54_cross_product [CommRing α] (junk : α) (a b : Rhs α) (mem : List α) (x y : Int → α) (ha : Yields a [3] mem (fun idx => x (idx.getD 0 0))) (hb : Yields b [3] mem (fun idx => y (idx.getD 0 0))) :
    ∃ r mem', crossProduct junk a b mem = some (r, mem') ∧ r.lay.len = [3] ∧ Good r mem'.length ∧ (∀ k, 0 ≤ k → k < 3 → val mem' (addr r [k]) = some (cross x y k)) ∧ Ext mem mem' := by
  obtain ⟨m, hm, e1, hlen⟩ := fresh_eq junk (so := [0]) (len := [3]) (by decide) rfl (by decide) mem
  have hold : ∀ k : Int, k < mem.length → val (mem ++ List.replicate m.size.toNat junk) k = val mem k := fun k hk => val_append_left _ hk
  generalize hM : mem ++ List.replicate m.size.toNat junk = M at *
  have hle : mem.length ≤ M.length := by rw [hlen]; omega
  have hg : Good ⟨(mem.length : Int), m⟩ M.length := hm.good M.length (by rw [hlen])
  have hr : ∀ k : Int, 0 ≤ k → k < 3 → InRange (View.mk (mem.length : Int) m).lay.len [k] := fun k k0 k1 => by
    rw [show (View.mk (mem.length : Int) m).lay.len = [3] from hm.len_eq, inRange1]; exact ⟨k, rfl, k0, k1⟩
  have hr3 : ∀ k : Int, 0 ≤ k → k < 3 → InRange [3] [k] := fun k k0 k1 => by rw [inRange1]; exact ⟨k, rfl, k0, k1⟩
  have ga : ∀ k : Int, 0 ≤ k → k < 3 → a.get [k] M = some (x k) := fun k k0 k1 => yields_get ha hold hle (hr3 k k0 k1)
  have gb : ∀ k : Int, 0 ≤ k → k < 3 → b.get [k] M = some (y k) := fun k k0 k1 => yields_get hb hold hle (hr3 k k0 k1)
  obtain ⟨M1, s1, l1, v1, o1, f1⟩ := store_spec hg hm.one (hr 0 (by decide) (by decide)) (x 1 * y 2 - y 1 * x 2)
  obtain ⟨M2, s2, l2, v2, o2, f2⟩ := store_spec (mem := M1) (by rw [l1]; exact hg) hm.one (hr 1 (by decide) (by decide)) (-x 0 * y 2 + y 0 * x 2)
  obtain ⟨M3, s3, l3, v3, o3, f3⟩ := store_spec (mem := M2) (by rw [l2, l1]; exact hg) hm.one (hr 2 (by decide) (by decide)) (x 0 * y 1 - y 0 * x 1)
  refine ⟨⟨(mem.length : Int), m⟩, M3, ?_, hm.len_eq, by rw [l3, l2, l1]; exact hg, ?_, ⟨by rw [l3, l2, l1]; exact hle, fun k hk => ?_⟩⟩
  · simp only [crossProduct, e1, Option.bind_eq_bind, Option.bind_some, ga 0 (by decide) (by decide), ga 1 (by decide) (by decide), ga 2 (by decide) (by decide), gb 0 (by decide) (by decide),
      gb 1 (by decide) (by decide), gb 2 (by decide) (by decide), s1, s2, s3]
    rfl
  · intro k k0 k1
    have hk : k = 0 ∨ k = 1 ∨ k = 2 := by omega
    rcases hk with rfl | rfl | rfl
    · rw [o3 [0] (hr 0 k0 k1) (by simp), o2 [0] (hr 0 k0 k1) (by simp), v1]; simp [cross]; ring
    · rw [o3 [1] (hr 1 k0 k1) (by simp), v2]; simp [cross]; ring
    · rw [v3]; simp [cross]; ring
  · have hno : ¬ Occupies (View.mk (mem.length : Int) m) k := by
      rintro ⟨idx, hi, h⟩
      have := (hm.above idx (by rw [← hm.len_eq]; exact hi)).1
      omega
    rw [f3 k hno, f2 k hno, f1 k hno, hold k hk]

/-- The specification is the usual one: orthogonal to both vectors, and it vanishes for equal vectors. -/
theorem C54_cross_orthogonal [CommRing α] (x y : Int → α) : x 0 * cross x y 0 + x 1 * cross x y 1 + x 2 * cross x y 2 = 0 ∧ y 0 * cross x y 0 + y 1 * cross x y 1 + y 2 * cross x y 2 = 0 ∧
    ∀ k, cross x x k = 0 := by
  refine ⟨by simp [cross]; ring, by simp [cross]; ring, fun k => ?_⟩
  unfold cross
  split
  · ring
  · split <;> ring

/-- `(1,2,3) x (4,5,6)`, the second vector being every second element of an array. -/
example : (crossProduct 0 (.inMem ⟨0, ⟨[3], [1], [0], [0], .contiguous⟩⟩ false) (.inMem ⟨3, ⟨[3], [2], [0], [0], .none⟩⟩ false) [(1 : Int), 2, 3, 4, 0, 5, 0, 6]).map (fun r => r.2.drop 8) =
    some [-3, 6, -3] := by decide

end Nda.Linalg
