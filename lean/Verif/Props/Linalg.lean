import Verif.Lemmas.Check
import Verif.Lemmas.Linalg
/-!
# C45, C46: inverses and determinants
-/
namespace Nda.Linalg
open Nda Nda.Spec LayoutTransforms Assign Loops Nda.Matrix Blas

variable {α : Type}

/-! ### Determinant of a pivoted factorisation -/

theorem swapRows_eq {n : Nat} (A : Matrix (Fin n) (Fin n) α) (p q : Fin n) : swapRows A p q = A.submatrix (Equiv.swap p q) id := by
  ext i j
  simp only [swapRows, Matrix.submatrix_apply, Equiv.swap_apply_def, id]
  split_ifs <;> rfl

theorem det_swapRows [CommRing α] {n : Nat} (A : Matrix (Fin n) (Fin n) α) (p q : Fin n) : (swapRows A p q).det = (if q ≠ p then -1 else 1) * A.det := by
  rw [swapRows_eq, Matrix.det_permute]
  by_cases h : q = p
  · subst h; simp
  · rw [Equiv.Perm.sign_swap (Ne.symm h), if_pos h]; simp

theorem det_interchanged [CommRing α] {n : Nat} (piv : Fin n → Fin n) : ∀ (l : List (Fin n)) (A : Matrix (Fin n) (Fin n) α),
    (l.foldl (fun A k => swapRows A k (piv k)) A).det = (l.map (fun k => if piv k ≠ k then (-1 : α) else 1)).prod * A.det
  | [], A => by simp
  | k :: l, A => by
    rw [List.foldl_cons, det_interchanged piv l, det_swapRows, List.map_cons, List.prod_cons]
    ring

theorem det_lower [CommRing α] {n : Nat} (F : Matrix (Fin n) (Fin n) α) : (lower F).det = 1 := by
  rw [Matrix.det_of_isLowerTriangular]
  · simp [lower]
  · intro i j hij
    have hij : i < j := hij
    simp [lower, not_lt_of_gt hij, ne_of_lt hij]

theorem det_upper [CommRing α] {n : Nat} (F : Matrix (Fin n) (Fin n) α) : (upper F).det = ∏ i, F i i := by
  rw [Matrix.det_of_isUpperTriangular]
  · simp [upper]
  · intro i j hij
    have hij : j < i := hij
    simp [upper, not_le_of_gt hij]

theorem sign_mul_self [CommRing α] {ι : Type} (s : Finset ι) (p : ι → Prop) [DecidablePred p] : (∏ k ∈ s, (if p k then (-1 : α) else 1)) * ∏ k ∈ s, (if p k then (-1 : α) else 1) = 1 := by
  rw [← Finset.prod_mul_distrib]
  apply Finset.prod_eq_one
  intro k _
  split_ifs <;> ring

theorem det_factored [CommRing α] {n : Nat} {A F : Matrix (Fin n) (Fin n) α} {piv : Fin n → Fin n} (h : Factored A F piv) : A.det = (∏ k, (if piv k ≠ k then (-1 : α) else 1)) * ∏ i, F i i := by
  have h1 : (interchanged A piv).det = ∏ i, F i i := by rw [h, Matrix.det_mul, det_lower, det_upper, one_mul]
  rw [interchanged, det_interchanged, ← Fin.prod_univ_def] at h1
  rw [← h1, ← mul_assoc, sign_mul_self, one_mul]

/-! ### Matrices in memory, seen by columns -/

/-- What LAPACK sees: the matrix, or its transpose if it is stored by rows. -/
def seen {n : Nat} (f : Bool) (M : Matrix (Fin n) (Fin n) α) : Matrix (Fin n) (Fin n) α := if f then M else M.transpose

theorem addr_seen {v : View} {n : Nat} {ml : Nat} {f : Bool} {ld : Int} (h : LMat v n n ml f ld) (i j : Int) : addr v (if f then [i, j] else [j, i]) = v.off + i + j * ld := by
  cases f
  · simp only [Bool.false_eq_true, if_false]; rw [h.addr_eq]; simp; ring
  · simp only [if_true]; rw [h.addr_eq]; simp; ring

theorem colMajor_of {v : View} {n : Nat} {ml : Nat} {f : Bool} {ld : Int} (h : LMat v n n ml f ld) {mem : List α} {A : Int → Int → α} (hA : Entries v n n mem A) :
    ColMajor v.off ld n mem (seen f (toMat n A)) := by
  intro i j
  rw [← addr_seen h]
  have hi : (i : Int) < n := by exact_mod_cast i.isLt
  have hj : (j : Int) < n := by exact_mod_cast j.isLt
  cases f
  · exact hA j i (by omega) hj (by omega) hi
  · exact hA i j (by omega) hi (by omega) hj

/-- A Mathlib matrix as a function of integers. -/
def ofMat [Zero α] {n : Nat} (M : Matrix (Fin n) (Fin n) α) (i j : Int) : α := if h : i.toNat < n ∧ j.toNat < n then M ⟨i.toNat, h.1⟩ ⟨j.toNat, h.2⟩ else 0

theorem toMat_ofMat [Zero α] {n : Nat} (M : Matrix (Fin n) (Fin n) α) : toMat n (ofMat M) = M := by
  ext i j; simp [toMat, ofMat]

theorem entries_of [Zero α] {v : View} {n : Nat} {ml : Nat} {f : Bool} {ld : Int} (h : LMat v n n ml f ld) {mem : List α} {M : Matrix (Fin n) (Fin n) α} (hM : ColMajor v.off ld n mem M) :
    Entries v n n mem (ofMat (seen f M)) := by
  intro i j i0 i1 j0 j1
  have hij : i.toNat < n ∧ j.toNat < n := by omega
  have ei : ((i.toNat : Nat) : Int) = i := by omega
  have ej : ((j.toNat : Nat) : Int) = j := by omega
  cases f
  · have := hM ⟨j.toNat, hij.2⟩ ⟨i.toNat, hij.1⟩
    simp only [ei, ej] at this
    have ha := addr_seen h j i
    simp only [Bool.false_eq_true, if_false] at ha
    rw [ha, this]
    simp [ofMat, seen, hij]
  · have := hM ⟨i.toNat, hij.1⟩ ⟨j.toNat, hij.2⟩
    simp only [ei, ej] at this
    have ha := addr_seen h i j
    simp only [if_true] at ha
    rw [ha, this]
    simp [ofMat, seen, hij]

theorem frame_of {v : View} {n : Nat} {ml : Nat} {f : Bool} {ld : Int} (h : LMat v n n ml f ld) {mem mem' : List α} (hf : BlockFrame v.off ld n mem mem') (k : Int) (hk : ¬ Occupies v k) : val mem' k = val mem k := by
  apply hf.2
  intro i j he
  apply hk
  have hi : (i : Int) < n := by exact_mod_cast i.isLt
  have hj : (j : Int) < n := by exact_mod_cast j.isLt
  refine ⟨if f then [(i : Int), (j : Int)] else [(j : Int), (i : Int)], ?_, by rw [addr_seen h]; exact he⟩
  rw [h.len, inRange2]
  cases f
  · exact ⟨j, i, rfl, by omega, hj, by omega, hi⟩
  · exact ⟨i, j, rfl, by omega, hi, by omega, hj⟩

theorem seen_det [CommRing α] {n : Nat} (f : Bool) (M : Matrix (Fin n) (Fin n) α) : (seen f M).det = M.det := by
  cases f
  · exact Matrix.det_transpose M
  · rfl

theorem seen_seen {n : Nat} (f : Bool) (M : Matrix (Fin n) (Fin n) α) : seen f (seen f M) = M := by cases f <;> rfl

theorem seen_diag {n : Nat} (f : Bool) (M : Matrix (Fin n) (Fin n) α) (i : Fin n) : seen f M i i = M i i := by cases f <;> rfl

theorem getrf_eq [Field α] {L : Lapack α} (hL : GetrfOK L) {v : View} {n : Nat} (p : 0 < n) {mem : List α} {f : Bool} {ld : Int} (h : LMat v n n mem.length f ld) {A : Int → Int → α}
    (hA : Entries v n n mem A) : ∃ mem' ipiv info F piv, getrf L v mem = .ok (mem', ipiv, info) ∧ BlockFrame v.off ld n mem mem' ∧ ColMajor v.off ld n mem' F ∧ Pivots ipiv piv ∧
      Factored (seen f (toMat n A)) F piv ∧ 0 ≤ info ∧ (info = 0 ↔ ∀ i, F i i ≠ 0) := by
  obtain ⟨mem', ipiv, info, F, piv, e, r⟩ := hL n v.off ld mem _ p h.b0 (by have := h.wide; cases f <;> simpa using this) h.ldb (colMajor_of h hA)
  refine ⟨mem', ipiv, info, F, piv, ?_, r⟩
  have hto : toInt32 (n : Int) = n := toInt32_id (Int.natCast_nonneg n) h.b0
  have e0 : rd v.lay.len 0 = some (n : Int) := by rw [h.len]; rfl
  have e1 : rd v.lay.len 1 = some (n : Int) := by rw [h.len]; rfl
  simp only [getrf, e0, e1, h.ld_eq, orUb, bind, Except.bind, hto, e]

/-- The loop over the diagonal. -/
theorem detLoop_eq [Field α] {v : View} {n : Nat} {mem : List α} {f : Bool} {ld : Int} (h : LMat v n n mem.length f ld) {F : Matrix (Fin n) (Fin n) α} (hF : ColMajor v.off ld n mem F) {ipiv : List Int}
    {piv : Fin n → Fin n} (hp : Pivots ipiv piv) :
    ∃ d flips, detLoop (n : Int) v ipiv mem = some (d, flips) ∧ (if flips % 2 = 1 then -d else d) = (∏ k, (if piv k ≠ k then (-1 : α) else 1)) * ∏ i, F i i := by
  have hE := entries_of h hF
  obtain ⟨s, e, h1, h2, h3⟩ := foldlM_range_inv (f := detStep v ipiv mem)
    (fun k s => s.1 = ∏ i ∈ Finset.range k, ofMat F (i : Int) (i : Int) ∧ 0 ≤ s.2 ∧
      (if s.2 % 2 = 1 then (-1 : α) else 1) = ∏ i ∈ Finset.range k, (if ipiv[i]? ≠ some ((i : Int) + 1) then (-1 : α) else 1)) n (1, 0) ⟨by simp, by simp, by simp⟩ (by
    rintro k ⟨d, c⟩ hk ⟨q1, q2, q3⟩
    have hp2 := hp.2 ⟨k, hk⟩
    simp only at hp2 q1 q2 q3
    have hload : load v [Int.ofNat k, Int.ofNat k] mem = some (ofMat F k k) := by
      rw [load_eq h.good (by rw [h.len, inRange2]; exact ⟨k, k, rfl, by omega, by exact_mod_cast hk, by omega, by exact_mod_cast hk⟩)]
      rw [show ([Int.ofNat k, Int.ofNat k] : List Int) = [(k : Int), (k : Int)] from rfl, hE k k (by omega) (by exact_mod_cast hk) (by omega) (by exact_mod_cast hk)]
      simp [ofMat, hk, seen_diag]
    refine ⟨(d * ofMat F k k, if (piv ⟨k, hk⟩ : Int) + 1 ≠ Int.ofNat k + 1 then c + 1 else c), ?_, ?_, ?_, ?_⟩
    · simp only [detStep, hload, rd, hp2, Option.bind_eq_bind, Option.bind_some]
      rfl
    · rw [Finset.prod_range_succ, ← q1]
    · simp only; split_ifs <;> omega
    · rw [Finset.prod_range_succ, ← q3, hp2]
      simp only [Option.some.injEq, ne_eq, Int.ofNat_eq_natCast]
      by_cases hpk : (piv ⟨k, hk⟩ : Int) + 1 = (k : Int) + 1
      · simp only [hpk, not_true_eq_false, if_false, mul_one]
      · simp only [hpk, not_false_eq_true, if_true]
        by_cases hc : c % 2 = 1
        · rw [if_pos hc, if_neg (by omega)]; ring
        · rw [if_neg hc, if_pos (by omega)]; ring)
  refine ⟨s.1, s.2, e, ?_⟩
  have hs : (if s.2 % 2 = 1 then -s.1 else s.1) = (if s.2 % 2 = 1 then (-1 : α) else 1) * s.1 := by split_ifs <;> ring
  rw [hs, h1, h3, Finset.prod_range, Finset.prod_range]
  congr 1
  · apply Finset.prod_congr rfl
    intro k _
    rw [hp.2 k]
    congr 1
    simp [Fin.ext_iff]
  · apply Finset.prod_congr rfl
    intro k _
    simp [ofMat]

theorem determinantInPlace_of [One α] [Mul α] [Neg α] {L : Lapack α} {v : View} {n info : Int} {mem mem' : List α} {ipiv : List Int} {d : α} {flips : Int} (hlen : v.lay.len = [n, n])
    (e : getrf L v mem = .ok (mem', ipiv, info)) (hi : 0 ≤ info) (el : detLoop (toInt32 n) v ipiv mem' = some (d, flips)) :
    determinantInPlace L false v mem = .ok (if flips % 2 = 1 then -d else d, mem') := by
  have e0 : rd v.lay.len 0 = some n := by rw [hlen]; rfl
  have e1 : rd v.lay.len 1 = some n := by rw [hlen]; rfl
  simp only [determinantInPlace, e0, e1, orUb, bind, Except.bind, e, pure, Except.pure, Bool.false_eq_true, if_false, ne_eq, not_true_eq_false, if_neg (not_lt.mpr hi)]
  generalize toInt32 n = t at el ⊢
  simp only [el]

theorem determinantInPlace_eq [Field α] {L : Lapack α} (hL : GetrfOK L) {v : View} {n : Nat} (p : 0 < n) {mem : List α} {f : Bool} {ld : Int} (h : LMat v n n mem.length f ld) {A : Int → Int → α}
    (hA : Entries v n n mem A) : ∃ mem', determinantInPlace L false v mem = .ok ((toMat n A).det, mem') ∧ mem'.length = mem.length ∧ ∀ k, ¬ Occupies v k → val mem' k = val mem k := by
  obtain ⟨mem', ipiv, info, F, piv, e, hbf, hF, hp, hfac, hi, -⟩ := getrf_eq hL p h hA
  obtain ⟨d, flips, el, hd⟩ := detLoop_eq (by rw [hbf.1]; exact h : LMat v n n mem'.length f ld) hF hp
  refine ⟨mem', ?_, hbf.1, frame_of h hbf⟩
  rw [show (toMat n A).det = if flips % 2 = 1 then -d else d by rw [hd, ← det_factored hfac, seen_det]]
  exact determinantInPlace_of h.len e hi (by rw [toInt32_id (Int.natCast_nonneg n) h.b0]; exact el)

/-- C46, in place: whatever pivoted factorisation LAPACK finds of the matrix (or, in C order, of its transpose), the determinant is reported.  Any size, order and leading dimension; outside the
matrix nothing changes. -/
theorem C46_determinant_in_place [Field α] (L : Lapack α) (hL : GetrfOK L) (v : View) (n : Nat) (p : 0 < n) (mem : List α) (hv : BlasMatrix v n n) (hg : Good v mem.length) (A : Int → Int → α)
    (hA : Entries v n n mem A) : ∃ mem', determinantInPlace L false v mem = .ok ((toMat n A).det, mem') ∧ mem'.length = mem.length ∧ ∀ k, ¬ Occupies v k → val mem' k = val mem k := by
  obtain ⟨f, ld, hl, -⟩ := hv.lmat hg
  exact determinantInPlace_eq hL p hl hA

/-- C46, a matrix that is not square is an error (unless it has no storage, see `C46_empty_witness`). -/
theorem C46_rejects [Field α] (L : Lapack α) (v : View) (n0 n1 : Int) (mem : List α) (hlen : v.lay.len = [n0, n1]) (h : n0 ≠ n1) : determinantInPlace L false v mem = .error .runtime := by
  have e0 : rd v.lay.len 0 = some n0 := by rw [hlen]; rfl
  have e1 : rd v.lay.len 1 = some n1 := by rw [hlen]; rfl
  simp only [determinantInPlace, e0, e1, orUb, bind, Except.bind, pure, Except.pure, Bool.false_eq_true, if_false, ne_eq, h, not_false_eq_true, if_true]
  rfl

theorem newMatrix_zero (junk : α) {so : List Nat} (hso : so = [1, 0] ∨ so = [0, 1]) {rhs : Rhs α} {mem : List α} {x : Int → Int → α} (hy : Yields rhs [0, 0] mem (fun idx => x (idx.getD 0 0) (idx.getD 1 0))) :
    ∃ r mem', newMatrix junk so 0 0 rhs mem = some (r, mem') ∧ Ext mem mem' ∧ r.lay.size = 0 ∧ r.lay.len = [0, 0] := by
  obtain ⟨m, hm, e1, hlen⟩ := fresh_eq junk (so := so) (len := [0, 0]) (by rcases hso with rfl | rfl <;> decide) (by rcases hso with rfl | rfl <;> rfl) (nonneg2 (by omega) (by omega)) mem
  obtain ⟨mem3, e2, hu⟩ := assign_new (a := ⟨(mem.length : Int), m⟩) (mem2 := mem ++ List.replicate m.size.toNat junk) hy (hm.good _ (by rw [hlen])) hm.one hm.len_eq (by simp)
    (fun idx hi => (hm.above idx hi).1) (fun k hk => by rw [val_append_left _ hk]) (by rw [hlen]; omega)
  refine ⟨⟨(mem.length : Int), m⟩, mem3, ?_, ⟨by rw [hu.size, hlen]; omega, fun k hk => ?_⟩, by rw [hm.size_eq]; rfl, hm.len_eq⟩
  · simp only [newMatrix, e1, Option.bind_eq_bind, Option.bind_some, e2]; rfl
  · rw [hu.frame k, val_append_left _ hk]
    rintro ⟨idx, hi, h⟩
    rw [show (View.mk (mem.length : Int) m).lay.len = _ from hm.len_eq, inRange2] at hi
    obtain ⟨i, j, rfl, i0, i1, j0, j1⟩ := hi
    omega

/-- C46, `determinant` of a matrix, view or expression of any size: the argument is not changed. -/
theorem C46_determinant [Field α] (L : Lapack α) (hL : GetrfOK L) (junk : α) (so : List Nat) (hso : so = [1, 0] ∨ so = [0, 1]) (n : Nat) (hn : (n : Int) < 2147483648) (rhs : Rhs α) (mem : List α)
    (A : Int → Int → α) (hy : Yields rhs [(n : Int), (n : Int)] mem (fun idx => A (idx.getD 0 0) (idx.getD 1 0))) :
    ∃ mem', determinant L junk so n n rhs mem = .ok ((toMat n A).det, mem') ∧ Ext mem mem' := by
  by_cases p : n = 0
  · subst p
    obtain ⟨r, mem', e, hx, hs, -⟩ := newMatrix_zero junk hso hy
    refine ⟨mem', ?_, hx⟩
    rw [Nat.cast_zero]
    simp only [determinant, e, orUb, bind, Except.bind, hs, determinantInPlace, BEq.rfl, if_true, Matrix.det_fin_zero]
    rfl
  · obtain ⟨f, hf⟩ : ∃ f : Bool, so = if f then [1, 0] else [0, 1] := by
      rcases hso with h | h
      · exact ⟨true, h⟩
      · exact ⟨false, h⟩
    obtain ⟨r, mem1, e, hx, hl, hE, hab⟩ := newMatrix_eq junk f (show 0 < (n : Int) by omega) (show 0 < (n : Int) by omega) hn hn hy (Ext.refl mem)
    obtain ⟨mem', e2, h1, h2⟩ := determinantInPlace_eq hL (by omega) hl hE
    refine ⟨mem', ?_, ⟨by rw [h1]; exact hx.grow, fun k hk => ?_⟩⟩
    · have hsz : (r.lay.size == 0) = false := by
        rw [IdxMap.size_eq, hl.len]
        simp [prod]; omega
      rw [hf]
      simp only [determinant, e, orUb, bind, Except.bind, hsz, e2]
    · rw [h2 k, hx.old k hk]
      rintro ⟨idx, hi, he⟩
      rw [hl.len] at hi
      have := hab idx hi
      omega

/-! ### Inverse -/

theorem mul_of_seen [Field α] {n : Nat} {f : Bool} {A X : Matrix (Fin n) (Fin n) α} (h : X * seen f A = 1) : seen f X * A = 1 := by
  cases f
  · have h2 : seen false A * X = 1 := mul_eq_one_comm.mp h
    have := congrArg Matrix.transpose h2
    rw [Matrix.transpose_mul, Matrix.transpose_one] at this
    exact this
  · exact h

theorem inverseLU_eq [Field α] [DecidableEq α] {L : Lapack α} (hf : GetrfOK L) (hi : GetriOK L) {v : View} {n : Nat} (p : 0 < n) {mem : List α} {f : Bool} {ld : Int} (h : LMat v n n mem.length f ld)
    {A : Int → Int → α} (hA : Entries v n n mem A) :
    ((toMat n A).det = 0 ∧ ∃ mem', inverseLU L v mem = .ok (false, mem') ∧ mem'.length = mem.length ∧ ∀ k, ¬ Occupies v k → val mem' k = val mem k) ∨
    ((toMat n A).det ≠ 0 ∧ ∃ mem' X, inverseLU L v mem = .ok (true, mem') ∧ Updated v (fun idx => some (X (idx.getD 0 0) (idx.getD 1 0))) mem mem' ∧ toMat n X * toMat n A = 1) := by
  obtain ⟨mem1, ipiv, info, F, piv, e, hbf, hF, hp, hfac, hi0, hinfo⟩ := getrf_eq hf p h hA
  have hdet : (toMat n A).det = (∏ k, (if piv k ≠ k then (-1 : α) else 1)) * ∏ i, F i i := by rw [← det_factored hfac, seen_det]
  have hsign : (∏ k, (if piv k ≠ k then (-1 : α) else 1)) ≠ 0 := fun h0 => by
    have := sign_mul_self (α := α) Finset.univ (fun k => piv k ≠ k)
    rw [h0, zero_mul] at this
    exact zero_ne_one this
  by_cases h0 : info = 0
  · have hF0 := hinfo.mp h0
    refine Or.inr ⟨by rw [hdet]; exact mul_ne_zero hsign (Finset.prod_ne_zero_iff.mpr (fun i _ => hF0 i)), ?_⟩
    obtain ⟨mem', X, e2, hbf2, hX, hXA⟩ := hi n v.off ld mem1 _ F ipiv piv p h.b0 (by have := h.wide; cases f <;> simpa using this) h.ldb hF hp hfac hF0
    have hto : toInt32 (n : Int) = n := toInt32_id (Int.natCast_nonneg n) h.b0
    have e0 : rd v.lay.len 0 = some (n : Int) := by rw [h.len]; rfl
    have e1 : rd v.lay.len 1 = some (n : Int) := by rw [h.len]; rfl
    refine ⟨mem', ofMat (seen f X), ?_, ⟨hbf2.1.trans hbf.1, fun idx hidx => ?_, fun k hk => (frame_of h hbf2 k hk).trans (frame_of h hbf k hk)⟩, ?_⟩
    · simp only [inverseLU, e, bind, Except.bind, h0, ne_eq, not_true_eq_false, if_false, getri, e0, e1, orUb, hp.1, min_self, lt_self_iff_false, h.ld_eq,
        hto, e2, pure, Except.pure]
    · rw [h.len, inRange2] at hidx
      obtain ⟨i, j, rfl, i0, i1, j0, j1⟩ := hidx
      exact entries_of h hX i j i0 i1 j0 j1
    · rw [toMat_ofMat]
      exact mul_of_seen hXA
  · refine Or.inl ⟨?_, mem1, ?_, hbf.1, frame_of h hbf⟩
    · have : ∃ i, F i i = 0 := by
        by_contra hc
        exact h0 (hinfo.mpr (fun i hi => hc ⟨i, hi⟩))
      obtain ⟨i, hi⟩ := this
      rw [hdet, Finset.prod_eq_zero (f := fun i => F i i) (Finset.mem_univ i) hi, mul_zero]
    · simp only [inverseLU, e, bind, Except.bind, ne_eq, h0, not_false_eq_true, if_true]
      rfl

theorem inverseInPlace_eq [Field α] [DecidableEq α] {L : Lapack α} {v : View} {n : Nat} (p : 0 < n) {mem : List α} {A : Int → Int → α} (h : Sq v n mem A)
    (hbig : 3 < n → GetrfOK L ∧ GetriOK L ∧ ∃ f ld, LMat v n n mem.length f ld) :
    ((toMat n A).det = 0 ∧ ∃ mem', inverseInPlace L false v mem = .ok (false, mem') ∧ mem'.length = mem.length ∧ ∀ k, ¬ Occupies v k → val mem' k = val mem k) ∨
    ((toMat n A).det ≠ 0 ∧ ∃ mem' X, inverseInPlace L false v mem = .ok (true, mem') ∧ Updated v (fun idx => some (X (idx.getD 0 0) (idx.getD 1 0))) mem mem' ∧
      toMat n X * toMat n A = 1 ∧ toMat n A * toMat n X = 1) := by
  have e0 : rd v.lay.len 0 = some (n : Int) := by rw [h.len]; rfl
  by_cases h3 : 3 < n
  · obtain ⟨h1, h2, f, ld, hl⟩ := hbig h3
    have ee : inverseInPlace L false v mem = inverseLU L v mem := by
      simp only [inverseInPlace, e0, orUb, bind, Except.bind, Bool.false_eq_true, if_false, if_neg (show ¬ (n : Int) = 1 by omega), if_neg (show ¬ (n : Int) = 2 by omega),
        if_neg (show ¬ (n : Int) = 3 by omega)]
    rw [ee]
    rcases inverseLU_eq h1 h2 p hl h.entries with ⟨a, b⟩ | ⟨a, mem', X, b, c, d⟩
    · exact Or.inl ⟨a, b⟩
    · exact Or.inr ⟨a, mem', X, b, c, d, mul_eq_one_comm.mp d⟩
  · have hcase : n = 1 ∨ n = 2 ∨ n = 3 := by omega
    rcases hcase with rfl | rfl | rfl
    · have ee : inverseInPlace L false v mem = orUb (inverse1 v mem) := by
        simp only [inverseInPlace, e0, orUb, bind, Except.bind, Bool.false_eq_true, if_false, Nat.cast_one, if_true]
      have hd : (toMat 1 A).det = A 0 0 := by rw [Matrix.det_fin_one]; rfl
      rw [ee, hd]
      rcases inverse1_eq h with ⟨a, b⟩ | ⟨a, mem', X, b, c, d⟩
      · exact Or.inl ⟨a, mem, by rw [b]; rfl, rfl, fun _ _ => rfl⟩
      · exact Or.inr ⟨a, mem', X, by rw [b]; rfl, c, d, mul_eq_one_comm.mp d⟩
    · have ee : inverseInPlace L false v mem = orUb (inverse2 v mem) := by
        simp only [inverseInPlace, e0, orUb, bind, Except.bind, Bool.false_eq_true, if_false]
        rfl
      rw [ee]
      rcases inverse2_eq h with ⟨a, mem', b, c⟩ | ⟨a, mem', X, b, c, d⟩
      · exact Or.inl ⟨a, mem', by rw [b]; rfl, c.size, c.frame⟩
      · exact Or.inr ⟨a, mem', X, by rw [b]; rfl, c, d, mul_eq_one_comm.mp d⟩
    · have ee : inverseInPlace L false v mem = orUb (inverse3 v mem) := by
        simp only [inverseInPlace, e0, orUb, bind, Except.bind, Bool.false_eq_true, if_false]
        rfl
      rw [ee]
      rcases inverse3_eq h with ⟨a, b⟩ | ⟨a, mem', X, b, c, d⟩
      · exact Or.inl ⟨a, mem, by rw [b]; rfl, rfl, fun _ _ => rfl⟩
      · exact Or.inr ⟨a, mem', X, by rw [b]; rfl, c, d, mul_eq_one_comm.mp d⟩

/-- C45, in place, sizes 1 to 3, any strides: "not invertible" exactly if the determinant is zero (then only the matrix may have changed), else the two-sided inverse. -/
theorem C45_inverse_in_place [Field α] [DecidableEq α] (L : Lapack α) (v : View) (n : Nat) (p : 0 < n) (p3 : n ≤ 3) (mem : List α) (hg : Good v mem.length) (h1 : OneToOne v)
    (hlen : v.lay.len = [(n : Int), (n : Int)]) (A : Int → Int → α) (hA : Entries v n n mem A) :
    ((toMat n A).det = 0 ∧ ∃ mem', inverseInPlace L false v mem = .ok (false, mem') ∧ mem'.length = mem.length ∧ ∀ k, ¬ Occupies v k → val mem' k = val mem k) ∨
    ((toMat n A).det ≠ 0 ∧ ∃ mem' X, inverseInPlace L false v mem = .ok (true, mem') ∧ Updated v (fun idx => some (X (idx.getD 0 0) (idx.getD 1 0))) mem mem' ∧
      toMat n X * toMat n A = 1 ∧ toMat n A * toMat n X = 1) :=
  inverseInPlace_eq p ⟨hg, h1, hlen, hA⟩ (fun h => by omega)

/-- The same for any size, by LAPACK, for matrices LAPACK can handle. -/
theorem C45_inverse_in_place_any [Field α] [DecidableEq α] (L : Lapack α) (hf : GetrfOK L) (hi : GetriOK L) (v : View) (n : Nat) (p : 0 < n) (mem : List α) (hv : BlasMatrix v n n)
    (hg : Good v mem.length) (A : Int → Int → α) (hA : Entries v n n mem A) :
    ((toMat n A).det = 0 ∧ ∃ mem', inverseInPlace L false v mem = .ok (false, mem') ∧ mem'.length = mem.length ∧ ∀ k, ¬ Occupies v k → val mem' k = val mem k) ∨
    ((toMat n A).det ≠ 0 ∧ ∃ mem' X, inverseInPlace L false v mem = .ok (true, mem') ∧ Updated v (fun idx => some (X (idx.getD 0 0) (idx.getD 1 0))) mem mem' ∧
      toMat n X * toMat n A = 1 ∧ toMat n A * toMat n X = 1) := by
  obtain ⟨f, ld, hl, -⟩ := hv.lmat hg
  exact inverseInPlace_eq p ⟨hg, hl.one, hl.len, hA⟩ (fun _ => ⟨hf, hi, f, ld, hl⟩)

/-- C45, larger matrices: the inverse is reported to exist only if neither call of LAPACK has reported an error (whatever is assumed of LAPACK). -/
theorem C45_lapack_errors [Field α] [DecidableEq α] (L : Lapack α) (v : View) (n0 n1 : Int) (hlen : v.lay.len = [n0, n1]) (hn : 3 < n0) (mem mem' : List α)
    (h : inverseInPlace L false v mem = .ok (true, mem')) :
    ∃ mem1 ipiv, getrf L v mem = .ok (mem1, ipiv, 0) ∧ getri L v ipiv mem1 = .ok (mem', 0) := by
  have e0 : rd v.lay.len 0 = some n0 := by rw [hlen]; rfl
  simp only [inverseInPlace, e0, orUb, bind, Except.bind, Bool.false_eq_true, if_false, show n0 ≠ 1 by omega, show n0 ≠ 2 by omega, show n0 ≠ 3 by omega, inverseLU, pure, Except.pure] at h
  cases e1 : getrf L v mem with
  | error _ => rw [e1] at h; cases h
  | ok r =>
    obtain ⟨mem1, ipiv, info⟩ := r
    rw [e1] at h
    simp only at h
    by_cases h0 : info = 0
    · subst h0
      simp only [ne_eq, not_true, if_false] at h
      cases e2 : getri L v ipiv mem1 with
      | error _ => rw [e2] at h; cases h
      | ok r =>
        obtain ⟨mem2, info⟩ := r
        rw [e2] at h
        simp only at h
        by_cases h1 : info = 0
        · subst h1
          simp only [not_true, if_false, Except.ok.injEq, Prod.mk.injEq, true_and] at h
          subst h
          exact ⟨mem1, ipiv, rfl, e2⟩
        · simp [h1] at h
    · simp [h0] at h

/-- C45, `inverse` of a matrix, view or expression: a new matrix; the arguments are not changed. -/
theorem C45_inverse [Field α] [DecidableEq α] (L : Lapack α) (junk : α) (so : List Nat) (hso : so = [1, 0] ∨ so = [0, 1]) (n : Nat) (hn : (n : Int) < 2147483648)
    (hbig : 3 < n → GetrfOK L ∧ GetriOK L) (rhs : Rhs α) (mem : List α) (A : Int → Int → α) (hy : Yields rhs [(n : Int), (n : Int)] mem (fun idx => A (idx.getD 0 0) (idx.getD 1 0))) :
    ((toMat n A).det = 0 ∧ ∃ r mem', inverse L junk so n n rhs mem = .ok (r, false, mem') ∧ Ext mem mem') ∨
    ((toMat n A).det ≠ 0 ∧ ∃ r mem' X, inverse L junk so n n rhs mem = .ok (r, true, mem') ∧ Ext mem mem' ∧ r.lay.len = [(n : Int), (n : Int)] ∧ Entries r n n mem' X ∧
      toMat n X * toMat n A = 1 ∧ toMat n A * toMat n X = 1) := by
  by_cases p : n = 0
  · subst p
    obtain ⟨r, mem', e, hx, hs, hl⟩ := newMatrix_zero junk hso hy
    refine Or.inr ⟨by rw [Matrix.det_fin_zero]; exact one_ne_zero, r, mem', fun _ _ => 0, ?_, hx, hl, fun i j i0 i1 => ?_, Subsingleton.elim _ _, Subsingleton.elim _ _⟩
    · rw [Nat.cast_zero]
      simp only [inverse, e, orUb, bind, Except.bind, hs, inverseInPlace, BEq.rfl, if_true]
      rfl
    · rw [Nat.cast_zero] at i1; omega
  · obtain ⟨f, hf⟩ : ∃ f : Bool, so = if f then [1, 0] else [0, 1] := by
      rcases hso with h | h
      · exact ⟨true, h⟩
      · exact ⟨false, h⟩
    obtain ⟨r, mem1, e, hx, hl, hE, hab⟩ := newMatrix_eq junk f (show 0 < (n : Int) by omega) (show 0 < (n : Int) by omega) hn hn hy (Ext.refl mem)
    have hsz : (r.lay.size == 0) = false := by
      rw [IdxMap.size_eq, hl.len]
      simp [prod]; omega
    have hext : ∀ mem' : List α, mem'.length = mem1.length → (∀ k, ¬ Occupies r k → val mem' k = val mem1 k) → Ext mem mem' := by
      intro mem' h1 h2
      refine ⟨by rw [h1]; exact hx.grow, fun k hk => ?_⟩
      rw [h2 k, hx.old k hk]
      rintro ⟨idx, hi, he⟩
      rw [hl.len] at hi
      have := hab idx hi
      omega
    rcases inverseInPlace_eq (L := L) (n := n) (by omega) ⟨hl.good, hl.one, hl.len, hE⟩ (fun h => ⟨(hbig h).1, (hbig h).2, f, _, hl⟩) with ⟨a, mem', b, c, d⟩ | ⟨a, mem', X, b, c, d1, d2⟩
    · refine Or.inl ⟨a, r, mem', ?_, hext mem' c d⟩
      rw [hf]
      simp only [inverse, e, orUb, bind, Except.bind, hsz, b]
      rfl
    · refine Or.inr ⟨a, r, mem', X, ?_, hext mem' c.size c.frame, hl.len, fun i j i0 i1 j0 j1 => ?_, d1, d2⟩
      · rw [hf]
        simp only [inverse, e, orUb, bind, Except.bind, hsz, b]
        rfl
      · rw [c.elems [i, j] (by rw [hl.len, inRange2]; exact ⟨i, j, rfl, i0, i1, j0, j1⟩)]
        rfl

/-! ### Examples -/

/-- A LAPACK that is never there. -/
def noLapack : Lapack ℚ := ⟨fun _ _ _ _ _ => .error .runtime, fun _ _ _ _ _ => .error .runtime, fun _ _ _ _ _ _ _ _ _ => .error .runtime⟩

/-- A block of a larger C-order array. -/
def exQ : View := ⟨0, ⟨[2, 2], [3, 1], [0, 1], [0, 0], .none⟩⟩
def exMemQ : List ℚ := [1, 2, 7, 3, 4, 7]
def exMemS : List ℚ := [1, 2, 7, 2, 4, 7]

theorem exQ_good : Good exQ 6 := good_of (by decide) rfl rfl rfl (by intro u _ h; cases h) 0 (by intro h; cases h) (by decide) (by decide)
theorem exQ_one : OneToOne exQ := oneToOne_of (by decide)
theorem exQ_blas : BlasMatrix exQ (2 : Nat) (2 : Nat) := ⟨rfl, Or.inr ⟨rfl, 3, rfl, by decide, by decide, by decide⟩, by decide, by decide⟩

/-- `[[1,2],[3,4]]`. -/
def exEntries : Int → Int → ℚ := fun i j => 2 * i + j + 1

theorem exQ_entries : Entries exQ (2 : Nat) (2 : Nat) exMemQ exEntries := by
  intro i j i0 i1 j0 j1
  have hi : i = 0 ∨ i = 1 := by omega
  have hj : j = 0 ∨ j = 1 := by omega
  rcases hi with rfl | rfl <;> rcases hj with rfl | rfl <;> decide +kernel

theorem exQ_det : (toMat 2 exEntries).det = -2 := by
  rw [Matrix.det_fin_two]; simp [toMat, exEntries]; norm_num

/-- The hypotheses of `C46_determinant_in_place` and of `C45_inverse_in_place`, `C45_inverse_in_place_any` are met together, and for every LAPACK as assumed (there is one, `C46_lapack_exists`) the
determinant of `[[1,2],[3,4]]` is -2. -/
example (L : Lapack ℚ) (hL : GetrfOK L) : ∃ mem', determinantInPlace L false exQ exMemQ = .ok (-2, mem') := by
  obtain ⟨mem', e, -⟩ := C46_determinant_in_place L hL exQ 2 (by decide) exMemQ exQ_blas exQ_good exEntries exQ_entries
  exact ⟨mem', by rw [e, exQ_det]⟩

/-- The inverse of `[[1,2],[3,4]]` in place; the rest of the larger array is not touched. -/
example : inverseInPlace noLapack false exQ exMemQ = .ok (true, [-2, 1, 7, 3/2, -1/2, 7]) := by decide +kernel

/-- Of the transposed view. -/
example : inverseInPlace noLapack false ⟨0, ⟨[2, 2], [1, 3], [1, 0], [0, 0], .none⟩⟩ exMemQ = .ok (true, [-2, 1, 7, 3/2, -1/2, 7]) := by decide +kernel

/-- Size 3: `[[0,1,2],[1,0,3],[4,-3,8]]`. -/
example : inverseInPlace noLapack false ⟨0, ⟨[3, 3], [3, 1], [0, 1], [0, 0], .contiguous⟩⟩ [0, 1, 2, 1, 0, 3, 4, -3, 8] =
    .ok (true, [-9/2, 7, -3/2, -2, 4, -1, 3/2, -2, 1/2]) := by decide +kernel

/-- `C45_lapack_errors`: the identity of size 4, with a LAPACK that does nothing and reports `i` from `getri`. -/
example : ∀ i ∈ [(0 : Int), 3], inverseInPlace ⟨fun _ _ _ _ m => .ok (m, [1, 2, 3, 4], 0), fun _ _ _ _ m => .ok (m, i), fun _ _ _ _ _ _ _ _ _ => .error .runtime⟩ false
    ⟨0, ⟨[4, 4], [4, 1], [0, 1], [0, 0], .contiguous⟩⟩ ([1, 0, 0, 0, 0, 1, 0, 0, 0, 0, 1, 0, 0, 0, 0, 1] : List ℚ) =
    .ok (i == 0, [1, 0, 0, 0, 0, 1, 0, 0, 0, 0, 1, 0, 0, 0, 0, 1]) := by decide +kernel

/-- `C45_inverse` on an expression. -/
example : (inverse noLapack 9 [0, 1] 1 1 (.expr fun _ _ => some 4) []).map (fun r => r.2) = .ok (true, [1/4]) := by decide +kernel

/-- When the matrix is not invertible it may have changed before the error: the diagonal of `[[1,2],[2,4]]` is exchanged. -/
theorem C45_singular_leftover_witness : inverseInPlace noLapack false exQ exMemS = .ok (false, [4, 2, 7, 2, 1, 7]) := by decide +kernel

/-- A matrix that is not square, but has no storage, has determinant 1. -/
theorem C46_empty_witness [Field α] (L : Lapack α) : determinantInPlace L true ⟨0, ⟨[2, 0], [0, 1], [0, 1], [0, 0], .contiguous⟩⟩ ([] : List α) = .ok (1, []) := rfl

/-- `C46_rejects` with storage. -/
example (L : Lapack ℚ) : determinantInPlace L false ⟨0, ⟨[2, 1], [1, 1], [0, 1], [0, 0], .contiguous⟩⟩ [1, 2] = .error .runtime := C46_rejects L _ 2 1 _ rfl (by decide)

end Nda.Linalg
