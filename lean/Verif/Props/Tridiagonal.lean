import Verif.Props.Svd
import Verif.Spec.Tridiagonal
/-!
# C61: tridiagonal systems
-/
namespace Nda.Linalg
open Nda Nda.Spec LayoutTransforms Assign Loops Nda.Matrix Blas
open scoped _root_.Matrix

variable {α R : Type}

theorem _root_.Nda.Spec.Line.consecutive {v : View} {n : Nat} {mem : List α} {x : Int → α} (h : Line v n mem x) : Consecutive v.off n mem x := by
  intro i
  have := i.isLt
  rw [← h.unit i (by omega) (by omega)]
  exact h.entry i (by omega) (by omega)

theorem _root_.Nda.Spec.Line.inRun {v : View} {n : Nat} {mem : List α} {x : Int → α} (h : Line v n mem x) (k : Int) : InRun v.off n k ↔ Occupies v k := by
  constructor
  · rintro ⟨h1, h2⟩
    refine ⟨[k - v.off], ?_, ?_⟩
    · rw [h.len, inRange1]; exact ⟨_, rfl, by omega, by omega⟩
    · rw [h.unit _ (by omega) (by omega)]; omega
  · rintro ⟨idx, hi, e⟩
    rw [h.len, inRange1] at hi
    obtain ⟨i, rfl, h1, h2⟩ := hi
    rw [h.unit i h1 h2] at e
    exact ⟨by omega, by omega⟩

theorem not_both {u v : View} (h : Separate u v) (k : Int) : ¬ (Occupies u k ∧ Occupies v k) := by
  rintro ⟨⟨idx, hi, e1⟩, ⟨jdx, hj, e2⟩⟩
  exact h idx jdx hi hj (e1.trans e2.symm)

theorem _root_.Nda.Spec.Block.inBlock {v : View} {n r : Nat} {mem : List α} {B : Int → Int → α} (h : Block v n r mem B) (k : Int) : InBlock v.off n n r k ↔ Occupies v k := by
  constructor
  · rintro ⟨i, j, e⟩
    have hi := i.isLt
    have hj := j.isLt
    refine ⟨[(i : Int), (j : Int)], ?_, ?_⟩
    · rw [h.len, inRange2]; exact ⟨_, _, rfl, by omega, by omega, by omega, by omega⟩
    · rw [h.dense _ _ (by omega) (by omega) (by omega) (by omega)]; exact e
  · rintro ⟨idx, hi, e⟩
    rw [h.len, inRange2] at hi
    obtain ⟨i, j, rfl, h1, h2, h3, h4⟩ := hi
    rw [h.dense i j h1 h2 h3 h4] at e
    obtain ⟨i, rfl⟩ := Int.eq_ofNat_of_zero_le h1
    obtain ⟨j, rfl⟩ := Int.eq_ofNat_of_zero_le h3
    exact ⟨⟨i, by omega⟩, ⟨j, by omega⟩, e⟩

theorem _root_.Nda.Spec.Block.colMajor {v : View} {n r : Nat} {mem : List α} {B : Int → Int → α} (h : Block v n r mem B) : ColMajor2 v.off n n r mem (toMat2 n r B) := by
  intro i j
  have hi := i.isLt
  have hj := j.isLt
  have := h.entry i j (by omega) (by omega) (by omega) (by omega)
  rw [h.dense _ _ (by omega) (by omega) (by omega) (by omega)] at this
  exact this

/-- C61, for right-hand sides in Fortran order without gaps and diagonals without gaps: `gtsv` returns 0 if and only if the tridiagonal matrix is invertible; then `b` holds the solution.  Nothing is written
outside the four arguments. -/
theorem C61_gtsv_partial [Field α] (D : Drivers α R) (hD : GtsvOK D) (dl d du b : View) (n r : Nat) (pn : 0 < n) (bn : (n : Int) < 2147483648) (br : (r : Int) < 2147483648) (mem : List α)
    (xl x xu : Int → α) (B : Int → Int → α) (hl : Line dl (n - 1) mem xl) (hd : Line d n mem x) (hu : Line du (n - 1) mem xu) (hb : Block b n r mem B)
    (s1 : Separate dl d) (s2 : Separate dl du) (s3 : Separate d du) (s4 : Separate dl b) (s5 : Separate d b) (s6 : Separate du b) :
    ∃ mem' info, gtsv D dl d du b mem = .ok (mem', info) ∧ mem'.length = mem.length ∧
      (∀ k, ¬ Occupies dl k → ¬ Occupies d k → ¬ Occupies du k → ¬ Occupies b k → val mem' k = val mem k) ∧ (info = 0 ↔ (tridiag n xl x xu).det ≠ 0) ∧
      (info = 0 → ∃ X, Entries b n r mem' X ∧ tridiag n xl x xu * toMat2 n r X = toMat2 n r B) := by
  obtain ⟨mem', info, e, hlen, hfr, hdet, hsol⟩ := hD n r dl.off d.off du.off b.off n mem xl x xu (toMat2 n r B) pn bn br (le_refl _) bn hl.consecutive hd.consecutive hu.consecutive hb.colMajor
    (fun k => by
      simp only [hl.inRun, hd.inRun, hu.inRun, hb.inBlock]
      exact ⟨not_both s1 k, not_both s2 k, not_both s3 k, not_both s4 k, not_both s5 k, not_both s6 k⟩)
  simp only [hl.inRun, hd.inRun, hu.inRun, hb.inBlock] at hfr
  refine ⟨mem', info, ?_, hlen, hfr, hdet, fun h0 => ?_⟩
  · have r0 : rd d.lay.len 0 = some (n : Int) := by rw [hd.len]; rfl
    have r1 : rd b.lay.len 1 = some (r : Int) := by rw [hb.len]; rfl
    have r2 : b.lay.len.length = 2 := by rw [hb.len]; rfl
    simp only [gtsv, r0, r1, r2, orUb, bind, Except.bind, if_true, toInt32_id (Int.natCast_nonneg n) bn, toInt32_id (Int.natCast_nonneg r) br, e]
  · obtain ⟨X, hX, hs⟩ := hsol h0
    refine ⟨ofMat2 X, ?_, by rw [toMat2_ofMat2]; exact hs⟩
    intro i j h1 h2 h3 h4
    rw [hb.dense i j h1 h2 h3 h4]
    obtain ⟨i, rfl⟩ := Int.eq_ofNat_of_zero_le h1
    obtain ⟨j, rfl⟩ := Int.eq_ofNat_of_zero_le h3
    have := hX ⟨i, by omega⟩ ⟨j, by omega⟩
    rw [show (ofMat2 X (i : Int) (j : Int)) = X ⟨i, by omega⟩ ⟨j, by omega⟩ from ofMat2_apply X ⟨i, by omega⟩ ⟨j, by omega⟩]
    exact this

/-- The same for a vector. -/
theorem C61_gtsv_vector_partial [Field α] (D : Drivers α R) (hD : GtsvOK D) (dl d du b : View) (n : Nat) (pn : 0 < n) (bn : (n : Int) < 2147483648) (mem : List α)
    (xl x xu y : Int → α) (hl : Line dl (n - 1) mem xl) (hd : Line d n mem x) (hu : Line du (n - 1) mem xu) (hb : Line b n mem y)
    (s1 : Separate dl d) (s2 : Separate dl du) (s3 : Separate d du) (s4 : Separate dl b) (s5 : Separate d b) (s6 : Separate du b) :
    ∃ mem' info, gtsv D dl d du b mem = .ok (mem', info) ∧ mem'.length = mem.length ∧
      (∀ k, ¬ Occupies dl k → ¬ Occupies d k → ¬ Occupies du k → ¬ Occupies b k → val mem' k = val mem k) ∧ (info = 0 ↔ (tridiag n xl x xu).det ≠ 0) ∧
      (info = 0 → ∃ z : Int → α, (∀ i : Int, 0 ≤ i → i < n → val mem' (addr b [i]) = some (z i)) ∧ tridiag n xl x xu *ᵥ (fun i : Fin n => z i) = fun i : Fin n => y i) := by
  have hblk : ∀ k, InBlock b.off n n 1 k ↔ Occupies b k := by
    intro k
    rw [← hb.inRun]
    constructor
    · rintro ⟨i, j, e⟩
      have hi := i.isLt
      have hj := j.isLt
      obtain rfl : j = 0 := by omega
      simp at e
      exact ⟨by omega, by omega⟩
    · rintro ⟨h1, h2⟩
      refine ⟨⟨(k - b.off).toNat, by omega⟩, 0, ?_⟩
      simp
      omega
  obtain ⟨mem', info, e, hlen, hfr, hdet, hsol⟩ := hD n 1 dl.off d.off du.off b.off n mem xl x xu (fun i _ => y i) pn bn (by decide) (le_refl _) bn hl.consecutive hd.consecutive hu.consecutive
    (by
      intro i j
      have := hb.consecutive i
      obtain rfl : j = 0 := by omega
      simpa using this)
    (fun k => by
      simp only [hl.inRun, hd.inRun, hu.inRun, hblk]
      exact ⟨not_both s1 k, not_both s2 k, not_both s3 k, not_both s4 k, not_both s5 k, not_both s6 k⟩)
  simp only [hl.inRun, hd.inRun, hu.inRun, hblk] at hfr
  refine ⟨mem', info, ?_, hlen, hfr, hdet, fun h0 => ?_⟩
  · have r0 : rd d.lay.len 0 = some (n : Int) := by rw [hd.len]; rfl
    have r2 : b.lay.len.length = 1 := by rw [hb.len]; rfl
    have t1 : toInt32 1 = 1 := by decide
    have e' : D.gtsv n 1 dl.off d.off du.off b.off n mem = .ok (mem', info) := e
    simp only [gtsv, r0, r2, orUb, bind, Except.bind, pure, Except.pure, if_true, toInt32_id (Int.natCast_nonneg n) bn, t1]
    exact e'
  · obtain ⟨X, hX, hs⟩ := hsol h0
    refine ⟨fun i => ofMat2 X i 0, fun i h1 h2 => ?_, ?_⟩
    · rw [hb.unit i h1 h2]
      obtain ⟨i, rfl⟩ := Int.eq_ofNat_of_zero_le h1
      have := hX ⟨i, by omega⟩ 0
      beta_reduce
      rw [show (ofMat2 X (i : Int) 0) = X ⟨i, by omega⟩ 0 from ofMat2_apply X ⟨i, by omega⟩ 0]
      simpa using this
    · funext i
      have := congrFun (congrFun hs i) 0
      rw [← this]
      rw [Matrix.mul_apply]
      simp only [Matrix.mulVec, dotProduct]
      apply Finset.sum_congr rfl
      intro k _
      rw [show (ofMat2 X (k : Int) 0) = X k 0 from ofMat2_apply X k 0]

/-- Ranks other than 1 and 2 do not compile. -/
theorem C61_gtsv_rejects (D : Drivers α R) (dl d du b : View) (n : Int) (hd : d.lay.len = [n]) (h1 : b.lay.len.length ≠ 1) (h2 : b.lay.len.length ≠ 2) (mem : List α) :
    gtsv D dl d du b mem = .error .compile := by
  have r0 : rd d.lay.len 0 = some n := by rw [hd]; rfl
  simp only [gtsv, r0, orUb, bind, Except.bind, h1, h2, if_false, throw, throwThe, MonadExceptOf.throw]

/-- There is such a LAPACK routine. -/
theorem C61_gtsv_exists [Field α] (D0 : Drivers α R) : ∃ D : Drivers α R, GtsvOK D ∧ D.heev = D0.heev ∧ D.gesvd = D0.gesvd ∧ D.gelss = D0.gelss := by
  classical
  let post : Int → Int → Int → Int → Int → Int → Int → List α → (List α × Int) → Prop := fun N r' dl d du b ldb mem res =>
    ∀ (n r : Nat) (xl x xu : Int → α) (B : Matrix (Fin n) (Fin r) α), N = n → r' = r → Consecutive dl (n - 1) mem xl → Consecutive d n mem x → Consecutive du (n - 1) mem xu → ColMajor2 b ldb n r mem B →
      res.1.length = mem.length ∧ (∀ k, ¬ InBlock b ldb n r k → val res.1 k = val mem k) ∧ (res.2 = 0 ↔ (tridiag n xl x xu).det ≠ 0) ∧
      (res.2 = 0 → ∃ X, ColMajor2 b ldb n r res.1 X ∧ tridiag n xl x xu * X = B)
  refine ⟨{ D0 with gtsv := fun N r dl d du b ldb mem => if h : ∃ res, post N r dl d du b ldb mem res then .ok h.choose else .error .ub }, ?_, rfl, rfl, rfl⟩
  intro n r dl d du b ldb mem xl x xu B pn _ _ wb _ hl hd hu hB _
  have huniq : ∀ {p : Int} {k : Nat} {f g : Int → α}, Consecutive p k mem f → Consecutive p k mem g → ∀ i : Fin k, f i = g i := by
    intro p k f g h1 h2 i
    exact Option.some.inj ((h1 i).symm.trans (h2 i))
  have htri : ∀ {yl y yu : Int → α}, Consecutive dl (n - 1) mem yl → Consecutive d n mem y → Consecutive du (n - 1) mem yu → tridiag n yl y yu = tridiag n xl x xu := by
    intro yl y yu h1 h2 h3
    ext i j
    have hi := i.isLt
    have hj := j.isLt
    unfold tridiag
    split_ifs with c1 c2 c3
    · exact huniq h2 hd i
    · exact huniq h1 hl ⟨j, by omega⟩
    · exact huniq h3 hu ⟨i, by omega⟩
    · rfl
  have hex : ∃ res, post n r dl d du b ldb mem res := by
    by_cases hdet : (tridiag n xl x xu).det ≠ 0
    · obtain ⟨mem1, l1, f1, c1⟩ := block_write hB wb ((tridiag n xl x xu)⁻¹ * B)
      refine ⟨(mem1, 0), ?_⟩
      intro n' r' yl y yu B' hn hr h1 h2 h3 hB'
      have hn : n = n' := by exact_mod_cast hn
      subst hn
      have hr : r = r' := by exact_mod_cast hr
      subst hr
      obtain rfl := colMajor_unique hB hB'
      rw [htri h1 h2 h3]
      refine ⟨l1, fun k h => f1 k (fun i j e => h ⟨i, j, e⟩), by simpa using hdet, fun _ => ⟨_, c1, ?_⟩⟩
      rw [← Matrix.mul_assoc, Matrix.mul_nonsing_inv _ (isUnit_iff_ne_zero.mpr hdet), Matrix.one_mul]
    · refine ⟨(mem, 1), ?_⟩
      intro n' r' yl y yu B' hn hr h1 h2 h3 hB'
      have hn : n = n' := by exact_mod_cast hn
      subst hn
      rw [htri h1 h2 h3]
      exact ⟨rfl, fun _ _ => rfl, by simpa using hdet, fun h => by simp at h⟩
  obtain ⟨h1, h2, h3, h4⟩ := hex.choose_spec n r xl x xu B rfl rfl hl hd hu hB
  exact ⟨hex.choose.1, hex.choose.2, dif_pos hex, h1, fun k _ _ _ h => h2 k h, h3, h4⟩

/-! ### Layouts that the wrapper does not look at -/

def exMem61 : List ℚ := [0, 1, 2, 0, 1, 2, 3, 4]
def exL61 : View := ⟨0, ⟨[1], [1], [0], [0], .contiguous⟩⟩
def exD61 : View := ⟨1, ⟨[2], [1], [0], [0], .contiguous⟩⟩
def exU61 : View := ⟨3, ⟨[1], [1], [0], [0], .contiguous⟩⟩
/-- `[[1,2],[3,4]]` in C order -/
def exB61 : View := ⟨4, ⟨[2, 2], [2, 1], [0, 1], [0, 0], .contiguous⟩⟩
def exBMat61 : Int → Int → ℚ := fun i j => 2 * i + j + 1

/-- A right-hand side in C order is solved as if it were in Fortran order: for the diagonal matrix `diag (1, 2)` and the right-hand side `[[1,2],[3,4]]` the call succeeds, and
leaves `[[1,1],[3,2]]`. -/
theorem C61_c_order_witness (D : Drivers ℚ R) (hD : GtsvOK D) : Entries exB61 2 2 exMem61 exBMat61 ∧
    ∃ mem' X, gtsv D exL61 exD61 exU61 exB61 exMem61 = .ok (mem', 0) ∧ Entries exB61 2 2 mem' X ∧ tridiag 2 (fun _ => (0 : ℚ)) (fun i => (i : ℚ) + 1) (fun _ => 0) * toMat2 2 2 X ≠ toMat2 2 2 exBMat61 := by
  have hlay : ∀ i j : Int, 0 ≤ i → i < 2 → 0 ≤ j → j < 2 → (i = 0 ∨ i = 1) ∧ (j = 0 ∨ j = 1) := by intro i j _ _ _ _; omega
  refine ⟨?_, ?_⟩
  · intro i j a b c d
    obtain ⟨rfl | rfl, rfl | rfl⟩ := hlay i j a b c d <;> decide +kernel
  obtain ⟨mem', info, e, hlen, hfr, hdet, hsol⟩ := hD 2 2 0 1 3 4 2 exMem61 (fun _ => 0) (fun i => i + 1) (fun _ => 0) (fun i j => (i : Int) + 2 * (j : Int) + 1) (by decide) (by decide) (by decide) (by decide) (by decide)
    (by intro i; fin_cases i; decide +kernel) (by intro i; fin_cases i <;> decide +kernel) (by intro i; fin_cases i; decide +kernel)
    (by intro i j; fin_cases i <;> fin_cases j <;> decide +kernel)
    (by
      have hb : ∀ k, InBlock 4 2 2 2 k → 4 ≤ k := by rintro k ⟨i, j, e⟩; omega
      intro k
      refine ⟨?_, ?_, ?_, ?_, ?_, ?_⟩ <;> rintro ⟨⟨a, b⟩, c⟩
      · obtain ⟨c, d⟩ := c; omega
      · obtain ⟨c, d⟩ := c; omega
      · obtain ⟨c, d⟩ := c; omega
      all_goals have := hb k c; omega)
  have h0 : info = 0 := by
    rw [hdet, Matrix.det_fin_two]
    decide +kernel
  obtain ⟨X, hX, hs⟩ := hsol h0
  subst h0
  refine ⟨mem', fun i j => ofMat2 X j i, e, ?_, ?_⟩
  · intro i j a b c d
    have h00 := hX 0 0
    have h01 := hX 0 1
    have h10 := hX 1 0
    have h11 := hX 1 1
    obtain ⟨rfl | rfl, rfl | rfl⟩ := hlay i j a b c d
    · exact h00
    · exact h10
    · exact h01
    · exact h11
  · intro h
    have a := congrFun (congrFun hs 1) 0
    have b := congrFun (congrFun h 0) 1
    simp only [Matrix.mul_apply, Fin.sum_univ_two] at a b
    have t : ∀ i j : Fin 2, toMat2 2 2 (fun i j => ofMat2 X j i) i j = X j i := fun i j => ofMat2_apply X j i
    rw [t, t] at b
    simp [tridiag, toMat2, exBMat61] at a b
    linarith

/-- The strides of the diagonals are not looked at, in a debug build neither: a diagonal `(1, 2)` with stride 2 is read as the first two elements in memory. -/
theorem C61_stride_witness (D : Drivers ℚ R) (hD : GtsvOK D) :
    ∃ (mem' : List ℚ) (z : Int → ℚ), gtsv D ⟨0, ⟨[1], [1], [0], [0], .contiguous⟩⟩ ⟨1, ⟨[2], [2], [0], [0], .strided⟩⟩ ⟨4, ⟨[1], [1], [0], [0], .contiguous⟩⟩ ⟨5, ⟨[2], [1], [0], [0], .contiguous⟩⟩ ([0, 1, 7, 2, 0, 1, 2] : List ℚ) = .ok (mem', 0) ∧
      val mem' 5 = some (z 0) ∧ val mem' 6 = some (z 1) ∧ tridiag 2 (fun _ => (0 : ℚ)) (fun i => (i : ℚ) + 1) (fun _ => 0) *ᵥ (fun i : Fin 2 => z i) ≠ ![1, 2] := by
  obtain ⟨mem', info, e, hlen, hfr, hdet, hsol⟩ := hD 2 1 0 1 4 5 2 [0, 1, 7, 2, 0, 1, 2] (fun _ => 0) (fun i => 6 * i + 1) (fun _ => 0) (fun i _ => (i : Int) + 1) (by decide) (by decide) (by decide) (by decide) (by decide)
    (by intro i; fin_cases i; decide +kernel) (by intro i; fin_cases i <;> decide +kernel) (by intro i; fin_cases i; decide +kernel)
    (by intro i j; fin_cases i <;> fin_cases j <;> decide +kernel)
    (by
      have hb : ∀ k, InBlock 5 2 2 1 k → 5 ≤ k := by rintro k ⟨i, j, e⟩; omega
      intro k
      refine ⟨?_, ?_, ?_, ?_, ?_, ?_⟩ <;> rintro ⟨⟨a, b⟩, c⟩
      · obtain ⟨c, d⟩ := c; omega
      · obtain ⟨c, d⟩ := c; omega
      · obtain ⟨c, d⟩ := c; omega
      all_goals have := hb k c; omega)
  have h0 : info = 0 := by
    rw [hdet, Matrix.det_fin_two]
    decide +kernel
  obtain ⟨X, hX, hs⟩ := hsol h0
  subst h0
  refine ⟨mem', fun i => ofMat2 X i 0, e, hX 0 0, hX 1 0, ?_⟩
  intro h
  have a := congrFun (congrFun hs 1) 0
  have b := congrFun h 1
  simp only [Matrix.mul_apply, Matrix.mulVec, dotProduct, Fin.sum_univ_two] at a b
  have t : ∀ i : Fin 2, ofMat2 X i 0 = X i 0 := fun i => ofMat2_apply X i 0
  rw [t, t] at b
  simp [tridiag] at a b
  linarith

/-- The hypotheses of `C61_gtsv_partial` can be met: the same numbers, in Fortran order. -/
example (D : Drivers ℚ R) (hD : GtsvOK D) : ∃ mem' info, gtsv D exL61 exD61 exU61 ⟨4, ⟨[2, 2], [1, 2], [1, 0], [0, 0], .contiguous⟩⟩ exMem61 = .ok (mem', info) ∧ mem'.length = 8 ∧ info = 0 := by
  have hlay : ∀ i j : Int, 0 ≤ i → i < 2 → 0 ≤ j → j < 2 → (i = 0 ∨ i = 1) ∧ (j = 0 ∨ j = 1) := by intro i j _ _ _ _; omega
  have hone : ∀ i : Int, 0 ≤ i → i < (2 : Nat) → i = 0 ∨ i = 1 := by intro i _ _; omega
  have hzero : ∀ i : Int, 0 ≤ i → i < (2 - 1 : Nat) → i = 0 := by intro i _ _; omega
  obtain ⟨mem', info, e, hl, _, hd, _⟩ := C61_gtsv_partial D hD exL61 exD61 exU61 ⟨4, ⟨[2, 2], [1, 2], [1, 0], [0, 0], .contiguous⟩⟩ 2 2 (by decide) (by decide) (by decide) exMem61 (fun _ => 0) (fun i => i + 1)
    (fun _ => 0) (fun i j => (i : Int) + 2 * (j : Int) + 1)
    ⟨rfl, by intro i a b; obtain rfl := hzero i a b; decide, by intro i a b; obtain rfl := hzero i a b; decide +kernel⟩
    ⟨rfl, by intro i a b; obtain rfl | rfl := hone i a b <;> decide, by intro i a b; obtain rfl | rfl := hone i a b <;> decide +kernel⟩
    ⟨rfl, by intro i a b; obtain rfl := hzero i a b; decide, by intro i a b; obtain rfl := hzero i a b; decide +kernel⟩
    ⟨rfl, by intro i j a b c d; obtain ⟨rfl | rfl, rfl | rfl⟩ := hlay i j a b c d <;> decide, by intro i j a b c d; obtain ⟨rfl | rfl, rfl | rfl⟩ := hlay i j a b c d <;> decide +kernel⟩
    (separate_of (by decide)) (separate_of (by decide)) (separate_of (by decide)) (separate_of (by decide)) (separate_of (by decide)) (separate_of (by decide))
  refine ⟨mem', info, e, hl, hd.mpr ?_⟩
  rw [Matrix.det_fin_two]
  decide +kernel

end Nda.Linalg
