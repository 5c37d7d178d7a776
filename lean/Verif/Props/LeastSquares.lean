import Verif.Props.Svd
import Verif.Props.Norm
import Verif.Lemmas.Check
/-!
# C59: least squares
-/
namespace Nda.Linalg
open Nda Nda.Spec LayoutTransforms Assign Loops Nda.Matrix Blas
open scoped _root_.Matrix

variable {𝕜 : Type} [RCLike 𝕜]

theorem toMat2_mul {α : Type} [CommSemiring α] (n0 n1 n2 : Nat) (A B : Int → Int → α) :
    toMat2 n0 n2 (fun i j => sumTo n1 (fun k => A i k * B k j)) = toMat2 n0 n1 A * toMat2 n1 n2 B := by
  ext i j
  rw [Matrix.mul_apply]
  simp only [toMat2, sumTo, Int.toNat_natCast]
  rw [Finset.sum_range]

/-- Matrices above each other in memory are separate. -/
theorem separate_of_above {a b : View} {la lb : List Int} {N : Nat} (ha : a.lay.len = la) (hb : b.lay.len = lb) (ga : Good a N) (h : ∀ idx, InRange lb idx → (N : Int) ≤ addr b idx) : Separate a b := by
  intro idx jdx hi hj e
  have h1 := (ga.fits idx hi).2
  have h2 := h jdx (by rw [← hb]; exact hj)
  omega

/-- Writing only above `N` leaves what is below. -/
theorem ext_of_frame {α : Type} {mem mem' mem'' : List α} (h : Ext mem mem') (hl : mem''.length = mem'.length) (hf : ∀ k : Int, k < mem.length → val mem'' k = val mem' k) : Ext mem mem'' :=
  ⟨by rw [hl]; exact h.grow, fun k hk => by rw [hf k hk, h.old k hk]⟩

theorem not_occupies {v : View} {len : List Int} {N : Nat} (hl : v.lay.len = len) (h : ∀ idx, InRange len idx → (N : Int) ≤ addr v idx) {k : Int} (hk : k < N) : ¬ Occupies v k := by
  rintro ⟨idx, hi, e⟩
  have := h idx (by rw [← hl]; exact hi)
  omega

/-- One step of the loop that fills the diagonal. -/
noncomputable def invStep (s : List ℝ) (si : View) (mem : List 𝕜) (i : Nat) : Except Fail (List 𝕜) := do
  let x ← lift (orUb (rd s i))
  if x = 0 then throw .infinite
  lift (orUb (store si [Int.ofNat i, Int.ofNat i] ((1 / x : ℝ) : 𝕜) mem))

/-- The loop that fills the diagonal. -/
theorem invertDiagonal_eq (s : List ℝ) {si : View} {n m : Nat} (hnm : n ≤ m) (hs : s.length = n) {mem : List 𝕜} (h : LMat si n m mem.length true n) (h0 : Entries si n m mem (fun _ _ => 0)) :
    ((∀ x ∈ s, x ≠ 0) → ∃ mem', invertDiagonal (fun x : ℝ => (x : 𝕜)) s si n mem = .ok mem' ∧ mem'.length = mem.length ∧ (∀ k, ¬ Occupies si k → val mem' k = val mem k) ∧
      Entries si n m mem' (ofMat2 (sigmaInv n m s))) ∧
    (¬ (∀ x ∈ s, x ≠ 0) → invertDiagonal (fun x : ℝ => (x : 𝕜)) s si n mem = .error .infinite) := by
  -- after `k` steps
  let P : Nat → List 𝕜 → Prop := fun k mem' => mem'.length = mem.length ∧ (∀ k, ¬ Occupies si k → val mem' k = val mem k) ∧
    Entries si n m mem' (fun i j => if i = j ∧ i < k then ((1 / s.getD i.toNat 0 : ℝ) : 𝕜) else 0)
  have key : ∀ (l : List Nat) (k : Nat) (mem' : List 𝕜), P k mem' → (∀ i, i < l.length → l.getD i 0 = k + i) → k + l.length ≤ n →
      ((∀ i, k ≤ i → i < k + l.length → s.getD i 0 ≠ 0) → ∃ mem'', l.foldlM (invStep s si) mem' = (.ok mem'' : Except Fail (List 𝕜)) ∧ P (k + l.length) mem'') ∧
      (¬ (∀ i, k ≤ i → i < k + l.length → s.getD i 0 ≠ 0) → l.foldlM (invStep s si) mem' = (.error .infinite : Except Fail (List 𝕜))) := by
    intro l
    induction l with
    | nil =>
      intro k mem' hP _ _
      exact ⟨fun _ => ⟨mem', rfl, hP⟩, fun hc => absurd (fun i h1 h2 => by simp at h2; omega) hc⟩
    | cons a l ih =>
      intro k mem' hP hl hkn
      have ha : a = k := by simpa using hl 0 (by simp)
      subst ha
      simp only [List.length_cons] at hkn
      have hk : a < s.length := by omega
      have er : rd s a = some (s.getD a 0) := by simp [rd, hk]
      by_cases hz : s.getD a 0 = 0
      · refine ⟨fun hc => absurd hz (hc a (le_refl _) (by simp)), fun _ => ?_⟩
        simp only [List.foldlM_cons, invStep, er, orUb, lift, bind, Except.bind, hz, if_true, throw, throwThe, MonadExceptOf.throw]
      · have hlm : LMat si n m mem'.length true n := by rw [hP.1]; exact h
        have hir : InRange si.lay.len [(a : Int), (a : Int)] := by rw [h.len, inRange2]; exact ⟨a, a, rfl, by omega, by omega, by omega, by omega⟩
        obtain ⟨mem1, e1, w1, w2, w3, w4⟩ := store_spec hlm.good hlm.one hir ((1 / s.getD a 0 : ℝ) : 𝕜)
        have hP1 : P (a + 1) mem1 := by
          refine ⟨w1.trans hP.1, fun k hk => by rw [w4 k hk, hP.2.1 k hk], ?_⟩
          intro i j h1 h2 h3 h4
          by_cases hij : [i, j] = [(a : Int), (a : Int)]
          · simp only [List.cons.injEq, and_true] at hij
            obtain ⟨rfl, rfl⟩ := hij
            rw [w2]
            simp
          · rw [w3 [i, j] (by rw [h.len, inRange2]; exact ⟨i, j, rfl, h1, h2, h3, h4⟩) hij, hP.2.2 i j h1 h2 h3 h4]
            congr 1
            by_cases hc : i = j
            · subst hc
              have : ¬ i = (a : Int) := fun hc => hij (by rw [hc])
              have e2 : i < (a : Int) ↔ i < ((a + 1 : Nat) : Int) := by omega
              simp only [true_and, e2]
            · simp [hc]
        have hstep : l.foldlM (invStep s si) mem1 = (a :: l).foldlM (invStep s si) mem' := by
          have e1' : store si [Int.ofNat a, Int.ofNat a] ((1 / s.getD a 0 : ℝ) : 𝕜) mem' = some mem1 := e1
          simp only [List.foldlM_cons, invStep, er, orUb, lift, bind, Except.bind, hz, if_false, pure, Except.pure, e1']
        rw [← hstep]
        obtain ⟨i1, i2⟩ := ih (a + 1) mem1 hP1 (fun i hi => by
          have := hl (i + 1) (by simpa using hi)
          simp only [List.getD_cons_succ] at this
          omega) (by omega)
        have e3 : a + 1 + l.length = a + (a :: l).length := by simp; omega
        have e4 : (∀ i, a ≤ i → i < a + (a :: l).length → s.getD i 0 ≠ 0) ↔ (∀ i, a + 1 ≤ i → i < a + 1 + l.length → s.getD i 0 ≠ 0) := by
          rw [e3]
          constructor
          · intro hc i h1 h2; exact hc i (by omega) h2
          · intro hc i h1 h2
            by_cases hia : i = a
            · subst hia; exact hz
            · exact hc i (by omega) h2
        rw [e4, ← e3]
        exact ⟨i1, i2⟩
  have hP0 : P 0 mem := ⟨rfl, fun _ _ => rfl, fun i j h1 h2 h3 h4 => by
    rw [h0 i j h1 h2 h3 h4]
    beta_reduce
    rw [if_neg (by rintro ⟨-, hc⟩; omega)]⟩
  have hall : (∀ i, 0 ≤ i → i < 0 + (List.range n).length → s.getD i 0 ≠ 0) ↔ ∀ x ∈ s, x ≠ 0 := by
    constructor
    · intro hc x hx
      obtain ⟨i, hi, rfl⟩ := List.mem_iff_getElem.mp hx
      have := hc i (by omega) (by simp; omega)
      simpa [hi] using this
    · intro hc i _ hi
      simp only [List.length_range, zero_add] at hi
      have h1 : i < s.length := by omega
      have := hc s[i] (List.getElem_mem h1)
      simpa [h1] using this
  obtain ⟨k1, k2⟩ := key (List.range n) 0 mem hP0 (fun i hi => by simp only [List.length_range] at hi; simp [hi]) (by simp)
  rw [hall] at k1 k2
  refine ⟨fun hz => ?_, fun hz => ?_⟩
  · obtain ⟨mem', e, hP⟩ := k1 hz
    refine ⟨mem', ?_, hP.1, hP.2.1, ?_⟩
    · rw [← e]; rfl
    · intro i j h1 h2 h3 h4
      rw [hP.2.2 i j h1 h2 h3 h4]
      obtain ⟨i, rfl⟩ := Int.eq_ofNat_of_zero_le h1
      obtain ⟨j, rfl⟩ := Int.eq_ofNat_of_zero_le h3
      have hi : i < n := by omega
      have hj : j < m := by omega
      simp [ofMat2, sigmaInv, hi, hj]
  · rw [← k2 hz]; rfl

theorem length_of_agree {α : Type} {mem mem2 : List α} (h : ∀ k : Int, k < mem.length → val mem2 k = val mem k) : mem.length ≤ mem2.length := by
  by_contra hc
  have := h mem2.length (by omega)
  unfold val at this
  rw [if_neg (by omega), if_neg (by omega)] at this
  simp only [Int.toNat_natCast] at this
  rw [List.getElem?_eq_none (le_refl _), List.getElem?_eq_getElem (by omega)] at this
  cases this

/-- What the constructor of `gelss_worker` leaves behind: a singular value decomposition of `A`, the matrix `V Σ⁻¹ Uᴴ` and the rows of `Uᴴ` after the first `n`. -/
structure Solver (m n : Nat) (A : Matrix (Fin m) (Fin n) 𝕜) (w : Worker ℝ) (mem : List 𝕜) : Prop where
  rows : w.m = m
  cols : w.n = n
  parts : ∃ U Vt, SingularDecomposition A U w.s Vt ∧ (∃ ld P, LMat w.pinv n m mem.length false ld ∧ Entries w.pinv n m mem P ∧ toMat2 n m P = pseudo U w.s Vt) ∧
    (n < m → ∃ un ld N, w.null = some un ∧ LMat un ((m - n : Nat) : Int) m mem.length false ld ∧ Entries un ((m - n : Nat) : Int) m mem N ∧
      toMat2 (m - n) m N = (fun (i : Fin (m - n)) k => star (U k ⟨n + i, by have := i.isLt; omega⟩)))

theorem Solver.ext {m n : Nat} {A : Matrix (Fin m) (Fin n) 𝕜} {w : Worker ℝ} {mem mem' : List 𝕜} (h : Solver m n A w mem) (he : Ext mem mem') : Solver m n A w mem' := by
  obtain ⟨U, Vt, hS, ⟨ld, P, h1, h2, h3⟩, h4⟩ := h.parts
  refine ⟨h.rows, h.cols, U, Vt, hS, ⟨ld, P, h1.mono he.grow, Entries.ext h2 h1.len h1.good.fits he, h3⟩, fun hnm => ?_⟩
  obtain ⟨un, ld, N, e, k1, k2, k3⟩ := h4 hnm
  exact ⟨un, ld, N, e, k1.mono he.grow, Entries.ext k2 k1.len k1.good.fits he, k3⟩

variable [DecidableEq 𝕜]

theorem worker_eq {D : Drivers 𝕜 ℝ} (hD : GesvdOK D) (junk : 𝕜) (cplx : Bool) (hc : cplx = false → ∀ x : 𝕜, star x = x) {m n : Nat} (pn : 0 < n) (hnm : n ≤ m) (bm : (m : Int) < 2147483648)
    {a : View} {mem : List 𝕜} (ga : Good a mem.length) (la : a.lay.len = [(m : Int), (n : Int)]) {A : Int → Int → 𝕜} (hA : Entries a m n mem A) :
    (FullRank (toMat2 m n A) ∧ ∃ w mem', worker (starRingEnd 𝕜) (fun x : ℝ => (x : 𝕜)) cplx D junk a mem = .ok (w, mem') ∧ Ext mem mem' ∧ Solver m n (toMat2 m n A) w mem') ∨
    (¬ FullRank (toMat2 m n A) ∧ worker (starRingEnd 𝕜) (fun x : ℝ => (x : 𝕜)) cplx D junk a mem = .error .infinite) ∨
    (worker (starRingEnd 𝕜) (fun x : ℝ => (x : 𝕜)) cplx D junk a mem = .error (.call .runtime) ∧
      ∃ a lda u ldu vt ldvt mem1 mem2 sv info, D.gesvd m n a lda u ldu vt ldvt mem1 = .ok (mem2, sv, info) ∧ info ≠ 0) := by
  have pm : 0 < m := by omega
  have pm' : 0 < (m : Int) := by omega
  have pn' : 0 < (n : Int) := by omega
  have bn : (n : Int) < 2147483648 := by omega
  have r0 : rd a.lay.len 0 = some (m : Int) := by rw [la]; rfl
  have r1 : rd a.lay.len 1 = some (n : Int) := by rw [la]; rfl
  have hmin : min (m : Int) (n : Int) = n := by omega
  have hlt : ¬ (m : Int) < n := by omega
  -- the three matrices
  obtain ⟨af, mem1, e1, x1, l1, E1, ab1⟩ := newMatrix_eq junk true pm' pn' bm bn (rhs := .inMem a false) (x := A) (mem0 := mem)
    ⟨ga, la, by simp, fun idx hi => by
      obtain ⟨i, j, rfl, h1, h2, h3, h4⟩ := inRange2.mp hi
      exact hA i j h1 h2 h3 h4⟩ (Ext.refl mem)
  obtain ⟨u, mem2, e2, x2, l2, -, -, ab2⟩ := fresh_matrix junk true pm' pm' bm bm mem1
  obtain ⟨vt, mem3, e3, x3, l3, -, -, ab3⟩ := fresh_matrix junk true pn' pn' bn bn mem2
  simp only [if_true] at e1 l1 e2 l2 e3 l3
  have x13 := x2.trans x3
  have E1' : Entries af m n mem3 A := Entries.ext E1 l1.len l1.good.fits x13
  have s1 : Separate af u := separate_of_above l1.len l2.len l1.good ab2
  have s2 : Separate af vt := separate_of_above l1.len l3.len (l1.mono x2.grow).good ab3
  have s3 : Separate u vt := separate_of_above l2.len l3.len l2.good ab3
  obtain ⟨mem4, sv, info, e4, len4, fr4, hok, hbad⟩ := gesvd_eq hD pm pn (l1.mono x13.grow) (l2.mono x3.grow) l3 E1' s1 s2 s3 (List.replicate n 0)
  by_cases h0 : info = 0
  swap
  · refine Or.inr (Or.inr ⟨?_, _, _, _, _, _, _, _, _, _, _, e4, h0⟩)
    simp only [worker, r0, r1, orUb, lift, bind, Except.bind, hlt, if_false, pure, Except.pure, e1, e2, e3, hmin, Int.toNat_natCast, hbad h0]
  obtain ⟨eg, U, Vt, hS, EU, EV⟩ := hok h0
  have hsv : sv ++ (List.replicate n (0 : ℝ)).drop (min m n) = sv := by
    rw [List.drop_of_length_le (by simp; omega), List.append_nil]
  rw [hsv] at eg
  have hslen : sv.length = n := by rw [hS.size]; omega
  have x4 : Ext mem mem4 := by
    refine ext_of_frame (x1.trans x13) len4 (fun k hk => fr4 k (not_occupies l1.len ab1 hk) (not_occupies l2.len ab2 ?_) (not_occupies l3.len ab3 ?_))
    · have := x1.grow; omega
    · have := (x1.trans x2).grow; omega
  have l2' : LMat u m m mem4.length true m := by rw [len4]; exact l2.mono x3.grow
  have l3' : LMat vt n n mem4.length true n := by rw [len4]; exact l3
  -- the inverse of the singular values
  obtain ⟨si, mem5, e5, x5, l5, pr5, sz5, ab5⟩ := fresh_matrix junk true pn' pm' bn bm mem4
  simp only [if_true] at e5 l5
  obtain ⟨mem6, e6, hu6⟩ := C18_matrix_partial (si.lay.size.toNat + 1) si (0 : 𝕜) 0 mem5 n m l5.len l5.good l5.one (by rw [sz5]; omega) (fun h => by rw [pr5] at h; cases h) (fun _ => Or.inl ⟨pn', pm'⟩)
  have l6 : LMat si n m mem6.length true n := by rw [hu6.size]; exact l5
  have E6 : Entries si n m mem6 (fun _ _ => 0) := by
    intro i j h1 h2 h3 h4
    rw [hu6.elems [i, j] (by rw [l5.len, inRange2]; exact ⟨i, j, rfl, h1, h2, h3, h4⟩)]
    simp
  have x6 : Ext mem4 mem6 := ext_of_frame x5 hu6.size (fun k hk => hu6.frame k (not_occupies l5.len ab5 hk))
  obtain ⟨i1, i2⟩ := invertDiagonal_eq (𝕜 := 𝕜) sv hnm hslen l6 E6
  have hfr := fullRank_iff hS hnm
  by_cases hz : ∀ x ∈ sv, x ≠ 0
  swap
  · refine Or.inr (Or.inl ⟨fun hf => hz (hfr.mp hf), ?_⟩)
    simp only [worker, r0, r1, orUb, lift, bind, Except.bind, hlt, if_false, pure, Except.pure, e1, e2, e3, hmin, Int.toNat_natCast, eg, e5, e6, i2 hz]
  obtain ⟨mem7, e7, len7, fr7, E7⟩ := i1 hz
  have x7 : Ext mem4 mem7 := ext_of_frame x6 len7 (fun k hk => fr7 k (not_occupies l5.len ab5 hk))
  have l7 : LMat si n m mem7.length true n := by rw [len7]; exact l6
  -- the products
  obtain ⟨vt', ev, lv, av⟩ := (l3'.mono x7.grow).transpose
  obtain ⟨u', eu, lu, au⟩ := (l2'.mono x7.grow).transpose
  simp only [Bool.not_true] at lv lu
  have EV7 : Entries vt' n n mem7 (fun i j => ofMat2 Vt j i) := by
    intro i j h1 h2 h3 h4
    rw [av]
    exact Entries.ext EV l3'.len l3'.good.fits x7 j i h3 h4 h1 h2
  have EU7 : Entries u' m m mem7 (fun i j => ofMat2 U j i) := by
    intro i j h1 h2 h3 h4
    rw [au]
    exact Entries.ext EU l2'.len l2'.good.fits x7 j i h3 h4 h1 h2
  have hdag : ∀ {k : Nat} (M : Matrix (Fin k) (Fin k) 𝕜), toMat2 k k (mayConj (starRingEnd 𝕜) cplx (fun i j => ofMat2 M j i)) = Mᴴ := by
    intro k M
    ext i j
    simp only [toMat2, mayConj, ofMat2_apply, Matrix.conjTranspose_apply]
    cases hcx : cplx
    · exact (hc hcx _).symm
    · rfl
  have hsop : OperandOK (starRingEnd 𝕜) (if cplx then Operand.other true (some si.lay.so) (n : Int) m (fun idx mem => load si idx mem) else .mat ⟨si, false⟩ true) n m mem7 (ofMat2 (sigmaInv n m sv)) := by
    cases cplx
    · exact ⟨l7.blas, l7.good, _, E7, rfl⟩
    · refine ⟨rfl, rfl, fun _ => Or.inr (by rw [l7.so]; rfl), fun i j h1 h2 h3 h4 mem' hm => ?_⟩
      have hle := length_of_agree hm
      have hi : InRange si.lay.len [i, j] := by rw [l7.len, inRange2]; exact ⟨i, j, rfl, h1, h2, h3, h4⟩
      beta_reduce
      rw [load_eq (l7.mono hle).good hi, hm _ (l7.good.fits _ hi).2]
      exact E7 i j h1 h2 h3 h4
  obtain ⟨vs, mem8, f8, e8, n8, l8, -⟩ := matmul_lmat (starRingEnd 𝕜) junk (.mat ⟨vt', cplx⟩ false) _ n n m pn' pn' pm' bn bn bm mem7 _ _ ⟨lv.blas, lv.good, _, EV7, rfl⟩ hsop
  have x8 : Ext mem7 mem8 := ⟨n8.grow, n8.old⟩
  have E8 : Entries vs n m mem8 _ := n8.entry
  obtain ⟨p, mem9, f9, e9, n9, l9, o9⟩ := matmul_lmat (starRingEnd 𝕜) junk (.mat ⟨vs, false⟩ true) (.mat ⟨u', cplx⟩ false) n m m pn' pm' pm' bn bm bm mem8 _ _ ⟨l8.blas, l8.good, _, E8, rfl⟩
    ⟨lu.blas, (lu.mono x8.grow).good, _, Entries.ext EU7 lu.len lu.good.fits x8, rfl⟩
  have hf9 : f9 = false := by
    have h1 := l8.so
    have h2 := lu.so
    unfold resultOrder at o9
    cases cplx <;> cases f8 <;> cases f9 <;> simp_all [Operand.order, Operand.policyOrder]
  subst hf9
  have hP : toMat2 n m (fun i j => sumTo m (fun k => mayConj (starRingEnd 𝕜) false (fun i j => sumTo n (fun k => mayConj (starRingEnd 𝕜) cplx (fun i j => ofMat2 Vt j i) i k * ofMat2 (sigmaInv n m sv) k j)) i k *
      mayConj (starRingEnd 𝕜) cplx (fun i j => ofMat2 U j i) k j)) = pseudo U sv Vt := by
    rw [toMat2_mul n m m, hdag]
    have : toMat2 n m (mayConj (starRingEnd 𝕜) false (fun i j => sumTo n (fun k => mayConj (starRingEnd 𝕜) cplx (fun i j => ofMat2 Vt j i) i k * ofMat2 (sigmaInv n m sv) k j))) =
        toMat2 n m (fun i j => sumTo n (fun k => mayConj (starRingEnd 𝕜) cplx (fun i j => ofMat2 Vt j i) i k * ofMat2 (sigmaInv n m sv) k j)) := rfl
    rw [this, toMat2_mul n n m, hdag, toMat2_ofMat2]
    rfl
  have x9 : Ext mem8 mem9 := ⟨n9.grow, n9.old⟩
  have E9 : Entries p n m mem9 _ := n9.entry
  have xA : Ext mem mem9 := ((x4.trans x7).trans x8).trans x9
  refine Or.inl ⟨hfr.mpr hz, ?_⟩
  by_cases hlt' : (n : Int) < m
  · obtain ⟨w, ew, lw, aw⟩ := (lu.mono (x8.trans x9).grow).part (a := n) (b := m) (c := 0) (d := m) (by omega) (by omega) (le_refl _) (le_refl _) (by omega) (le_refl _)
    have EU9 : Entries u' m m mem9 (fun i j => ofMat2 U j i) := Entries.ext EU7 lu.len lu.good.fits (x8.trans x9)
    have hsub : (m : Int) - n = ((m - n : Nat) : Int) := by omega
    rw [sub_zero] at lw
    obtain ⟨un, mem10, e10, x10, l10, E10, -⟩ := newMatrix_eq junk false (n0 := (m : Int) - n) (n1 := m) (by omega) pm' (by omega) bm
      (rhs := .expr (fun idx mem => (load w idx mem).map (fun x => if cplx then starRingEnd 𝕜 x else x))) (x := mayConj (starRingEnd 𝕜) cplx (fun i k => ofMat2 U k (n + i))) (mem0 := mem9)
      (fun idx hi mem2 hm => by
        obtain ⟨i, j, rfl, h1, h2, h3, h4⟩ := inRange2.mp hi
        have hi' : InRange w.lay.len [i, j] := by rw [lw.len]; exact hi
        beta_reduce
        rw [load_eq (lw.mono (length_of_agree hm)).good hi', hm _ (lw.good.fits _ hi').2, aw, zero_add, EU9 _ _ (by omega) (by omega) (by omega) (by omega)]
        rfl) (Ext.refl mem9)
    simp only [Bool.false_eq_true, if_false] at e10 l10
    rw [hsub] at l10 E10
    refine ⟨⟨m, n, p, some un, sv⟩, mem10, ?_, xA.trans x10, ⟨rfl, rfl, U, Vt, hS, ⟨_, _, l9.mono x10.grow, Entries.ext E9 l9.len l9.good.fits x10, hP⟩, fun _ => ⟨un, _, _, rfl, l10, E10, ?_⟩⟩⟩
    · simp only [worker, r0, r1, orUb, lift, bind, Except.bind, hlt, if_false, pure, Except.pure, e1, e2, e3, hmin, Int.toNat_natCast, eg, e5, e6, e7, daggerOf, ev, eu, Option.map_some, e8, e9, hlt', if_true, ew, e10]
    · ext i k
      have hi := i.isLt
      have e : ofMat2 U (k : Int) (((n : Nat) : Int) + (i : Int)) = U k ⟨n + i, by omega⟩ := by
        have : ((n : Nat) : Int) + (i : Int) = (((⟨n + i, by omega⟩ : Fin m) : Nat) : Int) := by simp
        rw [this, ofMat2_apply]
      simp only [toMat2, mayConj, e]
      cases hcx : cplx
      · exact (hc hcx _).symm
      · rfl
  · refine ⟨⟨m, n, p, none, sv⟩, mem9, ?_, xA, ⟨rfl, rfl, U, Vt, hS, ⟨_, _, l9, E9, hP⟩, fun h => absurd h (by omega)⟩⟩
    simp only [worker, r0, r1, orUb, lift, bind, Except.bind, hlt, if_false, pure, Except.pure, e1, e2, e3, hmin, Int.toNat_natCast, eg, e5, e6, e7, daggerOf, ev, eu, Option.map_some, e8, e9, hlt']

/-- Column `j`. -/
def column {m : Nat} (B : Int → Int → 𝕜) (j : Nat) : Fin m → 𝕜 := fun k => B k j

theorem columnError_eq (junk : 𝕜) {un b : View} {k m r : Nat} (pk : 0 < k) (pm : 0 < m) {mem : List 𝕜} {f : Bool} {l1 l2 : Int} (h1 : LMat un k m mem.length false l1) (h2 : LMat b m r mem.length f l2)
    {N B : Int → Int → 𝕜} (hN : Entries un k m mem N) (hB : Entries b m r mem B) {j : Nat} (hj : j < r) :
    ∃ mem', columnError (Norm.exact 𝕜) junk un b m (j : Int) mem = .ok (Real.sqrt (sumSq (toMat2 k m N *ᵥ column B j)) / Real.sqrt m, mem') ∧ Ext mem mem' := by
  obtain ⟨bi, e1, lb, ab⟩ := h2.cols (c := j) (d := j + 1) (by omega) (by omega) (by omega)
  rw [add_sub_cancel_left] at lb
  have hbi : Entries bi m 1 mem (fun l _ => B l j) := by
    intro i j' h1 h2 h3 h4
    obtain rfl : j' = 0 := by omega
    rw [ab, add_zero]
    exact hB i j h1 h2 (by omega) (by omega)
  obtain ⟨c, mem', f', e2, n2, lc, -⟩ := matmul_lmat (starRingEnd 𝕜) junk (.mat ⟨un, false⟩ true) (.mat ⟨bi, false⟩ false) k m 1 (by omega) (by omega) (by omega) h1.b0 h1.b1 (by omega) mem _ _
    ⟨h1.blas, h1.good, _, hN, rfl⟩ ⟨lb.blas, lb.good, _, hbi, rfl⟩
  have hget : ∀ i : Fin k, load c [(i : Int), 0] mem' = some ((toMat2 k m N *ᵥ column B j) i) := by
    intro i
    have hi := i.isLt
    rw [load_eq lc.good (by rw [lc.len, inRange2]; exact ⟨i, 0, rfl, by omega, by omega, by omega, by omega⟩), n2.entry _ _ (by omega) (by omega) (by omega) (by omega)]
    congr 1
    simp only [sumTo, Int.toNat_natCast]
    rw [Finset.sum_range]
    rfl
  have hfro : Algorithms.frobeniusSq (Norm.exact 𝕜).abs c.lay.len (fun idx => load c idx mem') = some (sumSq (toMat2 k m N *ᵥ column B j)) := by
    rw [lc.len, Algorithms.C25_frobenius (Norm.exact 𝕜).abs [(k : Int), 1] (fun idx => load c idx mem') ?_ (List.ofFn (fun i : Fin k => [(i : Int), 0])) ?_ ?_]
    · rw [List.map_ofFn, List.sum_ofFn]
      congr 1
      apply Finset.sum_congr rfl
      intro i _
      simp only [Function.comp, hget i, Option.map_some, Option.getD_some, Norm.exact, pow_two]
    · intro idx hi
      obtain ⟨i, j', rfl, a, b, c', d⟩ := inRange2.mp hi
      obtain rfl : j' = 0 := by omega
      obtain ⟨i, rfl⟩ := Int.eq_ofNat_of_zero_le a
      exact ⟨_, hget ⟨i, by omega⟩⟩
    · rw [List.nodup_ofFn]
      intro a b hab
      simpa [Fin.ext_iff] using hab
    · intro idx
      rw [List.mem_ofFn, inRange2]
      constructor
      · rintro ⟨i, rfl⟩
        have := i.isLt
        exact ⟨i, 0, rfl, by omega, by omega, by omega, by omega⟩
      · rintro ⟨i, j', rfl, a, b, c', d⟩
        obtain rfl : j' = 0 := by omega
        obtain ⟨i, rfl⟩ := Int.eq_ofNat_of_zero_le a
        exact ⟨⟨i, by omega⟩, rfl⟩
  refine ⟨mem', ?_, n2.grow, n2.old⟩
  have e2' : matmul (Norm.exact 𝕜).conj junk (.mat ⟨un, false⟩ true) (.mat ⟨bi, false⟩ false) mem = .ok (c, mem') := e2
  simp only [columnError, e1, orUb, lift, bind, Except.bind, e2', hfro, pure, Except.pure]
  rfl

theorem largest_fold : ∀ (es : List ℝ) (e : ℝ), (es.foldl (fun m x => if m < x then x else m) e ∈ e :: es) ∧ ∀ x ∈ e :: es, x ≤ es.foldl (fun m x => if m < x then x else m) e
  | [], e => by simp
  | x :: es, e => by
    have ih := largest_fold es (if e < x then x else e)
    simp only [List.foldl_cons]
    constructor
    · rcases List.mem_cons.mp ih.1 with h | h
      · rw [h]; split_ifs <;> simp
      · simp [h]
    · intro y hy
      have h1 := ih.2 (if e < x then x else e) (by simp)
      rcases List.mem_cons.mp hy with rfl | hy
      · refine le_trans ?_ h1; split_ifs with h
        · exact le_of_lt h
        · exact le_refl _
      · rcases List.mem_cons.mp hy with rfl | hy
        · refine le_trans ?_ h1; split_ifs with h
          · exact le_refl _
          · exact not_lt.mp h
        · exact ih.2 y (by simp [hy])

theorem largestError_eq (junk : 𝕜) {un b : View} {k m r : Nat} (pk : 0 < k) (pm : 0 < m) (pr : 0 < r) {mem : List 𝕜} {f : Bool} {l1 l2 : Int} (h1 : LMat un k m mem.length false l1)
    (h2 : LMat b m r mem.length f l2) {N B : Int → Int → 𝕜} (hN : Entries un k m mem N) (hB : Entries b m r mem B) :
    ∃ err mem', largestError (Norm.exact 𝕜) junk un b mem = .ok (err, mem') ∧ Ext mem mem' ∧ IsLargest (fun j : Fin r => Real.sqrt (sumSq (toMat2 k m N *ᵥ column B j)) / Real.sqrt m) err := by
  have r0 : rd b.lay.len 0 = some (m : Int) := by rw [h2.len]; rfl
  have r1 : rd b.lay.len 1 = some (r : Int) := by rw [h2.len]; rfl
  let g : Nat → ℝ := fun j => Real.sqrt (sumSq (toMat2 k m N *ᵥ column B j)) / Real.sqrt m
  have key : ∀ (l : List Nat) (es : List ℝ) (mem1 : List 𝕜), (∀ j ∈ l, j < r) → Ext mem mem1 → ∃ mem2, l.foldlM (fun (s : List ℝ × List 𝕜) i => do
      let (e, mem) ← columnError (Norm.exact 𝕜) junk un b m (Int.ofNat i) s.2
      return (s.1 ++ [e], mem)) (es, mem1) = (.ok (es ++ l.map g, mem2) : Except Fail _) ∧ Ext mem mem2 := by
    intro l
    induction l with
    | nil => intro es mem1 _ hx; exact ⟨mem1, by simp [pure, Except.pure], hx⟩
    | cons a l ih =>
      intro es mem1 hl hx
      obtain ⟨mem2, e2, x2⟩ := columnError_eq junk pk pm (h1.mono hx.grow) (h2.mono hx.grow) (Entries.ext hN h1.len h1.good.fits hx) (Entries.ext hB h2.len h2.good.fits hx) (hl a (by simp))
      obtain ⟨mem3, e3, x3⟩ := ih (es ++ [g a]) mem2 (fun j hj => hl j (by simp [hj])) (hx.trans x2)
      refine ⟨mem3, ?_, x3⟩
      have e2' : columnError (Norm.exact 𝕜) junk un b m (Int.ofNat a) mem1 = .ok (g a, mem2) := e2
      rw [List.foldlM_cons]
      simp only [e2', bind, Except.bind, pure, Except.pure]
      simp only [bind, Except.bind, pure, Except.pure] at e3
      rw [e3]
      simp
  obtain ⟨mem2, e2, x2⟩ := key (List.range r) [] mem (fun j hj => by simpa using hj) (Ext.refl mem)
  obtain ⟨r', rfl⟩ : ∃ r', r = r' + 1 := ⟨r - 1, by omega⟩
  have hr : (List.range (r' + 1)).map g = g 0 :: ((List.range r').map Nat.succ).map g := by rw [List.range_succ_eq_map, List.map_cons]
  rw [List.nil_append, hr] at e2
  have hmem : ∀ x, x ∈ g 0 :: ((List.range r').map Nat.succ).map g ↔ ∃ j : Fin (r' + 1), g j = x := by
    intro x
    rw [← List.map_cons, ← List.range_succ_eq_map]
    simp only [List.mem_map, List.mem_range]
    constructor
    · rintro ⟨j, hj, rfl⟩; exact ⟨⟨j, hj⟩, rfl⟩
    · rintro ⟨j, rfl⟩; exact ⟨j, j.isLt, rfl⟩
  have hl := largest_fold (((List.range r').map Nat.succ).map g) (g 0)
  refine ⟨(((List.range r').map Nat.succ).map g).foldl (fun m x => if m < x then x else m) (g 0), mem2, ?_, x2, ?_⟩
  rotate_left
  · constructor
    · obtain ⟨j, hj⟩ := (hmem _).mp hl.1
      exact ⟨j, hj⟩
    · intro j
      exact hl.2 _ ((hmem _).mpr ⟨j, rfl⟩)
  · simp only [bind, Except.bind, pure, Except.pure] at e2
    simp only [largestError, r0, r1, orUb, lift, bind, Except.bind, Int.toNat_natCast, pure, Except.pure, e2]

theorem solve_eq (junk : 𝕜) {m n r : Nat} (pn : 0 < n) (hnm : n ≤ m) (pr : 0 < r) {A : Matrix (Fin m) (Fin n) 𝕜} (hA : FullRank A) {w : Worker ℝ} {mem : List 𝕜} (hw : Solver m n A w mem)
    {b : View} {f : Bool} {ldb : Int} (lb : LMat b m r mem.length f ldb) {B : Int → Int → 𝕜} (hB : Entries b m r mem B) :
    ∃ x err mem' X, solve (Norm.exact 𝕜) junk w b mem = .ok (x, err, mem') ∧ Ext mem mem' ∧ NewMatrix mem n r X x mem' ∧ LMat x n r mem'.length false r ∧ (∀ j : Fin r, Minimiser A (column B j) (column X j)) ∧
      IsLargest (fun j : Fin r => Real.sqrt (sumSq (A *ᵥ column X j - column B j)) / Real.sqrt m) err := by
  obtain ⟨U, Vt, hS, ⟨ld, P, lp, hP, eP⟩, hnull⟩ := hw.parts
  have h0 := (fullRank_iff hS hnm).mp hA
  have pm : 0 < m := by omega
  have hcol : ∀ j : Fin r, column (m := n) (fun i j => sumTo m fun k => P i k * B k j) j = pseudo U w.s Vt *ᵥ column B j := by
    intro j
    rw [← eP]
    funext i
    simp only [column, sumTo, Int.toNat_natCast, Matrix.mulVec, dotProduct, toMat2]
    rw [Finset.sum_range]
  have last : ∀ mem1, Ext mem mem1 → ∃ x mem', matmul (starRingEnd 𝕜) junk (.mat ⟨w.pinv, false⟩ true) (.mat ⟨b, false⟩ false) mem1 = .ok (x, mem') ∧ Ext mem mem' ∧
      NewMatrix mem n r (fun i j => sumTo m fun k => P i k * B k j) x mem' ∧ LMat x n r mem'.length false r := by
    intro mem1 hx
    have lp1 := lp.mono hx.grow
    have lb1 := lb.mono hx.grow
    obtain ⟨x, mem', f', e2, n2, lc, ho⟩ := matmul_lmat (starRingEnd 𝕜) junk (.mat ⟨w.pinv, false⟩ true) (.mat ⟨b, false⟩ false) n m r (by omega) (by omega) (by omega) lp.b0 lp.b1 lb.b1 mem1 _ _
      ⟨lp1.blas, lp1.good, _, Entries.ext hP lp.len lp.good.fits hx, rfl⟩ ⟨lb1.blas, lb1.good, _, Entries.ext hB lb.len lb.good.fits hx, rfl⟩
    have hx2 : Ext mem mem' := hx.trans ⟨n2.grow, n2.old⟩
    have hf' : f' = false := by
      have h1 : (Operand.mat ⟨w.pinv, false⟩ true : Operand 𝕜).policyOrder = [0, 1] := by
        show w.pinv.lay.so = _
        rw [lp.so]; rfl
      unfold resultOrder at ho
      rw [h1, ite_self] at ho
      cases f'
      · rfl
      · cases ho
    subst hf'
    refine ⟨x, mem', e2, hx2, ?_, lc⟩
    exact { n2 with above := fun idx h => le_trans (by exact_mod_cast hx.grow) (n2.above idx h), old := hx2.old, grow := hx2.grow }
  by_cases hmn : m = n
  · subst hmn
    obtain ⟨x, mem', e, hx, hn, lx⟩ := last mem (Ext.refl mem)
    refine ⟨x, 0, mem', _, ?_, hx, hn, lx, fun j => ?_, ⟨⟨0, pr⟩, ?_⟩, fun j => ?_⟩
    · have e' : matmul (Norm.exact 𝕜).conj junk (.mat ⟨w.pinv, false⟩ true) (.mat ⟨b, false⟩ false) mem = .ok (x, mem') := e
      simp only [solve, hw.rows, hw.cols, ne_eq, not_true, if_false, bind, Except.bind, pure, Except.pure, e', lift]
    · rw [hcol]; exact pseudo_minimiser hS hnm h0 _
    · beta_reduce
      rw [hcol ⟨0, pr⟩, residual_sumSq hS hnm h0, Finset.sum_eq_zero (fun i _ => by have := i.isLt; omega)]
      simp
    · beta_reduce
      rw [hcol j, residual_sumSq hS hnm h0, Finset.sum_eq_zero (fun i _ => by have := i.isLt; omega)]
      simp
  · have hlt : n < m := by omega
    obtain ⟨un, ldn, N, en, ln, hN, eN⟩ := hnull hlt
    obtain ⟨err, mem1, e1, x1, hl⟩ := largestError_eq junk (k := m - n) (by omega) pm pr ln lb hN hB
    obtain ⟨x, mem', e, hx, hn, lx⟩ := last mem1 x1
    refine ⟨x, err, mem', _, ?_, hx, hn, lx, fun j => ?_, ?_⟩
    · have e' : matmul (Norm.exact 𝕜).conj junk (.mat ⟨w.pinv, false⟩ true) (.mat ⟨b, false⟩ false) mem1 = .ok (x, mem') := e
      have hne : ¬ (m : Int) = n := by omega
      simp only [solve, hw.rows, hw.cols, ne_eq, hne, not_false_iff, if_true, en, orUb, lift, bind, Except.bind, pure, Except.pure, e1, e']
    · rw [hcol]; exact pseudo_minimiser hS hnm h0 _
    · have : (fun j : Fin r => Real.sqrt (sumSq (A *ᵥ column (fun i j => sumTo m fun k => P i k * B k j) j - column B j)) / Real.sqrt m) =
          fun j : Fin r => Real.sqrt (sumSq (toMat2 (m - n) m N *ᵥ column B j)) / Real.sqrt m := by
        funext j
        rw [hcol, residual_sumSq hS hnm h0, eN]
        rfl
      rw [this]
      exact hl

/-- C59.  For a matrix `A` with at least as many rows as columns, in any layout: if its columns are linearly independent, the constructor succeeds, and the object solves for any number of right-hand sides
`B`, now or later, in memory that has grown: each column of the new matrix is the only minimiser of `‖A x - b‖`, and the error is the largest of `‖A x - b‖ / √m`; what was in memory has not changed.
If the columns are linearly dependent, the constructor divides by zero.  An error of the constructor is an error reported by LAPACK. -/
theorem C59_least_squares (D : Drivers 𝕜 ℝ) (hD : GesvdOK D) (junk : 𝕜) (cplx : Bool) (hc : cplx = false → ∀ x : 𝕜, star x = x) (m n : Nat) (pn : 0 < n) (hnm : n ≤ m) (bm : (m : Int) < 2147483648)
    (a : View) (mem : List 𝕜) (ga : Good a mem.length) (la : a.lay.len = [(m : Int), (n : Int)]) (A : Int → Int → 𝕜) (hA : Entries a m n mem A) :
    (FullRank (toMat2 m n A) ∧ ∃ w mem', worker (starRingEnd 𝕜) (fun x : ℝ => (x : 𝕜)) cplx D junk a mem = .ok (w, mem') ∧ Ext mem mem' ∧
      ∀ (mem1 : List 𝕜) (b : View) (r : Nat) (B : Int → Int → 𝕜), Ext mem' mem1 → 0 < r → BlasMatrix b m r → Good b mem1.length → Entries b m r mem1 B →
        ∃ x err mem2 X, solve (Norm.exact 𝕜) junk w b mem1 = .ok (x, err, mem2) ∧ NewMatrix mem1 n r X x mem2 ∧ (∀ j : Fin r, Minimiser (toMat2 m n A) (column B j) (column X j)) ∧
          IsLargest (fun j : Fin r => Real.sqrt (sumSq (toMat2 m n A *ᵥ column X j - column B j)) / Real.sqrt m) err) ∨
    (¬ FullRank (toMat2 m n A) ∧ worker (starRingEnd 𝕜) (fun x : ℝ => (x : 𝕜)) cplx D junk a mem = .error .infinite) ∨
    (worker (starRingEnd 𝕜) (fun x : ℝ => (x : 𝕜)) cplx D junk a mem = .error (.call .runtime) ∧
      ∃ a lda u ldu vt ldvt mem1 mem2 sv info, D.gesvd m n a lda u ldu vt ldvt mem1 = .ok (mem2, sv, info) ∧ info ≠ 0) := by
  rcases worker_eq hD junk cplx hc pn hnm bm ga la hA with ⟨hf, w, mem', e, hx, hw⟩ | h | h
  · refine Or.inl ⟨hf, w, mem', e, hx, ?_⟩
    intro mem1 b r B hx1 pr hb gb hB
    obtain ⟨f, ld, lb, -⟩ := hb.lmat gb
    obtain ⟨x, err, mem2, X, e2, -, n2, -, h1, h2⟩ := solve_eq junk pn hnm pr hf (hw.ext hx1) lb hB
    exact ⟨x, err, mem2, X, e2, n2, h1, h2⟩
  · exact Or.inr (Or.inl h)
  · exact Or.inr (Or.inr h)

/-- More columns than rows are refused. -/
theorem C59_rejects (D : Drivers 𝕜 ℝ) (junk : 𝕜) (cplx : Bool) (m n : Int) (h : m < n) (a : View) (la : a.lay.len = [m, n]) (mem : List 𝕜) :
    worker (starRingEnd 𝕜) (fun x : ℝ => (x : 𝕜)) cplx D junk a mem = .error (.call .runtime) := by
  have r0 : rd a.lay.len 0 = some m := by rw [la]; rfl
  have r1 : rd a.lay.len 1 = some n := by rw [la]; rfl
  simp only [worker, r0, r1, orUb, lift, bind, Except.bind, h, if_true, throw, throwThe, MonadExceptOf.throw]

/-- A right-hand side without columns: unless `A` is square, the largest element of an empty vector is read. -/
theorem C59_no_columns (junk : 𝕜) (w : Worker ℝ) (h : w.m ≠ w.n) (b : View) (m : Int) (lb : b.lay.len = [m, 0]) (mem : List 𝕜) : solve (Norm.exact 𝕜) junk w b mem = .error (.call .ub) := by
  have r0 : rd b.lay.len 0 = some m := by rw [lb]; rfl
  have r1 : rd b.lay.len 1 = some 0 := by rw [lb]; rfl
  cases hn : w.null with
  | none => simp [solve, h, hn, orUb, lift, bind, Except.bind]
  | some un =>
    simp [solve, h, hn, largestError, r0, r1, orUb, lift, bind, Except.bind, pure, Except.pure, throw, throwThe, MonadExceptOf.throw]

/-- The line of best fit through the origin: `3 x = 1`, `4 x = 2` has the least-squares solution `11 / 25`. -/
example (D : Drivers ℝ ℝ) (hD : GesvdOK D) (w : Worker ℝ) (mem' : List ℝ)
    (e : worker (starRingEnd ℝ) (fun x : ℝ => x) false D 0 ⟨0, ⟨[2, 1], [1, 1], [0, 1], [0, 0], .contiguous⟩⟩ [3, 4, 1, 2] = .ok (w, mem')) :
    ∃ x err mem2, solve (Norm.exact ℝ) 0 w ⟨2, ⟨[2, 1], [1, 1], [0, 1], [0, 0], .contiguous⟩⟩ mem' = .ok (x, err, mem2) ∧ val mem2 (addr x [0, 0]) = some (11 / 25) := by
  have hA : Entries ⟨0, ⟨[2, 1], [1, 1], [0, 1], [0, 0], .contiguous⟩⟩ 2 1 [3, 4, 1, 2] (fun i _ => if i = 0 then (3 : ℝ) else 4) := by
    intro i j h1 h2 h3 h4
    obtain rfl : j = 0 := by omega
    obtain rfl | rfl : i = 0 ∨ i = 1 := by omega
    · rfl
    · rfl
  rcases C59_least_squares D hD 0 false (fun _ x => star_trivial x) 2 1 (by decide) (by decide) (by decide) ⟨0, ⟨[2, 1], [1, 1], [0, 1], [0, 0], .contiguous⟩⟩ [3, 4, 1, 2]
    (good_of (by decide) (by decide) (by decide) (by decide) (by decide) 1 (by decide) (by decide) (by decide)) rfl _ hA with ⟨-, w', mem1, e', hx, h⟩ | ⟨-, e'⟩ | ⟨e', -⟩
  · have e2 := e.symm.trans e'
    simp only [Except.ok.injEq, Prod.mk.injEq] at e2
    obtain ⟨rfl, rfl⟩ := e2
    have hg : 4 ≤ mem'.length := hx.grow
    obtain ⟨x, err, mem2, X, e3, n3, hmin, -⟩ := h mem' ⟨2, ⟨[2, 1], [1, 1], [0, 1], [0, 0], .contiguous⟩⟩ 1 (fun i _ => if i = 0 then (1 : ℝ) else 2) (Ext.refl _) (by decide)
      ⟨rfl, Or.inr ⟨rfl, 1, rfl, by decide, by decide, by decide⟩, by decide, by decide⟩ (good_of (by decide) (by decide) (by decide) (by decide) (by decide) 1 (by decide) (by decide) (by
        intro idx hi
        have : ∀ idx ∈ box [(2 : Int), 1], 0 ≤ addr ⟨2, ⟨[2, 1], [1, 1], [0, 1], [0, 0], .contiguous⟩⟩ idx ∧ addr ⟨2, ⟨[2, 1], [1, 1], [0, 1], [0, 0], .contiguous⟩⟩ idx < 4 := by decide
        have := this idx hi
        omega)) (by
        intro i j h1 h2 h3 h4
        obtain rfl : j = 0 := by omega
        obtain rfl | rfl : i = 0 ∨ i = 1 := by omega
        · rw [hx.old _ (by decide)]; rfl
        · rw [hx.old _ (by decide)]; rfl)
    refine ⟨x, err, mem2, e3, ?_⟩
    rw [n3.entry 0 0 (by decide) (by decide) (by decide) (by decide)]
    have := (hmin 0 (fun _ => 11 / 25)).1
    simp [sumSq, Fin.sum_univ_two, column, toMat2, Matrix.mulVec, dotProduct] at this
    congr 1
    nlinarith [sq_nonneg (X 0 0 - 11 / 25)]
  · have e2 := e.symm.trans e'; cases e2
  · have e2 := e.symm.trans e'; cases e2

end Nda.Linalg
