import Verif.Lemmas.Strided
import Verif.Lemmas.Check
/-!
# C55: batches of matrix products

`c_i <- alpha * op(a_i) * op(b_i) + beta * c_i` for every `i`, nothing else in memory changes.
-/
namespace Nda.Blas
open Nda LayoutTransforms Assign Loops Matrix Nda.Spec Nda.Perm

variable {α : Type}

/-- The matrices of a batch: sizes fit, all matrices of a vector have the same order (that of their type), a conjugated matrix has the other order than the result, and the results are
apart from the operands and from each other. -/
structure BatchOK (n : Nat) (X Y Z : Nat → View) (ox oy oz : List Nat) (conjA conjB : Bool) (n0 n1 n2 : Nat → Int) (mem : List α) : Prop where
  bx : ∀ i, i < n → BlasMatrix (X i) (n0 i) (n1 i) ∧ Good (X i) mem.length ∧ (X i).lay.so = ox
  by' : ∀ i, i < n → BlasMatrix (Y i) (n1 i) (n2 i) ∧ Good (Y i) mem.length ∧ (Y i).lay.so = oy
  bz : ∀ i, i < n → BlasMatrix (Z i) (n0 i) (n2 i) ∧ Good (Z i) mem.length ∧ (Z i).lay.so = oz
  vx : conjA = true → ox ≠ oz
  vy : conjB = true → oy ≠ oz
  sx : ∀ i j, i < n → j < n → Separate (X i) (Z j)
  sy : ∀ i j, i < n → j < n → Separate (Y i) (Z j)
  sz : ∀ i j, i < n → j < n → i ≠ j → Separate (Z i) (Z j)

theorem BatchOK.batch {n : Nat} {X Y Z : Nat → View} {ox oy oz : List Nat} {conjA conjB : Bool} {n0 n1 n2 : Nat → Int} {mem : List α} (h : BatchOK n X Y Z ox oy oz conjA conjB n0 n1 n2 mem)
    {A B C : Nat → Int → Int → α} (hA : ∀ i, i < n → Entries (X i) (n0 i) (n1 i) mem (A i)) (hB : ∀ i, i < n → Entries (Y i) (n1 i) (n2 i) mem (B i))
    (hC : ∀ i, i < n → Entries (Z i) (n0 i) (n2 i) mem (C i)) (hn : 0 < n) :
    ∃ lx ly lz : Nat → Int, Batch.OK (⟨n, X, Y, Z, conjA, conjB, n0, n1, n2, decide (ox = [1, 0]), decide (oy = [1, 0]), decide (oz = [1, 0]), lx, ly, lz, A, B, C⟩ : Batch α) mem := by
  have key : ∀ (V : Nat → View) (o : List Nat) (p q : Nat → Int), (∀ i, i < n → BlasMatrix (V i) (p i) (q i) ∧ Good (V i) mem.length ∧ (V i).lay.so = o) →
      ∃ l : Nat → Int, (∀ i, i < n → LMat (V i) (p i) (q i) mem.length (decide (o = [1, 0])) (l i)) ∧ (0 < n → o = [1, 0] ∨ o = [0, 1]) := by
    intro V o p q hV
    have hV' : ∀ i, i < n → ∃ ld, LMat (V i) (p i) (q i) mem.length (decide (o = [1, 0])) ld := by
      intro i hi
      obtain ⟨b, g, s⟩ := hV i hi
      obtain ⟨f, ld, hl, hf⟩ := b.lmat g
      rw [s] at hf
      refine ⟨ld, ?_⟩
      have : decide (o = [1, 0]) = f := by cases f <;> simp at hf ⊢ <;> exact hf
      rw [this]; exact hl
    choose! l hl using hV'
    refine ⟨l, hl, fun hn => ?_⟩
    obtain ⟨b, -, s⟩ := hV 0 hn
    rcases b.order with ⟨h, -⟩ | ⟨h, -⟩
    · left; rw [← s, h]
    · right; rw [← s, h]
  obtain ⟨lx, hx, ox'⟩ := key X ox n0 n1 h.bx
  obtain ⟨ly, hy, oy'⟩ := key Y oy n1 n2 h.by'
  obtain ⟨lz, hz, oz'⟩ := key Z oz n0 n2 h.bz
  refine ⟨lx, ly, lz, hx, hy, hz, hA, hB, hC, ?_, ?_, h.sx, h.sy, h.sz⟩
  · intro hc
    have := h.vx hc
    rcases ox' hn with rfl | rfl <;> rcases oz' hn with rfl | rfl <;> simp at this ⊢
  · intro hc
    have := h.vy hc
    rcases oy' hn with rfl | rfl <;> rcases oz' hn with rfl | rfl <;> simp at this ⊢

/-- C55, `gemm_vbatch`: matrices of any sizes and leading dimensions. -/
theorem C55_vbatch [CommSemiring α] [DecidableEq α] (cj : α → α) (alpha beta : α) (n : Nat) (X Y Z : Nat → View) (ox oy oz : List Nat) (conjA conjB : Bool) (n0 n1 n2 : Nat → Int) (mem : List α)
    (h : BatchOK n X Y Z ox oy oz conjA conjB n0 n1 n2 mem) (A B C : Nat → Int → Int → α) (hA : ∀ i, i < n → Entries (X i) (n0 i) (n1 i) mem (A i))
    (hB : ∀ i, i < n → Entries (Y i) (n1 i) (n2 i) mem (B i)) (hC : ∀ i, i < n → Entries (Z i) (n0 i) (n2 i) mem (C i)) :
    ∃ mem', gemmBatch true cj alpha ((List.range n).map (fun i => ⟨X i, conjA⟩)) ((List.range n).map (fun i => ⟨Y i, conjB⟩)) beta ((List.range n).map Z) mem = .ok mem' ∧
      AllUpdated n Z (fun i idx => some (gemmValue cj alpha conjA (A i) conjB (B i) beta (C i) (n1 i) (idx.getD 0 0) (idx.getD 1 0))) mem mem' := by
  by_cases hn : n = 0
  · subst hn; exact ⟨mem, rfl, rfl, fun i hi => absurd hi (by omega), fun _ _ => rfl⟩
  obtain ⟨lx, ly, lz, hb⟩ := h.batch hA hB hC (by omega)
  exact hb.gemmBatch_eq true cj alpha beta (Or.inl rfl)

/-- C55, `gemm_batch`: matrices of the same sizes.  The leading dimensions must not vary within a vector, which the code does not check (see `C55_leading_dimension_witness`). -/
theorem C55_batch_partial [CommSemiring α] [DecidableEq α] (cj : α → α) (alpha beta : α) (n : Nat) (X Y Z : Nat → View) (ox oy oz : List Nat) (conjA conjB : Bool) (n0 n1 n2 : Int) (mem : List α)
    (h : BatchOK n X Y Z ox oy oz conjA conjB (fun _ => n0) (fun _ => n1) (fun _ => n2) mem) (A B C : Nat → Int → Int → α) (hA : ∀ i, i < n → Entries (X i) n0 n1 mem (A i))
    (hB : ∀ i, i < n → Entries (Y i) n1 n2 mem (B i)) (hC : ∀ i, i < n → Entries (Z i) n0 n2 mem (C i))
    (hstr : ∀ i, i < n → (X i).lay.str = (X 0).lay.str ∧ (Y i).lay.str = (Y 0).lay.str ∧ (Z i).lay.str = (Z 0).lay.str) :
    ∃ mem', gemmBatch false cj alpha ((List.range n).map (fun i => ⟨X i, conjA⟩)) ((List.range n).map (fun i => ⟨Y i, conjB⟩)) beta ((List.range n).map Z) mem = .ok mem' ∧
      AllUpdated n Z (fun i idx => some (gemmValue cj alpha conjA (A i) conjB (B i) beta (C i) n1 (idx.getD 0 0) (idx.getD 1 0))) mem mem' := by
  by_cases hn : n = 0
  · subst hn; exact ⟨mem, rfl, rfl, fun i hi => absurd hi (by omega), fun _ _ => rfl⟩
  have hn : 0 < n := by omega
  obtain ⟨lx, ly, lz, hb⟩ := h.batch hA hB hC hn
  refine hb.gemmBatch_eq false cj alpha beta (Or.inr fun i hi => ?_)
  have key : ∀ {v w : View} {p q p' q' l l' : Int} {f : Bool}, LMat v p q mem.length f l → LMat w p' q' mem.length f l' → v.lay.str = w.lay.str → l = l' := by
    intro v w p q p' q' l l' f hv hw he
    rw [hv.str, hw.str] at he
    cases f <;> simpa using he
  exact ⟨rfl, rfl, rfl, key (hb.hx i hi) (hb.hx 0 hn) (hstr i hi).1, key (hb.hy i hi) (hb.hy 0 hn) (hstr i hi).2.1, key (hb.hc i hi) (hb.hc 0 hn) (hstr i hi).2.2⟩

/-- C55, `gemm_batch_strided`: a stack of matrices.  The matrices of the stacks must each be in C or Fortran order with the stack index slowest (arrays of rank 3 in Fortran order are not, see
`C55_fortran_witness`), and the stack must not be empty; a conjugated operand compiles only for a result that is not in C order. -/
theorem C55_strided_partial [CommSemiring α] [DecidableEq α] (cj : α → α) (alpha beta : α) (a b c : View) (conjA conjB fa fb fc : Bool) (n n0 n1 n2 : Int) (mem : List α) (hn : 1 ≤ n)
    (ha : Stacked a fa n n0 n1) (hb : Stacked b fb n n1 n2) (hc : Stacked c fc n n0 n2) (ga : Good a mem.length) (gb : Good b mem.length) (gc : Good c mem.length)
    (A B C : Int → Int → Int → α) (hA : Entries3 a n n0 n1 mem A) (hB : Entries3 b n n1 n2 mem B) (hC : Entries3 c n n0 n2 mem C)
    (va : conjA = true → fa = false ∧ fc = true) (vb : conjB = true → fb = false ∧ fc = true) (sa : Separate a c) (sb : Separate b c) (h1 : OneToOne c) :
    ∃ mem', gemmBatchStrided cj alpha ⟨a, conjA⟩ ⟨b, conjB⟩ beta c mem = .ok mem' ∧
      Updated c (fun idx => some (gemmValue cj alpha conjA (A (idx.getD 0 0)) conjB (B (idx.getD 0 0)) beta (C (idx.getD 0 0)) n1 (idx.getD 1 0) (idx.getD 2 0))) mem mem' := by
  obtain ⟨s, l, ha⟩ := ha.larr ga
  obtain ⟨s', l', hb⟩ := hb.larr gb
  obtain ⟨s'', l'', hc⟩ := hc.larr gc
  exact strided_eq cj alpha beta (x := ⟨a, conjA⟩) (y := ⟨b, conjB⟩) ha hb hc hA hB hC va vb sa sb h1 hn

/-- C55.  A lazily conjugated argument is accepted only if it is stored by rows and the result by columns; everything else is refused at compile time. -/
theorem C55_strided_rejects [CommSemiring α] [DecidableEq α] (cj : α → α) (alpha beta : α) (a b c : View) (conjA conjB fa fb fc : Bool) (n n0 n1 n2 : Int) (mem : List α) (hn : 1 ≤ n)
    (ha : Stacked a fa n n0 n1) (hb : Stacked b fb n n1 n2) (hc : Stacked c fc n n0 n2) (ga : Good a mem.length) (gb : Good b mem.length) (gc : Good c mem.length)
    (h : (conjA = true ∧ ¬ (fa = false ∧ fc = true)) ∨ (conjB = true ∧ ¬ (fb = false ∧ fc = true))) :
    gemmBatchStrided cj alpha ⟨a, conjA⟩ ⟨b, conjB⟩ beta c mem = .error .compile := by
  obtain ⟨s, l, ha⟩ := ha.larr ga
  obtain ⟨s', l', hb⟩ := hb.larr gb
  obtain ⟨s'', l'', hc⟩ := hc.larr gc
  obtain ⟨a0, ea, -⟩ := ha.slice (k := 0) (le_refl _) (by omega)
  obtain ⟨b0, eb, -⟩ := hb.slice (k := 0) (le_refl _) (by omega)
  obtain ⟨c0, ec, -⟩ := hc.slice (k := 0) (le_refl _) (by omega)
  rw [gemmBatchStrided, hc.hasC_eq]
  cases fc with
  | false =>
    have : (conjA || conjB) = true := by rcases h with h | h <;> simp [h.1]
    simp [this]
  | true =>
    simp only [Bool.not_true, Bool.false_eq_true, if_false, stridedFortran, ea, eb, ec, orUb, bind, Except.bind, ha.hasC_eq, hb.hasC_eq]
    cases conjA <;> cases conjB <;> cases fa <;> cases fb <;> simp at h <;> rfl

/-! ### Cases meeting the hypotheses, and what is missing -/

/-- A 2 by 2 matrix in C order with rows `ld` apart. -/
def exC (off ld : Int) : View := ⟨off, ⟨[2, 2], [ld, 1], [0, 1], [0, 0], .none⟩⟩

/-- Two matrices with different leading dimensions, the identity twice, room for two results. -/
def exBatchMem : List Int := [1, 2, 3, 4, 5, 6, 9, 7, 8, 9, 1, 0, 0, 1, 1, 1, 1, 1, 2, 2, 2, 2]

/-- The hypotheses of `C55_vbatch`: operands with leading dimensions 2 and 3. -/
theorem exBatch_ok : BatchOK 2 (fun i => if i = 0 then exC 0 2 else exC 4 3) (fun _ => exC 10 2) (fun i => if i = 0 then exC 14 2 else exC 18 2) [0, 1] [0, 1] [0, 1] false false
    (fun _ => 2) (fun _ => 2) (fun _ => 2) exBatchMem := by
  have g : ∀ off ld : Int, 2 ≤ ld → 0 ≤ off → off + ld + 1 < 22 → Good (exC off ld) exBatchMem.length := by
    intro off ld h1 h2 h3
    refine ⟨⟨show IsPerm [0, 1] by decide, rfl, rfl, rfl⟩, ⟨fun h => absurd h (by simp [exC, LayoutProp.none]), fun h => absurd h (by simp [exC, LayoutProp.none])⟩, by intro x hx; simp [exC] at hx; omega, ?_⟩
    intro idx hi
    have hi : InRange [2, 2] idx := hi
    rw [inRange2] at hi
    obtain ⟨i, j, rfl, a, b, c, d⟩ := hi
    have e : addr (exC off ld) [i, j] = off + (ld * i + j) := by simp [addr, exC, Spec.dot]
    have hl : (exBatchMem.length : Int) = 22 := rfl
    rw [e, hl]
    have h4 : i = 0 ∨ i = 1 := by omega
    rcases h4 with rfl | rfl <;> constructor <;> omega
  have b : ∀ off ld : Int, 2 ≤ ld → ld < 10 → BlasMatrix (exC off ld) 2 2 := fun off ld h1 h2 => ⟨rfl, Or.inr ⟨rfl, ld, rfl, by omega, h1, by omega⟩, by decide, by decide⟩
  refine ⟨?_, ?_, ?_, by simp, by simp, ?_, ?_, ?_⟩
  · intro i hi
    by_cases h : i = 0
    · simp only [h, if_true]; exact ⟨b _ _ (by omega) (by omega), g _ _ (by omega) (by omega) (by omega), rfl⟩
    · simp only [h, if_false]; exact ⟨b _ _ (by omega) (by omega), g _ _ (by omega) (by omega) (by omega), rfl⟩
  · intro i hi
    exact ⟨b _ _ (by omega) (by omega), g _ _ (by omega) (by omega) (by omega), rfl⟩
  · intro i hi
    by_cases h : i = 0
    · simp only [h, if_true]; exact ⟨b _ _ (by omega) (by omega), g _ _ (by omega) (by omega) (by omega), rfl⟩
    · simp only [h, if_false]; exact ⟨b _ _ (by omega) (by omega), g _ _ (by omega) (by omega) (by omega), rfl⟩
  · intro i j hi hj
    have h1 : i = 0 ∨ i = 1 := by omega
    have h2 : j = 0 ∨ j = 1 := by omega
    rcases h1 with rfl | rfl <;> rcases h2 with rfl | rfl <;> exact separate_of (by decide)
  · intro i j hi hj
    have h2 : j = 0 ∨ j = 1 := by omega
    rcases h2 with rfl | rfl <;> exact separate_of (by decide)
  · intro i j hi hj hij
    have h1 : i = 0 ∨ i = 1 := by omega
    have h2 : j = 0 ∨ j = 1 := by omega
    rcases h1 with rfl | rfl <;> rcases h2 with rfl | rfl <;> first | exact absurd rfl hij | exact separate_of (by decide)

example : (gemmBatch true id 1 [⟨exC 0 2, false⟩, ⟨exC 4 3, false⟩] [⟨exC 10 2, false⟩, ⟨exC 10 2, false⟩] 10 [exC 14 2, exC 18 2] exBatchMem).map (·.drop 14) = .ok [11, 12, 13, 14, 25, 26, 27, 28] := by decide

/-- Missing from C55: `gemm_batch` takes the leading dimension of the first matrix for all.  The second matrix `[[5,6],[7,8]]` (rows 3 apart) times the identity is not itself. -/
theorem C55_leading_dimension_witness :
    (gemmBatch false id 1 [⟨exC 0 2, false⟩, ⟨exC 4 3, false⟩] [⟨exC 10 2, false⟩, ⟨exC 10 2, false⟩] 0 [exC 14 2, exC 18 2] exBatchMem).map (·.drop 18) = .ok [5, 6, 9, 7] := by decide

/-- Two stacked 1 by 2 matrices, 2 by 1 matrices and results, in C order: `[1,2]*[5,6]` and `[3,4]*[7,8]`. -/
def exS (off n p q : Int) : View := ⟨off, ⟨[n, p, q], [p * q, q, 1], [0, 1, 2], [0, 0, 0], .contiguous⟩⟩

example : Stacked (exS 0 2 1 2) false 2 1 2 ∧ Stacked (exS 4 2 2 1) false 2 2 1 ∧ Stacked (exS 8 2 1 1) false 2 1 1 :=
  ⟨⟨rfl, rfl, ⟨2, 2, rfl, by decide⟩, by decide, by decide, by decide⟩, ⟨rfl, rfl, ⟨2, 1, rfl, by decide⟩, by decide, by decide, by decide⟩,
    ⟨rfl, rfl, ⟨1, 1, rfl, by decide⟩, by decide, by decide, by decide⟩⟩

example : Good (exS 0 2 1 2) 10 ∧ Separate (exS 0 2 1 2) (exS 8 2 1 1) ∧ Separate (exS 4 2 2 1) (exS 8 2 1 1) ∧ OneToOne (exS 8 2 1 1) :=
  ⟨good_of (by decide) rfl rfl rfl (by decide) 1 (by decide) (by decide) (by decide), separate_of (by decide), separate_of (by decide), oneToOne_of (by decide)⟩

example : (gemmBatchStrided id (1 : Int) ⟨exS 0 2 1 2, false⟩ ⟨exS 4 2 2 1, false⟩ 100 (exS 8 2 1 1) [1, 2, 3, 4, 5, 6, 7, 8, 1, 2]).map (·.drop 8) = .ok [117, 253] := by decide

/-- C55_strided_rejects: the conjugate of one argument and a result in C order. -/
example (cj : Int → Int) : gemmBatchStrided cj 1 ⟨exS 0 2 1 2, true⟩ ⟨exS 4 2 2 1, false⟩ 100 (exS 8 2 1 1) [1, 2, 3, 4, 5, 6, 7, 8, 1, 2] = .error .compile :=
  C55_strided_rejects cj 1 100 _ _ _ true false false false false 2 1 2 1 _ (by decide) ⟨rfl, rfl, ⟨2, 2, rfl, by decide⟩, by decide, by decide, by decide⟩
    ⟨rfl, rfl, ⟨2, 1, rfl, by decide⟩, by decide, by decide, by decide⟩ ⟨rfl, rfl, ⟨1, 1, rfl, by decide⟩, by decide, by decide, by decide⟩
    (good_of (by decide) rfl rfl rfl (by decide) 1 (by decide) (by decide) (by decide)) (good_of (by decide) rfl rfl rfl (by decide) 1 (by decide) (by decide) (by decide))
    (good_of (by decide) rfl rfl rfl (by decide) 1 (by decide) (by decide) (by decide)) (Or.inl ⟨rfl, by decide⟩)

/-- An array of rank 3 in Fortran order. -/
def exSF (off n p q : Int) : View := ⟨off, ⟨[n, p, q], [1, n, n * p], [2, 1, 0], [0, 0, 0], .contiguous⟩⟩

/-- Missing from C55: arrays of rank 3 in Fortran order.  With `a` two 2 by 2 matrices `[[1,2],[3,4]]` and `[[5,6],[7,8]]`, `b` twice the identity and `c` zero, all in Fortran order, `c` should become
`a`, whose elements in memory are 1, 5, 3, 7, 2, 6, 4, 8; all conditions that the code checks in debug mode hold.  The result is something else, silently. -/
theorem C55_fortran_witness :
    (gemmBatchStrided id (1 : Int) ⟨exSF 0 2 2 2, false⟩ ⟨exSF 8 2 2 2, false⟩ 0 (exSF 16 2 2 2) ([1, 5, 3, 7, 2, 6, 4, 8] ++ [1, 1, 0, 0, 0, 0, 1, 1] ++ [0, 0, 0, 0, 0, 0, 0, 0])).map (·.drop 16) ≠
      .ok [1, 5, 3, 7, 2, 6, 4, 8] ∧
    (gemmBatchStrided id (1 : Int) ⟨exSF 0 2 2 2, false⟩ ⟨exSF 8 2 2 2, false⟩ 0 (exSF 16 2 2 2) ([1, 5, 3, 7, 2, 6, 4, 8] ++ [1, 1, 0, 0, 0, 0, 1, 1] ++ [0, 0, 0, 0, 0, 0, 0, 0])).isOk = true := by decide

end Nda.Blas
