import Verif.Model.Divide
import Verif.Props.Linalg
/-!
# C75: division by a matrix
-/
namespace Nda.Divide
open Nda Nda.Spec Assign Linalg Blas

variable {α : Type}

/-- `n` by `n` entries as sums. -/
theorem mul_entry [Field α] {n : Nat} {X B : Int → Int → α} (h : toMat n X * toMat n B = 1) {i j : Int} (i0 : 0 ≤ i) (i1 : i < n) (j0 : 0 ≤ j) (j1 : j < n) :
    sumTo n (fun k => X i k * B k j) = if i = j then 1 else 0 := by
  obtain ⟨a, rfl⟩ := Int.eq_ofNat_of_zero_le i0
  obtain ⟨b, rfl⟩ := Int.eq_ofNat_of_zero_le j0
  have ha : a < n := by omega
  have hb : b < n := by omega
  have := congrFun (congrFun h ⟨a, ha⟩) ⟨b, hb⟩
  rw [Matrix.mul_apply, Matrix.one_apply] at this
  simp only [toMat, Fin.mk.injEq] at this
  rw [sumTo, Int.toNat_natCast, Finset.sum_range]
  rw [this]
  simp

theorem sumTo_eq [AddCommMonoid α] (n : Nat) (f : Int → α) : sumTo n f = ∑ k ∈ Finset.range n, f (k : Int) := by rw [sumTo, Int.toNat_natCast]

/-- Sums of products are associative. -/
theorem sum_assoc [Field α] (m n : Nat) (a b : Int → α) (x : Int → Int → α) :
    sumTo n (fun k => sumTo m (fun l => a l * x l k) * b k) = sumTo m (fun l => a l * sumTo n (fun k => x l k * b k)) := by
  simp only [sumTo_eq, Finset.sum_mul, Finset.mul_sum]
  rw [Finset.sum_comm]
  exact Finset.sum_congr rfl (fun _ _ => Finset.sum_congr rfl (fun _ _ => mul_assoc _ _ _))

/-- Multiplying with the identity. -/
theorem sum_unit [Field α] (n : Nat) (a : Int → α) (d : Int → α) {j : Int} (j0 : 0 ≤ j) (j1 : j < n) (hd : ∀ k : Int, 0 ≤ k → k < n → d k = if k = j then 1 else 0) :
    sumTo n (fun k => a k * d k) = a j := by
  obtain ⟨b, rfl⟩ := Int.eq_ofNat_of_zero_le j0
  rw [sumTo_eq, Finset.sum_eq_single b]
  · rw [hd _ (by omega) (by omega), if_pos rfl, mul_one]
  · intro c hc hne
    rw [Finset.mem_range] at hc
    rw [hd _ (by omega) (by omega), if_neg (by omega), mul_zero]
  · intro h
    exact absurd (Finset.mem_range.mpr (by omega)) h

/-- The inverse as a matrix ready for further products. -/
theorem inverse_lmat [Field α] [DecidableEq α] (L : Lapack α) (junk : α) (f : Bool) (n : Nat) (p : 0 < n) (hn : (n : Int) < 2147483648) (hbig : 3 < n → GetrfOK L ∧ GetriOK L) (rhs : Rhs α) (mem : List α)
    (A : Int → Int → α) (hy : Yields rhs [(n : Int), (n : Int)] mem (fun idx => A (idx.getD 0 0) (idx.getD 1 0))) :
    ((toMat n A).det = 0 ∧ ∃ r mem', inverse L junk (if f then [1, 0] else [0, 1]) n n rhs mem = .ok (r, false, mem')) ∨
    ((toMat n A).det ≠ 0 ∧ ∃ r mem' X, inverse L junk (if f then [1, 0] else [0, 1]) n n rhs mem = .ok (r, true, mem') ∧ Ext mem mem' ∧ LMat r n n mem'.length f n ∧ Entries r n n mem' X ∧
      (∀ idx, InRange [(n : Int), (n : Int)] idx → (mem.length : Int) ≤ addr r idx) ∧ toMat n X * toMat n A = 1 ∧ toMat n A * toMat n X = 1) := by
  obtain ⟨r, mem1, e, hx, hl, hE, hab⟩ := newMatrix_eq junk f (show 0 < (n : Int) by omega) (show 0 < (n : Int) by omega) hn hn hy (Ext.refl mem)
  have hsz : (r.lay.size == 0) = false := by
    rw [IdxMap.size_eq, hl.len]
    simp [prod]; omega
  rcases inverseInPlace_eq (L := L) (n := n) (by omega) ⟨hl.good, hl.one, hl.len, hE⟩ (fun h => ⟨(hbig h).1, (hbig h).2, f, _, hl⟩) with ⟨a, mem', b, c, d⟩ | ⟨a, mem', X, b, c, d1, d2⟩
  · refine Or.inl ⟨a, r, mem', ?_⟩
    simp only [inverse, e, orUb, bind, Except.bind, hsz, b]
    rfl
  · refine Or.inr ⟨a, r, mem', X, ?_, ⟨by rw [c.size]; exact hx.grow, fun k hk => ?_⟩, ?_, fun i j i0 i1 j0 j1 => ?_, hab, d1, d2⟩
    · simp only [inverse, e, orUb, bind, Except.bind, hsz, b]
      rfl
    · rw [c.frame k, hx.old k hk]
      rintro ⟨idx, hi, he⟩
      rw [hl.len] at hi
      have := hab idx hi
      omega
    · rw [c.size]
      cases f <;> simpa using hl
    · rw [c.elems [i, j] (by rw [hl.len, Matrix.inRange2]; exact ⟨i, j, rfl, i0, i1, j0, j1⟩)]
      rfl

theorem inverseOf_eq [Field α] [DecidableEq α] (L : Lapack α) (junk : α) (n : Nat) (p : 0 < n) (hn : (n : Int) < 2147483648) (hbig : 3 < n → GetrfOK L ∧ GetriOK L) (rhs : Rhs α) (mem : List α)
    (B : Int → Int → α) (hy : Yields rhs [(n : Int), (n : Int)] mem (fun idx => B (idx.getD 0 0) (idx.getD 1 0))) :
    ((toMat n B).det = 0 ∧ inverseOf L junk n n rhs mem = .error .runtime) ∨
    ((toMat n B).det ≠ 0 ∧ ∃ r mem' X, inverseOf L junk n n rhs mem = .ok (r, mem') ∧ Ext mem mem' ∧ LMat r n n mem'.length false n ∧ Entries r n n mem' X ∧
      (∀ idx, InRange [(n : Int), (n : Int)] idx → (mem.length : Int) ≤ addr r idx) ∧ toMat n X * toMat n B = 1 ∧ toMat n B * toMat n X = 1) := by
  obtain ⟨m, mem1, e, hx, hl, hE, hab⟩ := newMatrix_eq junk false (show 0 < (n : Int) by omega) (show 0 < (n : Int) by omega) hn hn hy (Ext.refl mem)
  have hy' : Yields (.inMem m (m.lay.size == 0)) [(n : Int), (n : Int)] mem1 (fun idx => B (idx.getD 0 0) (idx.getD 1 0)) := by
    refine ⟨hl.good, hl.len, fun h => ?_, fun idx hi => ?_⟩
    · rw [IdxMap.size_eq, hl.len] at h
      simpa using h
    · obtain ⟨i, j, rfl, a, b, c, d⟩ := Matrix.inRange2.mp hi
      exact hE i j a b c d
  rcases inverse_lmat L junk false n p hn hbig _ mem1 B hy' with ⟨a, r, mem', b⟩ | ⟨a, r, mem', X, b, c, d, e', g, d1, d2⟩
  · refine Or.inl ⟨a, ?_⟩
    simp only [Bool.false_eq_true, if_false] at e b
    simp only [inverseOf, e, orUb, bind, Except.bind, b]
    rfl
  · refine Or.inr ⟨a, r, mem', X, ?_, hx.trans c, d, e', fun idx hi => (by have := g idx hi; have := hx.grow; omega), d1, d2⟩
    simp only [Bool.false_eq_true, if_false] at e b
    simp only [inverseOf, e, orUb, bind, Except.bind, b]
    rfl

theorem OperandOK.ext {cj : α → α} {o : Blas.Operand α} {n0 n1 : Int} {mem mem' : List α} {A : Int → Int → α} (h : OperandOK cj o n0 n1 mem A) (he : Ext mem mem') : OperandOK cj o n0 n1 mem' A := by
  cases o with
  | mat x reg =>
    obtain ⟨h1, h2, A', h3, h4⟩ := h
    obtain ⟨f, ld, hl, -⟩ := h1.lmat h2
    exact ⟨h1, (hl.mono he.grow).good, A', Entries.ext h3 h1.len h2.fits he, h4⟩
  | other m order m0 m1 f =>
    obtain ⟨h1, h2, h3, h4⟩ := h
    refine ⟨h1, h2, h3, fun i j a b c d mem2 hm => h4 i j a b c d mem2 (fun k hk => ?_)⟩
    rw [hm k (by have := he.grow; omega), he.old k hk]

/-- A matrix in C order without gaps as an operand. -/
theorem operand_of_lmat {cj : α → α} {r : View} {n0 n1 : Int} {mem : List α} {f : Bool} {ld : Int} {X : Int → Int → α} (reg : Bool) (hl : LMat r n0 n1 mem.length f ld) (hE : Entries r n0 n1 mem X) :
    OperandOK cj (.mat ⟨r, false⟩ reg) n0 n1 mem X := by
  refine ⟨⟨hl.len, ?_, hl.b0, hl.b1⟩, hl.good, X, hE, rfl⟩
  have h1 := hl.so
  have h2 := hl.str
  have h3 := hl.wide
  cases f
  · exact Or.inr ⟨h1, ld, h2, hl.pos, h3, hl.ldb⟩
  · exact Or.inl ⟨h1, ld, h2, hl.pos, h3, hl.ldb⟩

theorem divide_lmat [Field α] [DecidableEq α] (cj : α → α) (L : Lapack α) (junk : α) (l : Blas.Operand α) (m n : Nat) (pm : 0 < m) (pn : 0 < n) (bm : (m : Int) < 2147483648) (bn : (n : Int) < 2147483648)
    (hbig : 3 < n → GetrfOK L ∧ GetriOK L) (r : Rhs α) (mem : List α) (A B : Int → Int → α) (hl : OperandOK cj l m n mem A)
    (hr : Yields r [(n : Int), (n : Int)] mem (fun idx => B (idx.getD 0 0) (idx.getD 1 0))) :
    ((toMat n B).det = 0 ∧ divide cj L junk l n n r mem = .error .runtime) ∨
    ((toMat n B).det ≠ 0 ∧ ∃ (res : View) (mem' : List α) (X Y : Int → Int → α), divide cj L junk l n n r mem = .ok (res, mem') ∧ Nda.Matrix.NewMatrix mem m n X res mem' ∧ (∃ f ld, LMat res m n mem'.length f ld) ∧
      (X = fun i j => sumTo n (fun k => A i k * Y k j)) ∧ toMat n Y * toMat n B = 1 ∧ toMat n B * toMat n Y = 1) := by
  rcases inverseOf_eq L junk n pn bn hbig r mem B hr with ⟨h0, e⟩ | ⟨h0, x, mem1, Y, e, hx, hlx, hE, hab, d1, d2⟩
  · refine Or.inl ⟨h0, ?_⟩
    simp only [divide, e, bind, Except.bind]
  · obtain ⟨res, mem', f, e1, hN, hlm, -⟩ := matmul_lmat cj junk l (.mat ⟨x, false⟩ true) m n n (by omega) (by omega) (by omega) bm bn bn mem1 A Y (OperandOK.ext hl hx) (operand_of_lmat true hlx hE)
    refine Or.inr ⟨h0, res, mem', _, Y, ?_, ⟨hN.good, hN.len, hN.one, hN.entry, fun idx hi => (by have := hN.above idx hi; have := hx.grow; omega), fun k hk => ?_, ?_⟩, ⟨_, _, hlm⟩, rfl, d1, d2⟩
    · simp only [divide, e, bind, Except.bind, e1]
    · rw [hN.old k (by have := hx.grow; omega), hx.old k hk]
    · have := hN.grow
      have := hx.grow
      omega

/-- C75: the quotient `X = A / B` of an `m` by `n` and an `n` by `n` matrix is a new matrix with `X B = A`, whatever the layouts and kinds of the operands; old memory is unchanged.
If `B` has no inverse, and only then, there is an exception.  For `n > 3` relative to LAPACK. -/
theorem C75_divide [Field α] [DecidableEq α] (cj : α → α) (L : Lapack α) (junk : α) (l : Blas.Operand α) (m n : Nat) (pm : 0 < m) (pn : 0 < n) (bm : (m : Int) < 2147483648) (bn : (n : Int) < 2147483648)
    (hbig : 3 < n → GetrfOK L ∧ GetriOK L) (r : Rhs α) (mem : List α) (A B : Int → Int → α) (hl : OperandOK cj l m n mem A)
    (hr : Yields r [(n : Int), (n : Int)] mem (fun idx => B (idx.getD 0 0) (idx.getD 1 0))) :
    ((toMat n B).det = 0 ∧ divide cj L junk l n n r mem = .error .runtime) ∨
    ((toMat n B).det ≠ 0 ∧ ∃ (res : View) (mem' : List α) (X : Int → Int → α), divide cj L junk l n n r mem = .ok (res, mem') ∧ Nda.Matrix.NewMatrix mem m n X res mem' ∧
      ∀ i j : Int, 0 ≤ i → i < m → 0 ≤ j → j < n → sumTo n (fun k => X i k * B k j) = A i j) := by
  rcases divide_lmat cj L junk l m n pm pn bm bn hbig r mem A B hl hr with h | ⟨h0, res, mem', X, Y, e, hN, -, hX, d1, d2⟩
  · exact Or.inl h
  · refine Or.inr ⟨h0, res, mem', X, e, hN, fun i j i0 i1 j0 j1 => ?_⟩
    simp only [hX]
    rw [sum_assoc]
    exact sum_unit n (A i) _ j0 j1 (fun k k0 k1 => mul_entry d1 k0 k1 j0 j1)

/-- Dividing and multiplying again, as a program: the second result has the entries of the first operand. -/
theorem C75_divide_multiply [Field α] [DecidableEq α] (cj : α → α) (L : Lapack α) (junk : α) (l : Blas.Operand α) (m n : Nat) (pm : 0 < m) (pn : 0 < n) (bm : (m : Int) < 2147483648) (bn : (n : Int) < 2147483648)
    (hbig : 3 < n → GetrfOK L ∧ GetriOK L) (v : View) (reg : Bool) (mem : List α) (A B : Int → Int → α) (hl : OperandOK cj l m n mem A) (hv : OperandOK cj (.mat ⟨v, false⟩ reg) n n mem B)
    (h0 : (toMat n B).det ≠ 0) :
    ∃ q mem1 res mem2, divide cj L junk l n n (.inMem v false) mem = .ok (q, mem1) ∧ matmul cj junk (.mat ⟨q, false⟩ true) (.mat ⟨v, false⟩ reg) mem1 = .ok (res, mem2) ∧
      Nda.Matrix.NewMatrix mem1 m n A res mem2 := by
  obtain ⟨hv1, hv2, B', hB, rfl⟩ := id hv
  have hB : Entries v n n mem (mayConj cj false B') := by intro i j a b c d; rw [hB i j a b c d]; rfl
  have hr : Yields (.inMem v false) [(n : Int), (n : Int)] mem (fun idx => (mayConj cj false B') (idx.getD 0 0) (idx.getD 1 0)) := by
    refine ⟨hv2, hv1.len, (fun h => by cases h), fun idx hi => ?_⟩
    obtain ⟨i, j, rfl, a, b, c, d⟩ := Matrix.inRange2.mp hi
    exact hB i j a b c d
  rcases divide_lmat cj L junk l m n pm pn bm bn hbig _ mem A _ hl hr with ⟨h, -⟩ | ⟨-, q, mem1, X, Y, e, hN, ⟨f, ld, hlm⟩, hX, d1, d2⟩
  · exact absurd h h0
  · obtain ⟨res, mem2, e2, h2⟩ := C41_matmul_partial cj junk (.mat ⟨q, false⟩ true) (.mat ⟨v, false⟩ reg) m n n (by omega) (by omega) (by omega) bm bn bn mem1 X _ (operand_of_lmat true hlm hN.entry)
      (OperandOK.ext hv ⟨hN.grow, hN.old⟩)
    refine ⟨q, mem1, res, mem2, e, e2, h2.good, h2.len, h2.one, fun i j i0 i1 j0 j1 => ?_, h2.above, h2.old, h2.grow⟩
    rw [h2.entry i j i0 i1 j0 j1]
    simp only [hX]
    rw [sum_assoc]
    exact congrArg some (sum_unit n (A i) _ j0 j1 (fun k k0 k1 => mul_entry d1 k0 k1 j0 j1))

/-- Multiplying and dividing again. -/
theorem C75_multiply_divide [Field α] [DecidableEq α] (cj : α → α) (L : Lapack α) (junk : α) (l : Blas.Operand α) (m n : Nat) (pm : 0 < m) (pn : 0 < n) (bm : (m : Int) < 2147483648) (bn : (n : Int) < 2147483648)
    (hbig : 3 < n → GetrfOK L ∧ GetriOK L) (v : View) (reg : Bool) (mem : List α) (A B : Int → Int → α) (hl : OperandOK cj l m n mem A) (hv : OperandOK cj (.mat ⟨v, false⟩ reg) n n mem B)
    (h0 : (toMat n B).det ≠ 0) :
    ∃ (p : View) (mem1 : List α) (res : View) (mem2 : List α) (X : Int → Int → α), matmul cj junk l (.mat ⟨v, false⟩ reg) mem = .ok (p, mem1) ∧ divide cj L junk (.mat ⟨p, false⟩ true) n n (.inMem v false) mem1 = .ok (res, mem2) ∧
      Nda.Matrix.NewMatrix mem1 m n X res mem2 ∧ ∀ i j : Int, 0 ≤ i → i < m → 0 ≤ j → j < n → X i j = A i j := by
  obtain ⟨p, mem1, f, e1, hN, hlm, -⟩ := matmul_lmat cj junk l (.mat ⟨v, false⟩ reg) m n n (by omega) (by omega) (by omega) bm bn bn mem A B hl hv
  obtain ⟨hv1, hv2, B', hB, rfl⟩ := id (OperandOK.ext hv ⟨hN.grow, hN.old⟩)
  have hr : Yields (.inMem v false) [(n : Int), (n : Int)] mem1 (fun idx => (mayConj cj false B') (idx.getD 0 0) (idx.getD 1 0)) := by
    refine ⟨hv2, hv1.len, (fun h => by cases h), fun idx hi => ?_⟩
    obtain ⟨i, j, rfl, a, b, c, d⟩ := Matrix.inRange2.mp hi
    exact hB i j a b c d
  rcases divide_lmat cj L junk (.mat ⟨p, false⟩ true) m n pm pn bm bn hbig _ mem1 _ _ (operand_of_lmat true hlm hN.entry) hr with ⟨h, -⟩ | ⟨-, q, mem2, X, Y, e, hN2, -, hX, d1, d2⟩
  · exact absurd h h0
  · refine ⟨p, mem1, q, mem2, X, e1, e, hN2, fun i j i0 i1 j0 j1 => ?_⟩
    simp only [hX]
    rw [sum_assoc]
    exact sum_unit n (A i) _ j0 j1 (fun k k0 k1 => mul_entry d2 k0 k1 j0 j1)

/-- C75, `s / A`: a lazy expression whose elements are `s` times those of the inverse. -/
theorem C75_scalar [Field α] [DecidableEq α] (L : Lapack α) (junk s : α) (n : Nat) (p : 0 < n) (hn : (n : Int) < 2147483648) (hbig : 3 < n → GetrfOK L ∧ GetriOK L) (r : Rhs α) (mem : List α)
    (B : Int → Int → α) (hy : Yields r [(n : Int), (n : Int)] mem (fun idx => B (idx.getD 0 0) (idx.getD 1 0))) :
    ((toMat n B).det = 0 ∧ scalarDivide L junk s n n r mem = .error .runtime) ∨
    ((toMat n B).det ≠ 0 ∧ ∃ (e : Arith.Expr α) (mem' : List α) (X : Int → Int → α), scalarDivide L junk s n n r mem = .ok (e, mem') ∧ Ext mem mem' ∧ e.shape = [(n : Int), (n : Int)] ∧
      (∀ i j : Int, 0 ≤ i → i < n → 0 ≤ j → j < n → e.get [i, j] mem' = some (X i j)) ∧
      ∀ i j : Int, 0 ≤ i → i < n → 0 ≤ j → j < n → sumTo n (fun k => X i k * B k j) = if i = j then s else 0) := by
  rcases inverseOf_eq L junk n p hn hbig r mem B hy with ⟨h0, e⟩ | ⟨h0, x, mem1, Y, e, hx, hlx, hE, hab, d1, d2⟩
  · refine Or.inl ⟨h0, ?_⟩
    simp only [scalarDivide, e, bind, Except.bind]
  · refine Or.inr ⟨h0, .scalL .mul s (.arr .M x), mem1, fun i j => s * Y i j, ?_, hx, hlx.len, fun i j i0 i1 j0 j1 => ?_, fun i j i0 i1 j0 j1 => ?_⟩
    · simp only [scalarDivide, e, bind, Except.bind]
      rfl
    · have hi : InRange x.lay.len [i, j] := by rw [hlx.len, Matrix.inRange2]; exact ⟨i, j, rfl, i0, i1, j0, j1⟩
      simp only [Arith.Expr.get, load, element_eq hlx.good.wf hlx.good.flags hi, Option.bind_eq_bind, Option.bind_some, rdInt_eq]
      rw [hE i j i0 i1 j0 j1]
      rfl
    · have := mul_entry d1 i0 i1 j0 j1
      simp only [sumTo_eq, mul_assoc] at this ⊢
      rw [← Finset.mul_sum, this]
      split <;> simp

/-! ### Examples -/

/-- `[[1, 2]] / [[1, 2], [3, 4]] = [[1, 0]]`; both operands in one memory. -/
def exL : View := ⟨0, ⟨[1, 2], [2, 1], [0, 1], [0, 0], .contiguous⟩⟩
def exR : View := ⟨2, ⟨[2, 2], [2, 1], [0, 1], [0, 0], .contiguous⟩⟩
def exMem : List ℚ := [1, 2, 1, 2, 3, 4]

/-- The quotient is put behind the two copies of the divisor. -/
example : divide id noLapack 9 (.mat ⟨exL, false⟩ true) 2 2 (.inMem exR false) exMem = .ok (⟨14, ⟨[1, 2], [2, 1], [0, 1], [0, 0], .contiguous⟩⟩, [1, 2, 1, 2, 3, 4, 1, 2, 3, 4, -2, 1, 3/2, -1/2, 1, 0]) := by
  decide +kernel

/-- A divisor without inverse. -/
example : divide id noLapack 9 (.mat ⟨exL, false⟩ true) 2 2 (.inMem exR false) [1, 2, 1, 2, 2, 4] = .error .runtime := by decide +kernel

theorem exL_good : Good exL 6 := good_of (by decide) rfl rfl rfl (by decide) 1 (fun _ => by decide) (by decide) (by decide)
theorem exR_good : Good exR 6 := good_of (by decide) rfl rfl rfl (by decide) 1 (fun _ => by decide) (by decide) (by decide)

theorem exL_ok : OperandOK id (.mat ⟨exL, false⟩ true) 1 2 exMem (fun _ j => if j = 0 then 1 else 2) := by
  refine ⟨⟨rfl, Or.inr ⟨rfl, 2, rfl, by decide, by decide, by decide⟩, by decide, by decide⟩, exL_good, _, ?_, rfl⟩
  intro i j a b c d
  obtain rfl : i = 0 := by omega
  rcases (show j = 0 ∨ j = 1 by omega) with rfl | rfl <;> rfl

theorem exR_ok : OperandOK id (.mat ⟨exR, false⟩ true) 2 2 exMem (fun i j => (2 * i + j + 1 : Int)) := by
  refine ⟨⟨rfl, Or.inr ⟨rfl, 2, rfl, by decide, by decide, by decide⟩, by decide, by decide⟩, exR_good, _, ?_, rfl⟩
  intro i j a b c d
  rcases (show i = 0 ∨ i = 1 by omega) with rfl | rfl <;> rcases (show j = 0 ∨ j = 1 by omega) with rfl | rfl <;> decide +kernel

theorem exR_det : (toMat 2 (fun i j => ((2 * i + j + 1 : Int) : ℚ))).det ≠ 0 := by
  rw [Matrix.det_fin_two]
  simp only [toMat]
  decide +kernel

/-- The hypotheses of `C75_divide_multiply` and `C75_multiply_divide` are met. -/
example : ∃ q mem1 res mem2, divide id noLapack 9 (.mat ⟨exL, false⟩ true) 2 2 (.inMem exR false) exMem = .ok (q, mem1) ∧
    matmul id 9 (.mat ⟨q, false⟩ true) (.mat ⟨exR, false⟩ true) mem1 = .ok (res, mem2) ∧ Nda.Matrix.NewMatrix mem1 1 2 (fun _ j => if j = 0 then 1 else 2) res mem2 :=
  C75_divide_multiply id noLapack 9 _ 1 2 (by decide) (by decide) (by decide) (by decide) (fun h => absurd h (by decide)) exR true exMem _ _ exL_ok exR_ok exR_det

end Nda.Divide
