import Verif.Model.Scalars
import Mathlib.Algebra.Order.Ring.Int
import Mathlib.Algebra.Order.Group.Unbundled.Int
import Mathlib.Algebra.Ring.Hom.Defs
import Mathlib.Algebra.Order.Ring.Pow
import Mathlib.Tactic.Ring
import Mathlib.Tactic.Linarith
/-!
# C79: functions of single elements
-/
namespace Nda.Scalars

theorem foldlM_const {α : Type} (f : α → Option α) : ∀ (n : Nat) (a : α), (List.range (n + 1)).foldlM (fun r _ => f r) a = ((List.range n).foldlM (fun r _ => f r) a).bind f := by
  intro n a
  rw [List.range_succ, List.foldlM_append]
  simp [Option.bind_eq_bind]

theorem powInt_succ (t : IntType) (x : Int) (n : Nat) : powInt t x ((n + 1 : Nat) : Int) = (powInt t x (n : Int)).bind (fun r => t.mul r x) := by
  simp only [powInt, Int.toNat_natCast]
  exact foldlM_const (fun r => t.mul r x) n 1

theorem powInt_zero (t : IntType) (x : Int) : powInt t x 0 = some 1 := rfl

/-- C79, integral powers of signed types that are not narrower than `int`: the power if it is a value of the type, undefined behaviour else. -/
theorem C79_pow_signed (t : IntType) (hs : t.signed = true) (hb : 32 ≤ t.bits) (x : Int) (hx : t.lo ≤ x ∧ x ≤ t.hi) (n : Nat) :
    powInt t x n = if t.lo ≤ x ^ n ∧ x ^ n ≤ t.hi then some (x ^ n) else none := by
  have hlo : t.lo = -(t.hi + 1) := by simp [IntType.lo, IntType.hi, hs]
  have hhi : 1 ≤ t.hi := by
    simp only [IntType.hi, hs, if_true]
    have : (2 : Int) ^ 1 ≤ 2 ^ (t.bits - 1) := pow_le_pow_right₀ (by norm_num) (by omega)
    linarith
  have hmul : ∀ r, t.mul r x = if t.lo ≤ r * x ∧ r * x ≤ t.hi then some (r * x) else none := fun r => by
    rw [IntType.mul, if_neg (by omega), if_pos hs]
  induction n with
  | zero => rw [Nat.cast_zero, powInt_zero, pow_zero, if_pos ⟨by omega, hhi⟩]
  | succ n ih =>
    rw [powInt_succ, ih]
    by_cases h : t.lo ≤ x ^ n ∧ x ^ n ≤ t.hi
    · rw [if_pos h, Option.bind_some, hmul, ← pow_succ]
    · rw [if_neg h, Option.bind_none]
      -- a power out of range stays out of range
      symm
      rw [if_neg]
      intro h'
      by_cases hx0 : x = 0
      · subst hx0
        rcases Nat.eq_zero_or_pos n with hn | hn
        · subst hn; exact h ⟨by rw [pow_zero]; omega, by rw [pow_zero]; omega⟩
        · exact h ⟨by rw [zero_pow (by omega)]; omega, by rw [zero_pow (by omega)]; omega⟩
      by_cases hx1 : x = -1
      · subst hx1
        rcases neg_one_pow_eq_or Int n with hn | hn <;> exact h ⟨by rw [hn]; omega, by rw [hn]; omega⟩
      rw [pow_succ] at h'
      generalize x ^ n = y at h h'
      rw [hlo] at h h'
      have hy : t.hi < y ∨ y < -(t.hi + 1) := by by_contra hq; exact h ⟨by omega, by omega⟩
      have hxx : 1 ≤ x ∨ x ≤ -2 := by omega
      rcases hy with hy | hy <;> rcases hxx with hxx | hxx <;> nlinarith

/-- C79, integral powers of unsigned types that are not narrower than `int`: the power modulo 2^bits. -/
theorem C79_pow_unsigned (t : IntType) (hs : t.signed = false) (hb : 32 ≤ t.bits) (x : Int) (n : Nat) : powInt t x n = some (x ^ n % 2 ^ t.bits) := by
  have hmul : ∀ r, t.mul r x = some (r * x % 2 ^ t.bits) := fun r => by rw [IntType.mul, if_neg (by omega), if_neg (by simp [hs])]; simp [IntType.wrap, hs]
  induction n with
  | zero =>
    rw [Nat.cast_zero, powInt_zero, pow_zero]
    have : (2 : Int) ^ 1 ≤ 2 ^ t.bits := pow_le_pow_right₀ (by norm_num) (by omega)
    rw [Int.emod_eq_of_lt (by norm_num) (by linarith)]
  | succ n ih => rw [powInt_succ, ih, Option.bind_some, hmul, pow_succ, Int.mul_emod (x ^ n % 2 ^ t.bits), Int.emod_emod_of_dvd _ (dvd_refl _), ← Int.mul_emod]

/-- C79, integral powers of signed types narrower than `int` (at most 16 bits): the power modulo 2^bits, as a signed number. -/
theorem C79_pow_narrow (t : IntType) (hs : t.signed = true) (h1 : 2 ≤ t.bits) (hb : t.bits ≤ 16) (x : Int) (hx : t.lo ≤ x ∧ x ≤ t.hi) (n : Nat) :
    powInt t x n = some ((x ^ n).bmod (2 ^ t.bits)) := by
  have hpow : (2 : Int) ^ (t.bits - 1) ≤ 2 ^ 15 := pow_le_pow_right₀ (by norm_num) (by omega)
  have h2 : (2 : Int) ^ t.bits = 2 * 2 ^ (t.bits - 1) := by rw [← pow_succ']; congr 1; omega
  have hn2 : ((2 ^ t.bits : Nat) : Int) = 2 * 2 ^ (t.bits - 1) := by push_cast; exact h2
  have hp1 : (2 : Int) ^ 1 ≤ 2 ^ (t.bits - 1) := pow_le_pow_right₀ (by norm_num) (by omega)
  simp only [IntType.lo, IntType.hi, hs, if_true] at hx
  have hbm : ∀ y : Int, -(2 ^ (t.bits - 1)) ≤ y.bmod (2 ^ t.bits) ∧ y.bmod (2 ^ t.bits) < 2 ^ (t.bits - 1) := by
    intro y
    have a1 := Int.le_bmod (x := y) (m := 2 ^ t.bits) (by positivity)
    have a2 := Int.bmod_lt (x := y) (m := 2 ^ t.bits) (by positivity)
    omega
  induction n with
  | zero =>
    rw [Nat.cast_zero, powInt_zero, pow_zero]
    rw [Int.bmod_eq_of_le (by omega) (by omega)]
  | succ n ih =>
    rw [powInt_succ, ih, Option.bind_some, IntType.mul, if_pos (by omega)]
    obtain ⟨b1, b2⟩ := hbm (x ^ n)
    generalize hr : (x ^ n).bmod (2 ^ t.bits) = r at b1 b2
    have hrx : -2147483648 ≤ r * x ∧ r * x ≤ 2147483647 := by
      have hr1 : -32768 ≤ r ∧ r ≤ 32768 := ⟨by linarith, by linarith⟩
      have hx1 : -32768 ≤ x ∧ x ≤ 32768 := ⟨by linarith [hx.1], by linarith [hx.2]⟩
      constructor <;> nlinarith [hr1.1, hr1.2, hx1.1, hx1.2]
    rw [if_pos hrx, IntType.wrap, if_pos hs, ← hr, pow_succ]
    simp [Int.bmod_mul_bmod]

/-- C79, negative exponents give 1 in every type (for integers the inverse is not a value; for 1 and -1 it is). -/
theorem C79_pow_negative (t : IntType) (x n : Int) (hn : n ≤ 0) : powInt t x n = some 1 := by
  rw [powInt, show n.toNat = 0 by omega]; rfl

/-- 3 ^ 4 in `int`; 2 ^ 31 is undefined behaviour in `int` and defined in `unsigned`; (-2) ^ 31 is a value of `int`. -/
example : powInt ⟨32, true⟩ 3 4 = some 81 ∧ powInt ⟨32, true⟩ 2 31 = none ∧ powInt ⟨32, false⟩ 2 31 = some 2147483648 ∧ powInt ⟨32, false⟩ 2 32 = some 0 ∧
    powInt ⟨32, true⟩ (-2) 31 = some (-2147483648) ∧ powInt ⟨16, true⟩ 2 15 = some (-32768) := by decide +kernel

/-- C79, witness.  The promotion to `int` makes arithmetic of 16-bit unsigned numbers overflow, although unsigned arithmetic is modulo 2^16: the square of 65535 is undefined behaviour; and
(-1) ^ (-1) is given as 1. -/
theorem C79_pow_witness : powInt ⟨16, false⟩ 65535 2 = none ∧ powInt ⟨32, true⟩ (-1) (-1) = some 1 := by decide +kernel

section
variable {R : Type} [CommRing R]

/-- C79, complex numbers.  `abs2` is the sum of the squares of the parts; `conj` is an involution that respects sums and products, and fixes exactly what has no imaginary part (in rings where 2 is
not a zero divisor); the real part is half the sum with the conjugate. -/
theorem C79_complex (z w : Cplx R) :
    Cplx.abs2 z = z.re ^ 2 + z.im ^ 2 ∧ Cplx.conj (Cplx.conj z) = z ∧ Cplx.conj (Cplx.mul z w) = Cplx.mul (Cplx.conj z) (Cplx.conj w) ∧
    Cplx.conj (Cplx.add z w) = Cplx.add (Cplx.conj z) (Cplx.conj w) ∧ Cplx.abs2 (Cplx.mul z w) = Cplx.abs2 z * Cplx.abs2 w ∧
    Cplx.add z (Cplx.conj z) = ⟨2 * Cplx.real z, 0⟩ ∧ ((∀ x : R, 2 * x = 0 → x = 0) → (Cplx.conj z = z ↔ z.im = 0)) ∧ Cplx.abs2 ⟨z.re, 0⟩ = abs2Real z.re := by
  obtain ⟨a, b⟩ := z; obtain ⟨c, d⟩ := w
  refine ⟨?_, ?_, ?_, ?_, ?_, ?_, fun h2 => ?_, ?_⟩ <;> simp only [Cplx.abs2, Cplx.conj, Cplx.mul, Cplx.add, Cplx.real, abs2Real, Cplx.mk.injEq]
  · ring
  · exact ⟨trivial, neg_neg b⟩
  · exact ⟨by ring, by ring⟩
  · exact ⟨trivial, by ring⟩
  · ring
  · exact ⟨by ring, by ring⟩
  · constructor
    · rintro ⟨-, h⟩; exact h2 b (by rw [two_mul]; nth_rewrite 1 [← h]; exact neg_add_cancel b)
    · intro h; simp [h]
  · ring

/-- C79.  `abs2` is not negative, and zero only for zero. -/
theorem C79_abs2_positive {R : Type} [CommRing R] [LinearOrder R] [IsStrictOrderedRing R] (z : Cplx R) : 0 ≤ Cplx.abs2 z ∧ (Cplx.abs2 z = 0 ↔ z = ⟨0, 0⟩) := by
  rw [(C79_complex z z).1]
  refine ⟨by positivity, ⟨fun h => ?_, fun h => by simp [h]⟩⟩
  have h1 : z.re ^ 2 = 0 := by nlinarith [sq_nonneg z.re, sq_nonneg z.im]
  have h2 : z.im ^ 2 = 0 := by nlinarith [sq_nonneg z.re, sq_nonneg z.im]
  obtain ⟨a, b⟩ := z
  simp only [Cplx.mk.injEq]
  exact ⟨by simpa using h1, by simpa using h2⟩

/-- C79, mixed operands.  Operations between a complex number and a real one, or complex numbers of different types, give what the operation of the common type gives for the converted operands; for
conversions `ct`, `cu` that respect sums, differences and products: the conversion of the exact result. -/
theorem C79_mixed {S : Type} [CommRing S] (ct cu : R →+* S) (z w : Cplx R) (y : R) :
    mixed Cplx.add ct cu z y = ⟨ct z.re + cu y, ct z.im⟩ ∧ mixed Cplx.sub ct cu z y = ⟨ct z.re - cu y, ct z.im⟩ ∧ mixed Cplx.mul ct cu z y = ⟨ct z.re * cu y, ct z.im * cu y⟩ ∧
    mixedL Cplx.add ct cu y z = ⟨ct y + cu z.re, cu z.im⟩ ∧ mixedL Cplx.sub ct cu y z = ⟨ct y - cu z.re, -cu z.im⟩ ∧ mixedL Cplx.mul ct cu y z = ⟨ct y * cu z.re, ct y * cu z.im⟩ ∧
    (ct = cu → mixedC Cplx.mul ct cu z w = ⟨ct (Cplx.mul z w).re, ct (Cplx.mul z w).im⟩) := by
  refine ⟨?_, ?_, ?_, ?_, ?_, ?_, ?_⟩
  · simp [mixed, Cplx.add]
  · simp [mixed, Cplx.sub]
  · simp [mixed, Cplx.mul]
  · simp [mixedL, Cplx.add]
  · simp [mixedL, Cplx.sub]
  · simp [mixedL, Cplx.mul]
  · rintro rfl; simp [mixedC, Cplx.mul]
end

example : Cplx.abs2 (⟨3, -4⟩ : Cplx Int) = 25 ∧ mixed Cplx.mul (fun x : Int => x) (fun x : Int => x) ⟨1, 2⟩ 3 = ⟨3, 6⟩ := by decide

end Nda.Scalars
