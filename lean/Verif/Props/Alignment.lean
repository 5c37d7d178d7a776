import Verif.Model.Alignment
import Verif.Spec.Views
import Verif.Spec.Memory
import Mathlib.Tactic.Ring
/-!
# C84: alignment of elements
-/
namespace Nda.Align
open Nda Nda.Spec LayoutTransforms

/-- A type of the language: its size is a multiple of its alignment. -/
structure Ty.OK (t : Ty) : Prop where
  pos : 0 < t.align
  size : t.align ∣ t.size
  nonempty : 0 < t.size

/-- The address is one where an object of the type may be. -/
def Fits (t : Ty) (x : Int) : Prop := (t.align : Int) ∣ x

theorem roundUp_dvd (x a : Nat) : a ∣ roundUp x a := Dvd.intro_left _ rfl

theorem roundUp_le {x a : Nat} (ha : 0 < a) : x ≤ roundUp x a := by
  unfold roundUp
  have h1 := Nat.div_add_mod (x + a - 1) a
  have h2 := Nat.mod_lt (x + a - 1) ha
  rw [Nat.mul_comm] at h1
  omega

theorem roundUp_of_dvd {x a : Nat} (ha : 0 < a) (h : a ∣ x) : roundUp x a = x := by
  obtain ⟨k, rfl⟩ := h
  unfold roundUp
  rw [show a * k + a - 1 = (a - 1) + a * k by omega, Nat.add_mul_div_left _ _ ha, Nat.div_eq_of_lt (by omega), Nat.zero_add, Nat.mul_comm]

theorem idxMap_ty {rank : Nat} (hr : 0 < rank) : idxMapTy rank = ⟨16 * rank, 8⟩ := by
  have h : roundUp (8 * rank) 8 = 8 * rank := roundUp_of_dvd (by decide) ⟨rank, rfl⟩
  have h0 : roundUp 0 8 = 0 := rfl
  have h2 : roundUp (8 * rank + 8 * rank) 8 = 16 * rank := by rw [roundUp_of_dvd (by decide) ⟨2 * rank, by ring⟩]; ring
  simp only [idxMapTy, Ty.array, Ty.struct, place, maxAlign, word, if_neg (show ¬ rank = 0 by omega), h0, Nat.zero_add, h, show max 8 (max 8 1) = 8 from rfl, h2]
  simp only [Ty.mk.injEq]
  exact ⟨by rw [Nat.max_def]; split <;> omega, trivial⟩

theorem char_align (n : Nat) : (Ty.array char n).align = 1 := by
  unfold Ty.array; split <;> rfl

theorem stack_align (t : Ty) (n : Nat) : (stackTy t n).align = 1 := by
  simp [stackTy, Ty.struct, maxAlign, char_align]

theorem sso_align (t : Ty) (n : Nat) : (ssoTy t n).align = 8 := by
  simp [ssoTy, Ty.struct, maxAlign, char_align, word]

/-- The class is aligned for its index map, whatever the elements are. -/
theorem array_align (t : Ty) {rank : Nat} (hr : 0 < rank) (p : Policy) : (arrayTy t rank p).align = 8 := by
  cases p <;> simp [arrayTy, Ty.struct, maxAlign, idxMap_ty hr, handleTy, stack_align, sso_align]
  rfl

theorem sto_offset (t : Ty) {rank : Nat} (hr : 0 < rank) (p : Policy) : stoOffset t rank p = 16 * rank := by
  have h0 : roundUp 0 8 = 0 := rfl
  have h8 : roundUp (16 * rank) 8 = 16 * rank := roundUp_of_dvd (by decide) ⟨2 * rank, by ring⟩
  have h1 : roundUp (16 * rank) 1 = 16 * rank := roundUp_of_dvd (by decide) ⟨_, (Nat.one_mul _).symm⟩
  have hh : heapTy.align = 8 := rfl
  cases p <;> simp [stoOffset, place, idxMap_ty hr, handleTy, stack_align, sso_align, h0, h8, h1, hh]

theorem elem_fits {t : Ty} (ht : t.OK) {data : Nat} (h : t.align ∣ data) (k : Int) : Fits t (elemAddr t data k) := by
  have h1 : (t.align : Int) ∣ data := Int.natCast_dvd_natCast.mpr h
  have h2 : (t.align : Int) ∣ t.size := Int.natCast_dvd_natCast.mpr ht.size
  exact Int.dvd_add h1 (Dvd.dvd.mul_left h2 k)

/-- C84, elements in blocks of an allocator: aligned, in every view of the array, if the block is aligned for the type.  Blocks of `malloc`, `calloc` and `new char[]` are
multiples of 16. -/
theorem C84_heap (t : Ty) (ht : t.OK) (hx : t.align ∣ 16) (rank obj size blk : Nat) (hb : 16 ∣ blk) (v : View) (idx : List Int) :
    Fits t (elemAddr t (dataAddr t rank .heap size obj blk) (addr v idx)) ∧
      (∀ n, n < size → Fits t (elemAddr t (dataAddr t rank (.sso n) size obj blk) (addr v idx))) := by
  refine ⟨elem_fits ht (Nat.dvd_trans hx hb) _, fun n hn => ?_⟩
  rw [dataAddr, if_pos hn]
  exact elem_fits ht (Nat.dvd_trans hx hb) _

/-- C84, chunks of a bucket: all are aligned if and only if the size of the chunks is a multiple of the alignment. -/
theorem C84_bucket (t : Ty) (ht : t.OK) (chunk : Nat) :
    (∀ start pos : Nat, 16 ∣ start → pos < 64 → ∀ k, Fits t (elemAddr t (bucketAddr start chunk pos) k)) ↔ t.align ∣ 16 ∧ t.align ∣ chunk := by
  constructor
  · intro h
    have h0 := h 16 0 (Nat.dvd_refl _) (by decide) 0
    have h1 := h 0 1 (by simp) (by decide) 0
    simp only [elemAddr, bucketAddr, Fits, Nat.zero_mul, Nat.add_zero, Int.zero_mul, Int.add_zero, Nat.one_mul, Nat.zero_add] at h0 h1
    exact ⟨Int.natCast_dvd_natCast.mp h0, Int.natCast_dvd_natCast.mp h1⟩
  · rintro ⟨h1, h2⟩ start pos hs - k
    exact elem_fits ht (Nat.dvd_add (Nat.dvd_trans h1 hs) (Dvd.dvd.mul_left h2 pos)) k

/-- C84, elements inside the object (stack arrays, and small arrays with `sso`): the compiler may put the array at any multiple of its alignment, and the elements are aligned
at all of these if and only if the alignment of the element type divides 8.

Missing for the full claim: element types with an alignment of 16 or more (`C84_stack_witness`). -/
theorem C84_inline_partial (t : Ty) (ht : t.OK) (rank n size blk : Nat) (hr : 0 < rank) (p : Policy) (hp : p = .stack n ∨ (p = .sso n ∧ size ≤ n)) :
    (∀ obj : Nat, (arrayTy t rank p).align ∣ obj → ∀ k, Fits t (elemAddr t (dataAddr t rank p size obj blk) k)) ↔ t.align ∣ 8 := by
  have hd : ∀ obj, dataAddr t rank p size obj blk = obj + 16 * rank := by
    intro obj
    rcases hp with rfl | ⟨rfl, h⟩
    · rw [dataAddr, sto_offset t hr]
    · rw [dataAddr, if_neg (by omega), sto_offset t hr]
  rw [array_align t hr]
  constructor
  · intro h
    have h0 := h 0 (by simp) 0
    have h1 := h 8 (Nat.dvd_refl _) 0
    simp only [elemAddr, hd, Fits, Int.zero_mul, Int.add_zero] at h0 h1
    have := Int.dvd_sub h1 h0
    rw [show (((8 + 16 * rank : Nat) : Int) - ((0 + 16 * rank : Nat) : Int)) = ((8 : Nat) : Int) by push_cast; ring] at this
    exact Int.natCast_dvd_natCast.mp this
  · intro h obj ho k
    refine elem_fits ht ?_ k
    rw [hd]
    exact Nat.dvd_add (Nat.dvd_trans h ho) (Nat.dvd_trans h ⟨2 * rank, by ring⟩)

/-- `stack_array<long double, 2>` (size and alignment 16) at an address that is a multiple of its alignment, 8: its elements are misaligned. -/
theorem C84_stack_witness : (arrayTy ⟨16, 16⟩ 1 (.stack 2)).align ∣ 8 ∧ ∀ k, ¬ Fits ⟨16, 16⟩ (elemAddr ⟨16, 16⟩ (dataAddr ⟨16, 16⟩ 1 (.stack 2) 2 8 0) k) := by
  refine ⟨by decide, fun k h => ?_⟩
  have e : elemAddr ⟨16, 16⟩ (dataAddr ⟨16, 16⟩ 1 (.stack 2) 2 8 0) k = 24 + k * 16 := rfl
  rw [e] at h
  obtain ⟨j, hj⟩ := h
  simp only at hj
  omega

/-- C84, the elements inside an object are behind its index map, do not reach its other members, and end before it does. -/
theorem C84_inside (t : Ty) (rank n size obj blk : Nat) (hr : 0 < rank) (k : Int) (h0 : 0 ≤ k) (h1 : k < n) :
    (obj + 16 * rank ≤ elemAddr t (dataAddr t rank (.stack n) size obj blk) k ∧
      elemAddr t (dataAddr t rank (.stack n) size obj blk) k + t.size ≤ obj + (arrayTy t rank (.stack n)).size) ∧
    (size ≤ n → obj + 16 * rank ≤ elemAddr t (dataAddr t rank (.sso n) size obj blk) k ∧
      elemAddr t (dataAddr t rank (.sso n) size obj blk) k + t.size ≤ obj + 16 * rank + (place 0 [.array char (t.size * n), word, word]).1.getD 1 0 ∧
      16 * rank + (ssoTy t n).size ≤ (arrayTy t rank (.sso n)).size) := by
  have hk0 : 0 ≤ k * (t.size : Int) := Int.mul_nonneg h0 (by omega)
  have hk1 : k * (t.size : Int) + t.size ≤ (t.size * n : Nat) := by
    have : (k + 1) * (t.size : Int) ≤ n * t.size := Int.mul_le_mul_of_nonneg_right (by omega) (by omega)
    push_cast
    rw [Int.mul_comm (t.size : Int)]
    have e : (k + 1) * (t.size : Int) = k * t.size + t.size := by ring
    omega
  have hc : t.size * n ≤ (Ty.array char (t.size * n)).size := by
    unfold Ty.array; split
    · omega
    · simp [char]
  have hle : ∀ x a, 0 < a → x ≤ roundUp x a := fun x a h => roundUp_le h
  have hstruct : ∀ ms, (place 0 ms).2 ≤ (Ty.struct ms).size := fun ms => by
    have hpos : 0 < maxAlign ms := by
      induction ms with
      | nil => exact Nat.one_pos
      | cons t ts ih => simp only [maxAlign]; omega
    have := hle (place 0 ms).2 (maxAlign ms) hpos
    simp only [Ty.struct]; omega
  have hsto : ∀ p, 16 * rank + (handleTy t p).size ≤ (arrayTy t rank p).size := fun p => by
    have h2 := hstruct [idxMapTy rank, handleTy t p]
    have h3 := sto_offset t hr p
    simp only [stoOffset, place, List.getD_cons_succ, List.getD_cons_zero] at h3
    simp only [place] at h2
    unfold arrayTy
    omega
  refine ⟨?_, fun hs => ?_⟩
  · have e : dataAddr t rank (.stack n) size obj blk = obj + 16 * rank := by rw [dataAddr, sto_offset t hr]
    have h2 := hsto (.stack n)
    have h3 := hstruct [.array char (t.size * n)]
    simp only [place, char_align] at h3
    have h4 : (place 0 [Ty.array char (t.size * n)]).2 = (Ty.array char (t.size * n)).size := by
      simp [place, char_align, roundUp]
    have h5 := hstruct [Ty.array char (t.size * n)]
    rw [h4] at h5
    simp only [handleTy, stackTy] at h2
    rw [e]
    unfold elemAddr
    push_cast at *
    omega
  · have e : dataAddr t rank (.sso n) size obj blk = obj + 16 * rank := by rw [dataAddr, if_neg (by omega), sto_offset t hr]
    have h2 := hsto (.sso n)
    have h4 : t.size * n ≤ (place 0 [.array char (t.size * n), word, word]).1.getD 1 0 := by
      simp only [place, List.getD_cons_succ, List.getD_cons_zero]
      have : (Ty.array char (t.size * n)).size ≤ roundUp (roundUp 0 (Ty.array char (t.size * n)).align + (Ty.array char (t.size * n)).size) word.align :=
        Nat.le_trans (Nat.le_add_left _ _) (hle _ _ (by decide))
      omega
    rw [e]
    simp only [handleTy] at h2
    refine ⟨?_, ?_, h2⟩ <;> unfold elemAddr <;> push_cast at * <;> omega

/-! ### Cases -/

/-- `double`. -/
def double : Ty := ⟨8, 8⟩

/-- `std::complex<double>`. -/
def dcomplex : Ty := ⟨16, 8⟩

example : double.OK ∧ dcomplex.OK := ⟨⟨by decide, by decide, by decide⟩, ⟨by decide, by decide, by decide⟩⟩

example : arrayTy dcomplex 2 (.stack 6) = ⟨128, 8⟩ ∧ arrayTy double 1 (.sso 3) = ⟨56, 8⟩ ∧ dataAddr double 1 (.sso 3) 3 1000 5000 = 1016 ∧ dataAddr double 1 (.sso 3) 4 1000 5008 = 5008 := by
  decide

example : ∀ obj : Nat, (arrayTy dcomplex 2 (.stack 6)).align ∣ obj → ∀ k, Fits dcomplex (elemAddr dcomplex (dataAddr dcomplex 2 (.stack 6) 6 obj 0) k) :=
  (C84_inline_partial dcomplex ⟨by decide, by decide, by decide⟩ 2 6 6 0 (by decide) _ (Or.inl rfl)).mpr (by decide)

end Nda.Align
