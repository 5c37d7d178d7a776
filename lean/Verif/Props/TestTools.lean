import Verif.Model.TestTools
import Verif.Props.Algorithms
/-!
# C64: the comparisons used by the tests
-/
namespace Nda.TestTools
open Nda Nda.Spec Nda.Algorithms Loops

variable {X Y R : Type}

theorem size_zero {len : List Int} (h : NonNeg len) : size len = 0 ↔ ∃ l ∈ len, l = 0 := by
  have key : ∀ (l : List Int) (c : Int), l.foldl (· * ·) c = c * l.prod := by
    intro l
    induction l with
    | nil => simp
    | cons a l ih => intro c; rw [List.foldl_cons, ih, List.prod_cons, mul_assoc]
  rw [size, key, one_mul]
  clear key h
  induction len with
  | nil => simp
  | cons a l ih => rw [List.prod_cons, mul_eq_zero]; simp only [ih]; simp [eq_comm]

theorem noIndex {len : List Int} (h : ∃ l ∈ len, l = 0) (idx : List Int) : ¬ InRange len idx := by
  induction len generalizing idx with
  | nil => simp at h
  | cons l len ih =>
      match idx with
      | [] => simp [InRange]
      | i :: idx =>
          rintro ⟨h1, h3⟩
          obtain ⟨l', hl', rfl⟩ := h
          rcases List.mem_cons.mp hl' with rfl | hl'
          · omega
          · exact ih ⟨0, hl', rfl⟩ idx h3

/-- The maximum is below the bound exactly if all are. -/
theorem max_lt {lt : R → R → Bool} (h : WeakOrder lt) {len : List Int} {get : List Int → Option R} (hd : ∀ idx, InRange len idx → ∃ x, get idx = some x)
    (h0 : ∀ l ∈ len, 0 < l) (p : R) :
    ∃ m, maxElement lt len get = some m ∧ (lt m p = true ↔ ∀ idx x, InRange len idx → get idx = some x → lt x p = true) := by
  obtain ⟨m, h1, ⟨i, hi, hm⟩, h2⟩ := C25_max lt h len get hd h0
  refine ⟨m, h1, fun hlt idx x hidx hx => ?_, fun hall => hall i m hi hm⟩
  by_contra hc
  rw [Bool.not_eq_true] at hc
  have := h.incomp m x p (h2 idx x hidx hx) hc
  rw [hlt] at this; cases this

theorem pos_of {len : List Int} (h : NonNeg len) (h0 : size len ≠ 0) : ∀ l ∈ len, 0 < l := by
  intro l hl
  have := h l hl
  rcases lt_or_eq_of_le this with h' | h'
  · exact h'
  · exact absurd ((size_zero h).mpr ⟨l, hl, h'.symm⟩) h0

/-- C64, arrays: the comparison succeeds exactly if the shapes agree and each pair of elements differs by less than the precision, after the
elements on the right are converted to the type of those on the left; any rank and shape, also without elements.
Partial: magnitudes are assumed to be ordered (no NaN, `C64_nan_witness`), and the conversion may lose the
difference (`C64_conversion_witness`). -/
theorem C64_close_partial (lt : R → R → Bool) (h : WeakOrder lt) (conv : Y → X) (sub : X → X → X) (abs : X → R) (precision : R) (lenX lenY : List Int)
    (x : List Int → Option X) (y : List Int → Option Y) (hn : NonNeg lenX) (hx : ∀ idx, InRange lenX idx → ∃ a, x idx = some a)
    (hy : ∀ idx, InRange lenY idx → ∃ b, y idx = some b) :
    ∃ r, arrayAreClose lt conv sub abs precision lenX lenY x y = some r ∧
      (r = true ↔ lenX = lenY ∧ ∀ idx a b, InRange lenX idx → x idx = some a → y idx = some b → lt (abs (sub a (conv b))) precision = true) := by
  unfold arrayAreClose
  by_cases hl : lenX = lenY
  · subst hl
    rw [if_neg (by simp)]
    by_cases h0 : size lenX = 0
    · rw [if_pos h0]
      exact ⟨true, rfl, by rw [eq_self_iff_true, true_iff]; exact ⟨rfl, fun idx a b hi => absurd hi (noIndex ((size_zero hn).mp h0) idx)⟩⟩
    · rw [if_neg h0]
      obtain ⟨m, h1, h2⟩ := max_lt h (len := lenX) (get := fun idx => do let a ← x idx; let b ← y idx; return abs (sub a (conv b)))
        (fun idx hi => by
          obtain ⟨a, ha⟩ := hx idx hi
          obtain ⟨b, hb⟩ := hy idx hi
          exact ⟨abs (sub a (conv b)), by simp [ha, hb]⟩) (pos_of hn h0) precision
      refine ⟨lt m precision, by rw [h1]; rfl, ?_⟩
      rw [h2]
      constructor
      · intro hall
        exact ⟨rfl, fun idx a b hi ha hb => hall idx _ hi (by simp [ha, hb])⟩
      · rintro ⟨-, hall⟩ idx z hi hz
        obtain ⟨a, ha⟩ := hx idx hi
        obtain ⟨b, hb⟩ := hy idx hi
        simp [ha, hb] at hz
        subst hz
        exact hall idx a b hi ha hb
  · rw [if_pos hl]
    exact ⟨false, rfl, by simp [hl]⟩

/-- C64, almost zero. -/
theorem C64_zero_partial (lt : R → R → Bool) (h : WeakOrder lt) (abs : X → R) (precision : R) (len : List Int) (x : List Int → Option X) (hn : NonNeg len)
    (hx : ∀ idx, InRange len idx → ∃ a, x idx = some a) :
    ∃ r, arrayAlmostZero lt abs precision len x = some r ∧ (r = true ↔ ∀ idx a, InRange len idx → x idx = some a → lt (abs a) precision = true) := by
  unfold arrayAlmostZero
  by_cases h0 : size len = 0
  · rw [if_pos h0]
    exact ⟨true, rfl, by rw [eq_self_iff_true, true_iff]; exact fun idx a hi => absurd hi (noIndex ((size_zero hn).mp h0) idx)⟩
  · rw [if_neg h0]
    obtain ⟨m, h1, h2⟩ := max_lt h (len := len) (get := fun idx => do let a ← x idx; return abs a)
      (fun idx hi => by obtain ⟨a, ha⟩ := hx idx hi; exact ⟨abs a, by simp [ha]⟩) (pos_of hn h0) precision
    refine ⟨lt m precision, by rw [h1]; rfl, ?_⟩
    rw [h2]
    constructor
    · intro hall idx a hi ha
      exact hall idx _ hi (by simp [ha])
    · intro hall idx z hi hz
      obtain ⟨a, ha⟩ := hx idx hi
      simp [ha] at hz
      subst hz
      exact hall idx a hi ha

/-- C64, equality of arrays. -/
theorem C64_equal (eq : X → Y → Bool) (lenX lenY : List Int) (x : List Int → Option X) (y : List Int → Option Y)
    (hx : ∀ idx, InRange lenX idx → ∃ a, x idx = some a) (hy : ∀ idx, InRange lenY idx → ∃ b, y idx = some b) :
    ∃ r, arrayAreEqual eq lenX lenY x y = some r ∧
      (r = true ↔ lenX = lenY ∧ ∀ idx, InRange lenX idx → ∀ a b, x idx = some a → y idx = some b → eq a b = true) := by
  unfold arrayAreEqual
  by_cases hl : lenX = lenY
  · rw [if_neg (by simp [hl])]
    exact Assign.C21_equality eq lenX lenY x y hx hy
  · rw [if_pos hl]
    exact ⟨false, rfl, by simp [hl]⟩

/-- C64, single numbers, for ordered magnitudes: close if the distance is below the precision, near if it is not above. -/
theorem C64_numbers_partial [LinearOrder R] (dist : X → Y → R) (precision : R) (x : X) (y : Y) :
    (complexAreClose (fun a b => decide (a < b)) dist precision x y = true ↔ dist x y < precision) ∧
    (genericAreNear (fun a b => decide (a < b)) dist precision x y = true ↔ dist x y ≤ precision) := by
  constructor
  · simp [complexAreClose]
  · simp [genericAreNear]

/-- `<` of numbers of which one is not a number (`none`). -/
def nanLt : Option Int → Option Int → Bool := fun x y => match x, y with | some a, some b => decide (a < b) | _, _ => false
/-- Difference and magnitude. -/
def nanSub : Option Int → Option Int → Option Int := fun x y => do return (← x) - (← y)
def nanAbs : Option Int → Option Int := fun x => x.map (fun a => (a.natAbs : Int))

/-- C64 fails with NaN: an array with a NaN after its first element is found close to an array of numbers (and almost zero), and a NaN near to any number; only
for single complex numbers, and a NaN in front, is the difference noticed. -/
theorem C64_nan_witness :
    arrayAreClose nanLt id nanSub nanAbs (some 1) [3] [3] (fun idx => [some 1, none, some 2][(idx.headD 0).toNat]?) (fun idx => [some 1, some 7, some 2][(idx.headD 0).toNat]?) = some true ∧
    arrayAlmostZero nanLt nanAbs (some 1) [2] (fun idx => [some 0, none][(idx.headD 0).toNat]?) = some true ∧
    genericAreNear nanLt (fun x y => nanAbs (nanSub x y)) (some 1) none (some 5) = true ∧
    arrayAreClose nanLt id nanSub nanAbs (some 1) [2] [2] (fun idx => [none, some 1][(idx.headD 0).toNat]?) (fun idx => [some 1, some 1][(idx.headD 0).toNat]?) = some false ∧
    complexAreClose nanLt (fun x y => nanAbs (nanSub x y)) (some 1) none (some 5) = false := by decide

/-- C64 fails across types: an array of integers is found close to an array of halves (here `y` counts halves, converted by truncation), not the other way round. -/
theorem C64_conversion_witness :
    arrayAreClose (fun a b : Int => decide (a < b)) (fun halves : Int => halves.tdiv 2) (· - ·) (fun a => (a.natAbs : Int)) 1 [2] [2]
      (fun idx => [1, 2][(idx.headD 0).toNat]?) (fun idx => [3, 5][(idx.headD 0).toNat]?) = some true ∧
    arrayAreClose (fun a b : Int => decide (a < b)) (fun n : Int => 2 * n) (· - ·) (fun a => (a.natAbs : Int)) 1 [2] [2]
      (fun idx => [3, 5][(idx.headD 0).toNat]?) (fun idx => [1, 2][(idx.headD 0).toNat]?) = some false := by decide

/-- Integers are ordered. -/
example : WeakOrder (fun a b : Int => decide (a < b)) := ⟨by simp, by simp; omega, by simp; omega⟩

/-- Two matrices that differ by one in one element. -/
example : arrayAreClose (fun a b : Int => decide (a < b)) id (· - ·) (fun a => (a.natAbs : Int)) 1 [2, 2] [2, 2] (fun idx => some idx.sum) (fun idx => some (max idx.sum 1)) = some false ∧
    arrayAreClose (fun a b : Int => decide (a < b)) id (· - ·) (fun a => (a.natAbs : Int)) 2 [2, 2] [2, 2] (fun idx => some idx.sum) (fun idx => some (max idx.sum 1)) = some true := by decide

end Nda.TestTools
