import Verif.Props.Linalg
/-!
# The assumptions on LAPACK can be met

Gaussian elimination with row interchanges gives a factorisation of every matrix (`Part` does not bound the columns; rectangular matrices in `Props/LapackRect.lean`), so the contracts `GetrfOK`, `GetriOK` and `GetrsOK` are not contradictory.
-/
namespace Nda.Linalg
open Nda Nda.Spec LayoutTransforms Assign Loops Nda.Matrix Blas

variable {α : Type}

section LU
variable [Field α]

/-- Elimination of column `k` below row `k`. -/
def elim (F : Nat → Nat → α) (k : Nat) : Nat → Nat → α := fun i j =>
  if i ≤ k then F i j else if j < k then F i j else if j = k then F i k / F k k else F i j - F i k / F k k * F k j

/-- Rows `k` and `q` interchanged. -/
def swapR (F : Nat → Nat → α) (k q : Nat) : Nat → Nat → α := fun i j => if i = k then F q j else if i = q then F k j else F i j

/-- A row with a usable pivot. -/
theorem exists_pick (n : Nat) (F : Nat → Nat → α) (k : Nat) (hk : k < n) : ∃ q, k ≤ q ∧ q < n ∧ (F q k = 0 → ∀ i, k ≤ i → i < n → F i k = 0) := by
  by_cases h : ∃ q, k ≤ q ∧ q < n ∧ F q k ≠ 0
  · obtain ⟨q, h1, h2, h3⟩ := h
    exact ⟨q, h1, h2, fun h => absurd h h3⟩
  · refine ⟨k, le_refl _, hk, fun _ i h1 h2 => ?_⟩
    by_contra h3
    exact h ⟨i, h1, h2, h3⟩

/-- `F` is a factorisation of the first `n` rows of `PA` up to column `k`. -/
def Part (n k : Nat) (PA F : Nat → Nat → α) : Prop :=
  ∀ i j, i < n → PA i j = (∑ l ∈ Finset.range (min k (min i (j + 1))), F i l * F l j) + (if i ≤ j ∨ k ≤ j then F i j else 0)

theorem Part.swap {n k : Nat} {PA F : Nat → Nat → α} (h : Part n k PA F) {q : Nat} (hk : k ≤ q) (hq : q < n) : Part n k (swapR PA k q) (swapR F k q) := by
  intro i j hi
  have hl : ∀ m, m ≤ k → ∀ r : Nat, ∑ l ∈ Finset.range m, F r l * swapR F k q l j = ∑ l ∈ Finset.range m, F r l * F l j := by
    intro m hm r
    apply Finset.sum_congr rfl
    intro l hl
    rw [Finset.mem_range] at hl
    simp only [swapR]
    rw [if_neg (by omega), if_neg (by omega)]
  by_cases h1 : i = k
  · subst h1
    simp only [swapR, if_true]
    rw [h q j hq]
    have := hl (min i (min i (j + 1))) (by omega) q
    simp only [swapR] at this
    rw [this, show min i (min q (j + 1)) = min i (min i (j + 1)) by omega]
    congr 1
    by_cases hc : i ≤ j
    · rw [if_pos (Or.inr hc), if_pos (Or.inl hc)]
    · rw [if_neg (by omega), if_neg (by omega)]
  · by_cases h2 : i = q
    · subst h2
      simp only [swapR, h1, if_false, if_true]
      rw [h k j (by omega)]
      have := hl (min k (min i (j + 1))) (by omega) k
      simp only [swapR] at this
      rw [this, show min k (min i (j + 1)) = min k (min k (j + 1)) by omega]
      congr 1
      by_cases hc : k ≤ j
      · rw [if_pos (Or.inr hc), if_pos (Or.inr hc)]
      · rw [if_neg (by omega), if_neg (by omega)]
    · have := hl (min k (min i (j + 1))) (by omega) i
      simp only [swapR] at this
      simp only [swapR, h1, h2, if_false]
      rw [h i j hi, this]

theorem Part.elim {n k : Nat} {PA F : Nat → Nat → α} (h : Part n k PA F) (hp : F k k = 0 → ∀ i, k ≤ i → i < n → F i k = 0) : Part n (k + 1) PA (elim F k) := by
  intro i j hi
  rw [h i j hi]
  by_cases h1 : i ≤ k
  · rw [show min (k + 1) (min i (j + 1)) = min k (min i (j + 1)) by omega]
    congr 1
    · apply Finset.sum_congr rfl
      intro l hl
      rw [Finset.mem_range] at hl
      simp only [Linalg.elim]
      rw [if_pos h1, if_pos (by omega)]
    · simp only [Linalg.elim]
      rw [if_pos h1]
      by_cases hc : i ≤ j
      · rw [if_pos (Or.inl hc), if_pos (Or.inl hc)]
      · rw [if_neg (by omega), if_neg (by omega)]
  · have hsum : ∀ m, m ≤ k → ∑ l ∈ Finset.range m, Linalg.elim F k i l * Linalg.elim F k l j = ∑ l ∈ Finset.range m, F i l * F l j := by
      intro m hm
      apply Finset.sum_congr rfl
      intro l hl
      rw [Finset.mem_range] at hl
      simp only [Linalg.elim]
      rw [if_neg h1, if_pos (by omega), if_pos (by omega)]
    rcases lt_trichotomy j k with hj' | hj' | hj'
    · rw [show min (k + 1) (min i (j + 1)) = min k (min i (j + 1)) by omega, hsum _ (by omega), if_neg (by omega), if_neg (by omega)]
    · subst hj'
      rw [show min (j + 1) (min i (j + 1)) = j + 1 by omega, show min j (min i (j + 1)) = j by omega, Finset.sum_range_succ, hsum _ (le_refl _), if_pos (Or.inr (le_refl _)), if_neg (by omega), add_zero]
      congr 1
      simp only [Linalg.elim]
      rw [if_neg h1, if_neg (lt_irrefl _), if_pos trivial, if_pos (le_refl _)]
      by_cases h0 : F j j = 0
      · rw [hp h0 i (by omega) hi, h0]; simp
      · rw [div_mul_cancel₀ _ h0]
    · rw [show min (k + 1) (min i (j + 1)) = k + 1 by omega, show min k (min i (j + 1)) = k by omega, Finset.sum_range_succ, hsum _ (le_refl _), if_pos (Or.inr (by omega)), if_pos (Or.inr (by omega)),
        add_assoc]
      congr 1
      simp only [Linalg.elim]
      rw [if_neg h1, if_neg (lt_irrefl _), if_pos trivial, if_pos (le_refl _), if_neg h1, if_neg (by omega), if_neg (by omega)]
      ring

/-- Gaussian elimination. -/
theorem exists_part (n : Nat) (A : Nat → Nat → α) : ∀ k, k ≤ n → ∃ (F : Nat → Nat → α) (piv : Nat → Nat), (∀ i, i < k → i ≤ piv i ∧ piv i < n) ∧
    Part n k ((List.range k).foldl (fun A i => swapR A i (piv i)) A) F := by
  intro k
  induction k with
  | zero =>
    intro _
    exact ⟨A, fun _ => 0, fun i h => by omega, fun i j _ => by simp⟩
  | succ k ih =>
    intro hk
    obtain ⟨F, piv, h1, h2⟩ := ih (by omega)
    obtain ⟨q, q1, q2, q3⟩ := exists_pick n F k (by omega)
    refine ⟨Linalg.elim (swapR F k q) k, Function.update piv k q, fun i hi => ?_, ?_⟩
    · by_cases h : i = k
      · subst h; simp [q1, q2]
      · rw [Function.update_of_ne h]; exact h1 i (by omega)
    · have e : (List.range (k + 1)).foldl (fun A i => swapR A i (Function.update piv k q i)) A = swapR ((List.range k).foldl (fun A i => swapR A i (piv i)) A) k q := by
        rw [List.range_succ, List.foldl_append, List.foldl_cons, List.foldl_nil, Function.update_self]
        congr 1
        apply List.foldl_ext
        intro a b hb
        rw [List.mem_range] at hb
        rw [Function.update_of_ne (by omega)]
      rw [e]
      apply (h2.swap q1 q2).elim
      intro h0 i i0 i1
      simp only [swapR] at h0 ⊢
      rw [if_pos trivial] at h0
      have := q3 h0
      split_ifs
      · exact h0
      · exact this k (le_refl _) (by omega)
      · exact this i i0 i1

theorem exists_factored {n : Nat} (A : Matrix (Fin n) (Fin n) α) : ∃ F piv, Factored A F piv := by
  obtain ⟨F, piv, h1, h2⟩ := exists_part n (fun i j => ofMat A (i : Int) (j : Int)) n (le_refl _)
  refine ⟨fun i j => F i j, fun k => ⟨piv k, (h1 k k.isLt).2⟩, ?_⟩
  have key : ∀ (l : List (Fin n)) (B : Matrix (Fin n) (Fin n) α) (C : Nat → Nat → α), (∀ i j : Fin n, B i j = C i j) →
      ∀ i j : Fin n, (l.foldl (fun A k => swapRows A k ⟨piv k, (h1 k k.isLt).2⟩) B) i j = ((l.map Fin.val).foldl (fun A i => swapR A i (piv i)) C) i j := by
    intro l
    induction l with
    | nil => intro B C h i j; exact h i j
    | cons k l ih =>
      intro B C h i j
      rw [List.foldl_cons, List.map_cons, List.foldl_cons]
      apply ih
      intro i j
      simp only [swapRows, swapR, Fin.ext_iff]
      split_ifs <;> exact h _ _
  unfold Factored interchanged
  ext i j
  rw [key _ A (fun i j => ofMat A (i : Int) (j : Int)) (fun i j => by simp [ofMat]) i j]
  have hr : (List.finRange n).map Fin.val = List.range n := by simp [List.finRange_eq_pmap_range, List.map_pmap]
  rw [hr, h2 i j i.isLt, Matrix.mul_apply]
  have hs : ∀ l : Fin n, lower (fun i j : Fin n => F i j) i l * upper (fun i j : Fin n => F i j) l j =
      (fun l : Nat => (if l < i then F i l else if l = i then 1 else 0) * (if l ≤ j then F l j else 0)) (l : Nat) := by
    intro l
    simp only [lower, upper, Fin.lt_def, Fin.le_def, Fin.ext_iff]
    congr 2
    by_cases h : (i : Nat) = l
    · rw [if_pos h, if_pos h.symm]
    · rw [if_neg h, if_neg (fun hc => h hc.symm)]
  rw [Finset.sum_congr rfl (fun l _ => hs l), ← Finset.sum_range (fun l : Nat => (if l < (i : Nat) then F i l else if l = i then 1 else 0) * (if l ≤ (j : Nat) then F l j else 0))]
  have hmin : min n (min (i : Nat) ((j : Nat) + 1)) ≤ n := by omega
  rw [← Finset.sum_subset (s₁ := Finset.range (min n (min (i : Nat) ((j : Nat) + 1))) ∪ {(i : Nat)}) (s₂ := Finset.range n)]
  · rw [Finset.sum_union (by rw [Finset.disjoint_singleton_right, Finset.mem_range]; omega), Finset.sum_singleton]
    congr 1
    · apply Finset.sum_congr rfl
      intro l hl
      rw [Finset.mem_range] at hl
      rw [if_pos (by omega), if_pos (by omega)]
    · rw [if_neg (lt_irrefl _), if_pos rfl, one_mul]
      have := j.isLt
      by_cases hc : (i : Nat) ≤ j
      · rw [if_pos (Or.inl hc), if_pos hc]
      · rw [if_neg (by omega), if_neg hc]
  · intro l hl
    have := i.isLt
    simp only [Finset.mem_union, Finset.mem_range, Finset.mem_singleton] at hl ⊢
    omega
  · intro l hl hn
    simp only [Finset.mem_union, Finset.mem_range, Finset.mem_singleton, not_or] at hl hn
    by_cases h1 : l < (i : Nat)
    · rw [if_neg (show ¬ l ≤ (j : Nat) by omega), mul_zero]
    · rw [if_neg h1, if_neg hn.2, zero_mul]

end LU

/-! ### Blocks of memory can be overwritten -/

theorem block_write {b ld : Int} {n r : Nat} {mem : List α} {B : Matrix (Fin n) (Fin r) α} (h : ColMajor2 b ld n r mem B) (hld : (n : Int) ≤ ld) (X : Matrix (Fin n) (Fin r) α) :
    ∃ mem', mem'.length = mem.length ∧ (∀ k, (∀ (i : Fin n) (j : Fin r), b + (i : Int) + (j : Int) * ld ≠ k) → val mem' k = val mem k) ∧ ColMajor2 b ld n r mem' X := by
  have hinj : ∀ (i i' : Fin n) (j j' : Fin r), b + (i : Int) + (j : Int) * ld = b + (i' : Int) + (j' : Int) * ld → i = i' ∧ j = j' := by
    intro i i' j j' he
    have hi := i.isLt
    have hi' := i'.isLt
    have hj : (j : Int) = j' := by
      rcases lt_trichotomy (j : Int) (j' : Int) with hlt | heq | hgt
      · exfalso
        have : ((j : Int) + 1) * ld ≤ (j' : Int) * ld := Int.mul_le_mul_of_nonneg_right (by omega) (by omega)
        have : ((j : Int) + 1) * ld = (j : Int) * ld + ld := by ring
        omega
      · exact heq
      · exfalso
        have : ((j' : Int) + 1) * ld ≤ (j : Int) * ld := Int.mul_le_mul_of_nonneg_right (by omega) (by omega)
        have : ((j' : Int) + 1) * ld = (j' : Int) * ld + ld := by ring
        omega
    refine ⟨Fin.ext ?_, Fin.ext (by exact_mod_cast hj)⟩
    rw [hj] at he
    omega
  let ws : List (Int × α) := (List.finRange n).flatMap (fun (i : Fin n) => (List.finRange r).map (fun (j : Fin r) => (b + (i : Int) + (j : Int) * ld, X i j)))
  have hws : ∀ w, w ∈ ws ↔ ∃ (i : Fin n) (j : Fin r), w = (b + (i : Int) + (j : Int) * ld, X i j) := by
    intro w
    simp only [ws, List.mem_flatMap, List.mem_finRange, true_and, List.mem_map]
    constructor
    · rintro ⟨i, j, h⟩; exact ⟨i, j, h.symm⟩
    · rintro ⟨i, j, h⟩; exact ⟨i, j, h.symm⟩
  obtain ⟨mem', -, h1, h2, h3⟩ := writeAll_spec ws mem (by
    intro w hw
    obtain ⟨i, j, rfl⟩ := (hws w).mp hw
    have hv := h i j
    unfold val at hv
    by_cases h0 : b + (i : Int) + (j : Int) * ld < 0
    · rw [if_pos h0] at hv; simp at hv
    · rw [if_neg h0] at hv
      have := (List.getElem?_eq_some_iff.mp hv).1
      simp only
      omega)
  refine ⟨mem', h1, fun k hk => h2 k (fun w hw => ?_), fun i j => ?_⟩
  · obtain ⟨i, j, rfl⟩ := (hws w).mp hw
    exact hk i j
  · apply h3 _ _ ((hws _).mpr ⟨i, j, rfl⟩)
    intro w hw he
    obtain ⟨i', j', rfl⟩ := (hws w).mp hw
    obtain ⟨rfl, rfl⟩ := hinj _ _ _ _ he
    rfl

theorem swapRows_injective {n : Nat} (p q : Fin n) : Function.Injective (fun A : Matrix (Fin n) (Fin n) α => swapRows A p q) := by
  intro A B h
  ext i j
  have := congrFun (congrFun h (Equiv.swap p q i)) j
  simp only [swapRows_eq, Matrix.submatrix_apply, Equiv.swap_apply_self, id] at this
  exact this

theorem interchanged_injective {n : Nat} (piv : Fin n → Fin n) : ∀ (l : List (Fin n)) (A B : Matrix (Fin n) (Fin n) α),
    l.foldl (fun A k => swapRows A k (piv k)) A = l.foldl (fun A k => swapRows A k (piv k)) B → A = B
  | [], _, _, h => h
  | k :: l, A, B, h => swapRows_injective k (piv k) (interchanged_injective piv l _ _ h)

theorem pivots_unique {n : Nat} {ipiv : List Int} {p q : Fin n → Fin n} (hp : Pivots ipiv p) (hq : Pivots ipiv q) : p = q := by
  funext k
  have := (hp.2 k).symm.trans (hq.2 k)
  simp only [Option.some.injEq] at this
  exact Fin.ext (by omega)

theorem colMajor_unique {b ld : Int} {n r : Nat} {mem : List α} {A B : Matrix (Fin n) (Fin r) α} (hA : ColMajor2 b ld n r mem A) (hB : ColMajor2 b ld n r mem B) : A = B := by
  ext i j
  have := (hA i j).symm.trans (hB i j)
  simpa using this

theorem isUnit_factored [Field α] {n : Nat} {A F : Matrix (Fin n) (Fin n) α} {piv : Fin n → Fin n} (h : Factored A F piv) (h0 : ∀ i, F i i ≠ 0) : IsUnit A.det := by
  rw [det_factored h]
  have hs := sign_mul_self (α := α) Finset.univ (fun k => piv k ≠ k)
  exact (isUnit_iff_ne_zero.mpr (mul_ne_zero (left_ne_zero_of_mul (by rw [hs]; exact one_ne_zero)) (Finset.prod_ne_zero_iff.mpr (fun i _ => h0 i))))

/-- There is a LAPACK as assumed, over every field with a conjugation. -/
theorem C46_lapack_exists [Field α] (cj : α →+* α) : ∃ L : Lapack α, LapackOK cj L := by
  classical
  let postF : Int → Int → Int → List α → (List α × List Int × Int) → Prop := fun m a ld mem r => ∀ (n : Nat) (A : Matrix (Fin n) (Fin n) α), m = n → 0 < n → (n : Int) ≤ ld → ColMajor a ld n mem A →
    ∃ F piv, BlockFrame a ld n mem r.1 ∧ ColMajor a ld n r.1 F ∧ Pivots r.2.1 piv ∧ Factored A F piv ∧ 0 ≤ r.2.2 ∧ (r.2.2 = 0 ↔ ∀ i, F i i ≠ 0)
  let postI : Int → Int → Int → List Int → List α → List α → Prop := fun m a ld ipiv mem r => ∀ (n : Nat) (A F : Matrix (Fin n) (Fin n) α) (piv : Fin n → Fin n), m = n → (n : Int) ≤ ld →
    ColMajor a ld n mem F → Pivots ipiv piv → Factored A F piv → (∀ i, F i i ≠ 0) → ∃ X, BlockFrame a ld n mem r ∧ ColMajor a ld n r X ∧ X * A = 1
  let postS : Tag → Int → Int → Int → Int → List Int → Int → Int → List α → List α → Prop := fun t m mr a lda ipiv b ldb mem res =>
    ∀ (n r : Nat) (A F : Matrix (Fin n) (Fin n) α) (B : Matrix (Fin n) (Fin r) α) (piv : Fin n → Fin n), m = n → mr = r → (n : Int) ≤ ldb → ColMajor a lda n mem F → Pivots ipiv piv →
      Factored A F piv → (∀ i, F i i ≠ 0) → ColMajor2 b ldb n r mem B →
      ∃ X : Matrix (Fin n) (Fin r) α, res.length = mem.length ∧ (∀ k, (∀ (i : Fin n) (j : Fin r), b + (i : Int) + (j : Int) * ldb ≠ k) → val res k = val mem k) ∧ ColMajor2 b ldb n r res X ∧
        opMat cj t A * X = B
  refine ⟨⟨fun m _ a ld mem => if h : ∃ r, postF m a ld mem r then .ok h.choose else .error .ub, fun m a ld ipiv mem => if h : ∃ r, postI m a ld ipiv mem r then .ok (h.choose, 0) else .error .ub,
    fun t m mr a lda ipiv b ldb mem => if h : ∃ r, postS t m mr a lda ipiv b ldb mem r then .ok (h.choose, 0) else .error .ub⟩, ?_, ?_, ?_⟩
  · intro n a ld mem A p _ hld _ hA
    have hex : ∃ r, postF n a ld mem r := by
      obtain ⟨F, piv, hfac⟩ := exists_factored A
      obtain ⟨mem', w1, w2, w3⟩ := block_write (n := n) (r := n) hA hld F
      refine ⟨(mem', (List.finRange n).map (fun k => (piv k : Int) + 1), if ∀ i, F i i ≠ 0 then 0 else 1), ?_⟩
      intro n' A' hn p' hld' hA'
      have hn : n = n' := by exact_mod_cast hn
      subst hn
      obtain rfl := colMajor_unique (r := n) hA hA'
      refine ⟨F, piv, ⟨w1, w2⟩, w3, ⟨by simp, fun k => by simp⟩, hfac, by split_ifs <;> simp, ?_⟩
      by_cases hall : ∀ i, F i i ≠ 0
      · simp only [if_pos hall]; simpa using hall
      · simp only [if_neg hall]; simpa using hall
    obtain ⟨F, piv, hpost⟩ := hex.choose_spec n A rfl p hld hA
    exact ⟨_, _, _, F, piv, dif_pos hex, hpost⟩
  · intro n a ld mem A F ipiv piv p _ hld _ hF hp hfac h0
    have hex : ∃ r, postI n a ld ipiv mem r := by
      obtain ⟨mem', w1, w2, w3⟩ := block_write (n := n) (r := n) hF hld A⁻¹
      refine ⟨mem', ?_⟩
      intro n' A' F' piv' hn _ hF' hp' hfac' h0'
      have hn : n = n' := by exact_mod_cast hn
      subst hn
      obtain rfl := colMajor_unique (r := n) hF hF'
      obtain rfl := pivots_unique hp hp'
      obtain rfl : A = A' := interchanged_injective piv _ _ _ (hfac.trans hfac'.symm)
      exact ⟨A⁻¹, ⟨w1, w2⟩, w3, Matrix.nonsing_inv_mul _ (isUnit_factored hfac h0)⟩
    obtain ⟨X, hpost⟩ := hex.choose_spec n A F piv rfl hld hF hp hfac h0
    exact ⟨_, X, dif_pos hex, hpost⟩
  · intro t n r a lda b ldb mem A F B ipiv piv p _ _ _ _ hldb _ hF hp hfac h0 hB _
    have hex : ∃ res, postS t n r a lda ipiv b ldb mem res := by
      obtain ⟨mem', w1, w2, w3⟩ := block_write hB hldb ((opMat cj t A)⁻¹ * B)
      refine ⟨mem', ?_⟩
      intro n' r' A' F' B' piv' hn hr _ hF' hp' hfac' h0' hB'
      have hn : n = n' := by exact_mod_cast hn
      subst hn
      have hr : r = r' := by exact_mod_cast hr
      subst hr
      obtain rfl := colMajor_unique (r := n) hF hF'
      obtain rfl := pivots_unique hp hp'
      obtain rfl : A = A' := interchanged_injective piv _ _ _ (hfac.trans hfac'.symm)
      obtain rfl := colMajor_unique hB hB'
      refine ⟨_, w1, w2, w3, ?_⟩
      have hu : IsUnit (opMat cj t A).det := by
        have := isUnit_factored hfac h0
        cases t with
        | N => exact this
        | T => show IsUnit A.transpose.det; rw [Matrix.det_transpose]; exact this
        | C =>
          show IsUnit (A.transpose.map cj).det
          have h2 : (A.transpose.map cj).det = cj A.det := by rw [← Matrix.det_transpose A]; exact (RingHom.map_det cj A.transpose).symm
          rw [h2]
          exact this.map cj
      rw [Matrix.mul_nonsing_inv_cancel_left _ _ hu]
    obtain ⟨X, hpost⟩ := hex.choose_spec n r A F B piv rfl rfl hldb hF hp hfac h0 hB
    exact ⟨_, X, dif_pos hex, hpost⟩

end Nda.Linalg
