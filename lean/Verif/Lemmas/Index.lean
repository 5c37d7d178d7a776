import Verif.Spec.Index
import Verif.Lemmas.Perm
import Mathlib.Algebra.BigOperators.Group.List.Basic
import Mathlib.Tactic.Ring
import Mathlib.Tactic.Linarith
/-!
# Arithmetic of multi-indices
-/
namespace Nda.Spec
open Nda Nda.Perm

theorem InRange.length_eq : ∀ {len idx : List Int}, InRange len idx → idx.length = len.length
  | [], [], _ => rfl
  | _ :: ls, _ :: is, h => by simp [InRange.length_eq h.2]

theorem inRange_iff : ∀ {len idx : List Int}, InRange len idx ↔
    idx.length = len.length ∧ ∀ k, k < len.length → 0 ≤ idx.getD k 0 ∧ idx.getD k 0 < len.getD k 0
  | [], [] => by simp [InRange]
  | [], _ :: _ => by simp [InRange]
  | _ :: _, [] => by simp [InRange]
  | l :: ls, i :: is => by
    simp only [InRange, inRange_iff (len := ls) (idx := is), List.length_cons]
    constructor
    · rintro ⟨h1, h2, h3⟩
      refine ⟨by omega, fun k hk => ?_⟩
      cases k with
      | zero => simpa using h1
      | succ k => simpa using h3 k (by omega)
    · rintro ⟨h2, h3⟩
      exact ⟨by simpa using h3 0 (by omega), by omega, fun k hk => by simpa using h3 (k + 1) (by omega)⟩

theorem InRange.nonneg_len : ∀ {len idx : List Int}, InRange len idx → ∀ l ∈ len, 0 < l
  | [], [], _ => by simp
  | _ :: ls, _ :: is, h => by
    intro l hl
    rcases List.mem_cons.mp hl with rfl | hl
    · have := h.1; omega
    · exact InRange.nonneg_len h.2 l hl

theorem prod_pos : ∀ {len : List Int}, (∀ l ∈ len, 0 < l) → 0 < prod len
  | [], _ => by simp [prod]
  | l :: ls, h => by
    have h1 := h l List.mem_cons_self
    have h2 := prod_pos (fun x hx => h x (List.mem_cons_of_mem l hx))
    exact Int.mul_pos h1 h2

theorem prod_nonneg : ∀ {len : List Int}, NonNeg len → 0 ≤ prod len
  | [], _ => by simp [prod]
  | l :: ls, h => by
    have h1 := h l List.mem_cons_self
    have h2 := prod_nonneg (len := ls) (fun x hx => h x (List.mem_cons_of_mem l hx))
    exact Int.mul_nonneg h1 h2

theorem prod_eq_list_prod : ∀ (len : List Int), prod len = len.prod
  | [] => rfl
  | l :: ls => by simp [prod, prod_eq_list_prod ls]

theorem prod_append (a b : List Int) : prod (a ++ b) = prod a * prod b := by
  simp [prod_eq_list_prod]

theorem foldl_mul (a : Int) (len : List Int) : len.foldl (· * ·) a = a * prod len := by
  induction len generalizing a with
  | nil => simp [prod]
  | cons l ls ih => simp only [List.foldl_cons, ih, prod]; ring

theorem lin_bounds : ∀ {len idx : List Int}, InRange len idx → 0 ≤ lin len idx ∧ lin len idx < prod len
  | [], [], _ => by simp [lin, prod]
  | l :: ls, i :: is, h => by
    have h1 := h.1
    have h2 := lin_bounds h.2
    simp only [lin, prod]
    have hp : 0 < prod ls := by omega
    constructor
    · have := Int.mul_nonneg h1.1 (Int.le_of_lt hp); omega
    · have : (i + 1) * prod ls ≤ l * prod ls := Int.mul_le_mul_of_nonneg_right (by omega) (Int.le_of_lt hp)
      have e : (i + 1) * prod ls = i * prod ls + prod ls := by ring
      omega

theorem lin_inj : ∀ {len idx jdx : List Int}, InRange len idx → InRange len jdx →
    lin len idx = lin len jdx → idx = jdx
  | [], [], [], _, _, _ => rfl
  | l :: ls, i :: is, j :: js, hi, hj, h => by
    have b1 := lin_bounds hi.2
    have b2 := lin_bounds hj.2
    simp only [lin] at h
    have hij : i = j := by
      rcases Int.lt_trichotomy i j with hlt | heq | hgt
      · have : (i + 1) * prod ls ≤ j * prod ls :=
          Int.mul_le_mul_of_nonneg_right (by omega) (by omega)
        have e : (i + 1) * prod ls = i * prod ls + prod ls := by ring
        omega
      · exact heq
      · have : (j + 1) * prod ls ≤ i * prod ls :=
          Int.mul_le_mul_of_nonneg_right (by omega) (by omega)
        have e : (j + 1) * prod ls = j * prod ls + prod ls := by ring
        omega
    subst hij
    rw [lin_inj hi.2 hj.2 (by omega)]

theorem lin_surj : ∀ {len : List Int}, NonNeg len → ∀ k, 0 ≤ k → k < prod len →
    ∃ idx, InRange len idx ∧ lin len idx = k
  | [], _, k, h0, h1 => ⟨[], trivial, by simp [lin, prod] at *; omega⟩
  | l :: ls, hn, k, h0, h1 => by
    simp only [prod] at h1
    have hls : NonNeg ls := fun x hx => hn x (List.mem_cons_of_mem l hx)
    have hp0 := prod_nonneg hls
    have hp : 0 < prod ls := by
      rcases Int.lt_or_eq_of_le hp0 with h | h
      · exact h
      · rw [← h] at h1; simp at h1; omega
    obtain ⟨is, h2, h3⟩ := lin_surj hls (k % prod ls) (Int.emod_nonneg _ (by omega)) (Int.emod_lt_of_pos _ hp)
    refine ⟨k / prod ls :: is, ⟨⟨Int.ediv_nonneg h0 hp0, ?_⟩, h2⟩, ?_⟩
    · exact (Int.ediv_lt_iff_lt_mul hp).mpr h1
    · simp only [lin, h3]
      have := Int.mul_ediv_add_emod k (prod ls)
      rw [Int.mul_comm]; omega

theorem dense_length : ∀ (len : List Int), (dense len).length = len.length
  | [] => rfl
  | _ :: ls => by simp [dense, dense_length ls]

theorem dot_dense : ∀ (len idx : List Int), idx.length = len.length → dot (dense len) idx = lin len idx
  | [], [], _ => rfl
  | l :: ls, i :: is, h => by
    simp only [dense, dot, lin, dot_dense ls is (by simpa using h)]; ring

theorem dot_smul : ∀ (c : Int) (s i : List Int), dot (s.map (c * ·)) i = c * dot s i
  | _, [], _ => by simp [dot]
  | _, _ :: _, [] => by simp [dot]
  | c, x :: s, y :: i => by simp only [List.map_cons, dot, dot_smul c s i]; ring

theorem dot_eq_sum : ∀ (s i : List Int), dot s i = (List.zipWith (· * ·) s i).sum
  | [], _ => by simp [dot]
  | _ :: _, [] => by simp [dot]
  | x :: s, y :: i => by simp [dot, dot_eq_sum s i]

theorem dot_add : ∀ (s i j : List Int), i.length = j.length →
    dot s (List.zipWith (· + ·) i j) = dot s i + dot s j
  | [], _, _, _ => by simp [dot]
  | _ :: _, [], [], _ => by simp [dot]
  | x :: s, a :: i, b :: j, h => by
    simp only [List.zipWith_cons_cons, dot, dot_add s i j (by simpa using h)]; ring

/-! ### Listing in memory order -/

theorem memOrder_length (so : List Nat) (l : List Int) : (memOrder so l).length = so.length := by
  simp [memOrder]

theorem memOrder_perm {so : List Nat} {l : List Int} (hp : IsPerm so) (hl : l.length = so.length) :
    (memOrder so l).Perm l := by
  have h1 : (memOrder so l).Perm ((List.range so.length).map (fun k => l.getD k 0)) := List.Perm.map _ hp
  have h2 : (List.range so.length).map (fun k => l.getD k 0) = l := by
    apply List.ext_getElem (by simp [hl])
    intro i h h'
    simp [h']
  rwa [h2] at h1

theorem zipWith_memOrder (f : Int → Int → Int) {so : List Nat} {a b : List Int}
    (hp : ∀ k ∈ so, k < a.length ∧ k < b.length) :
    List.zipWith f (memOrder so a) (memOrder so b) =
      so.map (fun k => (List.zipWith f a b).getD k 0) := by
  induction so with
  | nil => rfl
  | cons k so ih =>
    have ⟨h1, h2⟩ := hp k List.mem_cons_self
    simp only [memOrder, List.map_cons, List.zipWith_cons_cons]
    congr 1
    · simp [h1, h2]
    · exact ih (fun j hj => hp j (List.mem_cons_of_mem _ hj))

theorem dot_memOrder {so : List Nat} {a b : List Int} (hp : IsPerm so)
    (ha : a.length = so.length) (hb : b.length = so.length) :
    dot (memOrder so a) (memOrder so b) = dot a b := by
  rw [dot_eq_sum, dot_eq_sum, zipWith_memOrder _ (fun k hk => by
    have := IsPerm.lt hp hk; omega)]
  apply List.Perm.sum_eq
  exact memOrder_perm hp (by simp [ha, hb])

theorem prod_memOrder {so : List Nat} {l : List Int} (hp : IsPerm so) (hl : l.length = so.length) :
    prod (memOrder so l) = prod l := by
  rw [prod_eq_list_prod, prod_eq_list_prod]
  exact List.Perm.prod_eq (memOrder_perm hp hl)

theorem nonNeg_memOrder {so : List Nat} {l : List Int} (hp : IsPerm so) (hl : l.length = so.length) :
    NonNeg (memOrder so l) ↔ NonNeg l := by
  unfold NonNeg
  constructor
  · intro h x hx; exact h x ((memOrder_perm hp hl).mem_iff.mpr hx)
  · intro h x hx; exact h x ((memOrder_perm hp hl).mem_iff.mp hx)

theorem memOrder_getD {so : List Nat} {l : List Int} {v : Nat} (hv : v < so.length) :
    (memOrder so l).getD v 0 = l.getD so[v] 0 := by
  simp [memOrder, hv]

theorem inRange_memOrder {so : List Nat} {len idx : List Int} (hp : IsPerm so)
    (hl : len.length = so.length) (hi : idx.length = so.length) :
    InRange (memOrder so len) (memOrder so idx) ↔ InRange len idx := by
  rw [inRange_iff, inRange_iff]
  simp only [memOrder_length, true_and]
  constructor
  · intro h
    refine ⟨by omega, fun k hk => ?_⟩
    obtain ⟨v, hv, rfl⟩ := IsPerm.exists_idx hp (k := k) (by omega)
    have := h v hv
    rwa [memOrder_getD hv, memOrder_getD hv] at this
  · rintro ⟨_, h⟩ v hv
    rw [memOrder_getD hv, memOrder_getD hv]
    exact h _ (by have := IsPerm.getElem_lt hp hv; omega)

theorem memOrder_inj {so : List Nat} {a b : List Int} (hp : IsPerm so)
    (ha : a.length = so.length) (hb : b.length = so.length)
    (h : memOrder so a = memOrder so b) : a = b := by
  apply ext_through_perm hp ha hb
  intro u hu
  have := IsPerm.getElem_lt hp hu
  have h' := congrArg (fun l => l.getD u 0) h
  simp only [memOrder_getD hu] at h'
  have h1 : so[u] < a.length := by omega
  have h2 : so[u] < b.length := by omega
  simp [h1, h2] at h' ⊢
  exact h'

theorem apply_eq_memOrder {so : List Nat} {l : List Int} (h : ∀ k ∈ so, k < l.length) :
    Perm.apply so l = some (memOrder so l) := by
  obtain ⟨r, h1, h2, h3⟩ := mapM_rd l so h
  rw [Perm.apply, h1]; congr 1
  apply List.ext_getElem (by simp [memOrder, h2])
  intro u hu hu'
  have hu'' : u < so.length := by omega
  have := h3 u hu''
  have hk := h _ (List.getElem_mem hu'')
  rw [List.getElem?_eq_getElem hu, List.getElem?_eq_getElem hk] at this
  simp [memOrder, Option.some.inj this, hk]

theorem apply_perm_eq_memOrder {so : List Nat} {l : List Int} (hp : IsPerm so)
    (hl : l.length = so.length) : Perm.apply so l = some (memOrder so l) :=
  apply_eq_memOrder (fun k hk => by have := IsPerm.lt hp hk; omega)

/-- Scattering along `so` is the inverse of listing in memory order. -/
theorem applyInverse_eq_some {so : List Nat} {x r : List Int} (hp : IsPerm so)
    (hx : x.length = so.length) :
    Perm.applyInverse so x = some r ↔ r.length = so.length ∧ memOrder so r = x := by
  obtain ⟨s, h1, h2, h3⟩ := applyInverse_spec so x hp hx
  have hs : memOrder so s = x := by
    apply List.ext_getElem (by simp [memOrder, hx])
    intro u hu hu'
    have hu'' : u < so.length := by omega
    have := h3 u hu''
    have hk := IsPerm.getElem_lt hp hu''
    rw [List.getElem?_eq_getElem (by omega), List.getElem?_eq_getElem hu'] at this
    simp [memOrder, ← Option.some.inj this, h2, hk]
  rw [h1]
  constructor
  · intro h; obtain rfl := Option.some.inj h; exact ⟨h2, hs⟩
  · rintro ⟨g1, g2⟩
    rw [memOrder_inj hp h2 g1 (hs.trans g2.symm)]

end Nda.Spec
