import Verif.Model.Algorithms
import Verif.Props.Assign
import Mathlib.Algebra.BigOperators.Group.List.Basic
/-!
# C25: reductions
-/
namespace Nda.Algorithms
open Nda Loops Nda.Spec

variable {α ρ : Type}

theorem foldM_get (f : ρ → α → ρ) (get : List Int → Option α) : ∀ (L : List (List Int)) (r : ρ),
    L.foldlM (fun r2 idx => do let x ← get idx; return f r2 x) r = (L.mapM get).map (fun vals => vals.foldl f r)
  | [], r => rfl
  | i :: L, r => by
    rw [List.foldlM_cons, List.mapM_cons]
    cases h : get i with
    | none => rfl
    | some x =>
      simp only [Option.bind_eq_bind, Option.bind_some, Option.pure_def]
      have := foldM_get f get L (f r x)
      simp only [Option.bind_eq_bind, Option.pure_def] at this
      rw [this]
      cases List.mapM get L <;> rfl

/-- C25, fold: `L` are the indices in lexicographic order (there is only one such list, C15) and `vals` the elements there. -/
theorem C25_fold (f : ρ → α → ρ) (len : List Int) (get : List Int → Option α) (r : ρ) (L : List (List Int)) (hL : LexEnum len L) :
    fold f len get r = (L.mapM get).map (fun vals => vals.foldl f r) := by
  rw [fold, forEach_eq, hL.eq_box]
  exact foldM_get f get (box len) r

theorem mapM_some {get : List Int → Option α} : ∀ {L : List (List Int)}, (∀ idx ∈ L, ∃ x, get idx = some x) →
    ∃ vals, L.mapM get = some vals ∧ vals.length = L.length ∧ ∀ k : Nat, vals[k]? = L[k]?.bind get
  | [], _ => ⟨[], rfl, rfl, by simp⟩
  | i :: L, h => by
    obtain ⟨x, hx⟩ := h i (by simp)
    obtain ⟨vals, e, hl, hv⟩ := mapM_some (L := L) (fun j hj => h j (by simp [hj]))
    refine ⟨x :: vals, by rw [List.mapM_cons, hx, e]; rfl, by simp [hl], fun k => ?_⟩
    cases k with
    | zero => simp [hx]
    | succ k => simpa using hv k

theorem mem_vals {get : List Int → Option α} {L : List (List Int)} {vals : List α} (e : L.mapM get = some vals) (x : α) :
    x ∈ vals ↔ ∃ idx ∈ L, get idx = some x := by
  induction L generalizing vals with
  | nil => cases e; simp
  | cons i L ih =>
    rw [List.mapM_cons] at e
    cases h : get i with
    | none => rw [h] at e; cases e
    | some y =>
      rw [h] at e
      cases h2 : L.mapM get with
      | none => rw [h2] at e; cases e
      | some ys =>
        rw [h2] at e
        cases e
        simp only [List.mem_cons, ih h2]
        constructor
        · rintro (rfl | ⟨j, hj, hx⟩)
          · exact ⟨i, Or.inl rfl, h⟩
          · exact ⟨j, Or.inr hj, hx⟩
        · rintro ⟨j, rfl | hj, hx⟩
          · left; rw [h] at hx; exact (Option.some.inj hx).symm
          · exact Or.inr ⟨j, hj, hx⟩

/-- C25, sum and product of commutative types: the sum over the indices in any order. -/
theorem C25_sum [AddCommMonoid α] (len : List Int) (get : List Int → Option α) (hd : ∀ idx, InRange len idx → ∃ x, get idx = some x)
    (L : List (List Int)) (hn : L.Nodup) (hL : ∀ idx, idx ∈ L ↔ InRange len idx) :
    sum (· + ·) 0 len get = some (L.map (fun idx => (get idx).getD 0)).sum := by
  rw [sum, C25_fold _ _ _ _ _ (lexEnum_box len)]
  have hp : (box len).Perm L := (List.perm_ext_iff_of_nodup (lexEnum_box len).nodup hn).mpr (fun x => by rw [mem_box, hL])
  obtain ⟨vals, e, hl, hv⟩ := mapM_some (get := get) (L := box len) (fun idx h => hd idx (mem_box.mp h))
  rw [e, Option.map_some, ← List.sum_eq_foldl, ← (hp.map _).sum_eq]
  congr 2
  apply List.ext_getElem (by simp [hl])
  intro k h1 h2
  have h3 := hv k
  have h4 : k < (box len).length := by omega
  rw [List.getElem?_eq_getElem h1, List.getElem?_eq_getElem h4, Option.bind_some] at h3
  simp [← h3]

theorem C25_product [CommMonoid α] (len : List Int) (get : List Int → Option α) (hd : ∀ idx, InRange len idx → ∃ x, get idx = some x)
    (L : List (List Int)) (hn : L.Nodup) (hL : ∀ idx, idx ∈ L ↔ InRange len idx) :
    product (· * ·) 1 len get = some (L.map (fun idx => (get idx).getD 1)).prod := by
  rw [product, C25_fold _ _ _ _ _ (lexEnum_box len)]
  have hp : (box len).Perm L := (List.perm_ext_iff_of_nodup (lexEnum_box len).nodup hn).mpr (fun x => by rw [mem_box, hL])
  obtain ⟨vals, e, hl, hv⟩ := mapM_some (get := get) (L := box len) (fun idx h => hd idx (mem_box.mp h))
  rw [e, Option.map_some, ← List.prod_eq_foldl, ← (hp.map _).prod_eq]
  congr 2
  apply List.ext_getElem (by simp [hl])
  intro k h1 h2
  have h3 := hv k
  have h4 : k < (box len).length := by omega
  rw [List.getElem?_eq_getElem h1, List.getElem?_eq_getElem h4, Option.bind_some] at h3
  simp [← h3]

/-- C25, any: some element is true. -/
theorem C25_any (len : List Int) (get : List Int → Option Bool) (hd : ∀ idx, InRange len idx → ∃ x, get idx = some x) :
    ∃ r, any len get = some r ∧ (r = true ↔ ∃ idx, InRange len idx ∧ get idx = some true) := by
  rw [any, C25_fold _ _ _ _ _ (lexEnum_box len)]
  obtain ⟨vals, e, -, -⟩ := mapM_some (get := get) (L := box len) (fun idx h => hd idx (mem_box.mp h))
  refine ⟨_, by rw [e]; rfl, ?_⟩
  have key : ∀ (l : List Bool) (r : Bool), l.foldl (fun r x => r || x) r = true ↔ r = true ∨ true ∈ l := by
    intro l
    induction l with
    | nil => simp
    | cons a l ih => intro r; cases a <;> simp [ih]
  rw [key, mem_vals e]
  simp [mem_box]

/-- C25, all: every element is true. -/
theorem C25_all (len : List Int) (get : List Int → Option Bool) (hd : ∀ idx, InRange len idx → ∃ x, get idx = some x) :
    ∃ r, all len get = some r ∧ (r = true ↔ ∀ idx, InRange len idx → get idx = some true) := by
  rw [all, C25_fold _ _ _ _ _ (lexEnum_box len)]
  obtain ⟨vals, e, -, -⟩ := mapM_some (get := get) (L := box len) (fun idx h => hd idx (mem_box.mp h))
  refine ⟨_, by rw [e]; rfl, ?_⟩
  have key : ∀ (l : List Bool) (r : Bool), l.foldl (fun r x => r && x) r = true ↔ r = true ∧ false ∉ l := by
    intro l
    induction l with
    | nil => simp
    | cons a l ih => intro r; cases a <;> simp [ih]
  rw [key, mem_vals e]
  constructor
  · rintro ⟨-, h⟩ idx hi
    obtain ⟨x, hx⟩ := hd idx hi
    cases x with
    | true => exact hx
    | false => exact absurd ⟨idx, mem_box.mpr hi, hx⟩ h
  · intro h
    refine ⟨rfl, ?_⟩
    rintro ⟨idx, hi, hx⟩
    rw [h idx (mem_box.mp hi)] at hx
    cases hx

/-- A strict weak order, what `std::max` and `std::min` require of `<`. -/
structure WeakOrder (lt : α → α → Bool) : Prop where
  irrefl : ∀ x, lt x x = false
  trans : ∀ x y z, lt x y = true → lt y z = true → lt x z = true
  incomp : ∀ x y z, lt x y = false → lt y z = false → lt x z = false

theorem foldl_max {lt : α → α → Bool} (h : WeakOrder lt) : ∀ (l : List α) (r : α),
    (l.foldl (stdMax lt) r = r ∨ l.foldl (stdMax lt) r ∈ l) ∧ lt (l.foldl (stdMax lt) r) r = false ∧ ∀ x ∈ l, lt (l.foldl (stdMax lt) r) x = false
  | [], r => ⟨Or.inl rfl, h.irrefl r, by simp⟩
  | a :: l, r => by
    obtain ⟨h1, h2, h3⟩ := foldl_max h l (stdMax lt r a)
    have hm : (stdMax lt r a = r ∨ stdMax lt r a = a) ∧ lt (stdMax lt r a) r = false ∧ lt (stdMax lt r a) a = false := by
      unfold stdMax
      cases hc : lt r a with
      | true =>
        refine ⟨Or.inr rfl, ?_, h.irrefl a⟩
        by_contra hn
        rw [Bool.not_eq_false] at hn
        have := h.trans r a r hc hn
        rw [h.irrefl r] at this; cases this
      | false => exact ⟨Or.inl rfl, h.irrefl r, hc⟩
    refine ⟨?_, h.incomp _ _ _ h2 hm.2.1, fun x hx => ?_⟩
    · rw [List.foldl_cons]
      rcases h1 with h1 | h1
      · rw [h1]
        rcases hm.1 with e | e <;> rw [e]
        · exact Or.inl rfl
        · exact Or.inr (by simp)
      · exact Or.inr (List.mem_cons_of_mem _ h1)
    · rcases List.mem_cons.mp hx with rfl | hx
      · exact h.incomp _ _ _ h2 hm.2.2
      · exact h3 x hx

theorem stdMin_eq (lt : α → α → Bool) : stdMin lt = stdMax (fun x y => lt y x) := rfl

theorem inRange_zero {len : List Int} (h : ∀ l ∈ len, 0 < l) : InRange len (len.map (fun _ => 0)) := by
  induction len with
  | nil => simp [InRange]
  | cons a l ih =>
    have := h a (by simp)
    have h2 := ih (fun x hx => h x (by simp [hx]))
    simp only [InRange, List.map_cons, List.forall₂_cons] at h2 ⊢
    exact ⟨⟨le_refl _, this⟩, h2⟩

/-- C25, max: an element of the array, and no element is larger. -/
theorem C25_max (lt : α → α → Bool) (h : WeakOrder lt) (len : List Int) (get : List Int → Option α)
    (hd : ∀ idx, InRange len idx → ∃ x, get idx = some x) (h0 : ∀ l ∈ len, 0 < l) :
    ∃ r, maxElement lt len get = some r ∧ (∃ idx, InRange len idx ∧ get idx = some r) ∧ ∀ idx x, InRange len idx → get idx = some x → lt r x = false := by
  obtain ⟨x0, hx0⟩ := hd _ (inRange_zero h0)
  obtain ⟨vals, e, -, -⟩ := mapM_some (get := get) (L := box len) (fun idx h => hd idx (mem_box.mp h))
  obtain ⟨h1, h2, h3⟩ := foldl_max h vals x0
  refine ⟨vals.foldl (stdMax lt) x0, ?_, ?_, fun idx x hi hx => ?_⟩
  · rw [maxElement, firstElement, hx0]
    simp only [Option.bind_eq_bind, Option.bind_some]
    rw [C25_fold _ _ _ _ _ (lexEnum_box len), e]; rfl
  · rcases h1 with h1 | h1
    · rw [h1]; exact ⟨_, inRange_zero h0, hx0⟩
    · obtain ⟨idx, hi, hx⟩ := (mem_vals e _).mp h1
      exact ⟨idx, mem_box.mp hi, hx⟩
  · exact h3 x ((mem_vals e x).mpr ⟨idx, mem_box.mpr hi, hx⟩)

/-- C25, min: an element of the array, and no element is smaller. -/
theorem C25_min (lt : α → α → Bool) (h : WeakOrder lt) (len : List Int) (get : List Int → Option α)
    (hd : ∀ idx, InRange len idx → ∃ x, get idx = some x) (h0 : ∀ l ∈ len, 0 < l) :
    ∃ r, minElement lt len get = some r ∧ (∃ idx, InRange len idx ∧ get idx = some r) ∧ ∀ idx x, InRange len idx → get idx = some x → lt x r = false :=
  C25_max (fun x y => lt y x) ⟨h.irrefl, fun x y z a b => h.trans z y x b a, fun x y z a b => h.incomp z y x b a⟩ len get hd h0

/-- C25, Frobenius norm: the sum of the squared absolute values. -/
theorem C25_frobenius {R : Type} [AddCommMonoid R] [Mul R] (abs : α → R) (len : List Int) (get : List Int → Option α)
    (hd : ∀ idx, InRange len idx → ∃ x, get idx = some x) (L : List (List Int)) (hn : L.Nodup) (hL : ∀ idx, idx ∈ L ↔ InRange len idx) :
    frobeniusSq abs len get = some (L.map (fun idx => ((get idx).map (fun x => abs x * abs x)).getD 0)).sum := by
  rw [← C25_sum len (fun idx => (get idx).map (fun x => abs x * abs x)) _ L hn hL]
  · rw [frobeniusSq, sum, fold, fold, forEach_eq, forEach_eq]
    apply Assign.foldlM_congr
    intro idx hi s
    obtain ⟨x, hx⟩ := hd idx (mem_box.mp hi)
    simp [hx]
  · intro idx hi
    obtain ⟨x, hx⟩ := hd idx hi
    exact ⟨abs x * abs x, by simp [hx]⟩

/-- C25 for arrays in memory: the hypothesis on element accesses holds. -/
theorem C25_in_memory (v : View) (mem : List α) (hv : Assign.Good v mem.length) :
    (∀ idx, InRange v.lay.len idx → ∃ x, Assign.load v idx mem = some x) ∧
    ∀ (f : ρ → α → ρ) (r : ρ), ∃ vals : List α, fold f v.lay.len (fun idx => Assign.load v idx mem) r = some (vals.foldl f r) ∧
      ∃ L, LexEnum v.lay.len L ∧ vals.length = L.length ∧ ∀ k : Nat, vals[k]? = L[k]?.bind (fun idx => val mem (addr v idx)) := by
  have hd : ∀ idx, InRange v.lay.len idx → ∃ x, Assign.load v idx mem = some x := by
    intro idx hi
    rw [Assign.load_eq hv hi]; exact Assign.val_isSome (hv.fits idx hi)
  refine ⟨hd, fun f r => ?_⟩
  obtain ⟨vals, e, hl, hk⟩ := mapM_some (get := fun idx => Assign.load v idx mem) (L := box v.lay.len) (fun idx h => hd idx (mem_box.mp h))
  refine ⟨vals, by rw [C25_fold _ _ _ _ _ (lexEnum_box _), e]; rfl, _, lexEnum_box _, hl, fun k => ?_⟩
  rw [hk k]
  cases hb : (box v.lay.len)[k]? with
  | none => rfl
  | some idx =>
    simp only [Option.bind_some]
    exact Assign.load_eq hv (mem_box.mp (List.mem_of_getElem? hb))

/-- A Fortran-order 2 by 3 matrix: subtraction does not commute and shows the order. -/
example : fold (fun r x => r * 10 + x) [2, 3] (fun idx => Assign.load ⟨0, ⟨[2, 3], [1, 2], [1, 0], [0, 0], .contiguous⟩⟩ idx [1, 2, 3, 4, 5, 6]) 0 =
    some 135246 := by decide
example : maxElement (fun x y => decide (x < y)) [2, 3] (fun idx => Assign.load ⟨0, ⟨[2, 3], [1, 2], [1, 0], [0, 0], .contiguous⟩⟩ idx [1, 2, 3, 9, 5, 6]) =
    some 9 := by decide
example : WeakOrder (fun x y : Int => decide (x < y)) :=
  ⟨by simp, by simp; intros; omega, by simp; intros; omega⟩

/-- With a NaN (`none`: not comparable) the maximum depends on the order: `<` of floating point numbers is not a weak order. -/
theorem C25_nan_witness :
    let lt : Option Int → Option Int → Bool := fun x y => match x, y with | some a, some b => decide (a < b) | _, _ => false
    ¬ WeakOrder lt ∧ maxElement lt [2] (fun idx => [none, some 5][(idx.headD 0).toNat]?) = some none ∧
      maxElement lt [2] (fun idx => [some 5, none][(idx.headD 0).toNat]?) = some (some 5) := by
  refine ⟨fun h => ?_, by decide, by decide⟩
  have := h.incomp (some 1) none (some 2) rfl rfl
  simp at this

/-- The maximum of an empty array reads a first element that does not exist. -/
theorem C25_empty_witness (lt : Int → Int → Bool) :
    maxElement lt [0] (fun idx => Assign.load ⟨0, ⟨[0], [1], [0], [0], .contiguous⟩⟩ idx []) = none := rfl

end Nda.Algorithms
