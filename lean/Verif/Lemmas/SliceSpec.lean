import Verif.Lemmas.Slice
/-!
# Slicing: the closed form meets the per-dimension specification
-/
namespace Nda.Slice
open Nda Nda.Spec Nda.Perm Nda.IdxMap

/-- Values of surviving dimensions, by recursion. -/
def keepMap {β γ : Type} (F : Arg → β → γ) : List Arg → List β → List γ
  | a :: X, l :: L => if isRange a then F a l :: keepMap F X L else keepMap F X L
  | _, _ => []

theorem keptDims_cons (a : Arg) (X : List Arg) :
    keptDims (a :: X) = (if isRange a then [0] else []) ++ (keptDims X).map (· + 1) := by
  simp only [keptDims, List.length_cons, List.range_succ_eq_map, List.filter_cons]
  have h1 : kept (a :: X) 0 = isRange a := by simp [kept, at']
  have h2 : (kept (a :: X)) ∘ Nat.succ = kept X := by funext n; simp [kept, at']
  rw [h1, List.filter_map, h2]
  cases isRange a <;> simp

theorem keptDims_map {β γ : Type} (F : Arg → β → γ) (d : β) (X : List Arg) (L : List β) (h : X.length = L.length) :
    (keptDims X).map (fun n => F (at' X n) (L.getD n d)) = keepMap F X L := by
  induction X generalizing L with
  | nil => rfl
  | cons a X ih =>
    cases L with
    | nil => simp at h
    | cons l L =>
      rw [keptDims_cons, keepMap, ← ih L (by simpa using h), List.map_append, List.map_map]
      cases hr : isRange a <;> simp [at', Function.comp_def]

theorem range_map_sum (G : Arg → Int → Int) (X : List Arg) (S : List Int) (h : X.length = S.length) :
    ((List.range X.length).map (fun n => G (at' X n) (S.getD n 0))).sum = (List.zipWith G X S).sum := by
  congr 1
  apply List.ext_getElem (by simp [h])
  intro i h1 h2
  simp at h1 h2
  simp [at', h1, h2]

/-- Stride of a surviving dimension. -/
def gs (a : Arg) (s : Int) : Int := (getS a s).getD 0
/-- Extent of a surviving dimension. -/
def gl (a : Arg) (l : Int) : Int := (getL a l).getD 0

theorem not_mem_ell_expand (N : Nat) (args : List Arg) : Arg.ell ∉ expand N args := by
  unfold expand
  simp only [List.mem_flatMap, not_exists, not_and]
  intro a _
  cases a <;> simp [expandArg]

theorem dot_coords {X : List Arg} (hX : Arg.ell ∉ X) (S p : List Int)
    (hs : X.length = S.length) (hp : p.length = X.countP isRange) :
    (List.zipWith getOffset X S).sum + dot (keepMap gs X S) p = dot S (coords X p) := by
  induction X generalizing S p with
  | nil => cases S <;> simp_all [keepMap, dot]
  | cons a X ih =>
    cases S with
    | nil => simp at hs
    | cons s S =>
      simp only [List.mem_cons, not_or] at hX
      simp only [List.length_cons, Nat.add_right_cancel_iff] at hs
      cases a with
      | ell => exact absurd rfl hX.1
      | idx i =>
        have := ih hX.2 S p hs (by simpa [isRange, List.countP_cons] using hp)
        simp only [List.zipWith_cons_cons, List.sum_cons, getOffset, keepMap, isRange, coords, dot]
        simp only [Bool.false_eq_true, if_false]
        rw [← this]; ring
      | all =>
        cases p with
        | nil => simp [isRange, List.countP_cons] at hp
        | cons x p =>
          have := ih hX.2 S p hs (by simpa [isRange, List.countP_cons] using hp)
          simp only [List.zipWith_cons_cons, List.sum_cons, getOffset, keepMap, isRange, coords, dot, if_true, gs, getS,
            Option.getD_some]
          rw [← this]; ring
      | rng f la st =>
        cases p with
        | nil => simp [isRange, List.countP_cons] at hp
        | cons x p =>
          have := ih hX.2 S p hs (by simpa [isRange, List.countP_cons] using hp)
          simp only [List.zipWith_cons_cons, List.sum_cons, getOffset, keepMap, isRange, coords, dot, if_true, gs, getS,
            Option.getD_some]
          rw [← this]; ring

theorem keepMap_length {β γ : Type} (F : Arg → β → γ) (X : List Arg) (L : List β) (h : X.length = L.length) :
    (keepMap F X L).length = X.countP isRange := by
  induction X generalizing L with
  | nil => rfl
  | cons a X ih =>
    cases L with
    | nil => simp at h
    | cons l L =>
      have := ih L (by simpa using h)
      rw [keepMap, List.countP_cons]
      cases isRange a <;> simp [this]

theorem stepsOK_cons {a : Arg} {X : List Arg} (h : StepsOK (a :: X)) : StepsOK X :=
  fun f l s hm => h f l s (List.mem_cons_of_mem _ hm)

theorem gl_isCount {f la st l : Int} (h : st ≠ 0) : IsCount f (stop la st l) st (gl (.rng f la st) l) := by
  obtain ⟨n, h1, h2⟩ := rangeSize_isCount (f := f) (la := stop la st l) h
  have : gl (.rng f la st) l = n := by
    simp only [gl, getL]; unfold stop at h1; rw [h1]; rfl
  rw [this]; exact h2

theorem sliceShape_keepMap {X : List Arg} (hX : Arg.ell ∉ X) (hst : StepsOK X) (L : List Int)
    (h : X.length = L.length) : SliceShape X L (keepMap gl X L) := by
  induction X generalizing L with
  | nil =>
    cases L with
    | nil => trivial
    | cons _ _ => simp at h
  | cons a X ih =>
    cases L with
    | nil => simp at h
    | cons l L =>
      simp only [List.mem_cons, not_or] at hX
      have := ih hX.2 (stepsOK_cons hst) L (by simpa using h)
      cases a with
      | ell => exact absurd rfl hX.1
      | idx i => simpa [keepMap, isRange, SliceShape] using this
      | all => exact ⟨rfl, this⟩
      | rng f la st =>
        refine ⟨gl_isCount ?_, this⟩
        exact hst f la st List.mem_cons_self

theorem inside_coords {X : List Arg} (hX : Arg.ell ∉ X) (hst : StepsOK X) {L p : List Int}
    (hin : Inside X L) (hp : InRange (keepMap gl X L) p) : InRange L (coords X p) := by
  induction X generalizing L p with
  | nil =>
    cases L with
    | nil => simp [coords, InRange]
    | cons _ _ => exact hin.elim
  | cons a X ih =>
    cases L with
    | nil => exact hin.elim
    | cons l L =>
      simp only [List.mem_cons, not_or] at hX
      cases a with
      | ell => exact absurd rfl hX.1
      | idx i =>
        exact ⟨hin.1, ih hX.2 (stepsOK_cons hst) hin.2 (by simpa [keepMap, isRange] using hp)⟩
      | all =>
        cases p with
        | nil => simp [keepMap, isRange, InRange] at hp
        | cons x p =>
          simp only [keepMap, isRange, if_true] at hp
          exact ⟨by simpa [gl, getL] using hp.1, ih hX.2 (stepsOK_cons hst) hin.2 hp.2⟩
      | rng f la st =>
        cases p with
        | nil => simp [keepMap, isRange, InRange] at hp
        | cons x p =>
          simp only [keepMap, isRange, if_true] at hp
          have hs : st ≠ 0 := hst f la st List.mem_cons_self
          have := hin.1.2 x _ (gl_isCount (l := l) hs) hp.1.1 hp.1.2
          rw [Int.mul_comm] at this
          exact ⟨this, ih hX.2 (stepsOK_cons hst) hin.2 hp.2⟩

theorem coords_inj {X : List Arg} (hX : Arg.ell ∉ X) (hst : StepsOK X) {p q : List Int}
    (hp : p.length = X.countP isRange) (hq : q.length = X.countP isRange)
    (h : coords X p = coords X q) : p = q := by
  induction X generalizing p q with
  | nil => simp at hp hq; rw [hp, hq]
  | cons a X ih =>
    simp only [List.mem_cons, not_or] at hX
    cases a with
    | ell => exact absurd rfl hX.1
    | idx i =>
      simp only [coords, List.cons.injEq, true_and] at h
      exact ih hX.2 (stepsOK_cons hst) (by simpa [isRange, List.countP_cons] using hp) (by simpa [isRange, List.countP_cons] using hq) h
    | all =>
      cases p with
      | nil => simp [isRange, List.countP_cons] at hp
      | cons x p =>
        cases q with
        | nil => simp [isRange, List.countP_cons] at hq
        | cons y q =>
          simp only [coords, List.cons.injEq] at h
          rw [h.1, ih hX.2 (stepsOK_cons hst) (by simpa [isRange, List.countP_cons] using hp) (by simpa [isRange, List.countP_cons] using hq) h.2]
    | rng f la st =>
      cases p with
      | nil => simp [isRange, List.countP_cons] at hp
      | cons x p =>
        cases q with
        | nil => simp [isRange, List.countP_cons] at hq
        | cons y q =>
          simp only [coords, List.cons.injEq] at h
          have hs : st ≠ 0 := hst f la st List.mem_cons_self
          have : x = y := by
            have h1 : st * x = st * y := by omega
            exact Int.eq_of_mul_eq_mul_left hs h1
          rw [this, ih hX.2 (stepsOK_cons hst) (by simpa [isRange, List.countP_cons] using hp) (by simpa [isRange, List.countP_cons] using hq) h.2]

theorem inside_stepsOK {X : List Arg} {L : List Int} (h : Inside X L) : StepsOK X := by
  induction X generalizing L with
  | nil => intro f l s hm; simp at hm
  | cons a X ih =>
    cases L with
    | nil => exact h.elim
    | cons l L =>
      intro f la st hm
      rcases List.mem_cons.mp hm with rfl | hm
      · exact h.1.1
      · exact ih h.2 f la st hm

theorem coords_length {X : List Arg} (hX : Arg.ell ∉ X) {p : List Int} (hp : p.length = X.countP isRange) :
    (coords X p).length = X.length := by
  induction X generalizing p with
  | nil => rfl
  | cons a X ih =>
    simp only [List.mem_cons, not_or] at hX
    cases a with
    | ell => exact absurd rfl hX.1
    | idx i => simpa [coords] using ih hX.2 (by simpa [isRange, List.countP_cons] using hp)
    | all =>
      cases p with
      | nil => simp [isRange, List.countP_cons] at hp
      | cons x p => simpa [coords] using ih hX.2 (by simpa [isRange, List.countP_cons] using hp)
    | rng f la st =>
      cases p with
      | nil => simp [isRange, List.countP_cons] at hp
      | cons x p => simpa [coords] using ih hX.2 (by simpa [isRange, List.countP_cons] using hp)

/-! ### Stride order and flags of the slice -/

theorem slicedSo_isPerm {so : List Nat} (hp : IsPerm so) {X : List Arg} (hl : so.length = X.length) :
    IsPerm ((so.filter (kept X)).map ((keptDims X).idxOf ·)) := by
  have hlen := filter_perm_length hp hl
  have hmem : ∀ n ∈ so.filter (kept X), n ∈ keptDims X := by
    intro n hn
    obtain ⟨h1, h2⟩ := List.mem_filter.mp hn
    exact mem_keptDims.mpr ⟨by have := IsPerm.lt hp h1; omega, h2⟩
  apply isPerm_of_nodup_lt
  · apply List.Nodup.map_on _ ((IsPerm.nodup hp).filter _)
    intro x hx y _ hxy
    exact (List.idxOf_inj (hmem x hx)).mp hxy
  · intro k hk
    obtain ⟨n, hn, rfl⟩ := List.mem_map.mp hk
    rw [List.length_map, hlen]
    exact List.idxOf_lt_length_of_mem (hmem n hn)

theorem memOrder_sliced {so : List Nat} (hp : IsPerm so) {X : List Arg} (hl : so.length = X.length)
    (f : Nat → Int) :
    memOrder ((so.filter (kept X)).map ((keptDims X).idxOf ·)) ((keptDims X).map f) = (so.filter (kept X)).map f := by
  rw [memOrder, List.map_map]
  apply List.map_congr_left
  intro n hn
  obtain ⟨h1, h2⟩ := List.mem_filter.mp hn
  have hm : n ∈ keptDims X := mem_keptDims.mpr ⟨by have := IsPerm.lt hp h1; omega, h2⟩
  have hi := List.idxOf_lt_length_of_mem hm
  simp only [Function.comp]
  rw [List.getD_eq_getElem?_getD, List.getElem?_map, List.getElem?_eq_getElem hi]
  simp

theorem countBlocks_mono (bs : List Bool) (n : Nat) (prev : Bool) : n ≤ (countBlocks bs n prev).1 := by
  induction bs generalizing n prev with
  | nil => exact Nat.le_refl _
  | cons b bs ih =>
    simp only [countBlocks]
    split
    · exact Nat.le_trans (Nat.le_succ n) (ih _ _)
    · exact ih _ _

/-- At most one more block while inside a block: trues then falses. -/
theorem countBlocks_in {α : Type} (k : α → Bool) (so : List α) (h : (countBlocks (so.map k) 1 true).1 ≤ 1) :
    ∃ b c, so = b ++ c ∧ so.filter k = b ∧ ((countBlocks (so.map k) 1 true).2 = true → c = []) := by
  induction so with
  | nil => exact ⟨[], [], rfl, rfl, fun _ => rfl⟩
  | cons x so ih =>
    simp only [List.map_cons, countBlocks] at h ⊢
    cases hx : k x with
    | true =>
      simp only [hx, Bool.not_true, Bool.and_false, Bool.false_eq_true, if_false] at h ⊢
      obtain ⟨b, c, h1, h2, h3⟩ := ih h
      exact ⟨x :: b, c, by simp [h1], by simp [hx, h2], h3⟩
    | false =>
      simp only [hx, Bool.not_true, Bool.and_false, Bool.false_eq_true, if_false] at h ⊢
      -- after a false, no true may follow
      have key : ∀ l : List α, (countBlocks (l.map k) 1 false).1 ≤ 1 →
          l.filter k = [] ∧ (countBlocks (l.map k) 1 false).2 = false := by
        intro l
        induction l with
        | nil => intro _; exact ⟨rfl, rfl⟩
        | cons y l ih' =>
          intro hl
          simp only [List.map_cons, countBlocks] at hl ⊢
          cases hy : k y with
          | true =>
            simp only [hy, Bool.not_false, Bool.and_true, if_true] at hl
            have := countBlocks_mono (l.map k) (1 + 1) true
            omega
          | false =>
            simp only [hy, Bool.false_and, Bool.false_eq_true, if_false] at hl ⊢
            have := ih' hl
            exact ⟨by simp [hy, this.1], this.2⟩
      obtain ⟨g1, g2⟩ := key so h
      exact ⟨[], x :: so, rfl, by simp [hx, g1], fun hc => by rw [g2] at hc; cases hc⟩

/-- At most one block: falses, trues, falses. -/
theorem countBlocks_split {α : Type} (k : α → Bool) (so : List α) (h : (countBlocks (so.map k) 0 false).1 ≤ 1) :
    ∃ a b c, so = a ++ b ++ c ∧ so.filter k = b ∧ ((countBlocks (so.map k) 0 false).2 = true → c = []) := by
  induction so with
  | nil => exact ⟨[], [], [], rfl, rfl, fun _ => rfl⟩
  | cons x so ih =>
    simp only [List.map_cons, countBlocks] at h ⊢
    cases hx : k x with
    | true =>
      simp only [hx, Bool.not_false, Bool.and_true, if_true] at h ⊢
      obtain ⟨b, c, h1, h2, h3⟩ := countBlocks_in k so h
      exact ⟨[], x :: b, c, by simp [h1], by simp [hx, h2], h3⟩
    | false =>
      simp only [hx, Bool.false_and, Bool.false_eq_true, if_false] at h ⊢
      obtain ⟨a, b, c, h1, h2, h3⟩ := ih h
      exact ⟨x :: a, b, c, by simp [h1], by simp [hx, h2], h3⟩

theorem countBlocks_last {α : Type} (k : α → Bool) (so : List α) (n : Nat) (prev : Bool) (u : α)
    (h : so.getLast? = some u) : (countBlocks (so.map k) n prev).2 = k u := by
  induction so generalizing n prev with
  | nil => simp at h
  | cons x so ih =>
    simp only [List.map_cons, countBlocks]
    cases so with
    | nil => simp at h; subst h; rfl
    | cons y so => exact ih _ _ (by simpa [List.getLast?_cons] using h)

theorem dense_append (a b : List Int) : dense (a ++ b) = (dense a).map (Spec.prod b * ·) ++ dense b := by
  induction a with
  | nil => rfl
  | cons x a ih =>
    simp only [List.cons_append, dense, ih, List.map_cons, prod_append]
    rw [Int.mul_comm]

theorem evenly_middle {f g : Nat → Int} {a b c : List Nat} {k : Int}
    (h : (a ++ b ++ c).map f = (dense ((a ++ b ++ c).map g)).map (k * ·)) :
    b.map f = (dense (b.map g)).map ((k * Spec.prod (c.map g)) * ·) := by
  simp only [List.map_append, dense_append, List.map_map] at h
  have hl : (a.map f ++ b.map f).length =
      ((dense (a.map g)).map ((fun x => k * x) ∘ (fun x => Spec.prod (c.map g) * x) ∘ (fun x => Spec.prod (b.map g) * x)) ++
        (dense (b.map g)).map ((fun x => k * x) ∘ fun x => Spec.prod (c.map g) * x)).length := by
    simp [dense_length]
  have h1 := List.append_inj h hl
  have h2 := List.append_inj h1.1 (by simp [dense_length])
  rw [h2.2]
  apply List.map_congr_left
  intro x _
  simp [Function.comp, Int.mul_assoc]

end Nda.Slice
