import Verif.Lemmas.Order
import Verif.Lemmas.IdxMap
import Verif.Lemmas.Perm
import Verif.Model.Loops
/-!
# C15: looping over a shape
-/
namespace Nda.Loops
open Nda Nda.Spec

theorem foldlM_flatMap {α β σ : Type} (g : α → List β) (f : σ → β → Option σ) : ∀ (l : List α) (s : σ),
    (l.flatMap g).foldlM f s = l.foldlM (fun s a => (g a).foldlM f s) s
  | [], s => rfl
  | a :: l, s => by
    simp only [List.flatMap_cons, List.foldlM_append, List.foldlM_cons]
    congr 1; funext s'; exact foldlM_flatMap g f l s'

theorem foldlM_map' {α β σ : Type} (g : α → β) (f : σ → β → Option σ) (l : List α) (s : σ) :
    (l.map g).foldlM f s = l.foldlM (fun s a => f s (g a)) s := by
  rw [List.foldlM_map]

theorem replicate_getD (n u : Nat) : (List.replicate n 0).getD u 0 = 0 := by
  rw [List.getD_eq_getElem?_getD, List.getElem?_replicate]; split <;> rfl

/-- The extent used for dimension `j`. -/
def effExtent (se : List Nat) (lens : List Int) (j : Nat) : Int := if se.getD j 0 = 0 then lens.getD j 0 else (se.getD j 0 : Int)

theorem getExtent_eq {se : List Nat} {lens : List Int} (hl : se.length = lens.length) {j : Nat} (hj : j < lens.length) :
    getExtent se lens j = some (effExtent se lens j) := by
  unfold getExtent effExtent
  have h1 : rd lens j = some (lens.getD j 0) := IdxMap.rd_getD hj
  have h2 : rd se j = some (se.getD j 0) := by
    simp [rd, List.getD_eq_getElem?_getD, List.getElem?_eq_getElem (show j < se.length by omega)]
  by_cases hz : se.all (· == 0) = true
  · rw [if_pos hz, h1]
    rw [List.all_eq_true] at hz
    have : se.getD j 0 = 0 := by
      rw [List.getD_eq_getElem?_getD, List.getElem?_eq_getElem (show j < se.length by omega)]
      simpa using hz se[j] (List.getElem_mem _)
    rw [if_pos this]
  · rw [if_neg hz, h2]
    simp only [Option.bind_eq_bind, Option.bind_some, h1]
    split <;> rfl

theorem forEachImpl_eq {σ : Type} {se : List Nat} {lens : List Int} (hl : se.length = lens.length) :
    ∀ (js : List Nat) (_ : ∀ j ∈ js, j < lens.length) (f : List Int → σ → Option σ) (s : σ),
      forEachImpl se lens js f s = (box (js.map (effExtent se lens))).foldlM (fun s x => f x s) s
  | [], _, f, s => by simp [forEachImpl, box]
  | j :: js, h, f, s => by
    rw [forEachImpl, getExtent_eq hl (h j List.mem_cons_self)]
    simp only [Option.bind_eq_bind, Option.bind_some, List.map_cons, box, forLoop]
    rw [foldlM_flatMap]
    congr 1; funext s' i
    rw [forEachImpl_eq hl js (fun k hk => h k (List.mem_cons_of_mem _ hk)), foldlM_map']

theorem forEach_eq {σ : Type} (lens : List Int) (f : List Int → σ → Option σ) (s : σ) :
    forEach lens f s = (box lens).foldlM (fun s x => f x s) s := by
  rw [forEach, forEachImpl_eq (by simp) _ (fun j hj => List.mem_range.mp hj)]
  congr 2
  apply List.ext_getElem (by simp)
  intro u hu hu'
  simp only [List.length_map, List.length_range] at hu
  simp only [List.getElem_map, List.getElem_range, effExtent, replicate_getD, if_true]
  rw [List.getD_eq_getElem?_getD, List.getElem?_eq_getElem hu]; rfl

/-- **C15** `for_each` runs the callback on every in-range tuple exactly once, in lexicographic
order: for every state and callback it equals folding the callback over *the* ordered enumeration
of the box. -/
theorem C15_for_each (lens : List Int) :
    ∃ L, LexEnum lens L ∧ ∀ (σ : Type) (f : List Int → σ → Option σ) (s : σ), forEach lens f s = L.foldlM (fun s x => f x s) s :=
  ⟨box lens, lexEnum_box lens, fun _ f s => forEach_eq lens f s⟩

/-- **C15** That enumeration is unique, has as many entries as the shape has elements, and its
`k`-th entry is the tuple at position `k`. -/
theorem C15_enumeration (lens : List Int) (hn : NonNeg lens) (L : List (List Int)) (h : LexEnum lens L) :
    (∀ L', LexEnum lens L' → L' = L) ∧ (L.length : Int) = Spec.prod lens ∧ L.Nodup ∧
      ∀ k, ∀ hk : k < L.length, lin lens L[k] = k := by
  have e := h.eq_box
  refine ⟨fun L' h' => h'.eq_box.trans e.symm, by rw [e]; exact box_length hn, h.nodup, ?_⟩
  subst e
  intro k hk
  have h1 := box_lin hn
  have h2 : ((box lens).map (lin lens))[k]? = ((List.range (Spec.prod lens).toNat).map Int.ofNat)[k]? := by rw [h1]
  have hkl : k < (Spec.prod lens).toNat := by have := box_length hn; omega
  simpa [List.getElem?_eq_getElem hk, hkl] using h2

/-- **C15** The calls, as a trace. -/
theorem C15_trace (lens : List Int) : ∃ L, LexEnum lens L ∧
    forEach lens (fun x (s : List (List Int)) => some (s ++ [x])) [] = some L := by
  refine ⟨box lens, lexEnum_box lens, ?_⟩
  rw [forEach_eq]
  have : ∀ (l s : List (List Int)), l.foldlM (fun s x => some (s ++ [x])) s = some (s ++ l) := by
    intro l
    induction l with
    | nil => intro s; simp
    | cons a l ih => intro s; simp [List.foldlM_cons, ih]
  simpa using this (box lens) []

/-- **C15** A shape with a zero (or negative) extent: the callback is never called. -/
theorem C15_empty (lens : List Int) (l : Int) (hl : l ∈ lens) (h0 : l ≤ 0) (σ : Type) (f : List Int → σ → Option σ) (s : σ) :
    forEach lens f s = some s := by
  rw [forEach_eq]
  have : box lens = [] := by
    apply List.eq_nil_iff_forall_not_mem.mpr
    intro x hx
    have := (mem_box.mp hx).nonneg_len l hl
    omega
  rw [this]; rfl

/-- **C15** `for_each_static` in C order with static extents that match the shape is `for_each`. -/
theorem C15_static (lens : List Int) (se : List Nat) (hl : se.length = lens.length)
    (hs : ∀ u, se.getD u 0 ≠ 0 → lens.getD u 0 = ((se.getD u 0 : Nat) : Int)) (σ : Type) (f : List Int → σ → Option σ) (s : σ) :
    forEachStatic se (List.range lens.length) lens f s = forEach lens f s := by
  rw [forEachStatic, forEachImpl_eq hl _ (fun j hj => List.mem_range.mp hj), forEach_eq]
  congr 2
  apply List.ext_getElem (by simp)
  intro u hu hu'
  simp only [List.length_map, List.length_range] at hu
  simp only [List.getElem_map, List.getElem_range, effExtent]
  have e : lens.getD u 0 = lens[u] := by rw [List.getD_eq_getElem?_getD, List.getElem?_eq_getElem hu]; rfl
  split
  · exact e
  · rename_i h; rw [← hs u h, e]

/-- **C15** In another memory order the loops are nested in that order and the callback receives
the indices in loop order: it is called on the tuples of the *permuted* shape. -/
theorem C15_static_order (lens : List Int) (so : List Nat) (hp : IsPerm so) (hl : so.length = lens.length)
    (σ : Type) (f : List Int → σ → Option σ) (s : σ) :
    forEachStatic (List.replicate lens.length 0) so lens f s = forEach (memOrder so lens) f s := by
  rw [forEachStatic, forEachImpl_eq (by simp) _ (fun j hj => by have := Nda.Perm.IsPerm.lt hp hj; omega), forEach_eq]
  congr 2
  apply List.map_congr_left
  intro j hj
  simp only [effExtent, replicate_getD, if_true]

/-- **C15** Hence the claim fails for `for_each_static` with a non-C order: on shape (2,3) in
Fortran order the callback receives (2,1), which is not an index of the shape. -/
theorem C15_static_order_witness :
    forEachStatic [0, 0] [1, 0] [2, 3] (fun x (s : List (List Int)) => some (s ++ [x])) [] =
      some [[0, 0], [0, 1], [1, 0], [1, 1], [2, 0], [2, 1]] ∧ ¬ InRange [2, 3] [2, 1] := by decide

example : forEach [2, 3] (fun x (s : List (List Int)) => some (s ++ [x])) [] =
    some [[0, 0], [0, 1], [0, 2], [1, 0], [1, 1], [1, 2]] := by decide
example : LexEnum [2, 2] [[0, 0], [0, 1], [1, 0], [1, 1]] :=
  ⟨by decide, fun x => by rw [show [[0, 0], [0, 1], [1, 0], [1, 1]] = box [2, 2] from rfl, mem_box]⟩

end Nda.Loops
