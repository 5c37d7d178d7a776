import Verif.Model.InitList
import Verif.Lemmas.Arrays
import Verif.Spec.InitList
import Verif.Lemmas.Assign
/-!
# Nested brace lists
-/
namespace Nda.Arr
open Nda Nda.Mem Nda.Spec Spec Loops Nda.Perm

variable {V : Type}

/-! ### The shape -/

/-- The shape `*max` has, as the loop goes over the shapes `ss`: `a` is the shape of the first element. -/
def finalShape {S : Type} [DecidableEq S] (a : S) : List S → S → S
  | [], m => m
  | [z], m => if z = a then m else z
  | _ :: n :: l, _ => finalShape a l n

theorem finalShape_even {S : Type} [DecidableEq S] (a : S) : ∀ (l : List S) (m : S), l.length % 2 = 0 → finalShape a l m = l.getLastD m
  | [], m, _ => rfl
  | [_], m, h => by simp at h
  | f :: n :: l, m, h => by
      rw [finalShape, finalShape_even a l n (by simp at h; omega), List.getLastD_cons, List.getLastD_cons]

theorem finalShape_odd {S : Type} [DecidableEq S] (a : S) : ∀ (l : List S) (m : S), l.length % 2 = 1 →
    finalShape a l m = if l.getLastD m = a then l.dropLast.getLastD m else l.getLastD m
  | [], m, h => by simp at h
  | [z], m, h => by simp [finalShape, List.getLastD]
  | f :: n :: l, m, h => by
      have hl : l ≠ [] := by rintro rfl; simp at h
      obtain ⟨c, l', rfl⟩ := List.exists_cons_of_ne_nil hl
      rw [finalShape, finalShape_odd a (c :: l') n (by simp at h ⊢; omega)]
      simp only [List.getLastD_cons, List.dropLast_cons_cons]

theorem minmaxLoop_spec {α S : Type} [DecidableEq S] (s : α → S) (cmp : α → α → Except Err Bool) (P : α → Prop)
    (hc : ∀ x y, P x → P y → cmp x y = .ok (decide (s x = s y))) :
    ∀ (l : List α) (mn mx : α), (∀ x ∈ l, P x) → P mn → P mx →
      ∃ mn' mx', minmaxLoop cmp l mn mx = .ok (mn', mx') ∧ P mn' ∧ P mx' ∧ s mn' = s mn ∧ s mx' = finalShape (s mn) (l.map s) (s mx)
  | [], mn, mx, _, h1, h2 => ⟨mn, mx, rfl, h1, h2, rfl, rfl⟩
  | [f], mn, mx, hl, h1, h2 => by
      have hf := hl f (by simp)
      simp only [minmaxLoop, hc f mn hf h1, hc f mx hf h2, List.map, finalShape]
      by_cases e1 : s f = s mn
      · exact ⟨f, mx, by simp [e1, bind, Except.bind, pure, Except.pure], hf, h2, e1, by rw [if_pos e1]⟩
      · by_cases e2 : s f = s mx
        · exact ⟨mn, mx, by
            have e3 : ¬ s mx = s mn := fun h => e1 (e2.trans h)
            simp [e2, e3, bind, Except.bind, pure, Except.pure], h1, h2, rfl, by rw [if_neg e1, e2]⟩
        · exact ⟨mn, f, by simp [e1, e2, bind, Except.bind, pure, Except.pure], h1, hf, rfl, by rw [if_neg e1]⟩
  | f :: n :: l, mn, mx, hl, h1, h2 => by
      have hf := hl f (by simp)
      have hn := hl n (by simp)
      have hl' : ∀ x ∈ l, P x := fun x hx => hl x (by simp [hx])
      rw [minmaxLoop, hc n f hn hf, hc n mn hn h1, hc f mx hf h2, hc f mn hf h1, hc n mx hn h2]
      simp only [bind, Except.bind]
      have key : ∀ a b, P a → P b → s a = s mn → s b = s n →
          ∃ mn' mx', minmaxLoop cmp l a b = .ok (mn', mx') ∧ P mn' ∧ P mx' ∧ s mn' = s mn ∧ s mx' = finalShape (s mn) ((f :: n :: l).map s) (s mx) := by
        intro a b ha hb ea eb
        obtain ⟨mn', mx', g1, g2, g3, g4, g5⟩ := minmaxLoop_spec s cmp P hc l a b hl' ha hb
        refine ⟨mn', mx', g1, g2, g3, g4.trans ea, ?_⟩
        rw [g5, ea, eb]; rfl
      by_cases e : s n = s f
      · rw [if_pos (by simp [e])]
        apply key
        · split <;> assumption
        · split <;> assumption
        · by_cases e1 : s n = s mn <;> simp [e1]
        · by_cases e2 : s f = s mx <;> simp [e2, e]
      · rw [if_neg (by simp [e])]
        apply key
        · split <;> assumption
        · split <;> assumption
        · by_cases e1 : s f = s mn <;> simp [e1]
        · by_cases e2 : s n = s mx <;> simp [e2]

theorem shapeList_spec {L : Type} (checks : Bool) (sh : L → Except Err (List Int)) (s : L → List Int) (l : List L) (x : L) (hx : l.head? = some x)
    (hs : ∀ x ∈ l, sh x = .ok (s x)) :
    ∃ mx, (mx = if l.length % 2 = 1 ∧ 3 ≤ l.length ∧ (l.map s).getLast? = some (s x) then (l.map s).dropLast.getLastD [] else (l.map s).getLastD []) ∧
      shapeList checks sh l = if checks = false ∨ mx = s x then .ok ((l.length : Int) :: mx) else .error .rejected := by
  have hcmp : ∀ x y, x ∈ l → y ∈ l → (do return (← sh x) == (← sh y) : Except Err Bool) = .ok (decide (s x = s y)) := by
    intro x y hx hy
    rw [hs x hx, hs y hy]
    simp only [bind, Except.bind, pure, Except.pure]
    by_cases e : s x = s y <;> simp [e]
  have fin : ∀ mn mx', mn ∈ l → mx' ∈ l → s mn = s x →
      minmaxElement (fun x y => do return (← sh x) == (← sh y)) l = .ok (mn, mx') →
      shapeList checks sh l = if checks = false ∨ s mx' = s x then .ok ((l.length : Int) :: s mx') else .error .rejected := by
    intro mn mx' h1 h2 e h
    rw [shapeList, h]
    simp only [bind, Except.bind, hs mn h1, hs mx' h2, pure, Except.pure, e]
    cases checks with
    | false => simp
    | true =>
        by_cases e2 : s x = s mx'
        · simp [e2]
        · simp [e2]; intro h; exact absurd h.symm e2
  match l, hx with
  | [_], rfl =>
      refine ⟨s x, by simp [List.getLastD], ?_⟩
      exact fin x x (by simp) (by simp) rfl rfl
  | _ :: y :: l, rfl =>
      have hloop := minmaxLoop_spec s (fun x y => do return (← sh x) == (← sh y)) (· ∈ x :: y :: l) hcmp l
      have hm : ∃ mn mx', minmaxElement (fun x y => do return (← sh x) == (← sh y)) (x :: y :: l) = .ok (mn, mx') ∧ mn ∈ x :: y :: l ∧ mx' ∈ x :: y :: l ∧
          s mn = s x ∧ s mx' = finalShape (s x) (l.map s) (s y) := by
        rw [minmaxElement, hcmp y x (by simp) (by simp)]
        simp only [bind, Except.bind]
        by_cases e : s y = s x
        · rw [if_pos (by simp [e])]
          obtain ⟨mn, mx', g1, g2, g3, g4, g5⟩ := hloop y x (fun z hz => by simp [hz]) (by simp) (by simp)
          exact ⟨mn, mx', g1, g2, g3, g4.trans e, by rw [g5, e]⟩
        · rw [if_neg (by simp [e])]
          obtain ⟨mn, mx', g1, g2, g3, g4, g5⟩ := hloop x y (fun z hz => by simp [hz]) (by simp) (by simp)
          exact ⟨mn, mx', g1, g2, g3, g4, g5⟩
      obtain ⟨mn, mx', g1, g2, g3, g4, g5⟩ := hm
      refine ⟨s mx', ?_, fin mn mx' g2 g3 g4 g1⟩
      rw [g5]
      have hlast : ((x :: y :: l).map s).getLastD [] = (l.map s).getLastD (s y) := by simp only [List.map_cons, List.getLastD_cons]
      have hlast? : ((x :: y :: l).map s).getLast? = some ((l.map s).getLastD (s y)) := by
        simp [List.getLast?_cons, List.getLastD_eq_getLast?]
      rcases Nat.mod_two_eq_zero_or_one l.length with h | h
      · rw [finalShape_even _ _ _ (by simpa using h), if_neg (by simp; omega), hlast]
      · rw [finalShape_odd _ _ _ (by simpa using h)]
        have hl : l ≠ [] := by rintro rfl; simp at h
        obtain ⟨c, l', rfl⟩ := List.exists_cons_of_ne_nil hl
        by_cases e : ((c :: l').map s).getLastD (s y) = s x
        · rw [if_pos e, if_pos ⟨by simp at h ⊢; omega, by simp, by rw [hlast?, e]⟩]
          simp only [List.map_cons, List.dropLast_cons_cons, List.getLastD_cons]
        · rw [if_neg e, if_neg (fun h' => e (Option.some.inj (hlast?.symm.trans h'.2.2))), hlast]

/-! ### The elements -/

theorem forIn_eq {α σ : Type} (body : Int → α → σ → Option σ) : ∀ (l : List α) (i : Int) (s : σ),
    forIn body l i s = (List.range l.length).foldlM (fun s (k : Nat) => (l[k]?).bind (fun x => body (i + k) x s)) s
  | [], i, s => rfl
  | x :: xs, i, s => by
      rw [forIn, List.length_cons, List.range_succ_eq_map, List.foldlM_cons]
      simp only [List.foldlM_map, List.getElem?_cons_zero, Option.bind_some, Int.ofNat_zero, Nat.cast_zero, Int.add_zero, Option.bind_eq_bind]
      congr 1; funext s'
      rw [forIn_eq body xs (i + 1) s']
      congr 1; funext s'' k
      simp only [List.getElem?_cons_succ, Nat.succ_eq_add_one, Nat.cast_add, Nat.cast_one]
      rw [show i + 1 + (k : Int) = i + ((k : Int) + 1) by omega]

theorem forEach_cons {σ : Type} (n : Int) (ns : List Int) (f : List Int → σ → Option σ) (s : σ) :
    forEach (n :: ns) f s = (List.range n.toNat).foldlM (fun s (i : Nat) => forEach ns (fun x s => f ((i : Int) :: x) s) s) s := by
  rw [forEach_eq, box, foldlM_flatMap]
  congr 1; funext s i
  rw [foldlM_map', forEach_eq]; rfl

theorem forEach_nil {σ : Type} (f : List Int → σ → Option σ) (s : σ) : forEach [] f s = f [] s := by
  rw [forEach_eq, box, List.foldlM_cons]
  simp

theorem foldlM_range_congr {σ : Type} {f g : σ → Nat → Option σ} {n : Nat} (s : σ) (h : ∀ i, i < n → ∀ s, f s i = g s i) :
    (List.range n).foldlM f s = (List.range n).foldlM g s :=
  Assign.foldlM_congr _ _ (fun i hi s => h i (by simpa using hi) s)

theorem place1_eq (triv : Bool) (m : IdxMap) (data : Option Nat) (pre : List Int) (l : List V) (hp : Heap V) :
    place1 triv m data pre l hp = forEach [(l.length : Int)] (fun idx hp => (at1 l idx).bind (fun x => placeNew triv m data (pre ++ idx) x hp)) hp := by
  rw [place1, forIn_eq, forEach_cons, Int.toNat_natCast]
  apply foldlM_range_congr
  intro i hi s
  rw [forEach_nil, at1, if_neg (by omega)]
  simp

theorem place2_eq (triv : Bool) (m : IdxMap) (data : Option Nat) (pre : List Int) (l : List (List V)) (n : Nat) (hn : ∀ r ∈ l, r.length = n) (hp : Heap V) :
    place2 triv m data pre l hp
      = forEach [(l.length : Int), (n : Int)] (fun idx hp => (at2 l idx).bind (fun x => placeNew triv m data (pre ++ idx) x hp)) hp := by
  rw [place2, forIn_eq, forEach_cons, Int.toNat_natCast]
  apply foldlM_range_congr
  intro i hi s
  have hg := List.getElem?_eq_getElem hi
  rw [hg, Option.bind_some, place1_eq, hn _ (List.getElem_mem hi)]
  congr 1; funext idx hp
  rw [at2, if_neg (by omega), Int.toNat_natCast, hg, Option.bind_some]
  simp

theorem place3_eq (triv : Bool) (m : IdxMap) (data : Option Nat) (l : List (List (List V))) (n k : Nat) (hn : ∀ r ∈ l, r.length = n)
    (hk : ∀ r ∈ l, ∀ q ∈ r, q.length = k) (hp : Heap V) :
    place3 triv m data l hp
      = forEach [(l.length : Int), (n : Int), (k : Int)] (fun idx hp => (at3 l idx).bind (fun x => placeNew triv m data idx x hp)) hp := by
  rw [place3, forIn_eq, forEach_cons, Int.toNat_natCast]
  apply foldlM_range_congr
  intro i hi s
  have hg := List.getElem?_eq_getElem hi
  rw [hg, Option.bind_some, place2_eq triv m data _ _ k (hk _ (List.getElem_mem hi)), hn _ (List.getElem_mem hi)]
  congr 1; funext idx hp
  rw [at3, if_neg (by omega), Int.toNat_natCast, hg, Option.bind_some]
  simp

/-- Construction of a rectangular list is construction from the function that gives its elements. -/
theorem initWith_build {triv : Bool} {so : List Nat} (hso : IsPerm so) {shape : List Int} (hs : IsShape so shape) (at' : List Int → Option V)
    (place : IdxMap → Option Nat → Heap V → Option (Heap V))
    (hpl : ∀ m data hp, place m data hp = forEach shape (fun idx hp => (at' idx).bind (fun x => placeNew triv m data idx x hp)) hp) (mem : Mem V) :
    initWith so shape place mem = (do
      let m ← layoutOf so shape
      let (h, mem) ← AProg.buildHandle triv m (fun idx _ => at' idx) mem
      return (m, h, mem)) := by
  obtain ⟨m, g1, g2, g3, g4, g5, g6, g7⟩ := layoutOf_spec hso hs
  simp only [initWith, g1, Option.bind_eq_bind, Option.bind_some, AProg.buildHandle]
  have hn : ¬ m.size < 0 := by omega
  rw [if_neg hn, if_neg hn]
  by_cases h0 : m.size = 0
  · rw [if_pos h0, if_pos h0, hpl, forEach_eq]
    have hbox : box shape = [] := by
      rw [List.eq_nil_iff_forall_not_mem]
      intro idx hi
      have := (g5 idx (mem_box.mp hi)).2
      rw [← g3, h0] at this; simp at this
    rw [hbox]; rfl
  · rw [if_neg h0, if_neg h0]
    simp only [Heap.alloc, hpl, AProg.placeAll, g2, placeNew, Option.bind_eq_bind, Option.bind_some]
    cases h : forEach shape (fun idx hp => (at' idx).bind fun x => (m.call (idx.map .idx)).bind fun k => if k < 0 then none else
        hp.construct triv mem.hp.length k.toNat x) (mem.hp ++ [⟨List.replicate m.size.toNat none, false⟩]) <;> rfl

end Nda.Arr
