import Verif.Model.StdArray
import Mathlib.Algebra.BigOperators.Group.List.Basic
import Mathlib.Tactic.Ring
/-!
# C73: arithmetic and shape changes of `std::array`

Stated with the list functions of Lean's library.
-/
namespace Nda.StdArray
open Nda

variable {α β γ : Type}

/-- Loops that write `v i` to `w i`. -/
theorem fill_spec (w : Nat → Nat) (v : Nat → Option α) (body : Nat → List α → Option (List α)) (hb : ∀ i s, body i s = (v i).bind (fun x => wr s (w i) x)) :
    ∀ (m a b : Nat) (s : List α), b - a = m → (∀ i, a ≤ i → i < b → (v i).isSome = true ∧ w i < s.length) → (∀ i j, a ≤ i → i < b → a ≤ j → j < b → w i = w j → i = j) →
      ∃ s', loop a b body s = some s' ∧ s'.length = s.length ∧ (∀ i, a ≤ i → i < b → s'[w i]? = v i) ∧ (∀ k, (∀ i, a ≤ i → i < b → w i ≠ k) → s'[k]? = s[k]?)
  | 0, a, b, s, hm, _, _ => ⟨s, by simp [loop, hm], rfl, fun i h1 h2 => by omega, fun _ _ => rfl⟩
  | m + 1, a, b, s, hm, hv, hw => by
    obtain ⟨h1, h2⟩ := hv a (le_refl _) (by omega)
    obtain ⟨x, hx⟩ := Option.isSome_iff_exists.mp h1
    obtain ⟨s', e, l, p, q⟩ := fill_spec w v body hb m (a + 1) b (s.set (w a) x) (by omega) (fun i i1 i2 => by
        rw [List.length_set]; exact hv i (by omega) i2) (fun i j i1 i2 j1 j2 => hw i j (by omega) i2 (by omega) j2)
    have hs : body a s = some (s.set (w a) x) := by rw [hb, hx, Option.bind_some, wr, if_pos h2]
    refine ⟨s', ?_, by rw [l, List.length_set], fun i i1 i2 => ?_, fun k hk => ?_⟩
    · rw [← e, loop, hm, List.range'_succ, List.foldlM_cons, hs, loop, show b - (a + 1) = m by omega]
      rfl
    · by_cases hi : i = a
      · subst hi
        rw [q (w i) (fun j j1 j2 hj => by have := hw j i (by omega) j2 (by omega) i2 hj; omega), hx, List.getElem?_set_self h2]
      · exact p i (by omega) i2
    · rw [q k (fun i i1 i2 => hk i (by omega) i2), List.getElem?_set_ne (hk a (le_refl _) (by omega))]

/-- A loop over the whole result. -/
theorem fill_all (v : Nat → Option α) (body : Nat → List α → Option (List α)) (hb : ∀ i s, body i s = (v i).bind (fun x => wr s i x)) (s r : List α) (n : Nat) (hs : s.length = n) (hr : r.length = n)
    (hv : ∀ i, i < n → v i = r[i]?) : loop 0 n body s = some r := by
  obtain ⟨s', e, l, p, -⟩ := fill_spec (fun i => i) v body hb n 0 n s (by omega) (fun i _ hi => ⟨by rw [hv i hi, List.getElem?_eq_getElem (by omega)]; rfl, by omega⟩) (fun i j _ _ _ _ h => h)
  rw [e]
  congr 1
  apply List.ext_getElem?
  intro i
  by_cases hi : i < n
  · rw [p i (by omega) hi, hv i hi]
  · rw [List.getElem?_eq_none (by omega), List.getElem?_eq_none (by omega)]

theorem initialized_eq (R : Nat) (v : α) : initialized R v = List.replicate R v := by
  unfold initialized
  apply List.ext_getElem
  · simp
  · intro i _ _; simp

/-- Accumulating loops. -/
theorem acc_spec (op : γ → γ → γ) (l : List γ) (body : Nat → γ → Option γ) (hb : ∀ i s, body i s = (l[i]?).map (op s)) :
    ∀ (m k b : Nat) (s : γ), k + m = b → b = l.length → loop k b body s = some ((l.drop k).foldl op s)
  | 0, k, b, s, hk, hl => by
    rw [List.drop_of_length_le (by omega), loop, show b - k = 0 by omega]; rfl
  | m + 1, k, b, s, hk, hl => by
    have hlt : k < l.length := by omega
    have ih := acc_spec op l body hb m (k + 1) b (op s l[k]) (by omega) hl
    have hs : body k s = some (op s l[k]) := by rw [hb, List.getElem?_eq_getElem hlt]; rfl
    rw [List.drop_eq_getElem_cons hlt, List.foldl_cons, ← ih, loop, show b - k = m + 1 by omega, List.range'_succ, List.foldlM_cons, hs, loop, show b - (k + 1) = m by omega]
    rfl

theorem foldl_sum [AddMonoid γ] : ∀ (l : List γ) (x : γ), l.foldl (fun a b => a + b) x = x + l.sum
  | [], x => by simp
  | y :: l, x => by rw [List.foldl_cons, foldl_sum l, List.sum_cons, add_assoc]

theorem foldl_prod [Monoid γ] : ∀ (l : List γ) (x : γ), l.foldl (fun a b => a * b) x = x * l.prod
  | [], x => by simp
  | y :: l, x => by rw [List.foldl_cons, foldl_prod l, List.prod_cons, mul_assoc]

/-- Elementwise arithmetic, for arrays of every size. -/
theorem C73_arithmetic [Add α] [Sub α] [Mul α] [Neg α] (junk a1 a2 : List α) (s : α) (h : a1.length = a2.length) (hj : junk.length = a1.length) :
    add junk a1 a2 = some (List.zipWith (· + ·) a1 a2) ∧ sub junk a1 a2 = some (List.zipWith (· - ·) a1 a2) ∧ mul junk a1 a2 = some (List.zipWith (· * ·) a1 a2) ∧
      neg junk a1 = some (a1.map (fun x => -x)) ∧ smul s junk a1 = some (a1.map (fun x => s * x)) := by
  have hz : ∀ (f : α → α → α) i, i < a1.length → ((rd a1 i).bind fun x => (rd a2 i).bind fun y => some (f x y)) = (List.zipWith f a1 a2)[i]? := by
    intro f i hi
    rw [List.getElem?_zipWith, rd, rd, List.getElem?_eq_getElem hi, List.getElem?_eq_getElem (h ▸ hi)]
    rfl
  have hm : ∀ (f : α → α) i, i < a1.length → ((rd a1 i).bind fun x => some (f x)) = (a1.map f)[i]? := by
    intro f i hi
    rw [List.getElem?_map, rd, List.getElem?_eq_getElem hi]
    rfl
  refine ⟨?_, ?_, ?_, ?_, ?_⟩
  · exact fill_all _ _ (fun i s => by cases h1 : rd a1 i <;> cases h2 : rd a2 i <;> simp [h1, h2]) _ _ _ hj (by simp [h]) (hz (· + ·))
  · exact fill_all _ _ (fun i s => by cases h1 : rd a1 i <;> cases h2 : rd a2 i <;> simp [h1, h2]) _ _ _ hj (by simp [h]) (hz (· - ·))
  · exact fill_all _ _ (fun i s => by cases h1 : rd a1 i <;> cases h2 : rd a2 i <;> simp [h1, h2]) _ _ _ hj (by simp [h]) (hz (· * ·))
  · exact fill_all _ _ (fun i s => by cases h1 : rd a1 i <;> simp [h1]) _ _ _ hj (by simp) (hm (fun x => -x))
  · exact fill_all _ _ (fun i s => by cases h1 : rd a1 i <;> simp [h1]) _ _ _ hj (by simp) (hm (fun x => s * x))

/-- Conversions keep the elements. -/
theorem C73_convert (conv : β → α) (dflt : α) (a : List β) (b : List α) : makeStdArray conv dflt a = some (a.map conv) ∧ toVector dflt b = some b := by
  constructor
  · refine fill_all (fun i => (rd a i).map conv) _ (fun i s => by cases h1 : rd a i <;> simp [h1]) _ _ _ (by rw [initialized_eq]; simp) (by simp) (fun i hi => by simp [rd])
  · exact fill_all (rd b) _ (fun i s => rfl) _ _ _ (by simp) rfl (fun i hi => rfl)

/-- Copying a prefix. -/
theorem prefix_spec (a s : List α) (n : Nat) (hn : n ≤ a.length) (hs : n ≤ s.length) : loop 0 n (fun i res => do wr res i (← rd a i)) s = some (a.take n ++ s.drop n) := by
  obtain ⟨s', e, l, p, q⟩ := fill_spec (fun i => i) (rd a) (fun i res => do wr res i (← rd a i)) (fun i s => rfl) n 0 n s (by omega)
    (fun i _ hi => ⟨by rw [rd, List.getElem?_eq_getElem (by omega)]; rfl, by omega⟩) (fun i j _ _ _ _ h => h)
  rw [e]
  congr 1
  apply List.ext_getElem?
  intro i
  by_cases hi : i < n
  · rw [p i (by omega) hi, List.getElem?_append_left (by simp; omega), List.getElem?_take_of_lt hi, rd]
  · rw [q i (fun j _ h2 => by omega), List.getElem?_append_right (by simp; omega), List.getElem?_drop]
    congr 1
    simp; omega

/-- One element more at either end. -/
theorem C73_append (dflt : α) (a : List α) (x : α) : append dflt a x = some (a ++ [x]) ∧ frontAppend dflt a x = some (x :: a) := by
  constructor
  · unfold append
    rw [prefix_spec a _ a.length (le_refl _) (by rw [initialized_eq]; simp), initialized_eq]
    simp [wr]
  · unfold frontAppend
    rw [initialized_eq]
    simp only [wr, List.length_replicate, Nat.zero_lt_succ, if_true, Option.bind_eq_bind, Option.bind_some]
    obtain ⟨s', e, l, p, q⟩ := fill_spec (fun i => i + 1) (rd a) (fun i res => (rd a i).bind fun y => wr res (i + 1) y) (fun i s => rfl) a.length 0 a.length
      ((List.replicate (a.length + 1) dflt).set 0 x) (by omega) (fun i _ hi => ⟨by rw [rd, List.getElem?_eq_getElem hi]; rfl, by simp; omega⟩) (fun i j _ _ _ _ h => by omega)
    refine Eq.trans ?_ (e.trans ?_)
    · rfl
    · congr 1
      apply List.ext_getElem?
      intro i
      cases i with
      | zero => rw [q 0 (fun j _ _ => by omega)]; simp
      | succ i =>
        by_cases hi : i < a.length
        · rw [p i (by omega) hi]; rfl
        · rw [List.getElem?_eq_none (by simp at l; omega), List.getElem?_eq_none (by simp; omega)]

/-- Elements removed at the end: the first `R - N` ones are left; a compile-time error if there are fewer than `N`. -/
theorem C73_pop (dflt : α) (a : List α) (n : Nat) : (n ≤ a.length → mpop n dflt a = some (a.take (a.length - n))) ∧ (a.length < n → mpop n dflt a = none) ∧
    (a ≠ [] → pop dflt a = some a.dropLast) ∧ pop dflt ([] : List α) = none := by
  have key : ∀ k : Nat, k ≤ a.length → mpop k dflt a = some (a.take (a.length - k)) := by
    intro k hk
    have hl : less a.length (k : Int) = some (a.length - k) := by
      unfold less; rw [if_pos (by omega)]; congr 1; omega
    unfold mpop
    rw [hl]
    simp only [Option.bind_eq_bind, Option.bind_some]
    refine (prefix_spec a _ (a.length - k) (by omega) (by rw [initialized_eq]; simp)).trans ?_
    rw [initialized_eq]; simp
  refine ⟨key n, fun h => ?_, fun h => ?_, rfl⟩
  · unfold mpop less; rw [if_neg (by omega)]; rfl
  · have h1 : 1 ≤ a.length := List.length_pos_of_ne_nil h
    exact (key 1 h1).trans (by rw [List.dropLast_eq_take])

/-- Elements removed at the front. -/
theorem C73_front_pop (dflt : α) (a : List α) (n : Nat) : (n ≤ a.length → frontMpop n dflt a = some (a.drop n)) ∧ (a.length < n → frontMpop n dflt a = none) ∧
    (a ≠ [] → frontPop dflt a = some a.tail) ∧ frontPop dflt ([] : List α) = none := by
  have key : ∀ k : Nat, k ≤ a.length → loop k a.length (fun i res => do wr res (i - k) (← rd a i)) (initialized (a.length - k) dflt) = some (a.drop k) := by
    intro k hk
    obtain ⟨s', e, l, p, -⟩ := fill_spec (fun i => i - k) (rd a) (fun i res => do wr res (i - k) (← rd a i)) (fun i s => rfl) (a.length - k) k a.length (initialized (a.length - k) dflt) rfl
      (fun i h1 h2 => ⟨by rw [rd, List.getElem?_eq_getElem h2]; rfl, by rw [initialized_eq]; simp; omega⟩) (fun i j _ _ _ _ h => by omega)
    rw [initialized_eq, List.length_replicate] at l
    rw [e]
    congr 1
    apply List.ext_getElem?
    intro i
    rw [List.getElem?_drop]
    by_cases hi : k + i < a.length
    · have := p (k + i) (by omega) hi
      rw [show k + i - k = i by omega] at this
      rw [this, rd]
    · rw [List.getElem?_eq_none (by omega), List.getElem?_eq_none (by omega)]
  refine ⟨fun h => ?_, fun h => ?_, fun h => ?_, rfl⟩
  · have hl : less a.length (n : Int) = some (a.length - n) := by
      unfold less; rw [if_pos (by omega)]; congr 1; omega
    unfold frontMpop
    rw [hl]
    simp only [Option.bind_eq_bind, Option.bind_some, if_neg (show ¬ (n : Int) < 0 by omega), Int.toNat_natCast]
    exact key n h
  · unfold frontMpop less; rw [if_neg (by omega)]; rfl
  · have h1 : 1 ≤ a.length := List.length_pos_of_ne_nil h
    have hl : less a.length 1 = some (a.length - 1) := by
      unfold less; rw [if_pos (by omega)]; congr 1; omega
    unfold frontPop
    rw [hl]
    simp only [Option.bind_eq_bind, Option.bind_some]
    exact (key 1 h1).trans (by rw [List.drop_one])

/-- Joining. -/
theorem C73_join (dflt : α) (a1 a2 : List α) : join dflt a1 a2 = some (a1 ++ a2) := by
  unfold join
  rw [prefix_spec a1 _ a1.length (le_refl _) (by rw [initialized_eq]; simp), initialized_eq]
  simp only [Option.bind_eq_bind, Option.bind_some, List.take_length, List.drop_replicate]
  obtain ⟨s', e, l, p, q⟩ := fill_spec (fun i => a1.length + i) (rd a2) (fun i res => (rd a2 i).bind fun y => wr res (a1.length + i) y) (fun i s => rfl) a2.length 0 a2.length
    (a1 ++ List.replicate (a1.length + a2.length - a1.length) dflt) (by omega) (fun i _ hi => ⟨by rw [rd, List.getElem?_eq_getElem hi]; rfl, by simp; omega⟩) (fun i j _ _ _ _ h => by omega)
  rw [e]
  congr 1
  apply List.ext_getElem?
  intro i
  by_cases hi : i < a1.length
  · rw [q i (fun j _ _ => by omega), List.getElem?_append_left hi, List.getElem?_append_left hi]
  · rw [List.getElem?_append_right (by omega)]
    by_cases hj : i - a1.length < a2.length
    · have := p (i - a1.length) (by omega) hj
      rw [show a1.length + (i - a1.length) = i by omega] at this
      rw [this, rd]
    · rw [List.getElem?_eq_none (by rw [l]; simp; omega), List.getElem?_eq_none (by omega)]

/-- Growing and shrinking undo each other. -/
theorem C73_round_trips (dflt : α) (a b : List α) (x : α) : (append dflt a x).bind (pop dflt) = some a ∧ (frontAppend dflt a x).bind (frontPop dflt) = some a ∧
    (join dflt a b).bind (mpop b.length dflt) = some a ∧ (join dflt a b).bind (frontMpop a.length dflt) = some b := by
  refine ⟨?_, ?_, ?_, ?_⟩
  · rw [(C73_append dflt a x).1, Option.bind_some, (C73_pop dflt (a ++ [x]) 0).2.2.1 (by simp)]; simp
  · rw [(C73_append dflt a x).2, Option.bind_some, (C73_front_pop dflt (x :: a) 0).2.2.1 (by simp)]; simp
  · rw [C73_join, Option.bind_some, (C73_pop dflt (a ++ b) b.length).1 (by simp)]; simp
  · rw [C73_join, Option.bind_some, (C73_front_pop dflt (a ++ b) a.length).1 (by simp)]; simp

/-- Sum of the elements: that of the list; `T{}` for an empty array. -/
theorem C73_sum [AddMonoid α] (a : List α) : sum (0 : α) a = some a.sum := by
  unfold sum
  cases a with
  | nil => simp
  | cons x l =>
    rw [if_neg (by simp)]
    refine (acc_spec (fun a b => a + b) (x :: l) _ (fun i s => ?_) l.length 1 (x :: l).length x (by simp; omega) rfl).trans ?_
    · show ((x :: l)[i]?).bind _ = _
      cases (x :: l)[i]? <;> rfl
    · rw [List.drop_one, List.tail_cons, foldl_sum, List.sum_cons]

/-- Product of the elements; a compile-time error for an empty array. -/
theorem C73_product [Monoid α] (a : List α) : product a = if a = [] then none else some a.prod := by
  unfold product
  cases a with
  | nil => simp
  | cons x l =>
    rw [if_neg (by simp), if_neg (by simp)]
    refine (acc_spec (fun a b => a * b) (x :: l) _ (fun i s => ?_) l.length 1 (x :: l).length x (by simp; omega) rfl).trans ?_
    · show ((x :: l)[i]?).bind _ = _
      cases (x :: l)[i]? <;> rfl
    · rw [List.drop_one, List.tail_cons, foldl_prod, List.prod_cons]

/-- Dot product: the sum of the products; `T{}` for empty arrays. -/
theorem C73_dot_product [AddMonoid γ] (mul : α → β → γ) (a1 : List α) (a2 : List β) (h : a1.length = a2.length) : dotProduct mul (0 : γ) a1 a2 = some (List.zipWith mul a1 a2).sum := by
  unfold dotProduct
  cases a1 with
  | nil => simp
  | cons x l =>
    cases a2 with
    | nil => simp at h
    | cons y r =>
      have hl : l.length = r.length := by simpa using h
      rw [if_neg (by simp)]
      refine (acc_spec (fun a b => a + b) (List.zipWith mul (x :: l) (y :: r)) _ (fun i s => ?_) l.length 1 (x :: l).length (mul x y) (by simp; omega) (by simp [hl])).trans ?_
      · show ((x :: l)[i]?).bind (fun u => ((y :: r)[i]?).bind _) = _
        rw [List.getElem?_zipWith]
        cases (x :: l)[i]? <;> cases (y :: r)[i]? <;> rfl
      · rw [List.zipWith_cons_cons, List.drop_one, List.tail_cons, foldl_sum, List.sum_cons]

/-- Negative template arguments: `mpop<-1>` reads past the end; `front_mpop<-1>` gives default elements only. -/
theorem C73_negative_witness : mpop (-1) 0 [1, 2, 3] = none ∧ frontMpop (-1) 0 [1, 2, 3] = some [0, 0, 0, 0] := by decide

/-! ### Examples -/

example : add [7, 7, 7] [1, 2, 3] [10, 20, 30] = some [11, 22, 33] ∧ join 0 [1, 2] [3] = some [1, 2, 3] ∧ mpop 2 0 [1, 2, 3] = some [1] ∧ frontMpop 2 0 [1, 2, 3] = some [3] ∧
    dotProduct (· * ·) 0 [1, 2, 3] [4, 5, 6] = some 32 ∧ product [2, 3, 4] = some 24 ∧ sum 0 [2, 3, 4] = some 9 := by decide

end Nda.StdArray
