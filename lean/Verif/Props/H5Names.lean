import Verif.Model.H5
import Verif.Lemmas.Order
import Verif.Props.Loops
import Mathlib.Data.Nat.Digits.Lemmas
import Mathlib.Data.List.SplitOn
import Mathlib.Data.List.TakeWhile
/-!
# C36, C38: strings and element names in HDF5 files
-/
namespace Nda.H5
open Nda Loops Nda.Spec

/-! ## C36 -/

theorem cStr_length_le (s : Str) : (cStr s).length ≤ s.length := (List.takeWhile_sublist _).length_le

theorem cStr_no_zero (s : Str) : (0 : UInt8) ∉ cStr s := by
  intro h
  have := List.mem_takeWhile_imp h
  simp at this

theorem cStr_append_zero {s : Str} (h : (0 : UInt8) ∉ s) (t : Str) : cStr (s ++ 0 :: t) = s := by
  rw [cStr, List.takeWhile_append_of_pos (by intro x hx; simp; rintro rfl; exact h hx)]
  simp

theorem cStr_id {s : Str} (h : (0 : UInt8) ∉ s) : cStr s = s := by
  rw [cStr, List.takeWhile_eq_self_iff]
  intro x hx
  simp; rintro rfl; exact h hx

theorem foldl_max_le (v : List Str) : ∀ s0 : Nat, s0 ≤ v.foldl (fun s x => max s (x.length + 1)) s0 ∧ ∀ x ∈ v, x.length + 1 ≤ v.foldl (fun s x => max s (x.length + 1)) s0 := by
  induction v with
  | nil => intro s0; simp
  | cons a v ih =>
    intro s0
    obtain ⟨h1, h2⟩ := ih (max s0 (a.length + 1))
    simp only [List.foldl_cons]
    refine ⟨by omega, ?_⟩
    intro x hx
    rcases List.mem_cons.mp hx with rfl | hx
    · omega
    · exact h2 x hx

/-- What position `p` of the buffer shows. -/
def Shows (buf : List UInt8) (p : Nat) (s : Str) : Prop := ∃ t, buf.drop p = s ++ 0 :: t

/-- The writes of `to_char_buf`. -/
theorem fill_spec (v : List Str) (s : Nat) (hs : ∀ x ∈ v, x.length + 1 ≤ s) : ∀ n, n ≤ v.length →
    ∃ buf, ((v.take n).zipIdx).foldlM (fun buf (x : Str × Nat) => strcpy buf (x.2 * s) x.1) (List.replicate (v.length * s) (0 : UInt8)) = some buf ∧ buf.length = v.length * s ∧
      ∀ i x, i < n → v[i]? = some x → ∃ t, (buf.drop (i * s)).take s = cStr x ++ 0 :: t := by
  intro n
  induction n with
  | zero => intro _; exact ⟨List.replicate (v.length * s) 0, by simp, by simp, by intro i x hi; omega⟩
  | succ n ih =>
    intro hn
    obtain ⟨buf, e, hl, hv⟩ := ih (by omega)
    have hx := List.getElem_mem (l := v) (n := n) (by omega)
    have hc := cStr_length_le v[n]
    have hxs := hs _ hx
    have hns : n * s + s ≤ v.length * s := by
      have := Nat.mul_le_mul_right s hn
      rw [Nat.add_mul] at this; omega
    have hfit : n * s + (cStr v[n]).length + 1 ≤ buf.length := by omega
    refine ⟨buf.take (n * s) ++ (cStr v[n] ++ 0 :: buf.drop (n * s + (cStr v[n]).length + 1)), ?_, ?_, ?_⟩
    · rw [List.take_succ_eq_append_getElem (by omega), List.zipIdx_append, List.foldlM_append, e]
      simp only [Option.bind_eq_bind, Option.bind_some]
      rw [List.length_take, Nat.min_eq_left (by omega)]
      simp only [List.zipIdx_singleton, List.foldlM_cons, List.foldlM_nil, Nat.zero_add, strcpy, hfit, if_true]
      rfl
    · simp only [List.length_append, List.length_take, List.length_cons, List.length_drop, hl]
      omega
    · intro i x hi hix
      rcases Nat.lt_or_ge i n with hlt | hge
      · obtain ⟨t, ht⟩ := hv i x hlt hix
        have his : i * s + s ≤ n * s := by
          have := Nat.mul_le_mul_right s (show i + 1 ≤ n by omega)
          rw [Nat.add_mul] at this; omega
        refine ⟨t, ?_⟩
        rw [← ht, List.drop_append_of_le_length (by simp; omega), List.take_append_of_le_length (by simp only [List.length_drop, List.length_take, hl]; omega), List.drop_take, List.take_take, Nat.min_eq_left (by omega)]
      · obtain rfl : i = n := by omega
        rw [List.getElem?_eq_getElem (by omega)] at hix
        have hix := Option.some.inj hix
        rw [← hix]
        rw [List.drop_append_of_le_length (by simp; omega), List.drop_eq_nil_of_le (by simp), List.nil_append, List.take_append, List.take_of_length_le (by omega)]
        obtain ⟨m, hm⟩ : ∃ m, s - (cStr v[i]).length = m + 1 := ⟨s - (cStr v[i]).length - 1, by omega⟩
        rw [hm, List.take_succ_cons]
        exact ⟨_, rfl⟩

/-- **C36** Writing and reading back an array of strings gives each string up to its first NUL; in particular the same strings when they have none.  Nothing is written or read outside
the buffer. -/
theorem C36_char_buf (v : List Str) : ∃ cb, toCharBuf v = some cb ∧ cb.buffer.length = cb.lengths.1 * cb.lengths.2 ∧ fromCharBuf cb = some (v.map cStr) := by
  obtain ⟨-, hs⟩ := foldl_max_le v 0
  generalize hS : v.foldl (fun s x => max s (x.length + 1)) 0 = s at hs
  obtain ⟨buf, e, hl, hv⟩ := fill_spec v s hs v.length (le_refl _)
  rw [List.take_length] at e
  refine ⟨⟨buf, (v.length, s)⟩, by rw [toCharBuf, hS]; simp only [e]; rfl, hl, ?_⟩
  unfold fromCharBuf
  simp only
  have key : ∀ n, n ≤ v.length → (List.range n).mapM (fun i => readCStr buf (i * s)) = some ((v.take n).map cStr) := by
    intro n
    induction n with
    | zero => intro _; rfl
    | succ n ih =>
      intro hn
      obtain ⟨t, ht⟩ := hv n v[n] (by omega) (List.getElem?_eq_getElem (by omega))
      have hd : buf.drop (n * s) = cStr v[n] ++ 0 :: (t ++ (buf.drop (n * s)).drop s) := by
        conv_lhs => rw [← List.take_append_drop s (buf.drop (n * s)), ht]
        simp
      have hr : readCStr buf (n * s) = some (cStr v[n]) := by
        rw [readCStr, hd, if_pos (by simp), cStr_append_zero (cStr_no_zero _)]
      rw [List.range_succ, List.mapM_append, ih (by omega)]
      simp only [List.mapM_cons, hr, List.mapM_nil, List.take_succ_eq_append_getElem (show n < v.length by omega), List.map_append]
      rfl
  have := key v.length (le_refl _)
  rwa [List.take_length] at this

/-- **C36** Strings without NUL survive. -/
theorem C36_round_trip (v : List Str) (h : ∀ x ∈ v, (0 : UInt8) ∉ x) : ∃ cb, toCharBuf v = some cb ∧ fromCharBuf cb = some v := by
  obtain ⟨cb, h1, -, h2⟩ := C36_char_buf v
  refine ⟨cb, h1, ?_⟩
  rw [h2]
  congr 1
  conv_rhs => rw [← List.map_id v]
  exact List.map_congr_left (fun x hx => cStr_id (h x hx))

/-- Strings of different lengths, one empty. -/
example : toCharBuf [[104, 105], [], [33]] = some ⟨[104, 105, 0, 0, 0, 0, 33, 0, 0], (3, 3)⟩ := by decide

/-- A string with an embedded NUL is cut. -/
theorem C36_embedded_nul_witness : (toCharBuf [[104, 0, 105]]).bind fromCharBuf = some [[104]] := by decide

/-! ## C38 -/

theorem digitChar_range {d : Nat} (h : d < 10) : Nat.digitChar d ≠ '_' ∧ Nat.digitChar d ≠ 's' := by
  interval_cases d <;> decide

theorem digitChar_inj {d e : Nat} (hd : d < 10) (he : e < 10) (h : Nat.digitChar d = Nat.digitChar e) : d = e := by
  interval_cases d <;> interval_cases e <;> first | rfl | exact absurd h (by decide)

theorem toStr_no_underscore {i : Int} : '_' ∉ toStr i ∧ 's' ∉ toStr i := by
  unfold toStr
  split
  · simp
  · constructor <;>
    · intro h
      obtain ⟨d, hd, e⟩ := List.mem_map.mp h
      have := digitChar_range (Nat.digits_lt_base (by omega) (List.mem_reverse.mp hd))
      first | exact this.1 e | exact this.2 e

theorem toStr_ne_nil (i : Int) (h0 : 0 ≤ i) : toStr i ≠ [] := by
  unfold toStr
  split
  · simp
  · rename_i h
    simp only [ne_eq, List.map_eq_nil_iff, List.reverse_eq_nil_iff, Nat.digits_eq_nil_iff_eq_zero]
    omega

theorem toStr_inj {i j : Int} (hi : 0 ≤ i) (hj : 0 ≤ j) (h : toStr i = toStr j) : i = j := by
  have hz : ∀ k : Int, 0 < k → toStr k ≠ ['0'] := by
    intro k hk e
    unfold toStr at e
    rw [if_neg (by omega)] at e
    have h1 : (Nat.digits 10 k.toNat).reverse = [0] := by
      match hr : (Nat.digits 10 k.toNat).reverse, e with
      | [], e => simp at e
      | _ :: _ :: _, e => simp at e
      | [d], e =>
        have hd : d < 10 := Nat.digits_lt_base (b := 10) (m := k.toNat) (by omega) (by rw [← List.mem_reverse, hr]; simp)
        simp only [List.map_cons, List.map_nil, List.cons.injEq, and_true] at e
        rw [digitChar_inj hd (by omega) (e.trans (show '0' = Nat.digitChar 0 by decide))]
    have h2 : Nat.digits 10 k.toNat = [0] := by rw [← List.reverse_reverse (Nat.digits 10 k.toNat), h1]; rfl
    have := Nat.ofDigits_digits 10 k.toNat
    rw [h2] at this
    simp at this
    omega
  by_cases hi0 : i = 0
  · subst hi0
    by_contra hne
    exact hz j (by omega) (by rw [← h]; rfl)
  · by_cases hj0 : j = 0
    · subst hj0
      exact absurd h (hz i (by omega))
    · unfold toStr at h
      rw [if_neg hi0, if_neg hj0] at h
      have key : ∀ l m : List Nat, (∀ d ∈ l, d < 10) → (∀ d ∈ m, d < 10) → l.map Nat.digitChar = m.map Nat.digitChar → l = m := by
        intro l
        induction l with
        | nil => intro m _ _ h; cases m with | nil => rfl | cons a m => simp at h
        | cons a l ih =>
          intro m hl hm h
          cases m with
          | nil => simp at h
          | cons b m =>
            simp only [List.map_cons, List.cons.injEq] at h
            rw [digitChar_inj (hl a List.mem_cons_self) (hm b List.mem_cons_self) h.1, ih m (fun d hd => hl d (List.mem_cons_of_mem _ hd)) (fun d hd => hm d (List.mem_cons_of_mem _ hd)) h.2]
      have := key _ _ (fun d hd => Nat.digits_lt_base (by omega) (List.mem_reverse.mp hd)) (fun d hd => Nat.digits_lt_base (by omega) (List.mem_reverse.mp hd)) h
      have := Nat.digits.injective 10 (List.reverse_injective this)
      omega

theorem makeName_eq : ∀ (i : Int) (is : List Int), makeName (i :: is) = ['_'].intercalate ((i :: is).map toStr) := by
  have key : ∀ (is : List Int) (s : List Char), is.foldl (fun s j => s ++ ('_' :: toStr j)) s = s ++ (is.map (fun j => '_' :: toStr j)).flatten := by
    intro is
    induction is with
    | nil => simp
    | cons j is ih => intro s; simp [ih]
  intro i is
  rw [makeName, key]
  induction is generalizing i with
  | nil => simp [List.intercalate]
  | cons j is ih =>
    have := ih j
    rw [List.map_cons (f := toStr), List.intercalate_cons_of_ne_nil (by simp), ← this]
    simp

/-- **C38** Distinct index tuples have distinct names (also of different ranks). -/
theorem C38_names_distinct (i j : List Int) (hi : i ≠ []) (hj : j ≠ []) (h0 : ∀ x ∈ i, 0 ≤ x) (h1 : ∀ x ∈ j, 0 ≤ x) (h : makeName i = makeName j) : i = j := by
  obtain ⟨a, i, rfl⟩ := List.exists_cons_of_ne_nil hi
  obtain ⟨b, j, rfl⟩ := List.exists_cons_of_ne_nil hj
  rw [makeName_eq, makeName_eq] at h
  have e1 := List.splitOn_intercalate '_' (fun l hl => by obtain ⟨x, -, rfl⟩ := List.mem_map.mp hl; exact toStr_no_underscore.1) (ls := (a :: i).map toStr) (by simp)
  have e2 := List.splitOn_intercalate '_' (fun l hl => by obtain ⟨x, -, rfl⟩ := List.mem_map.mp hl; exact toStr_no_underscore.1) (ls := (b :: j).map toStr) (by simp)
  rw [h, e2] at e1
  have key : ∀ l m : List Int, (∀ x ∈ l, 0 ≤ x) → (∀ x ∈ m, 0 ≤ x) → m.map toStr = l.map toStr → l = m := by
    intro l
    induction l with
    | nil => intro m _ _ h; cases m with | nil => rfl | cons a m => simp at h
    | cons a l ih =>
      intro m hl hm h
      cases m with
      | nil => simp at h
      | cons b m =>
        simp only [List.map_cons, List.cons.injEq] at h
        rw [toStr_inj (hl a List.mem_cons_self) (hm b List.mem_cons_self) h.1.symm, ih m (fun d hd => hl d (List.mem_cons_of_mem _ hd)) (fun d hd => hm d (List.mem_cons_of_mem _ hd)) h.2]
  exact key _ _ h0 h1 e1

/-- **C38** No element is stored under the name of the shape. -/
theorem C38_name_not_shape (i : List Int) (hi : i ≠ []) (h0 : ∀ x ∈ i, 0 ≤ x) : makeName i ≠ "shape".toList := by
  obtain ⟨a, i, rfl⟩ := List.exists_cons_of_ne_nil hi
  intro h
  have : ∃ c t, makeName (a :: i) = c :: t ∧ c ∈ toStr a := by
    obtain ⟨c, t, ht⟩ := List.exists_cons_of_ne_nil (toStr_ne_nil a (h0 a List.mem_cons_self))
    rw [makeName_eq]
    cases i with
    | nil => exact ⟨c, t, by simp [List.intercalate, ht], by rw [ht]; simp⟩
    | cons b i => exact ⟨c, _, by rw [List.map_cons (f := toStr), List.intercalate_cons_of_ne_nil (by simp), ht, List.cons_append, List.cons_append], by rw [ht]; simp⟩
  obtain ⟨c, t, e, hc⟩ := this
  rw [e] at h
  have : c = 's' := by have := congrArg List.head? h; simpa using this
  subst this
  exact toStr_no_underscore.2 hc

variable {α : Type}

theorem read_write_same (g : Group α) (n : List Char) (e : Entry α) : (g.write n e).read n = some e := by
  simp [Group.write, Group.read]

theorem read_write_ne (g : Group α) {n m : List Char} (h : m ≠ n) (e : Entry α) : (g.write n e).read m = g.read m := by
  have hnm : ¬ n = m := fun h' => h h'.symm
  rw [Group.write, Group.read, Group.read, List.find?_cons_of_neg (by simpa using hnm)]
  congr 1
  induction g with
  | nil => rfl
  | cons p g ih =>
    by_cases hp : p.1 = n
    · rw [List.filter_cons_of_neg (by simp [hp]), List.find?_cons_of_neg (by rw [hp]; simpa using hnm)]
      exact ih
    · rw [List.filter_cons_of_pos (by simpa using hp)]
      by_cases hq : p.1 = m
      · rw [List.find?_cons_of_pos (by simpa using hq), List.find?_cons_of_pos (by simpa using hq)]
      · rw [List.find?_cons_of_neg (by simpa using hq), List.find?_cons_of_neg (by simpa using hq)]
        exact ih

theorem inRange_pos {len i : List Int} (h : InRange len i) : ∀ y ∈ i, 0 ≤ y := by
  induction len generalizing i with
  | nil => cases i with | nil => simp | cons a i => exact h.elim
  | cons l len ih =>
    cases i with
    | nil => exact h.elim
    | cons a i =>
      intro y hy
      rcases List.mem_cons.mp hy with rfl | hy
      · exact h.1.1
      · exact ih h.2 y hy

/-- The writes: the elements of the list are stored, nothing else changes. -/
theorem write_loop (get : List Int → Option α) (x : List Int → α) : ∀ (L : List (List Int)), (∀ i ∈ L, get i = some (x i)) → (∀ i ∈ L, i ≠ [] ∧ ∀ y ∈ i, 0 ≤ y) → ∀ g : Group α,
    ∃ g', L.foldlM (fun g idx => do let y ← get idx; return g.write (makeName idx) (.elem y)) g = some g' ∧
      (∀ i ∈ L, g'.read (makeName i) = some (.elem (x i))) ∧ ∀ n, (∀ i ∈ L, n ≠ makeName i) → g'.read n = g.read n := by
  intro L
  induction L with
  | nil => intro _ _ g; exact ⟨g, rfl, by simp, by simp⟩
  | cons a L ih =>
    intro hg hp g
    obtain ⟨g', e, h1, h2⟩ := ih (fun i hi => hg i (List.mem_cons_of_mem _ hi)) (fun i hi => hp i (List.mem_cons_of_mem _ hi)) (g.write (makeName a) (.elem (x a)))
    refine ⟨g', by rw [List.foldlM_cons, hg a List.mem_cons_self]; exact e, ?_, ?_⟩
    · intro i hi
      by_cases hL : i ∈ L
      · exact h1 i hL
      · obtain rfl : i = a := by simpa [hL] using hi
        rw [h2 _ ?_, read_write_same]
        intro j hj e'
        have hpi := hp i List.mem_cons_self
        have hpj := hp j (List.mem_cons_of_mem _ hj)
        have := C38_names_distinct i j hpi.1 hpj.1 hpi.2 hpj.2 e'
        exact hL (this ▸ hj)
    · intro n hn
      rw [h2 n (fun i hi => hn i (List.mem_cons_of_mem _ hi)), read_write_ne _ (hn a List.mem_cons_self)]

theorem read_loop (g : Group α) (x : List Int → α) : ∀ (L : List (List Int)), (∀ i ∈ L, g.read (makeName i) = some (.elem (x i))) → ∀ l0 : List (List Int × α),
    L.foldlM (fun l idx => readElem g idx l) l0 = some (l0 ++ L.map (fun i => (i, x i))) := by
  intro L
  induction L with
  | nil => intro _ l0; simp
  | cons a L ih =>
    intro h l0
    have e : readElem g a l0 = some (l0 ++ [(a, x a)]) := by rw [readElem, h a List.mem_cons_self]; rfl
    rw [List.foldlM_cons, e]
    have := ih (fun i hi => h i (List.mem_cons_of_mem _ hi)) (l0 ++ [(a, x a)])
    simp only [List.append_assoc, List.singleton_append] at this
    exact this

/-- **C38** An array of elements that HDF5 does not know, written to a group and read back, has the same shape and the same element at every index, each read once. -/
theorem C38_round_trip (len : List Int) (hr : len ≠ []) (x : List Int → α) (get : List Int → Option α) (hget : ∀ i, InRange len i → get i = some (x i)) :
    ∃ g, writeGeneric len get = some g ∧ ∃ l, readGeneric g = some (len, l) ∧ (∀ i y, (i, y) ∈ l ↔ InRange len i ∧ y = x i) ∧ l.Nodup := by
  have hne : ∀ i ∈ box len, i ≠ [] ∧ ∀ y ∈ i, 0 ≤ y := by
    intro i hi
    have hi := mem_box.mp hi
    refine ⟨?_, inRange_pos hi⟩
    rintro rfl
    cases len with
    | nil => exact hr rfl
    | cons => exact hi.elim
  obtain ⟨g, e, h1, h2⟩ := write_loop get x (box len) (fun i hi => hget i (mem_box.mp hi)) hne (Group.write [] "shape".toList (.shape len))
  refine ⟨g, by rw [writeGeneric, forEach_eq]; exact e, (box len).map (fun i => (i, x i)), ?_, ?_, ?_⟩
  · have hs := h2 "shape".toList (fun i hi e' => C38_name_not_shape i (hne i hi).1 (hne i hi).2 e'.symm)
    rw [read_write_same] at hs
    have hl := read_loop g x (box len) h1 []
    rw [readGeneric, hs]
    simp only [Option.bind_eq_bind, Option.bind_some]
    rw [forEach_eq]
    rw [hl]
    rfl
  · intro i y
    simp only [List.mem_map, Prod.mk.injEq, mem_box]
    constructor
    · rintro ⟨j, hj, rfl, rfl⟩; exact ⟨hj, rfl⟩
    · rintro ⟨h, rfl⟩; exact ⟨i, h, rfl, rfl⟩
  · exact (lexEnum_box len).nodup.map (fun a b h => (Prod.mk.injEq _ _ _ _ ▸ h).1)

/-- Names that would clash without the separator. -/
example : makeName [1, 11] = "1_11".toList ∧ makeName [11, 1] = "11_1".toList ∧ makeName [111] = "111".toList ∧ makeName [0, 10, 0] = "0_10_0".toList := by
  simp [makeName, toStr]

end Nda.H5
