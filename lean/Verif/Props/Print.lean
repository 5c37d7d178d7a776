import Verif.Model.Print
import Verif.Spec.Print
import Verif.Props.Iterators
import Verif.Props.Assign
import Verif.Props.Arithmetic
import Verif.Lemmas.Check
/-!
# C65: printed arrays
-/
namespace Nda.Print
open Nda Nda.Spec Spec Loops Assign

variable {α : Type}

/-! ### The text of a list of elements -/

/-- Elements after the first. -/
def rest (sep : Char) (shw : α → List Char) : List α → List Char
  | [] => []
  | x :: xs => sep :: (shw x ++ rest sep shw xs)

/-- All elements. -/
def body (sep : Char) (shw : α → List Char) : List α → List Char
  | [] => []
  | x :: xs => shw x ++ rest sep shw xs

theorem rest_append (sep : Char) (shw : α → List Char) (xs : List α) (x : α) : rest sep shw (xs ++ [x]) = rest sep shw xs ++ sep :: shw x := by
  induction xs with
  | nil => simp [rest]
  | cons y xs ih => simp [rest, ih]

theorem body_append (sep : Char) (shw : α → List Char) (xs : List α) (x : α) :
    body sep shw (xs ++ [x]) = body sep shw xs ++ (if xs.length = 0 then [] else [sep]) ++ shw x := by
  cases xs with
  | nil => simp [body, rest]
  | cons y xs => simp [body, rest_append]

theorem rest_end (sep stop : Char) (shw : α → List Char) (xs : List α) (s : List Char) :
    ∃ c t, rest sep shw xs ++ stop :: s = c :: t ∧ (c = sep ∨ c = stop) := by
  cases xs with
  | nil => exact ⟨stop, s, rfl, Or.inr rfl⟩
  | cons x xs => exact ⟨sep, _, rfl, Or.inl rfl⟩

theorem rest_inj {sep stop : Char} {shw : α → List Char} (h : Readable sep stop shw) (hs : sep ≠ stop) : ∀ {xs ys : List α} {s t : List Char},
    rest sep shw xs ++ stop :: s = rest sep shw ys ++ stop :: t → xs = ys ∧ s = t
  | [], [], s, t, e => by simpa [rest] using e
  | [], y :: ys, s, t, e => by simp only [rest, List.nil_append, List.cons_append, List.cons.injEq] at e; exact absurd e.1.symm hs
  | x :: xs, [], s, t, e => by simp only [rest, List.nil_append, List.cons_append, List.cons.injEq] at e; exact absurd e.1 hs
  | x :: xs, y :: ys, s, t, e => by
      simp only [rest, List.cons_append, List.cons.injEq, true_and, List.append_assoc] at e
      obtain ⟨c, s', e1, hc⟩ := rest_end sep stop shw xs s
      obtain ⟨d, t', e2, hd⟩ := rest_end sep stop shw ys t
      rw [e1, e2] at e
      obtain ⟨h1, h2⟩ := h.read x y c d s' t' hc hd e
      rw [← e1, ← e2] at h2
      obtain ⟨h3, h4⟩ := rest_inj h hs h2
      exact ⟨by rw [h1, h3], h4⟩

theorem body_inj {sep stop : Char} {shw : α → List Char} (h : Readable sep stop shw) (hs : sep ≠ stop) {xs ys : List α} {s t : List Char}
    (e : body sep shw xs ++ stop :: s = body sep shw ys ++ stop :: t) : xs = ys ∧ s = t := by
  cases xs with
  | nil =>
      cases ys with
      | nil => simpa [body] using e
      | cons y ys =>
          obtain ⟨c, t', h1, h2⟩ := h.begins y
          simp only [body, h1, List.nil_append, List.cons_append, List.cons.injEq] at e
          exact absurd e.1.symm h2
  | cons x xs =>
      cases ys with
      | nil =>
          obtain ⟨c, t', h1, h2⟩ := h.begins x
          simp only [body, h1, List.nil_append, List.cons_append, List.cons.injEq] at e
          exact absurd e.1 h2
      | cons y ys =>
          simp only [body, List.append_assoc] at e
          obtain ⟨c, s', e1, hc⟩ := rest_end sep stop shw xs s
          obtain ⟨d, t', e2, hd⟩ := rest_end sep stop shw ys t
          rw [e1, e2] at e
          obtain ⟨h1, h2⟩ := h.read x y c d s' t' hc hd e
          rw [← e1, ← e2] at h2
          obtain ⟨h3, h4⟩ := rest_inj h hs h2
          exact ⟨by rw [h1, h3], h4⟩

/-- One row. -/
def row (shw : α → List Char) (r : List α) : List Char := '[' :: (body ',' shw r ++ [']'])

/-- The rows of a matrix. -/
def rows (shw : α → List Char) : List (List α) → List Char
  | [] => []
  | [r] => row shw r
  | r :: r' :: rs => row shw r ++ '\n' :: ' ' :: rows shw (r' :: rs)

theorem rows_append (shw : α → List Char) (rs : List (List α)) (r : List α) :
    rows shw (rs ++ [r]) = rows shw rs ++ (if rs.length = 0 then [] else ['\n', ' ']) ++ row shw r := by
  induction rs with
  | nil => simp [rows]
  | cons a rs ih =>
      cases rs with
      | nil => simp [rows]
      | cons b rs => simp only [List.cons_append] at ih ⊢; simp [rows, ih]

theorem rows_inj {shw : α → List Char} (h : Readable ',' ']' shw) : ∀ {rs rs' : List (List α)} {s t : List Char},
    rows shw rs ++ ']' :: s = rows shw rs' ++ ']' :: t → rs = rs' ∧ s = t
  | [], [], s, t, e => by simpa [rows] using e
  | [], [r], s, t, e => by simp [rows, row] at e
  | [], r :: r' :: rs, s, t, e => by simp [rows, row] at e
  | [r], [], s, t, e => by simp [rows, row] at e
  | r :: r' :: rs, [], s, t, e => by simp [rows, row] at e
  | [r], [q], s, t, e => by
      simp only [rows, row, List.cons_append, List.append_assoc, List.cons.injEq, true_and, List.nil_append] at e
      obtain ⟨h1, h2⟩ := body_inj h (by decide) e
      simp only [List.cons.injEq, true_and] at h2
      exact ⟨by rw [h1], h2⟩
  | [r], q :: q' :: qs, s, t, e => by
      simp only [rows, row, List.cons_append, List.append_assoc, List.cons.injEq, true_and, List.nil_append] at e
      obtain ⟨h1, h2⟩ := body_inj h (by decide) e
      simp at h2
  | r :: r' :: rs, [q], s, t, e => by
      simp only [rows, row, List.cons_append, List.append_assoc, List.cons.injEq, true_and, List.nil_append] at e
      obtain ⟨h1, h2⟩ := body_inj h (by decide) e
      simp at h2
  | r :: r' :: rs, q :: q' :: qs, s, t, e => by
      simp only [rows, row, List.cons_append, List.append_assoc, List.cons.injEq, true_and, List.nil_append] at e
      obtain ⟨h1, h2⟩ := body_inj h (by decide) e
      simp only [List.cons.injEq, true_and] at h2
      obtain ⟨h3, h4⟩ := rows_inj h h2
      exact ⟨by rw [h1, h3], h4⟩

/-! ### What the loops write -/

theorem loop_text (shw : α → List Char) (get : Int → Option α) (x : Int → α) (n : Nat) (hx : ∀ i : Int, 0 ≤ i → i < n → get i = some (x i)) (out : List Char) :
    forLoop n (fun i out => do
      let v ← get i
      return out ++ (if i > 0 then [','] else []) ++ shw v) out = some (out ++ body ',' shw ((List.range n).map fun i : Nat => x i)) := by
  simp only [forLoop, Int.toNat_natCast]
  induction n with
  | zero => simp [body]
  | succ n ih =>
      rw [List.range_succ, List.foldlM_append, ih (fun i h1 h2 => hx i h1 (by omega))]
      simp only [Option.bind_eq_bind, Option.bind_some, List.foldlM_cons, List.foldlM_nil]
      rw [show get (Int.ofNat n) = some (x n) from hx n (by omega) (by omega)]
      simp only [Option.bind_some, List.map_append, List.map_cons, List.map_nil, body_append, List.length_map, List.length_range]
      by_cases h : n = 0
      · subst h; simp
      · rw [if_pos (by simp; omega), if_neg h]; simp

theorem vector_text (shw : α → List Char) (get : List Int → Option α) (x : Int → α) (n : Nat) (hx : ∀ i : Int, 0 ≤ i → i < n → get [i] = some (x i)) (out : List Char) :
    printVector shw n get out = some (out ++ row shw ((List.range n).map fun i : Nat => x i)) := by
  unfold printVector
  rw [loop_text shw (fun i => get [i]) x n hx]
  simp [row]

theorem matrix_text (shw : α → List Char) (get : List Int → Option α) (x : Int → Int → α) (n0 n1 : Nat)
    (hx : ∀ i j : Int, 0 ≤ i → i < n0 → 0 ≤ j → j < n1 → get [i, j] = some (x i j)) (out : List Char) :
    printMatrix shw n0 n1 get out = some (out ++ '\n' :: '[' :: (rows shw ((List.range n0).map fun i : Nat => (List.range n1).map fun j : Nat => x i j) ++ [']'])) := by
  have key : ∀ k : Nat, k ≤ n0 → forLoop (k : Int) (fun i out => do
      let out ← forLoop n1 (fun j out => do
        let x ← get [i, j]
        return out ++ (if j > 0 then [','] else []) ++ shw x) (out ++ (if i = 0 then ['['] else [' ', '[']))
      return out ++ [']'] ++ (if i = (n0 : Int) - 1 then [] else ['\n'])) (out ++ ['\n', '[']) =
      some (out ++ '\n' :: '[' :: (rows shw ((List.range k).map fun i : Nat => (List.range n1).map fun j : Nat => x i j) ++ (if k = 0 ∨ k = n0 then [] else ['\n']))) := by
    intro k
    induction k with
    | zero => intro _; simp [forLoop, rows]
    | succ k ih =>
        intro hk
        have h := ih (by omega)
        simp only [forLoop, Int.toNat_natCast] at h ⊢
        rw [List.range_succ, List.foldlM_append, h]
        simp only [Option.bind_eq_bind, Option.bind_some, List.foldlM_cons, List.foldlM_nil]
        have hl := loop_text shw (fun j => get [(k : Int), j]) (x k) n1 (fun j h1 h2 => hx k j (by omega) (by omega) h1 h2)
        simp only [forLoop, Int.toNat_natCast, Option.bind_eq_bind] at hl
        rw [show (Int.ofNat k) = (k : Int) from rfl, hl]
        simp only [Option.bind_some, List.map_append, List.map_cons, List.map_nil, rows_append, List.length_map, List.length_range]
        simp only [pure, Option.bind_some, Option.some.injEq]
        by_cases h0 : k = 0
        · subst h0
          by_cases h1 : n0 = 1
          · subst h1; simp [rows, row]
          · rw [if_neg (show ¬ (((0 : Nat) : Int) = (n0 : Int) - 1) by omega), if_neg (show ¬ (0 + 1 = 0 ∨ 0 + 1 = n0) by omega)]
            simp [rows, row]
        · by_cases h1 : k + 1 = n0
          · rw [if_pos (show (k : Int) = (n0 : Int) - 1 by omega), if_neg (show ¬ (k = 0 ∨ k = n0) by omega), if_pos (show k + 1 = 0 ∨ k + 1 = n0 by omega),
              if_neg (show ¬ (k : Int) = 0 by omega), if_neg h0]
            simp [row]
          · rw [if_neg (show ¬ (k : Int) = (n0 : Int) - 1 by omega), if_neg (show ¬ (k = 0 ∨ k = n0) by omega), if_neg (show ¬ (k + 1 = 0 ∨ k + 1 = n0) by omega),
              if_neg (show ¬ (k : Int) = 0 by omega), if_neg h0]
            simp [row]
  have h := key n0 (le_refl _)
  rw [if_pos (Or.inr rfl)] at h
  unfold printMatrix
  rw [h]
  simp

theorem map_range_inj {β : Type} {n m : Nat} {f g : Nat → β} (h : (List.range n).map f = (List.range m).map g) : n = m ∧ ∀ i, i < n → f i = g i := by
  have hl := congrArg List.length h
  simp at hl
  subst hl
  exact ⟨rfl, fun i hi => by
    have := congrArg (fun l => l[i]?) h
    simpa [hi] using this⟩

/-- C65, rank 1: printing succeeds, and the text determines the number of elements and each of them, for all lengths
including zero and whatever was printed before and follows. -/
theorem C65_vector (shw : α → List Char) (h : Readable ',' ']' shw) (n m : Nat) (get get' : List Int → Option α) (x y : Int → α)
    (hx : ∀ i : Int, 0 ≤ i → i < n → get [i] = some (x i)) (hy : ∀ i : Int, 0 ≤ i → i < m → get' [i] = some (y i)) (out : List Char) :
    ∃ s t, printVector shw n get out = some s ∧ printVector shw m get' out = some t ∧
      ∀ p q, s ++ p = t ++ q ↔ (n = m ∧ ∀ i : Int, 0 ≤ i → i < n → x i = y i) ∧ p = q := by
  refine ⟨_, _, vector_text shw get x n hx out, vector_text shw get' y m hy out, fun p q => ⟨fun e => ?_, ?_⟩⟩
  · simp only [row, List.append_assoc, List.cons_append, List.append_cancel_left_eq, List.cons.injEq, true_and, List.nil_append] at e
    obtain ⟨h1, h2⟩ := body_inj h (by decide) e
    obtain ⟨h3, h4⟩ := map_range_inj h1
    refine ⟨⟨h3, fun i hi hi' => ?_⟩, h2⟩
    have := h4 i.toNat (by omega)
    rwa [Int.toNat_of_nonneg hi] at this
  · rintro ⟨⟨rfl, e⟩, rfl⟩
    congr 3
    apply List.map_congr_left
    intro i hi
    exact e i (by omega) (by have := List.mem_range.mp hi; omega)

/-- C65, rank 2: printing succeeds, and for matrices with at least one row the text determines shape and elements.
Partial: without rows the number of columns is lost (`C65_rows_witness`). -/
theorem C65_matrix_partial (shw : α → List Char) (h : Readable ',' ']' shw) (n0 n1 m0 m1 : Nat) (hn : 0 < n0) (get get' : List Int → Option α)
    (x y : Int → Int → α) (hx : ∀ i j : Int, 0 ≤ i → i < n0 → 0 ≤ j → j < n1 → get [i, j] = some (x i j))
    (hy : ∀ i j : Int, 0 ≤ i → i < m0 → 0 ≤ j → j < m1 → get' [i, j] = some (y i j)) (out : List Char) :
    ∃ s t, printMatrix shw n0 n1 get out = some s ∧ printMatrix shw m0 m1 get' out = some t ∧
      ∀ p q, s ++ p = t ++ q ↔ (n0 = m0 ∧ n1 = m1 ∧ ∀ i j : Int, 0 ≤ i → i < n0 → 0 ≤ j → j < n1 → x i j = y i j) ∧ p = q := by
  refine ⟨_, _, matrix_text shw get x n0 n1 hx out, matrix_text shw get' y m0 m1 hy out, fun p q => ⟨fun e => ?_, ?_⟩⟩
  · simp only [List.append_assoc, List.cons_append, List.append_cancel_left_eq, List.cons.injEq, true_and, List.nil_append] at e
    obtain ⟨h1, h2⟩ := rows_inj h e
    obtain ⟨h3, h4⟩ := map_range_inj h1
    obtain ⟨h5, -⟩ := map_range_inj (h4 0 hn)
    refine ⟨⟨h3, h5, fun i j hi hi' hj hj' => ?_⟩, h2⟩
    have := (map_range_inj (h4 i.toNat (by omega))).2 j.toNat (by omega)
    rwa [Int.toNat_of_nonneg hi, Int.toNat_of_nonneg hj] at this
  · rintro ⟨⟨rfl, rfl, e⟩, rfl⟩
    congr 6
    apply List.map_congr_left
    intro i hi
    apply List.map_congr_left
    intro j hj
    have hi := List.mem_range.mp hi
    have hj := List.mem_range.mp hj
    exact e i j (by omega) (by omega) (by omega) (by omega)

/-- What the range-for of `printFlat` writes. -/
theorem flat_loop (shw : α → List Char) (mem : List α) (off : Int) (m : IdxMap) : ∀ (L : List (List Int)) (vals : List α) (out : List Char) (done : List α),
    List.Forall₂ (fun idx x => rdInt mem (off + offset m idx) = some x) L vals →
    L.foldlM (fun (s : List Char × Bool) idx => do
      let x ← rdInt mem (off + offset m idx)
      return (s.1 ++ (if s.2 then [] else [',']) ++ shw x, false)) (out ++ body ',' shw done, decide (done.length = 0)) =
      some (out ++ body ',' shw (done ++ vals), decide ((done ++ vals).length = 0))
  | [], _, out, done, h => by cases h; simp
  | i :: L, _, out, done, h => by
      cases h with
      | cons h1 h2 =>
          rename_i x vals
          rw [List.foldlM_cons, h1]
          have := flat_loop shw mem off m L vals out (done ++ [x]) h2
          rw [body_append] at this
          simp only [Option.bind_eq_bind, Option.bind_some, pure] at this ⊢
          rw [show decide ((done ++ [x]).length = 0) = false by simp] at this
          rw [List.append_assoc done, List.singleton_append] at this
          rw [← this]
          by_cases hd : done.length = 0
          · simp [hd]
          · simp [hd]

/-- The values of a view in memory order. -/
theorem flat_text (shw : α → List Char) (v : View) (mem : List α) (hv : Good v mem.length) (h0 : v.lay.len ≠ [])
    (hz : (∀ l ∈ v.lay.len, 0 < l) ∨ v.lay.prop.strided1d = true ∨ (memOrder v.lay.so v.lay.len).head? = some 0) (out : List Char) (fuel : Nat)
    (hf : prod v.lay.len < fuel) :
    ∃ L vals, MemEnum v.lay.so v.lay.len L ∧ List.Forall₂ (fun idx x => val mem (addr v idx) = some x) L vals ∧
      printFlat shw v mem fuel out = some (out ++ row shw vals) := by
  obtain ⟨L, hL, b, e, hb, he, hrun⟩ := IdxMap.C16_iterate_partial v.lay hv.wf hv.flags h0 hv.nonneg hz
  have hlen : L.length < fuel := by
    have hp : L.Perm (box v.lay.len) := (List.perm_ext_iff_of_nodup hL.nodup (lexEnum_box v.lay.len).nodup).mpr (fun x => by rw [mem_box, hL.mem_iff])
    have := box_length hv.nonneg
    rw [hp.length_eq]; omega
  have hvals : ∀ M : List (List Int), (∀ idx ∈ M, InRange v.lay.len idx) → ∃ vals, List.Forall₂ (fun idx x => val mem (addr v idx) = some x) M vals := by
    intro M
    induction M with
    | nil => intro _; exact ⟨[], .nil⟩
    | cons i M ih =>
        intro h
        obtain ⟨vals, hvals⟩ := ih (fun idx hi => h idx (by simp [hi]))
        obtain ⟨x, hx⟩ := val_isSome (hv.fits i (h i (by simp)))
        exact ⟨x :: vals, .cons hx hvals⟩
  obtain ⟨vals, hvals⟩ := hvals L (fun idx h => (hL.mem_iff idx).mp h)
  refine ⟨L, vals, hL, hvals, ?_⟩
  have hloop := flat_loop shw mem v.off v.lay L vals (out ++ ['[']) [] (hvals.imp (fun idx x h => by rw [rdInt_eq]; exact h))
  simp only [body, List.append_nil, List.length_nil, decide_true, List.nil_append] at hloop
  unfold printFlat
  simp only [hb, he, Option.bind_eq_bind, Option.bind_some]
  rw [hrun _ _ _ fuel hlen]
  simp only [Option.bind_eq_bind] at hloop
  rw [hloop]
  simp only [row, Option.bind_some, List.append_assoc, List.cons_append, List.nil_append]
  rfl

theorem forall2_map {β γ : Type} {f : β → Option γ} {L : List β} {vals : List γ} (h : List.Forall₂ (fun i x => f i = some x) L vals) : L.map f = vals.map some := by
  induction h with
  | nil => rfl
  | cons h _ ih => simp [h, ih]

/-- C65, higher ranks: printing succeeds, and for arrays of the same shape and memory order the text determines the elements.
Partial: the text does not determine the shape (`C65_shape_witness`), and arrays with the same elements but another memory order are printed differently (`C65_order_witness`); layouts without the
promise of even spacing that have a zero extent after a non-zero one are printed for ever (`C16_empty_never_terminates`). -/
theorem C65_flat_partial (shw : α → List Char) (h : Readable ',' ']' shw) (v w : View) (mem mem' : List α) (hv : Good v mem.length) (hw : Good w mem'.length)
    (h0 : v.lay.len ≠ []) (hlen : w.lay.len = v.lay.len) (hso : w.lay.so = v.lay.so)
    (hz : (∀ l ∈ v.lay.len, 0 < l) ∨ (v.lay.prop.strided1d = true ∧ w.lay.prop.strided1d = true) ∨ (memOrder v.lay.so v.lay.len).head? = some 0) (out : List Char) (fuel : Nat)
    (hf : prod v.lay.len < fuel) :
    ∃ s t, printFlat shw v mem fuel out = some s ∧ printFlat shw w mem' fuel out = some t ∧
      ∀ p q, s ++ p = t ++ q ↔ (∀ idx, InRange v.lay.len idx → val mem (addr v idx) = val mem' (addr w idx)) ∧ p = q := by
  obtain ⟨L, vals, hL, h1, h2⟩ := flat_text shw v mem hv h0 (by tauto) out fuel hf
  obtain ⟨L', vals', hL', h3, h4⟩ := flat_text shw w mem' hw (by rwa [hlen]) (by rw [hlen, hso]; tauto) out fuel (by rwa [hlen])
  have e1 := Arith.MemEnum.eq_memBox (so := v.lay.so) (h := hL) hv.wf.perm hv.wf.so_len.symm
  have e2 := Arith.MemEnum.eq_memBox (so := w.lay.so) (h := hL') hw.wf.perm hw.wf.so_len.symm
  rw [hlen, hso, ← e1] at e2
  subst e2
  have m1 := forall2_map h1
  have m2 := forall2_map h3
  refine ⟨_, _, h2, h4, fun p q => ⟨fun e => ?_, ?_⟩⟩
  · simp only [row, List.append_assoc, List.cons_append, List.append_cancel_left_eq, List.cons.injEq, true_and, List.nil_append] at e
    obtain ⟨e1, e2⟩ := body_inj h (by decide) e
    subst e1
    rw [← m2] at m1
    exact ⟨fun idx hi => List.map_inj_left.mp m1 idx ((hL.mem_iff idx).mpr hi), e2⟩
  · rintro ⟨e, rfl⟩
    have : vals = vals' := by
      have : vals.map some = vals'.map some := by
        rw [← m1, ← m2]
        exact List.map_congr_left (fun idx hi => e idx ((hL.mem_iff idx).mp hi))
      exact List.map_injective_iff.mpr (Option.some_injective _) this
    rw [this]

/-- C65 for views: of two views of the same shape, the texts are equal exactly when all elements are. For ranks 1 and 2 the memory orders are free.
Partial: for higher ranks the memory orders have to agree (`C65_order_witness`). -/
theorem C65_print_partial [Inhabited α] (shw : α → List Char) (h : Readable ',' ']' shw) (v w : View) (mem mem' : List α) (hv : Good v mem.length) (hw : Good w mem'.length)
    (h0 : v.lay.len ≠ []) (hlen : w.lay.len = v.lay.len)
    (hz : v.lay.len.length ≤ 2 ∨ w.lay.so = v.lay.so ∧
      ((∀ l ∈ v.lay.len, 0 < l) ∨ (v.lay.prop.strided1d = true ∧ w.lay.prop.strided1d = true) ∨ (memOrder v.lay.so v.lay.len).head? = some 0)) (out : List Char) (fuel : Nat)
    (hf : prod v.lay.len < fuel) :
    ∃ s t, print shw v mem fuel out = some s ∧ print shw w mem' fuel out = some t ∧
      (s = t ↔ ∀ idx, InRange v.lay.len idx → val mem (addr v idx) = val mem' (addr w idx)) := by
  have hload : ∀ (u : View) (m : List α), Good u m.length → ∀ idx, InRange u.lay.len idx → ∃ x, Assign.load u idx m = some x ∧ val m (addr u idx) = some x := by
    intro u m hu idx hi
    obtain ⟨x, hx⟩ := val_isSome (hu.fits idx hi)
    exact ⟨x, by rw [load_eq hu hi, hx], hx⟩
  rcases hl : v.lay.len with _ | ⟨n0, _ | ⟨n1, _ | ⟨n2, rst⟩⟩⟩
  · exact absurd hl h0
  · have hn := hv.nonneg
    have hlw := hlen
    rw [hl] at hn hlw
    obtain ⟨n, rfl⟩ := Int.eq_ofNat_of_zero_le (hn n0 (by simp))
    have hvi : ∀ i : Int, 0 ≤ i → i < n → InRange v.lay.len [i] := fun i h1 h2 => by rw [hl]; exact ⟨⟨h1, h2⟩, trivial⟩
    have hwi : ∀ i : Int, 0 ≤ i → i < n → InRange w.lay.len [i] := fun i h1 h2 => by rw [hlen]; exact hvi i h1 h2
    have hx : ∀ i : Int, 0 ≤ i → i < n → load v [i] mem = some ((load v [i] mem).getD default) := fun i h1 h2 => by
      obtain ⟨x, hx, _⟩ := hload v mem hv _ (hvi i h1 h2); rw [hx]; rfl
    have hy : ∀ i : Int, 0 ≤ i → i < n → load w [i] mem' = some ((load w [i] mem').getD default) := fun i h1 h2 => by
      obtain ⟨x, hx, _⟩ := hload w mem' hw _ (hwi i h1 h2); rw [hx]; rfl
    obtain ⟨s, t, h1, h2, h3⟩ := C65_vector shw h n n (fun idx => load v idx mem) (fun idx => load w idx mem')
      (fun i => (load v [i] mem).getD default) (fun i => (load w [i] mem').getD default) hx hy out
    refine ⟨s, t, by simp only [print, hl]; exact h1, by simp only [print, hlw]; exact h2, ?_⟩
    have h4 := h3 [] []
    simp only [List.append_nil, and_true, true_and] at h4
    rw [h4]
    constructor
    · rintro e (_ | ⟨i, _ | ⟨j, _⟩⟩) hi
      · exact hi.elim
      · obtain ⟨⟨h5, h6⟩, -⟩ := hi
        rw [← load_eq hv (hvi i h5 h6), ← load_eq hw (hwi i h5 h6), hx i h5 h6, hy i h5 h6, e i h5 h6]
      · exact hi.2.elim
    · intro e i h5 h6
      rw [load_eq hv (hvi i h5 h6), load_eq hw (hwi i h5 h6), e [i] ⟨⟨h5, h6⟩, trivial⟩]
  · have hn := hv.nonneg
    have hlw := hlen
    rw [hl] at hn hlw
    obtain ⟨n, rfl⟩ := Int.eq_ofNat_of_zero_le (hn n0 (by simp))
    obtain ⟨m, rfl⟩ := Int.eq_ofNat_of_zero_le (hn n1 (by simp))
    have hvi : ∀ i j : Int, 0 ≤ i → i < n → 0 ≤ j → j < m → InRange v.lay.len [i, j] := fun i j h1 h2 h3 h4 => by rw [hl]; exact ⟨⟨h1, h2⟩, ⟨h3, h4⟩, trivial⟩
    have hwi : ∀ i j : Int, 0 ≤ i → i < n → 0 ≤ j → j < m → InRange w.lay.len [i, j] := fun i j h1 h2 h3 h4 => by rw [hlen]; exact hvi i j h1 h2 h3 h4
    have hx : ∀ i j : Int, 0 ≤ i → i < n → 0 ≤ j → j < m → load v [i, j] mem = some ((load v [i, j] mem).getD default) := fun i j h1 h2 h3 h4 => by
      obtain ⟨x, hx, _⟩ := hload v mem hv _ (hvi i j h1 h2 h3 h4); rw [hx]; rfl
    have hy : ∀ i j : Int, 0 ≤ i → i < n → 0 ≤ j → j < m → load w [i, j] mem' = some ((load w [i, j] mem').getD default) := fun i j h1 h2 h3 h4 => by
      obtain ⟨x, hx, _⟩ := hload w mem' hw _ (hwi i j h1 h2 h3 h4); rw [hx]; rfl
    by_cases h00 : 0 < n
    · obtain ⟨s, t, h1, h2, h3⟩ := C65_matrix_partial shw h n m n m h00 (fun idx => load v idx mem) (fun idx => load w idx mem')
        (fun i j => (load v [i, j] mem).getD default) (fun i j => (load w [i, j] mem').getD default) hx hy out
      refine ⟨s, t, by simp only [print, hl]; exact h1, by simp only [print, hlw]; exact h2, ?_⟩
      have h4 := h3 [] []
      simp only [List.append_nil, and_true, true_and] at h4
      rw [h4]
      constructor
      · rintro e (_ | ⟨i, _ | ⟨j, _ | ⟨k, _⟩⟩⟩) hi
        · exact hi.elim
        · exact hi.2.elim
        · obtain ⟨⟨h5, h6⟩, ⟨h7, h8⟩, -⟩ := hi
          rw [← load_eq hv (hvi i j h5 h6 h7 h8), ← load_eq hw (hwi i j h5 h6 h7 h8), hx i j h5 h6 h7 h8, hy i j h5 h6 h7 h8, e i j h5 h6 h7 h8]
        · exact hi.2.2.elim
      · intro e i j h5 h6 h7 h8
        rw [load_eq hv (hvi i j h5 h6 h7 h8), load_eq hw (hwi i j h5 h6 h7 h8), e [i, j] ⟨⟨h5, h6⟩, ⟨h7, h8⟩, trivial⟩]
    · obtain rfl : n = 0 := by omega
      refine ⟨_, _, by simp only [print, hl]; exact matrix_text shw _ (fun i j => (load v [i, j] mem).getD default) 0 m hx out,
        by simp only [print, hlw]; exact matrix_text shw _ (fun i j => (load w [i, j] mem').getD default) 0 m hy out, ?_⟩
      simp only [List.range_zero, List.map_nil, true_iff]
      rintro (_ | ⟨i, r⟩) hi
      · exact hi.elim
      · obtain ⟨⟨h5, h6⟩, -⟩ := hi; omega
  · rw [hl] at hz hlen
    simp only [List.length_cons] at hz
    obtain ⟨hso, hz⟩ : w.lay.so = v.lay.so ∧ _ := by
      rcases hz with hz | hz
      · omega
      · exact hz
    obtain ⟨s, t, h1, h2, h3⟩ := C65_flat_partial shw h v w mem mem' hv hw h0 (by rw [hl, hlen]) hso (by rw [hl]; exact hz) out fuel hf
    refine ⟨s, t, by simp only [print, hl]; exact h1, by simp only [print, hlen]; exact h2, ?_⟩
    have h4 := h3 [] []
    simpa [hl] using h4

/-- C65, `std::array`: the text of a shape or of an index tuple determines it. -/
theorem C65_tuple (shw : α → List Char) (h : Readable ' ' ')' shw) (a b : List α) (p q : List Char) :
    arrayToString shw a ++ p = arrayToString shw b ++ q ↔ a = b ∧ p = q := by
  have key : ∀ a : List α, arrayToString shw a = '(' :: (body ' ' shw a ++ [')']) := by
    intro a
    have : ∀ (l done : List α), (l.zipIdx done.length).foldl (fun fs x => fs ++ (if x.2 = 0 then [] else [' ']) ++ shw x.1) ('(' :: body ' ' shw done) =
        '(' :: body ' ' shw (done ++ l) := by
      intro l
      induction l with
      | nil => simp
      | cons x l ih =>
          intro done
          have := ih (done ++ [x])
          rw [body_append, List.length_append, List.length_singleton] at this
          rw [List.zipIdx_cons, List.foldl_cons]
          simp only [List.cons_append, List.append_assoc, List.nil_append] at this ⊢
          exact this
    have h1 := this a []
    have hb : body ' ' shw ([] : List α) = [] := rfl
    simp only [List.length_nil, hb, List.nil_append] at h1
    rw [arrayToString, h1]; simp
  rw [key, key]
  constructor
  · intro e
    simp only [List.append_assoc, List.cons_append, List.cons.injEq, true_and, List.nil_append] at e
    exact body_inj h (by decide) e
  · rintro ⟨rfl, rfl⟩; rfl

/-! ### Readable elements -/

/-- Text without separators. -/
theorem readable_of {sep stop : Char} {shw : α → List Char} (hi : ∀ x y, shw x = shw y → x = y) (hn : ∀ x, shw x ≠ []) (hc : ∀ x, ∀ c ∈ shw x, c ≠ sep ∧ c ≠ stop) :
    Readable sep stop shw := by
  have key : ∀ (s t : List Char) (c d : Char) (s' t' : List Char), (∀ a ∈ s, a ≠ sep ∧ a ≠ stop) → (∀ a ∈ t, a ≠ sep ∧ a ≠ stop) → (c = sep ∨ c = stop) → (d = sep ∨ d = stop) →
      s ++ c :: s' = t ++ d :: t' → s = t ∧ c :: s' = d :: t' := by
    intro s
    induction s with
    | nil =>
        intro t c d s' t' _ h2 hc hd e
        cases t with
        | nil => exact ⟨rfl, e⟩
        | cons a t =>
            simp only [List.nil_append, List.cons_append, List.cons.injEq] at e
            have := h2 a (by simp)
            rw [← e.1] at this
            rcases hc with rfl | rfl
            · exact absurd rfl this.1
            · exact absurd rfl this.2
    | cons a s ih =>
        intro t c d s' t' h1 h2 hc hd e
        cases t with
        | nil =>
            simp only [List.nil_append, List.cons_append, List.cons.injEq] at e
            have := h1 a (by simp)
            rw [e.1] at this
            rcases hd with rfl | rfl
            · exact absurd rfl this.1
            · exact absurd rfl this.2
        | cons b t =>
            simp only [List.cons_append, List.cons.injEq] at e
            obtain ⟨h3, h4⟩ := ih t c d s' t' (fun x hx => h1 x (by simp [hx])) (fun x hx => h2 x (by simp [hx])) hc hd e.2
            exact ⟨by rw [e.1, h3], h4⟩
  refine ⟨fun x y c d s t h1 h2 e => ?_, fun x => ?_⟩
  · obtain ⟨h3, h4⟩ := key _ _ _ _ _ _ (hc x) (hc y) h1 h2 e
    exact ⟨hi x y h3, h4⟩
  · cases hx : shw x with
    | nil => exact absurd hx (hn x)
    | cons c s => exact ⟨c, s, rfl, (hc x c (by simp [hx])).2⟩

theorem decimal_char {n : Int} {c : Char} (h : c ∈ decimal n) : c = '-' ∨ c.isDigit = true := by
  unfold decimal at h
  rcases List.mem_append.mp h with h | h
  · split at h
    · exact Or.inl (by simpa using h)
    · cases h
  · exact Or.inr (Nat.isDigit_of_mem_toDigits (by decide) (by decide) h)

theorem decimal_inj {n m : Int} (h : decimal n = decimal m) : n = m := by
  unfold decimal at h
  have hd : ∀ k : Nat, ∀ c ∈ Nat.toDigits 10 k, c ≠ '-' := by
    intro k c hc he
    have := Nat.isDigit_of_mem_toDigits (by decide) (by decide) hc
    rw [he] at this; revert this; decide
  have hk : ∀ k l : Nat, Nat.toDigits 10 k = Nat.toDigits 10 l → k = l := by
    intro k l e
    have := congrArg (fun s => Nat.ofDigitChars 10 s 0) e
    simpa using this
  by_cases h1 : n < 0 <;> by_cases h2 : m < 0 <;> simp only [h1, h2, if_true, if_false, List.nil_append, List.cons_append, List.cons.injEq, true_and] at h
  · have := hk _ _ h; omega
  · exfalso; exact hd m.natAbs '-' (by rw [← h]; simp) rfl
  · exfalso; exact hd n.natAbs '-' (by rw [h]; simp) rfl
  · have := hk _ _ h; omega

/-- Integers in decimal notation are readable between any separators that are neither digits nor the sign. -/
theorem decimal_readable (sep stop : Char) (h1 : sep ≠ '-' ∧ sep.isDigit = false) (h2 : stop ≠ '-' ∧ stop.isDigit = false) : Readable sep stop decimal := by
  refine readable_of (fun x y => decimal_inj) (fun x h => ?_) (fun x c hc => ?_)
  · unfold decimal at h
    exact Nat.toDigits_ne_nil (List.append_eq_nil_iff.mp h).2
  · rcases decimal_char hc with rfl | hd
    · exact ⟨h1.1.symm, h2.1.symm⟩
    · exact ⟨fun e => by rw [e, h1.2] at hd; exact absurd hd (by decide), fun e => by rw [e, h2.2] at hd; exact absurd hd (by decide)⟩

/-- Complex numbers are readable although they contain a comma. -/
theorem complex_readable {shw : α → List Char} (h : Readable ',' ')' shw) : Readable ',' ']' (complex shw) := by
  refine ⟨fun x y c d s t _ _ e => ?_, fun x => ⟨'(', _, rfl, by decide⟩⟩
  simp only [complex, List.append_assoc, List.cons_append, List.nil_append, List.cons.injEq, true_and] at e
  obtain ⟨h1, h2⟩ := h.read x.1 y.1 ',' ',' _ _ (Or.inl rfl) (Or.inl rfl) e
  simp only [List.cons.injEq, true_and] at h2
  obtain ⟨h3, h4⟩ := h.read x.2 y.2 ')' ')' _ _ (Or.inr rfl) (Or.inr rfl) h2
  simp only [List.cons.injEq, true_and] at h4
  exact ⟨Prod.ext h1 h3, by rw [h4.1, h4.2]⟩

/-! ### Witnesses -/

/-- C65 fails for matrices without rows: the number of columns is not printed. -/
theorem C65_rows_witness : printMatrix decimal 0 3 (fun _ => none) [] = some "\n[]".toList ∧ printMatrix decimal 0 5 (fun _ => none) [] = some "\n[]".toList := by decide

/-- C65 fails for higher ranks: arrays of shape (1, 2, 2) and (2, 2, 1) look the same. -/
theorem C65_shape_witness :
    print decimal ⟨0, ⟨[1, 2, 2], [4, 2, 1], [0, 1, 2], [0, 0, 0], .contiguous⟩⟩ [1, 2, 3, 4] 9 [] = some "[1,2,3,4]".toList ∧
    print decimal ⟨0, ⟨[2, 2, 1], [2, 1, 1], [0, 1, 2], [0, 0, 0], .contiguous⟩⟩ [1, 2, 3, 4] 9 [] = some "[1,2,3,4]".toList := by decide +kernel

/-- C65 fails for higher ranks: the same array in C order and in Fortran order looks different (the element at (0, i, j) is `2 i + j + 1` in both). -/
theorem C65_order_witness :
    print decimal ⟨0, ⟨[1, 2, 2], [4, 2, 1], [0, 1, 2], [0, 0, 0], .contiguous⟩⟩ [1, 2, 3, 4] 9 [] = some "[1,2,3,4]".toList ∧
    print decimal ⟨0, ⟨[1, 2, 2], [1, 1, 2], [2, 1, 0], [0, 0, 0], .contiguous⟩⟩ [1, 3, 2, 4] 9 [] = some "[1,3,2,4]".toList := by decide +kernel

/-- C65 fails for rank 0: whatever the element, nothing is printed. -/
theorem C65_rank0_witness (shw : α → List Char) (v : View) (mem : List α) (fuel : Nat) (out : List Char) (h : v.lay.len = []) : print shw v mem fuel out = some out := by
  simp [print, h]

/-- A matrix of two rows, and an array without elements. -/
example : print decimal ⟨0, ⟨[2, 3], [3, 1], [0, 1], [0, 0], .contiguous⟩⟩ [1, -2, 3, 40, 5, 6] 0 [] = some "\n[[1,-2,3]\n [40,5,6]]".toList ∧
    print decimal ⟨0, ⟨[0], [1], [0], [0], .contiguous⟩⟩ [] 0 [] = some "[]".toList ∧
    print (complex decimal) ⟨0, ⟨[2], [1], [0], [0], .contiguous⟩⟩ [(1, 2), (3, -4)] 0 [] = some "[(1,2),(3,-4)]".toList ∧
    arrayToString decimal [2, 3] = "(2 3)".toList := by decide +kernel

/-- The hypotheses of `C65_print_partial` are met by two arrays of rank 3 that differ in one element, one of them a view into a larger block. -/
example : let v : View := ⟨0, ⟨[1, 2, 2], [4, 2, 1], [0, 1, 2], [0, 0, 0], .contiguous⟩⟩
    let w : View := ⟨1, ⟨[1, 2, 2], [8, 3, 1], [0, 1, 2], [0, 0, 0], .none⟩⟩
    Good v [1, 2, 3, 4].length ∧ Good w [0, 1, 2, 0, 3, 5].length ∧
      print decimal v [1, 2, 3, 4] 9 [] = some "[1,2,3,4]".toList ∧ print decimal w [0, 1, 2, 0, 3, 5] 9 [] = some "[1,2,3,5]".toList :=
  ⟨good_of (by decide) rfl rfl rfl (by decide) 1 (by decide) (by simp [NonNeg]) (by decide), good_of (by decide) rfl rfl rfl (by decide) 1 (by decide) (by simp [NonNeg]) (by decide),
    by decide +kernel, by decide +kernel⟩

/-- The hypotheses on the elements are met by integers and by complex numbers made of them. -/
example : Readable ',' ']' decimal ∧ Readable ' ' ')' decimal ∧ Readable ',' ']' (complex decimal) :=
  ⟨decimal_readable _ _ (by decide) (by decide), decimal_readable _ _ (by decide) (by decide), complex_readable (decimal_readable _ _ (by decide) (by decide))⟩

end Nda.Print
