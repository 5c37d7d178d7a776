import Verif.Model.PrintExpr
import Verif.Spec.PrintExpr
import Verif.Props.Print
/-!
# C80: printed expressions and layouts
-/
namespace Nda.Print
open Nda Nda.Spec Spec Loops Assign Arith

variable {α : Type}

/-! ### Arrays -/

/-- The elements of a printable array, as a function of the indices. -/
theorem getD_load {v : View} {mem : List α} (hv : Good v mem.length) (d : α) {idx : List Int} (hi : InRange v.lay.len idx) :
    load v idx mem = some ((load v idx mem).getD d) := by
  obtain ⟨x, hx⟩ := val_isSome (hv.fits idx hi)
  rw [load_eq hv hi, hx]; rfl

theorem vec_range {v : View} {n : Nat} (hl : v.lay.len = [(n : Int)]) : ∀ i : Int, 0 ≤ i → i < n → InRange v.lay.len [i] :=
  fun i h1 h2 => by rw [hl]; exact ⟨⟨h1, h2⟩, trivial⟩

theorem mat_range {v : View} {n m : Nat} (hl : v.lay.len = [(n : Int), (m : Int)]) :
    ∀ i j : Int, 0 ≤ i → i < n → 0 ≤ j → j < m → InRange v.lay.len [i, j] :=
  fun i j h1 h2 h3 h4 => by rw [hl]; exact ⟨⟨h1, h2⟩, ⟨h3, h4⟩, trivial⟩

/-- The text of a vector or matrix. -/
theorem leaf_text [Inhabited α] (shw : α → List Char) (mem : List α) (fuel : Nat) (a : Alg) (v : View) (hv : Legible mem (.arr a v)) :
    ∃ c s, (c = '[' ∨ c = '\n') ∧ (c = '\n' ↔ v.lay.len.length = 2) ∧ ∀ out, print shw v mem fuel out = some (out ++ c :: s) := by
  obtain ⟨hg, hl⟩ := hv
  have hn := hg.nonneg
  rcases hl with ⟨n, hl⟩ | ⟨n, m, hl, h0⟩
  · rw [hl] at hn
    obtain ⟨n, rfl⟩ := Int.eq_ofNat_of_zero_le (hn n (by simp))
    have key := vector_text shw (fun idx => load v idx mem) (fun i => (load v [i] mem).getD default) n (fun i h1 h2 => getD_load hg default (vec_range hl i h1 h2))
    simp only [row] at key
    exact ⟨'[', _, Or.inl rfl, by simp [hl], fun out => by simp only [print, hl]; exact key out⟩
  · rw [hl] at hn
    obtain ⟨n, rfl⟩ := Int.eq_ofNat_of_zero_le (hn n (by simp))
    obtain ⟨m, rfl⟩ := Int.eq_ofNat_of_zero_le (hn m (by simp))
    have key := matrix_text shw (fun idx => load v idx mem) (fun i j => (load v [i, j] mem).getD default) n m
      (fun i j h1 h2 h3 h4 => getD_load hg default (mat_range hl i j h1 h2 h3 h4))
    exact ⟨'\n', _, Or.inr rfl, by simp [hl], fun out => by simp only [print, hl]; exact key out⟩

/-- The text of a vector or matrix determines it. -/
theorem leaf_inj [Inhabited α] (shw : α → List Char) (h : Readable ',' ']' shw) (mem mem' : List α) (fuel : Nat) (a b : Alg) (v w : View)
    (hv : Legible mem (.arr a v)) (hw : Legible mem' (.arr b w)) {s t p q : List Char} (hs : print shw v mem fuel [] = some s)
    (ht : print shw w mem' fuel [] = some t) :
    s ++ p = t ++ q ↔ SameExpr mem mem' (.arr a v) (.arr b w) ∧ p = q := by
  have hsame : SameExpr mem mem' (.arr a v) (.arr b w) ↔ w.lay.len = v.lay.len ∧ ∀ idx, InRange v.lay.len idx → val mem (addr v idx) = val mem' (addr w idx) :=
    ⟨fun hh => by cases hh with | arr _ _ _ _ hl hx => exact ⟨hl, hx⟩, fun hh => .arr _ _ _ _ hh.1 hh.2⟩
  rw [hsame]
  obtain ⟨c, s', -, hc, hs'⟩ := leaf_text shw mem fuel a v hv
  obtain ⟨d, t', -, hd, ht'⟩ := leaf_text shw mem' fuel b w hw
  have e1 := Option.some.inj (hs.symm.trans (hs' []))
  have e2 := Option.some.inj (ht.symm.trans (ht' []))
  have hrank : s ++ p = t ++ q → (v.lay.len.length = 2 ↔ w.lay.len.length = 2) := fun e => by
    rw [e1, e2] at e
    simp only [List.nil_append, List.cons_append, List.cons.injEq] at e
    rw [← hc, ← hd, e.1]
  obtain ⟨hgv, hlv⟩ := hv
  obtain ⟨hgw, hlw⟩ := hw
  have hnv := hgv.nonneg
  have hnw := hgw.nonneg
  rcases hlv with ⟨n, hlv⟩ | ⟨n, m, hlv, h0⟩
  · rcases hlw with ⟨n', hlw⟩ | ⟨n', m', hlw, h0'⟩
    · rw [hlv] at hnv
      rw [hlw] at hnw
      obtain ⟨n, rfl⟩ := Int.eq_ofNat_of_zero_le (hnv n (by simp))
      obtain ⟨n', rfl⟩ := Int.eq_ofNat_of_zero_le (hnw n' (by simp))
      simp only [print, hlv] at hs
      simp only [print, hlw] at ht
      have hx := fun i h1 h2 => getD_load hgv (default : α) (vec_range hlv i h1 h2)
      have hy := fun i h1 h2 => getD_load hgw (default : α) (vec_range hlw i h1 h2)
      obtain ⟨s2, t2, h1, h2, h3⟩ := C65_vector shw h n n' (fun idx => load v idx mem) (fun idx => load w idx mem')
        (fun i => (load v [i] mem).getD default) (fun i => (load w [i] mem').getD default) hx hy []
      obtain rfl := Option.some.inj (hs.symm.trans h1)
      obtain rfl := Option.some.inj (ht.symm.trans h2)
      rw [h3 p q, hlv, hlw]
      refine and_congr_left fun _ => ⟨?_, ?_⟩
      · rintro ⟨rfl, e⟩
        refine ⟨rfl, ?_⟩
        rintro (_ | ⟨i, _ | ⟨j, _⟩⟩) hi
        · exact hi.elim
        · obtain ⟨⟨h5, h6⟩, -⟩ := hi
          rw [← load_eq hgv (vec_range hlv i h5 h6), ← load_eq hgw (vec_range hlw i h5 h6), hx i h5 h6, hy i h5 h6, e i h5 h6]
        · exact hi.2.elim
      · rintro ⟨hl, e⟩
        obtain rfl : n' = n := by simpa using hl
        refine ⟨rfl, fun i h5 h6 => ?_⟩
        rw [load_eq hgv (vec_range hlv i h5 h6), load_eq hgw (vec_range hlw i h5 h6), e [i] ⟨⟨h5, h6⟩, trivial⟩]
    · constructor
      · intro e; have := hrank e; rw [hlv, hlw] at this; simp at this
      · rintro ⟨⟨hl, -⟩, -⟩; rw [hlv, hlw] at hl; simp at hl
  · rcases hlw with ⟨n', hlw⟩ | ⟨n', m', hlw, h0'⟩
    · constructor
      · intro e; have := hrank e; rw [hlv, hlw] at this; simp at this
      · rintro ⟨⟨hl, -⟩, -⟩; rw [hlv, hlw] at hl; simp at hl
    · rw [hlv] at hnv
      rw [hlw] at hnw
      obtain ⟨n, rfl⟩ := Int.eq_ofNat_of_zero_le (hnv n (by simp))
      obtain ⟨m, rfl⟩ := Int.eq_ofNat_of_zero_le (hnv m (by simp))
      obtain ⟨n', rfl⟩ := Int.eq_ofNat_of_zero_le (hnw n' (by simp))
      obtain ⟨m', rfl⟩ := Int.eq_ofNat_of_zero_le (hnw m' (by simp))
      simp only [print, hlv] at hs
      simp only [print, hlw] at ht
      have hx := fun i j h1 h2 h3 h4 => getD_load hgv (default : α) (mat_range hlv i j h1 h2 h3 h4)
      have hy := fun i j h1 h2 h3 h4 => getD_load hgw (default : α) (mat_range hlw i j h1 h2 h3 h4)
      obtain ⟨s2, t2, h1, h2, h3⟩ := C65_matrix_partial shw h n m n' m' (by omega) (fun idx => load v idx mem) (fun idx => load w idx mem')
        (fun i j => (load v [i, j] mem).getD default) (fun i j => (load w [i, j] mem').getD default) hx hy []
      obtain rfl := Option.some.inj (hs.symm.trans h1)
      obtain rfl := Option.some.inj (ht.symm.trans h2)
      rw [h3 p q, hlv, hlw]
      refine and_congr_left fun _ => ⟨?_, ?_⟩
      · rintro ⟨rfl, rfl, e⟩
        refine ⟨rfl, ?_⟩
        rintro (_ | ⟨i, _ | ⟨j, _ | ⟨k, _⟩⟩⟩) hi
        · exact hi.elim
        · exact hi.2.elim
        · obtain ⟨⟨h5, h6⟩, ⟨h7, h8⟩, -⟩ := hi
          rw [← load_eq hgv (mat_range hlv i j h5 h6 h7 h8), ← load_eq hgw (mat_range hlw i j h5 h6 h7 h8), hx i j h5 h6 h7 h8, hy i j h5 h6 h7 h8, e i j h5 h6 h7 h8]
        · exact hi.2.2.elim
      · rintro ⟨hl, e⟩
        simp only [List.cons.injEq, and_true, Nat.cast_inj] at hl
        obtain ⟨rfl, rfl⟩ := hl
        refine ⟨rfl, rfl, fun i j h5 h6 h7 h8 => ?_⟩
        rw [load_eq hgv (mat_range hlv i j h5 h6 h7 h8), load_eq hgw (mat_range hlw i j h5 h6 h7 h8), e [i, j] ⟨⟨h5, h6⟩, ⟨h7, h8⟩, trivial⟩]

/-! ### Expressions -/

/-- Text of an expression: what is printed is appended to the stream. -/
def Text (shw : α → List Char) (mem : List α) (fuel : Nat) (e : Expr α) (s : List Char) : Prop := ∀ out, printExpr shw mem fuel e out = some (out ++ s)

theorem text_bin {shw : α → List Char} {mem : List α} {fuel : Nat} {op : BOp} {l r : Expr α} {s t : List Char} (hl : Text shw mem fuel l s) (hr : Text shw mem fuel r t) :
    Text shw mem fuel (.bin op l r) ('(' :: (s ++ ' ' :: opChar op :: ' ' :: (t ++ [')']))) := fun out => by
  simp only [printExpr, hl (out ++ ['(']), Option.bind_eq_bind, Option.bind_some]
  rw [hr]
  simp

theorem text_scalL {shw : α → List Char} {mem : List α} {fuel : Nat} {op : BOp} {x : α} {r : Expr α} {t : List Char} (hr : Text shw mem fuel r t) :
    Text shw mem fuel (.scalL op x r) ('(' :: (shw x ++ ' ' :: opChar op :: ' ' :: (t ++ [')']))) := fun out => by
  simp only [printExpr, Option.bind_eq_bind]
  rw [hr]
  simp

theorem text_scalR {shw : α → List Char} {mem : List α} {fuel : Nat} {op : BOp} {x : α} {l : Expr α} {s : List Char} (hl : Text shw mem fuel l s) :
    Text shw mem fuel (.scalR op l x) ('(' :: (s ++ ' ' :: opChar op :: ' ' :: (shw x ++ [')']))) := fun out => by
  simp only [printExpr, hl (out ++ ['(']), Option.bind_eq_bind, Option.bind_some]
  simp

theorem text_neg {shw : α → List Char} {mem : List α} {fuel : Nat} {e : Expr α} {s : List Char} (h : Text shw mem fuel e s) :
    Text shw mem fuel (.neg e) ('-' :: s) := fun out => by
  simp only [printExpr]; rw [h]; simp

/-- Every legible expression is printed. -/
theorem text_exists [Inhabited α] (shw : α → List Char) (mem : List α) (fuel : Nat) : ∀ e : Expr α, Legible mem e → ∃ s, Text shw mem fuel e s
  | .arr a v, h => by obtain ⟨c, s, -, -, hs⟩ := leaf_text shw mem fuel a v h; exact ⟨_, hs⟩
  | .fn _ len _, _ => ⟨"array_adapter of shape".toList ++ arrayToString decimal len, fun out => by simp only [printExpr, List.append_assoc]⟩
  | .neg e, h => by obtain ⟨s, hs⟩ := text_exists shw mem fuel e h; exact ⟨_, text_neg hs⟩
  | .bin op l r, h => by
      obtain ⟨s, hs⟩ := text_exists shw mem fuel l h.1
      obtain ⟨t, ht⟩ := text_exists shw mem fuel r h.2
      exact ⟨_, text_bin hs ht⟩
  | .scalL op x r, h => by obtain ⟨t, ht⟩ := text_exists shw mem fuel r h; exact ⟨_, text_scalL ht⟩
  | .scalR op l x, h => by obtain ⟨t, ht⟩ := text_exists shw mem fuel l h; exact ⟨_, text_scalR ht⟩
  | .call _ _ _, _ => ⟨_, fun out => rfl⟩

theorem text_unique {shw : α → List Char} {mem : List α} {fuel : Nat} {e : Expr α} {s t : List Char} (h : Text shw mem fuel e s) (h' : Text shw mem fuel e t) : s = t := by
  have := (h []).symm.trans (h' [])
  simpa using this

/-- The shape of the text of an expression. -/
inductive Form (shw : α → List Char) (mem : List α) (fuel : Nat) : Expr α → List Char → Prop
  | arr (a : Alg) (v : View) (c : Char) (s : List Char) (hc : c = '[' ∨ c = '\n') : Form shw mem fuel (.arr a v) (c :: s)
  | fn (a : Alg) (len : List Int) (f : List Int → α) : Form shw mem fuel (.fn a len f) ("array_adapter of shape".toList ++ arrayToString decimal len)
  | neg (e : Expr α) (s : List Char) (h : Text shw mem fuel e s) : Form shw mem fuel (.neg e) ('-' :: s)
  | bin (op : BOp) (l r : Expr α) (s t : List Char) (hl : Text shw mem fuel l s) (hr : Text shw mem fuel r t) :
      Form shw mem fuel (.bin op l r) ('(' :: (s ++ ' ' :: opChar op :: ' ' :: (t ++ [')'])))
  | scalL (op : BOp) (x : α) (r : Expr α) (t : List Char) (hr : Text shw mem fuel r t) : Form shw mem fuel (.scalL op x r) ('(' :: (shw x ++ ' ' :: opChar op :: ' ' :: (t ++ [')'])))
  | scalR (op : BOp) (l : Expr α) (x : α) (s : List Char) (hl : Text shw mem fuel l s) : Form shw mem fuel (.scalR op l x) ('(' :: (s ++ ' ' :: opChar op :: ' ' :: (shw x ++ [')'])))
  | call (n : Nat) (f : (Fin (n + 1) → α) → α) (es : Fin (n + 1) → Expr α) : Form shw mem fuel (.call n f es) "mapped".toList

theorem form [Inhabited α] {shw : α → List Char} {mem : List α} {fuel : Nat} {e : Expr α} {s : List Char} (hL : Legible mem e) (h : Text shw mem fuel e s) :
    Form shw mem fuel e s := by
  cases e with
  | arr a v =>
      obtain ⟨c, s', hc, -, hs⟩ := leaf_text shw mem fuel a v hL
      rw [text_unique h (t := c :: s') hs]
      exact .arr a v c s' hc
  | fn a len f =>
      rw [text_unique h (t := "array_adapter of shape".toList ++ arrayToString decimal len) (fun out => by simp only [printExpr, List.append_assoc])]
      exact .fn a len f
  | neg e =>
      obtain ⟨s', hs⟩ := text_exists shw mem fuel e hL
      rw [text_unique h (text_neg hs)]
      exact .neg e s' hs
  | bin op l r =>
      obtain ⟨s', hs⟩ := text_exists shw mem fuel l hL.1
      obtain ⟨t', ht⟩ := text_exists shw mem fuel r hL.2
      rw [text_unique h (text_bin hs ht)]
      exact .bin op l r s' t' hs ht
  | scalL op x r =>
      obtain ⟨t', ht⟩ := text_exists shw mem fuel r hL
      rw [text_unique h (text_scalL ht)]
      exact .scalL op x r t' ht
  | scalR op l x =>
      obtain ⟨t', ht⟩ := text_exists shw mem fuel l hL
      rw [text_unique h (text_scalR ht)]
      exact .scalR op l x t' ht
  | call n f es =>
      rw [text_unique h (t := "mapped".toList) (fun out => rfl)]
      exact .call n f es

/-- The first character of an expression. -/
theorem form_first {shw : α → List Char} {mem : List α} {fuel : Nat} {e : Expr α} {s : List Char} (h : Form shw mem fuel e s) :
    ∃ c t, s = c :: t ∧ c ∈ ['(', '[', '\n', 'm', 'a', '-'] := by
  cases h with
  | arr a v c s hc => exact ⟨c, s, rfl, by rcases hc with rfl | rfl <;> decide⟩
  | fn => exact ⟨'a', _, rfl, by decide⟩
  | neg => exact ⟨'-', _, rfl, by decide⟩
  | bin => exact ⟨'(', _, rfl, by decide⟩
  | scalL => exact ⟨'(', _, rfl, by decide⟩
  | scalR => exact ⟨'(', _, rfl, by decide⟩
  | call => exact ⟨'m', _, rfl, by decide⟩

theorem not_number_of_first {c : Char} {s : List Char} (hc : c ∈ ['(', '[', '\n', 'm', 'a']) : ¬ Number (c :: s) := by
  rintro ⟨d, t, e, h, -⟩
  obtain ⟨rfl, rfl⟩ := List.cons.inj e
  exact h hc

/-- No expression begins like a number. -/
theorem text_not_number [Inhabited α] {shw : α → List Char} {mem : List α} {fuel : Nat} {e : Expr α} {s : List Char} (hL : Legible mem e) (h : Text shw mem fuel e s)
    (p : List Char) : ¬ Number (s ++ p) := by
  cases form hL h with
  | arr a v c s hc => exact not_number_of_first (by rcases hc with rfl | rfl <;> decide)
  | fn => exact not_number_of_first (by decide)
  | neg e s hs =>
      obtain ⟨c, t, rfl, hc⟩ := form_first (form (e := e) hL hs)
      rintro ⟨d, u, e1, -, h2⟩
      obtain ⟨rfl, e2⟩ := List.cons.inj e1
      obtain ⟨d', u', rfl, h3⟩ := h2 rfl
      obtain ⟨rfl, -⟩ := List.cons.inj e2
      exact h3 hc
  | bin => exact not_number_of_first (by decide)
  | scalL => exact not_number_of_first (by decide)
  | scalR => exact not_number_of_first (by decide)
  | call => exact not_number_of_first (by decide)

theorem number_append {s : List Char} (h : Number s) (p : List Char) : Number (s ++ p) := by
  obtain ⟨c, t, rfl, h1, h2⟩ := h
  refine ⟨c, t ++ p, rfl, h1, fun hc => ?_⟩
  obtain ⟨d, u, rfl, h3⟩ := h2 hc
  exact ⟨d, u ++ p, rfl, h3⟩

/-- The text of a scalar is not the text of an expression. -/
theorem scalar_ne [Inhabited α] {shw : α → List Char} (hn : Numeric shw) {mem : List α} {fuel : Nat} {e : Expr α} {s : List Char} (hL : Legible mem e)
    (h : Text shw mem fuel e s) (x : α) (p q : List Char) : shw x ++ p ≠ s ++ q := by
  intro he
  rcases hn with hn | hn
  · exact text_not_number hL h q (he ▸ number_append (hn x) p)
  · obtain ⟨t, e1, ht⟩ := hn x
    rw [e1] at he
    have key : ∀ u, s = '(' :: u → ¬ Number (u ++ q) → False := by
      rintro u rfl hu
      simp only [List.cons_append, List.cons.injEq, true_and] at he
      exact hu (he ▸ number_append ht p)
    cases form hL h with
    | arr a v c s hc =>
        simp only [List.cons_append, List.cons.injEq] at he
        rcases hc with rfl | rfl <;> simp at he
    | fn => simp at he
    | neg e s hs => simp at he
    | bin op l r s1 t1 hl hr => exact key _ rfl (by rw [List.append_assoc]; exact text_not_number hL.1 hl _)
    | scalL op y r t1 hr =>
        obtain ⟨t2, e2, -⟩ := hn y
        exact key _ rfl (by rw [e2]; exact not_number_of_first (by decide))
    | scalR op l y s1 hl => exact key _ rfl (by rw [List.append_assoc]; exact text_not_number (e := l) hL hl _)
    | call => simp at he

theorem opChar_inj {a b : BOp} (h : opChar a = opChar b) : a = b := by
  cases a <;> cases b <;> first | rfl | (revert h; decide)

/-- The text of an expression determines it. -/
theorem text_inj [Inhabited α] {shw : α → List Char} (h : Readable ',' ']' shw) (h' : Readable ' ' ')' shw) (hn : Numeric shw) {mem mem' : List α} {fuel : Nat} :
    ∀ (e e' : Expr α) (s t p q : List Char), Legible mem e → Legible mem' e' → Text shw mem fuel e s → Text shw mem' fuel e' t → s ++ p = t ++ q →
      SameExpr mem mem' e e' ∧ p = q := by
  intro e
  induction e with
  | arr a v =>
      intro e' s t p q hL hL' hs ht he
      have F := form hL hs
      cases F with
      | arr _ _ c s hc =>
          cases form hL' ht with
          | arr b w d t hd => exact (leaf_inj shw h mem mem' fuel a b v w hL hL' (hs []) (ht [])).mp he
          | fn => rcases hc with rfl | rfl <;> simp at he
          | neg => rcases hc with rfl | rfl <;> simp at he
          | bin => rcases hc with rfl | rfl <;> simp at he
          | scalL => rcases hc with rfl | rfl <;> simp at he
          | scalR => rcases hc with rfl | rfl <;> simp at he
          | call => rcases hc with rfl | rfl <;> simp at he
  | fn a len f =>
      intro e' s t p q hL hL' hs ht he
      cases form hL hs
      cases form hL' ht with
      | arr b w d t hd => rcases hd with rfl | rfl <;> simp at he
      | fn b len' g =>
          rw [List.append_assoc, List.append_assoc] at he
          obtain ⟨rfl, rfl⟩ := (C65_tuple decimal (decimal_readable _ _ (by decide) (by decide)) len len' p q).mp (List.append_cancel_left he)
          exact ⟨.fn _ _ _ _ _, rfl⟩
      | neg => simp at he
      | bin => simp at he
      | scalL => simp at he
      | scalR => simp at he
      | call => simp at he
  | neg e ih =>
      intro e' s t p q hL hL' hs ht he
      cases form hL hs with
      | neg _ s hs0 =>
      cases form hL' ht with
      | arr b w d t hd => rcases hd with rfl | rfl <;> simp at he
      | fn => simp at he
      | neg e' t ht0 =>
          obtain ⟨h1, h2⟩ := ih e' s t p q hL hL' hs0 ht0 (by simpa using he)
          exact ⟨.neg _ _ h1, h2⟩
      | bin => simp at he
      | scalL => simp at he
      | scalR => simp at he
      | call => simp at he
  | bin op l r ihl ihr =>
      intro e' s t p q hL hL' hs ht he
      cases form hL hs with
      | bin _ _ _ s1 s2 hs1 hs2 =>
      cases form hL' ht with
      | arr b w d t hd => rcases hd with rfl | rfl <;> simp at he
      | fn => simp at he
      | neg => simp at he
      | bin op' l' r' t1 t2 ht1 ht2 =>
          simp only [List.cons_append, List.append_assoc, List.cons.injEq, true_and, List.nil_append] at he
          obtain ⟨h1, h2⟩ := ihl l' s1 t1 _ _ hL.1 hL'.1 hs1 ht1 he
          simp only [List.cons.injEq, true_and] at h2
          obtain ⟨h3, h4⟩ := ihr r' s2 t2 _ _ hL.2 hL'.2 hs2 ht2 h2.2
          obtain rfl := opChar_inj h2.1
          exact ⟨.bin _ _ _ _ _ h1 h3, by simpa using h4⟩
      | scalL op' x r' t1 ht1 =>
          simp only [List.cons_append, List.append_assoc, List.cons.injEq, true_and, List.nil_append] at he
          exact absurd he.symm (scalar_ne hn hL.1 hs1 x _ _)
      | scalR op' l' x t1 ht1 =>
          simp only [List.cons_append, List.append_assoc, List.cons.injEq, true_and, List.nil_append] at he
          obtain ⟨h1, h2⟩ := ihl l' s1 t1 _ _ hL.1 hL' hs1 ht1 he
          simp only [List.cons.injEq, true_and] at h2
          exact absurd h2.2.symm (scalar_ne hn hL.2 hs2 x _ _)
      | call => simp at he
  | scalL op x r ih =>
      intro e' s t p q hL hL' hs ht he
      cases form hL hs with
      | scalL _ _ _ s2 hs2 =>
      cases form hL' ht with
      | arr b w d t hd => rcases hd with rfl | rfl <;> simp at he
      | fn => simp at he
      | neg => simp at he
      | bin op' l' r' t1 t2 ht1 ht2 =>
          simp only [List.cons_append, List.append_assoc, List.cons.injEq, true_and, List.nil_append] at he
          exact absurd he (scalar_ne hn hL'.1 ht1 x _ _)
      | scalL op' y r' t1 ht1 =>
          simp only [List.cons_append, List.append_assoc, List.cons.injEq, true_and, List.nil_append] at he
          obtain ⟨rfl, h2⟩ := h'.read x y ' ' ' ' _ _ (Or.inl rfl) (Or.inl rfl) he
          simp only [List.cons.injEq, true_and] at h2
          obtain ⟨h3, h4⟩ := ih r' s2 t1 _ _ hL hL' hs2 ht1 h2.2
          obtain rfl := opChar_inj h2.1
          exact ⟨.scalL _ _ _ _ h3, by simpa using h4⟩
      | scalR op' l' y t1 ht1 =>
          simp only [List.cons_append, List.append_assoc, List.cons.injEq, true_and, List.nil_append] at he
          exact absurd he (scalar_ne (e := l') hn hL' ht1 x _ _)
      | call => simp at he
  | scalR op l x ih =>
      intro e' s t p q hL hL' hs ht he
      cases form hL hs with
      | scalR _ _ _ s1 hs1 =>
      cases form hL' ht with
      | arr b w d t hd => rcases hd with rfl | rfl <;> simp at he
      | fn => simp at he
      | neg => simp at he
      | bin op' l' r' t1 t2 ht1 ht2 =>
          simp only [List.cons_append, List.append_assoc, List.cons.injEq, true_and, List.nil_append] at he
          obtain ⟨h1, h2⟩ := ih l' s1 t1 _ _ hL hL'.1 hs1 ht1 he
          simp only [List.cons.injEq, true_and] at h2
          exact absurd h2.2 (scalar_ne hn hL'.2 ht2 x _ _)
      | scalL op' y r' t1 ht1 =>
          simp only [List.cons_append, List.append_assoc, List.cons.injEq, true_and, List.nil_append] at he
          exact absurd he.symm (scalar_ne (e := l) hn hL hs1 y _ _)
      | scalR op' l' y t1 ht1 =>
          simp only [List.cons_append, List.append_assoc, List.cons.injEq, true_and, List.nil_append] at he
          obtain ⟨h1, h2⟩ := ih l' s1 t1 _ _ hL hL' hs1 ht1 he
          simp only [List.cons.injEq, true_and] at h2
          obtain ⟨rfl, h4⟩ := h'.read x y ')' ')' _ _ (Or.inr rfl) (Or.inr rfl) h2.2
          obtain rfl := opChar_inj h2.1
          exact ⟨.scalR _ _ _ _ h1, by simpa using h4⟩
      | call => simp at he
  | call n f es _ =>
      intro e' s t p q hL hL' hs ht he
      cases form hL hs
      cases form hL' ht with
      | arr b w d t hd => rcases hd with rfl | rfl <;> simp at he
      | fn => simp at he
      | neg => simp at he
      | bin => simp at he
      | scalL => simp at he
      | scalR => simp at he
      | call => exact ⟨.call _ _ _ _ _ _, List.append_cancel_left he⟩

/-- The text of an expression depends only on what `SameExpr` compares. -/
theorem text_same [Inhabited α] {shw : α → List Char} (h : Readable ',' ']' shw) {mem mem' : List α} {fuel : Nat} {e e' : Expr α} (hs : SameExpr mem mem' e e') :
    ∀ s t, Legible mem e → Legible mem' e' → Text shw mem fuel e s → Text shw mem' fuel e' t → s = t := by
  induction hs with
  | arr a b v w hl hx =>
      intro s t hL hL' h1 h2
      have := (leaf_inj shw h mem mem' fuel a b v w hL hL' (p := []) (q := []) (h1 []) (h2 [])).mpr ⟨.arr _ _ _ _ hl hx, rfl⟩
      simpa using this
  | fn a b len f g =>
      intro s t hL hL' h1 h2
      cases form hL h1; cases form hL' h2; rfl
  | neg e e' _ ih =>
      intro s t hL hL' h1 h2
      cases form hL h1 with
      | neg _ s h3 =>
      cases form hL' h2 with
      | neg _ t h4 => rw [ih s t hL hL' h3 h4]
  | bin op l r l' r' _ _ ihl ihr =>
      intro s t hL hL' h1 h2
      cases form hL h1 with
      | bin _ _ _ s1 s2 h3 h3' =>
      cases form hL' h2 with
      | bin _ _ _ t1 t2 h4 h4' => rw [ihl s1 t1 hL.1 hL'.1 h3 h4, ihr s2 t2 hL.2 hL'.2 h3' h4']
  | scalL op x r r' _ ih =>
      intro s t hL hL' h1 h2
      cases form hL h1 with
      | scalL _ _ _ s h3 =>
      cases form hL' h2 with
      | scalL _ _ _ t h4 => rw [ih s t hL hL' h3 h4]
  | scalR op l l' x _ ih =>
      intro s t hL hL' h1 h2
      cases form hL h1 with
      | scalR _ _ _ s h3 =>
      cases form hL' h2 with
      | scalR _ _ _ t h4 => rw [ih s t hL hL' h3 h4]
  | call n m f g es es' =>
      intro s t hL hL' h1 h2
      cases form hL h1; cases form hL' h2; rfl

/-- C80, expressions: printing an expression of vectors and matrices succeeds, and whatever is printed after it, the text determines the operators and how they are nested, the scalars, and the shapes
and elements of the arrays.
Partial: of functions applied to the elements only their presence is printed, and of adapters only the shape; matrices without rows and higher ranks are subject to `C65_rows_witness` and `C65_shape_witness`. -/
theorem C80_expression_partial [Inhabited α] (shw : α → List Char) (h : Readable ',' ']' shw) (h' : Readable ' ' ')' shw) (hn : Numeric shw) (mem mem' : List α) (fuel : Nat)
    (e e' : Expr α) (hL : Legible mem e) (hL' : Legible mem' e') (out : List Char) :
    ∃ s t, printExpr shw mem fuel e out = some s ∧ printExpr shw mem' fuel e' out = some t ∧ ∀ p q, s ++ p = t ++ q ↔ SameExpr mem mem' e e' ∧ p = q := by
  obtain ⟨s, hs⟩ := text_exists shw mem fuel e hL
  obtain ⟨t, ht⟩ := text_exists shw mem' fuel e' hL'
  refine ⟨_, _, hs out, ht out, fun p q => ⟨fun he => ?_, ?_⟩⟩
  · rw [List.append_assoc, List.append_assoc] at he
    exact text_inj h h' hn e e' s t p q hL hL' hs ht (List.append_cancel_left he)
  · rintro ⟨h1, rfl⟩
    rw [text_same h h1 s t hL hL' hs ht]

/-- Functions of elements are not told apart by their text. -/
theorem C80_mapped_witness (shw : α → List Char) (mem : List α) (fuel : Nat) (n m : Nat) (f : (Fin (n + 1) → α) → α) (g : (Fin (m + 1) → α) → α)
    (es : Fin (n + 1) → Expr α) (es' : Fin (m + 1) → Expr α) (out : List Char) :
    printExpr shw mem fuel (.call n f es) out = printExpr shw mem fuel (.call m g es') out := rfl

/-! ### Layouts -/

/-- The first characters of the flags. -/
def first3 (p : LayoutProp) : List Char := if p.strided1d then (if p.smallestOne then ['c', 'o', 'n'] else [' ', 's', 't']) else (if p.smallestOne then [' ', ' ', 's'] else [' ', ' ', ' '])

theorem prop_first3 (p : LayoutProp) : (printProp p []).take 3 = first3 p ∧ 3 ≤ (printProp p []).length := by
  obtain ⟨a, b⟩ := p
  revert a b; decide +kernel

theorem first3_inj {a b : LayoutProp} (h : first3 a = first3 b) : a = b := by
  obtain ⟨a1, a2⟩ := a
  obtain ⟨b1, b2⟩ := b
  revert a1 a2 b1 b2; decide

theorem prop_inj {a b : LayoutProp} {p q : List Char} (e : printProp a [] ++ p = printProp b [] ++ q) : a = b ∧ p = q := by
  have := congrArg (List.take 3) e
  rw [List.take_append_of_le_length (prop_first3 a).2, List.take_append_of_le_length (prop_first3 b).2, (prop_first3 a).1, (prop_first3 b).1] at this
  obtain rfl := first3_inj this
  exact ⟨rfl, List.append_cancel_left e⟩

/-- C80, layouts: the text determines the lengths, the strides, the static extents, the memory order and the flags. -/
theorem C80_layout (m m' : IdxMap) (out p q : List Char) : printLayout m out ++ p = printLayout m' out ++ q ↔ m = m' ∧ p = q := by
  have hr : Readable ' ' ')' decimal := decimal_readable _ _ (by decide) (by decide)
  have hm : ∀ l l' : List Nat, l.map Int.ofNat = l'.map Int.ofNat → l = l' := fun l l' h => List.map_injective_iff.mpr (fun a b h => Int.ofNat.inj h) h
  have hp : ∀ (p : LayoutProp) (s : List Char), printProp p s = s ++ printProp p [] := fun p s => by simp only [printProp, List.append_assoc, List.nil_append]
  constructor
  · intro e
    obtain ⟨l, s, o, x, f⟩ := m
    obtain ⟨l', s', o', x', f'⟩ := m'
    simp only [printLayout] at e
    rw [hp, hp f'] at e
    simp only [List.append_assoc] at e
    have e0 := List.append_cancel_left (List.append_cancel_left e)
    obtain ⟨rfl, e1⟩ := (C65_tuple decimal hr _ _ _ _).mp e0
    obtain ⟨rfl, e2⟩ := (C65_tuple decimal hr _ _ _ _).mp (List.append_cancel_left (List.append_cancel_left e1))
    obtain ⟨h1, e3⟩ := (C65_tuple decimal hr _ _ _ _).mp (List.append_cancel_left (List.append_cancel_left e2))
    obtain ⟨h2, e4⟩ := (C65_tuple decimal hr _ _ _ _).mp (List.append_cancel_left (List.append_cancel_left e3))
    obtain ⟨rfl, e5⟩ := prop_inj (List.append_cancel_left (List.append_cancel_left e4))
    exact ⟨by rw [hm _ _ h1, hm _ _ h2], List.append_cancel_left e5⟩
  · rintro ⟨rfl, rfl⟩; rfl

/-! ### Readable elements -/

theorem complex_readable' {sep stop : Char} {shw : α → List Char} (hs : stop ≠ '(') (h : Readable ',' ')' shw) : Readable sep stop (complex shw) := by
  refine ⟨fun x y c d s t _ _ e => ?_, fun x => ⟨'(', _, rfl, hs.symm⟩⟩
  simp only [complex, List.append_assoc, List.cons_append, List.nil_append, List.cons.injEq, true_and] at e
  obtain ⟨h1, h2⟩ := h.read x.1 y.1 ',' ',' _ _ (Or.inl rfl) (Or.inl rfl) e
  simp only [List.cons.injEq, true_and] at h2
  obtain ⟨h3, h4⟩ := h.read x.2 y.2 ')' ')' _ _ (Or.inr rfl) (Or.inr rfl) h2
  exact ⟨Prod.ext h1 h3, (List.cons.inj h4).2⟩

theorem digit_ok {c : Char} (h : c.isDigit = true) : c ∉ ['(', '[', '\n', 'm', 'a', '-'] := by
  intro hc
  simp only [List.mem_cons, List.not_mem_nil, or_false] at hc
  rcases hc with rfl | rfl | rfl | rfl | rfl | rfl <;> revert h <;> decide

theorem decimal_number (n : Int) : Number (decimal n) := by
  unfold decimal
  cases hd : Nat.toDigits 10 n.natAbs with
  | nil => exact absurd hd Nat.toDigits_ne_nil
  | cons c s =>
      have hc := digit_ok (Nat.isDigit_of_mem_toDigits (by decide) (by decide) (hd ▸ List.mem_cons_self : c ∈ Nat.toDigits 10 n.natAbs))
      split
      · exact ⟨'-', c :: s, rfl, by decide, fun _ => ⟨c, s, rfl, hc⟩⟩
      · exact ⟨c, s, rfl, fun h => hc (by simp only [List.mem_cons, List.not_mem_nil, or_false] at h ⊢; tauto), fun h => absurd (by rw [h]; decide) hc⟩

/-- Integers and pairs of integers meet the hypotheses of `C80_expression_partial`. -/
example : (Readable ',' ']' decimal ∧ Readable ' ' ')' decimal ∧ Numeric decimal) ∧
    (Readable ',' ']' (complex decimal) ∧ Readable ' ' ')' (complex decimal) ∧ Numeric (complex decimal)) :=
  ⟨⟨decimal_readable _ _ (by decide) (by decide), decimal_readable _ _ (by decide) (by decide), Or.inl decimal_number⟩,
    complex_readable (decimal_readable _ _ (by decide) (by decide)), complex_readable' (by decide) (decimal_readable _ _ (by decide) (by decide)),
    Or.inr fun x => ⟨_, rfl, by
      show Number (decimal x.1 ++ [','] ++ decimal x.2 ++ [')'])
      rw [List.append_assoc, List.append_assoc]; exact number_append (decimal_number _) _⟩⟩

/-- The difference of `2 * a` and `-m`, with a vector for `a`, and the layout of a matrix. -/
example : let a : Expr Int := .arr .V ⟨0, ⟨[3], [1], [0], [0], .contiguous⟩⟩
    let b : Expr Int := .arr .V ⟨1, ⟨[2], [1], [0], [0], .contiguous⟩⟩
    Legible [1, -2, 3] (.bin .sub (.scalL .mul 2 a) (.neg b)) ∧
    printExpr decimal [1, -2, 3] 0 (.bin .sub (.scalL .mul (-2) a) (.neg b)) [] = some "((-2 * [1,-2,3]) - -[-2,3])".toList ∧
    printExpr decimal [1, -2, 3] 0 (.scalR .div (.fn .A [2, 3] fun _ => 1) 4) [] = some "(array_adapter of shape(2 3) / 4)".toList ∧
    printLayout ⟨[2, 3], [3, 1], [0, 1], [0, 3], .contiguous⟩ [] =
      ("  Lengths  : (2 3)\n  Strides  : (3 1)\n  StaticExtents  : (0 3)\n  MemoryStrideOrder   : (0 1)\n" ++
        "  Flags   :  contiguous   strided_1d   smallest_stride_is_one   \n").toList :=
  ⟨⟨⟨good_of (by decide) rfl rfl rfl (by decide) 1 (by decide) (by simp [NonNeg]) (by decide), Or.inl ⟨3, rfl⟩⟩,
    good_of (by decide) rfl rfl rfl (by decide) 1 (by decide) (by simp [NonNeg]) (by decide), Or.inl ⟨2, rfl⟩⟩,
    by decide +kernel, by decide +kernel, by decide +kernel⟩

end Nda.Print
