import Verif.Model.ClefIo
import Verif.Spec.ClefIo
import Mathlib.Tactic.Tauto
/-!
# The text of a lazy expression determines the expression without its callees
-/
namespace Nda.Clef
open Nda.Clef.Spec

variable {V L : Type}

/-- Characters that follow an expression. -/
def Stop (s : List Char) : Prop := ∀ c, s.head? = some c → c ∈ [' ', ',', ')', ']', '?']

def nd (c : Char) : Bool := c ∉ [' ', ',', ')', ']', '?']

theorem run_eq {w s : List Char} (hw : ∀ c ∈ w, nd c = true) (hs : Stop s) : (w ++ s).takeWhile nd = w := by
  induction w with
  | nil =>
    cases s with
    | nil => rfl
    | cons c s => simp only [List.nil_append, List.takeWhile, nd, hs c rfl, not_true_eq_false, decide_false]
  | cons c w ih =>
    rw [List.cons_append, List.takeWhile_cons, hw c List.mem_cons_self, if_pos rfl, ih (fun d hd => hw d (List.mem_cons_of_mem _ hd))]

mutual
def txt (shw : V → List Char) : Skel V → List Char
  | .leaf v => shw v
  | .ph n => printPh n
  | .un t x => if t = .negate then '-' :: '(' :: (txt shw x ++ [')']) else '(' :: ((unaryName t).getD [] ++ ' ' :: (txt shw x ++ [')']))
  | .bin t l r => '(' :: (txt shw l ++ ' ' :: ((binaryName t).getD [] ++ ' ' :: (txt shw r ++ [')'])))
  | .cond c a b => '(' :: (txt shw c ++ '?' :: (txt shw a ++ ' ' :: ':' :: ' ' :: (txt shw b ++ [')'])))
  | .call sub as => 'l' :: 'a' :: 'm' :: 'b' :: 'd' :: 'a' :: (if sub then '[' else '(') :: (txts shw as ++ [if sub then ']' else ')'])
  | .lam is b => 'l' :: 'a' :: 'z' :: 'y' :: ' ' :: 'f' :: 'u' :: 'n' :: 'c' :: 't' :: 'i' :: 'o' :: 'n' :: ' ' :: ':' :: ' ' :: '(' :: (printPhs is ++ ')' :: ' ' :: '-' :: '-' :: '>' :: ' ' :: txt shw b)
def txts (shw : V → List Char) : List (Skel V) → List Char
  | [] => []
  | k :: ks => txt shw k ++ (if ks.length > 0 then [',', ' '] else []) ++ txts shw ks
end

mutual
def WF (shw : V → List Char) : Skel V → Prop
  | .leaf v => Word (shw v)
  | .ph _ => True
  | .un t x => (unaryName t).isSome ∧ WF shw x
  | .bin t l r => (binaryName t).isSome ∧ WF shw l ∧ WF shw r
  | .cond c a b => WF shw c ∧ WF shw a ∧ WF shw b
  | .call _ as => WFs shw as
  | .lam _ b => WF shw b
def WFs (shw : V → List Char) : List (Skel V) → Prop
  | [] => True
  | k :: ks => WF shw k ∧ WFs shw ks
end

theorem toDigits_inj {k l : Nat} (e : Nat.toDigits 10 k = Nat.toDigits 10 l) : k = l := by
  have := congrArg (fun s => Nat.ofDigitChars 10 s 0) e
  simpa using this

theorem toDigits_nd (n : Nat) : ∀ c ∈ Nat.toDigits 10 n, nd c = true := by
  intro c hc
  have hd := Nat.isDigit_of_mem_toDigits (by decide) (by decide) hc
  unfold nd
  rw [decide_eq_true_iff]
  intro hm
  simp only [List.mem_cons, List.not_mem_nil, or_false] at hm
  rcases hm with rfl | rfl | rfl | rfl | rfl <;> exact absurd hd (by decide)

theorem printPh_nd (n : Nat) : ∀ c ∈ printPh n, nd c = true := by
  intro c hc
  rcases List.mem_cons.mp hc with rfl | hc
  · rfl
  · exact toDigits_nd n c hc

theorem printPh_inj {n m : Nat} {s s' : List Char} (hs : Stop s) (hs' : Stop s') (h : printPh n ++ s = printPh m ++ s') : n = m ∧ s = s' := by
  have h1 := congrArg (List.takeWhile nd) h
  rw [run_eq (printPh_nd n) hs, run_eq (printPh_nd m) hs'] at h1
  refine ⟨toDigits_inj (List.cons.inj h1).2, ?_⟩
  rw [h1] at h
  exact List.append_cancel_left h

theorem stop_cons {c : Char} {s : List Char} (h : c ∈ [' ', ',', ')', ']', '?']) : Stop (c :: s) := by
  intro d hd
  simp only [List.head?_cons, Option.some.injEq] at hd
  exact hd ▸ h

theorem printPhs_inj : ∀ {is js : List Nat} {s s' : List Char}, printPhs is ++ ')' :: s = printPhs js ++ ')' :: s' → is = js ∧ s = s'
  | [], [], s, s', h => by simpa [printPhs] using h
  | [], j :: js, s, s', h => by simp [printPhs, printPh] at h
  | i :: is, [], s, s', h => by simp [printPhs, printPh] at h
  | i :: is, j :: js, s, s', h => by
    simp only [printPhs, List.append_assoc] at h
    have st : ∀ (ks : List Nat) (t : List Char), Stop ((if ks.length > 0 then [',', ' '] else []) ++ (printPhs ks ++ ')' :: t)) := by
      intro ks t
      cases ks with
      | nil => exact stop_cons (by decide)
      | cons k ks => exact stop_cons (by decide)
    replace h := printPh_inj (st _ _) (st _ _) h
    obtain ⟨rfl, h⟩ := h
    cases is with
    | nil =>
      cases js with
      | nil => exact ⟨rfl, by simpa [printPhs] using h⟩
      | cons j js => simp [printPhs] at h
    | cons i' is =>
      cases js with
      | nil => simp [printPhs] at h
      | cons j js =>
        simp only [List.length_cons, Nat.zero_lt_succ, if_true, gt_iff_lt, List.cons_append, List.nil_append, List.cons.injEq, true_and] at h
        obtain ⟨e, e'⟩ := printPhs_inj (is := i' :: is) (js := j :: js) h
        exact ⟨by rw [e], e'⟩

/-- The first character of the text of an expression. -/
theorem txt_head (shw : V → List Char) (k : Skel V) (h : WF shw k) : ∃ c r, txt shw k = c :: r ∧ c ∉ [' ', ',', ')', ']', '?', '[', '+', '!'] := by
  cases k with
  | leaf v =>
    simp only [WF] at h
    obtain ⟨h1, h2, h3, -⟩ := h
    rw [txt]
    cases hv : shw v with
    | nil => exact absurd hv h1
    | cons c r =>
      refine ⟨c, r, rfl, fun hm => ?_⟩
      have a := h2 c (by rw [hv]; exact List.mem_cons_self)
      have b := h3 c (by rw [hv]; rfl)
      simp only [List.mem_cons, List.not_mem_nil, or_false, not_or] at a b hm
      tauto
  | ph n => exact ⟨'_', _, rfl, by decide⟩
  | un t x =>
    by_cases ht : t = .negate
    · exact ⟨'-', _, by rw [txt, if_pos ht], by decide⟩
    · exact ⟨'(', _, by rw [txt, if_neg ht], by decide⟩
  | bin t l r => exact ⟨'(', _, by rw [txt], by decide⟩
  | cond c a b => exact ⟨'(', _, by rw [txt], by decide⟩
  | call sub as => exact ⟨'l', _, by rw [txt], by decide⟩
  | lam is b => exact ⟨'l', _, by rw [txt], by decide⟩

def Inj (shw : V → List Char) (k : Skel V) : Prop :=
  WF shw k → ∀ (k' : Skel V) (s s' : List Char), WF shw k' → Stop s → Stop s' → txt shw k ++ s = txt shw k' ++ s' → k = k' ∧ s = s'

theorem txts_inj (shw : V → List Char) (c : Char) (hc : c ∈ [')', ']']) : ∀ (ks ks' : List (Skel V)) (s s' : List Char), (∀ k ∈ ks, Inj shw k) → WFs shw ks → WFs shw ks' →
    txts shw ks ++ c :: s = txts shw ks' ++ c :: s' → ks = ks' ∧ s = s'
  | [], [], s, s', _, _, _, h => by simpa [txts] using h
  | [], k :: ks, s, s', _, _, hw, h => by
    obtain ⟨d, r, e, hd⟩ := txt_head shw k hw.1
    simp only [txts, e, List.nil_append, List.cons_append, List.cons.injEq] at h
    rw [← h.1] at hd
    simp only [List.mem_cons, List.not_mem_nil, or_false] at hc hd
    tauto
  | k :: ks, [], s, s', _, hw, _, h => by
    obtain ⟨d, r, e, hd⟩ := txt_head shw k hw.1
    simp only [txts, e, List.nil_append, List.cons_append, List.cons.injEq] at h
    rw [h.1] at hd
    simp only [List.mem_cons, List.not_mem_nil, or_false] at hc hd
    tauto
  | k :: ks, k' :: ks', s, s', hi, hw, hw', h => by
    have hc' : c ∈ [' ', ',', ')', ']', '?'] := by simp only [List.mem_cons, List.not_mem_nil, or_false] at hc ⊢; tauto
    have hn : c ≠ ',' := by rintro rfl; revert hc; decide
    simp only [txts, List.append_assoc] at h
    have st : ∀ (ks : List (Skel V)) (t : List Char), Stop ((if ks.length > 0 then [',', ' '] else []) ++ (txts shw ks ++ c :: t)) := by
      intro ks t
      cases ks with
      | nil => simp only [List.length_nil, gt_iff_lt, Nat.lt_irrefl, if_false, List.nil_append, txts]; exact stop_cons hc'
      | cons k ks => simp only [List.length_cons, Nat.zero_lt_succ, if_true, gt_iff_lt, List.cons_append]; exact stop_cons (by decide)
    replace h := hi k List.mem_cons_self hw.1 k' _ _ hw'.1 (st _ _) (st _ _) h
    obtain ⟨rfl, h⟩ := h
    cases ks with
    | nil =>
      cases ks' with
      | nil => exact ⟨rfl, by simpa [txts] using h⟩
      | cons j js => simp [txts, hn] at h
    | cons i is =>
      cases ks' with
      | nil => simp [txts, hn.symm] at h
      | cons j js =>
        simp only [List.length_cons, Nat.zero_lt_succ, if_true, gt_iff_lt, List.cons_append, List.nil_append, List.cons.injEq, true_and] at h
        obtain ⟨e, e'⟩ := txts_inj shw c hc (i :: is) (j :: js) s s' (fun k hk => hi k (List.mem_cons_of_mem _ hk)) hw.2 hw'.2 h
        exact ⟨by rw [e], e'⟩

theorem leaf_not {w s t : List Char} (p : List Char) (hw : Word w) (hs : Stop s) (hp : ∀ c ∈ p, nd c = true) (hx : ∃ c ∈ p, c ∈ ['(', '[']) (h : w ++ s = p ++ t) : False := by
  have h1 := congrArg (List.takeWhile nd) h
  rw [run_eq (fun c hc => ?_) hs, List.takeWhile_append_of_pos hp] at h1
  · obtain ⟨c, hc, hc'⟩ := hx
    have := hw.2.1 c (by rw [h1]; exact List.mem_append_left _ hc)
    simp only [List.mem_cons, List.not_mem_nil, or_false] at this hc'
    tauto
  · have := hw.2.1 c hc
    unfold nd
    rw [decide_eq_true_iff]
    simp only [List.mem_cons, List.not_mem_nil, or_false] at this ⊢
    tauto

theorem word_nd {w : List Char} (hw : Word w) : ∀ c ∈ w, nd c = true := by
  intro c hc
  have := hw.2.1 c hc
  unfold nd
  rw [decide_eq_true_iff]
  simp only [List.mem_cons, List.not_mem_nil, or_false] at this ⊢
  tauto

/-- A leaf is not the beginning of anything else. -/
theorem leaf_only (shw : V → List Char) (v : V) (k : Skel V) (s s' : List Char) (hv : Word (shw v)) (hk : WF shw k) (hs : Stop s) (hs' : Stop s') (h : shw v ++ s = txt shw k ++ s') : ∃ v', k = .leaf v' := by
  cases k with
  | leaf v' => exact ⟨v', rfl⟩
  | ph n =>
    exfalso
    obtain ⟨h1, -, h3, -⟩ := hv
    cases hx : shw v with
    | nil => exact h1 hx
    | cons c r =>
      rw [hx] at h
      simp only [txt, printPh, List.cons_append, List.cons.injEq] at h
      have := h3 c (by rw [hx]; rfl)
      rw [h.1] at this
      revert this; decide
  | un t x =>
    exfalso
    by_cases ht : t = .negate
    · rw [txt, if_pos ht] at h
      exact leaf_not ['-', '('] hv hs (by decide) ⟨'(', by decide⟩ h
    · rw [txt, if_neg ht] at h
      exact leaf_not ['('] hv hs (by decide) ⟨'(', by decide⟩ h
  | bin t l r => rw [txt] at h; exact (leaf_not ['('] hv hs (by decide) ⟨'(', by decide⟩ h).elim
  | cond c a b => rw [txt] at h; exact (leaf_not ['('] hv hs (by decide) ⟨'(', by decide⟩ h).elim
  | call sub as =>
    rw [txt] at h
    cases sub with
    | false => exact (leaf_not ['l', 'a', 'm', 'b', 'd', 'a', '('] hv hs (by decide) ⟨'(', by decide⟩ h).elim
    | true => exact (leaf_not ['l', 'a', 'm', 'b', 'd', 'a', '['] hv hs (by decide) ⟨'[', by decide⟩ h).elim
  | lam is b =>
    exfalso
    rw [txt] at h
    have h1 := congrArg (List.takeWhile nd) h
    rw [run_eq (word_nd hv) hs] at h1
    exact hv.2.2.2 h1

theorem name_cases {t : Tag} (h : (unaryName t).isSome) : t = .unaryplus ∨ t = .negate ∨ t = .loginot := by
  cases t <;> simp [unaryName] at h ⊢

theorem binary_inj {t t' : Tag} {s s' : List Char} (h : (binaryName t).isSome) (h' : (binaryName t').isSome) (e : (binaryName t).getD [] ++ ' ' :: s = (binaryName t').getD [] ++ ' ' :: s') : t = t' ∧ s = s' := by
  cases t <;> simp only [binaryName, Option.isSome_none, Bool.false_eq_true, Option.isSome_some] at h <;>
    cases t' <;> simp only [binaryName, Option.isSome_none, Bool.false_eq_true, Option.isSome_some] at h' <;> simp [binaryName] at e <;> exact ⟨rfl, e⟩

/-- The text after the opening parenthesis of a unary operator does not begin with an expression. -/
theorem un_not (shw : V → List Char) {t : Tag} {k : Skel V} {s s' : List Char} (ht : (unaryName t).isSome) (hn : t ≠ .negate) (hk : WF shw k) (h : (unaryName t).getD [] ++ s = txt shw k ++ s') : False := by
  obtain ⟨c, r, e, hc⟩ := txt_head shw k hk
  rw [e] at h
  rcases name_cases ht with rfl | rfl | rfl
  · simp only [unaryName, Option.getD_some, List.cons_append, List.cons.injEq] at h
    rw [← h.1] at hc; revert hc; decide
  · exact hn rfl
  · simp only [unaryName, Option.getD_some, List.cons_append, List.cons.injEq] at h
    rw [← h.1] at hc; revert hc; decide

theorem word_append_inj {shw : V → List Char} {v v' : V} {s s' : List Char} (hv : Word (shw v)) (hv' : Word (shw v')) (hs : Stop s) (hs' : Stop s') (h : shw v ++ s = shw v' ++ s') : shw v = shw v' ∧ s = s' := by
  have h1 := congrArg (List.takeWhile nd) h
  rw [run_eq (word_nd hv) hs, run_eq (word_nd hv') hs'] at h1
  rw [h1] at h
  exact ⟨h1, List.append_cancel_left h⟩

mutual
theorem inj (shw : V → List Char) (hinj : ∀ v v', Word (shw v) → shw v = shw v' → v = v') : ∀ k : Skel V, Inj shw k
  | .leaf v => by
    intro hw k' s s' hw' hs hs' h
    obtain ⟨v', rfl⟩ := leaf_only shw v k' s s' hw hw' hs hs' h
    obtain ⟨h1, h2⟩ := word_append_inj hw hw' hs hs' h
    exact ⟨by rw [hinj v v' hw h1], h2⟩
  | .ph n => by
    intro hw k' s s' hw' hs hs' h
    cases k' with
    | leaf v => obtain ⟨v', e⟩ := leaf_only shw v (.ph n) s' s hw' hw hs' hs h.symm; cases e
    | ph m =>
      replace h := printPh_inj hs hs' h
      obtain ⟨rfl, h⟩ := h
      exact ⟨rfl, h⟩
    | un t x => by_cases ht : t = .negate <;> simp [txt, ht, printPh] at h
    | _ => simp [txt, printPh] at h
  | .un t x => by
    intro hw k' s s' hw' hs hs' h
    have ih := inj shw hinj x hw.2
    cases k' with
    | leaf v => obtain ⟨v', e⟩ := leaf_only shw v (.un t x) s' s hw' hw hs' hs h.symm; cases e
    | ph m => by_cases ht : t = .negate <;> simp [txt, ht, printPh] at h
    | un t' x' =>
      by_cases ht : t = .negate
      · by_cases ht' : t' = .negate
        · simp only [txt, ht, ht', if_true, List.cons_append, List.cons.injEq, true_and, List.append_assoc, List.nil_append] at h
          replace h := ih x' _ _ hw'.2 (stop_cons (by decide)) (stop_cons (by decide)) h
          obtain ⟨rfl, h⟩ := h
          exact ⟨by rw [ht, ht'], (List.cons.inj h).2⟩
        · simp [txt, ht, ht'] at h
      · by_cases ht' : t' = .negate
        · simp [txt, ht, ht'] at h
        · simp only [txt, ht, ht', if_false, List.cons_append, List.cons.injEq, true_and, List.append_assoc, List.nil_append] at h
          have ht2 : t = t' := by
            rcases name_cases hw.1 with rfl | rfl | rfl <;> rcases name_cases hw'.1 with rfl | rfl | rfl <;> simp_all [unaryName]
          subst ht2
          replace h := List.append_cancel_left h
          simp only [List.cons.injEq, true_and] at h
          replace h := ih x' _ _ hw'.2 (stop_cons (by decide)) (stop_cons (by decide)) h
          obtain ⟨rfl, h⟩ := h
          exact ⟨rfl, (List.cons.inj h).2⟩
    | bin t' l r =>
      by_cases ht : t = .negate
      · simp [txt, ht] at h
      · simp only [txt, ht, if_false, List.cons_append, List.cons.injEq, true_and, List.append_assoc, List.nil_append] at h
        exact (un_not shw hw.1 ht hw'.2.1 h).elim
    | cond c a b =>
      by_cases ht : t = .negate
      · simp [txt, ht] at h
      · simp only [txt, ht, if_false, List.cons_append, List.cons.injEq, true_and, List.append_assoc, List.nil_append] at h
        exact (un_not shw hw.1 ht hw'.1 h).elim
    | call sub as => by_cases ht : t = .negate <;> simp [txt, ht] at h
    | lam is b => by_cases ht : t = .negate <;> simp [txt, ht] at h
  | .bin t l r => by
    intro hw k' s s' hw' hs hs' h
    have ihl := inj shw hinj l hw.2.1
    have ihr := inj shw hinj r hw.2.2
    cases k' with
    | leaf v => obtain ⟨v', e⟩ := leaf_only shw v (.bin t l r) s' s hw' hw hs' hs h.symm; cases e
    | ph m => simp [txt, printPh] at h
    | un t' x =>
      by_cases ht : t' = .negate
      · simp [txt, ht] at h
      · simp only [txt, ht, if_false, List.cons_append, List.cons.injEq, true_and, List.append_assoc, List.nil_append] at h
        exact (un_not shw hw'.1 ht hw.2.1 h.symm).elim
    | bin t' l' r' =>
      simp only [txt, List.cons_append, List.cons.injEq, true_and, List.append_assoc, List.nil_append] at h
      replace h := ihl l' _ _ hw'.2.1 (stop_cons (by decide)) (stop_cons (by decide)) h
      obtain ⟨rfl, h⟩ := h
      replace h := binary_inj hw.1 hw'.1 (List.cons.inj h).2
      obtain ⟨rfl, h⟩ := h
      replace h := ihr r' _ _ hw'.2.2 (stop_cons (by decide)) (stop_cons (by decide)) h
      obtain ⟨rfl, h⟩ := h
      exact ⟨rfl, (List.cons.inj h).2⟩
    | cond c a b =>
      simp only [txt, List.cons_append, List.cons.injEq, true_and, List.append_assoc, List.nil_append] at h
      obtain ⟨-, h⟩ := ihl c _ _ hw'.1 (stop_cons (by decide)) (stop_cons (by decide)) h
      exact absurd (List.cons.inj h).1 (by decide)
    | call sub as => simp [txt] at h
    | lam is b => simp [txt] at h
  | .cond c a b => by
    intro hw k' s s' hw' hs hs' h
    have ihc := inj shw hinj c hw.1
    have iha := inj shw hinj a hw.2.1
    have ihb := inj shw hinj b hw.2.2
    cases k' with
    | leaf v => obtain ⟨v', e⟩ := leaf_only shw v (.cond c a b) s' s hw' hw hs' hs h.symm; cases e
    | ph m => simp [txt, printPh] at h
    | un t' x =>
      by_cases ht : t' = .negate
      · simp [txt, ht] at h
      · simp only [txt, ht, if_false, List.cons_append, List.cons.injEq, true_and, List.append_assoc, List.nil_append] at h
        exact (un_not shw hw'.1 ht hw.1 h.symm).elim
    | bin t' l' r' =>
      simp only [txt, List.cons_append, List.cons.injEq, true_and, List.append_assoc, List.nil_append] at h
      obtain ⟨-, h⟩ := ihc l' _ _ hw'.2.1 (stop_cons (by decide)) (stop_cons (by decide)) h
      exact absurd (List.cons.inj h).1 (by decide)
    | cond c' a' b' =>
      simp only [txt, List.cons_append, List.cons.injEq, true_and, List.append_assoc, List.nil_append] at h
      replace h := ihc c' _ _ hw'.1 (stop_cons (by decide)) (stop_cons (by decide)) h
      obtain ⟨rfl, h⟩ := h
      replace h := iha a' _ _ hw'.2.1 (stop_cons (by decide)) (stop_cons (by decide)) (List.cons.inj h).2
      obtain ⟨rfl, h⟩ := h
      simp only [List.cons.injEq, true_and] at h
      replace h := ihb b' _ _ hw'.2.2 (stop_cons (by decide)) (stop_cons (by decide)) h
      obtain ⟨rfl, h⟩ := h
      exact ⟨rfl, (List.cons.inj h).2⟩
    | call sub as => simp [txt] at h
    | lam is b => simp [txt] at h
  | .call sub as => by
    intro hw k' s s' hw' hs hs' h
    have ih := injs shw hinj as
    cases k' with
    | leaf v => obtain ⟨v', e⟩ := leaf_only shw v (.call sub as) s' s hw' hw hs' hs h.symm; cases e
    | ph m => simp [txt, printPh] at h
    | un t' x => by_cases ht : t' = .negate <;> simp [txt, ht] at h
    | bin t' l' r' => simp [txt] at h
    | cond c' a' b' => simp [txt] at h
    | call sub' as' =>
      simp only [txt, List.cons_append, List.cons.injEq, true_and, List.append_assoc, List.nil_append] at h
      obtain ⟨h0, h⟩ := h
      have : sub = sub' := by revert h0; cases sub <;> cases sub' <;> decide
      subst this
      replace h := txts_inj shw (if sub then ']' else ')') (by cases sub <;> decide) as as' s s' ih hw hw' h
      obtain ⟨rfl, h⟩ := h
      exact ⟨rfl, h⟩
    | lam is b => simp [txt] at h
  | .lam is b => by
    intro hw k' s s' hw' hs hs' h
    have ih := inj shw hinj b hw
    cases k' with
    | leaf v => obtain ⟨v', e⟩ := leaf_only shw v (.lam is b) s' s hw' hw hs' hs h.symm; cases e
    | ph m => simp [txt, printPh] at h
    | un t' x => by_cases ht : t' = .negate <;> simp [txt, ht] at h
    | bin t' l' r' => simp [txt] at h
    | cond c' a' b' => simp [txt] at h
    | call sub' as' => simp [txt] at h
    | lam is' b' =>
      simp only [txt, List.cons_append, List.cons.injEq, true_and, List.append_assoc, List.nil_append] at h
      replace h := printPhs_inj h
      obtain ⟨rfl, h⟩ := h
      simp only [List.cons.injEq, true_and] at h
      replace h := ih b' s s' hw' hs hs' h
      obtain ⟨rfl, h⟩ := h
      exact ⟨rfl, h⟩
theorem injs (shw : V → List Char) (hinj : ∀ v v', Word (shw v) → shw v = shw v' → v = v') : ∀ ks : List (Skel V), ∀ k ∈ ks, Inj shw k
  | [], k, h => by cases h
  | k :: ks, k', h => by
    have hk := inj shw hinj k
    rcases List.mem_cons.mp h with e | h
    · exact e ▸ hk
    · exact injs shw hinj ks k' h
end

end Nda.Clef
