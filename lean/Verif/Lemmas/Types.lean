import Verif.Spec.Types
/-!
# Lemmas for the types of expressions
-/
namespace Nda.Types
open Nda Nda.Arith

/-- Invariant of the types of arrays and numbers. -/
def Good : Ty → Prop
  | .num => True
  | .void => False
  | .cont a r => 1 ≤ r ∧ memOk a r
  | .view a r => 1 ≤ r ∧ memOk a r
  | .adapter r => 1 ≤ r
  | .unary a => Good a ∧ a.rank.isSome
  | .expr op l r => Good l ∧ Good r ∧
      ((l.isNum = true ∧ r.rank.isSome ∧ (op = .div → r.alg ≠ .M)) ∨ (l.rank.isSome ∧ r.isNum = true) ∨
        (l.rank.isSome ∧ l.rank = r.rank ∧ ((op = .mul ∨ op = .div) → l.alg = .A ∧ r.alg = .A)))
  | .call _ as => ∀ i, Good (as i) ∧ (as i).rank.isSome ∧ (as i).rank = (as 0).rank

/-- Types that are accepted but not arrays: no value, and in release mode functions mapped onto arrays of different ranks. -/
def Odd (debug : Bool) (t : Ty) : Prop :=
  t = .void ∨ ∃ n as, debug = false ∧ t = .call n as ∧ (∀ i, Good (as i) ∧ (as i).rank.isSome) ∧ ∃ i, (as i).rank ≠ (as 0).rank

theorem isNum_iff {t : Ty} : t.isNum = true ↔ t = .num := by cases t <;> simp [Ty.isNum]

theorem isNum_false {t : Ty} (h : t.rank.isSome) : t.isNum = false := by
  cases t <;> simp_all [Ty.isNum, Ty.rank]

theorem isNum_num : Ty.num.isNum = true := rfl

/-- Every good type but numbers has a rank, at least one. -/
theorem good_rank : ∀ {t : Ty}, Good t → t = .num ∨ ∃ r, t.rank = some r ∧ 1 ≤ r
  | .num, _ => .inl rfl
  | .void, h => absurd h (by simp [Good])
  | .cont _ r, h => .inr ⟨r, rfl, h.1⟩
  | .view _ r, h => .inr ⟨r, rfl, h.1⟩
  | .adapter r, h => .inr ⟨r, rfl, h⟩
  | .unary a, h => by
    rcases good_rank h.1 with e | ⟨r, e, h1⟩
    · subst e; simp [Good, Ty.rank] at h
    · exact .inr ⟨r, e, h1⟩
  | .expr op l r, h => by
    refine .inr ?_
    obtain ⟨hl, hr, h | h | h⟩ := h
    · rcases good_rank hr with e | ⟨k, e, h1⟩
      · subst e; simp [Ty.rank] at h
      · exact ⟨k, by simp [Ty.rank, h.1, e], h1⟩
    · rcases good_rank hl with e | ⟨k, e, h1⟩
      · subst e; simp [Ty.rank] at h
      · exact ⟨k, by simp [Ty.rank, isNum_false h.1, e], h1⟩
    · rcases good_rank hl with e | ⟨k, e, h1⟩
      · subst e; simp [Ty.rank] at h
      · exact ⟨k, by simp [Ty.rank, isNum_false h.1, e], h1⟩
  | .call n as, h => by
    rcases good_rank (h 0).1 with e | ⟨k, e, h1⟩
    · have := (h 0).2.1; rw [e] at this; simp [Ty.rank] at this
    · exact .inr ⟨k, e, h1⟩

theorem alg_call {n : Nat} {as : Fin (n + 1) → Ty} :
    ((∀ i, (as i).alg = (as 0).alg) ∧ (Ty.call n as).alg = (as 0).alg) ∨ ((∃ i, (as i).alg ≠ (as 0).alg) ∧ (Ty.call n as).alg = .N) := by
  by_cases h : ∀ i, (as i).alg = (as 0).alg
  · refine .inl ⟨h, ?_⟩
    rw [Ty.alg, if_pos (by simpa [List.all_eq_true] using h)]
  · refine .inr ⟨Classical.not_forall.mp h, ?_⟩
    rw [Ty.alg, if_neg (by simpa [List.all_eq_true] using h)]

/-- Matrices have two indices, vectors one. -/
theorem good_alg : ∀ {t : Ty}, Good t → (t.alg = .M → t.rank = some 2) ∧ (t.alg = .V → t.rank = some 1)
  | .num, _ => by simp [Ty.alg]
  | .void, h => absurd h (by simp [Good])
  | .cont a r, h => by
    have := h.2
    simp only [memOk, Bool.and_eq_true, Bool.or_eq_true, bne_iff_ne, beq_iff_eq, ne_eq] at this
    refine ⟨fun e => ?_, fun e => ?_⟩ <;> simp only [Ty.alg] at e <;> subst e <;> simp_all [Ty.rank]
  | .view a r, h => by
    have := h.2
    simp only [memOk, Bool.and_eq_true, Bool.or_eq_true, bne_iff_ne, beq_iff_eq, ne_eq] at this
    refine ⟨fun e => ?_, fun e => ?_⟩ <;> simp only [Ty.alg] at e <;> subst e <;> simp_all [Ty.rank]
  | .adapter _, _ => by simp [Ty.alg]
  | .unary a, h => good_alg (t := a) h.1
  | .expr op l r, h => by
    simp only [Ty.alg, Ty.rank]
    split
    · exact good_alg h.2.1
    · exact good_alg h.1
  | .call n as, h => by
    rcases alg_call (as := as) with ⟨_, h2⟩ | ⟨_, h2⟩
    · rw [h2]; exact good_alg (t := as 0) (h 0).1
    · rw [h2]; simp

theorem memOk_iff {a : Alg} {r : Nat} : memOk a r = true ↔ a ≠ .N ∧ (a = .M → r = 2) ∧ (a = .V → r = 1) := by
  cases a <;> simp [memOk]

theorem memOk_slice {a : Alg} {r k : Nat} (h : memOk a r = true) (hk : k ≤ r) (h1 : 1 ≤ k) : memOk (sliceAlg a k) k = true := by
  rw [memOk_iff] at h ⊢
  unfold sliceAlg
  cases a <;> simp_all
  · split <;> simp_all
    omega
  · omega

/-- What `operator()` of an array in memory gives. -/
theorem callMem_some {a : Alg} {r : Nat} {args : List ArgK} {t' : Ty} (hr : 1 ≤ r) (ha : memOk a r = true) (h : callMem a r args = some t') :
    (t' = .num ∧ args.count .long = r) ∨ (args.count .long < r ∧ t' = .view (sliceAlg a (r - args.count .long)) (r - args.count .long) ∧
      memOk (sliceAlg a (r - args.count .long)) (r - args.count .long) = true) := by
  unfold callMem at h
  split at h
  · simp at h
  · rename_i h0
    split at h
    · rename_i h1
      rw [List.length_eq_zero_iff.mp h1] at *
      have e : sliceAlg a r = a := by
        unfold sliceAlg
        split
        · rename_i h2
          have := (memOk_iff.mp ha).2.1 h2.1
          omega
        · rfl
      simp only [Option.some.injEq] at h
      simp only [List.count_nil, Nat.sub_zero, e]
      exact .inr ⟨by omega, h.symm, ha⟩
    · simp only at h
      split at h
      · rename_i h2
        simp only [Option.some.injEq] at h
        exact .inl ⟨h.symm, h2⟩
      · rename_i h1 h2
        split at h
        · simp at h
        · split at h
          · rename_i h3 h4
            simp only [Option.some.injEq] at h
            refine .inr ⟨?_, h.symm, h4⟩
            have hc : args.count .long ≤ args.length := List.count_le_length
            rcases Classical.not_not.mp h0 with h5 | h5 | h5
            · omega
            · exact absurd h5 h1
            · have h6 : args.count .long + args.count .ell ≤ args.length := by
                have : ∀ l : List ArgK, l.count .long + l.count .ell ≤ l.length := by
                  intro l
                  induction l with
                  | nil => simp
                  | cons x xs ih => cases x <;> simp <;> omega
                exact this args
              have h7 : 0 < args.count .ell := List.count_pos_iff.mpr h5.1
              omega
          · simp at h


theorem sequence_some {β : Type} {n : Nat} {xs : Fin n → Option β} {ys : Fin n → β} : sequence xs = some ys ↔ ∀ i, xs i = some (ys i) := by
  unfold sequence
  split
  · rename_i h
    simp only [Option.some.injEq]
    constructor
    · intro e i; subst e; simp
    · intro e; funext i; simp [e i]
  · rename_i h
    simp only [reduceCtorEq, false_iff]
    intro e
    exact h (fun i => by simp [e i])

/-- The part of an array of rank `r`: a number if all indices are given, an array with the indices left otherwise. -/
def PartOf (t : Ty) (r c : Nat) (t' : Ty) : Prop :=
  (t' = .num ∧ c = r) ∨ (c < r ∧ Good t' ∧ t'.rank = some (r - c) ∧ t'.alg = sliceAlg t.alg (r - c))

theorem partOf_num {t : Ty} {r c : Nat} {t' : Ty} (h : PartOf t r c t') (e : t'.isNum = true) : t' = .num ∧ c = r := by
  rcases h with h | h
  · exact h
  · rw [isNum_iff] at e; subst e; simp [Ty.rank] at h

theorem partOf_arr {t : Ty} {r c : Nat} {t' : Ty} (h : PartOf t r c t') (e : t'.isNum = false) :
    c < r ∧ Good t' ∧ t'.rank = some (r - c) ∧ t'.alg = sliceAlg t.alg (r - c) := by
  rcases h with h | h
  · rw [h.1] at e; simp [Ty.isNum] at e
  · exact h

theorem sliceAlg_M {a : Alg} {k : Nat} : sliceAlg a k = .M → a = .M := by
  unfold sliceAlg; split <;> simp

/-- `operator()` of good types. -/
theorem callArgs_good (debug : Bool) : ∀ {t : Ty} {r : Nat} {args : List ArgK} {t' : Ty}, Good t → t.rank = some r → callArgs debug t args = some t' →
    PartOf t r (args.count .long) t'
  | .num, _, _, _, _, h, _ => by simp [Ty.rank] at h
  | .void, _, _, _, _, h, _ => by simp [Ty.rank] at h
  | .cont a r, _, args, t', hg, hr, h => by
    simp only [Ty.rank, Option.some.injEq] at hr; subst hr
    rcases callMem_some hg.1 hg.2 h with h | ⟨h1, h2, h3⟩
    · exact .inl h
    · subst h2; exact .inr ⟨h1, ⟨by omega, h3⟩, rfl, rfl⟩
  | .view a r, _, args, t', hg, hr, h => by
    simp only [Ty.rank, Option.some.injEq] at hr; subst hr
    rcases callMem_some hg.1 hg.2 h with h | ⟨h1, h2, h3⟩
    · exact .inl h
    · subst h2; exact .inr ⟨h1, ⟨by omega, h3⟩, rfl, rfl⟩
  | .adapter r, _, args, t', hg, hr, h => by
    simp only [Ty.rank, Option.some.injEq] at hr; subst hr
    simp only [callArgs] at h
    split at h
    · rename_i h1
      simp only [Option.some.injEq] at h
      exact .inl ⟨h.symm, by rw [h1.1, List.count_replicate_self]⟩
    · simp at h
  | .unary a, r, args, t', hg, hr, h => by
    simp only [callArgs, Option.bind_eq_bind, Option.bind_eq_some_iff] at h
    obtain ⟨a', h1, h2⟩ := h
    have ih := callArgs_good debug hg.1 (by simpa [Ty.rank] using hr) h1
    cases hn : a'.isNum
    · obtain ⟨h3, h4, h5, h6⟩ := partOf_arr ih hn
      have e : negRaw a' = some (.unary a') := by
        unfold negRaw
        split
        · simp [Ty.isNum] at hn
        · rw [if_pos (by simp [h5])]
      rw [e, Option.some.injEq] at h2
      subst h2
      exact .inr ⟨h3, ⟨h4, by simp [h5]⟩, h5, h6⟩
    · obtain ⟨h3, h4⟩ := partOf_num ih hn
      subst h3
      simp only [negRaw, Option.some.injEq] at h2
      exact .inl ⟨h2.symm, h4⟩
  | .expr op l r, k, args, t', hg, hr, h => by
    obtain ⟨hl, hr', hc⟩ := hg
    simp only [callArgs] at h
    by_cases hln : l.isNum = true
    · have hr0 : r.rank = some k := by simpa [Ty.rank, hln] using hr
      rw [if_pos hln] at h
      have hM : op = .div → r.alg ≠ .M := by
        rcases hc with hc | hc | hc
        · exact hc.2.2
        · rw [isNum_false hc.1] at hln; simp at hln
        · rw [isNum_false hc.1] at hln; simp at hln
      -- the general case
      have key : ∀ (f : Ty → Option Ty), (∀ x, x.isNum = true → f x = some .num) →
          (∀ x, x.rank.isSome → f x = some (.expr op l x)) → (op = .div → r.alg ≠ .M) →
          ((callArgs debug r args).bind f = some t') → PartOf (.expr op l r) k (args.count .long) t' := by
        intro f hf1 hf2 hf3 hf
        rw [Option.bind_eq_some_iff] at hf
        obtain ⟨r', h1, h2⟩ := hf
        have ih := callArgs_good debug hr' hr0 h1
        cases hn : r'.isNum
        · obtain ⟨h3, h4, h5, h6⟩ := partOf_arr ih hn
          rw [hf2 r' (by simp [h5]), Option.some.injEq] at h2
          subst h2
          refine .inr ⟨h3, ⟨hl, h4, .inl ⟨hln, by simp [h5], fun e => ?_⟩⟩, by simp [Ty.rank, hln, h5], by simp [Ty.alg, hln, h6]⟩
          intro e2
          rw [h6] at e2
          exact hf3 e (sliceAlg_M e2)
        · obtain ⟨h3, h4⟩ := partOf_num ih hn
          rw [hf1 r' hn, Option.some.injEq] at h2
          exact .inl ⟨h2.symm, h4⟩
      have hnum : l = .num := isNum_iff.mp hln
      have hpm : (op = .add ∨ op = .sub) → (if r.alg = .M then (if args = [.long, .long] then callArgs debug r args else none) else
          (callArgs debug r args).bind (fun x => addRaw op .num x)) = some t' → PartOf (.expr op l r) k (args.count .long) t' := by
        intro hop h
        split at h
        · rename_i hm
          split at h
          · rename_i ha
            have ih := callArgs_good debug hr' hr0 h
            have hk : k = 2 := by
              have := (good_alg hr').1 hm
              rw [hr0] at this; simpa using this
            rcases ih with ih | ih
            · exact .inl ih
            · rw [ha] at ih; simp at ih; omega
          · simp at h
        · refine key _ ?_ ?_ hM h
          · intro x hx; simp [addRaw, hx, isNum_num]
          · intro x hx; simp [addRaw, isNum_false hx, hx, hnum, isNum_num]
      cases op with
      | add => exact hpm (.inl rfl) h
      | sub => exact hpm (.inr rfl) h
      | mul =>
        refine key _ ?_ ?_ hM h
        · intro x hx; simp [mulRaw, hx, isNum_num]
        · intro x hx; simp [mulRaw, isNum_false hx, hx, hnum, isNum_num]
      | div =>
        simp only [if_neg (hM rfl)] at h
        rw [Option.bind_eq_bind, Option.bind_eq_some_iff] at h
        obtain ⟨r', h1, h2⟩ := h
        have ih := callArgs_good debug hr' hr0 h1
        cases hn : r'.isNum
        · obtain ⟨h3, h4, h5, h6⟩ := partOf_arr ih hn
          have h7 : r'.alg ≠ .M := fun e => hM rfl (sliceAlg_M (h6 ▸ e))
          simp only [divRaw, hn, isNum_num, h5, Option.isSome_some, not_true, if_false, if_neg h7, Option.some.injEq] at h2
          subst h2
          rw [hnum]
          exact .inr ⟨h3, ⟨by simp [Good], h4, .inl ⟨rfl, by simp [h5], fun _ => h7⟩⟩, by simp [Ty.rank, isNum_num, h5], by simp [Ty.alg, isNum_num, h6]⟩
        · obtain ⟨h3, h4⟩ := partOf_num ih hn
          simp only [divRaw, hn, isNum_num, Option.some.injEq] at h2
          exact .inl ⟨h2.symm, h4⟩
    · rw [if_neg hln] at h
      have hln' : l.isNum = false := by simpa using hln
      have hl0 : l.rank = some k := by simpa [Ty.rank, hln'] using hr
      by_cases hrn : r.isNum = true
      · rw [if_pos hrn] at h
        have hnum : r = .num := isNum_iff.mp hrn
        have key : ∀ (f : Ty → Option Ty), (∀ x, x.isNum = true → f x = some .num) →
            (∀ x, x.rank.isSome → f x = some (.expr op x r)) →
            ((callArgs debug l args).bind f = some t') → PartOf (.expr op l r) k (args.count .long) t' := by
          intro f hf1 hf2 hf
          rw [Option.bind_eq_some_iff] at hf
          obtain ⟨l', h1, h2⟩ := hf
          have ih := callArgs_good debug hl hl0 h1
          cases hn : l'.isNum
          · obtain ⟨h3, h4, h5, h6⟩ := partOf_arr ih hn
            rw [hf2 l' (by simp [h5]), Option.some.injEq] at h2
            subst h2
            exact .inr ⟨h3, ⟨h4, hr', .inr (.inl ⟨by simp [h5], hrn⟩)⟩, by simp [Ty.rank, hn, h5], by simp [Ty.alg, hn, hln', h6]⟩
          · obtain ⟨h3, h4⟩ := partOf_num ih hn
            rw [hf1 l' hn, Option.some.injEq] at h2
            exact .inl ⟨h2.symm, h4⟩
        have hpm : (op = .add ∨ op = .sub) → (if l.alg = .M then (if args = [.long, .long] then callArgs debug l args else none) else
            (callArgs debug l args).bind (fun x => addRaw op x .num)) = some t' → PartOf (.expr op l r) k (args.count .long) t' := by
          intro hop h
          split at h
          · rename_i hm
            split at h
            · rename_i ha
              have ih := callArgs_good debug hl hl0 h
              have hk : k = 2 := by
                have := (good_alg hl).1 hm
                rw [hl0] at this; simpa using this
              rcases ih with ih | ih
              · exact .inl ih
              · rw [ha] at ih; simp at ih; omega
            · simp at h
          · refine key _ ?_ ?_ h
            · intro x hx; simp [addRaw, hx, isNum_num]
            · intro x hx; simp [addRaw, isNum_false hx, hx, hnum, isNum_num]
        cases op with
        | add => exact hpm (.inl rfl) h
        | sub => exact hpm (.inr rfl) h
        | mul =>
          refine key _ ?_ ?_ h
          · intro x hx; simp [mulRaw, hx, isNum_num]
          · intro x hx; simp [mulRaw, isNum_false hx, hx, hnum, isNum_num]
        | div =>
          refine key _ ?_ ?_ h
          · intro x hx; simp [divRaw, hx, isNum_num]
          · intro x hx; simp [divRaw, isNum_false hx, hx, hnum, isNum_num]
      · have hrn' : r.isNum = false := by simpa using hrn
        rw [if_neg hrn] at h
        split at h
        · simp at h
        · rename_i hM
          have hc' : l.rank = r.rank ∧ ((op = .mul ∨ op = .div) → l.alg = .A ∧ r.alg = .A) := by
            rcases hc with hc | hc | hc
            · rw [hc.1] at hln'; simp at hln'
            · rw [hc.2] at hrn'; simp at hrn'
            · exact hc.2
          simp only [Option.bind_eq_bind, Option.bind_eq_some_iff] at h
          obtain ⟨l', h1, r', h2, h3⟩ := h
          have il := callArgs_good debug hl hl0 h1
          have ir := callArgs_good debug hr' (hc'.1 ▸ hl0) h2
          cases hn : l'.isNum
          · obtain ⟨g3, g4, g5, g6⟩ := partOf_arr il hn
            have hn2 : r'.isNum = false := by
              cases e : r'.isNum
              · rfl
              · have := (partOf_num ir e).2; omega
            obtain ⟨i3, i4, i5, i6⟩ := partOf_arr ir hn2
            have hA : (op = .mul ∨ op = .div) → l'.alg = .A ∧ r'.alg = .A := by
              intro e
              rw [g6, i6, (hc'.2 e).1, (hc'.2 e).2]
              simp [sliceAlg]
            have e : t' = .expr op l' r' := by
              cases op with
              | add => simpa [binRaw, addRaw, hn, hn2, g5, i5, eq_comm] using h3
              | sub => simpa [binRaw, addRaw, hn, hn2, g5, i5, eq_comm] using h3
              | mul => simpa [binRaw, mulRaw, hn, hn2, g5, i5, hA (.inl rfl), eq_comm] using h3
              | div => simpa [binRaw, divRaw, hn, hn2, g5, i5, hA (.inr rfl), eq_comm] using h3
            subst e
            exact .inr ⟨g3, ⟨g4, i4, .inr (.inr ⟨by simp [g5], by rw [g5, i5], hA⟩)⟩, by simp [Ty.rank, hn, g5], by simp [Ty.alg, hn, hln', g6]⟩
          · obtain ⟨g3, g4⟩ := partOf_num il hn
            have hn2 : r'.isNum = true := by
              cases e : r'.isNum
              · have := (partOf_arr ir e).1; omega
              · rfl
            have e : t' = .num := by
              cases op <;> simpa [binRaw, addRaw, mulRaw, divRaw, hn, hn2, eq_comm] using h3
            exact .inl ⟨e, g4⟩
  | .call n as, r, args, t', hg, hr, h => by
    simp only [callArgs, Option.bind_eq_bind, Option.bind_eq_some_iff] at h
    obtain ⟨as', h1, h2⟩ := h
    rw [sequence_some] at h1
    have hri : ∀ i, (as i).rank = some r := fun i => by rw [(hg i).2.2]; exact hr
    have ih : ∀ i, PartOf (as i) r (args.count .long) (as' i) := fun i => callArgs_good debug (hg i).1 (hri i) (h1 i)
    split at h2
    · unfold mappedRaw at h2
      split at h2
      · rename_i hs
        simp only [List.all_eq_true, List.mem_finRange, forall_const, Bool.and_eq_true] at hs
        simp only [Option.some.injEq] at h2
        subst h2
        have hp : ∀ i, args.count .long < r ∧ Good (as' i) ∧ (as' i).rank = some (r - args.count .long) ∧ (as' i).alg = sliceAlg (as i).alg (r - args.count .long) :=
          fun i => partOf_arr (ih i) (isNum_false (hs i).1)
        refine .inr ⟨(hp 0).1, fun i => ⟨(hp i).2.1, (hs i).1, by rw [(hp i).2.2.1, (hp 0).2.2.1]⟩, (hp 0).2.2.1, ?_⟩
        have hinj : ∀ i j, sliceAlg (as i).alg (r - args.count .long) = sliceAlg (as j).alg (r - args.count .long) → (as i).alg = (as j).alg := by
          intro i j e
          unfold sliceAlg at e
          have hi := good_alg (hg i).1
          have hj := good_alg (hg j).1
          rw [hri i] at hi
          rw [hri j] at hj
          have hlt := (hp i).1
          cases ei : (as i).alg <;> cases ej : (as j).alg <;> simp_all <;> split at e <;> simp_all
        rcases alg_call (as := as) with ⟨g1, g2⟩ | ⟨g1, g2⟩
        · rw [g2]
          rcases alg_call (as := as') with ⟨f1, f2⟩ | ⟨⟨i, f1⟩, f2⟩
          · rw [f2, (hp 0).2.2.2]
          · exact absurd (by rw [(hp i).2.2.2, (hp 0).2.2.2, g1 i]) f1
        · rw [g2]
          rcases alg_call (as := as') with ⟨f1, f2⟩ | ⟨⟨i, f1⟩, f2⟩
          · obtain ⟨i, g1⟩ := g1
            refine absurd (hinj i 0 ?_) g1
            rw [← (hp i).2.2.2, ← (hp 0).2.2.2, f1 i]
          · rw [f2]; simp [sliceAlg]
      · simp at h2
    · split at h2
      · rename_i hs
        simp only [List.all_eq_true, List.mem_finRange, forall_const] at hs
        simp only [Option.some.injEq] at h2
        exact .inl ⟨h2.symm, (partOf_num (ih 0) (hs 0)).2⟩
      · simp at h2

end Nda.Types
