import Verif.Lemmas.Types
import Mathlib.Tactic.ByContra
/-!
# Lemmas for the types of expressions: what compiles
-/
namespace Nda.Types
open Nda Nda.Arith

/-- Facts of arguments that leave `k` indices. -/
structure Args (args : List ArgK) (r k : Nat) : Prop where
  long : args.count .long + k = r
  ell : args.count .ell ≤ 1
  arity : args.length = r ∨ (ArgK.ell ∈ args ∧ args.length ≤ r + 1)
  one : args.count .ell = 1 ∨ args.length = r

theorem count_all (l : List ArgK) : l.count .long + l.count .range + l.count .ell = l.length := by
  induction l with
  | nil => rfl
  | cons x xs ih => cases x <;> simp <;> omega

theorem leaves_args {args : List ArgK} {r k : Nat} (h : Leaves args r k) : Args args r k := by
  obtain ⟨args', h1, h2, h3, h4⟩ := h
  have h5 : args'.count .ell = 0 := List.count_eq_zero.mpr h1
  have h6 := count_all args'
  rcases h4 with rfl | ⟨pre, post, m, rfl, rfl⟩
  · exact ⟨by omega, by omega, .inl h2, .inr h2⟩
  · simp only [List.count_append, List.length_append, List.length_replicate, List.count_replicate_self] at *
    have e1 : (List.replicate m ArgK.range).count .long = 0 := List.count_eq_zero.mpr (by simp)
    have e2 : (List.replicate m ArgK.range).count .ell = 0 := List.count_eq_zero.mpr (by simp)
    have e3 : [ArgK.ell].count .long = 0 := rfl
    have e4 : [ArgK.ell].count .ell = 1 := rfl
    refine ⟨?_, ?_, .inr ⟨by simp, ?_⟩, .inl ?_⟩ <;> simp only [List.count_append, List.length_append, List.length_singleton] <;> omega

theorem args_leaves {args : List ArgK} {r k : Nat} (h : Args args r k) (hr : args.length ≤ r + args.count .ell) : Leaves args r k := by
  have h6 := count_all args
  by_cases he : args.count .ell = 0
  · refine ⟨args, List.count_eq_zero.mp he, ?_, ?_, .inl rfl⟩
    · rcases h.one with h1 | h1 <;> omega
    · have := h.long
      rcases h.one with h1 | h1 <;> omega
  · have hmem : ArgK.ell ∈ args := List.count_pos_iff.mp (by omega)
    obtain ⟨pre, post, e⟩ := List.append_of_mem hmem
    subst e
    have h7 := h.ell
    have h8 := h.long
    simp only [List.count_append, List.count_cons_self, List.length_append, List.length_cons, List.count_cons] at *
    simp only [beq_iff_eq, reduceCtorEq, if_false, Nat.add_zero] at *
    have hp : pre.count .ell = 0 := by omega
    have hq : post.count .ell = 0 := by omega
    have cp := count_all pre
    have cq := count_all post
    refine ⟨pre ++ List.replicate (r - pre.length - post.length) .range ++ post, ?_, ?_, ?_, .inr ⟨pre, post, _, by simp, rfl⟩⟩
    · simp only [List.mem_append, List.mem_replicate, not_or]
      exact ⟨⟨List.count_eq_zero.mp hp, by simp⟩, List.count_eq_zero.mp hq⟩
    · simp only [List.length_append, List.length_replicate]; omega
    · simp only [List.count_append, List.count_replicate_self]; omega

theorem callMem_num {a : Alg} {r : Nat} {args : List ArgK} (hr : 1 ≤ r) (h : Args args r 0) : callMem a r args = some .num := by
  have h1 := h.long
  have h2 : args.length ≠ 0 := by
    intro e
    rw [List.length_eq_zero_iff.mp e] at h1
    simp at h1; omega
  unfold callMem
  rw [if_neg (not_not_intro (h.arity.imp id .inr)), if_neg h2]
  simp only
  rw [if_pos (by omega)]

theorem callMem_view {a : Alg} {r k : Nat} {args : List ArgK} (ha : memOk a r = true) (hk : 1 ≤ k) (h : Args args r k) (hne : args ≠ []) :
    callMem a r args = some (.view (sliceAlg a k) k) := by
  have h1 := h.long
  have h3 := h.ell
  unfold callMem
  rw [if_neg (not_not_intro (h.arity.imp id .inr)), if_neg (by simpa using hne)]
  simp only
  rw [if_neg (by omega), if_neg (by rintro (h4 | h4); omega; rcases h.one with h5 | h5; exact h4.1 h5; exact h4.2 h5)]
  have e : r - args.count .long = k := by omega
  rw [e, if_pos (memOk_slice ha (by omega) hk)]

theorem expr_cases {op : BOp} {l r : Ty} (h : Good (.expr op l r)) :
    (l = .num ∧ l.isNum = true ∧ r.isNum = false ∧ Good r ∧ r.rank.isSome ∧ (op = .div → r.alg ≠ .M)) ∨
    (r = .num ∧ r.isNum = true ∧ l.isNum = false ∧ Good l ∧ l.rank.isSome) ∨
    (l.isNum = false ∧ r.isNum = false ∧ Good l ∧ Good r ∧ l.rank.isSome ∧ l.rank = r.rank ∧ ((op = .mul ∨ op = .div) → l.alg = .A ∧ r.alg = .A)) := by
  obtain ⟨hl, hr, h | h | h⟩ := h
  · exact .inl ⟨isNum_iff.mp h.1, h.1, isNum_false h.2.1, hr, h.2⟩
  · exact .inr (.inl ⟨isNum_iff.mp h.2, h.2, isNum_false h.1, hl, h.1⟩)
  · exact .inr (.inr ⟨isNum_false h.1, isNum_false (h.2.1 ▸ h.1), hl, hr, h⟩)

/-- Access to an element compiles. -/
theorem elem_ok (debug : Bool) : ∀ {t : Ty} {r : Nat}, Good t → t.rank = some r → callArgs debug t (List.replicate r .long) = some .num
  | .num, _, _, h => by simp [Ty.rank] at h
  | .void, _, _, h => by simp [Ty.rank] at h
  | .cont a r, _, hg, hr => by
    simp only [Ty.rank, Option.some.injEq] at hr; subst hr
    exact callMem_num hg.1 ⟨by simp, by simp [List.count_replicate], .inl (by simp), .inr (by simp)⟩
  | .view a r, _, hg, hr => by
    simp only [Ty.rank, Option.some.injEq] at hr; subst hr
    exact callMem_num hg.1 ⟨by simp, by simp [List.count_replicate], .inl (by simp), .inr (by simp)⟩
  | .adapter r, _, hg, hr => by
    simp only [Ty.rank, Option.some.injEq] at hr; subst hr
    simp only [callArgs]
    exact if_pos ⟨trivial, hg⟩
  | .unary a, r, hg, hr => by
    simp [callArgs, elem_ok debug hg.1 (show a.rank = some r from hr), negRaw]
  | .expr op l r, k, hg, hr => by
    rcases expr_cases hg with ⟨hl, hln, hrn, hgr, _, hd⟩ | ⟨hl, hln, hrn, hgr, _⟩ | ⟨hln, hrn, hgl, hgr, _, he, hA⟩
    · have hr0 : r.rank = some k := by simpa [Ty.rank, hln] using hr
      have ih := elem_ok debug hgr hr0
      simp only [callArgs, hln, if_true, ih]
      have hM : r.alg = .M → List.replicate k ArgK.long = [.long, .long] := by
        intro e
        have := (good_alg hgr).1 e
        rw [hr0] at this
        simp only [Option.some.injEq] at this
        subst this; rfl
      cases op with
      | add => by_cases hm : r.alg = .M <;> simp [hm, hM, addRaw, isNum_num]
      | sub => by_cases hm : r.alg = .M <;> simp [hm, hM, addRaw, isNum_num]
      | mul => simp [mulRaw, isNum_num]
      | div => simp [hd rfl, divRaw, isNum_num]
    · have hr0 : l.rank = some k := by simpa [Ty.rank, hrn] using hr
      have ih := elem_ok debug hgr hr0
      simp only [callArgs, hln, hrn, if_true, ih]
      have hM : l.alg = .M → List.replicate k ArgK.long = [.long, .long] := by
        intro e
        have := (good_alg hgr).1 e
        rw [hr0] at this
        simp only [Option.some.injEq] at this
        subst this; rfl
      cases op with
      | add => by_cases hm : l.alg = .M <;> simp [hm, hM, addRaw, isNum_num]
      | sub => by_cases hm : l.alg = .M <;> simp [hm, hM, addRaw, isNum_num]
      | mul => simp [mulRaw, isNum_num]
      | div => simp [divRaw, isNum_num]
    · have hl0 : l.rank = some k := by simpa [Ty.rank, hln] using hr
      have il := elem_ok debug hgl hl0
      have ir := elem_ok debug hgr (he ▸ hl0)
      have hm : ¬ ((op = .mul ∨ op = .div) ∧ l.alg = .M) := by
        rintro ⟨h1, h2⟩
        rw [(hA h1).1] at h2; simp at h2
      simp only [callArgs, hln, hrn, Bool.false_eq_true, if_false, il, ir, if_neg hm]
      cases op <;> simp [binRaw, addRaw, mulRaw, divRaw, isNum_num]
  | .call n as, r, hg, hr => by
    have h1 : sequence (fun i => callArgs debug (as i) (List.replicate r .long)) = some (fun _ => .num) := by
      rw [sequence_some]
      exact fun i => elem_ok debug (hg i).1 (by rw [(hg i).2.2]; exact hr)
    have h2 : (List.replicate r ArgK.long).any (· != .long) = false := by
      rw [List.any_eq_false]
      intro x hx
      rw [List.eq_of_mem_replicate hx]; decide
    simp [callArgs, h1, h2, isNum_num]

/-- Parts compile. -/
theorem slice_ok (debug : Bool) : ∀ {t : Ty} {r k : Nat} {args : List ArgK}, Good t → Sliceable t → t.rank = some r → 1 ≤ k → Args args r k → args ≠ [] →
    ∃ t', callArgs debug t args = some t' ∧ Good t' ∧ t'.rank = some k ∧ t'.alg = sliceAlg t.alg k := by
  have main : ∀ {t : Ty} {r k : Nat} {args : List ArgK}, Good t → t.rank = some r → 1 ≤ k → Args args r k → (∃ t', callArgs debug t args = some t') →
      ∃ t', callArgs debug t args = some t' ∧ Good t' ∧ t'.rank = some k ∧ t'.alg = sliceAlg t.alg k := by
    intro t r k args hg hr hk ha ⟨t', h⟩
    have h1 := ha.long
    rcases callArgs_good debug hg hr h with h2 | h2
    · omega
    · have e : r - args.count .long = k := by omega
      rw [e] at h2
      exact ⟨t', h, h2.2⟩
  intro t
  induction t with
  | num => intro _ _ _ _ _ h; simp [Ty.rank] at h
  | void => intro _ _ _ _ _ h; simp [Ty.rank] at h
  | cont a r =>
    intro r' k args hg hs hr hk ha hne
    simp only [Ty.rank, Option.some.injEq] at hr; subst hr
    exact main hg rfl hk ha ⟨_, callMem_view hg.2 hk ha hne⟩
  | view a r =>
    intro r' k args hg hs hr hk ha hne
    simp only [Ty.rank, Option.some.injEq] at hr; subst hr
    exact main hg rfl hk ha ⟨_, callMem_view hg.2 hk ha hne⟩
  | adapter r => intro _ _ _ _ hs; simp [Sliceable] at hs
  | unary a ih =>
    intro r k args hg hs hr hk ha hne
    obtain ⟨a', h1, h2, h3, h4⟩ := ih hg.1 hs hr hk ha hne
    refine main hg hr hk ha ⟨.unary a', ?_⟩
    have hn : a'.isNum = false := isNum_false (by simp [h3])
    simp only [callArgs, h1, Option.bind_eq_bind, Option.bind_some]
    unfold negRaw
    split
    · simp [isNum_num] at hn
    · rw [if_pos (by simp [h3])]
  | expr op l r ihl ihr =>
    intro q k args hg hs hr hk ha hne
    refine main hg hr hk ha ?_
    rcases expr_cases hg with ⟨hl, hln, hrn, hgr, _, hd⟩ | ⟨hl, hln, hrn, hgr, _⟩ | ⟨hln, hrn, hgl, hgr, _, he, hA⟩
    · have hr0 : r.rank = some q := by simpa [Ty.rank, hln] using hr
      obtain ⟨r', h1, h2, h3, h4⟩ := ihr hgr hs.2.1 hr0 hk ha hne
      have hn : r'.isNum = false := isNum_false (by simp [h3])
      have hd' : op = .div → r'.alg ≠ .M := fun e e2 => hd e (sliceAlg_M (h4 ▸ e2))
      simp only [callArgs, hln, if_true, h1]
      cases op with
      | add =>
        have := (hs.2.2 (.inl rfl)).1 hln
        exact ⟨.expr .add .num r', by simp only [if_neg this, Option.bind_eq_bind, Option.bind_some, addRaw, isNum_num, hn, h3, Option.isSome_some, if_true]⟩
      | sub =>
        have := (hs.2.2 (.inr rfl)).1 hln
        exact ⟨.expr .sub .num r', by simp only [if_neg this, Option.bind_eq_bind, Option.bind_some, addRaw, isNum_num, hn, h3, Option.isSome_some, if_true]⟩
      | mul => exact ⟨.expr .mul .num r', by simp only [Option.bind_eq_bind, Option.bind_some, mulRaw, isNum_num, hn, h3, Option.isSome_some, if_true]⟩
      | div => exact ⟨.expr .div .num r', by simp only [if_neg (hd rfl), Option.bind_eq_bind, Option.bind_some, divRaw, isNum_num, hn, h3, Option.isSome_some, not_true, if_false, if_neg (hd' rfl)]⟩
    · have hr0 : l.rank = some q := by simpa [Ty.rank, hrn] using hr
      obtain ⟨l', h1, h2, h3, h4⟩ := ihl hgr hs.1 hr0 hk ha hne
      have hn : l'.isNum = false := isNum_false (by simp [h3])
      simp only [callArgs, hln, hrn, if_true, Bool.false_eq_true, if_false, h1]
      cases op with
      | add =>
        have := (hs.2.2 (.inl rfl)).2 hln
        exact ⟨.expr .add l' .num, by simp only [if_neg this, Option.bind_eq_bind, Option.bind_some, addRaw, isNum_num, hn, h3, Option.isSome_some, if_true]⟩
      | sub =>
        have := (hs.2.2 (.inr rfl)).2 hln
        exact ⟨.expr .sub l' .num, by simp only [if_neg this, Option.bind_eq_bind, Option.bind_some, addRaw, isNum_num, hn, h3, Option.isSome_some, if_true]⟩
      | mul => exact ⟨.expr .mul l' .num, by simp only [Option.bind_eq_bind, Option.bind_some, mulRaw, isNum_num, hn, h3, Option.isSome_some, if_true]⟩
      | div => exact ⟨.expr .div l' .num, by simp only [Option.bind_eq_bind, Option.bind_some, divRaw, isNum_num, hn, h3, Option.isSome_some, if_true]⟩
    · have hl0 : l.rank = some q := by simpa [Ty.rank, hln] using hr
      obtain ⟨l', l1, l2, l3, l4⟩ := ihl hgl hs.1 hl0 hk ha hne
      obtain ⟨r', r1, r2, r3, r4⟩ := ihr hgr hs.2.1 (he ▸ hl0) hk ha hne
      have hnl : l'.isNum = false := isNum_false (by simp [l3])
      have hnr : r'.isNum = false := isNum_false (by simp [r3])
      have hm : ¬ ((op = .mul ∨ op = .div) ∧ l.alg = .M) := by
        rintro ⟨h1, h2⟩
        rw [(hA h1).1] at h2; simp at h2
      have hA' : (op = .mul ∨ op = .div) → l'.alg = .A ∧ r'.alg = .A := by
        intro e
        rw [l4, r4, (hA e).1, (hA e).2]
        simp [sliceAlg]
      simp only [callArgs, hln, hrn, Bool.false_eq_true, if_false, l1, r1, if_neg hm]
      cases op with
      | add => exact ⟨.expr .add l' r', by simp [binRaw, addRaw, hnl, hnr, l3, r3]⟩
      | sub => exact ⟨.expr .sub l' r', by simp [binRaw, addRaw, hnl, hnr, l3, r3]⟩
      | mul => exact ⟨.expr .mul l' r', by simp [binRaw, mulRaw, hnl, hnr, l3, r3, hA' (.inl rfl)]⟩
      | div => exact ⟨.expr .div l' r', by simp [binRaw, divRaw, hnl, hnr, l3, r3, hA' (.inr rfl)]⟩
  | call n as ih =>
    intro r k args hg hs hr hk ha hne
    refine main hg hr hk ha ?_
    have hri : ∀ i, (as i).rank = some r := fun i => by rw [(hg i).2.2]; exact hr
    have h1 : ∀ i, ∃ t', callArgs debug (as i) args = some t' ∧ Good t' ∧ t'.rank = some k ∧ t'.alg = sliceAlg (as i).alg k :=
      fun i => ih i (hg i).1 (hs i) (hri i) hk ha hne
    let as' := fun i => (h1 i).choose
    have h2 : ∀ i, callArgs debug (as i) args = some (as' i) ∧ Good (as' i) ∧ (as' i).rank = some k ∧ (as' i).alg = sliceAlg (as i).alg k := fun i => (h1 i).choose_spec
    have h3 : sequence (fun i => callArgs debug (as i) args) = some as' := by
      rw [sequence_some]; exact fun i => (h2 i).1
    have h4 : args.any (· != .long) = true := by
      rw [List.any_eq_true]
      by_contra hcon
      have hall : ∀ x ∈ args, x = .long := by
        intro x hx
        by_contra h5
        exact hcon ⟨x, hx, by simpa using h5⟩
      have h6 : args.count .long = args.length := List.count_eq_length.mpr (fun b hb => (hall b hb).symm)
      have h7 := ha.long
      have h8 : args.count .ell = 0 := List.count_eq_zero.mpr (fun h => by have := hall _ h; simp at this)
      rcases ha.one with h9 | h9 <;> omega
    refine ⟨.call n as', ?_⟩
    simp only [callArgs, h3, h4, Option.bind_eq_bind, Option.bind_some, if_true]
    unfold mappedRaw
    rw [if_pos]
    rw [List.all_eq_true]
    intro i _
    simp [(h2 i).2.2.1, (h2 0).2.2.1]


theorem good_isArray (debug : Bool) {t : Ty} (h : Good t) (hr : t.rank.isSome) : isArray debug t = true := by
  obtain ⟨r, e⟩ := Option.isSome_iff_exists.mp hr
  rw [isArray, e]
  simp only [elem_ok debug h e, Option.isSome_some]

theorem isArray_rank {debug : Bool} {t : Ty} (h : isArray debug t = true) : t.rank.isSome := by
  unfold isArray at h
  split at h
  · rename_i e; simp [e]
  · simp at h

theorem odd_not_array (debug : Bool) {t : Ty} (h : Odd debug t) : isArray debug t = false := by
  rcases h with rfl | ⟨n, as, _, rfl, h, i, hi⟩
  · rfl
  · obtain ⟨r, e⟩ := Option.isSome_iff_exists.mp (h 0).2
    obtain ⟨q, e2⟩ := Option.isSome_iff_exists.mp (h i).2
    rw [e, e2] at hi
    have hr : (Ty.call n as).rank = some r := e
    rw [isArray, hr]
    simp only [Option.isSome_eq_false_iff, Option.isNone_iff_eq_none]
    rw [callArgs]
    have hany : (List.replicate r ArgK.long).any (· != .long) = false := by
      rw [List.any_eq_false]
      intro x hx
      rw [List.eq_of_mem_replicate hx]; decide
    cases hs : sequence (fun i => callArgs debug (as i) (List.replicate r .long)) with
    | none => rfl
    | some as' =>
      rw [sequence_some] at hs
      simp only [Option.bind_eq_bind, Option.bind_some, hany, Bool.false_eq_true, if_false]
      rw [if_neg]
      intro hall
      rw [List.all_eq_true] at hall
      have := (partOf_num (callArgs_good debug (h i).1 e2 (hs i)) (hall i (List.mem_finRange i))).2
      rw [List.count_replicate_self] at this
      exact hi (by rw [this])

theorem odd_not_num {debug : Bool} {t : Ty} (h : Odd debug t) : t.isNum = false := by
  rcases h with rfl | ⟨n, as, _, rfl, _⟩ <;> rfl

theorem mappedRaw_good {debug : Bool} {n : Nat} {as : Fin (n + 1) → Ty} {t' : Ty} (hg : ∀ i, Good (as i)) (h : mappedRaw debug n as = some t') : Good t' ∨ Odd debug t' := by
  unfold mappedRaw at h
  split at h
  · rename_i hs
    simp only [List.all_eq_true, List.mem_finRange, forall_const, Bool.and_eq_true] at hs
    simp only [Option.some.injEq] at h
    subst h
    by_cases he : ∀ i, (as i).rank = (as 0).rank
    · exact .inl (fun i => ⟨hg i, (hs i).1, he i⟩)
    · refine .inr (.inr ⟨n, as, ?_, rfl, fun i => ⟨hg i, (hs i).1⟩, Classical.not_forall.mp he⟩)
      cases debug
      · rfl
      · exact absurd (fun i => by have := (hs i).2; simpa using this) he
  · simp at h

theorem good_cont {a : Alg} {r : Nat} (h1 : 1 ≤ r) (h2 : memOk a r = true) : Good (.cont a r) := ⟨h1, h2⟩

theorem neg_good {t t' : Ty} (hg : Good t) (h : negRaw t = some t') : Good t' := by
  unfold negRaw at h
  split at h
  · simp only [Option.some.injEq] at h; subst h; trivial
  · split at h
    · rename_i h1
      simp only [Option.some.injEq] at h
      subst h; exact ⟨hg, h1⟩
    · simp at h

theorem add_good {op : BOp} (hop : op = .add ∨ op = .sub) {l r t' : Ty} (hl : Good l) (hr : Good r) (h : addRaw op l r = some t') : Good t' := by
  have hnd : op ≠ .div := by rcases hop with rfl | rfl <;> simp
  have hnm : ¬ (op = .mul ∨ op = .div) := by rcases hop with rfl | rfl <;> simp
  unfold addRaw at h
  split at h
  · simp only [Option.some.injEq] at h; subst h; trivial
  · rename_i h1 h2
    split at h
    · rename_i h3
      simp only [Option.some.injEq] at h
      subst h
      exact ⟨hl, hr, .inl ⟨h1, h3, fun e => absurd e hnd⟩⟩
    · simp at h
  · rename_i h1 h2
    split at h
    · rename_i h3
      simp only [Option.some.injEq] at h
      subst h
      exact ⟨hl, hr, .inr (.inl ⟨h3, h2⟩)⟩
    · simp at h
  · split at h
    · rename_i h3
      simp only [Option.some.injEq] at h
      subst h
      exact ⟨hl, hr, .inr (.inr ⟨h3.1, h3.2, fun e => absurd e hnm⟩)⟩
    · simp at h

theorem mul_good {l r t' : Ty} (hl : Good l) (hr : Good r) (h : mulRaw l r = some t') : Good t' ∨ (t' = .void ∧ l.isNum = false ∧ l.alg = .N) := by
  unfold mulRaw at h
  split at h
  · simp only [Option.some.injEq] at h; subst h; exact .inl trivial
  · rename_i h1 h2
    split at h
    · rename_i h3
      simp only [Option.some.injEq] at h
      subst h
      exact .inl ⟨hl, hr, .inl ⟨h1, h3, fun e => (by cases e)⟩⟩
    · simp at h
  · rename_i h1 h2
    split at h
    · rename_i h3
      simp only [Option.some.injEq] at h
      subst h
      exact .inl ⟨hl, hr, .inr (.inl ⟨h3, h2⟩)⟩
    · simp at h
  · rename_i h1 h2
    split at h
    · simp at h
    · rename_i h0
      have h0 := Classical.not_not.mp h0
      split at h
      · simp at h
      · rename_i ha
        split at h
        · rename_i h3
          simp only [Option.some.injEq] at h
          subst h
          exact .inl ⟨hl, hr, .inr (.inr ⟨h0.1, h3.2, fun _ => ⟨ha, h3.1⟩⟩)⟩
        · simp at h
      · split at h
        · simp at h
        · split at h
          · simp only [Option.some.injEq] at h; subst h; exact .inl ⟨by omega, by decide⟩
          · simp at h
        · split at h
          · simp only [Option.some.injEq] at h; subst h; exact .inl ⟨by omega, by decide⟩
          · simp at h
      · rename_i ha
        simp only [Option.some.injEq] at h
        exact .inr ⟨h.symm, h1, ha⟩

theorem inverse_good {t t' : Ty} (h : inverse t = some t') : t' = .cont .M 2 := by
  unfold inverse at h
  split at h
  · simpa [eq_comm] using h
  · simp at h

theorem div_good {l r t' : Ty} (hl : Good l) (hr : Good r) (h : divRaw l r = some t') : Good t' := by
  unfold divRaw at h
  split at h
  · simp only [Option.some.injEq] at h; subst h; trivial
  · rename_i h1 h2
    split at h
    · simp at h
    · rename_i h3
      split at h
      · split at h
        · rw [Option.bind_eq_bind, Option.bind_eq_some_iff] at h
          obtain ⟨i, hi, h⟩ := h
          have := inverse_good hi
          subst this
          rcases mul_good hl (good_cont (by omega) (by decide)) h with h4 | h4
          · exact h4
          · rw [h1] at h4; simp at h4
        · simp at h
      · rename_i h4
        simp only [Option.some.injEq] at h
        subst h
        exact ⟨hl, hr, .inl ⟨h1, Classical.not_not.mp h3, fun _ => h4⟩⟩
  · rename_i h1 h2
    split at h
    · rename_i h3
      simp only [Option.some.injEq] at h
      subst h
      exact ⟨hl, hr, .inr (.inl ⟨h3, h2⟩)⟩
    · simp at h
  · rename_i h1 h2
    split at h
    · simp at h
    · rename_i h0
      have h0 := Classical.not_not.mp h0
      split at h
      · simp at h
      · rename_i ha
        split at h
        · rename_i h3
          simp only [Option.some.injEq] at h
          subst h
          exact ⟨hl, hr, .inr (.inr ⟨h0.1, h3.2, fun _ => ⟨ha, h3.1⟩⟩)⟩
        · simp at h
      · rename_i ha
        split at h
        · rw [Option.bind_eq_bind, Option.bind_eq_some_iff] at h
          obtain ⟨i, hi, h⟩ := h
          have := inverse_good hi
          subst this
          rcases mul_good hl (good_cont (by omega) (by decide)) h with h4 | h4
          · exact h4
          · rw [ha] at h4; simp at h4
        · simp at h
      · simp at h

theorem binRaw_good {op : BOp} {l r t' : Ty} (hl : Good l) (hr : Good r) (h : binRaw op l r = some t') :
    Good t' ∨ (t' = .void ∧ op = .mul ∧ l.isNum = false ∧ l.alg = .N) := by
  cases op with
  | add => exact .inl (add_good (.inl rfl) hl hr h)
  | sub => exact .inl (add_good (.inr rfl) hl hr h)
  | mul => exact (mul_good hl hr h).imp id (fun h => ⟨h.1, rfl, h.2⟩)
  | div => exact .inl (div_good hl hr h)

theorem transform_good {rv : Bool} {r : Nat} (hr : 1 ≤ r) : ∀ {t t' : Ty}, transform rv r t = some t' → Good t' ∧ t'.rank = some r
  | .num, _, h => by simp [transform] at h
  | .void, _, h => by simp [transform] at h
  | .cont a q, t', h => by
    simp only [transform] at h
    generalize (if r = q then a else Alg.A) = a' at h
    split at h
    · rename_i h1
      simp only [Option.some.injEq] at h
      subst h
      split <;> exact ⟨⟨hr, h1⟩, rfl⟩
    · simp at h
  | .view a q, t', h => by
    simp only [transform] at h
    generalize (if r = q then a else Alg.A) = a' at h
    split at h
    · rename_i h1
      simp only [Option.some.injEq] at h
      subst h
      exact ⟨⟨hr, h1⟩, rfl⟩
    · simp at h
  | .adapter _, _, h => by simp [transform] at h
  | .unary _, _, h => by simp [transform] at h
  | .expr _ _ _, _, h => by simp [transform] at h
  | .call _ _, _, h => by simp [transform] at h

theorem transpose_good {debug rv : Bool} : ∀ {t t' : Ty}, transpose debug rv t = some t' → Good t' ∧ t'.rank = some 2
  | .num, _, h => by simp [transpose] at h
  | .void, _, h => by simp [transpose] at h
  | .cont a q, t', h => by
    simp only [transpose] at h
    split at h
    · exact transform_good (by omega) h
    · simp at h
  | .view a q, t', h => by
    simp only [transpose] at h
    split at h
    · exact transform_good (by omega) h
    · simp at h
  | .adapter _, _, h => by simp [transpose] at h
  | .unary _, _, h => by simp [transpose] at h
  | .expr _ _ _, _, h => by simp [transpose] at h
  | .call 0 as, t', h => by
    simp only [transpose, Option.bind_eq_bind, Option.bind_eq_some_iff] at h
    obtain ⟨t, h1, h2⟩ := h
    have ih := transpose_good h1
    unfold mappedRaw at h2
    split at h2
    · simp only [Option.some.injEq] at h2
      subst h2
      exact ⟨fun _ => ⟨ih.1, by simp [ih.2], rfl⟩, ih.2⟩
    · simp at h2
  | .call (n + 1) _, _, h => by simp [transpose] at h

/-- The invariant of all programs. -/
theorem reach_good {debug : Bool} {t : Ty} (h : Reach debug t) : Good t ∨ Odd debug t := by
  induction h with
  | num => exact .inl trivial
  | cont a r h1 h2 => exact .inl ⟨h1, h2⟩
  | view a r h1 h2 => exact .inl ⟨h1, h2⟩
  | adapter r h => exact .inl h
  | neg _ h ih =>
    unfold neg at h
    split at h
    · rename_i ha
      rcases ih with ih | ih
      · exact .inl (neg_good ih h)
      · rw [odd_not_array debug ih] at ha; simp at ha
    · simp at h
  | @bin op l r t' _ _ h ihl ihr =>
    unfold bin at h
    split at h
    · rename_i ha
      simp only [isOperand, Bool.or_eq_true] at ha
      have hl : Good l := by
        rcases ihl with ih | ih
        · exact ih
        · rw [odd_not_array debug ih, odd_not_num ih] at ha; simp at ha
      have hr : Good r := by
        rcases ihr with ih | ih
        · exact ih
        · rw [odd_not_array debug ih, odd_not_num ih] at ha; simp at ha
      rcases binRaw_good hl hr h with h | h
      · exact .inl h
      · exact .inr (.inl h.1)
    · simp at h
  | @mapped n as t' _ h ih =>
    unfold mapped at h
    split at h
    · rename_i ha
      rw [List.all_eq_true] at ha
      refine mappedRaw_good (fun i => ?_) h
      rcases ih i with ih | ih
      · exact ih
      · have := ha i (List.mem_finRange i)
        rw [odd_not_array debug ih] at this; simp at this
    · simp at h
  | @call t t' args _ h ih =>
    rcases ih with ih | rfl | ⟨n, as, _, rfl, hg, _⟩
    · rcases good_rank ih with rfl | ⟨r, hr, _⟩
      · simp [callArgs] at h
      · rcases callArgs_good debug ih hr h with h1 | h1
        · rw [h1.1]; exact .inl trivial
        · exact .inl h1.2.1
    · simp [callArgs] at h
    · simp only [callArgs, Option.bind_eq_bind, Option.bind_eq_some_iff] at h
      obtain ⟨as', h1, h2⟩ := h
      rw [sequence_some] at h1
      split at h2
      · refine mappedRaw_good (fun i => ?_) h2
        obtain ⟨r, e⟩ := Option.isSome_iff_exists.mp (hg i).2
        rcases callArgs_good debug (hg i).1 e (h1 i) with h3 | h3
        · rw [h3.1]; trivial
        · exact h3.2.1
      · split at h2
        · simp only [Option.some.injEq] at h2
          subst h2; exact .inl trivial
        · simp at h2
  | transform _ hr h _ => exact .inl (transform_good hr h).1
  | transpose _ h _ => exact .inl (transpose_good h).1
  | @regular t t' _ h ih =>
    unfold makeRegular at h
    split at h
    · rw [Option.some.injEq] at h; subst h; exact ih
    · split at h
      · rename_i ha
        split at h
        · rename_i r hr
          split at h
          · rename_i hm
            rw [Option.some.injEq] at h
            subst h
            rcases ih with ih | ih
            · rcases good_rank ih with rfl | ⟨q, hq, h1⟩
              · simp [Ty.rank] at hr
              · rw [hr] at hq
                simp only [Option.some.injEq] at hq
                exact .inl ⟨by omega, hm⟩
            · rw [odd_not_array debug ih] at ha; simp at ha
          · simp at h
        · simp at h
      · rw [Option.some.injEq] at h; subst h; exact ih
  | @arrayView t t' _ h ih =>
    unfold makeArrayView at h
    split at h
    · rw [Option.some.injEq] at h; subst h
      rcases ih with ih | h | ⟨n, as, _, h, _⟩
      · exact .inl ⟨ih.1, by simp [memOk]⟩
      · simp at h
      · simp at h
    · rw [Option.some.injEq] at h; subst h
      rcases ih with ih | h | ⟨n, as, _, h, _⟩
      · exact .inl ⟨ih.1, by simp [memOk]⟩
      · simp at h
      · simp at h
    · simp at h
  | @matrixView t t' _ h ih =>
    unfold makeMatrixView at h
    split at h
    · split at h
      · rw [Option.some.injEq] at h; subst h; exact .inl ⟨by omega, by decide⟩
      · simp at h
    · split at h
      · rw [Option.some.injEq] at h; subst h; exact .inl ⟨by omega, by decide⟩
      · simp at h
    · simp at h
  | @diagonal t t' _ h ih =>
    unfold diagonal at h
    split at h
    · split at h
      · rw [Option.some.injEq] at h; subst h; exact .inl ⟨by omega, by decide⟩
      · simp at h
    · split at h
      · rw [Option.some.injEq] at h; subst h; exact .inl ⟨by omega, by decide⟩
      · simp at h
    · simp at h
  | inverse _ _ h _ => rw [inverse_good h]; exact .inl ⟨by omega, by decide⟩

/-- Arrays among them are good. -/
theorem reach_array {debug : Bool} {t : Ty} (h : Reach debug t) (ha : isArray debug t = true) : Good t := by
  rcases reach_good h with h | h
  · exact h
  · rw [odd_not_array debug h] at ha; simp at ha

end Nda.Types
