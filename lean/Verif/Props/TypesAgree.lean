import Verif.Props.Types
import Verif.Props.ExprSlice
/-!
# C94: the types of the expressions of C26 and C66

The compiler and the running program agree: the expressions that were evaluated and sliced there have the types computed here.
-/
namespace Nda.Types
open Nda Nda.Spec Nda.Arith Nda.Arith.Spec LayoutTransforms Assign Nda.IdxMap Nda.Slice

variable {α : Type} {debug : Bool}

/-- The type of an expression (the arrays in it are held as views). -/
def ty : Arith.Expr α → Ty
  | .arr a v => .view a v.lay.len.length
  | .fn _ len _ => .adapter len.length
  | .neg e => .unary (ty e)
  | .bin op l r => .expr op (ty l) (ty r)
  | .scalL op _ r => .expr op .num (ty r)
  | .scalR op l _ => .expr op (ty l) .num
  | .call n _ es => .call n (fun i => ty (es i))

/-- The type of an argument. -/
def kindOf : Arg → ArgK
  | .idx _ => .long
  | .all => .range
  | .rng _ _ _ => .range
  | .ell => .ell

theorem ty_num : ∀ {e : Arith.Expr α}, (ty e).isNum = false := by
  intro e; cases e <;> rfl

theorem ty_rank : ∀ {e : Arith.Expr α}, (ty e).rank = some e.shape.length
  | .arr _ _ => rfl
  | .fn _ _ _ => rfl
  | .neg e => ty_rank (e := e)
  | .bin _ l r => by simp only [ty, Ty.rank, ty_num, Bool.false_eq_true, if_false, Expr.shape]; exact ty_rank
  | .scalL _ _ r => by simp only [ty, Ty.rank, isNum_num, if_true, Expr.shape]; exact ty_rank
  | .scalR _ l _ => by simp only [ty, Ty.rank, ty_num, Bool.false_eq_true, if_false, Expr.shape]; exact ty_rank
  | .call n _ es => ty_rank (e := es 0)

theorem ty_alg : ∀ {e : Arith.Expr α}, Typed e → (ty e).alg = e.alg
  | .arr _ _, _ => rfl
  | .fn _ _ _, h => by
    have h : _ = Alg.A := h
    simp [ty, Ty.alg, Expr.alg, h]
  | .neg e, h => ty_alg (e := e) h
  | .bin _ l r, h => by simp only [ty, Ty.alg, ty_num, Bool.false_eq_true, if_false, Expr.alg]; exact ty_alg h.1
  | .scalL _ _ r, h => by simp only [ty, Ty.alg, isNum_num, if_true, Expr.alg]; exact ty_alg (e := r) h
  | .scalR _ l _, h => by simp only [ty, Ty.alg, ty_num, Bool.false_eq_true, if_false, Expr.alg]; exact ty_alg (e := l) h
  | .call n _ es, h => by
    have h1 : ∀ i, (ty (es i)).alg = (es i).alg := fun i => ty_alg (h i)
    simp only [ty, Ty.alg, Expr.alg, h1]

theorem ty_good {len : List Int} (h0 : len ≠ []) : ∀ {e : Arith.Expr α}, e.compiles = true → Shaped len e → Typed e → Good (ty e)
  | .arr a v, _, hs, ht => by
    have hs : v.lay.len = len := hs
    refine ⟨by rw [hs]; exact List.length_pos_iff.mpr h0, ?_⟩
    obtain ⟨h1, h2, h3⟩ := ht
    cases a
    · simp [memOk]
    · simp [memOk, h2 rfl]
    · simp [memOk, h3 rfl]
    · exact absurd rfl h1
  | .fn _ l _, _, hs, _ => by
    have hs : l = len := hs
    show 1 ≤ l.length
    rw [hs]; exact List.length_pos_iff.mpr h0
  | .neg e, hc, hs, ht => ⟨ty_good h0 (e := e) hc hs ht, by rw [ty_rank]; rfl⟩
  | .bin op l r, hc, hs, ht => by
    simp only [Expr.compiles, Bool.and_eq_true] at hc
    refine ⟨ty_good h0 hc.1.1.1 hs.1 ht.1, ty_good h0 hc.1.1.2 hs.2 ht.2, .inr (.inr ⟨by rw [ty_rank]; rfl, by rw [ty_rank, ty_rank, shape_of hs.1, shape_of hs.2], fun e => ?_⟩)⟩
    rw [ty_alg ht.1, ty_alg ht.2]
    rcases e with rfl | rfl <;> simpa using hc.2
  | .scalL op _ r, hc, hs, ht => by
    simp only [Expr.compiles, Bool.and_eq_true] at hc
    refine ⟨trivial, ty_good h0 (e := r) hc.1 hs ht, .inl ⟨rfl, by rw [ty_rank]; rfl, fun e => ?_⟩⟩
    rw [ty_alg (e := r) ht]
    subst e
    simpa using hc.2
  | .scalR op l _, hc, hs, ht => ⟨ty_good h0 (e := l) hc hs ht, trivial, .inr (.inl ⟨by rw [ty_rank]; rfl, rfl⟩)⟩
  | .call n _ es, hc, hs, ht => by
    simp only [Expr.compiles, List.all_eq_true, List.mem_finRange, forall_const] at hc
    intro i
    refine ⟨ty_good h0 (hc i) (hs i) (ht i), by rw [ty_rank]; rfl, ?_⟩
    simp only [ty_rank, shape_of (hs _)]

theorem ty_sliceable : ∀ {e : Arith.Expr α}, Typed e → (Types.Sliceable (ty e) ↔ Arith.Spec.Sliceable e)
  | .arr _ _, _ => Iff.rfl
  | .fn _ _ _, _ => Iff.rfl
  | .neg e, h => ty_sliceable (e := e) h
  | .bin _ l r, h => by
    simp only [ty, Types.Sliceable, Arith.Spec.Sliceable, ty_num, Bool.false_eq_true, false_implies, and_true, implies_true, ty_sliceable h.1, ty_sliceable h.2]
  | .scalL _ _ r, h => by
    simp only [ty, Types.Sliceable, Arith.Spec.Sliceable, ty_num, isNum_num, Bool.false_eq_true, false_implies, and_true, true_and, forall_const, ty_sliceable (e := r) h, ty_alg (e := r) h]
  | .scalR _ l _, h => by
    simp only [ty, Types.Sliceable, Arith.Spec.Sliceable, ty_num, isNum_num, Bool.false_eq_true, false_implies, true_and, forall_const, ty_sliceable (e := l) h, ty_alg (e := l) h]
  | .call n _ es, h => by
    simp only [ty, Types.Sliceable, Arith.Spec.Sliceable]
    exact forall_congr' fun i => ty_sliceable (h i)

/-- **C94** Every expression that the model of C26 accepts can be written: its type is reachable with the operators here, with the same algebra and number of indices. -/
theorem C94_agrees {len : List Int} (h0 : len ≠ []) {e : Arith.Expr α} (hc : e.compiles = true) (hs : Shaped len e) (ht : Typed e) :
    Reach debug (ty e) ∧ isArray debug (ty e) = true ∧ (ty e).alg = e.alg ∧ (ty e).rank = some len.length := by
  have arr : ∀ {e : Arith.Expr α}, e.compiles = true → Shaped len e → Typed e → isArray debug (ty e) = true :=
    fun h1 h2 h3 => good_isArray debug (ty_good h0 h1 h2 h3) (by rw [ty_rank]; rfl)
  refine ⟨?_, arr hc hs ht, ty_alg ht, by rw [ty_rank, shape_of hs]⟩
  induction e with
  | arr a v => exact .view _ _ (ty_good h0 hc hs ht).1 (ty_good h0 hc hs ht).2
  | fn a l f => exact .adapter _ (ty_good (e := .fn a l f) h0 hc hs ht)
  | neg e ih =>
    refine .neg (ih hc hs ht) ?_
    rw [neg, if_pos (arr (e := e) hc hs ht)]
    have hn := ty_num (e := e)
    unfold negRaw
    split
    · rename_i h; rw [h, isNum_num] at hn; simp at hn
    · rw [if_pos (by rw [ty_rank]; rfl)]; rfl
  | bin op l r ihl ihr =>
    have hc0 := hc
    simp only [Expr.compiles, Bool.and_eq_true] at hc
    refine .bin (op := op) (ihl hc.1.1.1 hs.1 ht.1) (ihr hc.1.1.2 hs.2 ht.2) ?_
    rw [bin, if_pos ⟨by simp [isOperand, arr hc.1.1.1 hs.1 ht.1], by simp [isOperand, arr hc.1.1.2 hs.2 ht.2]⟩]
    have e1 := ty_rank (e := l)
    have e2 := ty_rank (e := r)
    rw [shape_of hs.1] at e1
    rw [shape_of hs.2] at e2
    cases op with
    | add => simp [binRaw, addRaw, ty_num, e1, e2, ty]
    | sub => simp [binRaw, addRaw, ty_num, e1, e2, ty]
    | mul =>
      have h2 : l.alg = .A ∧ r.alg = .A := by simpa using hc.2
      simp [binRaw, mulRaw, ty_num, e1, e2, ty, ty_alg ht.1, ty_alg ht.2, h2.1, h2.2]
    | div =>
      have h2 : l.alg = .A ∧ r.alg = .A := by simpa using hc.2
      simp [binRaw, divRaw, ty_num, e1, e2, ty, ty_alg ht.1, ty_alg ht.2, h2.1, h2.2]
  | scalL op s r ih =>
    simp only [Expr.compiles, Bool.and_eq_true] at hc
    refine .bin (op := op) .num (ih hc.1 hs ht) ?_
    rw [bin, if_pos ⟨rfl, by simp [isOperand, arr hc.1 hs ht]⟩]
    have e2 := ty_rank (e := r)
    cases op with
    | add => simp [binRaw, addRaw, ty_num, isNum_num, e2, ty]
    | sub => simp [binRaw, addRaw, ty_num, isNum_num, e2, ty]
    | mul => simp [binRaw, mulRaw, ty_num, isNum_num, e2, ty]
    | div =>
      have h2 : r.alg ≠ .M := by simpa using hc.2
      simp [binRaw, divRaw, ty_num, isNum_num, e2, ty, ty_alg (e := r) ht, h2]
  | scalR op l s ih =>
    refine .bin (op := op) (ih hc hs ht) .num ?_
    rw [bin, if_pos ⟨by simp [isOperand, arr (e := l) hc hs ht], rfl⟩]
    have e2 := ty_rank (e := l)
    cases op <;> simp [binRaw, addRaw, mulRaw, divRaw, ty_num, isNum_num, e2, ty]
  | call n f es ih =>
    simp only [Expr.compiles, List.all_eq_true, List.mem_finRange, forall_const] at hc
    refine .mapped (as := fun i => ty (es i)) (fun i => ih i (hc i) (hs i) (ht i)) ?_
    rw [mapped, if_pos (by rw [List.all_eq_true]; exact fun i _ => arr (hc i) (hs i) (ht i)), mappedRaw, if_pos]
    · rfl
    · rw [List.all_eq_true]
      intro i _
      simp [ty_rank, shape_of (hs _)]

theorem count_kind_ell (args : List Arg) : (args.map kindOf).count .ell = args.count .ell := by
  induction args with
  | nil => rfl
  | cons a as ih => cases a <;> simp [kindOf, ih]

theorem count_expand (n : Nat) (args : List Arg) : (args.map kindOf).count .long = (args.flatMap (expandArg n)).countP (fun a => !keeps a) := by
  induction args with
  | nil => rfl
  | cons a as ih =>
    cases a with
    | ell =>
      simp only [List.map_cons, kindOf, List.flatMap_cons, expandArg, List.countP_append]
      have h1 : (List.replicate n Arg.all).countP (fun a => !keeps a) = 0 := List.countP_eq_zero.mpr (by intro a ha; rw [List.eq_of_mem_replicate ha]; decide)
      rw [List.count_cons_of_ne (by decide), ih, h1]
      omega
    | _ => simp [kindOf, expandArg, keeps, ih, Nat.add_comm]

/-- Arguments of the model of slices fit the types here. -/
theorem args_kind {len ext : List Int} {args : List Arg} (h : SliceOf len args ext) : Args (args.map kindOf) len.length ext.length := by
  have h1 := sliceShape_keeps h.shape
  have h2 := Slice.length_expand h.fits h.rank
  have h3 := count_expand (len.length + 1 - args.length) args
  have h4 : (expand len.length args).countP keeps + (expand len.length args).countP (fun a => !keeps a) = (expand len.length args).length := by
    rw [List.length_eq_countP_add_countP keeps]
    congr 1
    exact List.countP_congr (fun a _ => by cases keeps a <;> simp)
  have h5 := count_kind_ell args
  have hm : args.count .ell = 1 → ArgK.ell ∈ args.map kindOf := fun e => List.count_pos_iff.mp (by rw [h5]; omega)
  refine ⟨?_, ?_, ?_, ?_⟩
  · rw [h3]; unfold expand at *; omega
  · rw [h5]; rcases h.fits with h | h <;> omega
  · rcases h.fits with h | h
    · exact .inl (by simpa using h.2)
    · exact .inr ⟨hm h.1, by simpa using h.2⟩
  · rcases h.fits with h | h
    · exact .inr (by simpa using h.2)
    · exact .inl (by rw [h5]; exact h.1)

theorem kinds_ne {len ext : List Int} {args : List Arg} (h : SliceOf len args ext) : args.map kindOf ≠ [] := by
  intro e
  have h1 := h.ne_nil
  have h2 := args_kind h
  rw [e] at h2
  have h3 := h2.long
  have h4 := h2.one
  simp at h3 h4
  have : ext.length = 0 := by omega
  exact h1 (List.length_eq_zero_iff.mp this)

/-- A part that exists when the program runs has the type the compiler computes. -/
theorem slice_type {len ext : List Int} {args : List Arg} (h : SliceOf len args ext) :
    ∀ {e e' : Arith.Expr α}, e.compiles = true → Shaped len e → Typed e → (∀ v ∈ leaves e, WF v.lay ∧ SmallestOK v.lay) → e.slice args = some e' →
      callArgs debug (ty e) (args.map kindOf) = some (ty e') ∧ (ty e').rank = some ext.length ∧ (ty e').alg = sliceAlg e.alg ext.length := by
  have h0 : len ≠ [] := by
    intro e
    have h1 := (args_kind h).long
    rw [e, List.length_nil] at h1
    exact h.ne_nil (List.length_eq_zero_iff.mp (by omega))
  have main : ∀ {e e' : Arith.Expr α}, e.compiles = true → Shaped len e → Typed e → callArgs debug (ty e) (args.map kindOf) = some (ty e') →
      callArgs debug (ty e) (args.map kindOf) = some (ty e') ∧ (ty e').rank = some ext.length ∧ (ty e').alg = sliceAlg e.alg ext.length := by
    intro e e' hc hs ht h1
    refine ⟨h1, ?_⟩
    have h2 := (args_kind h).long
    have h3 := partOf_arr (callArgs_good debug (ty_good h0 hc hs ht) (by rw [ty_rank, shape_of hs]) h1) ty_num
    rw [show ext.length = len.length - (args.map kindOf).count .long by omega, ← ty_alg ht]
    exact h3.2.2
  intro e
  induction e with
  | arr a v =>
    intro e' hc hs ht hw h1
    refine main hc hs ht ?_
    have hs : v.lay.len = len := hs
    obtain ⟨hw, hsm⟩ := hw v (by simp [leaves])
    obtain ⟨off, m', h2, h3, _⟩ := C06_slice_elements v.lay hw hsm args (by unfold IdxMap.rank; rw [hs]; exact h.rank) (by unfold IdxMap.rank; rw [hs]; exact h.fits) h.steps
    have h4 : m'.len = ext := C06_shape_unique _ _ _ _ h3 (by unfold IdxMap.rank; rw [hs]; exact h.shape)
    have h5 : m'.rank = ext.length := by unfold IdxMap.rank; rw [h4]
    have h6 : ext.length ≠ 0 := fun e => h.ne_nil (List.length_eq_zero_iff.mp e)
    simp only [Expr.slice, h2, Option.bind_eq_bind, Option.bind_some, h5, if_neg h6, Option.pure_def, Option.some.injEq] at h1
    subst h1
    simp only [ty, h4, callArgs]
    have g := ty_good h0 (e := Arith.Expr.arr a v) hc hs ht
    simp only [hs]
    simp only [ty, Good, hs] at g
    exact callMem_view g.2 (by omega) (args_kind h) (kinds_ne h)
  | fn a l f => intro _ _ _ _ _ h1; simp [Expr.slice] at h1
  | neg e ih =>
    intro e' hc hs ht hw h1
    simp only [Expr.slice, Option.bind_eq_bind, Option.pure_def, Option.bind_eq_some_iff, Option.some.injEq] at h1
    obtain ⟨e1, h2, rfl⟩ := h1
    obtain ⟨i1, i2, _⟩ := ih hc hs ht hw h2
    refine main (e := .neg e) (e' := .neg e1) hc hs ht ?_
    have hn := ty_num (e := e1)
    simp only [ty, callArgs, i1, Option.bind_eq_bind, Option.bind_some]
    unfold negRaw
    split
    · rename_i h; rw [h, isNum_num] at hn; simp at hn
    · rw [if_pos (by rw [i2]; rfl)]
  | bin op l r ihl ihr =>
    intro e' hc hs ht hw h1
    have hc0 := hc
    simp only [Expr.compiles, Bool.and_eq_true] at hc
    rw [Expr.slice] at h1
    split at h1
    · simp at h1
    · rename_i hm
      simp only [Option.bind_eq_bind, Option.bind_eq_some_iff] at h1
      obtain ⟨l', hl', r', hr', h1⟩ := h1
      split at h1
      · simp at h1
      · split at h1
        · simp at h1
        · rename_i h3
          simp only [Option.pure_def, Option.some.injEq] at h1
          subst h1
          obtain ⟨i1, i2, i3⟩ := ihl hc.1.1.1 hs.1 ht.1 (fun v hv => hw v (by simp [leaves, hv])) hl'
          obtain ⟨j1, j2, j3⟩ := ihr hc.1.1.2 hs.2 ht.2 (fun v hv => hw v (by simp [leaves, hv])) hr'
          refine main (e := .bin op l r) (e' := .bin op l' r') hc0 hs ht ?_
          simp only [ty, callArgs, ty_num, Bool.false_eq_true, if_false, ty_alg ht.1, if_neg hm, i1, j1]
          have hA : (op = .mul ∨ op = .div) → (ty l').alg = .A ∧ (ty r').alg = .A := by
            intro e
            have h4 : l.alg = .A ∧ r.alg = .A := by rcases e with rfl | rfl <;> simpa using hc.2
            rw [i3, j3, h4.1, h4.2]; exact ⟨rfl, rfl⟩
          cases op with
          | add => simp [binRaw, addRaw, ty_num, i2, j2, ty]
          | sub => simp [binRaw, addRaw, ty_num, i2, j2, ty]
          | mul => simp [binRaw, mulRaw, ty_num, i2, j2, ty, hA (.inl rfl)]
          | div => simp [binRaw, divRaw, ty_num, i2, j2, ty, hA (.inr rfl)]
  | scalL op s r ih =>
    intro e' hc hs ht hw h1
    have hc0 := hc
    simp only [Expr.compiles, Bool.and_eq_true] at hc
    rw [Expr.slice] at h1
    split at h1
    · simp at h1
    · rename_i hm
      simp only [Option.bind_eq_bind, Option.bind_eq_some_iff] at h1
      obtain ⟨r', hr', h1⟩ := h1
      split at h1
      · simp at h1
      · rename_i h3
        simp only [Option.pure_def, Option.some.injEq] at h1
        subst h1
        obtain ⟨i1, i2, i3⟩ := ih hc.1 hs ht (fun v hv => hw v (by simpa [leaves] using hv)) hr'
        refine main (e := .scalL op s r) (e' := .scalL op s r') hc0 hs ht ?_
        have ha : op ≠ .mul → (ty r).alg ≠ .M := fun e e2 => hm ⟨by rw [← ty_alg (e := r) ht]; exact e2, e⟩
        simp only [ty, callArgs, isNum_num, if_true, i1]
        cases op with
        | add => simp [ha, addRaw, ty_num, isNum_num, i2, ty]
        | sub => simp [ha, addRaw, ty_num, isNum_num, i2, ty]
        | mul => simp [mulRaw, ty_num, isNum_num, i2, ty]
        | div =>
          have h4 : (ty r').alg ≠ .M := by
            rw [i3]; exact sliceAlg_ne_M (by rw [← ty_alg (e := r) ht]; exact ha (by simp))
          simp [ha, divRaw, ty_num, isNum_num, i2, ty, h4]
  | scalR op l s ih =>
    intro e' hc hs ht hw h1
    rw [Expr.slice] at h1
    split at h1
    · simp at h1
    · rename_i hm
      simp only [Option.bind_eq_bind, Option.bind_eq_some_iff, Option.pure_def, Option.some.injEq] at h1
      obtain ⟨l', hl', rfl⟩ := h1
      obtain ⟨i1, i2, i3⟩ := ih hc hs ht (fun v hv => hw v (by simpa [leaves] using hv)) hl'
      refine main (e := .scalR op l s) (e' := .scalR op l' s) hc hs ht ?_
      have ha : (op = .add ∨ op = .sub) → (ty l).alg ≠ .M := fun e e2 => hm ⟨by rw [← ty_alg (e := l) ht]; exact e2, e⟩
      simp only [ty, callArgs, isNum_num, ty_num, Bool.false_eq_true, if_false, if_true, i1]
      cases op with
      | add => simp [ha, addRaw, ty_num, isNum_num, i2, ty]
      | sub => simp [ha, addRaw, ty_num, isNum_num, i2, ty]
      | mul => simp [mulRaw, ty_num, isNum_num, i2, ty]
      | div => simp [divRaw, ty_num, isNum_num, i2, ty]
  | call n f es ih =>
    intro e' hc hs ht hw h1
    have hc0 := hc
    simp only [Expr.compiles, List.all_eq_true, List.mem_finRange, forall_const] at hc
    simp only [Expr.slice, Option.bind_eq_bind, Option.bind_eq_some_iff, Option.pure_def, Option.some.injEq] at h1
    obtain ⟨es', h2, rfl⟩ := h1
    have hi := fun i => ih i (hc i) (hs i) (ht i) (fun v hv => hw v (by simp only [leaves, List.mem_flatMap]; exact ⟨i, List.mem_finRange i, hv⟩)) (sequence_inv h2 i)
    refine main (e := .call n f es) (e' := .call n f es') hc0 hs ht ?_
    have h4 : (args.map kindOf).any (· != .long) = true := by
      rw [List.any_eq_true]
      by_contra hcon
      have hall : ∀ x ∈ args.map kindOf, x = .long := by
        intro x hx
        by_contra h5
        exact hcon ⟨x, hx, by simpa using h5⟩
      have h6 : (args.map kindOf).count .long = (args.map kindOf).length := List.count_eq_length.mpr (fun b hb => (hall b hb).symm)
      have h7 := (args_kind h).long
      have h8 : (args.map kindOf).count .ell = 0 := List.count_eq_zero.mpr (fun h => by have := hall _ h; simp at this)
      have h10 : ext.length ≠ 0 := fun e => h.ne_nil (List.length_eq_zero_iff.mp e)
      rcases (args_kind h).one with h9 | h9 <;> omega
    have h3 : Arith.sequence (fun i => callArgs debug (ty (es i)) (args.map kindOf)) = some (fun i => ty (es' i)) := by
      rw [Types.sequence_some]; exact fun i => (hi i).1
    simp only [ty, callArgs, h3, h4, Option.bind_eq_bind, Option.bind_some, if_true]
    rw [mappedRaw, if_pos]
    rw [List.all_eq_true]
    intro i _
    simp [(hi i).2.1, (hi 0).2.1]

/-- **C94** Parts: the compiler accepts exactly those that exist, and gives them the type of what the program computes. -/
theorem C94_agrees_parts [Add α] [Sub α] [Mul α] [Div α] [Neg α] {len ext : List Int} {args : List Arg} (h : SliceOf len args ext) {e : Arith.Expr α} (hc : e.compiles = true)
    (hs : Shaped len e) (ht : Typed e) (hw : ∀ v ∈ leaves e, WF v.lay ∧ SmallestOK v.lay) : callArgs debug (ty e) (args.map kindOf) = (e.slice args).map ty := by
  cases hsl : e.slice args with
  | some e' => exact (slice_type h hc hs ht hw hsl).1
  | none =>
    cases hca : callArgs debug (ty e) (args.map kindOf) with
    | none => rfl
    | some t' =>
      have h0 : len ≠ [] := by
        intro e
        have h1 := (args_kind h).long
        rw [e, List.length_nil] at h1
        exact h.ne_nil (List.length_eq_zero_iff.mp (by omega))
      have h1 := (args_kind h).long
      have h2 : ext.length ≠ 0 := fun e => h.ne_nil (List.length_eq_zero_iff.mp e)
      have h3 := slice_back debug (kinds_ne h) (ty_good h0 hc hs ht) (by rw [ty_rank, shape_of hs]) (by omega) (by rw [hca]; rfl)
      have h4 := (C66_exists len ext args h e hc hs ht hw).mpr ((ty_sliceable ht).mp h3.1)
      rw [hsl] at h4; simp at h4

/-- A column of `2 * m + m`, with a matrix of two rows and three columns. -/
def sample : Arith.Expr Int := .bin .add (.scalL .mul 2 (.arr .M mC)) (.arr .M mC)

example : callArgs true (ty sample) ([Arg.all, .idx 1].map kindOf) = (sample.slice [.all, .idx 1]).map ty ∧ (ty sample).Is .mat ∧ Reach true (ty sample) ∧
    ∃ e', sample.slice [.all, .idx 1] = some e' ∧ (ty e').Is .vec := by
  have hS : SliceOf [2, 3] [.all, .idx 1] [2] := ⟨by decide, by decide, by simp, by decide, by simp [expand, expandArg, SliceShape]⟩
  have h1 : Shaped [2, 3] sample := ⟨rfl, rfl⟩
  have h2 : Typed sample := ⟨⟨by decide, fun _ => rfl, nofun⟩, ⟨by decide, fun _ => rfl, nofun⟩⟩
  refine ⟨C94_agrees_parts hS (by decide) h1 h2 ?_, ⟨rfl, rfl⟩, (C94_agrees (len := [2, 3]) (by decide) (by decide) h1 h2).1, _, rfl, rfl, rfl⟩
  intro v hv
  simp only [sample, leaves, List.mem_append, List.mem_singleton, or_self] at hv
  subst hv
  exact mC_wf

end Nda.Types
