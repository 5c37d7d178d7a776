import Verif.Lemmas.TypesReach
/-!
# C94: which expressions compile, and what they are
-/
namespace Nda.Types
open Nda Nda.Arith

variable {debug : Bool}

/-- **C94** Whatever a program contains, an expression of matrix type has two indices and one of vector type one. -/
theorem C94_kinds {t : Ty} (h : Reach debug t) : (t.alg = .M → t.rank = some 2) ∧ (t.alg = .V → t.rank = some 1) := by
  rcases reach_good h with h | rfl | ⟨n, as, _, rfl, hg, _⟩
  · exact good_alg h
  · simp [Ty.alg]
  · rcases alg_call (as := as) with ⟨_, h2⟩ | ⟨_, h2⟩
    · rw [h2]; exact good_alg (hg 0).1
    · rw [h2]; simp

/-- **C94** In debug mode, every expression with a shape can be used: access to an element with as many integers as it has indices compiles, with all checks of the operators inside. -/
theorem C94_elements {t : Ty} (h : Reach true t) {r : Nat} (hr : t.rank = some r) : isArray true t = true ∧ callArgs true t (List.replicate r .long) = some .num := by
  rcases reach_good h with h | rfl | ⟨n, as, h, _⟩
  · exact ⟨good_isArray true h (by simp [hr]), elem_ok true h hr⟩
  · simp [Ty.rank] at hr
  · simp at h

/-- **C94** In both modes this holds for everything the operators accept. -/
theorem C94_operands {t : Ty} (h : Reach debug t) (ha : isArray debug t = true) {r : Nat} (hr : t.rank = some r) :
    callArgs debug t (List.replicate r .long) = some .num := elem_ok debug (reach_array h ha) hr

/-- Calls that compile have arguments that fit. -/
theorem callMem_leaves {a : Alg} {r : Nat} (hr : 1 ≤ r) (ha : memOk a r = true) {args : List ArgK} (hne : args ≠ []) :
    ∀ t', callMem a r args = some t' → ∃ k, Leaves args r k ∧ ((k = 0 ∧ t' = .num) ∨ (1 ≤ k ∧ t' = .view (sliceAlg a k) k)) := by
  have hlen : args.length ≠ 0 := by simpa using hne
  intro t' h
  have hs := callMem_some hr ha h
  unfold callMem at h
  split at h
  · simp at h
  · rename_i h0
    have h0 := Classical.not_not.mp h0
    simp only [hlen, if_false] at h
    have har : args.length = r ∨ (ArgK.ell ∈ args ∧ args.length ≤ r + 1) := by
      rcases h0 with h0 | h0 | h0
      · exact .inl h0
      · exact absurd h0 hlen
      · exact .inr h0
    have hc := count_all args
    split at h
    · rename_i hl
      have he : args.count .ell ≤ 1 := by rcases har with h1 | h1 <;> omega
      have hpos : ArgK.ell ∈ args → 0 < args.count .ell := List.count_pos_iff.mpr
      refine ⟨0, args_leaves ⟨by omega, he, har, ?_⟩ ?_, .inl ⟨rfl, ?_⟩⟩
      · rcases har with h1 | h1
        · exact .inr h1
        · have := hpos h1.1; omega
      · rcases har with h1 | h1
        · omega
        · have := hpos h1.1; omega
      · simpa [eq_comm] using h
    · rename_i hl
      split at h
      · simp at h
      · rename_i h2
        have hpos : ArgK.ell ∈ args → 0 < args.count .ell := List.count_pos_iff.mpr
        rcases hs with hs | hs
        · exact absurd hs.2 hl
        · refine ⟨r - args.count .long, args_leaves ⟨by omega, by omega, har, ?_⟩ ?_, .inr ⟨by omega, hs.2.1⟩⟩
          · by_cases h3 : args.count .ell = 1
            · exact .inl h3
            · by_cases h4 : args.length = r
              · exact .inr h4
              · exact absurd (.inr ⟨h3, h4⟩) h2
          · rcases har with h1 | h1
            · omega
            · have := hpos h1.1; omega

/-- **C94** `a(args...)` of an array or view: a number if and only if the arguments leave no index, a view with `k` indices if and only if they leave `k`, otherwise it does not
compile. -/
theorem C94_call {a : Alg} {r : Nat} (hr : 1 ≤ r) (ha : memOk a r = true) {args : List ArgK} (hne : args ≠ []) :
    (callMem a r args = some .num ↔ Leaves args r 0) ∧
    (∀ k, 1 ≤ k → ((∃ a', callMem a r args = some (.view a' k)) ↔ Leaves args r k)) ∧
    ((∀ k, ¬ Leaves args r k) → callMem a r args = none) := by
  have back := callMem_leaves hr ha hne
  refine ⟨⟨fun h => ?_, fun h => callMem_num hr (leaves_args h)⟩, fun k hk => ⟨fun ⟨a', h⟩ => ?_, fun h => ⟨_, callMem_view ha hk (leaves_args h) hne⟩⟩, fun h => ?_⟩
  · obtain ⟨k, h1, h2 | h2⟩ := back _ h
    · rw [← h2.1]; exact h1
    · simp at h2
  · obtain ⟨q, h1, h2 | h2⟩ := back _ h
    · simp at h2
    · simp only [Ty.view.injEq] at h2
      rw [h2.2.2]; exact h1
  · cases hc : callMem a r args with
    | none => rfl
    | some t' => obtain ⟨k, h1, _⟩ := back _ hc; exact absurd h1 (h k)

theorem is_rank {t : Ty} {K : Kind} (h : t.Is K) : t.rank = some K.rank := by
  cases K <;> exact h.2

theorem is_isNum {t : Ty} {K : Kind} (h : t.Is K) : t.isNum = false := isNum_false (by simp [is_rank h])

theorem is_part {t t' : Ty} {K : Kind} {k : Nat} (h : t.Is K) (hk : 1 ≤ k) (hkr : k ≤ K.rank) (hr : t'.rank = some k) (ha : t'.alg = sliceAlg t.alg k) : t'.Is (K.part k) := by
  cases K with
  | arr n => exact ⟨by rw [ha, h.1]; simp [sliceAlg], hr⟩
  | mat =>
    simp only [Kind.rank] at hkr
    simp only [Kind.part]
    by_cases e : k = 2
    · rw [if_pos e]; subst e; exact ⟨by rw [ha, h.1]; simp [sliceAlg], hr⟩
    · rw [if_neg e]
      have e1 : k = 1 := by omega
      subst e1; exact ⟨by rw [ha, h.1]; simp [sliceAlg], hr⟩
  | vec =>
    simp only [Kind.rank] at hkr
    have e1 : k = 1 := by omega
    subst e1
    exact ⟨by rw [ha, h.1]; simp [sliceAlg], hr⟩

theorem leaves_ne {args : List ArgK} {r k : Nat} (hk : 1 ≤ k) (hl : Leaves args r k) : args ≠ [] := by
  rintro rfl
  have h1 := (leaves_args hl).long
  have h2 := (leaves_args hl).one
  simp at h1 h2; omega

/-- If a part compiles, the arguments fit and the expression is made of things whose parts can be taken. -/
theorem slice_back (debug : Bool) {args : List ArgK} (hne : args ≠ []) : ∀ {t : Ty} {r : Nat}, Good t → t.rank = some r → args.count .long < r → (callArgs debug t args).isSome →
    Sliceable t ∧ Leaves args r (r - args.count .long) := by
  have mem : ∀ {a : Alg} {r : Nat}, 1 ≤ r → memOk a r = true → args.count .long < r → (callMem a r args).isSome → Leaves args r (r - args.count .long) := by
    intro a r h1 h2 h3 h4
    obtain ⟨t', h4⟩ := Option.isSome_iff_exists.mp h4
    obtain ⟨k, h5, _⟩ := callMem_leaves h1 h2 hne t' h4
    have h6 := (leaves_args h5).long
    rw [show r - args.count .long = k by omega]
    exact h5
  intro t
  induction t with
  | num => intro _ _ h; simp [Ty.rank] at h
  | void => intro _ _ h; simp [Ty.rank] at h
  | cont a r =>
    intro r' hg hr hc h
    simp only [Ty.rank, Option.some.injEq] at hr; subst hr
    exact ⟨trivial, mem hg.1 hg.2 hc h⟩
  | view a r =>
    intro r' hg hr hc h
    simp only [Ty.rank, Option.some.injEq] at hr; subst hr
    exact ⟨trivial, mem hg.1 hg.2 hc h⟩
  | adapter r =>
    intro r' hg hr hc h
    simp only [Ty.rank, Option.some.injEq] at hr; subst hr
    simp only [callArgs] at h
    split at h
    · rename_i e
      rw [e.1, List.count_replicate_self] at hc
      omega
    · simp at h
  | unary a ih =>
    intro r hg hr hc h
    refine ih hg.1 hr hc ?_
    simp only [callArgs, Option.bind_eq_bind] at h
    cases e : callArgs debug a args with
    | none => rw [e] at h; simp at h
    | some _ => rfl
  | expr op l r ihl ihr =>
    intro q hg hr hc h
    have h2 : (op = .add ∨ op = .sub) → ∀ t, t.alg = .M → Good t → t.rank = some q → args ≠ [.long, .long] := by
      intro _ t e hg2 hq e2
      have := (good_alg hg2).1 e
      rw [hq] at this
      simp only [Option.some.injEq] at this
      rw [e2, this] at hc
      simp at hc
    rcases expr_cases hg with ⟨hl, hln, hrn, hgr, _, hd⟩ | ⟨hl, hln, hrn, hgr, _⟩ | ⟨hln, hrn, hgl, hgr, _, he, hA⟩
    · have hr0 : r.rank = some q := by simpa [Ty.rank, hln] using hr
      simp only [callArgs, hln, if_true] at h
      have hM : (op = .add ∨ op = .sub) → r.alg ≠ .M := by
        intro e e2
        have := h2 e r e2 hgr hr0
        rcases e with rfl | rfl <;> simp [e2, this] at h
      have hs : (callArgs debug r args).isSome := by
        cases e : callArgs debug r args with
        | none => rw [e] at h; cases op <;> simp at h
        | some _ => rfl
      obtain ⟨i1, i2⟩ := ihr hgr hr0 hc hs
      refine ⟨⟨by rw [hl]; trivial, i1, fun e => ⟨fun _ => hM e, fun e2 => by simp [hrn] at e2⟩⟩, i2⟩
    · have hr0 : l.rank = some q := by simpa [Ty.rank, hrn] using hr
      simp only [callArgs, hln, hrn, if_true, Bool.false_eq_true, if_false] at h
      have hM : (op = .add ∨ op = .sub) → l.alg ≠ .M := by
        intro e e2
        have := h2 e l e2 hgr hr0
        rcases e with rfl | rfl <;> simp [e2, this] at h
      have hs : (callArgs debug l args).isSome := by
        cases e : callArgs debug l args with
        | none => rw [e] at h; cases op <;> simp at h
        | some _ => rfl
      obtain ⟨i1, i2⟩ := ihl hgr hr0 hc hs
      refine ⟨⟨i1, by rw [hl]; trivial, fun e => ⟨fun e2 => by simp [hrn] at e2, fun _ => hM e⟩⟩, i2⟩
    · have hl0 : l.rank = some q := by simpa [Ty.rank, hln] using hr
      have hm : ¬ ((op = .mul ∨ op = .div) ∧ l.alg = .M) := by
        rintro ⟨h1, h2⟩
        rw [(hA h1).1] at h2; simp at h2
      simp only [callArgs, hln, hrn, Bool.false_eq_true, if_false, if_neg hm, Option.bind_eq_bind] at h
      have hs : (callArgs debug l args).isSome ∧ (callArgs debug r args).isSome := by
        cases e : callArgs debug l args with
        | none => rw [e] at h; simp at h
        | some _ =>
          cases e2 : callArgs debug r args with
          | none => rw [e, e2] at h; simp at h
          | some _ => exact ⟨rfl, rfl⟩
      obtain ⟨i1, i2⟩ := ihl hgl hl0 hc hs.1
      obtain ⟨j1, _⟩ := ihr hgr (he ▸ hl0) hc hs.2
      exact ⟨⟨i1, j1, fun _ => ⟨fun e => by simp [hln] at e, fun e => by simp [hrn] at e⟩⟩, i2⟩
  | call n as ih =>
    intro r hg hr hc h
    have hri : ∀ i, (as i).rank = some r := fun i => by rw [(hg i).2.2]; exact hr
    simp only [callArgs, Option.bind_eq_bind] at h
    cases e : sequence (fun i => callArgs debug (as i) args) with
    | none => rw [e] at h; simp at h
    | some as' =>
      rw [sequence_some] at e
      have hi := fun i => ih i (hg i).1 (hri i) hc (by simp [e i])
      exact ⟨fun i => (hi i).1, (hi 0).2⟩

/-- **C94** Parts of expressions: they exist if and only if the arguments leave at least one index and the expression contains no array adapter and no sum of a matrix and a number. -/
theorem C94_parts {t : Ty} (h : Reach debug t) (ha : isArray debug t = true) {r k : Nat} (hr : t.rank = some r) (hk : 1 ≤ k) {args : List ArgK} (hne : args ≠ []) :
    (∃ t', callArgs debug t args = some t' ∧ t'.rank = some k) ↔ Leaves args r k ∧ Sliceable t := by
  have g := reach_array h ha
  constructor
  · rintro ⟨t', h1, h2⟩
    rcases callArgs_good debug g hr h1 with h3 | h3
    · rw [h3.1] at h2; simp [Ty.rank] at h2
    · have e : k = r - args.count .long := by rw [h3.2.2.1] at h2; simpa [eq_comm] using h2
      have := slice_back debug hne g hr h3.1 (by simp [h1])
      rw [e]; exact ⟨this.2, this.1⟩
  · rintro ⟨h1, h2⟩
    obtain ⟨t', h3, _, h4, _⟩ := slice_ok debug g h2 hr hk (leaves_args h1) hne
    exact ⟨t', h3, h4⟩

/-- **C94** A part is what it should be: of an array an array, of a matrix a matrix or (a row or column) a vector. -/
theorem C94_part_kinds {t t' : Ty} (h : Reach debug t) (ha : isArray debug t = true) {k : Nat} {args : List ArgK} (hc : callArgs debug t args = some t') (hk : t'.rank = some k)
    {K : Kind} (hK : t.Is K) : isArray debug t' = true ∧ t'.Is (K.part k) := by
  rcases callArgs_good debug (reach_array h ha) (is_rank hK) hc with h3 | h3
  · rw [h3.1] at hk; simp [Ty.rank] at hk
  · have e : k = K.rank - args.count .long := by rw [h3.2.2.1] at hk; simpa [eq_comm] using hk
    subst e
    exact ⟨good_isArray debug h3.2.1 (by simp [hk]), is_part hK (by omega) (by omega) hk h3.2.2.2⟩

theorem good_operand {t : Ty} (h : Good t) : isOperand debug t = true := by
  rcases good_rank h with rfl | ⟨r, hr, _⟩
  · rfl
  · simp [isOperand, good_isArray debug h (by simp [hr])]

theorem bin_eq (op : BOp) {l r : Ty} (hl : Good l) (hr : Good r) : bin debug op l r = binRaw op l r := by
  rw [bin, if_pos ⟨good_operand hl, good_operand hr⟩]

theorem is_expr {op : BOp} {l r : Ty} {K : Kind} (h : l.Is K) : (Ty.expr op l r).Is K := by
  have hn := is_isNum h
  cases K <;> exact ⟨by simp [Ty.alg, hn, h.1], by simp [Ty.rank, hn, h.2]⟩

theorem is_expr_num {op : BOp} {r : Ty} {K : Kind} (h : r.Is K) : (Ty.expr op .num r).Is K := by
  cases K <;> exact ⟨by simp [Ty.alg, isNum_num, h.1], by simp [Ty.rank, isNum_num, h.2]⟩

/-- **C94** Sums and differences: accepted if and only if the numbers of indices agree, and then what the left operand is.  Partial: arrays and matrices can be mixed. -/
theorem C94_sum_partial {op : BOp} (hop : op = .add ∨ op = .sub) {l r : Ty} (hl : Reach debug l) (hr : Reach debug r) (al : isArray debug l = true) (ar : isArray debug r = true)
    {K K' : Kind} (hK : l.Is K) (hK' : r.Is K') :
    (∀ P, K.sum K' = some P → ∃ t', bin debug op l r = some t' ∧ isArray debug t' = true ∧ t'.Is P) ∧
    (K.rank = K'.rank → ∃ t', bin debug op l r = some t' ∧ isArray debug t' = true ∧ t'.Is K) ∧ (K.rank ≠ K'.rank → bin debug op l r = none) := by
  have gl := reach_array hl al
  have gr := reach_array hr ar
  have key : K.rank = K'.rank → ∃ t', bin debug op l r = some t' ∧ isArray debug t' = true ∧ t'.Is K := by
    intro e
    have e1 : binRaw op l r = some (.expr op l r) := by
      rcases hop with rfl | rfl <;> simp [binRaw, addRaw, is_isNum hK, is_isNum hK', is_rank hK, is_rank hK', e]
    have g : Good (.expr op l r) := by
      rcases binRaw_good gl gr e1 with g | g
      · exact g
      · simp at g
    exact ⟨_, by rw [bin_eq op gl gr, e1], good_isArray debug g (by rw [is_rank (is_expr hK)]; rfl), is_expr hK⟩
  refine ⟨fun P hP => ?_, key, fun e => ?_⟩
  · have : K.rank = K'.rank ∧ P = K := by
      cases K <;> cases K' <;> simp [Kind.sum, Kind.rank] at hP ⊢
      · exact ⟨hP.1, hP.2.symm⟩
      · exact hP.symm
      · exact hP.symm
    rw [this.2]; exact key this.1
  · rw [bin_eq op gl gr]
    rcases hop with rfl | rfl <;> simp [binRaw, addRaw, is_isNum hK, is_isNum hK', is_rank hK, is_rank hK', e]

/-- **C94** Products: exactly those of linear algebra (and arrays element by element) compile, and give what they should. -/
theorem C94_product {l r : Ty} (hl : Reach debug l) (hr : Reach debug r) (al : isArray debug l = true) (ar : isArray debug r = true) {K K' : Kind} (hK : l.Is K) (hK' : r.Is K') :
    (∀ P, K.product K' = some P → ∃ t', bin debug .mul l r = some t' ∧ isArray debug t' = true ∧ t'.Is P) ∧ (K.product K' = none → bin debug .mul l r = none) := by
  have gl := reach_array hl al
  have gr := reach_array hr ar
  rw [bin_eq .mul gl gr]
  have n1 := is_isNum hK
  have n2 := is_isNum hK'
  have r1 := is_rank hK
  have r2 := is_rank hK'
  refine ⟨fun P hP => ?_, fun hP => ?_⟩
  · suffices h : ∃ t', binRaw .mul l r = some t' ∧ t'.Is P by
      obtain ⟨t', h1, h2⟩ := h
      refine ⟨t', h1, ?_, h2⟩
      rcases binRaw_good gl gr h1 with g | g
      · exact good_isArray debug g (by rw [is_rank h2]; rfl)
      · rw [g.1] at h2
        have := is_rank h2
        simp [Ty.rank] at this
    cases K <;> cases K' <;> simp [Kind.product] at hP
    · obtain ⟨e, rfl⟩ := hP
      subst e
      exact ⟨.expr .mul l r, by simp [binRaw, mulRaw, n1, n2, r1, r2, hK.1, hK'.1, Kind.rank], is_expr hK⟩
    · subst hP
      exact ⟨.cont .M 2, by simp [binRaw, mulRaw, n1, n2, r1, r2, hK.1, hK'.1, Kind.rank], rfl, rfl⟩
    · subst hP
      exact ⟨.cont .V 1, by simp [binRaw, mulRaw, n1, n2, r1, r2, hK.1, hK'.1, Kind.rank], rfl, rfl⟩
  · cases K <;> cases K' <;> simp [Kind.product] at hP <;> simp [binRaw, mulRaw, n1, n2, r1, r2, hK.1, hK'.1, Kind.rank, hP]

/-- **C94** Quotients. -/
theorem C94_quotient {l r : Ty} (hl : Reach debug l) (hr : Reach debug r) (al : isArray debug l = true) (ar : isArray debug r = true) {K K' : Kind} (hK : l.Is K) (hK' : r.Is K') :
    (∀ P, K.quotient K' = some P → ∃ t', bin debug .div l r = some t' ∧ isArray debug t' = true ∧ t'.Is P) ∧ (K.quotient K' = none → bin debug .div l r = none) := by
  have gl := reach_array hl al
  have gr := reach_array hr ar
  rw [bin_eq .div gl gr]
  have n1 := is_isNum hK
  have n2 := is_isNum hK'
  have r1 := is_rank hK
  have r2 := is_rank hK'
  refine ⟨fun P hP => ?_, fun hP => ?_⟩
  · suffices h : ∃ t', binRaw .div l r = some t' ∧ t'.Is P by
      obtain ⟨t', h1, h2⟩ := h
      exact ⟨t', h1, good_isArray debug (div_good gl gr h1) (by rw [is_rank h2]; rfl), h2⟩
    cases K <;> cases K' <;> simp [Kind.quotient] at hP
    · obtain ⟨e, rfl⟩ := hP
      subst e
      exact ⟨.expr .div l r, by simp [binRaw, divRaw, n1, n2, r1, r2, hK.1, hK'.1, Kind.rank], is_expr hK⟩
    · subst hP
      refine ⟨.cont .M 2, ?_, rfl, rfl⟩
      simp [binRaw, divRaw, mulRaw, inverse, n1, n2, r1, r2, hK.1, hK'.1, Kind.rank, Ty.rank, Ty.alg, show (Ty.cont .M 2).isNum = false from rfl]
  · cases K <;> cases K' <;> simp [Kind.quotient] at hP <;> simp [binRaw, divRaw, n1, n2, r1, r2, hK.1, hK'.1, Kind.rank, hP]

/-- **C94** A number on either side, a sign, or a function applied to each element does not change what an expression is. -/
theorem C94_numbers (op : BOp) {t : Ty} (h : Reach debug t) (ha : isArray debug t = true) {K : Kind} (hK : t.Is K) :
    (∃ t', bin debug op t .num = some t' ∧ isArray debug t' = true ∧ t'.Is K) ∧ (∃ t', bin debug op .num t = some t' ∧ isArray debug t' = true ∧ t'.Is K) ∧
    (∃ t', neg debug t = some t' ∧ isArray debug t' = true ∧ t'.Is K) := by
  have g := reach_array h ha
  have gn : Good .num := trivial
  have n1 := is_isNum hK
  have r1 := is_rank hK
  have fin : ∀ l r t', Good l → Good r → binRaw op l r = some t' → t'.Is K → isArray debug t' = true := by
    intro l r t' hl hr h1 h2
    rcases binRaw_good hl hr h1 with g | g
    · exact good_isArray debug g (by rw [is_rank h2]; rfl)
    · rw [g.1] at h2
      have := is_rank h2
      simp [Ty.rank] at this
  rw [bin_eq op g gn, bin_eq op gn g]
  refine ⟨?_, ?_, ?_⟩
  · have h1 : binRaw op t .num = some (.expr op t .num) := by
      cases op <;> simp [binRaw, addRaw, mulRaw, divRaw, n1, r1, isNum_num]
    exact ⟨_, h1, fin _ _ _ g gn h1 (is_expr hK), is_expr hK⟩
  · suffices h1 : ∃ t', binRaw op .num t = some t' ∧ t'.Is K by
      obtain ⟨t', h1, h2⟩ := h1
      exact ⟨t', h1, fin _ _ _ gn g h1 h2, h2⟩
    have h1 : op ≠ .div ∨ t.alg ≠ .M → binRaw op .num t = some (.expr op .num t) := by
      intro e
      cases op with
      | div =>
        have e : ¬ t.alg = .M := by simpa using e
        simp [binRaw, divRaw, n1, r1, isNum_num, e]
      | _ => simp [binRaw, addRaw, mulRaw, n1, r1, isNum_num]
    by_cases e : op ≠ .div ∨ t.alg ≠ .M
    · exact ⟨_, h1 e, is_expr_num hK⟩
    · simp only [ne_eq, not_or, Classical.not_not] at e
      obtain ⟨rfl, e⟩ := e
      cases K with
      | arr n => rw [hK.1] at e; simp at e
      | vec => rw [hK.1] at e; simp at e
      | mat =>
        refine ⟨.expr .mul .num (.cont .M 2), ?_, rfl, rfl⟩
        simp [binRaw, divRaw, mulRaw, inverse, n1, r1, isNum_num, e, Kind.rank, Ty.rank, Ty.alg, show (Ty.cont .M 2).isNum = false from rfl]
  · have h1 : negRaw t = some (.unary t) := by
      unfold negRaw
      split
      · simp [isNum_num] at n1
      · rw [if_pos (by simp [r1])]
    have h2 : (Ty.unary t).Is K := by cases K <;> exact hK
    refine ⟨_, by rw [neg, if_pos ha, h1], ?_, h2⟩
    exact good_isArray debug (neg_good g h1) (by rw [is_rank h2]; rfl)

/-- **C94** A function of several expressions of one kind. -/
theorem C94_mapped {n : Nat} {as : Fin (n + 1) → Ty} (h : ∀ i, Reach debug (as i)) (ha : ∀ i, isArray debug (as i) = true) {K : Kind} (hK : ∀ i, (as i).Is K) :
    ∃ t', mapped debug n as = some t' ∧ isArray debug t' = true ∧ t'.Is K := by
  have hr : ∀ i, (as i).rank = some K.rank := fun i => is_rank (hK i)
  have h1 : mapped debug n as = some (.call n as) := by
    rw [mapped, if_pos (by rw [List.all_eq_true]; exact fun i _ => ha i), mappedRaw, if_pos]
    rw [List.all_eq_true]
    intro i _
    simp [hr]
  have h2 : Good (.call n as) := fun i => ⟨reach_array (h i) (ha i), by simp [hr], by rw [hr, hr]⟩
  refine ⟨_, h1, good_isArray debug h2 (by rw [show (Ty.call n as).rank = (as 0).rank from rfl, hr]; rfl), ?_⟩
  have h3 : (Ty.call n as).alg = (as 0).alg := by
    rcases alg_call (as := as) with ⟨_, h4⟩ | ⟨⟨i, h3⟩, _⟩
    · exact h4
    · exact absurd (by cases K <;> rw [(hK i).1, (hK 0).1]) h3
  cases K <;> exact ⟨by rw [h3]; exact (hK 0).1, hr 0⟩

/-- **C94** Arrays of a new layout: what they were if the number of indices is the same, arrays otherwise.  The transpose of a matrix is a matrix; `make_regular` keeps the kind. -/
theorem C94_transform {t t' : Ty} {rv : Bool} {r : Nat} (hr : 1 ≤ r) (hf : transform rv r t = some t') {K : Kind} (hK : t.Is K) : t'.Is (if r = K.rank then K else .arr r) := by
  have key : ∀ a q, t.alg = a → t.rank = some q → (∀ a', a' = (if r = q then a else .A) → t'.alg = a' ∧ t'.rank = some r → t'.Is (if r = K.rank then K else .arr r)) := by
    intro a q h1 h2 a' h3 h4
    rw [is_rank hK] at h2
    simp only [Option.some.injEq] at h2
    rw [h2]
    split
    · rename_i e
      rw [if_pos e] at h3
      subst h3; subst h1
      cases K <;> exact ⟨by rw [h4.1]; exact hK.1, by rw [h4.2, e, ← h2]; rfl⟩
    · rename_i e
      rw [if_neg e] at h3
      exact ⟨by rw [h4.1, h3], h4.2⟩
  cases t with
  | cont a q =>
    refine key a q rfl rfl _ rfl ⟨?_, (transform_good hr hf).2⟩
    simp only [transform] at hf
    generalize (if r = q then a else Alg.A) = a' at hf ⊢
    split at hf
    · simp only [Option.some.injEq] at hf
      subst hf
      split <;> rfl
    · simp at hf
  | view a q =>
    refine key a q rfl rfl _ rfl ⟨?_, (transform_good hr hf).2⟩
    simp only [transform] at hf
    generalize (if r = q then a else Alg.A) = a' at hf ⊢
    split at hf
    · simp only [Option.some.injEq] at hf
      subst hf; rfl
    · simp at hf
  | _ => simp [transform] at hf

/-- **C94** `make_regular` gives an array, matrix or vector of the same kind. -/
theorem C94_regular {t : Ty} (ha : isArray debug t = true) {K : Kind} (hK : t.Is K) :
    ∃ a r, makeRegular debug t = some (.cont a r) ∧ (Ty.cont a r).Is K := by
  have hm : memOk t.alg K.rank = true := by cases K <;> rw [hK.1] <;> rfl
  have h1 : (Ty.cont t.alg K.rank).Is K := by cases K <;> exact ⟨hK.1, rfl⟩
  unfold makeRegular
  split
  · exact ⟨_, _, rfl, hK⟩
  · refine ⟨t.alg, K.rank, ?_, h1⟩
    rw [if_pos ha]
    split
    · rename_i r hr
      rw [is_rank hK] at hr
      simp only [Option.some.injEq] at hr
      subst hr
      rw [if_pos hm]
    · rename_i hr
      rw [is_rank hK] at hr; simp at hr

/-! ## Where the code differs from the claim -/

/-- **C94** Sums of arrays and matrices compile although they are no sums of linear algebra; the left operand decides what the result is. -/
theorem C94_mixing_witness :
    ∃ l r : Ty, Reach debug l ∧ Reach debug r ∧ l.Is .mat ∧ r.Is (.arr 2) ∧ Kind.sum .mat (.arr 2) = none ∧
      (∃ t', bin debug .add l r = some t' ∧ t'.Is .mat) ∧ (∃ t', bin debug .add r l = some t' ∧ t'.Is (.arr 2)) :=
  ⟨.cont .M 2, .cont .A 2, .cont _ _ (by decide) (by decide), .cont _ _ (by decide) (by decide), ⟨rfl, rfl⟩, ⟨rfl, rfl⟩, rfl,
    ⟨.expr .add (.cont .M 2) (.cont .A 2), rfl, rfl, rfl⟩, ⟨.expr .add (.cont .A 2) (.cont .M 2), rfl, rfl, rfl⟩⟩

/-- **C94** If the algebra of the left factor is neither array nor matrix nor vector (a function mapped onto operands of different kinds), the product compiles but has no value. -/
theorem C94_void {l r : Ty} (hl : Reach debug l) (hr : Reach debug r) (al : isArray debug l = true) (ar : isArray debug r = true) (hN : l.alg = .N) : bin debug .mul l r = some .void := by
  have gl := reach_array hl al
  have gr := reach_array hr ar
  have sl := isArray_rank al
  have sr := isArray_rank ar
  rw [bin_eq .mul gl gr]
  simp [binRaw, mulRaw, isNum_false sl, isNum_false sr, sl, sr, hN]

/-- Two matrices, the second one an array. -/
def mixed : Ty := .call 1 (fun i => if i = 0 then .cont .M 2 else .cont .A 2)

theorem mixed_reach : Reach debug mixed := by
  refine .mapped (n := 1) (as := fun i => if i = 0 then .cont .M 2 else .cont .A 2) (fun i => ?_) (t' := mixed) ?_
  · show Reach debug (if i = 0 then _ else _)
    split
    · exact .cont _ _ (by decide) (by decide)
    · exact .cont _ _ (by decide) (by decide)
  · cases debug <;> rfl

/-- **C94** This happens: the product of `map(f)(matrix, array)` and a matrix is `void`, and it has no quotient and no `make_regular`. -/
theorem C94_void_witness : ∃ t : Ty, Reach debug t ∧ isArray debug t = true ∧ t.alg = .N ∧ bin debug .mul t (.cont .M 2) = some .void ∧ bin debug .div t (.cont .M 2) = none ∧
    makeRegular debug t = none :=
  ⟨mixed, mixed_reach, by cases debug <;> decide, by decide, by cases debug <;> rfl, by cases debug <;> rfl, by cases debug <;> rfl⟩

/-- Vectors of two kinds. -/
def mixed1 : Ty := .call 1 (fun i => if i = 0 then .cont .V 1 else .cont .A 1)

/-- **C94** A matrix times something that is no vector gives a vector if it has one index and neither array nor vector algebra. -/
theorem C94_matvec_witness : Reach debug mixed1 ∧ isArray debug mixed1 = true ∧ mixed1.alg = .N ∧ bin debug .mul (.cont .M 2) mixed1 = some (.cont .V 1) ∧ bin debug .mul (.cont .M 2) (.cont .A 1) = none :=
  ⟨.mapped (n := 1) (as := fun i => if i = 0 then .cont .V 1 else .cont .A 1)
      (fun i => match i with | 0 => .cont _ _ (by decide) (by decide) | 1 => .cont _ _ (by decide) (by decide)) (by cases debug <;> rfl),
    by cases debug <;> decide, by decide, by cases debug <;> rfl, by cases debug <;> rfl⟩

/-- **C94** Without debug checks, a function can be mapped onto expressions with different numbers of indices; the result compiles but is no array: nothing can be done with it. -/
theorem C94_map_witness : ∃ t : Ty, Reach false t ∧ t.rank = some 1 ∧ isArray false t = false ∧ ∀ op, bin false op t t = none := by
  refine ⟨.call 1 (fun i => if i = 0 then .cont .A 1 else .cont .A 2), .mapped (n := 1) (as := fun i => if i = 0 then .cont .A 1 else .cont .A 2) (fun i => ?_) rfl, rfl, by decide, fun op => by cases op <;> rfl⟩
  show Reach false (if i = 0 then _ else _)
  split
  · exact .cont _ _ (by decide) (by decide)
  · exact .cont _ _ (by decide) (by decide)

/-- Expressions with `operator[]`: no sign, no adapter outside sums, products and quotients. -/
def Bracketed : Ty → Prop
  | .cont _ _ => True
  | .view _ _ => True
  | .expr _ _ _ => True
  | .call _ as => ∀ i, Bracketed (as i)
  | _ => False

/-- **C94** `e[i]` compiles for vectors.  Partial: not for `-v` and adapters. -/
theorem C94_bracket_partial {t : Ty} (h : Reach debug t) (ha : isArray debug t = true) (hr : t.rank = some 1) : bracket debug t = true ↔ Bracketed t := by
  have g := reach_array h ha
  clear h ha
  induction t with
  | num => simp [Ty.rank] at hr
  | void => simp [Ty.rank] at hr
  | adapter r => simp [bracket, Bracketed]
  | unary a _ => simp [bracket, Bracketed]
  | cont a r =>
    have := elem_ok debug g hr
    simp only [Ty.rank, Option.some.injEq] at hr; subst hr
    simp only [callArgs] at this
    rw [show List.replicate 1 ArgK.long = [.long] from rfl] at this
    simp [bracket, Bracketed, this]
  | view a r =>
    have := elem_ok debug g hr
    simp only [Ty.rank, Option.some.injEq] at hr; subst hr
    simp only [callArgs] at this
    rw [show List.replicate 1 ArgK.long = [.long] from rfl] at this
    simp [bracket, Bracketed, this]
  | expr op l r _ _ =>
    have := elem_ok debug g hr
    rw [show List.replicate 1 ArgK.long = [.long] from rfl] at this
    simp [bracket, Bracketed, this, hr]
  | call n as ih =>
    have := fun i => ih i (by rw [(g i).2.2]; exact hr) (g i).1
    simp only [bracket, Bracketed, List.all_eq_true, List.mem_finRange, forall_const, this]

/-- **C94** `(-v)[0]` does not compile. -/
theorem C94_bracket_witness : Reach debug (.unary (.cont .V 1)) ∧ bracket debug (.unary (.cont .V 1)) = false ∧ callArgs debug (.unary (.cont .V 1)) [.long] = some .num :=
  ⟨.neg (t := .cont .V 1) (.cont _ _ (by decide) (by decide)) (by cases debug <;> rfl), rfl, by cases debug <;> rfl⟩

/-- Expressions without mapped functions. -/
def NoMap : Ty → Prop
  | .num => True
  | .void => True
  | .cont _ _ => True
  | .view _ _ => True
  | .adapter _ => True
  | .unary a => NoMap a
  | .expr _ l r => NoMap l ∧ NoMap r
  | .call _ _ => False

/-- **C94** The size and the norm of an expression without mapped functions can be asked for. -/
theorem C94_size_partial {t : Ty} (h : Reach debug t) (ha : isArray debug t = true) (hm : NoMap t) : sizeOk debug t = true ∧ (t.rank = some 1 → norm debug t = some .num) := by
  suffices hs : sizeOk debug t = true from ⟨hs, fun hr => by rw [norm, if_pos ⟨ha, hr, hs⟩]⟩
  have g := reach_array h ha
  have sr := isArray_rank ha
  clear h ha
  induction t with
  | num => simp [Ty.rank] at sr
  | void => simp [Ty.rank] at sr
  | cont a r => rfl
  | view a r => rfl
  | adapter r => rfl
  | unary a ih => exact ih hm g.1 sr
  | expr op l r ihl ihr =>
    rcases expr_cases g with ⟨hl, hln, hrn, hgr, h1, hd⟩ | ⟨hl, hln, hrn, hgr, h1⟩ | ⟨hln, hrn, hgl, hgr, h1, he, hA⟩
    · simp [sizeOk, hln, ihr hm.2 hgr h1]
    · simp [sizeOk, hln, hrn, ihl hm.1 hgr h1]
    · simp [sizeOk, hln, hrn, ihl hm.1 hgl h1, ihr hm.2 hgr (he ▸ h1)]
  | call n as _ => exact absurd hm (by simp [NoMap])

/-- **C94** The norm of `abs(v)` does not compile. -/
theorem C94_norm_witness : ∃ t : Ty, Reach debug t ∧ isArray debug t = true ∧ t.Is .vec ∧ sizeOk debug t = false ∧ norm debug t = none :=
  ⟨.call 0 (fun _ => .cont .V 1), .mapped (n := 0) (as := fun _ => .cont .V 1) (fun _ => .cont _ _ (by decide) (by decide)) (by cases debug <;> rfl),
    by cases debug <;> decide, by simp [Ty.Is]; decide, rfl, by cases debug <;> rfl⟩

/-- **C94** An element of `abs(m)` cannot be asked for with an ellipsis that stands for nothing, an element of `m` can. -/
theorem C94_ellipsis_witness : callArgs debug (.cont .M 2) [.ell, .long, .long] = some .num ∧ callArgs debug (.call 0 (fun _ => .cont .M 2)) [.ell, .long, .long] = none ∧
    Leaves [.ell, .long, .long] 2 0 :=
  ⟨by cases debug <;> rfl, by cases debug <;> rfl, ⟨[.long, .long], by decide, rfl, rfl, .inr ⟨[], [.long, .long], 0, rfl, rfl⟩⟩⟩

/-! ## Examples -/

/-- `m * v + (-w)` is a vector. -/
example : ∃ a b t, bin true .mul (.cont .M 2) (.view .V 1) = some a ∧ neg true (.cont .V 1) = some b ∧ bin true .add a b = some t ∧ t.Is .vec :=
  ⟨_, _, _, rfl, rfl, rfl, rfl, rfl⟩

/-- A row of `2 * m - m` is a vector. -/
example : ∃ a b t, bin true .mul .num (.cont .M 2) = some a ∧ bin true .sub a (.cont .M 2) = some b ∧ callArgs true b [.long, .range] = some t ∧ t.Is .vec :=
  ⟨_, _, _, rfl, rfl, rfl, rfl, rfl⟩

/-- `v * v` does not compile; the rows of `1 + m` cannot be taken. -/
example : bin true .mul (.cont .V 1) (.cont .V 1) = none ∧ callArgs true (.expr .add .num (.cont .M 2)) [.long, .range] = none := ⟨rfl, rfl⟩

/-- `2 * m - w` of a matrix and a matrix view. -/
def diff2 : Ty := .expr .sub (.expr .mul .num (.cont .M 2)) (.view .M 2)

theorem diff2_reach : Reach debug diff2 :=
  .bin (op := .sub) (l := .expr .mul .num (.cont .M 2)) (r := .view .M 2)
    (.bin (op := .mul) (l := .num) (r := .cont .M 2) .num (.cont _ _ (by decide) (by decide)) (by cases debug <;> rfl)) (.view _ _ (by decide) (by decide)) (by cases debug <;> rfl)

theorem diff2_array : isArray debug diff2 = true := by cases debug <;> rfl

theorem vec_reach : Reach debug (.cont .V 1) := .cont _ _ (by decide) (by decide)

theorem vec_array : isArray debug (.cont .V 1) = true := by cases debug <;> rfl

/-- It is a matrix and has two indices; its elements, rows and sums are as they should be. -/
example : diff2.rank = some 2 := (C94_kinds (debug := debug) diff2_reach).1 rfl

example : callArgs true diff2 [.long, .long] = some .num := (C94_elements diff2_reach (r := 2) rfl).2

example : callArgs debug diff2 [.long, .long] = some .num := C94_operands diff2_reach diff2_array (r := 2) rfl

example : ∃ t', callArgs debug diff2 [.long, .range] = some t' ∧ t'.rank = some 1 :=
  (C94_parts diff2_reach diff2_array rfl (by decide) (by simp)).mpr ⟨⟨[.long, .range], by decide, rfl, rfl, .inl rfl⟩, by simp [diff2, Sliceable, Ty.isNum, Ty.alg]⟩

example {t' : Ty} (hc : callArgs debug diff2 [.long, .range] = some t') (hk : t'.rank = some 1) : isArray debug t' = true ∧ t'.Is .vec :=
  C94_part_kinds diff2_reach diff2_array hc hk (K := .mat) ⟨rfl, rfl⟩

/-- A tensor with four indices: `t(..., 0, _)` leaves three. -/
example : ∃ a, callMem .A 4 [.ell, .long, .range] = some (.view a 3) :=
  ((C94_call (by decide) rfl (by simp)).2.1 3 (by decide)).mpr ⟨[.range, .range, .long, .range], by decide, rfl, rfl, .inr ⟨[], [.long, .range], 2, rfl, rfl⟩⟩

/-- The sum with a matrix is a matrix, the product with a vector a vector, the sum with a vector does not compile. -/
example : (∃ t', bin debug .add diff2 (.cont .M 2) = some t' ∧ isArray debug t' = true ∧ t'.Is .mat) ∧ bin debug .add diff2 (.cont .V 1) = none :=
  ⟨(C94_sum_partial (.inl rfl) diff2_reach (.cont _ _ (by decide) (by decide)) diff2_array (by cases debug <;> rfl) (K := .mat) (K' := .mat) ⟨rfl, rfl⟩ ⟨rfl, rfl⟩).1 _ rfl,
   (C94_sum_partial (.inl rfl) diff2_reach vec_reach diff2_array vec_array (K := .mat) (K' := .vec) ⟨rfl, rfl⟩ ⟨rfl, rfl⟩).2.2 (by decide)⟩

example : (∃ t', bin debug .mul diff2 (.cont .V 1) = some t' ∧ isArray debug t' = true ∧ t'.Is .vec) ∧ bin debug .mul (.cont .V 1) diff2 = none :=
  ⟨(C94_product diff2_reach vec_reach diff2_array vec_array (K := .mat) (K' := .vec) ⟨rfl, rfl⟩ ⟨rfl, rfl⟩).1 _ rfl,
   (C94_product vec_reach diff2_reach vec_array diff2_array (K := .vec) (K' := .mat) ⟨rfl, rfl⟩ ⟨rfl, rfl⟩).2 rfl⟩

example : (∃ t', bin debug .div diff2 diff2 = some t' ∧ isArray debug t' = true ∧ t'.Is .mat) ∧ bin debug .div diff2 (.cont .V 1) = none :=
  ⟨(C94_quotient diff2_reach diff2_reach diff2_array diff2_array (K := .mat) (K' := .mat) ⟨rfl, rfl⟩ ⟨rfl, rfl⟩).1 _ rfl,
   (C94_quotient diff2_reach vec_reach diff2_array vec_array (K := .mat) (K' := .vec) ⟨rfl, rfl⟩ ⟨rfl, rfl⟩).2 rfl⟩

example : ∃ t', bin debug .add .num diff2 = some t' ∧ isArray debug t' = true ∧ t'.Is .mat := (C94_numbers .add diff2_reach diff2_array (K := .mat) ⟨rfl, rfl⟩).2.1

/-- A function of `2 * m - w` and of itself. -/
example : ∃ t', mapped debug 1 (fun _ => diff2) = some t' ∧ isArray debug t' = true ∧ t'.Is .mat :=
  C94_mapped (fun _ => diff2_reach) (fun _ => diff2_array) (K := .mat) (fun _ => ⟨rfl, rfl⟩)

/-- A matrix reshaped to three indices is an array. -/
example : ∃ t', transform false 3 (.cont .M 2) = some t' ∧ t'.Is (.arr 3) := ⟨_, rfl, C94_transform (t := .cont .M 2) (rv := false) (r := 3) (by decide) rfl (K := .mat) ⟨rfl, rfl⟩⟩

example : ∃ a r, makeRegular debug diff2 = some (.cont a r) ∧ (Ty.cont a r).Is .mat := C94_regular diff2_array (K := .mat) ⟨rfl, rfl⟩

/-- `map(f)(matrix, array)` times `2 * m - w` has no value. -/
example : bin debug .mul mixed diff2 = some .void := C94_void mixed_reach diff2_reach (by cases debug <;> decide) diff2_array (by decide)

/-- `(2 * v)[0]` compiles, and so does the norm of `2 * v`. -/
example : bracket debug (.expr .mul .num (.cont .V 1)) = true ∧ norm debug (.expr .mul .num (.cont .V 1)) = some .num := by
  have h : Reach debug (.expr .mul .num (.cont .V 1)) := .bin (op := .mul) (l := .num) (r := .cont .V 1) .num vec_reach (by cases debug <;> rfl)
  have ha : isArray debug (.expr .mul .num (.cont .V 1)) = true := by cases debug <;> rfl
  exact ⟨(C94_bracket_partial h ha rfl).mpr (by simp [Bracketed, Ty.isNum]), (C94_size_partial h ha (by simp [NoMap])).2 rfl⟩

end Nda.Types
