import Verif.Spec.Arithmetic
import Verif.Props.Assign
import Mathlib.Algebra.Group.Basic
import Mathlib.Data.Int.Basic
/-!
# C26: lazy arithmetic
-/
namespace Nda.Arith
open Nda Nda.Spec Nda.Arith.Spec Assign LayoutTransforms Nda.Perm Nda.Grid

variable {α : Type}

theorem sequence_some {n : Nat} {xs : Fin n → Option α} {ys : Fin n → α} (h : ∀ i, xs i = some (ys i)) : sequence xs = some ys := by
  have hs : ∀ i, (xs i).isSome = true := fun i => by rw [h i]; rfl
  rw [sequence, dif_pos hs]
  congr 1
  funext i
  simp [h i]

/-- Algebra and shape of a uniform expression. -/
theorem uniform_alg {a : Alg} {len : List Int} : ∀ {e : Expr α}, Uniform a len e → e.alg = a ∧ e.shape = len
  | .arr _ _, h => h
  | .fn _ _ _, h => h
  | .neg e, h => uniform_alg (e := e) h
  | .bin _ l _, h => uniform_alg (e := l) h.1
  | .scalL _ _ r, h => uniform_alg (e := r) h
  | .scalR _ l _, h => uniform_alg (e := l) h
  | .call n f es, h => by
    have h' : ∀ i, (es i).alg = a ∧ (es i).shape = len := fun i => uniform_alg (e := es i) (h i)
    refine ⟨?_, (h' 0).2⟩
    simp only [Expr.alg, (h' _).1]
    simp

/-- C26, shape: the shape of an expression is the shape of its arrays. -/
theorem C26_shape {a : Alg} {len : List Int} {e : Expr α} (h : Uniform a len e) : e.shape = len := (uniform_alg h).2

section
variable [Add α] [Sub α] [Mul α] [Div α] [Neg α] [Zero α]

/-- C26, elements.  Evaluating an expression of arrays (or vectors, or matrices) of one shape at an index gives the same expression of the
elements there; in a matrix expression a scalar is a multiple of the identity. -/
theorem C26_eval (a : Alg) (len : List Int) (mem : List α) (elem : View → List Int → α) (idx : List Int) (hi : InRange len idx)
    (hM : a = .M → len.length = 2 ∧ ZeroLaws α) : ∀ (e : Expr α), e.compiles = true → Uniform a len e →
      (∀ v ∈ leaves e, Good v mem.length ∧ val mem (addr v idx) = some (elem v idx)) →
      e.get idx mem = some (value a elem e idx) := by
  have heq : a = .M → ∃ i j, idx = [i, j] := by
    intro h
    have := hi.length_eq
    rw [(hM h).1] at this
    match idx, this with
    | [i, j], _ => exact ⟨i, j, rfl⟩
  intro e
  induction e with
  | arr b v =>
      intro _ hu hl
      obtain ⟨hg, hv⟩ := hl v (by simp [leaves])
      rw [Expr.get, load_eq hg (by rw [hu.2]; exact hi), hv]; rfl
  | fn b l f => intro _ _ _; rfl
  | neg e ih =>
      intro hc hu hl
      simp only [Expr.get, ih hc hu hl]; rfl
  | bin op l r ihl ihr =>
      intro hc hu hl
      simp only [Expr.compiles, Bool.and_eq_true] at hc
      have h1 := ihl hc.1.1.1 hu.1 (fun v hv => hl v (by simp [leaves, hv]))
      have h2 := ihr hc.1.1.2 hu.2 (fun v hv => hl v (by simp [leaves, hv]))
      have hn : ¬ ((op = .mul ∨ op = .div) ∧ l.alg = .M) := by
        rintro ⟨h | h, h3⟩ <;> subst h <;> simp [h3] at hc
      rw [Expr.get, if_neg hn, h1, h2]
      cases op <;> rfl
  | scalL op s r ih =>
      intro hc hu hl
      simp only [Expr.compiles, Bool.and_eq_true] at hc
      have h2 := ih hc.1 hu (fun v hv => hl v (by simpa [leaves] using hv))
      have ha := (uniform_alg (e := r) hu).1
      by_cases hm : a = .M
      · obtain ⟨i, j, rfl⟩ := heq hm
        have hz := (hM hm).2
        by_cases hij : i = j
        · subst hij
          cases op <;> simp [Expr.get, ha, hm, equalTo, value, entry, h2]
          rw [ha, hm] at hc; simp at hc
        · cases op <;> simp [Expr.get, ha, hm, equalTo, value, entry, h2, hij, hz.zero_add, hz.zero_sub]
          rw [ha, hm] at hc; simp at hc
      · cases op <;> simp [Expr.get, ha, hm, value, entry, h2]
  | scalR op l s ih =>
      intro hc hu hl
      have h2 := ih hc hu (fun v hv => hl v (by simpa [leaves] using hv))
      have ha := (uniform_alg (e := l) hu).1
      by_cases hm : a = .M
      · obtain ⟨i, j, rfl⟩ := heq hm
        have hz := (hM hm).2
        by_cases hij : i = j
        · subst hij
          cases op <;> simp [Expr.get, ha, hm, equalTo, value, entry, h2]
        · cases op <;> simp [Expr.get, ha, hm, equalTo, value, entry, h2, hij, hz.add_zero, hz.sub_zero]
      · cases op <;> simp [Expr.get, ha, hm, value, entry, h2]
  | call n f es ih =>
      intro hc hu hl
      simp only [Expr.compiles, List.all_eq_true] at hc
      have h : ∀ i, (es i).get idx mem = some (value a elem (es i) idx) := by
        intro i
        refine ih i (hc i (List.mem_finRange i)) (hu i) (fun v hv => hl v ?_)
        simp only [leaves, List.mem_flatMap]
        exact ⟨i, List.mem_finRange i, hv⟩
      rw [Expr.get, sequence_some h]; rfl

/-- C26, elements, for expressions mixing arrays, matrices and vectors where the meaning of scalars is not in doubt. -/
theorem C26_eval_mixed (len : List Int) (mem : List α) (elem : View → List Int → α) (idx : List Int) (hi : InRange len idx) :
    ∀ (e : Expr α), e.compiles = true → Entrywise len e → (∀ v ∈ leaves e, Good v mem.length ∧ val mem (addr v idx) = some (elem v idx)) →
      e.get idx mem = some (value .A elem e idx) := by
  intro e
  induction e with
  | arr b v =>
      intro _ hu hl
      obtain ⟨hg, hv⟩ := hl v (by simp [leaves])
      rw [Expr.get, load_eq hg (by rw [show v.lay.len = len from hu]; exact hi), hv]; rfl
  | fn b l f => intro _ _ _; rfl
  | neg e ih =>
      intro hc hu hl
      simp only [Expr.get, ih hc hu hl]; rfl
  | bin op l r ihl ihr =>
      intro hc hu hl
      simp only [Expr.compiles, Bool.and_eq_true] at hc
      have h1 := ihl hc.1.1.1 hu.1 (fun v hv => hl v (by simp [leaves, hv]))
      have h2 := ihr hc.1.1.2 hu.2 (fun v hv => hl v (by simp [leaves, hv]))
      have hn : ¬ ((op = .mul ∨ op = .div) ∧ l.alg = .M) := by
        rintro ⟨h | h, h3⟩ <;> subst h <;> simp [h3] at hc
      rw [Expr.get, if_neg hn, h1, h2]
      cases op <;> rfl
  | scalL op s r ih =>
      intro hc hu hl
      simp only [Expr.compiles, Bool.and_eq_true] at hc
      have h2 := ih hc.1 hu.1 (fun v hv => hl v (by simpa [leaves] using hv))
      have ha := hu.2
      cases op
      · simp [Expr.get, ha (Or.inl rfl), value, entry, h2]
      · simp [Expr.get, ha (Or.inr rfl), value, entry, h2]
      · simp [Expr.get, value, entry, h2]
      · have : r.alg ≠ .M := by simpa using hc.2
        simp [Expr.get, value, entry, h2, this]
  | scalR op l s ih =>
      intro hc hu hl
      have h2 := ih hc hu.1 (fun v hv => hl v (by simpa [leaves] using hv))
      have ha := hu.2
      cases op
      · simp [Expr.get, ha (Or.inl rfl), value, entry, h2]
      · simp [Expr.get, ha (Or.inr rfl), value, entry, h2]
      · simp [Expr.get, value, entry, h2]
      · simp [Expr.get, value, entry, h2]
  | call n f es ih =>
      intro hc hu hl
      simp only [Expr.compiles, List.all_eq_true] at hc
      have h : ∀ i, (es i).get idx mem = some (value .A elem (es i) idx) := by
        intro i
        refine ih i (hc i (List.mem_finRange i)) (hu i) (fun v hv => hl v ?_)
        simp only [leaves, List.mem_flatMap]
        exact ⟨i, List.mem_finRange i, hv⟩
      rw [Expr.get, sequence_some h]; rfl

/-- The value of an expression only depends on the elements at the index. -/
theorem get_congr (a : Alg) (len : List Int) (mem mem2 : List α) (hlen : mem2.length = mem.length) (idx : List Int) (hi : InRange len idx) :
    ∀ (e : Expr α), Uniform a len e → (∀ v ∈ leaves e, Good v mem.length ∧ val mem2 (addr v idx) = val mem (addr v idx)) →
      e.get idx mem2 = e.get idx mem := by
  intro e
  induction e with
  | arr b v =>
      intro hu hl
      obtain ⟨hg, hv⟩ := hl v (by simp [leaves])
      have hi' : InRange v.lay.len idx := by rw [hu.2]; exact hi
      rw [Expr.get, Expr.get, load_eq hg hi', load_eq (by rw [hlen]; exact hg) hi', hv]
  | fn b l f => intro _ _; rfl
  | neg e ih => intro hu hl; simp only [Expr.get, ih hu hl]
  | bin op l r ihl ihr =>
      intro hu hl
      simp only [Expr.get, ihl hu.1 (fun v hv => hl v (by simp [leaves, hv])), ihr hu.2 (fun v hv => hl v (by simp [leaves, hv]))]
  | scalL op s r ih => intro hu hl; cases op <;> simp only [Expr.get, ih hu hl]
  | scalR op l s ih => intro hu hl; cases op <;> simp only [Expr.get, ih hu hl]
  | call n f es ih =>
      intro hu hl
      have h : (fun i => (es i).get idx mem2) = fun i => (es i).get idx mem := by
        funext i
        refine ih i (hu i) (fun v hv => hl v ?_)
        simp only [leaves, List.mem_flatMap]
        exact ⟨i, List.mem_finRange i, hv⟩
      simp only [Expr.get, h]

/-- Where `v` overlaps `a`, the elements at the same address have the same index. -/
def Aligned (a v : View) : Prop := ∀ idx jdx, InRange a.lay.len idx → InRange v.lay.len jdx → addr a idx = addr v jdx → idx = jdx

omit [Add α] [Sub α] [Mul α] [Div α] [Neg α] [Zero α] in
theorem Aligned.of_separate {a v : View} (h : Separate a v) : Aligned a v := fun idx jdx hi hj e => absurd e (h idx jdx hi hj)

omit [Add α] [Sub α] [Mul α] [Div α] [Neg α] [Zero α] in
theorem Aligned.self {a : View} (h : OneToOne a) : Aligned a a := h

theorem assign_lazy (alg : Alg) (a : View) (e : Expr α) (mem : List α) (elem : View → List Int → α) (ha : Good a mem.length) (h1 : OneToOne a)
    (hc : e.compiles = true) (hu : Uniform alg a.lay.len e) (hM : alg = .M → a.lay.len.length = 2 ∧ ZeroLaws α)
    (hl : ∀ v ∈ leaves e, Good v mem.length ∧ Aligned a v ∧ v.lay.len = a.lay.len ∧ ∀ idx, InRange a.lay.len idx → val mem (addr v idx) = some (elem v idx)) :
    ∃ mem', assign .host .host true a (.expr (fun idx mem => e.get idx mem)) mem = some (some mem') ∧
      Updated a (fun idx => some (value alg elem e idx)) mem mem' := by
  have hval : ∀ idx, InRange a.lay.len idx → e.get idx mem = some (value alg elem e idx) := fun idx hi =>
    C26_eval alg a.lay.len mem elem idx hi hM e hc hu (fun v hv => ⟨(hl v hv).1, (hl v hv).2.2.2 idx hi⟩)
  obtain ⟨mem', ee, hu'⟩ := assign_enum ha.fits h1 (enum_box a) (fun x mem => e.get x mem)
    (by
      intro pre x post eL mem2 hlen hk
      have hx : InRange a.lay.len x := mem_box.mp (by rw [eL]; simp)
      refine get_congr alg a.lay.len mem mem2 hlen x hx e hu (fun v hv => ⟨(hl v hv).1, hk _ ?_⟩)
      intro y hy heq
      have hy' : InRange a.lay.len y := mem_box.mp (by rw [eL]; simp [hy])
      have := (hl v hv).2.1 y x hy' (by rw [(hl v hv).2.2.1]; exact hx) heq
      subst this
      have hnd := (lexEnum_box a.lay.len).nodup
      rw [eL, List.nodup_append] at hnd
      exact hnd.2.2 y hy y (by simp) rfl)
    (fun x hx => ⟨_, hval x (mem_box.mp hx)⟩)
  refine ⟨mem', ?_, hu'.size, fun idx hi => by rw [hu'.elems idx hi, hval idx hi], hu'.frame⟩
  rw [assign, fallback, if_neg (by simp), elementwise_eq ha.wf ha.flags]
  simp only [Rhs.get]
  rw [ee]; rfl

/-- C26, assignment.  Assigning an expression whose arrays either do not overlap the destination or overlap it at the same indices (as in
`a = a + b`) stores the values of the expression and changes nothing else.  An array alone (no operation) is C17. -/
theorem C26_assign (alg : Alg) (a : View) (e : Expr α) (mem : List α) (elem : View → List Int → α) (ha : Good a mem.length) (h1 : OneToOne a)
    (he : ∀ b v, e ≠ .arr b v) (hc : e.compiles = true) (hu : Uniform alg a.lay.len e) (hM : alg = .M → a.lay.len.length = 2 ∧ ZeroLaws α)
    (hl : ∀ v ∈ leaves e, Good v mem.length ∧ Aligned a v ∧ v.lay.len = a.lay.len ∧ ∀ idx, InRange a.lay.len idx → val mem (addr v idx) = some (elem v idx)) :
    ∃ mem', assignExpr a e mem = some (some mem') ∧ Updated a (fun idx => some (value alg elem e idx)) mem mem' := by
  have := assign_lazy alg a e mem elem ha h1 hc hu hM hl
  cases e with
  | arr b v => exact absurd rfl (he b v)
  | _ => exact this

/-- C26, compound assignment `a op= s` with a scalar (which may be an element of `a`: it is copied first). -/
theorem C26_compound_scalar (op : BOp) (alg : Alg) (a : View) (s : α) (mem : List α) (elem : View → List Int → α) (ha : Good a mem.length) (h1 : OneToOne a)
    (hM : alg = .M → a.lay.len.length = 2 ∧ ZeroLaws α) (hl : ∀ idx, InRange a.lay.len idx → val mem (addr a idx) = some (elem a idx)) :
    ∃ mem', opAssign op alg a (.scal s) mem = some (some mem') ∧
      Updated a (fun idx => some (op.ap (elem a idx) (entry alg op s idx))) mem mem' := by
  obtain ⟨mem', e, hu⟩ := C26_assign alg a (.scalR op (.arr alg a) s) mem elem ha h1 (by intro b v h; cases h) rfl ⟨rfl, rfl⟩ hM
    (by simp only [leaves, List.mem_singleton]; rintro v rfl; exact ⟨ha, Aligned.self h1, rfl, hl⟩)
  refine ⟨mem', e, hu.size, fun idx hi => ?_, hu.frame⟩
  rw [hu.elems idx hi]
  cases op <;> rfl

/-- C26, compound assignment `a op= e` with an array expression. -/
theorem C26_compound (op : BOp) (alg : Alg) (a : View) (e : Expr α) (mem : List α) (elem : View → List Int → α) (ha : Good a mem.length) (h1 : OneToOne a)
    (hc : e.compiles = true) (hop : op = .add ∨ op = .sub ∨ alg = .A) (hu : Uniform alg a.lay.len e) (hM : alg = .M → a.lay.len.length = 2 ∧ ZeroLaws α)
    (hl : ∀ v, v = a ∨ v ∈ leaves e → Good v mem.length ∧ Aligned a v ∧ v.lay.len = a.lay.len ∧ ∀ idx, InRange a.lay.len idx → val mem (addr v idx) = some (elem v idx)) :
    ∃ mem', opAssign op alg a (.expr e) mem = some (some mem') ∧
      Updated a (fun idx => some (op.ap (elem a idx) (value alg elem e idx))) mem mem' := by
  have hg := uniform_alg hu
  obtain ⟨mem', e', hu'⟩ := C26_assign alg a (.bin op (.arr alg a) e) mem elem ha h1 (by intro b v h; cases h)
    (by
      simp only [Expr.compiles, Expr.shape, Expr.alg, hc, hg.1, hg.2, Bool.true_and, beq_self_eq_true]
      rcases hop with rfl | rfl | rfl
      · rfl
      · rfl
      · cases op <;> rfl) ⟨⟨rfl, rfl⟩, hu⟩ hM
    (by
      simp only [leaves, List.singleton_append, List.mem_cons]
      exact hl)
  refine ⟨mem', e', hu'.size, fun idx hi => ?_, hu'.frame⟩
  rw [hu'.elems idx hi]
  cases op <;> rfl

end

/-- The laws of zero hold in every additive group. -/
theorem ZeroLaws.of_group {α : Type} [AddGroup α] : ZeroLaws α := ⟨zero_add, add_zero, sub_zero, zero_sub⟩

/-! ### Linear access to expressions -/

section
variable [Add α] [Sub α] [Mul α] [Div α] [Neg α]

/-- The stride order of a strided expression is the one of all its arrays. -/
theorem info_strided {a : Alg} {len : List Int} : ∀ {e : Expr α}, Uniform a len e → e.info.prop.strided1d = true → e.info.so ≠ none →
    ∀ v ∈ leaves e, some v.lay.so = e.info.so ∧ v.lay.prop.strided1d = true
  | .arr _ _, _, h, _ => by simpa [leaves, Expr.info] using h
  | .fn _ _ _, _, h, _ => by simp [Expr.info, LayoutProp.none] at h
  | .neg e, hu, h, hs => info_strided (e := e) hu h hs
  | .bin _ l r, hu, h, hs => by
    simp only [Expr.info, Info.and] at h hs ⊢
    by_cases hso : r.info.so = l.info.so
    · rw [if_pos hso] at h hs ⊢
      simp only [Bool.and_eq_true] at h
      intro v hv
      rcases List.mem_append.mp (show v ∈ leaves l ++ leaves r from hv) with hv | hv
      · have := info_strided (e := l) hu.1 h.2 (by rw [← hso]; exact hs) v hv
        rw [← hso] at this; exact this
      · exact info_strided (e := r) hu.2 h.1 hs v hv
    · rw [if_neg hso] at h; simp [LayoutProp.none] at h
  | .scalL _ _ r, hu, h, hs => by
    simp only [Expr.info] at h hs ⊢
    by_cases ha : r.alg = .A
    · rw [if_pos ha] at h hs ⊢
      exact info_strided (e := r) hu h hs
    · rw [if_neg ha] at h; simp [LayoutProp.none] at h
  | .scalR _ l _, hu, h, hs => by
    simp only [Expr.info] at h hs ⊢
    by_cases ha : l.alg = .A
    · rw [if_pos ha] at h hs ⊢
      exact info_strided (e := l) hu h hs
    · rw [if_neg ha] at h; simp [LayoutProp.none] at h
  | .call _ _ _, _, h, _ => by simp [Expr.info, LayoutProp.none] at h

omit [Add α] [Sub α] [Mul α] [Div α] [Neg α] in
theorem MemEnum.eq_memBox {so : List Nat} {len : List Int} (hp : IsPerm so) (hl : len.length = so.length) {L : List (List Int)} (h : MemEnum so len L) : L = memBox so len := by
  have h2 := memEnum_memBox hp hl
  have hperm : L.Perm (memBox so len) := (List.perm_ext_iff_of_nodup h.nodup h2.nodup).mpr (fun x => by rw [h.mem_iff, h2.mem_iff])
  exact hperm.eq_of_pairwise (fun a b _ _ h1 h2 => absurd (h1.trans h2) LexLt.irrefl) h.sorted h2.sorted

omit [Add α] [Sub α] [Mul α] [Div α] [Neg α] in
/-- Linear access to an evenly spaced array is access in memory order. -/
theorem load_linear {v : View} {mem : List α} (hv : Good v mem.length) (hs : v.lay.prop.strided1d = true) (h0 : v.lay.len ≠ []) {k : Nat} {idx : List Int}
    (hk : (memBox v.lay.so v.lay.len)[k]? = some idx) : (do rdInt mem (← linear v k)) = load v idx mem := by
  obtain ⟨c, hc⟩ := hv.flags.strided hs
  obtain ⟨c', hc', e⟩ := linear_eq hv.wf (Or.inl h0) hs hc hv.flags k
  have h := offsets_evenly hv.wf hv.nonneg hc'
  have hi : InRange v.lay.len idx := ((memEnum_memBox hv.wf.perm hv.wf.so_len.symm).mem_iff idx).mp (List.mem_of_getElem? hk)
  have hd : dot v.lay.str idx = c' * k := by
    have h2 : ((memBox v.lay.so v.lay.len).map (dot v.lay.str))[k]? = some (dot v.lay.str idx) := by simp [hk]
    rw [h] at h2
    have hlt : k < (prod v.lay.len).toNat := by
      by_contra hn
      rw [List.getElem?_eq_none (by simpa using hn)] at h2
      cases h2
    simp [hlt] at h2
    exact h2.symm
  rw [load_eq hv hi, addr, hd, e]
  exact rdInt_eq _ _

/-- C26, linear access.  If the layout information of an expression promises even spacing (then all its arrays have the same stride order), linear
access is element access in memory order. -/
theorem C26_linear (a : Alg) (len : List Int) (mem : List α) (so : List Nat) (h0 : len ≠ []) (hw : IsPerm so) (hsl : so.length = len.length)
    (L : List (List Int)) (hL : MemEnum so len L) (k : Nat) (idx : List Int) (hk : L[k]? = some idx) : ∀ (e : Expr α), e.compiles = true → Uniform a len e → (∀ v ∈ leaves e, Good v mem.length) →
      e.info.prop.strided1d = true → e.info.so = some so → e.getLinear k mem = e.get idx mem := by
  rw [MemEnum.eq_memBox hw hsl.symm hL] at hk
  intro e
  induction e with
  | arr b v =>
      intro _ hu hl hp hs
      have hso : v.lay.so = so := by simpa [Expr.info] using hs
      subst hso
      have hlen : v.lay.len = len := hu.2
      exact load_linear (hl v (by simp [leaves])) hp (by rw [hlen]; exact h0) (by rw [hlen]; exact hk)
  | fn b l f => intro _ _ _ hp; simp [Expr.info, LayoutProp.none] at hp
  | neg e ih => intro hc hu hl hp hs; simp only [Expr.getLinear, Expr.get, ih hc hu hl hp hs]
  | bin op l r ihl ihr =>
      intro hc hu hl hp hs
      simp only [Expr.compiles, Bool.and_eq_true] at hc
      simp only [Expr.info, Info.and] at hp hs
      by_cases hso : r.info.so = l.info.so
      · rw [if_pos hso] at hp hs
        simp only [Bool.and_eq_true] at hp
        simp only [Expr.getLinear, Expr.get, ihl hc.1.1.1 hu.1 (fun v hv => hl v (by simp [leaves, hv])) hp.2 (by rw [← hso]; exact hs),
          ihr hc.1.1.2 hu.2 (fun v hv => hl v (by simp [leaves, hv])) hp.1 hs]
      · rw [if_neg hso] at hp; simp [LayoutProp.none] at hp
  | scalL op s r ih =>
      intro hc hu hl hp hs
      simp only [Expr.compiles, Bool.and_eq_true] at hc
      simp only [Expr.info] at hp hs
      by_cases ha : r.alg = .A
      · rw [if_pos ha] at hp hs
        cases op <;> simp [Expr.getLinear, Expr.get, ih hc.1 hu hl hp hs, ha, BOp.ap]
      · rw [if_neg ha] at hp; simp [LayoutProp.none] at hp
  | scalR op l s ih =>
      intro hc hu hl hp hs
      simp only [Expr.info] at hp hs
      by_cases ha : l.alg = .A
      · rw [if_pos ha] at hp hs
        cases op <;> simp [Expr.getLinear, Expr.get, ih hc hu hl hp hs, ha, BOp.ap]
      · rw [if_neg ha] at hp; simp [LayoutProp.none] at hp
  | call n f es ih => intro _ _ _ hp; simp [Expr.info, LayoutProp.none] at hp

/-- C26, linear access without the promise: whenever linear access to an expression over evenly spaced arrays of the same stride order gives a value, it is that of the element
(a scalar added to a matrix has none: it would have to know the indices). -/
theorem C26_linear_agrees (len : List Int) (mem : List α) (so : List Nat) (h0 : len ≠ []) (hw : IsPerm so) (hsl : so.length = len.length)
    (L : List (List Int)) (hL : MemEnum so len L) (k : Nat) (idx : List Int) (hk : L[k]? = some idx) : ∀ (e : Expr α), e.compiles = true →
      (∀ v ∈ leaves e, Good v mem.length ∧ v.lay.len = len ∧ v.lay.so = so ∧ v.lay.prop.strided1d = true) → ∀ x, e.getLinear k mem = some x → e.get idx mem = some x := by
  rw [MemEnum.eq_memBox hw hsl.symm hL] at hk
  intro e
  induction e with
  | arr b v =>
      intro _ hl x hx
      obtain ⟨hg, hlen, hso, hp⟩ := hl v (by simp [leaves])
      rw [← hx]
      exact (load_linear hg hp (by rw [hlen]; exact h0) (by rw [hlen, hso]; exact hk)).symm
  | fn b l f => intro _ _ x hx; simp [Expr.getLinear] at hx
  | neg e ih =>
      intro hc hl x hx
      simp only [Expr.getLinear, Option.bind_eq_bind, Option.bind_eq_some_iff] at hx
      obtain ⟨y, h1, h2⟩ := hx
      simp [Expr.get, ih hc hl y h1, ← h2]
  | bin op l r ihl ihr =>
      intro hc hl x hx
      simp only [Expr.compiles, Bool.and_eq_true] at hc
      simp only [Expr.getLinear] at hx
      split at hx
      · cases hx
      · rename_i hne
        simp only [Option.bind_eq_bind, Option.bind_eq_some_iff] at hx
        obtain ⟨y, h1, z, h2, h3⟩ := hx
        rw [Expr.get, if_neg hne]
        simp [ihl hc.1.1.1 (fun v hv => hl v (by simp [leaves, hv])) y h1, ihr hc.1.1.2 (fun v hv => hl v (by simp [leaves, hv])) z h2, ← h3]
  | scalL op s r ih =>
      intro hc hl x hx
      simp only [Expr.compiles, Bool.and_eq_true] at hc
      simp only [Expr.getLinear] at hx
      split at hx
      · cases hx
      · rename_i hne
        simp only [Option.bind_eq_bind, Option.bind_eq_some_iff] at hx
        obtain ⟨y, h1, h2⟩ := hx
        have := ih hc.1 hl y h1
        cases op <;> simp_all [Expr.get, BOp.ap]
  | scalR op l s ih =>
      intro hc hl x hx
      simp only [Expr.getLinear] at hx
      split at hx
      · cases hx
      · rename_i hne
        simp only [Option.bind_eq_bind, Option.bind_eq_some_iff] at hx
        obtain ⟨y, h1, h2⟩ := hx
        have := ih hc hl y h1
        cases op <;> simp_all [Expr.get, BOp.ap]
  | call n f es ih => intro _ _ x hx; simp [Expr.getLinear] at hx

end

/-! ### Cases -/

/-- `2 - m / 2 + f(m, n)` for two matrices of different memory orders; and `m += 10`. -/
example : let m : Expr Int := .arr .M ⟨0, ⟨[2, 2], [2, 1], [0, 1], [0, 0], .contiguous⟩⟩
    let n : Expr Int := .arr .M ⟨4, ⟨[2, 2], [1, 2], [1, 0], [0, 0], .contiguous⟩⟩
    let e : Expr Int := .bin .add (.scalL .sub 2 (.scalR .div m 2)) (.call 1 (fun x => x 0 * x 1) (fun i => if i = 0 then m else n))
    e.compiles = true ∧ e.alg = .M ∧ e.get [0, 1] [2, 4, 6, 8, 1, 2, 3, 4] = some (-2 + 4 * 3) ∧ e.get [1, 1] [2, 4, 6, 8, 1, 2, 3, 4] = some (2 - 4 + 8 * 4) := by
  decide
example : opAssign .add .M ⟨0, ⟨[2, 2], [2, 1], [0, 1], [0, 0], .contiguous⟩⟩ (.scal 10) [1, 2, 3, 4] = some (some [11, 2, 3, (14 : Int)]) := by decide
example : opAssign .mul .A ⟨3, ⟨[2, 2], [-2, -1], [0, 1], [0, 0], .none⟩⟩ (.expr (.arr .A ⟨4, ⟨[2, 2], [1, 2], [1, 0], [0, 0], .contiguous⟩⟩)) [1, 2, 3, (4 : Int), 5, 6, 7, 8] =
    some (some [8, 12, 21, 20, 5, 6, 7, 8]) := by decide

/-- Linear access to `2 * (m + m)` and to `m + 1` for a matrix in Fortran order. -/
example : let m : Expr Int := .arr .M ⟨0, ⟨[2, 2], [1, 2], [1, 0], [0, 0], .contiguous⟩⟩
    (Expr.scalL .mul 2 (.bin .add m m)).getLinear 1 [5, 6, 7, 8] = some 24 ∧ (Expr.scalL .mul 2 (.bin .add m m)).get [1, 0] [5, 6, 7, 8] = some 24 ∧
      (Expr.scalR .add m 1).getLinear 1 [5, 6, 7, 8] = none := by
  decide

/-- Operands of different algebras: the left one decides what a scalar means, `(A + M) + 1` is not `(M + A) + 1`. -/
theorem C26_mixed_witness : let A : Expr Int := .arr .A ⟨0, ⟨[2, 2], [2, 1], [0, 1], [0, 0], .contiguous⟩⟩
    let M : Expr Int := .arr .M ⟨0, ⟨[2, 2], [2, 1], [0, 1], [0, 0], .contiguous⟩⟩
    (Expr.scalR .add (.bin .add A M) 1).get [0, 1] [5, 6, 7, 8] = some 13 ∧ (Expr.scalR .add (.bin .add M A) 1).get [0, 1] [5, 6, 7, 8] = some 12 := by
  decide

end Nda.Arith
