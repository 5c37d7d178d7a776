import Verif.Spec.ExprSlice
import Verif.Props.Arithmetic
import Verif.Props.Views
/-!
# C66: slices of lazy expressions
-/
namespace Nda.Arith
open Nda Nda.Spec Nda.Arith.Spec LayoutTransforms Assign Nda.IdxMap Nda.Slice

variable {α : Type}

theorem sequence_inv {n : Nat} {xs : Fin n → Option α} {ys : Fin n → α} (h : sequence xs = some ys) (i : Fin n) : xs i = some (ys i) := by
  unfold sequence at h
  split at h
  · rename_i g
    cases h
    simp
  · cases h

theorem sequence_none {n : Nat} {xs : Fin n → Option α} {i : Fin n} (h : xs i = none) : sequence xs = none := by
  unfold sequence
  rw [dif_neg]
  intro g
  have := g i
  rw [h] at this; cases this

/-- Algebras that occur in an expression of rank `n`. -/
def AlgOK (n : Nat) (a : Alg) : Prop := (a = .M → n = 2) ∧ (a = .V → n = 1)

theorem alg_ok {len : List Int} : ∀ {e : Expr α}, Shaped len e → Typed e → AlgOK len.length e.alg
  | .arr a v, h, t => by
      have h : v.lay.len = len := h
      subst h; exact t.2
  | .fn a l f, h, t => by
      have t : a = .A := t
      subst t; exact ⟨nofun, nofun⟩
  | .neg e, h, t => alg_ok (e := e) h t
  | .bin _ l r, h, t => alg_ok (e := l) h.1 t.1
  | .scalL _ _ r, h, t => alg_ok (e := r) h t
  | .scalR _ l _, h, t => alg_ok (e := l) h t
  | .call n f es, h, t => by
      rw [Expr.alg]
      split
      · exact alg_ok (e := es 0) (h 0) (t 0)
      · exact ⟨nofun, nofun⟩

theorem sliceAlg_inj {n p : Nat} {a b : Alg} (ha : AlgOK n a) (hb : AlgOK n b) : sliceAlg a p = sliceAlg b p ↔ a = b := by
  refine ⟨fun h => ?_, fun h => by rw [h]⟩
  unfold sliceAlg at h
  split at h <;> split at h
  · rename_i g g'; rw [g.1, g'.1]
  · rename_i g g'
    have := ha.1 g.1
    have := hb.2 h.symm
    omega
  · rename_i g g'
    have := hb.1 g'.1
    have := ha.2 h
    omega
  · exact h

theorem sliceAlg_ne_M {p : Nat} {a : Alg} (h : a ≠ .M) : sliceAlg a p ≠ .M := by
  unfold sliceAlg; rw [if_neg (fun g => h g.1)]; exact h

theorem sliceAlg_A {p : Nat} : sliceAlg .A p = .A := rfl

theorem sliceShape_le : ∀ {X : List Arg} {L E : List Int}, SliceShape X L E → E.length ≤ L.length
  | [], [], [], _ => Nat.le_refl _
  | .idx _ :: X, _ :: L, E, h => by
      have := sliceShape_le (X := X) (L := L) (E := E) h
      simp only [List.length_cons]; omega
  | .all :: X, _ :: L, _ :: E, h => by
      have := sliceShape_le (X := X) (L := L) (E := E) h.2
      simp only [List.length_cons]; omega
  | .rng _ _ _ :: X, _ :: L, _ :: E, h => by
      have := sliceShape_le (X := X) (L := L) (E := E) h.2
      simp only [List.length_cons]; omega

theorem steps_expand {N : Nat} {args : List Arg} (hst : ∀ f l s, Arg.rng f l s ∈ args → s ≠ 0) : StepsOK (expand N args) := by
  intro f l s hm
  obtain ⟨a, ha, hb⟩ := List.mem_flatMap.mp hm
  cases a with
  | ell => simp [expandArg] at hb
  | idx i => simp [expandArg] at hb
  | all => simp [expandArg] at hb
  | rng f' l' s' =>
      simp only [expandArg, List.mem_singleton, Arg.rng.injEq] at hb
      obtain ⟨rfl, rfl, rfl⟩ := hb
      exact hst _ _ _ ha

theorem sliceShape_keeps : ∀ {X : List Arg} {L E : List Int}, SliceShape X L E → E.length = X.countP keeps
  | [], [], [], _ => rfl
  | .idx _ :: X, _ :: L, E, h => by
      rw [List.countP_cons_of_neg (by simp [keeps])]; exact sliceShape_keeps (X := X) (L := L) (E := E) h
  | .all :: X, _ :: L, _ :: E, h => by
      rw [List.countP_cons_of_pos rfl, ← sliceShape_keeps (X := X) (L := L) (E := E) h.2]; rfl
  | .rng _ _ _ :: X, _ :: L, _ :: E, h => by
      rw [List.countP_cons_of_pos rfl, ← sliceShape_keeps (X := X) (L := L) (E := E) h.2]; rfl

theorem Spec.SliceOf.ne_nil {len ext : List Int} {args : List Arg} (h : SliceOf len args ext) : ext ≠ [] := by
  intro e
  have h1 := sliceShape_keeps h.shape
  rw [e] at h1
  obtain ⟨a, ha, hk⟩ := List.any_eq_true.mp h.keep
  exact List.countP_eq_zero.mp h1.symm a ha hk

theorem slice_inRange {len ext p : List Int} {args : List Arg} (h : SliceOf len args ext) (hin : Inside (expand len.length args) len)
    (hp : InRange ext p) : InRange len (coords (expand len.length args) p) := by
  have hst := steps_expand (N := len.length) h.steps
  have hell := Slice.not_mem_ell_expand len.length args
  have e1 := C06_shape_unique _ _ _ _ h.shape (Slice.sliceShape_keepMap hell hst len (Slice.length_expand h.fits h.rank))
  rw [e1] at hp
  exact Slice.inside_coords hell hst hin hp

theorem shape_of {len : List Int} : ∀ {e : Expr α}, Shaped len e → e.shape = len
  | .arr _ _, h => h
  | .fn _ _ _, h => h
  | .neg e, h => shape_of (e := e) h
  | .bin _ l _, h => shape_of (e := l) h.1
  | .scalL _ _ r, h => shape_of (e := r) h
  | .scalR _ l _, h => shape_of (e := l) h
  | .call _ _ es, h => shape_of (e := es 0) (h 0)

section
variable [Add α] [Sub α] [Mul α] [Div α] [Neg α]

theorem slice_core (len ext : List Int) (mem : List α) (args : List Arg) (h128 : len.length ≤ 128) (hf : Fits len.length args)
    (hst : ∀ f l s, Arg.rng f l s ∈ args → s ≠ 0) (hE : SliceShape (expand len.length args) len ext) (h0 : ext ≠ []) :
    ∀ e : Expr α, e.compiles = true → Shaped len e → Typed e → Sliceable e → (∀ v ∈ leaves e, WF v.lay ∧ SmallestOK v.lay) →
      ∃ e', e.slice args = some e' ∧ e'.compiles = true ∧ Shaped ext e' ∧ Typed e' ∧ Sliceable e' ∧ e'.alg = sliceAlg e.alg ext.length ∧
        (∀ v ∈ leaves e', WF v.lay ∧ SmallestOK v.lay) ∧ ∀ p, InRange ext p → e'.get p mem = e.get (coords (expand len.length args) p) mem := by
  intro e
  induction e with
  | arr a v =>
      intro _ hs ht _ hw
      have hs : v.lay.len = len := hs
      obtain ⟨hw, hsm⟩ := hw v (by simp [leaves])
      subst hs
      obtain ⟨off, m', h1, h2, h3⟩ := C06_slice_elements v.lay hw hsm args h128 hf hst
      have hm : m'.len = ext := C06_shape_unique _ _ _ _ h2 hE
      have hr : m'.rank = ext.length := by rw [← hm]; rfl
      have hr0 : m'.rank ≠ 0 := by rw [hr]; exact fun h => h0 (List.length_eq_zero_iff.mp h)
      refine ⟨.arr (sliceAlg a m'.rank) ⟨v.off + off, m'⟩, ?_, rfl, hm, ?_, trivial, by rw [hr]; rfl, ?_, ?_⟩
      · simp [Expr.slice, h1, hr0]
      · have hle : m'.len.length ≤ v.lay.len.length := by
          rw [hm]; exact sliceShape_le hE
        refine ⟨?_, ?_, ?_⟩
        · unfold sliceAlg; split
          · exact nofun
          · exact ht.1
        · intro h
          unfold sliceAlg at h
          split at h
          · cases h
          · rename_i g
            have h2 := ht.2.1 h
            have h3 : m'.rank ≠ 1 := fun e => g ⟨h, e⟩
            have h4 : m'.rank = m'.len.length := rfl
            show m'.len.length = 2
            omega
        · intro h
          show m'.len.length = 1
          have h4 : m'.rank = m'.len.length := rfl
          unfold sliceAlg at h
          split at h
          · rename_i g; omega
          · have := ht.2.2 h
            omega
      · have hso : StepsOK (expand v.lay.rank args) := steps_expand hst
        obtain ⟨off2, m2, g1, hF⟩ := Slice.slice_facts hw hf h128 hso
        rw [h1] at g1; cases g1
        intro u hu
        simp only [leaves, List.mem_singleton] at hu
        subst hu
        exact ⟨hF.wf, Slice.slice_smallestOK hw hsm (by rw [hw.so_len]; exact (Slice.length_expand hf h128).symm) hF⟩
      · intro p hp
        rw [← hm] at hp
        obtain ⟨k, hk1, hk2⟩ := h3 p hp
        have hk2 : v.lay.call ((coords (expand v.lay.len.length args) p).map .idx) = some (off + k) := hk2
        simp only [Expr.get, load, element, hk1, hk2, Option.bind_eq_bind, Option.bind_some, Option.pure_def]
        rw [Int.add_assoc]
  | fn b l f => intro _ _ _ h; exact h.elim
  | neg e ih =>
      intro hc hs ht hl hw
      obtain ⟨e', h1, h2, h3, h4, h5, h6, h8, h7⟩ := ih hc hs ht hl hw
      exact ⟨.neg e', by simp [Expr.slice, h1], h2, h3, h4, h5, h6, h8, fun p hp => by simp only [Expr.get, h7 p hp]⟩
  | bin op l r ihl ihr =>
      intro hc hs ht hl hw
      simp only [Expr.compiles, Bool.and_eq_true] at hc
      obtain ⟨l', l1, l2, l3, l4, l5, l6, l8, l7⟩ := ihl hc.1.1.1 hs.1 ht.1 hl.1 (fun v hv => hw v (by simp [leaves, hv]))
      obtain ⟨r', r1, r2, r3, r4, r5, r6, r8, r7⟩ := ihr hc.1.1.2 hs.2 ht.2 hl.2 (fun v hv => hw v (by simp [leaves, hv]))
      have hlen : l'.shape.length = r'.shape.length := by rw [shape_of l3, shape_of r3]
      have hn : ¬ ((op = .mul ∨ op = .div) ∧ l.alg = .M) := by
        rintro ⟨h | h, h3⟩ <;> subst h <;> simp [h3] at hc
      have hA : (op = .mul ∨ op = .div) → l'.alg = .A ∧ r'.alg = .A := by
        rintro (h | h) <;> subst h <;> simp at hc <;> exact ⟨by rw [l6, hc.2.1]; rfl, by rw [r6, hc.2.2]; rfl⟩
      have hn' : ¬ ((op = .mul ∨ op = .div) ∧ ¬ (l'.alg = .A ∧ r'.alg = .A)) := fun h => h.2 (hA h.1)
      have hn2 : ¬ ((op = .mul ∨ op = .div) ∧ l'.alg = .M) := fun h => by
        have := (hA h.1).1
        rw [h.2] at this; cases this
      refine ⟨.bin op l' r', ?_, ?_, ⟨l3, r3⟩, ⟨l4, r4⟩, ⟨l5, r5⟩, l6, ?_, ?_⟩
      · rw [Expr.slice, if_neg hn, l1, r1]
        simp only [Option.bind_eq_bind, Option.bind_some, ne_eq, hlen, not_true_eq_false, if_false]
        rw [if_neg hn']; rfl
      · simp only [Expr.compiles, l2, r2, hlen, Bool.true_and, beq_self_eq_true]
        cases op
        · rfl
        · rfl
        · obtain ⟨a, b⟩ := hA (Or.inl rfl); rw [a, b]; rfl
        · obtain ⟨a, b⟩ := hA (Or.inr rfl); rw [a, b]; rfl
      · intro v hv
        simp only [leaves, List.mem_append] at hv
        exact hv.elim (l8 v) (r8 v)
      · intro p hp
        rw [Expr.get, if_neg hn2, Expr.get, if_neg hn, l7 p hp, r7 p hp]
  | scalL op s r ih =>
      intro hc hs ht hl hw
      simp only [Expr.compiles, Bool.and_eq_true] at hc
      obtain ⟨r', h1, h2, h3, h4, h5, h6, h8, h7⟩ := ih hc.1 hs ht hl.1 (fun v hv => hw v (by simpa [leaves] using hv))
      have hM : op ≠ .mul → r.alg ≠ .M := by
        intro g
        cases op
        · exact hl.2 (Or.inl rfl)
        · exact hl.2 (Or.inr rfl)
        · exact absurd rfl g
        · simpa using hc.2
      have hM' : op ≠ .mul → r'.alg ≠ .M := fun g => by rw [h6]; exact sliceAlg_ne_M (hM g)
      have hd : ¬ (op = .div ∧ r'.alg = .M) := fun g => hM' (by rw [g.1]; exact nofun) g.2
      refine ⟨.scalL op s r', ?_, ?_, h3, h4, ⟨h5, fun g => hM' (by rcases g with rfl | rfl <;> exact nofun)⟩, h6, h8, ?_⟩
      · rw [Expr.slice, if_neg (fun g => hM g.2 g.1), h1]
        simp only [Option.bind_eq_bind, Option.bind_some]
        rw [if_neg hd]; rfl
      · simp only [Expr.compiles, h2, Bool.true_and, Bool.or_eq_true, bne_iff_ne]
        by_cases g : op = .div
        · exact Or.inr (fun g' => hd ⟨g, g'⟩)
        · exact Or.inl g
      · intro p hp
        cases op
        · simp only [Expr.get, hM nofun, hM' nofun, if_false, h7 p hp]
        · simp only [Expr.get, hM nofun, hM' nofun, if_false, h7 p hp]
        · simp only [Expr.get, h7 p hp]
        · simp only [Expr.get, hM nofun, hM' nofun, if_false, h7 p hp]
  | scalR op l s ih =>
      intro hc hs ht hl hw
      obtain ⟨l', h1, h2, h3, h4, h5, h6, h8, h7⟩ := ih hc hs ht hl.1 (fun v hv => hw v (by simpa [leaves] using hv))
      have hM := hl.2
      have hM' : op = .add ∨ op = .sub → l'.alg ≠ .M := fun g => by rw [h6]; exact sliceAlg_ne_M (hM g)
      refine ⟨.scalR op l' s, ?_, h2, h3, h4, ⟨h5, hM'⟩, h6, h8, ?_⟩
      · rw [Expr.slice, if_neg (fun g => hM g.2 g.1), h1]; rfl
      · intro p hp
        cases op
        · simp only [Expr.get, hM (Or.inl rfl), hM' (Or.inl rfl), if_false, h7 p hp]
        · simp only [Expr.get, hM (Or.inr rfl), hM' (Or.inr rfl), if_false, h7 p hp]
        · simp only [Expr.get, h7 p hp]
        · simp only [Expr.get, h7 p hp]
  | call n f es ih =>
      intro hc hs ht hl hw
      simp only [Expr.compiles, List.all_eq_true] at hc
      have hw' : ∀ i, ∀ v ∈ leaves (es i), WF v.lay ∧ SmallestOK v.lay := fun i v hv =>
        hw v (by simp only [leaves, List.mem_flatMap]; exact ⟨i, List.mem_finRange i, hv⟩)
      choose es' h1 h2 h3 h4 h5 h6 h8 h7 using fun i => ih i (hc i (List.mem_finRange i)) (hs i) (ht i) (hl i) (hw' i)
      refine ⟨.call n f es', ?_, ?_, h3, h4, h5, ?_, ?_, ?_⟩
      · rw [Expr.slice, sequence_some h1]; rfl
      · simp only [Expr.compiles, List.all_eq_true]; exact fun i _ => h2 i
      · have : ∀ i, ((es' i).alg == (es' 0).alg) = ((es i).alg == (es 0).alg) := by
          intro i
          rw [Bool.eq_iff_iff, beq_iff_eq, beq_iff_eq, h6, h6]
          exact sliceAlg_inj (alg_ok (hs i) (ht i)) (alg_ok (hs 0) (ht 0))
        simp only [Expr.alg, this]
        split
        · exact h6 0
        · rfl
      · intro v hv
        simp only [leaves, List.mem_flatMap] at hv
        obtain ⟨i, _, hv⟩ := hv
        exact h8 i v hv
      · intro p hp
        simp only [Expr.get, h7 _ p hp]

omit [Add α] [Sub α] [Mul α] [Div α] [Neg α] in
/-- Nothing else can be sliced. -/
theorem slice_rejects (args : List Arg) : ∀ e : Expr α, e.compiles = true → (¬ Sliceable e) → e.slice args = none := by
  intro e
  induction e with
  | arr a v => intro _ h; exact absurd trivial h
  | fn b l f => intro _ _; rfl
  | neg e ih => intro hc h; rw [Expr.slice, ih hc h]; rfl
  | bin op l r ihl ihr =>
      intro hc h
      simp only [Expr.compiles, Bool.and_eq_true] at hc
      rw [Expr.slice]
      split
      · rfl
      · by_cases hl : Sliceable l
        · rw [ihr hc.1.1.2 (fun hr => h ⟨hl, hr⟩)]
          cases l.slice args <;> rfl
        · rw [ihl hc.1.1.1 hl]; rfl
  | scalL op s r ih =>
      intro hc h
      simp only [Expr.compiles, Bool.and_eq_true] at hc
      rw [Expr.slice]
      split
      · rfl
      · rename_i g
        rw [ih hc.1 (fun hr => h ⟨hr, fun g' g2 => g ⟨g2, by rcases g' with rfl | rfl <;> exact nofun⟩⟩)]; rfl
  | scalR op l s ih =>
      intro hc h
      rw [Expr.slice]
      split
      · rfl
      · rename_i g
        rw [ih hc (fun hr => h ⟨hr, fun g' g2 => g ⟨g2, g'⟩⟩)]; rfl
  | call n f es ih =>
      intro hc h
      simp only [Expr.compiles, List.all_eq_true] at hc
      obtain ⟨i, hi⟩ := not_forall.mp h
      rw [Expr.slice, sequence_none (ih i (hc i (List.mem_finRange i)) hi)]; rfl

/-- **C66** A slice of a lazy expression (of arrays of equal shapes; any nesting, any mix of algebras) exists exactly if no scalar is added to
a matrix in it (and all arrays are in memory); it is again an expression, it has the shape of the slice, and its element `p` is the element of the
expression at the coordinates that the arguments name. -/
theorem C66_slice (len ext : List Int) (mem : List α) (args : List Arg) (h : SliceOf len args ext) (e : Expr α) (hc : e.compiles = true)
    (hs : Shaped len e) (ht : Typed e) (hl : Sliceable e) (hw : ∀ v ∈ leaves e, WF v.lay ∧ SmallestOK v.lay) :
    ∃ e', e.slice args = some e' ∧ e'.compiles = true ∧ e'.shape = ext ∧
      ∀ p, InRange ext p → e'.get p mem = e.get (coords (expand len.length args) p) mem := by
  obtain ⟨e', h1, h2, h3, _, _, _, _, h7⟩ := slice_core len ext mem args h.rank h.fits h.steps h.shape h.ne_nil e hc hs ht hl hw
  exact ⟨e', h1, h2, shape_of h3, h7⟩

/-- C66: the rejected expressions. -/
theorem C66_exists (len ext : List Int) (args : List Arg) (h : SliceOf len args ext) (e : Expr α) (hc : e.compiles = true)
    (hs : Shaped len e) (ht : Typed e) (hw : ∀ v ∈ leaves e, WF v.lay ∧ SmallestOK v.lay) :
    (e.slice args).isSome = true ↔ Sliceable e := by
  constructor
  · intro g
    by_contra hl
    rw [slice_rejects args e hc hl] at g; cases g
  · intro hl
    obtain ⟨e', h1, _⟩ := C66_slice len ext [] args h e hc hs ht hl hw
    rw [h1]; rfl

omit [Add α] [Sub α] [Mul α] [Div α] [Neg α] in
theorem entrywise_of {len : List Int} : ∀ {e : Expr α}, Shaped len e → Sliceable e → Entrywise len e
  | .arr _ _, h, _ => h
  | .fn _ _ _, _, l => l.elim
  | .neg e, h, l => entrywise_of (e := e) h l
  | .bin _ l r, h, g => ⟨entrywise_of (e := l) h.1 g.1, entrywise_of (e := r) h.2 g.2⟩
  | .scalL _ _ r, h, g => ⟨entrywise_of (e := r) h g.1, g.2⟩
  | .scalR _ l _, h, g => ⟨entrywise_of (e := l) h g.1, g.2⟩
  | .call _ _ es, h, g => fun i => entrywise_of (e := es i) (h i) (g i)

/-- C66 with C26: the elements of the slice are the arithmetic expressions of the elements of the arrays at the coordinates named. -/
theorem C66_value [Zero α] (len ext : List Int) (mem : List α) (args : List Arg) (h : SliceOf len args ext) (hin : Inside (expand len.length args) len)
    (e : Expr α) (hc : e.compiles = true) (hs : Shaped len e) (ht : Typed e) (hl : Sliceable e) (elem : View → List Int → α)
    (hg : ∀ v ∈ leaves e, Good v mem.length ∧ ∀ idx, InRange len idx → val mem (addr v idx) = some (elem v idx)) :
    ∃ e', e.slice args = some e' ∧ ∀ p, InRange ext p → e'.get p mem = some (value .A elem e (coords (expand len.length args) p)) := by
  obtain ⟨e', h1, _, _, h7⟩ := C66_slice len ext mem args h e hc hs ht hl (fun v hv => ⟨(hg v hv).1.wf, (hg v hv).1.flags.smallest⟩)
  refine ⟨e', h1, fun p hp => ?_⟩
  have hr := slice_inRange h hin hp
  rw [h7 p hp]
  exact C26_eval_mixed len mem elem _ hr e hc (entrywise_of hs hl) (fun v hv => ⟨(hg v hv).1, (hg v hv).2 _ hr⟩)

omit [Add α] [Sub α] [Mul α] [Div α] [Neg α] in
theorem slices_inRange {as : List (List Arg)} : ∀ {len ext p : List Int}, SlicesOf len as ext → InRange ext p →
    InRange len (coordsAll len.length as p) := by
  induction as with
  | nil => intro len ext p h hp; rw [show ext = len from h] at hp; exact hp
  | cons a as ih =>
      rintro len ext p ⟨mid, h, hin, hr⟩ hp
      have := ih hr hp
      rw [sliceShape_keeps h.shape] at this
      exact slice_inRange h hin this

/-- C66 for slices of slices, to any depth. -/
theorem C66_chain (mem : List α) (as : List (List Arg)) : ∀ (len ext : List Int) (_ : SlicesOf len as ext) (e : Expr α) (_ : e.compiles = true)
    (_ : Shaped len e) (_ : Typed e) (_ : Sliceable e) (_ : ∀ v ∈ leaves e, WF v.lay ∧ SmallestOK v.lay),
    ∃ e', e.slices as = some e' ∧ e'.shape = ext ∧ ∀ p, InRange ext p →
      e'.get p mem = e.get (coordsAll len.length as p) mem := by
  induction as with
  | nil => intro len ext h e _ hs _ _ _; exact ⟨e, rfl, by rw [shape_of hs]; exact h.symm, fun p _ => rfl⟩
  | cons a as ih =>
      rintro len ext ⟨mid, h, _, hr⟩ e hc hs ht hl hw
      obtain ⟨e', h1, h2, h3, h4, h5, _, h8, h7⟩ := slice_core len mid mem a h.rank h.fits h.steps h.shape h.ne_nil e hc hs ht hl hw
      obtain ⟨e2, g1, g2, g3⟩ := ih mid ext hr e' h2 h3 h4 h5 h8
      refine ⟨e2, by rw [Expr.slices, h1]; exact g1, g2, fun p hp => ?_⟩
      rw [g3 p hp, coordsAll, ← sliceShape_keeps h.shape]
      exact h7 _ (slices_inRange hr hp)

end

/-- Two matrices of shape 2 x 3 in memory, one in C order, one in Fortran order. -/
def mC : View := ⟨0, ⟨[2, 3], [3, 1], [0, 1], [0, 0], .contiguous⟩⟩
def mF : View := ⟨6, ⟨[2, 3], [1, 2], [1, 0], [0, 0], .contiguous⟩⟩

theorem mC_wf : WF mC.lay ∧ SmallestOK mC.lay := ⟨⟨by decide, rfl, rfl, rfl⟩, by intro _ u hu; cases hu; rfl⟩
theorem mF_wf : WF mF.lay ∧ SmallestOK mF.lay := ⟨⟨by decide, rfl, rfl, rfl⟩, by intro _ u hu; cases hu; rfl⟩

/-- The hypotheses of `C66_slice` for row 1 of `-(A + 2 * B)`; then a chain: a row, then every other element of it. -/
example : let e : Expr Int := .neg (.bin .add (.arr .M mC) (.scalL .mul 2 (.arr .M mF)))
    SliceOf [2, 3] [.idx 1, .ell] [3] ∧ Inside (expand 2 [.idx 1, .ell]) [2, 3] ∧ e.compiles = true ∧ Shaped [2, 3] e ∧ Typed e ∧ Sliceable e ∧
      (∀ v ∈ leaves e, WF v.lay ∧ SmallestOK v.lay) ∧ (e.slice [.idx 1, .ell]).map Expr.alg = some .V ∧
      (e.slice [.idx 1, .ell]).bind (·.get [2] [0, 1, 2, 3, 4, 5, 10, 11, 12, 13, 14, 15]) = some (-35) ∧
      (e.slices [[.idx 1, .ell], [.rng 0 3 2]]).bind (·.get [1] [0, 1, 2, 3, 4, 5, 10, 11, 12, 13, 14, 15]) = some (-35) := by
  refine ⟨⟨by decide, by decide, by simp, by decide, ?_⟩, ?_, by decide, ⟨rfl, rfl⟩, ⟨⟨nofun, fun _ => rfl, nofun⟩, ⟨nofun, fun _ => rfl, nofun⟩⟩, ⟨trivial, trivial, by simp⟩, ?_,
    by decide, by decide, by decide⟩
  · show SliceShape [.idx 1, .all] [2, 3] [3]
    simp [SliceShape]
  · show Inside [.idx 1, .all] [2, 3]
    simp [Inside, ArgInside]
  · intro v hv
    simp only [leaves, List.singleton_append, List.mem_cons, List.not_mem_nil, or_false] at hv
    rcases hv with rfl | rfl
    exacts [mC_wf, mF_wf]

/-- C66: a matrix plus a scalar has elements, but no rows: its slices do not compile; the row plus the scalar is something else (the scalar is added to
every entry instead of the diagonal). -/
theorem C66_scalar_witness : let e : Expr Int := .scalR .add (.arr .M mC) 100
    e.compiles = true ∧ e.slice [.idx 1, .all] = none ∧ e.get [1, 0] [0, 1, 2, 3, 4, 5] = some 3 ∧
      ((Expr.arr .M mC : Expr Int).slice [.idx 1, .all]).bind (fun r => (Expr.scalR .add r 100).get [0] [0, 1, 2, 3, 4, 5]) = some 103 := by
  refine ⟨by decide, ?_, by decide, by decide⟩
  exact slice_rejects _ _ (by decide) (fun h => h.2 (Or.inl rfl) rfl)

end Nda.Arith
