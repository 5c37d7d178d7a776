import Verif.Spec.Programs
import Verif.Props.Arithmetic
import Verif.Props.Swap
import Verif.Props.ExprSlice
import Verif.Lemmas.Fresh
/-!
# C67: programs on arrays behave as on mathematical arrays
-/
namespace Nda.Programs
open Nda Nda.Spec LayoutTransforms Assign Arith Nda.Programs.Spec Nda.Perm Nda.IdxMap

variable {α : Type}

/-! ### Views -/

theorem addFast_good {v : View} {n k : Nat} (hv : Good v n) (h1 : OneToOne v) (hf : FastDimsOK v.lay.prop) :
    ∃ v', step v (.addFast k) = some v' ∧ Good v' n ∧ OneToOne v' ∧ ShapeAfter v.lay.len (.addFast k) v'.lay.len ∧
      (∀ idx, InRange v'.lay.len idx → InRange v.lay.len (source v.lay.len.length (.addFast k) idx) ∧ addr v' idx = addr v (source v.lay.len.length (.addFast k) idx)) := by
  obtain ⟨v', e, hF⟩ := step_facts (o := .addFast k) hv.wf hv.flags.smallest trivial
  have hfl := step_flagsOK hv.wf hv.flags (o := .addFast k) trivial (fun _ _ => hf) e
  refine ⟨v', e, ⟨hF.wf, hfl, ?_, fun idx hi => ?_⟩, ?_, hF.shape, fun idx hi => ⟨hF.inRange idx hi, hF.offset idx hi⟩⟩
  · rw [show v'.lay.len = v.lay.len ++ List.replicate k 1 from hF.shape]
    intro l hl
    rcases List.mem_append.mp hl with hl | hl
    · exact hv.nonneg l hl
    · rw [(List.mem_replicate.mp hl).2]; decide
  · have h3 : addr v' idx = addr v _ := hF.offset idx hi
    rw [h3]; exact hv.fits _ (hF.inRange idx hi)
  · intro idx jdx hi hj he
    have h3 : addr v' idx = addr v _ := hF.offset idx hi
    have h4 : addr v' jdx = addr v _ := hF.offset jdx hj
    exact hF.inj idx jdx hi hj (h1 _ _ (hF.inRange idx hi) (hF.inRange jdx hj) (by rw [← h3, ← h4, he]))

theorem chain_good : ∀ {os : List Op} {v : View} {n : Nat}, Good v n → OneToOne v → ChainAllowed v.lay.len os → FastDimsChain v os →
    ∃ v', run v os = some v' ∧ Good v' n ∧ OneToOne v' ∧ ChainShape v.lay.len os v'.lay.len ∧
      (∀ idx, InRange v'.lay.len idx → InRange v.lay.len (sourceChain v.lay.len.length os idx) ∧
        addr v' idx = addr v (sourceChain v.lay.len.length os idx))
  | [], v, n, hv, h1, _, _ => ⟨v, rfl, hv, h1, rfl, fun _ hi => ⟨hi, rfl⟩⟩
  | o :: os, v, n, hv, h1, hc, hd => by
      have key : ∃ v', step v o = some v' ∧ Good v' n ∧ OneToOne v' ∧ ShapeAfter v.lay.len o v'.lay.len ∧
          (∀ idx, InRange v'.lay.len idx → InRange v.lay.len (source v.lay.len.length o idx) ∧ addr v' idx = addr v (source v.lay.len.length o idx)) := by
        cases o with
        | addFast k => exact addFast_good hv h1 (hd.1 k rfl)
        | slice args => exact step_good hv h1 hc.1 nofun
        | permute p => exact step_good hv h1 hc.1 nofun
      obtain ⟨v1, e1, g1, o1, s1, a1⟩ := key
      obtain ⟨v2, e2, g2, o2, s2, a2⟩ := chain_good g1 o1 (hc.2 _ s1) (hd.2 _ e1)
      have hr : v1.lay.len.length = rankAfter v.lay.len.length o := by
        obtain ⟨v1', e1', hF⟩ := step_facts hv.wf hv.flags.smallest hc.1
        rw [e1] at e1'; cases e1'
        exact hF.rank
      refine ⟨v2, by simp [LayoutTransforms.run, e1, e2], g2, o2, ⟨_, s1, s2⟩, fun idx hi => ?_⟩
      obtain ⟨b1, b2⟩ := a2 idx hi
      obtain ⟨c1, c2⟩ := a1 _ b1
      rw [hr] at b2 c1 c2
      exact ⟨c1, b2.trans c2⟩

theorem chainShape_unique : ∀ {os : List Op} {len a b : List Int}, ChainAllowed len os → ChainShape len os a → ChainShape len os b → a = b
  | [], _, _, _, _, ha, hb => by rw [show _ = _ from ha, show _ = _ from hb]
  | o :: os, len, a, b, hc, ⟨m, h1, h2⟩, ⟨m', h1', h2'⟩ => by
      have := shapeAfter_unique hc.1 h1 h1'
      subst this
      exact chainShape_unique (hc.2 _ h1) h2 h2'

/-- Everything about the view of a place. -/
structure PlaceFacts (env : List View) (n : Nat) (p : Place) (ext : List Int) (v w : View) : Prop where
  base : env[p.name]? = some v
  eq : view env p = some w
  good : Good w n
  one : OneToOne w
  len : w.lay.len = ext
  inRange : ∀ idx, InRange ext idx → InRange v.lay.len (src (lensOf env) p idx)
  addr : ∀ idx, InRange ext idx → addr w idx = addr v (src (lensOf env) p idx)

theorem place_facts {env : List View} {n : Nat} (he : EnvOK env n) {p : Place} {ext : List Int} (hp : PlaceOK env p ext) :
    ∃ v w, PlaceFacts env n p ext v w := by
  obtain ⟨v, h1, h2, h3, h4⟩ := hp.ok
  have hv := he.good v (List.mem_of_getElem? h1)
  obtain ⟨w, e, g, o, s, a⟩ := chain_good hv.1 hv.2 h2 h3
  have hl : w.lay.len = ext := chainShape_unique h2 s h4
  have hs : ∀ idx, src (lensOf env) p idx = sourceChain v.lay.len.length p.ops idx := by
    intro idx
    simp [src, lensOf, List.getD, h1]
  refine ⟨v, w, h1, by simp [view, h1, e], g, o, hl, fun idx hi => ?_, fun idx hi => ?_⟩
  · rw [hs]; exact (a idx (by rw [hl]; exact hi)).1
  · rw [hs]; exact (a idx (by rw [hl]; exact hi)).2

theorem PlaceFacts.placeShape {env : List View} {p : Place} {ext : List Int} (hp : PlaceOK env p ext) : PlaceShape (lensOf env) p ext := by
  obtain ⟨v, h1, _, _, h4⟩ := hp.ok
  exact ⟨v.lay.len, by simp [lensOf, h1], h4⟩

theorem placeShape_eq {env : List View} {p : Place} {ext ext' : List Int} (hp : PlaceOK env p ext) (h : PlaceShape (lensOf env) p ext') : ext' = ext := by
  obtain ⟨v, h1, h2, _, h4⟩ := hp.ok
  obtain ⟨len, g1, g2⟩ := h
  simp only [lensOf, List.getElem?_map, h1, Option.map_some, Option.some.injEq] at g1
  subst g1
  exact chainShape_unique h2 g2 h4

theorem env_addr {env : List View} {n : Nat} (he : EnvOK env n) {i j : Nat} {v w : View} (hi : env[i]? = some v) (hj : env[j]? = some w) {a b : List Int}
    (ha : InRange v.lay.len a) (hb : InRange w.lay.len b) (e : addr v a = addr w b) : i = j ∧ a = b := by
  have hij : i = j := by
    obtain ⟨hi', ei⟩ := List.getElem?_eq_some_iff.mp hi
    obtain ⟨hj', ej⟩ := List.getElem?_eq_some_iff.mp hj
    rcases Nat.lt_trichotomy i j with h | h | h
    · have := List.pairwise_iff_getElem.mp he.apart i j hi' hj' h
      rw [ei, ej] at this
      exact absurd e (this a b ha hb)
    · exact h
    · have := List.pairwise_iff_getElem.mp he.apart j i hj' hi' h
      rw [ei, ej] at this
      exact absurd e.symm (this b a hb ha)
  subst hij
  rw [hi] at hj; cases hj
  exact ⟨rfl, (he.good v (List.mem_of_getElem? hi)).2 a b ha hb e⟩

theorem facts_aligned {env : List View} {n : Nat} (he : EnvOK env n) {p q : Place} {ext : List Int} {v w v' w' : View}
    (hp : PlaceFacts env n p ext v w) (hq : PlaceFacts env n q ext v' w') (h : SameIndex (lensOf env) p q ext) : Aligned w w' := by
  intro idx jdx hi hj e
  rw [hp.len] at hi
  rw [hq.len] at hj
  rw [hp.addr idx hi, hq.addr jdx hj] at e
  obtain ⟨h1, h2⟩ := env_addr he hp.base hq.base (hp.inRange idx hi) (hq.inRange jdx hj) e
  exact h h1 idx jdx hi hj h2

theorem facts_separate {env : List View} {n : Nat} (he : EnvOK env n) {p q : Place} {ext : List Int} {v w v' w' : View}
    (hp : PlaceFacts env n p ext v w) (hq : PlaceFacts env n q ext v' w') (h : Disjoint (lensOf env) p q ext) : Separate w w' := by
  intro idx jdx hi hj e
  rw [hp.len] at hi
  rw [hq.len] at hj
  rw [hp.addr idx hi, hq.addr jdx hj] at e
  obtain ⟨h1, h2⟩ := env_addr he hp.base hq.base (hp.inRange idx hi) (hq.inRange jdx hj) e
  exact h h1 idx jdx hi hj h2

theorem facts_holds {env : List View} {p : Place} {ext : List Int} {v w : View} {mem : List α} {A : Arrays α} (hp : PlaceFacts env mem.length p ext v w)
    (hA : Holds env mem A) {idx : List Int} (hi : InRange ext idx) : val mem (addr w idx) = some (A p.name (src (lensOf env) p idx)) := by
  rw [hp.addr idx hi]
  exact hA _ _ hp.base _ (hp.inRange idx hi)

/-- From an update of memory to an update of the arrays. -/
theorem holds_updated {env : List View} {p : Place} {ext : List Int} {v w : View} {mem mem' : List α} {A A' : Arrays α} (he : EnvOK env mem.length)
    (hp : PlaceFacts env mem.length p ext v w) (hA : Holds env mem A) {f : List Int → α} (hu : Updated w (fun idx => some (f idx)) mem mem')
    (hw : Writes (lensOf env) p ext f A A') : Holds env mem' A' := by
  intro k u hk jdx hj
  by_cases h : k = p.name ∧ ∃ idx, InRange ext idx ∧ src (lensOf env) p idx = jdx
  · obtain ⟨rfl, idx, hi, rfl⟩ := h
    rw [hp.base] at hk; cases hk
    rw [← hp.addr idx hi, hu.elems idx (by rw [hp.len]; exact hi), hw.1 idx hi]
  · rw [hw.2 k jdx h, hu.frame]
    · exact hA k u hk jdx hj
    · rintro ⟨idx, hi, e⟩
      rw [hp.len] at hi
      rw [hp.addr idx hi] at e
      obtain ⟨h1, h2⟩ := env_addr he hp.base hk (hp.inRange idx hi) hj e
      exact h ⟨h1.symm, idx, hi, h2⟩

/-- There is exactly one outcome on the arrays. -/
theorem writes_exists {env : List View} {n : Nat} (he : EnvOK env n) {p : Place} {ext : List Int} (hp : PlaceOK env p ext) (f : List Int → α) (A : Arrays α) :
    ∃ A', Writes (lensOf env) p ext f A A' := by
  classical
  obtain ⟨v, w, hF⟩ := place_facts he hp
  refine ⟨fun k jdx => if h : k = p.name ∧ ∃ idx, InRange ext idx ∧ src (lensOf env) p idx = jdx then f h.2.choose else A k jdx, ?_, ?_⟩
  · intro idx hi
    have h : p.name = p.name ∧ ∃ i, InRange ext i ∧ src (lensOf env) p i = src (lensOf env) p idx := ⟨rfl, idx, hi, rfl⟩
    refine (dif_pos h).trans ?_
    have hc := h.2.choose_spec
    congr 1
    refine hF.one _ _ (by rw [hF.len]; exact hc.1) (by rw [hF.len]; exact hi) ?_
    rw [hF.addr _ hc.1, hF.addr _ hi, hc.2]
  · intro k jdx h
    simp only [dif_neg h]

theorem writes_unique {lens : List (List Int)} {p : Place} {ext : List Int} {f : List Int → α} {A B B' : Arrays α} (h : Writes lens p ext f A B)
    (h' : Writes lens p ext f A B') : B = B' := by
  funext k jdx
  by_cases g : k = p.name ∧ ∃ idx, InRange ext idx ∧ src lens p idx = jdx
  · obtain ⟨rfl, idx, hi, rfl⟩ := g
    rw [h.1 idx hi, h'.1 idx hi]
  · rw [h.2 k jdx g, h'.2 k jdx g]

section
variable [Add α] [Sub α] [Mul α] [Div α] [Neg α] [Zero α]

/-- The element in memory. -/
def elemAt (mem : List α) (v : View) (idx : List Int) : α := (val mem (addr v idx)).getD 0

omit [Add α] [Sub α] [Mul α] [Div α] [Neg α] in
theorem elemAt_eq {env : List View} {p : Place} {ext : List Int} {v w : View} {mem : List α} {A : Arrays α} (hp : PlaceFacts env mem.length p ext v w)
    (hA : Holds env mem A) {idx : List Int} (hi : InRange ext idx) : elemAt mem w idx = A p.name (src (lensOf env) p idx) := by
  rw [elemAt, facts_holds hp hA hi]; rfl

theorem build_facts {env : List View} {mem : List α} (he : EnvOK env mem.length) {A : Arrays α} (hA : Holds env mem A) (alg : Alg) (ext : List Int) :
    ∀ e : PExpr α, Legal alg e → (∀ q ∈ places e, q.1 = alg ∧ PlaceOK env q.2 ext) →
      ∃ e', e.build env = some e' ∧ e'.compiles = true ∧ Arith.Spec.Uniform alg ext e' ∧
        (∀ v ∈ Arith.Spec.leaves e', ∃ q ∈ places e, ∃ b, PlaceFacts env mem.length q.2 ext b v) ∧
        (∀ idx, InRange ext idx → Arith.Spec.value alg (elemAt mem) e' idx = value (lensOf env) A alg e idx) ∧
        (¬ IsArray e → ∀ a v, e' ≠ .arr a v) := by
  intro e
  induction e with
  | arr a p =>
      intro _ hq
      obtain ⟨rfl, hp⟩ := hq (a, p) (by simp [places])
      obtain ⟨b, w, hF⟩ := place_facts he hp
      refine ⟨.arr a w, by simp [PExpr.build, hF.eq], rfl, ⟨rfl, hF.len⟩, ?_, ?_, fun h => absurd trivial h⟩
      · intro v hv
        simp only [Arith.Spec.leaves, List.mem_singleton] at hv
        subst hv
        exact ⟨(a, p), by simp [places], b, hF⟩
      · intro idx hi
        exact elemAt_eq hF hA hi
  | neg e ih =>
      intro hl hq
      obtain ⟨e', h1, h2, h3, h4, h5, -⟩ := ih hl hq
      exact ⟨.neg e', by simp [PExpr.build, h1], h2, h3, h4, fun idx hi => by rw [Arith.Spec.value, h5 idx hi, value], fun _ => nofun⟩
  | bin op l r ihl ihr =>
      intro hl hq
      obtain ⟨l', l1, l2, l3, l4, l5, -⟩ := ihl hl.1 (fun q h => hq q (by simp [places, h]))
      obtain ⟨r', r1, r2, r3, r4, r5, -⟩ := ihr hl.2.1 (fun q h => hq q (by simp [places, h]))
      obtain ⟨la, ls⟩ := uniform_alg l3
      obtain ⟨ra, rs⟩ := uniform_alg r3
      refine ⟨.bin op l' r', by simp [PExpr.build, l1, r1], ?_, ⟨l3, r3⟩, ?_, ?_, fun _ => nofun⟩
      · have := hl.2.2
        simp only [Expr.compiles, l2, r2, ls, rs, la, ra, Bool.true_and, beq_self_eq_true]
        cases op
        · rfl
        · rfl
        · simp [this (Or.inl rfl)]
        · simp [this (Or.inr rfl)]
      · intro v hv
        simp only [Arith.Spec.leaves, List.mem_append] at hv
        rcases hv with hv | hv
        · obtain ⟨q, hq, g⟩ := l4 v hv
          exact ⟨q, by simp [places, hq], g⟩
        · obtain ⟨q, hq, g⟩ := r4 v hv
          exact ⟨q, by simp [places, hq], g⟩
      · intro idx hi
        rw [value, ← l5 idx hi, ← r5 idx hi]
        cases op <;> rfl
  | scalL op s r ih =>
      intro hl hq
      obtain ⟨e', h1, h2, h3, h4, h5, -⟩ := ih hl.1 hq
      refine ⟨.scalL op s e', by simp [PExpr.build, h1], ?_, h3, h4, fun idx hi => ?_, fun _ => nofun⟩
      · have := hl.2
        simp only [Expr.compiles, h2, (uniform_alg h3).1, Bool.true_and]
        cases op <;> simp_all
      · rw [value, ← h5 idx hi]
        cases op <;> rfl
  | scalR op l s ih =>
      intro hl hq
      obtain ⟨e', h1, h2, h3, h4, h5, -⟩ := ih hl hq
      refine ⟨.scalR op e' s, by simp [PExpr.build, h1], h2, h3, h4, fun idx hi => ?_, fun _ => nofun⟩
      rw [value, ← h5 idx hi]
      cases op <;> rfl
  | call n f es ih =>
      intro hl hq
      choose es' h1 h2 h3 h4 h5 h6 using fun i => ih i (hl i) (fun q h => hq q (by
        simp only [places, List.mem_flatMap]; exact ⟨i, List.mem_finRange i, h⟩))
      refine ⟨.call n f es', ?_, ?_, h3, ?_, ?_, fun _ => nofun⟩
      · simp [PExpr.build, sequence_some h1]
      · simp only [Expr.compiles, List.all_eq_true]; exact fun i _ => h2 i
      · intro v hv
        simp only [Arith.Spec.leaves, List.mem_flatMap] at hv
        obtain ⟨i, hi, hv⟩ := hv
        obtain ⟨q, hq, g⟩ := h4 i v hv
        exact ⟨q, by simp only [places, List.mem_flatMap]; exact ⟨i, hi, hq⟩, g⟩
      · intro idx hi
        simp only [Arith.Spec.value, value, h5 _ idx hi]

/-- C67, one statement: it succeeds, and if memory held the arrays `A` before, it holds `A'` after. -/
theorem C67_statement (hz : Arith.Spec.ZeroLaws α) (triv : Bool) (junk : α) (env : List View) (s : Stmt α) (mem : List α) (A : Arrays α) (he : EnvOK env mem.length)
    (hA : Holds env mem A) (hs : OK env s) :
    ∃ mem' A', exec triv junk env s mem = some (some mem') ∧ mem'.length = mem.length ∧ Effect (lensOf env) A A' s ∧ Holds env mem' A' := by
  cases s with
  | assign alg p e =>
      obtain ⟨ext, hp, hl, hM, h0, hq⟩ := hs
      obtain ⟨b, w, hF⟩ := place_facts he hp
      obtain ⟨e', e1, e2, e3, e4, e5, e6⟩ := build_facts he hA alg ext e hl (fun q h => ⟨(hq q h).1, (hq q h).2.1⟩)
      obtain ⟨A', hW⟩ := writes_exists he hp (fun idx => value (lensOf env) A alg e idx) A
      have key : ∃ mem', assignExpr w e' mem = some (some mem') ∧ Updated w (fun idx => some (Arith.Spec.value alg (elemAt mem) e' idx)) mem mem' := by
        by_cases ha : IsArray e
        · cases e with
          | arr a q =>
              obtain ⟨rfl, hq1, hq2, hq3⟩ := hq (a, q) (by simp [places])
              obtain ⟨b', w', hF'⟩ := place_facts he hq1
              simp only [PExpr.build, hF'.eq, Option.bind_eq_bind, Option.bind_some, Option.pure_def, Option.some.injEq] at e1
              subst e1
              obtain ⟨mem', g1, g2⟩ := C17_assign_host true false w w' mem hF.good hF'.good (by rw [hF'.len, hF.len]) hF.one
                (facts_separate he hF hF' (hq3 trivial)) nofun (Or.inl (by rw [hF.len]; exact h0 trivial))
              refine ⟨mem', g1, g2.size, fun idx hi => ?_, g2.frame⟩
              rw [g2.elems idx hi]
              rw [hF.len] at hi
              rw [facts_holds hF' hA hi]
              exact congrArg some (elemAt_eq hF' hA hi).symm
          | _ => exact ha.elim
        · refine C26_assign alg w e' mem (elemAt mem) hF.good hF.one (e6 ha) e2 (by rw [hF.len]; exact e3) (fun g => ⟨by rw [hF.len]; exact hM g, hz⟩) ?_
          intro v hv
          obtain ⟨q, hqm, b', hF'⟩ := e4 v hv
          refine ⟨hF'.good, facts_aligned he hF hF' (hq q hqm).2.2.1, by rw [hF'.len, hF.len], fun idx hi => ?_⟩
          rw [hF.len] at hi
          rw [facts_holds hF' hA hi, elemAt_eq hF' hA hi]
      obtain ⟨mem', g1, g2⟩ := key
      refine ⟨mem', A', ?_, g2.size, ⟨ext, PlaceFacts.placeShape hp, hW⟩, ?_⟩
      · simp [exec, hF.eq, e1, g1]
      · refine holds_updated he hF hA (f := fun idx => value (lensOf env) A alg e idx) ⟨g2.size, fun idx hi => ?_, g2.frame⟩ hW
        rw [g2.elems idx hi, e5 idx (by rw [← hF.len]; exact hi)]
  | compound op alg p e =>
      obtain ⟨ext, hp, hl, hM, hop, hq⟩ := hs
      obtain ⟨b, w, hF⟩ := place_facts he hp
      obtain ⟨e', e1, e2, e3, e4, e5, e6⟩ := build_facts he hA alg ext e hl (fun q h => ⟨(hq q h).1, (hq q h).2.1⟩)
      obtain ⟨A', hW⟩ := writes_exists he hp (fun idx => arith op (A p.name (src (lensOf env) p idx)) (value (lensOf env) A alg e idx)) A
      obtain ⟨mem', g1, g2⟩ := C26_compound op alg w e' mem (elemAt mem) hF.good hF.one e2
        (by cases op with
          | add => exact Or.inl rfl
          | sub => exact Or.inr (Or.inl rfl)
          | mul => exact Or.inr (Or.inr (hop (Or.inl rfl)))
          | div => exact Or.inr (Or.inr (hop (Or.inr rfl)))) (by rw [hF.len]; exact e3) (fun g => ⟨by rw [hF.len]; exact hM g, hz⟩)
        (by
          rintro v (rfl | hv)
          · refine ⟨hF.good, Aligned.self hF.one, rfl, fun idx hi => ?_⟩
            rw [hF.len] at hi
            rw [facts_holds hF hA hi, elemAt_eq hF hA hi]
          · obtain ⟨q, hqm, b', hF'⟩ := e4 v hv
            refine ⟨hF'.good, facts_aligned he hF hF' (hq q hqm).2.2, by rw [hF'.len, hF.len], fun idx hi => ?_⟩
            rw [hF.len] at hi
            rw [facts_holds hF' hA hi, elemAt_eq hF' hA hi])
      refine ⟨mem', A', ?_, g2.size, ⟨ext, PlaceFacts.placeShape hp, hW⟩, ?_⟩
      · simp [exec, hF.eq, e1, g1]
      · refine holds_updated he hF hA (f := fun idx => arith op (A p.name (src (lensOf env) p idx)) (value (lensOf env) A alg e idx))
          ⟨g2.size, fun idx hi => ?_, g2.frame⟩ hW
        rw [g2.elems idx hi]
        rw [hF.len] at hi
        rw [e5 idx hi, elemAt_eq hF hA hi]
        cases op <;> rfl
  | compoundScalar op alg p s =>
      obtain ⟨ext, hp, hM⟩ := hs
      obtain ⟨b, w, hF⟩ := place_facts he hp
      obtain ⟨A', hW⟩ := writes_exists he hp (fun idx => arith op (A p.name (src (lensOf env) p idx)) (Arith.Spec.entry alg op s idx)) A
      obtain ⟨mem', g1, g2⟩ := C26_compound_scalar op alg w s mem (elemAt mem) hF.good hF.one (fun g => ⟨by rw [hF.len]; exact hM g, hz⟩)
        (fun idx hi => by rw [hF.len] at hi; rw [facts_holds hF hA hi, elemAt_eq hF hA hi])
      refine ⟨mem', A', ?_, g2.size, ⟨ext, PlaceFacts.placeShape hp, hW⟩, ?_⟩
      · simp [exec, hF.eq, g1]
      · refine holds_updated he hF hA (f := fun idx => arith op (A p.name (src (lensOf env) p idx)) (Arith.Spec.entry alg op s idx))
          ⟨g2.size, fun idx hi => ?_, g2.frame⟩ hW
        rw [g2.elems idx hi]
        rw [hF.len] at hi
        rw [elemAt_eq hF hA hi]
        cases op <;> rfl
  | fill p s =>
      obtain ⟨ext, hp, h0, hf⟩ := hs
      obtain ⟨b, w, hF⟩ := place_facts he hp
      obtain ⟨A', hW⟩ := writes_exists he hp (fun _ => s) A
      have hsz : w.lay.size = Spec.prod w.lay.len := IdxMap.size_eq w.lay
      obtain ⟨mem', g1, g2⟩ := C18_fill_partial (w.lay.size.toNat + 1) w s mem hF.good (Or.inl (by rw [hF.len]; exact h0)) (by rw [hsz]; omega)
        (fun h => Or.inr (hf.2 w hF.eq h)) (fun _ => Or.inl (by rw [hF.len]; exact hf.1))
      exact ⟨mem', A', by simp [exec, hF.eq, g1], g2.size, ⟨ext, PlaceFacts.placeShape hp, hW⟩, holds_updated he hF hA g2 hW⟩
  | fillDiag p s =>
      obtain ⟨ext, hp, h2, hf⟩ := hs
      obtain ⟨b, w, hF⟩ := place_facts he hp
      obtain ⟨A', hW⟩ := writes_exists he hp (fun idx => if idx.getD 0 0 = idx.getD 1 0 then s else 0) A
      match ext, h2, hf, hF, hp, hW with
      | [n0, n1], _, hf, hF, hp, hW =>
      have hsz : w.lay.size = n0 * n1 := by rw [IdxMap.size_eq w.lay, hF.len]; simp [Spec.prod]
      obtain ⟨mem', g1, g2⟩ := C18_matrix_partial (w.lay.size.toNat + 1) w 0 s mem n0 n1 hF.len hF.good hF.one (by rw [hsz]; omega)
        (fun h => Or.inr (hf.2 w hF.eq h)) (fun _ => Or.inl ⟨hf.1 _ (by simp), hf.1 _ (by simp)⟩)
      refine ⟨mem', A', by simp [exec, hF.eq, g1], g2.size, ⟨[n0, n1], PlaceFacts.placeShape hp, hW⟩, holds_updated he hF hA ⟨g2.size, fun idx hi => ?_, g2.frame⟩ hW⟩
      rw [g2.elems idx hi]
      split <;> rfl
  | swap p q =>
      obtain ⟨ext, hp, hq, h0, hd⟩ := hs
      obtain ⟨b, w, hF⟩ := place_facts he hp
      obtain ⟨b', w', hF'⟩ := place_facts he hq
      obtain ⟨A1, hW1⟩ := writes_exists he hp (fun idx => A q.name (src (lensOf env) q idx)) A
      obtain ⟨A', hW⟩ := writes_exists he hq (fun idx => A p.name (src (lensOf env) p idx)) A1
      obtain ⟨mem', g1, g2, g3, g4⟩ := Swap.C24_deep_swap triv junk w w' false false mem hF.good hF'.good (by rw [hF.len, hF'.len]) hF.one hF'.one
        (facts_separate he hF hF' hd) (by rw [hF.len]; exact h0) nofun nofun
      have hEff : (∀ idx, InRange ext idx → A' p.name (src (lensOf env) p idx) = A q.name (src (lensOf env) q idx) ∧
            A' q.name (src (lensOf env) q idx) = A p.name (src (lensOf env) p idx)) ∧
          ∀ k jdx, ¬ (k = p.name ∧ ∃ idx, InRange ext idx ∧ src (lensOf env) p idx = jdx) →
            ¬ (k = q.name ∧ ∃ idx, InRange ext idx ∧ src (lensOf env) q idx = jdx) → A' k jdx = A k jdx := by
        refine ⟨fun idx hi => ⟨?_, hW.1 idx hi⟩, fun k jdx h1 h2 => ?_⟩
        · rw [hW.2, hW1.1 idx hi]
          rintro ⟨e, j, hj, ej⟩
          exact hd e idx j hi hj ej.symm
        · rw [hW.2 k jdx h2, hW1.2 k jdx h1]
      refine ⟨mem', A', by simp [exec, hF.eq, hF'.eq, g1], g2, ⟨ext, PlaceFacts.placeShape hp, hEff⟩, ?_⟩
      intro k u hk jdx hj
      by_cases h1 : k = p.name ∧ ∃ idx, InRange ext idx ∧ src (lensOf env) p idx = jdx
      · obtain ⟨rfl, idx, hi, rfl⟩ := h1
        rw [hF.base] at hk; cases hk
        rw [← hF.addr idx hi, (g3 idx (by rw [hF.len]; exact hi)).1, facts_holds hF' hA hi, (hEff.1 idx hi).1]
      · by_cases h2 : k = q.name ∧ ∃ idx, InRange ext idx ∧ src (lensOf env) q idx = jdx
        · obtain ⟨rfl, idx, hi, rfl⟩ := h2
          rw [hF'.base] at hk; cases hk
          rw [← hF'.addr idx hi, (g3 idx (by rw [hF.len]; exact hi)).2, facts_holds hF hA hi, (hEff.1 idx hi).2]
        · rw [hEff.2 k jdx h1 h2, g4]
          · exact hA k u hk jdx hj
          · rintro ⟨idx, hi, e⟩
            rw [hF.len] at hi
            rw [hF.addr idx hi] at e
            obtain ⟨a, c⟩ := env_addr he hF.base hk (hF.inRange idx hi) hj e
            exact h1 ⟨a.symm, idx, hi, c⟩
          · rintro ⟨idx, hi, e⟩
            rw [hF'.len] at hi
            rw [hF'.addr idx hi] at e
            obtain ⟨a, c⟩ := env_addr he hF'.base hk (hF'.inRange idx hi) hj e
            exact h2 ⟨a.symm, idx, hi, c⟩

/-- The effect of a statement is determined. -/
theorem effect_unique {env : List View} {A B B' : Arrays α} {s : Stmt α} (hs : OK env s) (h : Effect (lensOf env) A B s) (h' : Effect (lensOf env) A B' s) : B = B' := by
  cases s with
  | assign alg p e =>
      obtain ⟨ext, hp, _⟩ := hs
      obtain ⟨e1, g1, w1⟩ := h
      obtain ⟨e2, g2, w2⟩ := h'
      have := placeShape_eq hp g1; have := placeShape_eq hp g2; subst_vars
      exact writes_unique w1 w2
  | compound op alg p e =>
      obtain ⟨ext, hp, _⟩ := hs
      obtain ⟨e1, g1, w1⟩ := h
      obtain ⟨e2, g2, w2⟩ := h'
      have := placeShape_eq hp g1; have := placeShape_eq hp g2; subst_vars
      exact writes_unique w1 w2
  | compoundScalar op alg p s =>
      obtain ⟨ext, hp, _⟩ := hs
      obtain ⟨e1, g1, w1⟩ := h
      obtain ⟨e2, g2, w2⟩ := h'
      have := placeShape_eq hp g1; have := placeShape_eq hp g2; subst_vars
      exact writes_unique w1 w2
  | fill p s =>
      obtain ⟨ext, hp, _⟩ := hs
      obtain ⟨e1, g1, w1⟩ := h
      obtain ⟨e2, g2, w2⟩ := h'
      have := placeShape_eq hp g1; have := placeShape_eq hp g2; subst_vars
      exact writes_unique w1 w2
  | fillDiag p s =>
      obtain ⟨ext, hp, _⟩ := hs
      obtain ⟨e1, g1, w1⟩ := h
      obtain ⟨e2, g2, w2⟩ := h'
      have := placeShape_eq hp g1; have := placeShape_eq hp g2; subst_vars
      exact writes_unique w1 w2
  | swap p q =>
      obtain ⟨ext, hp, _⟩ := hs
      obtain ⟨e1, g1, w1, w1'⟩ := h
      obtain ⟨e2, g2, w2, w2'⟩ := h'
      obtain rfl := placeShape_eq hp g1
      obtain rfl := placeShape_eq hp g2
      funext k jdx
      by_cases h1 : k = p.name ∧ ∃ idx, InRange e2 idx ∧ src (lensOf env) p idx = jdx
      · obtain ⟨rfl, idx, hi, rfl⟩ := h1
        rw [(w1 idx hi).1, (w2 idx hi).1]
      · by_cases h2 : k = q.name ∧ ∃ idx, InRange e2 idx ∧ src (lensOf env) q idx = jdx
        · obtain ⟨rfl, idx, hi, rfl⟩ := h2
          rw [(w1 idx hi).2, (w2 idx hi).2]
        · rw [w1' k jdx h1 h2, w2' k jdx h1 h2]

/-- **C67** Programs: any sequence of allowed statements (assignments of lazy expressions, compound assignments, scalars, swaps; on views of the variables to any
depth) runs without undefined behaviour or exception, and if memory held the arrays `A` before, it holds after it what the program makes of `A` when read as a program
on mathematical arrays. -/
theorem C67_program (hz : Arith.Spec.ZeroLaws α) (triv : Bool) (junk : α) (env : List View) (ss : List (Stmt α)) : ∀ (mem : List α) (A : Arrays α), EnvOK env mem.length →
    Holds env mem A → (∀ s ∈ ss, OK env s) →
    ∃ mem' A', runAll triv junk env ss mem = some (some mem') ∧ mem'.length = mem.length ∧ Effects (lensOf env) ss A A' ∧ Holds env mem' A' := by
  induction ss with
  | nil => exact fun mem A _ hA _ => ⟨mem, A, rfl, rfl, rfl, hA⟩
  | cons s ss ih =>
      intro mem A he hA hs
      obtain ⟨m1, A1, h1, h2, h3, h4⟩ := C67_statement hz triv junk env s mem A he hA (hs s (by simp))
      obtain ⟨m2, A2, g1, g2, g3, g4⟩ := ih m1 A1 (by rw [h2]; exact he) h4 (fun t ht => hs t (by simp [ht]))
      exact ⟨m2, A2, by simp [runAll, h1, g1], by rw [g2, h2], ⟨A1, h3, g3⟩, g4⟩

theorem assignExpr_never (v : View) (e : Expr α) (mem : List α) : assignExpr v e mem ≠ some none := by
  have hf : ∀ (r : Rhs α), fallback .host .host v r mem ≠ some none := by
    intro r h
    simp [fallback] at h
  intro h
  cases e
  case arr a b =>
    simp only [assignExpr, Assign.assign] at h
    split at h
    · simp only [Bool.false_eq_true, if_false, and_self, if_true] at h
      split at h
      · simp at h
      · exact hf _ h
    · exact hf _ h
  all_goals exact hf _ h

/-- C67: no statement throws, whether it is allowed or not (on the host, in a build without bound checks: the only other outcome is undefined behaviour). -/
theorem C67_no_exception (triv : Bool) (junk : α) (env : List View) (s : Stmt α) (mem : List α) : exec triv junk env s mem ≠ some none := by
  intro h
  cases s <;> simp only [exec, Option.bind_eq_bind, Option.bind_eq_some_iff, opAssign, pure, Option.some.injEq, reduceCtorEq, and_false, exists_false] at h
  · obtain ⟨_, _, _, _, h⟩ := h; exact assignExpr_never _ _ _ h
  · obtain ⟨_, _, _, _, h⟩ := h; exact assignExpr_never _ _ _ h
  · obtain ⟨_, _, h⟩ := h; exact assignExpr_never _ _ _ h

/-- C67: nor does a program. -/
theorem C67_program_no_exception (triv : Bool) (junk : α) (env : List View) (ss : List (Stmt α)) : ∀ mem : List α, runAll triv junk env ss mem ≠ some none := by
  induction ss with
  | nil => intro mem h; cases h
  | cons s ss ih =>
      intro mem h
      simp only [runAll, Option.bind_eq_bind, Option.bind_eq_some_iff] at h
      obtain ⟨r, h1, h2⟩ := h
      cases r with
      | none => exact C67_no_exception triv junk env s mem h1
      | some m => exact ih m h2

/-- C67: the outcome on the arrays is unique. -/
theorem C67_determined (env : List View) (ss : List (Stmt α)) : ∀ (A B B' : Arrays α), (∀ s ∈ ss, OK env s) → Effects (lensOf env) ss A B → Effects (lensOf env) ss A B' → B = B' := by
  induction ss with
  | nil => intro A B B' _ h h'; rw [show B = A from h, show B' = A from h']
  | cons s ss ih =>
      rintro A B B' hs ⟨C, h1, h2⟩ ⟨C', h1', h2'⟩
      have := effect_unique (hs s (by simp)) h1 h1'
      subst this
      exact ih C B B' (fun t ht => hs t (by simp [ht])) h2 h2'

/-- C67, layouts do not matter: the same program on variables of the same shapes in other memory orders (other memory, other contents of new memory) gives the same arrays. -/
theorem C67_layout (hz : Arith.Spec.ZeroLaws α) (triv triv' : Bool) (junk junk' : α) (env env' : List View) (hl : lensOf env = lensOf env') (ss : List (Stmt α)) (mem mem' : List α)
    (A : Arrays α) (he : EnvOK env mem.length) (he' : EnvOK env' mem'.length) (hA : Holds env mem A) (hA' : Holds env' mem' A) (hs : ∀ s ∈ ss, OK env s) (hs' : ∀ s ∈ ss, OK env' s) :
    ∃ r r', runAll triv junk env ss mem = some (some r) ∧ runAll triv' junk' env' ss mem' = some (some r') ∧
      ∀ (k : Nat) v v', env[k]? = some v → env'[k]? = some v' → ∀ idx, InRange v.lay.len idx → val r (addr v idx) = val r' (addr v' idx) := by
  obtain ⟨r, B, h1, _, h3, h4⟩ := C67_program hz triv junk env ss mem A he hA hs
  obtain ⟨r', B', g1, _, g3, g4⟩ := C67_program hz triv' junk' env' ss mem' A he' hA' hs'
  rw [← hl] at g3
  have := C67_determined env ss A B B' hs h3 g3
  subst this
  refine ⟨r, r', h1, g1, fun k v v' hk hk' idx hi => ?_⟩
  have hlen : v.lay.len = v'.lay.len := by
    have : (lensOf env)[k]? = (lensOf env')[k]? := by rw [hl]
    simpa [lensOf, hk, hk'] using this
  rw [h4 k v hk idx hi, g4 k v' hk' idx (by rw [← hlen]; exact hi)]

end

/-! ### Variables -/

/-- Number of elements of all variables. -/
def total (ds : List (List Nat × List Int)) : Nat := (ds.map (fun d => (Spec.prod d.2).toNat)).sum

theorem declare_facts : ∀ (ds : List (List Nat × List Int)) (base : Nat), (∀ d ∈ ds, IsPerm d.1 ∧ d.1.length = d.2.length ∧ NonNeg d.2) →
    ∃ env, declare base ds = some env ∧ lensOf env = ds.map (·.2) ∧ EnvOK env (base + total ds) ∧
      ∀ v ∈ env, ∀ idx, InRange v.lay.len idx → (base : Int) ≤ addr v idx
  | [], base, _ => ⟨[], rfl, rfl, ⟨nofun, List.Pairwise.nil⟩, nofun⟩
  | (so, len) :: ds, base, h => by
      obtain ⟨hp, hl, hn⟩ : IsPerm so ∧ so.length = len.length ∧ NonNeg len := h (so, len) (by simp)
      obtain ⟨m, hF⟩ := fresh_spec hp hl hn base
      have hsz : m.size.toNat = (Spec.prod len).toNat := by rw [hF.size_eq]
      obtain ⟨env, e1, e2, e3, e4⟩ := declare_facts ds (base + m.size.toNat) (fun d hd => h d (by simp [hd]))
      have ht : base + total ((so, len) :: ds) = base + m.size.toNat + total ds := by
        simp only [total, List.map_cons, List.sum_cons, hsz]; omega
      have hpr : 0 ≤ Spec.prod len := prod_nonneg hn
      refine ⟨⟨(base : Int), m⟩ :: env, ?_, ?_, ⟨?_, ?_⟩, ?_⟩
      · simp [declare, hF.eq, e1]
      · rw [List.map_cons, ← e2, ← hF.len_eq]; rfl
      · intro v hv
        rw [ht]
        rcases List.mem_cons.mp hv with rfl | hv
        · exact ⟨hF.good _ (by rw [hsz]; omega), hF.one⟩
        · exact e3.good v hv
      · refine List.pairwise_cons.mpr ⟨fun v hv idx jdx hi hj e => ?_, e3.apart⟩
        have h1 := (hF.above idx (by rw [← hF.len_eq]; exact hi)).2
        have h2 := e4 v hv jdx hj
        have h3 : ((base + m.size.toNat : Nat) : Int) = base + Spec.prod len := by rw [hsz]; omega
        omega
      · intro v hv idx hi
        rcases List.mem_cons.mp hv with rfl | hv
        · exact (hF.above idx (by rw [← hF.len_eq]; exact hi)).1
        · have := e4 v hv idx hi
          omega

/-- C67, start: variables of any shapes and stride orders can be declared, and whatever memory then contains, they hold some arrays; so that the programs of
`C67_program` can start. -/
theorem C67_start [Inhabited α] (ds : List (List Nat × List Int)) (h : ∀ d ∈ ds, IsPerm d.1 ∧ d.1.length = d.2.length ∧ NonNeg d.2) (mem : List α) (hm : mem.length = total ds) :
    ∃ env, declare 0 ds = some env ∧ lensOf env = ds.map (·.2) ∧ EnvOK env mem.length ∧ ∃ A, Holds env mem A := by
  obtain ⟨env, e1, e2, e3, _⟩ := declare_facts ds 0 h
  rw [Nat.zero_add, ← hm] at e3
  refine ⟨env, e1, e2, e3, fun k idx => ((env[k]?).bind (fun v => val mem (addr v idx))).getD default, fun k v hk idx hi => ?_⟩
  obtain ⟨h0, h1⟩ := (e3.good v (List.mem_of_getElem? hk)).1.fits idx hi
  simp only [hk, Option.bind_some]
  unfold val
  rw [if_neg (by omega), List.getElem?_eq_getElem (by omega)]
  rfl

/-! ### A program -/

/-- Variables: a 2 x 3 in C order, b 3 x 2 in Fortran order. -/
def exEnv : List View := [⟨0, ⟨[2, 3], [3, 1], [0, 1], [0, 0], .contiguous⟩⟩, ⟨6, ⟨[3, 2], [1, 3], [1, 0], [0, 0], .contiguous⟩⟩]

/-- `a = 2 * transpose(b) - a; a(_, 1) += a(_, 0); b = 7; deep_swap(a, transpose(b))`. -/
def exProg : List (Stmt Int) :=
  [.assign .A ⟨0, []⟩ (.bin .sub (.scalL .mul 2 (.arr .A ⟨1, [.permute [1, 0]]⟩)) (.arr .A ⟨0, []⟩)),
   .compound .add .A ⟨0, [.slice [.all, .idx 1]]⟩ (.arr .A ⟨0, [.slice [.all, .idx 0]]⟩),
   .fill ⟨1, []⟩ 7,
   .swap ⟨0, []⟩ ⟨1, [.permute [1, 0]]⟩]

example : declare 0 [([0, 1], [2, 3]), ([1, 0], [3, 2])] = some exEnv := by decide

theorem place_a : PlaceOK exEnv ⟨0, []⟩ [2, 3] := ⟨_, rfl, trivial, trivial, rfl⟩
theorem place_b : PlaceOK exEnv ⟨1, []⟩ [3, 2] := ⟨_, rfl, trivial, trivial, rfl⟩
theorem place_bt : PlaceOK exEnv ⟨1, [.permute [1, 0]]⟩ [2, 3] :=
  ⟨_, rfl, ⟨⟨by decide, rfl⟩, fun _ _ => trivial⟩, ⟨nofun, fun _ _ => trivial⟩, [2, 3], ⟨rfl, by decide⟩, rfl⟩
theorem place_col (k : Int) (h0 : 0 ≤ k) (h1 : k < 3) : PlaceOK exEnv ⟨0, [.slice [.all, .idx k]]⟩ [2] :=
  ⟨_, rfl, ⟨⟨by decide, Or.inl ⟨by simp, rfl⟩, ⟨trivial, ⟨h0, h1⟩, trivial⟩⟩, fun _ _ => trivial⟩, ⟨nofun, fun _ _ => trivial⟩, [2], ⟨rfl, trivial⟩, rfl⟩

theorem exProg_ok : ∀ s ∈ exProg, OK exEnv s := by
  intro s hs
  simp only [exProg, List.mem_cons, List.not_mem_nil, or_false] at hs
  rcases hs with rfl | rfl | rfl | rfl
  · refine ⟨[2, 3], place_a, ⟨⟨trivial, nofun⟩, trivial, nofun⟩, nofun, nofun, ?_⟩
    intro q hq
    simp only [places, List.singleton_append, List.mem_cons, List.not_mem_nil, or_false] at hq
    rcases hq with rfl | rfl
    · exact ⟨rfl, place_bt, nofun, nofun⟩
    · exact ⟨rfl, place_a, fun _ _ _ _ _ h => h, nofun⟩
  · refine ⟨[2], place_col 1 (by decide) (by decide), trivial, nofun, nofun, ?_⟩
    intro q hq
    simp only [places, List.mem_singleton] at hq
    subst hq
    refine ⟨rfl, place_col 0 (by decide) (by decide), fun _ idx jdx hi hj h => ?_⟩
    match idx, jdx, hi, hj, h with
    | [i], [j], _, _, h => simpa [src, lensOf, exEnv, sourceChain, source, expand, expandArg, coords] using h
  · refine ⟨[3, 2], place_b, by simp, by decide, fun v hv h => ?_⟩
    cases hv
    cases h
  · exact ⟨[2, 3], place_a, place_bt, by simp, nofun⟩

theorem exEnv_ok : EnvOK exEnv 12 := by
  obtain ⟨env, h1, _, h3, _⟩ := declare_facts [([0, 1], [2, 3]), ([1, 0], [3, 2])] 0 (by
    intro d hd
    simp only [List.mem_cons, List.not_mem_nil, or_false] at hd
    rcases hd with rfl | rfl
    · exact ⟨by decide, rfl, by simp [NonNeg]⟩
    · exact ⟨by decide, rfl, by simp [NonNeg]⟩)
  have : declare 0 [([0, 1], [2, 3]), ([1, 0], [3, 2])] = some exEnv := by decide
  rw [this] at h1; cases h1
  exact h3

example : runAll true 0 exEnv exProg [1, 2, 3, 4, 5, 6, 10, 20, 30, 40, 50, 60] =
    some (some [7, 7, 7, 7, 7, 7, 19, 57, 57, 76, 171, 114]) := by decide +kernel

/-- The memory of the example, and the arrays that it holds. -/
def exMem : List Int := [1, 2, 3, 4, 5, 6, 10, 20, 30, 40, 50, 60]

/-- The hypotheses of `C67_start`. -/
theorem exEnv_holds : ∃ A, Holds exEnv exMem A := by
  obtain ⟨env, h1, _, _, h4⟩ := C67_start [([0, 1], [2, 3]), ([1, 0], [3, 2])] (by
    intro d hd
    simp only [List.mem_cons, List.not_mem_nil, or_false] at hd
    rcases hd with rfl | rfl
    · exact ⟨by decide, rfl, by simp [NonNeg]⟩
    · exact ⟨by decide, rfl, by simp [NonNeg]⟩) exMem (by decide)
  have : declare 0 [([0, 1], [2, 3]), ([1, 0], [3, 2])] = some exEnv := by decide
  rw [this] at h1; cases h1
  exact h4

/-- The hypotheses of `C67_program` and `C67_statement`. -/
example : ∃ A A' mem', runAll true 0 exEnv exProg exMem = some (some mem') ∧ Effects (lensOf exEnv) exProg A A' ∧ Holds exEnv mem' A' := by
  obtain ⟨A, hA⟩ := exEnv_holds
  obtain ⟨mem', A', h1, _, h2, h3⟩ := C67_program Arith.ZeroLaws.of_group true 0 exEnv exProg exMem A exEnv_ok hA exProg_ok
  exact ⟨A, A', mem', h1, h2, h3⟩

example (A : Arrays Int) (hA : Holds exEnv exMem A) :=
  C67_statement Arith.ZeroLaws.of_group true 0 exEnv (.swap ⟨0, []⟩ ⟨1, [.permute [1, 0]]⟩) exMem A exEnv_ok hA (exProg_ok _ (by simp [exProg]))

example (A B B' : Arrays Int) := C67_determined exEnv exProg A B B' exProg_ok

end Nda.Programs
