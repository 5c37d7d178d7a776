import Verif.Lemmas.Spaces
/-!
# C92: arrays in several memories
-/
namespace Nda.Spaces
open Nda Nda.Spec LayoutTransforms Assign Arith Programs Programs.Spec Nda.Spaces.Spec AddressSpace AddressSpace.Spec Nda.Perm Nda.IdxMap Nda.Grid

variable {α : Type}

theorem var_of {env : List Var} {k : Nat} {v : View} (h : (views env)[k]? = some v) : ∃ x, env[k]? = some x ∧ x.view = v := by
  simp only [views, List.getElem?_map, Option.map_eq_some_iff] at h
  exact h

/-- The view of a place outside device memory lies where the processor reaches. -/
theorem place_near {env : List Var} {lim : Nat} {mem : List α} {p : Place} {ext : List Int} {v w : View} {x : Var} (hP : Placed lim env)
    (hF : PlaceFacts (views env) mem.length p ext v w) (hx : env[p.name]? = some x) (hd : x.space ≠ .device) : Good w (mem.take lim).length := by
  refine good_take hF.good (fun idx hi => ?_)
  rw [hF.len] at hi
  rw [hF.addr idx hi]
  obtain ⟨y, hy, e⟩ := var_of hF.base
  rw [hx] at hy; cases hy
  rw [← e]
  exact hP x (List.mem_of_getElem? hx) hd _ (by rw [e]; exact hF.inRange idx hi)

/-! ### Contiguous arrays -/

theorem contiguous_offsets {a : View} {n : Nat} (ha : Good a n) (hc : a.lay.prop = .contiguous) :
    (memBox a.lay.so a.lay.len).map (addr a) = (List.range (Spec.prod a.lay.len).toNat).map (fun k => a.off + Int.ofNat k) := by
  have hst : a.lay.prop.strided1d = true := by rw [hc]; rfl
  obtain ⟨c, h⟩ := ha.flags.strided hst
  obtain ⟨c1, h1, e1⟩ := linear_eq ha.wf (Or.inr hc) hst h ha.flags 1
  have hc1 : c1 = 1 := by
    rw [linear, if_neg (by rw [hc]; decide), if_pos hc] at e1
    simpa using e1.symm
  subst hc1
  have ho := offsets_evenly ha.wf ha.nonneg h1
  have : (memBox a.lay.so a.lay.len).map (addr a) = ((memBox a.lay.so a.lay.len).map (dot a.lay.str)).map (a.off + ·) := by
    rw [List.map_map]; rfl
  rw [this, ho, List.map_map]
  simp [Function.comp_def]

theorem memcpy_copy {a b : View} {mem : List α} (ha : Good a mem.length) (hb : Good b mem.length) (hl : a.lay = b.lay) (hc : a.lay.prop = .contiguous)
    (h1 : OneToOne a) (hsep : Separate a b) :
    ∃ mem', memcpy a.off b.off a.lay.size.toNat mem = some mem' ∧ Updated a (fun idx => val mem (addr b idx)) mem mem' := by
  obtain ⟨mem', e, hu⟩ := copy_enum ha hb (by rw [hl]) h1 hsep (enum_memBox ha.wf)
  refine ⟨mem', ?_, hu⟩
  have oa := contiguous_offsets ha hc
  have ob := contiguous_offsets hb (by rw [← hl]; exact hc)
  rw [← hl] at ob
  rw [memcpy, IdxMap.size_eq]
  rw [if_pos]
  · rw [← e]
    have hm : (memBox a.lay.so a.lay.len).map (fun x => (addr a x, addr b x)) =
        (List.range (Spec.prod a.lay.len).toNat).map (fun k => (a.off + Int.ofNat k, b.off + Int.ofNat k)) := by
      apply pairs_ext
      · simp only [List.map_map]; exact oa
      · simp only [List.map_map]; exact ob
    have h2 := congrArg (fun L : List (Int × Int) => L.foldlM (fun mem (q : Int × Int) => Assign.exec mem ⟨q.1, fun mem => val mem q.2⟩) mem) hm
    simp only [List.foldlM_map] at h2
    rw [h2]
    apply foldlM_congr
    intro k _ s
    simp only [Assign.exec, rdInt_eq]
  · by_contra hcon
    rw [not_or, not_or] at hcon
    obtain ⟨c1, c2, c3⟩ := hcon
    have hE := (memEnum_memBox ha.wf.perm ha.wf.so_len.symm).mem_iff
    have pick : ∀ (k : Nat), k < (Spec.prod a.lay.len).toNat → (∃ x, InRange a.lay.len x ∧ addr a x = a.off + Int.ofNat k) ∧
        ∃ x, InRange a.lay.len x ∧ addr b x = b.off + Int.ofNat k := by
      intro k hk
      have m1 : a.off + Int.ofNat k ∈ (memBox a.lay.so a.lay.len).map (addr a) := by
        rw [oa]; exact List.mem_map.mpr ⟨k, List.mem_range.mpr hk, rfl⟩
      have m2 : b.off + Int.ofNat k ∈ (memBox a.lay.so a.lay.len).map (addr b) := by
        rw [ob]; exact List.mem_map.mpr ⟨k, List.mem_range.mpr hk, rfl⟩
      obtain ⟨x, hx, ex⟩ := List.mem_map.mp m1
      obtain ⟨y, hy, ey⟩ := List.mem_map.mp m2
      exact ⟨⟨x, (hE x).mp hx, ex⟩, ⟨y, (hE y).mp hy, ey⟩⟩
    rcases Int.le_total a.off b.off with hle | hle
    · obtain ⟨⟨x, hx, ex⟩, -⟩ := pick (b.off - a.off).toNat (by omega)
      obtain ⟨-, ⟨y, hy, ey⟩⟩ := pick 0 (by omega)
      refine hsep x y hx (by rw [← hl]; exact hy) ?_
      rw [ex, ey, show (0 : Nat) = 0 from rfl]; simp; omega
    · obtain ⟨⟨x, hx, ex⟩, -⟩ := pick 0 (by omega)
      obtain ⟨-, ⟨y, hy, ey⟩⟩ := pick (a.off - b.off).toNat (by omega)
      refine hsep x y hx (by rw [← hl]; exact hy) ?_
      rw [ex, ey]; simp; omega

/-! ### Statements -/

section
variable [Add α] [Sub α] [Mul α] [Div α] [Neg α] [Zero α]

/-- What is to be shown of a statement: it does what it means, or a variable on the device makes it end the program. -/
def Outcome (env : List Var) (mem : List α) (A : Arrays α) (r : Option (Option (List α))) (s : Stmt α) (dev : Prop) : Prop :=
  (∃ mem' A', r = some (some mem') ∧ mem'.length = mem.length ∧ Effect (lensOf (views env)) A A' s ∧ Holds (views env) mem' A') ∨ (r = some none ∧ dev)

theorem assign_step (hz : Arith.Spec.ZeroLaws α) {lim : Nat} {env : List Var} {mem : List α} {A : Arrays α} (he : EnvOK (views env) mem.length)
    (hP : Placed lim env) (hA : Holds (views env) mem A) {alg : Alg} {p : Place} {e : PExpr α} (hs : OK (views env) (.assign alg p e))
    (h1 : OneSide env e) (h2 : ∀ a q, e = .arr a q → CopyOK env p q) :
    Outcome env mem A (do assignExprS lim env (← env[p.name]?).space (← view (views env) p) e mem) (.assign alg p e)
      (∃ k ∈ p.name :: (places e).map (·.2.name), OnDevice env k) := by
  obtain ⟨ext, hp, hl, hM, h0, hq⟩ := hs
  obtain ⟨b, w, hF⟩ := place_facts he hp
  obtain ⟨x, hx, rfl⟩ := var_of hF.base
  obtain ⟨e', e1, e2, e3, e4, e5, e6⟩ := build_facts he hA alg ext e hl (fun q h => ⟨(hq q h).1, (hq q h).2.1⟩)
  obtain ⟨A', hW⟩ := writes_exists he hp (fun idx => value (lensOf (views env)) A alg e idx) A
  have fin : ∀ mem', Updated w (fun idx => some (Arith.Spec.value alg (elemAt mem) e' idx)) mem mem' →
      mem'.length = mem.length ∧ Effect (lensOf (views env)) A A' (.assign alg p e) ∧ Holds (views env) mem' A' := by
    intro mem' g2
    refine ⟨g2.size, ⟨ext, PlaceFacts.placeShape hp, hW⟩, ?_⟩
    refine holds_updated he hF hA (f := fun idx => value (lensOf (views env)) A alg e idx) ⟨g2.size, fun idx hi => ?_, g2.frame⟩ hW
    rw [g2.elems idx hi, e5 idx (by rw [← hF.len]; exact hi)]
  simp only [hx, hF.eq, Option.bind_eq_bind, Option.bind_some, assignExprS, e1]
  by_cases ha : IsArray e
  · cases e with
    | arr a q =>
        obtain ⟨rfl, hq1, hq2, hq3⟩ := hq (a, q) (by simp [places])
        obtain ⟨b', w', hF'⟩ := place_facts he hq1
        obtain ⟨y, hy, rfl⟩ := var_of hF'.base
        simp only [PExpr.build, hF'.eq, Option.bind_eq_bind, Option.bind_some, Option.pure_def, Option.some.injEq] at e1
        subst e1
        simp only [tyOf, hy, Option.bind_eq_bind, Option.bind_some, Option.pure_def, addrSpace, assignBuilt]
        rcases assignS_copy (lim := lim) (sa := x.space) (sb := y.space) hF.good hF'.good (by rw [hF'.len, hF.len]) hF.one
          (facts_separate he hF hF' (hq3 trivial)) (by rw [hF.len]; exact h0 trivial) (place_near hP hF hx) (place_near hP hF' hy)
          (h2 a q rfl x y w w' hx hy hF.eq hF'.eq) with ⟨mem', g1, g2⟩ | ⟨g1, g2, -⟩
        · refine Or.inl ⟨mem', A', g1, fin mem' ⟨g2.size, fun idx hi => ?_, g2.frame⟩⟩
          rw [g2.elems idx hi]
          rw [hF.len] at hi
          rw [facts_holds hF' hA hi]
          exact congrArg some (elemAt_eq hF' hA hi).symm
        · refine Or.inr ⟨g1, ?_⟩
          rcases g2 with g2 | g2
          · exact ⟨p.name, by simp, x, hx, g2⟩
          · exact ⟨q.name, by simp [places], y, hy, g2⟩
    | _ => exact ha.elim
  · have hne := e6 ha
    have harr : ∀ r, assignBuilt lim (addrOf x.space) r w mem e' = fallbackS lim (addrOf x.space) r w (.expr (fun idx mem => e'.get idx mem)) mem := by
      intro r
      cases e' with
      | arr a v => exact absurd rfl (hne a v)
      | _ => rfl
    rcases h1 with hd | hd
    · obtain ⟨t, t1, t2⟩ := ty_device e hd
      simp only [t1, t2, Option.bind_some, harr]
      refine Or.inr ⟨by simp [fallbackS, onDevice], ?_⟩
      cases hpl : places e with
      | nil =>
          exfalso
          have : ∀ e : PExpr α, places e ≠ [] := by
            intro e
            induction e with
            | arr => simp [places]
            | neg e ih => exact ih
            | bin op l r ihl _ => simp [places, ihl]
            | scalL op s r ih => exact ih
            | scalR op l s ih => exact ih
            | call n f es ih =>
                obtain ⟨x, hx⟩ := List.exists_mem_of_ne_nil _ (ih 0)
                intro hc
                have : x ∈ places (PExpr.call n f es) := by simp only [places, List.mem_flatMap]; exact ⟨0, List.mem_finRange 0, hx⟩
                rw [hc] at this; simp at this
          exact this e hpl
      | cons q l => exact ⟨q.2.name, by simp, hd q (by rw [hpl]; simp)⟩
    · obtain ⟨t, r, t1, t2, t3⟩ := ty_near e (fun q hm => ⟨by
        obtain ⟨v, w', hF'⟩ := place_facts he (hq q hm).2.1
        obtain ⟨y, hy, -⟩ := var_of hF'.base
        exact ⟨y, hy⟩, hd q hm⟩)
      simp only [t1, t2, Option.bind_some, harr]
      rw [fallbackS]
      by_cases hxd : x.space = .device
      · rw [if_pos (by rw [Bool.or_eq_true, onDevice_addr]; exact Or.inl hxd)]
        exact Or.inr ⟨rfl, p.name, by simp, x, hx, hxd⟩
      · rw [if_neg (by rw [Bool.or_eq_true, onDevice_addr, not_or]; exact ⟨hxd, by simp [onDevice, t3]⟩)]
        have near := place_near hP hF hx hxd
        obtain ⟨m', g1, g2⟩ := C26_assign alg w e' (mem.take lim) (elemAt mem) near hF.one hne e2 (by rw [hF.len]; exact e3)
          (fun g => ⟨by rw [hF.len]; exact hM g, hz⟩) (by
            intro v hv
            obtain ⟨q, hqm, b', hF'⟩ := e4 v hv
            obtain ⟨y, hy, -⟩ := var_of hF'.base
            have near' := place_near hP hF' hy (fun hc => hd q hqm ⟨y, hy, hc⟩)
            refine ⟨near', facts_aligned he hF hF' (hq q hqm).2.2.1, by rw [hF'.len, hF.len], fun idx hi => ?_⟩
            rw [hF.len] at hi
            rw [val_take (near'.fits idx (by rw [hF'.len]; exact hi)).2, facts_holds hF' hA hi, elemAt_eq hF' hA hi])
        have g3 : elementwise w (.expr (fun idx mem => e'.get idx mem)) (mem.take lim) = some m' := by
          have : assignExpr w e' (mem.take lim) = fallback .host .host w (.expr (fun idx mem => e'.get idx mem)) (mem.take lim) := by
            cases e' with
            | arr a v => exact absurd rfl (hne a v)
            | _ => rfl
          rw [this, fallback, if_neg (by decide)] at g1
          simpa using g1
        rw [onCpu_some g3]
        exact Or.inl ⟨_, A', rfl, fin _ (updated_lift near g2)⟩

/-- A place overlaps itself at the same index only. -/
theorem sameIndex_self {env : List View} {n : Nat} (he : EnvOK env n) {p : Place} {ext : List Int} (hp : PlaceOK env p ext) : SameIndex (lensOf env) p p ext := by
  intro _ idx jdx hi hj e
  obtain ⟨v, w, hF⟩ := place_facts he hp
  apply hF.one idx jdx (by rw [hF.len]; exact hi) (by rw [hF.len]; exact hj)
  rw [hF.addr idx hi, hF.addr jdx hj, e]

/-- **C92**, one statement: with the variables where the code can handle them, it does what it means on arrays without regard to memories, or it ends the program because of a
variable in device memory; in no case does the processor touch device memory. -/
theorem C92_statement_partial (hz : Arith.Spec.ZeroLaws α) (lim : Nat) (env : List Var) (s : SStmt α) (mem : List α) (A : Arrays α) (he : EnvOK (views env) mem.length)
    (hP : Placed lim env) (hA : Holds (views env) mem A) (hs : OK (views env) (plain s)) (hm : MemOK env s) :
    (∃ mem' A', exec lim env s mem = some (some mem') ∧ mem'.length = mem.length ∧ Effect (lensOf (views env)) A A' (plain s) ∧ Holds (views env) mem' A') ∨
      (exec lim env s mem = some none ∧ UsesDevice env s) := by
  cases s with
  | assign alg p e => exact assign_step hz he hP hA hs hm.1 hm.2
  | compound op alg p e =>
      obtain ⟨ext, hp, hl, hM, hop, hq⟩ := hs
      have := assign_step hz he hP hA (alg := alg) (p := p) (e := .bin op (.arr alg p) e)
        ⟨ext, hp, ⟨trivial, hl, hop⟩, hM, fun h => h.elim, by
          intro q hqm
          simp only [places, List.singleton_append, List.mem_cons] at hqm
          rcases hqm with rfl | hqm
          · exact ⟨rfl, hp, sameIndex_self he hp, fun h => h.elim⟩
          · exact ⟨(hq q hqm).1, (hq q hqm).2.1, (hq q hqm).2.2, fun h => h.elim⟩⟩ hm (by intro a q h; cases h)
      rcases this with ⟨mem', A', g1, g2, ⟨ext', g3, g4⟩, g5⟩ | ⟨g1, k, hk, g2⟩
      · exact Or.inl ⟨mem', A', g1, g2, ⟨ext', g3, g4⟩, g5⟩
      · refine Or.inr ⟨g1, k, ?_, g2⟩
        simpa [names, places] using hk
  | compoundScalar op alg p s =>
      obtain ⟨ext, hp, hM⟩ := hs
      have := assign_step hz he hP hA (alg := alg) (p := p) (e := .scalR op (.arr alg p) s)
        ⟨ext, hp, trivial, hM, fun h => h.elim, by
          intro q hqm
          simp only [places, List.mem_singleton] at hqm
          subst hqm
          exact ⟨rfl, hp, sameIndex_self he hp, fun h => h.elim⟩⟩ (by
            by_cases h : OnDevice env p.name
            · left; simpa [places] using h
            · right; simpa [places] using h) (by intro a q h; cases h)
      rcases this with ⟨mem', A', g1, g2, ⟨ext', g3, g4⟩, g5⟩ | ⟨g1, k, hk, g2⟩
      · exact Or.inl ⟨mem', A', g1, g2, ⟨ext', g3, g4⟩, g5⟩
      · refine Or.inr ⟨g1, k, ?_, g2⟩
        simpa [names, places] using hk
  | fill p s =>
      obtain ⟨ext, hp, h0, hf⟩ := hs
      obtain ⟨b, w, hF⟩ := place_facts he hp
      obtain ⟨x, hx, rfl⟩ := var_of hF.base
      obtain ⟨A', hW⟩ := writes_exists he hp (fun _ => s) A
      have near := place_near hP hF hx (fun h => hm ⟨x, hx, h⟩)
      have hsz : w.lay.size = Spec.prod w.lay.len := IdxMap.size_eq w.lay
      obtain ⟨m', g1, g2⟩ := C18_fill_partial (w.lay.size.toNat + 1) w s (mem.take lim) near (Or.inl (by rw [hF.len]; exact h0)) (by rw [hsz]; omega)
        (fun h => Or.inr (hf.2 w hF.eq h)) (fun _ => Or.inl (by rw [hF.len]; exact hf.1))
      have g3 := updated_lift near g2
      exact Or.inl ⟨_, A', by simp [exec, hF.eq, onCpu_some g1], g3.size, ⟨ext, PlaceFacts.placeShape hp, hW⟩, holds_updated he hF hA g3 hW⟩
  | fillDiag p s =>
      obtain ⟨ext, hp, h2, hf⟩ := hs
      obtain ⟨b, w, hF⟩ := place_facts he hp
      obtain ⟨x, hx, rfl⟩ := var_of hF.base
      obtain ⟨A', hW⟩ := writes_exists he hp (fun idx => if idx.getD 0 0 = idx.getD 1 0 then s else 0) A
      have near := place_near hP hF hx (fun h => hm ⟨x, hx, h⟩)
      match ext, h2, hf, hF, hp, hW with
      | [n0, n1], _, hf, hF, hp, hW =>
      have hsz : w.lay.size = n0 * n1 := by rw [IdxMap.size_eq w.lay, hF.len]; simp [Spec.prod]
      obtain ⟨m', g1, g2⟩ := C18_matrix_partial (w.lay.size.toNat + 1) w 0 s (mem.take lim) n0 n1 hF.len near hF.one (by rw [hsz]; omega)
        (fun h => Or.inr (hf.2 w hF.eq h)) (fun _ => Or.inl ⟨hf.1 _ (by simp), hf.1 _ (by simp)⟩)
      have g3 := updated_lift near g2
      refine Or.inl ⟨_, A', by simp [exec, hF.eq, onCpu_some g1], g3.size, ⟨[n0, n1], PlaceFacts.placeShape hp, hW⟩,
        holds_updated he hF hA ⟨g3.size, fun idx hi => ?_, g3.frame⟩ hW⟩
      rw [g3.elems idx hi]
      split <;> rfl
  | make t p =>
      obtain ⟨ext, hp, -, -, h0, hq⟩ := hs
      obtain ⟨-, hq1, -, hq3⟩ := hq (.A, p) (by simp [places])
      obtain ⟨b, w, hF⟩ := place_facts he hp
      obtain ⟨x, hx, rfl⟩ := var_of hF.base
      obtain ⟨b', w', hF'⟩ := place_facts he hq1
      obtain ⟨y, hy, rfl⟩ := var_of hF'.base
      obtain ⟨A', hW⟩ := writes_exists he hp (fun idx => value (lensOf (views env)) A .A (.arr .A p) idx) A
      have hw : w = x.view := by
        have := hF.eq
        simp only [view, hF.base, Option.bind_eq_bind, Option.bind_some] at this
        simpa [LayoutTransforms.run] using this.symm
      subst hw
      simp only at hx
      simp only [exec, hx, hy, hF'.eq, Option.bind_eq_bind, Option.bind_some]
      rcases assignS_copy (lim := lim) (sa := x.space) (sb := y.space) hF.good hF'.good (by rw [hF'.len, hF.len]) hF.one
          (facts_separate he hF hF' (hq3 trivial)) (by rw [hF.len]; exact h0 trivial) (place_near hP hF hx) (place_near hP hF' hy)
          (hm x y _ w' hx hy hF.eq hF'.eq) with ⟨mem', g1, g2⟩ | ⟨g1, g2, -⟩
      · refine Or.inl ⟨mem', A', g1, g2.size, ⟨ext, PlaceFacts.placeShape hp, hW⟩, ?_⟩
        refine holds_updated he hF hA (f := fun idx => value (lensOf (views env)) A .A (.arr .A p) idx) ⟨g2.size, fun idx hi => ?_, g2.frame⟩ hW
        rw [g2.elems idx hi]
        rw [hF.len] at hi
        rw [facts_holds hF' hA hi]; rfl
      · refine Or.inr ⟨g1, ?_⟩
        rcases g2 with g2 | g2
        · exact ⟨t, by simp [names], x, hx, g2⟩
        · exact ⟨p.name, by simp [names], y, hy, g2⟩
  | convert t u =>
      obtain ⟨ext, hp, -, -, h0, hq⟩ := hs
      obtain ⟨-, hq1, -, hq3⟩ := hq (.A, ⟨u, []⟩) (by simp [places])
      obtain ⟨x, y, hx, hy, hl, hc⟩ := hm
      obtain ⟨b, w, hF⟩ := place_facts he hp
      obtain ⟨b', w', hF'⟩ := place_facts he hq1
      have ev : ∀ {k : Nat} {z : Var}, env[k]? = some z → view (views env) ⟨k, []⟩ = some z.view := by
        intro k z hz; simp [view, views, hz, LayoutTransforms.run]
      have hw : w = x.view := by have := hF.eq; rw [ev hx] at this; exact (Option.some.inj this).symm
      have hw' : w' = y.view := by have := hF'.eq; rw [ev hy] at this; exact (Option.some.inj this).symm
      subst hw; subst hw'
      obtain ⟨A', hW⟩ := writes_exists he hp (fun idx => value (lensOf (views env)) A .A (.arr .A ⟨u, []⟩) idx) A
      have key : ∃ mem', exec lim env (.convert t u) mem = some (some mem') ∧ Updated x.view (fun idx => val mem (addr y.view idx)) mem mem' := by
        simp only [exec, hx, hy, Option.bind_eq_bind, Option.bind_some, if_pos hl]
        by_cases hh : x.space = .host ∧ y.space = .host
        · rw [if_pos hh]
          have near := place_near hP hF (p := ⟨t, []⟩) hx (by rw [hh.1]; decide)
          have near' := place_near hP hF' (p := ⟨u, []⟩) hy (by rw [hh.2]; decide)
          obtain ⟨m', g1, g2⟩ := memcpy_copy near near' hl hc hF.one (facts_separate he hF hF' (hq3 trivial))
          rw [onCpu_some g1]
          have g3 := updated_lift near g2
          refine ⟨_, rfl, g3.size, fun idx hi => ?_, g3.frame⟩
          rw [g3.elems idx hi, val_take (near'.fits idx (by rw [← hl]; exact hi)).2]
        · rw [if_neg hh]
          obtain ⟨m', g1, g2⟩ := memcpy_copy hF.good hF'.good hl hc hF.one (facts_separate he hF hF' (hq3 trivial))
          rw [g1]
          exact ⟨_, rfl, g2⟩
      obtain ⟨mem', g1, g2⟩ := key
      refine Or.inl ⟨mem', A', g1, g2.size, ⟨ext, PlaceFacts.placeShape hp, hW⟩, ?_⟩
      refine holds_updated he hF hA (f := fun idx => value (lensOf (views env)) A .A (.arr .A ⟨u, []⟩) idx) ⟨g2.size, fun idx hi => ?_, g2.frame⟩ hW
      rw [g2.elems idx hi]
      rw [hF.len] at hi
      rw [facts_holds hF' hA hi]; rfl
  | zeros t =>
      obtain ⟨ext, hp, h0, hf⟩ := hs
      obtain ⟨x, hx, hc⟩ := hm
      obtain ⟨b, w, hF⟩ := place_facts he hp
      have hw : w = x.view := by
        have := hF.eq
        rw [show view (views env) ⟨t, []⟩ = some x.view by simp [view, views, hx, LayoutTransforms.run]] at this
        exact (Option.some.inj this).symm
      subst hw
      obtain ⟨A', hW⟩ := writes_exists he hp (fun _ => (0 : α)) A
      have fill : ∀ m : List α, Good x.view m.length →
          ∃ m', Loops.forLoop x.view.lay.size (fun i mem => wrInt mem (x.view.off + i) 0) m = some m' ∧ Updated x.view (fun _ => some 0) m m' := by
        intro m hg
        have hsz : x.view.lay.size = Spec.prod x.view.lay.len := IdxMap.size_eq x.view.lay
        obtain ⟨m', g1, g2⟩ := C18_fill_partial (x.view.lay.size.toNat + 1) x.view 0 m hg (Or.inr hc) (by rw [hsz]; omega)
          (fun h => by rw [hc] at h; exact absurd h (by decide)) (fun h => by rw [hc] at h; exact absurd h (by decide))
        rw [assignScalar, fillWithScalar, if_pos (by rw [hc]; rfl)] at g1
        simp only at g1
        rw [if_pos (by rw [hc]; rfl)] at g1
        exact ⟨m', g1, g2⟩
      have key : ∃ mem', exec lim env (.zeros t) mem = some (some mem') ∧ Updated x.view (fun _ => some 0) mem mem' := by
        simp only [exec, hx, Option.bind_eq_bind, Option.bind_some]
        by_cases hh : x.space = .host
        · rw [if_pos hh]
          have near := place_near hP hF (p := ⟨t, []⟩) hx (by rw [hh]; decide)
          obtain ⟨m', g1, g2⟩ := fill _ near
          rw [onCpu_some g1]
          exact ⟨_, rfl, updated_lift near g2⟩
        · rw [if_neg hh]
          obtain ⟨m', g1, g2⟩ := fill _ hF.good
          rw [g1]
          exact ⟨_, rfl, g2⟩
      obtain ⟨mem', g1, g2⟩ := key
      exact Or.inl ⟨mem', A', g1, g2.size, ⟨ext, PlaceFacts.placeShape hp, hW⟩, holds_updated he hF hA g2 hW⟩

/-- **C92** Programs on arrays in several memories: any sequence of statements of this kind does what it means on arrays (the same as if all of them were on the host, C67), or is
ended by a statement with a variable in device memory; the processor never touches device memory.  Missing: what `MemOK` excludes (`C92_fill_device`, `C92_mixed_witness`, C20). -/
theorem C92_program_partial (hz : Arith.Spec.ZeroLaws α) (lim : Nat) (env : List Var) (hP : Placed lim env) (ss : List (SStmt α)) : ∀ (mem : List α) (A : Arrays α),
    EnvOK (views env) mem.length → Holds (views env) mem A → (∀ s ∈ ss, OK (views env) (plain s) ∧ MemOK env s) →
    (∃ mem' A', runAll lim env ss mem = some (some mem') ∧ mem'.length = mem.length ∧ Effects (lensOf (views env)) (ss.map plain) A A' ∧ Holds (views env) mem' A') ∨
      (runAll lim env ss mem = some none ∧ ∃ s ∈ ss, UsesDevice env s) := by
  induction ss with
  | nil => exact fun mem A _ hA _ => Or.inl ⟨mem, A, rfl, rfl, rfl, hA⟩
  | cons s ss ih =>
      intro mem A he hA hs
      rcases C92_statement_partial hz lim env s mem A he hP hA (hs s (by simp)).1 (hs s (by simp)).2 with ⟨m1, A1, h1, h2, h3, h4⟩ | ⟨h1, h2⟩
      · rcases ih m1 A1 (by rw [h2]; exact he) h4 (fun t ht => hs t (by simp [ht])) with ⟨m2, A2, g1, g2, g3, g4⟩ | ⟨g1, t, ht, g2⟩
        · exact Or.inl ⟨m2, A2, by simp [runAll, h1, g1], by rw [g2, h2], ⟨A1, h3, g3⟩, g4⟩
        · exact Or.inr ⟨by simp [runAll, h1, g1], t, by simp [ht], g2⟩
      · exact Or.inr ⟨by simp [runAll, h1], s, by simp, h2⟩

/-- C92, host and unified memory: a program that does not use the device runs to its end. -/
theorem C92_no_device (hz : Arith.Spec.ZeroLaws α) (lim : Nat) (env : List Var) (hP : Placed lim env) (ss : List (SStmt α)) (mem : List α) (A : Arrays α)
    (he : EnvOK (views env) mem.length) (hA : Holds (views env) mem A) (hs : ∀ s ∈ ss, OK (views env) (plain s) ∧ MemOK env s ∧ ¬ UsesDevice env s) :
    ∃ mem' A', runAll lim env ss mem = some (some mem') ∧ Effects (lensOf (views env)) (ss.map plain) A A' ∧ Holds (views env) mem' A' := by
  rcases C92_program_partial hz lim env hP ss mem A he hA (fun s h => ⟨(hs s h).1, (hs s h).2.1⟩) with ⟨m, A', h1, -, h3, h4⟩ | ⟨-, s, h, h2⟩
  · exact ⟨m, A', h1, h3, h4⟩
  · exact absurd h2 (hs s h).2.2

/-- **C92** Where the arrays are does not matter: a program that runs to its end with the variables in some memories gives the arrays that the program of Model/Programs gives
with all variables on the host, in any layouts. -/
theorem C92_same_as_host (hz : Arith.Spec.ZeroLaws α) (lim : Nat) (env : List Var) (hP : Placed lim env) (ss : List (SStmt α)) (mem mem' : List α) (A : Arrays α)
    (he : EnvOK (views env) mem.length) (hA : Holds (views env) mem A) (hs : ∀ s ∈ ss, OK (views env) (plain s) ∧ MemOK env s) (hr : runAll lim env ss mem = some (some mem'))
    (triv : Bool) (junk : α) (env2 : List View) (mem2 : List α) (hl : lensOf env2 = lensOf (views env)) (he2 : EnvOK env2 mem2.length) (hA2 : Holds env2 mem2 A)
    (hs2 : ∀ s ∈ ss, OK env2 (plain s)) :
    ∃ mem2' A', Programs.runAll triv junk env2 (ss.map plain) mem2 = some (some mem2') ∧ Holds (views env) mem' A' ∧ Holds env2 mem2' A' := by
  rcases C92_program_partial hz lim env hP ss mem A he hA hs with ⟨m, A', h1, -, h3, h4⟩ | ⟨h1, -⟩
  · rw [hr] at h1
    obtain rfl : mem' = m := by simpa using h1
    obtain ⟨m2, A2, g1, -, g3, g4⟩ := C67_program hz triv junk env2 (ss.map plain) mem2 A he2 hA2 (by
      intro s h; obtain ⟨t, ht, rfl⟩ := List.mem_map.mp h; exact hs2 t ht)
    have : A2 = A' := by
      rw [hl] at g3
      exact C67_determined (views env) (ss.map plain) A A2 A' (by intro s h; obtain ⟨t, ht, rfl⟩ := List.mem_map.mp h; exact (hs t ht).1) g3 h3
    subst this
    exact ⟨m2, A2, g1, h4, g4⟩
  · rw [hr] at h1; simp at h1

/-! ### Transfers -/

omit [Add α] [Sub α] [Mul α] [Div α] [Neg α] [Zero α] in
theorem gaps_dense : ∀ l : List Int, gaps l (dense l) = 0
  | [] => rfl
  | [_] => rfl
  | _ :: b :: l => by
      have := gaps_dense (b :: l)
      simp only [dense, gaps] at this ⊢
      cases l <;> simp_all [Spec.prod, dense, mul_comm]

omit [Add α] [Sub α] [Mul α] [Div α] [Neg α] [Zero α] in
theorem gaps_contiguous {a : View} {n : Nat} (ha : Good a n) (hc : a.lay.prop = .contiguous) : gapsOf a = 0 := by
  have hst : a.lay.prop.strided1d = true := by rw [hc]; rfl
  obtain ⟨c, h⟩ := ha.flags.strided hst
  obtain ⟨c1, h1, e1⟩ := linear_eq ha.wf (Or.inr hc) hst h ha.flags 1
  have hc1 : c1 = 1 := by
    rw [linear, if_neg (by rw [hc]; decide), if_pos hc] at e1
    simpa using e1.symm
  subst hc1
  unfold EvenlySpaced at h1
  rw [gapsOf, h1]
  simp [gaps_dense]

/-- **C92** A view with at most one gap in its layout is carried from any memory to any other: a new contiguous array with the same order of dimensions is constructed from it
(`to_device`, `to_host`, `to_unified`, `make_regular`). -/
theorem C92_transfer (lim : Nat) (env : List Var) (t : Nat) (p : Place) (mem : List α) (A : Arrays α) (he : EnvOK (views env) mem.length)
    (hz : Arith.Spec.ZeroLaws α) (hP : Placed lim env) (hA : Holds (views env) mem A) (hs : OK (views env) (plain (.make t p : SStmt α))) (x : Var) (w : View) (hx : env[t]? = some x)
    (hw : view (views env) p = some w) (hc : x.view.lay.prop = .contiguous) (hso : x.view.lay.so = w.lay.so) (hbx : BlockOK x.view.lay) (hbw : BlockOK w.lay) (hg : gapsOf w ≤ 1) :
    ∃ mem' A', exec lim env (.make t p) mem = some (some mem') ∧ mem'.length = mem.length ∧ Effect (lensOf (views env)) A A' (plain (.make t p : SStmt α)) ∧ Holds (views env) mem' A' := by
  have hview : view (views env) ⟨t, []⟩ = some x.view := by simp [view, views, hx, LayoutTransforms.run]
  have hm : MemOK env (.make t p : SStmt α) := by
    intro x' y' v' w' h1 h2 h3 h4
    simp only at h1
    rw [hview] at h3; rw [hw] at h4
    cases h3; cases h4
    exact Or.inr (Or.inr ⟨hbx, hbw⟩)
  rcases C92_statement_partial hz lim env (.make t p) mem A he hP hA hs hm with h | ⟨h, -⟩
  · exact h
  · exfalso
    obtain ⟨ext, hp, -, -, h0, hq⟩ := hs
    obtain ⟨-, hq1, -, hq3⟩ := hq (.A, p) (by simp [places])
    obtain ⟨b, w1, hF⟩ := place_facts he hp
    obtain ⟨b', w', hF'⟩ := place_facts he hq1
    have e1 := hF.eq; rw [hview] at e1; cases e1
    have e2 := hF'.eq; rw [hw] at e2; cases e2
    obtain ⟨y, hy, rfl⟩ := var_of hF'.base
    simp only [exec, hx, hy, hw, Option.bind_eq_bind, Option.bind_some] at h
    rcases assignS_copy (lim := lim) (sa := x.space) (sb := y.space) hF.good hF'.good (by rw [hF'.len, hF.len]) hF.one
          (facts_separate he hF hF' (hq3 trivial)) (by rw [hF.len]; exact h0 trivial) (place_near hP hF (p := ⟨t, []⟩) hx) (place_near hP hF' hy)
          (Or.inr (Or.inr ⟨hbx, hbw⟩)) with ⟨mem', g1, -⟩ | ⟨-, -, g3⟩
    · rw [h] at g1; simp at g1
    · exact blockCopy_possible hF.good.wf hF'.good.wf hbx hbw (by rw [hF'.len, hF.len]) (Or.inl ⟨gaps_contiguous hF.good hc, hg⟩) mem (g3 hso)

/-- **C92** There and back: a view with at most one gap in its layout is carried to an array in another memory and from there to a third one (`to_host(to_device(v))`); the
outcome has the elements of the view, which has not changed. -/
theorem C92_round_trip (lim : Nat) (env : List Var) (t u : Nat) (p : Place) (mem : List α) (A : Arrays α) (he : EnvOK (views env) mem.length)
    (hz : Arith.Spec.ZeroLaws α) (hP : Placed lim env) (hA : Holds (views env) mem A) (hs : OK (views env) (plain (.make t p : SStmt α)))
    (hs2 : OK (views env) (plain (.make u ⟨t, []⟩ : SStmt α))) (x y : Var) (w : View) (hx : env[t]? = some x) (hy : env[u]? = some y)
    (hw : view (views env) p = some w) (hc : x.view.lay.prop = .contiguous) (hc2 : y.view.lay.prop = .contiguous) (hso : x.view.lay.so = w.lay.so) (hso2 : y.view.lay.so = x.view.lay.so)
    (hbx : BlockOK x.view.lay) (hby : BlockOK y.view.lay) (hbw : BlockOK w.lay) (hg : gapsOf w ≤ 1) (hu : u ≠ p.name) (ht : t ≠ p.name) :
    ∃ mem' A', runAll lim env [.make t p, .make u ⟨t, []⟩] mem = some (some mem') ∧ Holds (views env) mem' A' ∧
      (∀ idx, InRange w.lay.len idx → A' u idx = A p.name (src (lensOf (views env)) p idx)) ∧ A' p.name = A p.name := by
  have hview : ∀ {k : Nat} {z : Var}, env[k]? = some z → view (views env) ⟨k, []⟩ = some z.view := by
    intro k z h; simp [view, views, h, LayoutTransforms.run]
  obtain ⟨m1, A1, h1, h2, h3, h4⟩ := C92_transfer lim env t p mem A he hz hP hA hs x w hx hw hc hso hbx hbw hg
  have hgx : gapsOf x.view ≤ 1 := by
    rw [gaps_contiguous (he.good x.view (List.mem_map.mpr ⟨x, List.mem_of_getElem? hx, rfl⟩)).1 hc]; omega
  obtain ⟨m2, A2, g1, g2, g3, g4⟩ := C92_transfer lim env u ⟨t, []⟩ m1 A1 (by rw [h2]; exact he) hz hP h4 hs2 y x.view hy (hview hx) hc2 hso2 hby hbx hgx
  refine ⟨m2, A2, by simp [runAll, h1, g1], g4, ?_, ?_⟩
  · intro idx hi
    obtain ⟨ext, hp, -, -, -, hq⟩ := hs
    obtain ⟨-, hq1, -, -⟩ := hq (.A, p) (by simp [places])
    obtain ⟨ext2, hp2, -, -, -, hq2⟩ := hs2
    obtain ⟨-, hq3, -, -⟩ := hq2 (.A, ⟨t, []⟩) (by simp [places])
    obtain ⟨e1, s1, w1⟩ := h3
    obtain ⟨e2, s2, w2⟩ := g3
    obtain rfl := placeShape_eq hp s1
    obtain rfl := placeShape_eq hp2 s2
    obtain ⟨b, v1, hF⟩ := place_facts he hp
    obtain ⟨b2, v2, hF2⟩ := place_facts he hq1
    obtain ⟨b3, v3, hF3⟩ := place_facts he hq3
    have q1 := hF.eq; rw [hview hx] at q1; cases q1
    have q2 := hF2.eq; rw [hw] at q2; cases q2
    have q3 := hF3.eq; rw [hview hx] at q3; cases q3
    have hext : e2 = e1 := by rw [← hF3.len, hF.len]
    subst hext
    rw [hF2.len] at hi
    have d1 : ∀ (k : Nat) (idx : List Int), src (lensOf (views env)) ⟨k, []⟩ idx = idx := by intro k idx; simp [src, sourceChain]
    have r1 := w1.1 idx hi
    have r2 := w2.1 idx hi
    simp only [d1, value] at r1 r2
    rw [r2, r1]
  · obtain ⟨e1, s1, w1⟩ := h3
    obtain ⟨e2, s2, w2⟩ := g3
    funext jdx
    rw [w2.2 p.name jdx (by rintro ⟨h, -⟩; exact hu h.symm), w1.2 p.name jdx (by rintro ⟨h, -⟩; exact ht h.symm)]

end

/-- C92 (negative): a scalar assigned to a non-empty array in device memory, whatever it is.  There is no check (unlike the assignment of arrays): the loop on the processor stores to
device memory. -/
theorem C92_fill_device [Add α] [Sub α] [Mul α] [Div α] [Neg α] [Zero α] (lim : Nat) (env : List Var) (k : Nat) (x : Var) (s : α) (mem : List α) (hx : env[k]? = some x)
    (hc : x.view.lay.prop = .contiguous) (hn : 0 < x.view.lay.size) (hl : lim ≤ x.view.off) : exec lim env (.fill ⟨k, []⟩ s) mem = none := by
  have hv : view (views env) ⟨k, []⟩ = some x.view := by simp [view, views, hx, LayoutTransforms.run]
  have : assignScalar (x.view.lay.size.toNat + 1) x.view s (mem.take lim) = none := by
    rw [assignScalar, fillWithScalar, if_pos (by rw [hc]; rfl)]
    simp only
    rw [if_pos (by rw [hc]; rfl), Loops.forLoop]
    obtain ⟨n, hN⟩ : ∃ n, x.view.lay.size.toNat = n + 1 := ⟨x.view.lay.size.toNat - 1, by omega⟩
    rw [hN, List.range_succ_eq_map, List.foldlM_cons]
    have : wrInt (mem.take lim) (x.view.off + Int.ofNat 0) s = none := by
      unfold wrInt
      rw [if_pos (by simp; omega), wr, if_neg (by rw [List.length_take]; simp; omega)]
    simp only [this, Option.bind_eq_bind, Option.bind_none]
  simp [exec, hv, onCpu, this]

/-- Four variables: a (host, 2 by 4), b (host), c (unified), d (device), each 2 by 2.  The processor reaches the first 16 elements of memory. -/
def demoEnv : List Var :=
  let m : IdxMap := ⟨[2, 2], [2, 1], [0, 1], [0, 0], .contiguous⟩
  [⟨.host, ⟨0, ⟨[2, 4], [4, 1], [0, 1], [0, 0], .contiguous⟩⟩⟩, ⟨.host, ⟨8, m⟩⟩, ⟨.unified, ⟨12, m⟩⟩, ⟨.device, ⟨16, m⟩⟩]

/-- `d = to_device(a(_, range(0, 2))); b = to_host(d); b *= 10; c = b + b; d = zeros(..)`. -/
def demoProg : List (SStmt Int) :=
  [.make 3 ⟨0, [.slice [.all, .rng 0 2 1]]⟩, .convert 1 3, .compoundScalar .mul .A ⟨1, []⟩ 10, .assign .A ⟨2, []⟩ (.bin .add (.arr .A ⟨1, []⟩) (.arr .A ⟨1, []⟩)), .zeros 3]

example : runAll 16 demoEnv demoProg ([1, 2, 3, 4, 5, 6, 7, 8] ++ List.replicate 12 0) =
    some (some [1, 2, 3, 4, 5, 6, 7, 8, 10, 20, 50, 60, 20, 40, 100, 120, 0, 0, 0, 0]) := by decide +kernel

theorem demo_env : EnvOK (views demoEnv) 20 := by
  obtain ⟨env, h1, _, h3, _⟩ := declare_facts [([0, 1], [2, 4]), ([0, 1], [2, 2]), ([0, 1], [2, 2]), ([0, 1], [2, 2])] 0 (by
    intro d hd
    simp only [List.mem_cons, List.not_mem_nil, or_false] at hd
    rcases hd with rfl | rfl | rfl | rfl <;> exact ⟨by decide, rfl, by simp [NonNeg]⟩)
  have : declare 0 [([0, 1], [2, 4]), ([0, 1], [2, 2]), ([0, 1], [2, 2]), ([0, 1], [2, 2])] = some (views demoEnv) := by decide
  rw [this] at h1; cases h1
  exact h3

theorem demo_placed : Placed 16 demoEnv := by
  have key : ∀ (l0 l1 s0 off : Int), 0 ≤ s0 → 0 < l0 → 0 < l1 → off + (l0 - 1) * s0 + l1 ≤ 16 → ∀ idx, InRange [l0, l1] idx → off + dot [s0, 1] idx < 16 := by
    intro l0 l1 s0 off hs h0 h1 h idx hi
    match idx, hi with
    | [i, j], hi =>
      obtain ⟨⟨i0, i1⟩, ⟨j0, j1⟩, -⟩ := hi
      simp only [dot]
      have : i * s0 ≤ (l0 - 1) * s0 := Int.mul_le_mul_of_nonneg_right (by omega) hs
      have : s0 * i = i * s0 := Int.mul_comm _ _
      omega
  intro x hx hd idx hi
  simp only [demoEnv, List.mem_cons, List.not_mem_nil, or_false] at hx
  rcases hx with rfl | rfl | rfl | rfl
  · exact key 2 4 4 0 (by decide) (by decide) (by decide) (by decide) idx hi
  · exact key 2 2 2 8 (by decide) (by decide) (by decide) (by decide) idx hi
  · exact key 2 2 2 12 (by decide) (by decide) (by decide) (by decide) idx hi
  · exact absurd rfl hd

theorem demo_place (k : Nat) (v : View) (h : (views demoEnv)[k]? = some v) : PlaceOK (views demoEnv) ⟨k, []⟩ v.lay.len := ⟨_, h, trivial, trivial, rfl⟩

theorem demo_slice : PlaceOK (views demoEnv) ⟨0, [.slice [.all, .rng 0 2 1]]⟩ [2, 2] := by
  have hc : IsCount 0 (stop 2 1 4) 1 2 := ⟨by decide, by decide, fun k _ => by simp [stop]⟩
  have hi : ArgInside (.rng 0 2 1) 4 := by
    refine ⟨by decide, fun k n h h0 h1 => ?_⟩
    have := (h.2.2 k h0).mp h1
    simp [stop] at this
    omega
  exact ⟨_, rfl, ⟨⟨by decide, Or.inl ⟨by simp, rfl⟩, ⟨trivial, hi, trivial⟩⟩, fun _ _ => trivial⟩, ⟨nofun, fun _ _ => trivial⟩, [2, 2], ⟨rfl, hc, trivial⟩, rfl⟩

example : ∀ s ∈ demoProg, OK (views demoEnv) (plain s) ∧ MemOK demoEnv s := by
  have hb : BlockOK ⟨[2, 2], [2, 1], [0, 1], [0, 0], .contiguous⟩ := ⟨by decide, by decide, by decide, by decide⟩
  intro s hs
  simp only [demoProg, List.mem_cons, List.not_mem_nil, or_false] at hs
  rcases hs with rfl | rfl | rfl | rfl | rfl
  · refine ⟨⟨[2, 2], demo_place 3 _ rfl, trivial, nofun, by simp, ?_⟩, ?_⟩
    · intro q hq
      simp only [places, List.mem_singleton] at hq
      subst hq
      exact ⟨rfl, demo_slice, nofun, nofun⟩
    · intro x y v w _ _ h3 h4
      cases h3; cases h4
      exact Or.inr (Or.inr ⟨hb, ⟨by decide, by decide, by decide, by decide⟩⟩)
  · refine ⟨⟨[2, 2], demo_place 1 _ rfl, trivial, nofun, by simp, ?_⟩, ?_⟩
    · intro q hq
      simp only [places, List.mem_singleton] at hq
      subst hq
      exact ⟨rfl, demo_place 3 _ rfl, nofun, nofun⟩
    · exact ⟨_, _, rfl, rfl, rfl, rfl⟩
  · exact ⟨⟨[2, 2], demo_place 1 _ rfl, nofun⟩, trivial⟩
  · refine ⟨⟨[2, 2], demo_place 2 _ rfl, ⟨trivial, trivial, nofun⟩, nofun, nofun, ?_⟩, Or.inr ?_, nofun⟩
    · intro q hq
      simp only [places, List.singleton_append, List.mem_cons, List.not_mem_nil, or_false, or_self] at hq
      subst hq
      exact ⟨rfl, demo_place 1 _ rfl, nofun, nofun⟩
    · intro q hq
      simp only [places, List.singleton_append, List.mem_cons, List.not_mem_nil, or_false, or_self] at hq
      subst hq
      rintro ⟨x, hx, h⟩
      cases hx; cases h
  · refine ⟨⟨[2, 2], demo_place 3 _ rfl, by simp, by decide, fun v hv h => ?_⟩, _, rfl, rfl⟩
    cases hv; cases h

/-- The view of `a` in the program has one gap, as `C92_transfer` and `C92_round_trip` ask for. -/
example : ∃ w, view (views demoEnv) ⟨0, [.slice [.all, .rng 0 2 1]]⟩ = some w ∧ gapsOf w = 1 ∧ BlockOK w.lay ∧ w.lay.so = [0, 1] :=
  ⟨_, rfl, by decide, ⟨by decide, by decide, by decide, by decide⟩, rfl⟩

/-- C92, witness: as `C92_fill_device`; with memory that it reaches the loop would succeed. -/
theorem C92_fill_device_witness : exec 16 demoEnv (.fill ⟨3, []⟩ 7) (List.replicate 20 (0 : Int)) = none ∧
    exec 20 demoEnv (.fill ⟨3, []⟩ 7) (List.replicate 20 (0 : Int)) = some (some (List.replicate 16 0 ++ [7, 7, 7, 7])) := by decide +kernel

/-- C92, witness: the sum of an array in device memory and one in unified memory counts as unified memory (C63), so it is computed on the processor, which cannot read the first. -/
theorem C92_mixed_witness :
    let s : SStmt Int := .assign .A ⟨1, []⟩ (.bin .add (.arr .A ⟨3, []⟩) (.arr .A ⟨2, []⟩))
    exec 16 demoEnv s (List.replicate 20 1) = none ∧ exec 20 demoEnv s (List.replicate 20 1) = some (some (List.replicate 8 1 ++ [2, 2, 2, 2] ++ List.replicate 8 1)) := by decide +kernel

/-- C92, witness: arithmetic on the device, and a view with two gaps taken to the device, end the program: the exception leaves a function that is `noexcept`. -/
theorem C92_terminate_witness :
    exec 16 demoEnv (.compoundScalar .mul .A ⟨3, []⟩ 2) (List.replicate 20 (1 : Int)) = some none ∧
    exec 16 [⟨.host, ⟨0, ⟨[4, 4], [4, 1], [0, 1], [0, 0], .contiguous⟩⟩⟩, ⟨.device, ⟨16, ⟨[2, 2], [2, 1], [0, 1], [0, 0], .contiguous⟩⟩⟩]
      (.make 1 ⟨0, [.slice [.rng 0 4 2, .rng 0 4 2]]⟩) (List.replicate 20 (1 : Int)) = some none := by decide +kernel

/-- C92, witness: the array that `zeros<T, Unified>` makes is not in unified memory: assigning a scalar to it stores to device memory, which is fine for an array made in unified memory.
(Here an array in space `s` starts at cell 4, which the processor does not reach, for device memory, and at cell 0 otherwise.) -/
theorem C92_zeros_unified_witness :
    let m : IdxMap := ⟨[2, 2], [2, 1], [0, 1], [0, 0], .contiguous⟩
    let var : Space → Var := fun s => ⟨s, ⟨match s with | .device => 4 | _ => 0, m⟩⟩
    zerosSpace .unified ≠ .unified ∧
    runAll 4 [var (zerosSpace .unified)] [.zeros 0, .fill ⟨0, []⟩ 1] (List.replicate 8 (5 : Int)) = none ∧
    runAll 4 [var .unified] [.zeros 0, .fill ⟨0, []⟩ 1] (List.replicate 8 (5 : Int)) = some (some [1, 1, 1, 1, 5, 5, 5, 5]) := by decide +kernel

/-- C92: a copy between memories of arrays with different numbers of elements (at most one gap in each layout): the difference is noticed in every build, nothing is written, and the program
ends.  On the host nothing is checked in a release build. -/
theorem C92_mismatch [Add α] [Sub α] [Mul α] [Div α] [Neg α] [Zero α] (lim : Nat) (env : List Var) (t : Nat) (p : Place) (x y : Var) (w : View) (mem : List α) (hx : env[t]? = some x)
    (hy : env[p.name]? = some y) (hw : view (views env) p = some w) (hh : ¬ (x.space = .host ∧ y.space = .host)) (hso : x.view.lay.so = w.lay.so) (hwx : WF x.view.lay) (hww : WF w.lay)
    (hbx : BlockOK x.view.lay) (hbw : BlockOK w.lay) (hgx : gapsOf x.view ≤ 1) (hgw : gapsOf w ≤ 1) (hne : Spec.prod x.view.lay.len ≠ Spec.prod w.lay.len) :
    exec lim env (.make t p) mem = some none := by
  simp only [exec, hx, hy, hw, Option.bind_eq_bind, Option.bind_some]
  rw [assignS, if_pos hso, if_neg (by simp), if_neg (by rw [Bool.and_eq_true, onHost_addr, onHost_addr]; exact hh)]
  rcases getBlockLayout_spec hwx hbx with ⟨g, -⟩ | ⟨-, da, ea, a1, a2, a3, a4, -⟩
  · unfold gapsOf at hgx; omega
  rcases getBlockLayout_spec hww hbw with ⟨g, -⟩ | ⟨-, db, eb, b1, b2, b3, b4, -⟩
  · unfold gapsOf at hgw; omega
  rw [blockCopy, ea, eb]
  simp only [Option.bind_eq_bind, Option.bind_some]
  rw [if_pos (by rw [a4, b4]; exact hne)]
  rfl

/-- The hypotheses of `C92_mismatch` hold for `to_device` of eight elements into an array of four; on the host the copy goes through. -/
example : exec 16 demoEnv (.make 3 ⟨0, []⟩) (List.replicate 20 (1 : Int)) = some none ∧ gapsOf ⟨0, ⟨[2, 4], [4, 1], [0, 1], [0, 0], .contiguous⟩⟩ = 0 ∧
    exec 16 demoEnv (.make 1 ⟨0, []⟩) ((List.range 20).map Int.ofNat) = some (some ([0, 1, 2, 3, 4, 5, 6, 7, 0, 1, 2, 3, 12, 13, 14, 15, 16, 17, 18, 19])) := by decide +kernel
end Nda.Spaces
