import Verif.Spec.ProgramsFlow
import Verif.Props.ProgramsMul
import Verif.Props.Algorithms
/-!
# C83: programs with scalars, branches, loops and local arrays
-/
namespace Nda.Programs
open Nda Nda.Spec LayoutTransforms Assign Arith Blas Matrix Nda.Programs.Spec Nda.Perm

variable {α : Type} [CommRing α] [Div α]

theorem answers_unique {env : List View} {A : Arrays α} {q : Query α} {s s' : α} (hq : QueryOK env q) (h : Answers (lensOf env) A q s) (h' : Answers (lensOf env) A q s') : s = s' := by
  cases q with
  | element alg e idx => rw [show s = _ from h, show s' = _ from h']
  | fold alg f e r =>
      obtain ⟨ext, hf, -⟩ := hq
      obtain ⟨x, L, g1, g2, rfl⟩ := h
      obtain ⟨x', L', g1', g2', rfl⟩ := h'
      obtain rfl := hf.shape_eq g1
      obtain rfl := hf.shape_eq g1'
      rw [g2.eq_box, g2'.eq_box]

/-- The value of a query on memory is its value on the arrays. -/
theorem ask_eq {env : List View} {mem : List α} (he : EnvOK env mem.length) {A : Arrays α} (hA : Holds env mem A) {q : Query α} (hq : QueryOK env q) :
    ∃ s, ask env mem q = some s ∧ Answers (lensOf env) A q s := by
  cases q with
  | element alg e idx =>
      obtain ⟨ext, hf, hM, hi⟩ := hq
      obtain ⟨e', b1, -⟩ := build_facts he hA alg ext e hf.legal hf.shape
      refine ⟨_, ?_, rfl⟩
      simp only [ask, b1, Option.bind_eq_bind, Option.bind_some]
      exact value_later he hA hM hf b1 (fun _ _ => rfl) hi
  | fold alg f e r =>
      obtain ⟨ext, hf, hM⟩ := hq
      obtain ⟨e', b1, b2, b3, -⟩ := build_facts he hA alg ext e hf.legal hf.shape
      refine ⟨_, ?_, ext, _, hf.shapes, lexEnum_box ext, rfl⟩
      simp only [ask, b1, Option.bind_eq_bind, Option.bind_some, C26_shape b3]
      rw [Algorithms.C25_fold f ext _ r _ (lexEnum_box ext)]
      have : (box ext).mapM (fun idx => e'.get idx mem) = some ((box ext).map (value (lensOf env) A alg e)) := by
        have key : ∀ L : List (List Int), (∀ idx ∈ L, InRange ext idx) → L.mapM (fun idx => e'.get idx mem) = some (L.map (value (lensOf env) A alg e)) := by
          intro L
          induction L with
          | nil => intro _; rfl
          | cons i L ih =>
              intro h
              rw [List.mapM_cons, value_later he hA hM hf b1 (fun _ _ => rfl) (h i (by simp)), ih (fun j hj => h j (by simp [hj]))]
              rfl
        exact key _ (fun idx h => mem_box.mp h)
      rw [this]; rfl

theorem puts_exists (lens : List (List Int)) (p : Place) (idx : List Int) (s : α) (A : Arrays α) : ∃ A', Puts lens p idx s A A' := by
  classical
  refine ⟨fun k jdx => if k = p.name ∧ jdx = src lens p idx then s else A k jdx, by simp, fun k jdx h => by simp [h]⟩

theorem puts_unique {lens : List (List Int)} {p : Place} {idx : List Int} {s : α} {A B B' : Arrays α} (h : Puts lens p idx s A B) (h' : Puts lens p idx s A B') : B = B' := by
  funext k jdx
  by_cases g : k = p.name ∧ jdx = src lens p idx
  · obtain ⟨rfl, rfl⟩ := g; rw [h.1, h'.1]
  · rw [h.2 k jdx g, h'.2 k jdx g]

/-- One element is written. -/
theorem put_eq {env : List View} {mem : List α} (he : EnvOK env mem.length) {A : Arrays α} (hA : Holds env mem A) {p : Place} {idx : List Int} (s : α) {ext : List Int}
    (hp : PlaceOK env p ext) (hi : InRange ext idx) {A' : Arrays α} (hP : Puts (lensOf env) p idx s A A') :
    ∃ mem', (view env p).bind (fun v => store v idx s mem) = some mem' ∧ mem'.length = mem.length ∧ Holds env mem' A' := by
  obtain ⟨b, w, hF⟩ := place_facts he hp
  have hi' : InRange w.lay.len idx := by rw [hF.len]; exact hi
  obtain ⟨mem', g1, g2, g3, g4⟩ := wrInt_spec (hF.good.fits idx hi') s
  refine ⟨mem', ?_, g2, fun k u hk jdx hj => ?_⟩
  · rw [hF.eq, Option.bind_some, store, element_eq hF.good.wf hF.good.flags hi']
    exact g1
  · by_cases e : addr u jdx = addr w idx
    · rw [hF.addr idx hi] at e
      obtain ⟨rfl, rfl⟩ := env_addr he hk hF.base hj (hF.inRange idx hi) e
      rw [hP.1]
      rw [hF.base] at hk; cases hk
      rw [← hF.addr idx hi]; exact g3
    · rw [g4 _ e, hA k u hk jdx hj, hP.2]
      rintro ⟨rfl, rfl⟩
      rw [hF.base] at hk; cases hk
      exact e (hF.addr idx hi).symm

/-! ### The place in memory of a variable does not matter -/

def SameLays (env env' : List View) : Prop := env.map (·.lay) = env'.map (·.lay)

theorem step_off {v v' w : View} (hv : v.lay = v'.lay) {o : Op} (h : step v o = some w) : ∃ w', step v' o = some w' ∧ w.lay = w'.lay := by
  cases o with
  | slice args =>
      simp only [step, sliceView, hv] at h ⊢
      simp only [Option.bind_eq_bind, Option.bind_eq_some_iff, Option.pure_def, Option.some.injEq] at h ⊢
      obtain ⟨a, h1, rfl⟩ := h
      exact ⟨_, ⟨a, h1, rfl⟩, rfl⟩
  | permute p =>
      simp only [step, permuted, hv] at h ⊢
      simp only [Option.bind_eq_bind, Option.bind_eq_some_iff, Option.pure_def, Option.some.injEq] at h ⊢
      obtain ⟨a, h1, rfl⟩ := h
      exact ⟨_, ⟨a, h1, rfl⟩, rfl⟩
  | addFast n =>
      simp only [step, Option.some.injEq] at h ⊢
      subst h
      exact ⟨_, rfl, by rw [hv]⟩

theorem run_off : ∀ {os : List Op} {v v' w : View}, v.lay = v'.lay → LayoutTransforms.run v os = some w → ∃ w', LayoutTransforms.run v' os = some w' ∧ w.lay = w'.lay
  | [], v, v', w, hv, h => by cases h; exact ⟨v', rfl, hv⟩
  | o :: os, v, v', w, hv, h => by
      simp only [LayoutTransforms.run, Option.bind_eq_bind, Option.bind_eq_some_iff] at h ⊢
      obtain ⟨u, h1, h2⟩ := h
      obtain ⟨u', g1, g2⟩ := step_off hv h1
      obtain ⟨w', k1, k2⟩ := run_off g2 h2
      exact ⟨w', ⟨u', g1, k1⟩, k2⟩

theorem fastDims_off : ∀ {os : List Op} {v v' : View}, v.lay = v'.lay → FastDimsChain v os → FastDimsChain v' os
  | [], _, _, _, _ => trivial
  | o :: os, v, v', hv, h => ⟨fun n hn => by rw [← hv]; exact h.1 n hn, fun w hw => by
      obtain ⟨w', g1, g2⟩ := step_off hv.symm hw
      exact fastDims_off g2.symm (h.2 w' g1)⟩

namespace SameLays

theorem symm {env env' : List View} (h : SameLays env env') : SameLays env' env := Eq.symm h

theorem get {env env' : List View} (h : SameLays env env') {k : Nat} {v : View} (hv : env[k]? = some v) : ∃ v', env'[k]? = some v' ∧ v.lay = v'.lay := by
  have := congrArg (·[k]?) h
  simp only [List.getElem?_map, hv, Option.map_some] at this
  cases h' : env'[k]? with
  | none => simp [h'] at this
  | some w => exact ⟨w, rfl, by simpa [h'] using this⟩

theorem lens {env env' : List View} (h : SameLays env env') : lensOf env = lensOf env' := by
  have : ∀ e : List View, lensOf e = (e.map (·.lay)).map (·.len) := fun e => by simp [lensOf]
  rw [this, this, show env.map (·.lay) = _ from h]

theorem length {env env' : List View} (h : SameLays env env') : env.length = env'.length := by simpa using congrArg List.length h

theorem concat {env env' : List View} (h : SameLays env env') (a : Int) (m : IdxMap) : SameLays (env ++ [⟨a, m⟩]) (env' ++ [⟨a, m⟩]) := by
  simp only [SameLays, List.map_append] at h ⊢; rw [h]

theorem view {env env' : List View} (h : SameLays env env') {p : Place} {v : View} (hv : Programs.view env p = some v) : ∃ v', Programs.view env' p = some v' ∧ v.lay = v'.lay := by
  simp only [Programs.view, Option.bind_eq_bind, Option.bind_eq_some_iff] at hv ⊢
  obtain ⟨u, h1, h2⟩ := hv
  obtain ⟨u', g1, g2⟩ := h.get h1
  obtain ⟨w', k1, k2⟩ := run_off g2 h2
  exact ⟨w', ⟨u', g1, k1⟩, k2⟩

theorem place {env env' : List View} (h : SameLays env env') {p : Place} {ext : List Int} (hp : PlaceOK env p ext) : PlaceOK env' p ext := by
  obtain ⟨v, h1, h2, h3, h4⟩ := hp.ok
  obtain ⟨v', g1, g2⟩ := h.get h1
  exact ⟨v', g1, by rw [← g2]; exact h2, fastDims_off g2 h3, by rw [← g2]; exact h4⟩

theorem fillable {env env' : List View} (h : SameLays env env') {p : Place} {ext : List Int} (hp : Fillable env p ext) : Fillable env' p ext := by
  refine ⟨hp.1, fun v hv hs => ?_⟩
  obtain ⟨v', g1, g2⟩ := h.symm.view hv
  rw [g2] at hs ⊢
  exact hp.2 v' g1 hs

theorem stmt {env env' : List View} (h : SameLays env env') {s : Stmt α} (hs : OK env s) : OK env' s := by
  cases s with
  | assign alg p e =>
      obtain ⟨ext, h1, h2, h3, h4, h5⟩ := hs
      exact ⟨ext, h.place h1, h2, h3, h4, fun q hq => ⟨(h5 q hq).1, h.place (h5 q hq).2.1, h.lens ▸ (h5 q hq).2.2⟩⟩
  | compound op alg p e =>
      obtain ⟨ext, h1, h2, h3, h4, h5⟩ := hs
      exact ⟨ext, h.place h1, h2, h3, h4, fun q hq => ⟨(h5 q hq).1, h.place (h5 q hq).2.1, h.lens ▸ (h5 q hq).2.2⟩⟩
  | compoundScalar op alg p s => exact hs.imp fun ext g => ⟨h.place g.1, g.2⟩
  | fill p s => exact hs.imp fun ext g => ⟨h.place g.1, g.2.1, h.fillable g.2.2⟩
  | fillDiag p s => exact hs.imp fun ext g => ⟨h.place g.1, g.2.1, h.fillable g.2.2⟩
  | swap p q => exact hs.imp fun ext g => ⟨h.place g.1, h.place g.2.1, g.2.2.1, h.lens ▸ g.2.2.2⟩

theorem factor {env env' : List View} (h : SameLays env env') {alg : Alg} {e : PExpr α} {ext : List Int} (hf : FactorOK env alg e ext) : FactorOK env' alg e ext :=
  ⟨hf.legal, fun q hq => ⟨(hf.shape q hq).1, h.place (hf.shape q hq).2⟩⟩

theorem forBlas {env env' : List View} (h : SameLays env env') {e : PExpr α} {n0 n1 : Int} (hf : ForBlas env e n0 n1) : ForBlas env' e n0 n1 := by
  intro a p he v hv
  obtain ⟨v', g1, g2⟩ := h.symm.view hv
  have := hf a p he v' g1
  exact ⟨by rw [g2]; exact this.len, by rw [g2]; exact this.order, this.bound0, this.bound1⟩

theorem product {env env' : List View} (h : SameLays env env') {x : Product α} {ext : List Int} (hx : ProductOK env ext x) : ProductOK env' ext x := by
  cases x with
  | mm l r =>
      obtain ⟨n0, n1, n2, h1, h2, h3, h4, h5, h6, h7, h8⟩ := hx
      exact ⟨n0, n1, n2, h1, h2, h3, h4, h.factor h5, h.factor h6, h.forBlas h7, h.forBlas h8⟩
  | mv l r =>
      obtain ⟨n0, n1, h1, h2, h3, h4, h5, h6⟩ := hx
      exact ⟨n0, n1, h1, h2, h3, h.factor h4, h.factor h5, h.forBlas h6⟩

theorem cmd {env env' : List View} (h : SameLays env env') {c : Cmd α} (hc : CmdOK env c) : CmdOK env' c := by
  cases c with
  | stmt s => exact h.stmt hc
  | product p x => obtain ⟨ext, g1, g2⟩ := hc; exact ⟨ext, h.place g1, h.product g2⟩
  | productInto op p x => obtain ⟨ho, ext, g1, g2⟩ := hc; exact ⟨ho, ext, h.place g1, h.product g2⟩

theorem query {env env' : List View} (h : SameLays env env') {q : Query α} (hq : QueryOK env q) : QueryOK env' q := by
  cases q with
  | element alg e idx => exact Exists.imp (fun ext g => ⟨h.factor g.1, g.2⟩) hq
  | fold alg f e r => exact Exists.imp (fun ext g => ⟨h.factor g.1, g.2⟩) hq

theorem init {env env' : List View} (h : SameLays env env') {so : List Nat} {ext : List Int} {i : Init α} (hi : InitOK env so ext i) : InitOK env' so ext i := by
  cases i with
  | zeros len => exact hi
  | expr alg e => exact ⟨h.factor hi.1, hi.2⟩

theorem runs {env env' : List View} (h : SameLays env env') {x : Flow α} {A B : Arrays α} (hr : Runs env x A B) : Runs env' x A B := by
  induction hr generalizing env' with
  | skip => exact .skip
  | cmd h1 h2 => exact .cmd (h.cmd h1) (h.lens ▸ h2)
  | put h1 h2 h3 => exact .put (h.place h1) h2 (h.lens ▸ h3)
  | seq _ _ ih1 ih2 => exact .seq (ih1 h) (ih2 h)
  | read h1 h2 _ ih => exact .read (h.query h1) (h.lens ▸ h2) (ih h)
  | stop h1 h2 h3 => exact .stop (h.query h1) (h.lens ▸ h2) h3
  | go h1 h2 h3 _ _ ih1 ih2 => exact .go (h.query h1) (h.lens ▸ h2) h3 (ih1 h) (ih2 h)
  | var h1 h2 _ ih =>
      rw [h.length]
      refine .var (h.init h1) h2 (fun off => ?_)
      rw [← h.length, ← h.lens]
      exact ih off (h.concat off _)

end SameLays

omit [CommRing α] [Div α] in
/-- A new array at the end of memory keeps the others. -/
theorem env_fresh {env : List View} {n k : Nat} (he : EnvOK env n) {so : List Nat} {ext : List Int} {m : IdxMap} (hF : Fresh so ext n m) (hk : n + (Spec.prod ext).toNat ≤ k) :
    EnvOK (env ++ [⟨(n : Int), m⟩]) k := by
  refine ⟨fun v hv => ?_, List.pairwise_append.mpr ⟨he.apart, List.pairwise_singleton _ _, fun v hv w hw => ?_⟩⟩
  · rcases List.mem_append.mp hv with hv | hv
    · exact ⟨(he.good v hv).1.mono (by omega), (he.good v hv).2⟩
    · rw [List.mem_singleton] at hv; subst hv
      exact ⟨hF.good _ hk, hF.one⟩
  · rw [List.mem_singleton] at hw; subst hw
    intro idx jdx hi hj e
    have h1 := ((he.good v hv).1.fits idx hi).2
    have h2 := (hF.above jdx (by rw [← hF.len_eq]; exact hj)).1
    omega

theorem holds_enter {env : List View} {mem mem1 : List α} (he : EnvOK env mem.length) {A : Arrays α} (hA : Holds env mem A) {so : List Nat} {ext : List Int} {m : IdxMap}
    (hF : Fresh so ext mem.length m) (hold : ∀ k : Int, k < mem.length → val mem1 k = val mem k) {f : List Int → α}
    (hnew : ∀ idx, InRange ext idx → val mem1 (addr ⟨(mem.length : Int), m⟩ idx) = some (f idx)) : Holds (env ++ [⟨(mem.length : Int), m⟩]) mem1 (enter env.length f A) := by
  intro k v hk idx hi
  rcases Nat.lt_trichotomy k env.length with h | h | h
  · rw [List.getElem?_append_left h] at hk
    rw [enter, if_neg (by omega), hold _ ((he.good v (List.mem_of_getElem? hk)).1.fits idx hi).2, hA k v hk idx hi]
  · subst h
    rw [List.getElem?_concat_length] at hk; cases hk
    rw [enter, if_pos rfl]
    exact hnew idx (by rw [← hF.len_eq]; exact hi)
  · rw [List.getElem?_eq_none (by simp; omega)] at hk; cases hk

theorem holds_leave {env : List View} {n : Nat} (he : EnvOK env n) {w : View} {mem2 : List α} {A C : Arrays α} (h : Holds (env ++ [w]) mem2 C) :
    Holds env (mem2.take n) (leave env.length A C) := by
  intro k v hk idx hi
  have hlt : k < env.length := (List.getElem?_eq_some_iff.mp hk).1
  rw [val_take ((he.good v (List.mem_of_getElem? hk)).1.fits idx hi).2, leave, if_pos hlt]
  exact h k v (by rw [List.getElem?_append_left hlt]; exact hk) idx hi

/-- A local array is made: it has its elements, and the other variables are as before. -/
theorem create_eq {env : List View} {mem : List α} (he : EnvOK env mem.length) {A : Arrays α} (hA : Holds env mem A) (junk : α) {so : List Nat} {i : Init α} {ext : List Int}
    (hi : InitOK env so ext i) :
    ∃ m mem1, Arr.layoutOf so ext = some m ∧ m.len = ext ∧ create junk env so i mem = some (⟨(mem.length : Int), m⟩, mem1) ∧ EnvOK (env ++ [⟨(mem.length : Int), m⟩]) mem1.length ∧
      Holds (env ++ [⟨(mem.length : Int), m⟩]) mem1 (enter env.length (initValue (lensOf env) A i) A) ∧ mem.length ≤ mem1.length := by
  have rep : ∀ (x : α) (n : Nat) (k : Int), (mem.length : Int) ≤ k → k < mem.length + n → val (mem ++ List.replicate n x) k = some x := by
    intro x n k h0 h1
    unfold val
    rw [if_neg (by omega), List.getElem?_append_right (by omega), List.getElem?_replicate, if_pos (by omega)]
  cases i with
  | zeros len =>
      obtain ⟨rfl, hn, hp, hl⟩ := hi
      obtain ⟨m, hF⟩ := fresh_spec hp hl hn mem.length
      have hpr : 0 ≤ Spec.prod ext := prod_nonneg hn
      refine ⟨m, mem ++ List.replicate m.size.toNat 0, hF.eq, hF.len_eq, by simp [create, hF.eq, hl], env_fresh he hF (by simp [hF.size_eq]), ?_, by simp⟩
      refine holds_enter he hA hF (fun k hk => val_append_left _ hk) (fun idx hi => ?_)
      have := hF.above idx hi
      exact rep 0 _ _ this.1 (by rw [hF.size_eq]; omega)
  | expr alg e =>
      obtain ⟨hf, hM, h0, hp, hl⟩ := hi
      obtain ⟨e', b1, b2, b3, b4, b5, b6⟩ := build_facts he hA alg ext e hf.legal hf.shape
      have hn : NonNeg ext := by
        obtain ⟨q, hq⟩ := places_ne_nil e
        obtain ⟨b, w, hw⟩ := place_facts he (hf.shape q hq).2
        rw [← hw.len]; exact hw.good.nonneg
      obtain ⟨m, hF⟩ := fresh_spec hp hl hn mem.length
      have hpr : 0 ≤ Spec.prod ext := prod_nonneg hn
      let v : View := ⟨(mem.length : Int), m⟩
      let mem0 := mem ++ List.replicate m.size.toNat junk
      have hlen0 : mem0.length = mem.length + (Spec.prod ext).toNat := by simp [mem0, hF.size_eq]
      have hv : Good v mem0.length := hF.good _ (by rw [hlen0])
      have hvl : v.lay.len = ext := hF.len_eq
      have hlow : ∀ w : View, Good w mem.length → Separate v w := by
        intro w hw idx jdx hi hj e
        have h1 := (hw.fits jdx hj).2
        have h2 := (hF.above idx (by rw [← hvl]; exact hi)).1
        have h2' : (mem.length : Int) ≤ addr v idx := h2
        omega
      have hval : ∀ q w b idx, PlaceFacts env mem.length q ext b w → InRange ext idx → val mem0 (addr w idx) = some (elemAt mem w idx) := by
        intro q w b idx hw hi
        rw [val_append_left _ ((hw.good.fits idx (by rw [hw.len]; exact hi)).2), facts_holds hw hA hi, elemAt_eq hw hA hi]
      have key : ∃ mem1, assignExpr v e' mem0 = some (some mem1) ∧ Updated v (fun idx => some (Arith.Spec.value alg (elemAt mem) e' idx)) mem0 mem1 := by
        by_cases ha : IsArray e
        · cases e with
          | arr a q =>
              obtain ⟨rfl, hq1⟩ := hf.shape (a, q) (by simp [places])
              obtain ⟨b', w', hF'⟩ := place_facts he hq1
              simp only [PExpr.build, hF'.eq, Option.bind_eq_bind, Option.bind_some, Option.pure_def, Option.some.injEq] at b1
              subst b1
              obtain ⟨mem', g1, g2⟩ := C17_assign_host true false v w' mem0 hv (hF'.good.mono (by omega)) (by rw [hF'.len, hvl]) hF.one
                (hlow w' hF'.good) nofun (Or.inl (by rw [hvl]; exact h0 trivial))
              refine ⟨mem', g1, g2.size, fun idx hi => ?_, g2.frame⟩
              rw [g2.elems idx hi, hval q w' b' idx hF' (by rw [← hvl]; exact hi)]
              rfl
          | _ => exact ha.elim
        · refine C26_assign alg v e' mem0 (elemAt mem) hv hF.one (b6 ha) b2 (by rw [hvl]; exact b3) (fun g => ⟨by rw [hvl]; exact hM g, ZeroLaws.of_group⟩) ?_
          intro w hw
          obtain ⟨q, -, b', hF'⟩ := b4 w hw
          refine ⟨hF'.good.mono (by omega), Aligned.of_separate (hlow w hF'.good), by rw [hF'.len, hvl], fun idx hi => ?_⟩
          exact hval q.2 w b' idx hF' (by rw [← hvl]; exact hi)
      obtain ⟨mem1, g1, g2⟩ := key
      have hlen1 : mem1.length = mem.length + (Spec.prod ext).toNat := by rw [g2.size, hlen0]
      refine ⟨m, mem1, hF.eq, hF.len_eq, ?_, env_fresh he hF (by omega), ?_, by omega⟩
      · have g1' : assignExpr ⟨(mem.length : Int), m⟩ e' (mem ++ List.replicate m.size.toNat junk) = some (some mem1) := g1
        simp [create, b1, C26_shape b3, hl, hF.eq, g1']
      · refine holds_enter he hA hF (fun k hk => ?_) (fun idx hi => ?_)
        · rw [g2.frame k, val_append_left _ hk]
          rintro ⟨idx, hi, e⟩
          have h2 : (mem.length : Int) ≤ addr v idx := (hF.above idx (by rw [← hvl]; exact hi)).1
          omega
        · rw [show (View.mk (mem.length : Int) m) = v from rfl, g2.elems idx (by rw [hvl]; exact hi), b5 idx hi]; rfl

theorem initOK_shape {env env' : List View} (hl : lensOf env = lensOf env') {so : List Nat} {i : Init α} {ext ext' : List Int} (h : InitOK env so ext i) (h' : InitOK env' so ext' i) : ext' = ext := by
  cases i with
  | zeros len => rw [h.1, h'.1]
  | expr alg e => exact h.1.shape_eq (hl ▸ h'.1.shapes)

theorem lensOf_length {env env' : List View} (hl : lensOf env = lensOf env') : env.length = env'.length := by
  simpa [lensOf] using congrArg List.length hl

theorem lensOf_concat {env env' : List View} (hl : lensOf env = lensOf env') (a b : Int) (m : IdxMap) : lensOf (env ++ [⟨a, m⟩]) = lensOf (env' ++ [⟨b, m⟩]) := by
  simp [lensOf] at hl ⊢; exact hl

/-- The same program on variables of the same shapes, in whatever memory orders, has the same outcome on the arrays. -/
theorem runs_unique {env env' : List View} (hl : lensOf env = lensOf env') {x : Flow α} {A B B' : Arrays α} (h : Runs env x A B) (h' : Runs env' x A B') : B = B' := by
  classical
  induction h generalizing env' B' with
  | skip => cases h'; rfl
  | cmd h1 h2 =>
      cases h' with
      | cmd g1 g2 => exact cmdEffect_unique h1 h2 (hl ▸ g2)
  | put h1 h2 h3 =>
      cases h' with
      | put g1 g2 g3 => exact puts_unique h3 (hl ▸ g3)
  | seq _ _ ih1 ih2 =>
      cases h' with
      | seq g1 g2 => obtain rfl := ih1 hl g1; exact ih2 hl g2
  | read h1 h2 _ ih =>
      cases h' with
      | read g1 g2 g3 => obtain rfl := answers_unique h1 h2 (hl ▸ g2); exact ih hl g3
  | stop h1 h2 h3 =>
      cases h' with
      | stop => rfl
      | go g1 g2 g3 => obtain rfl := answers_unique h1 h2 (hl ▸ g2); rw [h3] at g3; cases g3
  | go h1 h2 h3 _ _ ih1 ih2 =>
      cases h' with
      | stop g1 g2 g3 => obtain rfl := answers_unique h1 h2 (hl ▸ g2); rw [h3] at g3; cases g3
      | go g1 g2 g3 g4 g5 => obtain rfl := ih1 hl g4; exact ih2 hl g5
  | var h1 h2 _ ih =>
      cases h' with
      | var g1 g2 g3 =>
          obtain rfl := initOK_shape hl h1 g1
          rw [h2] at g2; cases g2
          have := g3 0
          rw [← hl, ← lensOf_length hl] at this
          rw [ih 0 (lensOf_concat hl 0 0 _) this, lensOf_length hl]

section
variable [DecidableEq α]

/-- Both runs are unfinished, or both have ended with the same arrays. -/
def Agree (env env' : List View) (x : Flow α) (A : Arrays α) (mem mem' : List α) (r r' : Res α) : Prop :=
  (r = .more ∧ r' = .more) ∨ ∃ m m' B, r = .ok m ∧ r' = .ok m' ∧ m.length = mem.length ∧ m'.length = mem'.length ∧ Runs env x A B ∧ Runs env' x A B ∧ Holds env m B ∧ Holds env' m' B

theorem both (cj cj' : α → α) (triv triv' : Bool) (junk junk' : α) (n : Nat) (x : Flow α) :
    ∀ {env env' : List View}, lensOf env = lensOf env' → ∀ {mem mem' : List α} {A : Arrays α}, EnvOK env mem.length → EnvOK env' mem'.length → Holds env mem A → Holds env' mem' A → Safe env x A → Safe env' x A →
      Agree env env' x A mem mem' (runFlow cj triv junk n env x mem) (runFlow cj' triv' junk' n env' x mem') := by
  induction x with
  | skip => intro env env' hl mem mem' A _ _ hA hA' _ _; exact Or.inr ⟨mem, mem', A, rfl, rfl, rfl, rfl, .skip, .skip, hA, hA'⟩
  | cmd c =>
      intro env env' hl mem mem' A he he' hA hA' hs hs'
      obtain ⟨m, B, g1, g2, g3, g4⟩ := C67_product cj triv junk env c mem A he hA hs
      obtain ⟨m', B', k1, k2, k3, k4⟩ := C67_product cj' triv' junk' env' c mem' A he' hA' hs'
      obtain rfl := cmdEffect_unique hs g3 (hl ▸ k3)
      exact Or.inr ⟨m, m', B, by simp [runFlow, g1], by simp [runFlow, k1], g2, k2, .cmd hs g3, .cmd hs' k3, g4, k4⟩
  | put p idx s =>
      intro env env' hl mem mem' A he he' hA hA' hs hs'
      obtain ⟨ext, hp, hi⟩ := hs
      obtain ⟨ext', hp', hi'⟩ := hs'
      obtain ⟨B, hB⟩ := puts_exists (lensOf env) p idx s A
      obtain ⟨m, g1, g2, g3⟩ := put_eq he hA s hp hi hB
      obtain ⟨m', k1, k2, k3⟩ := put_eq he' hA' s hp' hi' (hl ▸ hB)
      exact Or.inr ⟨m, m', B, by simp [runFlow, g1], by simp [runFlow, k1], g2, k2, .put hp hi hB, .put hp' hi' (hl ▸ hB), g3, k3⟩
  | seq x y ihx ihy =>
      intro env env' hl mem mem' A he he' hA hA' hs hs'
      rcases ihx hl he he' hA hA' hs.1 hs'.1 with ⟨h1, h2⟩ | ⟨m, m', B, h1, h2, h3, h4, h5, h6, h7, h8⟩
      · exact Or.inl ⟨by simp [runFlow, h1], by simp [runFlow, h2]⟩
      · rcases ihy hl (by rw [h3]; exact he) (by rw [h4]; exact he') h7 h8 (hs.2 B h5) (hs'.2 B h6) with ⟨g1, g2⟩ | ⟨m2, m2', C, g1, g2, g3, g4, g5, g6, g7, g8⟩
        · exact Or.inl ⟨by simp [runFlow, h1, g1], by simp [runFlow, h2, g2]⟩
        · exact Or.inr ⟨m2, m2', C, by simp [runFlow, h1, g1], by simp [runFlow, h2, g2], by rw [g3, h3], by rw [g4, h4], .seq h5 g5, .seq h6 g6, g7, g8⟩
  | read q k ih =>
      intro env env' hl mem mem' A he he' hA hA' hs hs'
      obtain ⟨s, a1, a2⟩ := ask_eq he hA hs.1
      obtain ⟨s', a1', a2'⟩ := ask_eq he' hA' hs'.1
      obtain rfl := answers_unique hs.1 a2 (hl ▸ a2')
      rcases ih s hl he he' hA hA' (hs.2 s a2) (hs'.2 s a2') with ⟨h1, h2⟩ | ⟨m, m', B, h1, h2, h3, h4, h5, h6, h7, h8⟩
      · exact Or.inl ⟨by simp [runFlow, a1, h1], by simp [runFlow, a1', h2]⟩
      · exact Or.inr ⟨m, m', B, by simp [runFlow, a1, h1], by simp [runFlow, a1', h2], h3, h4, .read hs.1 a2 h5, .read hs'.1 a2' h6, h7, h8⟩
  | loop q c x ih =>
      intro env env' hl mem mem' A he he' hA hA' hs hs'
      obtain ⟨I, hI, hstep⟩ := hs
      obtain ⟨I', hI', hstep'⟩ := hs'
      simp only [runFlow]
      have key : ∀ (t : Nat) {mem mem' : List α} {A : Arrays α}, EnvOK env mem.length → EnvOK env' mem'.length → Holds env mem A → Holds env' mem' A → I A → I' A →
          Agree env env' (.loop q c x) A mem mem' (repeatWhile (fun mem => (ask env mem q).map c) (runFlow cj triv junk n env x) t mem)
            (repeatWhile (fun mem => (ask env' mem q).map c) (runFlow cj' triv' junk' n env' x) t mem') := by
        intro t
        induction t with
        | zero => intro mem mem' A _ _ _ _ _ _; exact Or.inl ⟨rfl, rfl⟩
        | succ t iht =>
            intro mem mem' A he he' hA hA' hI hI'
            obtain ⟨hq, hc⟩ := hstep A hI
            obtain ⟨hq', hc'⟩ := hstep' A hI'
            obtain ⟨s, a1, a2⟩ := ask_eq he hA hq
            obtain ⟨s', a1', a2'⟩ := ask_eq he' hA' hq'
            obtain rfl := answers_unique hq a2 (hl ▸ a2')
            cases hcs : c s with
            | false =>
                exact Or.inr ⟨mem, mem', A, by simp [repeatWhile, a1, hcs], by simp [repeatWhile, a1', hcs], rfl, rfl, .stop hq a2 hcs, .stop hq' a2' hcs, hA, hA'⟩
            | true =>
                obtain ⟨s1, s2⟩ := hc s a2 hcs
                obtain ⟨s1', s2'⟩ := hc' s a2' hcs
                rcases ih hl he he' hA hA' s1 s1' with ⟨h1, h2⟩ | ⟨m, m', B, h1, h2, h3, h4, h5, h6, h7, h8⟩
                · exact Or.inl ⟨by simp [repeatWhile, a1, hcs, h1], by simp [repeatWhile, a1', hcs, h2]⟩
                · rcases iht (by rw [h3]; exact he) (by rw [h4]; exact he') h7 h8 (s2 B h5) (s2' B h6) with ⟨g1, g2⟩ | ⟨m2, m2', C, g1, g2, g3, g4, g5, g6, g7, g8⟩
                  · exact Or.inl ⟨by simp [repeatWhile, a1, hcs, h1, g1], by simp [repeatWhile, a1', hcs, h2, g2]⟩
                  · exact Or.inr ⟨m2, m2', C, by simp [repeatWhile, a1, hcs, h1, g1], by simp [repeatWhile, a1', hcs, h2, g2], by rw [g3, h3], by rw [g4, h4],
                      .go hq a2 hcs h5 g5, .go hq' a2' hcs h6 g6, g7, g8⟩
      exact key n he he' hA hA' hI hI'
  | var so i x ih =>
      intro env env' hl mem mem' A he he' hA hA' hs hs'
      obtain ⟨ext, m, h1, h2, h3⟩ := hs
      obtain ⟨ext', m', h1', h2', h3'⟩ := hs'
      obtain rfl := initOK_shape hl h1 h1'
      rw [h2] at h2'; cases h2'
      obtain ⟨m1, mem1, c1, c2, c3, c4, c5, c6⟩ := create_eq he hA junk h1
      obtain ⟨m1', mem1', d1, d2, d3, d4, d5, d6⟩ := create_eq he' hA' junk' h1'
      rw [h2] at c1 d1; cases c1; cases d1
      have hn := lensOf_length hl
      rw [← hl, ← hn] at d5 h3'
      rcases ih (lensOf_concat hl _ _ _) c4 d4 c5 d5 (h3 _) (h3' _) with ⟨g1, g2⟩ | ⟨m2, m2', C, g1, g2, g3, g4, g5, g6, g7, g8⟩
      · exact Or.inl ⟨by simp [runFlow, c3, g1], by simp [runFlow, d3, g2]⟩
      · refine Or.inr ⟨m2.take mem.length, m2'.take mem'.length, leave env.length A C, by simp [runFlow, c3, g1], by simp [runFlow, d3, g2], by simp; omega, by simp; omega, ?_, ?_,
          holds_leave he g7, by rw [hn]; exact holds_leave he' g8⟩
        · exact .var h1 h2 (fun off => SameLays.runs (by simp [SameLays]) g5)
        · rw [hn]
          refine .var h1' h2 (fun off => ?_)
          rw [← hl, ← hn]
          exact SameLays.runs (by simp [SameLays]) g6

/-- C83, safety and correctness.  A program all of whose executed statements are allowed has no undefined behaviour and throws nothing, however long it runs; if
it ends, memory holds the arrays that it computes on mathematical arrays. -/
theorem C83_program (cj : α → α) (triv : Bool) (junk : α) (env : List View) (x : Flow α) (mem : List α) (A : Arrays α) (he : EnvOK env mem.length) (hA : Holds env mem A)
    (hs : Safe env x A) (n : Nat) :
    runFlow cj triv junk n env x mem = .more ∨ ∃ mem' B, runFlow cj triv junk n env x mem = .ok mem' ∧ mem'.length = mem.length ∧ Runs env x A B ∧ Holds env mem' B := by
  rcases both cj cj triv triv junk junk n x rfl he he hA hA hs hs with ⟨h, _⟩ | ⟨m, m', B, h1, h2, h3, h4, h5, h6, h7, h8⟩
  · exact Or.inl h
  · exact Or.inr ⟨m, B, h1, h3, h5, h7⟩

/-- C83, completeness.  If the program ends on mathematical arrays, it ends on memory, with these arrays. -/
theorem C83_ends (cj : α → α) (triv : Bool) (junk : α) (env : List View) (x : Flow α) (A B : Arrays α) (hr : Runs env x A B) (mem : List α) (he : EnvOK env mem.length)
    (hA : Holds env mem A) : ∃ N mem', (∀ n, N ≤ n → runFlow cj triv junk n env x mem = .ok mem') ∧ mem'.length = mem.length ∧ Holds env mem' B := by
  have key : ∃ N mem', (∀ n, N ≤ n → runFlow cj triv junk n env x mem = .ok mem') ∧
      (∀ q c y, x = .loop q c y → ∀ n t, N ≤ n → N ≤ t → repeatWhile (fun mem => (ask env mem q).map c) (runFlow cj triv junk n env y) t mem = .ok mem') ∧
      mem'.length = mem.length ∧ Holds env mem' B := by
    induction hr generalizing mem with
    | skip => exact ⟨0, mem, fun _ _ => rfl, nofun, rfl, hA⟩
    | @cmd env c A B h1 h2 =>
        obtain ⟨m, B', g1, g2, g3, g4⟩ := C67_product cj triv junk env c mem A he hA h1
        obtain rfl := cmdEffect_unique h1 h2 g3
        exact ⟨0, m, fun _ _ => by simp [runFlow, g1], nofun, g2, g4⟩
    | put h1 h2 h3 =>
        obtain ⟨m, g1, g2, g3⟩ := put_eq he hA _ h1 h2 h3
        exact ⟨0, m, fun _ _ => by simp [runFlow, g1], nofun, g2, g3⟩
    | seq _ _ ih1 ih2 =>
        obtain ⟨N1, m1, h1, -, h2, h3⟩ := ih1 mem he hA
        obtain ⟨N2, m2, g1, -, g2, g3⟩ := ih2 m1 (by rw [h2]; exact he) h3
        exact ⟨max N1 N2, m2, fun n hn => by simp [runFlow, h1 n (by omega), g1 n (by omega)], nofun, by rw [g2, h2], g3⟩
    | @read env q k s A B h1 h2 _ ih =>
        obtain ⟨s', a1, a2⟩ := ask_eq he hA h1
        obtain rfl := answers_unique h1 h2 a2
        obtain ⟨N, m, g1, -, g2, g3⟩ := ih mem he hA
        exact ⟨N, m, fun n hn => by simp [runFlow, a1, g1 n hn], nofun, g2, g3⟩
    | @stop env q c x s A h1 h2 h3 =>
        obtain ⟨s', a1, a2⟩ := ask_eq he hA h1
        obtain rfl := answers_unique h1 h2 a2
        have hw : ∀ n t, 1 ≤ t → repeatWhile (fun mem => (ask env mem q).map c) (runFlow cj triv junk n env x) t mem = .ok mem := by
          intro n t ht
          obtain ⟨t, rfl⟩ : ∃ u, t = u + 1 := ⟨t - 1, by omega⟩
          simp [repeatWhile, a1, h3]
        refine ⟨1, mem, fun n hn => hw n n hn, ?_, rfl, hA⟩
        rintro _ _ _ ⟨⟩ n t _ ht
        exact hw n t ht
    | @go env q c x s A B C h1 h2 h3 _ _ ih1 ih2 =>
        obtain ⟨s', a1, a2⟩ := ask_eq he hA h1
        obtain rfl := answers_unique h1 h2 a2
        obtain ⟨N1, m1, g1, -, g2, g3⟩ := ih1 mem he hA
        obtain ⟨N2, m2, -, k1, k2, k3⟩ := ih2 m1 (by rw [g2]; exact he) g3
        have hw : ∀ n t, N1 + N2 + 1 ≤ n → N1 + N2 + 1 ≤ t → repeatWhile (fun mem => (ask env mem q).map c) (runFlow cj triv junk n env x) t mem = .ok m2 := by
          intro n t hn ht
          obtain ⟨t, rfl⟩ : ∃ u, t = u + 1 := ⟨t - 1, by omega⟩
          simp only [repeatWhile, a1, Option.map_some, h3, g1 n (by omega)]
          exact k1 q c x rfl n t (by omega) (by omega)
        refine ⟨N1 + N2 + 1, m2, fun n hn => hw n n hn hn, ?_, by rw [k2, g2], k3⟩
        rintro _ _ _ ⟨⟩ n t hn ht
        exact hw n t hn ht
    | var h1 h2 _ ih =>
        obtain ⟨m1, mem1, c1, c2, c3, c4, c5, c6⟩ := create_eq he hA junk h1
        rw [h2] at c1; cases c1
        obtain ⟨N, m2, g1, -, g2, g3⟩ := ih _ mem1 c4 c5
        exact ⟨N, m2.take mem.length, fun n hn => by simp [runFlow, c3, g1 n hn], nofun, by simp; omega, holds_leave he g3⟩
  obtain ⟨N, m, h1, -, h2, h3⟩ := key
  exact ⟨N, m, h1, h2, h3⟩

/-- C83, layouts do not matter.  The same program on variables of the same shapes in other memory orders (other memory, other contents of new memory) takes the same
decisions: for every limit on iterations both are unfinished or both end with the same arrays. -/
theorem C83_layout (cj : α → α) (triv triv' : Bool) (junk junk' : α) (env env' : List View) (hl : lensOf env = lensOf env') (x : Flow α) (mem mem' : List α) (A : Arrays α)
    (he : EnvOK env mem.length) (he' : EnvOK env' mem'.length) (hA : Holds env mem A) (hA' : Holds env' mem' A) (hs : Safe env x A) (hs' : Safe env' x A) (n : Nat) :
    (runFlow cj triv junk n env x mem = .more ∧ runFlow cj triv' junk' n env' x mem' = .more) ∨
      ∃ r r' B, runFlow cj triv junk n env x mem = .ok r ∧ runFlow cj triv' junk' n env' x mem' = .ok r' ∧ Holds env r B ∧ Holds env' r' B := by
  rcases both cj cj triv triv' junk junk' n x hl he he' hA hA' hs hs' with h | ⟨m, m', B, h1, h2, h3, h4, h5, h6, h7, h8⟩
  · exact Or.inl h
  · exact Or.inr ⟨m, m', B, h1, h2, h7, h8⟩

/-- C83, `max_element`: the program goes on with an element of the expression that no other element exceeds. -/
theorem C83_max (cj : α → α) (triv : Bool) (junk : α) (env : List View) (mem : List α) (A : Arrays α) (he : EnvOK env mem.length) (hA : Holds env mem A) (lt : α → α → Bool)
    (hlt : Algorithms.WeakOrder lt) (alg : Alg) (e : PExpr α) (ext : List Int) (hf : FactorOK env alg e ext) (hM : alg = .M → ext.length = 2) (hpos : ∀ l ∈ ext, 0 < l) (k : α → Flow α)
    (n : Nat) :
    ∃ idx, InRange ext idx ∧ (∀ jdx, InRange ext jdx → lt (value (lensOf env) A alg e idx) (value (lensOf env) A alg e jdx) = false) ∧
      runFlow cj triv junk n env (.readMax lt alg ext.length e k) mem = runFlow cj triv junk n env (k (value (lensOf env) A alg e idx)) mem := by
  obtain ⟨e', b1, b2, b3, -⟩ := build_facts he hA alg ext e hf.legal hf.shape
  have hget : ∀ idx, InRange ext idx → e'.get idx mem = some (value (lensOf env) A alg e idx) := fun idx hi => value_later he hA hM hf b1 (fun _ _ => rfl) hi
  obtain ⟨r, h1, ⟨idx, hi, h2⟩, h3⟩ := Algorithms.C25_max lt hlt ext (fun idx => e'.get idx mem) (fun idx hi => ⟨_, hget idx hi⟩) hpos
  rw [hget idx hi] at h2; cases h2
  refine ⟨idx, hi, fun jdx hj => h3 jdx _ hj (hget jdx hj), ?_⟩
  simp only [Algorithms.maxElement, Algorithms.firstElement, Option.bind_eq_bind, Option.bind_eq_some_iff, List.map_const'] at h1
  obtain ⟨x, h4, h5⟩ := h1
  simp only [Flow.readMax, runFlow, ask, b1, Option.bind_eq_bind, Option.bind_some, h4, C26_shape b3, h5]

omit [DecidableEq α] in
/-- C83: the outcome on the arrays is unique. -/
theorem C83_determined (env : List View) (x : Flow α) (A B B' : Arrays α) (h : Runs env x A B) (h' : Runs env x A B') : B = B' := runs_unique rfl h h'

end

/-! ### A program -/

/-- `while (sum(a) > 10) a -= transpose(b);  for (i < 3) { auto s = sum(a(_, i)); b(i, 1) = s; }  if (a(1, 2) < 0) b = 7`, variables as in `exEnv`. -/
def exFlow : Flow Int :=
  .seq (.loop (.fold .A (· + ·) (.arr .A ⟨0, []⟩) 0) (fun s => decide (10 < s))
      (.cmd (.stmt (.compound .sub .A ⟨0, []⟩ (.arr .A ⟨1, [.permute [1, 0]]⟩)))))
    (.seq (.times (fun i => .read (.fold .A (· + ·) (.arr .A ⟨0, [.slice [.all, .idx (i : Int)]]⟩) 0) (fun s => .put ⟨1, []⟩ [(i : Int), 1] s)) 3)
      (.read (.element .A (.arr .A ⟨0, []⟩) [1, 2]) (fun s => if s < 0 then .cmd (.stmt (.fill ⟨1, []⟩ 7)) else .skip)))

theorem factor_one {env : List View} {p : Place} {ext : List Int} (h : PlaceOK env p ext) : FactorOK env .A (.arr .A p : PExpr Int) ext :=
  ⟨trivial, fun q hq => by simp only [places, List.mem_singleton] at hq; subst hq; exact ⟨rfl, h⟩⟩

theorem exFlow_safe (A : Arrays Int) : Safe exEnv exFlow A := by
  refine ⟨⟨fun _ => True, trivial, fun B _ => ⟨⟨[2, 3], factor_one place_a, nofun⟩, fun s _ _ => ⟨?_, fun _ _ => trivial⟩⟩⟩, fun B _ => ⟨?_, fun C _ => ⟨?_, fun s _ => ?_⟩⟩⟩
  · refine ⟨[2, 3], place_a, trivial, nofun, nofun, fun q hq => ?_⟩
    simp only [places, List.mem_singleton] at hq
    subst hq
    exact ⟨rfl, place_bt, nofun⟩
  · have hput : ∀ (i : Nat), i < 3 → ∀ B : Arrays Int,
        Safe exEnv (.read (.fold .A (· + ·) (.arr .A ⟨0, [.slice [.all, .idx (i : Int)]]⟩) 0) (fun s => .put ⟨1, []⟩ [(i : Int), 1] s)) B := fun i hi B =>
      ⟨⟨[2], factor_one (place_col i (by omega) (by omega)), nofun⟩, fun s _ => ⟨[3, 2], place_b, by simp [InRange]; omega⟩⟩
    exact ⟨⟨⟨trivial, fun B _ => hput 0 (by decide) B⟩, fun B _ => hput 1 (by decide) B⟩, fun B _ => hput 2 (by decide) B⟩
  · exact ⟨[2, 3], factor_one place_a, nofun, by simp [InRange]⟩
  · show Safe exEnv (if s < 0 then _ else _) C
    split
    · refine ⟨[3, 2], place_b, by simp, by decide, fun v hv h => ?_⟩
      cases hv
      cases h
    · trivial

/-- `{ array<Int, 2, F_layout> t = a + transpose(b);  a = t * t;  auto s = a(1, 2);  { auto z = zeros(max(s, 0));  z += s;  auto r = sum(z);  b(0, 0) = r; } }`: the extent
of `z` is read from an array. -/
def exVar : Flow Int :=
  .var [1, 0] (.expr .A (.bin .add (.arr .A ⟨0, []⟩) (.arr .A ⟨1, [.permute [1, 0]]⟩)))
    (.seq (.cmd (.stmt (.assign .A ⟨0, []⟩ (.bin .mul (.arr .A ⟨2, []⟩) (.arr .A ⟨2, []⟩)))))
      (.read (.element .A (.arr .A ⟨0, []⟩) [1, 2]) (fun s => .var [0] (.zeros [max s 0])
        (.seq (.cmd (.stmt (.compoundScalar .add .A ⟨3, []⟩ s)))
          (.read (.fold .A (· + ·) (.arr .A ⟨3, []⟩) 0) (fun r => .put ⟨1, []⟩ [0, 0] r))))))

theorem exVar_safe (A : Arrays Int) : Safe exEnv exVar A := by
  have h2 : ∀ (w : View) (p : Place) (ext : List Int), PlaceOK exEnv p ext → PlaceOK (exEnv ++ [w]) p ext := by
    intro w p ext hp
    obtain ⟨v, h1, h⟩ := hp.ok
    exact ⟨v, by rw [List.getElem?_append_left (List.getElem?_eq_some_iff.mp h1).1]; exact h1, h⟩
  refine ⟨[2, 3], ⟨[2, 3], [1, 2], [1, 0], [0, 0], .contiguous⟩, ⟨⟨⟨trivial, trivial, nofun⟩, fun q hq => ?_⟩, nofun, nofun, by decide, rfl⟩, by decide +kernel, fun off => ?_⟩
  · simp only [places, List.mem_append, List.mem_singleton] at hq
    rcases hq with rfl | rfl
    · exact ⟨rfl, place_a⟩
    · exact ⟨rfl, place_bt⟩
  · refine ⟨⟨[2, 3], h2 _ _ _ place_a, ⟨trivial, trivial, fun _ => rfl⟩, nofun, nofun, fun q hq => ?_⟩, fun B _ => ⟨⟨[2, 3], factor_one (h2 _ _ _ place_a), nofun, by simp [InRange]⟩, fun s _ => ?_⟩⟩
    · simp only [places, List.mem_append, List.mem_singleton, or_self] at hq
      subst hq
      exact ⟨rfl, ⟨_, rfl, trivial, trivial, rfl⟩, nofun, nofun⟩
    · refine ⟨[max s 0], _, ⟨rfl, by simp [NonNeg], by decide, rfl⟩, rfl, fun off' => ⟨⟨[max s 0], ⟨_, rfl, trivial, trivial, rfl⟩, nofun⟩, fun C _ => ⟨?_, fun r _ => ?_⟩⟩⟩
      · exact ⟨[max s 0], factor_one ⟨_, rfl, trivial, trivial, rfl⟩, nofun⟩
      · exact ⟨[3, 2], ⟨_, rfl, trivial, trivial, rfl⟩, by simp [InRange]⟩

/-- The memory at the end. -/
def Res.mem? : Res α → Option (List α)
  | .ok m => some m
  | _ => none

example : (runFlow id true 0 11 exEnv exFlow [11, 20, 30, 40, 50, 60, 1, 2, 3, 4, 5, 6]).mem? = some [1, 0, 0, 0, 0, 0, 1, 2, 3, 1, 0, 0] ∧
    (runFlow id true 0 10 exEnv exFlow [11, 20, 30, 40, 50, 60, 1, 2, 3, 4, 5, 6]).mem? = none := by decide +kernel

example : (runFlow id true 7 0 exEnv exVar [1, 2, 3, -4, -5, -4, 1, 2, 3, 4, 5, 6]).mem? = some [4, 16, 36, 0, 0, 4, 16, 2, 3, 4, 5, 6] ∧
    (runFlow id true 7 0 exEnv exVar [1, 2, 3, -4, -5, -3, 1, 2, 3, 4, 5, 6]).mem? = some [4, 16, 36, 0, 0, 9, 81, 2, 3, 4, 5, 6] := by decide +kernel

/-- The hypotheses of `C83_program`, `C83_ends` and `C83_determined`: the loop ends, and with it the program on arrays. -/
example : ∃ A B, Holds exEnv exMem A ∧ Runs exEnv exFlow A B ∧ (∀ B', Runs exEnv exFlow A B' → B' = B) ∧
    ∃ N mem', ∀ n, N ≤ n → runFlow id true 0 n exEnv exFlow exMem = .ok mem' := by
  obtain ⟨A, hA⟩ := exEnv_holds
  rcases C83_program id true 0 exEnv exFlow exMem A exEnv_ok hA (exFlow_safe A) 100 with h | ⟨mem', B, _, _, hr, _⟩
  · have h' : (runFlow id true 0 100 exEnv exFlow exMem).mem? ≠ none := by decide +kernel
    rw [h] at h'
    exact absurd rfl h'
  · obtain ⟨N, m, h, _⟩ := C83_ends id true 0 exEnv exFlow A B hr exMem exEnv_ok hA
    exact ⟨A, B, hA, hr, fun B' h' => C83_determined exEnv exFlow A B' B h' hr, N, m, h⟩

example (A : Arrays Int) (hA : Holds exEnv exMem A) (n : Nat) := C83_program id true 0 exEnv exVar exMem A exEnv_ok hA (exVar_safe A) n

/-- The variables of `exEnv` in the other order each. -/
def exEnv' : List View := [⟨0, ⟨[2, 3], [1, 2], [1, 0], [0, 0], .contiguous⟩⟩, ⟨6, ⟨[3, 2], [2, 1], [0, 1], [0, 0], .contiguous⟩⟩]

theorem exEnv'_ok : EnvOK exEnv' 12 := by
  obtain ⟨env, h1, _, h3, _⟩ := declare_facts [([1, 0], [2, 3]), ([0, 1], [3, 2])] 0 (by
    intro d hd
    simp only [List.mem_cons, List.not_mem_nil, or_false] at hd
    rcases hd with rfl | rfl
    · exact ⟨by decide, rfl, by simp [NonNeg]⟩
    · exact ⟨by decide, rfl, by simp [NonNeg]⟩)
  have : declare 0 [([1, 0], [2, 3]), ([0, 1], [3, 2])] = some exEnv' := by decide
  rw [this] at h1; cases h1
  exact h3

/-- `a(i, j) = 3 i + j + 1`, `b(i, j) = 10 (i + 3 j + 1)`. -/
def exA : Arrays Int := fun k idx => match k, idx with
  | 0, [i, j] => 3 * i + j + 1
  | _, [i, j] => 10 * (i + 3 * j + 1)
  | _, _ => 0

theorem exA_holds (env : List View) (mem : List Int) (hl : lensOf env = [[2, 3], [3, 2]])
    (h0 : ∀ i ∈ [0, 1], ∀ j ∈ [0, 1, 2], (env[0]?.bind fun v => val mem (addr v [i, j])) = some (3 * i + j + 1))
    (h1 : ∀ i ∈ [0, 1, 2], ∀ j ∈ [0, 1], (env[1]?.bind fun v => val mem (addr v [i, j])) = some (10 * (i + 3 * j + 1))) : Holds env mem exA := by
  intro k v hk idx hi
  have hlen : (lensOf env)[k]? = some v.lay.len := by simp [lensOf, hk]
  rw [hl] at hlen
  match k with
  | 0 =>
      simp only [List.getElem?_cons_zero, Option.some.injEq] at hlen
      rw [← hlen] at hi
      match idx, hi with
      | [i, j], hi =>
          simp only [InRange, and_true] at hi
          have := h0 i (by simp; omega) j (by simp; omega)
          rwa [hk] at this
  | 1 =>
      simp only [List.getElem?_cons_succ, List.getElem?_cons_zero, Option.some.injEq] at hlen
      rw [← hlen] at hi
      match idx, hi with
      | [i, j], hi =>
          simp only [InRange, and_true] at hi
          have := h1 i (by simp; omega) j (by simp; omega)
          rwa [hk] at this
  | k + 2 => simp at hlen

/-- The hypotheses of `C83_layout`: `auto s = sum(a); b(2, 1) = s` with the two layouts of `a` and `b`. -/
def exSum : Flow Int := .read (.fold .A (· + ·) (.arr .A ⟨0, []⟩) 0) (fun s => .put ⟨1, []⟩ [2, 1] s)

example (n : Nat) := C83_layout id true false 0 3 exEnv exEnv' rfl exSum exMem [1, 4, 2, 5, 3, 6, 10, 40, 20, 50, 30, 60] exA exEnv_ok exEnv'_ok
  (exA_holds _ _ rfl (by decide) (by decide)) (exA_holds _ _ rfl (by decide) (by decide))
  ⟨⟨[2, 3], factor_one place_a, nofun⟩, fun s _ => ⟨[3, 2], place_b, by simp [InRange]⟩⟩
  ⟨⟨[2, 3], factor_one ⟨_, rfl, trivial, trivial, rfl⟩, nofun⟩, fun s _ => ⟨[3, 2], ⟨_, rfl, trivial, trivial, rfl⟩, by simp [InRange]⟩⟩ n

/-- The hypotheses of `C83_max`. -/
example (A : Arrays Int) (hA : Holds exEnv exMem A) (k : Int → Flow Int) (n : Nat) :=
  C83_max id true 0 exEnv exMem A exEnv_ok hA (fun a b => decide (a < b)) ⟨by simp, by simp; intros; omega, by simp; intros; omega⟩ .A (.arr .A ⟨0, []⟩) [2, 3] (factor_one place_a) nofun (by decide) k n

end Nda.Programs
