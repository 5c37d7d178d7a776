import Verif.Lemmas.Lifetime
/-!
# The rules for lifetimes are sound
-/
namespace Nda.Lifetime
open Nda.Lifetime.Spec

def IsLazy : Obj → Prop
  | .un _ _ => True
  | .bin _ _ _ => True
  | _ => False

/-- The object is of the kind. -/
def KindOK : Kind → Obj → Prop
  | .arr, o => ∃ b, o = .arr b
  | .view, o => ∃ b, o = .view b
  | .lazy own, o => IsLazy o ∧ (own = false → o.owned = [])
  | .same y, o => o = .ref y

/-- What the object refers to belongs to the variables `D`. -/
def Cov (s : St) (D : List Nat) : Obj → Prop
  | .arr b => ∃ b', b = some b'
  | .view b => ∃ b' d o, b = some b' ∧ d ∈ D ∧ s.get d = some o ∧ b' ∈ o.owned
  | .ref x => x ∈ D
  | .dangling => False
  | .un _ o => Cov s D o
  | .bin _ l r => Cov s D l ∧ Cov s D r

def NoAlias (k : Kind) : Prop := ∀ y, k ≠ .same y

/-- A set of variables that may be used, with all that they depend on. -/
def Closed (env : Env) (D : List Nat) : Prop :=
  ∀ d ∈ D, ∃ en, env[d]? = some en ∧ en.ok = true ∧ NoAlias en.kind ∧ ∀ d' ∈ en.deps, d' ∈ D

/-- What the rules know is true of the state. -/
structure M (env : Env) (s : St) : Prop where
  len : env.length = s.vars.length
  scope : ∀ (x : Nat) (en : Entry), env[x]? = some en → en.scope = (s.get x).isSome
  kind : ∀ (x : Nat) (en : Entry), env[x]? = some en → ∀ o, s.get x = some o → KindOK en.kind o
  al : ∀ (x : Nat) (en : Entry), env[x]? = some en → ∀ y, en.kind = .same y → ∃ en', env[y]? = some en' ∧ NoAlias en'.kind
  low : ∀ (x : Nat) (en : Entry), env[x]? = some en → ∀ d ∈ en.deps, d < x
  arr : ∀ (x : Nat) (en : Entry), env[x]? = some en → en.kind = .arr → en.deps = []
  use : ∀ (x : Nat) (en : Entry), env[x]? = some en → en.ok = true → NoAlias en.kind → ∃ o, s.get x = some o ∧ Cov s en.deps o ∧ Closed env en.deps

theorem Cov.mono {s s' : St} {D D' : List Nat} (h : ∀ d ∈ D, d ∈ D' ∧ s'.get d = s.get d) : ∀ (o : Obj), Cov s D o → Cov s' D' o
  | .arr _, hc => hc
  | .view _, ⟨b', d, o, e, hd, ho, hb⟩ => ⟨b', d, o, e, (h d hd).1, (h d hd).2.trans ho, hb⟩
  | .ref _, hc => (h _ hc).1
  | .dangling, hc => hc.elim
  | .un _ o, hc => Cov.mono h o hc
  | .bin _ l r, hc => ⟨Cov.mono h l hc.1, Cov.mono h r hc.2⟩

/-! ### Reading, slicing, copying, moving -/

/-- Elements can be read. -/
theorem need_cov {s : St} {T : List Nat} (g : G s T) {f : Nat → Option (List Nat)} {D : List Nat}
    (hf : ∀ d ∈ D, ∃ bs, f d = some bs ∧ ∀ b ∈ bs, b ∈ s.live) : ∀ (o : Obj), Cov s D o → (∀ b ∈ o.owned, b ∈ s.live) →
    ∃ bs, needWith f o = some bs ∧ ∀ b ∈ bs, b ∈ s.live
  | .arr _, ⟨b, e⟩, ho => by subst e; exact ⟨[b], rfl, ho⟩
  | .view _, ⟨b, d, o, e, hd, hg, hb⟩, _ => by
      subst e
      refine ⟨[b], rfl, fun c hc => ?_⟩
      rw [List.mem_singleton.mp hc]
      exact g.live_var hg hb
  | .ref _, hc, _ => hf _ hc
  | .dangling, hc, _ => hc.elim
  | .un _ o, hc, ho => need_cov g hf o hc ho
  | .bin _ l r, hc, ho => by
      obtain ⟨bl, el, hl⟩ := need_cov g hf l hc.1 (fun b hb => ho b (List.mem_append_left _ hb))
      obtain ⟨br, er, hr⟩ := need_cov g hf r hc.2 (fun b hb => ho b (List.mem_append_right _ hb))
      refine ⟨bl ++ br, by simp [needWith, el, er], fun b hb => ?_⟩
      rcases List.mem_append.mp hb with h | h
      · exact hl b h
      · exact hr b h

theorem needVar_ok {env : Env} {s : St} {T : List Nat} (m : M env s) (g : G s T) : ∀ (n x : Nat) (en : Entry), x < n → env[x]? = some en → en.ok = true → NoAlias en.kind →
    ∃ bs, needVar s n x = some bs ∧ ∀ b ∈ bs, b ∈ s.live
  | 0, x, en, h, _, _, _ => by omega
  | n + 1, x, en, h, he, hok, hk => by
      obtain ⟨o, ho, hc, hcl⟩ := m.use x en he hok hk
      obtain ⟨bs, e, hb⟩ := need_cov g (f := needVar s n) (D := en.deps) (fun d hd => by
        obtain ⟨en', h1, h2, h3, -⟩ := hcl d hd
        have := m.low x en he d hd
        exact needVar_ok m g n d en' (by omega) h1 h2 h3) o hc (fun b hb => g.live_var ho hb)
      exact ⟨bs, by simp [needVar, ho, e], hb⟩

theorem lt_of_get {env : Env} {s : St} (m : M env s) {x : Nat} {en : Entry} (h : env[x]? = some en) : x < s.vars.length := by
  rw [← m.len]; exact (List.getElem?_eq_some_iff.mp h).1

theorem need_closed {env : Env} {s : St} {T : List Nat} (m : M env s) (g : G s T) {D : List Nat} (hD : Closed env D) {o : Obj} (hc : Cov s D o) (ho : ∀ b ∈ o.owned, b ∈ s.live) :
    ∃ bs, needWith (needVar s s.vars.length) o = some bs ∧ ∀ b ∈ bs, b ∈ s.live :=
  need_cov g (fun d hd => by
    obtain ⟨en', h1, h2, h3, -⟩ := hD d hd
    exact needVar_ok m g _ d en' (lt_of_get m h1) h1 h2 h3) o hc ho

/-- The result of slicing: refers only to storage of variables in `D`. -/
theorem slice_cov {s : St} {f : Nat → Option Obj} {D D' : List Nat} (sub : ∀ d ∈ D, d ∈ D')
    (hf : ∀ d ∈ D, ∃ o, f d = some o ∧ Cov s D' o) : ∀ (o : Obj), Cov s D o → (∀ b ∈ o.owned, ∃ d ∈ D', ∃ o', s.get d = some o' ∧ b ∈ o'.owned) →
    ∃ o', sliceWith f o = some o' ∧ Cov s D' o' ∧ (IsLazy o → IsLazy o') ∧ (∀ b, o = .arr b ∨ o = .view b → o' = .view b)
  | .arr _, ⟨b, e⟩, ho => by
      subst e
      obtain ⟨d, hd, o', h1, h2⟩ := ho b (by simp [Obj.owned])
      exact ⟨.view (some b), rfl, ⟨b, d, o', rfl, hd, h1, h2⟩, nofun, fun c hc => by simpa using hc⟩
  | .view _, ⟨b, d, o, e, hd, hg, hb⟩, _ => ⟨_, rfl, ⟨b, d, o, e, sub d hd, hg, hb⟩, nofun, fun c hc => by simpa using hc⟩
  | .ref x, hc, _ => by
      obtain ⟨o, e, h⟩ := hf x hc
      exact ⟨o, e, h, nofun, by simp⟩
  | .dangling, hc, _ => hc.elim
  | .un c o, hc, ho => by
      obtain ⟨o', e, h, -, -⟩ := slice_cov sub hf o hc ho
      exact ⟨.un c o', by simp [sliceWith, e], h, fun _ => trivial, by simp⟩
  | .bin c l r, hc, ho => by
      obtain ⟨l', el, hl, -, -⟩ := slice_cov sub hf l hc.1 (fun b hb => ho b (List.mem_append_left _ hb))
      obtain ⟨r', er, hr, -, -⟩ := slice_cov sub hf r hc.2 (fun b hb => ho b (List.mem_append_right _ hb))
      exact ⟨.bin c l' r', by simp [sliceWith, el, er], ⟨hl, hr⟩, fun _ => trivial, by simp⟩

/-- Slicing a variable; everything it depends on is in `D'`. -/
theorem sliceVar_ok {env : Env} {s : St} (m : M env s) {D' : List Nat} (hD : Closed env D') : ∀ (n x : Nat), x < n → x ∈ D' → ∃ o, sliceVar s n x = some o ∧ Cov s D' o
  | 0, x, h, _ => by omega
  | n + 1, x, h, hx => by
      obtain ⟨en, he, hok, hk, hsub⟩ := hD x hx
      obtain ⟨o, ho, hc, hcl⟩ := m.use x en he hok hk
      obtain ⟨o', e, h', -, -⟩ := slice_cov (f := sliceVar s n) hsub (fun d hd => by
        have := m.low x en he d hd
        exact sliceVar_ok m hD n d (by omega) (hsub d hd)) o hc (fun b hb => ⟨x, hx, o, ho, hb⟩)
      exact ⟨o', by simp [sliceVar, ho, e], h'⟩

/-- Copies. -/
theorem copy_ok {D : List Nat} : ∀ (o : Obj) {s : St}, (∀ b ∈ o.owned, b ∈ s.live) → Cov s D o →
    ∃ s' o', copyObj o s = some (s', o') ∧ Cov s D o' ∧ (IsLazy o → IsLazy o') ∧ (∀ k, KindOK k o → NoAlias k → KindOK k o') ∧ (o.owned = [] → o'.owned = [])
  | .arr _, s, h, ⟨b, e⟩ => by
      subst e
      have : b ∈ s.live := h b (by simp [Obj.owned])
      refine ⟨s.alloc.1, .arr (some s.alloc.2), by simp [copyObj, this], ⟨_, rfl⟩, nofun, fun k hk ha => ?_, fun h => by simp [Obj.owned] at h⟩
      cases k with
      | arr => exact ⟨_, rfl⟩
      | view => obtain ⟨_, h⟩ := hk; cases h
      | lazy own => exact hk.1.elim
      | same y => cases hk
  | .view b, s, _, hc => ⟨s, .view b, rfl, hc, id, fun _ h _ => h, id⟩
  | .ref b, s, _, hc => ⟨s, .ref b, rfl, hc, id, fun _ h _ => h, id⟩
  | .dangling, s, _, hc => hc.elim
  | .un c o, s, h, hc => by
      obtain ⟨s', o', e, h1, h2, h3, h4⟩ := copy_ok o h hc
      refine ⟨s', .un c o', by simp [copyObj, e], h1, fun _ => trivial, fun k hk ha => ?_, h4⟩
      cases k with
      | arr => obtain ⟨_, h⟩ := hk; cases h
      | view => obtain ⟨_, h⟩ := hk; cases h
      | lazy own => exact ⟨trivial, fun ho => h4 (hk.2 ho)⟩
      | same y => cases hk
  | .bin c l r, s, h, hc => by
      obtain ⟨s1, l', e1, h1, h2, h3, h4⟩ := copy_ok l (fun b hb => h b (List.mem_append_left _ hb)) hc.1
      have ef := copyObj_eff _ e1
      have hget : ∀ d, s1.get d = s.get d := fun d => by simp [St.get, ef.vars]
      obtain ⟨s2, r', e2, k1, k2, k3, k4⟩ := copy_ok r (s := s1) (fun b hb => ef.live b (h b (List.mem_append_right _ hb))) (hc.2.mono (fun d hd => ⟨hd, hget d⟩))
      have k1' : Cov s D r' := k1.mono (fun d hd => ⟨hd, (hget d).symm⟩)
      have hown : (Obj.bin c l r).owned = [] → (Obj.bin c l' r').owned = [] := by
        intro hh
        simp only [Obj.owned, List.append_eq_nil_iff] at hh ⊢
        exact ⟨h4 hh.1, k4 hh.2⟩
      refine ⟨s2, .bin c l' r', by simp [copyObj, e1, e2], ⟨h1, k1'⟩, fun _ => trivial, fun k hk ha => ?_, hown⟩
      cases k with
      | arr => obtain ⟨_, h⟩ := hk; cases h
      | view => obtain ⟨_, h⟩ := hk; cases h
      | lazy own => exact ⟨trivial, fun ho => hown (hk.2 ho)⟩
      | same y => cases hk

theorem KindOK.lazy {k : Kind} {o o' : Obj} (h : KindOK k o) (hl : IsLazy o) (hl' : IsLazy o') (ho : o.owned = [] → o'.owned = []) : KindOK k o' := by
  cases k with
  | arr => obtain ⟨_, h⟩ := h; rw [h] at hl; exact hl.elim
  | view => obtain ⟨_, h⟩ := h; rw [h] at hl; exact hl.elim
  | lazy own => exact ⟨hl', fun hh => ho (h.2 hh)⟩
  | same y => rw [show o = .ref y from h] at hl; exact hl.elim

/-- Moves. -/
theorem move_ok {D : List Nat} : ∀ (o : Obj) {s : St}, (∀ b ∈ o.owned, b ∈ s.live) → Cov s D o →
    ∃ s' o' r, moveObj o s = some (s', o', r) ∧ Cov s D o' ∧ (IsLazy o → IsLazy o' ∧ IsLazy r) ∧ (∀ k, KindOK k o → NoAlias k → KindOK k o' ∧ KindOK k r) ∧
      (o.owned = [] → o'.owned = [] ∧ r.owned = [])
  | .arr _, s, h, ⟨b, e⟩ => by
      subst e
      refine ⟨s, .arr (some b), .arr none, rfl, ⟨_, rfl⟩, nofun, fun k hk ha => ?_, fun h => by simp [Obj.owned] at h⟩
      cases k with
      | arr => exact ⟨⟨_, rfl⟩, ⟨_, rfl⟩⟩
      | view => obtain ⟨_, h⟩ := hk; cases h
      | lazy own => exact hk.1.elim
      | same y => cases hk
  | .view b, s, _, hc => ⟨s, .view b, .view b, rfl, hc, fun h => ⟨h, h⟩, fun _ h _ => ⟨h, h⟩, fun h => ⟨h, h⟩⟩
  | .ref b, s, _, hc => ⟨s, .ref b, .ref b, rfl, hc, fun h => ⟨h, h⟩, fun _ h _ => ⟨h, h⟩, fun h => ⟨h, h⟩⟩
  | .dangling, s, _, hc => hc.elim
  | .un c o, s, h, hc => by
      cases c with
      | true =>
          obtain ⟨s', o', e, h1, h2, h3, h4⟩ := copy_ok (.un true o) h hc
          exact ⟨s', o', .un true o, by simp only [moveObj, if_true, e]; rfl, h1, fun h => ⟨h2 h, h⟩, fun k hk ha => ⟨h3 k hk ha, hk⟩, fun h => ⟨h4 h, h⟩⟩
      | false =>
          obtain ⟨s', o', r, e, h1, h2, h3, h4⟩ := move_ok o h hc
          exact ⟨s', .un false o', .un false r, by simp [moveObj, e], h1, fun h => ⟨trivial, trivial⟩,
            fun k hk ha => ⟨hk.lazy trivial trivial (fun h => (h4 h).1), hk.lazy trivial trivial (fun h => (h4 h).2)⟩, h4⟩
  | .bin c l r, s, h, hc => by
      cases c with
      | true =>
          obtain ⟨s', o', e, h1, h2, h3, h4⟩ := copy_ok (.bin true l r) h hc
          exact ⟨s', o', .bin true l r, by simp only [moveObj, if_true, e]; rfl, h1, fun h => ⟨h2 h, h⟩, fun k hk ha => ⟨h3 k hk ha, hk⟩, fun h => ⟨h4 h, h⟩⟩
      | false =>
          obtain ⟨s1, l', kl, e1, h1, h2, h3, h4⟩ := move_ok l (fun b hb => h b (List.mem_append_left _ hb)) hc.1
          have ef := moveObj_eff _ e1
          have hget : ∀ d, s1.get d = s.get d := fun d => by simp [St.get, ef.vars]
          obtain ⟨s2, r', kr, e2, k1, k2, k3, k4⟩ := move_ok r (s := s1) (fun b hb => ef.live b (h b (List.mem_append_right _ hb))) (hc.2.mono (fun d hd => ⟨hd, hget d⟩))
          have k1' : Cov s D r' := k1.mono (fun d hd => ⟨hd, (hget d).symm⟩)
          have hown : (Obj.bin false l r).owned = [] → (Obj.bin false l' r').owned = [] ∧ (Obj.bin false kl kr).owned = [] := by
            intro hh
            simp only [Obj.owned, List.append_eq_nil_iff] at hh ⊢
            exact ⟨⟨(h4 hh.1).1, (k4 hh.2).1⟩, ⟨(h4 hh.1).2, (k4 hh.2).2⟩⟩
          exact ⟨s2, .bin false l' r', .bin false kl kr, by simp [moveObj, e1, e2], ⟨h1, k1'⟩, fun _ => ⟨trivial, trivial⟩,
            fun k hk ha => ⟨hk.lazy trivial trivial (fun h => (hown h).1), hk.lazy trivial trivial (fun h => (hown h).2)⟩, hown⟩

/-! ### Changes of the environment -/

/-- A variable changes: what depends on it becomes stale. -/
def touch (y : Nat) (f : Entry → Entry) (env : Env) : Env := (stale y env).modify y f

def st1 (y : Nat) (en : Entry) : Entry := if y ∈ en.deps then { en with ok := false } else en

theorem st1_kind (y : Nat) (en : Entry) : (st1 y en).kind = en.kind := by unfold st1; split <;> rfl
theorem st1_deps (y : Nat) (en : Entry) : (st1 y en).deps = en.deps := by unfold st1; split <;> rfl
theorem st1_scope (y : Nat) (en : Entry) : (st1 y en).scope = en.scope := by unfold st1; split <;> rfl
theorem st1_ok {y : Nat} {en : Entry} (h : (st1 y en).ok = true) : en.ok = true ∧ y ∉ en.deps ∧ st1 y en = en := by
  unfold st1 at h ⊢
  split at h
  · cases h
  · rename_i hd; exact ⟨h, hd, by simp [hd]⟩
theorem st1_of {y : Nat} {en : Entry} (h : y ∉ en.deps) : st1 y en = en := by simp [st1, h]

theorem touch_get (y : Nat) (f : Entry → Entry) (env : Env) (x : Nat) : (touch y f env)[x]? = if x = y then (env[x]?).map (fun en => f (st1 y en)) else (env[x]?).map (st1 y) := by
  unfold touch stale
  rw [List.getElem?_modify, List.getElem?_map]
  by_cases h : x = y
  · subst h
    cases env[x]? <;> simp [st1]
  · have h' : ¬ y = x := fun e => h e.symm
    cases env[x]? <;> simp [h, h', st1]

theorem touch_ne {y x : Nat} {f : Entry → Entry} {env : Env} {en : Entry} (hx : x ≠ y) (h : (touch y f env)[x]? = some en) :
    ∃ en0, env[x]? = some en0 ∧ en = st1 y en0 := by
  rw [touch_get, if_neg hx] at h
  cases e : env[x]? with
  | none => simp [e] at h
  | some en0 => simp [e] at h; exact ⟨en0, rfl, h.symm⟩

theorem touch_eq {y : Nat} {f : Entry → Entry} {env : Env} {en : Entry} (h : (touch y f env)[y]? = some en) :
    ∃ en0, env[y]? = some en0 ∧ en = f (st1 y en0) := by
  rw [touch_get, if_pos rfl] at h
  cases e : env[y]? with
  | none => simp [e] at h
  | some en0 => simp [e] at h; exact ⟨en0, rfl, h.symm⟩

/-- Each entry of the new environment comes from one of the old: kind and dependencies stay. -/
theorem touch_any {y x : Nat} {f : Entry → Entry} (hf : ∀ en, (f en).kind = en.kind ∧ (f en).deps = en.deps) {env : Env} {en : Entry} (h : (touch y f env)[x]? = some en) :
    ∃ en0, env[x]? = some en0 ∧ en.kind = en0.kind ∧ en.deps = en0.deps := by
  by_cases hx : x = y
  · subst hx
    obtain ⟨en0, h1, h2⟩ := touch_eq h
    exact ⟨en0, h1, by rw [h2, (hf _).1, st1_kind], by rw [h2, (hf _).2, st1_deps]⟩
  · obtain ⟨en0, h1, h2⟩ := touch_ne hx h
    exact ⟨en0, h1, by rw [h2, st1_kind], by rw [h2, st1_deps]⟩

theorem touch_some {y x : Nat} {f : Entry → Entry} (hf : ∀ en, (f en).kind = en.kind ∧ (f en).deps = en.deps) {env : Env} {en : Entry} (h : env[x]? = some en) :
    ∃ en', (touch y f env)[x]? = some en' ∧ en'.kind = en.kind ∧ en'.deps = en.deps := by
  rw [touch_get]
  split
  · exact ⟨_, by rw [h]; rfl, by rw [(hf _).1, st1_kind], by rw [(hf _).2, st1_deps]⟩
  · exact ⟨_, by rw [h]; rfl, st1_kind _ _, st1_deps _ _⟩

theorem touch_len (y : Nat) (f : Entry → Entry) (env : Env) : (touch y f env).length = env.length := by simp [touch, stale]

theorem put_get {s s' : St} {y : Nat} {oo : Option Obj} (hv : s'.vars = s.vars.set y oo) (hy : y < s.vars.length) (x : Nat) :
    s'.get x = if x = y then oo else s.get x := by
  unfold St.get
  rw [hv]
  by_cases h : x = y
  · subst h; simp [hy]
  · simp [h, List.getElem?_set_ne (Ne.symm h)]

/-- One variable changes. -/
theorem M.touch {env : Env} {s s' : St} (m : M env s) {y : Nat} {en : Entry} (hy : env[y]? = some en) {oo : Option Obj} (hv : s'.vars = s.vars.set y oo) {f : Entry → Entry}
    (hf : ∀ en, (f en).kind = en.kind ∧ (f en).deps = en.deps) (hs : (f (st1 y en)).scope = oo.isSome) (hk : ∀ o, oo = some o → KindOK en.kind o)
    (hok : (f (st1 y en)).ok = true → en.kind = .arr ∧ ∃ b, oo = some (.arr (some b))) : M (Lifetime.touch y f env) s' := by
  have hl := lt_of_get m hy
  have hg := put_get hv hl
  refine ⟨by rw [touch_len, m.len, hv]; simp, ?_, ?_, ?_, ?_, ?_, ?_⟩
  · intro x en' hx
    by_cases hxy : x = y
    · subst hxy
      obtain ⟨en0, h1, h2⟩ := touch_eq hx
      rw [hy] at h1; cases h1
      rw [hg, if_pos rfl, h2, hs]
    · obtain ⟨en0, h1, h2⟩ := touch_ne hxy hx
      rw [hg, if_neg hxy, h2, st1_scope, m.scope x en0 h1]
  · intro x en' hx o ho
    rw [hg] at ho
    by_cases hxy : x = y
    · subst hxy
      obtain ⟨en0, h1, h2⟩ := touch_eq hx
      rw [hy] at h1; cases h1
      rw [if_pos rfl] at ho
      rw [h2, (hf _).1, st1_kind]
      exact hk o ho
    · obtain ⟨en0, h1, h2⟩ := touch_ne hxy hx
      rw [if_neg hxy] at ho
      rw [h2, st1_kind]
      exact m.kind x en0 h1 o ho
  · intro x en' hx z hz
    obtain ⟨en0, h1, h2, h3⟩ := touch_any hf hx
    obtain ⟨en1, h4, h5⟩ := m.al x en0 h1 z (h2 ▸ hz)
    obtain ⟨en2, h6, h7, -⟩ := touch_some (y := y) hf h4
    exact ⟨en2, h6, by rw [h7]; exact h5⟩
  · intro x en' hx d hd
    obtain ⟨en0, h1, h2, h3⟩ := touch_any hf hx
    exact m.low x en0 h1 d (h3 ▸ hd)
  · intro x en' hx h
    obtain ⟨en0, h1, h2, h3⟩ := touch_any hf hx
    rw [h3]
    exact m.arr x en0 h1 (h2 ▸ h)
  · intro x en' hx ho hna
    by_cases hxy : x = y
    · subst hxy
      obtain ⟨en0, h1, h2⟩ := touch_eq hx
      rw [hy] at h1; cases h1
      obtain ⟨ha, b, hb⟩ := hok (h2 ▸ ho)
      refine ⟨.arr (some b), by rw [hg, if_pos rfl, hb], ⟨b, rfl⟩, ?_⟩
      intro d hd
      rw [h2, (hf _).2, st1_deps, m.arr x _ hy ha] at hd
      cases hd
    · obtain ⟨en0, h1, h2⟩ := touch_ne hxy hx
      obtain ⟨k1, k2, k3⟩ := st1_ok (h2 ▸ ho)
      rw [k3] at h2; subst h2
      obtain ⟨o, u1, u2, u3⟩ := m.use x en' h1 k1 hna
      have hne : ∀ d ∈ en'.deps, d ≠ y := fun d hd e => k2 (e ▸ hd)
      refine ⟨o, by rw [hg, if_neg hxy, u1], u2.mono (fun d hd => ⟨hd, by rw [hg, if_neg (hne d hd)]⟩), fun d hd => ?_⟩
      obtain ⟨en1, c1, c2, c3, c4⟩ := u3 d hd
      refine ⟨en1, ?_, c2, c3, c4⟩
      rw [touch_get, if_neg (hne d hd), c1]
      exact congrArg some (st1_of (fun h => k2 (c4 y h)))

/-- What may be used afterwards could be used before and is the same object. -/
structure Fr (env env' : Env) (s s' : St) : Prop where
  back : ∀ (x : Nat) (en' : Entry), env'[x]? = some en' →
    ∃ en, env[x]? = some en ∧ en'.kind = en.kind ∧ en'.scope = en.scope ∧ en'.deps = en.deps ∧ (en'.ok = true → en' = en ∧ s'.get x = s.get x)
  len : env'.length = env.length

theorem Fr.same {env : Env} {s s' : St} (h : s'.vars = s.vars) : Fr env env s s' :=
  ⟨fun x en' e => ⟨en', e, rfl, rfl, rfl, fun _ => ⟨rfl, by simp [St.get, h]⟩⟩, rfl⟩

theorem Fr.trans {e1 e2 e3 : Env} {s1 s2 s3 : St} (h : Fr e1 e2 s1 s2) (h' : Fr e2 e3 s2 s3) : Fr e1 e3 s1 s3 := by
  refine ⟨fun x en' hx => ?_, h'.len.trans h.len⟩
  obtain ⟨en, a1, a2, a3, a4, a5⟩ := h'.back x en' hx
  obtain ⟨en0, b1, b2, b3, b4, b5⟩ := h.back x en a1
  refine ⟨en0, b1, a2.trans b2, a3.trans b3, a4.trans b4, fun hok => ?_⟩
  obtain ⟨rfl, g⟩ := a5 hok
  obtain ⟨rfl, g'⟩ := b5 hok
  exact ⟨rfl, g.trans g'⟩

theorem Fr.fwd {env env' : Env} {s s' : St} (h : Fr env env' s s') {x : Nat} {en : Entry} (hx : env[x]? = some en) :
    ∃ en', env'[x]? = some en' ∧ en'.kind = en.kind ∧ en'.scope = en.scope ∧ en'.deps = en.deps := by
  have hl : x < env'.length := by rw [h.len]; exact (List.getElem?_eq_some_iff.mp hx).1
  obtain ⟨en0, b1, b2, b3, b4, -⟩ := h.back x _ (List.getElem?_eq_getElem hl)
  rw [hx] at b1; cases b1
  exact ⟨_, List.getElem?_eq_getElem hl, b2, b3, b4⟩

theorem usable_some {env : Env} {x : Nat} (h : usable env x = true) : ∃ en, env[x]? = some en ∧ en.ok = true := by
  unfold usable at h
  split at h
  · rename_i en e; exact ⟨en, e, h⟩
  · cases h

theorem Closed.frame {env env' : Env} {s s' : St} (h : Fr env env' s s') {D : List Nat} (hD : Closed env D) (hu : allUsable env' D = true) :
    Closed env' D ∧ ∀ d ∈ D, s'.get d = s.get d := by
  have key : ∀ d ∈ D, ∃ en, env'[d]? = some en ∧ env[d]? = some en ∧ en.ok = true ∧ s'.get d = s.get d := by
    intro d hd
    obtain ⟨en, e1, e2⟩ := usable_some (List.all_eq_true.mp hu d hd)
    obtain ⟨en0, b1, -, -, -, b5⟩ := h.back d en e1
    obtain ⟨rfl, hg⟩ := b5 e2
    exact ⟨en, e1, b1, e2, hg⟩
  constructor
  · intro d hd
    obtain ⟨en, k1, k2, k3, -⟩ := key d hd
    obtain ⟨en1, c1, c2, c3, c4⟩ := hD d hd
    rw [k2] at c1; cases c1
    exact ⟨en, k1, k3, c3, c4⟩
  · intro d hd
    obtain ⟨en, -, -, -, k4⟩ := key d hd
    exact k4

theorem gone_eq (y : Nat) (env : Env) : gone y env = touch y (fun en => { en with ok := false }) env := rfl

theorem gone_fr {env : Env} {s s' : St} {y : Nat} {oo : Option Obj} (hv : s'.vars = s.vars.set y oo) (hy : y < s.vars.length) : Fr env (gone y env) s s' := by
  refine ⟨fun x en' hx => ?_, touch_len _ _ _⟩
  rw [gone_eq] at hx
  by_cases hxy : x = y
  · subst hxy
    obtain ⟨en0, h1, h2⟩ := touch_eq hx
    refine ⟨en0, h1, ?_, ?_, ?_, fun hok => ?_⟩
    · rw [h2]; exact st1_kind _ _
    · rw [h2]; exact st1_scope _ _
    · rw [h2]; exact st1_deps _ _
    · rw [h2] at hok; cases hok
  · obtain ⟨en0, h1, h2⟩ := touch_ne hxy hx
    refine ⟨en0, h1, ?_, ?_, ?_, fun hok => ?_⟩
    · rw [h2]; exact st1_kind _ _
    · rw [h2]; exact st1_scope _ _
    · rw [h2]; exact st1_deps _ _
    · obtain ⟨-, -, k3⟩ := st1_ok (h2 ▸ hok)
      exact ⟨h2.trans k3, by rw [put_get hv hy, if_neg hxy]⟩

theorem M.vars {env : Env} {s s' : St} (m : M env s) (h : s'.vars = s.vars) : M env s' := by
  have hg : ∀ x, s'.get x = s.get x := fun x => by simp [St.get, h]
  refine ⟨by rw [m.len, h], fun x en he => by rw [hg]; exact m.scope x en he, fun x en he o ho => m.kind x en he o (hg x ▸ ho), m.al, m.low, m.arr, fun x en he hok hk => ?_⟩
  obtain ⟨o, h1, h2, h3⟩ := m.use x en he hok hk
  exact ⟨o, (hg x).trans h1, h2.mono (fun d hd => ⟨hd, hg d⟩), h3⟩

/-- A variable named in an expression. -/
structure VarOK (env : Env) (y : Nat) (k : Kind) (D : List Nat) : Prop where
  ent : ∃ en, env[y]? = some en ∧ en.ok = true ∧ en.kind = k ∧ D = y :: en.deps
  na : NoAlias k

/-- A temporary. -/
structure TmpOK (s : St) (k : Kind) (D : List Nat) (o : Obj) : Prop where
  kind : KindOK k o
  na : NoAlias k
  cov : Cov s D o
  arr : k = .arr → D = []

/-- The value is what the rules say. -/
def ValOK (env : Env) (s : St) : Cat → Kind → List Nat → Val → Prop
  | .lv y, k, D, .lv y' => y = y' ∧ VarOK env y k D
  | .xv y, k, D, .xv y' => y = y' ∧ VarOK env y k D
  | .pv, k, D, .pv o => TmpOK s k D o
  | .xt, k, D, .xt o => TmpOK s k D o ∧ k = .arr
  | _, _, _, _ => False

theorem ValOK.frame {env env' : Env} {s s' : St} {c : Cat} {k : Kind} {D : List Nat} {v : Val} (h : ValOK env s c k D v) (f : Fr env env' s s') (hD : Closed env D)
    (hu : allUsable env' D = true) : ValOK env' s' c k D v := by
  have hg := (hD.frame f hu).2
  have var : ∀ y, VarOK env y k D → VarOK env' y k D := by
    intro y hv
    obtain ⟨⟨en, e1, e2, e3, e4⟩, na⟩ := hv
    obtain ⟨en', u1, u2⟩ := usable_some (List.all_eq_true.mp hu y (by rw [e4]; simp))
    obtain ⟨en0, b1, -, -, -, b5⟩ := f.back y en' u1
    obtain ⟨rfl, -⟩ := b5 u2
    rw [e1] at b1; cases b1
    exact ⟨⟨en, u1, u2, e3, e4⟩, na⟩
  have tmp : ∀ o, TmpOK s k D o → TmpOK s' k D o := fun o t => ⟨t.kind, t.na, t.cov.mono (fun d hd => ⟨hd, hg d hd⟩), t.arr⟩
  cases c <;> cases v <;> simp only [ValOK] at h ⊢
  · exact ⟨h.1, var _ h.2⟩
  · exact ⟨h.1, var _ h.2⟩
  · exact tmp _ h
  · exact ⟨tmp _ h.1, h.2⟩

theorem owns_false {k : Kind} {o : Obj} (h : KindOK k o) (hn : NoAlias k) (ho : owns k = false) : o.owned = [] := by
  cases k with
  | arr => cases ho
  | view => obtain ⟨b, rfl⟩ := h; rfl
  | lazy own => exact h.2 ho
  | same y => exact absurd rfl (hn y)

theorem depsOf_some {env : Env} {y : Nat} {en : Entry} (h : env[y]? = some en) : depsOf env y = en.deps := by simp [depsOf, h]

theorem move_var {env : Env} {s : St} {T : List Nat} (m : M env s) (g : G s T) {y : Nat} {en : Entry} (e1 : env[y]? = some en) (e2 : en.ok = true) (na : NoAlias en.kind)
    (hu : allUsable (gone y env) en.deps = true) : ∃ s1 o1 o' r, s.get y = some o1 ∧ moveObj o1 s = some (s1, o', r) ∧ M (gone y env) (s1.put y (some r)) ∧
      Closed (gone y env) en.deps ∧ Cov (s1.put y (some r)) en.deps o' ∧ KindOK en.kind o' ∧ Fr env (gone y env) s (s1.put y (some r)) := by
  obtain ⟨o1, u1, u2, u3⟩ := m.use y en e1 e2 na
  obtain ⟨s1, o', r, h1, h2, -, h4, -⟩ := move_ok o1 (fun b hb => g.live_var u1 hb) u2
  have ef := moveObj_eff _ h1
  have hv : (s1.put y (some r)).vars = s.vars.set y (some r) := by show s1.vars.set _ _ = _; rw [ef.vars]
  have hl := lt_of_get m e1
  have hk := m.kind y en e1 o1 u1
  have fr := gone_fr (env := env) hv hl
  have hcl := u3.frame fr hu
  refine ⟨s1, o1, o', r, u1, h1, ?_, hcl.1, h2.mono (fun d hd => ⟨hd, hcl.2 d hd⟩), (h4 _ hk na).1, fr⟩
  refine m.touch e1 hv (f := fun en => { en with ok := false }) (fun _ => ⟨rfl, rfl⟩) ?_ (fun o ho => by cases ho; exact (h4 _ hk na).2) nofun
  show (st1 y en).scope = true
  rw [st1_scope, m.scope y en e1, u1]; rfl

theorem hold_ok {env env' : Env} {s : St} {c : Cat} {k : Kind} {D D' T : List Nat} {v : Val} {own : Bool} (m : M env s) (g : G s (T ++ v.owned)) (hD : Closed env D)
    (hv : ValOK env s c k D v) (h : holdCheck env c k D = some (env', own, D')) :
    ∃ s' o ts, hold s v = some (s', o, ts) ∧ M env' s' ∧ Closed env' D' ∧ Cov s' D' o ∧ (own = false → o.owned = []) ∧ Fr env env' s s' := by
  have tmp : ∀ o : Obj, G s (T ++ o.owned) → TmpOK s k D o → ∃ s' o' r, moveObj o s = some (s', o', r) ∧ M env s' ∧ Closed env D ∧ Cov s' D o' ∧ (owns k = false → o'.owned = []) ∧ Fr env env s s' := by
    intro o g t
    obtain ⟨s1, o', r, h1, h2, -, h4, -⟩ := move_ok o (fun b hb => g.live (List.mem_append_right _ hb)) t.cov
    have ef := moveObj_eff _ h1
    exact ⟨s1, o', r, h1, m.vars ef.vars, hD, h2.mono (fun d hd => ⟨hd, by simp [St.get, ef.vars]⟩), owns_false (h4 _ t.kind t.na).1 t.na, Fr.same ef.vars⟩
  cases c <;> cases v <;> simp only [ValOK] at hv
  · obtain ⟨rfl, ⟨en, e1, e2, e3, e4⟩, na⟩ := hv
    cases h
    exact ⟨s, _, [], rfl, m, hD, by rw [e4]; simp [Cov], fun _ => rfl, Fr.same rfl⟩
  · obtain ⟨rfl, ⟨en, e1, e2, e3, e4⟩, na⟩ := hv
    simp only [holdCheck] at h
    split at h
    · rename_i hu
      cases h
      rw [depsOf_some e1] at hu ⊢
      subst e3
      obtain ⟨s1, o1, o', r, h1, h2, h3, h4, h5, h6, h7⟩ := move_var m g e1 e2 na hu
      exact ⟨s1.put _ (some r), o', [], by simp [hold, h1, h2], h3, h4, h5, owns_false h6 na, h7⟩
    · cases h
  · cases h
    obtain ⟨s', o', r, h1, h2, h3, h4, h5, h6⟩ := tmp _ g hv
    exact ⟨s', o', r.owned, by simp [hold, h1], h2, h3, h4, h5, h6⟩
  · cases h
    obtain ⟨s', o', r, h1, h2, h3, h4, h5, h6⟩ := tmp _ g hv.1
    exact ⟨s', o', r.owned, by simp [hold, h1], h2, h3, h4, h5, h6⟩

/-! ### Expressions -/

theorem target_ok {env : Env} {s : St} (m : M env s) {x y : Nat} (h : target env x = some y) :
    resolve s x = some y ∧ ∃ en, env[y]? = some en ∧ NoAlias en.kind := by
  unfold target inScope kindOf at h
  cases hx : env[x]? with
  | none => simp [hx] at h
  | some en =>
      simp only [hx, Option.map_some, Option.getD_some] at h
      split at h
      · rename_i hs
        have h1 := m.scope x en hx
        rw [hs] at h1
        obtain ⟨o, ho⟩ := Option.isSome_iff_exists.mp h1.symm
        have hk := m.kind x en hx o ho
        split at h
        · rename_i z hz
          cases h
          have hz' : en.kind = .same y := by simpa using hz
          rw [hz'] at hk
          have : o = .ref y := hk
          subst this
          exact ⟨by simp [resolve, ho], m.al x en hx y hz'⟩
        · rename_i k hna hz
          cases h
          have hna' : NoAlias en.kind := fun z hz' => hna z (by have := Option.some.inj hz; rw [← this, hz'])
          refine ⟨?_, en, hx, hna'⟩
          have : ∀ z, o ≠ .ref z := by
            rintro z rfl
            cases hk' : en.kind with
            | arr => rw [hk'] at hk; obtain ⟨_, h⟩ := hk; cases h
            | view => rw [hk'] at hk; obtain ⟨_, h⟩ := hk; cases h
            | lazy own => rw [hk'] at hk; exact hk.1.elim
            | same z' => exact hna' _ hk'
          simp only [resolve, ho]
        · cases h
      · cases h

theorem Closed.usable {env : Env} {D : List Nat} (h : Closed env D) : allUsable env D = true := by
  refine List.all_eq_true.mpr (fun d hd => ?_)
  obtain ⟨en, e1, e2, -⟩ := h d hd
  simp [Spec.usable, e1, e2]

theorem var_closed {env : Env} {s : St} (m : M env s) {y : Nat} {en : Entry} (h : env[y]? = some en) (hok : en.ok = true) (na : NoAlias en.kind) : Closed env (y :: en.deps) := by
  obtain ⟨o, -, -, hc⟩ := m.use y en h hok na
  intro d hd
  rcases List.mem_cons.mp hd with rfl | hd
  · exact ⟨en, h, hok, na, fun d hd => List.mem_cons_of_mem _ hd⟩
  · obtain ⟨en1, c1, c2, c3, c4⟩ := hc d hd
    exact ⟨en1, c1, c2, c3, fun d hd => List.mem_cons_of_mem _ (c4 d hd)⟩

theorem isArr_eq {env : Env} {s : St} {c : Cat} {k : Kind} {D : List Nat} {v : Val} (m : M env s) (hv : ValOK env s c k D v) : isArr s v = true ↔ k = .arr := by
  have obj : ∀ o : Obj, KindOK k o → NoAlias k → ((match o with | .arr _ => true | _ => false) = true ↔ k = .arr) := by
    intro o hk na
    cases k with
    | arr => obtain ⟨b, rfl⟩ := hk; simp
    | view => obtain ⟨b, rfl⟩ := hk; simp
    | lazy own =>
        have h1 := hk.1
        cases o <;> simp [IsLazy] at h1 ⊢
    | same y => exact absurd rfl (na y)
  have var : ∀ y, VarOK env y k D → ((match s.get y with | some (.arr _) => true | _ => false) = true ↔ k = .arr) := by
    rintro y ⟨⟨en, e1, e2, e3, e4⟩, na⟩
    subst e3
    obtain ⟨o, h1, -, -⟩ := m.use y en e1 e2 na
    have := obj o (m.kind y en e1 o h1) na
    rw [h1]
    cases o <;> simpa using this
  cases c <;> cases v <;> simp only [ValOK] at hv
  · exact hv.1 ▸ var _ hv.2
  · exact hv.1 ▸ var _ hv.2
  · exact obj _ hv.kind hv.na
  · exact obj _ hv.1.kind hv.1.na

theorem access_ok {env : Env} {s : St} {c : Cat} {k : Kind} {D T : List Nat} {v : Val} (m : M env s) (g : G s (T ++ v.owned)) (hD : Closed env D) (hv : ValOK env s c k D v) : access s v = some () := by
  have done : ∀ r : Option (List Nat), need s v = r → (∃ bs, r = some bs ∧ ∀ b ∈ bs, b ∈ s.live) → access s v = some () := by
    rintro r hr ⟨bs, rfl, h2⟩
    simp only [access, hr, Option.bind_eq_bind, Option.bind_some]
    rw [if_pos (List.all_eq_true.mpr (fun b hb => by simpa using h2 b hb))]
  have var : ∀ y, VarOK env y k D → ∃ bs, needVar s s.vars.length y = some bs ∧ ∀ b ∈ bs, b ∈ s.live := by
    rintro y ⟨⟨en, e1, e2, e3, e4⟩, na⟩
    subst e3
    exact needVar_ok m g _ y en (lt_of_get m e1) e1 e2 na
  cases c <;> cases v <;> simp only [ValOK] at hv
  · exact done _ rfl (hv.1 ▸ var _ hv.2)
  · exact done _ rfl (hv.1 ▸ var _ hv.2)
  · exact done _ rfl (need_closed m g hD hv.cov (fun b hb => g.live (List.mem_append_right _ hb)))
  · exact done _ rfl (need_closed m g hD hv.1.cov (fun b hb => g.live (List.mem_append_right _ hb)))

/-- Slicing a variable. -/
theorem slice_var {env : Env} {s : St} (m : M env s) {y : Nat} {en : Entry} (e1 : env[y]? = some en) (e2 : en.ok = true) (na : NoAlias en.kind) :
    ∃ o, sliceVar s s.vars.length y = some o ∧ (en.kind = .arr → TmpOK s .view (y :: en.deps) o) ∧ (en.kind = .view → TmpOK s .view en.deps o) ∧
      (∀ own, en.kind = .lazy own → TmpOK s (.lazy false) (y :: en.deps) o) := by
  obtain ⟨o1, u1, u2, u3⟩ := m.use y en e1 e2 na
  have hl := lt_of_get m e1
  obtain ⟨n, hn⟩ : ∃ n, s.vars.length = n + 1 := ⟨s.vars.length - 1, by omega⟩
  have hk := m.kind y en e1 o1 u1
  have hD := var_closed m e1 e2 na
  obtain ⟨o, h1, h2, h3, h4⟩ := slice_cov (D := en.deps) (D' := y :: en.deps) (f := sliceVar s n) (fun d hd => List.mem_cons_of_mem _ hd) (fun d hd => by
    have := m.low y en e1 d hd
    exact sliceVar_ok m hD n d (by omega) (List.mem_cons_of_mem _ hd)) o1 u2 (fun b hb => ⟨y, by simp, o1, u1, hb⟩)
  have hs : sliceVar s s.vars.length y = some o := by rw [hn]; simp [sliceVar, u1, h1]
  refine ⟨o, hs, fun h => ?_, fun h => ?_, fun own h => ?_⟩
  · rw [h] at hk
    obtain ⟨b, rfl⟩ := hk
    exact ⟨⟨b, h4 b (Or.inl rfl)⟩, nofun, h2, nofun⟩
  · rw [h] at hk
    obtain ⟨b, rfl⟩ := hk
    have := h4 b (Or.inr rfl)
    subst this
    exact ⟨⟨b, rfl⟩, nofun, u2, nofun⟩
  · rw [h] at hk
    exact ⟨⟨h3 hk.1, fun _ => sliceVar_owned _ hs⟩, nofun, h2, nofun⟩

/-- Slicing a temporary that owns nothing. -/
theorem slice_tmp {env : Env} {s : St} (m : M env s) {D : List Nat} (hD : Closed env D) {k : Kind} {o : Obj} (ht : TmpOK s k D o) (hk : k = .view ∨ k = .lazy false) :
    ∃ o', sliceWith (sliceVar s s.vars.length) o = some o' ∧ TmpOK s k D o' := by
  have hown : o.owned = [] := owns_false ht.kind ht.na (by rcases hk with rfl | rfl <;> rfl)
  obtain ⟨o', h1, h2, h3, h4⟩ := slice_cov (D := D) (D' := D) (f := sliceVar s s.vars.length) (fun d hd => hd) (fun d hd => by
    obtain ⟨en, c1, -⟩ := hD d hd
    exact sliceVar_ok m hD _ d (lt_of_get m c1) hd) o ht.cov (fun b hb => by rw [hown] at hb; cases hb)
  refine ⟨o', h1, ?_, ht.na, h2, ht.arr⟩
  rcases hk with rfl | rfl
  · obtain ⟨b, rfl⟩ := ht.kind
    exact ⟨b, h4 b (Or.inr rfl)⟩
  · exact ⟨h3 ht.kind.1, fun _ => sliceWith_owned (fun x o h => sliceVar_owned _ h) _ h1⟩

theorem eval_ok : ∀ (e : E) {env env' : Env} {s : St} {c : Cat} {k : Kind} {D T : List Nat}, M env s → G s T → check e env = some (env', c, k, D) →
    ∃ s' v ts, eval e s = some (s', v, ts) ∧ M env' s' ∧ Closed env' D ∧ ValOK env' s' c k D v ∧ Fr env env' s s'
  | .name x, env, env', s, c, k, D, T, m, g, h => by
      simp only [check, Option.bind_eq_bind, Option.bind_eq_some_iff] at h
      obtain ⟨y, hy, h⟩ := h
      split at h
      · rename_i hu
        simp only [Option.bind_eq_some_iff] at h
        obtain ⟨k', hk, h⟩ := h
        cases h
        obtain ⟨hr, en, he, na⟩ := target_ok m hy
        obtain ⟨en', he', hok⟩ := usable_some hu
        rw [he] at he'; cases he'
        simp only [kindOf, he, Option.map_some, Option.some.injEq] at hk
        subst hk
        rw [depsOf_some he]
        exact ⟨s, .lv y, [], by simp [eval, hr], m, var_closed m he hok na, ⟨rfl, ⟨en, he, hok, rfl, rfl⟩, na⟩, Fr.same rfl⟩
      · cases h
  | .move x, env, env', s, c, k, D, T, m, g, h => by
      simp only [check, Option.bind_eq_bind, Option.bind_eq_some_iff] at h
      obtain ⟨y, hy, h⟩ := h
      split at h
      · rename_i hu
        simp only [Option.bind_eq_some_iff] at h
        obtain ⟨k', hk, h⟩ := h
        cases h
        obtain ⟨hr, en, he, na⟩ := target_ok m hy
        obtain ⟨en', he', hok⟩ := usable_some hu
        rw [he] at he'; cases he'
        simp only [kindOf, he, Option.map_some, Option.some.injEq] at hk
        subst hk
        rw [depsOf_some he]
        exact ⟨s, .xv y, [], by simp [eval, hr], m, var_closed m he hok na, ⟨rfl, ⟨en, he, hok, rfl, rfl⟩, na⟩, Fr.same rfl⟩
      · cases h
  | .make, env, env', s, c, k, D, T, m, g, h => by
      cases h
      exact ⟨s.alloc.1, .pv (.arr (some s.alloc.2)), [], rfl, m.vars rfl, fun (d : Nat) (hd : d ∈ []) => (List.not_mem_nil hd).elim,
        ⟨⟨_, rfl⟩, nofun, ⟨_, rfl⟩, fun _ => rfl⟩, Fr.same rfl⟩
  | .slice e, env, env', s, c, k, D, T, m, g, h => by
      simp only [check, Option.bind_eq_bind, Option.bind_eq_some_iff] at h
      obtain ⟨⟨env1, c1, k1, D1⟩, h1, h2⟩ := h
      obtain ⟨s1, v, ts, e1, m1, hD, hv, fr⟩ := eval_ok e m g h1
      have var : ∀ y, VarOK env1 y k1 D1 → ∃ o, sliceVar s1 s1.vars.length y = some o ∧
          (k1 = .arr → TmpOK s1 .view D1 o) ∧ (k1 = .view → TmpOK s1 .view (depsOf env1 y) o ∧ Closed env1 (depsOf env1 y)) ∧ (∀ own, k1 = .lazy own → TmpOK s1 (.lazy false) D1 o) := by
        rintro y ⟨⟨en, a1, a2, a3, a4⟩, na⟩
        subst a3
        obtain ⟨o, b1, b2, b3, b4⟩ := slice_var m1 a1 a2 na
        obtain ⟨-, -, -, u3⟩ := m1.use y en a1 a2 na
        rw [depsOf_some a1, a4]
        exact ⟨o, b1, b2, fun h => ⟨b3 h, u3⟩, b4⟩
      cases c1 <;> cases v <;> simp only [ValOK] at hv
      · obtain ⟨rfl, hv⟩ := hv
        obtain ⟨o, b1, b2, b3, b4⟩ := var _ hv
        cases k1 <;> cases h2
        · exact ⟨s1, .pv o, ts, by simp [eval, e1, b1], m1, hD, b2 rfl, fr⟩
        · exact ⟨s1, .pv o, ts, by simp [eval, e1, b1], m1, (b3 rfl).2, (b3 rfl).1, fr⟩
        · exact ⟨s1, .pv o, ts, by simp [eval, e1, b1], m1, hD, b4 _ rfl, fr⟩
      · obtain ⟨rfl, hv⟩ := hv
        obtain ⟨o, b1, b2, b3, b4⟩ := var _ hv
        cases k1 <;> cases h2
        · exact ⟨s1, .pv o, ts, by simp [eval, e1, b1], m1, hD, b2 rfl, fr⟩
        · exact ⟨s1, .pv o, ts, by simp [eval, e1, b1], m1, (b3 rfl).2, (b3 rfl).1, fr⟩
        · exact ⟨s1, .pv o, ts, by simp [eval, e1, b1], m1, hD, b4 _ rfl, fr⟩
      · rename_i o
        cases k1 with
        | arr => cases h2
        | view =>
            cases h2
            obtain ⟨o', b1, b2⟩ := slice_tmp m1 hD hv (Or.inl rfl)
            exact ⟨s1, .pv o', ts ++ o.owned, by simp [eval, e1, b1], m1, hD, b2, fr⟩
        | lazy own =>
            cases own with
            | true => cases h2
            | false =>
                cases h2
                obtain ⟨o', b1, b2⟩ := slice_tmp m1 hD hv (Or.inr rfl)
                exact ⟨s1, .pv o', ts ++ o.owned, by simp [eval, e1, b1], m1, hD, b2, fr⟩
        | same y => cases h2
      · cases k1 <;> cases h2
  | .un cst e, env, env', s, c, k, D, T, m, g, h => by
      simp only [check, Option.bind_eq_bind, Option.bind_eq_some_iff] at h
      obtain ⟨⟨env1, c1, k1, D1⟩, h1, ⟨env2, own, D2⟩, h2, h3⟩ := h
      cases h3
      obtain ⟨s1, v, ts, e1, m1, hD, hv, fr⟩ := eval_ok e m g h1
      obtain ⟨s2, o, us, e2, m2, hD2, hc, hown, fr2⟩ := hold_ok m1 (eval_G _ e1 g) hD hv h2
      exact ⟨s2, .pv (.un cst o), ts ++ us, by simp [eval, e1, e2], m2, hD2, ⟨⟨trivial, hown⟩, nofun, hc, nofun⟩, fr.trans fr2⟩
  | .bin cst l r, env, env', s, c, k, D, T, m, g, h => by
      simp only [check, Option.bind_eq_bind, Option.bind_eq_some_iff] at h
      obtain ⟨⟨env1, c1, k1, D1⟩, h1, ⟨env2, c2, k2, D2⟩, h2, h3⟩ := h
      split at h3
      · rename_i hu1
        simp only [Option.bind_eq_some_iff] at h3
        obtain ⟨⟨env3, own3, D3⟩, h3, h4⟩ := h3
        split at h4
        · rename_i hu2
          simp only [Option.bind_eq_some_iff] at h4
          obtain ⟨⟨env4, own4, D4⟩, h4, h5⟩ := h4
          split at h5
          · rename_i hu3
            cases h5
            obtain ⟨s1, v1, ts1, e1, m1, hD1, hv1, fr1⟩ := eval_ok l m g h1
            have g1 := eval_G _ e1 g
            obtain ⟨s2, v2, ts2, e2, m2, hD2, hv2, fr2⟩ := eval_ok r m1 g1 h2
            have g2 := eval_G _ e2 g1
            have hv1' := hv1.frame fr2 hD1 hu1
            have hD1' := (hD1.frame fr2 hu1).1
            have g2' : G s2 (T ++ ts1 ++ ts2 ++ v2.owned ++ v1.owned) := g2.perm (by intro b; simp; omega)
            obtain ⟨s3, o3, us3, e3, m3, hD3, hc3, hown3, fr3⟩ := hold_ok m2 g2' hD1' hv1' h3
            have g3 := hold_G e3 g2'
            have hv2' := hv2.frame fr3 hD2 hu2
            have hD2' := (hD2.frame fr3 hu2).1
            have g3' : G s3 (T ++ ts1 ++ ts2 ++ us3 ++ o3.owned ++ v2.owned) := g3.perm (by intro b; simp; omega)
            obtain ⟨s4, o4, us4, e4, m4, hD4, hc4, hown4, fr4⟩ := hold_ok m3 g3' hD2' hv2' h4
            have hu3' : allUsable env4 D3 = true ∧ allUsable env4 D4 = true := by simpa [allUsable, List.all_append] using hu3
            have hD3' := hD3.frame fr4 hu3'.1
            refine ⟨s4, .pv (.bin cst o3 o4), ts1 ++ ts2 ++ us3 ++ us4, by simp [eval, e1, e2, e3, e4], m4, ?_, ⟨⟨trivial, ?_⟩, nofun, ⟨?_, ?_⟩, nofun⟩, fr1.trans (fr2.trans (fr3.trans fr4))⟩
            · intro d hd
              rcases List.mem_append.mp hd with hd | hd
              · obtain ⟨en, a1, a2, a3, a4⟩ := hD3'.1 d hd
                exact ⟨en, a1, a2, a3, fun d' h' => List.mem_append_left _ (a4 d' h')⟩
              · obtain ⟨en, a1, a2, a3, a4⟩ := hD4 d hd
                exact ⟨en, a1, a2, a3, fun d' h' => List.mem_append_right _ (a4 d' h')⟩
            · intro ho
              have ho' : own3 = false ∧ own4 = false := by simpa using ho
              simp [Obj.owned, hown3 ho'.1, hown4 ho'.2]
            · exact hc3.mono (fun d hd => ⟨List.mem_append_left _ hd, hD3'.2 d hd⟩)
            · exact hc4.mono (fun d hd => ⟨List.mem_append_right _ hd, rfl⟩)
          · cases h5
        · cases h4
      · cases h3
  | .regular e, env, env', s, c, k, D, T, m, g, h => by
      simp only [check, Option.bind_eq_bind, Option.bind_eq_some_iff] at h
      obtain ⟨⟨env1, c1, k1, D1⟩, h1, h2⟩ := h
      obtain ⟨s1, v, ts, e1, m1, hD, hv, fr⟩ := eval_ok e m g h1
      have hia := isArr_eq m1 hv
      by_cases hk : k1 = .arr
      · subst hk
        have ha := hia.mpr rfl
        simp only at h2
        cases c1 with
        | lv y => cases v with
            | lv y' => cases h2; exact ⟨s1, .lv y', ts, by simp [eval, e1, ha], m1, hD, hv, fr⟩
            | _ => exact hv.elim
        | xv y => cases v with
            | xv y' => cases h2; exact ⟨s1, .xv y', ts, by simp [eval, e1, ha], m1, hD, hv, fr⟩
            | _ => exact hv.elim
        | pv => cases v with
            | pv o => cases h2; exact ⟨s1, .xt o, ts, by simp [eval, e1, ha], m1, hD, ⟨hv, rfl⟩, fr⟩
            | _ => exact hv.elim
        | xt => cases v with
            | xt o => cases h2; exact ⟨s1, .xt o, ts, by simp [eval, e1, ha], m1, hD, hv, fr⟩
            | _ => exact hv.elim
      · have ha : isArr s1 v = false := by
          cases hb : isArr s1 v
          · rfl
          · exact absurd (hia.mp hb) hk
        have h2' : some (env1, Cat.pv, Kind.arr, ([] : List Nat)) = some (env', c, k, D) := by
          cases k1 <;> first | exact absurd rfl hk | exact h2
        cases h2'
        have hacc := access_ok m1 (eval_G _ e1 g) hD hv
        exact ⟨s1.alloc.1, .pv (.arr (some s1.alloc.2)), ts ++ v.owned, by simp [eval, e1, ha, hacc], m1.vars rfl, fun (d : Nat) (hd : d ∈ []) => (List.not_mem_nil hd).elim,
          ⟨⟨_, rfl⟩, nofun, ⟨_, rfl⟩, fun _ => rfl⟩, fr.trans (Fr.same rfl)⟩

/-! ### Statements -/

/-- A new variable. -/
theorem M.declare {env : Env} {s : St} (m : M env s) {k : Kind} {D : List Nat} {o : Obj} (hD : Closed env D) (hk : KindOK k o) (ha : k = .arr → D = [])
    (hc : NoAlias k → Cov s D o) (hs : ∀ y, k = .same y → ∃ en, env[y]? = some en ∧ NoAlias en.kind) : M (declare env k D) (s.push o) := by
  have hl := m.len
  have hg : ∀ x, (s.push o).get x = if x = env.length then some o else s.get x := by
    intro x
    unfold St.get St.push
    simp only [List.getElem?_append]
    by_cases h1 : x < s.vars.length
    · rw [if_pos h1, if_neg (by omega)]
    · rw [if_neg h1]
      by_cases h2 : x = env.length
      · rw [if_pos h2, h2, hl]; simp
      · rw [if_neg h2]
        have h3 : ¬ x - s.vars.length < 1 := by omega
        rw [List.getElem?_eq_none (by simp; omega), List.getElem?_eq_none (by omega)]
  have he : ∀ (x : Nat) (en : Entry), (Spec.declare env k D)[x]? = some en → (x = env.length ∧ en = ⟨k, D, true, true⟩) ∨ (x < env.length ∧ env[x]? = some en) := by
    intro x en h
    unfold Spec.declare at h
    rw [List.getElem?_append] at h
    split at h
    · rename_i h1; exact Or.inr ⟨h1, h⟩
    · rename_i h1
      have h2 := (List.getElem?_eq_some_iff.mp h).1
      have h3 : x = env.length := by simp at h2; omega
      subst h3
      simp at h
      exact Or.inl ⟨rfl, h.symm⟩
  have hf : ∀ (x : Nat) (en : Entry), env[x]? = some en → (Spec.declare env k D)[x]? = some en := by
    intro x en h
    unfold Spec.declare
    rw [List.getElem?_append_left (List.getElem?_eq_some_iff.mp h).1, h]
  have hcl' : ∀ D', Closed env D' → Closed (Spec.declare env k D) D' := by
    intro D' h d hd
    obtain ⟨en, a1, a2, a3, a4⟩ := h d hd
    exact ⟨en, hf d en a1, a2, a3, a4⟩
  have hlow : ∀ D', Closed env D' → ∀ d ∈ D', d < env.length := fun D' h d hd => by
    obtain ⟨en, a1, -⟩ := h d hd
    exact (List.getElem?_eq_some_iff.mp a1).1
  refine ⟨by simp [Spec.declare, St.push, hl], ?_, ?_, ?_, ?_, ?_, ?_⟩
  · intro x en h
    rcases he x en h with ⟨rfl, rfl⟩ | ⟨h1, h2⟩
    · rw [hg, if_pos rfl]; rfl
    · rw [hg, if_neg (by omega)]; exact m.scope x en h2
  · intro x en h o' ho
    rcases he x en h with ⟨rfl, rfl⟩ | ⟨h1, h2⟩
    · rw [hg, if_pos rfl] at ho; cases ho; exact hk
    · rw [hg, if_neg (by omega)] at ho; exact m.kind x en h2 o' ho
  · intro x en h y hy
    rcases he x en h with ⟨rfl, rfl⟩ | ⟨h1, h2⟩
    · obtain ⟨en, a1, a2⟩ := hs y hy
      exact ⟨en, hf y en a1, a2⟩
    · obtain ⟨en', a1, a2⟩ := m.al x en h2 y hy
      exact ⟨en', hf y en' a1, a2⟩
  · intro x en h d hd
    rcases he x en h with ⟨rfl, rfl⟩ | ⟨h1, h2⟩
    · exact hlow D hD d hd
    · exact m.low x en h2 d hd
  · intro x en h hh
    rcases he x en h with ⟨rfl, rfl⟩ | ⟨h1, h2⟩
    · exact ha hh
    · exact m.arr x en h2 hh
  · intro x en h hok na
    rcases he x en h with ⟨rfl, rfl⟩ | ⟨h1, h2⟩
    · exact ⟨o, by rw [hg, if_pos rfl], (hc na).mono (fun d hd => ⟨hd, by rw [hg, if_neg (by have := hlow D hD d hd; omega)]⟩), hcl' D hD⟩
    · obtain ⟨o', u1, u2, u3⟩ := m.use x en h2 hok na
      exact ⟨o', by rw [hg, if_neg (by omega), u1], u2.mono (fun d hd => ⟨hd, by rw [hg, if_neg (by have := hlow _ u3 d hd; omega)]⟩), hcl' _ u3⟩

theorem renewed_eq (y : Nat) (env : Env) : setOk y true (stale y env) = touch y (fun en => { en with ok := true }) env := rfl

/-- An array gets new storage. -/
theorem M.renew {env : Env} {s s' : St} (m : M env s) {y : Nat} {en : Entry} (he : env[y]? = some en) (hk : en.kind = .arr) (hs : en.scope = true) {b : Nat}
    (hv : s'.vars = s.vars.set y (some (.arr (some b)))) : M (setOk y true (stale y env)) s' := by
  rw [renewed_eq]
  refine m.touch he hv (fun _ => ⟨rfl, rfl⟩) ?_ (fun o ho => by cases ho; rw [hk]; exact ⟨_, rfl⟩) (fun _ => ⟨hk, b, rfl⟩)
  show (st1 y en).scope = true
  rw [st1_scope, hs]

theorem free_vars {bs : List Nat} {s s' : St} (h : St.free bs s = some s') : s'.vars = s.vars := (free_cnt bs h).1

/-- The temporaries are destroyed. -/
theorem finish {bs : List Nat} {env : Env} {s : St} (m : M env s) (g : G s bs) : ∃ s', St.free bs s = some s' ∧ M env s' := by
  obtain ⟨s', h⟩ := free_ok bs (s := s) (T := []) (by simpa using g)
  exact ⟨s', h, m.vars (free_vars h)⟩

theorem arr_obj {env : Env} {s : St} (m : M env s) {y : Nat} {en : Entry} (he : env[y]? = some en) (hk : en.kind = .arr) (hs : en.scope = true) : ∃ old, s.get y = some (.arr old) := by
  have h1 := m.scope y en he
  rw [hs] at h1
  obtain ⟨o, ho⟩ := Option.isSome_iff_exists.mp h1.symm
  obtain ⟨b, rfl⟩ := hk ▸ m.kind y en he o ho
  exact ⟨b, ho⟩

/-- The storage of an array can be given back. -/
theorem free_old {s : St} {T : List Nat} (g : G s T) {y : Nat} {old : Option Nat} (h : s.get y = some (.arr old)) : ∃ s', St.free old.toList s = some s' := by
  cases old with
  | none => exact ⟨s, rfl⟩
  | some b =>
      have : b ∈ s.live := g.live_var h (by simp [Obj.owned])
      exact ⟨_, by simp [St.free, this]; rfl⟩

theorem gone_usable {env : Env} {D : List Nat} (hD : Closed env D) {y : Nat} (hy : y ∉ D) : allUsable (gone y env) D = true := by
  refine List.all_eq_true.mpr (fun d hd => ?_)
  obtain ⟨en, a1, a2, a3, a4⟩ := hD d hd
  have hne : d ≠ y := fun e => hy (e ▸ hd)
  unfold Spec.usable
  rw [gone_eq, touch_get, if_neg hne, a1]
  have : st1 y en = en := st1_of (fun h => hy (a4 y h))
  simp [this, a2]

/-- Access to a variable that may be used. -/
theorem access_var {env : Env} {s : St} {T : List Nat} (m : M env s) (g : G s T) {y : Nat} {en : Entry} (he : env[y]? = some en) (na : NoAlias en.kind) (hu : usable env y = true) :
    access s (.lv y) = some () := by
  obtain ⟨en', e1, e2⟩ := usable_some hu
  rw [he] at e1; cases e1
  exact access_ok (c := .lv y) (k := en.kind) (T := T) m (by simpa [Val.owned] using g) (var_closed m he e2 na) ⟨rfl, ⟨en, he, e2, rfl, rfl⟩, na⟩

theorem inScope_some {env : Env} {y : Nat} (h : inScope env y = true) : ∃ en, env[y]? = some en ∧ en.scope = true := by
  unfold inScope at h
  cases e : env[y]? with
  | none => simp [e] at h
  | some en => simp [e] at h; exact ⟨en, rfl, h⟩

theorem cov_arr {s : St} {D : List Nat} {o : Obj} (hk : KindOK .arr o) (hc : Cov s D o) : ∃ b, o = .arr (some b) := by
  obtain ⟨b, rfl⟩ := hk
  obtain ⟨b', rfl⟩ := hc
  exact ⟨b', rfl⟩

/-- The rule for the assignment of an array to an array. -/
def assigned (env : Env) (y : Nat) : Cat → Option Env
  | .xv z => if z = y then none else some (setOk y true (stale y (gone z env)))
  | _ => some (setOk y true (stale y env))

/-- Assignment of an array to an array. -/
theorem assignArr_ok {env env' : Env} {s : St} {c : Cat} {D T : List Nat} {v : Val} (m : M env s) (g : G s (T ++ v.owned)) (hv : ValOK env s c .arr D v) {y : Nat} {en : Entry}
    (he : env[y]? = some en) (hk : en.kind = .arr) (hs : en.scope = true) {old : Option Nat} (ho : s.get y = some (.arr old))
    (h : assigned env y c = some env') :
    ∃ s', assignArr s y old v = some s' ∧ M env' s' := by
  have hl := lt_of_get m he
  have tmp : ∀ o : Obj, TmpOK s .arr D o → ∃ s', (do let s ← St.free old.toList s; return s.put y (some o)) = some s' ∧ M (setOk y true (stale y env)) s' := by
    intro o t
    obtain ⟨s1, f1⟩ := free_old g ho
    obtain ⟨b, rfl⟩ := cov_arr t.kind t.cov
    exact ⟨s1.put y (some (.arr (some b))), by simp [f1], m.renew he hk hs (b := b) (by show s1.vars.set _ _ = _; rw [free_vars f1])⟩
  cases c with
  | lv z => cases v with
      | lv z' =>
          obtain ⟨rfl, ⟨en1, a1, a2, a3, a4⟩, na⟩ := hv
          cases h
          obtain ⟨o, u1, u2, u3⟩ := m.use z en1 a1 a2 (a3 ▸ na)
          obtain ⟨b, rfl⟩ := cov_arr (a3 ▸ m.kind z en1 a1 o u1) u2
          have hb : b ∈ s.live := g.live_var u1 (by simp [Obj.owned])
          have hc : copyObj (.arr (some b)) s = some (s.alloc.1, .arr (some s.alloc.2)) := by simp [copyObj, hb]
          have g1 := (copyObj_eff _ hc).G (T' := T ++ [] ++ (Obj.arr (some s.alloc.2)).owned) g (by intro b; simp [Val.owned])
          obtain ⟨s1, f1⟩ := free_old (s := s.alloc.1) (y := y) g1 ho
          exact ⟨s1.put y (some (.arr (some s.alloc.2))), by simp [assignArr, u1, hc, f1],
            m.renew he hk hs (b := s.alloc.2) (by show s1.vars.set _ _ = _; rw [free_vars f1]; rfl)⟩
      | _ => exact hv.elim
  | xv z => cases v with
      | xv z' =>
          obtain ⟨rfl, ⟨en1, a1, a2, a3, a4⟩, na⟩ := hv
          simp only [assigned] at h
          split at h
          · cases h
          · rename_i hne
            cases h
            obtain ⟨o, u1, u2, u3⟩ := m.use z en1 a1 a2 (a3 ▸ na)
            obtain ⟨b, rfl⟩ := cov_arr (a3 ▸ m.kind z en1 a1 o u1) u2
            obtain ⟨s1, f1⟩ := free_old g ho
            have hv1 : (s.put z (some (.arr none))).vars = s.vars.set z (some (.arr none)) := rfl
            have m1 : M (gone z env) (s.put z (some (.arr none))) := m.touch a1 hv1 (f := fun en => { en with ok := false }) (fun _ => ⟨rfl, rfl⟩)
              (by show (st1 z en1).scope = true; rw [st1_scope, m.scope z en1 a1, u1]; rfl) (fun o ho => by cases ho; rw [a3]; exact ⟨_, rfl⟩) nofun
            obtain ⟨en2, e2, e3, e4, -⟩ := (gone_fr (env := env) hv1 (lt_of_get m a1)).fwd he
            refine ⟨(s1.put y (some (.arr (some b)))).put z (some (.arr none)), by simp [assignArr, u1, f1], m1.renew e2 (e3.trans hk) (e4.trans hs) (b := b) ?_⟩
            show (s1.vars.set y _).set z _ = (s.vars.set z _).set y _
            rw [free_vars f1, List.set_comm _ _ (Ne.symm hne)]
      | _ => exact hv.elim
  | pv => cases v with
      | pv o => cases h; exact tmp o hv
      | _ => exact hv.elim
  | xt => cases v with
      | xt o => cases h; exact tmp o hv.1
      | _ => exact hv.elim

theorem destroyed_eq (y : Nat) (env : Env) : destroyed y env = touch y (fun en => { en with ok := false, scope := false }) env := by
  unfold destroyed gone setOk touch
  rw [List.modify_modify_eq]
  rfl

theorem exec_ok (st : Stmt) {env env' : Env} {s : St} (m : M env s) (g : G s []) (h : checkStmt st env = some env') : ∃ s', exec st s = some s' ∧ M env' s' := by
  cases st with
  | decl e =>
      simp only [checkStmt, Option.bind_eq_bind, Option.bind_eq_some_iff] at h
      obtain ⟨⟨env1, c, k, D⟩, h1, h2⟩ := h
      obtain ⟨s1, v, ts, e1, m1, hD, hv, fr⟩ := eval_ok e m g h1
      have g1 := eval_G _ e1 g
      have fin : ∀ s2 o us, construct s1 v = some (s2, o, us) → M env' (s2.push o) → ∃ s', exec (.decl e) s = some s' ∧ M env' s' := by
        intro s2 o us hc hm
        have g2 := (construct_G hc g1).push (T' := ts ++ us) o (by intro b; simp; omega)
        obtain ⟨s', f1, f2⟩ := finish hm g2
        exact ⟨s', by simp [exec, e1, hc, f1], f2⟩
      cases c with
      | lv y => cases v with
          | lv y' =>
              obtain ⟨rfl, ⟨en, a1, a2, a3, a4⟩, na⟩ := hv
              subst a3
              cases h2
              obtain ⟨o, u1, u2, u3⟩ := m1.use y en a1 a2 na
              obtain ⟨s2, o', c1, c2, -, c4, -⟩ := copy_ok o (fun b hb => g1.live_var u1 hb) u2
              have hvars := (copyObj_eff _ c1).vars
              refine fin s2 o' [] (by simp [construct, u1, c1]) ?_
              rw [depsOf_some a1]
              exact (m1.vars hvars).declare u3 (c4 _ (m1.kind y en a1 o u1) na) (m1.arr y en a1) (fun _ => c2.mono (fun d hd => ⟨hd, by simp [St.get, hvars]⟩))
                (fun z hz => absurd hz (na z))
          | _ => exact hv.elim
      | xv y => cases v with
          | xv y' =>
              obtain ⟨rfl, ⟨en, a1, a2, a3, a4⟩, na⟩ := hv
              subst a3
              simp only at h2
              split at h2
              · rename_i hu
                cases h2
                rw [depsOf_some a1] at hu
                obtain ⟨s2, o1, o', r, b1, b2, b3, b4, b5, b6, b7⟩ := move_var m1 g1 a1 a2 na hu
                refine fin (s2.put y (some r)) o' [] (by simp [construct, b1, b2]) ?_
                rw [depsOf_some a1]
                exact (b3.declare b4 b6 (m1.arr y en a1) (fun _ => b5) (fun z hz => absurd hz (na z)))
              · cases h2
          | _ => exact hv.elim
      | pv => cases v with
          | pv o => cases h2; exact fin s1 o [] rfl (m1.declare hD hv.kind hv.arr (fun _ => hv.cov) (fun z hz => absurd hz (hv.na z)))
          | _ => exact hv.elim
      | xt => cases v with
          | xt o =>
              cases h2
              obtain ⟨t, hk⟩ := hv
              obtain ⟨s2, o', r, c1, c2, -, c4, -⟩ := move_ok o (fun b hb => g1.live (List.mem_append_right _ hb)) t.cov
              have hvars := (moveObj_eff _ c1).vars
              exact fin s2 o' r.owned (by simp [construct, c1]) ((m1.vars hvars).declare hD (c4 _ t.kind t.na).1 t.arr
                (fun _ => c2.mono (fun d hd => ⟨hd, by simp [St.get, hvars]⟩)) (fun z hz => absurd hz (t.na z)))
          | _ => exact hv.elim
  | bind e =>
      simp only [checkStmt, Option.bind_eq_bind, Option.bind_eq_some_iff] at h
      obtain ⟨⟨env1, c, k, D⟩, h1, h2⟩ := h
      obtain ⟨s1, v, ts, e1, m1, hD, hv, fr⟩ := eval_ok e m g h1
      have g1 := eval_G _ e1 g
      cases c with
      | lv y => cases v with
          | lv y' =>
              obtain ⟨rfl, ⟨en, a1, a2, a3, a4⟩, na⟩ := hv
              subst a3
              cases h2
              have g2 := g1.push (T' := ts) (.ref y) (by intro b; simp [Obj.owned, Val.owned])
              have m2 : M (declare env1 (.same y) []) (s1.push (.ref y)) := m1.declare (fun d hd => (List.not_mem_nil hd).elim) rfl nofun (fun hn => absurd rfl (hn y))
                (fun z hz => by cases hz; exact ⟨en, a1, na⟩)
              obtain ⟨s', f1, f2⟩ := finish m2 g2
              exact ⟨s', by simp [exec, e1, f1], f2⟩
          | _ => exact hv.elim
      | xv y => cases v with
          | xv y' =>
              obtain ⟨rfl, ⟨en, a1, a2, a3, a4⟩, na⟩ := hv
              subst a3
              cases h2
              have g2 := g1.push (T' := ts) (.ref y) (by intro b; simp [Obj.owned, Val.owned])
              have m2 : M (declare env1 (.same y) []) (s1.push (.ref y)) := m1.declare (fun d hd => (List.not_mem_nil hd).elim) rfl nofun (fun hn => absurd rfl (hn y))
                (fun z hz => by cases hz; exact ⟨en, a1, na⟩)
              obtain ⟨s', f1, f2⟩ := finish m2 g2
              exact ⟨s', by simp [exec, e1, f1], f2⟩
          | _ => exact hv.elim
      | pv => cases v with
          | pv o =>
              cases h2
              have g2 := g1.push (T' := ts) o (by intro b; simp [Val.owned])
              have m2 : M (declare env1 k D) (s1.push o) := m1.declare hD hv.kind hv.arr (fun _ => hv.cov) (fun z hz => absurd hz (hv.na z))
              obtain ⟨s', f1, f2⟩ := finish m2 g2
              exact ⟨s', by simp [exec, e1, f1], f2⟩
          | _ => exact hv.elim
      | xt => cases h2
  | drop x =>
      simp only [checkStmt] at h
      split at h
      · rename_i hs
        cases h
        obtain ⟨en, he, hsc⟩ := inScope_some hs
        have h1 := m.scope x en he
        rw [hsc] at h1
        obtain ⟨o, ho⟩ := Option.isSome_iff_exists.mp h1.symm
        have g2 := g.put (T' := o.owned) (get_eq ho) none (by intro b; simp [ownedOpt])
        have m2 : M (destroyed x env) (s.put x none) := by
          rw [destroyed_eq]
          exact m.touch he rfl (fun _ => ⟨rfl, rfl⟩) rfl nofun nofun
        obtain ⟨s', f1, f2⟩ := finish m2 g2
        exact ⟨s', by simp [exec, ho, f1], f2⟩
      · cases h
  | read e =>
      simp only [checkStmt, Option.bind_eq_bind, Option.bind_eq_some_iff] at h
      obtain ⟨⟨env1, c, k, D⟩, h1, h2⟩ := h
      cases h2
      obtain ⟨s1, v, ts, e1, m1, hD, hv, fr⟩ := eval_ok e m g h1
      have g1 := eval_G _ e1 g
      have hacc := access_ok m1 g1 hD hv
      obtain ⟨s', f1, f2⟩ := finish (bs := ts ++ v.owned) m1 (by simpa using g1)
      exact ⟨s', by simp [exec, e1, hacc, f1], f2⟩
  | assign x e other =>
      simp only [checkStmt, Option.bind_eq_bind, Option.bind_eq_some_iff] at h
      obtain ⟨y, hy, ⟨env1, c, k, D⟩, h1, h2⟩ := h
      obtain ⟨hr, en0, he0, na0⟩ := target_ok m hy
      obtain ⟨s1, v, ts, e1, m1, hD, hv, fr⟩ := eval_ok e m g h1
      have g1 : G s1 (ts ++ v.owned) := by simpa using eval_G _ e1 g
      split at h2
      · rename_i hs
        obtain ⟨en, he, hsc⟩ := inScope_some hs
        have hacc := access_ok m1 g1 hD hv
        have hia := isArr_eq m1 hv
        obtain ⟨en', he', hkk, -, -⟩ := fr.fwd he0
        rw [he] at he'; cases he'
        have na : NoAlias en.kind := by rw [hkk]; exact na0
        have same : usable env1 y = true → env' = env1 → ∀ o, s1.get y = some o → (∃ b, o = .view b) ∨ ((∃ b, o = .arr b) ∧ isArr s1 v = false ∧ other = false) →
            ∃ s', exec (.assign x e other) s = some s' ∧ M env' s' := by
          rintro hu rfl o ho hcase
          have hav := access_var m1 g1 he na hu
          obtain ⟨s', f1, f2⟩ := finish (bs := ts ++ v.owned) m1 g1
          refine ⟨s', ?_, f2⟩
          rcases hcase with ⟨b, rfl⟩ | ⟨⟨b, rfl⟩, h3, rfl⟩
          · simp [exec, hr, e1, ho, hav, hacc, f1]
          · simp [exec, hr, e1, ho, h3, hav, hacc, f1]
        cases hk : en.kind with
        | arr =>
            obtain ⟨old, ho⟩ := arr_obj m1 he hk hsc
            simp only [kindOf, he, Option.map_some, hk] at h2
            by_cases hka : k = .arr
            · subst hka
              have h2' : assigned env1 y c = some env' := by
                cases c <;> exact h2
              obtain ⟨s2, b1, b2⟩ := assignArr_ok m1 g1 hv he hk hsc ho h2'
              have g2 := assignArr_G ho (hia.mpr rfl) b1 g1
              obtain ⟨s', f1, f2⟩ := finish b2 g2
              exact ⟨s', by simp [exec, hr, e1, ho, hia.mpr rfl, b1, f1], f2⟩
            · have hia' : isArr s1 v = false := by
                cases hb : isArr s1 v
                · rfl
                · exact absurd (hia.mp hb) hka
              have h2' : (if other = true then if y ∈ D then none else some (setOk y true (stale y env1)) else if usable env1 y = true then some env1 else none) = some env' := by
                cases k <;> first | exact absurd rfl hka | exact h2
              cases other with
              | true =>
                  simp only [if_true] at h2'
                  split at h2'
                  · cases h2'
                  · rename_i hyD
                    cases h2'
                    obtain ⟨s2, f1⟩ := free_old g1 ho
                    have hv2 : (s2.alloc.1.put y (some (.arr (some s2.alloc.2)))).vars = s1.vars.set y (some (.arr (some s2.alloc.2))) := by
                      show s2.vars.set _ _ = _; rw [free_vars f1]
                    have g2 := renew_G ho f1 g1
                    have m2 := m1.renew he hk hsc hv2
                    have fr2 := gone_fr (env := env1) hv2 (lt_of_get m1 he)
                    have hu := gone_usable hD hyD
                    have m3 : M (gone y env1) _ := m1.touch he hv2 (f := fun en => { en with ok := false }) (fun _ => ⟨rfl, rfl⟩)
                      (by show (st1 y en).scope = true; rw [st1_scope, hsc]) (fun o ho => by cases ho; rw [hk]; exact ⟨_, rfl⟩) nofun
                    have hacc2 := access_ok m3 g2 (hD.frame fr2 hu).1 (hv.frame fr2 hD hu)
                    obtain ⟨s', f2, f3⟩ := finish (bs := ts ++ v.owned) m2 g2
                    exact ⟨s', by simp [exec, hr, e1, ho, hia', f1, hacc2, f2], f3⟩
              | false =>
                  simp only [Bool.false_eq_true, if_false] at h2'
                  split at h2'
                  · rename_i hu
                    cases h2'
                    exact same hu rfl _ ho (Or.inr ⟨⟨old, rfl⟩, hia', rfl⟩)
                  · cases h2'
        | view =>
            simp only [kindOf, he, Option.map_some, hk] at h2
            split at h2
            · rename_i hu
              cases h2
              obtain ⟨en', u1, u2⟩ := usable_some hu
              rw [he] at u1; cases u1
              obtain ⟨o, ho, -, -⟩ := m1.use y en he u2 na
              have hko := m1.kind y en he o ho
              rw [hk] at hko
              exact same hu rfl o ho (Or.inl hko)
            · cases h2
        | lazy own => simp [kindOf, he, hk] at h2
        | same z => simp [kindOf, he, hk] at h2
      · cases h2
  | resize x =>
      simp only [checkStmt, Option.bind_eq_bind, Option.bind_eq_some_iff] at h
      obtain ⟨y, hy, h2⟩ := h
      obtain ⟨hr, en0, he0, na0⟩ := target_ok m hy
      split at h2
      · rename_i hs
        cases h2
        obtain ⟨en, he, hsc⟩ := inScope_some hs.1
        have hk : en.kind = .arr := by simpa [kindOf, he] using hs.2
        obtain ⟨old, ho⟩ := arr_obj m he hk hsc
        obtain ⟨s2, f1⟩ := free_old g ho
        exact ⟨s2.alloc.1.put y (some (.arr (some s2.alloc.2))), by simp [exec, hr, ho, f1], m.renew he hk hsc (b := s2.alloc.2) (by show s2.vars.set _ _ = _; rw [free_vars f1])⟩
      · cases h2

theorem run_ok : ∀ (P : List Stmt) {env env' : Env} {s : St}, M env s → G s [] → checkAll P env = some env' → ∃ s', run P s = some s' ∧ M env' s'
  | [], env, env', s, m, g, h => by cases h; exact ⟨s, rfl, m⟩
  | c :: P, env, env', s, m, g, h => by
      simp only [checkAll, Option.bind_eq_bind, Option.bind_eq_some_iff] at h
      obtain ⟨env1, h1, h2⟩ := h
      obtain ⟨s1, e1, m1⟩ := exec_ok c m g h1
      obtain ⟨s2, e2, m2⟩ := run_ok P m1 (exec_G c e1 g) h2
      exact ⟨s2, by simp [run, e1, e2], m2⟩

theorem init_M : M [] St.init := ⟨rfl, nofun, nofun, nofun, nofun, nofun, nofun⟩

end Nda.Lifetime
