import Verif.Spec.SymGrp
import Verif.Lemmas.Fresh
import Mathlib.Data.List.Perm.Subperm
/-!
# The construction of symmetry classes
-/
namespace Nda.SymGrp
open Nda LayoutTransforms Assign Loops Nda.Spec Nda.Perm IdxMap

theorem isValid_iff : ∀ {len idx : List Int}, idx.length = len.length → (isValid len idx = true ↔ InRange len idx)
  | [], [], _ => by simp [isValid, InRange]
  | l :: len, i :: idx, h => by
    have ih := @isValid_iff len idx (by simpa using h)
    simp only [isValid, List.length_cons, List.range_succ_eq_map, List.all_cons, List.all_map, InRange, ← ih, Bool.and_eq_true]
    simp [Function.comp_def]

theorem identity_eq (n : Nat) : Perm.identity n = List.range n := by simp [Perm.identity]

theorem isPerm_identity (n : Nat) : IsPerm (Perm.identity n) := by
  rw [identity_eq, IsPerm]
  exact List.Perm.of_eq (by simp)

theorem memOrder_identity {n : Nat} {l : List Int} (h : l.length = n) : memOrder (Perm.identity n) l = l := by
  subst h
  rw [identity_eq, memOrder]
  apply List.ext_getElem (by simp)
  intro u hu hu'
  simp [List.getElem?_eq_getElem hu']

/-- The layout of a new array in C order. -/
theorem fresh_c {len : List Int} (hn : NonNeg len) : ∃ m, Fresh (Perm.identity len.length) len 0 m ∧ (∀ idx : List Int, idx.length = len.length → dot m.str idx = lin len idx) := by
  obtain ⟨m, hm⟩ := fresh_spec (isPerm_identity len.length) (by simp [Perm.identity]) hn 0
  refine ⟨m, hm, fun idx hi => ?_⟩
  have hd : EvenlySpaced m 1 := hm.dense
  rw [EvenlySpaced, hm.so_eq, memOrder_identity (by rw [hm.wf.str_len, hm.len_eq]), memOrder_identity (by rw [hm.len_eq]), hm.len_eq] at hd
  simp only [one_mul, List.map_id'] at hd
  rw [hd, dot_dense len idx hi]

/-- What the search knows about the layout of `checked`. -/
structure Geo (len : List Int) (m : IdxMap) : Prop where
  len_eq : m.len = len
  load : ∀ idx, InRange len idx → ∀ c : List Bool, c.length = (prod len).toNat → load ⟨0, m⟩ idx c = val c (lin len idx)
  store : ∀ idx, InRange len idx → ∀ (x : Bool) (c : List Bool), c.length = (prod len).toNat → store ⟨0, m⟩ idx x c = wrInt c (lin len idx) x
  call : ∀ idx, InRange len idx → m.call (idx.map .idx) = some (lin len idx)

theorem Geo.of_fresh {len : List Int} {m : IdxMap} (hm : Fresh (Perm.identity len.length) len 0 m) (hd : ∀ idx : List Int, idx.length = len.length → dot m.str idx = lin len idx) :
    Geo len m := by
  have ha : ∀ idx, InRange len idx → addr ⟨0, m⟩ idx = lin len idx := fun idx hi => by simp [addr, hd idx hi.length_eq]
  have he : ∀ idx, InRange len idx → element ⟨0, m⟩ (idx.map .idx) = some (lin len idx) := fun idx hi => by
    rw [element_eq hm.wf hm.flags (by rw [show (View.mk 0 m).lay.len = len from hm.len_eq]; exact hi), ha idx hi]
  refine ⟨hm.len_eq, fun idx hi c hc => ?_, fun idx hi x c hc => ?_, fun idx hi => ?_⟩
  · rw [Assign.load, he idx hi]; exact rdInt_eq _ _
  · rw [Assign.store, he idx hi]; rfl
  · rw [call_idx hm.wf hm.flags.smallest idx (by rw [hm.len_eq]; exact hi.length_eq)]
    rw [offset, hd idx hi.length_eq]

/-- Marked indices are exactly the ones in `data`, each once. -/
structure Inv (len : List Int) (s : St) : Prop where
  len_c : s.checked.length = (prod len).toNat
  nodup : (s.data.map Prod.fst).Nodup
  chk : ∀ k : Int, k ∈ s.data.map Prod.fst ↔ val s.checked k = some true

theorem val_some_lt {β : Type} {l : List β} {k : Int} {x : β} (h : val l k = some x) : 0 ≤ k ∧ k < l.length := by
  unfold val at h
  split at h
  · cases h
  · have := (List.getElem?_eq_some_iff.mp h).1
    omega

theorem length_le_of_nodup {l : List Int} {n : Nat} (hn : l.Nodup) (h : ∀ k ∈ l, 0 ≤ k ∧ k < n) : l.length ≤ n := by
  have h1 : (l.map Int.toNat).Nodup := by
    apply List.Nodup.map_on _ hn
    intro x hx y hy e
    have := h x hx; have := h y hy
    omega
  have h2 : l.map Int.toNat ⊆ List.range n := by
    intro k hk
    obtain ⟨x, hx, rfl⟩ := List.mem_map.mp hk
    have := h x hx
    exact List.mem_range.mpr (by omega)
  simpa using (List.subperm_of_subset h1 h2).length_le

theorem Inv.bound {len : List Int} {s : St} (h : Inv len s) : s.data.length ≤ (prod len).toNat := by
  have := length_le_of_nodup h.nodup (n := (prod len).toNat) (fun k hk => by have := val_some_lt ((h.chk k).mp hk); rw [h.len_c] at this; exact this)
  simpa using this

theorem Inv.room {len : List Int} {s : St} (h : Inv len s) {k : Int} (h0 : 0 ≤ k) (h1 : k < prod len) (hk : k ∉ s.data.map Prod.fst) : s.data.length < (prod len).toNat := by
  have := length_le_of_nodup (List.nodup_cons.mpr ⟨hk, h.nodup⟩) (n := (prod len).toNat) (fun j hj => by
    rcases List.mem_cons.mp hj with rfl | hj
    · omega
    · have := val_some_lt ((h.chk j).mp hj); rw [h.len_c] at this; exact this)
  simp only [List.length_cons, List.length_map] at this
  omega

theorem add_spec {len : List Int} {m : IdxMap} (hg : Geo len m) {s : St} (h : Inv len s) {idx : List Int} (hi : InRange len idx) (hk : lin len idx ∉ s.data.map Prod.fst) (op : Oper) :
    ∃ s', add m (prod len).toNat idx op s = some s' ∧ Inv len s' ∧ s'.data = s.data ++ [(lin len idx, op)] := by
  obtain ⟨hb0, hb1⟩ := lin_bounds hi
  have hr := h.room hb0 hb1 hk
  obtain ⟨c', e, hl, hv, hf⟩ := wrInt_spec (mem := s.checked) (k := lin len idx) (by rw [h.len_c]; omega) true
  refine ⟨⟨c', s.data ++ [(lin len idx, op)]⟩, ?_, ⟨by rw [hl, h.len_c], ?_, ?_⟩, rfl⟩
  · simp [add, hg.store idx hi true _ h.len_c, e, hg.call idx hi, emplace, hr]
  · rw [List.map_append, List.nodup_append]
    refine ⟨h.nodup, by simp, fun a ha b hb => ?_⟩
    simp only [List.map_cons, List.map_nil, List.mem_singleton] at hb
    subst hb
    exact fun e => hk (e ▸ ha)
  · intro k
    simp only [List.map_append, List.map_cons, List.map_nil, List.mem_append, List.mem_singleton, h.chk]
    by_cases hkk : k = lin len idx
    · subst hkk; simp [hv]
    · simp [hkk, hf k hkk]

/-- What the search from `idx` with operation `op` has added: `s'.data` is `s.data` and new members, all reached from `idx`; from the new members the
symmetries lead to members only. -/
structure Grown (len : List Int) (syms : List Sym) (idx : List Int) (op : Oper) (s s' : St) (n : Int) : Prop where
  inv : Inv len s'
  ext : ∃ new, s'.data = s.data ++ new ∧ n = new.length ∧ (∀ p ∈ new, ∃ j, InRange len j ∧ p.1 = lin len j ∧ Reach syms idx op j p.2) ∧
    ∀ j, InRange len j → lin len j ∈ new.map Prod.fst → ∀ σ ∈ syms, InRange len (σ j).1 → lin len (σ j).1 ∈ s'.data.map Prod.fst

theorem Grown.refl {len : List Int} {syms : List Sym} {idx : List Int} {op : Oper} {s : St} (h : Inv len s) : Grown len syms idx op s s 0 :=
  ⟨h, [], by simp, by simp, by simp, by simp⟩

theorem Grown.mem {len : List Int} {syms : List Sym} {idx : List Int} {op : Oper} {s s' : St} {n : Int} (h : Grown len syms idx op s s' n) {k : Int}
    (hk : k ∈ s.data.map Prod.fst) : k ∈ s'.data.map Prod.fst := by
  obtain ⟨new, e, -⟩ := h.ext
  rw [e, List.map_append]; exact List.mem_append_left _ hk

theorem Grown.le {len : List Int} {syms : List Sym} {idx : List Int} {op : Oper} {s s' : St} {n : Int} (h : Grown len syms idx op s s' n) :
    s.data.length ≤ s'.data.length := by
  obtain ⟨new, e, -⟩ := h.ext
  rw [e]; simp

theorem Grown.trans {len : List Int} {syms : List Sym} {idx : List Int} {op : Oper} {s s' s'' : St} {n n' : Int}
    (h : Grown len syms idx op s s' n) (h' : Grown len syms idx op s' s'' n') : Grown len syms idx op s s'' (n + n') := by
  obtain ⟨new, e, hn, hr, hc⟩ := h.ext
  obtain ⟨new', e', hn', hr', hc'⟩ := h'.ext
  refine ⟨h'.inv, new ++ new', by rw [e', e, List.append_assoc], by simp [hn, hn'], ?_, ?_⟩
  · intro p hp
    rcases List.mem_append.mp hp with hp | hp
    · exact hr p hp
    · exact hr' p hp
  · intro j hj hm σ hσ hv
    rw [List.map_append, List.mem_append] at hm
    rcases hm with hm | hm
    · exact h'.mem (hc j hj hm σ hσ hv)
    · exact hc' j hj hm σ hσ hv

/-- The recursive search from a neighbour, seen from `idx`. -/
theorem Reach.trans {syms : List Sym} {i j : List Int} {o p : Oper} (h : Reach syms i o j p) {k : List Int} {q : Oper} (h' : Reach syms j p k q) :
    Reach syms i o k q := by
  induction h' with
  | start => exact h
  | step s _ hs ih => exact Reach.step s ih hs

/-- Depth of the recursion that is enough. -/
def need (len : List Int) (maxLen : Int) (s : St) (exc : Int) : Nat :=
  ((prod len).toNat - s.data.length) * (maxLen.toNat + 1) + (maxLen.toNat - exc.toNat)

theorem need_mono {len : List Int} {maxLen : Int} {s s' : St} {exc exc' : Int} (hs : s.data.length ≤ s'.data.length) (he : exc ≤ exc') :
    need len maxLen s' exc' ≤ need len maxLen s exc := by
  unfold need
  apply Nat.add_le_add
  · exact Nat.mul_le_mul_right _ (by omega)
  · omega

theorem loop_spec {len : List Int} {m : IdxMap} (hg : Geo len m) {syms : List Sym} (hk : KeepRank len.length syms) (maxLen : Int) (fuel : Nat)
    (rec : List Int → Oper → Int → St → Option (Int × St))
    (ih : ∀ idx op exc s, idx.length = len.length → Inv len s → 0 ≤ exc → need len maxLen s exc < fuel →
      ∃ n s', rec idx op exc s = some (n, s') ∧ Grown len syms idx op s s' n ∧
        ∀ σ ∈ syms, InRange len (σ idx).1 → lin len (σ idx).1 ∈ s'.data.map Prod.fst)
    (idx : List Int) (op : Oper) (hidx : idx.length = len.length) : ∀ (ss : List Sym), (∀ σ ∈ ss, σ ∈ syms) → ∀ seg exc s, Inv len s → 0 ≤ exc →
      need len maxLen s exc ≤ fuel →
      ∃ n exc' s', ss.foldlM (visit m (prod len).toNat maxLen rec idx op) (seg, exc, s) = some (seg + n, exc', s') ∧ Grown len syms idx op s s' n ∧
        ∀ σ ∈ ss, InRange len (σ idx).1 → lin len (σ idx).1 ∈ s'.data.map Prod.fst := by
  intro ss
  induction ss with
  | nil => intro _ seg exc s hs _ _; exact ⟨0, exc, s, by simp, Grown.refl hs, by simp⟩
  | cons σ ss ihs =>
    intro hss seg exc s hs h0 hf
    have hσ : σ ∈ syms := hss σ List.mem_cons_self
    have hss' : ∀ τ ∈ ss, τ ∈ syms := fun τ hτ => hss τ (List.mem_cons_of_mem _ hτ)
    have hrank : (σ idx).1.length = len.length := hk σ hσ idx hidx
    -- the step
    have key : ∃ n exc1 s1, visit m (prod len).toNat maxLen rec idx op (seg, exc, s) σ = some (seg + n, exc1, s1) ∧ exc ≤ exc1 ∧ Grown len syms idx op s s1 n ∧
        (InRange len (σ idx).1 → lin len (σ idx).1 ∈ s1.data.map Prod.fst) := by
      have hreach : Reach syms idx op (σ idx).1 ((σ idx).2.mul op) := Reach.step σ Reach.start hσ
      by_cases hv : InRange len (σ idx).1
      · have hv' : isValid m.len (σ idx).1 = true := by rw [hg.len_eq]; exact (isValid_iff hrank).mpr hv
        obtain ⟨hb0, hb1⟩ := lin_bounds hv
        obtain ⟨c, hc⟩ := val_isSome (mem := s.checked) (k := lin len (σ idx).1) (by rw [hs.len_c]; omega)
        have hl : load ⟨0, m⟩ (σ idx).1 s.checked = some c := by rw [hg.load _ hv _ hs.len_c, hc]
        cases c with
        | true =>
          refine ⟨0, exc, s, ?_, le_refl _, Grown.refl hs, fun _ => (hs.chk _).mpr hc⟩
          simp [visit, hv', hl]
        | false =>
          have hnew : lin len (σ idx).1 ∉ s.data.map Prod.fst := by rw [hs.chk, hc]; simp
          obtain ⟨s1, e1, hi1, hd1⟩ := add_spec hg hs hv hnew ((σ idx).2.mul op)
          have hlt := hs.room hb0 hb1 hnew
          have hneed : need len maxLen s1 0 < fuel := by
            refine lt_of_lt_of_le ?_ hf
            unfold need
            have hl1 : s1.data.length = s.data.length + 1 := by rw [hd1]; simp
            have : (prod len).toNat - s.data.length = ((prod len).toNat - s1.data.length) + 1 := by omega
            rw [this, Nat.succ_mul]
            omega
          obtain ⟨n, s2, e2, hgr, hcl⟩ := ih (σ idx).1 ((σ idx).2.mul op) 0 s1 hrank hi1 (le_refl _) hneed
          refine ⟨n + 1, exc, s2, ?_, le_refl _, ?_, fun _ => ?_⟩
          · simp [visit, hv', hl, e1, e2]
          · obtain ⟨new, en, hn, hr, hc2⟩ := hgr.ext
            refine ⟨hgr.inv, (lin len (σ idx).1, (σ idx).2.mul op) :: new, by rw [en, hd1]; simp, by simp [hn], ?_, ?_⟩
            · intro p hp
              rcases List.mem_cons.mp hp with rfl | hp
              · exact ⟨_, hv, rfl, hreach⟩
              · obtain ⟨j, a, b, c⟩ := hr p hp
                exact ⟨j, a, b, hreach.trans c⟩
            · intro j hj hm τ hτ hv2
              rw [List.map_cons, List.mem_cons] at hm
              rcases hm with hm | hm
              · have : j = (σ idx).1 := lin_inj hj hv hm
                subst this
                exact hcl τ hτ hv2
              · exact hc2 j hj hm τ hτ hv2
          · exact hgr.mem (by rw [hd1]; simp)
      · have hv' : ¬ isValid m.len (σ idx).1 = true := by rw [hg.len_eq]; exact fun h => hv ((isValid_iff hrank).mp h)
        by_cases hex : exc < maxLen
        · have hneed : need len maxLen s (exc + 1) < fuel := by
            refine lt_of_lt_of_le ?_ hf
            unfold need
            omega
          obtain ⟨n, s2, e2, hgr, hcl⟩ := ih (σ idx).1 ((σ idx).2.mul op) (exc + 1) s hrank hs (by omega) hneed
          refine ⟨n, exc + 1, s2, by simp [visit, hv', hex, e2], by omega, ?_, fun h => absurd h hv⟩
          obtain ⟨new, en, hn, hr, hc2⟩ := hgr.ext
          refine ⟨hgr.inv, new, en, hn, ?_, hc2⟩
          intro p hp
          obtain ⟨j, a, b, c⟩ := hr p hp
          exact ⟨j, a, b, hreach.trans c⟩
        · exact ⟨0, exc, s, by simp [visit, hv', hex], le_refl _, Grown.refl hs, fun h => absurd h hv⟩
    obtain ⟨n1, exc1, s1, e1, hex1, hg1, hc1⟩ := key
    obtain ⟨n2, exc2, s2, e2, hg2, hc2⟩ := ihs hss' (seg + n1) exc1 s1 hg1.inv (by omega) (le_trans (need_mono hg1.le hex1) hf)
    refine ⟨n1 + n2, exc2, s2, ?_, hg1.trans hg2, ?_⟩
    · rw [List.foldlM_cons, e1]
      simp only [Option.bind_eq_bind, Option.bind_some]
      rw [e2]; congr 2; ring
    · intro τ hτ hv
      rcases List.mem_cons.mp hτ with rfl | hτ
      · exact hg2.mem (hc1 hv)
      · exact hc2 τ hτ hv

/-- The search ends, for every depth that is enough. -/
theorem iterate_spec {len : List Int} {m : IdxMap} (hg : Geo len m) {syms : List Sym} (hk : KeepRank len.length syms) (maxLen : Int) : ∀ (fuel : Nat) (idx : List Int) (op : Oper)
    (exc : Int) (s : St), idx.length = len.length → Inv len s → 0 ≤ exc → need len maxLen s exc < fuel →
      ∃ n s', iterate m (prod len).toNat syms maxLen fuel idx op exc s = some (n, s') ∧ Grown len syms idx op s s' n ∧
        ∀ σ ∈ syms, InRange len (σ idx).1 → lin len (σ idx).1 ∈ s'.data.map Prod.fst := by
  intro fuel
  induction fuel with
  | zero => intro _ _ _ _ _ _ _ h; omega
  | succ fuel ih =>
    intro idx op exc s hidx hs h0 hf
    obtain ⟨n, exc', s', e, hgr, hc⟩ := loop_spec hg hk maxLen fuel _ ih idx op hidx syms (fun σ h => h) 0 exc s hs h0 (by omega)
    refine ⟨n, s', ?_, hgr, hc⟩
    rw [iterate, e]; simp

theorem foldlM_mono {σ β : Type} {f f' : σ → β → Option σ} (h : ∀ s x r, f s x = some r → f' s x = some r) : ∀ (l : List β) (s r : σ),
    l.foldlM f s = some r → l.foldlM f' s = some r
  | [], _, _, e => e
  | a :: l, s, r, e => by
    rw [List.foldlM_cons] at e ⊢
    cases ha : f s a with
    | none => rw [ha] at e; cases e
    | some s1 =>
      rw [ha] at e
      rw [h s a s1 ha]
      exact foldlM_mono h l s1 r e

/-- More depth does not change the result. -/
theorem iterate_mono {m : IdxMap} {cap : Nat} {syms : List Sym} {maxLen : Int} : ∀ (fuel : Nat) (idx : List Int) (op : Oper) (exc : Int) (s : St) (r : Int × St),
    iterate m cap syms maxLen fuel idx op exc s = some r → iterate m cap syms maxLen (fuel + 1) idx op exc s = some r := by
  intro fuel
  induction fuel with
  | zero => intro _ _ _ _ _ h; cases h
  | succ fuel ih =>
    intro idx op exc s r h
    rw [iterate] at h ⊢
    cases hl : syms.foldlM (visit m cap maxLen (iterate m cap syms maxLen fuel) idx op) (0, exc, s) with
    | none => rw [hl] at h; cases h
    | some q =>
      rw [hl] at h
      have : syms.foldlM (visit m cap maxLen (iterate m cap syms maxLen (fuel + 1)) idx op) (0, exc, s) = some q := by
        refine foldlM_mono ?_ _ _ _ hl
        intro acc σ r' hr'
        simp only [visit] at hr' ⊢
        by_cases hv : isValid m.len (σ idx).1 = true
        · rw [if_pos hv] at hr' ⊢
          cases hc : load ⟨0, m⟩ (σ idx).1 acc.2.2.checked with
          | none => rw [hc] at hr'; cases hr'
          | some c =>
            rw [hc] at hr'
            cases c with
            | true => exact hr'
            | false =>
              simp only [Option.bind_eq_bind, Option.bind_some, Bool.false_eq_true, if_false] at hr' ⊢
              cases ha : add m cap (σ idx).1 ((σ idx).2.mul op) acc.2.2 with
              | none => rw [ha] at hr'; cases hr'
              | some s1 =>
                rw [ha] at hr'
                simp only [Option.bind_some] at hr' ⊢
                cases hi : iterate m cap syms maxLen fuel (σ idx).1 ((σ idx).2.mul op) 0 s1 with
                | none => rw [hi] at hr'; cases hr'
                | some q' => rw [hi] at hr'; rw [ih _ _ _ _ _ hi]; exact hr'
        · rw [if_neg hv] at hr' ⊢
          by_cases hex : acc.2.1 < maxLen
          · rw [if_pos hex] at hr' ⊢
            cases hi : iterate m cap syms maxLen fuel (σ idx).1 ((σ idx).2.mul op) (acc.2.1 + 1) acc.2.2 with
            | none => rw [hi] at hr'; cases hr'
            | some q' => rw [hi] at hr'; rw [ih _ _ _ _ _ hi]; exact hr'
          · rw [if_neg hex] at hr' ⊢; exact hr'
      rw [this]; exact h

end Nda.SymGrp
