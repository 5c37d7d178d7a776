import Verif.Lemmas.ClefStages
import Verif.Lemmas.Writes
import Verif.Spec.AutoAssign
/-!
# Lemmas on auto-assignment
-/
namespace Nda.Clef
open Nda Nda.Spec Nda.Clef.Spec Nda.Assign Nda.Loops

variable {V L : Type}

def nestFn : List (List Nat) → Tm V L → Tm V L
  | [], t => t
  | is :: iss, t => .fn (nestFn iss t) is

theorem decay_fn {I : Interp V L} (b : Tm V L) (is : List Nat) : decay I (.fn b is) = .ok (.fn b is) := rfl

theorem decay_plain {I : Interp V L} {t b : Tm V L} (hb : decay I t = .ok b) (hp : Plain t) : Plain b := by
  unfold decay at hb
  split at hb
  · cases hb; exact hp
  · cases hb; simp [Plain]
  · split at hb
    · cases hb; simp [Plain]
    · cases hb
  · cases hb
  · cases hb; exact hp

theorem allDifferent_of {is : List Nat} (h0 : is ≠ []) (h : is.Nodup) : allDifferent is = true := by
  cases is with
  | nil => exact absurd rfl h0
  | cons i is =>
    rw [List.nodup_cons] at h
    simp only [allDifferent, List.all_eq_true, decide_eq_true_eq]
    intro j hj hji
    exact h.1 (hji ▸ hj)

theorem chainFunction_eq {I : Interp V L} {t b : Tm V L} (hb : decay I t = .ok b) : ∀ (iss : List (List Nat)), iss ≠ [] → (∀ is ∈ iss, is ≠ [] ∧ is.Nodup) → chainFunction I iss t = some (nestFn iss b)
  | [], h, _ => absurd rfl h
  | [is], _, h => by
    obtain ⟨h1, h2⟩ := h is List.mem_cons_self
    simp [chainFunction, allDifferent_of h1 h2, makeFunction, bind, Except.bind, hb, nestFn, pure, Except.pure]
  | is :: js :: iss, _, h => by
    obtain ⟨h1, h2⟩ := h is List.mem_cons_self
    have ih := chainFunction_eq hb (js :: iss) (by simp) (fun x hx => h x (List.mem_cons_of_mem _ hx))
    rw [chainFunction, ih]
    simp only [bind, Option.bind, allDifferent_of h1 h2, if_true, makeFunction, Except.bind]
    rw [show nestFn (js :: iss) b = .fn (nestFn iss b) js from rfl, decay_fn]
    rfl

theorem eval_nestFn {I : Interp V L} {ps : Pairs V L} {b b1 b2 : Tm V L} (h1 : eval I ps b = .ok b1) (h2 : decay I b1 = .ok b2) : ∀ (iss : List (List Nat)), iss ≠ [] → eval I ps (nestFn iss b) = .ok (nestFn iss b2)
  | [], h => absurd rfl h
  | [is], _ => by
    have h1' : evalF I (depth b) ps b = .ok b1 := h1
    simp only [eval, nestFn, depth, evalF, bind, Except.bind, h1', h2, pure, Except.pure]
  | is :: js :: iss, _ => by
    have ih := eval_nestFn h1 h2 (js :: iss) (by simp)
    simp only [eval] at ih
    rw [eval, nestFn, depth, evalF]
    simp only [bind, Except.bind, ih, pure, Except.pure]
    rw [show nestFn (js :: iss) b2 = .fn (nestFn iss b2) js from rfl, decay_fn]
    rfl

theorem zip_names {is : List Nat} {idx : List Int} (ofIdx : Int → V) (hl : is.length = idx.length) : (is.zip (idx.map (fun i => (Arg.val (ofIdx i) : Arg V L)))).map (·.1) = is :=
  List.map_fst_zip (by simp; omega)

/-- The value does not depend on what is given to other placeholders. -/
theorem den_last {I : Interp V L} {ofIdx : Int → V} {b : Tm V L} {is : List Nat} {idx : List Int} (hl : is.length = idx.length) (hr : Staged [is] [] b) (env env' : Env V) :
    den I true (withPairs I env (is.zip (idx.map (fun i => Arg.val (ofIdx i))))) b = den I true (withPairs I env' (is.zip (idx.map (fun i => Arg.val (ofIdx i))))) b := by
  refine den_congr I true b _ _ (fun m hm => ?_)
  have hm' : m ∈ is := by simpa using staged_fv hr m hm
  rw [← zip_names (L := L) ofIdx hl] at hm'
  generalize is.zip (idx.map (fun i => (Arg.val (ofIdx i) : Arg V L))) = ps at hm'
  induction ps with
  | nil => simp at hm'
  | cons p ps ih =>
    obtain ⟨n, a⟩ := p
    rw [withPairs, withPairs]
    split
    · rfl
    · rename_i hne
      refine ih ?_
      rw [List.map_cons, List.mem_cons] at hm'
      exact hm'.resolve_left hne

/-- One call of the function, at one index. -/
theorem callAt_last {I : Interp V L} {ofIdx : Int → V} {b : Tm V L} {is : List Nat} {idx : List Int} {v : V} (h0 : is ≠ []) (hn : is.Nodup) (hl : is.length = idx.length) (hst : Staged [is] [] b)
    (hv : den I true (withPairs I (fun _ => none) (is.zip (idx.map (fun i => Arg.val (ofIdx i))))) b = some v) : ∃ t, callAt I ofIdx (.fn b is) idx = some t ∧ isFunction t = false ∧ readO I t = some v := by
  have hr : Ready is [] b := staged_now (Ps := []) (by simpa using hn) (by simp) hst (by simp) (fun m hm => by simpa using staged_fv hst m hm)
  have hz := zip_names (L := L) ofIdx hl
  have hne : is.zip (idx.map (fun i => (Arg.val (ofIdx i) : Arg V L))) ≠ [] := by intro h; rw [h] at hz; exact h0 hz.symm
  have hd : Distinct (is.zip (idx.map (fun i => (Arg.val (ofIdx i) : Arg V L)))) := by rw [Distinct, hz]; exact hn
  obtain ⟨t, e, hres⟩ := evalF_progress I _ b (Nat.le_refl _) _ [] _ v hne hd (by rw [hz]; exact hr) (by simp) (by simp) hv
  have hleaf : IsLeaf t := hres.value (fun m hm => by rw [hz]; exact (ready_fv hr m hm).resolve_right (by simp))
  obtain ⟨hb, ha⟩ := ready_bv hr
  have hs := (evalF_sound I true _ _ b t e hd (by rw [hz]; exact fun n hn => (hb n hn).1) ha).1 (fun _ => none)
  refine ⟨t, ?_, ?_, ?_⟩
  · rw [callAt, call, if_pos (by simpa using hl)]
    rw [show eval I _ b = _ from e]
  · cases t <;> simp_all [IsLeaf, isFunction]
  · rw [readO, leaf_read hleaf (hs.trans hv)]

theorem callAt_inner {I : Interp V L} {ofIdx : Int → V} {b : Tm V L} {is : List Nat} {iss : List (List Nat)} {idx : List Int} {v : V} {env : Env V} (h0 : is ≠ []) (hn : (is ++ iss.flatten).Nodup) (hi : iss ≠ [])
    (hi0 : ∀ js ∈ iss, js ≠ []) (hl : is.length = idx.length) (hst : Staged (is :: iss) [] b) (hv : den I true (withPairs I env (is.zip (idx.map (fun i => Arg.val (ofIdx i))))) b = some v) :
    ∃ b2, callAt I ofIdx (nestFn (is :: iss) b) idx = some (nestFn iss b2) ∧ Staged iss [] b2 ∧
      ∀ env, den I true env b2 = den I true (withPairs I env (is.zip (idx.map (fun i => Arg.val (ofIdx i))))) b := by
  have hz := zip_names (L := L) ofIdx hl
  have hne : is.zip (idx.map (fun i => (Arg.val (ofIdx i) : Arg V L))) ≠ [] := by intro h; rw [h] at hz; exact h0 hz.symm
  have hd : Distinct (is.zip (idx.map (fun i => (Arg.val (ofIdx i) : Arg V L)))) := by rw [Distinct, hz]; exact (List.nodup_append.mp hn).1
  obtain ⟨hb, ha⟩ := staged_bv hst
  obtain ⟨b1, e, hres⟩ := evalF_stage I _ b (Nat.le_refl _) _ iss [] env v hne (by rw [hz]; exact hn) hi0 (by rw [hz]; exact hst) (by simp) (by simp) hv
  have hs := (evalF_sound I true _ _ b b1 e hd (by rw [hz]; exact fun m hm h => (hb m hm).1 (by rw [List.flatten_cons]; exact List.mem_append_left _ h)) ha).1
  obtain ⟨b2, e2⟩ := decay_ok ((hs env).trans hv)
  refine ⟨b2, ?_, decay_staged e2 _ _ hres.staged, fun env => by rw [(decay_spec e2).1, hs]⟩
  rw [callAt, nestFn, call, if_pos (by simpa using hl), eval_nestFn e e2 iss hi]

/-- A loop of sequences of writes is a sequence of writes. -/
theorem foldl_writes {β : Type} {S : Int → Prop} {mem : List V} (act : List V → β → Option (List V)) : ∀ (xs : List β) (W : β → List (Int × V)),
    (∀ x ∈ xs, ∀ w ∈ W x, S w.1 ∧ 0 ≤ w.1 ∧ w.1 < mem.length) → (∀ x ∈ xs, ∀ mem2, SameOutside S mem mem2 → act mem2 x = writeAll (W x) mem2) →
    ∀ mem2, SameOutside S mem mem2 → xs.foldlM act mem2 = writeAll (xs.flatMap W) mem2
  | [], W, _, _, mem2, _ => by simp [writeAll]
  | x :: xs, W, hW, ha, mem2, hs => by
    rw [List.foldlM_cons, ha x List.mem_cons_self mem2 hs, List.flatMap_cons]
    obtain ⟨m3, e3, l3, f3, -⟩ := writeAll_spec (W x) mem2 (fun w hw => by rw [hs.1]; exact (hW x List.mem_cons_self w hw).2)
    have hs3 : SameOutside S mem m3 := ⟨by rw [l3, hs.1], fun k hk => by
      rw [f3 k (fun w hw e => hk (e ▸ (hW x List.mem_cons_self w hw).1)), hs.2 k hk]⟩
    have ih := foldl_writes act xs W (fun y hy => hW y (List.mem_cons_of_mem _ hy)) (fun y hy => ha y (List.mem_cons_of_mem _ hy)) m3 hs3
    rw [e3]
    simp only [bind, Option.bind]
    rw [ih, writeAll, writeAll, List.foldlM_append]
    rw [writeAll] at e3
    rw [e3]
    rfl

theorem inRange_length {len : List Int} {idx : List Int} (h : InRange len idx) : idx.length = len.length := h.length_eq

/-- Auto-assignment is a sequence of writes: one for every element, with the value of the expression. -/
theorem autoAssign_writes {I : List V → Interp V L} {ofIdx : Int → V} {S : Int → Prop} {mem : List V} (hI : ∀ mem2, SameOutside S mem mem2 → I mem2 = I mem) :
    ∀ (T : Target) (iss : List (List Nat)) (b : Tm V L), Fit T iss → (∀ is ∈ iss, is ≠ []) → iss.flatten.Nodup → Staged iss [] b → (∀ p k, Slot T p k → S k ∧ 0 ≤ k ∧ k < mem.length) →
    (∀ p, Reach T p → ∃ env v, den (I mem) true (withPairs (I mem) env (pairsAt L ofIdx iss p)) b = some v) →
    (∀ p k, Slot T p k → ∃ v, den (I mem) true (withPairs (I mem) (fun _ => none) (pairsAt L ofIdx iss p)) b = some v) ∧ ∃ ws : List (Int × V), (∀ mem2, SameOutside S mem mem2 → autoAssign I ofIdx T (nestFn iss b) mem2 = writeAll ws mem2) ∧
      ∀ k v, (k, v) ∈ ws ↔ ∃ p, Slot T p k ∧ den (I mem) true (withPairs (I mem) (fun _ => none) (pairsAt L ofIdx iss p)) b = some v := by
  intro T
  induction T with
  | view v =>
    intro iss b hfit _ hnd hb hS hval
    match iss, hfit with
    | [is], hfit =>
    obtain ⟨h0, hl, hw, hfl⟩ := hfit
    have hn : is.Nodup := by simpa using hnd
    have hpa : ∀ idx, pairsAt L ofIdx [is] [idx] = is.zip (idx.map (fun i => (Arg.val (ofIdx i) : Arg V L))) := by intro idx; simp [pairsAt]
    have hstep : ∀ idx ∈ box v.lay.len, ∃ x, den (I mem) true (withPairs (I mem) (fun _ => none) (is.zip (idx.map (fun i => (Arg.val (ofIdx i) : Arg V L))))) b = some x ∧ S (addr v idx) ∧
        (0 ≤ addr v idx ∧ addr v idx < mem.length) ∧ ∀ mem2, SameOutside S mem mem2 → (do
          let t ← callAt (I mem2) ofIdx (.fn b is) idx
          if isFunction t then none
          else do
            let x ← readO (I mem2) t
            store v idx x mem2) = wrInt mem2 (addr v idx) x := by
      intro idx hidx
      have hidx := mem_box.mp hidx
      obtain ⟨h1, h2⟩ := hS [idx] (addr v idx) ⟨hidx, rfl⟩
      obtain ⟨env, x, hx⟩ := hval [idx] hidx
      rw [hpa, den_last (by rw [hl, inRange_length hidx]) hb env (fun _ => none)] at hx
      refine ⟨x, hx, h1, h2, fun mem2 hs => ?_⟩
      obtain ⟨t, e1, e2, e3⟩ := callAt_last h0 hn (by rw [hl, inRange_length hidx]) hb hx
      rw [hI mem2 hs, e1]
      simp only [bind, Option.bind, e2, Bool.false_eq_true, if_false, e3, store, element_eq hw hfl hidx]
    haveI : Nonempty V := ⟨ofIdx 0⟩
    choose! X hX using hstep
    refine ⟨?_, (box v.lay.len).flatMap (fun idx => [(addr v idx, X idx)]), ?_, ?_⟩
    · intro p k hs
      match p, hs with
      | [idx], hs => exact ⟨_, by rw [hpa]; exact (hX idx (mem_box.mpr hs.1)).1⟩
    · intro mem2 hs
      rw [autoAssign, forEach_eq]
      refine foldl_writes _ (box v.lay.len) (fun idx => [(addr v idx, X idx)]) ?_ ?_ mem2 hs
      · intro idx hidx w hw
        simp only [List.mem_singleton] at hw
        subst hw
        exact ⟨(hX idx hidx).2.1, (hX idx hidx).2.2.1⟩
      · intro idx hidx mem3 hs3
        rw [show nestFn [is] b = .fn b is from rfl, (hX idx hidx).2.2.2 mem3 hs3]
        simp [writeAll]
    · intro k x
      simp only [List.mem_flatMap, List.mem_singleton, Prod.mk.injEq]
      constructor
      · rintro ⟨idx, hidx, rfl, rfl⟩
        exact ⟨[idx], ⟨mem_box.mp hidx, rfl⟩, by rw [hpa]; exact (hX idx hidx).1⟩
      · rintro ⟨p, hs, hx⟩
        match p, hs with
        | [idx], hs =>
          obtain ⟨hidx, rfl⟩ := hs
          refine ⟨idx, mem_box.mpr hidx, rfl, ?_⟩
          rw [hpa, (hX idx (mem_box.mpr hidx)).1] at hx
          exact (Option.some.inj hx).symm
  | arrs len sub ih =>
    intro iss b hfit hi0 hnd hb hS hval
    match iss, hfit with
    | is :: iss, hfit =>
    obtain ⟨h0, hl, hsub⟩ := hfit
    by_cases hi : iss = []
    · subst hi
      -- no level is left for the inner arrays
      have hemp : ∀ idx, ¬ InRange len idx := by
        intro idx hidx
        have := hsub idx hidx
        cases h : sub idx <;> rw [h] at this <;> exact this
      have hbox : box len = [] := by
        cases h : box len with
        | nil => rfl
        | cons x l => exact absurd (mem_box.mp (by rw [h]; exact List.mem_cons_self)) (hemp x)
      refine ⟨?_, [], fun mem2 _ => ?_, fun k v => ?_⟩
      · intro p k hs
        match p, hs with
        | idx :: p, hs => exact absurd hs.1 (hemp idx)
      · rw [autoAssign, forEach_eq, hbox]; rfl
      · simp only [List.not_mem_nil, false_iff, not_exists, not_and]
        intro p hs
        match p, hs with
        | idx :: p, hs => exact absurd hs.1 (hemp idx)
    rw [List.flatten_cons] at hnd
    have hstep : ∀ idx ∈ box len, (∀ p k, Slot (sub idx) p k → ∃ v, den (I mem) true (withPairs (I mem) (fun _ => none) (pairsAt L ofIdx (is :: iss) (idx :: p))) b = some v) ∧ ∃ ws : List (Int × V), (∀ w ∈ ws, S w.1 ∧ 0 ≤ w.1 ∧ w.1 < mem.length) ∧ (∀ mem2, SameOutside S mem mem2 → (do
          let t ← callAt (I mem2) ofIdx (nestFn (is :: iss) b) idx
          if isFunction t then autoAssign I ofIdx (sub idx) t mem2
          else none) = writeAll ws mem2) ∧
        ∀ k v, (k, v) ∈ ws ↔ ∃ p, Slot (sub idx) p k ∧ den (I mem) true (withPairs (I mem) (fun _ => none) (pairsAt L ofIdx (is :: iss) (idx :: p))) b = some v := by
      intro idx hidx
      have hidx := mem_box.mp hidx
      obtain ⟨env, v0, hv0⟩ := hval [idx] ⟨hidx, Or.inl rfl⟩
      rw [pairsAt, withPairs_append] at hv0
      obtain ⟨b2, e2, hp2, hd2⟩ := callAt_inner h0 hnd hi (fun js h => hi0 js (List.mem_cons_of_mem _ h)) (by rw [hl, inRange_length hidx]) hb hv0
      obtain ⟨hdf, ws, hws, hmem⟩ := ih idx iss b2 (hsub idx hidx) (fun js h => hi0 js (List.mem_cons_of_mem _ h)) (List.nodup_append.mp hnd).2.1 hp2 (fun p k hs => hS (idx :: p) k ⟨hidx, hs⟩) (by
        intro p hs
        obtain ⟨env, v, hv⟩ := hval (idx :: p) ⟨hidx, Or.inr hs⟩
        refine ⟨env, v, ?_⟩
        rw [hd2, ← hv, pairsAt, withPairs_append])
      refine ⟨fun p k hs => by simp only [pairsAt, withPairs_append, ← hd2]; exact hdf p k hs, ws, ?_, ?_, ?_⟩
      · rintro ⟨k, v⟩ hw
        obtain ⟨p, hs, -⟩ := (hmem k v).mp hw
        exact hS (idx :: p) k ⟨hidx, hs⟩
      · intro mem2 hs
        have hfun : isFunction (nestFn iss b2) = true := by
          cases iss with
          | nil => exact absurd rfl hi
          | cons js iss => rfl
        rw [hI mem2 hs, e2]
        simp only [bind, Option.bind, hfun, if_true]
        exact hws mem2 hs
      · intro k v
        rw [hmem]
        simp only [hd2, pairsAt, withPairs_append]
    choose! hdf W hW1 hW2 hW3 using hstep
    refine ⟨?_, (box len).flatMap W, ?_, ?_⟩
    · intro p k hs
      match p, hs with
      | idx :: p, hs => exact hdf idx (mem_box.mpr hs.1) p k hs.2
    · intro mem2 hs
      rw [autoAssign, forEach_eq]
      exact foldl_writes _ (box len) W hW1 hW2 mem2 hs
    · intro k v
      rw [List.mem_flatMap]
      constructor
      · rintro ⟨idx, hidx, hw⟩
        obtain ⟨p, hs, hv⟩ := (hW3 idx hidx k v).mp hw
        exact ⟨idx :: p, ⟨mem_box.mp hidx, hs⟩, hv⟩
      · rintro ⟨p, hs, hv⟩
        match p, hs with
        | idx :: p, hs => exact ⟨idx, mem_box.mpr hs.1, (hW3 idx (mem_box.mpr hs.1) k v).mpr ⟨p, hs.2, hv⟩⟩

/-- The same for vectors. -/
theorem autoAssignSubscript_writes {I : List V → Interp V L} {ofIdx : Int → V} {S : Int → Prop} {mem : List V} (hI : ∀ mem2, SameOutside S mem mem2 → I mem2 = I mem) :
    ∀ (T : VTarget) (n : Nat) (subT : Int → VTarget), T = .vec n subT → ∀ (is : List Nat) (b : Tm V L), VFit T is → is.Nodup → Staged (is.map ([·])) [] b → (∀ p k, VSlot T p k → S k ∧ 0 ≤ k ∧ k < mem.length) →
    (∀ p, VReach T p → ∃ env v, den (I mem) true (withPairs (I mem) env (pairsAt L ofIdx (is.map ([·])) (p.map ([·])))) b = some v) →
    (∀ p k, VSlot T p k → ∃ v, den (I mem) true (withPairs (I mem) (fun _ => none) (pairsAt L ofIdx (is.map ([·])) (p.map ([·])))) b = some v) ∧ ∃ ws : List (Int × V), (∀ mem2, SameOutside S mem mem2 → autoAssignSubscript I ofIdx T (nestFn (is.map ([·])) b) mem2 = writeAll ws mem2) ∧
      ∀ k v, (k, v) ∈ ws ↔ ∃ p, VSlot T p k ∧ den (I mem) true (withPairs (I mem) (fun _ => none) (pairsAt L ofIdx (is.map ([·])) (p.map ([·])))) b = some v := by
  intro T
  induction T with
  | elem k => intro n subT h; cases h
  | vec n sub ih =>
    intro _ _ _ is b hfit hnd hb hS hval
    match is, hfit with
    | i :: is, hfit =>
    have hmem : ∀ x : Int, x ∈ (List.range n).map Int.ofNat ↔ 0 ≤ x ∧ x < n := by
      intro x
      simp only [List.mem_map, List.mem_range]
      constructor
      · rintro ⟨j, hj, rfl⟩; simp; omega
      · rintro ⟨h1, h2⟩; exact ⟨x.toNat, by omega, by simp; omega⟩
    have hstep : ∀ x ∈ (List.range n).map Int.ofNat, (∀ p k, VSlot (sub x) p k → ∃ v, den (I mem) true (withPairs (I mem) (fun _ => none) (pairsAt L ofIdx ((i :: is).map ([·])) ((x :: p).map ([·])))) b = some v) ∧ ∃ ws : List (Int × V), (∀ w ∈ ws, S w.1 ∧ 0 ≤ w.1 ∧ w.1 < mem.length) ∧ (∀ mem2, SameOutside S mem mem2 → (do
          let t ← callAt (I mem2) ofIdx (nestFn ((i :: is).map ([·])) b) [x]
          autoAssignSubscript I ofIdx (sub x) t mem2) = writeAll ws mem2) ∧
        ∀ k v, (k, v) ∈ ws ↔ ∃ p, VSlot (sub x) p k ∧ den (I mem) true (withPairs (I mem) (fun _ => none) (pairsAt L ofIdx ((i :: is).map ([·])) ((x :: p).map ([·])))) b = some v := by
      intro x hx
      have hx := (hmem x).mp hx
      have hfit' := hfit x hx
      obtain ⟨env, v0, hv0⟩ := hval [x] ⟨hx, Or.inl rfl⟩
      cases hsx : sub x with
      | elem k =>
        rw [hsx] at hfit'
        have his : is = [] := by cases is with
          | nil => rfl
          | cons j is => exact hfit'.elim
        subst his
        obtain ⟨a1, a2⟩ := hS [x] k ⟨hx, by rw [hsx]; exact rfl⟩
        have hv' : den (I mem) true (withPairs (I mem) (fun _ => none) ([i].zip ([x].map (fun i => (Arg.val (ofIdx i) : Arg V L))))) b = some v0 := by
          rw [den_last (by simp) hb (fun _ => none) env, ← hv0]; simp [pairsAt]
        have hv : den (I mem) true (withPairs (I mem) (fun _ => none) (pairsAt L ofIdx ([i].map ([·])) ([x].map ([·])))) b = some v0 := by
          rw [← hv']; simp [pairsAt]
        obtain ⟨t, e1, e2, e3⟩ := callAt_last (by simp) (by simp) (by simp) hb hv'
        refine ⟨fun p k hs => ?_, [(k, v0)], ?_, ?_, ?_⟩
        · match p, hs with
          | [], _ => exact ⟨v0, hv⟩
        · intro w hw
          simp only [List.mem_singleton] at hw
          subst hw
          exact ⟨a1, a2⟩
        · intro mem2 hs
          rw [hI mem2 hs, show nestFn (List.map (fun x => [x]) [i]) b = .fn b [i] from rfl, e1]
          simp only [bind, Option.bind, autoAssignSubscript, hI mem2 hs, e3, writeAll, List.foldlM_cons, List.foldlM_nil]
          cases wrInt mem2 k v0 <;> rfl
        · intro k' v'
          simp only [List.mem_singleton, Prod.mk.injEq]
          constructor
          · rintro ⟨rfl, rfl⟩; exact ⟨[], rfl, hv⟩
          · rintro ⟨p, hs, hv2⟩
            match p, hs with
            | [], hs =>
              refine ⟨hs, ?_⟩
              have := hv.symm.trans hv2
              exact (Option.some.inj this).symm
      | vec n' sub' =>
        have his : is ≠ [] := by
          rintro rfl
          rw [hsx] at hfit'
          exact hfit'.elim
        have hfl : (is.map ([·])).flatten = is := by
          clear * -
          induction is with
          | nil => rfl
          | cons j is ih => simp [ih]
        rw [List.map_cons, List.map_cons, pairsAt, withPairs_append] at hv0
        obtain ⟨b2, e2, hp2, hd2⟩ := callAt_inner (iss := is.map ([·])) (by simp) (by rw [hfl]; exact hnd) (by simpa using his) (by simp) (by simp) hb hv0
        obtain ⟨hdf, ws, hws, hmem2⟩ := ih x n' sub' hsx is b2 hfit' (List.nodup_cons.mp hnd).2 hp2 (fun p k hs => hS (x :: p) k ⟨hx, hs⟩) (by
          intro p hs
          obtain ⟨env, v, hv⟩ := hval (x :: p) ⟨hx, Or.inr hs⟩
          refine ⟨env, v, ?_⟩
          simp only [List.map_cons, pairsAt, withPairs_append] at hv ⊢
          rw [hd2]
          exact hv)
        rw [hsx] at hws hmem2 hdf
        refine ⟨fun p k hs => ?_, ws, ?_, ?_, ?_⟩
        · obtain ⟨w, hw⟩ := hdf p k hs
          refine ⟨w, ?_⟩
          rw [hd2] at hw
          simp only [List.map_cons, pairsAt, withPairs_append]
          exact hw
        · rintro ⟨k, v⟩ hw
          obtain ⟨p, hs, -⟩ := (hmem2 k v).mp hw
          exact hS (x :: p) k ⟨hx, by rw [hsx]; exact hs⟩
        · intro mem2 hs
          rw [hI mem2 hs, List.map_cons, e2]
          simp only [bind, Option.bind]
          exact hws mem2 hs
        · intro k v
          rw [hmem2]
          simp only [hd2, List.map_cons, pairsAt, withPairs_append]
    choose! hdf W hW1 hW2 hW3 using hstep
    refine ⟨?_, ((List.range n).map Int.ofNat).flatMap W, ?_, ?_⟩
    · intro p k hs
      match p, hs with
      | x :: p, hs => exact hdf x ((hmem x).mpr hs.1) p k hs.2
    · intro mem2 hs
      rw [autoAssignSubscript, forLoop]
      have := foldl_writes (S := S) (mem := mem) _ ((List.range n).map Int.ofNat) W hW1 hW2 mem2 hs
      rw [← this, List.foldlM_map]
      rfl
    · intro k v
      rw [List.mem_flatMap]
      constructor
      · rintro ⟨x, hx, hw⟩
        obtain ⟨p, hs, hv⟩ := (hW3 x hx k v).mp hw
        exact ⟨x :: p, ⟨(hmem x).mp hx, hs⟩, hv⟩
      · rintro ⟨p, hs, hv⟩
        match p, hs with
        | x :: p, hs => exact ⟨x, (hmem x).mpr hs.1, (hW3 x ((hmem x).mpr hs.1) k v).mpr ⟨p, hs.2, hv⟩⟩

end Nda.Clef
