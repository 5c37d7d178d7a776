import Verif.Lemmas.ClefMore
/-!
# Lemmas on lazy expressions: placeholders given in several stages
-/
namespace Nda.Clef
open Nda.Clef.Spec

variable {V L : Type}

theorem stageds_iff {Ps : List (List Nat)} {B : List Nat} {cs : List (Tm V L)} : Stageds Ps B cs ↔ ∀ c ∈ cs, Staged Ps B c := by
  induction cs with
  | nil => simp [Stageds]
  | cons c cs ih => simp [Stageds, ih]

theorem leaf_staged {t : Tm V L} (h : IsLeaf t) (Ps : List (List Nat)) (B : List Nat) : Staged Ps B t := by cases t <;> simp_all [IsLeaf, Staged]

theorem plain_staged {Ps : List (List Nat)} {B : List Nat} {t : Tm V L} (h : Plain t) (hf : ∀ m ∈ fv t, m ∈ Ps.flatten ∨ m ∈ B) : Staged Ps B t := by
  induction t using Tm.ind with
  | hval v => simp [Staged]
  | hbor v => simp [Staged]
  | href l => simp [Staged]
  | hdead => simp [Staged]
  | hph n => rw [Staged]; exact hf n (by simp [fv])
  | hnode g cs ih =>
    rw [Plain, plains_iff] at h
    rw [Staged, stageds_iff]
    exact fun c hc => ih c hc (h c hc) (fun m hm => hf m (by rw [fv, fvs_mem]; exact ⟨c, hc, hm⟩))
  | hfn b is ih => rw [Plain] at h; exact h.elim
  | hsum b n d => rw [Plain] at h; exact h.elim

theorem staged_fv {Ps : List (List Nat)} : ∀ {B : List Nat} {t : Tm V L}, Staged Ps B t → ∀ m ∈ fv t, m ∈ Ps.flatten ∨ m ∈ B := by
  intro B t
  revert B
  induction t using Tm.ind with
  | hval v => intro B h; simp [fv]
  | hbor v => intro B h; simp [fv]
  | href l => intro B h; simp [fv]
  | hdead => intro B h; simp [fv]
  | hph n => intro B h m hm; rw [Staged] at h; rw [fv, List.mem_singleton] at hm; rw [hm]; exact h
  | hnode g cs ih =>
    intro B h m hm
    rw [Staged, stageds_iff] at h
    rw [fv, fvs_mem] at hm
    obtain ⟨c, hc, hm⟩ := hm
    exact ih c hc (h c hc) m hm
  | hfn b is ih => intro B h; rw [Staged] at h; exact h.elim
  | hsum b n d ih _ =>
    intro B h m hm
    rw [Staged] at h
    obtain ⟨h1, h2, h3, h4, h5, h6⟩ := h
    rw [fv, leaf_fv h4, List.append_nil, List.mem_filter] at hm
    rcases ih h6 m hm.1 with h | h
    · exact Or.inl h
    · rcases List.mem_cons.mp h with h | h
      · simp [h] at hm
      · exact Or.inr h

theorem staged_bv {Ps : List (List Nat)} : ∀ {B : List Nat} {t : Tm V L}, Staged Ps B t → (∀ m ∈ bv t, m ∉ Ps.flatten ∧ m ∉ B) ∧ Apart t := by
  intro B t
  revert B
  induction t using Tm.ind with
  | hval v => intro B h; simp [bv, Apart]
  | hbor v => intro B h; simp [bv, Apart]
  | href l => intro B h; simp [bv, Apart]
  | hdead => intro B h; simp [bv, Apart]
  | hph n => intro B h; simp [bv, Apart]
  | hnode g cs ih =>
    intro B h
    rw [Staged, stageds_iff] at h
    constructor
    · intro m hm
      rw [bv, bvs_mem] at hm
      obtain ⟨c, hc, hm⟩ := hm
      exact (ih c hc (h c hc)).1 m hm
    · rw [Apart, aparts_iff]
      exact fun c hc => (ih c hc (h c hc)).2
  | hfn b is ih => intro B h; rw [Staged] at h; exact h.elim
  | hsum b n d ih _ =>
    intro B h
    rw [Staged] at h
    obtain ⟨h1, h2, h3, h4, h5, h6⟩ := h
    obtain ⟨i1, i2⟩ := ih h6
    constructor
    · intro m hm
      rw [bv, leaf_bv h4, List.append_nil, List.mem_cons] at hm
      rcases hm with rfl | hm
      · exact ⟨h1, h2⟩
      · exact ⟨(i1 m hm).1, fun h => (i1 m hm).2 (List.mem_cons_of_mem _ h)⟩
    · rw [Apart]
      exact ⟨fun hn => (i1 n hn).2 List.mem_cons_self, i2, leaf_apart h4⟩

theorem staged_shifts {Ps : List (List Nat)} : ∀ {B : List Nat} {t : Tm V L}, Staged Ps B t → (∀ m ∈ Ps.flatten ++ B, m < 64) → shifts t = true := by
  intro B t
  revert B
  induction t using Tm.ind with
  | hval v => intro B h _; simp [shifts]
  | hbor v => intro B h _; simp [shifts]
  | href l => intro B h _; simp [shifts]
  | hdead => intro B h _; simp [shifts]
  | hph n => intro B h hb; rw [Staged] at h; rw [shifts]; exact decide_eq_true (hb n (List.mem_append.mpr h))
  | hnode g cs ih =>
    intro B h hb
    rw [Staged, stageds_iff] at h
    rw [shifts, shiftss_iff]
    exact fun c hc => ih c hc (h c hc) hb
  | hfn b is ih => intro B h; rw [Staged] at h; exact h.elim
  | hsum b n d ih _ =>
    intro B h hb
    rw [Staged] at h
    obtain ⟨h1, h2, h3, h4, h5, h6⟩ := h
    rw [shifts, ih h6 (by intro m hm; apply h3; rw [List.mem_append, List.mem_cons] at hm; rw [List.mem_cons, List.mem_append]; tauto), leaf_shifts h4]
    simpa using h3 n List.mem_cons_self

theorem staged_shiftOK {P : List Nat} {Ps : List (List Nat)} {B : List Nat} {t : Tm V L} (h : Staged (P :: Ps) B t) : shiftOK P t = true := by
  revert B
  induction t using Tm.ind with
  | hval v => intro B h; simp [shiftOK]
  | hbor v => intro B h; simp [shiftOK]
  | href l => intro B h; simp [shiftOK]
  | hdead => intro B h; simp [shiftOK]
  | hph n => intro B h; simp [shiftOK]
  | hnode g cs ih =>
    intro B h
    rw [Staged, stageds_iff] at h
    rw [shiftOK, shiftOKs_iff]
    exact fun c hc => ih c hc (h c hc)
  | hfn b is ih => intro B h; rw [Staged] at h; exact h.elim
  | hsum b n d ih _ =>
    intro B h
    rw [Staged] at h
    obtain ⟨h1, h2, h3, h4, h5, h6⟩ := h
    rw [shiftOK, staged_shifts h6 (by intro m hm; apply h3; rw [List.mem_append, List.mem_cons] at hm; rw [List.mem_cons, List.mem_append]; tauto), leaf_shiftOK h4]
    simp only [Bool.true_and, Bool.and_true, Bool.and_eq_true, decide_eq_true_eq, List.all_eq_true]
    exact ⟨h3 n List.mem_cons_self, fun m hm => h3 m (by simp [hm])⟩

theorem decay_staged {I : Interp V L} {t t' : Tm V L} (h : decay I t = .ok t') (Ps : List (List Nat)) (B : List Nat) (hr : Staged Ps B t) : Staged Ps B t' := by
  unfold decay at h
  split at h
  · cases h; exact hr
  · cases h; simp [Staged]
  · split at h
    · cases h; simp [Staged]
    · cases h
  · cases h
  · cases h; exact hr

/-- What needs the placeholders of the first stage only can be evaluated in that stage. -/
theorem staged_now {P : List Nat} {Ps : List (List Nat)} (hnd : (P ++ Ps.flatten).Nodup) (hne : ∀ Q ∈ Ps, Q ≠ []) : ∀ {B : List Nat} {t : Tm V L}, Staged (P :: Ps) B t → (∀ m ∈ B, m ∉ Ps.flatten) →
    (∀ m ∈ fv t, m ∈ P ∨ m ∈ B) → Ready P B t := by
  intro B t
  revert B
  induction t using Tm.ind with
  | hval v => intro B _ _ _; simp [Ready]
  | hbor v => intro B _ _ _; simp [Ready]
  | href l => intro B _ _ _; simp [Ready]
  | hdead => intro B _ _ _; simp [Ready]
  | hph n => intro B _ _ hf; rw [Ready]; exact hf n (by simp [fv])
  | hnode g cs ih =>
    intro B h hB hf
    rw [Staged, stageds_iff] at h
    rw [Ready, readys_iff]
    exact fun c hc => ih c hc (h c hc) hB (fun m hm => hf m (by rw [fv, fvs_mem]; exact ⟨c, hc, hm⟩))
  | hfn b is ih => intro B h; rw [Staged] at h; exact h.elim
  | hsum b n d ih _ =>
    intro B h hB hf
    rw [Staged, List.flatten_cons] at h
    obtain ⟨h1, h2, h3, h4, h5, h6⟩ := h
    rw [List.mem_append, not_or] at h1
    have hfb : ∀ m ∈ fv b, m ≠ n → m ∈ P ∨ m ∈ B := fun m hm hne => hf m (by rw [fv, List.mem_append, List.mem_filter]; exact Or.inl ⟨hm, by simpa using hne⟩)
    rw [Ready]
    refine ⟨h1.1, h2, fun m hm => h3 m (by simp only [List.mem_cons, List.mem_append] at hm ⊢; tauto), h4, h5.imp id ?_, ih h6 ?_ ?_⟩
    · rintro ⟨Qs, Q, Rs, e, hc⟩
      match Qs with
      | [] =>
        rw [List.nil_append, List.cons.injEq] at e
        intro m
        have := hc m
        rw [e.1, ← this]
        simp
      | P' :: Qs =>
        rw [List.cons_append, List.cons.injEq] at e
        obtain ⟨rfl, e⟩ := e
        have hQ : Q ∈ Ps := by rw [e]; simp
        cases hQe : Q with
        | nil => exact absurd hQe (hne Q hQ)
        | cons q Q' =>
          have hq : q ∈ Q := by rw [hQe]; exact List.mem_cons_self
          have hqP : q ∈ Ps.flatten := List.mem_flatten.mpr ⟨Q, hQ, hq⟩
          obtain ⟨⟨a1, a2⟩, -⟩ := (hc q).mpr hq
          rcases hfb q a1 a2 with h | h
          · exact absurd rfl ((List.nodup_append.mp hnd).2.2 q h q hqP)
          · exact absurd hqP (hB q h)
    · intro m hm
      rcases List.mem_cons.mp hm with rfl | hm
      · exact h1.2
      · exact hB m hm
    · intro m hm
      by_cases hmn : m = n
      · exact Or.inr (by rw [hmn]; exact List.mem_cons_self)
      · exact (hfb m hm hmn).imp id (List.mem_cons_of_mem _)

/-- What is known of the result of a stage. -/
structure StageResult (P : List Nat) (Ps : List (List Nat)) (B : List Nat) (t t' : Tm V L) : Prop where
  staged : Staged Ps B t'
  free : ∀ m, m ∈ fv t' ↔ m ∈ fv t ∧ m ∉ P
  notLazy : lazyIn P t = true ↔ ∃ m ∈ fv t, m ∉ P

theorem evalF_stage (I : Interp V L) : ∀ (k : Nat) (t : Tm V L), depth t ≤ k → ∀ (ps : Pairs V L) (Ps : List (List Nat)) (B : List Nat) (env : Env V) (v : V), ps ≠ [] → (ps.map (·.1) ++ Ps.flatten).Nodup → (∀ Q ∈ Ps, Q ≠ []) →
    Staged (ps.map (·.1) :: Ps) B t → (∀ m ∈ B, m ∉ ps.map (·.1) ∧ m ∉ Ps.flatten) → B.Nodup → den I true (withPairs I env ps) t = some v →
    ∃ t', evalF I k ps t = .ok t' ∧ StageResult (ps.map (·.1)) Ps B t t' := by
  intro k
  induction k with
  | zero => intro t h; have := depth_pos t; omega
  | succ k ih =>
    intro t hk ps Ps B env v h0 hnd hne hr hB hBn hv
    have hd : Distinct ps := (List.nodup_append.mp hnd).1
    by_cases hnow : ∀ m ∈ fv t, m ∈ ps.map (·.1)
    · have hrd : Ready (ps.map (·.1)) B t := staged_now hnd hne hr (fun m hm => (hB m hm).2) (fun m hm => Or.inl (hnow m hm))
      have hrd' : Ready (ps.map (·.1)) [] t := ready_shrink (B1 := []) hrd (fun m hm hmB => (hB m hmB).1 (hnow m hm))
      obtain ⟨t', e, hres⟩ := evalF_progress I (k + 1) t hk ps [] env v h0 hd hrd' (by simp) (by simp) hv
      exact ⟨t', e, leaf_staged (hres.value hnow) _ _, hres.free, hres.notLazy⟩
    have hlater : ∃ m ∈ fv t, m ∉ ps.map (·.1) := by
      by_contra hc
      exact hnow (fun m hm => by by_contra hn; exact hc ⟨m, hm, hn⟩)
    cases t with
    | val w => exact absurd (fun m hm => by simp [fv] at hm) hnow
    | bor w => exact absurd (fun m hm => by simp [fv] at hm) hnow
    | ref l => exact absurd (fun m hm => by simp [fv] at hm) hnow
    | dead => exact absurd (fun m hm => by simp [fv] at hm) hnow
    | ph n =>
      have hn : n ∉ ps.map (·.1) := by
        obtain ⟨m, hm, h⟩ := hlater
        rw [fv, List.mem_singleton] at hm
        exact hm ▸ h
      refine ⟨_, evalPh_not_mem h0 hn, ?_, fun m => ?_, ?_⟩
      · rw [Staged, List.flatten_cons, List.mem_append] at hr
        rw [Staged]
        tauto
      · simp only [fv, List.mem_singleton]
        constructor
        · rintro rfl; exact ⟨rfl, hn⟩
        · exact fun h => h.1
      · rw [lazyIn, beq_iff_eq, positions_eq_zero n _ 1 (by omega)]
        simp [fv]
    | fn b is => rw [Staged] at hr; exact hr.elim
    | node g cs =>
      rw [depth, Nat.add_le_add_iff_right] at hk
      rw [Staged, stageds_iff] at hr
      obtain ⟨vs, hvs⟩ := den_children hv
      have hch : ∀ c ∈ cs, ∃ c', evalF I k ps c = .ok c' ∧ StageResult (ps.map (·.1)) Ps B c c' := by
        intro c hc
        obtain ⟨w, -, hw⟩ := forall₂_left hvs c hc
        exact ih c (depths_le hk c hc) ps Ps B env w h0 hnd hne (hr c hc) hB hBn hw
      obtain ⟨cs', hcs⟩ : ∃ cs', List.Forall₂ (fun c c' => evalF I k ps c = .ok c' ∧ StageResult (ps.map (·.1)) Ps B c c') cs cs' := by
        clear hvs hv hr hk hnow hlater
        induction cs with
        | nil => exact ⟨[], .nil⟩
        | cons c cs ihc =>
          obtain ⟨c', e⟩ := hch c List.mem_cons_self
          obtain ⟨cs', es⟩ := ihc (fun d hd => hch d (List.mem_cons_of_mem _ hd))
          exact ⟨c' :: cs', .cons e es⟩
      have hm := forall₂_mapM (hcs.imp (fun _ _ h => h.1))
      have hshift : shiftOKs (ps.map (·.1)) cs = true := shiftOKs_iff.mpr (fun c hc => staged_shiftOK (hr c hc))
      have hl : lazyIns (ps.map (·.1)) cs = true := by
        rw [lazyIns_iff]
        obtain ⟨m, hm, hn⟩ := hlater
        rw [fv] at hm
        obtain ⟨c, hc, hm⟩ := fvs_mem.mp hm
        obtain ⟨c', -, -, hres⟩ := forall₂_left hcs c hc
        exact ⟨c, hc, hres.notLazy.mpr ⟨m, hm, hn⟩⟩
      refine ⟨.node g cs', ?_, ?_, ?_, ?_⟩
      · simp only [evalF, bind, Except.bind, hshift, hm, Bool.not_true, Bool.false_eq_true, if_false, pure, Except.pure]
        rw [dispatch, if_pos hl]
      · rw [Staged, stageds_iff]
        intro c' hc'
        obtain ⟨c, -, -, hres⟩ := forall₂_right hcs c' hc'
        exact hres.staged
      · intro m
        rw [fv, fv, fvs_mem, fvs_mem]
        constructor
        · rintro ⟨c', hc', hm⟩
          obtain ⟨c, hc, -, hres⟩ := forall₂_right hcs c' hc'
          obtain ⟨h1, h2⟩ := (hres.free m).mp hm
          exact ⟨⟨c, hc, h1⟩, h2⟩
        · rintro ⟨⟨c, hc, h1⟩, h2⟩
          obtain ⟨c', hc', -, hres⟩ := forall₂_left hcs c hc
          exact ⟨c', hc', (hres.free m).mpr ⟨h1, h2⟩⟩
      · rw [lazyIn]
        exact ⟨fun _ => hlater, fun _ => hl⟩
    | sum body n dom =>
      rw [depth, Nat.add_le_add_iff_right] at hk
      have hshift := staged_shiftOK hr
      rw [Staged, List.flatten_cons] at hr
      obtain ⟨r1, r2, r3, r4, r5, r6⟩ := hr
      rw [List.mem_append, not_or] at r1
      have hk1 : depth body ≤ k := by omega
      obtain ⟨k', rfl⟩ : ∃ k', k = k' + 1 := ⟨k - 1, by have := depth_pos body; omega⟩
      obtain ⟨p0, w0, hp0⟩ := den_sum_some hv
      rw [← withPairs_set I env ps n p0 r1.1] at hp0
      obtain ⟨d, ed, hdl⟩ := leaf_evalF (I := I) r4 k' ps
      have hP64 : ∀ m ∈ ps.map (·.1), m < 64 := fun m hm => r3 m (by simp only [List.mem_cons, List.mem_append]; exact Or.inr (Or.inl (Or.inl hm)))
      have hb64 : ∀ m ∈ fv body, m < 64 := by
        intro m hm
        refine r3 m ?_
        have := staged_fv r6 m hm
        simp only [List.flatten_cons, List.mem_cons, List.mem_append] at this ⊢
        tauto
      have hbs := staged_bv r6
      have hfree : ∀ m, m ∈ fv (.sum body n dom : Tm V L) ↔ m ∈ fv body ∧ m ≠ n := by
        intro m
        rw [fv, leaf_fv r4, List.append_nil, List.mem_filter]
        simp
      have hlazy : lazyIn (ps.map (·.1)) (.sum body n dom : Tm V L) = true := by
        rw [lazyIn, leaf_lazy r4, Bool.or_false, bne_iff_ne, ne_eq, filter_eq_iff body n _ hP64 hb64]
        intro h
        obtain ⟨m, hm, hn⟩ := hlater
        exact hn ((h m).mp ((hfree m).mp hm))
      have hnB : (n :: B).Nodup := List.nodup_cons.mpr ⟨r2, hBn⟩
      obtain ⟨b, eb, hres⟩ := ih body hk1 ps Ps (n :: B) (put env n p0) w0 h0 hnd hne r6 (by
        intro m hm
        rcases List.mem_cons.mp hm with rfl | hm
        · exact r1
        · exact hB m hm) hnB hp0
      have hsnd := (evalF_sound I true (k' + 1) ps body b eb hd (fun m hm h => (hbs.1 m hm).1 (by rw [List.flatten_cons]; exact List.mem_append_left _ h)) hbs.2).1 (put env n p0)
      obtain ⟨b', eb'⟩ := decay_ok (hsnd.trans hp0)
      obtain ⟨-, -, -, hfvb, -⟩ := decay_spec eb'
      refine ⟨.sum b' n d, ?_, ?_, ?_, ?_⟩
      · simp only [evalF, bind, Except.bind, hshift, Bool.not_true, Bool.false_eq_true, if_false, pure, Except.pure] at eb ed ⊢
        simp only [eb, eb', ed, hlazy, if_true]
      · rw [Staged]
        refine ⟨r1.2, r2, fun m hm => r3 m (by simp only [List.mem_cons, List.mem_append] at hm ⊢; tauto), hdl, ?_, decay_staged eb' _ _ hres.staged⟩
        rcases r5 with ⟨m, hm, hf⟩ | ⟨Qs, Q, Rs, e, hc⟩
        · exact Or.inl ⟨m, hm, by rw [hfvb, hres.free]; exact ⟨hf, (hB m hm).1⟩⟩
        · refine Or.inr ?_
          match Qs with
          | [] =>
            rw [List.nil_append, List.cons.injEq] at e
            obtain ⟨m, hm, hn⟩ := hlater
            refine absurd ?_ hn
            rw [e.1, ← hc m]
            exact ⟨(hfree m).mp hm, by simp⟩
          | P' :: Qs =>
            rw [List.cons_append, List.cons.injEq] at e
            obtain ⟨rfl, e⟩ := e
            refine ⟨Qs, Q, Rs, e, fun m => ?_⟩
            have h1 := hc m
            simp only [List.flatten_cons, List.mem_append] at h1
            simp only [← h1, hfvb, hres.free]
            tauto
      · intro m
        rw [hfree, fv, leaf_fv hdl, List.append_nil, List.mem_filter, hfvb, hres.free]
        simp only [ne_eq, decide_not, Bool.not_eq_eq_eq_not, Bool.not_true, decide_eq_false_iff_not]
        tauto
      · rw [hlazy]
        exact ⟨fun _ => hlater, fun _ => rfl⟩

end Nda.Clef
