import Verif.Lemmas.MultiBucket
/-! # The composed allocators are correct if their parts are -/
namespace Nda.Alloc
open Spec

variable {σ τ : Type} {A : Allocator σ} {B : Allocator τ} {z : Prop} {okA okB ok : Nat → Prop}
  {IA : σ → List Blk → List Blk → Prop} {IB : τ → List Blk → List Blk → Prop}

/-- State of a segregator: each part has its own live blocks. -/
def SInv (T : Nat) (IA : σ → List Blk → List Blk → Prop) (IB : τ → List Blk → List Blk → Prop) (st : σ × τ) (L R : List Blk) : Prop :=
  ∃ RA RB, R = RA ++ RB ∧ IA st.1 (L.filter (fun k => k.s ≤ T)) RA ∧ IB st.2 (L.filter (fun k => ¬ k.s ≤ T)) RB

theorem same_inside {b r : Blk} {m m' : Int → Nat} (h : Same r m m') (hi : Inside b r) : Same b m m' :=
  fun x hx => h x (Inside.covers hi hx)

theorem regions_apart {sys : Sys} {R F : List Blk} (hs : SysOk sys) (hr : sys.regions.Perm (R ++ F)) : (R ++ F).Pairwise Apart :=
  (apart_perm hr).1 hs.apart

theorem perm_left {RA RB F X : List Blk} (h : X.Perm (RA ++ RB ++ F)) : X.Perm (RA ++ (RB ++ F)) := by
  rw [← List.append_assoc]; exact h

theorem perm_right {RA RB F X : List Blk} (h : X.Perm (RA ++ RB ++ F)) : X.Perm (RB ++ (RA ++ F)) := by
  refine h.trans ?_
  rw [← List.append_assoc]
  exact List.perm_append_comm.append_right F

/-- An operation of the first part, seen from outside. -/
theorem keeps_left (hB : Lawful B z okB IB) {T : Nat} {sys sys' : Sys} {L F RA RA' RB : List Blk} {st : τ} (hs : SysOk sys)
    (hr : sys.regions.Perm (RA ++ RB ++ F)) (hib : IB st (L.filter (fun k => ¬ k.s ≤ T)) RB)
    (h : Keeps sys sys' (L.filter (fun k => k.s ≤ T)) (RB ++ F) RA') : Keeps sys sys' L F (RA' ++ RB) := by
  refine ⟨h.ok, ?_, fun b hb => ?_, fun b hb => h.others b (List.mem_append_right _ hb)⟩
  · rw [List.append_assoc]; exact h.regions
  · by_cases hT : b.s ≤ T
    · exact h.live b (List.mem_filter.2 ⟨hb, by simpa⟩)
    · have hp := regions_apart hs hr
      rw [List.pairwise_append, List.pairwise_append] at hp
      obtain ⟨r, hrm, hi⟩ := ((hB.sound _ _ _ hib hp.1.2.1).2 b (List.mem_filter.2 ⟨hb, by simpa using hT⟩)).2
      exact same_inside (h.others r (List.mem_append_left _ hrm)) hi

theorem keeps_right (hA : Lawful A z okA IA) {T : Nat} {sys sys' : Sys} {L F RA RB RB' : List Blk} {st : σ} (hs : SysOk sys)
    (hr : sys.regions.Perm (RA ++ RB ++ F)) (hia : IA st (L.filter (fun k => k.s ≤ T)) RA)
    (h : Keeps sys sys' (L.filter (fun k => ¬ k.s ≤ T)) (RA ++ F) RB') : Keeps sys sys' L F (RA ++ RB') := by
  refine ⟨h.ok, ?_, fun b hb => ?_, fun b hb => h.others b (List.mem_append_right _ hb)⟩
  · refine h.regions.trans ?_
    rw [← List.append_assoc]
    exact List.perm_append_comm.append_right F
  · by_cases hT : b.s ≤ T
    · have hp := regions_apart hs hr
      rw [List.pairwise_append, List.pairwise_append] at hp
      obtain ⟨r, hrm, hi⟩ := ((hA.sound _ _ _ hia hp.1.1).2 b (List.mem_filter.2 ⟨hb, by simpa using hT⟩)).2
      exact same_inside (h.others r (List.mem_append_left _ hrm)) hi
    · exact h.live b (List.mem_filter.2 ⟨hb, by simpa using hT⟩)

theorem segregator_lawful (T : Nat) (hA : Lawful A z okA IA) (hB : Lawful B z okB IB) :
    Lawful (segregator T A B) z (fun n => if n ≤ T then okA n else okB n) (SInv T IA IB) where
  init sys h := by
    obtain ⟨RA, a1, a2⟩ := hA.init sys h
    obtain ⟨RB, b1, b2⟩ := hB.init _ a2.ok
    refine ⟨RA ++ RB, ⟨RA, RB, rfl, a1, b1⟩, b2.ok, ?_, by simp, fun b hb => ?_⟩
    · refine b2.regions.trans ?_
      refine (a2.regions.append_left RB).trans ?_
      rw [← List.append_assoc]
      exact List.perm_append_comm.append_right _
    · intro x hx
      exact (b2.others b (a2.regions.symm.subset (List.mem_append_right _ hb)) x hx).trans (a2.others b hb x hx)
  sound st L R h hR := by
    obtain ⟨RA, RB, rfl, hia, hib⟩ := h
    rw [List.pairwise_append] at hR
    obtain ⟨pA, sA⟩ := hA.sound _ _ _ hia hR.1
    obtain ⟨pB, sB⟩ := hB.sound _ _ _ hib hR.2.1
    constructor
    · rw [List.pairwise_iff_forall_sublist] at pA pB ⊢
      intro a b hab
      have ha : a ∈ L := hab.subset (by simp)
      have hb : b ∈ L := hab.subset (by simp)
      by_cases hTa : a.s ≤ T <;> by_cases hTb : b.s ≤ T
      · apply pA
        have := hab.filter (fun k : Blk => decide (k.s ≤ T))
        simpa [hTa, hTb] using this
      · obtain ⟨r, hr, hi⟩ := (sA a (List.mem_filter.2 ⟨ha, by simpa using hTa⟩)).2
        obtain ⟨q, hq, hj⟩ := (sB b (List.mem_filter.2 ⟨hb, by simpa using hTb⟩)).2
        exact Apart.inside (hR.2.2 r hr q hq) hi hj
      · obtain ⟨r, hr, hi⟩ := (sA b (List.mem_filter.2 ⟨hb, by simpa using hTb⟩)).2
        obtain ⟨q, hq, hj⟩ := (sB a (List.mem_filter.2 ⟨ha, by simpa using hTa⟩)).2
        exact Apart.symm (Apart.inside (hR.2.2 r hr q hq) hi hj)
      · apply pB
        have := hab.filter (fun k : Blk => decide (¬ k.s ≤ T))
        simpa [Nat.lt_of_not_le hTa, Nat.lt_of_not_le hTb] using this
    · intro b hb
      by_cases hT : b.s ≤ T
      · obtain ⟨h1, r, hr, hi⟩ := sA b (List.mem_filter.2 ⟨hb, by simpa using hT⟩)
        exact ⟨h1, r, List.mem_append_left _ hr, hi⟩
      · obtain ⟨h1, r, hr, hi⟩ := sB b (List.mem_filter.2 ⟨hb, by simpa using hT⟩)
        exact ⟨h1, r, List.mem_append_right _ hr, hi⟩
  allocate st L R F sys n k st' sys' h hs hr hn he := by
    obtain ⟨RA, RB, rfl, hia, hib⟩ := h
    simp only [segregator] at he
    split at he
    · rename_i hT
      rw [if_pos hT] at hn
      simp only [Option.bind_eq_bind, Option.bind_eq_some_iff, Option.pure_def, Option.some.injEq, Prod.mk.injEq] at he
      obtain ⟨⟨k1, a1, s1⟩, e, rfl, rfl, rfl⟩ := he
      obtain ⟨h1, RA', h2, h3⟩ := hA.allocate _ _ _ _ _ _ _ _ _ hia hs (perm_left hr) hn e
      have hTk : k1.s ≤ T := by omega
      refine ⟨h1, RA' ++ RB, ⟨RA', RB, rfl, ?_, ?_⟩, keeps_left hB hs hr hib h3⟩
      · simpa [List.filter_cons, hTk] using h2
      · simpa [List.filter_cons, hTk] using hib
    · rename_i hT
      rw [if_neg hT] at hn
      simp only [Option.bind_eq_bind, Option.bind_eq_some_iff, Option.pure_def, Option.some.injEq, Prod.mk.injEq] at he
      obtain ⟨⟨k1, a1, s1⟩, e, rfl, rfl, rfl⟩ := he
      obtain ⟨h1, RB', h2, h3⟩ := hB.allocate _ _ _ _ _ _ _ _ _ hib hs (perm_right hr) hn e
      have hTk : ¬ k1.s ≤ T := by omega
      refine ⟨h1, RA ++ RB', ⟨RA, RB', rfl, ?_, ?_⟩, keeps_right hA hs hr hia h3⟩
      · simpa [List.filter_cons, hTk] using hia
      · simpa [List.filter_cons, Nat.lt_of_not_le hTk] using h2
  allocateZero st L R F sys n k st' sys' h hs hr hn he := by
    obtain ⟨RA, RB, rfl, hia, hib⟩ := h
    simp only [segregator] at he
    split at he
    · rename_i hT
      rw [if_pos hT] at hn
      simp only [Option.bind_eq_bind, Option.bind_eq_some_iff, Option.pure_def, Option.some.injEq, Prod.mk.injEq] at he
      obtain ⟨⟨k1, a1, s1⟩, e, rfl, rfl, rfl⟩ := he
      obtain ⟨h1, hz, RA', h2, h3⟩ := hA.allocateZero _ _ _ _ _ _ _ _ _ hia hs (perm_left hr) hn e
      have hTk : k1.s ≤ T := by omega
      refine ⟨h1, hz, RA' ++ RB, ⟨RA', RB, rfl, ?_, ?_⟩, keeps_left hB hs hr hib h3⟩
      · simpa [List.filter_cons, hTk] using h2
      · simpa [List.filter_cons, hTk] using hib
    · rename_i hT
      rw [if_neg hT] at hn
      simp only [Option.bind_eq_bind, Option.bind_eq_some_iff, Option.pure_def, Option.some.injEq, Prod.mk.injEq] at he
      obtain ⟨⟨k1, a1, s1⟩, e, rfl, rfl, rfl⟩ := he
      obtain ⟨h1, hz, RB', h2, h3⟩ := hB.allocateZero _ _ _ _ _ _ _ _ _ hib hs (perm_right hr) hn e
      have hTk : ¬ k1.s ≤ T := by omega
      refine ⟨h1, hz, RA ++ RB', ⟨RA, RB', rfl, ?_, ?_⟩, keeps_right hA hs hr hia h3⟩
      · simpa [List.filter_cons, hTk] using hia
      · simpa [List.filter_cons, Nat.lt_of_not_le hTk] using h2
  deallocate st L R F sys k h hs hr hk := by
    obtain ⟨RA, RB, rfl, hia, hib⟩ := h
    by_cases hT : k.s ≤ T
    · obtain ⟨a1, s1, RA', e, h2, h3⟩ := hA.deallocate _ _ _ _ _ k hia hs (perm_left hr) (List.mem_filter.2 ⟨hk, by simpa using hT⟩)
      have e1 : (L.filter (fun k => decide (k.s ≤ T))).erase k = (L.erase k).filter (fun k => decide (k.s ≤ T)) := by
        rw [filter_erase', if_pos (by simpa using hT)]
      have e2 : (L.erase k).filter (fun k => decide (¬ k.s ≤ T)) = L.filter (fun k => decide (¬ k.s ≤ T)) := by
        rw [filter_erase', if_neg (by simpa using hT)]
      rw [e1] at h2 h3
      have hib' : IB st.2 ((L.erase k).filter (fun k => decide (¬ k.s ≤ T))) RB := by rw [e2]; exact hib
      exact ⟨(a1, st.2), s1, RA' ++ RB, by simp [segregator, hT, e], ⟨RA', RB, rfl, h2, hib'⟩, keeps_left hB hs hr hib' h3⟩
    · obtain ⟨a1, s1, RB', e, h2, h3⟩ := hB.deallocate _ _ _ _ _ k hib hs (perm_right hr) (List.mem_filter.2 ⟨hk, by simpa using hT⟩)
      have e1 : (L.filter (fun k => decide (¬ k.s ≤ T))).erase k = (L.erase k).filter (fun k => decide (¬ k.s ≤ T)) := by
        rw [filter_erase', if_pos (by simpa using hT)]
      have e2 : (L.erase k).filter (fun k => decide (k.s ≤ T)) = L.filter (fun k => decide (k.s ≤ T)) := by
        rw [filter_erase', if_neg (by simpa using hT)]
      rw [e1] at h2 h3
      have hia' : IA st.1 ((L.erase k).filter (fun k => decide (k.s ≤ T))) RA := by rw [e2]; exact hia
      exact ⟨(st.1, a1), s1, RA ++ RB', by simp [segregator, hT, e], ⟨RA, RB', rfl, hia', h2⟩, keeps_right hA hs hr hia' h3⟩

/-- Total size of blocks. -/
def total (L : List Blk) : Int := (L.map (fun k => (k.s : Int))).sum

theorem total_cons (k : Blk) (L : List Blk) : total (k :: L) = k.s + total L := by simp [total]

theorem total_erase {k : Blk} : ∀ {L : List Blk}, k ∈ L → total (L.erase k) = total L - k.s
  | a :: l, hk => by
    by_cases ha : a = k
    · subst ha; rw [List.erase_cons_head, total_cons]; omega
    · rw [List.erase_cons_tail (by simpa using ha), total_cons, total_cons,
        total_erase ((List.mem_cons.1 hk).resolve_left (fun h => ha h.symm))]; omega

theorem total_nonneg : ∀ L : List Blk, 0 ≤ total L
  | [] => by simp [total]
  | k :: l => by rw [total_cons]; have := total_nonneg l; omega

theorem leakCheck_lawful (hA : Lawful A z ok IA) :
    Lawful (leakCheck A) z ok (fun st L R => IA st.1 L R ∧ st.2 = total L) where
  init sys h := by
    obtain ⟨R, a1, a2⟩ := hA.init sys h
    exact ⟨R, ⟨a1, by simp [leakCheck, total]⟩, a2⟩
  sound st L R h hR := hA.sound _ _ _ h.1 hR
  allocate st L R F sys n k st' sys' h hs hr hn he := by
    simp only [leakCheck, Option.bind_eq_bind, Option.bind_eq_some_iff, Option.pure_def, Option.some.injEq, Prod.mk.injEq] at he
    obtain ⟨⟨k1, a1, s1⟩, e, rfl, rfl, rfl⟩ := he
    obtain ⟨h1, R', h2, h3⟩ := hA.allocate _ _ _ _ _ _ _ _ _ h.1 hs hr hn e
    refine ⟨h1, R', ⟨h2, ?_⟩, h3⟩
    simp only [h.2, total_cons]; omega
  allocateZero st L R F sys n k st' sys' h hs hr hn he := by
    simp only [leakCheck, Option.bind_eq_bind, Option.bind_eq_some_iff, Option.pure_def, Option.some.injEq, Prod.mk.injEq] at he
    obtain ⟨⟨k1, a1, s1⟩, e, rfl, rfl, rfl⟩ := he
    obtain ⟨h1, hz, R', h2, h3⟩ := hA.allocateZero _ _ _ _ _ _ _ _ _ h.1 hs hr hn e
    refine ⟨h1, hz, R', ⟨h2, ?_⟩, h3⟩
    simp only [h.2, total_cons]; omega
  deallocate st L R F sys k h hs hr hk := by
    obtain ⟨a1, s1, R', e, h2, h3⟩ := hA.deallocate _ _ _ _ _ k h.1 hs hr hk
    have ht := total_erase hk
    have hnn := total_nonneg (L.erase k)
    refine ⟨(a1, st.2 - k.s), s1, R', ?_, ⟨h2, by rw [ht, ← h.2]⟩, h3⟩
    have : (k.s : Int) ≤ st.2 := by rw [h.2]; omega
    simp [leakCheck, this, e]

theorem stats_lawful (hA : Lawful A z ok IA) : Lawful (stats A) False ok (fun st L R => IA st.1 L R) where
  init sys h := hA.init sys h
  sound st L R h hR := hA.sound _ _ _ h hR
  allocate st L R F sys n k st' sys' h hs hr hn he := by
    simp only [stats, Option.bind_eq_bind, Option.bind_eq_some_iff, Option.pure_def, Option.some.injEq, Prod.mk.injEq] at he
    obtain ⟨_, _, ⟨k1, a1, s1⟩, e, rfl, rfl, rfl⟩ := he
    exact hA.allocate _ _ _ _ _ _ _ _ _ h hs hr hn e
  allocateZero st L R F sys n k st' sys' h hs hr hn he := by
    simp only [stats, Option.bind_eq_bind, Option.bind_eq_some_iff, Option.pure_def, Option.some.injEq, Prod.mk.injEq] at he
    obtain ⟨_, _, ⟨k1, a1, s1⟩, e, rfl, rfl, rfl⟩ := he
    obtain ⟨h1, R', h2, h3⟩ := hA.allocate _ _ _ _ _ _ _ _ _ h hs hr hn e
    exact ⟨h1, False.elim, R', h2, h3⟩
  deallocate st L R F sys k h hs hr hk := by
    obtain ⟨a1, s1, R', e, h2, h3⟩ := hA.deallocate _ _ _ _ _ k h hs hr hk
    exact ⟨(a1, st.2), s1, R', by simp [stats, e], h2, h3⟩

/-- The allocator never gives up on requests of the sizes in `ok`. -/
def Total (A : Allocator σ) (ok : Nat → Prop) (Inv : σ → List Blk → List Blk → Prop) : Prop :=
  ∀ st L R F sys n, Inv st L R → SysOk sys → sys.regions.Perm (R ++ F) → ok n →
    (A.allocate n st sys).isSome = true ∧ (A.allocateZero n st sys).isSome = true

theorem total_run {Inv : σ → List Blk → List Blk → Prop} (law : Lawful A z ok Inv) (tot : Total A ok Inv) {sys0 : Sys} {ops : List Op} :
    ∀ {w : World σ} {R : List Blk}, Client Inv sys0 w R → Sizes ok ops → ∃ w', w.run A ops = some w' := by
  induction ops with
  | nil => intro w R _ _; exact ⟨w, rfl⟩
  | cons op ops ih =>
    intro w R h hs
    have hs1 : Sizes ok [op] := fun o ho => by simp only [List.mem_singleton] at ho; subst ho; exact hs o List.mem_cons_self
    have hso := hs op List.mem_cons_self
    have hstep : ∃ w1, w.step A op = some w1 := by
      cases op with
      | alloc n =>
        obtain ⟨r, hr⟩ := Option.isSome_iff_exists.1 (tot _ _ _ _ _ n h.inv h.keeps.ok h.keeps.regions hso).1
        exact ⟨_, by simp only [World.step, hr]; rfl⟩
      | allocZero n =>
        obtain ⟨r, hr⟩ := Option.isSome_iff_exists.1 (tot _ _ _ _ _ n h.inv h.keeps.ok h.keeps.regions hso).2
        exact ⟨_, by simp only [World.step, hr]; rfl⟩
      | free i =>
        simp only [World.step]
        cases hk : w.held[i]? with
        | none => exact ⟨_, rfl⟩
        | some k =>
          obtain ⟨st', sys', R', he, _⟩ := law.deallocate _ _ _ _ _ _ h.inv h.keeps.ok h.keeps.regions (List.mem_of_getElem? hk)
          exact ⟨_, by simp only [he]; rfl⟩
      | write i off x =>
        simp only [World.step]
        cases hk : w.held[i]? with
        | none => exact ⟨_, rfl⟩
        | some k => simp only; split <;> exact ⟨_, rfl⟩
    obtain ⟨w1, hw1⟩ := hstep
    obtain ⟨⟨R1, hc⟩, _⟩ := step_client law h hs1 hw1
    obtain ⟨w', hw'⟩ := ih hc (fun o ho => hs o (List.mem_cons_of_mem _ ho))
    refine ⟨w', ?_⟩
    simp only [World.run, List.foldlM_cons, hw1, Option.bind_eq_bind, Option.bind_some]
    exact hw'

theorem mallocator_total (Inv : Unit → List Blk → List Blk → Prop) : Total mallocator ok Inv :=
  fun _ _ _ _ _ _ _ _ _ _ => ⟨rfl, rfl⟩

theorem multi_total {C : Nat} (hC : 0 < C) : Total (multiBucket C) (fun n => 0 < n ∧ n ≤ C) (MInv C) := by
  intro st L R F sys n h hs hr hn
  obtain ⟨k1, m1, sys1, R1, e, _⟩ := multi_allocate hC h hs hr hn
  constructor
  · rw [show (multiBucket C).allocate n st sys = st.allocate C n sys from rfl, e]; rfl
  · simp [multiBucket, e]

theorem segregator_total (T : Nat) (tA : Total A okA IA) (tB : Total B okB IB) :
    Total (segregator T A B) (fun n => if n ≤ T then okA n else okB n) (SInv T IA IB) := by
  intro st L R F sys n h hs hr hn
  obtain ⟨RA, RB, rfl, hia, hib⟩ := h
  by_cases hT : n ≤ T
  · simp only [hT, if_true] at hn
    obtain ⟨h1, h2⟩ := tA _ _ _ _ _ n hia hs (perm_left hr) hn
    obtain ⟨r1, h1⟩ := Option.isSome_iff_exists.1 h1
    obtain ⟨r2, h2⟩ := Option.isSome_iff_exists.1 h2
    simp [segregator, hT, h1, h2]
  · simp only [hT, if_false] at hn
    obtain ⟨h1, h2⟩ := tB _ _ _ _ _ n hib hs (perm_right hr) hn
    obtain ⟨r1, h1⟩ := Option.isSome_iff_exists.1 h1
    obtain ⟨r2, h2⟩ := Option.isSome_iff_exists.1 h2
    simp [segregator, hT, h1, h2]

theorem leakCheck_total (tA : Total A ok IA) : Total (leakCheck A) ok (fun st L R => IA st.1 L R ∧ st.2 = total L) := by
  intro st L R F sys n h hs hr hn
  obtain ⟨h1, h2⟩ := tA _ _ _ _ _ n h.1 hs hr hn
  obtain ⟨r1, h1⟩ := Option.isSome_iff_exists.1 h1
  obtain ⟨r2, h2⟩ := Option.isSome_iff_exists.1 h2
  simp [leakCheck, h1, h2]

end Nda.Alloc
