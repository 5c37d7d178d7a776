import Verif.Lemmas.Clef
import Mathlib.Tactic.Tauto
/-!
# Lemmas on lazy expressions: evaluation succeeds
-/
namespace Nda.Clef
open Nda.Clef.Spec

variable {V L : Type}

section
variable {M : Tm V L → Prop} (hval : ∀ v, M (.val v)) (hbor : ∀ v, M (.bor v)) (href : ∀ l, M (.ref l)) (hdead : M .dead) (hph : ∀ n, M (.ph n))
  (hnode : ∀ g cs, (∀ c ∈ cs, M c) → M (.node g cs)) (hfn : ∀ b is, M b → M (.fn b is)) (hsum : ∀ b n d, M b → M d → M (.sum b n d))
include hval hbor href hdead hph hnode hfn hsum

mutual
theorem Tm.ind : ∀ t : Tm V L, M t
  | .val v => hval v
  | .bor v => hbor v
  | .ref l => href l
  | .dead => hdead
  | .ph n => hph n
  | .node g cs => hnode g cs (Tm.inds cs)
  | .fn b is => hfn b is (Tm.ind b)
  | .sum b n d => hsum b n d (Tm.ind b) (Tm.ind d)
theorem Tm.inds : ∀ cs : List (Tm V L), ∀ c ∈ cs, M c
  | [] => fun _ h => by cases h
  | c :: cs => fun d h => (List.mem_cons.mp h).elim (fun e => e ▸ Tm.ind c) (fun h => Tm.inds cs d h)
end
end

theorem depth_pos (t : Tm V L) : 1 ≤ depth t := by cases t <;> simp [depth]
theorem depths_pos (cs : List (Tm V L)) : 1 ≤ depths cs := by
  cases cs with
  | nil => simp [depths]
  | cons c cs => rw [depths]; have := depth_pos c; omega

theorem depths_le_iff {cs : List (Tm V L)} {k : Nat} (hk : 1 ≤ k) : depths cs ≤ k ↔ ∀ c ∈ cs, depth c ≤ k := by
  induction cs with
  | nil => simp [depths, hk]
  | cons c cs ih =>
    rw [depths]; simp only [List.mem_cons, forall_eq_or_imp, ← ih]
    omega

theorem toTm_depth (a : Arg V L) : depth a.toTm = 1 := by cases a <;> simp [Arg.toTm, depth]

theorem evalPh_depth {n : Nat} {ps : Pairs V L} {t : Tm V L} (h : evalPh n ps = .ok t) : depth t = 1 := by
  unfold evalPh at h
  split at h
  · cases h
  · split at h
    · cases h; simp [depth]
    · split at h
      · cases h; exact toTm_depth _
      · cases h

/-- Evaluation does not make a tree deeper. -/
theorem evalF_depth (I : Interp V L) : ∀ (k : Nat) (ps : Pairs V L) (t t' : Tm V L), evalF I k ps t = .ok t' → depth t' ≤ depth t := by
  intro k
  induction k with
  | zero => intro ps t t' h; cases h
  | succ k ih =>
    intro ps t t' h
    cases t with
    | val v => simp only [evalF] at h; cases h; simp [depth]
    | bor v => simp only [evalF] at h; cases h; simp [depth]
    | ref l => simp only [evalF] at h; cases h; simp [depth]
    | dead => simp only [evalF] at h; cases h; simp [depth]
    | ph n => simp only [evalF] at h; rw [evalPh_depth h]; exact depth_pos _
    | node g cs =>
      simp only [evalF, bind, Except.bind, throw, throwThe, MonadExceptOf.throw, pure, Except.pure] at h
      split at h
      · cases h
      · cases hm : cs.mapM (evalF I k ps) with
        | error e => simp only [hm] at h; cases h
        | ok cs' =>
          simp only [hm] at h
          have hf := mapM_forall₂ hm
          unfold dispatch at h
          split at h
          · cases h
            rw [depth, depth, Nat.add_le_add_iff_right, depths_le_iff (depths_pos cs)]
            intro c' hc'
            obtain ⟨c, hc, e⟩ := forall₂_right hf c' hc'
            exact Nat.le_trans (ih ps c c' e) ((depths_le_iff (depths_pos cs)).mp (Nat.le_refl _) c hc)
          · simp only [bind, Except.bind, pure, Except.pure] at h
            cases hv : cs'.mapM (read I) with
            | error e => simp only [hv] at h; cases h
            | ok vs =>
              simp only [hv] at h
              cases ho : operation I g vs with
              | error e => simp only [ho] at h; cases h
              | ok v => simp only [ho] at h; cases h; exact depth_pos _
    | fn body is =>
      simp only [evalF, bind, Except.bind, pure, Except.pure] at h
      cases hb1 : evalF I k ps body with
      | error e => simp only [hb1] at h; cases h
      | ok b =>
        simp only [hb1] at h
        cases hb2 : decay I b with
        | error e => simp only [hb2] at h; cases h
        | ok b' =>
          simp only [hb2] at h
          cases h
          rw [depth, depth, (decay_spec hb2).2.2.2.2]
          exact Nat.add_le_add_right (ih ps body b hb1) 1
    | sum body n dom =>
      simp only [evalF, bind, Except.bind, throw, throwThe, MonadExceptOf.throw, pure, Except.pure] at h
      split at h
      · cases h
      cases hb1 : evalF I k ps body with
      | error e => simp only [hb1] at h; cases h
      | ok b =>
        simp only [hb1] at h
        cases hb2 : decay I b with
        | error e => simp only [hb2] at h; cases h
        | ok b' =>
          simp only [hb2] at h
          cases hd1 : evalF I k ps dom with
          | error e => simp only [hd1] at h; cases h
          | ok d =>
            simp only [hd1] at h
            have h1 := ih ps body b hb1
            have h2 := ih ps dom d hd1
            have h3 : depth (.sum b' n d : Tm V L) ≤ depth (.sum body n dom : Tm V L) := by
              rw [depth, depth, (decay_spec hb2).2.2.2.2]; omega
            split at h
            · cases h; exact h3
            · unfold sumNode at h
              split at h
              · cases h
              · split at h
                · cases h; exact h3
                · simp only [bind, Except.bind, pure, Except.pure] at h
                  cases hr : read I d with
                  | error e => simp only [hr] at h; cases h
                  | ok dv =>
                    simp only [hr] at h
                    cases hs : sumLoop I (fun x => evalF I k [(n, .val x)] b') dv with
                    | error e => simp only [hs] at h; cases h
                    | ok v => simp only [hs] at h; cases h; exact depth_pos _

theorem mapM_congr' {α β ε : Type} {f g : α → Except ε β} : ∀ {l : List α}, (∀ a ∈ l, f a = g a) → l.mapM f = l.mapM g
  | [], _ => rfl
  | a :: l, h => by rw [List.mapM_cons, List.mapM_cons, h a List.mem_cons_self, mapM_congr' (fun b hb => h b (List.mem_cons_of_mem _ hb))]

/-- A larger bound on the recursion changes nothing: the bound is never reached. -/
theorem evalF_step (I : Interp V L) : ∀ (k : Nat) (ps : Pairs V L) (t : Tm V L), depth t ≤ k → evalF I (k + 1) ps t = evalF I k ps t := by
  intro k
  induction k with
  | zero => intro ps t h; have := depth_pos t; omega
  | succ k ih =>
    intro ps t h
    cases t with
    | val v => rfl
    | bor v => rfl
    | ref l => rfl
    | dead => rfl
    | ph n => rfl
    | node g cs =>
      rw [depth, Nat.add_le_add_iff_right] at h
      rw [evalF, evalF, mapM_congr' (fun c hc => ih ps c (depths_le h c hc))]
    | fn body is =>
      rw [depth, Nat.add_le_add_iff_right] at h
      rw [evalF, evalF, ih ps body h]
    | sum body n dom =>
      rw [depth, Nat.add_le_add_iff_right] at h
      rw [evalF, evalF, ih ps body (by omega), ih ps dom (by omega)]
      cases hb1 : evalF I k ps body with
      | error e => rfl
      | ok b =>
        cases hb2 : decay I b with
        | error e => simp only [bind, Except.bind, hb2]
        | ok b' =>
          have hdb : depth b' ≤ k := by
            rw [(decay_spec hb2).2.2.2.2]
            exact Nat.le_trans (evalF_depth I k ps body b hb1) (by omega)
          have : (fun x : V => evalF I (k + 1) [(n, Arg.val x)] b') = fun x => evalF I k [(n, .val x)] b' := funext (fun x => ih _ b' hdb)
          simp only [bind, Except.bind, hb2, this]

theorem evalF_eq (I : Interp V L) (ps : Pairs V L) (t : Tm V L) : ∀ (k : Nat), depth t ≤ k → evalF I k ps t = eval I ps t := by
  intro k hk
  induction hk with
  | refl => rfl
  | step hk ih => rw [evalF_step I _ ps t hk, ih]

/-! ### Sets of placeholders -/

theorem phBit_bit (n i : Nat) (hi : i < 64) : (phBit n).getLsbD i = decide (i = n) := by
  rw [phBit, BitVec.getLsbD_shiftLeft, BitVec.getLsbD_one]
  simp only [hi, decide_true, Bool.true_and, Nat.zero_lt_succ]
  rw [← decide_not, ← Bool.decide_and, decide_eq_decide]
  omega

theorem phSetPairs_bit (is : List Nat) (i : Nat) (hi : i < 64) : (phSetPairs is).getLsbD i = decide (i ∈ is) := by
  induction is with
  | nil => simp [phSetPairs]
  | cons j is ih =>
    have : phSetPairs (j :: is) = phBit j ||| phSetPairs is := rfl
    rw [this, BitVec.getLsbD_or, ih, phBit_bit j i hi]
    simp

theorem phFilter_bit (x : BitVec 64) (is : List Nat) (i : Nat) (hi : i < 64) : (phFilter x is).getLsbD i = (x.getLsbD i && decide (i ∉ is)) := by
  induction is with
  | nil => simp [phFilter]
  | cons j is ih =>
    rw [phFilter, BitVec.getLsbD_and, ih, BitVec.getLsbD_not, phBit_bit j i hi]
    simp only [hi, decide_true, Bool.true_and, List.mem_cons, not_or, Bool.decide_and]
    cases x.getLsbD i <;> simp [Bool.and_comm]

mutual
theorem phSet_bit (i : Nat) (hi : i < 64) : ∀ t : Tm V L, (phSet t).getLsbD i = decide (i ∈ fv t)
  | .val _ => by simp [phSet, fv]
  | .bor _ => by simp [phSet, fv]
  | .ref _ => by simp [phSet, fv]
  | .dead => by simp [phSet, fv]
  | .ph n => by rw [phSet, phBit_bit n i hi, fv]; simp
  | .node _ cs => by rw [phSet, fv]; exact phSets_bit i hi cs
  | .fn b is => by rw [phSet, phFilter_bit _ _ i hi, phSet_bit i hi b, fv]; simp
  | .sum b n d => by rw [phSet, BitVec.getLsbD_or, phFilter_bit _ _ i hi, phSet_bit i hi b, phSet_bit i hi d, fv]; simp
theorem phSets_bit (i : Nat) (hi : i < 64) : ∀ cs : List (Tm V L), (phSets cs).getLsbD i = decide (i ∈ fvs cs)
  | [] => by simp [phSets, fvs]
  | c :: cs => by rw [phSets, BitVec.getLsbD_or, phSet_bit i hi c, phSets_bit i hi cs, fvs]; simp
end

theorem bits_eq {x y : BitVec 64} : x = y ↔ ∀ i < 64, x.getLsbD i = y.getLsbD i :=
  ⟨fun h i _ => by rw [h], fun h => BitVec.eq_of_getLsbD_eq (fun i hi => h i hi)⟩

/-- The test for "exactly the placeholders given". -/
theorem filter_eq_iff (b : Tm V L) (n : Nat) (P : List Nat) (hP : ∀ m ∈ P, m < 64) (hb : ∀ m ∈ fv b, m < 64) :
    phFilter (phSet b) [n] = phSetPairs P ↔ ∀ m, (m ∈ fv b ∧ m ≠ n) ↔ m ∈ P := by
  rw [bits_eq]
  constructor
  · intro h m
    by_cases hm : m < 64
    · have := h m hm
      rw [phFilter_bit _ _ m hm, phSet_bit m hm, phSetPairs_bit _ m hm] at this
      have h2 : decide (m ∈ fv b ∧ m ≠ n) = decide (m ∈ P) := by rw [← this]; simp
      exact decide_eq_decide.mp h2
    · exact ⟨fun h1 => absurd (hb m h1.1) hm, fun h1 => absurd (hP m h1) hm⟩
  · intro h i hi
    rw [phFilter_bit _ _ i hi, phSet_bit i hi, phSetPairs_bit _ i hi]
    have := h i
    simp only [List.mem_singleton]
    rw [← Bool.decide_and]
    exact decide_eq_decide.mpr this

theorem filter_zero_iff (b : Tm V L) (n : Nat) (hb : ∀ m ∈ fv b, m < 64) : phFilter (phSet b) [n] = 0 ↔ ∀ m ∈ fv b, m = n := by
  have := filter_eq_iff b n [] (by simp) hb
  rw [show phSetPairs [] = 0 from rfl] at this
  rw [this]
  constructor
  · intro h m hm
    by_contra hne
    exact absurd ((h m).mp ⟨hm, hne⟩) (by simp)
  · intro h m
    simp only [List.not_mem_nil, iff_false, not_and, not_not]
    exact h m

/-! ### Ready trees -/

theorem readys_iff {P B : List Nat} {cs : List (Tm V L)} : Readys P B cs ↔ ∀ c ∈ cs, Ready P B c := by
  induction cs with
  | nil => simp [Readys]
  | cons c cs ih => simp [Readys, ih]

theorem shiftss_iff {cs : List (Tm V L)} : shiftss cs = true ↔ ∀ c ∈ cs, shifts c = true := by
  induction cs with
  | nil => simp [shiftss]
  | cons c cs ih => simp [shiftss, ih]

theorem shiftOKs_iff {P : List Nat} {cs : List (Tm V L)} : shiftOKs P cs = true ↔ ∀ c ∈ cs, shiftOK P c = true := by
  induction cs with
  | nil => simp [shiftOKs]
  | cons c cs ih => simp [shiftOKs, ih]

theorem lazyIns_iff {P : List Nat} {cs : List (Tm V L)} : lazyIns P cs = true ↔ ∃ c ∈ cs, lazyIn P c = true := by
  induction cs with
  | nil => simp [lazyIns]
  | cons c cs ih => simp [lazyIns, ih]

theorem leaf_ready {t : Tm V L} (h : IsLeaf t) (P B : List Nat) : Ready P B t := by cases t <;> simp_all [IsLeaf, Ready]
theorem leaf_fv {t : Tm V L} (h : IsLeaf t) : fv t = [] := by cases t <;> simp_all [IsLeaf, fv]
theorem leaf_bv {t : Tm V L} (h : IsLeaf t) : bv t = [] := by cases t <;> simp_all [IsLeaf, bv]
theorem leaf_apart {t : Tm V L} (h : IsLeaf t) : Apart t := by cases t <;> simp_all [IsLeaf, Apart]
theorem leaf_shifts {t : Tm V L} (h : IsLeaf t) : shifts t = true := by cases t <;> simp_all [IsLeaf, shifts]
theorem leaf_shiftOK {t : Tm V L} (h : IsLeaf t) (P : List Nat) : shiftOK P t = true := by cases t <;> simp_all [IsLeaf, shiftOK]
theorem leaf_lazy {t : Tm V L} (h : IsLeaf t) (P : List Nat) : lazyIn P t = false := by cases t <;> simp_all [IsLeaf, lazyIn]
theorem leaf_isLazy {t : Tm V L} (h : IsLeaf t) : isLazy t = false := by cases t <;> simp_all [IsLeaf, isLazy]
theorem leaf_read {I : Interp V L} {t : Tm V L} (h : IsLeaf t) {env : Env V} {v : V} (hv : den I true env t = some v) : read I t = .ok v := by
  cases t <;> simp_all [IsLeaf, read, den]

theorem leaf_evalF {I : Interp V L} {t : Tm V L} (h : IsLeaf t) (k : Nat) (ps : Pairs V L) : ∃ t', evalF I (k + 1) ps t = .ok t' ∧ IsLeaf t' := by
  cases t <;> simp_all [IsLeaf, evalF]

theorem ready_fv {P : List Nat} : ∀ {B : List Nat} {t : Tm V L}, Ready P B t → ∀ m ∈ fv t, m ∈ P ∨ m ∈ B := by
  intro B t
  revert B
  induction t using Tm.ind with
  | hval v => intro B h; simp [fv]
  | hbor v => intro B h; simp [fv]
  | href l => intro B h; simp [fv]
  | hdead => intro B h; simp [fv]
  | hph n => intro B h m hm; rw [Ready] at h; simp [fv] at hm; rw [hm]; exact h
  | hnode g cs ih =>
    intro B h m hm
    rw [Ready, readys_iff] at h
    rw [fv, fvs_mem] at hm
    obtain ⟨c, hc, hm⟩ := hm
    exact ih c hc (h c hc) m hm
  | hfn b is ih => intro B h; rw [Ready] at h; exact h.elim
  | hsum b n d ih _ =>
    intro B h m hm
    rw [Ready] at h
    obtain ⟨h1, h2, h3, h4, h5, h6⟩ := h
    rw [fv, leaf_fv h4, List.append_nil, List.mem_filter] at hm
    rcases ih h6 m hm.1 with h | h
    · exact Or.inl h
    · rcases List.mem_cons.mp h with h | h
      · simp [h] at hm
      · exact Or.inr h

theorem ready_bv {P : List Nat} : ∀ {B : List Nat} {t : Tm V L}, Ready P B t → (∀ m ∈ bv t, m ∉ P ∧ m ∉ B) ∧ Apart t := by
  intro B t
  revert B
  induction t using Tm.ind with
  | hval v => intro B h; simp [bv, Apart]
  | hbor v => intro B h; simp [bv, Apart]
  | href l => intro B h; simp [bv, Apart]
  | hdead => intro B h; simp [bv, Apart]
  | hph n => intro B h; simp [bv, Apart]
  | hnode g cs ih =>
    intro B h
    rw [Ready, readys_iff] at h
    constructor
    · intro m hm
      rw [bv, bvs_mem] at hm
      obtain ⟨c, hc, hm⟩ := hm
      exact (ih c hc (h c hc)).1 m hm
    · rw [Apart, aparts_iff]
      exact fun c hc => (ih c hc (h c hc)).2
  | hfn b is ih => intro B h; rw [Ready] at h; exact h.elim
  | hsum b n d ih _ =>
    intro B h
    rw [Ready] at h
    obtain ⟨h1, h2, h3, h4, h5, h6⟩ := h
    obtain ⟨i1, i2⟩ := ih h6
    constructor
    · intro m hm
      rw [bv, leaf_bv h4, List.append_nil, List.mem_cons] at hm
      rcases hm with rfl | hm
      · exact ⟨h1, h2⟩
      · exact ⟨(i1 m hm).1, fun h => (i1 m hm).2 (List.mem_cons_of_mem _ h)⟩
    · rw [Apart]
      exact ⟨fun hn => (i1 n hn).2 List.mem_cons_self, i2, leaf_apart h4⟩

theorem ready_shifts {P : List Nat} : ∀ {B : List Nat} {t : Tm V L}, Ready P B t → (∀ m ∈ P ++ B, m < 64) → shifts t = true := by
  intro B t
  revert B
  induction t using Tm.ind with
  | hval v => intro B h _; simp [shifts]
  | hbor v => intro B h _; simp [shifts]
  | href l => intro B h _; simp [shifts]
  | hdead => intro B h _; simp [shifts]
  | hph n => intro B h hb; rw [Ready] at h; rw [shifts]; exact decide_eq_true (hb n (by simpa using h))
  | hnode g cs ih =>
    intro B h hb
    rw [Ready, readys_iff] at h
    rw [shifts, shiftss_iff]
    exact fun c hc => ih c hc (h c hc) hb
  | hfn b is ih => intro B h; rw [Ready] at h; exact h.elim
  | hsum b n d ih _ =>
    intro B h hb
    rw [Ready] at h
    obtain ⟨h1, h2, h3, h4, h5, h6⟩ := h
    rw [shifts, ih h6 (by intro m hm; apply h3; simp at hm ⊢; tauto), leaf_shifts h4]
    simpa using h3 n List.mem_cons_self

theorem ready_shiftOK {P B : List Nat} {t : Tm V L} (h : Ready P B t) : shiftOK P t = true := by
  revert B
  induction t using Tm.ind with
  | hval v => intro B h; simp [shiftOK]
  | hbor v => intro B h; simp [shiftOK]
  | href l => intro B h; simp [shiftOK]
  | hdead => intro B h; simp [shiftOK]
  | hph n => intro B h; simp [shiftOK]
  | hnode g cs ih =>
    intro B h
    rw [Ready, readys_iff] at h
    rw [shiftOK, shiftOKs_iff]
    exact fun c hc => ih c hc (h c hc)
  | hfn b is ih => intro B h; rw [Ready] at h; exact h.elim
  | hsum b n d ih _ =>
    intro B h
    rw [Ready] at h
    obtain ⟨h1, h2, h3, h4, h5, h6⟩ := h
    rw [shiftOK, ready_shifts h6 (by intro m hm; apply h3; simp at hm ⊢; tauto), leaf_shiftOK h4]
    simp only [Bool.true_and, Bool.and_true, Bool.and_eq_true, decide_eq_true_eq, List.all_eq_true]
    exact ⟨h3 n List.mem_cons_self, fun m hm => h3 m (by simp [hm])⟩

/-- Indices on which nothing depends can be dropped. -/
theorem ready_shrink {P B2 : List Nat} : ∀ {B1 : List Nat} {t : Tm V L}, Ready P (B1 ++ B2) t → (∀ m ∈ fv t, m ∉ B2) → Ready P B1 t := by
  intro B1 t
  revert B1
  induction t using Tm.ind with
  | hval v => intro B h _; simp [Ready]
  | hbor v => intro B h _; simp [Ready]
  | href l => intro B h _; simp [Ready]
  | hdead => intro B h _; simp [Ready]
  | hph n =>
    intro B h hn
    rw [Ready] at h ⊢
    have := hn n (by simp [fv])
    simp at h
    tauto
  | hnode g cs ih =>
    intro B h hn
    rw [Ready, readys_iff] at h ⊢
    exact fun c hc => ih c hc (h c hc) (fun m hm => hn m (by rw [fv, fvs_mem]; exact ⟨c, hc, hm⟩))
  | hfn b is ih => intro B h; rw [Ready] at h; exact h.elim
  | hsum b n d ih _ =>
    intro B h hn
    rw [Ready] at h ⊢
    obtain ⟨h1, h2, h3, h4, h5, h6⟩ := h
    have hb : ∀ m ∈ fv b, m ∉ B2 := by
      intro m hm hm2
      have hne : m ≠ n := by rintro rfl; exact h2 (List.mem_append_right _ hm2)
      exact hn m (by rw [fv, List.mem_append, List.mem_filter]; exact Or.inl ⟨hm, by simpa using hne⟩) hm2
    refine ⟨h1, fun h => h2 (List.mem_append_left _ h), fun m hm => h3 m (by simp at hm ⊢; tauto), h4, ?_, ih h6 hb⟩
    rcases h5 with ⟨m, hm, hf⟩ | h5
    · rcases List.mem_append.mp hm with hm | hm
      · exact Or.inl ⟨m, hm, hf⟩
      · exact absurd hm (hb m hf)
    · exact Or.inr h5

/-! ### Progress -/

theorem decay_ok {I : Interp V L} {t : Tm V L} {env : Env V} {v : V} (h : den I true env t = some v) : ∃ t', decay I t = .ok t' := by
  cases t <;> simp_all [decay, den]

theorem decay_ready {I : Interp V L} {t t' : Tm V L} (h : decay I t = .ok t') (P B : List Nat) (hr : Ready P B t) : Ready P B t' := by
  unfold decay at h
  split at h
  · cases h; exact hr
  · cases h; simp [Ready]
  · split at h
    · cases h; simp [Ready]
    · cases h
  · cases h
  · cases h; exact hr

theorem sumLoop_ok {I : Interp V L} {f : V → Except Err (Tm V L)} {d v : V} {pts vs : List V} (hp : I.points d = some pts) (ht : total I vs = some v)
    (h : List.Forall₂ (fun p w => ∃ t, f p = .ok t ∧ read I t = .ok w) pts vs) : sumLoop I f d = .ok v := by
  unfold sumLoop
  cases h with
  | nil => simp [total] at ht
  | @cons p w ps ws h hs =>
    obtain ⟨t, e1, e2⟩ := h
    simp only [hp, bind, Except.bind, e1, e2]
    rw [total] at ht
    have key : ∀ (xs ws : List V) (s r : V), List.Forall₂ (fun p w => ∃ t, f p = .ok t ∧ read I t = .ok w) xs ws → ws.foldlM (fun s y => I.op .plus [s, y]) s = some r →
        xs.foldlM (fun res y => addTo I res (f y)) s = .ok r := by
      intro xs
      induction xs with
      | nil => intro ws s r h h2; cases h; simp at h2; subst h2; rfl
      | cons x xs ih =>
        intro ws s r h h2
        cases h with
        | cons h hs =>
          obtain ⟨u, a1, a2⟩ := h
          rw [List.foldlM_cons] at h2 ⊢
          cases ho : I.op .plus [s, _] with
          | none => rw [ho] at h2; cases h2
          | some s' =>
            rw [ho] at h2
            have : addTo I s (f x) = .ok s' := by
              simp only [addTo, bind, Except.bind, a1, a2]
              exact (operation_of_not_if (by simp) s').mpr (by simpa [apply] using ho)
            rw [this]
            exact ih _ s' r hs h2
    exact key ps ws w v hs ht

theorem den_children {I : Interp V L} {env : Env V} {g : Tag} {cs : List (Tm V L)} {v : V} (h : den I true env (.node g cs) = some v) : ∃ vs, List.Forall₂ (fun c v => den I true env c = some v) cs vs := by
  by_cases hg : g = .ifElse ∧ cs.length = 3
  · obtain ⟨rfl, hl⟩ := hg
    obtain ⟨c, a, b, rfl⟩ := length_three hl
    simp only [den, Bool.true_and] at h
    cases ha : den I true env a with
    | none => simp [ha] at h
    | some x =>
      cases hb : den I true env b with
      | none => simp [hb] at h
      | some y =>
        cases hc : den I true env c with
        | none => simp [ha, hb, hc] at h
        | some z => exact ⟨[z, x, y], .cons hc (.cons ha (.cons hb .nil))⟩
  · rw [den_node_of hg] at h
    cases hd : dens I true env cs with
    | none => rw [hd] at h; cases h
    | some vs => exact ⟨vs, dens_forall₂ hd⟩

theorem evalPh_mem {n : Nat} {ps : Pairs V L} (hd : Distinct ps) (h : n ∈ ps.map (·.1)) : ∃ a : Arg V L, (n, a) ∈ ps ∧ evalPh n ps = .ok a.toTm := by
  have hne : ps.isEmpty = false := by cases ps <;> simp_all
  cases hp : positions n 1 (ps.map (·.1)) with
  | zero => exact absurd h ((positions_eq_zero n _ 1 (by omega)).mp hp)
  | succ q =>
    obtain ⟨a, -, ha⟩ := positions_of_nodup n ps 1 q (by omega) hd hp
    rw [Nat.add_sub_cancel] at ha
    exact ⟨a, List.mem_of_getElem? ha, by simp [evalPh, hne, hp, ha]⟩

theorem evalPh_not_mem {n : Nat} {ps : Pairs V L} (h0 : ps ≠ []) (h : n ∉ ps.map (·.1)) : evalPh n ps = .ok (.ph n) := by
  have hne : ps.isEmpty = false := by cases ps <;> simp_all
  simp [evalPh, hne, (positions_eq_zero n _ 1 (by omega)).mpr h]

theorem toTm_leaf (a : Arg V L) : IsLeaf a.toTm := by cases a <;> simp [Arg.toTm, IsLeaf]

/-- What is known of the result of an evaluation. -/
structure Result (P B : List Nat) (t t' : Tm V L) : Prop where
  value : (∀ m ∈ fv t, m ∈ P) → IsLeaf t'
  next : ∀ b B', B = B' ++ [b] → Ready [b] B' t'
  free : ∀ m, m ∈ fv t' ↔ m ∈ fv t ∧ m ∉ P
  notLazy : lazyIn P t = true ↔ ∃ m ∈ fv t, m ∉ P

theorem evalF_progress (I : Interp V L) : ∀ (k : Nat) (t : Tm V L), depth t ≤ k → ∀ (ps : Pairs V L) (B : List Nat) (env : Env V) (v : V), ps ≠ [] → Distinct ps → Ready (ps.map (·.1)) B t →
    (∀ m ∈ B, m ∉ ps.map (·.1)) → B.Nodup → den I true (withPairs I env ps) t = some v → ∃ t', evalF I k ps t = .ok t' ∧ Result (ps.map (·.1)) B t t' := by
  intro k
  induction k with
  | zero => intro t h; have := depth_pos t; omega
  | succ k ih =>
    intro t hk ps B env v h0 hd hr hB hBn hv
    have leafCase : ∀ (t t' : Tm V L), IsLeaf t → IsLeaf t' → Result (ps.map (·.1)) B t t' := fun t t' h h' =>
      ⟨fun _ => h', fun b B' _ => leaf_ready h' _ _, fun m => by rw [leaf_fv h, leaf_fv h']; simp, by rw [leaf_lazy h, leaf_fv h]; simp⟩
    cases t with
    | val w => exact ⟨_, rfl, leafCase _ _ trivial trivial⟩
    | bor w => exact ⟨_, rfl, leafCase _ _ trivial trivial⟩
    | ref l => exact ⟨_, rfl, leafCase _ _ trivial trivial⟩
    | dead => exact ⟨_, rfl, leafCase _ _ trivial trivial⟩
    | ph n =>
      by_cases hn : n ∈ ps.map (·.1)
      · obtain ⟨a, -, e⟩ := evalPh_mem hd hn
        refine ⟨_, e, fun _ => toTm_leaf a, fun b B' _ => leaf_ready (toTm_leaf a) _ _, fun m => ?_, ?_⟩
        · rw [leaf_fv (toTm_leaf a)]
          simp only [fv, List.mem_singleton, List.not_mem_nil, false_iff]
          rintro ⟨rfl, h⟩
          exact h hn
        · rw [lazyIn, beq_iff_eq, positions_eq_zero n _ 1 (by omega)]
          simp [fv]
      · refine ⟨_, evalPh_not_mem h0 hn, fun h => absurd (h n (by simp [fv])) hn, fun b B' hBB => ?_, fun m => ?_, ?_⟩
        · rw [Ready] at hr ⊢
          have := hr.resolve_left hn
          rw [hBB] at this
          simpa [or_comm] using this
        · simp only [fv, List.mem_singleton]
          constructor
          · rintro rfl; exact ⟨rfl, hn⟩
          · exact fun h => h.1
        · rw [lazyIn, beq_iff_eq, positions_eq_zero n _ 1 (by omega)]
          simp [fv]
    | fn b is => rw [Ready] at hr; exact hr.elim
    | node g cs =>
      rw [depth, Nat.add_le_add_iff_right] at hk
      rw [Ready, readys_iff] at hr
      obtain ⟨vs, hvs⟩ := den_children hv
      have hch : ∀ c ∈ cs, ∃ c', evalF I k ps c = .ok c' ∧ Result (ps.map (·.1)) B c c' := by
        intro c hc
        obtain ⟨w, -, hw⟩ := forall₂_left hvs c hc
        exact ih c (depths_le hk c hc) ps B env w h0 hd (hr c hc) hB hBn hw
      obtain ⟨cs', hcs⟩ : ∃ cs', List.Forall₂ (fun c c' => evalF I k ps c = .ok c' ∧ Result (ps.map (·.1)) B c c') cs cs' := by
        clear hvs hv hr hk
        induction cs with
        | nil => exact ⟨[], .nil⟩
        | cons c cs ihc =>
          obtain ⟨c', e⟩ := hch c List.mem_cons_self
          obtain ⟨cs', es⟩ := ihc (fun d hd => hch d (List.mem_cons_of_mem _ hd))
          exact ⟨c' :: cs', .cons e es⟩
      have hm := forall₂_mapM (hcs.imp (fun _ _ h => h.1))
      have hshift : shiftOKs (ps.map (·.1)) cs = true := shiftOKs_iff.mpr (fun c hc => ready_shiftOK (hr c hc))
      have hlazy : lazyIns (ps.map (·.1)) cs = true ↔ ∃ m ∈ fvs cs, m ∉ ps.map (·.1) := by
        rw [lazyIns_iff]
        constructor
        · rintro ⟨c, hc, h⟩
          obtain ⟨c', -, -, hres⟩ := forall₂_left hcs c hc
          obtain ⟨m, hm, hn⟩ := hres.notLazy.mp h
          exact ⟨m, fvs_mem.mpr ⟨c, hc, hm⟩, hn⟩
        · rintro ⟨m, hm, hn⟩
          obtain ⟨c, hc, hm⟩ := fvs_mem.mp hm
          obtain ⟨c', -, -, hres⟩ := forall₂_left hcs c hc
          exact ⟨c, hc, hres.notLazy.mpr ⟨m, hm, hn⟩⟩
      have hev : evalF I (k + 1) ps (.node g cs) = dispatch I (lazyIns (ps.map (·.1)) cs) g cs' := by
        simp only [evalF, bind, Except.bind, hshift, hm, Bool.not_true, Bool.false_eq_true, if_false, pure, Except.pure]
      by_cases hl : lazyIns (ps.map (·.1)) cs = true
      · refine ⟨.node g cs', by rw [hev, dispatch, if_pos hl], ?_, ?_, ?_, ?_⟩
        · intro h
          obtain ⟨m, hm, hn⟩ := hlazy.mp hl
          exact absurd (h m (by rw [fv]; exact hm)) hn
        · intro b B' hBB
          rw [Ready, readys_iff]
          intro c' hc'
          obtain ⟨c, -, -, hres⟩ := forall₂_right hcs c' hc'
          exact hres.next b B' hBB
        · intro m
          rw [fv, fv, fvs_mem, fvs_mem]
          constructor
          · rintro ⟨c', hc', hm⟩
            obtain ⟨c, hc, -, hres⟩ := forall₂_right hcs c' hc'
            obtain ⟨h1, h2⟩ := (hres.free m).mp hm
            exact ⟨⟨c, hc, h1⟩, h2⟩
          · rintro ⟨⟨c, hc, h1⟩, h2⟩
            obtain ⟨c', hc', -, hres⟩ := forall₂_left hcs c hc
            exact ⟨c', hc', (hres.free m).mpr ⟨h1, h2⟩⟩
        · rw [lazyIn, fv]; exact hlazy
      · have hcl : ∀ m ∈ fvs cs, m ∈ ps.map (·.1) := by
          intro m hm
          by_contra hn
          exact hl (hlazy.mpr ⟨m, hm, hn⟩)
        have hval : List.Forall₂ (fun c' w => read I c' = .ok w) cs' vs := by
          have hsnd : List.Forall₂ (fun c c' => IsLeaf c' ∧ ∀ w, den I true (withPairs I env ps) c = some w → den I true env c' = some w) cs cs' := by
            refine forall₂_imp_mem hcs (fun c hc c' _ h => ⟨h.2.value (fun m hm => hcl m (fvs_mem.mpr ⟨c, hc, hm⟩)), fun w hw => ?_⟩)
            have hb := ready_bv (hr c hc)
            rw [(evalF_sound I true k ps c c' h.1 hd (fun n hn => (hb.1 n hn).1) hb.2).1 env, hw]
          clear hm hev hcs hv hr hch hl hlazy hshift hcl hk
          induction hvs generalizing cs' with
          | nil => cases hsnd; exact .nil
          | cons hc hcs ihc =>
            cases hsnd with
            | cons h hs => exact .cons (leaf_read h.1 (h.2 _ hc)) (ihc _ hs)
        have hop : operation I g vs = .ok v := (den_node_value hvs v).mpr hv
        refine ⟨.val v, ?_, fun _ => trivial, fun b B' _ => by simp [Ready], fun m => ?_, ?_⟩
        · rw [hev, dispatch, if_neg hl]
          simp only [bind, Except.bind, forall₂_mapM hval, hop, pure, Except.pure]
        · rw [show fv (.val v : Tm V L) = [] by simp [fv], fv]
          simp only [List.not_mem_nil, false_iff, not_and, not_not]
          exact hcl m
        · rw [lazyIn, fv]; exact hlazy
    | sum body n dom =>
      rw [depth, Nat.add_le_add_iff_right] at hk
      have hready := hr
      have hshift := ready_shiftOK hr
      rw [Ready] at hr
      obtain ⟨r1, r2, r3, r4, r5, r6⟩ := hr
      have hk1 : depth body ≤ k := by omega
      have hk2 : depth dom ≤ k := by omega
      obtain ⟨k', rfl⟩ : ∃ k', k = k' + 1 := ⟨k - 1, by have := depth_pos body; omega⟩
      simp only [den] at hv
      cases hdv : den I true (withPairs I env ps) dom with
      | none => rw [hdv] at hv; cases hv
      | some dv =>
      rw [hdv, Option.bind_some] at hv
      cases hpts : I.points dv with
      | none => rw [hpts] at hv; cases hv
      | some pts =>
      rw [hpts, Option.bind_some] at hv
      cases hvals : pts.mapM (fun p => den I true (put (withPairs I env ps) n p) body) with
      | none => rw [hvals] at hv; cases hv
      | some vals =>
      rw [hvals, Option.bind_some] at hv
      have hall := mapM_some_forall₂ hvals
      obtain ⟨p0, w0, hp0⟩ : ∃ p w, den I true (put (withPairs I env ps) n p) body = some w := by
        cases hall with
        | nil => simp [total] at hv
        | cons h _ => exact ⟨_, _, h⟩
      rw [← withPairs_set I env ps n p0 r1] at hp0
      obtain ⟨d, ed, hdl⟩ := leaf_evalF (I := I) r4 k' ps
      have hP64 : ∀ m ∈ ps.map (·.1), m < 64 := fun m hm => r3 m (by simp only [List.mem_cons, List.mem_append]; exact Or.inr (Or.inl hm))
      have hb64 : ∀ m ∈ fv body, m < 64 := by
        intro m hm
        refine r3 m ?_
        rcases ready_fv r6 m hm with h | h
        · simp only [List.mem_cons, List.mem_append]; exact Or.inr (Or.inl h)
        · simp only [List.mem_cons, List.mem_append] at h ⊢
          exact h.imp id Or.inr
      have hbs := ready_bv r6
      have hlz : lazyIn (ps.map (·.1)) (.sum body n dom : Tm V L) = true ↔ ¬ ∀ m, (m ∈ fv body ∧ m ≠ n) ↔ m ∈ ps.map (·.1) := by
        rw [lazyIn, leaf_lazy r4, Bool.or_false, bne_iff_ne, ne_eq, filter_eq_iff body n _ hP64 hb64]
      have hfree : ∀ m, m ∈ fv (.sum body n dom : Tm V L) ↔ m ∈ fv body ∧ m ≠ n := by
        intro m
        rw [fv, leaf_fv r4, List.append_nil, List.mem_filter]
        simp
      by_cases hdep : ∃ m ∈ B, m ∈ fv body
      · -- the sum waits for an enclosing index
        obtain ⟨m0, hm0, hm0f⟩ := hdep
        have hm0n : m0 ≠ n := by rintro rfl; exact r2 hm0
        have hnB : (n :: B).Nodup := List.nodup_cons.mpr ⟨r2, hBn⟩
        obtain ⟨b, eb, hres⟩ := ih body hk1 ps (n :: B) (put env n p0) w0 h0 hd r6 (by
          intro m hm
          rcases List.mem_cons.mp hm with rfl | hm
          · exact r1
          · exact hB m hm) hnB hp0
        have hsnd := (evalF_sound I true (k' + 1) ps body b eb hd (fun m hm => (hbs.1 m hm).1) hbs.2).1 (put env n p0)
        obtain ⟨b', eb'⟩ := decay_ok (hsnd.trans hp0)
        obtain ⟨-, -, -, hfvb, -⟩ := decay_spec eb'
        have hlazy : lazyIn (ps.map (·.1)) (.sum body n dom : Tm V L) = true := hlz.mpr (fun h => hB m0 hm0 ((h m0).mp ⟨hm0f, hm0n⟩))
        refine ⟨.sum b' n d, ?_, ?_, ?_, ?_, ?_⟩
        · simp only [evalF, bind, Except.bind, hshift, Bool.not_true, Bool.false_eq_true, if_false, pure, Except.pure] at eb ed ⊢
          simp only [eb, eb', ed, hlazy, if_true]
        · intro h
          exact absurd (h m0 ((hfree m0).mpr ⟨hm0f, hm0n⟩)) (hB m0 hm0)
        · intro b1 B' hBB
          rw [Ready]
          refine ⟨?_, ?_, ?_, hdl, ?_, decay_ready eb' _ _ (hres.next b1 (n :: B') (by rw [hBB]; rfl))⟩
          · intro h; apply r2; rw [hBB]; simpa using Or.inr (List.mem_singleton.mp h)
          · intro h; apply r2; rw [hBB]; exact List.mem_append_left _ h
          · intro m hm
            apply r3
            rw [hBB]
            simp only [List.mem_cons, List.mem_append, List.not_mem_nil, or_false] at hm ⊢
            tauto
          · by_cases hdep' : ∃ m ∈ B', m ∈ fv b'
            · exact Or.inl hdep'
            · refine Or.inr (fun m => ?_)
              rw [List.mem_singleton]
              have hsub : ∀ m, m ∈ fv b' → m ≠ n → m = b1 := by
                intro m hm hmn
                rw [hfvb, hres.free] at hm
                rcases ready_fv r6 m hm.1 with h | h
                · exact absurd h hm.2
                · rcases List.mem_cons.mp h with h | h
                  · exact absurd h hmn
                  · rw [hBB] at h
                    rcases List.mem_append.mp h with h | h
                    · exact absurd ⟨m, h, by rw [hfvb, hres.free]; exact hm⟩ hdep'
                    · exact List.mem_singleton.mp h
              have hm0b : m0 ∈ fv b' := by rw [hfvb, hres.free]; exact ⟨hm0f, hB m0 hm0⟩
              constructor
              · rintro ⟨h1, h2⟩; exact hsub m h1 h2
              · rintro rfl
                have := hsub m0 hm0b hm0n
                rw [← this]
                exact ⟨hm0b, hm0n⟩
        · intro m
          rw [hfree, fv, leaf_fv hdl, List.append_nil, List.mem_filter, hfvb, hres.free]
          simp only [ne_eq, decide_not, Bool.not_eq_eq_eq_not, Bool.not_true, decide_eq_false_iff_not]
          tauto
        · rw [hlazy]
          simp only [true_iff]
          exact ⟨m0, (hfree m0).mpr ⟨hm0f, hm0n⟩, hB m0 hm0⟩
      · -- the sum is done now
        have hex : ∀ m, (m ∈ fv body ∧ m ≠ n) ↔ m ∈ ps.map (·.1) := r5.resolve_left hdep
        have r6' : Ready (ps.map (·.1)) [n] body := ready_shrink (B1 := [n]) (B2 := B) r6 (fun m hm hmB => hdep ⟨m, hmB, hm⟩)
        obtain ⟨b, eb, hres⟩ := ih body hk1 ps [n] (put env n p0) w0 h0 hd r6' (by simpa using r1) (by simp) hp0
        have hsnd := fun env => (evalF_sound I true (k' + 1) ps body b eb hd (fun m hm => (hbs.1 m hm).1) hbs.2).1 env
        obtain ⟨b', eb'⟩ := decay_ok ((hsnd _).trans hp0)
        obtain ⟨hdec, -, -, hfvb, hdepb⟩ := decay_spec eb'
        have hrb : Ready [n] [] b' := decay_ready eb' _ _ (hres.next n [] rfl)
        have hfb : ∀ m ∈ fv b', m = n := by
          intro m hm
          rw [hfvb, hres.free] at hm
          by_contra hne
          exact hm.2 ((hex m).mp ⟨hm.1, hne⟩)
        have hlazy : lazyIn (ps.map (·.1)) (.sum body n dom : Tm V L) = false := by
          rw [← Bool.not_eq_true, hlz, not_not]; exact hex
        have hn64 : n < 64 := r3 n List.mem_cons_self
        have hsh : shifts b' = true := ready_shifts hrb (by simpa using hn64)
        have hfl : isLazy (.fn b' [n] : Tm V L) = false := by
          rw [isLazy, phSet, (filter_zero_iff b' n (fun m hm => by rw [hfb m hm]; exact hn64)).mpr hfb]
          rfl
        have hdd : den I true env d = some dv := by
          rw [(evalF_sound I true (k' + 1) ps dom d ed hd (by rw [leaf_bv r4]; simp) (leaf_apart r4)).1 env, hdv]
        have hloop : sumLoop I (fun x => evalF I (k' + 1) [(n, .val x)] b') dv = .ok v := by
          refine sumLoop_ok hpts hv (hall.imp ?_)
          intro p w hw
          rw [← withPairs_set I env ps n p r1] at hw
          have hb' : den I true (withPairs I env [(n, .val p)]) b' = some w := by
            rw [← hw, ← hsnd, hdec]
            congr 1
          have hdb : depth b' ≤ k' + 1 := by rw [hdepb]; exact Nat.le_trans (evalF_depth I _ ps body b eb) hk1
          obtain ⟨t, et, rt⟩ := ih b' hdb [(n, .val p)] [] env w (by simp) (by simp [Distinct]) hrb (by simp) (by simp) hb'
          have hbv := ready_bv hrb
          refine ⟨t, et, leaf_read (env := env) (rt.value (by simpa using hfb)) ?_⟩
          rw [(evalF_sound I true (k' + 1) _ b' t et (by simp [Distinct]) (fun m hm => (hbv.1 m hm).1) hbv.2).1 env, hb']
        refine ⟨.val v, ?_, fun _ => trivial, fun b B' _ => by simp [Ready], fun m => ?_, ?_⟩
        · have : evalF I (k' + 1 + 1) ps (.sum body n dom) = sumNode I (fun x => evalF I (k' + 1) [(n, .val x)] b') b' n d := by
            rw [evalF]
            simp only [bind, Except.bind, hshift, Bool.not_true, Bool.false_eq_true, if_false, pure, Except.pure, eb, eb', ed, hlazy]
          rw [this, sumNode, hsh, hfl, leaf_isLazy hdl]
          simp only [hn64, decide_true, Bool.and_self, Bool.not_true, Bool.false_eq_true, if_false, Bool.or_self, bind, Except.bind, leaf_read hdl hdd, hloop, pure, Except.pure]
        · rw [hfree, show fv (.val v : Tm V L) = [] by simp [fv]]
          simp only [List.not_mem_nil, false_iff, not_and, not_not]
          exact fun h => (hex m).mp h
        · rw [hlazy]
          simp only [Bool.false_eq_true, false_iff, not_exists, not_and, not_not]
          intro m hm
          exact (hex m).mp ((hfree m).mp hm)

end Nda.Clef
