import Verif.Lemmas.ClefLazy
import Verif.Props.Clef
/-!
# C47, C48: placeholders that are given expressions
-/
namespace Nda.Clef
open Nda.Clef.Spec

variable {V L : Type}

/-- C47.  With ordinary values this evaluator gives what the one of `Model/Clef.lean` gives. -/
theorem C47_lazy_agrees (I : Interp V L) (K : Kinds V L) (ps : Pairs V L) (t t' : Tm V L) (h : eval I ps t = .ok t') : evalL I K (liftPairs ps) t = .ok t' :=
  evalLF_lift I K (depth t) _ ps t t' (Nat.le_add_right _ _) h

/-- Evaluation in stages. -/
def stagesL (I : Interp V L) (K : Kinds V L) : List (LPairs V L) → Tm V L → Except Err (Tm V L)
  | [], t => .ok t
  | ps :: qs, t => do
    let t' ← evalL I K ps t
    stagesL I K qs t'

theorem stagesL_sound {I : Interp V L} {K : Kinds V L} : ∀ {qs : List (LPairs V L)} {t t' : Tm V L} {B : List Nat}, stagesL I K qs t = .ok t' → (∀ n ∈ bv t, n ∈ B) → CleanAll B qs → Apart t →
    ∀ env, den I false env t' = den I false (withAll I env qs) t
  | [], t, t', B, h, _, _, _, env => by rw [stagesL] at h; cases h; rfl
  | ps :: qs, t, t', B, h, hB, hc, ha, env => by
    simp only [stagesL, bind, Except.bind] at h
    cases he : evalL I K ps t with
    | error e => simp only [he] at h; cases h
    | ok t1 =>
      simp only [he] at h
      obtain ⟨s1, s2, s3⟩ := evalLF_sound I K _ ps t t1 he (clean_children hc.1 hB) ha
      rw [stagesL_sound h (B := B ++ bvArgs ps) (fun n hn => by rw [List.mem_append]; exact (s2 n hn).imp (hB n) id) hc.2 s3 env, s1, withAll]

/-- C48, substitution.  Placeholders can be given expressions, in any number of stages, expressions for the placeholders of expressions: what comes out means the original expression with the
placeholders standing for what the expressions given mean.  All trees, with sums, conditionals and calls, as long as nothing is captured. -/
theorem C48_substitute (I : Interp V L) (K : Kinds V L) (qs : List (LPairs V L)) (t t' : Tm V L) (h : stagesL I K qs t = .ok t') (hc : CleanAll (bv t) qs) (ha : Apart t) (env : Env V) :
    den I false env t' = den I false (withAll I env qs) t := stagesL_sound h (fun _ h => h) hc ha env

/-- C47, C48.  If evaluation in stages ends in an ordinary value, it is the value of the ordinary expression. -/
theorem C48_substitute_value (I : Interp V L) (K : Kinds V L) (qs : List (LPairs V L)) (t : Tm V L) (v : V) (h : Gives I (stagesL I K qs t) v) (hc : CleanAll (bv t) qs) (ha : Apart t) (env : Env V) :
    den I false (withAll I env qs) t = some v := by
  obtain ⟨t', e, r⟩ := h
  rw [← C48_substitute I K qs t t' e hc ha env]
  exact den_read r

/-! ### Evaluation succeeds -/

theorem straights_iff {I : Interp V L} {K : Kinds V L} {cs : List (Tm V L)} : Straights I K cs ↔ ∀ c ∈ cs, Straight I K c := by
  induction cs with
  | nil => simp [Straights]
  | cons c cs ih => simp [Straights, ih]

/-- What a node needs besides its operands. -/
def HeadOK (I : Interp V L) (K : Kinds V L) (g : Tag) (cs : List (Tm V L)) : Prop :=
  (g ≠ .ifElse) ∧ (g = .terminal → ∃ c, cs = [c]) ∧ (g = .function ∨ g = .subscript → ∃ h as v, cs = h :: as ∧ read I h = .ok v ∧ K.lazyCall v = true)

theorem straight_node {I : Interp V L} {K : Kinds V L} {g : Tag} {cs : List (Tm V L)} : Straight I K (.node g cs) ↔ HeadOK I K g cs ∧ Straights I K cs := by
  cases g <;> simp [Straight, HeadOK]

theorem mapM_ok {α β ε : Type} {f : α → Except ε β} : ∀ {l : List α}, (∀ a ∈ l, ∃ b, f a = .ok b) → ∃ l', l.mapM f = .ok l'
  | [], _ => ⟨[], rfl⟩
  | a :: l, h => by
    obtain ⟨b, e⟩ := h a (by simp)
    obtain ⟨l', e'⟩ := mapM_ok (l := l) (fun c hc => h c (by simp [hc]))
    exact ⟨b :: l', by simp only [List.mapM_cons, bind, Except.bind, pure, Except.pure, e, e']⟩

theorem forall₂_trans {α β γ : Type} {R : α → β → Prop} {S : α → γ → Prop} {T : β → γ → Prop} (h : ∀ a b c, R a b → S a c → T b c) :
    ∀ {l : List α} {m : List β} {n : List γ}, List.Forall₂ R l m → List.Forall₂ S l n → List.Forall₂ T m n
  | _, _, _, .nil, .nil => .nil
  | _, _, _, .cons h1 hs1, .cons h2 hs2 => .cons (h _ _ _ h1 h2) (forall₂_trans h hs1 hs2)

theorem straight_plain {I : Interp V L} {K : Kinds V L} {t : Tm V L} (h : Straight I K t) : Plain t := by
  induction t using Tm.ind with
  | hnode g cs ih =>
    rw [Plain, plains_iff]
    exact fun c hc => ih c hc (straights_iff.mp (straight_node.mp h).2 c hc)
  | hfn b is ih => simp [Straight] at h
  | hsum b n d ihb ihd => simp [Straight] at h
  | _ => simp [Plain]

theorem straight_strict {I : Interp V L} {K : Kinds V L} {t : Tm V L} (h : Straight I K t) (env : Env V) : den I true env t = den I false env t := by
  induction t using Tm.ind with
  | hnode g cs ih =>
    obtain ⟨h1, h2⟩ := straight_node.mp h
    rw [den_node_of (by rintro ⟨rfl, -⟩; exact h1.1 rfl), den_node_of (by rintro ⟨rfl, -⟩; exact h1.1 rfl)]
    congr 1
    have : ∀ cs : List (Tm V L), (∀ c ∈ cs, den I true env c = den I false env c) → dens I true env cs = dens I false env cs := by
      intro cs
      induction cs with
      | nil => intro _; rfl
      | cons c cs ih => intro h; rw [dens, dens, h c (by simp), ih (fun d hd => h d (by simp [hd]))]
    exact this cs (fun c hc => ih c hc (straights_iff.mp h2 c hc))
  | hfn b is ih => simp [Straight] at h
  | hsum b n d ihb ihd => simp [Straight] at h
  | _ => simp [den]

theorem straight_leaf {I : Interp V L} {K : Kinds V L} {t : Tm V L} (h : Straight I K t) (hl : isLazy t = false) : IsLeaf t := by
  cases t <;> simp_all [isLazy, IsLeaf, Straight]

theorem leaf_straight {I : Interp V L} {K : Kinds V L} {t : Tm V L} (h : IsLeaf t) : Straight I K t := by
  cases t <;> simp_all [IsLeaf, Straight]

theorem arg_straight {I : Interp V L} {K : Kinds V L} (a : Arg V L) : Straight I K a.toTm := leaf_straight (toTm_leaf a)

theorem evalLF_leaf {I : Interp V L} {K : Kinds V L} {h h' : Tm V L} {v : V} {k : Nat} {ps : LPairs V L} (hr : read I h = .ok v) (e : evalLF I K k ps h = .ok h') : read I h' = .ok v ∧ IsLeaf h' := by
  have hl := read_not_lazy hr
  cases k with
  | zero => cases e
  | succ k => cases h <;> simp_all [evalLF, IsLeaf] <;> subst e <;> simp_all [read, IsLeaf]

theorem evalPhL_ok {n : Nat} {ps : LPairs V L} (h0 : ps ≠ []) (hd : (ps.map (·.1)).Nodup) : ∃ t, evalPhL n ps = .ok t := by
  unfold evalPhL
  have : ps.isEmpty = false := by cases ps <;> simp_all
  rw [this]
  simp only [Bool.false_eq_true, if_false]
  cases hp : positions n 1 (ps.map (·.1)) with
  | zero => exact ⟨_, rfl⟩
  | succ q =>
    obtain ⟨a, -, ha⟩ := positions_of_nodup n ps 1 q (by omega) hd hp
    rw [Nat.add_sub_cancel] at ha
    simp only [ha]
    exact ⟨_, rfl⟩

/-- Operators and calls of values and expressions: evaluation gives an expression of the same kind, whose placeholders are those that were not given and those of what was given. -/
theorem evalLF_progress (I : Interp V L) (K : Kinds V L) (ps : LPairs V L) (h0 : ps ≠ []) (hd : (ps.map (·.1)).Nodup) (hs : ∀ p ∈ ps, Straight I K p.2.toTm) (env : Env V) :
    ∀ (k : Nat) (t : Tm V L) (v : V), depth t ≤ k → Straight I K t → den I false (withL I env ps) t = some v →
    ∃ t', evalLF I K k ps t = .ok t' ∧ Straight I K t' ∧ ∀ m ∈ fv t', (m ∈ fv t ∧ m ∉ ps.map (·.1)) ∨ ∃ p ∈ ps, m ∈ fv p.2.toTm := by
  have hclean : ∀ t, Straight I K t → Clean (bv t) ps ∧ Apart t := by
    intro t ht
    obtain ⟨hb, ha⟩ := plain_bv (straight_plain ht)
    rw [hb]
    exact ⟨⟨hd, by simp, fun p hp => ⟨(plain_bv (straight_plain (hs p hp))).2, by simp⟩⟩, ha⟩
  intro k
  induction k with
  | zero => intro t v h; have := depth_pos t; omega
  | succ k ih =>
    intro t v hk ht hv
    cases t with
    | val w => exact ⟨_, rfl, by simp [Straight], by simp [fv]⟩
    | bor w => exact ⟨_, rfl, by simp [Straight], by simp [fv]⟩
    | ref l => exact ⟨_, rfl, by simp [Straight], by simp [fv]⟩
    | dead => exact ⟨_, rfl, by simp [Straight], by simp [fv]⟩
    | ph n =>
      obtain ⟨t', e⟩ := evalPhL_ok (n := n) h0 hd
      refine ⟨t', by rw [evalLF]; exact e, ?_⟩
      rcases evalPhL_spec hd e with ⟨hn, rfl⟩ | ⟨a, ha, rfl⟩
      · refine ⟨by simp [Straight], fun m hm => Or.inl ⟨hm, ?_⟩⟩
        have : m = n := by simpa [fv] using hm
        rw [this]; exact hn
      · exact ⟨hs _ ha, fun m hm => Or.inr ⟨_, ha, hm⟩⟩
    | fn b is => simp [Straight] at ht
    | sum b n d => simp [Straight] at ht
    | node g cs =>
      obtain ⟨hh, hcs⟩ := straight_node.mp ht
      rw [straights_iff] at hcs
      have hdn := hv
      rw [den_node_of (by rintro ⟨rfl, -⟩; exact hh.1 rfl)] at hdn
      obtain ⟨vs, hvs, -⟩ := Option.bind_eq_some_iff.mp hdn
      have hvs := dens_forall₂ hvs
      rw [depth, Nat.add_le_add_iff_right] at hk
      have hex : ∀ c ∈ cs, ∃ c', evalLF I K k ps c = .ok c' := by
        intro c hc
        obtain ⟨w, -, hw⟩ := forall₂_left hvs c hc
        obtain ⟨c', e, -⟩ := ih c w (depths_le hk c hc) (hcs c hc) hw
        exact ⟨c', e⟩
      obtain ⟨cs', hm⟩ : ∃ cs', cs.mapM (evalLF I K k ps) = .ok cs' := mapM_ok hex
      have hf := mapM_forall₂ hm
      have hall := forall₂_imp_mem (S := fun c c' => Straight I K c' ∧ (∀ m ∈ fv c', (m ∈ fv c ∧ m ∉ ps.map (·.1)) ∨ ∃ p ∈ ps, m ∈ fv p.2.toTm) ∧ den I false env c' = den I false (withL I env ps) c) hf
        (fun c hc c' _ e => by
          obtain ⟨w, -, hw⟩ := forall₂_left hvs c hc
          obtain ⟨c'', e'', h1, h2⟩ := ih c w (depths_le hk c hc) (hcs c hc) hw
          rw [e] at e''; cases e''
          exact ⟨h1, h2, (evalLF_sound I K k ps c c' e (hclean c (hcs c hc)).1 (hclean c (hcs c hc)).2).1 env⟩)
      have hcs' : Straights I K cs' := straights_iff.mpr (fun c' hc' => by obtain ⟨c, -, h1, -⟩ := forall₂_right hall c' hc'; exact h1)
      have hfv : ∀ m ∈ fvs cs', (m ∈ fvs cs ∧ m ∉ ps.map (·.1)) ∨ ∃ p ∈ ps, m ∈ fv p.2.toTm := by
        intro m hm
        obtain ⟨c', hc', hmc⟩ := fvs_mem.mp hm
        obtain ⟨c, hc, -, h2, -⟩ := forall₂_right hall c' hc'
        exact (h2 m hmc).imp (fun h => ⟨fvs_mem.mpr ⟨c, hc, h.1⟩, h.2⟩) id
      have hhead : HeadOK I K g cs' := by
        refine ⟨hh.1, fun hg => ?_, fun hg => ?_⟩
        · obtain ⟨c, rfl⟩ := hh.2.1 hg
          cases hf with
          | cons _ hf => cases hf; exact ⟨_, rfl⟩
        · obtain ⟨h, as, w, rfl, hr, hz⟩ := hh.2.2 hg
          cases hf with
          | cons e hf => exact ⟨_, _, w, rfl, (evalLF_leaf hr e).1, hz⟩
      have hnode : Straight I K (.node g cs') := straight_node.mpr ⟨hhead, hcs'⟩
      have hshift : shiftOKs (ps.map (·.1)) cs = true := by
        have := ready_shiftOK (plain_ready (P := ps.map (·.1)) (B := fv (.node g cs : Tm V L)) (straight_plain ht) (fun m hm => Or.inr hm))
        simpa [shiftOK] using this
      rw [evalLF]
      simp only [hshift, Bool.not_true, Bool.false_eq_true, if_false, bind, Except.bind, pure, Except.pure, hm]
      have hfvn : ∀ m ∈ fv (.node g cs' : Tm V L), (m ∈ fv (.node g cs : Tm V L) ∧ m ∉ ps.map (·.1)) ∨ ∃ p ∈ ps, m ∈ fv p.2.toTm := by simpa [fv] using hfv
      unfold dispatchL
      split
      · -- a node is built again
        have hcall : ∀ h as w, read I h = .ok w → K.lazyCall w = true → rebuild.callLazy I K g h as = .ok (.node g (h :: as)) := by
          intro h as w hr hz
          unfold rebuild.callLazy
          rw [leaf_isLazy (read_not_lazy hr)]
          simp only [Bool.false_eq_true, if_false, bind, Except.bind, hr, hz, if_true, pure, Except.pure]
        by_cases hgt : g = .terminal
        · obtain ⟨c', rfl⟩ := hhead.2.1 hgt
          subst hgt
          refine ⟨c', rfl, by simpa [Straights] using hcs', fun m hm => hfvn m (by simpa [fv, fvs] using hm)⟩
        · refine ⟨_, ?_, hnode, hfvn⟩
          by_cases hgf : g = .function ∨ g = .subscript
          · obtain ⟨h, as, w, rfl, hr, hz⟩ := hhead.2.2 hgf
            have hl := read_not_lazy hr
            have := hcall h as w hr hz
            rcases hgf with rfl | rfl
            · rw [← this]
              cases h <;> simp_all [IsLeaf, rebuild]
            · rw [← this]
              cases h <;> simp_all [IsLeaf, rebuild]
          · have := hhead.1
            cases g <;> simp_all [rebuild]
      · rename_i hz
        unfold dispatch
        split
        · exact ⟨_, rfl, hnode, hfvn⟩
        · rename_i hlz
          have hnl : ∀ c ∈ cs', isLazy c = false := by
            have hz : ¬ (cs'.any isLazy = true) := by simpa [hlz] using hz
            intro c hc
            by_contra hcl
            exact hz (List.any_eq_true.mpr ⟨c, hc, by simpa using hcl⟩)
          have hval : List.Forall₂ (fun c w => den I false env c = some w) cs' vs := forall₂_trans (fun a b c h h' => h.2.2.trans h') hall hvs
          have hrd : cs'.mapM (read I) = .ok vs := forall₂_mapM (forall₂_imp_mem hval (fun c hc w _ hw => by
            have hst := straights_iff.mp hcs' c hc
            exact leaf_read (straight_leaf hst (hnl c hc)) ((straight_strict hst env).trans hw)))
          simp only [bind, Except.bind, hrd]
          have hden : den I false env (.node g cs') = some v := by
            rw [← hv]; exact den_node_congr g (hall.imp (fun _ _ h => h.2.2))
          rw [(den_node_value hval v).mpr hden]
          exact ⟨_, rfl, by simp [Straight], by simp [fv]⟩

/-- C48, substitution.  In expressions of operators and calls, giving expressions first and then values for the placeholders left gives a value exactly when the ordinary expression has it.
Missing: conditionals (`C48_lazy_if_witness`), sums, objects without lazy calls (`C48_lazy_call_witness`). -/
theorem C48_substitute_partial (I : Interp V L) (K : Kinds V L) (ps : LPairs V L) (qs : Pairs V L) (t : Tm V L) (v : V) (h0 : ps ≠ []) (hd : (ps.map (·.1)).Nodup) (hq0 : qs ≠ []) (hqd : Distinct qs)
    (ht : Straight I K t) (hs : ∀ p ∈ ps, Straight I K p.2.toTm) (hf : ∀ m ∈ fv t, m ∈ ps.map (·.1) ∨ m ∈ qs.map (·.1)) (hfa : ∀ p ∈ ps, ∀ m ∈ fv p.2.toTm, m ∈ qs.map (·.1)) (env : Env V) :
    (∃ t', evalL I K ps t = .ok t' ∧ Gives I (eval I qs t') v) ↔ den I false (withL I (withPairs I env qs) ps) t = some v := by
  obtain ⟨hb, ha⟩ := plain_bv (straight_plain ht)
  have hclean : Clean (bv t) ps := by
    rw [hb]
    exact ⟨hd, by simp, fun p hp => ⟨(plain_bv (straight_plain (hs p hp))).2, by simp⟩⟩
  constructor
  · rintro ⟨t', e, hg⟩
    obtain ⟨s1, s2, s3⟩ := evalLF_sound I K _ ps t t' e hclean ha
    rw [← s1]
    have hbt : bv t' = [] := by
      refine List.eq_nil_iff_forall_not_mem.mpr (fun n hn => ?_)
      rcases s2 n hn with h | h
      · rw [hb] at h; cases h
      · obtain ⟨p, hp, hq⟩ := bvArgs_mem.mp h
        rw [(plain_bv (straight_plain (hs p hp))).1] at hq
        cases hq
    exact C47_value I qs t' v hqd (by rw [hbt]; simp) s3 hg env
  · intro hv
    obtain ⟨t', e, h1, h2⟩ := evalLF_progress I K ps h0 hd hs (withPairs I env qs) (depth t + depthArgs ps) t v (Nat.le_add_right _ _) ht hv
    obtain ⟨s1, -, -⟩ := evalLF_sound I K _ ps t t' e hclean ha
    refine ⟨t', e, (C47_plain_partial I qs t' v hq0 hqd (straight_plain h1) (fun m hm => ?_) env).mpr ?_⟩
    · rcases h2 m hm with ⟨h3, h4⟩ | ⟨p, hp, h3⟩
      · exact (hf m h3).resolve_left h4
      · exact hfa p hp m h3
    · rw [straight_strict h1, s1, hv]

/-! ### Examples -/

/-- Integers; only 7 can be called with expressions. -/
def intKinds : Kinds Int Nat := ⟨fun _ => 0, fun _ => 0, fun v => v == 7⟩

/-- `eval(eval(x_ * 3 - (y_ + z), x_ = y_ * y_, y_ = w_ + 1), y_ = 5, w_ = 2)`: the expressions are given at once, the `y_` in the first is not that of the second. -/
example : ∃ t', evalL ints intKinds [(0, .lazy (.node .multiplies [.ph 1, .ph 1])), (1, .lazy (.node .plus [.ph 2, .val 1]))] sample = .ok t' ∧
    result ints (eval ints [(1, .val 5), (2, .val 2)] t') = .ok 62 := ⟨_, rfl, by decide +kernel⟩

example : Straight ints intKinds sample ∧ (∀ p ∈ ([(0, .lazy (.node .multiplies [.ph 1, .ph 1])), (1, .plain (.val 2))] : LPairs Int Nat), Straight ints intKinds p.2.toTm) := by
  simp [Straight, Straights, sample, LArg.toTm, Arg.toTm]

/-- A sum whose bound is given an expression, in two stages. -/
example : CleanAll (bv (.sum (.node .multiplies [.ph 0, .ph 1]) 0 (.val 3) : Tm Int Nat)) ([[(1, .lazy (.node .plus [.ph 2, .val 1]))], [(2, .plain (.val 4))]] : List (LPairs Int Nat)) ∧
    result ints (stagesL ints intKinds [[(1, .lazy (.node .plus [.ph 2, .val 1]))], [(2, .plain (.val 4))]] (.sum (.node .multiplies [.ph 0, .ph 1]) 0 (.val 3))) = .ok 15 := by
  constructor
  · simp [CleanAll, Clean, bv, bvs, bvArgs, LArg.toTm, Arg.toTm, Apart, Aparts, fv, fvs]
  · decide +kernel

/-! ### Disagreements -/

/-- C48, witness.  `eval(if_else(x_, 1, 2), x_ = y_)` is rejected by the compiler, although `eval(if_else(x_, 1, z_), x_ = y_)` is not. -/
theorem C48_lazy_if_witness : evalL ints intKinds [(0, .lazy (.ph 1))] (.node .ifElse [.ph 0, .val 1, .val 2]) = .error .illFormed ∧
    ∃ t', evalL ints intKinds [(0, .lazy (.ph 1))] (.node .ifElse [.ph 0, .val 1, .ph 2]) = .ok t' ∧ result ints (eval ints [(1, .val 1), (2, .val 5)] t') = .ok 1 :=
  ⟨rfl, _, rfl, by decide +kernel⟩

/-- C48, witness.  For an object without lazy calls `f`, `eval(e, x_ = y_)` is rejected for `e` the expression of `f(x_)`. -/
theorem C48_lazy_call_witness : evalL ints intKinds [(0, .lazy (.ph 1))] (.node .function [.val 3, .ph 0]) = .error .illFormed ∧
    ∃ t', evalL ints intKinds [(0, .lazy (.ph 1))] (.node .function [.val 7, .ph 0]) = .ok t' := ⟨rfl, _, rfl⟩

/-- C48, witness: capture.  `eval(sum(x_ * y_, x_ = 3), y_ = x_)` sums `x_ * x_`: 5 for any `x_`, although 3 x_ is meant. -/
theorem C48_lazy_capture_witness : ∃ t', evalL ints intKinds [(1, .lazy (.ph 0))] (.sum (.node .multiplies [.ph 0, .ph 1]) 0 (.val 3)) = .ok t' ∧
    result ints (.ok t') = .ok 5 ∧
    den ints false (withL ints (withPairs ints (fun _ => none) [(0, .val 4)]) [(1, .lazy (.ph 0))]) (.sum (.node .multiplies [.ph 0, .ph 1]) 0 (.val 3)) = some 12 :=
  ⟨_, rfl, by decide +kernel, by decide +kernel⟩

end Nda.Clef
