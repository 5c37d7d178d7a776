import Verif.Spec.ClefLazy
import Verif.Lemmas.ClefMore
/-!
# Lemmas on lazy expressions: placeholders that are given expressions
-/
namespace Nda.Clef
open Nda.Clef.Spec

variable {V L : Type}

/-! ### Values only -/

/-- Ordinary pairs. -/
def liftPairs (ps : Pairs V L) : LPairs V L := ps.map (fun p => (p.1, .plain p.2))

theorem lift_names (ps : Pairs V L) : (liftPairs ps).map (·.1) = ps.map (·.1) := by simp [liftPairs]

theorem evalPhL_lift (n : Nat) (ps : Pairs V L) : evalPhL n (liftPairs ps) = evalPh n ps := by
  unfold evalPhL evalPh
  rw [lift_names]
  have : (liftPairs ps).isEmpty = ps.isEmpty := by cases ps <;> rfl
  rw [this]
  split
  · rfl
  · cases positions n 1 (ps.map (·.1)) with
    | zero => rfl
    | succ p =>
      simp only [liftPairs, List.getElem?_map]
      cases ps[p]? <;> rfl

theorem read_not_lazy {I : Interp V L} {t : Tm V L} {v : V} (h : read I t = .ok v) : IsLeaf t := by
  cases t <;> simp_all [read, IsLeaf]

theorem dispatchL_of {I : Interp V L} {K : Kinds V L} {lz : Bool} {g : Tag} {cs : List (Tm V L)} {t : Tm V L} (h : dispatch I lz g cs = .ok t) : dispatchL I K lz g cs = .ok t := by
  unfold dispatchL
  split
  · rename_i hl
    rw [Bool.and_eq_true] at hl
    obtain ⟨h1, h2⟩ := hl
    have h1 : lz = false := by simpa using h1
    subst h1
    simp only [dispatch, Bool.false_eq_true, if_false, bind, Except.bind] at h
    cases hv : cs.mapM (read I) with
    | error e => rw [hv] at h; cases h
    | ok vs =>
      obtain ⟨c, hc, hcl⟩ := List.any_eq_true.mp h2
      obtain ⟨v, -, hr⟩ := forall₂_left (mapM_forall₂ hv) c hc
      rw [leaf_isLazy (read_not_lazy hr)] at hcl
      cases hcl
  · exact h

theorem sumLoop_mono {I : Interp V L} {f g : V → Except Err (Tm V L)} (hfg : ∀ x t, f x = .ok t → g x = .ok t) {d v : V} (h : sumLoop I f d = .ok v) : sumLoop I g d = .ok v := by
  unfold sumLoop at h ⊢
  split at h
  · cases h
  · cases h
  · rename_i x xs hp
    simp only [bind, Except.bind] at h ⊢
    cases hx : f x with
    | error e => rw [hx] at h; cases h
    | ok t =>
      rw [hx] at h
      rw [hfg x t hx]
      cases hr : read I t with
      | error e => simp only [hr] at h; cases h
      | ok w =>
        simp only [hr] at h ⊢
        clear hx hr hp
        induction xs generalizing w with
        | nil => exact h
        | cons y ys ih =>
          rw [List.foldlM_cons] at h ⊢
          simp only [bind, Except.bind] at h ⊢
          cases ha : addTo I w (f y) with
          | error e => rw [ha] at h; cases h
          | ok s =>
            rw [ha] at h
            have : addTo I w (g y) = .ok s := by
              simp only [addTo, bind, Except.bind] at ha ⊢
              cases hy : f y with
              | error e => rw [hy] at ha; cases ha
              | ok u => rw [hy] at ha; rw [hfg y u hy]; exact ha
            rw [this]
            exact ih s h

theorem sumNode_mono {I : Interp V L} {f g : V → Except Err (Tm V L)} (hfg : ∀ x t, f x = .ok t → g x = .ok t) {b d t : Tm V L} {n : Nat} (h : sumNode I f b n d = .ok t) : sumNode I g b n d = .ok t := by
  unfold sumNode at h ⊢
  split
  · rename_i hs; rw [if_pos hs] at h; cases h
  · rename_i hs
    rw [if_neg hs] at h
    split
    · rename_i hl; rw [if_pos hl] at h; exact h
    · rename_i hl
      rw [if_neg hl] at h
      simp only [bind, Except.bind] at h ⊢
      cases hr : read I d with
      | error e => rw [hr] at h; cases h
      | ok dv =>
        simp only [hr] at h ⊢
        cases hq : sumLoop I f dv with
        | error e => rw [hq] at h; cases h
        | ok v => rw [hq] at h; rw [sumLoop_mono hfg hq]; exact h

theorem mapM_mono {α β ε : Type} {f g : α → Except ε β} {l : List α} {l' : List β} (hfg : ∀ x ∈ l, ∀ t, f x = .ok t → g x = .ok t) (h : l.mapM f = .ok l') : l.mapM g = .ok l' :=
  forall₂_mapM (forall₂_imp_mem (mapM_forall₂ h) (fun a ha b _ e => hfg a ha b e))

/-- With ordinary pairs, the evaluators agree. -/
theorem evalLF_lift (I : Interp V L) (K : Kinds V L) : ∀ (k k' : Nat) (ps : Pairs V L) (t t' : Tm V L), k ≤ k' → evalF I k ps t = .ok t' → evalLF I K k' (liftPairs ps) t = .ok t' := by
  intro k
  induction k with
  | zero => intro k' ps t t' _ h; cases h
  | succ k ih =>
    intro k' ps t t' hk h
    obtain ⟨k', rfl⟩ : ∃ j, k' = j + 1 := ⟨k' - 1, by omega⟩
    have hk : k ≤ k' := by omega
    cases t with
    | val v => exact h
    | bor v => exact h
    | ref l => exact h
    | dead => exact h
    | ph n => simp only [evalF] at h; simp only [evalLF]; rw [evalPhL_lift]; exact h
    | node g cs =>
      simp only [evalF, bind, Except.bind, throw, throwThe, MonadExceptOf.throw, pure, Except.pure] at h
      simp only [evalLF, bind, Except.bind, throw, throwThe, MonadExceptOf.throw, pure, Except.pure, lift_names]
      split at h
      · cases h
      · rename_i hs
        rw [if_neg hs]
        cases hm : cs.mapM (evalF I k ps) with
        | error e => simp only [hm] at h; cases h
        | ok cs' =>
          simp only [hm] at h
          rw [mapM_mono (g := evalLF I K k' (liftPairs ps)) (fun c _ t e => ih k' ps c t hk e) hm]
          exact dispatchL_of h
    | fn body is =>
      simp only [evalF, bind, Except.bind, pure, Except.pure] at h
      simp only [evalLF, bind, Except.bind, pure, Except.pure]
      cases hb1 : evalF I k ps body with
      | error e => simp only [hb1] at h; cases h
      | ok b => rw [hb1] at h; rw [ih k' ps body b hk hb1]; exact h
    | sum body n dom =>
      simp only [evalF, bind, Except.bind, throw, throwThe, MonadExceptOf.throw, pure, Except.pure] at h
      simp only [evalLF, bind, Except.bind, throw, throwThe, MonadExceptOf.throw, pure, Except.pure, lift_names]
      split at h
      · cases h
      rename_i hs
      rw [if_neg hs]
      cases hb1 : evalF I k ps body with
      | error e => simp only [hb1] at h; cases h
      | ok b =>
        rw [hb1] at h
        rw [ih k' ps body b hk hb1]
        simp only at h ⊢
        cases hb2 : decay I b with
        | error e => simp only [hb2] at h; cases h
        | ok b' =>
          simp only [hb2] at h ⊢
          cases hd1 : evalF I k ps dom with
          | error e => simp only [hd1] at h; cases h
          | ok d =>
            rw [hd1] at h
            rw [ih k' ps dom d hk hd1]
            simp only at h ⊢
            split
            · rename_i hl; rw [if_pos hl] at h; exact h
            · rename_i hl; rw [if_neg hl] at h
              exact sumNode_mono (fun x t e => ih k' [(n, .val x)] b' t hk e) h

/-! ### The meaning is kept -/

theorem withL_mem (I : Interp V L) (env : Env V) : ∀ {ps : LPairs V L} {n : Nat} {a : LArg V L}, (ps.map (·.1)).Nodup → (n, a) ∈ ps → withL I env ps n = argValL I env a
  | [], _, _, _, h => by cases h
  | (i, b) :: ps, n, a, hd, h => by
    rw [List.map_cons, List.nodup_cons] at hd
    rcases List.mem_cons.mp h with h | h
    · cases h; simp [withL]
    · rw [withL, if_neg, withL_mem I env hd.2 h]
      rintro rfl
      exact hd.1 (List.mem_map.mpr ⟨(n, a), ‹_›, rfl⟩)

theorem withL_not_mem (I : Interp V L) (env : Env V) : ∀ {ps : LPairs V L} {n : Nat}, n ∉ ps.map (·.1) → withL I env ps n = env n
  | [], _, _ => rfl
  | (i, b) :: ps, n, h => by
    rw [List.map_cons, List.mem_cons, not_or] at h
    rw [withL, if_neg h.1, withL_not_mem I env h.2]

theorem argValL_eq (I : Interp V L) (env : Env V) (a : LArg V L) : argValL I env a = den I false env a.toTm := by
  cases a with
  | plain a => rw [argValL, LArg.toTm, den_toTm]
  | lazy t => rfl

theorem withL_put (I : Interp V L) (env : Env V) (ps : LPairs V L) (n : Nat) (v : V) (hd : (ps.map (·.1)).Nodup) (h : n ∉ ps.map (·.1)) (hf : ∀ p ∈ ps, n ∉ fv p.2.toTm) :
    withL I (put env n v) ps = put (withL I env ps) n v := by
  funext m
  by_cases hm : m ∈ ps.map (·.1)
  · obtain ⟨⟨m', a⟩, hmem, rfl⟩ := List.mem_map.mp hm
    have hne : m' ≠ n := fun e => h (e ▸ hm)
    rw [put, if_neg hne]
    simp only at hmem ⊢
    rw [withL_mem I _ hd hmem, withL_mem I _ hd hmem, argValL_eq, argValL_eq]
    refine den_congr I false _ _ _ (fun x hx => ?_)
    rw [put, if_neg]
    rintro rfl
    exact hf _ hmem hx
  · rw [withL_not_mem I _ hm, put, put, withL_not_mem I _ hm]

theorem evalPhL_spec {n : Nat} {ps : LPairs V L} {t : Tm V L} (hd : (ps.map (·.1)).Nodup) (h : evalPhL n ps = .ok t) :
    (n ∉ ps.map (·.1) ∧ t = .ph n) ∨ ∃ a, (n, a) ∈ ps ∧ t = a.toTm := by
  unfold evalPhL at h
  by_cases he : ps.isEmpty = true
  · rw [if_pos he] at h; cases h
  · rw [if_neg he] at h
    cases hp : positions n 1 (ps.map (·.1)) with
    | zero =>
      rw [hp] at h
      cases h
      exact Or.inl ⟨(positions_eq_zero n _ 1 (by omega)).mp hp, rfl⟩
    | succ q =>
      obtain ⟨a, -, ha⟩ := positions_of_nodup n ps 1 q (by omega) hd hp
      rw [Nat.add_sub_cancel] at ha
      simp only [hp, ha] at h
      cases h
      exact Or.inr ⟨a, List.mem_of_getElem? ha, rfl⟩

theorem bvArgs_mem {ps : LPairs V L} {n : Nat} : n ∈ bvArgs ps ↔ ∃ p ∈ ps, n ∈ bv p.2.toTm := by
  induction ps with
  | nil => simp [bvArgs]
  | cons p ps ih => obtain ⟨i, a⟩ := p; simp [bvArgs, ih]

/-- What `rebuild` gives means what the node means. -/
theorem rebuild_spec {I : Interp V L} {K : Kinds V L} {g : Tag} {cs : List (Tm V L)} {t : Tm V L} (h : rebuild I K g cs = .ok t) :
    (∀ env, den I false env t = den I false env (.node g cs)) ∧ (∀ n ∈ bv t, n ∈ bvs cs) ∧ (Aparts cs → Apart t) := by
  have hcall : ∀ (g : Tag) (hd : Tm V L) (as : List (Tm V L)), rebuild.callLazy I K g hd as = .ok t → t = .node g (hd :: as) := by
    intro g hd as h
    unfold rebuild.callLazy at h
    split at h
    · cases h; rfl
    · simp only [bind, Except.bind, pure, Except.pure, throw, throwThe, MonadExceptOf.throw] at h
      split at h
      · cases h
      · split at h
        · cases h; rfl
        · cases h
  have hnode : t = .node g cs → (∀ env, den I false env t = den I false env (.node g cs)) ∧ (∀ n ∈ bv t, n ∈ bvs cs) ∧ (Aparts cs → Apart t) := by
    rintro rfl
    exact ⟨fun _ => rfl, fun n hn => by simpa [bv] using hn, fun hc => by simpa [Apart] using hc⟩
  unfold rebuild at h
  split at h
  · cases h
    refine ⟨fun env => ?_, fun n hn => by simpa [bvs] using hn, fun hc => by simpa [Aparts] using hc⟩
    rw [den_node_of (by simp)]
    simp only [dens]
    cases den I false env t <;> simp [apply]
  · rename_i c a b
    simp only [bind, Except.bind, pure, Except.pure, throw, throwThe, MonadExceptOf.throw] at h
    cases hr : read I c with
    | error e => rw [hr] at h; cases h
    | ok v =>
      simp only [hr] at h
      split at h
      · cases h
      · have hden : ∀ env, den I false env (.node .ifElse [c, a, b]) = (I.truth v).bind (fun t => if t then den I false env a else den I false env b) := by
          intro env
          simp [den, den_read hr]
        cases ht : I.truth v with
        | none => simp only [ht] at h; cases h
        | some q =>
          cases q <;> (simp only [ht] at h; cases h)
          · exact ⟨fun env => by rw [hden, ht]; rfl, fun n hn => by simp [bvs, hn], fun hc => hc.2.2.1⟩
          · exact ⟨fun env => by rw [hden, ht]; rfl, fun n hn => by simp [bvs, hn], fun hc => hc.2.1⟩
  · cases h
  · cases h
  · split at h
    · cases h; exact hnode rfl
    · cases h
  · exact hnode (hcall _ _ _ h)
  · exact hnode (hcall _ _ _ h)
  · cases h
  · cases h
  · cases h
  · cases h
  · cases h; exact hnode rfl

theorem clean_children {B B' : List Nat} {ps : LPairs V L} (h : Clean B ps) (hb : ∀ n ∈ B', n ∈ B) : Clean B' ps :=
  ⟨h.1, fun n hn => h.2.1 n (hb n hn), fun p hp => ⟨(h.2.2 p hp).1, fun n hn => (h.2.2 p hp).2 n (hb n hn)⟩⟩

/-- Evaluation keeps the meaning. -/
theorem evalLF_sound (I : Interp V L) (K : Kinds V L) : ∀ (k : Nat) (ps : LPairs V L) (t t' : Tm V L), evalLF I K k ps t = .ok t' → Clean (bv t) ps → Apart t →
    (∀ env, den I false env t' = den I false (withL I env ps) t) ∧ (∀ n ∈ bv t', n ∈ bv t ∨ n ∈ bvArgs ps) ∧ Apart t' := by
  intro k
  induction k with
  | zero => intro ps t t' h; cases h
  | succ k ih =>
    intro ps t t' h hc hap
    cases t with
    | val v => simp only [evalLF] at h; cases h; exact ⟨fun env => by simp [den], by simp [bv], by simp [Apart]⟩
    | bor v => simp only [evalLF] at h; cases h; exact ⟨fun env => by simp [den], by simp [bv], by simp [Apart]⟩
    | ref l => simp only [evalLF] at h; cases h; exact ⟨fun env => by simp [den], by simp [bv], by simp [Apart]⟩
    | dead => simp only [evalLF] at h; cases h; exact ⟨fun env => by simp [den], by simp [bv], by simp [Apart]⟩
    | ph n =>
      simp only [evalLF] at h
      rcases evalPhL_spec hc.1 h with ⟨hn, rfl⟩ | ⟨a, ha, rfl⟩
      · exact ⟨fun env => by simp only [den]; rw [withL_not_mem I env hn], by simp [bv], by simp [Apart]⟩
      · refine ⟨fun env => ?_, fun n hn => Or.inr (bvArgs_mem.mpr ⟨_, ha, hn⟩), (hc.2.2 _ ha).1⟩
        rw [den, withL_mem I env hc.1 ha, argValL_eq]
    | node g cs =>
      simp only [evalLF, bind, Except.bind, throw, throwThe, MonadExceptOf.throw, pure, Except.pure] at h
      split at h
      · cases h
      · cases hm : cs.mapM (evalLF I K k ps) with
        | error e => simp only [hm] at h; cases h
        | ok cs' =>
          simp only [hm] at h
          have hf := mapM_forall₂ hm
          rw [Apart, aparts_iff] at hap
          have hall := forall₂_imp_mem (S := fun c c' => (∀ env, den I false env c' = den I false (withL I env ps) c) ∧ (∀ n ∈ bv c', n ∈ bv c ∨ n ∈ bvArgs ps) ∧ Apart c') hf
            (fun c hcm c' _ e => ih ps c c' e (clean_children hc (fun n hn => by rw [bv, bvs_mem]; exact ⟨c, hcm, hn⟩)) (hap c hcm))
          have hbs : ∀ n ∈ bvs cs', n ∈ bvs cs ∨ n ∈ bvArgs ps := by
            intro n hn
            rw [bvs_mem] at hn ⊢
            obtain ⟨c', hc', hn⟩ := hn
            obtain ⟨c, hc, h1, h2, h3⟩ := forall₂_right hall c' hc'
            exact (h2 n hn).imp (fun h => ⟨c, hc, h⟩) id
          have haps : Aparts cs' := by
            rw [aparts_iff]
            intro c' hc'
            obtain ⟨c, hc, h1, h2, h3⟩ := forall₂_right hall c' hc'
            exact h3
          have hden : ∀ env, den I false env (.node g cs') = den I false (withL I env ps) (.node g cs) := fun env => den_node_congr g (hall.imp (fun _ _ h => h.1 env))
          unfold dispatchL at h
          split at h
          · obtain ⟨r1, r2, r3⟩ := rebuild_spec h
            exact ⟨fun env => by rw [r1, hden], fun n hn => by simpa [bv] using hbs n (r2 n hn), r3 haps⟩
          unfold dispatch at h
          split at h
          · cases h
            exact ⟨hden, by simpa [bv] using hbs, by simpa [Apart] using haps⟩
          · simp only [bind, Except.bind, pure, Except.pure] at h
            cases hv : cs'.mapM (read I) with
            | error e => simp only [hv] at h; cases h
            | ok vs =>
              simp only [hv] at h
              cases ho : operation I g vs with
              | error e => simp only [ho] at h; cases h
              | ok v =>
                simp only [ho] at h
                cases h
                refine ⟨fun env => ?_, by simp [bv], by simp [Apart]⟩
                have hvs : List.Forall₂ (fun c v => den I false env c = some v) cs' vs := (mapM_forall₂ hv).imp (fun _ _ h => den_read h)
                rw [← hden, (den_node_value hvs v).mp ho]
                simp [den]
    | fn body is =>
      simp only [evalLF, bind, Except.bind, pure, Except.pure] at h
      cases hb1 : evalLF I K k ps body with
      | error e => simp only [hb1] at h; cases h
      | ok b =>
        simp only [hb1] at h
        cases hb2 : decay I b with
        | error e => simp only [hb2] at h; cases h
        | ok b' =>
          simp only [hb2] at h
          cases h
          rw [Apart] at hap
          obtain ⟨h1, h2, h3⟩ := ih ps body b hb1 (clean_children hc (fun n hn => by rw [bv]; exact List.mem_append_right _ hn)) hap.2
          obtain ⟨d1, d2, d3, -⟩ := decay_spec hb2
          refine ⟨fun env => by simp [den], ?_, ?_⟩
          · intro n hn
            rw [bv, List.mem_append, d2] at hn
            rw [bv, List.mem_append]
            rcases hn with hn | hn
            · exact Or.inl (Or.inl hn)
            · exact (h2 n hn).imp Or.inr id
          · rw [Apart, d2]
            refine ⟨fun i hi hh => ?_, d3 h3⟩
            rcases h2 i hh with hh | hh
            · exact hap.1 i hi hh
            · obtain ⟨p, hp, hq⟩ := bvArgs_mem.mp hh
              exact ((hc.2.2 p hp).2 i (by rw [bv]; exact List.mem_append_left _ hi)).2 hq
    | sum body n dom =>
      simp only [evalLF, bind, Except.bind, throw, throwThe, MonadExceptOf.throw, pure, Except.pure] at h
      split at h
      · cases h
      rw [Apart] at hap
      have hn : n ∉ ps.map (·.1) := hc.2.1 n (by simp [bv])
      cases hb1 : evalLF I K k ps body with
      | error e => simp only [hb1] at h; cases h
      | ok b =>
        simp only [hb1] at h
        cases hb2 : decay I b with
        | error e => simp only [hb2] at h; cases h
        | ok b' =>
          simp only [hb2] at h
          cases hd1 : evalLF I K k ps dom with
          | error e => simp only [hd1] at h; cases h
          | ok d =>
            simp only [hd1] at h
            obtain ⟨h1, h2, h3⟩ := ih ps body b hb1 (clean_children hc (fun m hm => by simp [bv, hm])) hap.2.1
            obtain ⟨e1, e2, e3, -⟩ := decay_spec hb2
            obtain ⟨g1, g2, g3⟩ := ih ps dom d hd1 (clean_children hc (fun m hm => by simp [bv, hm])) hap.2.2
            have hnb : n ∉ bv b' := by
              rw [e2]
              intro hh
              rcases h2 n hh with hh | hh
              · exact hap.1 hh
              · obtain ⟨p, hp, hq⟩ := bvArgs_mem.mp hh
                exact ((hc.2.2 p hp).2 n (by simp [bv])).2 hq
            have hsum : ∀ env, den I false env (.sum b' n d) = den I false (withL I env ps) (.sum body n dom) := by
              intro env
              simp only [den]
              rw [g1 env]
              have : (fun p => den I false (put env n p) b') = fun p => den I false (put (withL I env ps) n p) body := by
                funext p
                rw [e1, h1, withL_put I env ps n p hc.1 hn (fun q hq => ((hc.2.2 q hq).2 n (by simp [bv])).1)]
              rw [this]
            have hbs : ∀ m ∈ bv (.sum b' n d : Tm V L), m ∈ bv (.sum body n dom : Tm V L) ∨ m ∈ bvArgs ps := by
              intro m hm
              simp only [bv, List.mem_cons, List.mem_append] at hm ⊢
              rcases hm with hm | hm | hm
              · exact Or.inl (Or.inl hm)
              · exact (h2 m (by rw [← e2]; exact hm)).imp (fun h => Or.inr (Or.inl h)) id
              · exact (g2 m hm).imp (fun h => Or.inr (Or.inr h)) id
            have haps : Apart (.sum b' n d : Tm V L) := by
              rw [Apart]
              exact ⟨hnb, e3 h3, g3⟩
            split at h
            · cases h
              exact ⟨hsum, hbs, haps⟩
            · unfold sumNode at h
              split at h
              · cases h
              · split at h
                · cases h
                  exact ⟨hsum, hbs, haps⟩
                · simp only [bind, Except.bind, pure, Except.pure] at h
                  cases hr : read I d with
                  | error e => simp only [hr] at h; cases h
                  | ok dv =>
                    simp only [hr] at h
                    cases hs : sumLoop I (fun x => evalLF I K k [(n, .plain (.val x))] b') dv with
                    | error e => simp only [hs] at h; cases h
                    | ok v =>
                      simp only [hs] at h
                      cases h
                      refine ⟨fun env => ?_, by simp [bv], by simp [Apart]⟩
                      obtain ⟨pts, vs, hp, hf, ht⟩ := sumLoop_eq hs
                      rw [← hsum env]
                      simp only [den]
                      rw [den_read hr, Option.bind_some, hp, Option.bind_some]
                      have : pts.mapM (fun p => den I false (put env n p) b') = some vs := by
                        refine mapM_some (hf.imp ?_)
                        rintro p w ⟨t, et, er⟩
                        have hcl : Clean (bv b') ([(n, .plain (.val p))] : LPairs V L) := by
                          refine ⟨by simp, ?_, ?_⟩
                          · intro m hm; simp; rintro rfl; exact hnb hm
                          · intro q hq
                            have : q = (n, .plain (.val p)) := by simpa using hq
                            subst this
                            simp [LArg.toTm, Arg.toTm, Apart, fv, bv]
                        obtain ⟨k1, -, -⟩ := ih [(n, .plain (.val p))] b' t et hcl (e3 h3)
                        have := k1 env
                        rw [den_read er] at this
                        rw [this]
                        congr 1
                      rw [this, Option.bind_some, ht]

/-! ### The bound on the recursion -/

theorem depthArgs_pos (ps : LPairs V L) : 1 ≤ depthArgs ps := by
  induction ps with
  | nil => simp [depthArgs]
  | cons p ps ih => obtain ⟨i, a⟩ := p; rw [depthArgs]; omega

theorem depthArgs_mem {ps : LPairs V L} {p : Nat × LArg V L} (h : p ∈ ps) : depth p.2.toTm ≤ depthArgs ps := by
  induction ps with
  | nil => cases h
  | cons q ps ih =>
    obtain ⟨i, a⟩ := q
    rw [depthArgs]
    rcases List.mem_cons.mp h with rfl | h
    · exact Nat.le_max_left _ _
    · have := ih h; omega

theorem evalPhL_depth {n : Nat} {ps : LPairs V L} {t : Tm V L} (h : evalPhL n ps = .ok t) : depth t ≤ depthArgs ps := by
  unfold evalPhL at h
  split at h
  · cases h
  · split at h
    · cases h; simpa [depth] using depthArgs_pos ps
    · split at h
      · rename_i a ha
        cases h; exact depthArgs_mem (List.mem_of_getElem? ha)
      · cases h

theorem rebuild_depth {I : Interp V L} {K : Kinds V L} {g : Tag} {cs : List (Tm V L)} {t : Tm V L} (h : rebuild I K g cs = .ok t) : depth t ≤ depths cs + 1 := by
  have hcall : ∀ (g : Tag) (hd : Tm V L) (as : List (Tm V L)), rebuild.callLazy I K g hd as = .ok t → t = .node g (hd :: as) := by
    intro g hd as h
    unfold rebuild.callLazy at h
    split at h
    · cases h; rfl
    · simp only [bind, Except.bind, pure, Except.pure, throw, throwThe, MonadExceptOf.throw] at h
      split at h
      · cases h
      · split at h
        · cases h; rfl
        · cases h
  have hnode : t = .node g cs → depth t ≤ depths cs + 1 := by rintro rfl; rw [depth]; exact Nat.le_refl _
  unfold rebuild at h
  split at h
  · cases h; rw [depths]; omega
  · rename_i c a b
    simp only [bind, Except.bind, pure, Except.pure, throw, throwThe, MonadExceptOf.throw] at h
    split at h
    · cases h
    · split at h
      · cases h
      · split at h
        · cases h; simp only [depths]; omega
        · cases h; simp only [depths]; omega
        · cases h
  · cases h
  · cases h
  · split at h
    · cases h; exact hnode rfl
    · cases h
  · exact hnode (hcall _ _ _ h)
  · exact hnode (hcall _ _ _ h)
  · cases h
  · cases h
  · cases h
  · cases h
  · cases h; exact hnode rfl

/-- Evaluation makes a tree deeper by at most the depth of what is given. -/
theorem evalLF_depth (I : Interp V L) (K : Kinds V L) : ∀ (k : Nat) (ps : LPairs V L) (t t' : Tm V L), evalLF I K k ps t = .ok t' → depth t' + 1 ≤ depth t + depthArgs ps := by
  intro k
  induction k with
  | zero => intro ps t t' h; cases h
  | succ k ih =>
    intro ps t t' h
    have hD := depthArgs_pos ps
    cases t with
    | val v => simp only [evalLF] at h; cases h; simp only [depth]; omega
    | bor v => simp only [evalLF] at h; cases h; simp only [depth]; omega
    | ref l => simp only [evalLF] at h; cases h; simp only [depth]; omega
    | dead => simp only [evalLF] at h; cases h; simp only [depth]; omega
    | ph n => simp only [evalLF] at h; have := evalPhL_depth h; simp only [depth]; omega
    | node g cs =>
      simp only [evalLF, bind, Except.bind, throw, throwThe, MonadExceptOf.throw, pure, Except.pure] at h
      split at h
      · cases h
      · cases hm : cs.mapM (evalLF I K k ps) with
        | error e => simp only [hm] at h; cases h
        | ok cs' =>
          simp only [hm] at h
          have hf := mapM_forall₂ hm
          have hcs : depths cs' + 1 ≤ depths cs + depthArgs ps := by
            have := depths_pos cs
            have hle : depths cs' ≤ depths cs + depthArgs ps - 1 := by
              rw [depths_le_iff (by omega)]
              intro c' hc'
              obtain ⟨c, hc, e⟩ := forall₂_right hf c' hc'
              have h1 := ih ps c c' e
              have h2 := (depths_le_iff (depths_pos cs)).mp (Nat.le_refl _) c hc
              omega
            omega
          unfold dispatchL at h
          split at h
          · have := rebuild_depth h
            rw [depth]; omega
          unfold dispatch at h
          split at h
          · cases h
            rw [depth, depth]; omega
          · simp only [bind, Except.bind, pure, Except.pure] at h
            cases hv : cs'.mapM (read I) with
            | error e => simp only [hv] at h; cases h
            | ok vs =>
              simp only [hv] at h
              cases ho : operation I g vs with
              | error e => simp only [ho] at h; cases h
              | ok v => simp only [ho] at h; cases h; simp only [depth]; omega
    | fn body is =>
      simp only [evalLF, bind, Except.bind, pure, Except.pure] at h
      cases hb1 : evalLF I K k ps body with
      | error e => simp only [hb1] at h; cases h
      | ok b =>
        simp only [hb1] at h
        cases hb2 : decay I b with
        | error e => simp only [hb2] at h; cases h
        | ok b' =>
          simp only [hb2] at h
          cases h
          rw [depth, depth, (decay_spec hb2).2.2.2.2]
          have := ih ps body b hb1
          omega
    | sum body n dom =>
      simp only [evalLF, bind, Except.bind, throw, throwThe, MonadExceptOf.throw, pure, Except.pure] at h
      split at h
      · cases h
      cases hb1 : evalLF I K k ps body with
      | error e => simp only [hb1] at h; cases h
      | ok b =>
        simp only [hb1] at h
        cases hb2 : decay I b with
        | error e => simp only [hb2] at h; cases h
        | ok b' =>
          simp only [hb2] at h
          cases hd1 : evalLF I K k ps dom with
          | error e => simp only [hd1] at h; cases h
          | ok d =>
            simp only [hd1] at h
            have h1 := ih ps body b hb1
            have h2 := ih ps dom d hd1
            have h3 : depth (.sum b' n d : Tm V L) + 1 ≤ depth (.sum body n dom : Tm V L) + depthArgs ps := by
              rw [depth, depth, (decay_spec hb2).2.2.2.2]; omega
            split at h
            · cases h; exact h3
            · unfold sumNode at h
              split at h
              · cases h
              · split at h
                · cases h; exact h3
                · simp only [bind, Except.bind, pure, Except.pure] at h
                  cases hr : read I d with
                  | error e => simp only [hr] at h; cases h
                  | ok dv =>
                    simp only [hr] at h
                    cases hs : sumLoop I (fun x => evalLF I K k [(n, .plain (.val x))] b') dv with
                    | error e => simp only [hs] at h; cases h
                    | ok v => simp only [hs] at h; cases h; simp only [depth]; omega

/-- A larger bound on the recursion changes nothing: the bound is never reached. -/
theorem evalLF_step (I : Interp V L) (K : Kinds V L) : ∀ (k : Nat) (ps : LPairs V L) (t : Tm V L), depth t + depthArgs ps ≤ k + 1 → evalLF I K (k + 1) ps t = evalLF I K k ps t := by
  intro k
  induction k with
  | zero => intro ps t h; have := depth_pos t; have := depthArgs_pos ps; omega
  | succ k ih =>
    intro ps t h
    cases t with
    | val v => rfl
    | bor v => rfl
    | ref l => rfl
    | dead => rfl
    | ph n => rfl
    | node g cs =>
      rw [depth] at h
      rw [evalLF, evalLF, mapM_congr' (fun c hc => ih ps c (by have := (depths_le_iff (depths_pos cs)).mp (Nat.le_refl _) c hc; omega))]
    | fn body is =>
      rw [depth] at h
      rw [evalLF, evalLF, ih ps body (by omega)]
    | sum body n dom =>
      rw [depth] at h
      rw [evalLF, evalLF, ih ps body (by omega), ih ps dom (by omega)]
      cases hb1 : evalLF I K k ps body with
      | error e => rfl
      | ok b =>
        cases hb2 : decay I b with
        | error e => simp only [bind, Except.bind, hb2]
        | ok b' =>
          have hdb : depth b' ≤ k := by
            rw [(decay_spec hb2).2.2.2.2]
            have := evalLF_depth I K k ps body b hb1
            omega
          have : (fun x : V => evalLF I K (k + 1) [(n, LArg.plain (Arg.val x))] b') = fun x => evalLF I K k [(n, .plain (.val x))] b' :=
            funext (fun x => ih _ b' (by simp only [depthArgs, LArg.toTm, Arg.toTm, depth]; omega))
          simp only [bind, Except.bind, hb2, this]

theorem evalLF_eq (I : Interp V L) (K : Kinds V L) (ps : LPairs V L) (t : Tm V L) : ∀ (k : Nat), depth t + depthArgs ps ≤ k → evalLF I K k ps t = evalL I K ps t := by
  intro k hk
  induction hk with
  | refl => rfl
  | step hk ih => rw [evalLF_step I K _ ps t (Nat.le_succ_of_le hk), ih]

end Nda.Clef
