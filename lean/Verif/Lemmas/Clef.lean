import Verif.Spec.Clef
import Mathlib.Data.List.Forall2
/-!
# Lemmas on lazy expressions: what evaluation keeps
-/
namespace Nda.Clef
open Nda.Clef.Spec

variable {V L : Type}

theorem mapM_forall₂ {α β ε : Type} {f : α → Except ε β} : ∀ {l : List α} {l' : List β}, l.mapM f = .ok l' → List.Forall₂ (fun a b => f a = .ok b) l l'
  | [], l', h => by
    simp only [List.mapM_nil, pure, Except.pure] at h
    cases h; exact .nil
  | a :: l, l', h => by
    simp only [List.mapM_cons, bind, Except.bind, pure, Except.pure] at h
    cases ha : f a with
    | error e => rw [ha] at h; cases h
    | ok b =>
      rw [ha] at h
      cases hl : l.mapM f with
      | error e => rw [hl] at h; cases h
      | ok bs =>
        rw [hl] at h
        cases h
        exact .cons ha (mapM_forall₂ hl)

theorem forall₂_mapM {α β ε : Type} {f : α → Except ε β} : ∀ {l : List α} {l' : List β}, List.Forall₂ (fun a b => f a = .ok b) l l' → l.mapM f = .ok l'
  | [], _, .nil => rfl
  | a :: l, _, .cons ha h => by
    simp only [List.mapM_cons, bind, Except.bind, pure, Except.pure, ha, forall₂_mapM h]

theorem positions_eq_zero (n : Nat) : ∀ (names : List Nat) (p : Nat), 0 < p → (positions n p names = 0 ↔ n ∉ names)
  | [], p, _ => by simp [positions]
  | i :: is, p, hp => by
    rw [positions, Nat.add_eq_zero_iff, positions_eq_zero n is (p + 1) (by omega)]
    by_cases h : i = n
    · simp [h]; omega
    · simp [h, Ne.symm h]

theorem positions_of_nodup {β : Type} (n : Nat) : ∀ (ps : List (Nat × β)) (p q : Nat), 0 < p → (ps.map (·.1)).Nodup → positions n p (ps.map (·.1)) = q + 1 →
    ∃ a, p ≤ q + 1 ∧ ps[q + 1 - p]? = some (n, a)
  | [], p, q, _, _, h => by simp [positions] at h
  | (i, a) :: is, p, q, hp, hn, h => by
    rw [List.map_cons, List.nodup_cons] at hn
    simp only [List.map_cons, positions] at h
    by_cases hi : i = n
    · subst hi
      rw [if_pos rfl, (positions_eq_zero i _ (p + 1) (by omega)).mpr hn.1] at h
      refine ⟨a, by omega, ?_⟩
      rw [show q + 1 - p = 0 by omega]; rfl
    · rw [if_neg hi, Nat.zero_add] at h
      obtain ⟨b, h1, h2⟩ := positions_of_nodup n is (p + 1) q (by omega) hn.2 h
      refine ⟨b, by omega, ?_⟩
      rw [show q + 1 - p = (q + 1 - (p + 1)) + 1 by omega, List.getElem?_cons_succ]
      exact h2

theorem withPairs_mem (I : Interp V L) (env : Env V) : ∀ {ps : Pairs V L} {n : Nat} {a : Arg V L}, Distinct ps → (n, a) ∈ ps → withPairs I env ps n = argVal I a
  | [], _, _, _, h => by cases h
  | (i, b) :: ps, n, a, hd, h => by
    rw [Distinct, List.map_cons, List.nodup_cons] at hd
    rcases List.mem_cons.mp h with h | h
    · cases h; simp [withPairs]
    · rw [withPairs, if_neg, withPairs_mem I env hd.2 h]
      rintro rfl
      exact hd.1 (List.mem_map.mpr ⟨(n, a), ‹_›, rfl⟩)

theorem withPairs_not_mem (I : Interp V L) (env : Env V) : ∀ {ps : Pairs V L} {n : Nat}, n ∉ ps.map (·.1) → withPairs I env ps n = env n
  | [], _, _ => rfl
  | (i, b) :: ps, n, h => by
    rw [List.map_cons, List.mem_cons, not_or] at h
    rw [withPairs, if_neg h.1, withPairs_not_mem I env h.2]

theorem withPairs_set (I : Interp V L) (env : Env V) (ps : Pairs V L) (n : Nat) (v : V) (h : n ∉ ps.map (·.1)) : withPairs I (put env n v) ps = put (withPairs I env ps) n v := by
  funext m
  by_cases hm : m = n
  · subst hm
    rw [withPairs_not_mem I _ h]; simp [put]
  · by_cases hp : m ∈ ps.map (·.1)
    · rw [put, if_neg hm]
      clear h
      induction ps with
      | nil => cases hp
      | cons p ps ih =>
        obtain ⟨i, a⟩ := p
        simp only [withPairs]
        by_cases hi : m = i
        · rw [if_pos hi, if_pos hi]
        · rw [if_neg hi, if_neg hi]
          exact ih ((List.mem_cons.mp hp).resolve_left hi)
    · rw [withPairs_not_mem I _ hp, put, put, if_neg hm, if_neg hm, withPairs_not_mem I _ hp]

theorem evalPh_spec (I : Interp V L) {n : Nat} {ps : Pairs V L} {t : Tm V L} (hd : Distinct ps) (h : evalPh n ps = .ok t) :
    (n ∉ ps.map (·.1) ∧ t = .ph n) ∨ ∃ a, (n, a) ∈ ps ∧ t = a.toTm := by
  unfold evalPh at h
  by_cases he : ps.isEmpty = true
  · rw [if_pos he] at h; cases h
  · rw [if_neg he] at h
    cases hp : positions n 1 (ps.map (·.1)) with
    | zero =>
      rw [hp] at h
      cases h
      exact Or.inl ⟨(positions_eq_zero n _ 1 (by omega)).mp hp, rfl⟩
    | succ q =>
      obtain ⟨a, -, ha⟩ := positions_of_nodup n ps 1 q (by omega) hd hp
      rw [Nat.add_sub_cancel] at ha
      simp only [hp, ha] at h
      cases h
      exact Or.inr ⟨a, List.mem_of_getElem? ha, rfl⟩

theorem den_toTm (I : Interp V L) (strict : Bool) (env : Env V) (a : Arg V L) : den I strict env a.toTm = argVal I a := by
  cases a <;> simp [Arg.toTm, den, argVal]

theorem dens_congr {I : Interp V L} {strict : Bool} {env env' : Env V} : ∀ {cs cs' : List (Tm V L)},
    List.Forall₂ (fun c c' => den I strict env' c' = den I strict env c) cs cs' → dens I strict env' cs' = dens I strict env cs
  | [], _, .nil => by simp [dens]
  | c :: cs, _, .cons h hs => by rw [dens, dens, h, dens_congr hs]

/-- The meaning of a node which is not a conditional. -/
theorem den_node_of {I : Interp V L} {strict : Bool} {env : Env V} {g : Tag} {cs : List (Tm V L)} (h : ¬ (g = .ifElse ∧ cs.length = 3)) :
    den I strict env (.node g cs) = (dens I strict env cs).bind (apply I g) := by
  match g, cs, h with
  | .ifElse, [_, _, _], h => exact absurd ⟨rfl, rfl⟩ h
  | .ifElse, [], _ => simp [den]
  | .ifElse, [_], _ => simp [den]
  | .ifElse, [_, _], _ => simp [den]
  | .ifElse, _ :: _ :: _ :: _ :: _, _ => simp [den]
  | .function, cs, _ => simp [den]
  | .subscript, cs, _ => simp [den]
  | .terminal, cs, _ => simp [den]
  | .plus, cs, _ => simp [den]
  | .minus, cs, _ => simp [den]
  | .multiplies, cs, _ => simp [den]
  | .divides, cs, _ => simp [den]
  | .greater, cs, _ => simp [den]
  | .less, cs, _ => simp [den]
  | .leq, cs, _ => simp [den]
  | .geq, cs, _ => simp [den]
  | .eq, cs, _ => simp [den]
  | .unaryplus, cs, _ => simp [den]
  | .negate, cs, _ => simp [den]
  | .loginot, cs, _ => simp [den]

theorem length_three {β : Type} {l : List β} (h : l.length = 3) : ∃ a b c, l = [a, b, c] := by
  match l, h with
  | [a, b, c], _ => exact ⟨a, b, c, rfl⟩

theorem den_node_congr {I : Interp V L} {strict : Bool} {env env' : Env V} (g : Tag) {cs cs' : List (Tm V L)}
    (h : List.Forall₂ (fun c c' => den I strict env' c' = den I strict env c) cs cs') : den I strict env' (.node g cs') = den I strict env (.node g cs) := by
  by_cases hg : g = .ifElse ∧ cs.length = 3
  · obtain ⟨rfl, hl⟩ := hg
    obtain ⟨c, a, b, rfl⟩ := length_three hl
    cases h with
    | cons hc h => cases h with
      | cons ha h => cases h with
        | cons hb h =>
          cases h
          simp only [den, hc, ha, hb]
  · rw [den_node_of hg, den_node_of (by rw [← h.length_eq]; exact hg), dens_congr h]

theorem dens_some {I : Interp V L} {strict : Bool} {env : Env V} : ∀ {cs : List (Tm V L)} {vs : List V},
    List.Forall₂ (fun c v => den I strict env c = some v) cs vs → dens I strict env cs = some vs
  | [], _, .nil => by simp [dens]
  | c :: cs, _, .cons h hs => by rw [dens, h, dens_some hs]; rfl

theorem dens_forall₂ {I : Interp V L} {strict : Bool} {env : Env V} : ∀ {cs : List (Tm V L)} {vs : List V}, dens I strict env cs = some vs →
    List.Forall₂ (fun c v => den I strict env c = some v) cs vs
  | [], vs, h => by simp only [dens, Option.some.injEq] at h; subst h; exact .nil
  | c :: cs, vs, h => by
    rw [dens] at h
    cases hc : den I strict env c with
    | none => rw [hc] at h; cases h
    | some v =>
      rw [hc, Option.bind_some] at h
      cases hs : dens I strict env cs with
      | none => rw [hs] at h; cases h
      | some ws =>
        rw [hs] at h
        cases h
        exact .cons hc (dens_forall₂ hs)

theorem operation_of_not_if {I : Interp V L} {g : Tag} {vs : List V} (h : ¬ (g = .ifElse ∧ vs.length = 3)) (v : V) : operation I g vs = .ok v ↔ apply I g vs = some v := by
  have key : ∀ o : Option V, (match o with | some v => Except.ok v | none => Except.error Err.undef) = Except.ok v ↔ o = some v := by
    intro o; cases o <;> simp
  match g, vs, h with
  | .ifElse, [_, _, _], h => exact absurd ⟨rfl, rfl⟩ h
  | .ifElse, [], _ => exact key _
  | .ifElse, [_], _ => exact key _
  | .ifElse, [_, _], _ => exact key _
  | .ifElse, _ :: _ :: _ :: _ :: _, _ => exact key _
  | .terminal, [], _ => exact key _
  | .terminal, [_], _ => simp [operation, apply]
  | .terminal, _ :: _ :: _, _ => exact key _
  | .function, _, _ => exact key _
  | .subscript, _, _ => exact key _
  | .plus, _, _ => exact key _
  | .minus, _, _ => exact key _
  | .multiplies, _, _ => exact key _
  | .divides, _, _ => exact key _
  | .greater, _, _ => exact key _
  | .less, _, _ => exact key _
  | .leq, _, _ => exact key _
  | .geq, _, _ => exact key _
  | .eq, _, _ => exact key _
  | .unaryplus, _, _ => exact key _
  | .negate, _, _ => exact key _
  | .loginot, _, _ => exact key _

/-- All operands have values: the node has the value of the operator, conditionals included. -/
theorem den_node_value {I : Interp V L} {strict : Bool} {env : Env V} {g : Tag} {cs : List (Tm V L)} {vs : List V} (h : List.Forall₂ (fun c v => den I strict env c = some v) cs vs) (v : V) :
    operation I g vs = .ok v ↔ den I strict env (.node g cs) = some v := by
  by_cases hg : g = .ifElse ∧ cs.length = 3
  · obtain ⟨rfl, hl⟩ := hg
    obtain ⟨c, a, b, rfl⟩ := length_three hl
    cases h with
    | cons hc h => cases h with
      | cons ha h => cases h with
        | cons hb h =>
          cases h
          simp only [den, hc, ha, hb, operation, Option.isNone_some, Bool.or_self, Bool.and_false, Bool.false_eq_true, if_false, Option.bind_some]
          generalize I.truth _ = o
          cases o with
          | none => simp
          | some t => cases t <;> simp
  · rw [operation_of_not_if (by rw [← h.length_eq]; exact hg), den_node_of hg, dens_some h]
    rfl

theorem den_read {I : Interp V L} {strict : Bool} {env : Env V} {t : Tm V L} {v : V} (h : read I t = .ok v) : den I strict env t = some v := by
  unfold read at h
  split at h
  · cases h; simp [den]
  · cases h; simp [den]
  · rename_i l
    cases hl : I.load l with
    | none => rw [hl] at h; cases h
    | some w => rw [hl] at h; cases h; simp [den, hl]
  · cases h
  · cases h

theorem decay_spec {I : Interp V L} {t t' : Tm V L} (h : decay I t = .ok t') : (∀ strict env, den I strict env t' = den I strict env t) ∧ bv t' = bv t ∧ (Apart t → Apart t') ∧ fv t' = fv t ∧ depth t' = depth t := by
  unfold decay at h
  split at h
  · cases h; exact ⟨fun _ _ => rfl, rfl, id, rfl, rfl⟩
  · cases h; exact ⟨fun _ _ => by simp [den], by simp [bv], fun _ => by simp [Apart], by simp [fv], by simp [depth]⟩
  · rename_i l
    cases hl : I.load l with
    | none => rw [hl] at h; cases h
    | some w => rw [hl] at h; cases h; exact ⟨fun _ _ => by simp [den, hl], by simp [bv], fun _ => by simp [Apart], by simp [fv], by simp [depth]⟩
  · cases h
  · cases h; exact ⟨fun _ _ => rfl, rfl, id, rfl, rfl⟩

theorem bvs_mem {cs : List (Tm V L)} {n : Nat} : n ∈ bvs cs ↔ ∃ c ∈ cs, n ∈ bv c := by
  induction cs with
  | nil => simp [bvs]
  | cons c cs ih => simp [bvs, ih]

theorem aparts_iff {cs : List (Tm V L)} : Aparts cs ↔ ∀ c ∈ cs, Apart c := by
  induction cs with
  | nil => simp [Aparts]
  | cons c cs ih => simp [Aparts, ih]

theorem fvs_mem {cs : List (Tm V L)} {n : Nat} : n ∈ fvs cs ↔ ∃ c ∈ cs, n ∈ fv c := by
  induction cs with
  | nil => simp [fvs]
  | cons c cs ih => simp [fvs, ih]

theorem depths_le {cs : List (Tm V L)} {k : Nat} (h : depths cs ≤ k) : ∀ c ∈ cs, depth c ≤ k := by
  induction cs with
  | nil => simp
  | cons c cs ih =>
    rw [depths] at h
    intro d hd
    rcases List.mem_cons.mp hd with rfl | hd
    · omega
    · exact ih (by omega) d hd

theorem forall₂_imp_mem {α β : Type} {R S : α → β → Prop} : ∀ {l : List α} {l' : List β}, List.Forall₂ R l l' → (∀ a ∈ l, ∀ b ∈ l', R a b → S a b) → List.Forall₂ S l l'
  | [], _, .nil, _ => .nil
  | a :: l, _, .cons h hs, f => .cons (f _ List.mem_cons_self _ List.mem_cons_self h) (forall₂_imp_mem hs (fun a ha b hb => f a (List.mem_cons_of_mem _ ha) b (List.mem_cons_of_mem _ hb)))

theorem forall₂_right {α β : Type} {R : α → β → Prop} : ∀ {l : List α} {l' : List β}, List.Forall₂ R l l' → ∀ b ∈ l', ∃ a ∈ l, R a b
  | [], _, .nil, b, hb => by cases hb
  | a :: l, _, .cons h hs, b, hb => by
    rcases List.mem_cons.mp hb with rfl | hb
    · exact ⟨a, List.mem_cons_self, h⟩
    · obtain ⟨c, hc, hr⟩ := forall₂_right hs b hb
      exact ⟨c, List.mem_cons_of_mem _ hc, hr⟩

theorem forall₂_left {α β : Type} {R : α → β → Prop} : ∀ {l : List α} {l' : List β}, List.Forall₂ R l l' → ∀ a ∈ l, ∃ b ∈ l', R a b
  | [], _, .nil, b, hb => by cases hb
  | a :: l, _, .cons h hs, b, hb => by
    rcases List.mem_cons.mp hb with rfl | hb
    · exact ⟨_, List.mem_cons_self, h⟩
    · obtain ⟨c, hc, hr⟩ := forall₂_left hs b hb
      exact ⟨c, List.mem_cons_of_mem _ hc, hr⟩

/-- The sum computed by the loop is the total of the values. -/
theorem sumLoop_eq {I : Interp V L} {f : V → Except Err (Tm V L)} {d v : V} (h : sumLoop I f d = .ok v) :
    ∃ pts vs, I.points d = some pts ∧ List.Forall₂ (fun p w => ∃ t, f p = .ok t ∧ read I t = .ok w) pts vs ∧ total I vs = some v := by
  unfold sumLoop at h
  split at h
  · cases h
  · cases h
  · rename_i x xs hp
    simp only [bind, Except.bind] at h
    cases hx : f x with
    | error e => rw [hx] at h; cases h
    | ok t =>
      rw [hx] at h
      cases hr : read I t with
      | error e => simp only [hr] at h; cases h
      | ok w =>
        simp only [hr] at h
        have key : ∀ (xs : List V) (s r : V), xs.foldlM (fun res y => addTo I res (f y)) s = .ok r →
            ∃ ws, List.Forall₂ (fun p w => ∃ t, f p = .ok t ∧ read I t = .ok w) xs ws ∧ ws.foldlM (fun s y => I.op .plus [s, y]) s = some r := by
          intro xs
          induction xs with
          | nil => intro s r h; simp only [List.foldlM_nil, pure, Except.pure] at h; cases h; exact ⟨[], .nil, rfl⟩
          | cons y ys ih =>
            intro s r h
            rw [List.foldlM_cons] at h
            simp only [bind, Except.bind, addTo] at h
            cases hy : f y with
            | error e => simp only [hy] at h; cases h
            | ok u =>
              simp only [hy] at h
              cases hu : read I u with
              | error e => simp only [hu] at h; cases h
              | ok z =>
                simp only [hu] at h
                cases ho : operation I .plus [s, z] with
                | error e => simp only [ho] at h; cases h
                | ok s' =>
                  simp only [ho] at h
                  obtain ⟨ws, h1, h2⟩ := ih s' r (by simpa only [addTo, bind, Except.bind] using h)
                  refine ⟨z :: ws, .cons ⟨u, hy, hu⟩ h1, ?_⟩
                  have ho' : I.op .plus [s, z] = some s' := by
                    have := (operation_of_not_if (I := I) (g := .plus) (vs := [s, z]) (by simp) s').mp ho
                    simpa [apply] using this
                  rw [List.foldlM_cons, ho']
                  exact h2
        obtain ⟨ws, h1, h2⟩ := key xs w v h
        exact ⟨x :: xs, w :: ws, hp, .cons ⟨t, hx, hr⟩ h1, h2⟩

theorem mapM_some {α β : Type} {f : α → Option β} : ∀ {l : List α} {l' : List β}, List.Forall₂ (fun a b => f a = some b) l l' → l.mapM f = some l'
  | [], _, .nil => rfl
  | a :: l, _, .cons h hs => by simp [List.mapM_cons, h, mapM_some hs]

theorem mapM_some_forall₂ {α β : Type} {f : α → Option β} : ∀ {l : List α} {l' : List β}, l.mapM f = some l' → List.Forall₂ (fun a b => f a = some b) l l'
  | [], l', h => by simp at h; subst h; exact .nil
  | a :: l, l', h => by
    rw [List.mapM_cons] at h
    cases ha : f a with
    | none => rw [ha] at h; cases h
    | some b =>
      cases hl : l.mapM f with
      | none => rw [ha, hl] at h; cases h
      | some bs =>
        rw [ha, hl] at h
        cases h
        exact .cons ha (mapM_some_forall₂ hl)

/-- Evaluation keeps the meaning. -/
theorem evalF_sound (I : Interp V L) (strict : Bool) : ∀ (k : Nat) (ps : Pairs V L) (t t' : Tm V L), evalF I k ps t = .ok t' → Distinct ps → (∀ n ∈ bv t, n ∉ ps.map (·.1)) → Apart t →
    (∀ env, den I strict env t' = den I strict (withPairs I env ps) t) ∧ (∀ n ∈ bv t', n ∈ bv t) ∧ Apart t' := by
  intro k
  induction k with
  | zero => intro ps t t' h; cases h
  | succ k ih =>
    intro ps t t' h hd hb hap
    cases t with
    | val v => simp only [evalF] at h; cases h; exact ⟨fun env => by simp [den], by simp [bv], by simp [Apart]⟩
    | bor v => simp only [evalF] at h; cases h; exact ⟨fun env => by simp [den], by simp [bv], by simp [Apart]⟩
    | ref l => simp only [evalF] at h; cases h; exact ⟨fun env => by simp [den], by simp [bv], by simp [Apart]⟩
    | dead => simp only [evalF] at h; cases h; exact ⟨fun env => by simp [den], by simp [bv], by simp [Apart]⟩
    | ph n =>
      simp only [evalF] at h
      rcases evalPh_spec I hd h with ⟨hn, rfl⟩ | ⟨a, ha, rfl⟩
      · exact ⟨fun env => by simp only [den]; rw [withPairs_not_mem I env hn], by simp [bv], by simp [Apart]⟩
      · refine ⟨fun env => ?_, ?_, ?_⟩
        · rw [den_toTm, den, withPairs_mem I env hd ha]
        · cases a <;> simp [Arg.toTm, bv]
        · cases a <;> simp [Arg.toTm, Apart]
    | node g cs =>
      simp only [evalF, bind, Except.bind, throw, throwThe, MonadExceptOf.throw, pure, Except.pure] at h
      split at h
      · cases h
      · cases hm : cs.mapM (evalF I k ps) with
        | error e => simp only [hm] at h; cases h
        | ok cs' =>
          simp only [hm] at h
          have hf := mapM_forall₂ hm
          rw [Apart, aparts_iff] at hap
          have hall := forall₂_imp_mem (S := fun c c' => (∀ env, den I strict env c' = den I strict (withPairs I env ps) c) ∧ (∀ n ∈ bv c', n ∈ bv c) ∧ Apart c') hf
            (fun c hc c' _ e => ih ps c c' e hd (fun n hn => hb n (by rw [bv, bvs_mem]; exact ⟨c, hc, hn⟩)) (hap c hc))
          have hbs : ∀ n ∈ bvs cs', n ∈ bvs cs := by
            intro n hn
            rw [bvs_mem] at hn ⊢
            obtain ⟨c', hc', hn⟩ := hn
            obtain ⟨c, hc, h1, h2, h3⟩ := forall₂_right hall c' hc'
            exact ⟨c, hc, h2 n hn⟩
          have haps : Aparts cs' := by
            rw [aparts_iff]
            intro c' hc'
            obtain ⟨c, hc, h1, h2, h3⟩ := forall₂_right hall c' hc'
            exact h3
          unfold dispatch at h
          split at h
          · cases h
            exact ⟨fun env => den_node_congr g (hall.imp (fun _ _ h => h.1 env)), by simpa [bv] using hbs, by simpa [Apart] using haps⟩
          · simp only [bind, Except.bind, pure, Except.pure] at h
            cases hv : cs'.mapM (read I) with
            | error e => simp only [hv] at h; cases h
            | ok vs =>
              simp only [hv] at h
              cases ho : operation I g vs with
              | error e => simp only [ho] at h; cases h
              | ok v =>
                simp only [ho] at h
                cases h
                refine ⟨fun env => ?_, by simp [bv], by simp [Apart]⟩
                have hvs : List.Forall₂ (fun c v => den I strict env c = some v) cs' vs := (mapM_forall₂ hv).imp (fun _ _ h => den_read h)
                rw [← den_node_congr g (hall.imp (fun _ _ h => h.1 env)), (den_node_value hvs v).mp ho]
                simp [den]
    | fn body is =>
      simp only [evalF, bind, Except.bind, pure, Except.pure] at h
      cases hb1 : evalF I k ps body with
      | error e => simp only [hb1] at h; cases h
      | ok b =>
        simp only [hb1] at h
        cases hb2 : decay I b with
        | error e => simp only [hb2] at h; cases h
        | ok b' =>
          simp only [hb2] at h
          cases h
          rw [Apart] at hap
          obtain ⟨h1, h2, h3⟩ := ih ps body b hb1 hd (fun n hn => hb n (by rw [bv]; exact List.mem_append_right _ hn)) hap.2
          obtain ⟨d1, d2, d3, -⟩ := decay_spec hb2
          refine ⟨fun env => by simp [den], ?_, ?_⟩
          · intro n hn
            rw [bv, List.mem_append, d2] at hn
            rw [bv, List.mem_append]
            exact hn.imp id (h2 n)
          · rw [Apart, d2]
            exact ⟨fun i hi hh => hap.1 i hi (h2 i hh), d3 h3⟩
    | sum body n dom =>
      simp only [evalF, bind, Except.bind, throw, throwThe, MonadExceptOf.throw, pure, Except.pure] at h
      split at h
      · cases h
      rw [Apart] at hap
      have hn : n ∉ ps.map (·.1) := hb n (by simp [bv])
      cases hb1 : evalF I k ps body with
      | error e => simp only [hb1] at h; cases h
      | ok b =>
        simp only [hb1] at h
        cases hb2 : decay I b with
        | error e => simp only [hb2] at h; cases h
        | ok b' =>
          simp only [hb2] at h
          cases hd1 : evalF I k ps dom with
          | error e => simp only [hd1] at h; cases h
          | ok d =>
            simp only [hd1] at h
            obtain ⟨h1, h2, h3⟩ := ih ps body b hb1 hd (fun m hm => hb m (by simp [bv, hm])) hap.2.1
            obtain ⟨e1, e2, e3, -⟩ := decay_spec hb2
            obtain ⟨g1, g2, g3⟩ := ih ps dom d hd1 hd (fun m hm => hb m (by simp [bv, hm])) hap.2.2
            have hnb : n ∉ bv b' := by rw [e2]; exact fun hh => hap.1 (h2 n hh)
            have hsum : ∀ env, den I strict env (.sum b' n d) = den I strict (withPairs I env ps) (.sum body n dom) := by
              intro env
              simp only [den]
              rw [g1 env]
              have : (fun p => den I strict (put env n p) b') = fun p => den I strict (put (withPairs I env ps) n p) body := by
                funext p
                rw [e1, h1, withPairs_set I env ps n p hn]
              rw [this]
            have hbs : ∀ m ∈ bv (.sum b' n d : Tm V L), m ∈ bv (.sum body n dom : Tm V L) := by
              intro m hm
              simp only [bv, List.mem_cons, List.mem_append] at hm ⊢
              rcases hm with hm | hm | hm
              · exact Or.inl hm
              · exact Or.inr (Or.inl (h2 m (by rw [← e2]; exact hm)))
              · exact Or.inr (Or.inr (g2 m hm))
            have haps : Apart (.sum b' n d : Tm V L) := by
              rw [Apart]
              exact ⟨hnb, e3 h3, g3⟩
            split at h
            · cases h
              exact ⟨hsum, hbs, haps⟩
            · unfold sumNode at h
              split at h
              · cases h
              · split at h
                · cases h
                  exact ⟨hsum, hbs, haps⟩
                · simp only [bind, Except.bind, pure, Except.pure] at h
                  cases hr : read I d with
                  | error e => simp only [hr] at h; cases h
                  | ok dv =>
                    simp only [hr] at h
                    cases hs : sumLoop I (fun x => evalF I k [(n, .val x)] b') dv with
                    | error e => simp only [hs] at h; cases h
                    | ok v =>
                      simp only [hs] at h
                      cases h
                      refine ⟨fun env => ?_, by simp [bv], by simp [Apart]⟩
                      obtain ⟨pts, vs, hp, hf, ht⟩ := sumLoop_eq hs
                      rw [← hsum env]
                      simp only [den]
                      rw [den_read hr, Option.bind_some, hp, Option.bind_some]
                      have : pts.mapM (fun p => den I strict (put env n p) b') = some vs := by
                        refine mapM_some (hf.imp ?_)
                        rintro p w ⟨t, et, er⟩
                        obtain ⟨k1, -, -⟩ := ih [(n, .val p)] b' t et (by simp [Distinct]) (by intro m hm; simp; rintro rfl; exact hnb hm) (e3 h3)
                        have := k1 env
                        rw [den_read er] at this
                        rw [this]
                        congr 1
                      rw [this, Option.bind_some, ht]

end Nda.Clef
