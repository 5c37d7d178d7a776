import Verif.Lemmas.ClefStages
/-!
# C47, C48: evaluation of lazy expressions
-/
namespace Nda.Clef
open Nda.Clef.Spec

variable {V L : Type}

/-- The program evaluates the tree and the result is an ordinary value. -/
def Gives (I : Interp V L) (r : Except Err (Tm V L)) (v : V) : Prop := ∃ t, r = .ok t ∧ read I t = .ok v

/-! ### C47 -/

/-- Whenever evaluation gives an ordinary value, it is the value of the ordinary expression with the given values for the placeholders - whatever the tree (with sums and partial functions), provided no
placeholder is given twice, none of those given is an index of a sum in the tree, and no index is used by two nested sums. -/
theorem C47_value (I : Interp V L) (ps : Pairs V L) (t : Tm V L) (v : V) (hd : Distinct ps) (hb : ∀ n ∈ bv t, n ∉ ps.map (·.1)) (ha : Apart t) (h : Gives I (eval I ps t) v) (env : Env V) :
    den I false (withPairs I env ps) t = some v := by
  obtain ⟨t', e, r⟩ := h
  rw [← (evalF_sound I false _ ps t t' e hd hb ha).1 env]
  exact den_read r

/-- Trees without sums, all placeholders given: evaluation gives a value exactly when the ordinary expression, with both branches of every conditional evaluated, has that value.  Missing for the full
claim: in the ordinary expression `c ? a : b` only one branch is evaluated (`C47_if_else_witness`). -/
theorem C47_plain_partial (I : Interp V L) (ps : Pairs V L) (t : Tm V L) (v : V) (h0 : ps ≠ []) (hd : Distinct ps) (hp : Plain t) (hf : ∀ m ∈ fv t, m ∈ ps.map (·.1)) (env : Env V) :
    Gives I (eval I ps t) v ↔ den I true (withPairs I env ps) t = some v := by
  have hr : Ready (ps.map (·.1)) [] t := plain_ready hp (fun m hm => Or.inl (hf m hm))
  obtain ⟨hb, ha⟩ := plain_bv hp
  constructor
  · rintro ⟨t', e, r⟩
    rw [← (evalF_sound I true _ ps t t' e hd (by rw [hb]; simp) ha).1 env]
    exact den_read r
  · intro hv
    obtain ⟨t', e, hres⟩ := evalF_progress I _ t (Nat.le_refl _) ps [] env v h0 hd hr (by simp) (by simp) hv
    refine ⟨t', e, leaf_read (env := env) (hres.value hf) ?_⟩
    rw [(evalF_sound I true _ ps t t' e hd (by rw [hb]; simp) ha).1 env, hv]

/-- Trees with sums: the same, when every sum depends on the index of an enclosing sum or on exactly the placeholders given (`Ready`).  Missing: sums that depend on some of them only stay unevaluated
(`C47_superfluous_witness`). -/
theorem C47_sums_partial (I : Interp V L) (ps : Pairs V L) (t : Tm V L) (v : V) (h0 : ps ≠ []) (hd : Distinct ps) (hr : Ready (ps.map (·.1)) [] t) (env : Env V) :
    Gives I (eval I ps t) v ↔ den I true (withPairs I env ps) t = some v := by
  obtain ⟨hb, ha⟩ := ready_bv hr
  have hf : ∀ m ∈ fv t, m ∈ ps.map (·.1) := fun m hm => (ready_fv hr m hm).resolve_right (by simp)
  constructor
  · rintro ⟨t', e, r⟩
    rw [← (evalF_sound I true _ ps t t' e hd (fun n hn => (hb n hn).1) ha).1 env]
    exact den_read r
  · intro hv
    obtain ⟨t', e, hres⟩ := evalF_progress I _ t (Nat.le_refl _) ps [] env v h0 hd hr (by simp) (by simp) hv
    refine ⟨t', e, leaf_read (env := env) (hres.value hf) ?_⟩
    rw [(evalF_sound I true _ ps t t' e hd (fun n hn => (hb n hn).1) ha).1 env, hv]

/-! ### C48 -/

/-- Evaluation in stages. -/
def stages (I : Interp V L) : List (Pairs V L) → Tm V L → Except Err (Tm V L)
  | [], t => .ok t
  | ps :: qs, t => do
    let t' ← eval I ps t
    stages I qs t'

theorem stages_sound {I : Interp V L} {strict : Bool} : ∀ {qs : List (Pairs V L)} {t t' : Tm V L}, stages I qs t = .ok t' → (∀ q ∈ qs, Distinct q) → (∀ q ∈ qs, ∀ n ∈ bv t, n ∉ q.map (·.1)) → Apart t →
    ∀ env, den I strict env t' = den I strict (withPairs I env qs.flatten) t
  | [], t, t', h, _, _, _, env => by rw [stages] at h; cases h; rfl
  | ps :: qs, t, t', h, hd, hb, ha, env => by
    simp only [stages, bind, Except.bind] at h
    cases he : eval I ps t with
    | error e => simp only [he] at h; cases h
    | ok t1 =>
      simp only [he] at h
      obtain ⟨s1, s2, s3⟩ := evalF_sound I strict _ ps t t1 he (hd ps List.mem_cons_self) (hb ps List.mem_cons_self) ha
      rw [stages_sound h (fun q hq => hd q (List.mem_cons_of_mem _ hq)) (fun q hq n hn => hb q (List.mem_cons_of_mem _ hq) n (s2 n hn)) s3 env, s1, List.flatten_cons, withPairs_append]

theorem distinct_flatten {qs : List (Pairs V L)} (h : Distinct qs.flatten) : ∀ q ∈ qs, Distinct q := by
  intro q hq
  refine List.Sublist.nodup ?_ h
  exact (List.sublist_flatten_of_mem hq).map _

/-- Whatever the stages and the order: if two ways of giving the same values to the same placeholders both end in an ordinary value, it is the same value - any tree, any number of stages.  Trees kept
alive meanwhile (see `C48_dangling_witness`). -/
theorem C48_same_value (I : Interp V L) (t : Tm V L) (qs rs : List (Pairs V L)) (v w : V) (hperm : qs.flatten.Perm rs.flatten) (hd : Distinct qs.flatten) (hb : ∀ n ∈ bv t, n ∉ qs.flatten.map (·.1)) (ha : Apart t)
    (h1 : Gives I (stages I qs t) v) (h2 : Gives I (stages I rs t) w) : v = w := by
  obtain ⟨t1, e1, r1⟩ := h1
  obtain ⟨t2, e2, r2⟩ := h2
  have hd' : Distinct rs.flatten := (hperm.map _).nodup_iff.mp hd
  have mem : ∀ (ss : List (Pairs V L)) (q : Pairs V L), q ∈ ss → ∀ n, n ∈ q.map (·.1) → n ∈ ss.flatten.map (·.1) := by
    intro ss q hq n hn
    obtain ⟨x, hx, rfl⟩ := List.mem_map.mp hn
    exact List.mem_map.mpr ⟨x, List.mem_flatten.mpr ⟨q, hq, hx⟩, rfl⟩
  have s1 := stages_sound (strict := true) e1 (distinct_flatten hd) (fun q hq n hn h => hb n hn (mem qs q hq n h)) ha (fun _ => none)
  have s2 := stages_sound (strict := true) e2 (distinct_flatten hd') (fun q hq n hn h => hb n hn ((hperm.map _).mem_iff.mpr (mem rs q hq n h))) ha (fun _ => none)
  rw [den_read r1] at s1
  rw [den_read r2, ← withPairs_perm hperm hd, ← s1] at s2
  exact (Option.some.inj s2).symm

theorem stages_value {I : Interp V L} : ∀ (qs : List (Pairs V L)) (t : Tm V L) (v : V) (env : Env V), qs ≠ [] → (∀ q ∈ qs, q ≠ []) → Distinct qs.flatten → Staged (qs.map (·.map (·.1))) [] t →
    den I true (withPairs I env qs.flatten) t = some v → Gives I (stages I qs t) v := by
  intro qs
  induction qs with
  | nil => intro t v env h; exact absurd rfl h
  | cons ps qs ih =>
    intro t v env _ hne hd hst hv
    have hdp := distinct_flatten hd
    rw [List.flatten_cons, withPairs_append] at hv
    rw [Distinct, List.flatten_cons, List.map_append] at hd
    have hdq : Distinct qs.flatten := (List.nodup_append.mp hd).2.1
    obtain ⟨hb, ha⟩ := staged_bv hst
    rw [List.map_flatten] at hd
    rw [List.map_cons] at hst hb
    obtain ⟨t1, e1, hres⟩ := evalF_stage I _ t (Nat.le_refl _) ps _ [] _ v (hne ps List.mem_cons_self) hd (by
      intro Q hQ
      obtain ⟨q, hq, rfl⟩ := List.mem_map.mp hQ
      simpa using hne q (List.mem_cons_of_mem _ hq)) hst (by simp) (by simp) hv
    have hs := (evalF_sound I true _ ps t t1 e1 (hdp ps List.mem_cons_self) (fun m hm h => (hb m hm).1 (by rw [List.flatten_cons]; exact List.mem_append_left _ h)) ha).1 (withPairs I env qs.flatten)
    have hev : eval I ps t = .ok t1 := e1
    cases qs with
    | nil =>
      have hleaf : IsLeaf t1 := by
        have hf : ∀ m ∈ fv t, m ∈ ps.map (·.1) := fun m hm => by simpa using staged_fv hst m hm
        have hr := staged_now (Ps := []) (by simpa using hd) (by simp) hst (by simp) (fun m hm => Or.inl (hf m hm))
        obtain ⟨t2, e2, hres2⟩ := evalF_progress I _ t (Nat.le_refl _) ps [] _ v (hne ps List.mem_cons_self) (hdp ps List.mem_cons_self) hr (by simp) (by simp) hv
        cases e1.symm.trans e2
        exact hres2.value hf
      exact ⟨t1, by simp only [stages, bind, Except.bind, hev], leaf_read hleaf (hs.trans hv)⟩
    | cons q qs' =>
      obtain ⟨t2, e2, r2⟩ := ih t1 v env (by simp) (fun q hq => hne q (List.mem_cons_of_mem _ hq)) hdq hres.staged (hs.trans hv)
      exact ⟨t2, by rw [stages]; simp only [bind, Except.bind, hev]; exact e2, r2⟩

/-- Evaluation in any number of stages gives a value exactly when the expression has it with all the values given, if every sum depends on an index of a sum around it, or on all the placeholders of one of the stages and
on none of a later one. -/
theorem C48_sums (I : Interp V L) (t : Tm V L) (qs : List (Pairs V L)) (v : V) (hne : ∀ q ∈ qs, q ≠ []) (h0 : qs ≠ []) (hd : Distinct qs.flatten) (hst : Staged (qs.map (·.map (·.1))) [] t) (env : Env V) :
    Gives I (stages I qs t) v ↔ den I true (withPairs I env qs.flatten) t = some v := by
  obtain ⟨hb, ha⟩ := staged_bv hst
  constructor
  · rintro ⟨t', e, r⟩
    rw [← stages_sound e (distinct_flatten hd) (fun q hq n hn h => (hb n hn).1 (List.mem_flatten.mpr ⟨_, List.mem_map.mpr ⟨q, hq, rfl⟩, h⟩)) ha env]
    exact den_read r
  · exact stages_value qs t v env h0 hne hd hst

/-- Trees without sums: giving all placeholders at once, or in any number of stages in any order, has the same outcome. -/
theorem C48_stages (I : Interp V L) (t : Tm V L) (ps : Pairs V L) (qs : List (Pairs V L)) (v : V) (hne : ∀ q ∈ qs, q ≠ []) (h0 : qs ≠ []) (hperm : ps.Perm qs.flatten) (hd : Distinct ps) (hp : Plain t)
    (hf : ∀ m ∈ fv t, m ∈ ps.map (·.1)) : Gives I (eval I ps t) v ↔ Gives I (stages I qs t) v := by
  have hd' : Distinct qs.flatten := (hperm.map _).nodup_iff.mp hd
  obtain ⟨hb, ha⟩ := plain_bv hp
  have hps : ps ≠ [] := by
    rintro rfl
    cases qs with
    | nil => exact h0 rfl
    | cons q qs =>
      have := hperm.nil_eq
      rw [eq_comm, List.flatten_cons, List.append_eq_nil_iff] at this
      exact hne q List.mem_cons_self this.1
  rw [C47_plain_partial I ps t v hps hd hp hf (fun _ => none), withPairs_perm hperm hd]
  constructor
  · intro hv
    exact stages_value qs t v _ h0 hne hd' (plain_staged hp (fun m hm => Or.inl (by rw [← List.map_flatten]; exact (hperm.map _).mem_iff.mp (hf m hm)))) hv
  · rintro ⟨t', e, r⟩
    rw [← stages_sound e (distinct_flatten hd') (by rw [hb]; simp) ha (fun _ => none)]
    exact den_read r

/-- A function made of an expression, called with as many arguments as parameters, gives the value of the expression with the arguments for the parameters. -/
theorem C48_function (I : Interp V L) (t f : Tm V L) (is : List Nat) (args : List (Arg V L)) (v : V) (hm : makeFunction I t is = .ok f) (hl : is.length = args.length) (h0 : is ≠ []) (hd : is.Nodup) (hp : Plain t)
    (hf : ∀ m ∈ fv t, m ∈ is) (env : Env V) : (Gives I (call I f args) v ↔ den I true (withPairs I env (is.zip args)) t = some v) ∧ (Gives I (call I f args) v ↔ Gives I (eval I (is.zip args) t) v) := by
  simp only [makeFunction, bind, Except.bind] at hm
  cases hb : decay I t with
  | error e => simp only [hb] at hm; cases hm
  | ok b =>
    simp only [hb, pure, Except.pure] at hm
    cases hm
    obtain ⟨hdec, -, -, hfvb, -⟩ := decay_spec hb
    have hz : (is.zip args).map (·.1) = is := List.map_fst_zip (by omega)
    have hpb : Plain b := by
      unfold decay at hb
      split at hb
      · cases hb; exact hp
      · cases hb; simp [Plain]
      · split at hb
        · cases hb; simp [Plain]
        · cases hb
      · cases hb
      · cases hb; exact hp
    have hne : is.zip args ≠ [] := by intro h; rw [h] at hz; exact h0 hz.symm
    have hdz : Distinct (is.zip args) := by rw [Distinct, hz]; exact hd
    rw [call, if_pos hl, C47_plain_partial I _ b v hne hdz hpb (by rw [hz, hfvb]; exact hf) env, C47_plain_partial I _ t v hne hdz hp (by rw [hz]; exact hf) env, hdec]
    exact ⟨Iff.rfl, Iff.rfl⟩

/-- Evaluating a function made of an expression with some placeholders, then calling it with the others, gives the value of the expression with all of them. -/
theorem C48_function_stages (I : Interp V L) (t f f' : Tm V L) (is : List Nat) (ps : Pairs V L) (args : List (Arg V L)) (v : V) (hm : makeFunction I t is = .ok f) (he : eval I ps f = .ok f') (hl : is.length = args.length)
    (hd : Distinct (is.zip args ++ ps)) (hp : Plain t) (env : Env V) (h : Gives I (call I f' args) v) : den I true (withPairs I env (is.zip args ++ ps)) t = some v := by
  simp only [makeFunction, bind, Except.bind] at hm
  cases hb : decay I t with
  | error e => simp only [hb] at hm; cases hm
  | ok b =>
    simp only [hb, pure, Except.pure] at hm
    cases hm
    obtain ⟨hdec, hbv, hap, -, -⟩ := decay_spec hb
    obtain ⟨hpb, hpa⟩ := plain_bv hp
    have hd1 : Distinct (is.zip args) := by rw [Distinct, List.map_append] at hd; exact (List.nodup_append.mp hd).1
    have hd2 : Distinct ps := by rw [Distinct, List.map_append] at hd; exact (List.nodup_append.mp hd).2.1
    simp only [eval, depth, evalF, bind, Except.bind] at he
    cases hb1 : evalF I (depth b) ps b with
    | error e => simp only [hb1] at he; cases he
    | ok b1 =>
      simp only [hb1] at he
      cases hb2 : decay I b1 with
      | error e => simp only [hb2] at he; cases he
      | ok b2 =>
        simp only [hb2, pure, Except.pure] at he
        cases he
        obtain ⟨s1, s2, s3⟩ := evalF_sound I true _ ps b b1 hb1 hd2 (by rw [hbv, hpb]; simp) (hap hpa)
        obtain ⟨hdec2, hbv2, hap2, -, -⟩ := decay_spec hb2
        obtain ⟨r, er, rr⟩ := h
        rw [call, if_pos hl] at er
        have hnb : ∀ n ∈ bv b2, n ∉ (is.zip args).map (·.1) := by
          intro n hn
          rw [hbv2] at hn
          have := s2 n hn
          rw [hbv, hpb] at this
          cases this
        have k := (evalF_sound I true _ (is.zip args) b2 r er hd1 hnb (hap2 s3)).1 env
        rw [den_read rr, hdec2, s1, hdec] at k
        rw [k]
        have hperm : (is.zip args ++ ps).Perm (ps ++ is.zip args) := List.perm_append_comm
        rw [withPairs_perm hperm hd, withPairs_append]

/-! ### A concrete interpretation -/

/-- Integers; an integer `d` as a domain is `0, ..., d-1`; the referenced objects are `10, 20, 30`. -/
def ints : Interp Int Nat where
  op t vs := match t, vs with
    | .plus, [a, b] => some (a + b)
    | .minus, [a, b] => some (a - b)
    | .multiplies, [a, b] => some (a * b)
    | .divides, [a, b] => if b = 0 then none else some (a / b)
    | .eq, [a, b] => some (if a = b then 1 else 0)
    | .negate, [a] => some (-a)
    | _, _ => none
  load l := [10, 20, 30][l]?
  truth v := some (v ≠ 0)
  points d := if d < 0 then none else some ((List.range d.toNat).map Int.ofNat)

/-- The number a program ends with. -/
def result (I : Interp V L) (r : Except Err (Tm V L)) : Except Err V := match r with
  | .ok t => read I t
  | .error e => .error e

theorem gives_iff {I : Interp V L} {r : Except Err (Tm V L)} {v : V} : Gives I r v ↔ result I r = .ok v := by
  cases r with
  | error e => simp [Gives, result]
  | ok t => simp [Gives, result]

/-- `x_ * 3 - (y_ + z)`, with `z` an object outside. -/
def sample : Tm Int Nat := .node .minus [.node .multiplies [.ph 0, .val 3], .node .plus [.ph 1, .ref 0]]

example : ([(0, .val 4), (1, .ref 2)] : Pairs Int Nat) ≠ [] ∧ Distinct ([(0, .val 4), (1, .ref 2)] : Pairs Int Nat) ∧ Plain sample ∧ (∀ m ∈ fv sample, m ∈ ([(0, .val 4), (1, .ref 2)] : Pairs Int Nat).map (·.1)) ∧
    result ints (eval ints [(0, .val 4), (1, .ref 2)] sample) = .ok (-28) := by
  refine ⟨by simp, by simp [Distinct], by simp [Plain, Plains, sample], by simp [fv, fvs, sample], by decide +kernel⟩

/-- `sum(sum(x_ * y_ + w_, x_ = 3), y_ = 4) * w_` at `w_ = 2`. -/
def sampleSum : Tm Int Nat := .node .multiplies [.sum (.sum (.node .plus [.node .multiplies [.ph 0, .ph 1], .ph 2]) 0 (.val 3)) 1 (.val 4), .ph 2]

example : Ready (([(2, .val 2)] : Pairs Int Nat).map (·.1)) [] sampleSum ∧ result ints (eval ints [(2, .val 2)] sampleSum) = .ok 84 := by
  constructor
  · simp [Ready, Readys, sampleSum, IsLeaf, fv, fvs]
    intro m
    constructor
    · rintro ⟨h1, h2⟩; omega
    · rintro rfl; omega
  · decide +kernel

example : result ints (stages ints [[(1, .ref 2)], [(0, .val 4)]] sample) = .ok (-28) ∧ result ints (stages ints [[(0, .val 4)], [(1, .ref 2)]] sample) = .ok (-28) := by decide +kernel

example : (do let f ← makeFunction ints sample [1, 0]; result ints (call ints f [.ref 2, .val 4])) = .ok (-28) ∧
    (do let f ← makeFunction ints sample [1]; let g ← eval ints [(0, .val 4)] f; result ints (call ints g [.ref 2])) = .ok (-28) := by decide +kernel

/-! ### Disagreements -/

/-- `if_else(x_ == 0, 0, 1 / x_)` at `x_ = 0`: the ordinary `c ? a : b` is 0; the lazy one divides by zero. -/
theorem C47_if_else_witness : ∃ (I : Interp Int Nat) (t : Tm Int Nat) (ps : Pairs Int Nat), Plain t ∧ Distinct ps ∧ (∀ m ∈ fv t, m ∈ ps.map (·.1)) ∧ den I false (withPairs I (fun _ => none) ps) t = some 0 ∧
    result I (eval I ps t) = .error .undef :=
  ⟨ints, .node .ifElse [.node .eq [.ph 0, .val 0], .val 0, .node .divides [.val 1, .ph 0]], [(0, .val 0)], by simp [Plain, Plains], by simp [Distinct], by simp [fv, fvs], by decide +kernel, by decide +kernel⟩

/-- `eval(sum(x_ * y_, x_ = 3) * z_, y_ = 1, z_ = 2)`: all placeholders are given, the ordinary value is 6, but the sum, which does not depend on `z_`, stays lazy: the result is no value. -/
theorem C47_superfluous_witness : ∃ (I : Interp Int Nat) (t : Tm Int Nat) (ps : Pairs Int Nat), Distinct ps ∧ (∀ n ∈ bv t, n ∉ ps.map (·.1)) ∧ Apart t ∧ (∀ m ∈ fv t, m ∈ ps.map (·.1)) ∧
    den I false (withPairs I (fun _ => none) ps) t = some 6 ∧ result I (eval I ps t) = .error .illFormed :=
  ⟨ints, .node .multiplies [.sum (.node .multiplies [.ph 0, .ph 1]) 0 (.val 3), .ph 2], [(1, .val 1), (2, .val 2)], by simp [Distinct], by simp [bv, bvs], by simp [Apart, Aparts, bv, bvs], by simp [fv, fvs],
    by decide +kernel, by decide +kernel⟩

/-- `eval(x_, x_ = 1, x_ = 2, y_ = 7)` is 7: the positions of a placeholder given twice are added up. -/
theorem C47_twice_witness : result ints (eval ints [(0, .val 1), (0, .val 2), (1, .val 7)] (.ph 0)) = .ok 7 := by decide +kernel

/-- With a literal placeholder (`INT_MAX - 'i'`) as index, a sum is rejected by the compiler. -/
theorem C47_literal_witness : sum1 ints (.ph 2147483542) 2147483542 (.val 3) = .error .illFormed := by rfl

/-- `sum(i_ * x_, x_ = 3) + sum(i_ + j_ * y_, y_ = 2)` evaluated with `i_ = 4`, then `j_ = 1`: 12 + (4 + 5). -/
example : Gives ints (stages ints [[(0, .val 4)], [(1, .val 1)]] (.node .plus [.sum (.node .multiplies [.ph 0, .ph 2]) 2 (.val 3), .sum (.node .plus [.ph 0, .node .multiplies [.ph 1, .ph 3]]) 3 (.val 2)])) 21 := by
  rw [C48_sums ints _ _ _ (by simp) (by simp) (by simp [Distinct]) ?_ (fun _ => none)]
  · decide +kernel
  · simp only [Staged, Stageds, fv, fvs]
    refine ⟨⟨by simp, by simp, by simp, trivial, Or.inr ⟨[], [0], [[1]], rfl, ?_⟩, by simp, by simp, trivial⟩, ⟨by simp, by simp, by simp, trivial, Or.inr ⟨[[0]], [1], [], rfl, ?_⟩, by simp, by simp, trivial⟩, trivial⟩
    · intro m; simp; omega
    · intro m; simp; omega

/-- The same sums with `i_` and `j_` given at once: the first sum is not evaluated, and the program is rejected. -/
theorem C48_sum_witness : result ints (eval ints [(0, .val 4), (1, .val 1)] (.node .plus [.sum (.node .multiplies [.ph 0, .ph 2]) 2 (.val 3), .sum (.node .plus [.ph 0, .node .multiplies [.ph 1, .ph 3]]) 3 (.val 2)])) = .error .illFormed ∧
    result ints (stages ints [[(0, .val 4)], [(1, .val 1)]] (.node .plus [.sum (.node .multiplies [.ph 0, .ph 2]) 2 (.val 3), .sum (.node .plus [.ph 0, .node .multiplies [.ph 1, .ph 3]]) 3 (.val 2)])) = .ok 21 := by
  decide +kernel

/-- Capture: `eval(eval(sum(x_ + y_, x_ = 3), x_ = 5), y_ = 2)` is 21 although `x_` is not free in the sum, whose value at `y_ = 2` is 9. -/
theorem C48_capture_witness : ∃ (t : Tm Int Nat), fv t = [1] ∧ den ints true (withPairs ints (fun _ => none) [(0, .val 5), (1, .val 2)]) t = some 9 ∧ result ints (stages ints [[(0, .val 5)], [(1, .val 2)]] t) = .ok 21 :=
  ⟨.sum (.node .plus [.ph 0, .ph 1]) 0 (.val 3), by decide +kernel, by decide +kernel, by decide +kernel⟩

/-- `auto e = eval(x_ + 3 * y_, x_ = 1)`: the 3 is stored in the original (a temporary); once that is gone, `eval(e, y_ = 2)` reads a destroyed object. -/
theorem C48_dangling_witness : ∃ (t : Tm Int Nat), Plain t ∧ result ints (eval ints [(0, .val 1), (1, .val 2)] t) = .ok 7 ∧
    (do let e ← eval ints [(0, .val 1)] t; result ints (eval ints [(1, .val 2)] (expire e))) = .error .undef :=
  ⟨.node .plus [.ph 0, .node .multiplies [.val 3, .ph 1]], by simp [Plain, Plains], by decide +kernel, by decide +kernel⟩

/-! ### Lifetimes -/

mutual
theorem expire_owned : ∀ {t : Tm V L}, Owned t → expire t = t
  | .val _, _ => rfl
  | .bor _, h => by simp [Owned] at h
  | .ref _, _ => rfl
  | .dead, _ => rfl
  | .ph _, _ => rfl
  | .node g cs, h => by
      simp only [Owned] at h
      simp only [expire, expires_owned h]
  | .fn b is, h => by
      simp only [Owned] at h
      simp only [expire, expire_owned h]
  | .sum b n d, h => by
      simp only [Owned] at h
      simp only [expire, expire_owned h.1, expire_owned h.2]
theorem expires_owned : ∀ {cs : List (Tm V L)}, Owneds cs → expires cs = cs
  | [], _ => rfl
  | c :: cs, h => by
      simp only [Owneds] at h
      simp only [expires, expire_owned h.1, expires_owned h.2]
end

theorem owneds_iff {cs : List (Tm V L)} : Owneds cs ↔ ∀ c ∈ cs, Owned c := by
  induction cs with
  | nil => simp [Owneds]
  | cons c cs ih => simp [Owneds, ih]

theorem outsides_iff {cs : List (Tm V L)} : Outsides cs ↔ ∀ c ∈ cs, Outside c := by
  induction cs with
  | nil => simp [Outsides]
  | cons c cs ih => simp [Outsides, ih]

theorem decay_owned {I : Interp V L} {t t' : Tm V L} (h : decay I t = .ok t') (ho : IsLeaf t ∨ Owned t) : Owned t' := by
  unfold decay at h
  split at h
  · cases h; simp [Owned]
  · cases h; simp [Owned]
  · split at h <;> cases h
    simp [Owned]
  · cases h
  · rename_i h1 h2 h3 h4
    cases h
    refine ho.resolve_left (fun hl => ?_)
    cases t <;> simp_all [IsLeaf]

/-- C48: a function made of an object, or of an expression that holds only objects of its own and references to objects outside, does not depend on the life of any other tree. -/
theorem C48_function_survives (I : Interp V L) (t f : Tm V L) (is : List Nat) (h : makeFunction I t is = .ok f) (ho : IsLeaf t ∨ Owned t) : Owned f ∧ expire f = f := by
  simp only [makeFunction, bind, Except.bind] at h
  cases hb : decay I t with
  | error e => simp only [hb] at h; cases h
  | ok b =>
    simp only [hb, pure, Except.pure] at h
    cases h
    have : Owned (.fn b is : Tm V L) := by simpa only [Owned] using decay_owned hb ho
    exact ⟨this, expire_owned this⟩

theorem dispatch_owned {I : Interp V L} {lz : Bool} {g : Tag} {cs : List (Tm V L)} {t : Tm V L} (h : dispatch I lz g cs = .ok t) (ho : Owneds cs) : Owned t := by
  unfold dispatch at h
  split at h
  · cases h; simpa only [Owned] using ho
  · simp only [bind, Except.bind] at h
    split at h
    · cases h
    · split at h
      · cases h
      · cases h; simp [Owned]

theorem sumNode_owned {I : Interp V L} {f : V → Except Err (Tm V L)} {b d t : Tm V L} {n : Nat} (h : sumNode I f b n d = .ok t) (hb : Owned b) (hd : Owned d) : Owned t := by
  unfold sumNode at h
  split at h
  · cases h
  · split at h
    · cases h; simpa only [Owned] using And.intro hb hd
    · simp only [bind, Except.bind] at h
      split at h
      · cases h
      · split at h
        · cases h
        · cases h; simp [Owned]

theorem evalPh_owned {n : Nat} {ps : Pairs V L} {t : Tm V L} (h : evalPh n ps = .ok t) : Owned t := by
  unfold evalPh at h
  split at h
  · cases h
  · split at h
    · cases h; simp [Owned]
    · split at h
      · rename_i a _
        cases h
        cases ha : a.2 <;> simp [Arg.toTm, Owned]
      · cases h

theorem evalF_owned (I : Interp V L) : ∀ (k : Nat) (ps : Pairs V L) (t t' : Tm V L), Outside t → evalF I k ps t = .ok t' → Owned t' := by
  intro k
  induction k with
  | zero => intro ps t t' _ h; cases h
  | succ k ih =>
    intro ps t t' ho h
    cases t with
    | val v => simp [Outside] at ho
    | bor v => simp [Outside] at ho
    | dead => simp [Outside] at ho
    | ref l => simp only [evalF] at h; cases h; simp [Owned]
    | ph n => simp only [evalF] at h; exact evalPh_owned h
    | node g cs =>
      simp only [evalF, bind, Except.bind, throw, throwThe, MonadExceptOf.throw, pure, Except.pure] at h
      split at h
      · cases h
      · cases hm : cs.mapM (evalF I k ps) with
        | error e => simp only [hm] at h; cases h
        | ok cs' =>
          simp only [hm] at h
          simp only [Outside, outsides_iff] at ho
          have hall := forall₂_imp_mem (S := fun _ c' => Owned c') (mapM_forall₂ hm) (fun c hc c' _ e => ih ps c c' (ho c hc) e)
          refine dispatch_owned h (owneds_iff.mpr (fun c' hc' => ?_))
          obtain ⟨i, hi, rfl⟩ := List.mem_iff_getElem.mp hc'
          exact (List.forall₂_iff_get.mp hall).2 i (by rw [hall.length_eq]; exact hi) hi
    | fn body is =>
      simp only [evalF, bind, Except.bind] at h
      simp only [Outside] at ho
      cases hb : evalF I k ps body with
      | error e => simp only [hb] at h; cases h
      | ok b =>
        simp only [hb] at h
        cases hd : decay I b with
        | error e => simp only [hd] at h; cases h
        | ok b' =>
          simp only [hd, pure, Except.pure] at h
          cases h
          simpa only [Owned] using decay_owned hd (Or.inr (ih ps body b ho hb))
    | sum body n dom =>
      simp only [evalF, bind, Except.bind, throw, throwThe, MonadExceptOf.throw, pure, Except.pure] at h
      simp only [Outside] at ho
      split at h
      · cases h
      · cases hb : evalF I k ps body with
        | error e => simp only [hb] at h; cases h
        | ok b =>
          simp only [hb] at h
          cases hd : decay I b with
          | error e => simp only [hd] at h; cases h
          | ok b' =>
            simp only [hd] at h
            have hb' := decay_owned hd (Or.inr (ih ps body b ho.1 hb))
            cases hm : evalF I k ps dom with
            | error e => simp only [hm] at h; cases h
            | ok d =>
              simp only [hm] at h
              have hd' := ih ps dom d ho.2 hm
              split at h
              · cases h; simpa only [Owned] using And.intro hb' hd'
              · exact sumNode_owned h hb' hd'

/-- C48: partial evaluation of an expression that stores no objects (all operands are lvalues or placeholders) gives an expression that outlives the original. -/
theorem C48_outside_survives (I : Interp V L) (ps : Pairs V L) (t t' : Tm V L) (ho : Outside t) (h : eval I ps t = .ok t') : Owned t' ∧ expire t' = t' := by
  have := evalF_owned I _ ps t t' ho h
  exact ⟨this, expire_owned this⟩

/-- C48: the value of an operation outlives the original, whatever its operands are. -/
theorem C48_value_survives (I : Interp V L) (ps : Pairs V L) (g : Tag) (cs : List (Tm V L)) (t' : Tm V L) (v : V) (h : eval I ps (.node g cs) = .ok t') (hr : read I t' = .ok v) :
    t' = .val v := by
  unfold eval at h
  simp only [depth, evalF, bind, Except.bind, throw, throwThe, MonadExceptOf.throw, pure, Except.pure] at h
  split at h
  · cases h
  · split at h
    · cases h
    · unfold dispatch at h
      split at h
      · cases h; cases hr
      · simp only [bind, Except.bind] at h
        split at h
        · cases h
        · split at h
          · cases h
          · cases h
            simp only [read, Except.ok.injEq] at hr
            rw [hr]

/-- `eval(x_ + a * y_, x_ = 1)` with an lvalue `a` outlives the original expression. -/
example : Outside (.node .plus [.ph 0, .node .multiplies [.ref 0, .ph 1]] : Tm Int Nat) := by simp [Outside, Outsides]

end Nda.Clef
