import Verif.Lemmas.ThrowSmall
import Verif.Props.Sso
/-!
# C85: small-buffer and stack storage when the constructors of elements throw
-/
namespace Nda.Mem.SProg
open Nda.Mem Nda.Exc Spec

variable {V : Type} {K : Nat} {p g : SProg V} {L : List (Nat × Block V)}

theorem setCell_size {p p' : SProg V} {d i s : Nat} {c : Option V} (h : p.setCell d i c = some p') {y : Sso V} (hy : p.var s = some y) :
    ∃ y', p'.var s = some y' ∧ y'.size = y.size := by
  by_cases e : s = d
  · subst e
    obtain ⟨x', h1, -, h2⟩ := setCell_var h hy
    exact ⟨x', h1, h2⟩
  · refine ⟨y, ?_, rfl⟩
    simp only [SProg.setCell, Option.bind_eq_bind, Option.bind_eq_some_iff] at h
    obtain ⟨x, -, h⟩ := h
    cases hdt : x.data with
    | null => rw [hdt] at h; cases h
    | inline =>
        rw [hdt] at h
        simp only at h
        split at h
        · cases h; rw [var_set_ne e]; exact hy
        · cases h
    | block b =>
        rw [hdt] at h
        simp only [Option.bind_eq_some_iff] at h
        obtain ⟨blk, -, h⟩ := h
        split at h
        · cases h; exact hy
        · cases h

theorem destroyFrom_size {d s : Nat} (n : Nat) : ∀ {i : Nat} {p p' : SProg V} {y : Sso V},
    destroyFrom d n i p = some p' → p.var s = some y → ∃ y', p'.var s = some y' ∧ y'.size = y.size := by
  induction n with
  | zero => intro i p p' y h hy; cases h; exact ⟨y, hy, rfl⟩
  | succ n ih =>
      intro i p p' y h hy
      simp only [SProg.destroyFrom, SProg.destroyCell, Option.bind_eq_bind, Option.bind_eq_some_iff] at h
      obtain ⟨p1, ⟨old, -, h2⟩, h3⟩ := h
      split at h2
      · cases h2
      · obtain ⟨y1, h4, h5⟩ := setCell_size h2 hy
        obtain ⟨y2, h6, h7⟩ := ih h3 h4
        exact ⟨y2, h6, h7.trans h5⟩

theorem clean_size {p p' : SProg V} {d s : Nat} (h : p.clean false K d = some p') {y : Sso V} (hy : p.var s = some y) :
    ∃ y', p'.var s = some y' ∧ y'.size = y.size := by
  simp only [SProg.clean, Option.bind_eq_bind, Option.bind_eq_some_iff] at h
  obtain ⟨x, -, h⟩ := h
  split at h
  · cases h; exact ⟨y, hy, rfl⟩
  · simp only [SProg.cleanElems, Bool.false_eq_true, if_false, Option.bind_eq_some_iff] at h
    obtain ⟨p1, h1, p2, h2, h3⟩ := h
    obtain ⟨y1, hy1, e1⟩ := destroyFrom_size _ h1 hy
    have hy2 : p2.var s = some y1 := by
      unfold SProg.cleanBlock at h2
      split at h2
      · cases hd : x.data with
        | null => rw [hd] at h2; cases h2
        | inline => rw [hd] at h2; cases h2
        | block b =>
            rw [hd] at h2
            simp only [Option.bind_eq_bind, Option.bind_eq_some_iff] at h2
            obtain ⟨hp, -, h4⟩ := h2
            cases h4; exact hy1
      · cases h2; exact hy1
    simp only [SProg.nullify, Option.bind_eq_bind, Option.bind_eq_some_iff] at h3
    obtain ⟨z, hz, h3⟩ := h3
    cases h3
    by_cases e : s = d
    · subst e
      rw [hy2] at hz; cases hz
      exact ⟨_, var_set_self (lt_of_var' hy2) _, e1⟩
    · exact ⟨y1, by rw [var_set_ne e]; exact hy2, e1⟩

/-- `Spec.work` in terms of the variables of the program. -/
def pwork (K : Nat) (p : SProg V) : SOp V → Nat
  | .new d n => if p.var d = none ∧ d < p.vars.length then n else 0
  | .newZero _ _ => 0
  | .newFrom d vs => if p.var d = none ∧ d < p.vars.length then vs.length else 0
  | .copy d s => match p.var s with
      | some y => if p.var d = none ∧ d < p.vars.length then y.size else 0
      | none => 0
  | .move d s => match p.var s with
      | some y => if p.var d = none ∧ d < p.vars.length ∧ y.size ≤ K then y.size else 0
      | none => 0
  | .copyAssign d s => match p.var d, p.var s with
      | some _, some y => y.size
      | _, _ => 0
  | .moveAssign d s => match p.var d, p.var s with
      | some _, some y => if y.size ≤ K then y.size else 0
      | _, _ => 0
  | .destroy _ => 0
  | .write d i _ => match p.var d with
      | some y => if i < y.size then 1 else 0
      | none => 0

theorem Rep.pwork {a : Vals V} (r : Rep false K p a) (op : SOp V) : pwork K p op = work K a op := by
  have guard : ∀ d, (p.var d = none ∧ d < p.vars.length) ↔ (a.get d = none ∧ d < a.length) := by
    intro d
    rw [r.len]
    refine and_congr_left fun _ => ⟨r.dead, fun h => ?_⟩
    cases hv : p.var d with
    | none => rfl
    | some x => obtain ⟨l, h1, -⟩ := r.alive hv; rw [h] at h1; cases h1
  have guard' : ∀ d (P : Prop), (p.var d = none ∧ d < p.vars.length ∧ P) ↔ (a.get d = none ∧ d < a.length ∧ P) := by
    intro d P
    rw [← and_assoc, guard, and_assoc]
  cases op with
  | new d n => simp only [SProg.pwork, work, guard]
  | newZero d n => rfl
  | newFrom d vs => simp only [SProg.pwork, work, guard]
  | copy d s =>
      simp only [SProg.pwork, work, guard]
      cases hs : p.var s with
      | none => rw [r.dead hs]
      | some y => obtain ⟨l, h1, h2⟩ := r.alive hs; rw [h1]; simp only [h2.size]
  | move d s =>
      simp only [SProg.pwork, work, guard']
      cases hs : p.var s with
      | none => rw [r.dead hs]
      | some y => obtain ⟨l, h1, h2⟩ := r.alive hs; rw [h1]; simp only [h2.size]
  | copyAssign d s =>
      simp only [SProg.pwork, work]
      cases hd : p.var d with
      | none => rw [r.dead hd]
      | some x =>
          obtain ⟨m, h3, -⟩ := r.alive hd
          rw [h3]
          cases hs : p.var s with
          | none => rw [r.dead hs]
          | some y => obtain ⟨l, h1, h2⟩ := r.alive hs; rw [h1]; simp only [h2.size]
  | moveAssign d s =>
      simp only [SProg.pwork, work]
      cases hd : p.var d with
      | none => rw [r.dead hd]
      | some x =>
          obtain ⟨m, h3, -⟩ := r.alive hd
          rw [h3]
          cases hs : p.var s with
          | none => rw [r.dead hs]
          | some y => obtain ⟨l, h1, h2⟩ := r.alive hs; rw [h1]; simp only [h2.size]
  | destroy d => rfl
  | write d i v =>
      simp only [SProg.pwork, work]
      cases hs : p.var d with
      | none => rw [r.dead hs]
      | some y => obtain ⟨l, h1, h2⟩ := r.alive hs; rw [h1]; simp only [h2.size]

theorem Sim.pwork (h : Sim L p g) (op : SOp V) : SProg.pwork K p op = SProg.pwork K g op := by
  have hl : p.vars.length = g.vars.length := by rw [h.vars]
  cases op <;> simp only [SProg.pwork, h.var, hl]

theorem build_ok (fails : Nat → Bool) {d n t c : Nat} {f : Nat → SProg V → Option (Option V)} (after : Small.TProg V → Out (Small.TProg V)) {p p' : SProg V}
    (h : p.build false K d n f = some p') (hn : firstFail fails t n = none) :
    Small.build fails K d n f after ⟨p, t, c⟩ = .ok ⟨p', t + n, c⟩ := by
  unfold SProg.build at h
  unfold Small.build
  by_cases h0 : n = 0
  · subst h0
    simp only [if_true] at h ⊢
    cases h; rfl
  · simp only [if_neg h0, Option.bind_eq_bind, Option.bind_eq_some_iff] at h ⊢
    obtain ⟨p1, h1, h2⟩ := h
    simp only [Small.next, h1, Small.lift, Out.bind]
    rw [(fill_spec fails d f n 0 p1 p' t c h2).1 hn]

theorem take_ok (fails : Nat → Bool) {d s t c : Nat} {p p' : SProg V} {x y : Sso V} (hx : p.var d = some x) (hy : p.var s = some y)
    (h : p.take false K d s = some p') (hn : firstFail fails t (if y.size ≤ K then y.size else 0) = none) :
    Small.take fails K d s ⟨p, t, c⟩ = .ok ⟨p', t + (if y.size ≤ K then y.size else 0), c⟩ := by
  unfold SProg.take at h
  unfold Small.take
  simp only [hx, hy, Option.bind_eq_bind, Option.bind_some] at h ⊢
  by_cases hK : K < y.size
  · rw [if_pos hK] at h ⊢
    rw [if_neg (by omega)]
    rw [h]; rfl
  · have hle : y.size ≤ K := by omega
    rw [if_neg hK] at h ⊢
    rw [if_pos hle] at hn ⊢
    by_cases h0 : y.size ≠ 0
    · rw [if_pos h0] at h ⊢
      simp only [Option.bind_eq_some_iff] at h
      obtain ⟨p1, h1, h2⟩ := h
      rw [(fill_spec fails d _ y.size 0 _ p1 t c h1).1 hn]
      simp only [Small.next, Out.bind, h2, Small.lift]
    · rw [if_neg h0] at h ⊢
      rw [h]
      simp only [Small.lift]
      have : y.size = 0 := by omega
      rw [this]; rfl

/-- No failure: the program does what it does without failures. -/
theorem step_ok (fails : Nat → Bool) (dflt : V) {t c : Nat} {p p' : SProg V} (op : SOp V) (h : p.step false K dflt op = some p')
    (hn : firstFail fails t (pwork K p op) = none) :
    Small.step fails K dflt ⟨p, t, c⟩ op = .ok ⟨p', t + pwork K p op, c⟩ := by
  have same : ∀ {p' : SProg V}, some p = some p' → (.ok ⟨p, t, c⟩ : Out (Small.TProg V)) = .ok ⟨p', t + 0, c⟩ := by
    intro p' e; cases e; rfl
  cases op with
  | new d n =>
      simp only [SProg.step, Small.step, SProg.pwork] at h hn ⊢
      split at h
      · rename_i hc; rw [if_pos hc] at hn; rw [if_pos hc, if_pos hc]; exact build_ok fails _ h hn
      · rename_i hc; rw [if_neg hc, if_neg hc]; exact same h
  | newZero d n =>
      simp only [Small.step, SProg.pwork]
      rw [h]; rfl
  | newFrom d vs =>
      simp only [SProg.step, Small.step, SProg.pwork] at h hn ⊢
      split at h
      · rename_i hc; rw [if_pos hc] at hn; rw [if_pos hc, if_pos hc]; exact build_ok fails _ h hn
      · rename_i hc; rw [if_neg hc, if_neg hc]; exact same h
  | copy d s =>
      simp only [SProg.step, Small.step, SProg.pwork] at h hn ⊢
      cases hs : p.var s with
      | none => rw [hs] at h; exact same h
      | some y =>
          rw [hs] at h hn
          simp only at h hn ⊢
          split at h
          · rename_i hc; rw [if_pos hc] at hn; rw [if_pos hc, if_pos hc]; exact build_ok fails _ h hn
          · rename_i hc; rw [if_neg hc, if_neg hc]; exact same h
  | move d s =>
      simp only [SProg.step, Small.step, SProg.pwork] at h hn ⊢
      cases hs : p.var s with
      | none => rw [hs] at h; exact same h
      | some y =>
          rw [hs] at h hn
          simp only at h hn ⊢
          by_cases hc : p.var d = none ∧ d < p.vars.length
          · rw [if_pos hc] at h ⊢
            have hsd : s ≠ d := by rintro rfl; rw [hc.1] at hs; cases hs
            have e : (if p.var d = none ∧ d < p.vars.length ∧ y.size ≤ K then y.size else 0) = if y.size ≤ K then y.size else 0 := by
              simp [hc.1, hc.2]
            rw [e] at hn ⊢
            rw [take_ok fails (var_set_self hc.2 _) (by rw [var_set_ne hsd]; exact hs) h hn]; rfl
          · rw [if_neg hc] at h ⊢
            rw [if_neg (fun h => hc ⟨h.1, h.2.1⟩)]; exact same h
  | copyAssign d s =>
      simp only [SProg.step, Small.step, SProg.pwork] at h hn ⊢
      cases hd : p.var d with
      | none => rw [hd] at h; exact same h
      | some x =>
          cases hs : p.var s with
          | none => rw [hd, hs] at h; exact same h
          | some y =>
              rw [hd, hs] at h hn
              simp only [SProg.assign, Option.bind_eq_bind, Option.bind_eq_some_iff] at h hn ⊢
              obtain ⟨p1, h1, y1, hy1, h2⟩ := h
              obtain ⟨y2, hy2, e2⟩ := clean_size h1 hs
              rw [hy1] at hy2; cases hy2
              obtain ⟨x1, hx1, -⟩ := clean_size h1 hd
              simp only [Small.assign, h1, Small.lift, Small.next, Out.bind, hx1, hy1]
              by_cases h0 : y1.size = 0
              · rw [if_pos h0] at h2 ⊢
                simp only [hx1, Option.bind_some] at h2
                cases h2
                rw [← e2, h0]; rfl
              · rw [if_neg h0] at h2 ⊢
                simp only [Option.bind_eq_some_iff] at h2
                obtain ⟨p2, h3, h4⟩ := h2
                simp only [h3]
                rw [(fill_spec fails d _ y1.size 0 p2 p' t c h4).1 (by rw [e2]; exact hn), e2]; rfl
  | moveAssign d s =>
      simp only [SProg.step, Small.step, SProg.pwork] at h hn ⊢
      cases hd : p.var d with
      | none => rw [hd] at h; exact same h
      | some x =>
          cases hs : p.var s with
          | none => rw [hd, hs] at h; exact same h
          | some y =>
              rw [hd, hs] at h hn
              simp only [Option.bind_eq_bind, Option.bind_eq_some_iff] at h hn ⊢
              obtain ⟨p1, h1, h2⟩ := h
              obtain ⟨y1, hy1, e1⟩ := clean_size h1 hs
              obtain ⟨x1, hx1, -⟩ := clean_size h1 hd
              simp only [h1, Small.lift, Small.next, Out.bind]
              rw [← e1] at hn ⊢
              rw [take_ok fails hx1 hy1 h2 hn]; rfl
  | destroy d =>
      simp only [Small.step, SProg.pwork]
      rw [h]; rfl
  | write d i v =>
      simp only [Small.step, SProg.pwork] at hn ⊢
      cases hs : p.var d with
      | none => simp only [SProg.step, hs] at h; exact same h
      | some y =>
          rw [hs] at hn
          simp only at hn ⊢
          by_cases hi : i < y.size
          · rw [if_pos hi] at hn ⊢
            rw [firstFail_succ] at hn
            have hf : ¬ fails t = true := by intro hf; simp [hf] at hn
            simp only [if_neg hf, if_pos hi]
            rw [h]; rfl
          · rw [if_neg hi, if_neg hi]
            simp only [SProg.step, hs, if_neg hi] at h
            exact same h

/-! ## Failures -/

theorem build_fail (fails : Nat → Bool) {d n t c k : Nat} {f : Nat → SProg V → Option (Option V)} (after : Small.TProg V → Out (Small.TProg V))
    {p p' : SProg V} (h : p.build false K d n f = some p') (hk : firstFail fails t n = some k) :
    ∃ p1 pk, (p.setVar d (some (fresh K))).grab K d n = some p1 ∧ constructFrom false d f k 0 p1 = some pk ∧ pk.cell d k = some none ∧
      Small.build fails K d n f after ⟨p, t, c⟩ = after ⟨pk, t + k + 1, c⟩ := by
  have h0 : n ≠ 0 := by have := firstFail_lt hk; omega
  unfold SProg.build at h
  unfold Small.build
  simp only [if_neg h0, Option.bind_eq_bind, Option.bind_eq_some_iff] at h ⊢
  obtain ⟨p1, h1, h2⟩ := h
  obtain ⟨pk, h3, h4, h5⟩ := (fill_spec fails d f n 0 p1 p' t c h2).2 k hk
  refine ⟨p1, pk, h1, h3, by simpa using h5, ?_⟩
  simp only [Small.next, h1, Small.lift, Out.bind]
  rw [h4]

theorem grab_var {p p1 : SProg V} {d n : Nat} (h : p.grab K d n = some p1) : ∃ x, p1.var d = some x ∧ x.data ≠ .null ∧ x.size = n := by
  simp only [SProg.grab, Option.bind_eq_bind, Option.bind_eq_some_iff] at h
  obtain ⟨x, hx, h⟩ := h
  have hd := lt_of_var' hx
  split at h
  · cases h; exact ⟨_, var_set_self (p := { p with hp := _ }) hd _, by simp, rfl⟩
  · cases h; exact ⟨_, var_set_self hd _, by simp, rfl⟩

/-- The destructor of a handle with an element that was not made. -/
theorem unwind_ub {p1 pk : SProg V} {d n k : Nat} {f : Nat → SProg V → Option (Option V)} {q0 : SProg V} (hg : q0.grab K d n = some p1)
    (hc : constructFrom false d f k 0 p1 = some pk) (hr : pk.cell d k = some none) (hk : k < n) (t c : Nat) :
    Small.unwind K d ⟨pk, t, c⟩ = .ub := by
  obtain ⟨x, hx, h1, h2⟩ := grab_var hg
  obtain ⟨xk, hxk, h3, h4⟩ := constructFrom_var k hc hx
  have : pk.clean false K d = none := by
    simp only [SProg.clean, hxk, Option.bind_eq_bind, Option.bind_some]
    rw [if_neg (by rw [h3]; exact h1)]
    simp only [SProg.cleanElems, Bool.false_eq_true, if_false]
    rw [destroyFrom_raw xk.size (Nat.zero_le k) (by rw [h4, h2]; omega) hr]; rfl
  simp only [Small.unwind, this, Small.lift, Small.next, Out.bind]

/-- What the constructor leaves when an element throws: nothing, or a block with the elements made before. -/
theorem abandon_spec {p p1 pk : SProg V} {d n k : Nat} (dflt : V) (hx : p.var d = none) (hd : d < p.vars.length)
    (hg : (p.setVar d (some (fresh K))).grab K d n = some p1) (hc : constructFrom false d (fun _ _ => some (some dflt)) k 0 p1 = some pk) (hk : k < n)
    (t c : Nat) :
    Small.abandonNew d ⟨pk, t, c⟩ =
      if K < n then ⟨{ p with hp := p.hp ++ [⟨List.replicate k (some dflt) ++ List.replicate (n - k) none, false⟩] }, t, c⟩ else ⟨p, t, c + k⟩ := by
  have hgone : ∀ hp y, (({ p with hp := hp } : SProg V).setVar d y).setVar d none = { p with hp := hp } := by
    intro hp y
    rw [setVar_setVar]
    have : p.vars.set d none = p.vars := by
      have e : p.vars[d] = none := by
        unfold SProg.var at hx
        rw [List.getElem?_eq_getElem hd] at hx
        simpa using hx
      conv_lhs => rw [← e]
      rw [List.set_getElem_self]
    simp [SProg.setVar, this]
  have hself := var_set_self (p := p) hd (some (fresh K))
  simp only [SProg.grab, hself, Option.bind_eq_bind, Option.bind_some] at hg
  by_cases hK : K < n
  · rw [if_pos hK] at hg ⊢
    rw [show pure _ = some _ from rfl, Option.some.injEq] at hg
    let x1 : Sso V := { (fresh K : Sso V) with data := .block p.hp.length, size := n }
    have hp1 : p1 = (⟨p.hp ++ [(⟨List.replicate n none, false⟩ : Block V)], p.vars⟩ : SProg V).setVar d (some x1) := by
      rw [← hg]; simp [SProg.setVar, x1]
    have hx1 : p1.var d = some x1 := by rw [hp1]; exact var_set_self (p := ⟨_, p.vars⟩) hd _
    have hH : Holds p1 d (List.replicate n none) := .block x1 p.hp.length hx1 rfl (by rw [Heap.live_some, hp1]; simp [SProg.setVar])
    have := Holds.constructFrom (triv := false) (p := p1) (d := d) (fun _ _ => some (some dflt)) (List.replicate k (some dflt))
      (fun _ c hc => by rw [List.eq_of_mem_replicate hc]; rfl) k 0 (List.replicate n none) hH (by simp) (by simp; omega)
      (fun _ j _ hj => by rw [List.length_replicate] at hj; rw [List.getElem?_replicate, if_pos (by omega)]) (fun j _ hj => by rw [List.length_replicate] at hj; simp [hj])
    simp only [List.take_zero, List.drop_zero, List.nil_append, hH.upd_self] at this
    rw [this] at hc
    cases hc
    have hpk : p1.upd d (List.replicate k (some dflt) ++ List.drop (List.replicate k (some dflt)).length (List.replicate n none)) =
        (⟨p.hp ++ [(⟨List.replicate k (some dflt) ++ List.replicate (n - k) none, false⟩ : Block V)], p.vars⟩ : SProg V).setVar d (some x1) := by
      rw [upd_block hx1 (b := p.hp.length) rfl, hp1]
      simp [SProg.setVar]
    rw [hpk]
    have hv := var_set_self (p := ⟨p.hp ++ [(⟨List.replicate k (some dflt) ++ List.replicate (n - k) none, false⟩ : Block V)], p.vars⟩) hd (some x1)
    simp only [Small.abandonNew, hv]
    rw [hgone]
    congr 1
    simp [x1, fresh]
  · rw [if_neg hK] at hg ⊢
    rw [show pure _ = some _ from rfl, Option.some.injEq, setVar_setVar] at hg
    let x1 : Sso V := { (fresh K : Sso V) with data := .inline, size := n }
    have hp1 : p1 = p.setVar d (some x1) := hg.symm
    have hx1 : p1.var d = some x1 := by rw [hp1]; exact var_set_self hd _
    have hH : Holds p1 d (List.replicate K none) := .inline x1 hx1 rfl rfl
    have := Holds.constructFrom (triv := false) (p := p1) (d := d) (fun _ _ => some (some dflt)) (List.replicate k (some dflt))
      (fun _ c hc => by rw [List.eq_of_mem_replicate hc]; rfl) k 0 (List.replicate K none) hH (by simp) (by simp; omega)
      (fun _ j _ hj => by rw [List.length_replicate] at hj; rw [List.getElem?_replicate, if_pos (by omega)]) (fun j _ hj => by rw [List.length_replicate] at hj; simp [hj])
    simp only [List.take_zero, List.drop_zero, List.nil_append, hH.upd_self] at this
    rw [this] at hc
    cases hc
    rw [upd_inline hx1 rfl, hp1, setVar_setVar]
    simp only [Small.abandonNew, var_set_self hd]
    rw [hgone p.hp]
    congr 1
    simp [List.filter_append]

/-- A block that is lost. -/
theorem Sim.leak (h : Sim L p g) (blk : Block V) :
    Sim (L ++ [(p.hp.length, blk)]) { p with hp := p.hp ++ [blk] } { g with hp := g.hp ++ [⟨[], true⟩] } := by
  refine ⟨h.vars, by simp [h.len], fun b hb => ?_, fun e he => ?_⟩
  · simp only [List.map_append, List.map_cons, List.map_nil, List.mem_append, List.mem_singleton, not_or] at hb
    simp only [List.getElem?_append, h.len, h.off b hb.1]
    split
    · rfl
    · have := hb.2
      rw [h.len] at this
      rw [List.getElem?_eq_none (by simp; omega), List.getElem?_eq_none (by simp; omega)]
  · rcases List.mem_append.mp he with he | he
    · obtain ⟨h1, blk', h2, h3⟩ := h.on e he
      have h4 := (List.getElem?_eq_some_iff.mp h1).1
      have h5 := (List.getElem?_eq_some_iff.mp h2).1
      exact ⟨by simp only [List.getElem?_append_left h4, h1], blk', by simp only [List.getElem?_append_left h5, h2], h3⟩
    · rw [List.mem_singleton] at he; subst he
      exact ⟨by simp, ⟨[], true⟩, by simp [h.len], rfl⟩

theorem Rep.leak {a : Vals V} (r : Rep false K g a) : Rep false K { g with hp := g.hp ++ [⟨[], true⟩] } a := by
  refine ⟨r.len, fun i => ?_, fun b blk hb hf => ?_, r.blocks.unique⟩
  · refine (r.rel i).mono fun x b hx hb => ?_
    obtain ⟨l, -, ho⟩ := r.alive (show g.var i = some x from hx)
    rcases ho.data with ⟨-, h2, -⟩ | ⟨-, -, h2, -⟩ | ⟨-, -, b', h2, h3⟩
    · rw [h2] at hb; cases hb
    · rw [h2] at hb; cases hb
    · rw [h2] at hb; cases hb
      simp only [List.getElem?_append_left (List.getElem?_eq_some_iff.mp h3).1]
  · simp only [List.getElem?_append] at hb
    split at hb
    · exact r.blocks.owned b blk hb hf
    · have : blk = ⟨[], true⟩ := by
        rw [List.getElem?_singleton] at hb
        split at hb
        · exact (Option.some.inj hb).symm
        · cases hb
      rw [this] at hf; cases hf

/-- A move of inline elements that fails. -/
theorem take_fail (fails : Nat → Bool) {a : Vals V} {d s t c k : Nat} (r : Cleared false K g a d) (h : Sim L p g) (hs : s ≠ d) {y : Sso V}
    (hy : g.var s = some y) (hK : y.size ≤ K) (hk : firstFail fails t y.size = some k) :
    ∃ q, Small.take fails K d s ⟨p, t, c⟩ = .threw q := by
  have h0 : y.size ≠ 0 := by have := firstFail_lt hk; omega
  obtain ⟨l, hl, ho⟩ := r.alive hs hy
  obtain ⟨x, hx, -⟩ := r.var
  obtain ⟨g1, g2, h1, h2, -⟩ := r.fill l (by rintro rfl; exact h0 ho.size) ho.all (fun i p => p.cell s i)
    (fun j q hj hq => hq.cell hs hy ho hj)
  rw [← ho.size] at h1 h2
  obtain ⟨p1, h3, s1⟩ := h.grab d y.size g1 h1
  obtain ⟨p2, h4, -⟩ := Sim.constructFrom (sameArgs_cell s) d y.size 0 s1 g2 h2
  have hxp : p.var d = some x := by rw [h.var]; exact hx
  simp only [SProg.grab, hxp, Option.bind_eq_bind, Option.bind_some, if_neg (show ¬ K < y.size by omega)] at h3
  rw [show pure _ = some _ from rfl, Option.some.injEq] at h3
  obtain ⟨pk, -, h5, -⟩ := (fill_spec fails d _ y.size 0 p1 p2 t c h4).2 k hk
  refine ⟨⟨pk, t + k + 1, c⟩, ?_⟩
  unfold Small.take
  simp only [hxp, h.var s, hy, if_neg (show ¬ K < y.size by omega), if_pos h0, h3, Small.next, h5, Out.bind, id]

end Nda.Mem.SProg

namespace Nda.Mem
open Nda.Mem Nda.Exc Spec SProg

variable {V : Type}

/-- The invariant: a program without losses that holds the values, and the lost blocks. -/
def Inv (dflt : V) (K : Nat) (q : Small.TProg V) (o : Obs V) : Prop :=
  ∃ g L, Rep false K g o.vals ∧ Sim L q.p g ∧ q.tick = o.tick ∧ q.lost = o.lost ∧ (L.map Prod.fst).Nodup ∧
    List.Forall₂ (fun (e : Nat × Block V) (l : Nat × Nat) => e.2 = ⟨List.replicate l.2 (some dflt) ++ List.replicate (l.1 - l.2) none, false⟩) L o.leaks

theorem Inv.shows {dflt : V} {K : Nat} {q : Small.TProg V} {o : Obs V} (h : Inv dflt K q o) : Shows dflt K q o := by
  obtain ⟨g, L, r, s, ht, hlo, hnd, hL⟩ := h
  have hfreed : ∀ e ∈ L, e.2.freed = false := by
    intro e he
    obtain ⟨i, hi, rfl⟩ := List.mem_iff_getElem.mp he
    have hlen := hL.length_eq
    have := (List.forall₂_iff_get.mp hL).2 i hi (by omega)
    simp only [List.get_eq_getElem] at this
    rw [this]
  refine ⟨fun i => ?_, ht, hlo, fun i x hx => ?_, fun i j x y b hi hj => ?_, L.map Prod.fst, hnd, ?_, fun b blk hb => ⟨⟨fun hf => ?_, ?_⟩, ?_⟩⟩
  · unfold contents
    rw [s.var i]
    cases hv : g.var i with
    | none => rw [r.dead hv]; rfl
    | some x =>
        obtain ⟨l, hl, ho⟩ := r.alive hv
        rw [hl]
        simp only [Option.map_some, Option.some.injEq]
        apply List.ext_getElem (by simp [ho.size])
        intro k h2 h3
        have hk : k < l.length := by simpa using h3
        simp only [List.getElem_map, List.getElem_range]
        have := ho.cell hv hk
        rw [List.getElem?_eq_getElem hk] at this
        exact s.cell this
  · rw [s.var] at hx
    obtain ⟨l, hl, ho⟩ := r.alive hx
    have hs := ho.size
    rcases ho.data with ⟨rfl, h2⟩ | ⟨h2, h3, h4, -⟩ | ⟨h2, h3, b, h4, -⟩
    · simp at hs; simp [h2.1, hs]
    · have : 0 < l.length := List.length_pos_iff.mpr h2
      simp [h4, hs, this, h3, h2]
    · have h5 : l ≠ [] := by rintro rfl; simp at h2
      simp [h4, hs, h5]; omega
  · rw [s.var] at hi hj
    exact r.blocks.unique i j x y b hi hj
  · rw [List.forall₂_map_left_iff]
    refine List.Forall₂.imp (fun e l h => ?_) ((List.forall₂_and_left _ _).mpr ⟨s.on, hL⟩)
    rw [h.1.1, h.2]
  · by_cases hm : b ∈ L.map Prod.fst
    · exact Or.inl hm
    · rw [s.off b hm] at hb
      obtain ⟨i, x, hi, hxb⟩ := r.blocks.owned b blk hb hf
      exact Or.inr ⟨i, x, by rw [s.var]; exact hi, hxb⟩
  · rintro (hm | ⟨i, x, hi, hxb⟩)
    · obtain ⟨e, he, rfl⟩ := List.mem_map.mp hm
      rw [(s.on e he).1] at hb; cases hb
      exact hfreed e he
    · rw [s.var] at hi
      obtain ⟨l, hl, ho⟩ := r.alive hi
      rcases ho.data with ⟨-, h2, -⟩ | ⟨-, -, h2, -⟩ | ⟨-, -, b', h2, h3⟩
      · rw [h2] at hxb; cases hxb
      · rw [h2] at hxb; cases hxb
      · rw [h2] at hxb; cases hxb
        have h4 := (s.live (Heap.live_some.mpr ⟨h3, rfl⟩)).1
        rw [Heap.live_some, hb] at h4
        cases h4.1; rfl
  · intro hm i x hi hxb
    rw [s.var] at hi
    obtain ⟨l, hl, ho⟩ := r.alive hi
    rcases ho.data with ⟨-, h2, -⟩ | ⟨-, -, h2, -⟩ | ⟨-, -, b', h2, h3⟩
    · rw [h2] at hxb; cases hxb
    · rw [h2] at hxb; cases hxb
    · rw [h2] at hxb; cases hxb
      exact (s.live (Heap.live_some.mpr ⟨h3, rfl⟩)).2 hm

/-- One operation. -/
theorem Inv.step (fails : Nat → Bool) {dflt : V} {K : Nat} {q : Small.TProg V} {o : Obs V} (h : Inv dflt K q o) (op : SOp V)
    (ha : TAllowed fails K o op) :
    match tstep fails K dflt o op, Small.step fails K dflt q op with
    | .ok o', .ok q' => Inv dflt K q' o'
    | .threw o', .threw q' => Inv dflt K q' o'
    | .terminate, .terminate => True
    | .ub, .ub => True
    | _, _ => False := by
  obtain ⟨g, L, r, s, ht, hlo, hnd, hL⟩ := h
  obtain ⟨p, t, c⟩ := q
  simp only at s ht hlo
  subst ht
  subst hlo
  have hw : SProg.pwork K p op = work K o.vals op := (s.pwork op).trans (r.pwork op)
  unfold TAllowed at ha
  unfold tstep
  cases hf : firstFail fails o.tick (work K o.vals op) with
  | none =>
      rw [hf] at ha
      obtain ⟨g', h1, r'⟩ := r.step dflt op ha
      obtain ⟨p', h2, s'⟩ := s.step dflt op g' h1
      rw [step_ok fails dflt op h2 (by rw [hw]; exact hf), hw]
      exact ⟨g', L, r', s', rfl, rfl, hnd, hL⟩
  | some k =>
      rw [hf] at ha
      have hl : p.vars.length = g.vars.length := by rw [s.vars]
      have nofail : ∀ n, firstFail fails o.tick n = some k → n ≠ 0 := by
        intro n h; have := firstFail_lt h; omega
      rw [← hw] at hf
      cases op with
      | new d n =>
          simp only [SProg.pwork] at hf
          split at hf
          case isFalse => exact absurd rfl (nofail _ hf)
          rename_i hc
          obtain ⟨g', h1, r'⟩ := r.step dflt (.new d n) trivial
          obtain ⟨p', h2, -⟩ := s.step dflt (.new d n) g' h1
          simp only [SProg.step, if_pos hc] at h2
          obtain ⟨p1, pk, h3, h4, h5, h6⟩ := build_fail fails (t := o.tick) (c := o.lost) (fun q => .threw (Small.abandonNew d q)) h2 hf
          have h7 := abandon_spec dflt hc.1 hc.2 h3 h4 (firstFail_lt hf) (o.tick + k + 1) o.lost
          have h8 : Small.step fails K dflt ⟨p, o.tick, o.lost⟩ (.new d n) =
              .threw (Small.abandonNew d ⟨pk, o.tick + k + 1, o.lost⟩) := by
            simp only [Small.step, if_pos hc]; exact h6
          rw [h8, h7]
          simp only
          by_cases hK : K < n
          · simp only [if_pos hK]
            refine ⟨_, L ++ [(p.hp.length, ⟨List.replicate k (some dflt) ++ List.replicate (n - k) none, false⟩)], r.leak, s.leak _, rfl, rfl, ?_, ?_⟩
            · rw [List.map_append, List.nodup_append]
              refine ⟨hnd, by simp, ?_⟩
              intro b hb b' hb'
              simp only [List.map_cons, List.map_nil, List.mem_singleton] at hb'
              subst hb'
              obtain ⟨e, he, rfl⟩ := List.mem_map.mp hb
              have := (List.getElem?_eq_some_iff.mp (s.on e he).1).1
              omega
            · exact List.rel_append hL (.cons rfl .nil)
          · simp only [if_neg hK]
            exact ⟨g, L, r, s, rfl, rfl, hnd, hL⟩
      | newZero d n => exact absurd rfl (nofail _ hf)
      | newFrom d vs =>
          simp only [SProg.pwork] at hf
          split at hf
          case isFalse => exact absurd rfl (nofail _ hf)
          rename_i hc
          obtain ⟨g', h1, r'⟩ := r.step dflt (.newFrom d vs) trivial
          obtain ⟨p', h2, -⟩ := s.step dflt (.newFrom d vs) g' h1
          simp only [SProg.step, if_pos hc] at h2
          obtain ⟨p1, pk, h3, h4, h5, h6⟩ := build_fail fails (t := o.tick) (c := o.lost) (Small.unwind K d) h2 hf
          simp only [Small.step, if_pos hc, h6, unwind_ub h3 h4 h5 (firstFail_lt hf)]
      | copy d y =>
          simp only [SProg.pwork] at hf
          cases hs : p.var y with
          | none => rw [hs] at hf; exact absurd rfl (nofail _ hf)
          | some x =>
              rw [hs] at hf
              simp only at hf
              split at hf
              case isFalse => exact absurd rfl (nofail _ hf)
              rename_i hc
              obtain ⟨g', h1, r'⟩ := r.step dflt (.copy d y) trivial
              obtain ⟨p', h2, -⟩ := s.step dflt (.copy d y) g' h1
              simp only [SProg.step, hs, if_pos hc] at h2
              obtain ⟨p1, pk, h3, h4, h5, h6⟩ := build_fail fails (t := o.tick) (c := o.lost) (Small.unwind K d) h2 hf
              simp only [Small.step, hs, if_pos hc, h6, unwind_ub h3 h4 h5 (firstFail_lt hf)]
      | move d y =>
          simp only [SProg.pwork] at hf
          cases hs : p.var y with
          | none => rw [hs] at hf; exact absurd rfl (nofail _ hf)
          | some x =>
              rw [hs] at hf
              simp only at hf
              split at hf
              case isFalse => exact absurd rfl (nofail _ hf)
              rename_i hc
              have hsd : y ≠ d := by rintro rfl; rw [hc.1] at hs; cases hs
              have hgd : g.var d = none := by rw [← s.var]; exact hc.1
              obtain ⟨q', h1⟩ := take_fail fails (c := o.lost) (r.cleared_new hgd (by rw [← hl]; exact hc.2.1)) (s.setVar d _) hsd
                (by rw [var_set_ne hsd, ← s.var]; exact hs) hc.2.2 hf
              simp only [Small.step, hs, if_pos (And.intro hc.1 hc.2.1), h1, Out.noexcept]
      | copyAssign d y =>
          simp only [SProg.pwork] at hf
          cases hd : p.var d with
          | none => rw [hd] at hf; exact absurd rfl (nofail _ hf)
          | some x =>
              cases hs : p.var y with
              | none => rw [hd, hs] at hf; exact absurd rfl (nofail _ hf)
              | some z =>
                  rw [hd, hs] at hf
                  simp only at hf ha
                  obtain ⟨g', h1, r'⟩ := r.step dflt (.copyAssign d y) (fun e => absurd e ha)
                  obtain ⟨p', h2, -⟩ := s.step dflt (.copyAssign d y) g' h1
                  simp only [SProg.step, hd, hs, SProg.assign, Option.bind_eq_bind, Option.bind_eq_some_iff] at h2
                  obtain ⟨p1, h3, z1, hz1, h4⟩ := h2
                  obtain ⟨z2, hz2, e2⟩ := clean_size h3 hs
                  rw [hz1] at hz2; cases hz2
                  obtain ⟨x1, hx1, -⟩ := clean_size h3 hd
                  have h0 : z1.size ≠ 0 := by rw [e2]; exact nofail _ hf
                  rw [if_neg h0] at h4
                  simp only [Option.bind_eq_some_iff] at h4
                  obtain ⟨p2, h5, h6⟩ := h4
                  obtain ⟨pk, -, h7, -⟩ := (fill_spec fails d _ z1.size 0 p2 p' o.tick o.lost h6).2 k (by rw [e2]; exact hf)
                  simp only [Small.step, hd, hs, Small.assign, h3, Small.lift, Small.next, Out.bind, hx1, hz1, if_neg h0, h5, h7, Out.noexcept]
      | moveAssign d y =>
          simp only [SProg.pwork] at hf
          cases hd : p.var d with
          | none => rw [hd] at hf; exact absurd rfl (nofail _ hf)
          | some x =>
              cases hs : p.var y with
              | none => rw [hd, hs] at hf; exact absurd rfl (nofail _ hf)
              | some z =>
                  rw [hd, hs] at hf
                  simp only at hf ha
                  split at hf
                  case isFalse => exact absurd rfl (nofail _ hf)
                  rename_i hK
                  have hgd : g.var d = some x := by rw [← s.var]; exact hd
                  obtain ⟨l, hl', -⟩ := r.alive hgd
                  obtain ⟨g1, x1, h1, rc, -, -, -, hoth⟩ := r.clean hgd hl'
                  obtain ⟨p1, h2, s1⟩ := s.clean d g1 h1
                  obtain ⟨q', h3⟩ := take_fail fails (c := o.lost) rc s1 (Ne.symm ha) (by rw [hoth y (Ne.symm ha), ← s.var]; exact hs) hK hf
                  simp only [Small.step, hd, hs, h2, Small.lift, Small.next, Out.bind, h3, Out.noexcept]
      | destroy d => exact absurd rfl (nofail _ hf)
      | write d i v =>
          simp only [SProg.pwork] at hf
          cases hs : p.var d with
          | none => rw [hs] at hf; exact absurd rfl (nofail _ hf)
          | some x =>
              rw [hs] at hf
              simp only at hf
              split at hf
              case isFalse => exact absurd rfl (nofail _ hf)
              rename_i hi
              rw [firstFail_succ] at hf
              by_cases hff : fails o.tick = true
              · rw [if_pos hff] at hf
                cases hf
                simp only [Small.step, hs, if_pos hi, if_pos hff]
                exact ⟨g, L, r, s, rfl, rfl, hnd, hL⟩
              · rw [if_neg hff] at hf
                simp [firstFail] at hf

theorem Inv.run (fails : Nat → Bool) {dflt : V} {K : Nat} (ops : List (SOp V)) : ∀ {q : Small.TProg V} {o : Obs V}, Inv dflt K q o →
    TAllowedRun fails K dflt o ops →
    Agrees (Shows dflt K) (Small.run (Small.step fails K dflt) q ops) (Small.run (tstep fails K dflt) o ops) := by
  induction ops with
  | nil => intro q o h _; exact ⟨h.shows, rfl⟩
  | cons op ops ih =>
      intro q o h ha
      obtain ⟨h1, h2⟩ := ha
      have h3 := h.step fails op h1
      simp only [Small.run]
      cases ho : tstep fails K dflt o op <;> cases hq : Small.step fails K dflt q op <;> rw [ho, hq] at h3 <;> simp only at h3 <;> rw [ho] at h2 <;>
        simp only at h2 ⊢
      · have := ih h3 h2
        revert this
        cases Small.run (Small.step fails K dflt) _ ops <;> cases Small.run (tstep fails K dflt) _ ops <;> simp [Agrees, Out.bind]
      · have := ih h3 h2
        revert this
        cases Small.run (Small.step fails K dflt) _ ops <;> cases Small.run (tstep fails K dflt) _ ops <;> simp [Agrees, Out.bind]
      · trivial
      · trivial

/-- C85, `handle_sso`.  A program that catches every exception ends, continues or is undefined exactly as `Spec.tstep` says, throws
where it says, and leaves its variables with the elements it says: only `handle_sso(size)` and assignments to elements
let exceptions out, both leave all variables as they were; the former loses its block and the elements it made
(`leaks`, `lost`), and nothing else is lost; copy constructors are undefined when an element throws; moves and assignments of handles
terminate the program.  For all programs, all element counts and inline capacities, and whichever calls fail.

Missing: as in C29, moves of inline elements that succeed and copy self-assignment. -/
theorem C85_sso_partial (fails : Nat → Bool) (K : Nat) (dflt : V) (n : Nat) (ops : List (SOp V))
    (h : TAllowedRun fails K dflt ⟨List.replicate n none, 0, [], 0⟩ ops) :
    Agrees (Shows dflt K) (Small.run (Small.step fails K dflt) (Small.start n) ops)
      (Small.run (tstep fails K dflt) ⟨List.replicate n none, 0, [], 0⟩ ops) :=
  Inv.run fails ops ⟨SProg.start n, [], SProg.start_rep false K n, ⟨rfl, rfl, fun _ _ => rfl, fun _ he => by cases he⟩, rfl, rfl, by simp, .nil⟩ h

/-- A check for allowed programs. -/
def tallowedCheck (fails : Nat → Bool) (K : Nat) (dflt : V) : Obs V → List (SOp V) → Bool
  | _, [] => true
  | o, op :: ops =>
      (match firstFail fails o.tick (work K o.vals op) with
        | none => sallowedCheck false K dflt o.vals [op]
        | some _ => match op with
            | .copyAssign d s | .moveAssign d s => d != s
            | _ => true) &&
      match tstep fails K dflt o op with
      | .ok o | .threw o => tallowedCheck fails K dflt o ops
      | _ => true

theorem tallowed_of_check (fails : Nat → Bool) (K : Nat) (dflt : V) (ops : List (SOp V)) : ∀ (o : Obs V), tallowedCheck fails K dflt o ops = true →
    TAllowedRun fails K dflt o ops := by
  induction ops with
  | nil => intro o _; trivial
  | cons op ops ih =>
      intro o h
      simp only [tallowedCheck, Bool.and_eq_true] at h
      refine ⟨?_, ?_⟩
      · unfold TAllowed
        cases hf : firstFail fails o.tick (work K o.vals op) with
        | none => rw [hf] at h; exact (sallowed_of_check false K dflt o.vals [op] h.1).1
        | some k =>
            rw [hf] at h
            cases op <;> simp only at h ⊢
            · exact bne_iff_ne.mp h.1
            · exact bne_iff_ne.mp h.1
      · have h2 := h.2
        cases ho : tstep fails K dflt o op <;> rw [ho] at h2 <;> simp only at h2 ⊢
        · exact ih _ h2
        · exact ih _ h2

/-- Calls number 7 and 14 fail: an allocation of five elements, the third of which throws, and an assignment to an element. -/
def sampleThrow : List (SOp Nat) :=
  [.newFrom 0 [1, 2], .newFrom 1 [3, 4, 5], .new 2 5, .copy 2 1, .moveAssign 0 2, .new 3 2, .write 0 1 9, .write 0 1 8, .destroy 1, .destroy 2]

example : TAllowedRun (fun t => t == 7 || t == 13) 2 0 ⟨List.replicate 4 none, 0, [], 0⟩ sampleThrow :=
  tallowed_of_check _ _ _ _ _ (by decide +kernel)
example : (match Small.run (Small.step (fun t => t == 7 || t == 13) 2 0) (Small.start 4) sampleThrow with
      | .ok (q, _) => (List.range 4).map (contents q.p)
      | _ => []) = [some [some (some 3), some (some 8), some (some 5)], none, none, some [some (some 0), some (some 0)]] := by decide +kernel
example : (match Small.run (Small.step (fun t => t == 7 || t == 13) 2 0) (Small.start 4) sampleThrow with
      | .ok (_, thrown) => thrown
      | _ => []) = [false, false, true, false, false, false, true, false, false, false] := by decide +kernel
example : (match Small.run (Small.step (fun t => t == 7 || t == 13) 2 0) (Small.start 4) sampleThrow with
      | .ok (q, _) => some (q.p.hp.map fun b => (b.cells, b.freed))
      | _ => none) =
    some [([none, none, none], true), ([some 0, some 0, none, none, none], false), ([some 3, some 8, some 5], false)] := by decide +kernel

/-- When all variables are gone, the blocks that are not released are those of the constructors that threw: a program that catches
exceptions of `handle_sso(size)` loses memory each time. -/
theorem C85_leaks (fails : Nat → Bool) (K : Nat) (dflt : V) (n : Nat) (ops : List (SOp V)) (q : Small.TProg V) (o : Obs V) (e : List Bool)
    (h : TAllowedRun fails K dflt ⟨List.replicate n none, 0, [], 0⟩ ops)
    (hq : Small.run (Small.step fails K dflt) (Small.start n) ops = .ok (q, e))
    (ho : Small.run (tstep fails K dflt) ⟨List.replicate n none, 0, [], 0⟩ ops = .ok (o, e)) (hend : ∀ i, q.p.var i = none) :
    (q.p.hp.filter fun b => !b.freed).length = o.leaks.length := by
  have hS := C85_sso_partial fails K dflt n ops h
  rw [hq, ho] at hS
  obtain ⟨ids, hnd, hF, hb⟩ := hS.1.blocks
  have hiff : ∀ b : Nat, b ∈ ids ↔ ∃ blk, q.p.hp[b]? = some blk ∧ blk.freed = false := by
    intro b
    constructor
    · intro hm
      obtain ⟨i, hi, rfl⟩ := List.mem_iff_getElem.mp hm
      have := (List.forall₂_iff_get.mp hF).2 i hi (by rw [← hF.length_eq]; exact hi)
      simp only [List.get_eq_getElem] at this
      exact ⟨_, this, rfl⟩
    · rintro ⟨blk, h1, h2⟩
      rcases (hb b blk h1).1.mp h2 with h3 | ⟨i, x, hx, -⟩
      · exact h3
      · rw [hend] at hx; cases hx
  have hperm : ids.Perm ((List.range q.p.hp.length).filter fun b => (q.p.hp[b]?.map fun k => !k.freed).getD false) := by
    rw [List.perm_ext_iff_of_nodup hnd (List.nodup_range.filter _)]
    intro b
    rw [hiff, List.mem_filter, List.mem_range]
    constructor
    · rintro ⟨blk, h1, h2⟩
      exact ⟨(List.getElem?_eq_some_iff.mp h1).1, by simp [h1, h2]⟩
    · rintro ⟨h1, h2⟩
      rw [List.getElem?_eq_getElem h1] at h2
      exact ⟨_, List.getElem?_eq_getElem h1, by simpa using h2⟩
  rw [← hF.length_eq, hperm.length_eq]
  have : q.p.hp = (List.range q.p.hp.length).map fun b => (q.p.hp[b]?).getD ⟨[], true⟩ := by
    apply List.ext_getElem (by simp)
    intro i h1 h2
    simp [h1]
  conv_lhs => rw [this]
  rw [List.filter_map, List.length_map]
  congr 1
  apply List.filter_congr
  intro b hb
  have hb' := List.mem_range.mp hb
  simp [Function.comp, hb']

example : (match Small.run (Small.step (fun t => t == 2) 2 0) (Small.start 1) [.new 0 4, .new 0 3, .destroy 0, .new 0 1] with
      | .ok (q, thrown) => some (q.p.hp.map (·.freed), q.lost, thrown)
      | _ => none) = some ([false, true], 0, [true, false, false, false]) := by decide +kernel

/-- Copies that throw: undefined, in the buffer and in a block; moves and assignments that throw: the program is terminated. -/
theorem C85_copy_witness :
    Small.run (Small.step (fun t => t == 3) 2 0) (Small.start 2) [.newFrom 0 [1, 2], .copy 1 0] = .ub ∧
    Small.run (Small.step (fun t => t == 5) 2 0) (Small.start 2) [.newFrom 0 [1, 2, 3], .copy 1 0] = .ub ∧
    Small.run (Small.step (fun t => t == 3) 2 0) (Small.start 2) [.newFrom 0 [1, 2], .move 1 0] = .terminate ∧
    Small.run (Small.step (fun t => t == 3) 2 0) (Small.start 2) [.newFrom 0 [1, 2], .new 1 0, .copyAssign 1 0] = .terminate := by
  decide +kernel

/-! ## `handle_stack` -/
namespace StackH

theorem fill_spec (fails : Nat → Bool) (d : Nat) (f : Nat → Vars V → Option (Option V)) (n : Nat) :
    ∀ (i : Nat) (p p' : Vars V) (t : Nat), constructFrom false d f n i p = some p' →
      (firstFail fails t n = none → Small.Stack.fill fails d f n i ⟨p, t⟩ = .ok ⟨p', t + n⟩) ∧
      ∀ k, firstFail fails t n = some k → ∃ pk x, Small.Stack.fill fails d f n i ⟨p, t⟩ = .threw ⟨pk, t + k + 1⟩ ∧ var pk d = some x ∧
        x[i + k]? = some none := by
  induction n with
  | zero =>
      intro i p p' t h
      cases h
      exact ⟨fun _ => rfl, fun k hk => by simp [firstFail] at hk⟩
  | succ n ih =>
      intro i p p' t h
      simp only [constructFrom, Option.bind_eq_bind, Option.bind_eq_some_iff] at h
      obtain ⟨e, h1, p1, h2, h3⟩ := h
      have h2' := h2
      simp only [construct, Option.bind_eq_bind, Option.bind_eq_some_iff] at h2'
      obtain ⟨x, hx, old, h4, h5⟩ := h2'
      split at h5
      · cases h5
      · rename_i hn
        have ho : old = none := by
          cases old with
          | none => rfl
          | some v => exact absurd ⟨trivial, Or.inl rfl⟩ hn
        subst ho
        cases e with
        | none => exact absurd ⟨trivial, Or.inr rfl⟩ hn
        | some v =>
            rw [firstFail_succ]
            by_cases hf : fails t = true
            · rw [if_pos hf]
              refine ⟨fun h => by simp at h, fun k hk => ?_⟩
              cases hk
              refine ⟨p, x, ?_, hx, h4⟩
              simp [Small.Stack.fill, h1, hf]
            · rw [if_neg hf]
              obtain ⟨i1, i2⟩ := ih (i + 1) p1 p' (t + 1) h3
              have hstep : Small.Stack.fill fails d f (n + 1) i ⟨p, t⟩ = Small.Stack.fill fails d f n (i + 1) ⟨p1, t + 1⟩ := by
                simp [Small.Stack.fill, h1, hf, h2]
              rw [hstep]
              refine ⟨fun h => ?_, fun k hk => ?_⟩
              · rw [i1 (by simpa using h)]; congr 2; omega
              · obtain ⟨j, hj, rfl⟩ := Option.map_eq_some_iff.mp hk
                obtain ⟨pk, x, h6, h7, h8⟩ := i2 j hj
                refine ⟨pk, x, ?_, h7, ?_⟩
                · rw [h6]; congr 2; omega
                · rw [← h8]; congr 1; omega

theorem unwound_ub {fails : Nat → Bool} {d : Nat} {f : Nat → Vars V → Option (Option V)} {n t k : Nat} {p p' : Vars V}
    (h : constructFrom false d f n 0 p = some p') (hk : firstFail fails t n = some k) :
    Small.Stack.unwound d (Small.Stack.fill fails d f n 0 ⟨p, t⟩) = .ub := by
  obtain ⟨pk, x, h1, h2, h3⟩ := (fill_spec fails d f n 0 p p' t h).2 k hk
  rw [h1]
  simp only [Small.Stack.unwound, h2]
  rw [if_pos]
  rw [List.any_eq_true]
  exact ⟨none, List.mem_of_getElem? h3, rfl⟩

end StackH

/-- C85, `handle_stack`: programs without default construction and assignment of handles (false for non-trivial
types anyway, C29) do what `Spec.ktstep` says: assignments to elements let exceptions out and leave everything as it was,
copies terminate the program, and other constructors are undefined when an element throws, because the destructor destroys elements
that were not made. -/
theorem C85_stack_partial (fails : Nat → Bool) (N : Nat) (dflt : V) (n : Nat) (ops : List (StackH.Op V × Bool)) (h : ∀ op ∈ ops, KAllowed false op.1) :
    Agrees (fun (q : Small.Stack.TVars V) (o : Vals V × Nat) => q.p = o.1 ∧ q.tick = o.2)
      (Small.run (Small.Stack.step fails N dflt) ⟨List.replicate n none, 0⟩ ops) (Small.run (ktstep fails N dflt) (List.replicate n none, 0) ops) := by
  have one : ∀ (p : StackH.Vars V) (t : Nat) (op : StackH.Op V × Bool), StackH.Ok false N p → KAllowed false op.1 →
      match ktstep fails N dflt (p, t) op, Small.Stack.step fails N dflt ⟨p, t⟩ op with
      | .ok o, .ok q => q.p = o.1 ∧ q.tick = o.2 ∧ StackH.Ok false N o.1
      | .threw o, .threw q => q.p = o.1 ∧ q.tick = o.2 ∧ StackH.Ok false N o.1
      | .terminate, .terminate => True
      | .ub, .ub => True
      | _, _ => False := by
    intro p t op hok ha
    obtain ⟨h1, h2⟩ := StackH.step_spec false N dflt p op.1 hok ha
    obtain ⟨op, mv⟩ := op
    have hff : ∀ m k, firstFail fails t m = some k → m ≠ 0 := by intro m k h; have := firstFail_lt h; omega
    simp only at h1 h2 ha
    unfold ktstep
    simp only
    cases op with
    | raw d => simp only [KAllowed] at ha; cases ha
    | new d =>
        simp only [kwork, Small.Stack.step, StackH.step] at h1 ⊢
        by_cases hg : Vals.get p d = none ∧ d < p.length
        · have hv : StackH.var p d = none ∧ d < p.length := hg
          rw [if_pos hv] at h1
          have h1 : StackH.constructFrom false d (fun _ _ => some (some dflt)) N 0 (p.set d (some (List.replicate N none)))
            = some (kstep false N dflt p (.new d)) := h1
          simp only [if_pos hv]
          simp only [if_pos hg]
          cases hf : firstFail fails t N with
          | none =>
              rw [(StackH.fill_spec fails d _ N 0 _ _ t h1).1 hf]
              exact ⟨rfl, rfl, h2⟩
          | some k =>
              rw [StackH.unwound_ub h1 hf]; trivial
        · have hv : ¬ (StackH.var p d = none ∧ d < p.length) := hg
          rw [if_neg hv] at h1
          simp only [if_neg hv]
          simp only [if_neg hg]
          cases h1' : firstFail fails t 0 with
          | none => exact ⟨Option.some.inj h1, rfl, h2⟩
          | some k => exact absurd rfl (hff 0 k h1')
    | newFrom d vs =>
        simp only [kwork, Small.Stack.step, StackH.step] at h1 ⊢
        by_cases hg : Vals.get p d = none ∧ d < p.length ∧ vs.length = N
        · have hv : StackH.var p d = none ∧ d < p.length ∧ vs.length = N := hg
          rw [if_pos hv] at h1
          simp only [if_pos hv]
          simp only [if_pos hg]
          cases hf : firstFail fails t N with
          | none =>
              rw [(StackH.fill_spec fails d _ N 0 _ _ t h1).1 hf]
              exact ⟨rfl, rfl, h2⟩
          | some k =>
              rw [StackH.unwound_ub h1 hf]; trivial
        · have hv : ¬ (StackH.var p d = none ∧ d < p.length ∧ vs.length = N) := hg
          rw [if_neg hv] at h1
          simp only [if_neg hv]
          simp only [if_neg hg]
          cases h1' : firstFail fails t 0 with
          | none => exact ⟨Option.some.inj h1, rfl, h2⟩
          | some k => exact absurd rfl (hff 0 k h1')
    | copy d s =>
        simp only [kwork, Small.Stack.step, StackH.step] at h1 ⊢
        cases hs : StackH.var p s with
        | none =>
            rw [hs] at h1
            rw [show Vals.get p s = none from hs]
            simp only at h1 ⊢
            cases h1' : firstFail fails t 0 with
            | none => exact ⟨Option.some.inj h1, rfl, h2⟩
            | some k => exact absurd rfl (hff 0 k h1')
        | some l =>
            rw [hs] at h1
            rw [show Vals.get p s = some l from hs]
            simp only at h1 ⊢
            by_cases hg : Vals.get p d = none ∧ d < p.length
            · have hv : StackH.var p d = none ∧ d < p.length := hg
              rw [if_pos hv] at h1
              simp only [if_pos hv]
              simp only [if_pos hg]
              have h1 : StackH.constructFrom false d (fun i p => do let y ← StackH.var p s; y[i]?) N 0 (p.set d (some (List.replicate N none)))
                = some (kstep false N dflt p (.copy d s)) := h1
              cases hf : firstFail fails t N with
              | none =>
                  have h3 := (StackH.fill_spec fails d _ N 0 _ _ t h1).1 hf
                  rw [h3]
                  exact ⟨rfl, rfl, h2⟩
              | some k =>
                  obtain ⟨pk, x, h3, -⟩ := (StackH.fill_spec fails d _ N 0 _ _ t h1).2 k hf
                  rw [h3]; trivial
            · have hv : ¬ (StackH.var p d = none ∧ d < p.length) := hg
              rw [if_neg hv] at h1
              simp only [if_neg hv]
              simp only [if_neg hg]
              cases h1' : firstFail fails t 0 with
              | none => exact ⟨Option.some.inj h1, rfl, h2⟩
              | some k => exact absurd rfl (hff 0 k h1')
    | assign d s => simp only [KAllowed] at ha; cases ha
    | destroy d =>
        simp only [kwork, Small.Stack.step, h1]
        cases h1' : firstFail fails t 0 with
        | none => exact ⟨rfl, rfl, h2⟩
        | some k => exact absurd rfl (hff 0 k h1')
    | write d i v =>
        simp only [kwork, Small.Stack.step]
        simp only [StackH.var_eq_get]
        cases hd : Vals.get p d with
        | none =>
            simp only [StackH.step, StackH.var_eq_get, hd] at h1
            simp only
            cases h1' : firstFail fails t 0 with
            | none => exact ⟨Option.some.inj h1, rfl, h2⟩
            | some k => exact absurd rfl (hff 0 k h1')
        | some x =>
            simp only
            by_cases hi : i < x.length
            · simp only [if_pos hi]
              rw [firstFail_succ]
              by_cases hf : fails t = true
              · simp only [if_pos hf]
                exact ⟨trivial, trivial, hok⟩
              · simp only [if_neg hf, h1]
                refine ⟨?_, ?_, h2⟩ <;> simp
            · simp only [if_neg hi]
              have : x[i]? = none := List.getElem?_eq_none (by omega)
              simp only [StackH.step, StackH.var_eq_get, hd, this] at h1
              cases h1' : firstFail fails t 0 with
              | none => exact ⟨Option.some.inj h1, rfl, h2⟩
              | some k => exact absurd rfl (hff 0 k h1')
  have key : ∀ (ops : List (StackH.Op V × Bool)) (q : Small.Stack.TVars V) (o : Vals V × Nat), q.p = o.1 → q.tick = o.2 → StackH.Ok false N o.1 →
      (∀ op ∈ ops, KAllowed false op.1) →
      Agrees (fun (q : Small.Stack.TVars V) (o : Vals V × Nat) => q.p = o.1 ∧ q.tick = o.2)
        (Small.run (Small.Stack.step fails N dflt) q ops) (Small.run (ktstep fails N dflt) o ops) := by
    intro ops
    induction ops with
    | nil => intro q o h1 h2 _ _; exact ⟨⟨h1, h2⟩, rfl⟩
    | cons op ops ih =>
        intro q o h1 h2 hok ha
        obtain ⟨p, t⟩ := q
        obtain ⟨a, t'⟩ := o
        simp only at h1 h2 hok
        subst h1 h2
        have h3 := one p t op hok (ha op (by simp))
        have ha' : ∀ op ∈ ops, KAllowed false op.1 := fun o ho => ha o (by simp [ho])
        simp only [Small.run]
        cases ho : ktstep fails N dflt (p, t) op <;> cases hq : Small.Stack.step fails N dflt ⟨p, t⟩ op <;> rw [ho, hq] at h3 <;> simp only at h3 ⊢
        · have := ih _ _ h3.1 h3.2.1 h3.2.2 ha'
          revert this
          cases Small.run (Small.Stack.step fails N dflt) _ ops <;> cases Small.run (ktstep fails N dflt) _ ops <;> simp [Agrees, Out.bind]
        · have := ih _ _ h3.1 h3.2.1 h3.2.2 ha'
          revert this
          cases Small.run (Small.Stack.step fails N dflt) _ ops <;> cases Small.run (ktstep fails N dflt) _ ops <;> simp [Agrees, Out.bind]
        · trivial
        · trivial
  refine key ops _ _ rfl rfl (fun i x hx => ?_) h
  simp only [StackH.var, List.getElem?_replicate] at hx
  split at hx <;> cases hx

example : (match Small.run (Small.Stack.step (fun t => t == 4) 2 0) ⟨[none, none], 0⟩
        [(.newFrom 0 [1, 2], false), (.copy 1 0, false), (.write 1 0 7, false), (.write 1 1 8, false), (.destroy 0, false)] with
      | .ok (q, thrown) => some (q.p, thrown)
      | _ => none) =
    (some : _ → Option (List (Option (List (Option Nat))) × List Bool))
      ([none, some [some 1, some 8]], [false, false, true, false, false]) := by decide +kernel

/-- `handle_stack(size)`, the second element of which throws; an assignment of elements that do not throw, which is an error already. -/
theorem C85_stack_witness :
    Small.run (Small.Stack.step (fun t => t == 1) 2 0) ⟨[none], 0⟩ [(.new 0, false)] = .ub ∧
    Small.run (Small.Stack.step (fun t => t == 2) 2 0) ⟨[none, none], 0⟩ [(.new 0, false), (.copy 1 0, false)] = .terminate ∧
    Small.run (Small.Stack.step (fun _ => false) 2 0) ⟨[none, none], 0⟩ [(.new 0, false), (.new 1, false), (.assign 1 0, false)] = .ub ∧
    Small.run (Small.Stack.step (fun t => t == 4) 2 0) ⟨[none, none], 0⟩ [(.new 0, false), (.new 1, false), (.assign 1 0, true)] = .terminate := by
  decide +kernel

end Nda.Mem
