import Verif.Model.ThrowConvert
import Verif.Props.Convert
import Verif.Props.ThrowSmall
import Verif.Lemmas.Exceptions
/-!
# C103: conversions between kinds of storage when copies of elements throw
-/
namespace Nda.Mem

variable {V : Type} {w : World V}

open Spec Nda.Exc

/-- The values of cells that are all there. -/
theorem values_of {l : List (Option V)} (h : ∀ c ∈ l, c.isSome) : ∃ vs : List V, l = vs.map some := by
  induction l with
  | nil => exact ⟨[], rfl⟩
  | cons c cs ih =>
      obtain ⟨v, rfl⟩ := Option.isSome_iff_exists.mp (h c (by simp))
      obtain ⟨vs, rfl⟩ := ih fun c hc => h c (by simp [hc])
      exact ⟨v :: vs, rfl⟩

/-- The constructor of the heap handle. -/
theorem heapCells_spec (fails : Nat → Bool) (unw : Bool) (m : Mem V) (vs : List V) (f : Nat → Option (Option V)) (hf : ∀ j, j < vs.length → f j = (vs.map some)[j]?) (t : Nat) :
    World.heapCells fails unw vs.length f m t =
      match Spec.firstFail fails t vs.length with
      | none => if vs = [] then .ok (Handle.null, m, t)
          else .ok (.heap (some m.hp.length) vs.length none, { m with hp := m.hp ++ [⟨vs.map some, false⟩] }, t + vs.length)
      | some j => if unw then .ub
          else .threw (Handle.null, { m with hp := m.hp ++ [⟨(vs.take j).map some ++ List.replicate (vs.length - j) none, false⟩] }, t + j + 1) := by
  unfold World.heapCells
  by_cases h0 : vs = []
  · subst h0; simp [Spec.firstFail]
  have hn : vs.length ≠ 0 := fun h => h0 (List.length_eq_zero_iff.mp h)
  rw [if_neg hn]
  have hc := fresh_spec ⟨fails, fun _ => false, true, unw⟩ (fun i _ => (f i).join) vs ⟨m.hp, t⟩ (fun j cells hj => by
    simp only [hf j hj]; simp [hj])
  have hF : Exc.Spec.firstFail ⟨fails, fun _ => false, true, unw⟩ t vs.length = Spec.firstFail fails t vs.length := rfl
  simp only [Heap.alloc] at hc ⊢
  rw [hF] at hc
  simp only [hc]
  cases hk : Spec.firstFail fails t vs.length with
  | none => simp [h0]
  | some j =>
      have hj := SProg.firstFail_lt hk
      simp only
      cases unw with
      | false => simp
      | true =>
          have ha := abandon_raw m.hp ((vs.take j).map some ++ List.replicate (vs.length - j) none) (by simp; omega) vs.length (t + j + 1) (by simp; omega)
          unfold abandon at ha
          simp only [if_true]
          cases hd : Exc.destruct (some m.hp.length) vs.length ⟨m.hp ++ [⟨(vs.take j).map some ++ List.replicate (vs.length - j) none, false⟩], t + j + 1⟩ <;> rw [hd] at ha <;>
            first | rfl | (simp at ha)

/-- A conversion after any history: all copies succeed, or the first one that throws decides. -/
theorem convert_cases (fails : Nat → Bool) (unw : Bool) (dflt : V) (hw : Reaches false dflt w) (kind : World.Kind) (d : Nat) (src : Obj) (n : Nat)
    (hs : w.size src = some n) (hu : Usable w src) (hd : Free w (kind.obj d)) (t : Nat) {w' : World V} (h : w.step false dflt (kind.conv d src) = some w') :
    (Spec.firstFail fails t n = none → w.convert fails unw kind d src t = .ok (w', t + n)) ∧
    ∀ k, Spec.firstFail fails t n = some k → if unw then w.convert fails unw kind d src t = .ub else ∃ q, w.convert fails unw kind d src t = .threw q := by
  obtain ⟨l, h1, h2, h3⟩ := (Reaches.inv hw).source hs hu
  obtain ⟨vs, rfl⟩ := values_of (h2 rfl)
  rw [List.length_map] at h1
  subst h1
  cases kind with
  | heap =>
      have hc : w.h.var d = none ∧ d < w.h.vars.length := hd
      have hm := newCells_made (triv := false) w.h.mem (vs.map some) h2 (w.cell src) (fun j hj => h3 j (by simpa using hj))
      have hsp := heapCells_spec fails unw w.h.mem vs (w.cell src) h3 t
      simp only [List.length_map] at hm
      simp only [World.Kind.conv, World.step, hs, if_pos hc] at h
      simp only [World.convert, hs, if_pos hc, hsp]
      refine ⟨fun hf => ?_, fun k hf => ?_⟩
      · rw [hf]
        rcases hm with ⟨e, hm⟩ | ⟨e, hm⟩
        · have e : vs = [] := List.map_eq_nil_iff.mp e
          subst e
          rw [hm] at h
          cases h; rfl
        · have e : vs ≠ [] := fun h => e (by rw [h]; rfl)
          rw [hm] at h
          simp only [if_neg e]
          cases h; rfl
      · rw [hf]
        cases unw with
        | true => simp
        | false => simp
  | sso K =>
      have hc : (w.s K).var d = none ∧ d < (w.s K).vars.length := hd
      simp only [World.Kind.conv, World.step, hs, if_pos hc, Option.map_eq_some_iff] at h
      obtain ⟨p, h4, rfl⟩ := h
      simp only [World.convert, hs, if_pos hc]
      refine ⟨fun hf => ?_, fun k hf => ?_⟩
      · rw [SProg.build_ok fails _ h4 hf]
      · obtain ⟨p1, pk, e1, e2, e3, e4⟩ := SProg.build_fail fails (t := t) (c := 0) (fun q => if unw then Small.unwind K d q else .threw q) h4 hf
        rw [e4]
        cases unw with
        | true => simp [SProg.unwind_ub e1 e2 e3 (SProg.firstFail_lt hf)]
        | false => simp

/-- C103.  A conversion of a usable variable of `n` elements, after any history, in which none of the copies number `t`, …, `t + n - 1` throws: the new handle has the
elements of the source in a memory of its own, and all other variables are as before.

Missing: a copy that throws, where the claim is false (`C103_throw`, `C103_array_throw`); shared handles whose share was moved away (`C89_moved_witness`). -/
theorem C103_convert_partial (fails : Nat → Bool) (unw : Bool) (dflt : V) (w : World V) (hw : Reaches false dflt w) (kind : World.Kind) (d : Nat) (src : Obj) (n : Nat)
    (hs : w.size src = some n) (hu : Usable w src) (hd : Free w (kind.obj d)) (t : Nat) (hq : ∀ j < n, fails (t + j) = false) :
    ∃ w', w.convert fails unw kind d src t = .ok (w', t + n) ∧ w.arrayStorage fails unw kind d src t = .ok (w', t + n) ∧ Reaches false dflt w' ∧
      elems w' (kind.obj d) = elems w src ∧ Alone w' (kind.obj d) ∧ ∀ o, o ≠ kind.obj d → Usable w o → elems w' o = elems w o := by
  obtain ⟨w', h1, h2, h3, h4, h5⟩ := C89_convert_partial false dflt w hw kind d src n hs hu hd
  have hf : Spec.firstFail fails t n = none := by
    unfold Spec.firstFail
    rw [List.find?_eq_none]
    intro j hj
    simp [hq j (List.mem_range.mp hj)]
  have e := (convert_cases fails unw dflt hw kind d src n hs hu hd t h1).1 hf
  exact ⟨w', e, by rw [World.arrayStorage, e]; rfl, h2, h3, h4, h5⟩

/-- C103, the claim fails whenever a copy throws.  The constructors delegate, so the destructor of the new handle runs and destroys elements that were not made: the
exception never reaches a handler in the caller. -/
theorem C103_throw (fails : Nat → Bool) (dflt : V) (w : World V) (hw : Reaches false dflt w) (kind : World.Kind) (d : Nat) (src : Obj) (n : Nat)
    (hs : w.size src = some n) (hu : Usable w src) (hd : Free w (kind.obj d)) (t : Nat) (hq : ∃ j < n, fails (t + j) = true) :
    w.convert fails true kind d src t = .ub := by
  obtain ⟨w', h1, -⟩ := C89_convert_partial false dflt w hw kind d src n hs hu hd
  cases hf : Spec.firstFail fails t n with
  | none =>
      obtain ⟨j, hj, he⟩ := hq
      exact absurd he (by simpa using List.find?_eq_none.mp hf j (List.mem_range.mpr hj))
  | some k => simpa using (convert_cases fails true dflt hw kind d src n hs hu hd t h1).2 k hf

/-- C103, arrays: the constructor is `noexcept`, so a copy that throws ends the program, after undefined behaviour if the stack is unwound before. -/
theorem C103_array_throw (fails : Nat → Bool) (unw : Bool) (dflt : V) (w : World V) (hw : Reaches false dflt w) (kind : World.Kind) (d : Nat) (src : Obj) (n : Nat)
    (hs : w.size src = some n) (hu : Usable w src) (hd : Free w (kind.obj d)) (t : Nat) (hq : ∃ j < n, fails (t + j) = true) :
    w.arrayStorage fails unw kind d src t = if unw then .ub else .terminate := by
  obtain ⟨w', h1, -⟩ := C89_convert_partial false dflt w hw kind d src n hs hu hd
  cases hf : Spec.firstFail fails t n with
  | none =>
      obtain ⟨j, hj, he⟩ := hq
      exact absurd he (by simpa using List.find?_eq_none.mp hf j (List.mem_range.mpr hj))
  | some k =>
      have h2 := (convert_cases fails unw dflt hw kind d src n hs hu hd t h1).2 k hf
      cases unw with
      | true =>
          simp only [if_true] at h2
          rw [World.arrayStorage, h2]; rfl
      | false =>
          simp only [Bool.false_eq_true, if_false] at h2
          obtain ⟨q, h2⟩ := h2
          rw [World.arrayStorage, h2]; rfl

/-- The number of elements that an operation copies from one kind of storage to another. -/
def Spec.copies (w : World V) : WOp V → Nat
  | .toHeap d src => match w.size src with
      | some n => if w.h.var d = none ∧ d < w.h.vars.length then n else 0
      | none => 0
  | .toSso K d src => match w.size src with
      | some n => if (w.s K).var d = none ∧ d < (w.s K).vars.length then n else 0
      | none => 0
  | _ => 0

/-- The number of elements that a history copies from one kind of storage to another. -/
def Spec.allCopies (dflt : V) : World V → List (WOp V) → Nat
  | _, [] => 0
  | w, op :: ops => copies w op + match w.step false dflt op with
      | some w' => allCopies dflt w' ops
      | none => 0

/-- A conversion to a variable that is alive or does not exist, or of a variable that is not alive, does nothing. -/
theorem convert_idle (fails : Nat → Bool) (dflt : V) {w w' : World V} (kind : World.Kind) (d : Nat) (src : Obj) (t : Nat) (hn : w.size src = none ∨ ¬ Free w (kind.obj d))
    (h : w.step false dflt (kind.conv d src) = some w') : copies w (kind.conv d src) = 0 ∧ w.convert fails true kind d src t = .ok (w', t) := by
  cases kind with
  | heap =>
      simp only [World.Kind.conv, World.step, copies, World.convert] at h ⊢
      cases hs : w.size src with
      | none => rw [hs] at h; cases h; exact ⟨rfl, rfl⟩
      | some n =>
          have hf : ¬ (w.h.var d = none ∧ d < w.h.vars.length) := by
            rcases hn with hn | hn
            · rw [hs] at hn; cases hn
            · exact hn
          rw [hs] at h
          simp only [if_neg hf] at h ⊢
          cases h; exact ⟨trivial, rfl⟩
  | sso K =>
      simp only [World.Kind.conv, World.step, copies, World.convert] at h ⊢
      cases hs : w.size src with
      | none => rw [hs] at h; cases h; exact ⟨rfl, rfl⟩
      | some n =>
          have hf : ¬ ((w.s K).var d = none ∧ d < (w.s K).vars.length) := by
            rcases hn with hn | hn
            · rw [hs] at hn; cases hn
            · exact hn
          rw [hs] at h
          simp only [if_neg hf] at h ⊢
          cases h; exact ⟨trivial, rfl⟩

/-- A conversion, whatever its variables. -/
theorem convert_step (fails : Nat → Bool) (dflt : V) {w w' : World V} (hw : Reaches false dflt w) (kind : World.Kind) (d : Nat) (src : Obj) (hu : Usable w src)
    (h : w.step false dflt (kind.conv d src) = some w') (t : Nat) :
    ((∀ j < copies w (kind.conv d src), fails (t + j) = false) → w.convert fails true kind d src t = .ok (w', t + copies w (kind.conv d src))) ∧
    ((∃ j < copies w (kind.conv d src), fails (t + j) = true) → w.convert fails true kind d src t = .ub) := by
  by_cases hf : Free w (kind.obj d)
  · cases hs : w.size src with
    | none =>
        obtain ⟨e1, e2⟩ := convert_idle fails dflt kind d src t (Or.inl hs) h
        exact ⟨fun _ => by rw [e1]; exact e2, fun ⟨j, hj, _⟩ => by omega⟩
    | some n =>
        have hc : copies w (kind.conv d src) = n := by
          cases kind with
          | heap =>
              have hf : w.h.var d = none ∧ d < w.h.vars.length := hf
              simp only [World.Kind.conv, copies, hs, if_pos hf]
          | sso K =>
              have hf : (w.s K).var d = none ∧ d < (w.s K).vars.length := hf
              simp only [World.Kind.conv, copies, hs, if_pos hf]
        rw [hc]
        refine ⟨fun hq => ?_, fun hq => C103_throw fails dflt w hw kind d src n hs hu hf t hq⟩
        refine (convert_cases fails true dflt hw kind d src n hs hu hf t h).1 (List.find?_eq_none.mpr fun j hj => ?_)
        simp [hq j (List.mem_range.mp hj)]
  · obtain ⟨e1, e2⟩ := convert_idle fails dflt kind d src t (Or.inr hf) h
    exact ⟨fun _ => by rw [e1]; exact e2, fun ⟨j, hj, _⟩ => by omega⟩

/-- One operation. -/
theorem throwStep_cases (fails : Nat → Bool) (dflt : V) {w w' : World V} (hw : Reaches false dflt w) (op : WOp V) (ha : WAllowed false w op) (h : w.step false dflt op = some w') (t : Nat) :
    ((∀ j < copies w op, fails (t + j) = false) → World.throwStep fails dflt (w, t) op = .ok (w', t + copies w op)) ∧
    ((∃ j < copies w op, fails (t + j) = true) → World.throwStep fails dflt (w, t) op = .ub) := by
  cases op with
  | toHeap d src => exact convert_step fails dflt hw .heap d src ha h t
  | toSso K d src => exact convert_step fails dflt hw (.sso K) d src ha h t
  | h op => exact ⟨fun _ => by simp only [World.throwStep, h]; rfl, fun ⟨j, hj, _⟩ => absurd hj (Nat.not_lt_zero j)⟩
  | s K op => exact ⟨fun _ => by simp only [World.throwStep, h]; rfl, fun ⟨j, hj, _⟩ => absurd hj (Nat.not_lt_zero j)⟩
  | k N op => exact ⟨fun _ => by simp only [World.throwStep, h]; rfl, fun ⟨j, hj, _⟩ => absurd hj (Nat.not_lt_zero j)⟩

/-- C103, programs: whatever is done with handles of all kinds, if no copy of a conversion throws, the program ends as one without exceptions (`C89_history_partial`) and has made the
copies that the sizes say; if one throws, wherever in the history, the program is undefined: a handler never gets an exception of a conversion.

Missing: the strong guarantee for copies that throw, which the code does not give; the exceptions of C89. -/
theorem C103_history_partial (fails : Nat → Bool) (dflt : V) (n : Nat) (ops : List (WOp V)) (h : WAllowedRun false dflt (World.start n) ops) (t : Nat) :
    ∃ w, (World.start n).run false dflt ops = some w ∧
      ((∀ j < allCopies dflt (World.start n) ops, fails (t + j) = false) →
        Small.run (World.throwStep fails dflt) (World.start n, t) ops = .ok ((w, t + allCopies dflt (World.start n) ops), List.replicate ops.length false)) ∧
      ((∃ j < allCopies dflt (World.start n) ops, fails (t + j) = true) → Small.run (World.throwStep fails dflt) (World.start n, t) ops = .ub) := by
  have key : ∀ (ops : List (WOp V)) (w0 : World V) (t : Nat), Reaches false dflt w0 → WAllowedRun false dflt w0 ops →
      ∃ w, w0.run false dflt ops = some w ∧
        ((∀ j < allCopies dflt w0 ops, fails (t + j) = false) →
          Small.run (World.throwStep fails dflt) (w0, t) ops = .ok ((w, t + allCopies dflt w0 ops), List.replicate ops.length false)) ∧
        ((∃ j < allCopies dflt w0 ops, fails (t + j) = true) → Small.run (World.throwStep fails dflt) (w0, t) ops = .ub) := by
    intro ops
    induction ops with
    | nil => intro w0 t _ _; exact ⟨w0, rfl, fun _ => rfl, fun ⟨j, hj, _⟩ => absurd hj (Nat.not_lt_zero j)⟩
    | cons op ops ih =>
        intro w0 t hr ha
        obtain ⟨w1, h1, -⟩ := (Reaches.inv hr).step dflt op ha.1
        have hr1 := Reaches.step hr ha.1 h1
        obtain ⟨w, h2, h3, h4⟩ := ih w1 (t + copies w0 op) hr1 (ha.2 w1 h1)
        obtain ⟨c1, c2⟩ := throwStep_cases fails dflt hr op ha.1 h1 t
        have hall : allCopies dflt w0 (op :: ops) = copies w0 op + allCopies dflt w1 ops := by simp only [allCopies, h1]
        rw [hall]
        refine ⟨w, by simp only [World.run, List.foldlM_cons, h1] at h2 ⊢; exact h2, fun hq => ?_, fun ⟨j, hj, hq⟩ => ?_⟩
        · have e1 := c1 fun j hj => hq j (by omega)
          have e2 := h3 fun j hj => by rw [Nat.add_assoc]; exact hq _ (by omega)
          simp only [Small.run, e1, e2, Out.bind, Nat.add_assoc, List.length_cons, List.replicate_succ]
        · by_cases he : ∃ i < copies w0 op, fails (t + i) = true
          · simp only [Small.run, c2 he]
          · have e1 := c1 fun i hi => by
              cases hb : fails (t + i) with
              | false => rfl
              | true => exact absurd ⟨i, hi, hb⟩ he
            have hj' : copies w0 op ≤ j := by
              by_contra hlt
              exact he ⟨j, by omega, hq⟩
            have e2 := h4 ⟨j - copies w0 op, by omega, by rw [show t + copies w0 op + (j - copies w0 op) = t + j by omega]; exact hq⟩
            simp only [Small.run, e1, e2, Out.bind]
  exact key ops _ t ⟨n, [], trivial, rfl⟩ h

/-! ### Examples -/

/-- Two elements on the stack, three in a heap handle. -/
def throwHist : List (WOp Nat) := [.k 2 (.newFrom 0 [1, 2]), .h (.newFrom 0 [3, 4, 5])]

theorem throwHist_runs : ∃ w, (World.start 3).run false 0 throwHist = some w ∧ Reaches false 0 w ∧ w.size (.k 2 0) = some 2 ∧ w.size (.h 0) = some 3 ∧ Free w (.h 1) ∧
    Free w (.s 2 0) ∧ Usable w (.h 0) :=
  ⟨_, rfl, ⟨3, throwHist, allowed_plain 0 _ _ (by decide), rfl⟩, rfl, rfl, ⟨rfl, by decide⟩, ⟨rfl, by decide⟩, fun x n h => by cases h⟩

/-- Copies number 7 and 8, none of which throws, and copies number 6 to 8, where number 7 throws. -/
example : ∃ w : World Nat, ∃ w', w.convert (fun t => t == 6) true .heap 1 (.k 2 0) 7 = .ok (w', 9) ∧ w.convert (fun t => t == 7) true (.sso 2) 0 (.h 0) 6 = .ub ∧
    w.convert (fun t => t == 7) true .heap 1 (.h 0) 6 = .ub ∧ w.arrayStorage (fun t => t == 7) false (.sso 2) 0 (.h 0) 6 = .terminate := by
  obtain ⟨w, -, hr, h1, h2, h3, h4, h5⟩ := throwHist_runs
  obtain ⟨w', e, -⟩ := C103_convert_partial (fun t => t == 6) true 0 w hr .heap 1 (.k 2 0) 2 h1 trivial h3 7 (by decide)
  exact ⟨w, w', e, C103_throw _ 0 w hr (.sso 2) 0 (.h 0) 3 h2 h5 h4 6 ⟨1, by decide⟩, C103_throw _ 0 w hr .heap 1 (.h 0) 3 h2 h5 h3 6 ⟨1, by decide⟩,
    C103_array_throw _ false 0 w hr (.sso 2) 0 (.h 0) 3 h2 h5 h4 6 ⟨1, by decide⟩⟩

/-- The elements after a conversion to a small buffer of two that needs a block. -/
example : (((World.start 3).run false 0 throwHist).map fun w => match w.convert (fun t => t == 9) true (.sso 2) 0 (.h 0) 6 with
      | .ok (w', t) => (elems w' (.s 2 0), t)
      | _ => (none, 0)) = some (some [some (some 3), some (some 4), some (some 5)], 9) := by decide +kernel

/-- Eight operations, three conversions with 2, 2 and 3 copies, one of a variable in use that does nothing. -/
def throwHist2 : List (WOp Nat) := throwHist ++ [.k 3 (.newFrom 0 [6, 7, 8]), .toHeap 1 (.k 2 0), .toSso 4 0 (.k 2 0), .toHeap 1 (.s 4 0), .h (.destroy 1), .toHeap 1 (.k 3 0)]

example : allCopies 0 (World.start 3) throwHist2 = 7 := by decide +kernel
example : ∃ w, (World.start 3).run false 0 throwHist2 = some w ∧
    Small.run (World.throwStep (fun t => t == 7) 0) (World.start 3, 0) throwHist2 = .ok ((w, 7), List.replicate 8 false) := by
  obtain ⟨w, h1, h2, -⟩ := C103_history_partial (fun t => t == 7) 0 3 throwHist2 (allowed_plain 0 _ _ (by decide)) 0
  have e : allCopies 0 (World.start 3) throwHist2 = 7 := by decide +kernel
  rw [e] at h2
  exact ⟨w, h1, h2 (by decide)⟩
example : Small.run (World.throwStep (fun t => t == 6) 0) (World.start 3, 0) throwHist2 = .ub := by
  obtain ⟨w, -, -, h⟩ := C103_history_partial (fun t => t == 6) 0 3 throwHist2 (allowed_plain 0 _ _ (by decide)) 0
  have e : allCopies 0 (World.start 3) throwHist2 = 7 := by decide +kernel
  rw [e] at h
  exact h ⟨6, by decide⟩

end Nda.Mem
