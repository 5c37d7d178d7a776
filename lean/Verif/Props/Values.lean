import Verif.Lemmas.ValuesAssign
/-!
# C95: owning arrays are values
-/
namespace Nda.Arr
open Nda Nda.Mem Nda.Spec Spec Nda.Mem.Spec Loops Nda.Perm LayoutTransforms Nda.IdxMap

variable {V : Type}

/-- **C95** Any program of constructions, copies, moves, assignments (of scalars, arrays and expressions that read any elements of any arrays, to arrays
with resizing and to views made by any chain of view operations), resizes and destructions, on any number of arrays, each of any rank, shape and stride
order, runs without a memory error, and its memory represents what the same program does to values: functions from index tuples to elements that
no two variables share. -/
theorem C95_values (triv : Bool) (dflt : V) (so : Nat → List Nat) (hso : ∀ i, IsPerm (so i)) (hne : ∀ i, so i ≠ []) (n : Nat) (ops : List (VOp V))
    (h : VAllowedRun triv dflt so (List.replicate n none) ops) :
    ∃ p, (AProg.start n).vrun triv dflt so ops = some p ∧ Represents p (vfinal triv dflt (rankOf so) (List.replicate n none) ops) := by
  obtain ⟨p, h1, h2⟩ := VInv.run dflt hso hne (VInv.start triv so n) h
  exact ⟨p, h1, h2.represents⟩

/-! ### Independence -/

theorem vnext_frame (triv : Bool) (dflt : V) (rank : Nat → Nat) (a : Vals V) (op : VOp V) {d : Nat} (h : d ∉ targets op) : (vnext triv dflt rank a op).get d = a.get d := by
  have hput : ∀ (e : Nat) (x : Val V), d ≠ e → (a.put e x).get d = a.get d := by
    intro e x hde
    simp only [Vals.put]
    split
    · exact set_get_ne hde _
    · rfl
  cases op with
  | default e junk | make e shape | zeros e shape | build e shape rhs => exact hput e _ (by simpa [targets] using h)
  | copy e s =>
      simp only [vnext]
      split
      · exact hput e _ (by simpa [targets] using h)
      · rfl
  | move e s =>
      simp only [targets, List.mem_cons, List.not_mem_nil, or_false, not_or] at h
      simp only [vnext]
      split
      · split
        · rw [set_get_ne h.2, set_get_ne h.1]
        · rfl
      · rfl
  | copyAssign e s =>
      have h : d ≠ e := by simpa [targets] using h
      simp only [vnext, Vals.upd]
      split
      · split
        · rfl
        · exact set_get_ne h _
      · rfl
  | moveAssign e s =>
      simp only [targets, List.mem_cons, List.not_mem_nil, or_false, not_or] at h
      simp only [vnext]
      split
      · split
        · rfl
        · rw [set_get_ne h.2, set_get_ne h.1]
      · rfl
  | resize e shape | fill e v | put e ops ext rhs =>
      have h : d ≠ e := by simpa [targets] using h
      simp only [vnext]
      split
      · exact set_get_ne h _
      · rfl
  | assign e shape rhs =>
      have h : d ≠ e := by simpa [targets] using h
      simp only [vnext, Vals.upd]
      split
      · rfl
      · exact set_get_ne h _
  | destroy e => exact set_get_ne (by simpa [targets] using h) _

theorem vfinal_frame (triv : Bool) (dflt : V) (rank : Nat → Nat) {d : Nat} : ∀ (ops : List (VOp V)) (a : Vals V), (∀ op ∈ ops, d ∉ targets op) →
    (vfinal triv dflt rank a ops).get d = a.get d
  | [], _, _ => rfl
  | op :: ops, a, h => by
      rw [vfinal, List.foldl_cons]
      exact (vfinal_frame triv dflt rank ops _ (fun o ho => h o (by simp [ho]))).trans (vnext_frame triv dflt rank a op (h op (by simp)))

theorem vfinal_append (triv : Bool) (dflt : V) (rank : Nat → Nat) (a : Vals V) (ops ops' : List (VOp V)) :
    vfinal triv dflt rank a (ops ++ ops') = vfinal triv dflt rank (vfinal triv dflt rank a ops) ops' := List.foldl_append

theorem vallowed_append {triv : Bool} {dflt : V} {so : Nat → List Nat} : ∀ {ops ops' : List (VOp V)} {a : Vals V},
    VAllowedRun triv dflt so a (ops ++ ops') ↔ VAllowedRun triv dflt so a ops ∧ VAllowedRun triv dflt so (vfinal triv dflt (rankOf so) a ops) ops'
  | [], _, _ => by simp [VAllowedRun, vfinal]
  | op :: ops, ops', a => by
      simp only [List.cons_append, VAllowedRun, vallowed_append (ops := ops), and_assoc]; rfl

theorem vrun_append {triv : Bool} {dflt : V} {so : Nat → List Nat} {p : AProg V} {ops ops' : List (VOp V)} :
    p.vrun triv dflt so (ops ++ ops') = (p.vrun triv dflt so ops).bind (fun q => q.vrun triv dflt so ops') := by
  simp only [AProg.vrun, List.foldlM_append]; rfl

/-- Statements that do not name array `d` as their target leave its elements as they are, whatever they do to the others (that it was copied from, or
that were copied from it). -/
theorem C95_independent (triv : Bool) (dflt : V) (so : Nat → List Nat) (hso : ∀ i, IsPerm (so i)) (hne : ∀ i, so i ≠ []) (n : Nat) (pre post : List (VOp V))
    (h : VAllowedRun triv dflt so (List.replicate n none) (pre ++ post)) (d : Nat) (hd : ∀ op ∈ post, d ∉ targets op) :
    ∃ p q, (AProg.start n).vrun triv dflt so pre = some p ∧ (AProg.start n).vrun triv dflt so (pre ++ post) = some q ∧
      ∀ x, (vfinal triv dflt (rankOf so) (List.replicate n none) pre).get d = some x → x.moved = false →
        (∃ m m', p.lays[d]? = some m ∧ q.lays[d]? = some m' ∧ m.len = x.shape ∧ m'.len = x.shape) ∧
        ∀ idx v, InRange x.shape idx → x.el idx = some v → p.elem d idx = some v ∧ q.elem d idx = some v := by
  obtain ⟨h1, h2⟩ := vallowed_append.mp h
  obtain ⟨p, e1, e2⟩ := C95_values triv dflt so hso hne n pre h1
  obtain ⟨q, f1, f2⟩ := C95_values triv dflt so hso hne n (pre ++ post) h
  refine ⟨p, q, e1, f1, fun x hx hm => ?_⟩
  have r1 := e2 d
  have r2 := f2 d
  rw [vfinal_append, vfinal_frame triv dflt (rankOf so) post _ hd] at r2
  rw [hx] at r1 r2
  obtain ⟨⟨m, hm1, hm2⟩, k1, -⟩ := r1
  obtain ⟨⟨m', hm1', hm2'⟩, k2, -⟩ := r2
  exact ⟨⟨m, m', hm1, hm1', hm2, hm2'⟩, fun idx v hi hv => ⟨k1 hm idx v hi hv, k2 hm idx v hi hv⟩⟩

/-- A copy has the elements of the original at the time of the copy, after any statements that do not name the copy: they may overwrite, resize, move
from or destroy the original. -/
theorem C95_copy (triv : Bool) (dflt : V) (so : Nat → List Nat) (hso : ∀ i, IsPerm (so i)) (hne : ∀ i, so i ≠ []) (n : Nat) (pre post : List (VOp V)) (d s : Nat)
    (h : VAllowedRun triv dflt so (List.replicate n none) (pre ++ .copy d s :: post)) (hd : ∀ op ∈ post, d ∉ targets op) (hdn : d < n)
    (hfree : (vfinal triv dflt (rankOf so) (List.replicate n none) pre).get d = none) :
    ∃ p q, (AProg.start n).vrun triv dflt so pre = some p ∧ (AProg.start n).vrun triv dflt so (pre ++ .copy d s :: post) = some q ∧
      ∀ x, (vfinal triv dflt (rankOf so) (List.replicate n none) pre).get s = some x → x.moved = false →
        ∀ idx v, InRange x.shape idx → x.el idx = some v → p.elem s idx = some v ∧ q.elem d idx = some v := by
  obtain ⟨h1, -⟩ := vallowed_append.mp h
  obtain ⟨p, e1, e2⟩ := C95_values triv dflt so hso hne n pre h1
  have h' : VAllowedRun triv dflt so (List.replicate n none) ((pre ++ [.copy d s]) ++ post) := by simpa using h
  obtain ⟨_, q, -, f1, f2⟩ := C95_independent triv dflt so hso hne n (pre ++ [.copy d s]) post h' d hd
  refine ⟨p, q, e1, by simpa using f1, fun x hx hm idx v hi hv => ⟨?_, ?_⟩⟩
  · have r1 := e2 s
    rw [hx] at r1
    exact r1.2.1 hm idx v hi hv
  · have hlen : (vfinal triv dflt (rankOf so) (List.replicate n none) pre).length = n := vfinal_length triv dflt (rankOf so) pre _ |>.trans (by simp)
    have hget : (vfinal triv dflt (rankOf so) (List.replicate n none) (pre ++ [.copy d s])).get d = some x := by
      rw [vfinal_append]
      simp only [vfinal, List.foldl_cons, List.foldl_nil, vnext]
      simp only [vfinal] at hx hfree hlen
      rw [hx]
      simp only
      rw [Vals.put, if_pos ⟨by rw [hlen]; exact hdn, hfree⟩, set_get_self (by rw [hlen]; exact hdn)]
    exact ((f2 x hget hm).2 idx v hi hv).2
where
  vnext_length (triv : Bool) (dflt : V) (rank : Nat → Nat) (a : Vals V) (op : VOp V) : (vnext triv dflt rank a op).length = a.length := by
    cases op <;> simp only [vnext, Vals.put, Vals.upd] <;> (repeat' split) <;> simp
  vfinal_length (triv : Bool) (dflt : V) (rank : Nat → Nat) : ∀ (ops : List (VOp V)) (a : Vals V), (vfinal triv dflt rank a ops).length = a.length
    | [], _ => rfl
    | op :: ops, a => by
        rw [vfinal, List.foldl_cons]
        exact (vfinal_length triv dflt rank ops _).trans (vnext_length triv dflt rank a op)

/-! ### Exchange -/

/-- `std::swap(a, b)` through a temporary `t`: move construction, two move assignments, destruction of the temporary. -/
def swapOps (t a b : Nat) : List (VOp V) := [.move t a, .moveAssign a b, .moveAssign b t, .destroy t]

theorem vfinal_swap (triv : Bool) (dflt : V) (rank : Nat → Nat) (A : Vals V) (t a b : Nat) (ht : t < A.length) (htn : A.get t = none) {x y : Val V} (ha : A.get a = some x)
    (hb : A.get b = some y) (i : Nat) : (vfinal triv dflt rank A (swapOps t a b)).get i = if i = b then some x else if i = a then some y else A.get i := by
  have hta : t ≠ a := fun e => by rw [e, ha] at htn; cases htn
  have htb : t ≠ b := fun e => by rw [e, hb] at htn; cases htn
  have hlt : ∀ {j z}, A.get j = some z → j < A.length := by
    intro j z hj
    by_contra hc
    rw [Vals.get, List.getElem?_eq_none (by omega)] at hj; cases hj
  have hal := hlt ha
  have hbl := hlt hb
  simp only [vfinal, swapOps, List.foldl_cons, List.foldl_nil]
  -- after the first move
  have e1 : vnext triv dflt rank A (.move t a) = (A.set t (some x)).set a (some ⟨x.shape, true, fun _ => none⟩) := by
    simp only [vnext, ha]; rw [if_pos ⟨ht, htn⟩]
  rw [e1]
  generalize hA1 : (A.set t (some x)).set a (some ⟨x.shape, true, fun _ => none⟩) = A1
  have l1 : A1.length = A.length := by rw [← hA1]; simp
  have g1 : ∀ j, Vals.get A1 j = if j = a then some ⟨x.shape, true, fun _ => none⟩ else if j = t then some x else A.get j := by
    intro j
    rw [← hA1]
    by_cases e : j = a
    · subst e; rw [set_get_self (by simpa using hal), if_pos rfl]
    · rw [set_get_ne e, if_neg e]
      by_cases e' : j = t
      · subst e'; rw [set_get_self ht, if_pos rfl]
      · rw [set_get_ne e', if_neg e']
  have gb : ∃ y', Vals.get A1 b = some y' ∧ (a ≠ b → y' = y) := by
    rw [g1]
    by_cases e : b = a
    · subst e; exact ⟨_, if_pos rfl, fun h => absurd rfl h⟩
    · rw [if_neg e, if_neg (Ne.symm htb), hb]; exact ⟨y, rfl, fun _ => rfl⟩
  obtain ⟨y', gb, gb'⟩ := gb
  have e2 : vnext triv dflt rank A1 (.moveAssign a b) = (A1.set a (some y')).set b (some ⟨y'.shape, true, fun _ => none⟩) := by
    simp only [vnext, gb]; rw [if_neg (by rw [g1, if_pos rfl]; simp)]
  rw [e2]
  generalize hA2 : (A1.set a (some y')).set b (some ⟨y'.shape, true, fun _ => none⟩) = A2
  have l2 : A2.length = A.length := by rw [← hA2]; simp [l1]
  have g2 : ∀ j, Vals.get A2 j = if j = b then some ⟨y'.shape, true, fun _ => none⟩ else if j = a then some y' else Vals.get A1 j := by
    intro j
    rw [← hA2]
    by_cases e : j = b
    · subst e; rw [set_get_self (by simpa [l1] using hbl), if_pos rfl]
    · rw [set_get_ne e, if_neg e]
      by_cases e' : j = a
      · subst e'; rw [set_get_self (by rw [l1]; exact hal), if_pos rfl]
      · rw [set_get_ne e', if_neg e']
  have gt : Vals.get A2 t = some x := by rw [g2, if_neg htb, if_neg hta, g1, if_neg hta, if_pos rfl]
  have e3 : vnext triv dflt rank A2 (.moveAssign b t) = (A2.set b (some x)).set t (some ⟨x.shape, true, fun _ => none⟩) := by
    simp only [vnext, gt]; rw [if_neg (by rw [g2, if_pos rfl]; simp)]
  rw [e3]
  simp only [vnext]
  by_cases e : i = t
  · subst e
    rw [set_get_self (by simp [l2, ht]), if_neg htb, if_neg hta, htn]
  · rw [set_get_ne e, set_get_ne e]
    by_cases eb : i = b
    · subst eb; rw [set_get_self (by rw [l2]; exact hbl), if_pos rfl]
    · rw [set_get_ne eb, if_neg eb, g2, if_neg eb]
      by_cases ea : i = a
      · subst ea; rw [if_pos rfl, if_pos rfl, gb' eb]
      · rw [if_neg ea, if_neg ea, g1, if_neg ea, if_neg e]

/-- Exchange of two arrays by moves (of any shapes, also of an array with itself): each has the shape and the elements of the other, all other arrays
are as before. -/
theorem C95_swap (triv : Bool) (dflt : V) (so : Nat → List Nat) (hso : ∀ i, IsPerm (so i)) (hne : ∀ i, so i ≠ []) (n : Nat) (pre : List (VOp V))
    (h : VAllowedRun triv dflt so (List.replicate n none) pre) (t a b : Nat) (hab : so a = so b) (hat : so a = so t) (ht : t < n) (A : Vals V)
    (hA : A = vfinal triv dflt (rankOf so) (List.replicate n none) pre) (htn : A.get t = none) (x y : Val V) (ha : A.get a = some x) (hb : A.get b = some y) :
    ∃ p, (AProg.start n).vrun triv dflt so (pre ++ swapOps t a b) = some p ∧
      ∀ i, match (if i = b then some x else if i = a then some y else A.get i) with
        | none => p.prog.var i = none
        | some z => (∃ m, p.lays[i]? = some m ∧ m.len = z.shape) ∧ (z.moved = false → ∀ idx v, InRange z.shape idx → z.el idx = some v → p.elem i idx = some v) ∧
            (z.moved = true → ∀ idx, p.elem i idx = none) := by
  subst hA
  obtain ⟨p, h1, h2⟩ := C95_values triv dflt so hso hne n (pre ++ swapOps t a b) (vallowed_append.mpr ⟨h, by
    simp [swapOps, VAllowedRun, VAllowed, ← hab, ← hat]⟩)
  refine ⟨p, h1, fun i => ?_⟩
  have := h2 i
  have hlen : (vfinal triv dflt (rankOf so) (List.replicate n none) pre).length = n := (C95_copy.vfinal_length triv dflt (rankOf so) pre _).trans (by simp)
  rw [vfinal_append, vfinal_swap triv dflt (rankOf so) _ t a b (by rw [hlen]; exact ht) htn ha hb i] at this
  exact this

/-! ### Lazy and eager evaluation -/

/-- Evaluation into a temporary, which is then moved: what `d = rhs` would do without lazy evaluation. -/
def eagerOps (t d : Nat) (shape : List Int) (rhs : List Int → Comp V) : List (VOp V) := [.build t shape rhs, .moveAssign d t, .destroy t]

/-- An assignment `d = rhs` that is allowed gives every array the same elements as evaluating the right-hand side into a new array first. -/
theorem C95_lazy (triv : Bool) (dflt : V) (so : Nat → List Nat) (hso : ∀ i, IsPerm (so i)) (hne : ∀ i, so i ≠ []) (n : Nat) (pre : List (VOp V)) (t d : Nat) (shape : List Int)
    (rhs : List Int → Comp V) (h : VAllowedRun triv dflt so (List.replicate n none) (pre ++ [.assign d shape rhs])) (htd' : so t = so d) (ht : t < n)
    (htn : (vfinal triv dflt (rankOf so) (List.replicate n none) pre).get t = none) (y : Val V) (hd : (vfinal triv dflt (rankOf so) (List.replicate n none) pre).get d = some y) :
    ∃ p q, (AProg.start n).vrun triv dflt so (pre ++ [.assign d shape rhs]) = some p ∧
      (AProg.start n).vrun triv dflt so (pre ++ eagerOps t d shape rhs) = some q ∧
      (∀ idx, InRange shape idx → ∃ v, p.elem d idx = some v ∧ q.elem d idx = some v) ∧
      ∀ i x, i ≠ d → (vfinal triv dflt (rankOf so) (List.replicate n none) pre).get i = some x → x.moved = false → ∀ idx v, InRange x.shape idx → x.el idx = some v →
        p.elem i idx = some v ∧ q.elem i idx = some v := by
  obtain ⟨h1, h2⟩ := vallowed_append.mp h
  have hlen : (vfinal triv dflt (rankOf so) (List.replicate n none) pre).length = n := (C95_copy.vfinal_length triv dflt (rankOf so) pre _).trans (by simp)
  have hs := h2.1.1
  have hv := h2.1.2
  have hmono : ∀ idx v, (rhs idx).eval ((vfinal triv dflt (rankOf so) (List.replicate n none) pre).eltAssign d shape idx) = some v →
      (rhs idx).eval (vfinal triv dflt (rankOf so) (List.replicate n none) pre).elt = some v := by
    intro idx v hh
    refine Comp.eval_mono (fun x jdx u hu => ?_) hh
    simp only [Vals.eltAssign] at hu
    split at hu
    · cases hu
    · exact hu
  obtain ⟨p, e1, e2⟩ := C95_values triv dflt so hso hne n (pre ++ [.assign d shape rhs]) h
  obtain ⟨q, f1, f2⟩ := C95_values triv dflt so hso hne n (pre ++ eagerOps t d shape rhs) (vallowed_append.mpr ⟨h1, by
    refine ⟨⟨htd' ▸ hs, fun idx hi => ?_⟩, htd'.symm, trivial, trivial⟩
    obtain ⟨v, hv'⟩ := Option.isSome_iff_exists.mp (hv idx hi)
    rw [hmono idx v hv']; rfl⟩)
  rw [vfinal_append] at e2 f2
  generalize vfinal triv dflt (rankOf so) (List.replicate n none) pre = A at *
  have htd : t ≠ d := fun e => by rw [e, hd] at htn; cases htn
  have hdl : d < A.length := by
    by_contra hc
    rw [Vals.get, List.getElem?_eq_none (by omega)] at hd; cases hd
  have htl : t < A.length := by omega
  have a1 : vfinal triv dflt (rankOf so) A [.assign d shape rhs] = A.set d (some ⟨shape, false, fun idx => (rhs idx).eval (A.eltAssign d shape idx)⟩) := by
    simp [vfinal, vnext, Vals.upd, hd]
  have a2 : ∀ i, (vfinal triv dflt (rankOf so) A (eagerOps t d shape rhs)).get i = if i = d then some ⟨shape, false, fun idx => (rhs idx).eval A.elt⟩ else A.get i := by
    intro i
    have b1 : vnext triv dflt (rankOf so) A (.build t shape rhs) = A.set t (some ⟨shape, false, fun idx => (rhs idx).eval A.elt⟩) := by
      simp only [vnext]; rw [Vals.put, if_pos ⟨htl, htn⟩]
    simp only [vfinal, eagerOps, List.foldl_cons, List.foldl_nil]
    rw [b1]
    generalize hA1 : A.set t (some ⟨shape, false, fun idx => (rhs idx).eval A.elt⟩) = A1
    have c1 : Vals.get A1 t = some ⟨shape, false, fun idx => (rhs idx).eval A.elt⟩ := by rw [← hA1, set_get_self htl]
    have c2 : Vals.get A1 d = some y := by rw [← hA1, set_get_ne (Ne.symm htd), hd]
    have l1 : A1.length = A.length := by rw [← hA1]; simp
    simp only [vnext, c1, c2, reduceCtorEq, if_false]
    by_cases e : i = t
    · subst e
      rw [set_get_self (by simp [l1, htl]), if_neg htd, htn]
    · rw [set_get_ne e, set_get_ne e]
      by_cases e' : i = d
      · subst e'; rw [set_get_self (by rw [l1]; exact hdl), if_pos rfl]
      · rw [set_get_ne e', if_neg e', ← hA1, set_get_ne e]
  refine ⟨p, q, e1, f1, fun idx hi => ?_, fun i x hne' hx hm idx v hi hv' => ?_⟩
  · obtain ⟨v, hv'⟩ := Option.isSome_iff_exists.mp (hv idx hi)
    have r1 := e2 d
    have r2 := f2 d
    rw [a1, set_get_self hdl] at r1
    rw [a2 d, if_pos rfl] at r2
    exact ⟨v, r1.2.1 rfl idx v hi hv', r2.2.1 rfl idx v hi (hmono idx v hv')⟩
  · have r1 := e2 i
    have r2 := f2 i
    rw [a1, set_get_ne hne', hx] at r1
    rw [a2 i, if_neg hne', hx] at r2
    exact ⟨r1.2.1 hm idx v hi hv', r2.2.1 hm idx v hi hv'⟩

/-! ### What the condition on right-hand sides excludes -/

/-- A vector `1, 2, 3, 4`. -/
def one234 (d : Nat) : VOp Int := .build d [4] (fun idx => .ret (idx.headD 0 + 1))

/-- Assignment to a view of the same array that overlaps: `a(range(1, 4)) = a(range(0, 3))` makes `1, 1, 1, 1`; evaluated eagerly it makes
`1, 1, 2, 3`. -/
theorem C95_overlap_witness :
    (((AProg.start 2).vrun true (0 : Int) (fun _ => [0]) [one234 0, .put 0 [.slice [.rng 1 4 1]] [3] (fun idx => .read 0 idx .ret)]).bind
      fun p => [0, 1, 2, 3].mapM fun i => p.elem 0 [i]) = some [1, 1, 1, 1] ∧
    (((AProg.start 2).vrun true (0 : Int) (fun _ => [0]) [one234 0, .build 1 [3] (fun idx => .read 0 idx .ret),
        .put 0 [.slice [.rng 1 4 1]] [3] (fun idx => .read 1 idx .ret), .destroy 1]).bind
      fun p => [0, 1, 2, 3].mapM fun i => p.elem 0 [i]) = some [1, 1, 2, 3] := by
  constructor <;> decide +kernel

/-- Move assignment of an array to itself loses its elements; copy assignment of an array to itself keeps them. -/
theorem C95_self_witness :
    (((AProg.start 1).vrun true (0 : Int) (fun _ => [0]) [one234 0, .moveAssign 0 0]).bind fun p => p.elem 0 [2]) = none ∧
    (((AProg.start 1).vrun true (0 : Int) (fun _ => [0]) [one234 0, .copyAssign 0 0]).bind fun p => p.elem 0 [2]) = some 3 := by
  constructor <;> decide +kernel

/-! ### A program that meets the hypotheses -/

/-- `a(i, j) = 10 i + j` of shape (2, 3); `b = a`; `a(i, j) = a(i, j) + b(i, 2)`; row 1 of the transposed `a` is `b(range, 0)`; `c = move(a)`; `a` is assigned the first row
of `c` as a matrix; `b` is destroyed. -/
def demo : List (VOp Int) :=
  [.build 0 [2, 3] (fun idx => .ret (10 * idx.headD 0 + idx.getD 1 0)),
   .copy 1 0,
   .assign 0 [2, 3] (fun idx => .read 0 idx fun u => .read 1 [idx.headD 0, 2] fun v => .ret (u + v)),
   .put 0 [.permute [1, 0], .slice [.idx 1, .all]] [2] (fun idx => .read 1 [idx.headD 0, 0] .ret),
   .move 2 0,
   .assign 0 [1, 3] (fun idx => .read 2 [0, idx.getD 1 0] .ret),
   .destroy 1]

theorem demo_allowed : VAllowedRun true (0 : Int) (fun _ => [0, 1]) (List.replicate 3 none) demo := by
  have two3 : ∀ idx, InRange [2, 3] idx → idx ∈ box [2, 3] := fun idx h => mem_box.mpr h
  have one3 : ∀ idx, InRange [1, 3] idx → idx ∈ box [1, 3] := fun idx h => mem_box.mpr h
  have two : ∀ idx, InRange [2] idx → idx ∈ box [2] := fun idx h => mem_box.mpr h
  refine ⟨⟨⟨rfl, by decide⟩, fun idx _ => rfl⟩, rfl, ⟨⟨rfl, by decide⟩, fun idx hi => ?_⟩, fun x hx => ?_, rfl, ⟨⟨rfl, by decide⟩, fun idx hi => ?_⟩, trivial, trivial⟩
  · have := two3 idx hi
    clear hi; revert idx; decide +kernel
  · cases hx
    refine ⟨rfl, ?_, ?_, fun idx hi => ?_⟩
    · refine chainAllowed_cons (len' := [3, 2]) ⟨by decide, by decide⟩ ⟨by decide, by decide⟩ ?_
      refine chainAllowed_cons (len' := [2]) ⟨by decide, by decide, ?_⟩ ⟨rfl, trivial⟩ trivial
      exact ⟨⟨by decide, by decide⟩, trivial, trivial⟩
    · exact ⟨[3, 2], ⟨by decide, by decide⟩, [2], ⟨rfl, trivial⟩, rfl⟩
    · have := two idx hi
      clear hi; revert idx; decide +kernel
  · have := one3 idx hi
    clear hi; revert idx; decide +kernel

example : ∃ p, (AProg.start 3).vrun true (0 : Int) (fun _ => [0, 1]) demo = some p ∧
    Represents p (vfinal true 0 (fun _ => 2) (List.replicate 3 none) demo) :=
  C95_values true 0 (fun _ => [0, 1]) (fun _ => by decide) (fun _ => by decide) 3 demo demo_allowed

/-- What it computes: array 0 is `2 0 4`, array 2 is `2 0 4 / 22 10 24`. -/
example : (((AProg.start 3).vrun true (0 : Int) (fun _ => [0, 1]) demo).bind fun p =>
      (tuples [1, 3]).mapM (p.elem 0)) = some [2, 0, 4] ∧
    (((AProg.start 3).vrun true (0 : Int) (fun _ => [0, 1]) demo).bind fun p => (tuples [2, 3]).mapM (p.elem 2)) = some [2, 0, 4, 22, 10, 24] ∧
    (tuples [1, 3]).mapM ((vfinal true (0 : Int) (fun _ => 2) (List.replicate 3 none) demo).elt 0) = some [2, 0, 4] ∧
    (tuples [2, 3]).mapM ((vfinal true (0 : Int) (fun _ => 2) (List.replicate 3 none) demo).elt 2) = some [2, 0, 4, 22, 10, 24] := by
  refine ⟨?_, ?_, ?_, ?_⟩ <;> decide +kernel

/-! ### Arrays of different ranks and stride orders -/

/-- Array 0 is a matrix in C order, array 1 a matrix in Fortran order, array 2 a vector. -/
def mixed : Nat → List Nat
  | 1 => [1, 0]
  | 2 => [0]
  | _ => [0, 1]

/-- `a(i, j) = 10 i + j` of shape (2, 3); `f = a` (in Fortran order); `v = sum of the rows of a`; column 1 of `f` is `v`; `a = f` doubled; `v` is the last row of `a`. -/
def demoMixed : List (VOp Int) :=
  [.build 0 [2, 3] (fun idx => .ret (10 * idx.headD 0 + idx.getD 1 0)),
   .build 1 [2, 3] (fun idx => .read 0 idx .ret),
   .build 2 [2] (fun idx => .read 0 [idx.headD 0, 0] fun u => .read 0 [idx.headD 0, 1] fun v => .read 0 [idx.headD 0, 2] fun w => .ret (u + v + w)),
   .put 1 [.slice [.all, .idx 1]] [2] (fun idx => .read 2 idx .ret),
   .assign 0 [2, 3] (fun idx => .read 1 idx fun u => .ret (2 * u)),
   .assign 2 [3] (fun idx => .read 0 [1, idx.headD 0] .ret)]

theorem demoMixed_allowed : VAllowedRun true (0 : Int) mixed (List.replicate 3 none) demoMixed := by
  have two3 : ∀ idx, InRange [2, 3] idx → idx ∈ box [2, 3] := fun idx h => mem_box.mpr h
  have three : ∀ idx, InRange [3] idx → idx ∈ box [3] := fun idx h => mem_box.mpr h
  have two : ∀ idx, InRange [2] idx → idx ∈ box [2] := fun idx h => mem_box.mpr h
  refine ⟨⟨⟨rfl, by decide⟩, fun idx _ => rfl⟩, ⟨⟨rfl, by decide⟩, fun idx hi => ?_⟩, ⟨⟨rfl, by decide⟩, fun idx hi => ?_⟩, fun x hx => ?_,
    ⟨⟨rfl, by decide⟩, fun idx hi => ?_⟩, ⟨⟨rfl, by decide⟩, fun idx hi => ?_⟩, trivial⟩
  · have := two3 idx hi
    clear hi; revert idx; decide +kernel
  · have := two idx hi
    clear hi; revert idx; decide +kernel
  · cases hx
    refine ⟨rfl, ?_, ?_, fun idx hi => ?_⟩
    · refine chainAllowed_cons (len' := [2]) ⟨by decide, by decide, ?_⟩ ⟨rfl, trivial⟩ trivial
      exact ⟨trivial, ⟨by decide, by decide⟩, trivial⟩
    · exact ⟨[2], ⟨rfl, trivial⟩, rfl⟩
    · have := two idx hi
      clear hi; revert idx; decide +kernel
  · have := two3 idx hi
    clear hi; revert idx; decide +kernel
  · have := three idx hi
    clear hi; revert idx; decide +kernel

example : ∃ p, (AProg.start 3).vrun true (0 : Int) mixed demoMixed = some p ∧ Represents p (vfinal true 0 (rankOf mixed) (List.replicate 3 none) demoMixed) :=
  C95_values true 0 mixed (fun i => by unfold mixed; split <;> decide) (fun i => by unfold mixed; split <;> decide) 3 demoMixed demoMixed_allowed

example : (((AProg.start 3).vrun true (0 : Int) mixed demoMixed).bind fun p => (tuples [2, 3]).mapM (p.elem 0)) = some [0, 6, 4, 20, 66, 24] ∧
    (((AProg.start 3).vrun true (0 : Int) mixed demoMixed).bind fun p => (tuples [2, 3]).mapM (p.elem 1)) = some [0, 3, 2, 10, 33, 12] ∧
    (((AProg.start 3).vrun true (0 : Int) mixed demoMixed).bind fun p => (tuples [3]).mapM (p.elem 2)) = some [20, 66, 24] := by
  refine ⟨?_, ?_, ?_⟩ <;> decide +kernel

/-! ### The other theorems -/

theorem demo6_allowed : VAllowedRun true (0 : Int) (fun _ => [0, 1]) (List.replicate 3 none) (demo.take 6) :=
  (vallowed_append (ops := demo.take 6) (ops' := demo.drop 6)).mp demo_allowed |>.1

/-- The copy `b` of `a` keeps its elements although `a` is then assigned to, moved from and assigned to again. -/
example := C95_copy true (0 : Int) (fun _ => [0, 1]) (fun _ => by decide) (fun _ => by decide) 3 (demo.take 1) ((demo.take 6).drop 2) 1 0 demo6_allowed
  (by intro op h; simp [demo] at h; rcases h with rfl | rfl | rfl | rfl <;> simp [targets]) (by decide) rfl

/-- So does `c`, which `a` was moved to, when `a` is assigned to. -/
example := C95_independent true (0 : Int) (fun _ => [0, 1]) (fun _ => by decide) (fun _ => by decide) 3 (demo.take 5) (demo.drop 5) demo_allowed 2
  (by intro op h; simp [demo] at h; rcases h with rfl | rfl <;> simp [targets])

/-- After `demo`, arrays 0 and 2 are exchanged through array 1. -/
example := C95_swap true (0 : Int) (fun _ => [0, 1]) (fun _ => by decide) (fun _ => by decide) 3 demo demo_allowed 1 0 2 rfl rfl (by decide) _ rfl rfl _ _ rfl rfl

/-- The assignment `a(i, j) = a(i, j) + b(i, 2)`, lazily and eagerly. -/
example := C95_lazy true (0 : Int) (fun _ => [0, 1]) (fun _ => by decide) (fun _ => by decide) 3 (demo.take 2) 2 0 [2, 3]
  (fun idx => .read 0 idx fun u => .read 1 [idx.headD 0, 2] fun v => .ret (u + v))
  ((vallowed_append (ops := demo.take 3) (ops' := demo.drop 3)).mp demo_allowed |>.1) rfl (by decide) rfl _ rfl

end Nda.Arr
