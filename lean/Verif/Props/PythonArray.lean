import Verif.Spec.PythonArray
import Verif.Props.Python
import Verif.Props.Arrays
/-!
# C87: Python objects to arrays by value
-/
namespace Nda.Python
open Nda Nda.Spec Nda.Python.Spec Nda.IdxMap Nda.LayoutTransforms

variable {P V : Type}

theorem toBeMade_iff (w : World P V) (npy : Nat) (o : P) : w.toBeMade true npy o = false ↔ ∃ p, w.numpy o = some (npy, p) := by
  unfold World.toBeMade
  cases h : w.numpy o with
  | none => simp
  | some x =>
      obtain ⟨t, p⟩ := x
      simp [Prod.ext_iff]

theorem viewConvertible_iff (w : World P V) (npy R : Nat) (o : P) (p : Proxy) (h : w.numpy o = some (npy, p)) :
    viewConvertible R npy (List.range R) false false (w.obj o) = some (decide (p.extents.length = R)) := by
  by_cases hr : p.extents.length = R <;> simp [viewConvertible, World.obj, h, hr]

/-- **C87** Which objects are accepted for element types that numpy has: numpy arrays of that type and of the rank, with any strides; all other objects exactly if numpy makes such an array
of them.  The function calls itself at most once. -/
theorem C87_accept (w : World P V) (npy npyObj size R : Nat) (shape : P → List Int) (value : P → List Int → Option V) (hw : Numpy w npy size R shape value) (fuel : Nat) (hf : 2 ≤ fuel) (o : P) :
    ∃ b, arrayIsConvertible w true npy npyObj R fuel o = some b ∧
      (b = true ↔ (∃ p, w.numpy o = some (npy, p) ∧ p.extents.length = R) ∨ (¬ ∃ p, w.numpy o = some (npy, p)) ∧ ∃ q, w.fromAny o = some q) := by
  obtain ⟨fuel, rfl⟩ : ∃ n, fuel = n + 2 := ⟨fuel - 2, by omega⟩
  rw [arrayIsConvertible]
  by_cases hm : w.toBeMade true npy o = true
  · rw [if_pos hm]
    have hno : ¬ ∃ p, w.numpy o = some (npy, p) := fun h => by
      rw [(toBeMade_iff w npy o).mpr h] at hm; cases hm
    cases hq : w.fromAny o with
    | none =>
        refine ⟨false, rfl, ?_⟩
        simp only [Bool.false_eq_true, false_iff, not_or, not_and, not_exists]
        exact ⟨fun p hp _ => hno ⟨p, hp⟩, fun _ q hq' => by cases hq'⟩
    | some q =>
        obtain ⟨p, h1, h2, _⟩ := hw.made o q hq
        refine ⟨true, ?_, by simp only [true_iff]; exact Or.inr ⟨hno, q, rfl⟩⟩
        simp only
        rw [arrayIsConvertible, if_neg (by rw [(toBeMade_iff w npy q).mpr ⟨p, h1⟩]; simp), if_pos rfl, viewConvertible_iff w npy R q p h1, h2]
        simp
  · rw [if_neg hm, if_pos rfl]
    obtain ⟨p, hp⟩ := (toBeMade_iff w npy o).mp (by simpa using hm)
    refine ⟨_, viewConvertible_iff w npy R o p hp, ?_⟩
    rw [decide_eq_true_iff]
    constructor
    · exact fun h => Or.inl ⟨p, hp, h⟩
    · rintro (⟨p', h1, h2⟩ | ⟨h1, _⟩)
      · rw [hp] at h1; cases h1; exact h2
      · exact absurd ⟨p, hp⟩ h1

theorem viewElements_eq (w : World P V) (npy size R : Nat) (shape : P → List Int) (value : P → List Int → Option V) (hw : Numpy w npy size R shape value) (o : P) (p : Proxy)
    (hp : w.numpy o = some (npy, p)) (hR : p.extents.length = R) (hd : Divisible size p) :
    ∃ f, w.viewElements size R o = some (shape o, f) ∧ ∀ idx, InRange (shape o) idx → f idx = value o idx := by
  subst hR
  obtain ⟨h1, h2⟩ := C51_from_python_partial size p (hw.array o npy p hp).1 hw.size_pos hw.size_lt hd
  obtain ⟨s1, s2⟩ := hw.same o p hp
  refine ⟨fun idx => do
        let k ← element (viewFromPython p.extents.length size p).2 (idx.map .idx)
        w.load ((viewFromPython p.extents.length size p).1 + size * k), ?_, fun idx hi => ?_⟩
  · unfold World.viewElements
    rw [hp]
    simp only
    rw [h1, s1]
  · rw [s1] at hi
    obtain ⟨k, k1, k2⟩ := h2 idx hi
    simp only [k1, Option.bind_eq_bind, Option.bind_some, k2]
    exact (s2 idx hi).1.symm

theorem checkLayout_some (R : Nat) (o : Obj) (h1 : o.desc.extents.length = R) (h2 : o.desc.strides.length = R) : ∃ b, checkLayout R (List.range R) o = some b := by
  obtain ⟨b, hb, _⟩ := C51_accept_view R o.type (List.range R) true ⟨true, o.type, o.desc⟩ (Nda.Perm.isPerm_range R) (by simp) (by simp [h1, h2])
  have : checkLayout R (List.range R) ⟨true, o.type, o.desc⟩ = checkLayout R (List.range R) o := rfl
  simp only [viewConvertible, h1, Bool.not_true, Bool.false_eq_true, if_false, ne_eq, not_true, decide_false, Bool.and_false, if_true] at hb
  rw [this] at hb
  cases hc : checkLayout R (List.range R) o with
  | none => rw [hc] at hb; cases hb
  | some c => exact ⟨c, rfl⟩

/-- **C87 (partial)** An accepted object is converted to the array that it stands for: same extents, same elements; whatever its strides and type are, except that a numpy array of the wanted
type whose strides pass the test of the order must have non-negative strides that are multiples of the size.
Missing, because the code does not do it: such arrays with negative strides (`C87_reversed_witness`) or with strides that are not multiples. -/
theorem C87_values_partial (w : World P V) (npy npyObj size R : Nat) (shape : P → List Int) (value : P → List Int → Option V) (hw : Numpy w npy size R shape value) (fuel : Nat)
    (hf : 2 ≤ fuel) (o : P) (ha : arrayIsConvertible w true npy npyObj R fuel o = some true)
    (hd : ∀ p, w.numpy o = some (npy, p) → checkLayout R (List.range R) (w.obj o) = some true → Divisible size p) :
    ∃ f, arrayFromPython w true npy size R fuel o = some (shape o, f) ∧ ∀ idx, InRange (shape o) idx → f idx = value o idx := by
  obtain ⟨b, hb, hiff⟩ := C87_accept w npy npyObj size R shape value hw fuel hf o
  rw [ha] at hb; cases hb
  have hiff := hiff.mp rfl
  obtain ⟨fuel, rfl⟩ : ∃ n, fuel = n + 2 := ⟨fuel - 2, by omega⟩
  have direct : ∀ (n : Nat) (o : P) (p : Proxy), w.numpy o = some (npy, p) → p.extents.length = R → (checkLayout R (List.range R) (w.obj o) = some true → Divisible size p) →
      ∃ f, arrayFromPython w true npy size R (n + 1) o = some (shape o, f) ∧ ∀ idx, InRange (shape o) idx → f idx = value o idx := by
    intro n o p hp hR hd
    have hobj : w.obj o = ⟨true, npy, p⟩ := by simp [World.obj, hp]
    rw [arrayFromPython, if_neg (by rw [(toBeMade_iff w npy o).mpr ⟨p, hp⟩]; simp), if_pos rfl]
    obtain ⟨b, hb⟩ := checkLayout_some R (w.obj o) (by rw [hobj]; exact hR) (by rw [hobj]; simpa [(hw.array o npy p hp).1] using hR)
    cases b with
    | true =>
        rw [hb]
        exact viewElements_eq w npy size R shape value hw o p hp hR (hd hb)
    | false =>
        rw [hb]
        obtain ⟨q, hq⟩ := Option.isSome_iff_exists.mp (hw.copies o p hp hR)
        obtain ⟨p', h1, h2, h3, h4, h5⟩ := hw.made o q hq
        obtain ⟨f, e, h6⟩ := viewElements_eq w npy size R shape value hw q p' h1 h2 h3
        simp only [hq]
        rw [h4] at e h6
        exact ⟨f, e, fun idx hi => by rw [h6 idx hi, h5 idx hi]⟩
  rcases hiff with ⟨p, hp, hR⟩ | ⟨hno, q, hq⟩
  · exact direct (fuel + 1) o p hp hR (fun h => hd p hp h)
  · have hm : w.toBeMade true npy o = true := by
      by_contra h
      exact hno ((toBeMade_iff w npy o).mp (by simpa using h))
    obtain ⟨p', h1, h2, h3, h4, h5⟩ := hw.made o q hq
    obtain ⟨f, e, h6⟩ := direct fuel q p' h1 h2 (fun _ => h3)
    rw [arrayFromPython, if_pos hm, hq]
    rw [h4] at e h6
    exact ⟨f, e, fun idx hi => by rw [h6 idx hi, h5 idx hi]⟩

theorem shape_nonneg (w : World P V) (npy npyObj size R : Nat) (shape : P → List Int) (value : P → List Int → Option V) (hw : Numpy w npy size R shape value) (fuel : Nat)
    (hf : 2 ≤ fuel) (o : P) (ha : arrayIsConvertible w true npy npyObj R fuel o = some true) : (shape o).length = R ∧ NonNeg (shape o) ∧ ∀ idx, InRange (shape o) idx → (value o idx).isSome := by
  obtain ⟨b, hb, hiff⟩ := C87_accept w npy npyObj size R shape value hw fuel hf o
  rw [ha] at hb; cases hb
  rcases hiff.mp rfl with ⟨p, hp, hR⟩ | ⟨_, q, hq⟩
  · obtain ⟨s1, s2⟩ := hw.same o p hp
    rw [s1]
    exact ⟨hR, (hw.array o npy p hp).2, fun idx hi => (s2 idx hi).2⟩
  · obtain ⟨p', h1, h2, h3, h4, h5⟩ := hw.made o q hq
    obtain ⟨s1, s2⟩ := hw.same q p' h1
    rw [← h4, s1]
    exact ⟨h2, (hw.array q npy p' h1).2, fun idx hi => by rw [← h5 idx (by rw [← h4, s1]; exact hi)]; exact (s2 idx hi).2⟩

/-- **C87 (partial)** The array that is constructed (in any program that has a free variable for it): its elements are those of the object.  See `C87_values_partial` for what is missing. -/
theorem C87_array_partial (w : World P V) (npy npyObj size R : Nat) (hR : 0 < R) (shape : P → List Int) (value : P → List Int → Option V) (hw : Numpy w npy size R shape value) (fuel : Nat)
    (hf : 2 ≤ fuel) (o : P) (ha : arrayIsConvertible w true npy npyObj R fuel o = some true)
    (hd : ∀ p, w.numpy o = some (npy, p) → checkLayout R (List.range R) (w.obj o) = some true → Divisible size p) (triv : Bool) (dflt : V) (p : Arr.AProg V) (a : Arr.Spec.Shapes)
    (hr : Arr.Spec.Reachable triv dflt (List.range R) p a) (d : Nat) (hfree : p.free d = true) :
    ∃ f p', arrayFromPython w true npy size R fuel o = some (shape o, f) ∧ p.step triv dflt (List.range R) (.build d (shape o) (fun idx _ => f idx)) = some p' ∧
      ∀ idx, InRange (shape o) idx → p'.elem d idx = value o idx := by
  obtain ⟨f, h1, h2⟩ := C87_values_partial w npy npyObj size R shape value hw fuel hf o ha hd
  obtain ⟨g1, g2, g3⟩ := shape_nonneg w npy npyObj size R shape value hw fuel hf o ha
  obtain ⟨p', h3, h4⟩ := Arr.C22_build_values triv dflt (List.range R) (Nda.Perm.isPerm_range R) (by intro h; have := congrArg List.length h; simp at this; omega) p a hr d (shape o) (fun idx _ => f idx) hfree
    ⟨⟨by simpa using g1, g2⟩, fun idx hi => by
      intro hp _
      show (f idx).isSome = true
      rw [h2 idx hi]; exact g3 idx hi⟩
  refine ⟨f, p', h1, h3, fun idx hi => ?_⟩
  obtain ⟨v, _, e1, e2, _⟩ := h4 idx hi
  rw [e1, ← e2, h2 idx hi]

/-- **C87** Element types that numpy does not have: the elements are converted one by one from the items of the object (of the array that numpy makes of it, if it is not an array). -/
theorem C87_objects (w : World P V) (npy npyObj size R : Nat) (fuel : Nat) (hf : 2 ≤ fuel) (o : P) (hmade : ∀ q, w.fromAny o = some q → (w.numpy q).isSome)
    (ha : arrayIsConvertible w false npy npyObj R fuel o = some true) :
    ∃ q t p f, (w.numpy o ≠ none ∧ q = o ∨ w.numpy o = none ∧ w.fromAny o = some q) ∧ w.numpy q = some (t, p) ∧ R ≤ p.extents.length ∧
      arrayFromPython w false npy size R fuel o = some (p.extents.take R, f) ∧ (∀ idx, f idx = w.convert (w.getItem q idx)) ∧
      ∃ idx, InRange (p.extents.take R) idx ∧ w.convertible (w.getItem q idx) = true := by
  obtain ⟨fuel, rfl⟩ : ∃ n, fuel = n + 2 := ⟨fuel - 2, by omega⟩
  have direct : ∀ (n : Nat) (o : P) (t : Nat) (p : Proxy), w.numpy o = some (t, p) → arrayIsConvertible w false npy npyObj R (n + 1) o = some true →
      R ≤ p.extents.length ∧ arrayFromPython w false npy size R (n + 1) o = some (p.extents.take R, fun idx => w.convert (w.getItem o idx)) ∧
      ∃ idx, InRange (p.extents.take R) idx ∧ w.convertible (w.getItem o idx) = true := by
    intro n o t p hp ha
    have hobj : w.obj o = ⟨true, t, p⟩ := by simp [World.obj, hp]
    have hm : w.toBeMade false npy o = false := by simp [World.toBeMade, hp]
    rw [arrayIsConvertible, hm, hobj] at ha
    simp only [Bool.false_eq_true, if_false, arrayConvertible] at ha
    rw [arrayFromPython, hm, hobj]
    cases hv : viewConvertible R npyObj (List.range R) true true ⟨true, t, p⟩ with
    | none => rw [hv] at ha; cases ha
    | some b =>
        cases b with
        | false => rw [hv] at ha; simp at ha
        | true =>
            rw [hv] at ha
            obtain ⟨b, h1, h2⟩ := C51_elements_any (p.extents.take R) (fun idx => w.convertible (w.getItem o idx))
            have : b = true := by
              have := h1.symm.trans ha
              simpa using this
            refine ⟨?_, rfl, h2.mp this⟩
            by_contra hlt
            simp [viewConvertible, show p.extents.length < R by omega] at hv
  cases ho : w.numpy o with
  | some x =>
      obtain ⟨t, p⟩ := x
      obtain ⟨h1, h2, h3⟩ := direct (fuel + 1) o t p ho ha
      exact ⟨o, t, p, _, Or.inl ⟨by simp, rfl⟩, ho, h1, h2, fun _ => rfl, h3⟩
  | none =>
      have hm : w.toBeMade false npy o = true := by simp [World.toBeMade, ho]
      rw [arrayIsConvertible, if_pos hm] at ha
      cases hq : w.fromAny o with
      | none => rw [hq] at ha; cases ha
      | some q =>
          rw [hq] at ha
          obtain ⟨⟨t, p⟩, hp⟩ := Option.isSome_iff_exists.mp (hmade q hq)
          obtain ⟨h1, h2, h3⟩ := direct fuel q t p hp ha
          refine ⟨q, t, p, _, Or.inr ⟨rfl, rfl⟩, hp, h1, ?_, fun _ => rfl, h3⟩
          rw [arrayFromPython, if_pos hm, hq]
          exact h2

/-! ### A world -/

/-- Objects: 0 is the numpy array `[[0, 1, 2], [3, 4, 5]]` of 8-byte integers at 1000, 1 its transpose, 2 a list of lists, 3 and 5 what numpy makes of the others at 2000 and 3000,
4 the row 0 in reverse order. -/
def exWorld : World Nat Int where
  numpy
    | 0 => some (7, ⟨1000, false, [2, 3], [24, 8]⟩)
    | 1 => some (7, ⟨1000, false, [3, 2], [8, 24]⟩)
    | 3 => some (7, ⟨2000, false, [3, 2], [16, 8]⟩)
    | 4 => some (7, ⟨1016, false, [3], [-8]⟩)
    | 5 => some (7, ⟨3000, false, [2, 3], [24, 8]⟩)
    | _ => none
  fromAny
    | 1 => some 3
    | 3 => some 3
    | 0 => some 5
    | 2 => some 5
    | 5 => some 5
    | _ => none
  load k := if 1000 ≤ k ∧ k < 1048 then some ((k - 1000) / 8) else if 2000 ≤ k ∧ k < 2048 then some ((k - 2000) / 8 % 2 * 3 + (k - 2000) / 16)
    else if 3000 ≤ k ∧ k < 3048 then some ((k - 3000) / 8) else none
  getItem o _ := o
  convertible _ := false
  convert _ := none

/-- The transpose is accepted, copied by numpy, and gives the transposed elements. -/
example : arrayIsConvertible exWorld true 7 17 2 2 1 = some true ∧ checkLayout 2 [0, 1] (exWorld.obj 1) = some false ∧
    ((arrayFromPython exWorld true 7 8 2 2 1).map fun x => (x.1, [[0, 0], [0, 1], [1, 0], [1, 1], [2, 0], [2, 1]].map x.2)) =
      some ([3, 2], [some 0, some 3, some 1, some 4, some 2, some 5]) := by decide +kernel

/-- A list is accepted. -/
example : arrayIsConvertible exWorld true 7 17 2 2 2 = some true ∧
    ((arrayFromPython exWorld true 7 8 2 2 2).map fun x => (x.1, [[0, 0], [0, 1], [1, 0], [1, 2]].map x.2)) = some ([2, 3], [some 0, some 1, some 3, some 5]) := by decide +kernel

/-- The hypotheses of the theorems. -/
theorem exWorld_numpy : Numpy exWorld 7 8 2 (fun | 1 | 3 => [3, 2] | 4 => [3] | _ => [2, 3])
    (fun | 1, idx | 3, idx => some (idx.getD 0 0 + 3 * idx.getD 1 0) | 4, idx => some (2 - idx.getD 0 0) | _, idx => some (3 * idx.getD 0 0 + idx.getD 1 0)) := by
  refine ⟨by decide, by decide, ?_, ?_, ?_, ?_⟩
  · intro o t p h
    match o, h with
    | 0, h => cases h; exact ⟨rfl, by simp [NonNeg]⟩
    | 1, h => cases h; exact ⟨rfl, by simp [NonNeg]⟩
    | 3, h => cases h; exact ⟨rfl, by simp [NonNeg]⟩
    | 4, h => cases h; exact ⟨rfl, by simp [NonNeg]⟩
    | 5, h => cases h; exact ⟨rfl, by simp [NonNeg]⟩
  · intro o p h
    have two : ∀ {a b : Int} {idx : List Int}, InRange [a, b] idx → ∃ i j, idx = [i, j] ∧ (0 ≤ i ∧ i < a) ∧ 0 ≤ j ∧ j < b := by
      intro a b idx hi
      match idx, hi with
      | [i, j], hi => exact ⟨i, j, rfl, hi.1, hi.2.1⟩
    match o, h with
    | 0, h =>
        cases h
        refine ⟨rfl, fun idx hi => ?_⟩
        obtain ⟨i, j, rfl, h1, h2⟩ := two hi
        refine ⟨?_, rfl⟩
        simp only [exWorld, npAddr, dot, List.getD_cons_zero, List.getD_cons_succ]
        rw [if_pos (by omega)]
        congr 1; omega
    | 1, h =>
        cases h
        refine ⟨rfl, fun idx hi => ?_⟩
        obtain ⟨i, j, rfl, h1, h2⟩ := two hi
        refine ⟨?_, rfl⟩
        simp only [exWorld, npAddr, dot, List.getD_cons_zero, List.getD_cons_succ]
        rw [if_pos (by omega)]
        congr 1; omega
    | 3, h =>
        cases h
        refine ⟨rfl, fun idx hi => ?_⟩
        obtain ⟨i, j, rfl, h1, h2⟩ := two hi
        refine ⟨?_, rfl⟩
        simp only [exWorld, npAddr, dot, List.getD_cons_zero, List.getD_cons_succ]
        rw [if_neg (by omega), if_pos (by omega)]
        congr 1; omega
    | 4, h =>
        cases h
        refine ⟨rfl, fun idx hi => ?_⟩
        match idx, hi with
        | [i], hi =>
        have := hi.1
        refine ⟨?_, rfl⟩
        simp only [exWorld, npAddr, dot, List.getD_cons_zero]
        rw [if_pos (by omega)]
        congr 1; omega
    | 5, h =>
        cases h
        refine ⟨rfl, fun idx hi => ?_⟩
        obtain ⟨i, j, rfl, h1, h2⟩ := two hi
        refine ⟨?_, rfl⟩
        simp only [exWorld, npAddr, dot, List.getD_cons_zero, List.getD_cons_succ]
        rw [if_neg (by omega), if_neg (by omega), if_pos (by omega)]
        congr 1; omega
  · intro o q h
    have dv : ∀ p : Proxy, (p.strides = [16, 8] ∨ p.strides = [24, 8]) → Divisible 8 p := by
      rintro p (h | h) s hs
      all_goals
        rw [h] at hs
        simp only [List.mem_cons, List.not_mem_nil, or_false] at hs
        rcases hs with rfl | rfl <;> decide
    match o, h with
    | 0, h => cases h; exact ⟨_, rfl, rfl, dv _ (Or.inr rfl), rfl, fun _ _ => rfl⟩
    | 1, h => cases h; exact ⟨_, rfl, rfl, dv _ (Or.inl rfl), rfl, fun _ _ => rfl⟩
    | 2, h => cases h; exact ⟨_, rfl, rfl, dv _ (Or.inr rfl), rfl, fun _ _ => rfl⟩
    | 3, h => cases h; exact ⟨_, rfl, rfl, dv _ (Or.inl rfl), rfl, fun _ _ => rfl⟩
    | 5, h => cases h; exact ⟨_, rfl, rfl, dv _ (Or.inr rfl), rfl, fun _ _ => rfl⟩
  · intro o p h hl
    match o, h with
    | 0, h => rfl
    | 1, h => rfl
    | 3, h => rfl
    | 4, h => cases h; cases hl
    | 5, h => rfl

/-- **C87 disagreement** `a[::-1]`, a numpy array of the right type in reverse order, is accepted by value and not copied (the test of the order of strides takes absolute values); the
division of the strides is unsigned, so that element 1 is read far outside the array. -/
theorem C87_reversed_witness : arrayIsConvertible exWorld true 7 17 1 2 4 = some true ∧ exWorld.load (npAddr ⟨1016, false, [3], [-8]⟩ [1]) = some 1 ∧
    ((arrayFromPython exWorld true 7 8 1 2 4).map fun x => (x.1, x.2 [0], x.2 [1])) = some ([3], some 2, none) := by decide +kernel

/-- **C87 disagreement** Arrays of objects in Fortran order are refused, although all their elements convert; arrays of numbers in that order are accepted. -/
theorem C87_fortran_witness : arrayConvertible 2 17 (fun _ => true) ⟨true, 17, ⟨1000, false, [2, 2], [8, 16]⟩⟩ = some false ∧
    arrayConvertible 2 17 (fun _ => true) ⟨true, 17, ⟨1000, false, [2, 2], [16, 8]⟩⟩ = some true := by decide +kernel

end Nda.Python
