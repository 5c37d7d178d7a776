import Verif.Lemmas.StackArrays
import Verif.Props.Values
/-!
# C100: arrays on the stack are values, and moving them copies
-/
namespace Nda.StackArr
open Nda Nda.Mem Nda.Spec Nda.Arr Nda.Arr.Spec Loops Nda.Perm LayoutTransforms Nda.StackArr.Spec

variable {V : Type}

/-- **C100** Any program of constructions, copies, moves, assignments (also to views made by any chain of view operations) and destructions on arrays with static extents on the stack, of
any element type, runs without a memory error, and its memory represents what the program does to values, where a move is a copy.
Missing: for non-trivial element types, default construction and assignment of arrays of the same type (`C100_nontrivial_witness`), where the claim is false. -/
theorem C100_values_partial (triv : Bool) (dflt : V) (t : Types) (ht : TypesOK t) (n : Nat) (ops : List (VOp V)) (h : Spec.KAllowedRun triv dflt t (List.replicate n none) ops) :
    ∃ p, (KProg.start n).vrun triv dflt t ops = some p ∧ Spec.Represents t p (kfinal triv dflt t (List.replicate n none) ops) := by
  obtain ⟨p, h1, h2⟩ := KInv.run dflt ht (KInv.start triv t n) h
  exact ⟨p, h1, h2.represents⟩

/-! ### The same program on the heap -/

theorem isShape (t : Types) (ht : TypesOK t) (d : Nat) : IsShape (t.so d) (shapeOf t d) := by
  refine ⟨by simp [shapeOf, (ht d).2.1], fun x hx => ?_⟩
  simp only [shapeOf, List.mem_map] at hx
  obtain ⟨n, -, rfl⟩ := hx
  exact Int.natCast_nonneg n

theorem allowed_copy {triv : Bool} {dflt : V} {t : Types} (ht : TypesOK t) : ∀ {ops : List (VOp V)} {s : KProg V} {a : Vals V}, KInv triv t s a → Spec.KAllowedRun triv dflt t a ops →
    VAllowedRun triv dflt t.so a (ops.map (asCopy t))
  | [], _, _, _, _ => trivial
  | op :: ops, s, a, i, h => by
      obtain ⟨s1, -, i1⟩ := i.step dflt ht op h.1
      refine ⟨?_, allowed_copy ht i1 h.2⟩
      have h := h.1
      cases op with
      | default d junk => exact isShape t ht d
      | make d shape | resize d shape => simp only [Spec.KAllowed] at h; subst h; exact isShape t ht d
      | zeros d shape => obtain ⟨-, rfl⟩ := h; exact isShape t ht d
      | copy d e | move d e => exact h.1
      | copyAssign d e | moveAssign d e => exact h.2.1
      | build d shape rhs | assign d shape rhs => exact h.2
      | put d ops ext rhs => exact h
      | fill d v =>
          intro x hx hm
          obtain ⟨-, -, -, -, -, -, -, -, g, -⟩ := i.alive hx
          rw [g] at hm; cases hm
      | destroy d => trivial

/-- Arrays on the stack compute what arrays on the heap compute, if the moves of the program are replaced by copies: the same shapes, and the same elements wherever the program
specifies them. -/
theorem C100_heap_partial (triv : Bool) (dflt : V) (t : Types) (ht : TypesOK t) (hne : ∀ d, t.so d ≠ []) (n : Nat) (ops : List (VOp V))
    (h : Spec.KAllowedRun triv dflt t (List.replicate n none) ops) :
    ∃ p q, (KProg.start n).vrun triv dflt t ops = some p ∧ (AProg.start n).vrun triv dflt t.so (ops.map (asCopy t)) = some q ∧
      ∀ d, match (kfinal triv dflt t (List.replicate n none) ops).get d with
        | none => StackH.var p.vars d = none ∧ q.prog.var d = none
        | some x => p.lays[d]?.map (·.len) = some x.shape ∧ q.lays[d]?.map (·.len) = some x.shape ∧
            ∀ idx, InRange x.shape idx → (x.el idx).isSome → p.elem d idx = q.elem d idx := by
  obtain ⟨p, h1, h2⟩ := KInv.run dflt ht (KInv.start triv t n) h
  obtain ⟨q, g1, g2⟩ := C95_values triv dflt t.so (fun d => (ht d).1) hne n _ (allowed_copy ht (KInv.start triv t n) h)
  refine ⟨p, q, h1, g1, fun d => ?_⟩
  have r := h2.represents d
  have r' := g2 d
  simp only [← kfinal.eq_def] at r'
  cases hx : (kfinal triv dflt t (List.replicate n none) ops).get d with
  | none =>
      rw [hx] at r r'
      exact ⟨r, r'⟩
  | some x =>
      obtain ⟨-, -, -, -, -, -, -, -, hm, -⟩ := h2.alive hx
      rw [hx] at r r'
      obtain ⟨⟨m, e1, e2⟩, e3, e4⟩ := r
      obtain ⟨⟨m', e1', e2'⟩, e3', -⟩ := r'
      refine ⟨by simp [e1, e2, e3], by simp [e1', e2'], fun idx hi hs => ?_⟩
      obtain ⟨v, hv⟩ := Option.isSome_iff_exists.mp hs
      rw [e4 idx v hi hv, e3' hm idx v hi hv]

/-! ### Moves -/

/-- The array that was moved from keeps its elements (the destructor of the temporary and all later uses find them), and the new array has the same. -/
theorem C100_move_partial (triv : Bool) (dflt : V) (t : Types) (ht : TypesOK t) (n : Nat) (pre : List (VOp V)) (d s : Nat) (hdn : d < n)
    (h : Spec.KAllowedRun triv dflt t (List.replicate n none) (pre ++ [.move d s])) (hfree : (kfinal triv dflt t (List.replicate n none) pre).get d = none) :
    ∃ p q, (KProg.start n).vrun triv dflt t pre = some p ∧ (KProg.start n).vrun triv dflt t (pre ++ [.move d s]) = some q ∧
      ∀ x, (kfinal triv dflt t (List.replicate n none) pre).get s = some x → ∀ idx v, InRange x.shape idx → x.el idx = some v →
        p.elem s idx = some v ∧ q.elem s idx = some v ∧ q.elem d idx = some v := by
  have hsplit : ∀ {ops ops' : List (VOp V)} {a : Vals V}, Spec.KAllowedRun triv dflt t a (ops ++ ops') → Spec.KAllowedRun triv dflt t a ops := by
    intro ops
    induction ops with
    | nil => intros; trivial
    | cons o os ih => intro ops' a h; exact ⟨h.1, ih h.2⟩
  obtain ⟨p, e1, e2⟩ := KInv.run dflt ht (KInv.start triv t n) (hsplit h)
  obtain ⟨q, f1, f2⟩ := C100_values_partial triv dflt t ht n _ h
  refine ⟨p, q, e1, f1, fun x hx idx v hi hv => ?_⟩
  have hlen : d < (kfinal triv dflt t (List.replicate n none) pre).length := by
    rw [e2.alen]
    have : ∀ (ops : List (VOp V)) (a : Vals V), (kfinal triv dflt t a ops).length = a.length := by
      intro ops
      induction ops with
      | nil => intro a; rfl
      | cons o os ih =>
          intro a
          simp only [kfinal, vfinal, List.map_cons, List.foldl_cons] at ih ⊢
          rw [ih]
          cases o <;> simp only [asCopy, vnext, Vals.put, Vals.upd] <;> (repeat' split) <;> simp
    rw [← e2.alen, this]; simpa using hdn
  have hk : kfinal triv dflt t (List.replicate n none) (pre ++ [.move d s]) = (kfinal triv dflt t (List.replicate n none) pre).set d (some x) := by
    have h1 : kfinal triv dflt t (List.replicate n none) (pre ++ [.move d s]) = vnext triv dflt (rankOf t.so) (kfinal triv dflt t (List.replicate n none) pre) (.copy d s) := by
      simp only [kfinal, vfinal, List.map_append, List.foldl_append]; rfl
    rw [h1]
    simp only [vnext, hx, Vals.put, if_pos (And.intro hlen hfree)]
  have hsd : s ≠ d := by rintro rfl; rw [hfree] at hx; cases hx
  have r := e2.represents s
  have rs := f2 s
  have rd := f2 d
  rw [hx] at r
  rw [hk, Arr.set_get_ne hsd, hx] at rs
  rw [hk, Arr.set_get_self hlen] at rd
  exact ⟨r.2.2 idx v hi hv, rs.2.2 idx v hi hv, rd.2.2 idx v hi hv⟩

/-- For a non-trivial element type: destroying an array that was default-constructed ends the life of elements that were never made; assigning an array makes elements on top of
elements. -/
theorem C100_nontrivial_witness :
    (KProg.start 2).vrun false (0 : Int) ⟨fun _ => [0], fun _ => [2]⟩ [.default 0 [], .destroy 0] = none ∧
    (KProg.start 2).vrun false (0 : Int) ⟨fun _ => [0], fun _ => [2]⟩ [.make 0 [2], .make 1 [2], .copyAssign 1 0] = none ∧
    (KProg.start 2).vrun false (0 : Int) ⟨fun _ => [0], fun _ => [2]⟩ [.make 0 [2], .make 1 [2], .moveAssign 1 0] = none := by
  refine ⟨?_, ?_, ?_⟩ <;> decide +kernel

/-! ### Programs that meet the hypotheses -/

/-- Arrays 0, 1 and 2 are `stack_array<int, 2, 3>`, array 3 is a `stack_array<int, 2>`. -/
def demoTypes : Types := ⟨fun d => if d = 3 then [0] else [0, 1], fun d => if d = 3 then [2] else [2, 3]⟩

theorem demoTypes_ok : TypesOK demoTypes := by
  intro d
  by_cases h : d = 3
  · subst h; decide
  · simp only [demoTypes, h, if_false]; decide

/-- `a(i, j) = 10 i + j`; `auto b = a`; `a = a + b(_, 2)`; column 1 of `a` is column 0 of `b`; `auto c = std::move(a)`; `v(i) = a(i, 1)`: of the array that was moved from. -/
def demoStack : List (VOp Int) :=
  [.build 0 [2, 3] (fun idx => .ret (10 * idx.headD 0 + idx.getD 1 0)),
   .copy 1 0,
   .assign 0 [2, 3] (fun idx => .read 0 idx fun u => .read 1 [idx.headD 0, 2] fun v => .ret (u + v)),
   .put 0 [.permute [1, 0], .slice [.idx 1, .all]] [2] (fun idx => .read 1 [idx.headD 0, 0] .ret),
   .move 2 0,
   .build 3 [2] (fun idx => .read 0 [idx.headD 0, 1] .ret),
   .destroy 1]

theorem demoStack_allowed (triv : Bool) : Spec.KAllowedRun triv (0 : Int) demoTypes (List.replicate 4 none) demoStack := by
  have two3 : ∀ idx, InRange [2, 3] idx → idx ∈ box [2, 3] := fun idx h => mem_box.mpr h
  have two : ∀ idx, InRange [2] idx → idx ∈ box [2] := fun idx h => mem_box.mpr h
  refine ⟨⟨rfl, ⟨rfl, by decide⟩, fun idx _ => rfl⟩, ⟨rfl, rfl⟩, ⟨rfl, ⟨rfl, by decide⟩, fun idx hi => ?_⟩, fun x hx => ?_, ⟨rfl, rfl⟩, ⟨rfl, ⟨rfl, by decide⟩, fun idx hi => ?_⟩, trivial, trivial⟩
  · have := two3 idx hi
    clear hi; revert idx; cases triv <;> decide +kernel
  · cases hx
    refine ⟨rfl, ?_, ?_, fun idx hi => ?_⟩
    · refine chainAllowed_cons (len' := [3, 2]) ⟨by decide, rfl⟩ ⟨rfl, rfl⟩ ?_
      refine chainAllowed_cons (len' := [2]) ⟨by decide, by decide, ?_⟩ ⟨rfl, trivial⟩ trivial
      exact ⟨⟨by decide, by decide⟩, trivial, trivial⟩
    · exact ⟨[3, 2], ⟨rfl, rfl⟩, [2], ⟨rfl, trivial⟩, rfl⟩
    · have := two idx hi
      clear hi; revert idx; cases triv <;> decide +kernel
  · have := two idx hi
    clear hi; revert idx; cases triv <;> decide +kernel

/-- The element type may be non-trivial. -/
example := C100_values_partial false (0 : Int) demoTypes demoTypes_ok 4 demoStack (demoStack_allowed false)

example := C100_heap_partial true (0 : Int) demoTypes demoTypes_ok (fun d => by simp only [demoTypes]; split <;> decide) 4 demoStack (demoStack_allowed true)

/-- What it computes. -/
example : (((KProg.start 4).vrun false (0 : Int) demoTypes demoStack).bind fun p => (tuples [2, 3]).mapM (p.elem 0)) = some [2, 0, 4, 22, 10, 24] ∧
    (((KProg.start 4).vrun false (0 : Int) demoTypes demoStack).bind fun p => (tuples [2, 3]).mapM (p.elem 2)) = some [2, 0, 4, 22, 10, 24] ∧
    (((KProg.start 4).vrun false (0 : Int) demoTypes demoStack).bind fun p => (tuples [2]).mapM (p.elem 3)) = some [0, 10] ∧
    ((KProg.start 4).vrun false (0 : Int) demoTypes demoStack).map (fun p => StackH.var p.vars 1) = some none := by
  refine ⟨?_, ?_, ?_, ?_⟩ <;> decide +kernel

theorem demoMove_allowed : Spec.KAllowedRun false (0 : Int) demoTypes (List.replicate 4 none) ([.build 0 [2, 3] (fun idx => .ret (10 * idx.headD 0 + idx.getD 1 0))] ++ [.move 2 0]) :=
  ⟨⟨rfl, ⟨rfl, by decide⟩, fun idx _ => rfl⟩, ⟨rfl, rfl⟩, trivial⟩

example := C100_move_partial false (0 : Int) demoTypes demoTypes_ok 4 _ 2 0 (by decide) demoMove_allowed rfl

/-- Statements that only trivial element types have: default construction, construction with zeros, assignment of an array (also to itself), resizing to the same shape. -/
def demoTrivial : List (VOp Int) := [.default 0 [], .zeros 1 [2, 3], .copyAssign 0 1, .fill 1 7, .moveAssign 2 1, .copyAssign 1 1, .make 2 [2, 3], .moveAssign 2 1, .resize 1 [2, 3]]

theorem demoTrivial_allowed : Spec.KAllowedRun true (0 : Int) demoTypes (List.replicate 4 none) demoTrivial :=
  ⟨rfl, ⟨rfl, rfl⟩, ⟨rfl, rfl, rfl⟩, trivial, ⟨rfl, rfl, rfl⟩, ⟨rfl, rfl, rfl⟩, rfl, ⟨rfl, rfl, rfl⟩, rfl, trivial⟩

example := C100_values_partial true (0 : Int) demoTypes demoTypes_ok 4 demoTrivial demoTrivial_allowed

example : (((KProg.start 4).vrun true (0 : Int) demoTypes demoTrivial).bind fun p => (tuples [2, 3]).mapM (p.elem 0)) = some [0, 0, 0, 0, 0, 0] ∧
    (((KProg.start 4).vrun true (0 : Int) demoTypes demoTrivial).bind fun p => (tuples [2, 3]).mapM (p.elem 1)) = some [7, 7, 7, 7, 7, 7] ∧
    (((KProg.start 4).vrun true (0 : Int) demoTypes demoTrivial).bind fun p => (tuples [2, 3]).mapM (p.elem 2)) = some [7, 7, 7, 7, 7, 7] := by
  refine ⟨?_, ?_, ?_⟩ <;> decide +kernel

end Nda.StackArr
