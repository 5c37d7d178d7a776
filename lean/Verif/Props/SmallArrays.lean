import Verif.Lemmas.SmallArraysSteps
import Verif.Props.Values
/-!
# C98: arrays with small-buffer storage are the same values as arrays on the heap
-/
namespace Nda.SmallArr
open Nda Nda.Mem Nda.Spec Nda.Arr Nda.Arr.Spec Loops Nda.Perm LayoutTransforms Nda.Mem.SProg

variable {V : Type}

/-- **C98** (trivial element types) Any program of constructions, copies, moves, assignments (with resizing, to views made by any chain of view operations), resizes and
destructions on arrays with inline storage for `K` elements, whose right-hand sides read any elements of any arrays, runs without a memory error, and its memory represents what
the same program does to values.
Missing: copy assignment to itself of an array with more than `K` elements (`C98_self_assign_witness`), where the claim is false. -/
theorem C98_values_partial (K : Nat) (dflt : V) (so : Nat → List Nat) (hso : ∀ i, IsPerm (so i)) (hne : ∀ i, so i ≠ []) (n : Nat) (ops : List (VOp V))
    (h : VAllowedRun true dflt so (List.replicate n none) ops) (hself : Spec.SmallSelfRun K dflt so (List.replicate n none) ops) :
    ∃ p, (SAProg.start n).vrun K dflt so ops = some p ∧ Spec.Represents p (vfinal true dflt (rankOf so) (List.replicate n none) ops) := by
  obtain ⟨p, c, h1, h2⟩ := SInv.run dflt hso hne (SInv.start K so n) h hself
  exact ⟨p, h1, h2.represents hso⟩

/-- The container policy cannot be observed: with inline storage of any two capacities and with heap storage, a program makes arrays of the same shapes, which have the same
elements wherever the program specifies them. -/
theorem C98_same_partial (K K' : Nat) (dflt : V) (so : Nat → List Nat) (hso : ∀ i, IsPerm (so i)) (hne : ∀ i, so i ≠ []) (n : Nat) (ops : List (VOp V))
    (h : VAllowedRun true dflt so (List.replicate n none) ops) (hself : Spec.SmallSelfRun K dflt so (List.replicate n none) ops)
    (hself' : Spec.SmallSelfRun K' dflt so (List.replicate n none) ops) :
    ∃ p p' q, (SAProg.start n).vrun K dflt so ops = some p ∧ (SAProg.start n).vrun K' dflt so ops = some p' ∧ (AProg.start n).vrun true dflt so ops = some q ∧
      ∀ d, match (vfinal true dflt (rankOf so) (List.replicate n none) ops).get d with
        | none => p.prog.var d = none ∧ p'.prog.var d = none ∧ q.prog.var d = none
        | some x => (p.lays[d]?.map (·.len) = some x.shape ∧ p'.lays[d]?.map (·.len) = some x.shape ∧ q.lays[d]?.map (·.len) = some x.shape) ∧
            ∀ idx, InRange x.shape idx → (x.moved = true ∨ (x.el idx).isSome) → p.elem d idx = q.elem d idx ∧ p'.elem d idx = q.elem d idx := by
  obtain ⟨p, h1, h2⟩ := C98_values_partial K dflt so hso hne n ops h hself
  obtain ⟨p', h1', h2'⟩ := C98_values_partial K' dflt so hso hne n ops h hself'
  obtain ⟨q, g1, g2⟩ := C95_values true dflt so hso hne n ops h
  refine ⟨p, p', q, h1, h1', g1, fun d => ?_⟩
  have r := h2 d
  have r' := h2' d
  have r'' := g2 d
  cases hx : (vfinal true dflt (rankOf so) (List.replicate n none) ops).get d with
  | none =>
      rw [hx] at r r' r''
      exact ⟨r, r', r''⟩
  | some x =>
      rw [hx] at r r' r''
      obtain ⟨⟨m, e1, e2⟩, e3, e4⟩ := r
      obtain ⟨⟨m', e1', e2'⟩, e3', e4'⟩ := r'
      obtain ⟨⟨m'', e1'', e2''⟩, e3'', e4''⟩ := r''
      refine ⟨⟨by simp [e1, e2], by simp [e1', e2'], by simp [e1'', e2'']⟩, fun idx hi hs => ?_⟩
      by_cases hm : x.moved = true
      · rw [e4 hm, e4' hm, e4'' hm]; exact ⟨rfl, rfl⟩
      · have hm : x.moved = false := by simpa using hm
        rcases hs with hs | hs
        · rw [hm] at hs; cases hs
        · obtain ⟨v, hv⟩ := Option.isSome_iff_exists.mp hs
          rw [e3 hm idx v hi hv, e3' hm idx v hi hv, e3'' hm idx v hi hv]; exact ⟨rfl, rfl⟩

/-- Where the elements are: in the array itself if there are at most `K`, in a block of the heap otherwise; every block that is not released belongs to exactly one array, which
has more than `K` elements. -/
theorem C98_storage_partial (K : Nat) (dflt : V) (so : Nat → List Nat) (hso : ∀ i, IsPerm (so i)) (hne : ∀ i, so i ≠ []) (n : Nat) (ops : List (VOp V))
    (h : VAllowedRun true dflt so (List.replicate n none) ops) (hself : Spec.SmallSelfRun K dflt so (List.replicate n none) ops) :
    ∃ p, (SAProg.start n).vrun K dflt so ops = some p ∧
      (∀ d x, (vfinal true dflt (rankOf so) (List.replicate n none) ops).get d = some x → ∃ y, p.prog.var d = some y ∧
        ((∃ b, y.data = .block b) ↔ x.moved = false ∧ (K : Int) < prod x.shape) ∧ (y.data = .inline ↔ x.moved = false ∧ 0 < prod x.shape ∧ prod x.shape ≤ K)) ∧
      (∀ (b : Nat) blk, p.prog.hp[b]? = some blk → blk.freed = false →
        ∃ d x y, (vfinal true dflt (rankOf so) (List.replicate n none) ops).get d = some x ∧ x.moved = false ∧ (K : Int) < prod x.shape ∧ p.prog.var d = some y ∧ y.data = .block b ∧
          ∀ d' y', p.prog.var d' = some y' → y'.data = .block b → d' = d) := by
  obtain ⟨p, c, h1, i⟩ := SInv.run dflt hso hne (SInv.start K so n) h hself
  have key : ∀ d x, (vfinal true dflt (rankOf so) (List.replicate n none) ops).get d = some x → ∃ y, p.prog.var d = some y ∧
        ((∃ b, y.data = .block b) ↔ x.moved = false ∧ (K : Int) < prod x.shape) ∧ (y.data = .inline ↔ x.moved = false ∧ 0 < prod x.shape ∧ prod x.shape ≤ K) := by
    intro d x hx
    obtain ⟨m, y, l, -, -, -, g3, -, g5, -, -, -, -, g10, -⟩ := i.alive hx
    refine ⟨y, g3, ?_⟩
    have hl : (l.length : Int) = if x.moved then 0 else prod x.shape := by
      split at g10
      · simp_all
      · simp_all
    rcases g5.data with ⟨k1, k2, -⟩ | ⟨k1, k2, k3, -⟩ | ⟨k1, -, b, k2, -⟩
    · subst k1
      simp only [k2, reduceCtorEq, exists_false, false_iff]
      cases hm : x.moved <;> simp [hm] at hl ⊢ <;> omega
    · have : 0 < l.length := List.length_pos_iff.mpr k1
      simp only [k3, reduceCtorEq, exists_false, false_iff, true_iff]
      cases hm : x.moved <;> simp [hm] at hl ⊢
      · omega
      · exact k1 hl
    · simp only [k2, reduceCtorEq, false_iff, Ptr.block.injEq, exists_eq', true_iff]
      cases hm : x.moved <;> simp [hm] at hl ⊢
      · omega
      · subst hl; simp at k1
  refine ⟨p, h1, key, fun b blk hb hf => ?_⟩
  obtain ⟨d, y, e1, e2⟩ := i.rep.blocks.owned b blk hb hf
  cases hx : (vfinal true dflt (rankOf so) (List.replicate n none) ops).get d with
  | none => rw [i.var_none hx] at e1; cases e1
  | some x =>
      obtain ⟨y', f1, f2, -⟩ := key d x hx
      rw [e1] at f1; cases f1
      obtain ⟨t1, t2⟩ := f2.mp ⟨b, e2⟩
      exact ⟨d, x, y, hx, t1, t2, e1, e2, fun d' y' hd' hy' => i.rep.blocks.unique d' d y' y b hd' e1 hy' e2⟩

/-- Copy assignment of an array to itself (handle.hpp:447-462, no test for self-assignment): with inline storage of 4 elements, and on the heap, the elements of the vector
`1, 2, 3, 4` are kept; with inline storage of 3 elements they are lost. -/
theorem C98_self_assign_witness :
    (((SAProg.start 1).vrun 4 (0 : Int) (fun _ => [0]) [one234 0, .copyAssign 0 0]).bind fun p => (tuples [4]).mapM (p.elem 0)) = some [1, 2, 3, 4] ∧
    (((AProg.start 1).vrun true (0 : Int) (fun _ => [0]) [one234 0, .copyAssign 0 0]).bind fun p => (tuples [4]).mapM (p.elem 0)) = some [1, 2, 3, 4] ∧
    (((SAProg.start 1).vrun 3 (0 : Int) (fun _ => [0]) [one234 0, .copyAssign 0 0]).map fun p => (tuples [4]).map (p.elem 0)) = some [none, none, none, none] := by
  refine ⟨?_, ?_, ?_⟩ <;> decide +kernel

/-! ### Programs that meet the hypotheses -/

/-- With room for four elements in the arrays: array 0 has six elements at first and three at the end. -/
example : ∃ p, (SAProg.start 3).vrun 4 (0 : Int) (fun _ => [0, 1]) demo = some p ∧ Spec.Represents p (vfinal true 0 (fun _ => 2) (List.replicate 3 none) demo) :=
  C98_values_partial 4 0 (fun _ => [0, 1]) (fun _ => by decide) (fun _ => by decide) 3 demo demo_allowed ⟨trivial, trivial, trivial, trivial, trivial, trivial, trivial, trivial⟩

example : (((SAProg.start 3).vrun 4 (0 : Int) (fun _ => [0, 1]) demo).bind fun p => (tuples [1, 3]).mapM (p.elem 0)) = some [2, 0, 4] ∧
    (((SAProg.start 3).vrun 4 (0 : Int) (fun _ => [0, 1]) demo).bind fun p => (tuples [2, 3]).mapM (p.elem 2)) = some [2, 0, 4, 22, 10, 24] ∧
    (((SAProg.start 3).vrun 4 (0 : Int) (fun _ => [0, 1]) demo).map fun p => p.prog.vars.map (Option.map (·.data))) = some [some .inline, none, some (.block 0), none] := by
  refine ⟨?_, ?_, ?_⟩ <;> decide +kernel

/-- Copy assignment of an array to itself that is allowed. -/
example : Spec.SmallSelfRun 4 (0 : Int) (fun _ => [0]) (List.replicate 1 none) [one234 0, .copyAssign 0 0] :=
  ⟨trivial, fun _ x hx => by cases hx; right; decide, trivial⟩

/-- The same program with buffers for 4 elements, for none, and on the heap. -/
example := C98_same_partial 4 0 (0 : Int) (fun _ => [0, 1]) (fun _ => by decide) (fun _ => by decide) 3 demo demo_allowed
  ⟨trivial, trivial, trivial, trivial, trivial, trivial, trivial, trivial⟩ ⟨trivial, trivial, trivial, trivial, trivial, trivial, trivial, trivial⟩

example := C98_storage_partial 4 (0 : Int) (fun _ => [0, 1]) (fun _ => by decide) (fun _ => by decide) 3 demo demo_allowed
  ⟨trivial, trivial, trivial, trivial, trivial, trivial, trivial, trivial⟩

end Nda.SmallArr
