import Verif.Spec.Linalg
import Verif.Lemmas.Blas
import Verif.Props.Blas
import Mathlib.LinearAlgebra.Matrix.Block
import Mathlib.Tactic.FieldSimp
import Mathlib.Tactic.LinearCombination
/-!
# Lemmas on matrix entries, determinants and triangular factorisations
-/
namespace Nda.Linalg
open Nda Nda.Spec LayoutTransforms Assign Loops Matrix Blas

variable {α : Type}

/-- A matrix in memory with known entries. -/
structure Sq (v : View) (n : Int) (mem : List α) (A : Int → Int → α) : Prop where
  good : Good v mem.length
  one : OneToOne v
  len : v.lay.len = [n, n]
  entries : Entries v n n mem A

/-- One entry changed. -/
def upd (A : Int → Int → α) (i j : Int) (x : α) : Int → Int → α := fun p q => if p = i ∧ q = j then x else A p q

theorem Sq.range {v : View} {n : Int} {mem : List α} {A : Int → Int → α} (h : Sq v n mem A) {i j : Int} (i0 : 0 ≤ i) (i1 : i < n) (j0 : 0 ≤ j) (j1 : j < n) : InRange v.lay.len [i, j] := by
  rw [h.len, inRange2]; exact ⟨i, j, rfl, i0, i1, j0, j1⟩

theorem Sq.load {v : View} {n : Int} {mem : List α} {A : Int → Int → α} (h : Sq v n mem A) {i j : Int} (i0 : 0 ≤ i) (i1 : i < n) (j0 : 0 ≤ j) (j1 : j < n) :
    Assign.load v [i, j] mem = some (A i j) := by
  rw [load_eq h.good (h.range i0 i1 j0 j1), h.entries i j i0 i1 j0 j1]

theorem Sq.store {v : View} {n : Int} {mem : List α} {A : Int → Int → α} (h : Sq v n mem A) {i j : Int} (i0 : 0 ≤ i) (i1 : i < n) (j0 : 0 ≤ j) (j1 : j < n) (x : α) :
    ∃ mem', Assign.store v [i, j] x mem = some mem' ∧ mem'.length = mem.length ∧ Sq v n mem' (upd A i j x) ∧ ∀ k, ¬ Occupies v k → val mem' k = val mem k := by
  have hr := h.range i0 i1 j0 j1
  obtain ⟨mem', e, w1, w2, w3⟩ := wrInt_spec (h.good.fits _ hr) x
  refine ⟨mem', ?_, w1, ⟨by rw [w1]; exact h.good, h.one, h.len, ?_⟩, fun k hk => w3 k (fun he => hk ⟨_, hr, he.symm⟩)⟩
  · rw [Assign.store, element_eq h.good.wf h.good.flags hr]; exact e
  · intro p q p0 p1 q0 q1
    unfold upd
    by_cases hpq : p = i ∧ q = j
    · rw [if_pos hpq, hpq.1, hpq.2, w2]
    · rw [if_neg hpq, w3 _ (fun he => hpq (by simpa using h.one _ _ (h.range p0 p1 q0 q1) hr he)), h.entries p q p0 p1 q0 q1]

theorem Sq.updated {v : View} {n : Int} {mem0 mem : List α} {A : Int → Int → α} (h : Sq v n mem A) (hl : mem.length = mem0.length) (hf : ∀ k, ¬ Occupies v k → val mem k = val mem0 k) :
    Updated v (fun idx => some (A (idx.getD 0 0) (idx.getD 1 0))) mem0 mem := by
  refine ⟨hl, fun idx hi => ?_, hf⟩
  rw [h.len, inRange2] at hi
  obtain ⟨i, j, rfl, i0, i1, j0, j1⟩ := hi
  exact h.entries i j i0 i1 j0 j1

theorem inverse1_eq [Field α] [DecidableEq α] {v : View} {mem : List α} {A : Int → Int → α} (h : Sq v 1 mem A) :
    (A 0 0 = 0 ∧ inverse1 v mem = some (false, mem)) ∨
    (A 0 0 ≠ 0 ∧ ∃ mem' X, inverse1 v mem = some (true, mem') ∧ Updated v (fun idx => some (X (idx.getD 0 0) (idx.getD 1 0))) mem mem' ∧ toMat 1 X * toMat 1 A = 1) := by
  have hl : load v [0, 0] mem = some (A 0 0) := h.load (by decide) (by decide) (by decide) (by decide)
  by_cases hd : A 0 0 = 0
  · refine Or.inl ⟨hd, ?_⟩
    simp only [inverse1, hl, Option.bind_eq_bind, Option.bind_some, if_pos hd]
    rfl
  · refine Or.inr ⟨hd, ?_⟩
    obtain ⟨mem', e, hlen, hs, hf⟩ := h.store (i := 0) (j := 0) (by decide) (by decide) (by decide) (by decide) (1 / A 0 0)
    refine ⟨mem', _, ?_, hs.updated hlen hf, ?_⟩
    · simp only [inverse1, hl, Option.bind_eq_bind, Option.bind_some, if_neg hd, e]
      rfl
    · ext i j
      fin_cases i; fin_cases j
      simp [toMat, upd, Matrix.mul_apply, hd]

theorem scaleAt_eq [Mul α] {v : View} {n : Int} {mem : List α} {A : Int → Int → α} (h : Sq v n mem A) {i j : Int} (i0 : 0 ≤ i) (i1 : i < n) (j0 : 0 ≤ j) (j1 : j < n) (x : α) :
    ∃ mem', scaleAt v i j x mem = some mem' ∧ mem'.length = mem.length ∧ Sq v n mem' (upd A i j (A i j * x)) ∧ ∀ k, ¬ Occupies v k → val mem' k = val mem k := by
  obtain ⟨mem', e, h1, h2, h3⟩ := h.store i0 i1 j0 j1 (A i j * x)
  exact ⟨mem', by simp only [scaleAt, h.load i0 i1 j0 j1, Option.bind_eq_bind, Option.bind_some, e], h1, h2, h3⟩

theorem inverse2_eq [Field α] [DecidableEq α] {v : View} {mem : List α} {A : Int → Int → α} (h : Sq v 2 mem A) :
    ((toMat 2 A).det = 0 ∧ ∃ mem', inverse2 v mem = some (false, mem') ∧ Updated v (fun idx => some (upd (upd A 0 0 (A 1 1)) 1 1 (A 0 0) (idx.getD 0 0) (idx.getD 1 0))) mem mem') ∨
    ((toMat 2 A).det ≠ 0 ∧ ∃ mem' X, inverse2 v mem = some (true, mem') ∧ Updated v (fun idx => some (X (idx.getD 0 0) (idx.getD 1 0))) mem mem' ∧ toMat 2 X * toMat 2 A = 1) := by
  have hdet : (toMat 2 A).det = A 0 0 * A 1 1 - A 0 1 * A 1 0 := by rw [Matrix.det_fin_two]; rfl
  obtain ⟨m1, e1, l1, h1, f1⟩ := h.store (i := 0) (j := 0) (by decide) (by decide) (by decide) (by decide) (A 1 1)
  obtain ⟨m2, e2, l2, h2, f2⟩ := h1.store (i := 1) (j := 1) (by decide) (by decide) (by decide) (by decide) (A 0 0)
  have hs : swapDiag v 0 1 mem = some m2 := by
    simp only [swapDiag, h.load (i := 0) (j := 0) (by decide) (by decide) (by decide) (by decide), h.load (i := 1) (j := 1) (by decide) (by decide) (by decide) (by decide), Option.bind_eq_bind,
      Option.bind_some, e1, e2]
  have g00 := h2.load (i := 0) (j := 0) (by decide) (by decide) (by decide) (by decide)
  have g11 := h2.load (i := 1) (j := 1) (by decide) (by decide) (by decide) (by decide)
  have g01 := h2.load (i := 0) (j := 1) (by decide) (by decide) (by decide) (by decide)
  have g10 := h2.load (i := 1) (j := 0) (by decide) (by decide) (by decide) (by decide)
  simp [upd] at g00 g11 g01 g10
  have hd' : A 1 1 * A 0 0 - A 0 1 * A 1 0 = (toMat 2 A).det := by rw [hdet]; ring
  by_cases hd : (toMat 2 A).det = 0
  · refine Or.inl ⟨hd, m2, ?_, h2.updated (l2.trans l1) (fun k hk => (f2 k hk).trans (f1 k hk))⟩
    simp only [inverse2, hs, g00, g11, g01, g10, Option.bind_eq_bind, Option.bind_some, hd', if_pos hd]
    rfl
  · refine Or.inr ⟨hd, ?_⟩
    generalize hdd : (toMat 2 A).det = d at hd hd' hdet
    obtain ⟨m3, e3, l3, h3, f3⟩ := scaleAt_eq h2 (i := 0) (j := 0) (by decide) (by decide) (by decide) (by decide) (1 / d)
    obtain ⟨m4, e4, l4, h4, f4⟩ := scaleAt_eq h3 (i := 1) (j := 1) (by decide) (by decide) (by decide) (by decide) (1 / d)
    obtain ⟨m5, e5, l5, h5, f5⟩ := scaleAt_eq h4 (i := 1) (j := 0) (by decide) (by decide) (by decide) (by decide) (-(1 / d))
    obtain ⟨m6, e6, l6, h6, f6⟩ := scaleAt_eq h5 (i := 0) (j := 1) (by decide) (by decide) (by decide) (by decide) (-(1 / d))
    refine ⟨m6, _, ?_, h6.updated (by omega) (fun k hk => by rw [f6 k hk, f5 k hk, f4 k hk, f3 k hk, f2 k hk, f1 k hk]), ?_⟩
    · simp only [inverse2, hs, g00, g11, g01, g10, Option.bind_eq_bind, Option.bind_some, hd', if_neg hd, e3, e4, e5, e6]
      rfl
    · ext i j
      fin_cases i <;> fin_cases j <;> simp [toMat, upd, Matrix.mul_apply, Fin.sum_univ_two] <;> field_simp <;> rw [hdet] <;> ring

theorem inverse3_eq [Field α] [DecidableEq α] {v : View} {mem : List α} {A : Int → Int → α} (h : Sq v 3 mem A) :
    ((toMat 3 A).det = 0 ∧ inverse3 v mem = some (false, mem)) ∨
    ((toMat 3 A).det ≠ 0 ∧ ∃ mem' X, inverse3 v mem = some (true, mem') ∧ Updated v (fun idx => some (X (idx.getD 0 0) (idx.getD 1 0))) mem mem' ∧ toMat 3 X * toMat 3 A = 1) := by
  have g : ∀ i j : Int, 0 ≤ i → i < 3 → 0 ≤ j → j < 3 → load v [i, j] mem = some (A i j) := fun i j i0 i1 j0 j1 => h.load i0 i1 j0 j1
  have hdet : A 0 0 * (A 1 1 * A 2 2 - A 1 2 * A 2 1) + A 0 1 * (-A 1 0 * A 2 2 + A 1 2 * A 2 0) + A 0 2 * (A 1 0 * A 2 1 - A 1 1 * A 2 0) = (toMat 3 A).det := by
    rw [Matrix.det_fin_three]
    show _ = A 0 0 * A 1 1 * A 2 2 - A 0 0 * A 1 2 * A 2 1 - A 0 1 * A 1 0 * A 2 2 + A 0 1 * A 1 2 * A 2 0 + A 0 2 * A 1 0 * A 2 1 - A 0 2 * A 1 1 * A 2 0
    ring
  have hg : (∀ (P : Prop), P → P) := fun _ h => h
  by_cases hd : (toMat 3 A).det = 0
  · refine Or.inl ⟨hd, ?_⟩
    simp only [inverse3, g 0 0 (by decide) (by decide) (by decide) (by decide), g 0 1 (by decide) (by decide) (by decide) (by decide), g 0 2 (by decide) (by decide) (by decide) (by decide),
      g 1 0 (by decide) (by decide) (by decide) (by decide), g 1 1 (by decide) (by decide) (by decide) (by decide), g 1 2 (by decide) (by decide) (by decide) (by decide),
      g 2 0 (by decide) (by decide) (by decide) (by decide), g 2 1 (by decide) (by decide) (by decide) (by decide), g 2 2 (by decide) (by decide) (by decide) (by decide), Option.bind_eq_bind,
      Option.bind_some, hdet, if_pos hd]
    rfl
  · refine Or.inr ⟨hd, ?_⟩
    generalize hdd : (toMat 3 A).det = d at hd hdet
    obtain ⟨m1, e1, l1, h1, f1⟩ := h.store (i := 0) (j := 0) (by decide) (by decide) (by decide) (by decide) (1 / d * (A 1 1 * A 2 2 - A 1 2 * A 2 1))
    obtain ⟨m2, e2, l2, h2, f2⟩ := h1.store (i := 0) (j := 1) (by decide) (by decide) (by decide) (by decide) (1 / d * (-A 0 1 * A 2 2 + A 0 2 * A 2 1))
    obtain ⟨m3, e3, l3, h3, f3⟩ := h2.store (i := 0) (j := 2) (by decide) (by decide) (by decide) (by decide) (1 / d * (A 0 1 * A 1 2 - A 0 2 * A 1 1))
    obtain ⟨m4, e4, l4, h4, f4⟩ := h3.store (i := 1) (j := 0) (by decide) (by decide) (by decide) (by decide) (1 / d * (-A 1 0 * A 2 2 + A 1 2 * A 2 0))
    obtain ⟨m5, e5, l5, h5, f5⟩ := h4.store (i := 1) (j := 1) (by decide) (by decide) (by decide) (by decide) (1 / d * (A 0 0 * A 2 2 - A 0 2 * A 2 0))
    obtain ⟨m6, e6, l6, h6, f6⟩ := h5.store (i := 1) (j := 2) (by decide) (by decide) (by decide) (by decide) (1 / d * (-A 0 0 * A 1 2 + A 0 2 * A 1 0))
    obtain ⟨m7, e7, l7, h7, f7⟩ := h6.store (i := 2) (j := 0) (by decide) (by decide) (by decide) (by decide) (1 / d * (A 1 0 * A 2 1 - A 1 1 * A 2 0))
    obtain ⟨m8, e8, l8, h8, f8⟩ := h7.store (i := 2) (j := 1) (by decide) (by decide) (by decide) (by decide) (1 / d * (-A 0 0 * A 2 1 + A 0 1 * A 2 0))
    obtain ⟨m9, e9, l9, h9, f9⟩ := h8.store (i := 2) (j := 2) (by decide) (by decide) (by decide) (by decide) (1 / d * (A 0 0 * A 1 1 - A 0 1 * A 1 0))
    refine ⟨m9, _, ?_, h9.updated (by omega) (fun k hk => by rw [f9 k hk, f8 k hk, f7 k hk, f6 k hk, f5 k hk, f4 k hk, f3 k hk, f2 k hk, f1 k hk]), ?_⟩
    · simp only [inverse3, g 0 0 (by decide) (by decide) (by decide) (by decide), g 0 1 (by decide) (by decide) (by decide) (by decide), g 0 2 (by decide) (by decide) (by decide) (by decide),
        g 1 0 (by decide) (by decide) (by decide) (by decide), g 1 1 (by decide) (by decide) (by decide) (by decide), g 1 2 (by decide) (by decide) (by decide) (by decide),
        g 2 0 (by decide) (by decide) (by decide) (by decide), g 2 1 (by decide) (by decide) (by decide) (by decide), g 2 2 (by decide) (by decide) (by decide) (by decide), Option.bind_eq_bind,
        Option.bind_some, hdet, if_neg hd, e1, e2, e3, e4, e5, e6, e7, e8, e9]
      rfl
    · ext i j
      fin_cases i <;> fin_cases j <;> simp [toMat, upd, Matrix.mul_apply, Fin.sum_univ_three] <;> field_simp <;> first | (rw [← hdet]; ring) | ring

end Nda.Linalg
