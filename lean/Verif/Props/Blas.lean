import Verif.Lemmas.Blas
import Mathlib.Algebra.BigOperators.Ring.Finset
/-!
# C41: matrix products
-/
namespace Nda.Blas
open Nda LayoutTransforms Assign Loops Matrix Nda.Spec Nda.Perm

variable {α : Type}

/-- `gemm` in terms of orders and leading dimensions. -/
theorem gemm_eq [CommSemiring α] [DecidableEq α] (cj : α → α) (alpha beta : α) {x y : Mat} {c : View} {n0 n1 n2 : Int} {mem : List α} {fx fy fc : Bool} {lx ly lc : Int}
    (hx : LMat x.v n0 n1 mem.length fx lx) (hy : LMat y.v n1 n2 mem.length fy ly) (hc : LMat c n0 n2 mem.length fc lc) {A B C : Int → Int → α}
    (hA : Entries x.v n0 n1 mem A) (hB : Entries y.v n1 n2 mem B) (hC : Entries c n0 n2 mem C) (hvx : x.conj = true → fx ≠ fc) (hvy : y.conj = true → fy ≠ fc)
    (hsx : Separate x.v c) (hsy : Separate y.v c) :
    ∃ mem', gemm cj alpha x y beta c mem = .ok mem' ∧
      Updated c (fun idx => some (alpha * sumTo n1 (fun l => mayConj cj x.conj A (idx.getD 0 0) l * mayConj cj y.conj B l (idx.getD 1 0)) + beta * C (idx.getD 0 0) (idx.getD 1 0))) mem mem' := by
  cases fc with
  | true =>
    obtain ⟨mem', e, hu⟩ := gemmFortran_eq cj alpha beta hx hy hc hA hB hC (fun h => by simpa using hvx h) (fun h => by simpa using hvy h) hsx hsy
    exact ⟨mem', by rw [gemm, hc.hasC_eq]; exact e, hu⟩
  | false =>
    obtain ⟨xv, ex, hx', ax⟩ := hx.transpose
    obtain ⟨yv, ey, hy', ay⟩ := hy.transpose
    obtain ⟨cv, ec, hc', ac⟩ := hc.transpose
    have hsep : ∀ {z zv : View} {a b : Int}, z.lay.len = [a, b] → zv.lay.len = [b, a] → (∀ i j, addr zv [i, j] = addr z [j, i]) → Separate z c → Separate zv cv := by
      intro z zv a b hz hzv haz hs idx jdx hi hj
      rw [hzv, inRange2] at hi
      rw [hc'.len, inRange2] at hj
      obtain ⟨i, j, rfl, p⟩ := hi
      obtain ⟨i', j', rfl, q⟩ := hj
      rw [haz, ac]
      exact separate2 hs hz hc.len ⟨p.2.2.1, p.2.2.2⟩ ⟨p.1, p.2.1⟩ ⟨q.2.2.1, q.2.2.2⟩ ⟨q.1, q.2.1⟩
    obtain ⟨mem', e, hu⟩ := gemmFortran_eq cj alpha beta (x := ⟨yv, y.conj⟩) (y := ⟨xv, x.conj⟩) (c := cv) (n0 := n2) (n1 := n1) (n2 := n0) (A := fun i j => B j i) (B := fun i j => A j i) (C := fun i j => C j i)
      hy' hx' hc' (fun i j a b c d => by rw [ay]; exact hB j i c d a b) (fun i j a b c d => by rw [ax]; exact hA j i c d a b) (fun i j a b c d => by rw [ac]; exact hC j i c d a b)
      (fun h => by simpa using hvy h) (fun h => by simpa using hvx h) (hsep hy.len hy'.len ay hsy) (hsep hx.len hx'.len ax hsx)
    refine ⟨mem', ?_, hu.size, ?_, ?_⟩
    · rw [gemm, hc.hasC_eq]
      simp only [Bool.not_false, if_true, Mat.transpose, ex, ey, ec, orUb, Option.map_some, bind, Except.bind]
      exact e
    · intro idx hi
      rw [hc.len, inRange2] at hi
      obtain ⟨i, j, rfl, a, b, c', d⟩ := hi
      have := hu.elems [j, i] (by rw [hc'.len, inRange2]; exact ⟨j, i, rfl, c', d, a, b⟩)
      rw [ac] at this
      rw [this]
      simp only [List.getD_cons_zero, List.getD_cons_succ, mayConj]
      congr 4
      funext l
      rw [mul_comm]
    · intro k hk
      apply hu.frame
      rintro ⟨idx, hi, he⟩
      rw [hc'.len, inRange2] at hi
      obtain ⟨i, j, rfl, a, b, c', d⟩ := hi
      rw [ac] at he
      exact hk ⟨[j, i], by rw [hc.len, inRange2]; exact ⟨j, i, rfl, c', d, a, b⟩, he⟩

/-- Two rank-2 arrays are stored in the same order. -/
def SameOrder (a b : View) : Prop := a.lay.so = b.lay.so

/-- C41, `gemm`: for all layouts, leading dimensions and conjugations it accepts, `c` becomes `alpha * op(A) * op(B) + beta * c`; nothing else changes. -/
theorem C41_gemm [CommSemiring α] [DecidableEq α] (cj : α → α) (alpha beta : α) (a b : View) (conjA conjB : Bool) (c : View) (n0 n1 n2 : Int) (mem : List α) (ha : BlasMatrix a n0 n1)
    (hb : BlasMatrix b n1 n2) (hc : BlasMatrix c n0 n2) (hga : Good a mem.length) (hgb : Good b mem.length) (hgc : Good c mem.length) (A B C : Int → Int → α)
    (hA : Entries a n0 n1 mem A) (hB : Entries b n1 n2 mem B) (hC : Entries c n0 n2 mem C) (hva : conjA = true → ¬ SameOrder a c) (hvb : conjB = true → ¬ SameOrder b c)
    (hsa : Separate a c) (hsb : Separate b c) :
    ∃ mem', gemm cj alpha ⟨a, conjA⟩ ⟨b, conjB⟩ beta c mem = .ok mem' ∧
      Updated c (fun idx => some (alpha * sumTo n1 (fun l => mayConj cj conjA A (idx.getD 0 0) l * mayConj cj conjB B l (idx.getD 1 0)) + beta * C (idx.getD 0 0) (idx.getD 1 0))) mem mem' := by
  obtain ⟨fa, la, hla, -⟩ := ha.lmat hga
  obtain ⟨fb, lb, hlb, -⟩ := hb.lmat hgb
  obtain ⟨fc, lc, hlc, -⟩ := hc.lmat hgc
  have key : ∀ {z : View} {p q l : Int} {f : Bool}, LMat z p q mem.length f l → ¬ SameOrder z c → f ≠ fc := by
    rintro z p q l f hz hs rfl
    exact hs (by rw [SameOrder, hz.so, hlc.so])
  exact gemm_eq cj alpha beta (x := ⟨a, conjA⟩) (y := ⟨b, conjB⟩) hla hlb hlc hA hB hC (fun h => key hla (hva h)) (fun h => key hlb (hvb h)) hsa hsb

/-- C41, `gemm`: the other combinations do not compile. -/
theorem C41_gemm_rejects [CommSemiring α] [DecidableEq α] (cj : α → α) (alpha beta : α) (a b : View) (conjA conjB : Bool) (c : View) (n0 n1 n2 : Int) (mem : List α) (ha : BlasMatrix a n0 n1)
    (hb : BlasMatrix b n1 n2) (hc : BlasMatrix c n0 n2) (hga : Good a mem.length) (hgb : Good b mem.length) (hgc : Good c mem.length)
    (h : (conjA = true ∧ SameOrder a c) ∨ (conjB = true ∧ SameOrder b c)) : gemm cj alpha ⟨a, conjA⟩ ⟨b, conjB⟩ beta c mem = .error .compile := by
  obtain ⟨fa, la, hla, -⟩ := ha.lmat hga
  obtain ⟨fb, lb, hlb, -⟩ := hb.lmat hgb
  obtain ⟨fc, lc, hlc, -⟩ := hc.lmat hgc
  have key : ∀ {z : View} {p q l : Int} {f : Bool}, LMat z p q mem.length f l → SameOrder z c → f = fc := by
    intro z p q l f hz hs
    rw [SameOrder, hz.so, hlc.so] at hs
    cases f <;> cases fc <;> simp at hs ⊢
  have h' : (conjA = true ∧ fa = fc) ∨ (conjB = true ∧ fb = fc) := h.imp (fun h => ⟨h.1, key hla h.2⟩) (fun h => ⟨h.1, key hlb h.2⟩)
  cases fc with
  | true =>
    rw [gemm, hlc.hasC_eq]
    simp only [Bool.not_true, Bool.false_eq_true, if_false, gemmFortran, hla.hasC_eq, hlb.hasC_eq]
    rcases h' with ⟨rfl, rfl⟩ | ⟨rfl, rfl⟩
    · rfl
    · cases conjA <;> cases fa <;> rfl
  | false =>
    obtain ⟨xv, ex, hx', ax⟩ := hla.transpose
    obtain ⟨yv, ey, hy', ay⟩ := hlb.transpose
    obtain ⟨cv, ec, hc', ac⟩ := hlc.transpose
    rw [gemm, hlc.hasC_eq]
    simp only [Bool.not_false, if_true, Mat.transpose, ex, ey, ec, orUb, Option.map_some, bind, Except.bind, gemmFortran, hx'.hasC_eq, hy'.hasC_eq]
    rcases h' with ⟨rfl, rfl⟩ | ⟨rfl, rfl⟩
    · cases conjB <;> cases fb <;> rfl
    · rfl

/-! ### matmul -/

/-- Memory grew; the old part is unchanged. -/
structure Ext (mem mem' : List α) : Prop where
  grow : mem.length ≤ mem'.length
  old : ∀ k : Int, k < mem.length → val mem' k = val mem k

theorem Ext.refl (mem : List α) : Ext mem mem := ⟨le_refl _, fun _ _ => rfl⟩

theorem Ext.trans {a b c : List α} (h : Ext a b) (h' : Ext b c) : Ext a c :=
  ⟨h.grow.trans h'.grow, fun k hk => by rw [h'.old k (by have := h.grow; omega), h.old k hk]⟩

theorem fresh_lmat {f : Bool} {n0 n1 : Int} {base : Nat} {m : IdxMap} (hm : Fresh (if f then [1, 0] else [0, 1]) [n0, n1] base m) (p0 : 0 < n0) (p1 : 0 < n1) (b0 : n0 < 2147483648)
    (b1 : n1 < 2147483648) {n : Nat} (hn : base + (prod [n0, n1]).toNat ≤ n) : LMat ⟨(base : Int), m⟩ n0 n1 n f (if f then n0 else n1) := by
  have hs : ∃ s0 s1, m.str = [s0, s1] := by
    have := hm.wf.str_len
    rw [hm.len_eq] at this
    match hv : m.str, this with
    | [a, b], _ => exact ⟨a, b, rfl⟩
  obtain ⟨s0, s1, hs⟩ := hs
  have hd := hm.dense
  unfold Dense EvenlySpaced at hd
  rw [hm.len_eq, hm.so_eq, hs] at hd
  refine ⟨hm.good n hn, hm.len_eq, hm.so_eq, ?_, ?_, ?_, ?_, by omega, by omega, b0, b1⟩
  · show m.str = _
    rw [hs]
    cases f <;> simp [memOrder, dense, prod] at hd ⊢
    · exact hd
    · exact ⟨hd.2, hd.1⟩
  · cases f <;> simp <;> omega
  · cases f <;> simp
  · cases f <;> simp <;> omega

/-- A new matrix filled from a right-hand side. -/
theorem newMatrix_eq (junk : α) (f : Bool) {n0 n1 : Int} (p0 : 0 < n0) (p1 : 0 < n1) (b0 : n0 < 2147483648) (b1 : n1 < 2147483648) {rhs : Rhs α} {x : Int → Int → α} {mem0 mem : List α}
    (hy : Yields rhs [n0, n1] mem0 (fun idx => x (idx.getD 0 0) (idx.getD 1 0))) (he : Ext mem0 mem) :
    ∃ r mem', newMatrix junk (if f then [1, 0] else [0, 1]) n0 n1 rhs mem = some (r, mem') ∧ Ext mem mem' ∧ LMat r n0 n1 mem'.length f (if f then n0 else n1) ∧ Entries r n0 n1 mem' x ∧
      ∀ idx, InRange [n0, n1] idx → (mem.length : Int) ≤ addr r idx := by
  obtain ⟨m, hm, e1, hlen⟩ := fresh_eq junk (so := if f then [1, 0] else [0, 1]) (len := [n0, n1]) (by cases f <;> decide) (by cases f <;> rfl) (nonneg2 (by omega) (by omega)) mem
  obtain ⟨mem3, e2, hu⟩ := assign_new (a := ⟨(mem.length : Int), m⟩) (mem2 := mem ++ List.replicate m.size.toNat junk) hy (hm.good _ (by rw [hlen])) hm.one hm.len_eq (by simp)
    (fun idx hi => by have := (hm.above idx hi).1; have := he.grow; omega) (fun k hk => by rw [val_append_left _ (by have := he.grow; omega), he.old k hk]) (by have := he.grow; rw [hlen]; omega)
  refine ⟨⟨(mem.length : Int), m⟩, mem3, ?_, ⟨by rw [hu.size, hlen]; omega, fun k hk => ?_⟩, ?_, ?_, fun idx hi => (hm.above idx hi).1⟩
  · simp only [newMatrix, e1, Option.bind_eq_bind, Option.bind_some, e2]; rfl
  · rw [hu.frame k, val_append_left _ hk]
    rintro ⟨idx, hi, h⟩
    rw [show (View.mk (mem.length : Int) m).lay.len = _ from hm.len_eq] at hi
    have := (hm.above idx hi).1
    omega
  · rw [hu.size, hlen]; exact fresh_lmat hm p0 p1 b0 b1 (le_refl _)
  · intro i j a b c d
    rw [hu.elems [i, j] (by rw [show (View.mk (mem.length : Int) m).lay.len = _ from hm.len_eq, inRange2]; exact ⟨i, j, rfl, a, b, c, d⟩)]
    rfl

/-- An operand ready for `gemm`: a matrix away from the result `res` whose (conjugated) entries are `A`. -/
structure Ready (cj : α → α) (x : Mat) (n0 n1 : Int) (mem : List α) (A : Int → Int → α) (res : View) : Prop where
  lmat : ∃ f ld, LMat x.v n0 n1 mem.length f ld
  entries : ∃ A', Entries x.v n0 n1 mem A' ∧ ∀ i j, 0 ≤ i → i < n0 → 0 ≤ j → j < n1 → mayConj cj x.conj A' i j = A i j
  sep : Separate x.v res

theorem Entries.ext {v : View} {n0 n1 : Int} {mem mem' : List α} {A : Int → Int → α} (h : Entries v n0 n1 mem A) (hl : v.lay.len = [n0, n1]) (hf : Fits' v mem.length) (he : Ext mem mem') :
    Entries v n0 n1 mem' A := by
  intro i j a b c d
  rw [he.old _ (hf _ (by rw [hl, inRange2]; exact ⟨i, j, rfl, a, b, c, d⟩)).2, h i j a b c d]

theorem Ready.ext {cj : α → α} {x : Mat} {n0 n1 : Int} {mem mem' : List α} {A : Int → Int → α} {res : View} (h : Ready cj x n0 n1 mem A res) (he : Ext mem mem') : Ready cj x n0 n1 mem' A res := by
  obtain ⟨⟨f, ld, hl⟩, ⟨A', h1, h2⟩, hs⟩ := h
  exact ⟨⟨f, ld, hl.mono he.grow⟩, ⟨A', Entries.ext h1 hl.len hl.good.fits he, h2⟩, hs⟩

theorem separate_above {r res : View} {n : Nat} {len : List Int} (hl : r.lay.len = len) (ha : ∀ idx, InRange len idx → (n : Int) ≤ addr r idx) (hf : Fits' res n) : Separate r res := by
  intro idx jdx hi hj he
  rw [hl] at hi
  have := ha idx hi
  have := (hf jdx hj).2
  omega

theorem makeRegular_eq (cj : α → α) (junk : α) {x : Mat} (reg : Bool) {n0 n1 : Int} (p0 : 0 < n0) (p1 : 0 < n1) {mem : List α} {A : Int → Int → α} {res : View} (h : Ready cj x n0 n1 mem A res)
    (hres : Fits' res mem.length) :
    ∃ x' mem', makeRegular cj junk x reg mem = some (x', mem') ∧ Ext mem mem' ∧ Ready cj x' n0 n1 mem' A res ∧ x'.conj = false := by
  obtain ⟨⟨f, ld, hl⟩, ⟨A', h1, h2⟩, hs⟩ := h
  have r0 : rd x.v.lay.len 0 = some n0 := by rw [hl.len]; rfl
  have r1 : rd x.v.lay.len 1 = some n1 := by rw [hl.len]; rfl
  cases hx : x.conj with
  | true =>
    have hy : Yields (.expr (fun idx mem => (load x.v idx mem).map cj)) [n0, n1] mem (fun idx => A (idx.getD 0 0) (idx.getD 1 0)) := by
      intro idx hi mem2 hm
      have hi' : InRange x.v.lay.len idx := by rw [hl.len]; exact hi
      show (load x.v idx mem2).map cj = _
      rw [load, element_eq hl.good.wf hl.good.flags hi']
      simp only [Option.bind_eq_bind, Option.bind_some]
      rw [rdInt_eq, hm _ (hl.good.fits _ hi').2]
      obtain ⟨i, j, rfl, a, b, c, d⟩ := inRange2.mp hi
      show _ = some (A i j)
      rw [h1 i j a b c d, ← show mayConj cj x.conj A' i j = _ from h2 i j a b c d]
      simp [mayConj, hx]
    obtain ⟨r, mem', e, he, hlr, hent, hab⟩ := newMatrix_eq junk false p0 p1 hl.b0 hl.b1 hy (Ext.refl mem)
    refine ⟨⟨r, false⟩, mem', ?_, he, ⟨⟨_, _, hlr⟩, ⟨A, hent, fun _ _ _ _ _ _ => rfl⟩, separate_above hlr.len hab hres⟩, rfl⟩
    simp only [makeRegular, hx, if_true, r0, r1, Option.bind_eq_bind, Option.bind_some]
    rw [show newMatrix junk [0, 1] n0 n1 _ mem = _ from e]
    rfl
  | false =>
    have hAA : ∀ i j, 0 ≤ i → i < n0 → 0 ≤ j → j < n1 → A' i j = A i j := by
      intro i j a b c d
      have := h2 i j a b c d
      rw [hx] at this
      simpa [mayConj] using this
    cases reg with
    | true => exact ⟨x, mem, by simp [makeRegular, hx], Ext.refl mem, ⟨⟨f, ld, hl⟩, ⟨A', h1, h2⟩, hs⟩, hx⟩
    | false =>
      have hy : Yields (.inMem x.v false) [n0, n1] mem (fun idx => A (idx.getD 0 0) (idx.getD 1 0)) := by
        refine ⟨hl.good, hl.len, by simp, fun idx hi => ?_⟩
        obtain ⟨i, j, rfl, a, b, c, d⟩ := inRange2.mp hi
        rw [h1 i j a b c d, hAA i j a b c d]; rfl
      obtain ⟨r, mem', e, he, hlr, hent, hab⟩ := newMatrix_eq junk f p0 p1 hl.b0 hl.b1 hy (Ext.refl mem)
      refine ⟨⟨r, false⟩, mem', ?_, he, ⟨⟨_, _, hlr⟩, ⟨A, hent, fun _ _ _ _ _ _ => rfl⟩, separate_above hlr.len hab hres⟩, rfl⟩
      simp only [makeRegular, hx, Bool.false_eq_true, if_false, r0, r1, Option.bind_eq_bind, Option.bind_some, hl.so]
      rw [e]
      rfl

/-- What is asked of an operand of `matmul`: a matrix for BLAS (conjugated or not) or any expression giving `A`. -/
def OperandOK (cj : α → α) (o : Operand α) (n0 n1 : Int) (mem : List α) (A : Int → Int → α) : Prop :=
  match o with
  | .mat x _ => BlasMatrix x.v n0 n1 ∧ Good x.v mem.length ∧ ∃ A', Entries x.v n0 n1 mem A' ∧ A = mayConj cj x.conj A'
  | .other m order m0 m1 f => m0 = n0 ∧ m1 = n1 ∧ (m = true → order = some [0, 1] ∨ order = some [1, 0]) ∧
      ∀ i j, 0 ≤ i → i < n0 → 0 ≤ j → j < n1 → ∀ mem2 : List α, (∀ k : Int, k < mem.length → val mem2 k = val mem k) → f [i, j] mem2 = some (A i j)

theorem asContainer_eq (cj : α → α) (junk : α) (f : Bool) (o : Operand α) {n0 n1 : Int} (p0 : 0 < n0) (p1 : 0 < n1) (b0 : n0 < 2147483648) (b1 : n1 < 2147483648) {mem0 mem : List α} {A : Int → Int → α}
    {res : View} (h : OperandOK cj o n0 n1 mem0 A) (he : Ext mem0 mem) (hres : Fits' res mem.length) (hab : ∀ idx, InRange res.lay.len idx → (mem0.length : Int) ≤ addr res idx) :
    ∃ x reg mem', asContainer junk (if f then [1, 0] else [0, 1]) o mem = some ((x, reg), mem') ∧ Ext mem mem' ∧ Ready cj x n0 n1 mem' A res := by
  cases o with
  | mat x reg =>
    obtain ⟨h1, h2, A', h3, rfl⟩ := h
    obtain ⟨fx, ld, hl, -⟩ := h1.lmat h2
    refine ⟨x, reg, mem, rfl, Ext.refl mem, ⟨fx, ld, hl.mono he.grow⟩, ⟨A', Entries.ext h3 hl.len h2.fits he, fun _ _ _ _ _ _ => rfl⟩, ?_⟩
    intro idx jdx hi hj heq
    have := (h2.fits idx hi).2
    have := hab jdx hj
    omega
  | other m order m0 m1 g =>
    obtain ⟨rfl, rfl, -, hg⟩ := h
    have hy : Yields (.expr g) [m0, m1] mem0 (fun idx => A (idx.getD 0 0) (idx.getD 1 0)) := by
      intro idx hi mem2 hm
      obtain ⟨i, j, rfl, a, b, c, d⟩ := inRange2.mp hi
      exact hg i j a b c d mem2 hm
    obtain ⟨r, mem', e, he', hlr, hent, hab'⟩ := newMatrix_eq junk f p0 p1 b0 b1 hy he
    refine ⟨⟨r, false⟩, true, mem', ?_, he', ⟨_, _, hlr⟩, ⟨A, hent, fun _ _ _ _ _ _ => rfl⟩, separate_above hlr.len hab' hres⟩
    simp only [asContainer, e, Option.bind_eq_bind, Option.bind_some]
    rfl

/-- The order of the result is one of the two. -/
theorem resultOrder_eq {cj : α → α} {l r : Operand α} {n0 n1 : Int} {mem : List α} {A : Int → Int → α} (h : OperandOK cj l n0 n1 mem A) :
    ∃ f : Bool, resultOrder l r = if f then [1, 0] else [0, 1] := by
  unfold resultOrder
  split
  · cases l with
    | mat x reg =>
      obtain ⟨h1, h2, -⟩ := h
      obtain ⟨fx, ld, hl, -⟩ := h1.lmat h2
      simp only [Operand.policyOrder]
      split
      · exact ⟨false, rfl⟩
      · exact ⟨fx, hl.so⟩
    | other m order m0 m1 g =>
      simp only [Operand.policyOrder]
      split
      · rename_i hm
        rcases h.2.2.1 hm with e | e
        · exact ⟨false, by rw [e]; rfl⟩
        · exact ⟨true, by rw [e]; rfl⟩
      · exact ⟨false, rfl⟩
  · exact ⟨false, rfl⟩

theorem operands_eq (cj : α → α) (junk : α) {l r : Mat × Bool} {n0 n1 n2 : Int} (p0 : 0 < n0) (p1 : 0 < n1) (p2 : 0 < n2) {mem : List α} {A B : Int → Int → α} {res : View} {fc : Bool} {lc : Int}
    (hl : Ready cj l.1 n0 n1 mem A res) (hr : Ready cj r.1 n1 n2 mem B res) (hres : LMat res n0 n2 mem.length fc lc) :
    ∃ x y mem', operands cj junk l r res mem = some (x, y, mem') ∧ Ext mem mem' ∧ Ready cj x n0 n1 mem' A res ∧ Ready cj y n1 n2 mem' B res ∧
      (x.conj = true → hasF x.v ≠ fc) ∧ (y.conj = true → hasF y.v ≠ fc) := by
  cases hv : validTriple l.1 r.1 res with
  | true =>
    refine ⟨l.1, r.1, mem, by rw [operands, hv]; rfl, Ext.refl mem, hl, hr, ?_, ?_⟩
    · intro hc
      rw [validTriple, hres.hasF_eq] at hv
      cases fc <;> simp [hc] at hv ⊢ <;> first | exact hv.2 | exact hv.1
    · intro hc
      rw [validTriple, hres.hasF_eq] at hv
      cases fc <;> simp [hc] at hv ⊢ <;> first | exact hv.1 | exact hv.2
  | false =>
    obtain ⟨x, m1, e1, h1, r1, c1⟩ := makeRegular_eq cj junk l.2 p0 p1 hl hres.good.fits
    obtain ⟨y, m2, e2, h2, r2, c2⟩ := makeRegular_eq cj junk r.2 p1 p2 (hr.ext h1) (hres.mono h1.grow).good.fits
    refine ⟨x, y, m2, ?_, h1.trans h2, r1.ext h2, r2, by simp [c1], by simp [c2]⟩
    rw [operands, hv]
    simp only [Bool.false_eq_true, if_false, e1, e2, Option.bind_eq_bind, Option.bind_some]
    rfl

/-- The product, with the layout of the result. -/
theorem matmul_lmat [CommSemiring α] [DecidableEq α] (cj : α → α) (junk : α) (l r : Operand α) (n0 n1 n2 : Int) (p0 : 0 < n0) (p1 : 0 < n1) (p2 : 0 < n2) (b0 : n0 < 2147483648)
    (b1 : n1 < 2147483648) (b2 : n2 < 2147483648) (mem : List α) (A B : Int → Int → α) (hl : OperandOK cj l n0 n1 mem A) (hr : OperandOK cj r n1 n2 mem B) :
    ∃ res mem' f, matmul cj junk l r mem = .ok (res, mem') ∧ NewMatrix mem n0 n2 (fun i j => sumTo n1 (fun k => A i k * B k j)) res mem' ∧
      LMat res n0 n2 mem'.length f (if f then n0 else n2) ∧ resultOrder l r = (if f then [1, 0] else [0, 1]) := by
  have h0 : l.rows = some n0 := by
    cases l with
    | mat x _ => show rd x.v.lay.len 0 = _; rw [hl.1.len]; rfl
    | other _ _ m0 _ _ => show some m0 = _; rw [hl.1]
  have h2 : r.cols = some n2 := by
    cases r with
    | mat x _ => show rd x.v.lay.len 1 = _; rw [hr.1.len]; rfl
    | other _ _ _ m1 _ => show some m1 = _; rw [hr.2.1]
  obtain ⟨f, hso⟩ := resultOrder_eq (r := r) hl
  obtain ⟨m, hm, e1, hlen⟩ := fresh_eq junk (so := if f then [1, 0] else [0, 1]) (len := [n0, n2]) (by cases f <;> decide) (by cases f <;> rfl) (nonneg2 (by omega) (by omega)) mem
  have hm1 : Ext mem (mem ++ List.replicate m.size.toNat junk) := ⟨by rw [hlen]; omega, fun k hk => val_append_left _ hk⟩
  have hres := fresh_lmat hm p0 p2 b0 b2 (n := (mem ++ List.replicate m.size.toNat junk).length) (by rw [hlen])
  generalize hM1 : mem ++ List.replicate m.size.toNat junk = mem1 at e1 hlen hm1 hres
  have hab : ∀ idx, InRange (View.mk (mem.length : Int) m).lay.len idx → (mem.length : Int) ≤ addr ⟨(mem.length : Int), m⟩ idx := fun idx hi => (hm.above idx (by rw [← hm.len_eq]; exact hi)).1
  obtain ⟨a, ra, mem2, e2, x2, ready2⟩ := asContainer_eq cj junk f l p0 p1 b0 b1 hl hm1 hres.good.fits hab
  have hres2 := hres.mono x2.grow
  obtain ⟨b, rb, mem3, e3, x3, ready3⟩ := asContainer_eq cj junk f r p1 p2 b1 b2 hr (hm1.trans x2) hres2.good.fits hab
  have hres3 := hres2.mono x3.grow
  obtain ⟨x, y, mem4, e4, x4, rx, ry, vx, vy⟩ := operands_eq cj junk (l := (a, ra)) (r := (b, rb)) p0 p1 p2 (ready2.ext x3) ready3 hres3
  have hres4 := hres3.mono x4.grow
  obtain ⟨⟨fx, ldx, lx⟩, ⟨A', hA', hAA⟩, sx⟩ := rx
  obtain ⟨⟨fy, ldy, ly⟩, ⟨B', hB', hBB⟩, sy⟩ := ry
  have hC : ∃ C : Int → Int → α, Entries ⟨(mem.length : Int), m⟩ n0 n2 mem4 C := by
    refine ⟨fun i j => (val mem4 (addr ⟨(mem.length : Int), m⟩ [i, j])).getD 0, fun i j a b c d => ?_⟩
    obtain ⟨z, hz⟩ := val_isSome (hres4.good.fits [i, j] (by rw [hres4.len, inRange2]; exact ⟨i, j, rfl, a, b, c, d⟩))
    simp only [hz, Option.getD]
  obtain ⟨C, hC⟩ := hC
  obtain ⟨mem5, e5, hu⟩ := gemm_eq cj 1 0 lx ly hres4 hA' hB' hC (fun h => by have := vx h; rwa [lx.hasF_eq] at this) (fun h => by have := vy h; rwa [ly.hasF_eq] at this) sx sy
  have hx : Ext mem mem4 := hm1.trans (x2.trans (x3.trans x4))
  refine ⟨⟨(mem.length : Int), m⟩, mem5, f, ?_, ?_, by rw [hu.size]; exact hres4, hso⟩
  · simp only [matmul, h0, h2, hso, e1, e2, e3, e4, e5, orUb, bind, Except.bind, pure, Except.pure]
  · refine ⟨by rw [hu.size]; exact hres4.good, hm.len_eq, hm.one, ?_, fun idx hi => (hm.above idx hi).1, ?_, by rw [hu.size]; exact hx.grow⟩
    · intro i j a b c d
      rw [hu.elems [i, j] (by rw [hres4.len, inRange2]; exact ⟨i, j, rfl, a, b, c, d⟩)]
      simp only [List.getD_cons_zero, List.getD_cons_succ, one_mul, zero_mul, add_zero]
      congr 1
      apply sumTo_congr
      intro k k0 k1
      rw [hAA i k a b k0 k1, hBB k j k0 k1 c d]
    · intro k hk
      rw [hu.frame k, hx.old k hk]
      rintro ⟨idx, hi, he⟩
      have := hab idx hi
      omega

/-- C41, `matmul`: whatever the layouts, conjugations and kinds of the operands, the product compiles and gives a new matrix of sums of products; old memory is unchanged. -/
theorem C41_matmul_partial [CommSemiring α] [DecidableEq α] (cj : α → α) (junk : α) (l r : Operand α) (n0 n1 n2 : Int) (p0 : 0 < n0) (p1 : 0 < n1) (p2 : 0 < n2) (b0 : n0 < 2147483648)
    (b1 : n1 < 2147483648) (b2 : n2 < 2147483648) (mem : List α) (A B : Int → Int → α) (hl : OperandOK cj l n0 n1 mem A) (hr : OperandOK cj r n1 n2 mem B) :
    ∃ res mem', matmul cj junk l r mem = .ok (res, mem') ∧ NewMatrix mem n0 n2 (fun i j => sumTo n1 (fun k => A i k * B k j)) res mem' := by
  obtain ⟨res, mem', -, e, h, -⟩ := matmul_lmat cj junk l r n0 n1 n2 p0 p1 p2 b0 b1 b2 mem A B hl hr
  exact ⟨res, mem', e, h⟩

/-! ### The generic version -/

theorem foldlM_range_inv {σ : Type} {f : σ → Nat → Option σ} (P : Nat → σ → Prop) : ∀ (n : Nat) (s : σ), P 0 s → (∀ k s, k < n → P k s → ∃ s', f s k = some s' ∧ P (k + 1) s') →
    ∃ s', (List.range n).foldlM f s = some s' ∧ P n s' := by
  intro n
  induction n with
  | zero => intro s h _; exact ⟨s, rfl, h⟩
  | succ n ih =>
    intro s h hs
    obtain ⟨s1, e1, p1⟩ := ih s h (fun k s hk => hs k s (by omega))
    obtain ⟨s2, e2, p2⟩ := hs n s1 (by omega) p1
    refine ⟨s2, ?_, p2⟩
    rw [List.range_succ, List.foldlM_append, e1]
    simp [e2]

theorem loop2 {σ : Type} (n0 n1 : Int) (body : Int → Int → σ → Option σ) (s : σ) :
    forLoop n0 (fun i s => forLoop n1 (fun j s => body i j s) s) s = (box [n0, n1]).foldlM (fun s x => body (x.getD 0 0) (x.getD 1 0) s) s := by
  have hb : ∀ i : Nat, ((box [n1]).map (List.cons (Int.ofNat i))).foldlM (fun (s : σ) (x : List Int) => body (x.getD 0 0) (x.getD 1 0) s) = fun s => (List.range n1.toNat).foldlM (fun s (j : Nat) => body (Int.ofNat i) (Int.ofNat j) s) s := by
    intro i
    funext s
    have hx : (List.range n1.toNat).flatMap (fun (i : Nat) => [[(i : Int)]]) = (List.range n1.toNat).map (fun (i : Nat) => [(i : Int)]) := by
      generalize List.range n1.toNat = L
      induction L with
      | nil => rfl
      | cons a L ih => simp [List.flatMap_cons, ih]
    simp [box, List.foldlM_map, hx]
  rw [forLoop, box, foldlM_flatMap]
  congr 1
  funext s i
  exact (congrFun (hb i) s).symm

/-- An expression away from `c`: its value at `idx` is `x`, whatever `c` contains. -/
def AwayFrom (c : View) (mem : List α) (f : List Int → List α → Option α) (idx : List Int) (x : α) : Prop :=
  ∀ mem2 : List α, (∀ k, ¬ Occupies c k → val mem2 k = val mem k) → f idx mem2 = some x

/-- C41, the generic product: `c` becomes `alpha * A * B`; the term `beta * c` is lost, because `c` is set to zero first (see `C41_generic_beta_witness`). -/
theorem C41_generic_partial [CommSemiring α] (alpha beta : α) (n0 n1 n2 : Int) (a b : List Int → List α → Option α) (c : View) (mem : List α) (hlen : c.lay.len = [n0, n2])
    (hc : Good c mem.length) (h1 : OneToOne c) (A B : Int → Int → α) (ha : ∀ i k, 0 ≤ i → i < n0 → 0 ≤ k → k < n1 → AwayFrom c mem a [i, k] (A i k))
    (hb : ∀ k j, 0 ≤ k → k < n1 → 0 ≤ j → j < n2 → AwayFrom c mem b [k, j] (B k j)) :
    ∃ mem', gemmGeneric alpha n0 n1 n2 a b beta c mem = some mem' ∧ Updated c (fun idx => some (alpha * sumTo n1 (fun k => A (idx.getD 0 0) k * B k (idx.getD 1 0)))) mem mem' := by
  obtain ⟨mem1, e1, u1⟩ : ∃ mem1, elementwise c (.expr (fun _ _ => some (0 : α))) mem = some mem1 ∧ Updated c (fun _ => some 0) mem mem1 := by
    obtain ⟨mem1, e, hu⟩ := assign_enum hc.fits h1 (enum_box c) (fun _ _ => some (0 : α)) (fun _ _ _ _ _ _ _ => rfl) (fun _ _ => ⟨0, rfl⟩)
    exact ⟨mem1, by rw [elementwise_eq hc.wf hc.flags]; exact e, hu⟩
  have hc1 : Good c mem1.length := by rw [u1.size]; exact hc
  let rhs : List Int → List α → Option α := fun x mem => do
    let acc ← sumM n1 (fun k => do
      let u ← a [x.getD 0 0, k] mem
      let w ← b [k, x.getD 1 0] mem
      return alpha * u * w)
    let old ← load c [x.getD 0 0, x.getD 1 0] mem
    return acc + beta * old
  have hrhs : ∀ i j, 0 ≤ i → i < n0 → 0 ≤ j → j < n2 → ∀ mem2 : List α, mem2.length = mem1.length → (∀ k, ¬ Occupies c k → val mem2 k = val mem1 k) → val mem2 (addr c [i, j]) = some 0 →
      rhs [i, j] mem2 = some (alpha * sumTo n1 (fun k => A i k * B k j)) := by
    intro i j i0 i1 j0 j1 mem2 hl hk hz
    have hk' : ∀ k, ¬ Occupies c k → val mem2 k = val mem k := fun k h => by rw [hk k h, u1.frame k h]
    have hs := sumM_eq n1 (fun k => do
      let u ← a [i, k] mem2
      let w ← b [k, j] mem2
      return alpha * u * w) (fun k => alpha * A i k * B k j) (by
        intro k k0 k1
        rw [ha i k i0 i1 k0 k1 mem2 hk', hb k j k0 k1 j0 j1 mem2 hk']
        rfl)
    have hld : load c [i, j] mem2 = some 0 := by
      rw [load_eq (by rw [hl]; exact hc1) (by rw [hlen, inRange2]; exact ⟨i, j, rfl, i0, i1, j0, j1⟩), hz]
    simp only [rhs, List.getD_cons_zero, List.getD_cons_succ]
    rw [hs]
    simp only [Option.bind_eq_bind, Option.bind_some, hld, mul_zero, add_zero]
    show some _ = _
    congr 1
    unfold sumTo
    rw [Finset.mul_sum]
    exact Finset.sum_congr rfl (fun k _ => mul_assoc _ _ _)
  have hin : ∀ x, x ∈ box c.lay.len → ∃ i j, x = [i, j] ∧ 0 ≤ i ∧ i < n0 ∧ 0 ≤ j ∧ j < n2 := fun x hx => by
    have := mem_box.mp hx
    rw [hlen] at this
    exact inRange2.mp this
  obtain ⟨mem2, e2, u2⟩ := assign_enum (mem := mem1) hc1.fits h1 (enum_box c) rhs (by
      intro pre x post e mem2 hl hk
      obtain ⟨i, j, rfl, i0, i1, j0, j1⟩ := hin x (by rw [e]; simp)
      have hocc : ∀ k, ¬ Occupies c k → val mem2 k = val mem1 k := fun k h => hk k (fun y hy ey => h ⟨y, mem_box.mp (by rw [e]; simp [hy]), ey⟩)
      have hij : InRange c.lay.len [i, j] := by rw [hlen, inRange2]; exact ⟨i, j, rfl, i0, i1, j0, j1⟩
      have hz : val mem2 (addr c [i, j]) = some 0 := by
        rw [hk (addr c [i, j]) (fun y hy ey => ?_), u1.elems _ hij]
        have hyx := h1 y [i, j] (mem_box.mp (by rw [e]; simp [hy])) hij ey
        have hnd := (enum_box c).1
        rw [e, List.nodup_append] at hnd
        exact hnd.2.2 y hy [i, j] (by simp) hyx
      rw [hrhs i j i0 i1 j0 j1 mem2 hl hocc hz, hrhs i j i0 i1 j0 j1 mem1 rfl (fun _ _ => rfl) (u1.elems _ hij)])
    (by
      intro x hx
      obtain ⟨i, j, rfl, i0, i1, j0, j1⟩ := hin x hx
      exact ⟨_, hrhs i j i0 i1 j0 j1 mem1 rfl (fun _ _ => rfl) (u1.elems _ (mem_box.mp hx))⟩)
  refine ⟨mem2, ?_, by rw [u2.size, u1.size], ?_, ?_⟩
  · simp only [gemmGeneric, e1, Option.bind_eq_bind, Option.bind_some]
    rw [loop2, ← e2, hlen]
    apply foldlM_congr
    intro x hx s
    obtain ⟨i, j, rfl, i0, i1, j0, j1⟩ := hin x (by rw [hlen]; exact hx)
    simp only [exec, rhs, store, element_eq hc.wf hc.flags (mem_box.mp (by rw [hlen]; exact hx) : InRange c.lay.len [i, j]), List.getD_cons_zero, List.getD_cons_succ, Option.bind_eq_bind, Option.bind_some]
    cases sumM n1 (fun k => (a [i, k] s).bind fun u => (b [k, j] s).bind fun w => pure (alpha * u * w)) with
    | none => rfl
    | some acc =>
      simp only [Option.bind_some]
      cases load c [i, j] s with
      | none => rfl
      | some old => rfl
  · intro idx hi
    have hi' := hi
    rw [hlen, inRange2] at hi'
    obtain ⟨i, j, rfl, i0, i1, j0, j1⟩ := hi'
    rw [u2.elems _ hi]
    exact hrhs i j i0 i1 j0 j1 mem1 rfl (fun _ _ => rfl) (u1.elems _ hi)
  · intro k hk
    rw [u2.frame k hk, u1.frame k hk]

/-! ### Cases meeting the hypotheses, and what is missing -/

/-- A 2 by 2 block (C order, rows 3 apart) of a 2 by 3 matrix. -/
def exBlock : View := ⟨0, ⟨[2, 2], [3, 1], [0, 1], [0, 0], .none⟩⟩
/-- A Fortran-order 2 by 2 matrix behind it, and one more. -/
def exF (off : Int) : View := ⟨off, ⟨[2, 2], [1, 2], [1, 0], [0, 0], .contiguous⟩⟩

def exMem : List Int := [1, 2, 0, 3, 4, 0, 5, 6, 7, 8, 0, 0, 0, 1]

/-- The hypotheses of `C41_gemm`: a strided C-order block times a Fortran-order matrix into a Fortran-order matrix. -/
example : BlasMatrix exBlock 2 2 ∧ BlasMatrix (exF 6) 2 2 ∧ ¬ SameOrder exBlock (exF 10) :=
  ⟨⟨rfl, Or.inr ⟨rfl, 3, rfl, by decide, by decide, by decide⟩, by decide, by decide⟩, ⟨rfl, Or.inl ⟨rfl, 2, rfl, by decide, by decide, by decide⟩, by decide, by decide⟩, by unfold SameOrder; decide⟩

/-- `[[1,2],[3,4]] * [[5,7],[6,8]] + 10 * [[0,0],[0,1]]`, with the first matrix conjugated ("conjugation" being the negation here). -/
example : gemm (fun x => -x) 1 ⟨exBlock, true⟩ ⟨exF 6, false⟩ 10 (exF 10) exMem = .ok [1, 2, 0, 3, 4, 0, 5, 6, 7, 8, -17, -39, -23, -43] := by decide

/-- The same through `matmul`, the conjugate of a Fortran-order matrix on the right: the result is in C order. -/
example : (matmul (fun x => -x) 9 (.mat ⟨exBlock, false⟩ false) (.mat ⟨exF 6, true⟩ true) exMem).map (fun r => (r.1.lay.so, r.2.drop 14)) = .ok ([0, 1], [-17, -23, -39, -53]) := by decide

/-- A conjugated C-order matrix on the right needs a copy. -/
example : (matmul (fun x => -x) 9 (.mat ⟨exF 6, false⟩ true) (.mat ⟨exBlock, true⟩ false) exMem).map (fun r => (r.1.lay.so, (r.2.drop 14).take 4)) = .ok ([0, 1], [-26, -38, -30, -44]) := by decide

/-- Missing from C41: an empty inner dimension.  The product of 1 by 0 and 0 by 1 is the 1 by 1 zero matrix, but the leading dimension 0 is rejected by BLAS. -/
theorem C41_empty_witness : matmul id (9 : Int) (.mat ⟨⟨0, ⟨[1, 0], [0, 1], [0, 1], [0, 0], .contiguous⟩⟩, false⟩ true) (.mat ⟨⟨0, ⟨[0, 1], [1, 1], [0, 1], [0, 0], .contiguous⟩⟩, false⟩ true) [] =
    .error .xerbla := by decide

/-- Missing from C41: views with a step along the fast dimension.  Without debug checks every second column of `[[1,0,2,0],[3,0,4,0]]`, times the identity, is not `[[1,2],[3,4]]`. -/
theorem C41_step_witness :
    (matmul id (9 : Int) (.mat ⟨⟨0, ⟨[2, 2], [4, 2], [0, 1], [0, 0], .none⟩⟩, false⟩ false) (.mat ⟨⟨8, ⟨[2, 2], [2, 1], [0, 1], [0, 0], .contiguous⟩⟩, false⟩ true) [1, 0, 2, 0, 3, 0, 4, 0, 1, 0, 0, 1]).map
      (fun r => r.2.drop 12) = .ok [1, 0, 3, 0] := by decide

/-- The generic product forgets `beta * c`: here `c = 5`, `a = b = 1` and `beta = 1` should give 6. -/
theorem C41_generic_beta_witness :
    gemmGeneric (1 : Int) 1 1 1 (fun _ _ => some 1) (fun _ _ => some 1) 1 ⟨0, ⟨[1, 1], [1, 1], [0, 1], [0, 0], .contiguous⟩⟩ [5] = some [1] := by decide

end Nda.Blas
