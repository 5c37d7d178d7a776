import Verif.Props.Blas
import Verif.Props.Mpi
import Verif.Props.Contiguous
import Verif.Lemmas.GroupIndices
/-!
# C42, C43, C44: matrix-vector products, rank-one updates, dot products
-/
namespace Nda.Blas
open Nda LayoutTransforms Assign Loops Matrix Nda.Spec Nda.Perm

variable {α : Type}

/-! ### Vectors -/

/-- A vector for BLAS inside memory of `n` elements. -/
structure LVec (v : View) (m : Int) (n : Nat) (s : Int) : Prop where
  good : Good v n
  len : v.lay.len = [m]
  str : v.lay.str = [s]
  pos : 1 ≤ s
  sb : s < 2147483648
  nn : 0 ≤ m
  b : m < 2147483648

theorem _root_.Nda.Spec.BlasVector.lvec {v : View} {m : Int} (h : BlasVector v m) {n : Nat} (hg : Good v n) : ∃ s, LVec v m n s := by
  obtain ⟨s, h1, h2, h3⟩ := h.stride
  have := hg.nonneg
  rw [h.len] at this
  exact ⟨s, hg, h.len, h1, h2, h3, this m (by simp), h.bound⟩

namespace LVec

variable {v : View} {m : Int} {n : Nat} {s : Int}

theorem mono (h : LVec v m n s) {k : Nat} (hk : n ≤ k) : LVec v m k s := { h with good := h.good.mono hk }

theorem addr_eq (h : LVec v m n s) (i : Int) : addr v [i] = v.off + i * s := by
  rw [addr, h.str]; simp [Spec.dot]; ring

theorem one (h : LVec v m n s) : OneToOne v := by
  intro idx jdx hi hj he
  rw [h.len, inRange1] at hi hj
  obtain ⟨i, rfl, -⟩ := hi
  obtain ⟨j, rfl, -⟩ := hj
  rw [h.addr_eq, h.addr_eq] at he
  have hp := h.pos
  have : i = j := by
    rcases lt_trichotomy i j with hh | hh | hh
    · nlinarith
    · exact hh
    · nlinarith
  rw [this]

theorem inc (h : LVec v m n s) : rd v.lay.str 0 = some s := by rw [h.str]; rfl
theorem inc32 (h : LVec v m n s) : toInt32 s = s := toInt32_id (by have := h.pos; omega) h.sb
theorem len32 (h : LVec v m n s) : toInt32 m = m := toInt32_id h.nn h.b
theorem size_eq (h : LVec v m n s) : v.lay.size = m := by rw [IdxMap.size_eq, h.len]; simp [prod]
theorem vecPos_eq (h : LVec v m n s) (k i : Int) : vecPos v.off k s i = addr v [i] := by
  rw [h.addr_eq, vecPos, if_neg (by have := h.pos; omega)]

end LVec

theorem separate1 {a b : View} {n m : Int} (h : Separate a b) (ha : a.lay.len = [n]) (hb : b.lay.len = [m]) {i j : Int} (hi : 0 ≤ i ∧ i < n) (hj : 0 ≤ j ∧ j < m) : addr a [i] ≠ addr b [j] :=
  h _ _ (by rw [ha, inRange1]; exact ⟨i, rfl, hi.1, hi.2⟩) (by rw [hb, inRange1]; exact ⟨j, rfl, hj.1, hj.2⟩)

theorem separate21 {a b : View} {n0 n1 m : Int} (h : Separate a b) (ha : a.lay.len = [n0, n1]) (hb : b.lay.len = [m]) {i j k : Int} (hi : 0 ≤ i ∧ i < n0) (hj : 0 ≤ j ∧ j < n1) (hk : 0 ≤ k ∧ k < m) :
    addr a [i, j] ≠ addr b [k] :=
  h _ _ (by rw [ha, inRange2]; exact ⟨i, j, rfl, hi.1, hi.2, hj.1, hj.2⟩) (by rw [hb, inRange1]; exact ⟨k, rfl, hk.1, hk.2⟩)

/-! ### C42 -/

theorem gemv_eq [CommSemiring α] [DecidableEq α] (cj : α → α) (alpha beta : α) {x : Mat} {b c : View} {n0 n1 : Int} {mem : List α} {fx : Bool} {lx sb sc : Int} (p0 : 0 < n0) (p1 : 0 < n1)
    (hx : LMat x.v n0 n1 mem.length fx lx) (hb : LVec b n1 mem.length sb) (hc : LVec c n0 mem.length sc) {A : Int → Int → α} {B C : Int → α}
    (hA : Entries x.v n0 n1 mem A) (hB : Elements b n1 mem B) (hC : Elements c n0 mem C) (hvx : x.conj = true → fx = false) (hsx : Separate x.v c) (hsb : Separate b c) :
    ∃ mem', gemv cj alpha x b beta c mem = .ok mem' ∧
      Updated c (fun idx => some (alpha * sumTo n1 (fun l => mayConj cj x.conj A (idx.getD 0 0) l * B l) + beta * C (idx.getD 0 0))) mem mem' := by
  obtain ⟨t, ht, ht'⟩ : ∃ t, getOp x.conj (hasC x.v) = .ok t ∧ (t = .N ↔ fx = true) := by
    rw [hx.hasC_eq]
    cases hzc : x.conj <;> cases fx <;> simp [hzc, getOp] at hvx ⊢
  have hft : (!hasF x.v) = hasC x.v := by rw [hx.hasF_eq, hx.hasC_eq]
  have hdim : gemvDims x.v = some (if fx then (n0, n1) else (n1, n0)) := by
    rw [gemvDims, hx.len, hx.hasC_eq]
    cases fx <;> rfl
  obtain ⟨m, n, hmn⟩ : ∃ m n, (m, n) = (if fx then (n0, n1) else (n1, n0)) := ⟨_, _, rfl⟩
  have hm : toInt32 m = m ∧ toInt32 n = n ∧ 0 < m ∧ 0 < n ∧ m ≤ lx := by
    have := hx.wide
    cases fx <;> simp at hmn this <;> obtain ⟨rfl, rfl⟩ := hmn
    · exact ⟨toInt32_id hx.nn1 hx.b1, toInt32_id hx.nn0 hx.b0, p1, p0, this⟩
    · exact ⟨toInt32_id hx.nn0 hx.b0, toInt32_id hx.nn1 hx.b1, p0, p1, this⟩
  have hlen : (if t = .N then n else m) = n1 ∧ (if t = .N then m else n) = n0 := by
    by_cases hf : fx = true
    · rw [if_pos (ht'.mpr hf), if_pos (ht'.mpr hf)]
      rw [hf] at hmn; simp at hmn; exact ⟨hmn.2, hmn.1⟩
    · rw [if_neg (fun h => hf (ht'.mp h)), if_neg (fun h => hf (ht'.mp h))]
      rw [Bool.not_eq_true] at hf
      rw [hf] at hmn; simp at hmn; exact ⟨hmn.1, hmn.2⟩
  have hpos := hx.pos
  obtain ⟨mem', e, hu⟩ := write_vector (c := c) (n := n0) (mem := mem) hc.len hc.good.fits hc.one (f := gemvEntry cj t n1 n0 alpha x.v.off lx b.off sb beta c.off sc mem)
    (g := fun i => alpha * sumTo n1 (fun l => mayConj cj x.conj A i l * B l) + beta * C i) (by
      intro i i0 i1
      have hs := sumM_eq n1 (fun l => do
          let u ← opGet cj t x.v.off lx mem i l
          let w ← rdInt mem (vecPos b.off n1 sb l)
          return u * w) (fun l => mayConj cj x.conj A i l * B l) (by
        intro l h0 h1
        rw [opGet_eq hx ht cj hA ⟨i0, i1⟩ ⟨h0, h1⟩, hb.vecPos_eq, rdInt_eq, hB l h0 h1]
        rfl)
      have hax : ∀ s : α, axpby alpha s beta mem (addr c [i]) = some (alpha * s + beta * C i) := by
        intro s
        unfold axpby
        split
        · rename_i hb; rw [hb]; simp
        · rw [rdInt_eq, hC i i0 i1]; rfl
      simp only [gemvEntry]
      rw [hs, hc.vecPos_eq]
      simp only [Option.bind_eq_bind, Option.bind_some, hax]
      rfl)
  refine ⟨mem', ?_, hu⟩
  have hov : overlap (matAddrs n0 n1 (opPos t x.v.off lx) ++ vecAddrs b.off n1 sb) (vecAddrs c.off n0 sc) = false := by
    rw [overlap_false]
    intro k hk hk2
    obtain ⟨i', a', b', he'⟩ := mem_vecAddrs.mp hk2
    rw [hc.vecPos_eq] at he'
    subst he'
    rcases List.mem_append.mp hk with hk | hk
    · obtain ⟨i, j, a, b, c'', d, he⟩ := mem_matAddrs.mp hk
      rw [opPos_eq hx ht] at he
      exact separate21 hsx hx.len hc.len ⟨a, b⟩ ⟨c'', d⟩ ⟨a', b'⟩ he
    · obtain ⟨i, a, b, he⟩ := mem_vecAddrs.mp hk
      rw [hb.vecPos_eq] at he
      exact separate1 hsb hb.len hc.len ⟨a, b⟩ ⟨a', b'⟩ he
  simp only [gemv, hft, ht, hdim, ← hmn, hx.ld_eq, hb.inc, hc.inc, orUb, bind, Except.bind, hb.inc32, hc.inc32, hm.1, hm.2.1, f77gemv]
  have sbp := hb.pos; have scp := hc.pos
  rw [if_neg (by rintro (h | h | h | h | h) <;> omega), if_neg (by rintro (h | h) <;> omega), hlen.1, hlen.2, hov]
  simp only [Bool.false_eq_true, if_false]
  have e' : (((List.range n0.toNat).map Int.ofNat).mapM (gemvEntry cj t n1 n0 alpha x.v.off lx b.off sb beta c.off sc mem)).bind (fun ws => storeAll ws mem) = some mem' := e
  rw [e']

/-- C42, `gemv`: `c` becomes `alpha * op(A) * b + beta * c` for both orders, any leading dimension and any positive strides of the vectors; nothing else changes.  A conjugated matrix must be in
C order. -/
theorem C42_gemv_partial [CommSemiring α] [DecidableEq α] (cj : α → α) (alpha beta : α) (a : View) (conjA : Bool) (b c : View) (n0 n1 : Int) (p0 : 0 < n0) (p1 : 0 < n1) (mem : List α)
    (ha : BlasMatrix a n0 n1) (hb : BlasVector b n1) (hc : BlasVector c n0) (hga : Good a mem.length) (hgb : Good b mem.length) (hgc : Good c mem.length) (A : Int → Int → α) (B C : Int → α)
    (hA : Entries a n0 n1 mem A) (hB : Elements b n1 mem B) (hC : Elements c n0 mem C) (hva : conjA = true → a.lay.so = [0, 1]) (hsa : Separate a c) (hsb : Separate b c) :
    ∃ mem', gemv cj alpha ⟨a, conjA⟩ b beta c mem = .ok mem' ∧
      Updated c (fun idx => some (alpha * sumTo n1 (fun l => mayConj cj conjA A (idx.getD 0 0) l * B l) + beta * C (idx.getD 0 0))) mem mem' := by
  obtain ⟨fa, la, hla, hf⟩ := ha.lmat hga
  obtain ⟨sb, hlb⟩ := hb.lvec hgb
  obtain ⟨sc, hlc⟩ := hc.lvec hgc
  refine gemv_eq cj alpha beta (x := ⟨a, conjA⟩) p0 p1 hla hlb hlc hA hB hC ?_ hsa hsb
  intro h
  have h' := hva h
  cases fa with
  | false => rfl
  | true => rw [hf.mp rfl] at h'; exact absurd h' (by decide)

/-- C42: a conjugated matrix in Fortran order does not compile. -/
theorem C42_gemv_rejects [CommSemiring α] [DecidableEq α] (cj : α → α) (alpha beta : α) (a b c : View) (n0 n1 : Int) (mem : List α) (ha : BlasMatrix a n0 n1) (hga : Good a mem.length)
    (h : a.lay.so = [1, 0]) : gemv cj alpha ⟨a, true⟩ b beta c mem = .error .compile := by
  obtain ⟨fa, la, hla, hf⟩ := ha.lmat hga
  obtain rfl := hf.mpr h
  simp only [gemv, hla.hasF_eq]
  rfl

/-- The new array at the end of memory as a vector. -/
theorem fresh_lvec {m : Int} {base : Nat} {l : IdxMap} (hm : Fresh [0] [m] base l) (h0 : 0 ≤ m) (b : m < 2147483648) {n : Nat} (hn : base + (prod [m]).toNat ≤ n) : LVec ⟨(base : Int), l⟩ m n 1 := by
  have hs : ∃ s0, l.str = [s0] := by
    have := hm.wf.str_len
    rw [hm.len_eq] at this
    match hv : l.str, this with
    | [a], _ => exact ⟨a, rfl⟩
  obtain ⟨s0, hs⟩ := hs
  have hd := hm.dense
  unfold Dense EvenlySpaced at hd
  rw [hm.len_eq, hm.so_eq, hs] at hd
  refine ⟨hm.good n hn, hm.len_eq, ?_, by decide, by decide, h0, b⟩
  show l.str = [1]
  rw [hs]
  simpa [memOrder, dense, prod] using hd

/-- A new vector filled from a right-hand side. -/
theorem newVector_eq (junk : α) {n : Int} (p0 : 0 ≤ n) (b0 : n < 2147483648) {rhs : Rhs α} {x : Int → α} {mem0 mem : List α}
    (hy : Yields rhs [n] mem0 (fun idx => x (idx.getD 0 0))) (he : Ext mem0 mem) :
    ∃ r mem1 mem', fresh junk [0] [n] mem = some (r, mem1) ∧ assign .host .host true r rhs mem1 = some (some mem') ∧ Ext mem mem' ∧ LVec r n mem'.length 1 ∧ Elements r n mem' x ∧
      ∀ idx, InRange [n] idx → (mem.length : Int) ≤ addr r idx := by
  obtain ⟨m, hm, e1, hlen⟩ := fresh_eq junk (so := [0]) (len := [n]) (by decide) rfl (by intro y hy; simp at hy; omega) mem
  obtain ⟨mem3, e2, hu⟩ := assign_new (a := ⟨(mem.length : Int), m⟩) (mem2 := mem ++ List.replicate m.size.toNat junk) hy (hm.good _ (by rw [hlen])) hm.one hm.len_eq (by simp)
    (fun idx hi => by have := (hm.above idx hi).1; have := he.grow; omega) (fun k hk => by rw [val_append_left _ (by have := he.grow; omega), he.old k hk]) (by have := he.grow; rw [hlen]; omega)
  refine ⟨⟨(mem.length : Int), m⟩, _, mem3, e1, e2, ⟨by rw [hu.size, hlen]; omega, fun k hk => ?_⟩, ?_, ?_, fun idx hi => (hm.above idx hi).1⟩
  · rw [hu.frame k, val_append_left _ hk]
    rintro ⟨idx, hi, h⟩
    rw [show (View.mk (mem.length : Int) m).lay.len = _ from hm.len_eq] at hi
    have := (hm.above idx hi).1
    omega
  · rw [hu.size, hlen]; exact fresh_lvec hm p0 b0 (le_refl _)
  · intro i a b
    rw [hu.elems [i] (by rw [show (View.mk (mem.length : Int) m).lay.len = _ from hm.len_eq, inRange1]; exact ⟨i, rfl, a, b⟩)]
    rfl

theorem matvecMatrix_eq (cj : α → α) (junk : α) (o : Operand α) {n0 n1 : Int} (p0 : 0 < n0) (p1 : 0 < n1) (b0 : n0 < 2147483648) (b1 : n1 < 2147483648) {mem0 mem : List α} {A : Int → Int → α}
    {res : View} (h : OperandOK cj o n0 n1 mem0 A) (he : Ext mem0 mem) (hres : Fits' res mem.length) (hab : ∀ idx, InRange res.lay.len idx → (mem0.length : Int) ≤ addr res idx) :
    ∃ x mem', matvecMatrix cj junk o mem = some (x, mem') ∧ Ext mem mem' ∧ Ready cj x n0 n1 mem' A res ∧ (x.conj = true → hasF x.v = false) := by
  obtain ⟨x, reg, mem', e, hx, hr⟩ := asContainer_eq cj junk false o p0 p1 b0 b1 h he hres hab
  have e : asContainer junk [0, 1] o mem = some ((x, reg), mem') := e
  by_cases hc : (x.conj && hasF x.v) = true
  · obtain ⟨x', mem2, e2, h2, r2, c2⟩ := makeRegular_eq cj junk reg p0 p1 hr (fun idx hi => ⟨(hres idx hi).1, by have := (hres idx hi).2; have := hx.grow; omega⟩)
    refine ⟨x', mem2, ?_, hx.trans h2, r2, by simp [c2]⟩
    simp only [matvecMatrix, e, Option.bind_eq_bind, Option.bind_some]
    rw [if_pos hc, e2]
  · refine ⟨x, mem', ?_, hx, hr, ?_⟩
    · simp only [matvecMatrix, e, Option.bind_eq_bind, Option.bind_some]
      rw [if_neg hc]
    · intro h1
      cases hh : hasF x.v with
      | false => rfl
      | true => exact absurd (by rw [h1, hh]; rfl) hc

/-- C42, `matvecmul`: whatever the layout, conjugation and kind of the operands, the product compiles and gives a new vector of sums of products; old memory is unchanged. -/
theorem C42_matvecmul_partial [CommSemiring α] [DecidableEq α] (cj : α → α) (junk : α) (l : Operand α) (r : Rhs α) (n0 n1 : Int) (p0 : 0 < n0) (p1 : 0 < n1) (b0 : n0 < 2147483648)
    (b1 : n1 < 2147483648) (mem : List α) (A : Int → Int → α) (B : Int → α) (hl : OperandOK cj l n0 n1 mem A) (hr : Yields r [n1] mem (fun idx => B (idx.getD 0 0))) :
    ∃ res mem', matvecmul cj junk l n1 r mem = .ok (res, mem') ∧ res.lay.len = [n0] ∧ Good res mem'.length ∧ Elements res n0 mem' (fun i => sumTo n1 (fun k => A i k * B k)) ∧ Ext mem mem' ∧
      ∀ idx, InRange [n0] idx → (mem.length : Int) ≤ addr res idx := by
  have h0 : l.rows = some n0 := by
    cases l with
    | mat x _ => show rd x.v.lay.len 0 = _; rw [hl.1.len]; rfl
    | other _ _ m0 _ _ => show some m0 = _; rw [hl.1]
  obtain ⟨m, hm, e1, hlen⟩ := fresh_eq junk (so := [0]) (len := [n0]) (by decide) rfl (by intro y hy; simp at hy; omega) mem
  have hm1 : Ext mem (mem ++ List.replicate m.size.toNat junk) := ⟨by rw [hlen]; omega, fun k hk => val_append_left _ hk⟩
  have hres := fresh_lvec hm (by omega) b0 (n := (mem ++ List.replicate m.size.toNat junk).length) (by rw [hlen])
  generalize hM1 : mem ++ List.replicate m.size.toNat junk = mem1 at e1 hlen hm1 hres
  have hab : ∀ idx, InRange (View.mk (mem.length : Int) m).lay.len idx → (mem.length : Int) ≤ addr ⟨(mem.length : Int), m⟩ idx := fun idx hi => (hm.above idx (by rw [← hm.len_eq]; exact hi)).1
  obtain ⟨x, mem2, e2, x2, ready, hF⟩ := matvecMatrix_eq cj junk l p0 p1 b0 b1 hl hm1 hres.good.fits hab
  have hres2 := hres.mono x2.grow
  obtain ⟨b, mem3, mem4, e3, e4, x4, lb, hB, hbab⟩ := newVector_eq junk (by omega) b1 hr (hm1.trans x2)
  have hres4 := hres2.mono x4.grow
  obtain ⟨⟨fx, ldx, lx⟩, ⟨A', hA', hAA⟩, sx⟩ := ready.ext x4
  have sb : Separate b ⟨(mem.length : Int), m⟩ := separate_above lb.len hbab hres2.good.fits
  have hC : ∃ C : Int → α, Elements ⟨(mem.length : Int), m⟩ n0 mem4 C := by
    refine ⟨fun i => (val mem4 (addr ⟨(mem.length : Int), m⟩ [i])).getD 0, fun i a b => ?_⟩
    obtain ⟨z, hz⟩ := val_isSome (hres4.good.fits [i] (by rw [hres4.len, inRange1]; exact ⟨i, rfl, a, b⟩))
    simp only [hz, Option.getD]
  obtain ⟨C, hC⟩ := hC
  obtain ⟨mem5, e5, hu⟩ := gemv_eq cj 1 0 p0 p1 lx lb hres4 hA' hB hC (fun h => by have := hF h; rwa [lx.hasF_eq] at this) sx sb
  have hx : Ext mem mem4 := hm1.trans (x2.trans x4)
  refine ⟨⟨(mem.length : Int), m⟩, mem5, ?_, hm.len_eq, by rw [hu.size]; exact hres4.good, ?_, ⟨by rw [hu.size]; exact hx.grow, ?_⟩, fun idx hi => (hm.above idx hi).1⟩
  · simp only [matvecmul, h0, e1, e2, e3, e4, e5, orUb, bind, Except.bind, pure, Except.pure, Option.bind]
  · intro i a b
    rw [hu.elems [i] (by rw [hres4.len, inRange1]; exact ⟨i, rfl, a, b⟩)]
    simp only [List.getD_cons_zero, one_mul, zero_mul, add_zero]
    congr 1
    apply sumTo_congr
    intro k k0 k1
    rw [hAA i k a b k0 k1]
  · intro k hk
    rw [hu.frame k, hx.old k hk]
    rintro ⟨idx, hi, he⟩
    have := hab idx hi
    omega

/-- C42, the generic product: `c` becomes `(1 + beta) * alpha * A * b`: the old content of `c` is lost and `beta` scales the product (see `C42_generic_beta_witness`).  For `beta = 0`, the only
value used by the library, this is right. -/
theorem C42_generic_partial [CommSemiring α] (alpha beta : α) (n0 n1 : Int) (a b : List Int → List α → Option α) (c : View) (mem : List α) (hlen : c.lay.len = [n0])
    (hc : Good c mem.length) (h1 : OneToOne c) (A : Int → Int → α) (B : Int → α) (ha : ∀ i k, 0 ≤ i → i < n0 → 0 ≤ k → k < n1 → AwayFrom c mem a [i, k] (A i k))
    (hb : ∀ k, 0 ≤ k → k < n1 → AwayFrom c mem b [k] (B k)) :
    ∃ mem', gemvGeneric alpha n0 n1 a b beta c mem = some mem' ∧ Updated c (fun idx => some ((1 + beta) * (alpha * sumTo n1 (fun k => A (idx.getD 0 0) k * B k)))) mem mem' := by
  obtain ⟨mem1, e1, u1⟩ : ∃ mem1, elementwise c (.expr (fun _ _ => some (0 : α))) mem = some mem1 ∧ Updated c (fun _ => some 0) mem mem1 := by
    obtain ⟨mem1, e, hu⟩ := assign_enum hc.fits h1 (enum_box c) (fun _ _ => some (0 : α)) (fun _ _ _ _ _ _ _ => rfl) (fun _ _ => ⟨0, rfl⟩)
    exact ⟨mem1, by rw [elementwise_eq hc.wf hc.flags]; exact e, hu⟩
  have hin : ∀ i, 0 ≤ i → i < n0 → InRange c.lay.len [i] := fun i i0 i1 => by rw [hlen, inRange1]; exact ⟨i, rfl, i0, i1⟩
  have hinj : ∀ i j, 0 ≤ i → i < n0 → 0 ≤ j → j < n0 → i ≠ j → addr c [i] ≠ addr c [j] := by
    intro i j i0 i1 j0 j1 hne he
    have := h1 [i] [j] (hin i i0 i1) (hin j j0 j1) he
    simp at this
    exact hne this
  -- one store
  have hst : ∀ (m : List α) (i : Int) (y : α), m.length = mem.length → 0 ≤ i → i < n0 → ∃ m', store c [i] y m = some m' ∧ m'.length = mem.length ∧ val m' (addr c [i]) = some y ∧
      ∀ k, k ≠ addr c [i] → val m' k = val m k := by
    intro m i y hl i0 i1
    obtain ⟨m', e, hl', hv, hf⟩ := wrInt_spec (mem := m) (k := addr c [i]) (by rw [hl]; exact hc.fits _ (hin i i0 i1)) y
    refine ⟨m', ?_, by rw [hl', hl], hv, hf⟩
    rw [store, element_eq hc.wf hc.flags (hin i i0 i1)]
    exact e
  have hlo : ∀ (m : List α) (i : Int), m.length = mem.length → 0 ≤ i → i < n0 → load c [i] m = val m (addr c [i]) := fun m i hl i0 i1 => load_eq (by rw [hl]; exact hc) (hin i i0 i1)
  -- the row `i`
  have hrow : ∀ (i : Int) (m : List α), 0 ≤ i → i < n0 → m.length = mem.length → (∀ k, ¬ Occupies c k → val m k = val mem k) → val m (addr c [i]) = some 0 →
      ∃ m', forLoop n1 (fun k mem => do
        let old ← load c [i] mem
        let x ← a [i, k] mem
        let y ← b [k] mem
        store c [i] (old + alpha * x * y) mem) m = some m' ∧ m'.length = mem.length ∧ val m' (addr c [i]) = some (alpha * sumTo n1 (fun k => A i k * B k)) ∧ ∀ k, k ≠ addr c [i] → val m' k = val m k := by
    intro i m i0 i1 hl hf hz
    obtain ⟨m', e, p1, p2, p3⟩ := foldlM_range_inv (f := fun (mem : List α) (k : Nat) => do
        let old ← load c [i] mem
        let x ← a [i, Int.ofNat k] mem
        let y ← b [Int.ofNat k] mem
        store c [i] (old + alpha * x * y) mem)
      (fun k m' => m'.length = mem.length ∧ val m' (addr c [i]) = some (∑ l ∈ Finset.range k, alpha * A i l * B l) ∧ ∀ k, k ≠ addr c [i] → val m' k = val m k) n1.toNat m
      ⟨hl, by simpa using hz, fun _ _ => rfl⟩ (by
        rintro k s hk ⟨q1, q2, q3⟩
        have hocc : ∀ p, ¬ Occupies c p → val s p = val mem p := fun p hp => by
          rw [q3 p (fun h => hp ⟨[i], hin i i0 i1, h.symm⟩), hf p hp]
        obtain ⟨s', e', l', v', f'⟩ := hst s i (∑ l ∈ Finset.range k, alpha * A i l * B l + alpha * A i k * B k) q1 i0 i1
        refine ⟨s', ?_, l', by rw [v', Finset.sum_range_succ], fun p hp => by rw [f' p hp, q3 p hp]⟩
        simp only [hlo s i q1 i0 i1, q2, ha i k i0 i1 (by omega) (by omega) s hocc, hb k (by omega) (by omega) s hocc, Int.ofNat_eq_natCast, Option.bind_eq_bind, Option.bind_some]
        exact e')
    refine ⟨m', e, p1, ?_, p3⟩
    rw [p2]
    unfold sumTo
    rw [Finset.mul_sum]
    congr 1
    exact Finset.sum_congr rfl (fun k _ => mul_assoc _ _ _)
  obtain ⟨mem2, e2, q1, q2, q3, q4⟩ := foldlM_range_inv (f := fun (mem : List α) (i : Nat) => do
      let mem ← forLoop n1 (fun k mem => do
        let old ← load c [Int.ofNat i] mem
        let x ← a [Int.ofNat i, k] mem
        let y ← b [k] mem
        store c [Int.ofNat i] (old + alpha * x * y) mem) mem
      let old ← load c [Int.ofNat i] mem
      store c [Int.ofNat i] (old + beta * old) mem)
    (fun k m' => m'.length = mem.length ∧ (∀ i : Int, 0 ≤ i → i < k → i < n0 → val m' (addr c [i]) = some ((1 + beta) * (alpha * sumTo n1 (fun k => A i k * B k)))) ∧
      (∀ i : Int, k ≤ i → i < n0 → val m' (addr c [i]) = some 0) ∧ ∀ k, ¬ Occupies c k → val m' k = val mem k) n0.toNat mem1
    ⟨u1.size, fun i i0 i1 => by omega, fun i i0 i1 => u1.elems [i] (hin i (by omega) i1), u1.frame⟩ (by
      rintro k s hk ⟨q1, q2, q3, q4⟩
      have k1 : (k : Int) < n0 := by omega
      obtain ⟨m', e', l', v', f'⟩ := hrow k s (by omega) k1 q1 q4 (q3 k (le_refl _) k1)
      obtain ⟨m2, e2, l2, v2, f2⟩ := hst m' k (alpha * sumTo n1 (fun l => A k l * B l) + beta * (alpha * sumTo n1 (fun l => A k l * B l))) l' (by omega) k1
      refine ⟨m2, ?_, l2, ?_, ?_, ?_⟩
      · have e' := e'
        simp only [Int.ofNat_eq_natCast, Option.bind_eq_bind] at e' ⊢
        rw [e']
        simp only [Option.bind_some, hlo m' k l' (by omega) k1, v']
        exact e2
      · intro i i0 i1 i2
        by_cases hik : i = k
        · subst hik; rw [v2]; congr 1; ring
        · rw [f2 _ (hinj i k i0 i2 (by omega) k1 hik), f' _ (hinj i k i0 i2 (by omega) k1 hik), q2 i i0 (by omega) i2]
      · intro i i0 i1
        have hik : i ≠ k := by omega
        rw [f2 _ (hinj i k (by omega) i1 (by omega) k1 hik), f' _ (hinj i k (by omega) i1 (by omega) k1 hik), q3 i (by omega) i1]
      · intro p hp
        have : p ≠ addr c [(k : Int)] := fun h => hp ⟨[(k : Int)], hin k (by omega) k1, h.symm⟩
        rw [f2 p this, f' p this, q4 p hp])
  refine ⟨mem2, ?_, q1, ?_, q4⟩
  · simp only [gemvGeneric, e1, Option.bind_eq_bind, Option.bind_some]
    exact e2
  · intro idx hi
    rw [hlen, inRange1] at hi
    obtain ⟨i, rfl, i0, i1⟩ := hi
    exact q2 i i0 (by omega) i1

/-! ### C43 -/

theorem gerFortran_eq [CommSemiring α] (alpha : α) {x y m : View} {n0 n1 : Int} {mem : List α} {sx sy lm : Int} (hx : LVec x n0 mem.length sx) (hy : LVec y n1 mem.length sy)
    (hm : LMat m n0 n1 mem.length true lm) {X Y : Int → α} {M : Int → Int → α} (hX : Elements x n0 mem X) (hY : Elements y n1 mem Y) (hM : Entries m n0 n1 mem M)
    (hsx : Separate x m) (hsy : Separate y m) :
    ∃ mem', gerFortran alpha x y m mem = .ok mem' ∧ Updated m (fun idx => some (M (idx.getD 0 0) (idx.getD 1 0) + alpha * X (idx.getD 0 0) * Y (idx.getD 1 0))) mem mem' := by
  have hp : ∀ i j, m.off + i + j * lm = addr m [i, j] := by intro i j; rw [hm.addr_eq]; simp; ring
  obtain ⟨mem', e, hu⟩ := write_matrix (c := m) (n0 := n0) (n1 := n1) (mem := mem) hm.len hm.good.fits hm.one (f := gerEntry n0 n1 alpha x.off sx y.off sy m.off lm mem)
    (g := fun i j => M i j + alpha * X i * Y j) (by
      intro i j a b c d
      simp only [gerEntry, hx.vecPos_eq, hy.vecPos_eq, hp, rdInt_eq, hX i a b, hY j c d, hM i j a b c d, Option.bind_eq_bind, Option.bind_some]
      rfl)
  refine ⟨mem', ?_, hu⟩
  have r0 : rd m.lay.len 0 = some n0 := by rw [hm.len]; rfl
  have r1 : rd m.lay.len 1 = some n1 := by rw [hm.len]; rfl
  have hov : overlap (vecAddrs x.off n0 sx ++ vecAddrs y.off n1 sy) (matAddrs n0 n1 (fun i j => m.off + i + j * lm)) = false := by
    rw [overlap_false]
    intro k hk hk2
    obtain ⟨i', j', a', b', c', d', rfl⟩ := mem_matAddrs.mp hk2
    rw [hp] at hk
    rcases List.mem_append.mp hk with hk | hk
    · obtain ⟨i, a, b, he⟩ := mem_vecAddrs.mp hk
      rw [hx.vecPos_eq] at he
      exact hsx [i] [i', j'] (by rw [hx.len, inRange1]; exact ⟨i, rfl, a, b⟩) (by rw [hm.len, inRange2]; exact ⟨i', j', rfl, a', b', c', d'⟩) he
    · obtain ⟨i, a, b, he⟩ := mem_vecAddrs.mp hk
      rw [hy.vecPos_eq] at he
      exact hsy [i] [i', j'] (by rw [hy.len, inRange1]; exact ⟨i, rfl, a, b⟩) (by rw [hm.len, inRange2]; exact ⟨i', j', rfl, a', b', c', d'⟩) he
  simp only [gerFortran, r0, r1, hx.inc, hy.inc, hm.ld_eq, orUb, bind, Except.bind, hx.inc32, hy.inc32, hx.len32, hy.len32, f77ger]
  have := hx.pos; have := hy.pos; have := hm.pos; have hw := hm.wide; have := hm.nn0; have := hm.nn1
  simp only [if_true] at hw
  rw [if_neg (by rintro (h | h | h | h | h) <;> omega), hov]
  simp only [Bool.false_eq_true, if_false]
  have e' : ((pairs n0 n1).mapM (gerEntry n0 n1 alpha x.off sx y.off sy m.off lm mem)).bind (fun ws => storeAll ws mem) = some mem' := e
  rw [e']

theorem ger_eq [CommSemiring α] (alpha : α) {x y m : View} {n0 n1 : Int} {mem : List α} {sx sy lm : Int} {f : Bool} (hx : LVec x n0 mem.length sx) (hy : LVec y n1 mem.length sy)
    (hm : LMat m n0 n1 mem.length f lm) {X Y : Int → α} {M : Int → Int → α} (hX : Elements x n0 mem X) (hY : Elements y n1 mem Y) (hM : Entries m n0 n1 mem M)
    (hsx : Separate x m) (hsy : Separate y m) :
    ∃ mem', ger alpha x y m mem = .ok mem' ∧ Updated m (fun idx => some (M (idx.getD 0 0) (idx.getD 1 0) + alpha * X (idx.getD 0 0) * Y (idx.getD 1 0))) mem mem' := by
  cases f with
  | true =>
    obtain ⟨mem', e, hu⟩ := gerFortran_eq alpha hx hy hm hX hY hM hsx hsy
    exact ⟨mem', by rw [ger, hm.hasC_eq]; exact e, hu⟩
  | false =>
    obtain ⟨mv, em, hm', am⟩ := hm.transpose
    have hsep : ∀ {z : View} {a : Int}, z.lay.len = [a] → Separate z m → Separate z mv := by
      intro z a hz hs idx jdx hi hj
      rw [hm'.len, inRange2] at hj
      obtain ⟨i', j', rfl, q⟩ := hj
      rw [am]
      exact hs idx [j', i'] hi (by rw [hm.len, inRange2]; exact ⟨j', i', rfl, q.2.2.1, q.2.2.2, q.1, q.2.1⟩)
    obtain ⟨mem', e, hu⟩ := gerFortran_eq alpha hy hx hm' hY hX (fun i j a b c d => by rw [am]; exact hM j i c d a b) (hsep hy.len hsy) (hsep hx.len hsx)
    refine ⟨mem', ?_, hu.size, ?_, ?_⟩
    · rw [ger, hm.hasC_eq]
      simp only [Bool.not_false, if_true, em, orUb, bind, Except.bind]
      exact e
    · intro idx hi
      rw [hm.len, inRange2] at hi
      obtain ⟨i, j, rfl, a, b, c', d⟩ := hi
      have := hu.elems [j, i] (by rw [hm'.len, inRange2]; exact ⟨j, i, rfl, c', d, a, b⟩)
      rw [am] at this
      rw [this]
      simp only [List.getD_cons_zero, List.getD_cons_succ]
      congr 1
      ring
    · intro k hk
      apply hu.frame
      rintro ⟨idx, hi, he⟩
      rw [hm'.len, inRange2] at hi
      obtain ⟨i, j, rfl, a, b, c', d⟩ := hi
      rw [am] at he
      exact hk ⟨[j, i], by rw [hm.len, inRange2]; exact ⟨j, i, rfl, c', d, a, b⟩, he⟩

/-- C43, `ger`: `m` becomes `m + alpha * x * y^T` for both orders, any leading dimension and any positive strides of the vectors; nothing else changes. -/
theorem C43_ger [CommSemiring α] (alpha : α) (x y m : View) (n0 n1 : Int) (mem : List α) (hx : BlasVector x n0) (hy : BlasVector y n1) (hm : BlasMatrix m n0 n1) (hgx : Good x mem.length)
    (hgy : Good y mem.length) (hgm : Good m mem.length) (X Y : Int → α) (M : Int → Int → α) (hX : Elements x n0 mem X) (hY : Elements y n1 mem Y) (hM : Entries m n0 n1 mem M)
    (hsx : Separate x m) (hsy : Separate y m) :
    ∃ mem', ger alpha x y m mem = .ok mem' ∧ Updated m (fun idx => some (M (idx.getD 0 0) (idx.getD 1 0) + alpha * X (idx.getD 0 0) * Y (idx.getD 1 0))) mem mem' := by
  obtain ⟨sx, lx⟩ := hx.lvec hgx
  obtain ⟨sy, ly⟩ := hy.lvec hgy
  obtain ⟨f, lm, hl, -⟩ := hm.lmat hgm
  exact ger_eq alpha lx ly hl hX hY hM hsx hsy

theorem fresh_addr {len : List Int} {base : Nat} {m : IdxMap} (hm : Fresh (Perm.identity len.length) len base m) {idx : List Int} (hi : idx.length = len.length) : addr ⟨(base : Int), m⟩ idx = base + lin len idx := by
  have hd : EvenlySpaced m 1 := hm.dense
  rw [EvenlySpaced, hm.so_eq, SymGrp.memOrder_identity (by rw [hm.wf.str_len, hm.len_eq]), SymGrp.memOrder_identity (by rw [hm.len_eq]), hm.len_eq] at hd
  simp only [one_mul, List.map_id'] at hd
  rw [addr]
  simp only
  rw [hd, dot_dense len idx hi]

/-- A block seen as a vector. -/
theorem reshape_lvec {p : Policy} {v : View} {n : Nat} (h : Mpi.Blk v n) (hp : PolicyAt 1 p) (hpos : 0 < prod v.lay.len) (hb : prod v.lay.len < 2147483648) :
    ∃ w, reshape p v [v.lay.size] = some w ∧ w.off = v.off ∧ LVec w (prod v.lay.len) n 1 := by
  obtain ⟨m, h1, h2, hw, hd, -⟩ := LayoutTransforms.ofPolicy_spec (p := p) (len := [v.lay.size]) hp
  rw [IdxMap.size_eq] at h1 h2
  have hso : m.so = [0] := by
    have hl := hw.so_len
    rw [h2] at hl
    have hperm := hw.perm
    match hs : m.so, hl with
    | [a], _ =>
      rw [hs] at hperm
      have := hperm.mem_iff (a := a)
      simp at this
      rw [this]
  have hs : ∃ s0, m.str = [s0] := by
    have := hw.str_len
    rw [h2] at this
    match hv : m.str, this with
    | [a], _ => exact ⟨a, rfl⟩
  obtain ⟨s0, hs⟩ := hs
  have hd' : EvenlySpaced m 1 := hd
  unfold EvenlySpaced at hd'
  rw [h2, hso, hs] at hd'
  have hs1 : s0 = 1 := by simpa [memOrder, dense, prod] using hd'
  subst hs1
  obtain ⟨r0, r1⟩ := h.range hpos
  refine ⟨⟨v.off, m⟩, by rw [reshape, IdxMap.size_eq, h1]; rfl, rfl, ⟨hw, IdxMap.flagsOK_of_dense hd, ?_, ?_⟩, h2, hs, by decide, by decide, by omega, hb⟩
  · intro x hx
    rw [show (View.mk v.off m).lay.len = _ from h2] at hx
    simp at hx; omega
  · intro idx hi
    rw [show (View.mk v.off m).lay.len = _ from h2, inRange1] at hi
    obtain ⟨i, rfl, i0, i1⟩ := hi
    rw [addr, show (View.mk v.off m).lay.str = _ from hs]
    simp only [Spec.dot]
    omega

/-- C43, `outer_product`, as computed for contiguous arrays in any memory order: the element at memory position `P` of `a` times the one at memory position `Q` of `b` goes to the position `(P, Q)`
of the result in row-major order. -/
theorem C43_outer_positions [CommSemiring α] (pa pb : Policy) (a b : View) (mem : List α) (ha : Mpi.Blk a mem.length) (hb : Mpi.Blk b mem.length) (hpa : PolicyAt 1 pa) (hpb : PolicyAt 1 pb)
    (sa : 0 < prod a.lay.len) (sb : 0 < prod b.lay.len) (ba : prod a.lay.len < 2147483648) (bb : prod b.lay.len < 2147483648) :
    ∃ res mem', outerProduct pa pb a b mem = .ok (res, mem') ∧ res.lay.len = a.lay.len ++ b.lay.len ∧ Good res mem'.length ∧ Ext mem mem' ∧
      (∀ idx, InRange res.lay.len idx → (mem.length : Int) ≤ addr res idx) ∧
      ∀ ia ib ja jb x y, InRange a.lay.len ia → InRange b.lay.len ib → InRange a.lay.len ja → InRange b.lay.len jb → lin a.lay.len ia = Mpi.pos a ja → lin b.lay.len ib = Mpi.pos b jb →
        val mem (addr a ja) = some x → val mem (addr b jb) = some y → val mem' (addr res (ia ++ ib)) = some (x * y) := by
  have hn : NonNeg (a.lay.len ++ b.lay.len) := by
    intro l hl
    rcases List.mem_append.mp hl with h | h
    · exact ha.good.nonneg l h
    · exact hb.good.nonneg l h
  obtain ⟨m, hm, e1, hlen⟩ := fresh_eq (0 : α) (so := Perm.identity (a.lay.len ++ b.lay.len).length) (len := a.lay.len ++ b.lay.len) (SymGrp.isPerm_identity _) (by simp [Perm.identity]) hn mem
  have hsz : m.size = prod a.lay.len * prod b.lay.len := by rw [hm.size_eq, prod_append]
  have hx1 : Ext mem (mem ++ List.replicate m.size.toNat 0) := ⟨by rw [hlen]; omega, fun k hk => val_append_left _ hk⟩
  have hval : ∀ k : Int, (mem.length : Int) ≤ k → k < mem.length + prod a.lay.len * prod b.lay.len → val (mem ++ List.replicate m.size.toNat (0 : α)) k = some 0 := by
    intro k k0 k1
    unfold val
    rw [if_neg (by omega), List.getElem?_append_right (by omega), List.getElem?_replicate, if_pos (by rw [hsz]; omega)]
  have hpr : 0 < prod a.lay.len * prod b.lay.len := Int.mul_pos sa sb
  rw [prod_append] at hlen
  generalize mem ++ List.replicate m.size.toNat (0 : α) = mem1 at e1 hlen hx1 hval
  have ha1 : Mpi.Blk a mem1.length := ⟨ha.good.mono hx1.grow, ha.dense, ha.ne⟩
  have hb1 : Mpi.Blk b mem1.length := ⟨hb.good.mono hx1.grow, hb.dense, hb.ne⟩
  obtain ⟨av, ea, oa, la⟩ := reshape_lvec ha1 hpa sa ba
  obtain ⟨bv, eb, ob, lb⟩ := reshape_lvec hb1 hpb sb bb
  obtain ⟨ra0, ra1⟩ := ha.range sa
  obtain ⟨rb0, rb1⟩ := hb.range sb
  -- the result as a matrix
  obtain ⟨M, hM, eM⟩ : ∃ M, reshape .C ⟨(mem.length : Int), m⟩ [a.lay.size, b.lay.size] = some ⟨(mem.length : Int), M⟩ ∧
      LMat ⟨(mem.length : Int), M⟩ (prod a.lay.len) (prod b.lay.len) mem1.length false (prod b.lay.len) := by
    obtain ⟨M, h1, h2, hw, hd, hso, -⟩ := LayoutTransforms.ofPolicy_spec (p := .C) (len := [prod a.lay.len, prod b.lay.len]) trivial
    refine ⟨M, by rw [reshape, IdxMap.size_eq, IdxMap.size_eq, h1]; rfl, ?_⟩
    rw [h2] at hso
    have hso : M.so = [0, 1] := hso
    have hs : ∃ s0 s1, M.str = [s0, s1] := by
      have := hw.str_len
      rw [h2] at this
      match hv : M.str, this with
      | [a, b], _ => exact ⟨a, b, rfl⟩
    obtain ⟨s0, s1, hs⟩ := hs
    have hd' : EvenlySpaced M 1 := hd
    unfold EvenlySpaced at hd'
    rw [h2, hso, hs] at hd'
    have hs1 : M.str = [prod b.lay.len, 1] := by rw [hs]; simpa [memOrder, dense, prod] using hd'
    refine ⟨⟨hw, IdxMap.flagsOK_of_dense hd, ?_, ?_⟩, h2, hso, hs1, by omega, by simp, bb, by omega, by omega, ba, bb⟩
    · rw [show (View.mk (mem.length : Int) M).lay.len = _ from h2]; exact nonneg2 (by omega) (by omega)
    · intro idx hi
      rw [show (View.mk (mem.length : Int) M).lay.len = _ from h2, inRange2] at hi
      obtain ⟨i, j, rfl, i0, i1, j0, j1⟩ := hi
      rw [addr, show (View.mk (mem.length : Int) M).lay.str = _ from hs1]
      simp only [Spec.dot]
      have : 0 ≤ prod b.lay.len * i := Int.mul_nonneg (by omega) i0
      have : prod b.lay.len * i ≤ prod b.lay.len * (prod a.lay.len - 1) := Int.mul_le_mul_of_nonneg_left (by omega) (by omega)
      have : prod b.lay.len * (prod a.lay.len - 1) = prod a.lay.len * prod b.lay.len - prod b.lay.len := by ring
      omega
  have amat : ∀ i j, addr ⟨(mem.length : Int), M⟩ [i, j] = mem.length + (j + i * prod b.lay.len) := by intro i j; rw [eM.addr_eq]; simp
  have hbound : ∀ i j, 0 ≤ i → i < prod a.lay.len → 0 ≤ j → j < prod b.lay.len → (0 ≤ j + i * prod b.lay.len ∧ j + i * prod b.lay.len < prod a.lay.len * prod b.lay.len) := by
    intro i j i0 i1 j0 j1
    have : 0 ≤ i * prod b.lay.len := Int.mul_nonneg i0 (by omega)
    have : i * prod b.lay.len ≤ (prod a.lay.len - 1) * prod b.lay.len := Int.mul_le_mul_of_nonneg_right (by omega) (by omega)
    have : (prod a.lay.len - 1) * prod b.lay.len = prod a.lay.len * prod b.lay.len - prod b.lay.len := by ring
    omega
  have hsep : ∀ {w : View} {k : Int}, LVec w k mem1.length 1 → w.off + k ≤ mem.length → Separate w ⟨(mem.length : Int), M⟩ := by
    intro w k hw hk idx jdx hi hj
    rw [hw.len, inRange1] at hi
    rw [eM.len, inRange2] at hj
    obtain ⟨i, rfl, i0, i1⟩ := hi
    obtain ⟨i', j', rfl, a0, a1, b0, b1⟩ := hj
    rw [hw.addr_eq, amat]
    have := hbound i' j' a0 a1 b0 b1
    omega
  have helem : ∀ {w : View} {k : Int}, LVec w k mem1.length 1 → Elements w k mem1 (fun i => (val mem1 (w.off + i)).getD 0) := by
    intro w k hw i i0 i1
    have hf := hw.good.fits [i] (by rw [hw.len, inRange1]; exact ⟨i, rfl, i0, i1⟩)
    rw [hw.addr_eq] at hf ⊢
    rw [mul_one] at hf ⊢
    obtain ⟨z, hz⟩ := val_isSome hf
    simp only [hz, Option.getD]
  obtain ⟨mem', eg, hu⟩ := ger_eq (1 : α) la lb eM (helem la) (helem lb) (M := fun _ _ => 0) (fun i j i0 i1 j0 j1 => by
      rw [amat]
      have := hbound i j i0 i1 j0 j1
      exact hval _ (by omega) (by omega)) (hsep la (by rw [oa]; exact ra1)) (hsep lb (by rw [ob]; exact rb1))
  refine ⟨⟨(mem.length : Int), m⟩, mem', ?_, hm.len_eq, by rw [hu.size]; exact hm.good _ (by rw [hlen, prod_append]), ⟨by rw [hu.size]; exact hx1.grow, fun k hk => ?_⟩, ?_, ?_⟩
  · simp only [outerProduct, Mpi.isContiguous_of_dense ha.good.wf ha.dense ha.ne ha.good.nonneg, Mpi.isContiguous_of_dense hb.good.wf hb.dense hb.ne hb.good.nonneg, e1, ea, eb, hM, eg, orUb, bind, Except.bind, pure,
      Except.pure, Bool.not_true, Bool.false_eq_true, if_false]
  · rw [hu.frame k, hx1.old k hk]
    rintro ⟨idx, hi, he⟩
    rw [eM.len, inRange2] at hi
    obtain ⟨i, j, rfl, i0, i1, j0, j1⟩ := hi
    rw [amat] at he
    have := hbound i j i0 i1 j0 j1
    omega
  · intro idx hi
    exact (hm.above idx (by rw [← hm.len_eq]; exact hi)).1
  · intro ia ib ja jb x y hia hib hja hjb ea' eb' hx hy
    have h1 := ha.pos_bounds hja
    have h2 := hb.pos_bounds hjb
    have := hu.elems [Mpi.pos a ja, Mpi.pos b jb] (by rw [eM.len, inRange2]; exact ⟨_, _, rfl, h1.1, h1.2, h2.1, h2.2⟩)
    rw [amat] at this
    rw [fresh_addr hm (by rw [List.length_append, List.length_append, hia.length_eq, hib.length_eq]), Nda.GroupIndices.lin_append _ _ _ _ hia.length_eq, ea', eb',
      show (mem.length : Int) + (Mpi.pos a ja * prod b.lay.len + Mpi.pos b jb) = mem.length + (Mpi.pos b jb + Mpi.pos a ja * prod b.lay.len) by ring, this]
    simp only [List.getD_cons_zero, List.getD_cons_succ, zero_add, one_mul]
    rw [oa, ob, ← ha.addr_eq hja, ← hb.addr_eq hjb, hx1.old _ (ha.good.fits ja hja).2, hx1.old _ (hb.good.fits jb hjb).2, hx, hy]
    rfl

/-- C43, `outer_product` of arrays in C order: element `(i..., j...)` is `a(i...) * b(j...)`. -/
theorem C43_outer_partial [CommSemiring α] (pa pb : Policy) (a b : View) (mem : List α) (ha : Mpi.Blk a mem.length) (hb : Mpi.Blk b mem.length) (hpa : PolicyAt 1 pa) (hpb : PolicyAt 1 pb)
    (oa : a.lay.so = Perm.identity a.lay.len.length) (ob : b.lay.so = Perm.identity b.lay.len.length)
    (sa : 0 < prod a.lay.len) (sb : 0 < prod b.lay.len) (ba : prod a.lay.len < 2147483648) (bb : prod b.lay.len < 2147483648) :
    ∃ res mem', outerProduct pa pb a b mem = .ok (res, mem') ∧ res.lay.len = a.lay.len ++ b.lay.len ∧ Good res mem'.length ∧ Ext mem mem' ∧
      (∀ idx, InRange res.lay.len idx → (mem.length : Int) ≤ addr res idx) ∧
      ∀ ia ib x y, InRange a.lay.len ia → InRange b.lay.len ib → val mem (addr a ia) = some x → val mem (addr b ib) = some y → val mem' (addr res (ia ++ ib)) = some (x * y) := by
  obtain ⟨res, mem', e, h1, h2, h3, h4, h5⟩ := C43_outer_positions pa pb a b mem ha hb hpa hpb sa sb ba bb
  exact ⟨res, mem', e, h1, h2, h3, h4, fun ia ib x y hia hib hx hy =>
    h5 ia ib ia ib x y hia hib hia hib (Mpi.pos_c oa hia.length_eq).symm (Mpi.pos_c ob hib.length_eq).symm hx hy⟩

/-! ### C44 -/

theorem blasDot_eq [CommSemiring α] (cj : α → α) {x y : View} {n : Int} {mem : List α} {sx sy : Int} (hx : LVec x n mem.length sx) (hy : LVec y n mem.length sy) {X Y : Int → α}
    (hX : Elements x n mem X) (hY : Elements y n mem Y) : blasDot cj x y mem = some (sumTo n (fun i => cj (X i) * Y i)) := by
  simp only [blasDot, hx.inc, hy.inc, hx.size_eq, hx.inc32, hy.inc32, hx.len32, Option.bind_eq_bind, Option.bind_some, f77dot]
  apply sumM_eq
  intro l l0 l1
  rw [hx.vecPos_eq, hy.vecPos_eq, rdInt_eq, rdInt_eq, hX l l0 l1, hY l l0 l1]
  rfl

/-- C44, `blas::dot` and `dotc`, positive strides: the sum of the products of corresponding elements (the first conjugated). -/
theorem C44_blas_dot_partial [CommSemiring α] (cj : α → α) (x y : View) (n : Int) (mem : List α) (hx : BlasVector x n) (hy : BlasVector y n) (hgx : Good x mem.length) (hgy : Good y mem.length)
    (X Y : Int → α) (hX : Elements x n mem X) (hY : Elements y n mem Y) : blasDot cj x y mem = some (sumTo n (fun i => cj (X i) * Y i)) := by
  obtain ⟨sx, lx⟩ := hx.lvec hgx
  obtain ⟨sy, ly⟩ := hy.lvec hgy
  exact blasDot_eq cj lx ly hX hY

/-- What is asked of an operand of `nda::dot`: a vector that is passed on must be good for BLAS, one that is copied can be anything. -/
def DotOK (x : Rhs α) (copy : Bool) (n : Int) (mem : List α) (X : Int → α) : Prop :=
  match x, copy with
  | .inMem v _, false => BlasVector v n ∧ Good v mem.length ∧ Elements v n mem X
  | _, _ => Yields x [n] mem (fun idx => X (idx.getD 0 0))

theorem dotContainer_eq (junk : α) {n : Int} (p0 : 0 ≤ n) (b0 : n < 2147483648) (x : Rhs α) (copy : Bool) {mem0 mem : List α} {X : Int → α} (h : DotOK x copy n mem0 X) (he : Ext mem0 mem) :
    ∃ v mem' s, dotContainer junk n x copy mem = some (v, mem') ∧ Ext mem mem' ∧ LVec v n mem'.length s ∧ Elements v n mem' X := by
  have hcopy : Yields x [n] mem0 (fun idx => X (idx.getD 0 0)) → ∃ v mem' s, (do
      let (r, mem) ← fresh junk [0] [n] mem
      let mem ← (← assign .host .host true r x mem)
      return (r, mem)) = some (v, mem') ∧ Ext mem mem' ∧ LVec v n mem'.length s ∧ Elements v n mem' X := by
    intro hy
    obtain ⟨r, mem1, mem2, e1, e2, x2, lv, hel, -⟩ := newVector_eq junk p0 b0 hy he
    refine ⟨r, mem2, 1, ?_, x2, lv, hel⟩
    simp only [e1, e2, Option.bind_eq_bind, Option.bind_some]
    rfl
  cases x with
  | expr f => cases copy <;> exact hcopy h
  | inMem v null =>
    cases copy with
    | true => exact hcopy h
    | false =>
      obtain ⟨h1, h2, h3⟩ := h
      obtain ⟨s, lv⟩ := h1.lvec h2
      refine ⟨v, mem, s, rfl, Ext.refl mem, lv.mono he.grow, fun i i0 i1 => ?_⟩
      rw [he.old _ (h2.fits [i] (by rw [lv.len, inRange1]; exact ⟨i, rfl, i0, i1⟩)).2, h3 i i0 i1]

/-- C44, `nda::dot` and `dotc` of vectors, views and expressions. -/
theorem C44_dot_partial [CommSemiring α] (cj : α → α) (junk : α) (n : Int) (p0 : 0 ≤ n) (b0 : n < 2147483648) (x y : Rhs α) (cx cy : Bool) (mem : List α) (X Y : Int → α) (hx : DotOK x cx n mem X)
    (hy : DotOK y cy n mem Y) : dot cj junk n x cx y cy mem = some (sumTo n (fun i => cj (X i) * Y i)) := by
  obtain ⟨u, mem1, su, e1, x1, lu, hu⟩ := dotContainer_eq junk p0 b0 x cx hx (Ext.refl mem)
  obtain ⟨w, mem2, sw, e2, x2, lw, hw⟩ := dotContainer_eq junk p0 b0 y cy hy x1
  simp only [dot, e1, e2, Option.bind_eq_bind, Option.bind_some]
  refine blasDot_eq cj (lu.mono x2.grow) lw (fun i i0 i1 => ?_) hw
  rw [x2.old _ (lu.good.fits [i] (by rw [lu.len, inRange1]; exact ⟨i, rfl, i0, i1⟩)).2, hu i i0 i1]

theorem dotGet_eq {x : Rhs α} {n : Int} {mem : List α} {X : Int → α} (hx : Yields x [n] mem (fun idx => X (idx.getD 0 0))) (fast : Bool)
    (hf : fast = true → ∀ v null, x = .inMem v null → v.lay.str = [1]) {i : Int} (i0 : 0 ≤ i) (i1 : i < n) : dotGet x fast i mem = some (X i) := by
  have hi : InRange [n] [i] := inRange1.mpr ⟨i, rfl, i0, i1⟩
  cases x with
  | expr f =>
    cases fast <;> exact hx [i] hi mem (fun _ _ => rfl)
  | inMem v null =>
    obtain ⟨hg, hl, -, hv⟩ := hx
    have hv' := hv [i] hi
    cases fast with
    | false =>
      show load v [i] mem = _
      rw [load_eq hg (by rw [hl]; exact hi), hv']
      rfl
    | true =>
      show rdInt mem (v.off + i) = _
      rw [rdInt_eq, ← show addr v [i] = v.off + i by rw [addr, hf rfl v null rfl]; simp [Spec.dot], hv']
      rfl

/-- C44, the generic dot products of non-empty vectors, with any strides (also reversed ones). -/
theorem C44_generic_partial [CommSemiring α] (cj : α → α) (n : Int) (p0 : 0 < n) (x y : Rhs α) (fast : Bool) (mem : List α) (X Y : Int → α) (hx : Yields x [n] mem (fun idx => X (idx.getD 0 0)))
    (hy : Yields y [n] mem (fun idx => Y (idx.getD 0 0))) (hfx : fast = true → ∀ v null, x = .inMem v null → v.lay.str = [1]) (hfy : fast = true → ∀ v null, y = .inMem v null → v.lay.str = [1]) :
    dotGeneric cj n x y fast mem = some (sumTo n (fun i => cj (X i) * Y i)) := by
  have key : ∀ k : Nat, (k : Int) < n → (List.range k).foldlM (fun acc (i : Nat) => do
      let u ← dotGet x fast (Int.ofNat i + 1) mem
      let w ← dotGet y fast (Int.ofNat i + 1) mem
      return acc + cj u * w) (cj (X 0) * Y 0) = some (∑ i ∈ Finset.range (k + 1), cj (X (i : Int)) * Y (i : Int)) := by
    intro k
    induction k with
    | zero => intro _; simp
    | succ k ih =>
      intro hk
      push_cast at hk
      rw [List.range_succ, List.foldlM_append, ih (by omega), Finset.sum_range_succ _ (k + 1)]
      simp only [Option.bind_eq_bind, Option.bind_some, List.foldlM_cons, List.foldlM_nil]
      rw [dotGet_eq hx fast hfx (i := Int.ofNat k + 1) (by simp; omega) (by simpa using hk), dotGet_eq hy fast hfy (i := Int.ofNat k + 1) (by simp; omega) (by simpa using hk)]
      simp
  rw [dotGeneric, dotGet_eq hx fast hfx (le_refl 0) p0, dotGet_eq hy fast hfy (le_refl 0) p0]
  simp only [Option.bind_eq_bind, Option.bind_some]
  have := key (n - 1).toNat (by omega)
  rw [show (n - 1).toNat + 1 = n.toNat by omega] at this
  exact this

/-- C44, `scal` with a positive stride: every element is multiplied once, nothing else changes. -/
theorem C44_scal_partial [CommSemiring α] (alpha : α) (x : View) (n : Int) (mem : List α) (hx : BlasVector x n) (hgx : Good x mem.length) (X : Int → α) (hX : Elements x n mem X) :
    ∃ mem', scal alpha x mem = some mem' ∧ Updated x (fun idx => some (alpha * X (idx.getD 0 0))) mem mem' := by
  obtain ⟨s, lx⟩ := hx.lvec hgx
  have hin : ∀ i, 0 ≤ i → i < n → InRange x.lay.len [i] := fun i i0 i1 => by rw [lx.len, inRange1]; exact ⟨i, rfl, i0, i1⟩
  simp only [scal, lx.inc, lx.size_eq, lx.inc32, lx.len32, Option.bind_eq_bind, Option.bind_some, f77scal]
  by_cases hn : n ≤ 0
  · rw [if_pos (Or.inl hn)]
    refine ⟨mem, rfl, rfl, ?_, fun _ _ => rfl⟩
    intro idx hi
    rw [lx.len, inRange1] at hi
    obtain ⟨i, rfl, i0, i1⟩ := hi
    omega
  · rw [if_neg (by have := lx.pos; omega)]
    obtain ⟨mem', e, q1, q2, q3, q4⟩ := foldlM_range_inv (f := fun (mem : List α) (i : Nat) => (rdInt mem (x.off + Int.ofNat i * s)).bind fun u => wrInt mem (x.off + Int.ofNat i * s) (alpha * u))
      (fun k m' => m'.length = mem.length ∧ (∀ i : Int, 0 ≤ i → i < k → i < n → val m' (addr x [i]) = some (alpha * X i)) ∧ (∀ i : Int, k ≤ i → i < n → val m' (addr x [i]) = some (X i)) ∧
        ∀ p, ¬ Occupies x p → val m' p = val mem p) n.toNat mem ⟨rfl, fun i _ h => by omega, fun i i0 i1 => hX i (by omega) i1, fun _ _ => rfl⟩ (by
        rintro k m hk ⟨q1, q2, q3, q4⟩
        have hi := hin k (by omega) (by omega)
        have hf := hgx.fits [(k : Int)] hi
        have hv := q3 k (le_refl _) (by omega)
        obtain ⟨m', e', w1, w2, w3⟩ := wrInt_spec (mem := m) (k := addr x [(k : Int)]) (by rw [q1]; exact hf) (alpha * X k)
        refine ⟨m', ?_, by rw [w1, q1], ?_, ?_, ?_⟩
        · have ha : x.off + Int.ofNat k * s = addr x [(k : Int)] := by rw [lx.addr_eq]; rfl
          rw [ha, rdInt_eq, hv]
          exact e'
        · intro i i0 i1 i2
          by_cases h : i = k
          · rw [h]; exact w2
          · rw [w3 _ (fun he => h (by simpa using lx.one _ _ (hin i i0 i2) hi he))]
            exact q2 i i0 (by push_cast at i1; omega) i2
        · intro i i0 i1
          push_cast at i0
          rw [w3 _ (fun he => by have := lx.one _ _ (hin i (by omega) i1) hi he; simp at this; omega)]
          exact q3 i (by omega) i1
        · intro p hp
          rw [w3 p (fun he => hp ⟨_, hi, he.symm⟩), q4 p hp])
    refine ⟨mem', e, q1, ?_, q4⟩
    intro idx hi
    rw [lx.len, inRange1] at hi
    obtain ⟨i, rfl, i0, i1⟩ := hi
    exact q2 i i0 (by omega) i1

/-! ### Examples and witnesses -/

/-- A vector with stride 2 and one with stride `s`. -/
def exVec (off n s : Int) : View := ⟨off, ⟨[n], [s], [0], [0], .none⟩⟩

/-- The hypotheses of `C42_gemv_partial`, `C43_ger`, `C44_blas_dot_partial` and `C44_scal_partial`: a strided block, vectors with strides 2 and 1. -/
example : BlasMatrix exBlock 2 2 ∧ BlasVector (exVec 6 2 2) 2 ∧ BlasVector (exVec 10 2 1) 2 :=
  ⟨⟨rfl, Or.inr ⟨rfl, 3, rfl, by decide, by decide, by decide⟩, by decide, by decide⟩, ⟨rfl, ⟨2, rfl, by decide, by decide⟩, by decide⟩, ⟨rfl, ⟨1, rfl, by decide, by decide⟩, by decide⟩⟩

/-- `-[[1,2],[3,4]] * [5,7] + 10 * [0,0]`, the matrix being "conjugated" by negation. -/
example : gemv (fun x => -x) 1 ⟨exBlock, true⟩ (exVec 6 2 2) 10 (exVec 10 2 1) exMem = .ok [1, 2, 0, 3, 4, 0, 5, 6, 7, 8, -19, -43, 0, 1] := by decide

/-- `matvecmul` of a conjugated Fortran-order matrix and a reversed vector. -/
example : (matvecmul (fun x => -x) 9 (.mat ⟨exF 6, true⟩ true) 2 (.inMem (exVec 1 2 (-1)) false) exMem).map (fun r => (r.1.lay.len, (r.2.drop 14).take 2)) = .ok ([2], [-17, -20]) := by decide

example : ger 10 (exVec 6 2 2) (exVec 8 2 1) exBlock exMem = .ok [351, 402, 0, 493, 564, 0, 5, 6, 7, 8, 0, 0, 0, 1] := by decide

/-- A C-order 2 by 2 array, times a vector of 2. -/
example : (outerProduct .C .C ⟨0, ⟨[2, 2], [2, 1], [0, 1], [0, 0], .contiguous⟩⟩ ⟨4, ⟨[2], [1], [0], [0], .contiguous⟩⟩ [1, 2, 3, 4, 5, (6 : Int)]).map (fun r => (r.1.lay.len, r.2.drop 6)) =
    .ok ([2, 2, 2], [5, 6, 10, 12, 15, 18, 20, 24]) := by decide

example : blasDot (fun x => -x) (exVec 6 2 2) (exVec 3 2 1) exMem = some (-43) := by decide
example : dot id 9 2 (.inMem (exVec 6 2 2) false) false (.inMem (exVec 1 2 (-1)) false) true exMem = some 17 := by decide
example : dotGeneric id 2 (.inMem (exVec 6 2 2) false) (.inMem (exVec 1 2 (-1)) false) false exMem = some 17 := by decide
example : scal 10 (exVec 6 2 2) exMem = some [1, 2, 0, 3, 4, 0, 50, 6, 70, 8, 0, 0, 0, 1] := by decide

/-- The generic matrix-vector product with `A = b = 1`, `c = 5`, `alpha = beta = 1` gives 2 instead of 6. -/
theorem C42_generic_beta_witness : gemvGeneric (1 : Int) 1 1 (fun _ _ => some 1) (fun _ _ => some 1) 1 ⟨0, ⟨[1], [1], [0], [0], .contiguous⟩⟩ [5] = some [2] := by decide

/-- Missing from C42: a Fortran-order 1 by 0 matrix times the empty vector leaves the uninitialised element (9) in place of 0. -/
theorem C42_empty_witness :
    (matvecmul id (9 : Int) (.mat ⟨⟨0, ⟨[1, 0], [1, 1], [1, 0], [0, 0], .contiguous⟩⟩, false⟩ true) 0 (.expr (fun _ _ => some 0)) []).map (fun r => r.2) = .ok [9] := by decide

/-- Missing from C42: `gemv` itself on a reversed view.  The identity times the reverse of `[1, 2]` reads behind the view. -/
theorem C42_reversed_witness :
    gemv id (1 : Int) ⟨⟨2, ⟨[2, 2], [2, 1], [0, 1], [0, 0], .contiguous⟩⟩, false⟩ (exVec 1 2 (-1)) 0 (exVec 6 2 1) [1, 2, 1, 0, 0, 1, 0, 0] = .ok [1, 2, 1, 0, 0, 1, 1, 2] := by decide

/-- Missing from C43: the outer product of the Fortran-order matrix `[[1,3],[2,4]]` with `[1]` has the element `(0,1)` equal to 2, not 3. -/
theorem C43_outer_fortran_witness :
    (outerProduct .F .C (exF 0) ⟨4, ⟨[1], [1], [0], [0], .contiguous⟩⟩ [1, 2, 3, 4, (1 : Int)]).map (fun r => (r.1.lay.len, val r.2 (addr r.1 [0, 1, 0]), val [1, 2, 3, 4, (1 : Int)] (addr (exF 0) [0, 1]))) =
      .ok ([2, 2, 1], some 2, some 3) := by decide

/-- Missing from C44: reversed vectors.  BLAS takes the pointer to the first element for the start of the memory block: `[3,2,1] · [1,0,0]` comes out as 0. -/
theorem C44_reversed_witness : blasDot id (exVec 2 3 (-1)) (exVec 3 3 1) [1, 2, 3, 1, 0, (0 : Int)] = some 0 ∧ (List.range 3).map (fun i => val [1, 2, 3, 1, 0, (0 : Int)] (addr (exVec 2 3 (-1)) [(i : Int)])) = [some 3, some 2, some 1] := by
  decide

/-- The same at the end of the memory reads out of bounds. -/
theorem C44_reversed_oob_witness : blasDot id (exVec 5 3 (-1)) (exVec 0 3 1) [1, 2, 3, 1, 0, (0 : Int)] = none := by decide

/-- Missing from C44: `scal` of a reversed vector does nothing. -/
theorem C44_scal_reversed_witness : scal 10 (exVec 2 3 (-1)) [1, 2, (3 : Int)] = some [1, 2, 3] := by decide

/-- Missing from C44: the generic dot product of empty vectors reads an element that does not exist. -/
theorem C44_generic_empty_witness : dotGeneric id 0 (.inMem (exVec 0 0 1) false) (.inMem (exVec 0 0 1) false) true ([] : List Int) = none := by decide

end Nda.Blas
