import Verif.Lemmas.Batch
/-!
# Lemmas for `gemm_batch_strided`
-/
namespace Nda.Blas
open Nda LayoutTransforms Assign Loops Matrix Nda.Spec Nda.Perm

variable {α : Type}

theorem inRange3 {a b c : Int} {idx : List Int} : InRange [a, b, c] idx ↔ ∃ i j k, idx = [i, j, k] ∧ 0 ≤ i ∧ i < a ∧ 0 ≤ j ∧ j < b ∧ 0 ≤ k ∧ k < c := by
  constructor
  · intro h
    match idx, h with
    | [i, j, k], h =>
      obtain ⟨h1, h2, h3, -⟩ := h
      exact ⟨i, j, k, rfl, h1.1, h1.2, h2.1, h2.2, h3.1, h3.2⟩
  · rintro ⟨i, j, k, rfl, a, b, c, d, e, f⟩
    exact ⟨⟨a, b⟩, ⟨c, d⟩, ⟨e, f⟩, trivial⟩

/-- An array of rank 3 of matrices for BLAS, with its strides. -/
structure LArr (v : View) (n n0 n1 : Int) (N : Nat) (f : Bool) (s ld : Int) : Prop where
  good : Good v N
  len : v.lay.len = [n, n0, n1]
  so : v.lay.so = if f then [0, 2, 1] else [0, 1, 2]
  str : v.lay.str = if f then [s, 1, ld] else [s, ld, 1]
  pos : 1 ≤ ld
  wide : (if f then n0 else n1) ≤ ld
  ldb : ld < 2147483648
  sp : 0 ≤ s
  sb : s < 2147483648
  nsb : n * s < 2147483648
  nn : 0 ≤ n
  nn0 : 0 ≤ n0
  nn1 : 0 ≤ n1
  b : n < 2147483648
  b0 : n0 < 2147483648
  b1 : n1 < 2147483648

theorem _root_.Nda.Spec.Stacked.larr {v : View} {f : Bool} {n n0 n1 : Int} (h : Stacked v f n n0 n1) {N : Nat} (hg : Good v N) : ∃ s ld, LArr v n n0 n1 N f s ld := by
  have hn := hg.nonneg
  rw [h.len] at hn
  obtain ⟨s, ld, hs, a, b, c, d, e, g⟩ := h.strides
  exact ⟨s, ld, hg, h.len, h.order, hs, a, b, c, d, e, g, hn n (by simp), hn n0 (by simp), hn n1 (by simp), h.bound, h.bound0, h.bound1⟩

/-- The call `a(k, _, _)` on the level of the layout. -/
theorem slice_block (k n n0 n1 s1 s2 s : Int) (e0 e1 e2 : Nat) (pr : LayoutProp) (f : Bool) :
    Slice.slice ⟨[n, n0, n1], [s, s1, s2], if f then [0, 2, 1] else [0, 1, 2], [e0, e1, e2], pr⟩ [.idx k, .all, .all] =
      some (k * s, ⟨[n0, n1], [s1, s2], if f then [1, 0] else [0, 1], [e1, e2], pr⟩) := by
  have h1 : Slice.nOfP 3 2 [false, true, true] 128 1 = some [1, 2] := by decide
  have h2 : Slice.qOfP 3 2 [false, true, true] 128 1 = some [1, 2] := by decide
  have h3 : Slice.slicedOrder (if f then [0, 2, 1] else [0, 1, 2]) [1, 2] = some (if f then [1, 0] else [0, 1]) := by cases f <;> decide
  have h4 : Slice.sliceLayoutProp 2 true [false, true, true] (if f then [0, 2, 1] else [0, 1, 2]) pr 128 1 = some pr := by
    obtain ⟨p1, p2⟩ := pr
    cases f <;> cases p1 <;> cases p2 <;> decide
  have h5 : Slice.ellipsisPosition [.idx k, .all, .all] = 128 := by rfl
  have h6 : Slice.qOfN 0 128 1 = 0 ∧ Slice.qOfN 1 128 1 = 1 ∧ Slice.qOfN 2 128 1 = 2 := by decide
  have hr : List.range 3 = [0, 1, 2] := by decide
  simp [Slice.slice, IdxMap.rank, Slice.isRange, Slice.isEll, Slice.isRangeAll, h1, h2, h3, h4, h5, h6, hr, rd, rdInt, Slice.getOffset, Slice.getL, Slice.getS]

namespace LArr

variable {v : View} {n n0 n1 : Int} {N : Nat} {f : Bool} {s ld : Int}

theorem hasC_eq (h : LArr v n n0 n1 N f s ld) : hasC v = !f := by
  unfold hasC IdxMap.isStrideOrderC
  rw [show v.lay.rank = 3 by simp [IdxMap.rank, h.len], h.so]
  cases f <;> decide

theorem addr_eq (h : LArr v n n0 n1 N f s ld) (k i j : Int) : addr v [k, i, j] = v.off + k * s + (if f then i + j * ld else j + i * ld) := by
  rw [addr, h.str]
  cases f <;> simp [Spec.dot] <;> ring

theorem slice (h : LArr v n n0 n1 N f s ld) {k : Int} (k0 : 0 ≤ k) (k1 : k < n) :
    ∃ v', sliceView v [.idx k, .all, .all] = some v' ∧ v'.off = v.off + k * s ∧ LMat v' n0 n1 N f ld ∧ ∀ i j, addr v' [i, j] = addr v [k, i, j] := by
  have ha : Allowed v.lay.len (.slice [.idx k, .all, .all]) := by
    rw [h.len]
    exact ⟨by simp, Or.inl ⟨rfl, rfl⟩, ⟨k0, k1⟩, trivial, trivial, trivial⟩
  obtain ⟨v', e, hf⟩ := step_facts h.good.wf h.good.flags.smallest ha
  have hfl := step_flagsOK h.good.wf h.good.flags ha (fun k hk => by cases hk) e
  have ht : sliceView v [.idx k, .all, .all] = some v' := e
  have hse : ∃ e0 e1 e2, v.lay.se = [e0, e1, e2] := by
    have := h.good.wf.se_len
    rw [h.len] at this
    match hv : v.lay.se, this with
    | [a, b, c], _ => exact ⟨a, b, c, rfl⟩
  obtain ⟨e0, e1, e2, hse⟩ := hse
  have hshape : v'.off = v.off + k * s ∧ v'.lay.len = [n0, n1] ∧ v'.lay.so = (if f then [1, 0] else [0, 1]) ∧ v'.lay.str = (if f then [1, ld] else [ld, 1]) := by
    have hlay : v.lay = ⟨[n, n0, n1], if f then [s, 1, ld] else [s, ld, 1], if f then [0, 2, 1] else [0, 1, 2], [e0, e1, e2], v.lay.prop⟩ := by
      rw [← h.len, ← h.str, ← h.so, ← hse]
    have hsl := slice_block k n n0 n1 (if f then 1 else ld) (if f then ld else 1) s e0 e1 e2 v.lay.prop f
    have hlay' : v.lay = ⟨[n, n0, n1], [s, if f then 1 else ld, if f then ld else 1], if f then [0, 2, 1] else [0, 1, 2], [e0, e1, e2], v.lay.prop⟩ := by
      rw [hlay]; cases f <;> rfl
    rw [← hlay'] at hsl
    rw [sliceView, hsl] at ht
    obtain rfl := Option.some.inj ht
    cases f <;> exact ⟨rfl, rfl, rfl, rfl⟩
  obtain ⟨ho, hl, hso, hst⟩ := hshape
  have hg : Good v' N := by
    refine ⟨hf.wf, hfl, ?_, fun idx hi => ?_⟩
    · rw [hl]; intro x hx
      rcases List.mem_cons.mp hx with rfl | hx
      · exact h.nn0
      · rw [List.mem_singleton.mp hx]; exact h.nn1
    · rw [show addr v' idx = _ from hf.offset idx hi]
      exact h.good.fits _ (hf.inRange idx hi)
  have hm : LMat v' n0 n1 N f ld := ⟨hg, hl, hso, hst, h.pos, h.wide, h.ldb, h.nn0, h.nn1, h.b0, h.b1⟩
  refine ⟨v', ht, ho, hm, fun i j => ?_⟩
  rw [hm.addr_eq, h.addr_eq, ho]

theorem transposed (h : LArr v n n0 n1 N f s ld) : ∃ v', transposedView v 1 2 = some v' ∧ LArr v' n n1 n0 N (!f) s ld ∧ ∀ k i j, addr v' [k, i, j] = addr v [k, j, i] := by
  have ha : Allowed v.lay.len (.permute [0, 2, 1]) := ⟨by decide, by rw [h.len]; rfl⟩
  obtain ⟨v', e, hf⟩ := step_facts h.good.wf h.good.flags.smallest ha
  have hfl := step_flagsOK h.good.wf h.good.flags ha (fun k hk => by cases hk) e
  have ht : permuted v [0, 2, 1] = some v' := e
  have htv : transposedView v 1 2 = some v' := by
    rw [← ht]
    unfold transposedView
    rw [show v.lay.rank = 3 by simp [IdxMap.rank, h.len]]
    rfl
  have hse : ∃ e0 e1 e2, v.lay.se = [e0, e1, e2] := by
    have := h.good.wf.se_len
    rw [h.len] at this
    match hv : v.lay.se, this with
    | [a, b, c], _ => exact ⟨a, b, c, rfl⟩
  obtain ⟨e0, e1, e2, hse⟩ := hse
  have hv' : v' = ⟨v.off, ⟨[n, n1, n0], if f then [s, ld, 1] else [s, 1, ld], if f then [0, 1, 2] else [0, 2, 1], [e0, e2, e1], v.lay.prop⟩⟩ := by
    rw [permuted, IdxMap.transpose, h.len, h.str, h.so, hse] at ht
    cases f <;>
    · simp [Perm.compose, Perm.applyInverse, Perm.scatter, mkInit, wr, rd] at ht
      rw [← ht]; rfl
  have hg : Good v' N := by
    refine ⟨hf.wf, hfl, ?_, fun idx hi => ?_⟩
    · rw [hv']; intro x hx
      have := h.good.nonneg
      rw [h.len] at this
      apply this
      simp at hx ⊢
      tauto
    · rw [show addr v' idx = _ from hf.offset idx hi]
      exact h.good.fits _ (hf.inRange idx hi)
  have hl : LArr v' n n1 n0 N (!f) s ld := by
    refine ⟨hg, by rw [hv'], by rw [hv']; cases f <;> rfl, by rw [hv']; cases f <;> rfl, h.pos, ?_, h.ldb, h.sp, h.sb, h.nsb, h.nn, h.nn1, h.nn0, h.b, h.b1, h.b0⟩
    have := h.wide
    cases f <;> simpa using this
  refine ⟨v', htv, hl, fun k i j => ?_⟩
  rw [hl.addr_eq, h.addr_eq, hv']
  cases f <;> simp

end LArr

theorem mulInt_eq {n s : Int} (hs : 0 ≤ s) (h : n * s < 2147483648) {i : Nat} (hi : (i : Int) < n) : mulInt (Int.ofNat i) s = some ((i : Int) * s) := by
  have h0 : 0 ≤ (i : Int) * s := Int.mul_nonneg (by omega) hs
  have h1 : (i : Int) * s ≤ n * s := Int.mul_le_mul_of_nonneg_right (by omega) hs
  unfold mulInt
  rw [Int.ofNat_eq_natCast, if_pos ⟨by omega, by omega⟩]

/-- Slices of arrays apart from each other. -/
theorem separate_slices {v c : View} {n n0 n1 m0 m1 k l : Int} {v' c' : View} (hv : v.lay.len = [n, n0, n1]) (hc : c.lay.len = [n, m0, m1]) (hv' : v'.lay.len = [n0, n1]) (hc' : c'.lay.len = [m0, m1])
    (av : ∀ i j, addr v' [i, j] = addr v [k, i, j]) (ac : ∀ i j, addr c' [i, j] = addr c [l, i, j]) (hk : 0 ≤ k ∧ k < n) (hl : 0 ≤ l ∧ l < n) (h : Separate v c) : Separate v' c' := by
  intro idx jdx hi hj
  rw [hv', inRange2] at hi
  rw [hc', inRange2] at hj
  obtain ⟨i, j, rfl, h0, h1, h2, h3⟩ := hi
  obtain ⟨i', j', rfl, g0, g1, g2, g3⟩ := hj
  rw [av, ac]
  exact h _ _ (by rw [hv, inRange3]; exact ⟨k, i, j, rfl, hk.1, hk.2, h0, h1, h2, h3⟩) (by rw [hc, inRange3]; exact ⟨l, i', j', rfl, hl.1, hl.2, g0, g1, g2, g3⟩)

/-- The value of `gemm_batch_strided`. -/
def stridedValue [CommSemiring α] (cj : α → α) (alpha : α) (conjA : Bool) (A : Int → Int → Int → α) (conjB : Bool) (B : Int → Int → Int → α) (beta : α) (C : Int → Int → Int → α) (n1 : Int) (idx : List Int) :
    Option α :=
  some (gemmValue cj alpha conjA (A (idx.getD 0 0)) conjB (B (idx.getD 0 0)) beta (C (idx.getD 0 0)) n1 (idx.getD 1 0) (idx.getD 2 0))

/-- `gemm_batch_strided` for a result whose matrices are in Fortran order. -/
theorem stridedFortran_eq [CommSemiring α] [DecidableEq α] (cj : α → α) (alpha beta : α) {x y : Mat} {c : View} {n n0 n1 n2 : Int} {mem : List α} {fx fy : Bool} {sx sy sc lx ly lc : Int}
    (hx : LArr x.v n n0 n1 mem.length fx sx lx) (hy : LArr y.v n n1 n2 mem.length fy sy ly) (hc : LArr c n n0 n2 mem.length true sc lc) {A B C : Int → Int → Int → α}
    (hA : Entries3 x.v n n0 n1 mem A) (hB : Entries3 y.v n n1 n2 mem B) (hC : Entries3 c n n0 n2 mem C) (hvx : x.conj = true → fx = false) (hvy : y.conj = true → fy = false)
    (hsx : Separate x.v c) (hsy : Separate y.v c) (h1 : OneToOne c) (hn : 1 ≤ n) :
    ∃ mem', stridedFortran cj alpha x y beta c mem = .ok mem' ∧ Updated c (stridedValue cj alpha x.conj A y.conj B beta C n1) mem mem' := by
  haveI : Nonempty View := ⟨c⟩
  have tx : ∀ i : Nat, (i : Int) < n → ∃ v', sliceView x.v [.idx i, .all, .all] = some v' ∧ v'.off = x.v.off + i * sx ∧ LMat v' n0 n1 mem.length fx lx ∧ ∀ p q, addr v' [p, q] = addr x.v [i, p, q] :=
    fun i hi => hx.slice (by omega) hi
  have ty : ∀ i : Nat, (i : Int) < n → ∃ v', sliceView y.v [.idx i, .all, .all] = some v' ∧ v'.off = y.v.off + i * sy ∧ LMat v' n1 n2 mem.length fy ly ∧ ∀ p q, addr v' [p, q] = addr y.v [i, p, q] :=
    fun i hi => hy.slice (by omega) hi
  have tc : ∀ i : Nat, (i : Int) < n → ∃ v', sliceView c [.idx i, .all, .all] = some v' ∧ v'.off = c.off + i * sc ∧ LMat v' n0 n2 mem.length true lc ∧ ∀ p q, addr v' [p, q] = addr c [i, p, q] :=
    fun i hi => hc.slice (by omega) hi
  choose! xs ex ox mx ax using tx
  choose! ys ey oy my ay using ty
  choose! cs ec oc mc ac using tc
  let b : Batch α := ⟨n.toNat, xs, ys, cs, x.conj, y.conj, fun _ => n0, fun _ => n1, fun _ => n2, fx, fy, true, fun _ => lx, fun _ => ly, fun _ => lc, fun i => A i, fun i => B i, fun i => C i⟩
  have lt : ∀ {i : Nat}, i < n.toNat → (i : Int) < n := fun h => by omega
  have hb : b.OK mem := by
    refine ⟨fun i hi => mx i (lt hi), fun i hi => my i (lt hi), fun i hi => mc i (lt hi), ?_, ?_, ?_, ?_, ?_, ?_, ?_, ?_⟩
    · intro i hi p q a0 a1 a2 a3
      show val mem (addr (xs i) [p, q]) = some (A i p q)
      rw [ax i (lt hi)]
      exact hA i p q (by omega) (lt hi) a0 a1 a2 a3
    · intro i hi p q a0 a1 a2 a3
      show val mem (addr (ys i) [p, q]) = some (B i p q)
      rw [ay i (lt hi)]
      exact hB i p q (by omega) (lt hi) a0 a1 a2 a3
    · intro i hi p q a0 a1 a2 a3
      show val mem (addr (cs i) [p, q]) = some (C i p q)
      rw [ac i (lt hi)]
      exact hC i p q (by omega) (lt hi) a0 a1 a2 a3
    · intro h; show fx ≠ true; rw [hvx h]; decide
    · intro h; show fy ≠ true; rw [hvy h]; decide
    · intro i j hi hj
      exact separate_slices hx.len hc.len (mx i (lt hi)).len (mc j (lt hj)).len (ax i (lt hi)) (ac j (lt hj)) ⟨by omega, lt hi⟩ ⟨by omega, lt hj⟩ hsx
    · intro i j hi hj
      exact separate_slices hy.len hc.len (my i (lt hi)).len (mc j (lt hj)).len (ay i (lt hi)) (ac j (lt hj)) ⟨by omega, lt hi⟩ ⟨by omega, lt hj⟩ hsy
    · intro i j hi hj hij idx jdx hid hjd he
      rw [(mc i (lt hi)).len, inRange2] at hid
      rw [(mc j (lt hj)).len, inRange2] at hjd
      obtain ⟨p, q, rfl, g0, g1, g2, g3⟩ := hid
      obtain ⟨p', q', rfl, g0', g1', g2', g3'⟩ := hjd
      change addr (cs i) [p, q] = addr (cs j) [p', q'] at he
      rw [ac i (lt hi), ac j (lt hj)] at he
      have := h1 _ _ (by rw [hc.len, inRange3]; exact ⟨i, p, q, rfl, by omega, lt hi, g0, g1, g2, g3⟩) (by rw [hc.len, inRange3]; exact ⟨j, p', q', rfl, by omega, lt hj, g0', g1', g2', g3'⟩) he
      simp only [List.cons.injEq] at this
      omega
  obtain ⟨mem', e, u⟩ := hb.loop cj alpha beta rfl
  refine ⟨mem', ?_, u.size, ?_, ?_⟩
  · rw [← e]
    have op : ∀ {z : Mat} {a b s l : Int} {f : Bool}, LArr z.v n a b mem.length f s l → (z.conj = true → f = false) → ∃ t, getOp z.conj (hasC z.v) = .ok t ∧ getOp z.conj (!f) = .ok t := by
      intro z a b s l f hz hv
      rw [hz.hasC_eq]
      cases hzc : z.conj <;> cases f <;> simp [hzc, getOp] at hv ⊢
    obtain ⟨ta, hta, hta'⟩ := op hx hvx
    obtain ⟨tb, htb, htb'⟩ := op hy hvy
    have z0 : ((0 : Nat) : Int) < n := by omega
    have e0 := ex 0 z0
    have e1 := ey 0 z0
    have e2 := ec 0 z0
    simp only [Nat.cast_zero] at e0 e1 e2
    have r0 : rd (xs 0).lay.len 0 = some n0 := by rw [(mx 0 z0).len]; rfl
    have r1 : rd (xs 0).lay.len 1 = some n1 := by rw [(mx 0 z0).len]; rfl
    have r2 : rd (ys 0).lay.len 1 = some n2 := by rw [(my 0 z0).len]; rfl
    have s0 : rd x.v.lay.str 0 = some sx := by rw [hx.str]; cases fx <;> rfl
    have s1 : rd y.v.lay.str 0 = some sy := by rw [hy.str]; cases fy <;> rfl
    have s2 : rd c.lay.str 0 = some sc := by rw [hc.str]; rfl
    have l0 : rd x.v.lay.len 0 = some n := by rw [hx.len]; rfl
    simp only [stridedFortran, e0, e1, e2, hta, htb, r0, r1, r2, s0, s1, s2, l0, (mx 0 z0).ld_eq, (my 0 z0).ld_eq, (mc 0 z0).ld_eq, orUb, bind, Except.bind]
    rw [toInt32_id hx.nn hx.b, toInt32_id hx.sp hx.sb, toInt32_id hy.sp hy.sb, toInt32_id hc.sp hc.sb]
    apply foldlM_except_congr
    intro i hi m
    have hi : (i : Int) < n := lt (List.mem_range.mp hi)
    have r0 : rd (xs i).lay.len 0 = some n0 := by rw [(mx i hi).len]; rfl
    have r1 : rd (xs i).lay.len 1 = some n1 := by rw [(mx i hi).len]; rfl
    have r2 : rd (ys i).lay.len 1 = some n2 := by rw [(my i hi).len]; rfl
    have oa : getOp x.conj (hasC (xs i)) = .ok ta := by rw [(mx i hi).hasC_eq, hta']
    have ob : getOp y.conj (hasC (ys i)) = .ok tb := by rw [(my i hi).hasC_eq, htb']
    rw [mulInt_eq hx.sp hx.nsb hi, mulInt_eq hy.sp hy.nsb hi, mulInt_eq hc.sp hc.nsb hi]
    show _ = gemmFortran cj alpha ⟨xs i, x.conj⟩ ⟨ys i, y.conj⟩ beta (cs i) m
    simp only [gemmFortran, oa, ob, r0, r1, r2, (mx i hi).ld_eq, (my i hi).ld_eq, (mc i hi).ld_eq, orUb, bind, Except.bind, ox i hi, oy i hi, oc i hi]
  · intro idx hin
    rw [hc.len, inRange3] at hin
    obtain ⟨k, i, j, rfl, k0, k1, i0, i1, j0, j1⟩ := hin
    have hk : ((k.toNat : Nat) : Int) = k := by omega
    have := u.elems k.toNat (show k.toNat < n.toNat by omega) [i, j] (by show InRange (cs k.toNat).lay.len _; rw [(mc k.toNat (by omega)).len, inRange2]; exact ⟨i, j, rfl, i0, i1, j0, j1⟩)
    change val mem' (addr (cs k.toNat) [i, j]) = _ at this
    rw [ac k.toNat (by omega), hk] at this
    rw [this]
    simp only [Batch.value, stridedValue, b, List.getD_cons_zero, List.getD_cons_succ, hk]
  · intro k hk
    apply u.frame
    rintro i hi ⟨idx, hin, he⟩
    have hi : (i : Int) < n := lt hi
    change InRange (cs i).lay.len idx at hin
    rw [(mc i hi).len, inRange2] at hin
    obtain ⟨p, q, rfl, g0, g1, g2, g3⟩ := hin
    change addr (cs i) [p, q] = k at he
    rw [ac i hi] at he
    exact hk ⟨[i, p, q], by rw [hc.len, inRange3]; exact ⟨i, p, q, rfl, by omega, hi, g0, g1, g2, g3⟩, he⟩

/-- `gemm_batch_strided`. -/
theorem strided_eq [CommSemiring α] [DecidableEq α] (cj : α → α) (alpha beta : α) {x y : Mat} {c : View} {n n0 n1 n2 : Int} {mem : List α} {fx fy fc : Bool} {sx sy sc lx ly lc : Int}
    (hx : LArr x.v n n0 n1 mem.length fx sx lx) (hy : LArr y.v n n1 n2 mem.length fy sy ly) (hc : LArr c n n0 n2 mem.length fc sc lc) {A B C : Int → Int → Int → α}
    (hA : Entries3 x.v n n0 n1 mem A) (hB : Entries3 y.v n n1 n2 mem B) (hC : Entries3 c n n0 n2 mem C) (hvx : x.conj = true → fx = false ∧ fc = true) (hvy : y.conj = true → fy = false ∧ fc = true)
    (hsx : Separate x.v c) (hsy : Separate y.v c) (h1 : OneToOne c) (hn : 1 ≤ n) :
    ∃ mem', gemmBatchStrided cj alpha x y beta c mem = .ok mem' ∧ Updated c (stridedValue cj alpha x.conj A y.conj B beta C n1) mem mem' := by
  cases fc with
  | true =>
    obtain ⟨mem', e, u⟩ := stridedFortran_eq cj alpha beta hx hy hc hA hB hC (fun h => (hvx h).1) (fun h => (hvy h).1) hsx hsy h1 hn
    exact ⟨mem', by rw [gemmBatchStrided, hc.hasC_eq]; exact e, u⟩
  | false =>
    have cx : x.conj = false := by cases h : x.conj <;> simp [h] at hvx ⊢
    have cy : y.conj = false := by cases h : y.conj <;> simp [h] at hvy ⊢
    obtain ⟨xv, ex, hx', ax⟩ := hx.transposed
    obtain ⟨yv, ey, hy', ay⟩ := hy.transposed
    obtain ⟨cv, ec, hc', ac⟩ := hc.transposed
    have hsep : ∀ {z zv : View} {a b : Int}, z.lay.len = [n, a, b] → zv.lay.len = [n, b, a] → (∀ k i j, addr zv [k, i, j] = addr z [k, j, i]) → Separate z c → Separate zv cv := by
      intro z zv a b hz hzv haz hs idx jdx hi hj
      rw [hzv, inRange3] at hi
      rw [hc'.len, inRange3] at hj
      obtain ⟨k, i, j, rfl, p0, p1, p2, p3, p4, p5⟩ := hi
      obtain ⟨k', i', j', rfl, q0, q1, q2, q3, q4, q5⟩ := hj
      rw [haz, ac]
      exact hs _ _ (by rw [hz, inRange3]; exact ⟨k, j, i, rfl, p0, p1, p4, p5, p2, p3⟩) (by rw [hc.len, inRange3]; exact ⟨k', j', i', rfl, q0, q1, q4, q5, q2, q3⟩)
    have h1' : OneToOne cv := by
      intro idx jdx hi hj he
      rw [hc'.len, inRange3] at hi hj
      obtain ⟨k, i, j, rfl, p0, p1, p2, p3, p4, p5⟩ := hi
      obtain ⟨k', i', j', rfl, q0, q1, q2, q3, q4, q5⟩ := hj
      rw [ac, ac] at he
      have := h1 _ _ (by rw [hc.len, inRange3]; exact ⟨k, j, i, rfl, p0, p1, p4, p5, p2, p3⟩) (by rw [hc.len, inRange3]; exact ⟨k', j', i', rfl, q0, q1, q4, q5, q2, q3⟩) he
      simp only [List.cons.injEq, and_true] at this ⊢
      tauto
    obtain ⟨mem', e, u⟩ := stridedFortran_eq cj alpha beta (x := ⟨yv, false⟩) (y := ⟨xv, false⟩) (c := cv) (A := fun k i j => B k j i) (B := fun k i j => A k j i) (C := fun k i j => C k j i) hy' hx' hc'
      (fun k i j k0 k1 a0 a1 a2 a3 => by rw [ay]; exact hB k j i k0 k1 a2 a3 a0 a1) (fun k i j k0 k1 a0 a1 a2 a3 => by rw [ax]; exact hA k j i k0 k1 a2 a3 a0 a1)
      (fun k i j k0 k1 a0 a1 a2 a3 => by rw [ac]; exact hC k j i k0 k1 a2 a3 a0 a1) (by simp) (by simp) (hsep hy.len hy'.len ay hsy) (hsep hx.len hx'.len ax hsx) h1' hn
    refine ⟨mem', ?_, u.size, ?_, ?_⟩
    · simp only [gemmBatchStrided, hc.hasC_eq, cx, cy, ex, ey, ec, orUb, bind, Except.bind, Bool.not_false, if_true, Bool.or_false, Bool.false_eq_true, if_false]
      exact e
    · intro idx hin
      rw [hc.len, inRange3] at hin
      obtain ⟨k, i, j, rfl, p0, p1, p2, p3, p4, p5⟩ := hin
      rw [← ac, u.elems [k, j, i] (by rw [hc'.len, inRange3]; exact ⟨k, j, i, rfl, p0, p1, p4, p5, p2, p3⟩)]
      simp only [stridedValue, gemmValue, List.getD_cons_zero, List.getD_cons_succ, Option.some.injEq, cx, cy, mayConj, Bool.false_eq_true, if_false]
      congr 2
      exact sumTo_congr (fun l _ _ => mul_comm _ _)
    · intro k hk
      apply u.frame
      rintro ⟨idx, hin, he⟩
      rw [hc'.len, inRange3] at hin
      obtain ⟨k', i, j, rfl, p0, p1, p2, p3, p4, p5⟩ := hin
      rw [ac] at he
      exact hk ⟨[k', j, i], by rw [hc.len, inRange3]; exact ⟨k', j, i, rfl, p0, p1, p4, p5, p2, p3⟩, he⟩

end Nda.Blas
