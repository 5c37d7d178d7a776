import Verif.Model.BatchMkl
import Verif.Props.Batch
/-!
# C55: batches of matrix products with MKL
-/
namespace Nda.Blas
open Nda LayoutTransforms Assign Loops Matrix Nda.Spec Nda.Perm

variable {α : Type}

namespace Mkl

theorem bind_iff {ε β γ : Type} {x : Except ε β} {f : β → Except ε γ} {r : γ} : (x >>= f) = .ok r ↔ ∃ a, x = .ok a ∧ f a = .ok r := by
  cases x with
  | error e => simp [bind, Except.bind]
  | ok a => simp [bind, Except.bind]

theorem orUb_iff {β : Type} {o : Option β} {a : β} : orUb o = .ok a ↔ o = some a := by
  cases o <;> simp [orUb]

theorem foldlM_mono {β γ : Type} {f g : β → γ → Except Err β} : ∀ {l : List γ} {b r : β}, (∀ b i r, i ∈ l → f b i = .ok r → g b i = .ok r) → l.foldlM f b = .ok r → l.foldlM g b = .ok r
  | [], _, _, _, h => h
  | i :: l, b, r, hfg, h => by
    rw [List.foldlM_cons, bind_iff] at h ⊢
    obtain ⟨b', h1, h2⟩ := h
    exact ⟨b', hfg _ _ _ (by simp) h1, foldlM_mono (fun b i r hi => hfg b i r (by simp [hi])) h2⟩

theorem foldlM_all {β γ : Type} {f : β → γ → Except Err β} : ∀ {l : List γ} {b r : β}, l.foldlM f b = .ok r → ∀ i ∈ l, ∃ b r, f b i = .ok r
  | [], _, _, _, _, hi => by simp at hi
  | i :: l, b, r, h, j, hj => by
    rw [List.foldlM_cons, bind_iff] at h
    obtain ⟨b', h1, h2⟩ := h
    rcases List.mem_cons.mp hj with rfl | hj
    · exact ⟨_, _, h1⟩
    · exact foldlM_all h2 j hj

theorem mapM_ok {β γ : Type} {f : γ → Except Err β} {h : γ → β} : ∀ {l : List γ}, (∀ i ∈ l, f i = .ok (h i)) → l.mapM f = .ok (l.map h)
  | [], _ => rfl
  | i :: l, hf => by
    rw [List.mapM_cons, hf i (by simp), mapM_ok (fun j hj => hf j (by simp [hj]))]
    rfl

theorem mapM_length {β γ : Type} {f : β → Option γ} : ∀ {l : List β} {l' : List γ}, l.mapM f = some l' → l'.length = l.length
  | [], l', h => by simp at h; rw [h]; rfl
  | x :: l, l', h => by
    simp only [List.mapM_cons, Option.bind_eq_bind, Option.bind_eq_some_iff, Option.pure_def, Option.some.injEq] at h
    obtain ⟨y, _, ys, h2, rfl⟩ := h
    simp [mapM_length h2]

variable [Zero α] [Add α] [Mul α] [DecidableEq α]

theorem ones (cj : α → α) (as bs cs : List Int) : ∀ (gs : List (Group α)) (first : Nat) (mem : List α), (∀ g ∈ gs, g.size = 1) →
    mklBatch cj as bs cs gs first mem = (List.range gs.length).foldlM (fun mem i => do
      let a ← orUb (rd as (first + i))
      let b ← orUb (rd bs (first + i))
      let c ← orUb (rd cs (first + i))
      let g ← orUb (rd gs i)
      f77gemm cj g.opA g.opB g.m g.n g.k g.alpha a g.lda b g.ldb g.beta c g.ldc mem) mem
  | [], _, _, _ => rfl
  | g :: gs, first, mem, h => by
    have hg := h g (by simp)
    rw [mklBatch, hg, List.length_cons, List.range_succ_eq_map, List.foldlM_cons]
    have ih := fun mem => ones cj as bs cs gs (first + 1) mem (fun g hg => h g (by simp [hg]))
    simp only [Int.toNat_one, ih, List.range_one, List.foldlM_map, List.foldlM_cons, List.foldlM_nil, bind_pure, rd, List.getElem?_cons_zero, List.getElem?_cons_succ, orUb, bind_assoc, Nat.add_zero]
    congr 1
    funext a
    congr 1
    funext b
    congr 1
    funext c
    congr 1
    funext mem'
    congr 1
    funext mem' i
    rw [show first + 1 + i = first + (i + 1) by omega]

theorem int_length {n : Nat} (h : n < 2147483648) : (toInt32 (n : Int)).toNat = n := by
  rw [toInt32_id (by omega) (by omega)]; omega

theorem rd_map {β γ : Type} {f : β → γ} {l : List β} {i : Nat} {x : β} (h : rd l i = some x) : rd (l.map f) i = some (f x) := by
  simp only [rd] at h ⊢; rw [List.getElem?_map, h]; rfl

theorem fortran (vb : Bool) (cj : α → α) (alpha : α) (vx vy : List Mat) (beta : α) (vc : List View) (mem mem' : List α) (hn : vx.length < 2147483648)
    (h : gemmBatchFortran vb cj alpha vx vy beta vc mem = .ok mem') : gemmBatchFortranMkl vb cj alpha vx vy beta vc mem = .ok mem' := by
  unfold gemmBatchFortran at h
  unfold gemmBatchFortranMkl
  simp only [bind_iff, orUb_iff] at h ⊢
  obtain ⟨x0, hx0, y0, hy0, c0, hc0, opA, hA, opB, hB, h⟩ := h
  refine ⟨x0, hx0, y0, hy0, c0, hc0, opA, hA, opB, hB, ?_⟩
  have hpos : 0 < vx.length := by
    by_contra hc
    simp [rd, List.getElem?_eq_none (show vx.length ≤ 0 by omega)] at hx0
  have hall := foldlM_all h
  cases vb with
  | false =>
    simp only [Bool.false_eq_true, if_false, bind_iff, orUb_iff] at h hall ⊢
    obtain ⟨_, _, x, _, y, _, c, _, m, hm, k, hk, n, hn', lda, ha, ldb, hb, ldc, hc, _⟩ := hall 0 (by simpa using hpos)
    refine ⟨(toInt32 m, toInt32 n, toInt32 k, lda, ldb, ldc), by simp [sizesOf, hm, hk, hn', ha, hb, hc], ?_⟩
    simp only [f77Batch, mklBatch, int_length hn, bind_iff]
    refine ⟨mem', ?_, rfl⟩
    refine foldlM_mono ?_ h
    rintro b i r hi hr
    simp only [bind_iff, orUb_iff] at hr ⊢
    obtain ⟨x', hx', y', hy', c', hc', m', hm', k', hk', n', hn'', a1, ha1, b1, hb1, c1, hc1, hr⟩ := hr
    rw [hm] at hm'; rw [hk] at hk'; rw [hn'] at hn''; rw [ha] at ha1; rw [hb] at hb1; rw [hc] at hc1
    cases hm'; cases hk'; cases hn''; cases ha1; cases hb1; cases hc1
    exact ⟨_, by rw [Nat.zero_add]; exact rd_map hx', _, by rw [Nat.zero_add]; exact rd_map hy', _, by rw [Nat.zero_add]; exact rd_map hc', hr⟩
  | true =>
    simp only [if_true, bind_iff, orUb_iff] at h hall ⊢
    have hs : ∀ i : Nat, ∃ s : Int × Int × Int × Int × Int × Int, i < vx.length → ∃ x y c, rd vx i = some x ∧ rd vy i = some y ∧ rd vc i = some c ∧ sizesOf x y c = some s := by
      intro i
      by_cases hi : i < vx.length
      · obtain ⟨_, _, x, hx, y, hy, c, hc, m, hm, k, hk, n, hn', lda, ha, ldb, hb, ldc, hc', _⟩ := hall i (by simpa using hi)
        exact ⟨(toInt32 m, toInt32 n, toInt32 k, lda, ldb, ldc), fun _ => ⟨x, y, c, hx, hy, hc, by simp [sizesOf, hm, hk, hn', ha, hb, hc']⟩⟩
      · exact ⟨(0, 0, 0, 0, 0, 0), fun h => absurd h hi⟩
    choose S hS using hs
    refine ⟨(List.range vx.length).map S, ?_, ?_⟩
    · refine mapM_ok (h := S) fun i hi => ?_
      obtain ⟨x, y, c, h1, h2, h3, h4⟩ := hS i (by simpa using hi)
      simp only [h1, h2, h3, h4, orUb, bind, Except.bind]
    · have hrd : ∀ {γ : Type} (f : Int × Int × Int × Int × Int × Int → γ) (i : Nat), i < vx.length → rd (((List.range vx.length).map S).map f) i = some (f (S i)) := by
        intro γ f i hi
        simp [rd, hi]
      have hrep : ∀ {γ : Type} (x : γ) (i : Nat), i < vx.length → rd (List.replicate vx.length x) i = some x := by
        intro γ x i hi
        simp [rd, hi]
      unfold f77Vbatch
      simp only [int_length hn]
      rw [mapM_ok (h := fun i => (⟨opA, opB, (S i).1, (S i).2.1, (S i).2.2.1, alpha, (S i).2.2.2.1, (S i).2.2.2.2.1, beta, (S i).2.2.2.2.2, 1⟩ : Group α))]
      · simp only [bind, Except.bind]
        rw [ones cj _ _ _ _ 0 mem (by simp)]
        rw [List.length_map, List.length_range]
        refine foldlM_mono ?_ h
        rintro b i r hi hr
        have hi : i < vx.length := by simpa using hi
        simp only [bind_iff, orUb_iff] at hr
        obtain ⟨x', hx', y', hy', c', hc', m', hm', k', hk', n', hn'', a1, ha1, b1, hb1, c1, hc1, hr⟩ := hr
        obtain ⟨x, y, c, h1, h2, h3, h4⟩ := hS i hi
        rw [hx'] at h1; rw [hy'] at h2; rw [hc'] at h3
        cases h1; cases h2; cases h3
        simp only [sizesOf, hm', hk', hn'', ha1, hb1, hc1, Option.bind_eq_bind, Option.bind_some, Option.pure_def, Option.some.injEq] at h4
        have hg : rd ((List.range vx.length).map fun i => (⟨opA, opB, (S i).1, (S i).2.1, (S i).2.2.1, alpha, (S i).2.2.2.1, (S i).2.2.2.2.1, beta, (S i).2.2.2.2.2, 1⟩ : Group α)) i =
            some ⟨opA, opB, (S i).1, (S i).2.1, (S i).2.2.1, alpha, (S i).2.2.2.1, (S i).2.2.2.2.1, beta, (S i).2.2.2.2.2, 1⟩ := by
          simp [rd, hi]
        simp only [Nat.zero_add]
        change (orUb (rd (vx.map _) i) >>= _) = _
        simp only [bind_iff, orUb_iff]
        refine ⟨_, rd_map hx', _, rd_map hy', _, rd_map hc', _, hg, ?_⟩
        simp only [← h4]
        exact hr
      · intro i hi
        have hi : i < vx.length := by simpa using hi
        simp only [hrep _ i hi, hrd _ i hi, orUb, bind, Except.bind, pure, Except.pure]

end Mkl

variable [Zero α] [Add α] [Mul α] [DecidableEq α]

/-- C55, `gemm_batch` and `gemm_vbatch` with MKL: what the loops compute (`C55_vbatch`, `C55_batch_partial`), MKL's groups compute too. -/
theorem C55_mkl_batch (vb : Bool) (cj : α → α) (alpha : α) (vx vy : List Mat) (beta : α) (vc : List View) (mem mem' : List α) (hn : vx.length < 2147483648) (hy : vy.length = vx.length)
    (h : gemmBatch vb cj alpha vx vy beta vc mem = .ok mem') : gemmBatchMkl vb cj alpha vx vy beta vc mem = .ok mem' := by
  unfold gemmBatch at h
  unfold gemmBatchMkl
  split at h
  · rename_i he; rw [if_pos he]; exact h
  · rename_i he
    rw [if_neg he]
    simp only [Mkl.bind_iff, Mkl.orUb_iff] at h ⊢
    obtain ⟨c0, hc0, h⟩ := h
    refine ⟨c0, hc0, ?_⟩
    split at h
    · rename_i hC
      rw [if_pos hC]
      simp only [Mkl.bind_iff, Mkl.orUb_iff] at h ⊢
      obtain ⟨yT, hyT, xT, hxT, cT, hcT, h⟩ := h
      refine ⟨yT, hyT, xT, hxT, cT, hcT, Mkl.fortran vb cj alpha yT xT beta cT mem mem' ?_ h⟩
      rw [Mkl.mapM_length hyT, hy]; exact hn
    · rename_i hC
      rw [if_neg hC]
      exact Mkl.fortran vb cj alpha vx vy beta vc mem mem' hn h

theorem Mkl.strided (cj : α → α) (alpha : α) (x y : Mat) (beta : α) (c : View) (mem mem' : List α) (h : stridedFortran cj alpha x y beta c mem = .ok mem') :
    stridedFortranMkl cj alpha x y beta c mem = .ok mem' := by
  unfold stridedFortran at h
  unfold stridedFortranMkl
  simp only [Mkl.bind_iff, Mkl.orUb_iff] at h ⊢
  obtain ⟨a0, ha0, b0, hb0, c0, hc0, opA, hA, opB, hB, m, hm, k, hk, n, hn, lda, ha, ldb, hb, ldc, hc, sa, hsa, sb, hsb, sc, hsc, count, hcount, h⟩ := h
  refine ⟨a0, ha0, b0, hb0, c0, hc0, opA, hA, opB, hB, (toInt32 m, toInt32 n, toInt32 k, lda, ldb, ldc), by simp [sizesOf, hm, hk, hn, ha, hb, hc], sa, hsa, sb, hsb, sc, hsc, count, hcount, ?_⟩
  unfold mklStrided
  refine Mkl.foldlM_mono ?_ h
  rintro b i r hi hr
  simp only [Mkl.bind_iff, Mkl.orUb_iff, mulInt] at hr
  obtain ⟨oa, h1, ob, h2, oc, h3, hr⟩ := hr
  split at h1
  · split at h2
    · split at h3
      · cases h1; cases h2; cases h3; exact hr
      · cases h3
    · cases h2
  · cases h1

/-- C55, `gemm_batch_strided` with MKL: what the loop computes, MKL computes too. -/
theorem C55_mkl_strided (cj : α → α) (alpha : α) (x y : Mat) (beta : α) (c : View) (mem mem' : List α) (h : gemmBatchStrided cj alpha x y beta c mem = .ok mem') :
    gemmBatchStridedMkl cj alpha x y beta c mem = .ok mem' := by
  unfold gemmBatchStrided at h
  unfold gemmBatchStridedMkl
  split at h
  · rename_i hC
    rw [if_pos hC]
    split at h
    · cases h
    · rename_i hx
      rw [if_neg hx]
      simp only [Mkl.bind_iff, Mkl.orUb_iff] at h ⊢
      obtain ⟨yT, hyT, xT, hxT, cT, hcT, h⟩ := h
      exact ⟨yT, hyT, xT, hxT, cT, hcT, Mkl.strided cj alpha _ _ beta cT mem mem' h⟩
  · rename_i hC
    rw [if_neg hC]
    exact Mkl.strided cj alpha x y beta c mem mem' h

/-- The batch of `Props/Batch.lean` and two stacks, through MKL. -/
example : (gemmBatchMkl true id 1 [⟨exC 0 2, false⟩, ⟨exC 4 3, false⟩] [⟨exC 10 2, false⟩, ⟨exC 10 2, false⟩] 10 [exC 14 2, exC 18 2] exBatchMem) =
    gemmBatch true id 1 [⟨exC 0 2, false⟩, ⟨exC 4 3, false⟩] [⟨exC 10 2, false⟩, ⟨exC 10 2, false⟩] 10 [exC 14 2, exC 18 2] exBatchMem := C55_mkl_batch _ _ _ _ _ _ _ _ _ (by decide) rfl rfl
example : (gemmBatchMkl false id 1 [⟨exC 0 2, false⟩, ⟨exC 0 2, false⟩] [⟨exC 10 2, false⟩, ⟨exC 0 2, false⟩] 10 [exC 14 2, exC 18 2] exBatchMem).map (·.drop 14) =
    .ok [11, 12, 13, 14, 27, 30, 35, 42] := by decide
example : (gemmBatchStridedMkl id (1 : Int) ⟨exS 0 2 1 2, false⟩ ⟨exS 4 2 2 1, false⟩ 100 (exS 8 2 1 1) [1, 2, 3, 4, 5, 6, 7, 8, 1, 2]).map (·.drop 8) = .ok [117, 253] := by decide

/-- The other way round it does not hold: in the loop the product of the position and the stride is an `int`, which overflows for stacks of more than 2^31 elements (here of matrices without
rows, so that nothing has to be stored). -/
theorem C55_overflow_witness : gemmBatchStrided id (1 : Int) ⟨⟨0, ⟨[3, 0, 1], [1073741824, 1, 1], [0, 2, 1], [0, 0, 0], .none⟩⟩, false⟩ ⟨⟨0, ⟨[3, 1, 0], [1073741824, 1, 1], [0, 2, 1], [0, 0, 0], .none⟩⟩, false⟩ 0
      ⟨0, ⟨[3, 0, 0], [1073741824, 1, 1], [0, 2, 1], [0, 0, 0], .none⟩⟩ [] = .error .ub ∧
    gemmBatchStridedMkl id (1 : Int) ⟨⟨0, ⟨[3, 0, 1], [1073741824, 1, 1], [0, 2, 1], [0, 0, 0], .none⟩⟩, false⟩ ⟨⟨0, ⟨[3, 1, 0], [1073741824, 1, 1], [0, 2, 1], [0, 0, 0], .none⟩⟩, false⟩ 0
      ⟨0, ⟨[3, 0, 0], [1073741824, 1, 1], [0, 2, 1], [0, 0, 0], .none⟩⟩ [] = .ok [] := by decide

end Nda.Blas
