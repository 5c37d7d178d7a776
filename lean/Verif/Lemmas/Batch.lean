import Verif.Model.Batch
import Verif.Spec.Batch
import Verif.Lemmas.Blas
import Verif.Lemmas.Fresh
/-!
# Lemmas for batches of matrix products
-/
namespace Nda.Blas
open Nda LayoutTransforms Assign Loops Matrix Nda.Spec Nda.Perm

variable {α : Type}

theorem foldlM_except_inv {σ ε : Type} {f : σ → Nat → Except ε σ} (P : Nat → σ → Prop) : ∀ (n : Nat) (s : σ), P 0 s → (∀ k s, k < n → P k s → ∃ s', f s k = .ok s' ∧ P (k + 1) s') →
    ∃ s', (List.range n).foldlM f s = .ok s' ∧ P n s' := by
  intro n
  induction n with
  | zero => intro s h _; exact ⟨s, rfl, h⟩
  | succ n ih =>
    intro s h0 hs
    obtain ⟨s1, e1, p1⟩ := ih s h0 (fun k s hk => hs k s (by omega))
    obtain ⟨s2, e2, p2⟩ := hs n s1 (by omega) p1
    refine ⟨s2, ?_, p2⟩
    rw [List.range_succ, List.foldlM_append, e1]
    simp only [bind, Except.bind, List.foldlM_cons, List.foldlM_nil, e2]
    rfl

/-- A loop whose steps update views apart from each other. -/
theorem loop_updates {step : Nat → List α → Except Err (List α)} {n : Nat} {mem : List α} {c : Nat → View} {value : Nat → List Int → Option α}
    (hsep : ∀ i j, i < n → j < n → i ≠ j → Separate (c i) (c j))
    (hstep : ∀ i, i < n → ∀ m1 : List α, m1.length = mem.length → (∀ k, (∀ j, j < i → ¬ Occupies (c j) k) → val m1 k = val mem k) → ∃ m2, step i m1 = .ok m2 ∧ Updated (c i) (value i) m1 m2) :
    ∃ mem', (List.range n).foldlM (fun m i => step i m) mem = .ok mem' ∧ AllUpdated n c value mem mem' := by
  apply foldlM_except_inv (P := fun j m => AllUpdated j c value mem m)
  · exact ⟨rfl, fun i hi => absurd hi (by omega), fun _ _ => rfl⟩
  · intro j m hj hm
    obtain ⟨m2, e, hu⟩ := hstep j hj m hm.size hm.frame
    refine ⟨m2, e, by rw [hu.size, hm.size], ?_, ?_⟩
    · intro i hi idx hin
      by_cases hij : i = j
      · subst hij; exact hu.elems idx hin
      · rw [hu.frame, hm.elems i (by omega) idx hin]
        rintro ⟨jdx, hj', he⟩
        exact hsep i j (by omega) hj hij idx jdx hin hj' he.symm
    · intro k hk
      rw [hu.frame k (hk j (by omega)), hm.frame k (fun i hi => hk i (by omega))]

/-- Inputs apart from the outputs keep their entries. -/
theorem entries_keep {v : View} {n0 n1 : Int} {mem m1 : List α} {x : Int → Int → α} {c : Nat → View} {i : Nat} (hl : v.lay.len = [n0, n1]) (h : Entries v n0 n1 mem x)
    (hs : ∀ j, j < i → Separate v (c j)) (hk : ∀ k, (∀ j, j < i → ¬ Occupies (c j) k) → val m1 k = val mem k) : Entries v n0 n1 m1 x := by
  intro p q a b c' d
  rw [hk, h p q a b c' d]
  rintro j hj ⟨idx, hi, he⟩
  exact hs j hj [p, q] idx (by rw [hl, inRange2]; exact ⟨p, q, rfl, a, b, c', d⟩) hi he.symm

/-- The data of a batch. -/
structure Batch (α : Type) where
  n : Nat
  x : Nat → View
  y : Nat → View
  c : Nat → View
  conjX : Bool
  conjY : Bool
  n0 : Nat → Int
  n1 : Nat → Int
  n2 : Nat → Int
  fx : Bool
  fy : Bool
  fc : Bool
  lx : Nat → Int
  ly : Nat → Int
  lc : Nat → Int
  A : Nat → Int → Int → α
  B : Nat → Int → Int → α
  C : Nat → Int → Int → α

/-- What the loop over `gemm` needs. -/
structure Batch.OK (b : Batch α) (mem : List α) : Prop where
  hx : ∀ i, i < b.n → LMat (b.x i) (b.n0 i) (b.n1 i) mem.length b.fx (b.lx i)
  hy : ∀ i, i < b.n → LMat (b.y i) (b.n1 i) (b.n2 i) mem.length b.fy (b.ly i)
  hc : ∀ i, i < b.n → LMat (b.c i) (b.n0 i) (b.n2 i) mem.length b.fc (b.lc i)
  hA : ∀ i, i < b.n → Entries (b.x i) (b.n0 i) (b.n1 i) mem (b.A i)
  hB : ∀ i, i < b.n → Entries (b.y i) (b.n1 i) (b.n2 i) mem (b.B i)
  hC : ∀ i, i < b.n → Entries (b.c i) (b.n0 i) (b.n2 i) mem (b.C i)
  vx : b.conjX = true → b.fx ≠ b.fc
  vy : b.conjY = true → b.fy ≠ b.fc
  sx : ∀ i j, i < b.n → j < b.n → Separate (b.x i) (b.c j)
  sy : ∀ i j, i < b.n → j < b.n → Separate (b.y i) (b.c j)
  sc : ∀ i j, i < b.n → j < b.n → i ≠ j → Separate (b.c i) (b.c j)

/-- The new values. -/
def Batch.value [CommSemiring α] (b : Batch α) (cj : α → α) (alpha beta : α) (i : Nat) (idx : List Int) : Option α :=
  some (gemmValue cj alpha b.conjX (b.A i) b.conjY (b.B i) beta (b.C i) (b.n1 i) (idx.getD 0 0) (idx.getD 1 0))

/-- The loop over the Fortran branch of `gemm`. -/
theorem Batch.OK.loop [CommSemiring α] [DecidableEq α] (cj : α → α) (alpha beta : α) {b : Batch α} {mem : List α} (h : b.OK mem) (hf : b.fc = true) :
    ∃ mem', (List.range b.n).foldlM (fun m i => gemmFortran cj alpha ⟨b.x i, b.conjX⟩ ⟨b.y i, b.conjY⟩ beta (b.c i) m) mem = .ok mem' ∧ AllUpdated b.n b.c (b.value cj alpha beta) mem mem' := by
  apply loop_updates (step := fun i m => gemmFortran cj alpha ⟨b.x i, b.conjX⟩ ⟨b.y i, b.conjY⟩ beta (b.c i) m) h.sc
  intro i hi m1 hl hk
  have hhc := h.hc i hi
  rw [hf] at hhc
  exact gemmFortran_eq cj alpha beta (x := ⟨b.x i, b.conjX⟩) (y := ⟨b.y i, b.conjY⟩) (by rw [hl]; exact h.hx i hi) (by rw [hl]; exact h.hy i hi) (by rw [hl]; exact hhc)
    (entries_keep (h.hx i hi).len (h.hA i hi) (fun j hj => h.sx i j hi (by omega)) hk)
    (entries_keep (h.hy i hi).len (h.hB i hi) (fun j hj => h.sy i j hi (by omega)) hk)
    (entries_keep (h.hc i hi).len (h.hC i hi) (fun j hj => h.sc i j hi (by omega) (by omega)) hk)
    (fun hv => by have := h.vx hv; rw [hf] at this; simpa using this) (fun hv => by have := h.vy hv; rw [hf] at this; simpa using this) (h.sx i i hi hi) (h.sy i i hi hi)

/-- The transposed batch. -/
theorem Batch.OK.transpose {b : Batch α} {mem : List α} (h : b.OK mem) : ∃ x' y' c' : Nat → View,
    (∀ i, i < b.n → transposeMatrix (b.x i) = some (x' i) ∧ ∀ p q, addr (x' i) [p, q] = addr (b.x i) [q, p]) ∧
    (∀ i, i < b.n → transposeMatrix (b.y i) = some (y' i) ∧ ∀ p q, addr (y' i) [p, q] = addr (b.y i) [q, p]) ∧
    (∀ i, i < b.n → transposeMatrix (b.c i) = some (c' i) ∧ (c' i).lay.len = [b.n2 i, b.n0 i] ∧ ∀ p q, addr (c' i) [p, q] = addr (b.c i) [q, p]) ∧
    Batch.OK ⟨b.n, y', x', c', b.conjY, b.conjX, b.n2, b.n1, b.n0, !b.fy, !b.fx, !b.fc, b.ly, b.lx, b.lc, fun i p q => b.B i q p, fun i p q => b.A i q p, fun i p q => b.C i q p⟩ mem := by
  haveI : Nonempty View := ⟨⟨0, ⟨[], [], [], [], .none⟩⟩⟩
  have tx : ∀ i, i < b.n → ∃ v', transposeMatrix (b.x i) = some v' ∧ LMat v' (b.n1 i) (b.n0 i) mem.length (!b.fx) (b.lx i) ∧ ∀ p q, addr v' [p, q] = addr (b.x i) [q, p] := fun i hi => (h.hx i hi).transpose
  have ty : ∀ i, i < b.n → ∃ v', transposeMatrix (b.y i) = some v' ∧ LMat v' (b.n2 i) (b.n1 i) mem.length (!b.fy) (b.ly i) ∧ ∀ p q, addr v' [p, q] = addr (b.y i) [q, p] := fun i hi => (h.hy i hi).transpose
  have tc : ∀ i, i < b.n → ∃ v', transposeMatrix (b.c i) = some v' ∧ LMat v' (b.n2 i) (b.n0 i) mem.length (!b.fc) (b.lc i) ∧ ∀ p q, addr v' [p, q] = addr (b.c i) [q, p] := fun i hi => (h.hc i hi).transpose
  choose! x' ex lx ax using tx
  choose! y' ey ly ay using ty
  choose! c' ec lc ac using tc
  have hsep : ∀ {z zv d dv : View} {p q r s : Int}, z.lay.len = [p, q] → zv.lay.len = [q, p] → d.lay.len = [r, s] → dv.lay.len = [s, r] → (∀ i j, addr zv [i, j] = addr z [j, i]) →
      (∀ i j, addr dv [i, j] = addr d [j, i]) → Separate z d → Separate zv dv := by
    intro z zv d dv p q r s hz hzv hd hdv haz had hs idx jdx hi hj
    rw [hzv, inRange2] at hi
    rw [hdv, inRange2] at hj
    obtain ⟨i, j, rfl, p⟩ := hi
    obtain ⟨i', j', rfl, q⟩ := hj
    rw [haz, had]
    exact separate2 hs hz hd ⟨p.2.2.1, p.2.2.2⟩ ⟨p.1, p.2.1⟩ ⟨q.2.2.1, q.2.2.2⟩ ⟨q.1, q.2.1⟩
  refine ⟨x', y', c', fun i hi => ⟨ex i hi, ax i hi⟩, fun i hi => ⟨ey i hi, ay i hi⟩, fun i hi => ⟨ec i hi, (lc i hi).len, ac i hi⟩, ?_⟩
  refine ⟨ly, lx, lc, ?_, ?_, ?_, ?_, ?_, ?_, ?_, ?_⟩
  · intro i hi p q a b' c d; rw [ay i hi]; exact h.hB i hi q p c d a b'
  · intro i hi p q a b' c d; rw [ax i hi]; exact h.hA i hi q p c d a b'
  · intro i hi p q a b' c d; rw [ac i hi]; exact h.hC i hi q p c d a b'
  · intro hv; simpa using h.vy hv
  · intro hv; simpa using h.vx hv
  · intro i j hi hj; exact hsep (h.hy i hi).len (ly i hi).len (h.hc j hj).len (lc j hj).len (ay i hi) (ac j hj) (h.sy i j hi hj)
  · intro i j hi hj; exact hsep (h.hx i hi).len (lx i hi).len (h.hc j hj).len (lc j hj).len (ax i hi) (ac j hj) (h.sx i j hi hj)
  · intro i j hi hj hn; exact hsep (h.hc i hi).len (lc i hi).len (h.hc j hj).len (lc j hj).len (ac i hi) (ac j hj) (h.sc i j hi hj hn)

/-- The result of the transposed batch is that of the batch. -/
theorem updated_transpose [CommSemiring α] {b : Batch α} {mem mem' : List α} (cj : α → α) (alpha beta : α) {x' y' c' : Nat → View} (h : b.OK mem)
    (hc : ∀ i, i < b.n → (c' i).lay.len = [b.n2 i, b.n0 i] ∧ ∀ p q, addr (c' i) [p, q] = addr (b.c i) [q, p])
    (hu : AllUpdated b.n c' (Batch.value (⟨b.n, y', x', c', b.conjY, b.conjX, b.n2, b.n1, b.n0, !b.fy, !b.fx, !b.fc, b.ly, b.lx, b.lc, fun i p q => b.B i q p, fun i p q => b.A i q p,
      fun i p q => b.C i q p⟩ : Batch α) cj alpha beta) mem mem') : AllUpdated b.n b.c (b.value cj alpha beta) mem mem' := by
  refine ⟨hu.size, ?_, ?_⟩
  · intro i hi idx hin
    rw [(h.hc i hi).len, inRange2] at hin
    obtain ⟨p, q, rfl, h0, h1, h2, h3⟩ := hin
    rw [← (hc i hi).2, hu.elems i hi [q, p] (by rw [(hc i hi).1, inRange2]; exact ⟨q, p, rfl, h2, h3, h0, h1⟩)]
    simp only [Batch.value, gemmValue, List.getD_cons_zero, List.getD_cons_succ, Option.some.injEq]
    congr 2
    apply sumTo_congr
    intro l _ _
    unfold mayConj
    exact mul_comm _ _
  · intro k hk
    apply hu.frame
    rintro i hi ⟨idx, hin, he⟩
    rw [(hc i hi).1, inRange2] at hin
    obtain ⟨p, q, rfl, h0, h1, h2, h3⟩ := hin
    rw [(hc i hi).2] at he
    exact hk i hi ⟨[q, p], by rw [(h.hc i hi).len, inRange2]; exact ⟨q, p, rfl, h2, h3, h0, h1⟩, he⟩

theorem rd_range_map {β : Type} {n : Nat} {f : Nat → β} {i : Nat} (hi : i < n) : rd ((List.range n).map f) i = some (f i) := by
  simp [rd, List.getElem?_map, List.getElem?_range hi]

theorem mapM_range {β γ : Type} {n : Nat} {f : Nat → β} {g : β → Option γ} {f' : Nat → γ} (h : ∀ i, i < n → g (f i) = some (f' i)) : ((List.range n).map f).mapM g = some ((List.range n).map f') := by
  rw [List.mapM_map]
  exact mapM_some (f := g ∘ f) (g := f') (fun i hi => h i (List.mem_range.mp hi))

/-- Sizes and leading dimensions do not vary, or each matrix comes with its own. -/
def Batch.Uniform (vb : Bool) (b : Batch α) : Prop :=
  vb = true ∨ ∀ i, i < b.n → b.n0 i = b.n0 0 ∧ b.n1 i = b.n1 0 ∧ b.n2 i = b.n2 0 ∧ b.lx i = b.lx 0 ∧ b.ly i = b.ly 0 ∧ b.lc i = b.lc 0

theorem foldlM_except_congr {σ β ε : Type} {f g : σ → β → Except ε σ} : ∀ (l : List β) (s : σ), (∀ x ∈ l, ∀ s, f s x = g s x) → l.foldlM f s = l.foldlM g s
  | [], _, _ => rfl
  | x :: l, s, h => by
    rw [List.foldlM_cons, List.foldlM_cons, h x (by simp)]
    congr 1
    funext s'
    exact foldlM_except_congr l s' (fun y hy => h y (by simp [hy]))

/-- The Fortran branch of `gemm_batch` is the loop over the Fortran branch of `gemm`. -/
theorem batchFortran_loop [CommSemiring α] [DecidableEq α] (vb : Bool) (cj : α → α) (alpha beta : α) {b : Batch α} {mem : List α} (h : b.OK mem) (hf : b.fc = true) (hn : 0 < b.n) (hu : b.Uniform vb) :
    gemmBatchFortran vb cj alpha ((List.range b.n).map (fun i => ⟨b.x i, b.conjX⟩)) ((List.range b.n).map (fun i => ⟨b.y i, b.conjY⟩)) beta ((List.range b.n).map b.c) mem =
      (List.range b.n).foldlM (fun m i => gemmFortran cj alpha ⟨b.x i, b.conjX⟩ ⟨b.y i, b.conjY⟩ beta (b.c i) m) mem := by
  have op : ∀ {z : View} {p q l : Int} {f cj : Bool} {N : Nat}, LMat z p q N f l → (cj = true → f ≠ b.fc) → ∃ t, getOp cj (hasC z) = .ok t ∧ getOp cj (!f) = .ok t := by
    intro z p q l f cj N hz hv
    rw [hz.hasC_eq]
    cases cj <;> cases f <;> simp [hf, getOp] at hv ⊢
  obtain ⟨ta, hta, hta'⟩ := op (h.hx 0 hn) h.vx
  obtain ⟨tb, htb, htb'⟩ := op (h.hy 0 hn) h.vy
  unfold gemmBatchFortran
  rw [rd_range_map hn, rd_range_map hn, rd_range_map hn]
  simp only [orUb, bind, Except.bind, hta, htb, List.length_map, List.length_range]
  apply foldlM_except_congr
  intro i hi m
  rw [List.mem_range] at hi
  rw [rd_range_map hi, rd_range_map hi, rd_range_map hi]
  have r0 : rd (b.x i).lay.len 0 = some (b.n0 i) := by rw [(h.hx i hi).len]; rfl
  have r1 : rd (b.x i).lay.len 1 = some (b.n1 i) := by rw [(h.hx i hi).len]; rfl
  have r2 : rd (b.y i).lay.len 1 = some (b.n2 i) := by rw [(h.hy i hi).len]; rfl
  have oa : getOp b.conjX (hasC (b.x i)) = .ok ta := by rw [(h.hx i hi).hasC_eq, hta']
  have ob : getOp b.conjY (hasC (b.y i)) = .ok tb := by rw [(h.hy i hi).hasC_eq, htb']
  have e1 : rd (if vb = true then (⟨b.x i, b.conjX⟩ : Mat) else ⟨b.x 0, b.conjX⟩).v.lay.len 0 = some (b.n0 i) := by
    rcases hu with rfl | hu
    · exact r0
    · cases vb
      · show rd (b.x 0).lay.len 0 = _
        rw [(h.hx 0 hn).len, (hu i hi).1]; rfl
      · exact r0
  have e2 : rd (if vb = true then (⟨b.x i, b.conjX⟩ : Mat) else ⟨b.x 0, b.conjX⟩).v.lay.len 1 = some (b.n1 i) := by
    rcases hu with rfl | hu
    · exact r1
    · cases vb
      · show rd (b.x 0).lay.len 1 = _
        rw [(h.hx 0 hn).len, (hu i hi).2.1]; rfl
      · exact r1
  have e3 : rd (if vb = true then (⟨b.y i, b.conjY⟩ : Mat) else ⟨b.y 0, b.conjY⟩).v.lay.len 1 = some (b.n2 i) := by
    rcases hu with rfl | hu
    · exact r2
    · cases vb
      · show rd (b.y 0).lay.len 1 = _
        rw [(h.hy 0 hn).len, (hu i hi).2.2.1]; rfl
      · exact r2
  have e4 : getLd (if vb = true then (⟨b.x i, b.conjX⟩ : Mat) else ⟨b.x 0, b.conjX⟩).v = some (b.lx i) := by
    rcases hu with rfl | hu
    · exact (h.hx i hi).ld_eq
    · cases vb
      · rw [(hu i hi).2.2.2.1]; exact (h.hx 0 hn).ld_eq
      · exact (h.hx i hi).ld_eq
  have e5 : getLd (if vb = true then (⟨b.y i, b.conjY⟩ : Mat) else ⟨b.y 0, b.conjY⟩).v = some (b.ly i) := by
    rcases hu with rfl | hu
    · exact (h.hy i hi).ld_eq
    · cases vb
      · rw [(hu i hi).2.2.2.2.1]; exact (h.hy 0 hn).ld_eq
      · exact (h.hy i hi).ld_eq
  have e6 : getLd (if vb = true then b.c i else b.c 0) = some (b.lc i) := by
    rcases hu with rfl | hu
    · exact (h.hc i hi).ld_eq
    · cases vb
      · rw [(hu i hi).2.2.2.2.2]; exact (h.hc 0 hn).ld_eq
      · exact (h.hc i hi).ld_eq
  simp only [e1, e2, e3, e4, e5, e6, gemmFortran, oa, ob, r0, r1, r2, (h.hx i hi).ld_eq, (h.hy i hi).ld_eq, (h.hc i hi).ld_eq, orUb, bind, Except.bind]

/-- `gemm_batch` and `gemm_vbatch`. -/
theorem Batch.OK.gemmBatch_eq [CommSemiring α] [DecidableEq α] (vb : Bool) (cj : α → α) (alpha beta : α) {b : Batch α} {mem : List α} (h : b.OK mem) (hu : b.Uniform vb) :
    ∃ mem', gemmBatch vb cj alpha ((List.range b.n).map (fun i => ⟨b.x i, b.conjX⟩)) ((List.range b.n).map (fun i => ⟨b.y i, b.conjY⟩)) beta ((List.range b.n).map b.c) mem = .ok mem' ∧
      AllUpdated b.n b.c (b.value cj alpha beta) mem mem' := by
  by_cases hn : b.n = 0
  · refine ⟨mem, by rw [hn]; rfl, rfl, fun i hi => absurd hi (by omega), fun _ _ => rfl⟩
  have hn : 0 < b.n := by omega
  have hne : ((List.range b.n).map (fun i => (⟨b.x i, b.conjX⟩ : Mat))).isEmpty = false := by
    rw [List.isEmpty_eq_false_iff]; simp; omega
  unfold gemmBatch
  rw [hne, rd_range_map hn]
  simp only [Bool.false_eq_true, if_false, orUb, bind, Except.bind, (h.hc 0 hn).hasC_eq]
  cases hf : b.fc with
  | true =>
    obtain ⟨mem', e, u⟩ := h.loop cj alpha beta hf
    refine ⟨mem', ?_, u⟩
    simp only [Bool.not_true, Bool.false_eq_true, if_false]
    rw [batchFortran_loop vb cj alpha beta h hf hn hu, e]
  | false =>
    obtain ⟨x', y', c', tx, ty, tc, ht⟩ := h.transpose
    obtain ⟨mem', e, u⟩ := ht.loop cj alpha beta (by simp [hf])
    refine ⟨mem', ?_, updated_transpose cj alpha beta h (fun i hi => (tc i hi).2) u⟩
    have m1 : ((List.range b.n).map (fun i => (⟨b.y i, b.conjY⟩ : Mat))).mapM Mat.transpose = some ((List.range b.n).map (fun i => (⟨y' i, b.conjY⟩ : Mat))) :=
      mapM_range (fun i hi => by simp [Mat.transpose, (ty i hi).1])
    have m2 : ((List.range b.n).map (fun i => (⟨b.x i, b.conjX⟩ : Mat))).mapM Mat.transpose = some ((List.range b.n).map (fun i => (⟨x' i, b.conjX⟩ : Mat))) :=
      mapM_range (fun i hi => by simp [Mat.transpose, (tx i hi).1])
    have m3 : ((List.range b.n).map b.c).mapM transposeMatrix = some ((List.range b.n).map c') := mapM_range (fun i hi => (tc i hi).1)
    simp only [Bool.not_false, if_true, m1, m2, m3]
    rw [← e]
    refine batchFortran_loop vb cj alpha beta ht (by simp [hf]) hn ?_
    rcases hu with hu | hu
    · exact Or.inl hu
    · right
      intro i hi
      obtain ⟨a, b', c, d, e, f⟩ := hu i hi
      exact ⟨c, b', a, e, d, f⟩

end Nda.Blas
