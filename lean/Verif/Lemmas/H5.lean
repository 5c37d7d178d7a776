import Verif.Model.H5
import Verif.Lemmas.SliceArgs
import Verif.Lemmas.Order
/-!
# The loop over the arguments of a file slice
-/
namespace Nda.H5
open Nda Loops Nda.Spec Nda.Slice

/-- The effect of an argument on dimension `n`. -/
def act (lengths : List Int) (st : SlabSt) (a : Arg × Nat) : Option SlabSt :=
  match a.1 with
  | .idx i => do
      let s ← upd st.1 a.2 (fun d => { d with offset := hsize i, count := 1 })
      return (s, st.2)
  | .ell => none
  | .rng f la step => do
      let c ← rangeSize f la step
      let s ← upd st.1 a.2 (fun _ => ⟨hsize f, hsize step, c⟩)
      let sh ← wr st.2.1 st.2.2 c
      return (s, sh, st.2.2 + 1)
  | .all => fullDim lengths a.2 st

theorem slabArg_eq {lengths : List Int} {ePos : Nat} {w : Int} {st : SlabSt} {a : Arg} {q n : Nat} (ha : a ≠ .ell)
    (hn : (if ePos < q then (q : Int) + (w - 1) else q) = n) : slabArg lengths ePos w st (a, q) = act lengths st (a, n) := by
  unfold slabArg act
  simp only [hn]
  cases a <;> first | rfl | exact absurd rfl ha

theorem foldlM_congr' {σ β γ : Type} (f : σ → β → Option σ) (g : σ → γ → Option σ) : ∀ (l : List β) (m : List γ), List.Forall₂ (fun b c => ∀ s, f s b = g s c) l m → ∀ s, l.foldlM f s = m.foldlM g s := by
  intro l m h
  induction h with
  | nil => intro s; rfl
  | cons h _ ih =>
    intro s
    rw [List.foldlM_cons, List.foldlM_cons, h]
    congr 1
    funext s'
    exact ih s'

/-- Ellipsis-free arguments whose positions are shifted by a constant. -/
theorem loop_shift {lengths : List Int} {ePos : Nat} {w : Int} : ∀ (as : List Arg) (q n : Nat), as.count .ell = 0 →
    (∀ j, j < as.length → (if ePos < q + j then ((q + j : Nat) : Int) + (w - 1) else (q + j : Nat)) = ((n + j : Nat) : Int)) →
    ∀ st, (as.zipIdx q).foldlM (slabArg lengths ePos w) st = (as.zipIdx n).foldlM (act lengths) st := by
  intro as
  induction as with
  | nil => intros; rfl
  | cons a as ih =>
    intro q n hc h st
    rw [List.count_eq_zero, List.mem_cons, not_or] at hc
    rw [List.zipIdx_cons, List.zipIdx_cons, List.foldlM_cons, List.foldlM_cons,
      slabArg_eq (n := n) (fun e => hc.1 e.symm) (by simpa using h 0 (by simp))]
    congr 1
    funext s'
    refine ih (q + 1) (n + 1) (List.count_eq_zero.mpr hc.2) ?_ s'
    intro j hj
    have := h (j + 1) (by simp; omega)
    rwa [show q + 1 + j = q + (j + 1) by omega, show n + 1 + j = n + (j + 1) by omega]

/-- The ellipsis is a sequence of full dimensions. -/
theorem loop_ell {lengths : List Int} : ∀ (k n : Nat) (st : SlabSt),
    (List.range k).foldlM (fun st (j : Nat) => fullDim lengths ((n : Int) + Int.ofNat j) st) st = ((List.replicate k Arg.all).zipIdx n).foldlM (act lengths) st := by
  intro k n st
  apply foldlM_congr'
  rw [List.forall₂_iff_get]
  refine ⟨by simp, ?_⟩
  intro i h1 h2 s
  simp [act]

theorem posSum_one (pre post : List Arg) (k : Nat) (h1 : pre.count .ell = 0) (h2 : post.count .ell = 0) :
    (((pre ++ Arg.ell :: post).zipIdx k).map (fun (a : Arg × Nat) => if a.1 = .ell then a.2 else 0)).sum = k + pre.length := by
  have hz : ∀ (as : List Arg) (k : Nat), as.count .ell = 0 → ((as.zipIdx k).map (fun (a : Arg × Nat) => if a.1 = .ell then a.2 else 0)).sum = 0 := by
    intro as
    induction as with
    | nil => intros; rfl
    | cons a as ih =>
      intro k h
      rw [List.count_eq_zero, List.mem_cons, not_or] at h
      rw [List.zipIdx_cons, List.map_cons, List.sum_cons, ih _ (List.count_eq_zero.mpr h.2), if_neg (fun e => h.1 e.symm)]
  rw [List.zipIdx_append, List.map_append, List.sum_append, hz _ _ h1, List.zipIdx_cons, List.map_cons, List.sum_cons, hz _ _ h2]
  simp

theorem hcnt (l : List Arg) : l.countP isRange + l.countP (fun a => !isRange a) = l.length := by
  induction l with
  | nil => rfl
  | cons a l ih => cases h : isRange a <;> simp [h] <;> omega

/-- The loop over the arguments is the loop over the dimensions, with the ellipsis expanded. -/
theorem loop_expand {N : Nat} {args : List Arg} (hf : Fits N args) (lengths : List Int) (nDim : Nat) (hd : nDim = (expand N args).countP isRange) (st : SlabSt) :
    args.count .ell < 2 ∧ args.countP (fun a => !isRange a) = (expand N args).countP (fun a => !isRange a) ∧
    ((args.count .ell = 1 ∧ args.length - args.countP (fun a => !isRange a) - args.count .ell ≤ nDim) ∨ args.length - args.countP (fun a => !isRange a) - args.count .ell = nDim) ∧
    (args.zipIdx).foldlM (slabArg lengths (ePosition args) ((nDim : Int) - (args.length - args.countP (fun a => !isRange a) - args.count .ell : Nat))) st =
      ((expand N args).zipIdx).foldlM (act lengths) st := by
  rcases hf with ⟨h0, hl⟩ | ⟨h1, hl⟩
  · rw [expand_none N h0] at hd ⊢
    have := hcnt args
    refine ⟨by omega, rfl, Or.inr (by omega), ?_⟩
    refine loop_shift args 0 0 h0 ?_ st
    intro j hj
    rw [if_neg]
    rw [ePosition, if_neg (by omega)]
    omega
  · obtain ⟨pre, post, rfl, hp, hq⟩ := split_ell h1
    rw [expand_one N hp hq] at hd ⊢
    have hep : ePosition (pre ++ Arg.ell :: post) = pre.length := by
      rw [ePosition, if_pos h1, posSum_one pre post 0 hp hq, Nat.zero_add]
    obtain ⟨k, hk⟩ : ∃ k, N + 1 - (pre ++ Arg.ell :: post).length = k := ⟨_, rfl⟩
    rw [hk] at hd ⊢
    rw [hep]
    have e1 := hcnt pre
    have e2 := hcnt post
    have hrep : (List.replicate k Arg.all).countP isRange = k := by simp [List.countP_replicate, isRange]
    have hrep' : (List.replicate k Arg.all).countP (fun a => !isRange a) = 0 := by simp [List.countP_replicate, isRange]
    rw [List.countP_append, List.countP_append, hrep] at hd
    have hr : (pre ++ Arg.ell :: post).length - (pre ++ Arg.ell :: post).countP (fun a => !isRange a) - (pre ++ Arg.ell :: post).count .ell = pre.countP isRange + post.countP isRange := by
      rw [h1, List.countP_append, List.countP_cons, List.length_append, List.length_cons, show (!isRange Arg.ell) = false from rfl]
      simp only [Bool.false_eq_true, if_false]
      omega
    refine ⟨by omega, ?_, Or.inl ⟨h1, by omega⟩, ?_⟩
    · simp only [List.countP_append, List.countP_cons, hrep']; simp [isRange]
    · rw [hr, show (nDim : Int) - (pre.countP isRange + post.countP isRange : Nat) = k by omega]
      rw [List.zipIdx_append, List.foldlM_append, List.zipIdx_cons, List.append_assoc, List.zipIdx_append, List.foldlM_append, List.zipIdx_append]
      rw [loop_shift pre 0 0 hp (by intro j hj; rw [if_neg (by omega)])]
      congr 1
      funext s'
      rw [List.foldlM_cons, List.foldlM_append]
      have he : slabArg lengths pre.length k s' (Arg.ell, 0 + pre.length) = ((List.replicate k Arg.all).zipIdx (0 + pre.length)).foldlM (act lengths) s' := by
        rw [← loop_ell]
        simp [slabArg]
      rw [he]
      congr 1
      funext s''
      rw [List.length_replicate]
      refine loop_shift post _ _ hq ?_ s''
      intro j hj
      rw [if_pos (by omega)]
      omega

/-- What an argument asks of a dimension of extent `l`: the selection and the extents of the result. -/
def want (a : Arg) (l : Int) : Option (Dim × List Int) :=
  match a with
  | .idx i => some (⟨hsize i, 1, 1⟩, [])
  | .all => some (⟨0, 1, l⟩, [l])
  | .rng f la st => (rangeSize f la st).map (fun c => (⟨hsize f, hsize st, c⟩, [c]))
  | .ell => none

/-- All dimensions. -/
def wants : List Arg → List Int → Option (List Dim × List Int)
  | [], [] => some ([], [])
  | a :: as, l :: ls => do
      let x ← want a l
      let r ← wants as ls
      return (x.1 :: r.1, x.2 ++ r.2)
  | _, _ => none

theorem upd_mid (A R : List Dim) (d : Dim) (f : Dim → Dim) : upd (A ++ d :: R) (A.length : Int) f = some (A ++ f d :: R) := by
  have h1 : rdInt (A ++ d :: R) (A.length : Int) = some d := by simp [rdInt]
  unfold upd
  rw [h1]
  simp [wrInt, wr]

theorem wr_mid {γ : Type} (A R : List γ) (d x : γ) : wr (A ++ d :: R) A.length x = some (A ++ x :: R) := by simp [wr]

theorem act_want {a : Arg} {l : Int} {d : Dim} {sh : List Int} (h : want a l = some (d, sh)) (Lp Lq : List Int) (A R : List Dim) (S : List Int) (z : Nat) (hA : A.length = Lp.length) :
    act (Lp ++ l :: Lq) (A ++ ⟨0, 1, 0⟩ :: R, S ++ List.replicate (sh.length + z) 0, S.length) (a, A.length) = some (A ++ d :: R, (S ++ sh) ++ List.replicate z 0, (S ++ sh).length) := by
  have hrd : rdInt (Lp ++ l :: Lq) (A.length : Int) = some l := by rw [hA]; simp [rdInt]
  cases a with
  | ell => simp [want] at h
  | idx i =>
    simp only [want, Option.some.injEq, Prod.mk.injEq] at h
    obtain ⟨rfl, rfl⟩ := h
    simp [act, upd_mid]
  | all =>
    simp only [want, Option.some.injEq, Prod.mk.injEq] at h
    obtain ⟨rfl, rfl⟩ := h
    rw [List.length_singleton, Nat.add_comm, List.replicate_succ]
    simp [act, fullDim, hrd, upd_mid, wr_mid]
  | rng f la st =>
    simp only [want, Option.map_eq_some_iff, Prod.mk.injEq] at h
    obtain ⟨c, hc, rfl, rfl⟩ := h
    rw [List.length_singleton, Nat.add_comm, List.replicate_succ]
    simp [act, hc, upd_mid, wr_mid]

theorem loop_wants : ∀ (E : List Arg) (L : List Int) (D : List Dim) (sh : List Int), wants E L = some (D, sh) → ∀ (Lp Lq : List Int) (A R : List Dim) (S : List Int) (z : Nat), A.length = Lp.length →
    (E.zipIdx A.length).foldlM (act (Lp ++ (L ++ Lq))) (A ++ (List.replicate L.length ⟨0, 1, 0⟩ ++ R), S ++ List.replicate (sh.length + z) 0, S.length) =
      some (A ++ (D ++ R), (S ++ sh) ++ List.replicate z 0, (S ++ sh).length)
  | [], [], D, sh, h, Lp, Lq, A, R, S, z, hA => by
    simp only [wants, Option.some.injEq, Prod.mk.injEq] at h
    obtain ⟨rfl, rfl⟩ := h
    simp
  | [], _ :: _, D, sh, h, _, _, _, _, _, _, _ => by simp [wants] at h
  | _ :: _, [], D, sh, h, _, _, _, _, _, _, _ => by simp [wants] at h
  | a :: E, l :: L, D, sh, h, Lp, Lq, A, R, S, z, hA => by
    simp only [wants, Option.bind_eq_bind, Option.bind_eq_some_iff, Option.pure_def, Option.some.injEq, Prod.mk.injEq] at h
    obtain ⟨⟨d, s1⟩, h1, ⟨D', s2⟩, h2, rfl, rfl⟩ := h
    have e1 := act_want h1 Lp (L ++ Lq) A (List.replicate L.length ⟨0, 1, 0⟩ ++ R) S (s2.length + z) hA
    have e2 := loop_wants E L D' s2 h2 (Lp ++ [l]) Lq (A ++ [d]) R (S ++ s1) z (by simp [hA])
    rw [List.zipIdx_cons, List.foldlM_cons]
    simp only [List.length_cons, List.replicate_succ, List.cons_append, List.length_append, Nat.add_assoc] at e1 e2 ⊢
    rw [e1]
    simp only [List.append_assoc, List.singleton_append, List.length_nil, Nat.zero_add] at e2
    simpa [List.append_assoc, Nat.add_assoc] using e2

theorem wants_length : ∀ (E : List Arg) (L : List Int) (D : List Dim) (sh : List Int), wants E L = some (D, sh) → D.length = L.length ∧ E.length = L.length ∧ sh.length = E.countP isRange
  | [], [], D, sh, h => by
    simp only [wants, Option.some.injEq, Prod.mk.injEq] at h
    obtain ⟨rfl, rfl⟩ := h
    simp
  | [], _ :: _, D, sh, h => by simp [wants] at h
  | _ :: _, [], D, sh, h => by simp [wants] at h
  | a :: E, l :: L, D, sh, h => by
    simp only [wants, Option.bind_eq_bind, Option.bind_eq_some_iff, Option.pure_def, Option.some.injEq, Prod.mk.injEq] at h
    obtain ⟨⟨d, s1⟩, h1, ⟨D', s2⟩, h2, rfl, rfl⟩ := h
    obtain ⟨i1, i2, i3⟩ := wants_length E L D' s2 h2
    have : s1.length = if isRange a then 1 else 0 := by
      cases a with
      | ell => simp [want] at h1
      | idx i => simp only [want, Option.some.injEq, Prod.mk.injEq] at h1; rw [← h1.2]; rfl
      | all => simp only [want, Option.some.injEq, Prod.mk.injEq] at h1; rw [← h1.2]; rfl
      | rng f la st => simp only [want, Option.map_eq_some_iff, Prod.mk.injEq] at h1; obtain ⟨c, -, -, e⟩ := h1; rw [← e]; rfl
    refine ⟨by simp [i1], by simp [i2], ?_⟩
    rw [List.length_append, List.countP_cons, this, i3]
    split <;> omega

theorem expand_length {N : Nat} {args : List Arg} (hf : Fits N args) : (expand N args).length = N := by
  rcases hf with ⟨h0, hl⟩ | ⟨h1, hl⟩
  · rw [expand_none N h0, hl]
  · obtain ⟨pre, post, rfl, hp, hq⟩ := split_ell h1
    rw [expand_one N hp hq]
    simp only [List.length_append, List.length_replicate, List.length_cons] at hl ⊢
    omega

/-- Dimension of the real and imaginary parts. -/
def tailLen (cplx : Bool) : List Int := if cplx then [2] else []
def tailDim (cplx : Bool) : List Dim := if cplx then [⟨0, 1, 2⟩] else []

/-- `hyperslab_and_shape_from_slice` treats the dimensions one by one. -/
theorem hyperslab_eq (L : List Int) (cplx : Bool) (args : List Arg) (hf : Fits L.length args) (D : List Dim) (sh : List Int) (h : wants (expand L.length args) L = some (D, sh)) :
    hyperslabAndShape ((expand L.length args).countP isRange) args (L ++ tailLen cplx) cplx = .ok (D ++ tailDim cplx, sh) := by
  obtain ⟨hd, he, hs⟩ := wants_length _ _ _ _ h
  obtain ⟨h1, h2, h3, h4⟩ := loop_expand hf (L ++ tailLen cplx) _ rfl (newSlab L.length cplx, List.replicate ((expand L.length args).countP isRange) 0, 0)
  have hcn : (expand L.length args).countP isRange + (expand L.length args).countP (fun a => !isRange a) = L.length := by
    rw [hcnt, he]
  have hl := loop_wants _ _ _ _ h [] (tailLen cplx) [] (tailDim cplx) [] 0 rfl
  simp only [List.nil_append, List.length_nil, Nat.add_zero, List.replicate_zero, List.append_nil] at hl
  have hns : newSlab L.length cplx = List.replicate L.length ⟨0, 1, 0⟩ ++ tailDim cplx := rfl
  rw [hns, ← hs, hl] at h4
  unfold hyperslabAndShape
  have c1 : decide (args.count .ell < 2) = true := by simpa using h1
  have c2 : ((args.count Arg.ell == 1 && decide (args.length - args.countP (fun a => !isRange a) - args.count .ell ≤ (expand L.length args).countP isRange)) ||
      args.length - args.countP (fun a => !isRange a) - args.count .ell == (expand L.length args).countP isRange) = true := by
    rcases h3 with ⟨a, b⟩ | a
    · simp [a]; left; rw [a] at b; omega
    · simp [a]
  have c3 : decide ((((expand L.length args).countP isRange + args.countP (fun a => !isRange a) : Nat) : Int) = ((L ++ tailLen cplx).length : Int) - (if cplx then 1 else 0)) = true := by
    rw [h2, hcn]
    cases cplx <;> simp [tailLen]
  simp only [c1, c2, c3, check, if_true]
  rw [h2, hcn, ← h2, hns, ← hs, h4]
  rfl

end Nda.H5
