import Verif.Lemmas.H5
import Verif.Lemmas.Writes
import Verif.Props.Views
import Verif.Props.Mpi
/-!
# C37: slices of datasets
-/
namespace Nda.H5
open Nda Loops Nda.Spec Nda.Slice Nda.Assign Nda.LayoutTransforms

/-- Arguments for which file slices are claimed: ranges with a positive step and without the convention that a last value of -1 means the end. -/
def Plain : Arg → Prop
  | .rng _ la st => 0 < st ∧ st < 9223372036854775808 ∧ la ≠ -1
  | _ => True

instance : DecidablePred Plain := fun a => by cases a <;> unfold Plain <;> infer_instance

/-- Coordinates selected by the arguments, the remaining indices appended. -/
def coordsX : List Arg → List Int → List Int
  | [], p => p
  | .idx i :: as, p => i :: coordsX as p
  | .rng f _ st :: as, x :: p => (f + st * x) :: coordsX as p
  | _ :: as, x :: p => x :: coordsX as p
  | _ :: _, [] => []

theorem coordsX_append : ∀ (E : List Arg) (J t : List Int), (∀ a ∈ E, a ≠ .ell) → J.length = E.countP isRange → coordsX E (J ++ t) = coords E J ++ t
  | [], J, t, _, h => by
    have : J = [] := List.length_eq_zero_iff.mp (by simpa using h)
    subst this; simp [coordsX, coords]
  | a :: E, J, t, he, h => by
    have ih := fun J' h' => coordsX_append E J' t (fun a ha => he a (List.mem_cons_of_mem _ ha)) h'
    rw [List.countP_cons] at h
    cases a with
    | ell => exact absurd rfl (he _ List.mem_cons_self)
    | idx i => simp [coordsX, coords, ih J (by simpa [isRange] using h)]
    | all =>
      cases J with
      | nil => simp [isRange] at h
      | cons x J => simp [coordsX, coords, ih J (by simpa [isRange] using h)]
    | rng f la st =>
      cases J with
      | nil => simp [isRange] at h
      | cons x J => simp [coordsX, coords, ih J (by simpa [isRange] using h)]

theorem wants_spec : ∀ (E : List Arg) (L : List Int), E.length = L.length → (∀ a ∈ E, a ≠ .ell) → (∀ a ∈ E, Plain a) → ∃ D sh, wants E L = some (D, sh) ∧ SliceShape E L sh
  | [], [], _, _, _ => ⟨[], [], rfl, trivial⟩
  | [], _ :: _, h, _, _ => by simp at h
  | _ :: _, [], h, _, _ => by simp at h
  | a :: E, l :: L, h, he, hp => by
    obtain ⟨D, sh, h1, h2⟩ := wants_spec E L (by simpa using h) (fun a ha => he a (List.mem_cons_of_mem _ ha)) (fun a ha => hp a (List.mem_cons_of_mem _ ha))
    cases a with
    | ell => exact absurd rfl (he _ List.mem_cons_self)
    | idx i => exact ⟨⟨hsize i, 1, 1⟩ :: D, sh, by simp [wants, want, h1], h2⟩
    | all => exact ⟨⟨0, 1, l⟩ :: D, l :: sh, by simp [wants, want, h1], rfl, h2⟩
    | rng f la st =>
      obtain ⟨p1, p2, p3⟩ := hp _ List.mem_cons_self
      obtain ⟨c, hc, hic⟩ := rangeSize_isCount (f := f) (la := la) (st := st) (by omega)
      refine ⟨⟨hsize f, hsize st, c⟩ :: D, c :: sh, by simp [wants, want, h1, hc], ?_, h2⟩
      rwa [stop, if_neg (by simp [p3])]

theorem rowMajor_eq : ∀ (l : List Int), rowMajor l = box l
  | [] => rfl
  | l :: ls => by rw [rowMajor, box, rowMajor_eq ls]

theorem rowPos_eq : ∀ (l i : List Int), rowPos l i = lin l i
  | [], i => by cases i <;> rfl
  | l :: ls, [] => rfl
  | l :: ls, i :: is => by
    have : ∀ l : List Int, l.foldr (· * ·) 1 = prod l := by
      intro l; induction l with
      | nil => rfl
      | cons a l ih => simp [prod, ih]
    rw [rowPos, lin, rowPos_eq ls is, this]

/-- Extents of a dataset fit 64 bit signed integers. -/
def Small (L : List Int) : Prop := ∀ l ∈ L, l < 9223372036854775808

theorem hsize_id {x : Int} (h0 : 0 ≤ x) (h1 : x < 18446744073709551616) : hsize x = x := Int.emod_eq_of_lt h0 h1

/-- Every selected coordinate, dimension by dimension. -/
theorem sel_spec (cplx : Bool) : ∀ (E : List Arg) (L : List Int) (D : List Dim) (sh : List Int), wants E L = some (D, sh) → Inside E L → (∀ a ∈ E, Plain a) → Small L →
    (box ((D ++ tailDim cplx).map Dim.count)).map (selCoord (D ++ tailDim cplx) (L ++ tailLen cplx)) = (box (sh ++ tailLen cplx)).map (fun p => some (coordsX E p)) ∧
      ∀ p, InRange (sh ++ tailLen cplx) p → InRange (L ++ tailLen cplx) (coordsX E p)
  | [], [], D, sh, h, _, _, _ => by
    simp only [wants, Option.some.injEq, Prod.mk.injEq] at h
    obtain ⟨rfl, rfl⟩ := h
    refine ⟨?_, fun p hp => hp⟩
    cases cplx
    · rfl
    · decide
  | [], _ :: _, D, sh, h, _, _, _ => by simp [wants] at h
  | _ :: _, [], D, sh, h, _, _, _ => by simp [wants] at h
  | a :: E, l :: L, D, sh, h, hin, hp, hs => by
    simp only [wants, Option.bind_eq_bind, Option.bind_eq_some_iff, Option.pure_def, Option.some.injEq, Prod.mk.injEq] at h
    obtain ⟨⟨d, s1⟩, h1, ⟨D', s2⟩, h2, rfl, rfl⟩ := h
    obtain ⟨ih1, ih2⟩ := sel_spec cplx E L D' s2 h2 hin.2 (fun a ha => hp a (List.mem_cons_of_mem _ ha)) (fun x hx => hs x (List.mem_cons_of_mem _ hx))
    have hl := hs l List.mem_cons_self
    have hina := hin.1
    have hpa := hp a List.mem_cons_self
    -- one value of the first coordinate
    have one : ∀ (k c : Int), d.offset + k * d.stride = c → 0 ≤ c → c < l →
        ((box ((D' ++ tailDim cplx).map Dim.count)).map (fun x => k :: x)).map (selCoord (d :: (D' ++ tailDim cplx)) (l :: (L ++ tailLen cplx))) =
          (box (s2 ++ tailLen cplx)).map (fun p => some (c :: coordsX E p)) := by
      intro k c hk h0 h1
      rw [List.map_map]
      have : (box ((D' ++ tailDim cplx).map Dim.count)).map (selCoord (d :: (D' ++ tailDim cplx)) (l :: (L ++ tailLen cplx)) ∘ fun x => k :: x) =
          ((box ((D' ++ tailDim cplx).map Dim.count)).map (selCoord (D' ++ tailDim cplx) (L ++ tailLen cplx))).map (fun r => r.map (fun r => c :: r)) := by
        rw [List.map_map]
        apply List.map_congr_left
        intro x _
        simp only [Function.comp, selCoord, hk, if_pos (And.intro h0 h1)]
        cases selCoord (D' ++ tailDim cplx) (L ++ tailLen cplx) x <;> rfl
      rw [this, ih1, List.map_map]
      rfl
    cases a with
    | ell => simp [want] at h1
    | idx i =>
      simp only [want, Option.some.injEq, Prod.mk.injEq] at h1
      obtain ⟨rfl, rfl⟩ := h1
      simp only [ArgInside] at hina
      refine ⟨?_, ?_⟩
      · rw [List.cons_append, List.map_cons, box]
        simp only [List.nil_append, List.cons_append]
        have := one 0 i (by rw [hsize_id (by omega) (by omega)]; simp) hina.1 hina.2
        simpa [coordsX] using this
      · intro p hpr
        rw [List.nil_append] at hpr
        rw [coordsX]
        exact ⟨hina, ih2 p hpr⟩
    | all =>
      simp only [want, Option.some.injEq, Prod.mk.injEq] at h1
      obtain ⟨rfl, rfl⟩ := h1
      refine ⟨?_, ?_⟩
      · simp only [List.cons_append, List.nil_append, List.map_cons, box, List.map_flatMap]
        apply List.flatMap_congr
        intro k hk
        rw [List.mem_range] at hk
        rw [one (Int.ofNat k) k (by simp) (by omega) (by omega), List.map_map]
        rfl
      · intro p hpr
        cases p with
        | nil => exact hpr.elim
        | cons x p => exact ⟨hpr.1, ih2 p hpr.2⟩
    | rng f la st =>
      simp only [want, Option.map_eq_some_iff, Prod.mk.injEq] at h1
      obtain ⟨c, hc, rfl, rfl⟩ := h1
      obtain ⟨p1, p2, p3⟩ := hpa
      obtain ⟨c', hc', hic⟩ := rangeSize_isCount (f := f) (la := la) (st := st) (by omega)
      have hcc : c' = c := by rw [hc] at hc'; exact (Option.some.inj hc').symm
      subst hcc
      have hst : stop la st l = la := by rw [stop, if_neg (by simp [p3])]
      have hina' : ∀ k, 0 ≤ k → k < c' → 0 ≤ f + k * st ∧ f + k * st < l := by
        intro k hk0 hk1
        exact hina.2 k c' (by rw [hst]; exact hic) hk0 hk1
      have hf : 0 < c' → 0 ≤ f ∧ f < l := by
        intro h
        simpa using hina' 0 (le_refl _) h
      refine ⟨?_, ?_⟩
      · simp only [List.cons_append, List.nil_append, List.map_cons, box, List.map_flatMap]
        apply List.flatMap_congr
        intro k hk
        rw [List.mem_range] at hk
        have hk' : (k : Int) < c' := by omega
        have hf' := hf (by omega)
        have hb := hina' k (by omega) hk'
        rw [one (Int.ofNat k) (f + k * st) (by rw [hsize_id (by omega) (by omega), hsize_id (by omega) (by omega)]; rfl) hb.1 hb.2, List.map_map]
        apply List.map_congr_left
        intro p _
        simp [coordsX, mul_comm]
      · intro p hpr
        cases p with
        | nil => exact hpr.elim
        | cons x p =>
          refine ⟨?_, ih2 p hpr.2⟩
          rw [mul_comm]
          exact hina' x hpr.1.1 hpr.1.2

/-- Element number `lin len p` of the enumeration is `p`. -/
theorem box_get {len p : List Int} (hn : NonNeg len) (hp : InRange len p) : (box len)[(lin len p).toNat]? = some p := by
  have hb := lin_bounds hp
  have hl := box_length hn
  have h1 : (lin len p).toNat < (box len).length := by omega
  rw [List.getElem?_eq_getElem h1]
  congr 1
  have h2 := congrArg (fun l => l[(lin len p).toNat]?) (box_lin hn)
  simp only [List.getElem?_map, List.getElem?_eq_getElem h1, Option.map_some] at h2
  rw [List.getElem?_range (by omega)] at h2
  simp only [Option.map_some, Option.some.injEq] at h2
  exact lin_inj (mem_box.mp (List.getElem_mem h1)) hp (by rw [h2]; simp; omega)

theorem wants_nonneg : ∀ (E : List Arg) (L : List Int) (D : List Dim) (sh : List Int), wants E L = some (D, sh) → NonNeg L → NonNeg sh
  | [], [], D, sh, h, _ => by
    simp only [wants, Option.some.injEq, Prod.mk.injEq] at h
    obtain ⟨rfl, rfl⟩ := h
    intro l hl; simp at hl
  | [], _ :: _, D, sh, h, _ => by simp [wants] at h
  | _ :: _, [], D, sh, h, _ => by simp [wants] at h
  | a :: E, l :: L, D, sh, h, hn => by
    simp only [wants, Option.bind_eq_bind, Option.bind_eq_some_iff, Option.pure_def, Option.some.injEq, Prod.mk.injEq] at h
    obtain ⟨⟨d, s1⟩, h1, ⟨D', s2⟩, h2, rfl, rfl⟩ := h
    have ih := wants_nonneg E L D' s2 h2 (fun x hx => hn x (List.mem_cons_of_mem _ hx))
    intro x hx
    rcases List.mem_append.mp hx with hx | hx
    · cases a with
      | ell => simp [want] at h1
      | idx i => simp only [want, Option.some.injEq, Prod.mk.injEq] at h1; rw [← h1.2] at hx; simp at hx
      | all =>
        simp only [want, Option.some.injEq, Prod.mk.injEq] at h1
        rw [← h1.2, List.mem_singleton] at hx
        subst hx; exact hn _ List.mem_cons_self
      | rng f la st =>
        simp only [want, Option.map_eq_some_iff, Prod.mk.injEq] at h1
        obtain ⟨c, hc, -, e⟩ := h1
        rw [← e, List.mem_singleton] at hx
        subst hx
        unfold rangeSize at hc
        split at hc
        · simp at hc; omega
        · split at hc
          · simp at hc; omega
          · simp at hc
    · exact ih x hx

theorem expand_noell {N : Nat} {args : List Arg} : ∀ a ∈ expand N args, a ≠ .ell := by
  intro a ha e
  obtain ⟨b, -, hb⟩ := List.mem_flatMap.mp ha
  subst e
  cases b <;> simp [expandArg] at hb

theorem expand_plain {N : Nat} {args : List Arg} (h : ∀ a ∈ args, Plain a) : ∀ a ∈ expand N args, Plain a := by
  intro a ha
  obtain ⟨b, hb1, hb⟩ := List.mem_flatMap.mp ha
  cases b with
  | ell => simp only [expandArg, List.mem_replicate] at hb; rw [hb.2]; trivial
  | idx i => simp only [expandArg, List.mem_singleton] at hb; rw [hb]; trivial
  | all => simp only [expandArg, List.mem_singleton] at hb; rw [hb]; trivial
  | rng f la st => simp only [expandArg, List.mem_singleton] at hb; rw [hb]; exact h _ hb1

/-- The result of reading: shape, number of elements, and where each comes from. -/
structure Names (L : List Int) (cplx : Bool) (args : List Arg) (shape : List Int) (ps : List Int) : Prop where
  shape_ok : SliceShape (expand L.length args) L shape
  size : (ps.length : Int) = prod (shape ++ tailLen cplx)
  elems : ∀ J t, InRange shape J → InRange (tailLen cplx) t →
    ps[(lin (shape ++ tailLen cplx) (J ++ t)).toNat]? = some (lin (L ++ tailLen cplx) (coords (expand L.length args) J ++ t))

theorem inRange_append {a b i j : List Int} (h1 : InRange a i) (h2 : InRange b j) : InRange (a ++ b) (i ++ j) := by
  induction a generalizing i with
  | nil => cases i with | nil => exact h2 | cons => exact h1.elim
  | cons l a ih => cases i with | nil => exact h1.elim | cons x i => exact ⟨h1.1, ih h1.2⟩

theorem selected_eq (L : List Int) (cplx : Bool) (args : List Arg) (hs : Small L) (hf : Fits L.length args) (hin : Inside (expand L.length args) L)
    (hp : ∀ a ∈ args, Plain a) :
    ∃ D shape, wants (expand L.length args) L = some (D, shape) ∧ SliceShape (expand L.length args) L shape ∧
      selected (L ++ tailLen cplx) (D ++ tailDim cplx) = some ((box (shape ++ tailLen cplx)).map (fun p => lin (L ++ tailLen cplx) (coordsX (expand L.length args) p))) ∧
      ∀ p, InRange (shape ++ tailLen cplx) p → InRange (L ++ tailLen cplx) (coordsX (expand L.length args) p) := by
  obtain ⟨D, sh, h1, h2⟩ := wants_spec _ L (expand_length hf) expand_noell (expand_plain hp)
  obtain ⟨h3, h4⟩ := sel_spec cplx _ L D sh h1 hin (expand_plain hp) hs
  refine ⟨D, sh, h1, h2, ?_, h4⟩
  unfold selected
  rw [rowMajor_eq]
  have : ∀ (X : List (List Int)) (Y : List (List Int)), X.map (selCoord (D ++ tailDim cplx) (L ++ tailLen cplx)) = Y.map (fun p => some (coordsX (expand L.length args) p)) →
      X.mapM (fun k => (selCoord (D ++ tailDim cplx) (L ++ tailLen cplx) k).map (rowPos (L ++ tailLen cplx))) =
        some (Y.map (fun p => lin (L ++ tailLen cplx) (coordsX (expand L.length args) p))) := by
    intro X
    induction X with
    | nil => intro Y h; cases Y with | nil => rfl | cons => simp at h
    | cons x X ih =>
      intro Y h
      cases Y with
      | nil => simp at h
      | cons y Y =>
        simp only [List.map_cons, List.cons.injEq] at h
        rw [List.mapM_cons, h.1, ih Y h.2]
        simp [rowPos_eq]
  exact this _ _ h3

/-- **C37** (selection) For a slice whose arguments fit the dataset, select inside it, have positive steps and do not use a last value of -1: the selection and the shape computed for
the file are those of slicing, dimension by dimension, the ellipsis standing for all remaining dimensions; also for complex datasets.  Missing: negative steps and the last value -1,
for which the code does something else (witnesses below). -/
theorem C37_selection_partial (L : List Int) (cplx : Bool) (args : List Arg) (hn : NonNeg L) (hs : Small L) (hf : Fits L.length args) (hin : Inside (expand L.length args) L)
    (hp : ∀ a ∈ args, Plain a) :
    ∃ slab shape ps, hyperslabAndShape ((expand L.length args).countP isRange) args (L ++ tailLen cplx) cplx = .ok (slab, shape) ∧
      selected (L ++ tailLen cplx) slab = some ps ∧ Names L cplx args shape ps := by
  obtain ⟨D, sh, h1, h2, h3, h4⟩ := selected_eq L cplx args hs hf hin hp
  have hnsh := wants_nonneg _ _ _ _ h1 hn
  have hnT : NonNeg (sh ++ tailLen cplx) := by
    intro x hx
    rcases List.mem_append.mp hx with hx | hx
    · exact hnsh x hx
    · cases cplx <;> simp [tailLen] at hx; omega
  refine ⟨_, sh, _, hyperslab_eq L cplx args hf D sh h1, h3, h2, ?_, ?_⟩
  · rw [List.length_map, box_length hnT]
  · intro J t hJ ht
    rw [List.getElem?_map, box_get hnT (inRange_append hJ ht), Option.map_some,
      coordsX_append _ J t expand_noell (by rw [hJ.length_eq, (wants_length _ _ _ _ h1).2.2])]

variable {α : Type}

/-- **C37** (read) Reading a slice of a dataset gives an array with the extents of the slice whose elements are the elements of the dataset at the coordinates named by the slice. -/
theorem C37_read_partial [Zero α] (L : List Int) (cplx : Bool) (data : List α) (args : List Arg) (hn : NonNeg L) (hs : Small L) (hd : (data.length : Int) = prod (L ++ tailLen cplx))
    (hf : Fits L.length args) (h0 : args ≠ []) (hin : Inside (expand L.length args) L) (hp : ∀ a ∈ args, Plain a) :
    ∃ shape vals, h5Read ((expand L.length args).countP isRange) cplx args none ⟨L ++ tailLen cplx, data, cplx⟩ = .ok (shape, vals) ∧
      SliceShape (expand L.length args) L shape ∧ (vals.length : Int) = prod (shape ++ tailLen cplx) ∧
      ∀ J t, InRange shape J → InRange (tailLen cplx) t →
        ∃ x, vals[(lin (shape ++ tailLen cplx) (J ++ t)).toNat]? = some x ∧ val data (lin (L ++ tailLen cplx) (coords (expand L.length args) J ++ t)) = some x := by
  obtain ⟨D, sh, h1, h2, h3, h4⟩ := selected_eq L cplx args hs hf hin hp
  have hnsh := wants_nonneg _ _ _ _ h1 hn
  have hnT : NonNeg (sh ++ tailLen cplx) := by
    intro x hx
    rcases List.mem_append.mp hx with hx | hx
    · exact hnsh x hx
    · cases cplx <;> simp [tailLen] at hx; omega
  have hval : ∀ p ∈ box (sh ++ tailLen cplx), ∃ x, val data (lin (L ++ tailLen cplx) (coordsX (expand L.length args) p)) = some x := by
    intro p hp
    have := lin_bounds (h4 p (mem_box.mp hp))
    exact val_isSome (by omega)
  have hmap : ∃ vals : List α, ((box (sh ++ tailLen cplx)).map (fun p => lin (L ++ tailLen cplx) (coordsX (expand L.length args) p))).mapM (fun p => rdInt data p) = some vals ∧
      vals.map some = (box (sh ++ tailLen cplx)).map (fun p => val data (lin (L ++ tailLen cplx) (coordsX (expand L.length args) p))) := by
    generalize box (sh ++ tailLen cplx) = X at hval
    induction X with
    | nil => exact ⟨[], rfl, rfl⟩
    | cons p X ih =>
      obtain ⟨vals, e1, e2⟩ := ih (fun q hq => hval q (List.mem_cons_of_mem _ hq))
      obtain ⟨x, hx⟩ := hval p List.mem_cons_self
      refine ⟨x :: vals, ?_, by rw [List.map_cons, List.map_cons, e2, hx]⟩
      rw [List.map_cons, List.mapM_cons, e1, rdInt_eq, hx]; rfl
  obtain ⟨vals, e1, e2⟩ := hmap
  refine ⟨sh, vals, ?_, h2, ?_, ?_⟩
  · unfold h5Read
    have hc : (cplx && !cplx) = false := by cases cplx <;> rfl
    simp only [hc, Bool.false_eq_true, if_false, if_neg h0, hyperslab_eq L cplx args hf D sh h1]
    simp only [readSel, bind, Except.bind, h3, orElse, e1, check, if_true, pure, Except.pure]
  · have := congrArg List.length e2
    rw [List.length_map, List.length_map] at this
    rw [this, box_length hnT]
  · intro J t hJ ht
    have hb := box_get hnT (inRange_append hJ ht)
    have hv := hval (J ++ t) (mem_box.mpr (inRange_append hJ ht))
    have := congrArg (fun l => l[(lin (sh ++ tailLen cplx) (J ++ t)).toNat]?) e2
    simp only [List.getElem?_map, hb, Option.map_some] at this
    rw [coordsX_append _ J t expand_noell (by rw [hJ.length_eq, (wants_length _ _ _ _ h1).2.2])] at this hv
    obtain ⟨x, hx⟩ := hv
    rw [hx] at this
    refine ⟨x, ?_, hx⟩
    cases hvv : vals[(lin (sh ++ tailLen cplx) (J ++ t)).toNat]? with
    | none => rw [hvv] at this; simp at this
    | some y => rw [hvv] at this; simp at this; rw [this]

/-- **C37** Reading a slice from the file gives the same array as reading the whole dataset (a C-order array whose memory holds the data) and slicing that with the same arguments. -/
theorem C37_same_as_memory_partial [Zero α] (L : List Int) (data : List α) (args : List Arg) (se : List Nat) (pr : LayoutProp) (hse : se.length = L.length) (h128 : L.length ≤ 128)
    (hn : NonNeg L) (hs : Small L) (hd : (data.length : Int) = prod L) (hL : L ≠ []) (hf : Fits L.length args) (h0 : args ≠ [])
    (hin : Inside (expand L.length args) L) (hp : ∀ a ∈ args, Plain a) :
    ∃ shape vals v', h5Read ((expand L.length args).countP isRange) false args none ⟨L, data, false⟩ = .ok (shape, vals) ∧
      sliceView ⟨0, ⟨L, Spec.dense L, Perm.identity L.length, se, pr⟩⟩ args = some v' ∧ v'.lay.len = shape ∧ (vals.length : Int) = prod shape ∧
      ∀ J, InRange shape J → ∃ k x, element v' (J.map .idx) = some k ∧ val data k = some x ∧ vals[(lin shape J).toNat]? = some x := by
  have hb := Mpi.blk_c 0 L se pr data.length hL hse hn (by omega) (by omega)
  obtain ⟨shape, vals, e, hsh, hlen, hel⟩ := C37_read_partial L false data args hn hs (by simpa [tailLen] using hd) hf h0 hin hp
  simp only [tailLen, Bool.false_eq_true, if_false, List.append_nil] at e hlen hel
  have hst : ∀ f l s, Arg.rng f l s ∈ args → s ≠ 0 := by
    intro f l s h
    have := hp _ h
    simp only [Plain] at this
    omega
  obtain ⟨off, m', h1, h2, h3⟩ := C06_slice_elements _ hb.good.wf hb.good.flags.smallest args h128 hf hst
  have hrank : IdxMap.rank ⟨L, Spec.dense L, Perm.identity L.length, se, pr⟩ = L.length := rfl
  rw [hrank] at h2 h3
  have hlen' : m'.len = shape := C06_shape_unique _ _ _ _ h2 hsh
  refine ⟨shape, vals, ⟨0 + off, m'⟩, e, by simp only [sliceView, h1]; rfl, hlen', hlen, ?_⟩
  intro J hJ
  obtain ⟨k, hk1, hk2⟩ := h3 J (hlen' ▸ hJ)
  obtain ⟨x, hx1, hx2⟩ := hel J [] hJ trivial
  simp only [List.append_nil] at hx1 hx2
  have hcr : InRange L (coords (expand L.length args) J) := by
    obtain ⟨D, sh, g1, g2, -, g4⟩ := selected_eq L false args hs hf hin hp
    have hsheq := C06_shape_unique _ _ _ _ g2 hsh
    subst hsheq
    have := g4 J (by simpa [tailLen] using hJ)
    have e2 := coordsX_append (expand L.length args) J [] expand_noell (by rw [hJ.length_eq, (wants_length _ _ _ _ g1).2.2])
    rw [List.append_nil, List.append_nil] at e2
    rw [← e2]
    simpa [tailLen] using this
  have haddr := element_eq hb.good.wf hb.good.flags hcr
  rw [hb.addr_eq hcr, Mpi.pos_c rfl hcr.length_eq] at haddr
  have hk3 : off + k = lin L (coords (expand L.length args) J) := by
    unfold element at haddr
    simp only at haddr
    rw [hk2] at haddr
    simpa using haddr
  refine ⟨0 + off + k, x, ?_, ?_, hx1⟩
  · rw [element, hk1]; rfl
  · rw [show 0 + off + k = off + k by omega, hk3, hx2]

theorem coordsX_inj : ∀ (E : List Arg) (p p' : List Int), (∀ a ∈ E, a ≠ .ell) → (∀ a ∈ E, Plain a) → E.countP isRange ≤ p.length → E.countP isRange ≤ p'.length →
    coordsX E p = coordsX E p' → p = p'
  | [], p, p', _, _, _, _, h => h
  | a :: E, p, p', he, hp, h1, h2, h => by
    have ih := fun q q' => coordsX_inj E q q' (fun a ha => he a (List.mem_cons_of_mem _ ha)) (fun a ha => hp a (List.mem_cons_of_mem _ ha))
    rw [List.countP_cons] at h1 h2
    cases a with
    | ell => exact absurd rfl (he _ List.mem_cons_self)
    | idx i =>
      simp only [isRange, Bool.false_eq_true, if_false, Nat.add_zero] at h1 h2
      simp only [coordsX, List.cons.injEq, true_and] at h
      exact ih p p' h1 h2 h
    | all =>
      simp only [isRange, if_true] at h1 h2
      cases p with
      | nil => simp at h1
      | cons x p =>
        cases p' with
        | nil => simp at h2
        | cons x' p' =>
          simp only [coordsX, List.cons.injEq, List.length_cons] at h h1 h2
          rw [h.1, ih p p' (by omega) (by omega) h.2]
    | rng f la st =>
      simp only [isRange, if_true] at h1 h2
      have hst := (hp _ List.mem_cons_self).1
      cases p with
      | nil => simp at h1
      | cons x p =>
        cases p' with
        | nil => simp at h2
        | cons x' p' =>
          simp only [coordsX, List.cons.injEq, List.length_cons] at h h1 h2
          have : x = x' := by
            have h' : st * x = st * x' := by omega
            exact mul_left_cancel₀ (by omega) h'
          rw [this, ih p p' (by omega) (by omega) h.2]

/-- **C37** (write) Writing an array with the extents of the slice into part of a dataset replaces exactly the elements that the slice names. -/
theorem C37_write_partial (L : List Int) (cplx : Bool) (data vals : List α) (args : List Arg) (shape : List Int) (hn : NonNeg L) (hs : Small L)
    (hd : (data.length : Int) = prod (L ++ tailLen cplx)) (hf : Fits L.length args) (hin : Inside (expand L.length args) L) (hp : ∀ a ∈ args, Plain a)
    (hsh : SliceShape (expand L.length args) L shape) (hv : (vals.length : Int) = prod (shape ++ tailLen cplx)) :
    ∃ data', h5WriteSlice cplx args shape vals ⟨L ++ tailLen cplx, data, cplx⟩ = .ok ⟨L ++ tailLen cplx, data', cplx⟩ ∧ data'.length = data.length ∧
      (∀ J t, InRange shape J → InRange (tailLen cplx) t →
        ∃ x, vals[(lin (shape ++ tailLen cplx) (J ++ t)).toNat]? = some x ∧ val data' (lin (L ++ tailLen cplx) (coords (expand L.length args) J ++ t)) = some x) ∧
      (∀ k, (∀ J t, InRange shape J → InRange (tailLen cplx) t → lin (L ++ tailLen cplx) (coords (expand L.length args) J ++ t) ≠ k) → val data' k = val data k) := by
  obtain ⟨D, sh, h1, h2, h3, h4⟩ := selected_eq L cplx args hs hf hin hp
  obtain rfl := C06_shape_unique _ _ _ _ h2 hsh
  have hnsh := wants_nonneg _ _ _ _ h1 hn
  have hcnt := (wants_length _ _ _ _ h1).2.2
  have hnT : NonNeg (sh ++ tailLen cplx) := by
    intro x hx
    rcases List.mem_append.mp hx with hx | hx
    · exact hnsh x hx
    · cases cplx <;> simp [tailLen] at hx; omega
  have hbl := box_length hnT
  have hvl : vals.length = (box (sh ++ tailLen cplx)).length := by omega
  -- the writes
  have hw : ∀ (ps : List Int) (vs : List α) (pre : List α) (d : List α), ps.length = vs.length →
      (ps.zipIdx pre.length).foldlM (fun data (p : Int × Nat) => do let x ← rd (pre ++ vs) p.2; wrInt data p.1 x) d = writeAll (ps.zip vs) d := by
    intro ps
    induction ps with
    | nil => intro vs pre d _; rfl
    | cons p ps ih =>
      intro vs pre d hl
      cases vs with
      | nil => simp at hl
      | cons x vs =>
        rw [List.zipIdx_cons, List.foldlM_cons, List.zip_cons_cons, writeAll, List.foldlM_cons]
        have : rd (pre ++ x :: vs) pre.length = some x := by simp [rd]
        simp only [this, Option.bind_eq_bind, Option.bind_some]
        congr 1
        funext d'
        have := ih vs (pre ++ [x]) d' (by simpa using hl)
        simpa [writeAll] using this
  have hwr := hw ((box (sh ++ tailLen cplx)).map (fun p => lin (L ++ tailLen cplx) (coordsX (expand L.length args) p))) vals [] data (by simp [hvl])
  simp only [List.nil_append, List.length_nil] at hwr
  have hmemz : ∀ w, w ∈ ((box (sh ++ tailLen cplx)).map (fun p => lin (L ++ tailLen cplx) (coordsX (expand L.length args) p))).zip vals →
      ∃ p, InRange (sh ++ tailLen cplx) p ∧ w.1 = lin (L ++ tailLen cplx) (coordsX (expand L.length args) p) ∧ vals[(lin (sh ++ tailLen cplx) p).toNat]? = some w.2 := by
    intro w hw
    obtain ⟨i, hi⟩ := List.mem_iff_getElem?.mp hw
    rw [List.getElem?_zip_eq_some] at hi
    obtain ⟨hi1, hi2⟩ := hi
    rw [List.getElem?_map, Option.map_eq_some_iff] at hi1
    obtain ⟨p, hpb, hpe⟩ := hi1
    have hpr : InRange (sh ++ tailLen cplx) p := mem_box.mp (List.mem_of_getElem? hpb)
    refine ⟨p, hpr, hpe.symm, ?_⟩
    have hg := box_get hnT hpr
    have hnd := (lexEnum_box (sh ++ tailLen cplx)).nodup
    have : i = (lin (sh ++ tailLen cplx) p).toNat := by
      have hil : i < (box (sh ++ tailLen cplx)).length := (List.getElem?_eq_some_iff.mp hpb).1
      exact (List.getElem?_inj hil hnd).mp (by rw [hpb, hg])
    rw [← this]; exact hi2
  obtain ⟨data', e, hl, hfr, hval⟩ := writeAll_spec _ data (fun w hw => by
    obtain ⟨p, hpr, he, -⟩ := hmemz w hw
    have := lin_bounds (h4 p hpr)
    omega)
  have hcx : ∀ J t, InRange sh J → coordsX (expand L.length args) (J ++ t) = coords (expand L.length args) J ++ t :=
    fun J t hJ => coordsX_append _ J t expand_noell (by rw [hJ.length_eq, hcnt])
  refine ⟨data', ?_, hl, ?_, ?_⟩
  · unfold h5WriteSlice
    simp only [check, beq_self_eq_true, if_true, hcnt, hyperslab_eq L cplx args hf D sh h1, bind, Except.bind, decide_true, orElse, h3]
    have hwr' := hwr
    simp only [bind] at hwr'
    rw [hwr', e]
    rfl
  · intro J t hJ ht
    have hpr := inRange_append hJ ht
    have hb := lin_bounds hpr
    obtain ⟨x, hx⟩ : ∃ x, vals[(lin (sh ++ tailLen cplx) (J ++ t)).toNat]? = some x := ⟨_, List.getElem?_eq_getElem (by omega)⟩
    refine ⟨x, hx, ?_⟩
    rw [← hcx J t hJ]
    apply hval
    · apply List.mem_iff_getElem?.mpr
      refine ⟨(lin (sh ++ tailLen cplx) (J ++ t)).toNat, ?_⟩
      rw [List.getElem?_zip_eq_some]
      exact ⟨by rw [List.getElem?_map, box_get hnT hpr]; rfl, hx⟩
    · intro w hw hwe
      obtain ⟨p, hp1, hp2, hp3⟩ := hmemz w hw
      have hpe : p = J ++ t := by
        refine coordsX_inj (expand L.length args) _ _ expand_noell (expand_plain hp) ?_ ?_ (lin_inj (h4 p hp1) (h4 _ hpr) (by rw [← hp2, hwe]))
        · rw [hp1.length_eq, ← hcnt]; simp
        · rw [hpr.length_eq, ← hcnt]; simp
      rw [hpe, hx] at hp3
      exact (Option.some.inj hp3).symm
  · intro k hk
    apply hfr
    intro w hw he
    obtain ⟨p, hp1, hp2, -⟩ := hmemz w hw
    -- split the index
    have hsplit : ∃ J t, p = J ++ t ∧ InRange sh J ∧ InRange (tailLen cplx) t := by
      have : ∀ (a b q : List Int), InRange (a ++ b) q → ∃ J t, q = J ++ t ∧ InRange a J ∧ InRange b t := by
        intro a
        induction a with
        | nil => intro b q h; exact ⟨[], q, rfl, trivial, h⟩
        | cons l a ih =>
          intro b q h
          cases q with
          | nil => exact h.elim
          | cons x q =>
            obtain ⟨J, t, rfl, h1, h2⟩ := ih b q h.2
            exact ⟨x :: J, t, rfl, ⟨h.1, h1⟩, h2⟩
      exact this _ _ _ hp1
    obtain ⟨J, t, rfl, hJ, ht⟩ := hsplit
    apply hk J t hJ ht
    rw [← hcx J t hJ, ← hp2, he]

/-- A rank 4 dataset, with an ellipsis in the middle and a strided range. -/
example : Fits 4 [.idx 1, .ell, .rng 0 3 2] ∧ h5Read 3 false [.idx 1, .ell, .rng 0 3 2] none (⟨[2, 1, 2, 3], (List.range 12).map Int.ofNat, false⟩ : Dataset Int) = .ok ([1, 2, 2], [6, 8, 9, 11]) := by
  decide

/-- Complex: real and imaginary parts stay together. -/
example : h5Read 1 true [.rng 1 3 1] none (⟨[3, 2], [0, 1, 10, 11, 20, 21], true⟩ : Dataset Int) = .ok ([2], [10, 11, 20, 21]) := by decide

/-- Rank mismatch between slice and dataset is reported. -/
theorem C37_rank_checked (nDim : Nat) (args : List Arg) (L : List Int) (cplx : Bool) (h : (nDim : Int) + args.countP (fun a => !isRange a) ≠ L.length - (if cplx then 1 else 0)) :
    hyperslabAndShape nDim args L cplx = .error .compile ∨ hyperslabAndShape nDim args L cplx = .error .runtime := by
  unfold hyperslabAndShape
  have c3 : decide (((nDim + args.countP (fun a => !isRange a) : Nat) : Int) = (L.length : Int) - (if cplx then 1 else 0)) = false := by
    rw [decide_eq_false_iff_not]
    push_cast
    exact h
  simp only [check, c3]
  cases decide (args.count .ell < 2)
  · left; rfl
  · cases (args.count Arg.ell == 1 && decide (args.length - args.countP (fun a => !isRange a) - args.count .ell ≤ nDim)) ||
      args.length - args.countP (fun a => !isRange a) - args.count .ell == nDim
    · left; rfl
    · right; rfl

/-- A last value of -1 means the end when slicing an array in memory (two elements here), but selects nothing in a file. -/
theorem C37_last_witness : h5Read 1 false [.rng 1 (-1) 1] none (⟨[3], [0, 10, 20], false⟩ : Dataset Int) = .ok ([0], []) ∧
    (sliceView ⟨0, ⟨[3], [1], [0], [0], .contiguous⟩⟩ [.rng 1 (-1) 1]).map (fun v => (v.off, v.lay.len)) = some (1, [2]) := by decide

/-- A negative step (here the reversed array) is an error in a file. -/
theorem C37_negative_step_witness : h5Read 1 false [.rng 2 (-1) (-1)] none (⟨[3], [0, 10, 20], false⟩ : Dataset Int) = .error .runtime ∧
    (sliceView ⟨0, ⟨[3], [1], [0], [0], .contiguous⟩⟩ [.rng 2 (-1) (-1)]).map (fun v => (v.off, v.lay.len, v.lay.str)) = some (2, [3], [-1]) := by decide

/-- Reading a slice of a real dataset into a complex array ignores the slice: all three elements are read instead of one. -/
theorem C37_real_into_complex_witness : h5Read 1 true [.rng 1 2 1] none (⟨[3], [0, 10, 20], false⟩ : Dataset Int) = .ok ([3], [0, 0, 10, 0, 20, 0]) := by decide

/-! ### Views, whole arrays -/

/-- C37: a slice is read into a view exactly if the view has the shape of the slice; any other view is rejected at run time. -/
theorem C37_view_checked [Zero α] (L : List Int) (cplx : Bool) (data : List α) (args : List Arg) (v : List Int) (hs : Small L)
    (hf : Fits L.length args) (h0 : args ≠ []) (hin : Inside (expand L.length args) L) (hp : ∀ a ∈ args, Plain a) :
    (SliceShape (expand L.length args) L v → h5Read ((expand L.length args).countP isRange) cplx args (some v) ⟨L ++ tailLen cplx, data, cplx⟩ =
      h5Read ((expand L.length args).countP isRange) cplx args none ⟨L ++ tailLen cplx, data, cplx⟩) ∧
    (¬ SliceShape (expand L.length args) L v → h5Read ((expand L.length args).countP isRange) cplx args (some v) ⟨L ++ tailLen cplx, data, cplx⟩ = .error .runtime) := by
  obtain ⟨D, sh, h1, h2, h3, h4⟩ := selected_eq L cplx args hs hf hin hp
  have hc : (cplx && !cplx) = false := by cases cplx <;> rfl
  constructor
  · intro h
    obtain rfl := C06_shape_unique _ _ _ _ h2 h
    unfold h5Read
    simp only [hc, Bool.false_eq_true, if_false, if_neg h0, hyperslab_eq L cplx args hf D _ h1, bind, Except.bind, check, decide_true, if_true]
  · intro h
    have hv : v ≠ sh := fun e => h (e ▸ h2)
    unfold h5Read
    simp only [hc, Bool.false_eq_true, if_false, if_neg h0, hyperslab_eq L cplx args hf D sh h1, bind, Except.bind, check, decide_eq_false hv]

theorem mapM_rd : ∀ (s t : List Int), (List.range s.length).mapM (fun u => rd (s ++ t) u) = some s := by
  intro s t
  have : ∀ (u : List Int), (List.range s.length).mapM (fun k => rd (u ++ (s ++ t)) (u.length + k)) = some s := by
    induction s with
    | nil => intro u; rfl
    | cons x s ih =>
      intro u
      have e := ih (u ++ [x])
      rw [List.length_cons, List.range_succ_eq_map, List.mapM_cons, List.mapM_map]
      have e' : ((fun k => rd (u ++ (x :: s ++ t)) (u.length + k)) ∘ Nat.succ) = fun k => rd (u ++ [x] ++ (s ++ t)) ((u ++ [x]).length + k) := by
        funext k
        simp [rd, Nat.add_assoc, Nat.add_comm 1]
      rw [e', e]
      simp [rd]
  simpa using this []

/-- C37: an array written as a whole is read back, real or complex, into an array or into a view of the same shape; a view of another shape is rejected. -/
theorem C37_whole [Zero α] (cplx : Bool) (shape : List Int) (vals : List α) :
    h5Read shape.length cplx [] none (h5WriteWhole cplx shape vals) = .ok (shape, vals) ∧
    h5Read shape.length cplx [] (some shape) (h5WriteWhole cplx shape vals) = .ok (shape, vals) ∧
    ∀ v, v ≠ shape → h5Read shape.length cplx [] (some v) (h5WriteWhole cplx shape vals) = .error .runtime := by
  have hc : (cplx && !cplx) = false := by cases cplx <;> rfl
  have hl : ((shape ++ if cplx = true then [2] else []).length : Int) - (if cplx = true then 1 else 0) = shape.length := by
    cases cplx <;> simp
  refine ⟨?_, ?_, fun v hv => ?_⟩ <;> unfold h5Read h5WriteWhole readWhole <;>
    simp only [hc, Bool.false_eq_true, if_false, if_true, mapM_rd, orElse, bind, Except.bind, check, decide_true, hl, pure, Except.pure, *, decide_false]

/-- C37: a slice of an array written as a whole: the elements read are those of the array, at the coordinates named by the slice. -/
theorem C37_whole_slice_partial [Zero α] (L : List Int) (cplx : Bool) (data : List α) (args : List Arg) (hn : NonNeg L) (hs : Small L) (hd : (data.length : Int) = prod (L ++ tailLen cplx))
    (hf : Fits L.length args) (h0 : args ≠ []) (hin : Inside (expand L.length args) L) (hp : ∀ a ∈ args, Plain a) :
    ∃ shape vals, h5Read ((expand L.length args).countP isRange) cplx args none (h5WriteWhole cplx L data) = .ok (shape, vals) ∧
      SliceShape (expand L.length args) L shape ∧ (vals.length : Int) = prod (shape ++ tailLen cplx) ∧
      ∀ J t, InRange shape J → InRange (tailLen cplx) t →
        ∃ x, vals[(lin (shape ++ tailLen cplx) (J ++ t)).toNat]? = some x ∧ val data (lin (L ++ tailLen cplx) (coords (expand L.length args) J ++ t)) = some x :=
  C37_read_partial L cplx data args hn hs hd hf h0 hin hp

example : h5Read 2 true [] none (h5WriteWhole true [1, 2] [1, 2, 3, (4 : Int)]) = .ok ([1, 2], [1, 2, 3, 4]) := by decide
example : h5Read 1 false [.rng 0 2 1] (some [3]) (h5WriteWhole false [3] [1, 2, (3 : Int)]) = .error .runtime := by decide

end Nda.H5
