import Verif.Lemmas.SliceArgs
/-!
# Slicing: closed form of the sliced map
-/
namespace Nda.Slice
open Nda Nda.Spec Nda.Perm Nda.IdxMap

theorem collect_some {α β : Type} (f : α → Option Bool) (b : α → Bool) (g : α → β) (ns : List α)
    (h : ∀ n ∈ ns, f n = some (b n)) : collect f g ns = some ((ns.filter b).map g) := by
  induction ns with
  | nil => rfl
  | cons n ns ih =>
    simp only [collect, h n List.mem_cons_self, ih (fun k hk => h k (List.mem_cons_of_mem _ hk))]
    cases hb : b n <;> simp [hb]

theorem mapM_some_of {α β : Type _} (f : α → Option β) (g : α → β) (l : List α)
    (h : ∀ x ∈ l, f x = some (g x)) : l.mapM f = some (l.map g) := by
  induction l with
  | nil => rfl
  | cons x l ih =>
    rw [List.mapM_cons, h x List.mem_cons_self, ih (fun y hy => h y (List.mem_cons_of_mem _ hy))]
    rfl

/-- Argument of dimension `n`. -/
def at' (X : List Arg) (n : Nat) : Arg := X.getD n .all

/-- Dimension `n` survives the slice. -/
def kept (X : List Arg) (n : Nat) : Bool := isRange (at' X n)

/-- Surviving dimensions, in order. -/
def keptDims (X : List Arg) : List Nat := (List.range X.length).filter (kept X)

theorem range_map_at' (X : List Arg) : (List.range X.length).map (at' X) = X := by
  apply List.ext_getElem (by simp)
  intro i h h'
  simp [at', h']

theorem keptDims_length (X : List Arg) : (keptDims X).length = X.countP isRange := by
  conv_rhs => rw [← range_map_at' X, List.countP_map, List.countP_eq_length_filter]
  rfl

theorem countP_not_isRange (X : List Arg) : X.countP isRange = X.length - X.countP (fun a => !isRange a) := by
  have := List.length_eq_countP_add_countP (isRange) (l := X)
  have h2 : X.countP (fun a => !isRange a) = X.countP (fun a => decide ¬ (isRange a = true)) := by
    apply List.countP_congr; intro a _; simp
  omega

theorem mem_keptDims {X : List Arg} {n : Nat} : n ∈ keptDims X ↔ n < X.length ∧ kept X n = true := by
  simp [keptDims]

theorem nodup_keptDims (X : List Arg) : (keptDims X).Nodup := List.nodup_range.filter _

theorem pOfN_spec (N : Nat) (K : List Nat) (hn : K.Nodup) (hk : ∀ n ∈ K, n < N) :
    ∃ pofn, pOfN N K = some pofn ∧ pofn.length = N ∧
      ∀ n, n < N → pofn[n]? = some (if n ∈ K then (K.idxOf n : Int) else -1) := by
  have hz : (K.zip ((List.range K.length).map Int.ofNat)).map Prod.fst = K :=
    List.map_fst_zip (by simp)
  obtain ⟨r, h1, h2, h3, h4⟩ := scatter_spec (K.zip ((List.range K.length).map Int.ofNat)) (mkInit N (-1 : Int))
    (by rw [hz]; exact hn) (by rw [hz]; intro k hk'; simpa [mkInit] using hk k hk')
  rw [hz] at h4
  refine ⟨r, h1, by simpa [mkInit] using h2, ?_⟩
  intro n hN
  by_cases hm : n ∈ K
  · have hi := List.idxOf_lt_length_of_mem hm
    have := h3 (n, (K.idxOf n : Int)) (by
      have := List.getElem_mem (l := K.zip ((List.range K.length).map Int.ofNat)) (n := K.idxOf n) (by simpa using hi)
      simpa using this)
    simpa [hm] using this
  · rw [h4 n hm]; simp [mkInit, hN, hm]

theorem filter_perm_length {so : List Nat} (hp : IsPerm so) {X : List Arg} (hl : so.length = X.length) :
    (so.filter (kept X)).length = (keptDims X).length := by
  have : (so.filter (kept X)).Perm ((List.range so.length).filter (kept X)) := List.Perm.filter _ hp
  rw [this.length_eq, hl]; rfl

theorem slicedOrder_spec {so : List Nat} (hp : IsPerm so) {X : List Arg} (hl : so.length = X.length) :
    slicedOrder so (keptDims X) = some ((so.filter (kept X)).map ((keptDims X).idxOf ·)) := by
  obtain ⟨pofn, h1, h2, h3⟩ := pOfN_spec so.length (keptDims X) (nodup_keptDims X)
    (fun n hn => by rw [hl]; exact (mem_keptDims.mp hn).1)
  have hps : so.mapM (fun n => rd pofn n) =
      some (so.map (fun n => if n ∈ keptDims X then ((keptDims X).idxOf n : Int) else -1)) := by
    apply mapM_some_of
    intro n hn
    rw [rd, h3 n (IsPerm.lt hp hn)]
  rw [slicedOrder, h1]
  simp only [Option.bind_eq_bind, Option.bind_some, hps]
  rw [collect_some (fun p : Int => some (decide (p ≠ -1))) (fun p => decide (p ≠ -1)) _ _ (fun _ _ => rfl)]
  have hmem : ∀ n ∈ so, (n ∈ keptDims X ↔ kept X n = true) := fun n hn => by
    rw [mem_keptDims]; have := IsPerm.lt hp hn; constructor
    · exact fun h => h.2
    · exact fun h => ⟨by omega, h⟩
  have e : ((so.map (fun n => if n ∈ keptDims X then ((keptDims X).idxOf n : Int) else -1)).filter
      (fun p => decide (p ≠ -1))).map Int.toNat = (so.filter (kept X)).map ((keptDims X).idxOf ·) := by
    rw [List.filter_map, List.map_map]
    have h5 : so.filter ((fun p : Int => decide (p ≠ -1)) ∘ fun n => if n ∈ keptDims X then ((keptDims X).idxOf n : Int) else -1)
        = so.filter (kept X) := by
      apply List.filter_congr
      intro n hn
      simp only [Function.comp]
      by_cases hk : n ∈ keptDims X
      · have h6 := (hmem n hn).mp hk
        simp only [hk, if_true, h6]; simp
      · have : kept X n = false := by
          cases h : kept X n with
          | false => rfl
          | true => exact absurd ((hmem n hn).mpr h) hk
        simp [this, hk]
    rw [h5]
    apply List.map_congr_left
    intro n hn
    have hn' := List.mem_filter.mp hn
    simp [Function.comp, (hmem n hn'.1).mpr hn'.2]
  simp only [Option.bind_some]
  rw [e]
  have hlen : ((so.filter (kept X)).map ((keptDims X).idxOf ·)).length = (keptDims X).length := by
    rw [List.length_map, filter_perm_length hp hl]
  rw [if_pos (by omega), hlen]
  simp

/-- The layout flag of a slice as a function of the pattern of full ranges in memory order. -/
def propOf (P : Nat) (hasOnly : Bool) (bs : List Bool) (prop : LayoutProp) : LayoutProp :=
  if !hasOnly then (if P = 1 then .strided else .none)
  else
    let r := countBlocks bs 0 false
    if prop.hasContiguous && decide (r.1 ≤ 1) && r.2 then .contiguous
    else if prop.strided1d && decide (r.1 ≤ 1) then .strided
    else if prop.smallestOne && r.2 then .smallest
    else .none

/-- All steps of range arguments are non-zero. -/
def StepsOK (X : List Arg) : Prop := ∀ f l s, Arg.rng f l s ∈ X → s ≠ 0

/-- The surviving dimensions with argument and value, written as data. -/
theorem slice_eq {m : IdxMap} (hw : WF m) {args : List Arg} (hf : Fits m.rank args) (hN : m.rank ≤ 128)
    (hst : StepsOK (expand m.rank args)) :
    slice m args = some (
      ((List.range m.rank).map (fun n => getOffset (at' (expand m.rank args) n) (m.str.getD n 0))).sum,
      { len := (keptDims (expand m.rank args)).map (fun n => (getL (at' (expand m.rank args) n) (m.len.getD n 0)).getD 0),
        str := (keptDims (expand m.rank args)).map (fun n => (getS (at' (expand m.rank args) n) (m.str.getD n 0)).getD 0),
        so := (m.so.filter (kept (expand m.rank args))).map ((keptDims (expand m.rank args)).idxOf ·),
        se := (keptDims (expand m.rank args)).map (fun n => if isRangeAll (at' (expand m.rank args) n) then m.se.getD n 0 else 0),
        prop := propOf (keptDims (expand m.rank args)).length
          ((expand m.rank args).all (fun a => !isRange a || isRangeAll a))
          (m.so.map (fun n => isRangeAll (at' (expand m.rank args) n))) m.prop }) := by
  obtain ⟨E, hEl, hEX, hE, hcnt, hall⟩ := argAt hf hN
  have hchk := fits_checks hf hN
  generalize hX : expand m.rank args = X at *
  have hXl : X.length = m.rank := by rw [← hEX]; simpa using hEl
  -- reading the argument of dimension n
  have hrd : ∀ n, n < m.rank → ∃ a, rdInt args (qOfN n (ellipsisPosition args) ((m.rank : Int) - args.length + 1)) = some a ∧
      norm a = at' X n := by
    intro n hn
    have hn' : n < E.length := by omega
    refine ⟨E[n], by rw [hE n hn, List.getElem?_eq_getElem hn'], ?_⟩
    simp [at', ← hEX, hn']
  have hcnt' : X.countP (fun a => !isRange a) = args.countP (fun a => !isRange a) := by
    rw [← hcnt, ← hEX, List.countP_map]
    apply List.countP_congr
    intro a _; simp [isRange_norm]
  have hP : (keptDims X).length = m.rank - args.countP (fun a => !isRange a) := by
    rw [keptDims_length, countP_not_isRange, hXl, hcnt']
  have hall' : args.all (fun a => !isRange a || isRangeAll a) = X.all (fun a => !isRange a || isRangeAll a) := by
    rw [hall, ← hEX, List.all_map]
    congr 1; funext a; simp [isRange_norm, isRangeAll_norm]
  have hcol : ∀ n ∈ List.range m.rank, rdInt (args.map isRange)
      (qOfN n (ellipsisPosition args) ((m.rank : Int) - args.length + 1)) = some (kept X n) := by
    intro n hn
    obtain ⟨a, h1, h2⟩ := hrd n (List.mem_range.mp hn)
    rw [rdInt_map, h1, Option.map_some, kept, ← h2, isRange_norm]
  have hnofp : nOfP m.rank (m.rank - args.countP (fun a => !isRange a)) (args.map isRange)
      (ellipsisPosition args) ((m.rank : Int) - args.length + 1) = some (keptDims X) := by
    rw [nOfP, collect_some _ (kept X) _ _ hcol]
    simp only [Option.bind_eq_bind, Option.bind_some, List.map_id']
    rw [← hXl] at hP ⊢
    have : (List.range X.length).filter (kept X) = keptDims X := rfl
    rw [this, if_pos hP]; rfl
  have hqofp : qOfP m.rank (m.rank - args.countP (fun a => !isRange a)) (args.map isRange)
      (ellipsisPosition args) ((m.rank : Int) - args.length + 1) =
      some ((keptDims X).map (fun (n : Nat) => qOfN n (ellipsisPosition args) ((m.rank : Int) - args.length + 1))) := by
    rw [qOfP, collect_some _ (kept X) _ _ hcol]
    simp only [Option.bind_eq_bind, Option.bind_some]
    have : (List.range m.rank).filter (kept X) = keptDims X := by rw [← hXl]; rfl
    rw [this, List.length_map, if_pos hP]; rfl
  have hzip : ((keptDims X).map (fun (n : Nat) => qOfN n (ellipsisPosition args) ((m.rank : Int) - args.length + 1))).zip (keptDims X)
      = (keptDims X).map (fun (n : Nat) => (qOfN n (ellipsisPosition args) ((m.rank : Int) - args.length + 1), n)) := by
    conv_lhs => rw [← List.map_id (keptDims X)]
    rw [List.map_id, List.zip_map_left]
    induction keptDims X with
    | nil => rfl
    | cons a l ih => simpa using ih
  have hlen : m.len.length = m.rank := rfl
  have hstr : m.str.length = m.rank := hw.str_len
  have hse : m.se.length = m.rank := hw.se_len
  have hso : m.so.length = m.rank := hw.so_len
  simp only [slice]
  rw [if_neg (by simpa using hchk)]
  rw [hnofp, hqofp]
  simp only [Option.bind_eq_bind, Option.bind_some]
  rw [hzip]
  rw [mapM_some_of _ (fun n => getOffset (at' X n) (m.str.getD n 0)) (List.range m.rank) (by
    intro n hn
    have hn := List.mem_range.mp hn
    obtain ⟨a, h1, h2⟩ := hrd n hn
    rw [h1, rd_getD (by omega)]
    simp only [Option.bind_some, Option.pure_def]
    rw [← h2, getOffset_norm])]
  simp only [Option.bind_some]
  rw [List.mapM_map, mapM_some_of _ (fun n => (getL (at' X n) (m.len.getD n 0)).getD 0) (keptDims X) (by
    intro n hn
    obtain ⟨hn1, hn2⟩ := mem_keptDims.mp hn
    obtain ⟨a, h1, h2⟩ := hrd n (by omega)
    simp only [Function.comp, h1, rd_getD (show n < m.len.length by omega), Option.bind_some]
    rw [← getL_norm, h2]
    have hmem : at' X n ∈ X := by
      have : at' X n = X[n] := by simp [at', hn1]
      rw [this]; exact List.getElem_mem hn1
    rw [kept] at hn2
    cases ha : at' X n with
    | idx i => rw [ha] at hn2; cases hn2
    | all => rfl
    | ell => rfl
    | rng f la st =>
      simp only [getL]
      obtain ⟨c, hc, _⟩ := rangeSize_isCount (f := f) (la := if la = -1 ∧ 0 < st then m.len.getD n 0 else la)
        (hst f la st (ha ▸ hmem))
      rw [hc]; rfl)]
  simp only [Option.bind_some]
  rw [List.mapM_map, mapM_some_of _ (fun n => (getS (at' X n) (m.str.getD n 0)).getD 0) (keptDims X) (by
    intro n hn
    obtain ⟨hn1, hn2⟩ := mem_keptDims.mp hn
    obtain ⟨a, h1, h2⟩ := hrd n (by omega)
    simp only [Function.comp, h1, rd_getD (show n < m.str.length by omega), Option.bind_some]
    rw [← getS_norm, h2]
    rw [kept] at hn2
    cases ha : at' X n with
    | idx i => rw [ha] at hn2; cases hn2
    | all => rfl
    | ell => rfl
    | rng f la st => rfl)]
  simp only [Option.bind_some]
  rw [List.mapM_map, mapM_some_of _ (fun n => if isRangeAll (at' X n) then m.se.getD n 0 else 0) (keptDims X) (by
    intro n hn
    obtain ⟨hn1, hn2⟩ := mem_keptDims.mp hn
    obtain ⟨a, h1, h2⟩ := hrd n (by omega)
    have : rd m.se n = some (m.se.getD n 0) := by simp [rd, show n < m.se.length by omega]
    simp only [Function.comp, h1, this, Option.bind_some, Option.pure_def]
    rw [← isRangeAll_norm a, h2])]
  simp only [Option.bind_some]
  rw [slicedOrder_spec hw.perm (by omega)]
  simp only [Option.bind_some]
  have hprop : sliceLayoutProp (m.rank - args.countP (fun a => !isRange a))
      (args.all (fun a => !isRange a || isRangeAll a)) (args.map isRangeAll) m.so m.prop
      (ellipsisPosition args) ((m.rank : Int) - args.length + 1) =
      some (propOf (keptDims X).length (X.all (fun a => !isRange a || isRangeAll a))
          (m.so.map (fun n => isRangeAll (at' X n))) m.prop) := by
    rw [sliceLayoutProp, propOf, hall', hP]
    cases hb : X.all (fun a => !isRange a || isRangeAll a) with
    | false => simp
    | true =>
      simp only [Bool.not_true, Bool.false_eq_true, if_false]
      rw [mapM_some_of _ (fun n => isRangeAll (at' X n)) m.so (by
        intro n hn
        obtain ⟨a, h1, h2⟩ := hrd n (by rw [← hso]; exact IsPerm.lt hw.perm hn)
        rw [rdInt_map, h1, Option.map_some, ← h2, isRangeAll_norm])]
      simp only [Option.bind_eq_bind, Option.bind_some, Option.pure_def]
      split
      · rfl
      · split
        · rfl
        · split <;> rfl
  rw [hprop]
  rfl

end Nda.Slice
