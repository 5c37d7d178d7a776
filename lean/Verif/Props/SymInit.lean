import Verif.Props.SymGrp
import Verif.Lemmas.Writes
import Mathlib.Algebra.Field.Defs
import Mathlib.Algebra.CharZero.Defs
import Mathlib.Algebra.BigOperators.Group.List.Basic
/-!
# C34: initialising and symmetrising an array by its classes
-/
namespace Nda.SymGrp
open Nda LayoutTransforms Assign Loops Nda.Spec Nda.Perm IdxMap

variable {α : Type}

/-- The index that `to_idx` gives. -/
def ti (x : View) (k : Int) : List Int := (x.lay.toIdx k).getD []

/-- `to_idx` of the array inverts the position of the indices in C order: the linear indices stored in the classes are those of the array. -/
def Matches (len : List Int) (x : View) : Prop := ∀ i, InRange len i → x.lay.toIdx (lin len i) = some i

/-- It does for arrays in C order without gaps. -/
theorem matches_of_c {x : View} (hw : WF x.lay) (h0 : x.lay.len ≠ []) (hso : x.lay.so = Perm.identity x.lay.len.length) (hd : Dense x.lay) : Matches x.lay.len x := by
  intro i hi
  have h1 : EvenlySpaced x.lay 1 := hd
  have h2 : memOrder x.lay.so x.lay.str = dense (memOrder x.lay.so x.lay.len) := by
    rw [EvenlySpaced] at h1
    simpa using h1
  have hs : x.lay.str = dense x.lay.len := by
    rw [hso, memOrder_identity hw.str_len, memOrder_identity rfl] at h2
    exact h2
  have := toIdx_offset hw h0 (by
    rw [h2]
    exact (nested_dense (fun l hl' => hi.nonneg_len l ((memOrder_perm hw.perm hw.so_len.symm).mem_iff.mp hl'))).1) hi
  rw [offset, hs, dot_dense _ _ hi.length_eq] at this
  exact this

/-- The linear index of `i` in C order is decoded to `τ i`, different indices differently. -/
structure Decodes (len : List Int) (x : View) (τ : List Int → List Int) : Prop where
  some : ∀ i, InRange len i → x.lay.toIdx (lin len i) = some (τ i)
  into : ∀ i, InRange len i → InRange len (τ i)
  inj : ∀ i j, InRange len i → InRange len j → τ i = τ j → i = j

theorem Matches.decodes {len : List Int} {x : View} (h : Matches len x) : Decodes len x (fun i => i) := ⟨h, fun _ h => h, fun _ _ _ _ h => h⟩

/-- The writes of `init` for one class. -/
def writesOf (neg conj : α → α) (x : View) (f : List Int → α) (c : List (Int × Oper)) : List (Int × α) :=
  match c with
  | [] => []
  | r :: _ => (addr x (ti x r.1), f (ti x r.1)) :: c.map (fun p => (addr x (ti x p.1), p.2.ap neg conj (f (ti x r.1))))

theorem store_eq {x : View} {len : List Int} (hlen : x.lay.len = len) (hw : WF x.lay) (hf : FlagsOK x.lay) {i : List Int} (hi : InRange len i) (v : α) (mem : List α) :
    store x i v mem = wrInt mem (addr x i) v := by
  rw [store, element_eq hw hf (by rw [hlen]; exact hi)]; rfl

theorem initClass_eq {len : List Int} (neg conj : α → α) {x : View} (hlen : x.lay.len = len) (hw : WF x.lay) (hf : FlagsOK x.lay) {τ : List Int → List Int} (hm : Decodes len x τ) (f : List Int → α)
    {c : List (Int × Oper)} (hc : ∀ p ∈ c, ∃ i, InRange len i ∧ p.1 = lin len i) (hne : c ≠ []) (mem : List α) :
    initClass neg conj x f mem c = writeAll (writesOf neg conj x f c) mem := by
  have hti : ∀ p ∈ c, x.lay.toIdx p.1 = some (ti x p.1) ∧ InRange len (ti x p.1) := by
    intro p hp
    obtain ⟨i, hi, e⟩ := hc p hp
    rw [ti, e, hm.some i hi]; exact ⟨rfl, hm.into i hi⟩
  cases c with
  | nil => exact absurd rfl hne
  | cons r rest =>
    have hr := hti r List.mem_cons_self
    have h0 : rd (r :: rest) 0 = some r := rfl
    simp only [initClass, h0, Option.bind_eq_bind, Option.bind_some, hr.1, store_eq hlen hw hf hr.2]
    rw [writesOf, writeAll, List.foldlM_cons]
    simp only [Option.bind_eq_bind]
    congr 1; funext m1
    rw [List.foldlM_map]
    apply foldlM_congr
    intro p hp m2
    rw [(hti p hp).1, Option.bind_some, store_eq hlen hw hf (hti p hp).2]

theorem Oper.one_ap (neg conj : α → α) (v : α) : Oper.one.ap neg conj v = v := rfl

/-- What `init` writes for the classes of a group. -/
theorem init_writes {len : List Int} {syms : List Sym} {g : St × List (Nat × Int)} {L : List (List (Int × Oper))} (h : BInv len syms (box len) g L) (neg conj : α → α)
    {x : View} (hlen : x.lay.len = len) (hw : WF x.lay) (hf : FlagsOK x.lay) {τ : List Int → List Int} (hm : Decodes len x τ) (f : List Int → α) (mem : List α) (cs : List (List (Int × Oper))) (hcs : ∀ c ∈ cs, c ∈ L) :
    init neg conj cs x f mem = writeAll (cs.flatMap (writesOf neg conj x f)) mem := by
  rw [init, ← writeAll_flatMap]
  apply foldlM_congr
  intro c hc mem
  obtain ⟨r, rest, hr, e, hall⟩ := h.isClass c (hcs c hc)
  exact initClass_eq neg conj hlen hw hf hm f (fun p hp => by obtain ⟨j, a, b, -⟩ := hall p hp; exact ⟨j, a, b⟩) (by rw [e]; simp) mem

/-- All writes of the classes in `cs`: a member `j` of a class with representative `r` gets the operation applied to `f r`. -/
theorem mem_writes {len : List Int} {syms : List Sym} {pre : List (List Int)} {g : St × List (Nat × Int)} {L : List (List (Int × Oper))} (h : BInv len syms pre g L) (neg conj : α → α)
    {x : View} {τ : List Int → List Int} (hm : Decodes len x τ) (f : List Int → α) (w : Int × α) :
    w ∈ L.flatMap (writesOf neg conj x f) ↔ ∃ c ∈ L, ∃ r rest j p, InRange len r ∧ InRange len j ∧ c = (lin len r, .one) :: rest ∧ p ∈ c ∧ p.1 = lin len j ∧
      w = (addr x (τ j), p.2.ap neg conj (f (τ r))) := by
  rw [List.mem_flatMap]
  constructor
  · rintro ⟨c, hc, hw⟩
    obtain ⟨r, rest, hr, e, hall⟩ := h.isClass c hc
    refine ⟨c, hc, r, rest, ?_⟩
    have hti : ti x (lin len r) = τ r := by rw [ti, hm.some r hr]; rfl
    subst e
    simp only [writesOf, hti] at hw
    rcases List.mem_cons.mp hw with rfl | hw
    · exact ⟨r, (lin len r, .one), hr, hr, rfl, List.mem_cons_self, rfl, by rw [Oper.one_ap]⟩
    · obtain ⟨p, hp, rfl⟩ := List.mem_map.mp hw
      obtain ⟨j, hj, ej, -⟩ := hall p hp
      refine ⟨j, p, hr, hj, rfl, hp, ej, ?_⟩
      rw [ej, ti, hm.some j hj]; rfl
  · rintro ⟨c, hc, r, rest, j, p, hr, hj, rfl, hp, ej, rfl⟩
    refine ⟨_, hc, ?_⟩
    have hti : ti x (lin len r) = τ r := by rw [ti, hm.some r hr]; rfl
    simp only [writesOf, hti]
    refine List.mem_cons_of_mem _ (List.mem_map.mpr ⟨p, hp, ?_⟩)
    rw [ej, ti, hm.some j hj]; rfl

/-- A key is in one class only, with one operation. -/
theorem key_unique {len : List Int} {syms : List Sym} {pre : List (List Int)} {g : St × List (Nat × Int)} {L : List (List (Int × Oper))} (h : BInv len syms pre g L)
    {c c' : List (Int × Oper)} (hc : c ∈ L) (hc' : c' ∈ L) {p p' : Int × Oper} (hp : p ∈ c) (hp' : p' ∈ c') (e : p.1 = p'.1) : c = c' ∧ p = p' := by
  obtain ⟨a, ha, rfl⟩ := List.mem_iff_getElem.mp hc
  obtain ⟨a', ha', rfl⟩ := List.mem_iff_getElem.mp hc'
  obtain ⟨b, hb, rfl⟩ := List.mem_iff_getElem.mp hp
  obtain ⟨b', hb', rfl⟩ := List.mem_iff_getElem.mp hp'
  have conv : ∀ (a b : Nat) (ha : a < L.length) (hb : b < L[a].length), ((L.map (fun c => c.map Prod.fst))[a]?).bind (fun c => c[b]?) = some (L[a][b]).1 := by
    intro a b ha hb
    rw [List.getElem?_map, List.getElem?_eq_getElem ha, Option.map_some, Option.bind_some, List.getElem?_map, List.getElem?_eq_getElem hb]; rfl
  have := flatten_unique (nodup_keys h) (conv a b ha hb) ((conv a' b' ha' hb').trans (by rw [e]))
  rw [Prod.mk.injEq] at this
  obtain ⟨rfl, rfl⟩ := this
  exact ⟨rfl, rfl⟩

/-- The writes agree. -/
theorem writes_agree {len : List Int} {syms : List Sym} {pre : List (List Int)} {g : St × List (Nat × Int)} {L : List (List (Int × Oper))} (h : BInv len syms pre g L) (neg conj : α → α)
    {x : View} (hlen : x.lay.len = len) (h1 : OneToOne x) {τ : List Int → List Int} (hm : Decodes len x τ) (f : List Int → α) {w w' : Int × α} (hw : w ∈ L.flatMap (writesOf neg conj x f))
    (hw' : w' ∈ L.flatMap (writesOf neg conj x f)) (e : w.1 = w'.1) : w.2 = w'.2 := by
  obtain ⟨c, hc, r, rest, j, p, hr, hj, ec, hp, ej, rfl⟩ := (mem_writes h neg conj hm f w).mp hw
  obtain ⟨c', hc', r', rest', j', p', hr', hj', ec', hp', ej', rfl⟩ := (mem_writes h neg conj hm f w').mp hw'
  have hjj : j = j' := hm.inj j j' hj hj' (h1 (τ j) (τ j') (by rw [hlen]; exact hm.into j hj) (by rw [hlen]; exact hm.into j' hj') e)
  subst hjj
  obtain ⟨rfl, rfl⟩ := key_unique h hc hc' hp hp' (ej.trans ej'.symm)
  rw [ec] at ec'
  simp only [List.cons.injEq, Prod.mk.injEq, and_true] at ec'
  rw [lin_inj hr hr' ec'.1]

theorem init_spec {len : List Int} {syms : List Sym} {g : St × List (Nat × Int)} {L : List (List (Int × Oper))} (h : BInv len syms (box len) g L) (neg conj : α → α)
    {x : View} (hlen : x.lay.len = len) (h1 : OneToOne x) {τ : List Int → List Int} (hm : Decodes len x τ) (f : List Int → α) (mem : List α) (hx : Good x mem.length) :
    ∃ mem', init neg conj L x f mem = some mem' ∧ mem'.length = mem.length ∧ (∀ k, ¬ Occupies x k → val mem' k = val mem k) ∧
      ∀ c ∈ L, ∀ r rest j p, InRange len r → InRange len j → c = (lin len r, .one) :: rest → p ∈ c → p.1 = lin len j → val mem' (addr x (τ j)) = some (p.2.ap neg conj (f (τ r))) := by
  obtain ⟨mem', e, l1, hfr, hv⟩ := writeAll_spec (L.flatMap (writesOf neg conj x f)) mem (fun w hw => by
    obtain ⟨c, hc, r, rest, j, p, hr, hj, ec, hp, ej, rfl⟩ := (mem_writes h neg conj hm f w).mp hw
    exact hx.fits (τ j) (by rw [hlen]; exact hm.into j hj))
  refine ⟨mem', by rw [init_writes h neg conj hlen hx.wf hx.flags hm f mem L (fun _ h => h), e], l1, ?_, ?_⟩
  · intro k hk
    apply hfr
    intro w hw hwk
    obtain ⟨c, hc, r, rest, j, p, hr, hj, ec, hp, ej, rfl⟩ := (mem_writes h neg conj hm f w).mp hw
    exact hk ⟨τ j, by rw [hlen]; exact hm.into j hj, hwk⟩
  · intro c hc r rest j p hr hj ec hp ej
    have hw := (mem_writes h neg conj hm f (addr x (τ j), p.2.ap neg conj (f (τ r)))).mpr ⟨c, hc, r, rest, j, p, hr, hj, ec, hp, ej, rfl⟩
    exact hv _ _ hw (fun w hw' e => writes_agree h neg conj hlen h1 hm f hw' hw e)

/-- **C34** After `init` of an array in C order without gaps, every member of a class holds the operation stored with it applied to the value of the given function
at the representative; nothing outside of the array is changed. -/
theorem C34_init (len : List Int) (hn : NonNeg len) (h0 : len ≠ []) (syms : List Sym) (hk : KeepRank len.length syms) (maxLen : Int) (neg conj : α → α) (f : List Int → α)
    (x : View) (hlen : x.lay.len = len) (hso : x.lay.so = Perm.identity len.length) (hd : Dense x.lay) (h1 : OneToOne x) (mem : List α) (hx : Good x mem.length) :
    ∃ fuel0 g, (∀ fuel, fuel0 ≤ fuel → build len syms maxLen fuel = some g) ∧ ∃ mem', init neg conj (classes g) x f mem = some mem' ∧ mem'.length = mem.length ∧
      (∀ k, ¬ Occupies x k → val mem' k = val mem k) ∧
      ∀ c ∈ classes g, ∀ r j p, InRange len r → InRange len j → (c.head?).map Prod.fst = some (lin len r) → p ∈ c → p.1 = lin len j →
        val mem' (addr x j) = some (p.2.ap neg conj (f r)) := by
  subst hlen
  obtain ⟨fuel0, g, L, e, h⟩ := build_spec hn hk maxLen
  obtain ⟨mem', e1, e2, e3, e4⟩ := init_spec h neg conj rfl h1 (matches_of_c hx.wf h0 hso hd).decodes f mem hx
  refine ⟨fuel0, g, e, mem', by rw [h.classes_eq]; exact e1, e2, e3, ?_⟩
  intro c hc r j p hr hj hh hp ej
  rw [h.classes_eq] at hc
  obtain ⟨r', rest, hr', ec, -⟩ := h.isClass c hc
  rw [ec] at hh
  simp only [List.head?_cons, Option.map_some, Option.some.injEq] at hh
  have := lin_inj hr' hr hh
  subst this
  exact e4 c hc r' rest j p hr' hj ec hp ej

/-- Applying operations one after the other is applying the product. -/
theorem Oper.mul_ap (neg conj : α → α) (hnn : ∀ v, neg (neg v) = v) (hcc : ∀ v, conj (conj v) = v) (hnc : ∀ v, conj (neg v) = neg (conj v)) (a b : Oper) (v : α) :
    (a.mul b).ap neg conj v = a.ap neg conj (b.ap neg conj v) := by
  obtain ⟨a1, a2⟩ := a
  obtain ⟨b1, b2⟩ := b
  cases a1 <;> cases a2 <;> cases b1 <;> cases b2 <;> simp [Oper.mul, Oper.ap, hnn, hcc, hnc]

/-- `f` has the symmetries: at the image of an index it is the operation applied to its value at the index. -/
def Symmetric (neg conj : α → α) (n : Nat) (syms : List Sym) (f : List Int → α) : Prop := ∀ s ∈ syms, ∀ i : List Int, i.length = n → f (s i).1 = (s i).2.ap neg conj (f i)

theorem reach_value {n : Nat} {syms : List Sym} (hk : KeepRank n syms) {neg conj : α → α} (hnn : ∀ v, neg (neg v) = v) (hcc : ∀ v, conj (conj v) = v)
    (hnc : ∀ v, conj (neg v) = neg (conj v)) {f : List Int → α} (hf : Symmetric neg conj n syms f) {r j : List Int} {p : Oper} (hr : r.length = n) (h : Reach syms r .one j p) :
    j.length = n ∧ f j = p.ap neg conj (f r) := by
  induction h with
  | start => exact ⟨hr, rfl⟩
  | step s _ hs ih =>
    refine ⟨hk s hs _ ih.1, ?_⟩
    rw [hf s hs _ ih.1, ih.2]
    exact (Oper.mul_ap neg conj hnn hcc hnc _ _ _).symm

/-- **C34** If the function has the symmetries, `init` (which calls it at the representatives only) fills the array with it. -/
theorem C34_init_symmetric (len : List Int) (hn : NonNeg len) (h0 : len ≠ []) (syms : List Sym) (hk : KeepRank len.length syms) (maxLen : Int) (neg conj : α → α)
    (hnn : ∀ v, neg (neg v) = v) (hcc : ∀ v, conj (conj v) = v) (hnc : ∀ v, conj (neg v) = neg (conj v)) (f : List Int → α) (hf : Symmetric neg conj len.length syms f)
    (x : View) (hlen : x.lay.len = len) (hso : x.lay.so = Perm.identity len.length) (hd : Dense x.lay) (h1 : OneToOne x) (mem : List α) (hx : Good x mem.length) :
    ∃ fuel0 g, (∀ fuel, fuel0 ≤ fuel → build len syms maxLen fuel = some g) ∧ ∃ mem', init neg conj (classes g) x f mem = some mem' ∧ Updated x (fun i => some (f i)) mem mem' := by
  subst hlen
  obtain ⟨fuel0, g, L, e, h⟩ := build_spec hn hk maxLen
  obtain ⟨mem', e1, e2, e3, e4⟩ := init_spec h neg conj rfl h1 (matches_of_c hx.wf h0 hso hd).decodes f mem hx
  refine ⟨fuel0, g, e, mem', by rw [h.classes_eq]; exact e1, e2, ?_, e3⟩
  intro i hi
  obtain ⟨q, hq, hql⟩ := List.mem_map.mp (cover_all h hi)
  obtain ⟨c, hc, hqc⟩ := List.mem_flatten.mp hq
  obtain ⟨r, rest, hr, ec, hall⟩ := h.isClass c hc
  rw [e4 c hc r rest i q hr hi ec hqc hql]
  obtain ⟨j, hj, ej, hrj⟩ := hall q hqc
  have hij : i = j := lin_inj hi hj (hql.symm.trans ej)
  subst hij
  rw [(reach_value hk hnn hcc hnc hf hr.length_eq hrj).2]

/-! ### `symmetrize` -/

section symmetrize

variable [AddCommGroup α] {β : Type} [LinearOrder β] [Zero β] (conj : α → α) (divn : α → Nat → α) (abs : α → β)

/-- The members of `ps` are elements of the array. -/
def InArr (len : List Int) (ps : List (Int × Oper)) : Prop := ∀ p ∈ ps, ∃ i, InRange len i ∧ p.1 = lin len i

omit [AddCommGroup α] in
theorem ti_spec {len : List Int} {x : View} (hm : Matches len x) {ps : List (Int × Oper)} (h : InArr len ps) {p : Int × Oper} (hp : p ∈ ps) :
    x.lay.toIdx p.1 = some (ti x p.1) ∧ InRange len (ti x p.1) ∧ p.1 = lin len (ti x p.1) := by
  obtain ⟨i, hi, e⟩ := h p hp
  rw [ti, e, hm i hi]; exact ⟨rfl, hi, rfl⟩

theorem classSum_eq {len : List Int} {x : View} (hlen : x.lay.len = len) (hm : Matches len x) {mem : List α} (hx : Good x mem.length) (old : List Int → α) (ps : List (Int × Oper))
    (hp : InArr len ps) (hold : ∀ p ∈ ps, val mem (addr x (ti x p.1)) = some (old (ti x p.1))) :
    classSum Neg.neg conj x mem ps = some (ps.map (fun p => p.2.ap Neg.neg conj (old (ti x p.1)))).sum := by
  have key : ∀ (ps : List (Int × Oper)) (acc : α), InArr len ps → (∀ p ∈ ps, val mem (addr x (ti x p.1)) = some (old (ti x p.1))) →
      ps.foldlM (fun acc (p : Int × Oper) => do
        let i ← x.lay.toIdx p.1
        let v ← load x i mem
        return acc + p.2.ap Neg.neg conj v) acc = some (acc + (ps.map (fun p => p.2.ap Neg.neg conj (old (ti x p.1)))).sum) := by
    intro ps
    induction ps with
    | nil => intro acc _ _; simp
    | cons p ps ih =>
      intro acc hp hold
      obtain ⟨h1, h2, -⟩ := ti_spec hm hp (p := p) List.mem_cons_self
      rw [List.foldlM_cons, h1]
      simp only [Option.bind_eq_bind, Option.bind_some]
      rw [load_eq hx (by rw [hlen]; exact h2), hold p List.mem_cons_self]
      simp only [Option.bind_some, Option.pure_def]
      rw [show (fun acc (p : Int × Oper) => (x.lay.toIdx p.1).bind fun i => (load x i mem).bind fun v => some (acc + p.2.ap Neg.neg conj v)) =
        (fun acc (p : Int × Oper) => do
        let i ← x.lay.toIdx p.1
        let v ← load x i mem
        return acc + p.2.ap Neg.neg conj v) from rfl, ih _ (fun q hq => hp q (List.mem_cons_of_mem _ hq)) (fun q hq => hold q (List.mem_cons_of_mem _ hq))]
      simp [add_assoc]
  rw [classSum, key ps 0 hp hold, zero_add]

/-- The largest difference so far, and where. -/
def MaxStep (x : View) (new old : List Int → α) (ps : List (Int × Oper)) (md md' : β) (mi mi' : List Int) : Prop :=
  md ≤ md' ∧ (∀ p ∈ ps, abs (new (ti x p.1) - old (ti x p.1)) ≤ md') ∧
    ((md' = md ∧ mi' = mi) ∨ ∃ p ∈ ps, md' = abs (new (ti x p.1) - old (ti x p.1)) ∧ mi' = ti x p.1)

omit [Zero β] in
theorem MaxStep.append {x : View} {new old : List Int → α} {ps qs : List (Int × Oper)} {a b c : β} {i j k : List Int} (h : MaxStep abs x new old ps a b i j)
    (h' : MaxStep abs x new old qs b c j k) : MaxStep abs x new old (ps ++ qs) a c i k := by
  refine ⟨le_trans h.1 h'.1, ?_, ?_⟩
  · intro p hp
    rcases List.mem_append.mp hp with hp | hp
    · exact le_trans (h.2.1 p hp) h'.1
    · exact h'.2.1 p hp
  · rcases h'.2.2 with ⟨rfl, rfl⟩ | ⟨p, hp, e⟩
    · rcases h.2.2 with ⟨rfl, rfl⟩ | ⟨p, hp, e⟩
      · exact Or.inl ⟨rfl, rfl⟩
      · exact Or.inr ⟨p, List.mem_append_left _ hp, e⟩
    · exact Or.inr ⟨p, List.mem_append_right _ hp, e⟩

omit [Zero β] in
theorem symWrite_spec {len : List Int} {x : View} (hlen : x.lay.len = len) (hm : Matches len x) (h1 : OneToOne x) (new old : List Int → α) (ref : α) : ∀ (ps : List (Int × Oper)) (mem : List α)
    (md : β) (mi : List Int), Good x mem.length → InArr len ps → (ps.map Prod.fst).Nodup → (∀ p ∈ ps, val mem (addr x (ti x p.1)) = some (old (ti x p.1))) →
    (∀ p ∈ ps, new (ti x p.1) = p.2.ap Neg.neg conj ref) →
    ∃ mem' md' mi', ps.foldlM (symWrite Neg.neg conj abs x ref) (mem, md, mi) = some (mem', md', mi') ∧ mem'.length = mem.length ∧
      (∀ p ∈ ps, val mem' (addr x (ti x p.1)) = some (new (ti x p.1))) ∧ (∀ k, (∀ p ∈ ps, addr x (ti x p.1) ≠ k) → val mem' k = val mem k) ∧
      MaxStep abs x new old ps md md' mi mi' := by
  intro ps
  induction ps with
  | nil => intro mem md mi _ _ _ _ _; exact ⟨mem, md, mi, rfl, rfl, by simp, fun _ _ => rfl, le_refl _, by simp, Or.inl ⟨rfl, rfl⟩⟩
  | cons p ps ih =>
    intro mem md mi hx hp hnd hold hnew
    obtain ⟨t1, t2, t3⟩ := ti_spec hm hp (p := p) List.mem_cons_self
    have hp' : InArr len ps := fun q hq => hp q (List.mem_cons_of_mem _ hq)
    rw [List.map_cons, List.nodup_cons] at hnd
    have hne : ∀ q ∈ ps, addr x (ti x q.1) ≠ addr x (ti x p.1) := by
      intro q hq e
      obtain ⟨s1, s2, s3⟩ := ti_spec hm hp' hq
      have := h1 _ _ (by rw [hlen]; exact s2) (by rw [hlen]; exact t2) e
      exact hnd.1 (List.mem_map.mpr ⟨q, hq, by rw [s3, t3, this]⟩)
    obtain ⟨m1, e1, l1, v1, f1⟩ := wrInt_spec (mem := mem) (k := addr x (ti x p.1)) (hx.fits _ (by rw [hlen]; exact t2)) (p.2.ap Neg.neg conj ref)
    have hstep : ∃ md1 mi1, symWrite Neg.neg conj abs x ref (mem, md, mi) p = some (m1, md1, mi1) ∧ MaxStep abs x new old [p] md md1 mi mi1 := by
      have hn := hnew p List.mem_cons_self
      simp only [symWrite, t1, Option.bind_eq_bind, Option.bind_some, load_eq hx (show InRange x.lay.len (ti x p.1) by rw [hlen]; exact t2), hold p List.mem_cons_self,
        store_eq hlen hx.wf hx.flags t2, e1]
      by_cases hlt : md < abs (p.2.ap Neg.neg conj ref - old (ti x p.1))
      · refine ⟨_, _, by rw [if_pos hlt]; rfl, le_of_lt hlt, ?_, Or.inr ⟨p, by simp, by rw [hn], rfl⟩⟩
        intro q hq
        rw [List.mem_singleton] at hq; subst hq
        rw [hn]
      · refine ⟨_, _, by rw [if_neg hlt]; rfl, le_refl _, ?_, Or.inl ⟨rfl, rfl⟩⟩
        intro q hq
        rw [List.mem_singleton] at hq; subst hq
        rw [hn]
        exact not_lt.mp hlt
    obtain ⟨md1, mi1, es, hs⟩ := hstep
    obtain ⟨m2, md2, mi2, e2, l2, v2, f2, hs2⟩ := ih m1 md1 mi1 (by rw [l1]; exact hx) hp' hnd.2
      (fun q hq => by rw [f1 _ (hne q hq)]; exact hold q (List.mem_cons_of_mem _ hq)) (fun q hq => hnew q (List.mem_cons_of_mem _ hq))
    refine ⟨m2, md2, mi2, by rw [List.foldlM_cons, es]; exact e2, by omega, ?_, ?_, by simpa using MaxStep.append abs hs hs2⟩
    · intro q hq
      rcases List.mem_cons.mp hq with rfl | hq
      · rw [f2 _ hne, v1, hnew q List.mem_cons_self]
      · exact v2 q hq
    · intro k hk
      rw [f2 k (fun q hq => hk q (List.mem_cons_of_mem _ hq)), f1 k (fun h => hk p List.mem_cons_self h.symm)]

/-- The average of a class, each member brought back to the representative. -/
def average (x : View) (old : List Int → α) (c : List (Int × Oper)) : α := divn (c.map (fun p => p.2.ap Neg.neg conj (old (ti x p.1)))).sum c.length

theorem symmetrize_spec {len : List Int} {x : View} (hlen : x.lay.len = len) (hm : Matches len x) (h1 : OneToOne x) (new old : List Int → α) : ∀ (cs : List (List (Int × Oper))) (mem : List α)
    (md : β) (mi : List Int), Good x mem.length → InArr len cs.flatten → (cs.flatten.map Prod.fst).Nodup → (∀ p ∈ cs.flatten, val mem (addr x (ti x p.1)) = some (old (ti x p.1))) →
    (∀ c ∈ cs, ∀ p ∈ c, new (ti x p.1) = p.2.ap Neg.neg conj (average conj divn x old c)) →
    ∃ mem' md' mi', cs.foldlM (fun (s : List α × β × List Int) c => do
        let sum ← classSum Neg.neg conj x s.1 c
        c.foldlM (symWrite Neg.neg conj abs x (divn sum c.length)) s) (mem, md, mi) = some (mem', md', mi') ∧ mem'.length = mem.length ∧
      (∀ p ∈ cs.flatten, val mem' (addr x (ti x p.1)) = some (new (ti x p.1))) ∧ (∀ k, (∀ p ∈ cs.flatten, addr x (ti x p.1) ≠ k) → val mem' k = val mem k) ∧
      MaxStep abs x new old cs.flatten md md' mi mi' := by
  intro cs
  induction cs with
  | nil => intro mem md mi _ _ _ _ _; exact ⟨mem, md, mi, rfl, rfl, by simp, fun _ _ => rfl, le_refl _, by simp, Or.inl ⟨rfl, rfl⟩⟩
  | cons c cs ih =>
    intro mem md mi hx hp hnd hold hnew
    rw [List.flatten_cons] at hp hnd hold
    rw [List.map_append, List.nodup_append] at hnd
    obtain ⟨n1, n2, n3⟩ := hnd
    have hpc : InArr len c := fun q hq => hp q (List.mem_append_left _ hq)
    have hpcs : InArr len cs.flatten := fun q hq => hp q (List.mem_append_right _ hq)
    have hs := classSum_eq conj hlen hm hx old c hpc (fun q hq => hold q (List.mem_append_left _ hq))
    obtain ⟨m1, md1, mi1, e1, l1, v1, f1, s1⟩ := symWrite_spec conj abs hlen hm h1 new old (average conj divn x old c) c mem md mi hx hpc n1
      (fun q hq => hold q (List.mem_append_left _ hq)) (hnew c List.mem_cons_self)
    have hne : ∀ p ∈ c, ∀ q ∈ cs.flatten, addr x (ti x p.1) ≠ addr x (ti x q.1) := by
      intro p hp q hq e
      obtain ⟨a1, a2, a3⟩ := ti_spec hm hpc hp
      obtain ⟨b1, b2, b3⟩ := ti_spec hm hpcs hq
      have := h1 _ _ (by rw [hlen]; exact a2) (by rw [hlen]; exact b2) e
      exact n3 _ (List.mem_map_of_mem hp) _ (List.mem_map_of_mem hq) (by rw [a3, b3, this])
    obtain ⟨m2, md2, mi2, e2, l2, v2, f2, s2⟩ := ih m1 md1 mi1 (by rw [l1]; exact hx) hpcs n2
      (fun q hq => by rw [f1 _ (fun p hp => hne p hp q hq)]; exact hold q (List.mem_append_right _ hq)) (fun d hd => hnew d (List.mem_cons_of_mem _ hd))
    refine ⟨m2, md2, mi2, ?_, by omega, ?_, ?_, by rw [List.flatten_cons]; exact MaxStep.append abs s1 s2⟩
    · rw [List.foldlM_cons, hs]
      simp only [Option.bind_eq_bind, Option.bind_some]
      rw [average] at e1
      rw [e1]
      exact e2
    · intro p hp
      rw [List.flatten_cons] at hp
      rcases List.mem_append.mp hp with hp | hp
      · rw [f2 _ (fun q hq e => hne p hp q hq e.symm)]; exact v1 p hp
      · exact v2 p hp
    · intro k hk
      rw [List.flatten_cons] at hk
      rw [f2 k (fun q hq => hk q (List.mem_append_right _ hq)), f1 k (fun q hq => hk q (List.mem_append_left _ hq))]

/-- **C34** `symmetrize` replaces every member of a class by its operation applied to the average over the class (of the operations applied to the members), and
returns the largest change with an index where it happens (or zero and the index zero if nothing has changed by more than zero). -/
theorem C34_symmetrize (len : List Int) (hn : NonNeg len) (h0 : len ≠ []) (syms : List Sym) (hk : KeepRank len.length syms) (maxLen : Int)
    (x : View) (hlen : x.lay.len = len) (hso : x.lay.so = Perm.identity len.length) (hd : Dense x.lay) (h1 : OneToOne x) (mem : List α) (hx : Good x mem.length)
    (old : List Int → α) (hold : ∀ i, InRange len i → val mem (addr x i) = some (old i)) :
    ∃ fuel0 g, (∀ fuel, fuel0 ≤ fuel → build len syms maxLen fuel = some g) ∧ ∃ mem' md mi, ∃ new : List Int → α, symmetrize Neg.neg conj divn abs (classes g) x mem = some (mem', md, mi) ∧
      Updated x (fun i => some (new i)) mem mem' ∧
      (∀ c ∈ classes g, ∃ mean, mean = divn (c.map (fun p => p.2.ap Neg.neg conj (old ((x.lay.toIdx p.1).getD [])))).sum c.length ∧
        ∀ p ∈ c, ∀ i, InRange len i → p.1 = lin len i → new i = p.2.ap Neg.neg conj mean) ∧
      (∀ i, InRange len i → abs (new i - old i) ≤ md) ∧
      ((md = 0 ∧ mi = List.replicate len.length 0) ∨ ∃ i, InRange len i ∧ md = abs (new i - old i) ∧ mi = i) := by
  subst hlen
  obtain ⟨fuel0, g, L, e, h⟩ := build_spec hn hk maxLen
  have hm := matches_of_c hx.wf h0 hso hd
  -- the new values
  have hex : ∀ i, ∃ v : α, InRange x.lay.len i → ∀ c ∈ L, ∀ p ∈ c, p.1 = lin x.lay.len i → v = p.2.ap Neg.neg conj (average conj divn x old c) := by
    intro i
    by_cases hi : InRange x.lay.len i
    · obtain ⟨q, hq, hql⟩ := List.mem_map.mp (cover_all h hi)
      obtain ⟨c, hc, hqc⟩ := List.mem_flatten.mp hq
      refine ⟨q.2.ap Neg.neg conj (average conj divn x old c), fun _ c' hc' p hp ep => ?_⟩
      obtain ⟨rfl, rfl⟩ := key_unique h hc hc' hqc hp (hql.trans ep.symm)
      rfl
    · exact ⟨0, fun h => absurd h hi⟩
  choose new hnew using hex
  have hin : InArr x.lay.len L.flatten := by
    intro p hp
    obtain ⟨c, hc, hpc⟩ := List.mem_flatten.mp hp
    obtain ⟨r, rest, -, -, hall⟩ := h.isClass c hc
    obtain ⟨j, hj, ej, -⟩ := hall p hpc
    exact ⟨j, hj, ej⟩
  obtain ⟨mem', md, mi, e1, l1, v1, f1, s1⟩ := symmetrize_spec conj divn abs rfl hm h1 new old L mem (0 : β) (List.replicate x.lay.len.length 0) hx hin (by rw [← h.data]; exact h.inv.nodup)
    (fun p hp => by obtain ⟨-, b, -⟩ := ti_spec hm hin hp; exact hold _ b)
    (fun c hc p hp => by
      have hpf : p ∈ L.flatten := List.mem_flatten.mpr ⟨c, hc, hp⟩
      obtain ⟨-, b, b'⟩ := ti_spec hm hin hpf; exact hnew _ b c hc p hp b')
  have hti : ∀ i, InRange x.lay.len i → ∃ p ∈ L.flatten, ti x p.1 = i := by
    intro i hi
    obtain ⟨q, hq, hql⟩ := List.mem_map.mp (cover_all h hi)
    exact ⟨q, hq, by rw [ti, hql, hm i hi]; rfl⟩
  refine ⟨fuel0, g, e, mem', md, mi, new, by rw [h.classes_eq]; exact e1, ⟨l1, ?_, ?_⟩, ?_, ?_, ?_⟩
  · intro i hi
    obtain ⟨p, hp, rfl⟩ := hti i hi
    exact v1 p hp
  · intro k hk
    apply f1
    intro p hp e
    obtain ⟨-, b, -⟩ := ti_spec hm hin hp
    exact hk ⟨_, b, e⟩
  · intro c hc
    rw [h.classes_eq] at hc
    exact ⟨average conj divn x old c, rfl, fun p hp i hi ep => hnew i hi c hc p hp ep⟩
  · intro i hi
    obtain ⟨p, hp, rfl⟩ := hti i hi
    exact s1.2.1 p hp
  · rcases s1.2.2 with h' | ⟨p, hp, a, b⟩
    · exact Or.inl h'
    · obtain ⟨-, c, -⟩ := ti_spec hm hin hp
      exact Or.inr ⟨_, c, a, b⟩

/-- **C34** Averaging an array that already has the symmetries of the classes gives the value at the representative: such an array is a fixed point of `symmetrize`. -/
theorem C34_symmetrize_fixed (hcc : ∀ v, conj (conj v) = v) (hnc : ∀ v, conj (-v) = -conj v) (hdiv : ∀ (v : α) (n : Nat), 0 < n → divn (n • v) n = v) (c : List (Int × Oper)) (hne : c ≠ [])
    (u : Int × Oper → α) (v : α) (hu : ∀ p ∈ c, u p = p.2.ap Neg.neg conj v) :
    divn (c.map (fun p => p.2.ap Neg.neg conj (u p))).sum c.length = v := by
  have : (c.map (fun p => p.2.ap Neg.neg conj (u p))).sum = c.length • v := by
    have h1 : c.map (fun p => p.2.ap Neg.neg conj (u p)) = c.map (fun _ => v) := by
      apply List.map_congr_left
      intro p hp
      rw [hu p hp, ← Oper.mul_ap Neg.neg conj neg_neg hcc hnc]
      obtain ⟨a, b⟩ := p.2
      cases a <;> cases b <;> rfl
    rw [h1]
    simp
  rw [this, hdiv v c.length (by cases c with | nil => exact absurd rfl hne | cons a l => simp)]

end symmetrize

/-! ### Cases and witnesses -/

/-- The swap of two indices with conjugation, and a sign change under reflection of the first index. -/
def exSyms : List Sym := [fun i => ([i.getD 1 0, i.getD 0 0], ⟨false, true⟩), fun i => ([1 - i.getD 0 0, i.getD 1 0], ⟨true, false⟩)]

example : KeepRank 2 exSyms := by
  intro s hs i _
  simp only [exSyms, List.mem_cons, List.not_mem_nil, or_false] at hs
  rcases hs with rfl | rfl <;> rfl

/-- All four indices of a 2 by 2 array are in one class. -/
example : (build [2, 2] exSyms 0 8).map classes = some [[(0, ⟨false, false⟩), (2, ⟨true, false⟩), (1, ⟨true, true⟩), (3, ⟨false, true⟩)]] := by decide

/-- Symmetries that leave the array: reached again after an excursion of at most `maxLen` steps. -/
def shift : List Sym := [fun i => ([if i.getD 0 0 = 4 then 1 else i.getD 0 0 + 2], ⟨false, false⟩)]

example : (build [3] shift 0 20).map (fun g => (classes g).map (fun c => c.map Prod.fst)) = some [[0, 2], [1]] := by decide
example : (build [3] shift 1 20).map (fun g => (classes g).map (fun c => c.map Prod.fst)) = some [[0, 2, 1]] := by decide

/-- A symmetric function on a 2 by 2 array in C order: `f (i, j) = (-1)^(i + j)`, without conjugation. -/
example : (do let g ← build [2, 2] [fun i => ([1 - i.getD 0 0, i.getD 1 0], ⟨true, false⟩)] 0 8
              init (fun v : Int => -v) id (classes g) ⟨0, ⟨[2, 2], [2, 1], [0, 1], [0, 0], .contiguous⟩⟩ (fun i => if i.getD 0 0 = i.getD 1 0 then 1 else -1) [9, 9, 9, 9]) =
    some [1, -1, -1, 1] := by decide

/-- **C34 fails for arrays in Fortran order**: the linear indices of the classes count in C order, but are decoded with the layout of the array.  With the symmetry
`(i, j) → (i, 1 - j)` and the (symmetric) function `f (i, j) = i`, the array should have rows 0 0 and 1 1; stored in Fortran order it gets zeros only. -/
theorem C34_fortran_witness : (do
    let g ← build [2, 2] [fun i => ([i.getD 0 0, 1 - i.getD 1 0], ⟨false, false⟩)] 0 8
    let x : View := ⟨0, ⟨[2, 2], [1, 2], [1, 0], [0, 0], .contiguous⟩⟩
    let mem ← init (fun v : Int => -v) id (classes g) x (fun i => i.getD 0 0) [9, 9, 9, 9]
    return [load x [0, 0] mem, load x [0, 1] mem, load x [1, 0] mem, load x [1, 1] mem]) = some [some 0, some 0, some 0, some 0] := by decide

/-- **C34 fails for strided views**: the view of the first two columns of a 2 by 3 array.  Position 2, the index (1, 0), is decoded as (0, 2), which is not an
index of the view: the element next to the row is overwritten, and (1, 0) is not set. -/
theorem C34_strided_witness : (do
    let g ← build [2, 2] [] 0 8
    let x : View := ⟨0, ⟨[2, 2], [3, 1], [0, 1], [0, 0], .smallest⟩⟩
    init (fun v : Int => -v) id (classes g) x (fun i => 10 * i.getD 0 0 + i.getD 1 0) [9, 9, 9, 9, 9, 9]) = some [0, 1, 2, 10, 9, 9] := by decide

end Nda.SymGrp
