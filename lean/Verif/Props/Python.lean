import Verif.Spec.Python
import Verif.Lemmas.Views
import Verif.Props.Handles
import Verif.Props.Algorithms
/-!
# C51: exchange of arrays with Python
-/
namespace Nda.Python
open Nda Nda.Spec Nda.Python.Spec Nda.IdxMap Nda.LayoutTransforms Nda.Mem Nda.Mem.Spec

/-! ## The description of the elements -/

theorem mulSize_eq {s : Int} {size : Nat} (h1 : -2 ^ 63 ≤ s * size) (h2 : s * size < 2 ^ 63) : mulSize s size = s * size := by
  unfold mulSize
  rw [← BitVec.ofInt_natCast, ← BitVec.ofInt_mul, BitVec.toInt_ofInt]
  apply Int.bmod_eq_of_le <;> omega

theorem divSize_eq {s : Int} {size : Nat} (h1 : 0 ≤ s) (h2 : s < 2 ^ 63) (h3 : size < 2 ^ 64) : divSize s size = s / size := by
  unfold divSize
  obtain ⟨n, rfl⟩ := Int.eq_ofNat_of_zero_le h1
  rw [BitVec.ofInt_natCast, BitVec.toInt_eq_toNat_of_lt]
  · rw [BitVec.toNat_udiv, BitVec.toNat_ofNat, BitVec.toNat_ofNat, Nat.mod_eq_of_lt (by omega), Nat.mod_eq_of_lt h3]
    rfl
  · rw [BitVec.toNat_udiv, BitVec.toNat_ofNat, BitVec.toNat_ofNat, Nat.mod_eq_of_lt (by omega), Nat.mod_eq_of_lt h3]
    have := Nat.div_le_self n size
    omega

theorem dot_map_mul (f : Int → Int) (c : Int) : ∀ (ss idx : List Int), (∀ s ∈ ss, f s = s * c) →
    dot (ss.map f) idx = c * dot ss idx
  | [], idx, _ => by simp [dot]
  | s :: ss, [], _ => by simp [dot]
  | s :: ss, i :: idx, h => by
      simp only [List.map_cons, dot]
      rw [dot_map_mul f c ss idx (fun t ht => h t (List.mem_cons_of_mem _ ht)), h s List.mem_cons_self, Int.mul_add]
      congr 1
      rw [Int.mul_comm s c, Int.mul_assoc]

/-- **C51** The description handed to Python: same extents; the element at any index tuple, for strides of any sign, is
at the same address (byte strides must fit in 64 bits).  Python may write exactly if the element type is not const. -/
theorem C51_to_python (base : Int) (size : Nat) (const : Bool) (v : View) (hw : WF v.lay) (hs : SmallestOK v.lay)
    (hfit : ∀ s ∈ v.lay.str, -2 ^ 63 ≤ s * size ∧ s * size < 2 ^ 63) :
    (toPython base size const v).extents = v.lay.len ∧ (toPython base size const v).const = const ∧
    ∀ idx, InRange v.lay.len idx → ∃ k, element v (idx.map .idx) = some k ∧
      npAddr (toPython base size const v) idx = base + size * k := by
  refine ⟨by simp [toPython], rfl, fun idx hi => ⟨v.off + Spec.offset v.lay idx, by simp [element, call_idx hw hs idx hi.length_eq], ?_⟩⟩
  unfold npAddr toPython
  simp only
  rw [dot_map_mul _ (size : Int) _ _ (fun s h => mulSize_eq (hfit s h).1 (hfit s h).2)]
  unfold Spec.offset
  rw [Int.mul_add]
  omega

-- every second column of a 4x3 matrix of doubles, rows in reverse order
example : toPython 1000 8 false ⟨9, ⟨[4, 2], [-3, 2], [0, 1], [0, 0], .none⟩⟩ = ⟨1072, false, [4, 2], [-24, 16]⟩ ∧
    npAddr ⟨1072, false, [4, 2], [-24, 16]⟩ [3, 1] = 1000 + 8 * 2 := by decide +kernel

/-- **C51 (partial)** A view made from a numpy array has its extents, and the element at any index tuple is at the
same address, if all byte strides are non-negative multiples of the element size.
Missing, because the code does not do it: negative strides (`C51_negative_witness`) and strides that are not multiples
(`C51_multiple_witness`). -/
theorem C51_from_python_partial (size : Nat) (p : Proxy) (hl : p.strides.length = p.extents.length) (hsz : 0 < size)
    (hsz' : size < 2 ^ 64) (hst : ∀ s ∈ p.strides, 0 ≤ s ∧ s < 2 ^ 63 ∧ (size : Int) ∣ s) :
    (viewFromPython p.extents.length size p).2.lay.len = p.extents ∧
    ∀ idx, InRange p.extents idx → ∃ k, element (viewFromPython p.extents.length size p).2 (idx.map .idx) = some k ∧
      (viewFromPython p.extents.length size p).1 + size * k = npAddr p idx := by
  have hw : WF (viewFromPython p.extents.length size p).2.lay :=
    ⟨Nda.Perm.isPerm_range _, by simp [viewFromPython], by simp [viewFromPython, hl], by simp [viewFromPython]⟩
  have hs : SmallestOK (viewFromPython p.extents.length size p).2.lay := by
    intro h; exact absurd h (by simp only [viewFromPython]; decide)
  have hlen : (viewFromPython p.extents.length size p).2.lay.len = p.extents := by simp [viewFromPython]
  refine ⟨hlen, fun idx hi => ⟨_, by rw [element, call_idx hw hs idx (by rw [hlen]; exact hi.length_eq)]; rfl, ?_⟩⟩
  unfold npAddr Spec.offset
  simp only [viewFromPython, Int.zero_add, ← hl, List.take_length]
  congr 1
  have : p.strides = (p.strides.map (fun s => divSize s size)).map (fun t : Int => t * size) := by
    rw [List.map_map]
    conv => lhs; rw [← List.map_id p.strides]
    apply List.map_congr_left
    intro s h
    obtain ⟨h1, h2, h3⟩ := hst s h
    simp only [id, Function.comp]
    rw [divSize_eq h1 h2 hsz', Int.ediv_mul_cancel h3]
  conv => rhs; rw [this]
  rw [dot_map_mul (fun t : Int => t * size) (size : Int) _ _ (fun _ _ => rfl)]

example : viewFromPython 2 8 ⟨1000, false, [4, 2], [24, 16]⟩ = (1000, ⟨0, ⟨[4, 2], [3, 2], [0, 1], [0, 0], .none⟩⟩) := by decide +kernel

/-- **C51 (partial)** Out to Python and back: the elements of the view made from the description are the elements of
the first view (non-negative strides; see `C51_from_python_partial` for what is missing). -/
theorem C51_roundtrip_partial (base : Int) (size : Nat) (const : Bool) (v : View) (hw : WF v.lay) (hs : SmallestOK v.lay)
    (hsz : 0 < size) (hsz' : size < 2 ^ 64) (hfit : ∀ s ∈ v.lay.str, 0 ≤ s ∧ s * size < 2 ^ 63) (idx : List Int)
    (hi : InRange v.lay.len idx) :
    ∃ k k', element v (idx.map .idx) = some k ∧
      element (viewFromPython v.lay.len.length size (toPython base size const v)).2 (idx.map .idx) = some k' ∧
      (viewFromPython v.lay.len.length size (toPython base size const v)).1 + size * k' = base + size * k := by
  have hfit' : ∀ s ∈ v.lay.str, -2 ^ 63 ≤ s * size ∧ s * size < 2 ^ 63 := by
    intro s h
    have := hfit s h
    have h0 : 0 ≤ s * size := Int.mul_nonneg this.1 (by omega)
    exact ⟨by omega, this.2⟩
  obtain ⟨h1, -, h2⟩ := C51_to_python base size const v hw hs hfit'
  have hl : (toPython base size const v).strides.length = (toPython base size const v).extents.length := by
    simp [toPython, hw.str_len]
  obtain ⟨h3, h4⟩ := C51_from_python_partial size (toPython base size const v) hl hsz hsz' (by
    intro s h
    obtain ⟨t, ht, rfl⟩ := List.mem_map.mp (show s ∈ v.lay.str.map (fun s => mulSize s size) from h)
    rw [mulSize_eq (hfit' t ht).1 (hfit' t ht).2]
    exact ⟨Int.mul_nonneg (hfit t ht).1 (by omega), (hfit' t ht).2, Int.dvd_mul_left _ _⟩)
  rw [h1] at h3 h4
  obtain ⟨k, g1, g2⟩ := h2 idx hi
  obtain ⟨k', g3, g4⟩ := h4 idx hi
  exact ⟨k, k', g1, g3, by rw [g4, g2]⟩

/-- **C51 disagreement** A numpy array in reverse order (`a[::-1]` of four doubles at 1000) is accepted, but the
division by `sizeof(T)` is unsigned: element 1 is at 1016 in Python and far outside for the view. -/
theorem C51_negative_witness :
    ∃ o : Obj, viewConvertible 1 12 [0] false true o = some true ∧ o.desc.extents = [4] ∧ npAddr o.desc [1] = 1016 ∧
      npAddr o.desc [3] = 1000 ∧
      (let w := viewFromPython 1 8 o.desc
       w.1 + 8 * (Spec.offset w.2.lay [1]) = 1016 + 2 ^ 64) := by
  exact ⟨⟨true, 12, ⟨1024, false, [4], [-8]⟩⟩, by decide +kernel⟩

/-- **C51 disagreement** A field of an array of packed records (12 bytes per record, doubles of 8 bytes): accepted, but
element 1 is at 1012 in Python and at 1008 for the view. -/
theorem C51_multiple_witness :
    ∃ o : Obj, viewConvertible 1 12 [0] false true o = some true ∧ o.desc.extents = [3] ∧ npAddr o.desc [1] = 1012 ∧
      (let w := viewFromPython 1 8 o.desc
       w.1 + 8 * (Spec.offset w.2.lay [1]) = 1008) := by
  exact ⟨⟨true, 12, ⟨1000, false, [3], [12]⟩⟩, by decide +kernel⟩

/-! ## Acceptance -/

/-- **C51** Exactly the numpy arrays of the right rank, the right element type and (if required) the right order of
absolute strides are accepted as views. -/
theorem C51_accept_view (R npy : Nat) (so : List Nat) (req : Bool) (o : Obj) (hp : IsPerm so) (hso : so.length = R)
    (hl : o.desc.strides.length = o.desc.extents.length) :
    ∃ b, viewConvertible R npy so false req o = some b ∧
      (b = true ↔ o.isArray = true ∧ o.desc.extents.length = R ∧ o.type = npy ∧
        (req = true → SortsStrides ⟨o.desc.extents, o.desc.strides, so, List.replicate R 0, .none⟩)) := by
  unfold viewConvertible
  cases ha : o.isArray with
  | false => exact ⟨false, by simp, by simp⟩
  | true =>
    by_cases hr : o.desc.extents.length = R
    · by_cases ht : o.type = npy
      · have hw : WF (⟨o.desc.extents, o.desc.strides, so, List.replicate R 0, .none⟩ : IdxMap) :=
          ⟨hp, by simp [hso, hr], hl, by simp [hr]⟩
        obtain ⟨b, h1, h2⟩ := isStrideOrderValid_eq hw
        have hc : checkLayout R so o = some b := by
          unfold checkLayout
          rw [List.take_of_length_le (by omega), List.take_of_length_le (by omega)]
          exact h1
        cases req with
        | false => exact ⟨true, by simp [hr, ht], by simp [hr, ht]⟩
        | true =>
          refine ⟨b, ?_, by simp [hr, ht, h2]⟩
          simp only [hr, ht, hc]
          cases b <;> simp
      · exact ⟨false, by simp [hr, ht], by simp [ht]⟩
    · exact ⟨false, by simp [hr], by simp [hr]⟩

example : viewConvertible 2 12 [0, 1] false true ⟨true, 12, ⟨1000, false, [4, 2], [24, 16]⟩⟩ = some true ∧
    viewConvertible 2 12 [0, 1] false true ⟨true, 12, ⟨1000, false, [2, 4], [16, 24]⟩⟩ = some false := by decide +kernel

/-- **C51** What the test of the elements decides: whether some element converts. -/
theorem C51_elements_any (shape : List Int) (conv : List Int → Bool) :
    ∃ b, elementsConvertible shape conv = some b ∧ (b = true ↔ ∃ idx, InRange shape idx ∧ conv idx = true) := by
  unfold elementsConvertible Algorithms.sum
  rw [Algorithms.C25_fold _ _ _ _ _ (lexEnum_box shape)]
  have hm : (box shape).mapM (fun idx => some (conv idx)) = some ((box shape).map conv) := by
    generalize box shape = L
    induction L with
    | nil => rfl
    | cons i L ih => simp [ih]
  rw [hm]
  have key : ∀ (l : List Bool) (r : Int), 0 ≤ r →
      0 ≤ l.foldl (fun (r : Int) (x : Bool) => r + if x then 1 else 0) r ∧
      (l.foldl (fun (r : Int) (x : Bool) => r + if x then 1 else 0) r ≠ 0 ↔ r ≠ 0 ∨ true ∈ l) := by
    intro l
    induction l with
    | nil => simp
    | cons x l ih =>
      intro r hr
      cases x with
      | true =>
        obtain ⟨h1, h2⟩ := ih (r + 1) (by omega)
        exact ⟨by simpa using h1, by simp only [List.foldl_cons, if_true]; rw [h2]; simp; omega⟩
      | false =>
        obtain ⟨h1, h2⟩ := ih r hr
        exact ⟨by simpa using h1, by simpa using h2⟩
  refine ⟨_, rfl, ?_⟩
  rw [decide_eq_true_iff, (key _ 0 (by omega)).2]
  simp only [ne_eq, not_true, false_or, List.mem_map]
  constructor
  · rintro ⟨i, h1, h2⟩; exact ⟨i, mem_box.mp h1, h2⟩
  · rintro ⟨i, h1, h2⟩; exact ⟨i, mem_box.mpr h1, h2⟩

/-- **C51 (partial)** An array is accepted only if all its elements convert, provided its elements are alike: all
convert or none does.  Missing: the claim is false otherwise (`C51_elements_witness`), and arrays without elements are
refused (`C51_empty_witness`). -/
theorem C51_accept_elements_partial (R npyObj : Nat) (conv : List Int → Bool) (o : Obj)
    (halike : ∀ i j, InRange (o.desc.extents.take R) i → InRange (o.desc.extents.take R) j → conv i = conv j)
    (h : arrayConvertible R npyObj conv o = some true) :
    ∀ idx, InRange (o.desc.extents.take R) idx → conv idx = true := by
  unfold arrayConvertible at h
  obtain ⟨b, h1, h2⟩ := C51_elements_any (o.desc.extents.take R) conv
  have hb : b = true := by
    cases hv : viewConvertible R npyObj (List.range R) true true o with
    | none => rw [hv] at h; cases h
    | some c =>
      rw [hv] at h
      cases c with
      | false => cases h
      | true => simp only [h1] at h; exact Option.some.inj h
  obtain ⟨i, hi, hc⟩ := h2.mp hb
  intro idx hidx
  rw [halike idx i hidx hi, hc]

example : arrayConvertible 1 17 (fun _ => true) ⟨true, 17, ⟨1000, false, [3], [8]⟩⟩ = some true := by decide +kernel

/-- **C51 disagreement** One convertible element of two is enough: the array is accepted. -/
theorem C51_elements_witness :
    ∃ (o : Obj) (conv : List Int → Bool), arrayConvertible 1 17 conv o = some true ∧ InRange (o.desc.extents.take 1) [1] ∧
      conv [1] = false := by
  exact ⟨⟨true, 17, ⟨1000, false, [2], [8]⟩⟩, fun i => decide (i = [0]), by decide +kernel, by decide +kernel, by decide⟩

/-- **C51 disagreement** An array without elements is refused, although all (none) of its elements convert. -/
theorem C51_empty_witness (conv : List Int → Bool) :
    arrayConvertible 1 17 conv ⟨true, 17, ⟨1000, false, [0], [8]⟩⟩ = some false := by
  obtain ⟨b, h1, h2⟩ := C51_elements_any [0] conv
  have : b = false := by
    cases b with
    | false => rfl
    | true =>
      obtain ⟨i, hi, -⟩ := h2.mp rfl
      cases i with
      | nil => exact hi.elim
      | cons x i => have := hi.1; omega
  subst this
  have hv : viewConvertible 1 17 (List.range 1) true true ⟨true, 17, ⟨1000, false, [0], [8]⟩⟩ = some true := by decide +kernel
  simp only [arrayConvertible, hv]
  exact h1

/-! ## Lifetime -/

variable {V : Type}

theorem var_setVar_ne {p : Prog V} {x d : Nat} (h : x ≠ d) (y : Option Handle) : (p.setVar x y).vars[d]? = p.vars[d]? := by
  simp [Prog.setVar, List.getElem?_set_ne h]

/-- Operations that leave a variable alone do not change it. -/
theorem step_leaves {triv : Bool} {dflt : V} {p p' : Prog V} {op : HOp V} {d : Nat} (h : p.step triv dflt op = some p')
    (hd : LeavesAlone d op) : p'.vars[d]? = p.vars[d]? := by
  cases op <;> simp only [LeavesAlone] at hd <;> simp only [Prog.step] at h
  all_goals
    repeat' split at h
    all_goals
      first
        | (simp only [Option.some.injEq] at h; subst h; rfl)
        | (simp only [Option.some.injEq] at h; subst h
           simp only [var_setVar_ne hd])
        | (simp only [Option.some.injEq] at h; subst h
           simp only [var_setVar_ne hd.1, var_setVar_ne hd.2])
        | (simp only [Option.bind_eq_bind, Option.bind_eq_some_iff, Option.pure_def, Option.some.injEq] at h
           repeat obtain ⟨_, _, h⟩ := h
           first
             | (subst h; rfl)
             | (subst h; simp only [var_setVar_ne hd])
             | (subst h; simp only [var_setVar_ne hd.1, var_setVar_ne hd.2])
             | rfl
             | (simp only [var_setVar_ne hd]; done)
             | (simp only [var_setVar_ne hd.1, var_setVar_ne hd.2]; done)
             | (split at h <;> first | (cases h; done) | (simp only [Option.some.injEq] at h; subst h; rfl)))

theorem run_leaves {triv : Bool} {dflt : V} {d : Nat} (ops : List (HOp V)) {p p' : Prog V} (h : p.run triv dflt ops = some p')
    (hd : ∀ op ∈ ops, LeavesAlone d op) : p'.vars[d]? = p.vars[d]? := by
  induction ops generalizing p with
  | nil => simp only [Prog.run, List.foldlM_nil] at h; cases h; rfl
  | cons op ops ih =>
    simp only [Prog.run, List.foldlM_cons, Option.bind_eq_bind, Option.bind_eq_some_iff] at h
    obtain ⟨p1, h1, h2⟩ := h
    rw [ih h2 (fun o ho => hd o (List.mem_cons_of_mem _ ho)), step_leaves h1 (hd op List.mem_cons_self)]

theorem carefulRun_append {triv : Bool} {dflt : V} (ops1 ops2 : List (HOp V)) {p p1 : Prog V}
    (h : CarefulRun triv dflt p (ops1 ++ ops2)) (h1 : p.run triv dflt ops1 = some p1) : CarefulRun triv dflt p1 ops2 := by
  induction ops1 generalizing p with
  | nil => simp only [Prog.run, List.foldlM_nil] at h1; cases h1; exact h
  | cons op ops ih =>
    simp only [Prog.run, List.foldlM_cons, Option.bind_eq_bind, Option.bind_eq_some_iff] at h1
    obtain ⟨p2, g1, g2⟩ := h1
    exact ih (h.2 p2 g1) g2

theorem carefulRun_left {triv : Bool} {dflt : V} (ops1 ops2 : List (HOp V)) {p : Prog V}
    (h : CarefulRun triv dflt p (ops1 ++ ops2)) : CarefulRun triv dflt p ops1 := by
  induction ops1 generalizing p with
  | nil => trivial
  | cons op ops ih => exact ⟨h.1, fun p' hp' => ih (h.2 p' hp')⟩

/-- **C51** The memory of an array or view handed to Python stays alive as long as the Python object: whatever the
program did before (`ops1`) and does after (`ops2`: the array may be destroyed, resized, moved, assigned to, handed to
Python again), until it destroys the capsule the block that the data pointer points into is not released, keeps its
size and is full of objects.  For a view this needs that its parent still holds the memory of the view when the view is
handed over (see `C51_moved_parent_witness`). -/
theorem C51_alive (triv : Bool) (dflt : V) (n : Nat) (ops1 ops2 : List (HOp V)) (d : Nat) (w : Borrowed) (op : HOp V)
    (hop : capsuleView d w = some op) (hc : CarefulRun triv dflt (Prog.start n) (ops1 ++ op :: ops2)) (p1 : Prog V)
    (hp1 : (Prog.start n).run triv dflt ops1 = some p1) (s b k : Nat) (sp : Option Nat) (hw : w = ⟨some s, some b⟩)
    (hs : p1.vars[s]? = some (some (.heap (some b) k sp))) (hd : p1.vars[d]? = some none)
    (halone : ∀ o ∈ ops2, LeavesAlone d o) :
    ∃ p cells, (Prog.start n).run triv dflt (ops1 ++ op :: ops2) = some p ∧ p.mem.hp[b]? = some ⟨cells, false⟩ ∧
      cells.length = k ∧ (triv = false → ∀ c ∈ cells, c.isSome) := by
  subst hw
  simp only [capsuleView, Option.some.injEq] at hop
  subst hop
  obtain ⟨p, h1, -, h3⟩ := C28_history_partial triv dflt n _ hc
  have h1' := h1
  simp only [Prog.run, List.foldlM_append, Option.bind_eq_bind, Option.bind_eq_some_iff, List.foldlM_cons] at h1
  obtain ⟨q1, a1, q2, a2, a3⟩ := h1
  have : q1 = p1 := by
    have : (Prog.start n).run triv dflt ops1 = some q1 := a1
    rw [hp1] at this; exact (Option.some.inj this).symm
  subst this
  have hvs : q1.var s = some (.heap (some b) k sp) := by simp [Prog.var, hs]
  have hvd : q1.var d = none := by simp [Prog.var, hd]
  have hdl : d < q1.vars.length := (List.getElem?_eq_some_iff.mp hd).1
  have hcap : ∃ c, q2.vars[d]? = some (some (.shared (some b) k (some c))) := by
    simp only [Prog.step, hvs, hvd, hdl, and_self, if_true, Option.bind_eq_bind, Option.bind_eq_some_iff] at a2
    obtain ⟨⟨h, x, m⟩, g1, g2⟩ := a2
    simp only [Option.pure_def, Option.some.injEq] at g2
    subst g2
    cases sp with
    | none =>
      simp only [Mem.share, Option.some.injEq, Prod.mk.injEq] at g1
      obtain ⟨rfl, rfl, rfl⟩ := g1
      exact ⟨_, by simp [Prog.setVar, hdl]; rfl⟩
    | some c =>
      simp only [Mem.share, Option.bind_eq_bind, Option.bind_eq_some_iff, Option.pure_def, Option.some.injEq, Prod.mk.injEq] at g1
      obtain ⟨m', _, rfl, rfl, rfl⟩ := g1
      exact ⟨c, by simp [Prog.setVar, hdl]⟩
  obtain ⟨c, hcap⟩ := hcap
  have hfin := run_leaves ops2 (p := q2) (p' := p) a3 halone
  rw [hcap] at hfin
  have hI := h3 d _ hfin (by intro x m h; cases h)
  simp only [Intact, Handle.data] at hI
  obtain ⟨cells, i1, i2, i3⟩ := hI
  exact ⟨p, cells, h1', i1, i2, i3⟩

/-- **C51** The same for an array, which itself still holds its memory after having been handed over. -/
theorem C51_alive_array (triv : Bool) (dflt : V) (n : Nat) (ops1 ops2 : List (HOp V)) (d s : Nat)
    (hc : CarefulRun triv dflt (Prog.start n) (ops1 ++ capsule d s :: ops2)) (p1 : Prog V)
    (hp1 : (Prog.start n).run triv dflt ops1 = some p1) (b k : Nat) (sp : Option Nat)
    (hs : p1.vars[s]? = some (some (.heap (some b) k sp))) (hd : p1.vars[d]? = some none) :
    (∃ q sp', p1.step triv dflt (capsule d s) = some q ∧ q.vars[s]? = some (some (.heap (some b) k sp'))) ∧
    ((∀ o ∈ ops2, LeavesAlone d o) → ∃ p cells, (Prog.start n).run triv dflt (ops1 ++ capsule d s :: ops2) = some p ∧
      p.mem.hp[b]? = some ⟨cells, false⟩ ∧ cells.length = k ∧ (triv = false → ∀ c ∈ cells, c.isSome)) := by
  refine ⟨?_, fun h => C51_alive triv dflt n ops1 ops2 d ⟨some s, some b⟩ _ rfl hc p1 hp1 s b k sp rfl hs hd h⟩
  obtain ⟨p, h1, -⟩ := C28_history_partial triv dflt n _ hc
  simp only [Prog.run, List.foldlM_append, Option.bind_eq_bind, Option.bind_eq_some_iff, List.foldlM_cons] at h1
  obtain ⟨q1, a1, q2, a2, -⟩ := h1
  have : q1 = p1 := by
    have : (Prog.start n).run triv dflt ops1 = some q1 := a1
    rw [hp1] at this; exact (Option.some.inj this).symm
  subst this
  refine ⟨q2, ?_⟩
  have a2' := a2
  have hvs : q1.var s = some (.heap (some b) k sp) := by simp [Prog.var, hs]
  have hvd : q1.var d = none := by simp [Prog.var, hd]
  have hdl : d < q1.vars.length := (List.getElem?_eq_some_iff.mp hd).1
  have hsl : s < q1.vars.length := (List.getElem?_eq_some_iff.mp hs).1
  have hne : s ≠ d := by rintro rfl; rw [hs] at hd; cases hd
  simp only [capsule, Prog.step, hvs, hvd, hdl, and_self, if_true, Option.bind_eq_bind, Option.bind_eq_some_iff] at a2
  obtain ⟨⟨h, x, m⟩, g1, g2⟩ := a2
  simp only [Option.pure_def, Option.some.injEq] at g2
  cases sp with
  | none =>
    simp only [Mem.share, Option.some.injEq, Prod.mk.injEq] at g1
    obtain ⟨rfl, rfl, rfl⟩ := g1
    subst g2
    exact ⟨_, a2', by simp [Prog.setVar, hsl, Ne.symm hne]; rfl⟩
  | some c =>
    simp only [Mem.share, Option.bind_eq_bind, Option.bind_eq_some_iff, Option.pure_def, Option.some.injEq, Prod.mk.injEq] at g1
    obtain ⟨m', _, rfl, rfl, rfl⟩ := g1
    subst g2
    exact ⟨some c, a2', by simp [Prog.setVar, hsl, Ne.symm hne]⟩

-- the hypotheses of `C51_alive_array`
example : CarefulRun false 0 (Prog.start 2) ([.newFrom 0 [1, 2]] ++ capsule 1 0 :: [.destroy 0]) ∧
    ((Prog.start 2).run false 0 [.newFrom 0 [1, 2]]).map (fun p => p.vars) = some [some (.heap (some 0) 2 none), none] ∧
    ((Prog.start 2).run false 0 [.newFrom 0 [1, 2], capsule 1 0]).map (fun p => p.vars) =
      some [some (.heap (some 0) 2 (some 0)), some (.shared (some 0) 2 (some 0))] :=
  ⟨carefulRun_of_check _ _ _ _ (by decide +kernel), by decide +kernel, by decide +kernel⟩

-- the array is shared with Python and destroyed: the block is still there, and goes when the Python object does
example : ((Prog.start 2).run false 0 [.newFrom 0 [1, 2], capsule 1 0, .destroy 0]).map (fun p => p.mem.hp) =
      some [⟨[some 1, some 2], false⟩] ∧
    ((Prog.start 2).run false 0 [.newFrom 0 [1, 2], capsule 1 0, .destroy 0, .destroy 1]).map (fun p => p.mem.hp) =
      some [⟨[none, none], true⟩] := by decide +kernel
example : ((Prog.start 2).run false 0 [.newFrom 0 [1, 2]]).bind (fun p => (borrow p 0).bind (fun w => capsuleView (V := Nat) 1 w)) =
    some (HOp.share 1 0) := rfl

/-- **C51 disagreement** The capsule of a view keeps what its parent holds at that time, not the memory of the view:
take a view of an array (variable 0), move the array into another variable, hand the view to Python, destroy both
arrays: the Python object is alive (variable 1), and the block that its data pointer points into is released. -/
theorem C51_moved_parent_witness :
    ∃ (p0 p : Prog Nat) (w : Borrowed) (op : HOp Nat), (Prog.start 3).run false 0 [.newFrom 0 [1, 2]] = some p0 ∧ borrow p0 0 = some w ∧
      w.data = some 0 ∧ capsuleView 1 w = some op ∧ p0.run false 0 [.move 2 0, op, .destroy 2, .destroy 0] = some p ∧
      (∃ h, p.vars[1]? = some (some h)) ∧ p.mem.hp[0]? = some ⟨[none, none], true⟩ := by
  exact ⟨⟨⟨[⟨[some 1, some 2], false⟩], [], 0⟩, [some (.heap (some 0) 2 none), none, none]⟩,
    ⟨⟨[⟨[none, none], true⟩], [], 0⟩, [none, some (.shared none 0 none), none]⟩, ⟨some 0, some 0⟩, .share 1 0,
    by decide +kernel, by decide +kernel, rfl, rfl, by decide +kernel, ⟨_, rfl⟩, rfl⟩

-- a view of a view has no parent: handing it to Python is an error
example (d : Nat) (b : Borrowed) : capsuleView (V := V) d (reborrow b) = none := rfl

end Nda.Python
