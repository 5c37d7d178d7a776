import Verif.Model.Containers
import Verif.Lemmas.Fresh
import Verif.Lemmas.Check
import Verif.Props.Arithmetic
/-!
# C77: views of memory that is not an array, comparison with and assignment from contiguous ranges, sizes of expressions, `memset`
-/
namespace Nda.Containers
open Nda LayoutTransforms Assign Loops Arith Spec Perm Grid

variable {α : Type}

/-- The memory holds the elements `l` from address `p` on (the contents of a container). -/
def Holds (mem : List α) (p : Int) (l : List α) : Prop := 0 ≤ p ∧ p + l.length ≤ mem.length ∧ ∀ k : Nat, k < l.length → val mem (p + k) = l[k]?

/-- C77, views of pointers.  The view of a shape and a pointer has that shape; following its memory order the elements are those behind the pointer, one after the other; it is a view
all operations accept, of the memory it needs. -/
theorem C77_shape_view (so : List Nat) (shape : List Int) (p : Nat) (n : Nat) (hp : IsPerm so) (hl : so.length = shape.length) (hn : NonNeg shape) (hm : p + (prod shape).toNat ≤ n) :
    ∃ v, viewOfPtr so shape p = some v ∧ v.lay.len = shape ∧ v.lay.so = so ∧ Good v n ∧ OneToOne v ∧
      ∀ L, MemEnum so shape L → L.map (addr v) = (List.range (prod shape).toNat).map (fun k => (p : Int) + Int.ofNat k) := by
  obtain ⟨m, hf⟩ := fresh_spec hp hl hn p
  refine ⟨⟨p, m⟩, ?_, hf.len_eq, hf.so_eq, hf.good n hm, hf.one, fun L hL => ?_⟩
  · have := hf.eq
    rw [Arr.layoutOf] at this
    simp only [viewOfPtr, this, Option.map_some]
  · have h1 := offsets_evenly hf.wf (by rw [hf.len_eq]; exact hn) (c := 1) hf.dense
    rw [hf.len_eq, hf.so_eq, ← Arith.MemEnum.eq_memBox hp hl.symm hL] at h1
    have : L.map (addr ⟨(p : Int), m⟩) = (L.map (dot m.str)).map ((p : Int) + ·) := by
      rw [List.map_map]; rfl
    rw [this, h1, List.map_map]
    apply List.map_congr_left
    intro k _
    simp

/-- The same on a 2x3 block in Fortran order that starts at address 4. -/
example : ∃ v, viewOfPtr [1, 0] [2, 3] 4 = some v ∧ v.lay.len = [2, 3] ∧ Good v 10 ∧ [[0, 0], [1, 0], [0, 1], [1, 1], [0, 2], [1, 2]].map (addr v) = [4, 5, 6, 7, 8, 9] := by
  obtain ⟨v, h1, h2, -, h3, -, -⟩ := C77_shape_view [1, 0] [2, 3] 4 10 (by decide) rfl (by decide) (by decide)
  refine ⟨v, h1, h2, h3, ?_⟩
  have : some v = some ⟨4, ⟨[2, 3], [1, 2], [1, 0], [0, 0], .contiguous⟩⟩ := h1.symm.trans (by decide)
  cases this
  decide

theorem viewOfRange_eq (r : Container) : viewOfRange r = some ⟨r.ptr, ⟨[(r.size : Int)], [1], [0], [0], .contiguous⟩⟩ := by
  rfl

/-- C77, views of containers.  The view of a contiguous range (or of a `std::array`) has one dimension, with as many elements as the range; reading and writing its elements is reading
and writing those of the range. -/
theorem C77_range_view (r : Container) (l : List α) (mem : List α) (hr : r.size = l.length) (hh : Holds mem r.ptr l) :
    ∃ v, viewOfRange r = some v ∧ v.lay.len = [(l.length : Int)] ∧ Good v mem.length ∧ OneToOne v ∧
      (∀ k : Nat, k < l.length → load v [(k : Int)] mem = l[k]?) ∧
      (∀ k : Nat, k < l.length → ∀ x, ∃ mem', store v [(k : Int)] x mem = some mem' ∧ Holds mem' r.ptr (l.set k x) ∧ mem'.length = mem.length ∧
        ∀ a : Int, a ≠ r.ptr + k → val mem' a = val mem a) := by
  obtain ⟨h0, h1, h2⟩ := hh
  obtain ⟨p, n⟩ := r
  simp only at hr h0 h1 h2
  subst hr
  obtain ⟨p, rfl⟩ := Int.eq_ofNat_of_zero_le h0
  obtain ⟨v, e, e1, -, hg, ho, -⟩ := C77_shape_view [0] [(l.length : Int)] p mem.length (by decide) rfl (by intro x hx; simp at hx; omega) (by simp [prod]; omega)
  have e' : viewOfRange ⟨(p : Int), l.length⟩ = some v := e
  have ha : ∀ k : Int, addr v [k] = p + k := by
    have := (viewOfRange_eq ⟨(p : Int), l.length⟩).symm.trans e'
    cases this
    intro k; simp [addr, dot]
  have hin : ∀ k : Nat, k < l.length → InRange v.lay.len [(k : Int)] := by
    intro k hk; rw [e1]; exact ⟨⟨by omega, by omega⟩, trivial⟩
  refine ⟨v, e', e1, hg, ho, fun k hk => ?_, fun k hk x => ?_⟩
  · rw [load_eq hg (hin k hk), ha]; exact h2 k hk
  · obtain ⟨mem', w1, w2, w3, w4⟩ := wrInt_spec (mem := mem) (k := addr v [(k : Int)]) (hg.fits _ (hin k hk)) x
    rw [ha] at w3 w4
    refine ⟨mem', ?_, ⟨h0, by rw [w2]; simpa using h1, fun j hj => ?_⟩, w2, w4⟩
    · show (element v [IdxMap.CArg.idx (k : Int)]).bind _ = _
      have := element_eq hg.wf hg.flags (hin k hk)
      simp only [List.map_cons, List.map_nil] at this
      rw [this]; exact w1
    · by_cases hjk : j = k
      · subst hjk; rw [w3]; simp at hj; simp [hj]
      · rw [w4 _ (by simp only; omega), h2 j (by simpa using hj)]
        rw [List.getElem?_set_ne (by omega)]

/-- C77, equality.  An array of rank 1 with the elements `la` is equal to a range with the elements `l` iff there are equally many and those at equal positions are equal, whichever
of the two is the left operand. -/
theorem C77_equal (eq : α → α → Bool) (la l : List α) (getA : List Int → Option α) (r : Container) (mem : List α) (hA : ∀ k : Nat, k < la.length → getA [(k : Int)] = la[k]?)
    (hr : r.size = l.length) (hh : Holds mem r.ptr l) :
    ∃ b, equalRange eq [(la.length : Int)] getA r mem = some b ∧ rangeEqual eq r [(la.length : Int)] getA mem = some b ∧ (b = true ↔ List.Forall₂ (fun x y => eq x y = true) la l) := by
  obtain ⟨v, e, e1, hg, -, hl, -⟩ := C77_range_view r l mem hr hh
  have key : ∀ (n : Nat) (idx : List Int), InRange [(n : Int)] idx → ∃ k : Nat, k < n ∧ idx = [(k : Int)] := by
    intro n idx hi
    match idx, hi with
    | [i], hi =>
      obtain ⟨⟨h0, h1⟩, -⟩ := hi
      exact ⟨i.toNat, by omega, by rw [Int.toNat_of_nonneg h0]⟩
    | _ :: _ :: _, hi => exact absurd hi.2 (by simp [InRange])
  obtain ⟨b, eb, hb⟩ := C21_equality eq [(la.length : Int)] v.lay.len getA (fun idx => load v idx mem)
    (fun idx hi => by obtain ⟨k, hk, rfl⟩ := key _ _ hi; exact ⟨la[k], by rw [hA k hk, List.getElem?_eq_getElem hk]⟩)
    (fun idx hi => by rw [e1] at hi; obtain ⟨k, hk, rfl⟩ := key _ _ hi; exact ⟨l[k], by rw [hl k hk, List.getElem?_eq_getElem hk]⟩)
  have h1 : equalRange eq [(la.length : Int)] getA r mem = some b := by rw [equalRange, e]; exact eb
  refine ⟨b, h1, h1, hb.trans ?_⟩
  rw [e1, List.forall₂_iff_get]
  constructor
  · rintro ⟨h2, h3⟩
    have h2 : la.length = l.length := by simpa using h2
    refine ⟨h2, fun i hi hi' => h3 [(i : Int)] ⟨⟨by omega, by omega⟩, trivial⟩ _ _ ?_ ?_⟩
    · rw [hA i hi]; simp [hi]
    · rw [hl i hi']; simp [hi']
  · rintro ⟨h2, h3⟩
    refine ⟨by simp [h2], fun idx hi x y hx hy => ?_⟩
    obtain ⟨k, hk, rfl⟩ := key _ _ hi
    rw [hA k hk] at hx; rw [hl k (by omega)] at hy
    have := h3 k hk (by omega)
    rw [List.getElem?_eq_getElem hk] at hx; rw [List.getElem?_eq_getElem (by omega)] at hy
    cases hx; cases hy; exact this

/-- An array 1, 2, 3 and a vector in memory. -/
example : equalRange (· == ·) [3] (fun idx => [1, 2, 3][(idx.getD 0 0).toNat]?) ⟨2, 3⟩ [9, 9, 1, 2, 3] = some true ∧
    equalRange (· == ·) [3] (fun idx => [1, 2, 3][(idx.getD 0 0).toNat]?) ⟨1, 3⟩ [9, 9, 1, 2, 3] = some false ∧
    equalRange (· == ·) [3] (fun idx => [1, 2, 3][(idx.getD 0 0).toNat]?) ⟨2, 2⟩ [9, 9, 1, 2, 3] = some false := by decide

/-- C77, assignment.  Assigning a range with the elements `l` to a view of rank 1 with equally many elements, none of them in the range, gives the view those elements and changes
nothing else. -/
theorem C77_assign (a : View) (l : List α) (r : Container) (null : Bool) (mem : List α) (ha : Good a mem.length) (h1 : OneToOne a) (hlen : a.lay.len = [(l.length : Int)])
    (hr : r.size = l.length) (hh : Holds mem r.ptr l) (hnull : null = true → l = []) (hsep : ∀ k, Occupies a k → k < r.ptr ∨ r.ptr + l.length ≤ k) :
    ∃ mem', assignRange a r null mem = some (some mem') ∧ Updated a (fun idx => l[(idx.headD 0).toNat]?) mem mem' ∧ Holds mem' r.ptr l := by
  obtain ⟨v, e, e1, hg, -, hl, -⟩ := C77_range_view r l mem hr hh
  have hv : ∀ idx, InRange [(l.length : Int)] idx → ∃ k : Nat, k < l.length ∧ idx = [(k : Int)] ∧ addr v idx = r.ptr + k := by
    intro idx hi
    match idx, hi with
    | [i], hi =>
      obtain ⟨⟨h0, h1⟩, -⟩ := hi
      refine ⟨i.toNat, by omega, by rw [Int.toNat_of_nonneg h0], ?_⟩
      have := (viewOfRange_eq r).symm.trans e
      cases this
      simp [addr, dot, Int.toNat_of_nonneg h0]
    | _ :: _ :: _, hi => exact absurd hi.2 (by simp [InRange])
  obtain ⟨mem', e2, hu⟩ := C17_assign_host true null a v mem ha hg (by rw [e1, hlen]) h1
    (fun idx jdx hi hj he => by
      rw [e1] at hj
      obtain ⟨k, hk, -, hk2⟩ := hv jdx hj
      have := hsep (addr a idx) ⟨idx, hi, rfl⟩
      omega)
    (fun h => by rw [hlen, hnull h]; rfl) (.inl (by rw [hlen]; simp))
  refine ⟨mem', by rw [assignRange, e]; exact e2, ⟨hu.size, fun idx hi => ?_, hu.frame⟩, hh.1, by rw [hu.size]; exact hh.2.1, fun k hk => ?_⟩
  · rw [hu.elems idx hi]
    rw [hlen] at hi
    obtain ⟨k, hk, rfl, hk2⟩ := hv idx hi
    rw [hk2, hh.2.2 k hk]; simp
  · rw [hu.frame _ (fun ho => by have := hsep _ ho; omega)]; exact hh.2.2 k hk

/-- Every second element of an array, from a range. -/
example : assignRange ⟨0, ⟨[2], [2], [0], [0], .strided⟩⟩ ⟨4, 2⟩ false [0, 1, 2, 3, 7, 8] = some (some [7, 1, 8, 3, 7, 8]) := by decide

/-- Expressions whose leftmost array is not the result of a mapped function. -/
def NoCall : Expr α → Prop
  | .arr _ _ => True
  | .fn _ _ _ => True
  | .neg e => NoCall e
  | .bin _ l _ => NoCall l
  | .scalL _ _ r => NoCall r
  | .scalR _ l _ => NoCall l
  | .call _ _ _ => False

/-- C77, sizes.  The size of an expression of arrays of one shape is the number of their elements; for mapped functions (`expr_call`) asking for it does not compile. -/
theorem C77_size_partial {a : Alg} {len : List Int} : ∀ {e : Expr α}, Uniform a len e → (NoCall e → exprSize e = some (prod len)) ∧ (¬ NoCall e → exprSize e = none)
  | .arr _ v, h => ⟨fun _ => by rw [exprSize, IdxMap.size_eq, h.2], fun hn => absurd trivial hn⟩
  | .fn _ _ _, h => ⟨fun _ => by rw [exprSize, foldl_mul, one_mul, h.2], fun hn => absurd trivial hn⟩
  | .neg e, h => C77_size_partial (e := e) h
  | .bin _ l _, h => C77_size_partial (e := l) h.1
  | .scalL _ _ r, h => C77_size_partial (e := r) h
  | .scalR _ l _, h => C77_size_partial (e := l) h
  | .call _ _ _, _ => ⟨fun hn => hn.elim, fun _ => rfl⟩

example : exprSize (α := Int) (.scalL .mul 2 (.bin .add (.arr .A ⟨0, ⟨[2, 3], [3, 1], [0, 1], [0, 0], .contiguous⟩⟩) (.fn .A [2, 3] (fun _ => 1)))) = some 6 := by decide

/-- C77, witness.  `abs(a).size()` does not compile. -/
theorem C77_mapped_size_witness : exprSize (α := Int) (.call 0 (fun x => x 0) (fun _ => .arr .A ⟨0, ⟨[2], [1], [0], [0], .contiguous⟩⟩)) = none := rfl

theorem memset_spec (x : α) (p : Int) : ∀ (n : Nat) (mem : List α), 0 ≤ p → p + n ≤ mem.length →
    ∃ mem', memset p x n mem = some mem' ∧ mem'.length = mem.length ∧ ∀ k : Int, val mem' k = if p ≤ k ∧ k < p + n then some x else val mem k
  | 0, mem, _, _ => ⟨mem, rfl, rfl, fun k => by rw [if_neg (by omega)]⟩
  | n + 1, mem, h0, h1 => by
    obtain ⟨m1, e1, l1, v1⟩ := memset_spec x p n mem h0 (by omega)
    obtain ⟨m2, e2, l2, v2, f2⟩ := wrInt_spec (mem := m1) (k := p + n) ⟨by omega, by omega⟩ x
    refine ⟨m2, ?_, l2.trans l1, fun k => ?_⟩
    · rw [memset] at e1 ⊢
      rw [List.range_succ, List.foldlM_append, e1]
      simpa using e2
    · by_cases hk : k = p + n
      · subst hk; rw [v2, if_pos (by omega)]
      · rw [f2 k hk, v1]
        by_cases hk' : p ≤ k ∧ k < p + n
        · rw [if_pos hk', if_pos (by omega)]
        · rw [if_neg hk', if_neg (by omega)]

/-- C77, `memset`.  The bytes of the block are set, no others. -/
theorem C77_memset (x : α) (p : Int) (n : Nat) (mem : List α) (h0 : 0 ≤ p) (h1 : p + n ≤ mem.length) :
    ∃ mem', memset p x n mem = some mem' ∧ mem'.length = mem.length ∧ (∀ j : Nat, j < n → val mem' (p + j) = some x) ∧ ∀ k : Int, (∀ j : Nat, j < n → k ≠ p + j) → val mem' k = val mem k := by
  obtain ⟨m, e, l, v⟩ := memset_spec x p n mem h0 h1
  refine ⟨m, e, l, fun j hj => by rw [v, if_pos (by omega)], fun k hk => ?_⟩
  rw [v, if_neg]
  rintro ⟨h2, h3⟩
  exact hk (k - p).toNat (by omega) (by omega)

/-- C77, `memset2D`.  In each of the `height` rows, which begin `pitch` bytes apart, the first `width` bytes are set, and no others are.  The memory need not extend beyond the last byte
that is set. -/
theorem C77_memset2D (x : α) (p : Int) (pitch width height : Nat) (mem : List α) (h0 : 0 ≤ p)
    (h1 : ∀ i j : Nat, i < height → j < width → p + i * pitch + j < mem.length) (hw : width = 0 → p + height * pitch ≤ mem.length) :
    ∃ mem', memset2D p pitch x width height mem = some mem' ∧ mem'.length = mem.length ∧ (∀ i j : Nat, i < height → j < width → val mem' (p + i * pitch + j) = some x) ∧
      ∀ k : Int, (∀ i j : Nat, i < height → j < width → k ≠ p + i * pitch + j) → val mem' k = val mem k := by
  have key : ∀ h : Nat, h ≤ height → ∃ mem', (List.range h).foldlM (fun (s : Int × List α) _ => do
      let mem ← memset s.1 x width s.2
      return (s.1 + (pitch : Int), mem)) (p, mem) = some (p + h * pitch, mem') ∧ mem'.length = mem.length ∧ (∀ i j : Nat, i < h → j < width → val mem' (p + i * pitch + j) = some x) ∧
      ∀ k : Int, (∀ i j : Nat, i < h → j < width → k ≠ p + i * pitch + j) → val mem' k = val mem k := by
    intro h
    induction h with
    | zero => intro _; exact ⟨mem, by simp, rfl, fun i j hi => by omega, fun k _ => rfl⟩
    | succ h ih =>
      intro hh
      obtain ⟨m1, e1, l1, v1, f1⟩ := ih (by omega)
      have hp : 0 ≤ p + h * pitch := by positivity
      have hb : p + h * pitch + width ≤ m1.length := by
        rw [l1]
        rcases Nat.eq_zero_or_pos width with hz | hz
        · have := hw hz
          have h3 : (h : Int) * pitch ≤ height * pitch := by
            exact_mod_cast Nat.mul_le_mul_right pitch (by omega)
          omega
        · have := h1 h (width - 1) (by omega) (by omega)
          omega
      obtain ⟨m2, e2, l2, v2⟩ := memset_spec x (p + h * pitch) width m1 hp hb
      refine ⟨m2, ?_, l2.trans l1, fun i j hi hj => ?_, fun k hk => ?_⟩
      · rw [List.range_succ, List.foldlM_append, e1]
        simp only [List.foldlM_cons, List.foldlM_nil, Option.bind_eq_bind, Option.bind_some, e2, Option.pure_def]
        congr 2; push_cast; ring
      · rw [v2]
        split
        · rfl
        · rename_i hn
          rcases Nat.lt_succ_iff_lt_or_eq.mp hi with h4 | h4
          · exact v1 i j h4 hj
          · subst h4; exact absurd ⟨by omega, by omega⟩ hn
      · rw [v2, if_neg]
        · exact f1 k (fun i j hi hj => hk i j (by omega) hj)
        · rintro ⟨h2, h3⟩
          exact hk h (k - (p + h * pitch)).toNat (by omega) (by omega) (by omega)
  obtain ⟨m, e, l, v, f⟩ := key height le_rfl
  refine ⟨m, ?_, l, v, f⟩
  rw [memset2D, e]; rfl

/-- Two rows of two bytes, three bytes apart. -/
example : memset2D 1 3 7 2 2 [0, 0, 0, 0, 0, 0] = some [0, 7, 7, 0, 7, 7] := by decide

end Nda.Containers
