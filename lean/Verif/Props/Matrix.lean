import Verif.Model.Matrix
import Verif.Lemmas.Fresh
import Verif.Props.Scalar
import Verif.Props.Arithmetic
import Mathlib.Algebra.BigOperators.Group.List.Basic
/-!
# C27: matrix helpers
-/
namespace Nda.Matrix
open Nda LayoutTransforms Assign Loops Arith Nda.Spec Nda.Perm Nda.Arith.Spec

variable {α : Type}

/-- The result `r` is a new matrix `n0` by `n1` with entries `x`, after all of the old memory, which is unchanged. -/
structure NewMatrix (mem : List α) (n0 n1 : Int) (x : Int → Int → α) (r : View) (mem' : List α) : Prop where
  good : Good r mem'.length
  len : r.lay.len = [n0, n1]
  one : OneToOne r
  entry : ∀ i j, 0 ≤ i → i < n0 → 0 ≤ j → j < n1 → val mem' (addr r [i, j]) = some (x i j)
  above : ∀ idx, InRange [n0, n1] idx → (mem.length : Int) ≤ addr r idx
  old : ∀ k : Int, k < mem.length → val mem' k = val mem k
  grow : mem.length ≤ mem'.length

theorem inRange2 {n0 n1 : Int} {idx : List Int} : InRange [n0, n1] idx ↔ ∃ i j, idx = [i, j] ∧ 0 ≤ i ∧ i < n0 ∧ 0 ≤ j ∧ j < n1 := by
  constructor
  · intro h
    match idx, h.length_eq with
    | [i, j], _ => simp only [InRange] at h; exact ⟨i, j, rfl, h.1.1, h.1.2, h.2.1.1, h.2.1.2⟩
  · rintro ⟨i, j, rfl, a, b, c, d⟩; simp [InRange, a, b, c, d]

theorem inRange1 {n0 : Int} {idx : List Int} : InRange [n0] idx ↔ ∃ i, idx = [i] ∧ 0 ≤ i ∧ i < n0 := by
  constructor
  · intro h
    match idx, h.length_eq with
    | [i], _ => simp only [InRange] at h; exact ⟨i, rfl, h.1.1, h.1.2⟩
  · rintro ⟨i, rfl, a, b⟩; simp [InRange, a, b]

theorem fresh_eq (x : α) {so : List Nat} {len : List Int} (hp : IsPerm so) (hl : so.length = len.length) (hn : NonNeg len) (mem : List α) :
    ∃ m, Fresh so len mem.length m ∧ fresh x so len mem = some (⟨(mem.length : Int), m⟩, mem ++ List.replicate m.size.toNat x) ∧
      (mem ++ List.replicate m.size.toNat x).length = mem.length + (prod len).toNat := by
  obtain ⟨m, hm⟩ := fresh_spec hp hl hn mem.length
  refine ⟨m, hm, by rw [fresh, hm.eq]; rfl, by simp [hm.size_eq]⟩

theorem nonneg2 {n0 n1 : Int} (h0 : 0 ≤ n0) (h1 : 0 ≤ n1) : NonNeg [n0, n1] := by
  intro x hx
  simp only [List.mem_cons, List.not_mem_nil, or_false] at hx
  rcases hx with rfl | rfl <;> assumption

/-- C27, eye: ones on the diagonal, zeros elsewhere. -/
theorem C27_eye (junk zero one : α) (dim : Int) (h : 0 ≤ dim) (mem : List α) :
    ∃ r mem', eye junk zero one dim mem = some (r, mem') ∧ NewMatrix mem dim dim (fun i j => if i = j then one else zero) r mem' := by
  obtain ⟨m, hm, e1, hlen⟩ := fresh_eq junk (so := [0, 1]) (len := [dim, dim]) (by decide) rfl (nonneg2 h h) mem
  have hg : Good ⟨(mem.length : Int), m⟩ (mem ++ List.replicate m.size.toNat junk).length := hm.good _ (by rw [hlen])
  have hprod : prod [dim, dim] = dim * dim := by simp [prod]
  obtain ⟨mem', e2, hu⟩ := C18_matrix_partial (m.size.toNat + 1) ⟨(mem.length : Int), m⟩ zero one (mem ++ List.replicate m.size.toNat junk) dim dim hm.len_eq hg hm.one
    (by rw [hm.size_eq, hprod]; omega) (by intro hc; exact absurd (hm.prop_eq.symm.trans hc) (by decide))
    (by intro hc; rw [show (View.mk (mem.length : Int) m).lay.prop = _ from hm.prop_eq] at hc; cases hc)
  refine ⟨⟨(mem.length : Int), m⟩, mem', ?_, ⟨by rw [hu.size]; exact hg, hm.len_eq, hm.one, ?_, fun idx hi => (hm.above idx hi).1, ?_, by rw [hu.size, hlen]; omega⟩⟩
  · simp only [eye, e1, Option.bind_eq_bind, Option.bind_some, e2]; rfl
  · intro i j a b c d
    rw [hu.elems [i, j] (by rw [show (View.mk (mem.length : Int) m).lay.len = _ from hm.len_eq, inRange2]; exact ⟨i, j, rfl, a, b, c, d⟩)]
    simp only [List.getD_cons_zero, List.getD_cons_succ]
    split <;> rfl
  · intro k hk
    rw [hu.frame k, val_append_left _ hk]
    rintro ⟨idx, hi, he⟩
    rw [show (View.mk (mem.length : Int) m).lay.len = _ from hm.len_eq] at hi
    have := (hm.above idx hi).1
    omega

/-- C27, trace: the sum of the diagonal. -/
theorem C27_trace [AddMonoid α] (n : Nat) (n1 : Int) (hn : (n : Int) < intBound) (get : List Int → Option α) (x : List Int → α)
    (hg : ∀ i : Nat, i < n → get [(i : Int), (i : Int)] = some (x [(i : Int), (i : Int)])) :
    trace [(n : Int), n1] get = some ((List.range n).map (fun (i : Nat) => x [(i : Int), (i : Int)])).sum := by
  have key : ∀ k, k ≤ n → (List.range k).foldlM (fun (r : α) (i : Nat) => (get [Int.ofNat i, Int.ofNat i]).bind fun x => pure (r + x)) 0 =
      some ((List.range k).map (fun (i : Nat) => x [(i : Int), (i : Int)])).sum := by
    intro k
    induction k with
    | zero => intro _; rfl
    | succ k ih =>
      intro hk
      rw [List.range_succ, List.foldlM_append, ih (by omega), List.map_append, List.sum_append]
      have hgk := hg k (by omega)
      simp [List.foldlM_cons, hgk]
  have h1 : rd [(n : Int), n1] 0 = some (n : Int) := rfl
  rw [trace, h1]
  have hb : ∀ (f : Int → Option α), (some (n : Int) >>= f) = f n := fun f => rfl
  rw [hb, if_pos hn]
  exact key n (le_refl n)

/-- C27, transpose and dagger of a matrix in memory (any strides): entry `(i, j)` is (the conjugate of) entry `(j, i)`. -/
theorem C27_dagger (complex : Bool) (conj : α → α) [Add α] [Sub α] [Mul α] [Div α] [Neg α] (alg : Alg) (v : View) (n0 n1 : Int) (hlen : v.lay.len = [n0, n1]) (mem : List α)
    (hv : Good v mem.length) (h1 : OneToOne v) :
    ∃ e, dagger complex conj (.arr alg v) = some e ∧ e.shape = [n1, n0] ∧ ∀ i j, 0 ≤ i → i < n1 → 0 ≤ j → j < n0 →
      e.get [i, j] mem = (val mem (addr v [j, i])).map (fun x => if complex then conj x else x) := by
  have ha : Allowed v.lay.len (.permute [1, 0]) := ⟨by decide, by rw [hlen]; rfl⟩
  obtain ⟨v', e, hg, -, hs, hsrc⟩ := step_good hv h1 ha (by intro k h; cases h)
  have ht : transposeMatrix v = some v' := e
  have hl' : v'.lay.len = [n1, n0] := by
    obtain ⟨hl, hm⟩ := hs
    rw [hlen] at hl hm
    match hv' : v'.lay.len, hl with
    | [a, b], _ =>
      rw [hv'] at hm
      simp only [memOrder, List.map_cons, List.map_nil, List.getD_cons_zero, List.getD_cons_succ, List.cons.injEq, and_true] at hm
      rw [hm.1, hm.2]
  have hget : ∀ i j, 0 ≤ i → i < n1 → 0 ≤ j → j < n0 → load v' [i, j] mem = val mem (addr v [j, i]) := by
    intro i j a b c d
    have hi : InRange v'.lay.len [i, j] := by rw [hl', inRange2]; exact ⟨i, j, rfl, a, b, c, d⟩
    rw [load_eq hg hi, (hsrc _ hi).2]
    rfl
  cases complex with
  | true =>
      refine ⟨.call 0 (fun x => conj (x 0)) (fun _ => .arr alg v'), by simp [dagger, transposeExpr, ht], by simp [Expr.shape, hl'], ?_⟩
      intro i j a b c d
      obtain ⟨y, hy⟩ := val_isSome (hv.fits [j, i] (by rw [hlen, inRange2]; exact ⟨j, i, rfl, c, d, a, b⟩))
      have : ∀ q : Fin 1, (Expr.arr alg v').get [i, j] mem = some y := fun _ => by rw [Expr.get, hget i j a b c d, hy]
      rw [Expr.get, sequence_some (ys := fun _ => y) this, hy]; rfl
  | false =>
      refine ⟨.arr alg v', by simp [dagger, transposeExpr, ht], by simp [Expr.shape, hl'], ?_⟩
      intro i j a b c d
      rw [Expr.get, hget i j a b c d]
      simp

/-- C27, transpose of a mapped function of a matrix. -/
theorem C27_transpose_call [Add α] [Sub α] [Mul α] [Div α] [Neg α] (alg : Alg) (f : α → α) (v : View) (n0 n1 : Int) (hlen : v.lay.len = [n0, n1]) (mem : List α)
    (hv : Good v mem.length) (h1 : OneToOne v) :
    ∃ e, transposeExpr (.call 0 (fun x => f (x 0)) (fun _ => .arr alg v)) = some e ∧ e.shape = [n1, n0] ∧ ∀ i j, 0 ≤ i → i < n1 → 0 ≤ j → j < n0 →
      e.get [i, j] mem = (val mem (addr v [j, i])).map f := by
  obtain ⟨e, h, hs, hg⟩ := C27_dagger true f alg v n0 n1 hlen mem hv h1
  refine ⟨e, ?_, hs, fun i j a b c d => by rw [hg i j a b c d]; simp⟩
  rw [← h]
  simp only [dagger, transposeExpr]
  cases transposeMatrix v <;> rfl

/-- C27, diagonal: element `i` of the view is the element `(i, i)` of the matrix, whatever the strides. -/
theorem C27_diagonal (m : View) (n0 n1 : Int) (hlen : m.lay.len = [n0, n1]) (n : Nat) (hm : Good m n) (h1 : OneToOne m) :
    ∃ d, diagonal m = some d ∧ d.lay.len = [min n0 n1] ∧ Good d n ∧ OneToOne d ∧
      (∀ i, 0 ≤ i → i < n0 → i < n1 → element d [.idx i] = some (addr m [i, i]) ∧ addr d [i] = addr m [i, i]) := by
  have hstr : ∃ s0 s1, m.lay.str = [s0, s1] := by
    have := hm.wf.str_len
    rw [hlen] at this
    match m.lay.str, this with
    | [s0, s1], _ => exact ⟨s0, s1, rfl⟩
  obtain ⟨s0, s1, hstr⟩ := hstr
  have haddr : ∀ i, addr ⟨m.off, ⟨[min n0 n1], [m.lay.str.sum], [0], [0], .none⟩⟩ [i] = addr m [i, i] := by
    intro i
    simp only [addr, hstr, dot, List.sum_cons, List.sum_nil]
    ring
  have hwf : WF ⟨[min n0 n1], [m.lay.str.sum], [0], [0], .none⟩ := ⟨show IsPerm [0] by decide, rfl, rfl, rfl⟩
  have hflags : FlagsOK ⟨[min n0 n1], [m.lay.str.sum], [0], [0], .none⟩ := ⟨fun h => (by cases h), fun h => (by cases h)⟩
  have h0 : 0 ≤ n0 := hm.nonneg n0 (by rw [hlen]; simp)
  have h0' : 0 ≤ n1 := hm.nonneg n1 (by rw [hlen]; simp)
  refine ⟨⟨m.off, ⟨[min n0 n1], [m.lay.str.sum], [0], [0], .none⟩⟩, by rw [diagonal, hlen], rfl, ⟨hwf, hflags, ?_, ?_⟩, ?_, ?_⟩
  · intro x hx
    have : x = min n0 n1 := by simpa using hx
    omega
  · intro idx hi
    obtain ⟨i, rfl, a, b⟩ := inRange1.mp hi
    rw [haddr]
    exact hm.fits [i, i] (by rw [hlen, inRange2]; exact ⟨i, i, rfl, a, by omega, a, by omega⟩)
  · intro idx jdx hi hj he
    obtain ⟨i, rfl, a, b⟩ := inRange1.mp hi
    obtain ⟨j, rfl, c, d⟩ := inRange1.mp hj
    rw [haddr, haddr] at he
    have := h1 [i, i] [j, j] (by rw [hlen, inRange2]; exact ⟨i, i, rfl, a, by omega, a, by omega⟩) (by rw [hlen, inRange2]; exact ⟨j, j, rfl, c, by omega, c, by omega⟩) he
    simp at this
    simp [this]
  · intro i a b c
    refine ⟨?_, haddr i⟩
    have := element_eq (v := ⟨m.off, ⟨[min n0 n1], [m.lay.str.sum], [0], [0], .none⟩⟩) hwf hflags (idx := [i]) (by rw [inRange1]; exact ⟨i, rfl, a, by omega⟩)
    rw [haddr] at this
    exact this

/-- C27, writing through the diagonal changes exactly the diagonal of the matrix. -/
theorem C27_diagonal_write (m : View) (n0 n1 : Int) (hlen : m.lay.len = [n0, n1]) (mem : List α) (hm : Good m mem.length) (h1 : OneToOne m)
    (d : View) (hd : diagonal m = some d) (x : Int → α) (mem' : List α) (hu : Updated d (fun idx => some (x (idx.getD 0 0))) mem mem') :
    (∀ i j, 0 ≤ i → i < n0 → 0 ≤ j → j < n1 → val mem' (addr m [i, j]) = if i = j then some (x i) else val mem (addr m [i, j])) ∧
    ∀ k, ¬ Occupies m k → val mem' k = val mem k := by
  obtain ⟨d', hd', hdl, hdg, hd1, hda⟩ := C27_diagonal m n0 n1 hlen mem.length hm h1
  rw [hd] at hd'; cases hd'
  refine ⟨fun i j a b c e => ?_, fun k hk => hu.frame k ?_⟩
  · by_cases hij : i = j
    · subst hij
      rw [if_pos rfl, ← (hda i a b e).2, hu.elems [i] (by rw [hdl, inRange1]; exact ⟨i, rfl, a, by omega⟩)]
      rfl
    · rw [if_neg hij]
      apply hu.frame
      rintro ⟨idx, hi, he⟩
      rw [hdl, inRange1] at hi
      obtain ⟨k, rfl, hk0, hk1⟩ := hi
      rw [(hda k hk0 (by omega) (by omega)).2] at he
      have := h1 [k, k] [i, j] (by rw [hlen, inRange2]; exact ⟨k, k, rfl, hk0, by omega, hk0, by omega⟩) (by rw [hlen, inRange2]; exact ⟨i, j, rfl, a, b, c, e⟩) he
      simp at this
      omega
  · rintro ⟨idx, hi, he⟩
    rw [hdl, inRange1] at hi
    obtain ⟨i, rfl, hk0, hk1⟩ := hi
    rw [(hda i hk0 (by omega) (by omega)).2] at he
    exact hk ⟨[i, i], by rw [hlen, inRange2]; exact ⟨i, i, rfl, hk0, by omega, hk0, by omega⟩, he⟩

/-- C27, diag: the vector on the diagonal of a new matrix, zeros elsewhere. -/
theorem C27_diag (zero : α) (n : Int) (h : 0 ≤ n) (v : Rhs α) (mem : List α) (x : List Int → α) (hv : Yields v [n] mem x) :
    ∃ r mem', diag zero n v mem = some (r, mem') ∧ NewMatrix mem n n (fun i j => if i = j then x [i] else zero) r mem' := by
  obtain ⟨m, hm, e1, hlen⟩ := fresh_eq zero (so := [0, 1]) (len := [n, n]) (by decide) rfl (nonneg2 h h) mem
  have hg : Good ⟨(mem.length : Int), m⟩ (mem ++ List.replicate m.size.toNat zero).length := hm.good _ (by rw [hlen])
  obtain ⟨d, hd, hdl, hdg, hd1, hda⟩ := C27_diagonal ⟨(mem.length : Int), m⟩ n n hm.len_eq _ hg hm.one
  rw [min_self] at hdl
  obtain ⟨mem', e2, hu⟩ := assign_new hv hdg hd1 hdl (by simp)
    (fun idx hi => by
      obtain ⟨i, rfl, a, b⟩ := inRange1.mp hi
      rw [(hda i a b b).2]
      exact (hm.above [i, i] (by rw [inRange2]; exact ⟨i, i, rfl, a, b, a, b⟩)).1)
    (fun k hk => val_append_left _ hk) (by simp)
  have hw := C27_diagonal_write ⟨(mem.length : Int), m⟩ n n hm.len_eq _ hg hm.one d hd (fun i => x [i]) mem'
    ⟨hu.size, fun idx hi => by
      rw [hu.elems idx hi]
      rw [hdl] at hi
      obtain ⟨i, rfl, -⟩ := inRange1.mp hi; rfl, hu.frame⟩
  refine ⟨⟨(mem.length : Int), m⟩, mem', ?_, ⟨by rw [hu.size]; exact hg, hm.len_eq, hm.one, ?_, fun idx hi => (hm.above idx hi).1, ?_, by rw [hu.size, hlen]; omega⟩⟩
  · simp only [diag, e1, Option.bind_eq_bind, Option.bind_some, hd, e2]; rfl
  · intro i j a b c e
    rw [hw.1 i j a b c e]
    by_cases hij : i = j
    · rw [if_pos hij, if_pos hij]
    · rw [if_neg hij, if_neg hij]
      have hi : InRange [n, n] [i, j] := inRange2.mpr ⟨i, j, rfl, a, b, c, e⟩
      have h3 := hm.above _ hi
      have hnn : 0 ≤ prod [n, n] := prod_nonneg (nonneg2 h h)
      unfold val
      rw [if_neg (by omega), List.getElem?_append_right (by omega), List.getElem?_replicate, if_pos (by rw [hm.size_eq]; omega)]
  · intro k hk
    rw [hw.2 k, val_append_left _ hk]
    rintro ⟨idx, hi, he⟩
    rw [show (View.mk (mem.length : Int) m).lay.len = _ from hm.len_eq] at hi
    have := (hm.above idx hi).1
    omega

theorem slice_rows {r : View} {n : Nat} {N q : Int} (hg : Good r n) (h1 : OneToOne r) (hlen : r.lay.len = [N, q]) {f l : Int} (hf : 0 ≤ f) (hfl : f ≤ l) (hl : l ≤ N) :
    ∃ v, sliceView r [.rng f l 1, .all] = some v ∧ v.lay.len = [l - f, q] ∧ Good v n ∧ OneToOne v ∧
      ∀ i j, 0 ≤ i → i < l - f → 0 ≤ j → j < q → addr v [i, j] = addr r [f + i, j] := by
  have hstop : stop l 1 N = l := by simp [stop]; omega
  have hexp : expand r.lay.len.length [.rng f l 1, .all] = [.rng f l 1, .all] := by rw [hlen]; rfl
  have hcount : ∀ e, IsCount f (stop l 1 N) 1 e ↔ e = l - f := by
    intro e
    rw [hstop, IsCount]
    constructor
    · rintro ⟨-, h0, h⟩
      simp only [zero_lt_one, if_true] at h
      have h2 := h e h0
      by_contra hne
      rcases lt_or_gt_of_ne hne with hlt | hgt
      · have := (h e h0).mpr (by omega); omega
      · have := (h (l - f) (by omega)).mp (by omega); omega
    · rintro rfl
      exact ⟨by decide, by omega, fun k hk => by simp only [zero_lt_one, if_true]; omega⟩
  have ha : Allowed r.lay.len (.slice [.rng f l 1, .all]) := by
    refine ⟨by rw [hlen]; simp, by rw [hlen]; left; exact ⟨by simp, rfl⟩, ?_⟩
    rw [hexp, hlen]
    refine ⟨⟨by decide, fun k e he hk0 hke => ?_⟩, trivial, trivial⟩
    rw [hcount] at he
    omega
  obtain ⟨v, e, hgv, hv1, hs, hsrc⟩ := step_good hg h1 ha (by intro k h; cases h)
  have hvl : v.lay.len = [l - f, q] := by
    simp only [ShapeAfter, hexp] at hs
    rw [hlen] at hs
    match hv' : v.lay.len with
    | [] => rw [hv'] at hs; exact hs.elim
    | [a] => rw [hv'] at hs; exact hs.2.elim
    | a :: b :: c :: t => rw [hv'] at hs; exact hs.2.2.elim
    | [a, b] =>
      rw [hv'] at hs
      simp only [SliceShape, hcount] at hs
      rw [hs.1, hs.2.1]
  refine ⟨v, e, hvl, hgv, hv1, fun i j a b c d => ?_⟩
  rw [(hsrc [i, j] (by rw [hvl, inRange2]; exact ⟨i, j, rfl, a, b, c, d⟩)).2]
  simp only [source, hexp, coords, one_mul]

/-- C27, vstack: `a` above `b`. -/
theorem C27_vstack (junk : α) (n q p : Int) (hn : 0 ≤ n) (hq : 0 ≤ q) (hp : 0 ≤ p) (a b : Rhs α) (mem : List α) (x y : List Int → α)
    (ha : Yields a [n, q] mem x) (hb : Yields b [p, q] mem y) :
    ∃ r mem', vstack junk n q p a b mem = some (r, mem') ∧ NewMatrix mem (n + p) q (fun i j => if i < n then x [i, j] else y [i - n, j]) r mem' := by
  obtain ⟨m, hm, e1, hlen⟩ := fresh_eq junk (so := [0, 1]) (len := [n + p, q]) (by decide) rfl (nonneg2 (by omega) hq) mem
  have hg : Good ⟨(mem.length : Int), m⟩ (mem ++ List.replicate m.size.toNat junk).length := hm.good _ (by rw [hlen])
  obtain ⟨v1, s1, l1, g1, o1, a1⟩ := slice_rows hg hm.one hm.len_eq (f := 0) (l := n) (le_refl _) hn (by omega)
  rw [Int.sub_zero] at l1 a1
  have hab1 : ∀ idx, InRange [n, q] idx → ∃ idx', InRange [n + p, q] idx' ∧ addr v1 idx = addr ⟨(mem.length : Int), m⟩ idx' := by
    intro idx hi
    obtain ⟨i, j, rfl, h1, h2, h3, h4⟩ := inRange2.mp hi
    exact ⟨_, inRange2.mpr ⟨0 + i, j, rfl, by omega, by omega, h3, h4⟩, a1 i j h1 h2 h3 h4⟩
  obtain ⟨mem1, e2, u1⟩ := assign_new ha g1 o1 l1 (by simp)
    (fun idx hi => by obtain ⟨idx', hi', he⟩ := hab1 idx hi; rw [he]; exact (hm.above idx' hi').1)
    (fun k hk => val_append_left _ hk) (by simp)
  have hold : ∀ k : Int, k < mem.length → val mem1 k = val mem k := by
    intro k hk
    rw [u1.frame k, val_append_left _ hk]
    rintro ⟨idx, hi, he⟩
    rw [l1] at hi
    obtain ⟨idx', hi', he'⟩ := hab1 idx hi
    have := (hm.above idx' hi').1
    omega
  obtain ⟨v2, s2, l2, g2, o2, a2⟩ := slice_rows hg hm.one hm.len_eq (f := n) (l := n + p) hn (by omega) (le_refl _)
  rw [show n + p - n = p by omega] at l2 a2
  have hab2 : ∀ idx, InRange [p, q] idx → ∃ idx', InRange [n + p, q] idx' ∧ addr v2 idx = addr ⟨(mem.length : Int), m⟩ idx' := by
    intro idx hi
    obtain ⟨i, j, rfl, h1, h2, h3, h4⟩ := inRange2.mp hi
    exact ⟨_, inRange2.mpr ⟨n + i, j, rfl, by omega, by omega, h3, h4⟩, a2 i j h1 h2 h3 h4⟩
  obtain ⟨mem2, e3, u2⟩ := assign_new hb (by rw [u1.size]; exact g2) o2 l2 (by simp)
    (fun idx hi => by obtain ⟨idx', hi', he⟩ := hab2 idx hi; rw [he]; exact (hm.above idx' hi').1) hold (by rw [u1.size, hlen]; omega)
  refine ⟨⟨(mem.length : Int), m⟩, mem2, ?_, ⟨by rw [u2.size, u1.size]; exact hg, hm.len_eq, hm.one, ?_, fun idx hi => (hm.above idx hi).1, ?_, by rw [u2.size, u1.size, hlen]; omega⟩⟩
  · simp only [vstack, e1, Option.bind_eq_bind, Option.bind_some, s1, e2, s2, e3]; rfl
  · intro i j h1 h2 h3 h4
    by_cases hi : i < n
    · rw [if_pos hi]
      have h5 := a1 i j h1 hi h3 h4
      rw [Int.zero_add] at h5
      rw [← h5, u2.frame, u1.elems [i, j] (by rw [l1, inRange2]; exact ⟨i, j, rfl, h1, hi, h3, h4⟩)]
      rintro ⟨idx, hidx, he⟩
      rw [l2] at hidx
      obtain ⟨i', j', rfl, b1, b2, b3, b4⟩ := inRange2.mp hidx
      rw [a2 i' j' b1 b2 b3 b4, h5] at he
      have := hm.one [n + i', j'] [i, j] (by rw [show (View.mk (mem.length : Int) m).lay.len = _ from hm.len_eq, inRange2]; exact ⟨_, _, rfl, by omega, by omega, b3, b4⟩)
        (by rw [show (View.mk (mem.length : Int) m).lay.len = _ from hm.len_eq, inRange2]; exact ⟨_, _, rfl, h1, h2, h3, h4⟩) he
      simp at this
      omega
    · rw [if_neg hi]
      have h5 := a2 (i - n) j (by omega) (by omega) h3 h4
      rw [show n + (i - n) = i by omega] at h5
      rw [← h5, u2.elems [i - n, j] (by rw [l2, inRange2]; exact ⟨_, _, rfl, by omega, by omega, h3, h4⟩)]
  · intro k hk
    rw [u2.frame k, hold k hk]
    rintro ⟨idx, hi, he⟩
    rw [l2] at hi
    obtain ⟨idx', hi', he'⟩ := hab2 idx hi
    have := (hm.above idx' hi').1
    omega

/-! ### Cases -/

/-- The conjugate transpose (conjugation modelled as negation) of a reversed 2 by 3 view, its diagonal. -/
example : (do
    let e ← dagger true (fun x : Int => -x) (.arr .M ⟨5, ⟨[2, 3], [-3, -1], [0, 1], [0, 0], .none⟩⟩)
    e.get [2, 1] [1, 2, 3, 4, 5, 6]) = some (-1) := by decide
example : diagonal ⟨5, ⟨[2, 3], [-3, -1], [0, 1], [0, 0], .none⟩⟩ = some ⟨5, ⟨[2], [-4], [0], [0], .none⟩⟩ := rfl
example : (eye 9 0 1 2 [7]).map Prod.snd = some [7, 1, 0, 0, 1] := by decide
example : (diag 0 2 (.inMem ⟨1, ⟨[2], [-1], [0], [0], .none⟩⟩ false) [7, 8]).map Prod.snd = some [7, 8, 8, 0, 0, 7] := by decide
example : (vstack 0 1 2 2 (.inMem ⟨0, ⟨[1, 2], [2, 1], [0, 1], [0, 0], .contiguous⟩⟩ false) (.inMem ⟨2, ⟨[2, 2], [1, 2], [1, 0], [0, 0], .contiguous⟩⟩ false)
    [1, 2, 3, 4, 5, 6]).map Prod.snd = some [1, 2, 3, 4, 5, 6, 1, 2, 3, 5, 4, 6] := by decide
example : trace [2, 2] (fun idx => load ⟨0, ⟨[2, 2], [1, 2], [1, 0], [0, 0], .contiguous⟩⟩ idx [1, 2, 3, (4 : Int)]) = some 5 := by decide

/-- `matrix::ones` is the identity matrix, not a matrix of ones: the scalar 1 assigned to a matrix is a multiple of the identity. -/
theorem C27_ones_witness : (ones .M 9 0 1 [0, 1] [2, 2] []).map Prod.snd = some [1, 0, 0, 1] ∧
    (ones .A 9 0 1 [0, 1] [2, 2] []).map Prod.snd = some [1, 1, 1, 1] := by decide

end Nda.Matrix
