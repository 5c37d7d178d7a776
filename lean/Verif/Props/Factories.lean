import Mathlib.Algebra.Order.Floor.Ring
import Mathlib.Data.Rat.Floor
import Mathlib.Tactic.NormNum
import Mathlib.Tactic.Ring
import Verif.Model.Factories
import Verif.Props.Matrix
/-!
# C76: arrays of zeros, ones, evenly spaced integers and random numbers
-/
namespace Nda.Factories
open Nda Nda.Spec Assign Loops Nda.Matrix LayoutTransforms Slice Arith

variable {α : Type}

/-- A new array of the given shape with the elements `x`; old memory is unchanged. -/
structure NewArray (mem : List α) (so : List Nat) (len : List Int) (x : List Int → α) (r : View) (mem' : List α) : Prop where
  good : Good r mem'.length
  shape : r.lay.len = len
  order : r.lay.so = so
  one : OneToOne r
  entry : ∀ idx, InRange len idx → val mem' (addr r idx) = some (x idx)
  above : ∀ idx, InRange len idx → (mem.length : Int) ≤ addr r idx
  old : ∀ k : Int, k < mem.length → val mem' k = val mem k
  size : (mem'.length : Int) = mem.length + prod len

/-- From what has been assigned to it. -/
theorem newArray_of {mem mem1 mem' : List α} {so : List Nat} {len : List Int} {m : IdxMap} {x : List Int → α} (hm : Fresh so len mem.length m) (hlen : mem1.length = mem.length + (prod len).toNat)
    (hold : ∀ k : Int, k < mem.length → val mem1 k = val mem k) (hn : NonNeg len) (hu : Updated ⟨(mem.length : Int), m⟩ (fun idx => some (x idx)) mem1 mem') :
    NewArray mem so len x ⟨(mem.length : Int), m⟩ mem' := by
  have hp := prod_nonneg hn
  refine ⟨by rw [hu.size, hlen]; exact hm.good _ (le_refl _), hm.len_eq, hm.so_eq, hm.one, fun idx hi => ?_, fun idx hi => (hm.above idx hi).1, fun k hk => ?_, by rw [hu.size, hlen]; omega⟩
  · exact hu.elems idx (by rw [show (View.mk (mem.length : Int) m).lay.len = len from hm.len_eq]; exact hi)
  · rw [hu.frame k, hold k hk]
    rintro ⟨idx, hi, he⟩
    rw [show (View.mk (mem.length : Int) m).lay.len = len from hm.len_eq] at hi
    have := (hm.above idx hi).1
    omega

theorem replicate_updated {mem : List α} {so : List Nat} {len : List Int} {m : IdxMap} (hm : Fresh so len mem.length m) (x : α) :
    Updated ⟨(mem.length : Int), m⟩ (fun _ => some x) (mem ++ List.replicate m.size.toNat x) (mem ++ List.replicate m.size.toNat x) := by
  refine ⟨rfl, fun idx hi => ?_, fun _ _ => rfl⟩
  rw [show (View.mk (mem.length : Int) m).lay.len = len from hm.len_eq] at hi
  obtain ⟨h1, h2⟩ := hm.above idx hi
  have hk : 0 ≤ addr ⟨(mem.length : Int), m⟩ idx := by omega
  rw [val, if_neg (by omega), List.getElem?_append_right (by omega), List.getElem?_replicate, if_pos (by rw [hm.size_eq]; omega)]

/-- C76, `zeros`: any rank and memory order. -/
theorem C76_zeros (zero : α) (so : List Nat) (len : List Int) (hp : IsPerm so) (hl : so.length = len.length) (hn : NonNeg len) (mem : List α) :
    ∃ r mem', zeros zero so len mem = some (r, mem') ∧ NewArray mem so len (fun _ => zero) r mem' := by
  obtain ⟨m, hm, e1, hlen⟩ := fresh_eq zero hp hl hn mem
  exact ⟨_, _, e1, newArray_of hm hlen (fun k hk => val_append_left _ hk) hn (replicate_updated hm zero)⟩

/-- C76, `ones` of arrays and vectors. -/
theorem C76_ones (alg : Alg) (ha : alg ≠ .M) (junk zero one : α) (so : List Nat) (len : List Int) (hp : IsPerm so) (hl : so.length = len.length) (hn : NonNeg len) (mem : List α) :
    ∃ r mem', ones alg junk zero one so len mem = some (r, mem') ∧ NewArray mem so len (fun _ => one) r mem' := by
  obtain ⟨m, hm, e1, hlen⟩ := fresh_eq junk hp hl hn mem
  have hg : Good ⟨(mem.length : Int), m⟩ (mem ++ List.replicate m.size.toNat junk).length := hm.good _ (by rw [hlen])
  have hprop : (View.mk (mem.length : Int) m).lay.prop = .contiguous := hm.prop_eq
  obtain ⟨mem', e2, hu⟩ := C18_fill_partial (m.size.toNat + 1) ⟨(mem.length : Int), m⟩ one (mem ++ List.replicate m.size.toNat junk) hg (Or.inr hprop)
    (by rw [hm.size_eq, show (View.mk (mem.length : Int) m).lay.len = len from hm.len_eq]; omega) (by intro hc; rw [hprop] at hc; exact absurd hc (by decide))
    (by intro hc; rw [hprop] at hc; cases hc)
  refine ⟨_, mem', ?_, newArray_of hm hlen (fun k hk => val_append_left _ hk) hn hu⟩
  simp only [ones, e1, Option.bind_eq_bind, Option.bind_some, if_neg ha, e2]
  rfl

/-- C76, against the name: `ones` of a matrix is the identity. -/
theorem C76_ones_matrix (junk zero one : α) (so : List Nat) (n0 n1 : Int) (hp : IsPerm so) (hl : so.length = 2) (h0 : 0 ≤ n0) (h1 : 0 ≤ n1) (mem : List α) :
    ∃ r mem', ones .M junk zero one so [n0, n1] mem = some (r, mem') ∧ NewArray mem so [n0, n1] (fun idx => if idx.getD 0 0 = idx.getD 1 0 then one else zero) r mem' := by
  obtain ⟨m, hm, e1, hlen⟩ := fresh_eq junk hp (len := [n0, n1]) hl (nonneg2 h0 h1) mem
  have hg : Good ⟨(mem.length : Int), m⟩ (mem ++ List.replicate m.size.toNat junk).length := hm.good _ (by rw [hlen])
  have hprop : (View.mk (mem.length : Int) m).lay.prop = .contiguous := hm.prop_eq
  have hprod : prod [n0, n1] = n0 * n1 := by simp [prod]
  obtain ⟨mem', e2, hu⟩ := C18_matrix_partial (m.size.toNat + 1) ⟨(mem.length : Int), m⟩ zero one (mem ++ List.replicate m.size.toNat junk) n0 n1 hm.len_eq hg hm.one
    (by rw [hm.size_eq, hprod]; omega) (by intro hc; rw [hprop] at hc; exact absurd hc (by decide)) (by intro hc; rw [hprop] at hc; cases hc)
  refine ⟨_, mem', ?_, newArray_of hm hlen (fun k hk => val_append_left _ hk) (nonneg2 h0 h1) ⟨hu.size, fun idx hi => ?_, hu.frame⟩⟩
  · simp only [ones, e1, Option.bind_eq_bind, Option.bind_some, if_true, e2]
    rfl
  · rw [hu.elems idx hi]
    split <;> rfl

/-- C76, the free functions: arrays in C order, a scalar for rank 0. -/
theorem C76_free (junk zero one : α) (len : List Int) (hn : NonNeg len) (mem : List α) :
    (len = [] → ndaZeros zero len mem = some (.scalar zero, mem) ∧ ndaOnes junk zero one len mem = some (.scalar one, mem)) ∧
    (len ≠ [] → (∃ r mem', ndaZeros zero len mem = some (.array r, mem') ∧ NewArray mem (List.range len.length) len (fun _ => zero) r mem') ∧
      ∃ r mem', ndaOnes junk zero one len mem = some (.array r, mem') ∧ NewArray mem (List.range len.length) len (fun _ => one) r mem') := by
  refine ⟨fun h => by subst h; exact ⟨rfl, rfl⟩, fun h => ?_⟩
  have hp : IsPerm (List.range len.length) := Perm.isPerm_range _
  obtain ⟨r, mem', e, hN⟩ := C76_zeros zero (List.range len.length) len hp (by simp) hn mem
  obtain ⟨r', mem'', e', hN'⟩ := C76_ones .A (by decide) junk zero one (List.range len.length) len hp (by simp) hn mem
  cases len with
  | nil => exact absurd rfl h
  | cons l ls => exact ⟨⟨r, mem', by simp only [ndaZeros, e, Option.map_some], hN⟩, r', mem'', by simp only [ndaOnes, e', Option.map_some], hN'⟩

/-! ### Filling from a sequence -/

/-- State after `n` draws. -/
def after {σ : Type} (draw : σ → α × σ) (s : σ) : Nat → σ
  | 0 => s
  | n + 1 => after draw (draw s).2 n

theorem fill_list {σ : Type} (draw : σ → α × σ) (addr : List Int → Int) : ∀ (L : List (List Int)) (s : σ) (mem : List α), (∀ x ∈ L, 0 ≤ addr x ∧ addr x < mem.length) → (L.map addr).Nodup →
    ∃ mem', L.foldlM (fun (st : σ × List α) x => (wrInt st.2 (addr x) (draw st.1).1).map (fun m => ((draw st.1).2, m))) (s, mem) = some (after draw s L.length, mem') ∧
      mem'.length = mem.length ∧ (∀ (k : Nat) x, L[k]? = some x → val mem' (addr x) = some (draw (after draw s k)).1) ∧ ∀ j, (∀ x ∈ L, addr x ≠ j) → val mem' j = val mem j
  | [], s, mem, _, _ => ⟨mem, rfl, rfl, fun k x h => by simp at h, fun _ _ => rfl⟩
  | x :: L, s, mem, hf, hnd => by
    obtain ⟨m1, e1, l1, v1, f1⟩ := wrInt_spec (hf x (by simp)) (draw s).1
    rw [List.map_cons, List.nodup_cons] at hnd
    obtain ⟨m2, e2, l2, v2, f2⟩ := fill_list draw addr L (draw s).2 m1 (fun y hy => by rw [l1]; exact hf y (by simp [hy])) hnd.2
    refine ⟨m2, ?_, l2.trans l1, ?_, fun j hj => ?_⟩
    · simp only [List.foldlM_cons, e1, Option.map_some, Option.bind_eq_bind, Option.bind_some, List.length_cons, after]
      exact e2
    · intro k y hk
      cases k with
      | zero =>
        simp only [List.getElem?_cons_zero, Option.some.injEq] at hk
        subst hk
        rw [f2 _ (fun z hz he => hnd.1 (by rw [← he]; exact List.mem_map_of_mem hz)), v1]
        rfl
      | succ k =>
        rw [List.getElem?_cons_succ] at hk
        exact v2 k y hk
    · rw [f2 j (fun z hz => hj z (by simp [hz])), f1 j (fun h => hj x (by simp) h.symm)]

/-- The loop over a new array: the elements get the values drawn, in memory order. -/
theorem fillFrom_eq {σ : Type} (draw : σ → α × σ) {mem mem1 : List α} {so : List Nat} {len : List Int} {m : IdxMap} (hm : Fresh so len mem.length m) (h0 : len ≠ []) (hn : NonNeg len)
    (hlen : mem1.length = mem.length + (prod len).toNat) (s : σ) :
    ∃ L mem', MemEnum so len L ∧ (L.length : Int) = prod len ∧ fillFrom draw ⟨(mem.length : Int), m⟩ s mem1 = some (after draw s L.length, mem') ∧ mem'.length = mem1.length ∧
      (∀ (k : Nat) x, L[k]? = some x → val mem' (addr ⟨(mem.length : Int), m⟩ x) = some (draw (after draw s k)).1) ∧
      ∀ j, ¬ Occupies ⟨(mem.length : Int), m⟩ j → val mem' j = val mem1 j := by
  have hml := hm.len_eq
  obtain ⟨L, hL, b, e, hb, he, hrun⟩ := IdxMap.C16_iterate_partial m hm.wf hm.flags (by rw [hml]; exact h0) (by rw [hml]; exact hn) (Or.inr (Or.inl (by rw [hm.prop_eq]; rfl)))
  rw [hm.so_eq, hml] at hL
  have hsz : (L.length : Int) = prod len := by
    have h1 : L.Perm (box len) := (List.perm_ext_iff_of_nodup hL.nodup (lexEnum_box _).nodup).mpr (fun y => by rw [hL.mem_iff, mem_box])
    rw [h1.length_eq, box_length hn]
  have hg := hm.good mem1.length (by rw [hlen])
  have hmem : ∀ x ∈ L, InRange (View.mk (mem.length : Int) m).lay.len x := fun x hx => by
    rw [show (View.mk (mem.length : Int) m).lay.len = len from hml]
    exact (hL.mem_iff x).mp hx
  obtain ⟨mem', e1, h1, h2, h3⟩ := fill_list draw (addr ⟨(mem.length : Int), m⟩) L s mem1 (fun x hx => hg.fits x (hmem x hx))
    (hL.nodup.map_on (fun x hx y hy hxy => hm.one x y (hmem x hx) (hmem y hy) hxy))
  refine ⟨L, mem', hL, hsz, ?_, h1, h2, fun j hj => h3 j (fun x hx hxj => hj ⟨x, hmem x hx, hxj⟩)⟩
  rw [← e1]
  simp only [fillFrom, hb, he, Option.bind_eq_bind, Option.bind_some]
  rw [hrun _ _ _ _ (by rw [hm.size_eq]; omega)]
  congr 1
  funext st x
  simp only [addr]
  show (wrInt st.2 ((mem.length : Int) + offset m x) (draw st.1).1).bind _ = _
  simp only [offset]
  cases wrInt st.2 _ _ <;> rfl

/-- What `fillFrom` makes of a new array. -/
theorem fill_new {σ : Type} (draw : σ → α × σ) (junk : α) (so : List Nat) (len : List Int) (hp : IsPerm so) (hl : so.length = len.length) (h0 : len ≠ []) (hn : NonNeg len) (s : σ) (mem : List α) :
    ∃ r mem1 mem' L x, fresh junk so len mem = some (r, mem1) ∧ fillFrom draw r s mem1 = some (after draw s L.length, mem') ∧ MemEnum so len L ∧ (L.length : Int) = prod len ∧
      NewArray mem so len x r mem' ∧ ∀ (k : Nat) idx, L[k]? = some idx → x idx = (draw (after draw s k)).1 := by
  obtain ⟨m, hm, e1, hlen⟩ := fresh_eq junk hp hl hn mem
  obtain ⟨L, mem', hL, hsz, e2, h1, h2, h3⟩ := fillFrom_eq draw hm h0 hn hlen s
  have hx : ∀ idx, InRange len idx → ∃ y, val mem' (addr ⟨(mem.length : Int), m⟩ idx) = some y := by
    intro idx hi
    exact val_isSome ((hm.good mem'.length (by rw [h1, hlen])).fits idx (by rw [show (View.mk (mem.length : Int) m).lay.len = len from hm.len_eq]; exact hi))
  refine ⟨_, _, mem', L, fun idx => (val mem' (addr ⟨(mem.length : Int), m⟩ idx)).getD junk, e1, e2, hL, hsz,
    newArray_of hm hlen (fun k hk => val_append_left _ hk) hn ⟨h1, fun idx hi => ?_, h3⟩, fun k idx hk => ?_⟩
  · rw [show (View.mk (mem.length : Int) m).lay.len = len from hm.len_eq] at hi
    obtain ⟨y, hy⟩ := hx idx hi
    rw [hy]
    rfl
  · simp only [h2 k idx hk, Option.getD_some]

theorem after_arange (conv : Int → α) (step : Int) : ∀ (k : Nat) (v : Int), after (fun v => (conv v, v + step)) v k = v + k * step
  | 0, v => by simp [after]
  | k + 1, v => by rw [after, after_arange conv step k]; simp only; push_cast; ring

/-- C76, `arange(first, last, step)`: the `i`-th element is `first + i * step`; the values are exactly those before `last` (behind it for negative steps) at a multiple of the step
from `first`. -/
theorem C76_arange (conv : Int → α) (junk : α) (first last step : Int) (hs : step ≠ 0) (mem : List α) :
    ∃ n r mem', arange conv junk first last step mem = some (r, mem') ∧ 0 ≤ n ∧ NewArray mem [0] [n] (fun idx => conv (first + idx.getD 0 0 * step)) r mem' ∧
      ∀ v : Int, (∃ i, 0 ≤ i ∧ i < n ∧ v = first + i * step) ↔ (step ∣ v - first ∧ if 0 < step then first ≤ v ∧ v < last else last < v ∧ v ≤ first) := by
  obtain ⟨n, hn, -, n0, hc⟩ := rangeSize_isCount (f := first) (la := last) hs
  obtain ⟨r, mem1, mem', L, x, e1, e2, hL, hsz, hN, hx⟩ := fill_new (fun v => (conv v, v + step)) junk [0] [n] (by decide) rfl (by simp) (by intro y hy; simp at hy; omega) first mem
  have hbox : L = (List.range n.toNat).map (fun k : Nat => [(k : Int)]) := by
    rw [Arith.MemEnum.eq_memBox (by decide) rfl hL]
    simp only [Grid.memBox, memOrder, box, List.map_cons, List.map_nil, List.getD_cons_zero, ← List.map_eq_flatMap, List.map_map]
    apply List.map_congr_left
    intro k _
    simp [Grid.unperm]
  refine ⟨n, r, mem', ?_, n0, ⟨hN.good, hN.shape, hN.order, hN.one, fun idx hi => ?_, hN.above, hN.old, hN.size⟩, fun v => ⟨?_, ?_⟩⟩
  · simp only [arange, hn, e1, e2, Option.bind_eq_bind, Option.bind_some]
    rfl
  · obtain ⟨i, rfl, i0, i1⟩ := inRange1.mp hi
    rw [hN.entry [i] hi]
    rw [hx i.toNat [i] (by rw [hbox, List.getElem?_map, List.getElem?_range (by omega)]; simp; omega), after_arange]
    simp only [List.getD_cons_zero]
    rw [Int.toNat_of_nonneg i0]
  · rintro ⟨i, i0, i1, rfl⟩
    refine ⟨⟨i, by ring⟩, ?_⟩
    have := (hc i i0).mp i1
    split
    · rename_i h
      rw [if_pos h] at this
      have := Int.mul_nonneg i0 h.le
      omega
    · rename_i h
      rw [if_neg h] at this
      have := Int.mul_nonneg i0 (show 0 ≤ -step by omega)
      rw [Int.mul_neg] at this
      omega
  · rintro ⟨⟨i, hi⟩, h⟩
    have hv : v = first + i * step := by rw [mul_comm]; omega
    have i0 : 0 ≤ i := by
      by_contra hneg
      split at h
      · rename_i hp
        have := Int.mul_pos (show 0 < -i by omega) hp
        rw [Int.neg_mul] at this
        omega
      · rename_i hp
        have := Int.mul_pos (show 0 < -i by omega) (show 0 < -step by omega)
        rw [Int.neg_mul_neg] at this
        omega
    refine ⟨i, i0, (hc i i0).mpr ?_, hv⟩
    split
    · rename_i hp
      rw [if_pos hp] at h
      omega
    · rename_i hp
      rw [if_neg hp] at h
      omega

/-! ### Random numbers -/

theorem after_const {draw : Nat → α × Nat} {w : Nat} (hw : ∀ s, (draw s).2 = s + w) : ∀ (k s : Nat), after draw s k = s + k * w
  | 0, s => by simp [after]
  | k + 1, s => by rw [after, hw, after_const hw k]; ring

/-- C76, `rand`: the elements get samples of the generator in memory order, each of them new ones, and the generator has moved on by their number.  Real elements take one sample. -/
theorem C76_rand_real {δ : Type} (conv : δ → α) (g : Nat → δ) (junk : α) (so : List Nat) (len : List Int) (hp : IsPerm so) (hl : so.length = len.length) (h0 : len ≠ []) (hn : NonNeg len) (s : Nat)
    (mem : List α) :
    ∃ r mem' L x, rand (drawReal conv g) junk so len s mem = some (r, s + L.length, mem') ∧ MemEnum so len L ∧ (L.length : Int) = prod len ∧ NewArray mem so len x r mem' ∧
      ∀ (k : Nat) idx, L[k]? = some idx → x idx = conv (g (s + k)) := by
  obtain ⟨r, mem1, mem', L, x, e1, e2, hL, hsz, hN, hx⟩ := fill_new (drawReal conv g) junk so len hp hl h0 hn s mem
  have hw : ∀ s, (drawReal conv g s).2 = s + 1 := fun _ => rfl
  refine ⟨r, mem', L, x, ?_, hL, hsz, hN, fun k idx hk => ?_⟩
  · simp only [rand, e1, e2, Option.bind_eq_bind, Option.bind_some, after_const hw, Nat.mul_one]
    rfl
  · rw [hx k idx hk, after_const hw, Nat.mul_one]
    rfl

/-- Complex elements take two samples, for the two parts in an order that depends on the compiler. -/
theorem C76_rand_complex {δ : Type} (cplx : δ → δ → α) (b : Bool) (g : Nat → δ) (junk : α) (so : List Nat) (len : List Int) (hp : IsPerm so) (hl : so.length = len.length) (h0 : len ≠ [])
    (hn : NonNeg len) (s : Nat) (mem : List α) :
    ∃ r mem' L x, rand (drawComplex cplx b g) junk so len s mem = some (r, s + 2 * L.length, mem') ∧ MemEnum so len L ∧ (L.length : Int) = prod len ∧ NewArray mem so len x r mem' ∧
      ∀ (k : Nat) idx, L[k]? = some idx → x idx = cplx (g (s + 2 * k)) (g (s + 2 * k + 1)) ∨ x idx = cplx (g (s + 2 * k + 1)) (g (s + 2 * k)) := by
  obtain ⟨r, mem1, mem', L, x, e1, e2, hL, hsz, hN, hx⟩ := fill_new (drawComplex cplx b g) junk so len hp hl h0 hn s mem
  have hw : ∀ s, (drawComplex cplx b g s).2 = s + 2 := fun _ => rfl
  refine ⟨r, mem', L, x, ?_, hL, hsz, hN, fun k idx hk => ?_⟩
  · simp only [rand, e1, e2, Option.bind_eq_bind, Option.bind_some, after_const hw, Nat.mul_comm]
    rfl
  · rw [hx k idx hk, after_const hw, Nat.mul_comm]
    cases b
    · exact Or.inl rfl
    · exact Or.inr rfl

/-- C76, the range `[0, 1)`, if the conversion from `double` keeps it. -/
theorem C76_rand_range (conv : ℚ → ℚ) (hc : ∀ q, 0 ≤ q → q < 1 → 0 ≤ conv q ∧ conv q < 1) (g : Nat → ℚ) (hg : ∀ n, 0 ≤ g n ∧ g n < 1) (junk : ℚ) (so : List Nat) (len : List Int) (hp : IsPerm so)
    (hl : so.length = len.length) (h0 : len ≠ []) (hn : NonNeg len) (s : Nat) (mem : List ℚ) :
    ∃ r s' mem', rand (drawReal conv g) junk so len s mem = some (r, s', mem') ∧ ∀ idx, InRange len idx → ∃ q, val mem' (addr r idx) = some q ∧ 0 ≤ q ∧ q < 1 := by
  obtain ⟨r, mem', L, x, e, hL, -, hN, hx⟩ := C76_rand_real conv g junk so len hp hl h0 hn s mem
  refine ⟨r, _, mem', e, fun idx hi => ⟨x idx, hN.entry idx hi, ?_⟩⟩
  obtain ⟨k, hk⟩ := List.getElem?_of_mem ((hL.mem_iff idx).mpr hi)
  rw [hx k idx hk]
  exact hc _ (hg _).1 (hg _).2

/-- Rounding a number in `[1/2, 1)` to the 24 bits of a `float` (ties up). -/
def toFloat24 (q : ℚ) : ℚ := (⌊q * 16777216 + 1 / 2⌋ : ℚ) / 16777216

/-- Against the statement for `float`: the samples are of type `double`, and the largest of them, less than 1, is rounded to 1. -/
theorem C76_rand_float_witness : let q : ℚ := 1 - 1 / 9007199254740992; 0 ≤ q ∧ q < 1 ∧ toFloat24 q = 1 := by
  refine ⟨by norm_num, by norm_num, ?_⟩
  have : ⌊(1 - 1 / 9007199254740992 : ℚ) * 16777216 + 1 / 2⌋ = 16777216 := by
    rw [Int.floor_eq_iff]; norm_num
  simp only [toFloat24, this]
  norm_num

/-- Several calls of `nda::rand`. -/
def calls (g : Nat → Nat → α) (g0 : Nat → α) (junk : α) : List (List Int) → Gens → List α → Option (List (Made α) × Gens × List α)
  | [], s, mem => some ([], s, mem)
  | len :: lens, s, mem => do
      let (x, s, mem) ← ndaRand g g0 junk len s mem
      let (xs, s, mem) ← calls g g0 junk lens s mem
      return (x :: xs, s, mem)

/-- Any number of calls of `nda::rand` of any shapes succeeds; the generator of a rank moves on by the number of elements made from it
(by `C76_rand_real` every call takes the samples from there on), so no sample is used twice; those of rank 0 are the first numbers of a generator
with a fixed seed, whatever the other generators do. -/
theorem C76_rand_calls (g : Nat → Nat → α) (g0 : Nat → α) (junk : α) : ∀ (lens : List (List Int)) (s : Gens) (mem : List α), (∀ len ∈ lens, NonNeg len) →
    ∃ xs s' mem', calls g g0 junk lens s mem = some (xs, s', mem') ∧ xs.length = lens.length ∧ (∀ (k : Nat) len x, lens[k]? = some len → xs[k]? = some x → (len = [] ↔ ∃ y, x = .scalar y)) ∧
      xs.filterMap (fun x => match x with | .scalar y => some y | .array _ => none) = (List.range (lens.count [])).map (fun i => g0 (s.scalar + i)) ∧
      s'.scalar = s.scalar + lens.count [] ∧ ∀ R, 0 < R → (s'.array R : Int) = s.array R + ((lens.filter (·.length = R)).map prod).sum
  | [], s, mem, _ => ⟨[], s, mem, rfl, rfl, fun k len x h => by simp at h, rfl, rfl, fun R _ => by simp⟩
  | len :: lens, s, mem, h => by
    have hl : ∀ l ∈ lens, NonNeg l := fun l hl => h l (by simp [hl])
    cases len with
    | nil =>
      obtain ⟨xs, s', mem', e, h1, h2, h3, h4, h5⟩ := C76_rand_calls g g0 junk lens { s with scalar := s.scalar + 1 } mem hl
      refine ⟨.scalar (g0 s.scalar) :: xs, s', mem', ?_, by simp [h1], ?_, ?_, ?_, ?_⟩
      · simp only [calls, ndaRand, Option.bind_eq_bind, Option.bind_some, e]
        rfl
      · intro k l x hk hx
        cases k with
        | zero => simp only [List.getElem?_cons_zero, Option.some.injEq] at hk hx; subst hk hx; exact ⟨fun _ => ⟨_, rfl⟩, fun _ => rfl⟩
        | succ k => exact h2 k l x (by simpa using hk) (by simpa using hx)
      · rw [List.count_cons_self, List.range_succ_eq_map, List.filterMap_cons]
        simp only [h3, List.map_cons, List.map_map, Nat.add_zero]
        congr 1
        apply List.map_congr_left
        intro i _
        simp only [Function.comp, Nat.succ_eq_add_one]
        congr 1; omega
      · rw [h4, List.count_cons_self]; simp only; omega
      · intro R hR
        rw [List.filter_cons_of_neg (by simp; omega)]
        exact h5 R hR
    | cons l ls =>
      obtain ⟨r, mem1, L, x, e1, hL, hsz, hN, -⟩ := C76_rand_real id (g (l :: ls).length) junk (List.range (l :: ls).length) (l :: ls) (Perm.isPerm_range _) (by simp) (by simp) (h _ (by simp)) (s.array (l :: ls).length) mem
      obtain ⟨xs, s', mem', e, h1, h2, h3, h4, h5⟩ := C76_rand_calls g g0 junk lens { s with array := fun R => if R = (l :: ls).length then s.array (l :: ls).length + L.length else s.array R } mem1 hl
      refine ⟨.array r :: xs, s', mem', ?_, by simp [h1], ?_, ?_, ?_, ?_⟩
      · simp only [calls, ndaRand, e1, Option.map_some, Option.bind_eq_bind, Option.bind_some, e]
        rfl
      · intro k l x hk hx
        cases k with
        | zero =>
          simp only [List.getElem?_cons_zero, Option.some.injEq] at hk hx
          subst hk hx
          exact ⟨fun h => by simp at h, fun ⟨y, hy⟩ => by cases hy⟩
        | succ k => exact h2 k l x (by simpa using hk) (by simpa using hx)
      · rw [List.count_cons_of_ne (by simp), List.filterMap_cons]
        exact h3
      · rw [h4, List.count_cons_of_ne (by simp)]
      · intro R hR
        rw [h5 R hR]
        beta_reduce
        show ((if R = (l :: ls).length then s.array (l :: ls).length + L.length else s.array R : Nat) : Int) + _ = _
        by_cases hR' : R = (l :: ls).length
        · subst hR'
          rw [if_pos rfl, List.filter_cons_of_pos (by simp), List.map_cons, List.sum_cons]
          push_cast
          rw [hsz]; ring
        · rw [if_neg hR', List.filter_cons_of_neg (by simpa using fun h => hR' h.symm)]

/-! ### Examples -/

/-- `arange(7, 1, -2)` is `7, 5, 3`. -/
example : arange id 9 7 1 (-2) [] = some (⟨0, ⟨[3], [1], [0], [0], .contiguous⟩⟩, [7, 5, 3]) := by decide
/-- `arange(5)`. -/
example : (arangeTo id 9 5 [8, 8]).map Prod.snd = some [8, 8, 0, 1, 2, 3, 4] := by decide
/-- An empty range. -/
example : (arange id 9 3 1 1 []).map Prod.snd = some [] := by decide
/-- A step of zero. -/
example : arange id 9 3 1 0 [] = none := by decide
/-- A 2 by 3 array of samples `100, 101, ...` in Fortran order. -/
example : (rand (drawReal id (fun n => 100 + n)) 0 [1, 0] [2, 3] 4 []).map Prod.snd = some (10, [104, 105, 106, 107, 108, 109]) := by decide
/-- `ones<matrix>` is the identity. -/
example : (ones .M 9 0 1 [1, 0] [2, 3] []).map Prod.snd = some [1, 0, 0, 1, 0, 0] := by decide
/-- Calls of ranks 0, 1, 0, 2, 1. -/
example : (calls (fun R n => 100 * (R : Int) + n) (fun n => -1 - (n : Int)) 9 [[], [2], [], [1, 2], [1]] ⟨fun _ => 10, 0⟩ []).map (fun r => (r.2.1.array 1, r.2.1.array 2, r.2.1.scalar, r.2.2)) =
    some (13, 12, 2, [110, 111, 210, 211, 112]) := by decide

end Nda.Factories
