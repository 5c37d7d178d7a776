import Verif.Lemmas.Order
import Verif.Lemmas.IdxMap
import Verif.Model.Iterators
/-!
# C16: iterating over an array
-/
namespace Nda.Grid
open Nda Nda.Spec Nda.Perm

/-! ### States of the iterator -/

/-- The iterator over lengths `ls`, strides `ss` at the index tuple `x`. -/
def at' : List Int → List Int → List Int → Grid
  | _ :: l' :: ls, s :: ss, i :: is =>
      .more s i (i * s) (at' (l' :: ls) ss (List.replicate (ls.length + 1) 0))
        (at' (l' :: ls) ss (l' :: List.replicate ls.length 0)) (at' (l' :: ls) ss is)
  | _, ss, is => .one (ss.headD 0) (is.headD 0) (is.headD 0 * ss.headD 0)

def zeros (n : Nat) : List Int := List.replicate n 0

/-- One past the last index tuple. -/
def endIdx : List Int → List Int
  | [] => []
  | l :: ls => l :: List.replicate ls.length 0

theorem mk_eq : ∀ {ls ss : List Int}, ls ≠ [] → ss.length = ls.length →
    mk ls ss false = some (at' ls ss (List.replicate ls.length 0)) ∧ mk ls ss true = some (at' ls ss (endIdx ls))
  | [l], [s], _, _ => by simp [mk, at', endIdx]
  | [l], s :: s' :: ss, _, h => by simp at h
  | l :: l' :: ls, s :: ss, _, h => by
    obtain ⟨h1, h2⟩ := mk_eq (ls := l' :: ls) (ss := ss) (by simp) (by simpa using h)
    simp [mk, h1, h2, at', endIdx, List.replicate_succ]

theorem deref_at : ∀ {ls ss x : List Int}, ls ≠ [] → ss.length = ls.length → x.length = ls.length →
    deref (at' ls ss x) = dot ss x
  | [l], [s], [i], _, _, _ => by simp [deref, at', dot, mul_comm]
  | l :: l' :: ls, s :: ss, i :: is, _, h, hx => by
    rw [at', deref, deref_at (by simp) (by simpa using h) (by simpa using hx), dot, mul_comm]

theorem indices_at : ∀ {ls ss x : List Int}, ls ≠ [] → ss.length = ls.length → x.length = ls.length →
    indices (at' ls ss x) = x
  | [l], [s], [i], _, _, _ => by simp [indices, at']
  | l :: l' :: ls, s :: ss, i :: is, _, h, hx => by
    rw [at', indices, indices_at (by simp) (by simpa using h) (by simpa using hx)]

theorem eq_at : ∀ {ls ss x y : List Int}, ls ≠ [] → ss.length = ls.length → x.length = ls.length → y.length = ls.length →
    eq (at' ls ss x) (at' ls ss y) = decide (x = y)
  | [l], [s], [i], [j], _, _, _, _ => by simp [eq, at', eq_comm]
  | l :: l' :: ls, s :: ss, i :: is, j :: js, _, h, hx, hy => by
    rw [at', at', eq, eq_at (by simp) (by simpa using h) (by simpa using hx) (by simpa using hy)]
    rw [decide_eq_decide.mpr (eq_comm (a := j)), ← Bool.decide_and]
    simp

/-- The index tuple after `x`. -/
def succ : List Int → List Int → List Int
  | _ :: l' :: ls, i :: is =>
      if succ (l' :: ls) is = endIdx (l' :: ls) then (i + 1) :: List.replicate (ls.length + 1) 0 else i :: succ (l' :: ls) is
  | _, is => (is.headD 0 + 1) :: is.tail

theorem succ_length : ∀ {ls x : List Int}, ls ≠ [] → x.length = ls.length → (succ ls x).length = ls.length
  | [l], [i], _, _ => by simp [succ]
  | l :: l' :: ls, i :: is, _, hx => by
    rw [succ]; split
    · simp
    · simp [succ_length (ls := l' :: ls) (x := is) (by simp) (by simpa using hx)]

theorem endIdx_length : ∀ (ls : List Int), (endIdx ls).length = ls.length
  | [] => rfl
  | l :: ls => by simp [endIdx]

theorem next_at : ∀ {ls ss x : List Int}, ls ≠ [] → ss.length = ls.length → x.length = ls.length →
    next (at' ls ss x) = at' ls ss (succ ls x)
  | [l], [s], [i], _, _, _ => by simp [next, at', succ, add_mul]
  | l :: l' :: ls, s :: ss, i :: is, _, h, hx => by
    have h1 : ss.length = (l' :: ls).length := by simpa using h
    have h2 : is.length = (l' :: ls).length := by simpa using hx
    have ih := next_at (ls := l' :: ls) (ss := ss) (x := is) (by simp) h1 h2
    rw [at', next]
    simp only [ih]
    have he : at' (l' :: ls) ss (l' :: List.replicate ls.length 0) = at' (l' :: ls) ss (endIdx (l' :: ls)) := rfl
    rw [he, eq_at (by simp) h1 (succ_length (by simp) h2) (endIdx_length _), succ]
    by_cases hc : succ (l' :: ls) is = endIdx (l' :: ls)
    · simp only [hc, decide_true, if_true, at', endIdx, add_mul, one_mul]
    · rw [if_neg hc, if_neg (by simpa using hc), at']
      rfl

theorem lin_zeros : ∀ (ls : List Int) (n : Nat), lin ls (List.replicate n 0) = 0
  | [], n => by cases n <;> simp [lin]
  | l :: ls, 0 => by simp [lin]
  | l :: ls, n + 1 => by simp [List.replicate_succ, lin, lin_zeros ls n]

theorem lin_endIdx : ∀ {ls : List Int}, ls ≠ [] → lin ls (endIdx ls) = prod ls
  | l :: ls, _ => by simp [endIdx, lin, prod, lin_zeros]

theorem inRange_zeros : ∀ {ls : List Int}, (∀ l ∈ ls, 0 < l) → InRange ls (List.replicate ls.length 0)
  | [], _ => trivial
  | l :: ls, h => ⟨⟨le_refl _, h l List.mem_cons_self⟩, inRange_zeros (fun k hk => h k (List.mem_cons_of_mem _ hk))⟩

/-- With positive extents the tuple after `x` is in range, or one past the end, and its position
is one more. -/
theorem succ_spec : ∀ {ls x : List Int}, ls ≠ [] → (∀ l ∈ ls.tail, 0 < l) → InRange ls x →
    lin ls (succ ls x) = lin ls x + 1 ∧ (InRange ls (succ ls x) ∨ succ ls x = endIdx ls)
  | [l], [i], _, _, hr => by
    obtain ⟨⟨h0, h1⟩, -⟩ := hr
    simp only [succ, List.headD_cons, List.tail_cons, lin, prod, InRange, endIdx, List.length_nil, List.replicate_zero,
      List.cons.injEq, and_true]
    omega
  | l :: l' :: ls, i :: is, _, hp, hr => by
    obtain ⟨⟨h0, h1⟩, hr'⟩ := hr
    have hp' : ∀ k ∈ l' :: ls, 0 < k := hp
    obtain ⟨e, ih⟩ := succ_spec (ls := l' :: ls) (x := is) (by simp) (fun k hk => hp' k (List.mem_cons_of_mem _ hk)) hr'
    rw [succ]
    by_cases hc : succ (l' :: ls) is = endIdx (l' :: ls)
    · rw [if_pos hc]
      rw [hc, lin_endIdx (by simp)] at e
      refine ⟨by rw [lin, lin, lin_zeros]; rw [show lin (l' :: ls) is = prod (l' :: ls) - 1 by omega]; ring, ?_⟩
      have hz : InRange (l' :: ls) (List.replicate (ls.length + 1) 0) := inRange_zeros hp'
      by_cases hl : i + 1 = l
      · right; simp [endIdx, hl]
      · left; exact ⟨⟨by omega, by omega⟩, hz⟩
    · rw [if_neg hc]
      refine ⟨by rw [lin, lin, e]; ring, Or.inl ⟨⟨h0, h1⟩, ih.resolve_right hc⟩⟩

theorem rangeFor_at {ls ss : List Int} (h0 : ls ≠ []) (hl : ss.length = ls.length) (hp : ∀ l ∈ ls, 0 < l)
    {σ : Type} (f : Int → σ → Option σ) : ∀ (n : Nat) (x : List Int) (s : σ) (fuel : Nat),
      (InRange ls x ∨ x = endIdx ls) → (prod ls - lin ls x = n) → n < fuel →
      rangeFor f (at' ls ss (endIdx ls)) fuel (at' ls ss x) s =
        (((box ls).drop (lin ls x).toNat).map (dot ss)).foldlM (fun s o => f o s) s := by
  have hn : NonNeg ls := fun l h => (hp l h).le
  have hbl := box_length hn
  intro n
  induction n with
  | zero =>
    intro x s fuel hx hm hf
    have hx' : x = endIdx ls := hx.resolve_left (fun h => by have := (lin_bounds h).2; omega)
    obtain ⟨g, rfl⟩ : ∃ g, fuel = g + 1 := ⟨fuel - 1, by omega⟩
    subst hx'
    rw [rangeFor, if_pos (by rw [eq_at h0 hl (endIdx_length _) (endIdx_length _)]; simp)]
    rw [lin_endIdx h0, List.drop_of_length_le (by omega)]; rfl
  | succ n ih =>
    intro x s fuel hx hm hf
    have hx' : InRange ls x := hx.resolve_right (fun h => by rw [h, lin_endIdx h0] at hm; omega)
    obtain ⟨g, rfl⟩ : ∃ g, fuel = g + 1 := ⟨fuel - 1, by omega⟩
    have hxl := hx'.length_eq
    obtain ⟨hlo, hhi⟩ := lin_bounds hx'
    have hne : x ≠ endIdx ls := fun h => by rw [h, lin_endIdx h0] at hm; omega
    rw [rangeFor, if_neg (by rw [eq_at h0 hl hxl (endIdx_length _)]; simpa using hne)]
    obtain ⟨e, hs⟩ := succ_spec h0 (fun l h => hp l (List.mem_of_mem_tail h)) hx'
    have hk : (lin ls x).toNat < (box ls).length := by omega
    have hget : (box ls)[(lin ls x).toNat] = x := by
      apply lin_inj (mem_box.mp (List.getElem_mem hk)) hx'
      have h2 : ((box ls).map (lin ls))[(lin ls x).toNat]? = ((List.range (prod ls).toNat).map Int.ofNat)[(lin ls x).toNat]? := by
        rw [box_lin hn]
      have hkl : (lin ls x).toNat < (prod ls).toNat := by omega
      have h3 : lin ls (box ls)[(lin ls x).toNat] = ((lin ls x).toNat : Int) := by
        simpa only [List.getElem?_map, List.getElem?_eq_getElem hk, List.getElem?_range hkl, Option.map_some,
          Option.some.injEq, Int.ofNat_eq_natCast] using h2
      rw [h3]; omega
    rw [List.drop_eq_getElem_cons hk, hget, List.map_cons, List.foldlM_cons, deref_at h0 hl hxl, next_at h0 hl hxl]
    congr 1
    funext s'
    rw [ih (succ ls x) s' g hs (by omega) (by omega), e]
    congr 3; omega

/-! ### Memory order -/

/-- Undo `memOrder so`. -/
def unperm (so : List Nat) (x : List Int) : List Int := (List.range so.length).map (fun u => x.getD (so.idxOf u) 0)

theorem memOrder_unperm {so : List Nat} (hp : IsPerm so) {x : List Int} (hx : x.length = so.length) :
    memOrder so (unperm so x) = x := by
  apply List.ext_getElem (by simp [memOrder, hx])
  intro k hk hk'
  have hks : k < so.length := by omega
  simp only [memOrder, List.getElem_map, unperm]
  have hlt := IsPerm.getElem_lt hp hks
  rw [List.getD_eq_getElem?_getD, List.getElem?_map, List.getElem?_range hlt]
  simp only [Option.map_some, Option.getD_some]
  rw [List.getD_eq_getElem?_getD]
  have : so.idxOf so[k] = k := List.Nodup.idxOf_getElem (IsPerm.nodup hp) k hks
  rw [this, List.getElem?_eq_getElem hk']; rfl

theorem unperm_length (so : List Nat) (x : List Int) : (unperm so x).length = so.length := by simp [unperm]

/-- All tuples of the box `len`, in memory order. -/
def memBox (so : List Nat) (len : List Int) : List (List Int) := (box (memOrder so len)).map (unperm so)

theorem memBox_memOrder {so : List Nat} (hp : IsPerm so) {len : List Int} :
    (memBox so len).map (memOrder so) = box (memOrder so len) := by
  rw [memBox, List.map_map]
  conv_rhs => rw [← List.map_id (box (memOrder so len))]
  apply List.map_congr_left
  intro x hx
  have := (mem_box.mp hx).length_eq
  simp only [Function.comp, id]
  exact memOrder_unperm hp (by rw [this, memOrder_length])

theorem memEnum_memBox {so : List Nat} (hp : IsPerm so) {len : List Int} (hl : len.length = so.length) :
    MemEnum so len (memBox so len) := by
  have hm := memBox_memOrder hp (len := len)
  constructor
  · rw [← List.pairwise_map (f := memOrder so) (R := LexLt), hm]; exact box_sorted _
  · intro x
    constructor
    · intro hx
      have : memOrder so x ∈ box (memOrder so len) := by rw [← hm]; exact List.mem_map_of_mem hx
      have hxl : x.length = len.length := by
        obtain ⟨y, _, rfl⟩ := List.mem_map.mp hx
        rw [unperm_length, hl]
      exact (inRange_memOrder hp hl.symm.symm (by rw [hxl, hl])).mp (mem_box.mp this)
    · intro hx
      have hxl := hx.length_eq
      have : memOrder so x ∈ box (memOrder so len) :=
        mem_box.mpr ((inRange_memOrder hp hl (by rw [hxl, hl])).mpr hx)
      rw [← hm] at this
      obtain ⟨y, hy, e⟩ := List.mem_map.mp this
      have hyl : y.length = so.length := by
        obtain ⟨z, _, rfl⟩ := List.mem_map.mp hy
        rw [unperm_length]
      have := memOrder_inj hp hyl (by rw [hxl, hl]) e
      rwa [← this]

theorem _root_.Nda.Spec.MemEnum.nodup {so : List Nat} {len : List Int} {L : List (List Int)} (h : MemEnum so len L) : L.Nodup :=
  List.Pairwise.imp (S := (· ≠ ·)) (fun hl e => by subst e; exact LexLt.irrefl hl) h.sorted

theorem drop_zeros_box {ls : List Int} : (box ls).drop (lin ls (List.replicate ls.length 0)).toNat = box ls := by
  rw [lin_zeros]; rfl

/-- The loop over a grid visits the offsets of the box in lexicographic order, if all extents are
positive or the first one is zero. -/
theorem rangeFor_grid {ls ss : List Int} (h0 : ls ≠ []) (hl : ss.length = ls.length)
    (hz : (∀ l ∈ ls, 0 < l) ∨ ls.head? = some 0) :
    ∃ b e, mk ls ss false = some b ∧ mk ls ss true = some e ∧
      ∀ (σ : Type) (f : Int → σ → Option σ) (s : σ) (fuel : Nat), (box ls).length < fuel →
        rangeFor f e fuel b s = ((box ls).map (dot ss)).foldlM (fun s o => f o s) s := by
  obtain ⟨h1, h2⟩ := mk_eq h0 hl
  refine ⟨_, _, h1, h2, fun σ f s fuel hf => ?_⟩
  rcases hz with hp | hz
  · have hbl := box_length (fun l h => (hp l h).le)
    rw [rangeFor_at h0 hl hp f (box ls).length _ s fuel (Or.inl (inRange_zeros hp)) (by rw [lin_zeros]; omega) hf,
      drop_zeros_box]
  · obtain ⟨l, ls', rfl⟩ : ∃ l ls', ls = l :: ls' := List.exists_cons_of_ne_nil h0
    simp only [List.head?_cons, Option.some.injEq] at hz
    subst hz
    obtain ⟨g, rfl⟩ : ∃ g, fuel = g + 1 := ⟨fuel - 1, by omega⟩
    rw [rangeFor, if_pos (by rw [eq_at h0 hl (by simp) (endIdx_length _)]; simp [endIdx, List.replicate_succ])]
    simp [box]

/-- After `k` increments the iterator sits at the `k`-th tuple. -/
theorem iterate_at {ls ss : List Int} (h0 : ls ≠ []) (hl : ss.length = ls.length) (hp : ∀ l ∈ ls, 0 < l) :
    ∀ (k : Nat) (hk : k < (box ls).length),
      next^[k] (at' ls ss (List.replicate ls.length 0)) = at' ls ss (box ls)[k] := by
  have hn : NonNeg ls := fun l h => (hp l h).le
  have hbl := box_length hn
  have hlin : ∀ (k : Nat) (hk : k < (box ls).length), lin ls (box ls)[k] = k := by
    intro k hk
    have h2 : ((box ls).map (lin ls))[k]? = ((List.range (prod ls).toNat).map Int.ofNat)[k]? := by rw [box_lin hn]
    have hkl : k < (prod ls).toNat := by omega
    simpa only [List.getElem?_map, List.getElem?_eq_getElem hk, List.getElem?_range hkl, Option.map_some,
      Option.some.injEq, Int.ofNat_eq_natCast] using h2
  intro k
  induction k with
  | zero =>
    intro hk
    have : (box ls)[0] = List.replicate ls.length 0 :=
      lin_inj (mem_box.mp (List.getElem_mem hk)) (inRange_zeros hp) (by rw [hlin 0 hk, lin_zeros]; rfl)
    rw [this]; rfl
  | succ k ih =>
    intro hk
    have hr := mem_box.mp (List.getElem_mem (show k < (box ls).length by omega))
    rw [Function.iterate_succ_apply', ih (by omega), next_at h0 hl hr.length_eq]
    obtain ⟨e, hs⟩ := succ_spec h0 (fun l h => hp l (List.mem_of_mem_tail h)) hr
    rw [hlin k (by omega)] at e
    have hs' : InRange ls (succ ls (box ls)[k]) := hs.resolve_right (fun h => by rw [h, lin_endIdx h0] at e; omega)
    congr 1
    exact lin_inj hs' (mem_box.mp (List.getElem_mem hk)) (by rw [e, hlin (k + 1) hk]; push_cast; rfl)

/-- The moves of a random access iterator. -/
inductive Move where
  | inc
  | dec
  | add (n : Int)
  | sub (n : Int)

/-- By how much a move displaces. -/
def Move.by : Move → Int
  | .inc => 1
  | .dec => -1
  | .add n => n
  | .sub n => -n

/-- `++`, `--`, `+= n`, `-= n` on `array_iterator<1>`, iterators.hpp:194-224. -/
def Move.run (g : Grid) : Move → Option Grid
  | .inc => some g.next
  | .dec => g.prev
  | .add n => g.advance n
  | .sub n => g.advance (-n)

/-- **C16** The rank-1 iterator is a random access iterator: after any sequence of moves from
`begin` its distance to `begin` is the sum of the displacements and it dereferences to that
multiple of the stride; `<` and `==` against `end` compare that sum with the length. -/
theorem C16_random_access (l s : Int) (ms : List Move) :
    ∃ b e g, mk [l] [s] false = some b ∧ mk [l] [s] true = some e ∧ ms.foldlM Move.run b = some g ∧
      diff g b = some (ms.map Move.by).sum ∧ deref g = (ms.map Move.by).sum * s ∧ indices g = [(ms.map Move.by).sum] ∧
      lt g e = some (decide ((ms.map Move.by).sum < l)) ∧ eq g e = decide ((ms.map Move.by).sum = l) ∧
      diff e b = some l := by
  have key : ∀ (ms : List Move) (p : Int), ms.foldlM Move.run (.one s p (p * s)) =
      some (.one s (p + (ms.map Move.by).sum) ((p + (ms.map Move.by).sum) * s)) := by
    intro ms
    induction ms with
    | nil => intro p; simp
    | cons a ms ih =>
      intro p
      have : Move.run (.one s p (p * s)) a = some (.one s (p + a.by) ((p + a.by) * s)) := by
        cases a <;> simp [Move.run, Move.by, next, prev, advance] <;> (try constructor) <;> ring
      rw [List.foldlM_cons, this]
      simp only [Option.bind_eq_bind, Option.bind_some, ih, List.map_cons, List.sum_cons, add_assoc]
  refine ⟨.one s 0 (0 * s), .one s l (l * s), _, rfl, rfl, key ms 0, ?_⟩
  simp [diff, deref, indices, lt, eq, eq_comm]

/-- **C16** Two rank-1 iterators moved in any way: their difference is the difference of their positions, `<` and `==` compare positions, and one moved by the
difference is the other. -/
theorem C16_distance (l s : Int) (ms ms' : List Move) :
    ∃ b g g', mk [l] [s] false = some b ∧ ms.foldlM Move.run b = some g ∧ ms'.foldlM Move.run b = some g' ∧
      diff g g' = some ((ms.map Move.by).sum - (ms'.map Move.by).sum) ∧ lt g g' = some (decide ((ms.map Move.by).sum < (ms'.map Move.by).sum)) ∧
      eq g g' = decide ((ms.map Move.by).sum = (ms'.map Move.by).sum) ∧ (diff g g').bind (advance · g') = some g := by
  have key : ∀ (ms : List Move) (p : Int), ms.foldlM Move.run (.one s p (p * s)) =
      some (.one s (p + (ms.map Move.by).sum) ((p + (ms.map Move.by).sum) * s)) := by
    intro ms
    induction ms with
    | nil => intro p; simp
    | cons a ms ih =>
      intro p
      have : Move.run (.one s p (p * s)) a = some (.one s (p + a.by) ((p + a.by) * s)) := by
        cases a <;> simp [Move.run, Move.by, next, prev, advance] <;> (try constructor) <;> ring
      rw [List.foldlM_cons, this]
      simp only [Option.bind_eq_bind, Option.bind_some, ih, List.map_cons, List.sum_cons, add_assoc]
  refine ⟨.one s 0 (0 * s), _, _, rfl, key ms 0, key ms' 0, ?_, ?_, ?_, ?_⟩
  · simp [diff]
  · simp [lt]
  · simp [eq, eq_comm]
  · simp only [diff, Option.bind_some, advance, Option.some.injEq, Grid.one.injEq, true_and]
    constructor <;> ring

example : (do
    let b ← mk [5] [2] false
    let g ← [Move.add 4, .dec].foldlM Move.run b
    let g' ← [Move.inc].foldlM Move.run b
    diff g g') = some 2 := by decide

/-! ### The remaining case: a zero extent after a non-zero one -/

theorem next_indices : ∀ (g : Grid), LexLt g.indices g.next.indices
  | .one s p o => Or.inl (by omega)
  | .more s p o b e it => by
    rw [next]
    split
    · exact Or.inl (by omega)
    · exact Or.inr ⟨rfl, next_indices it⟩

theorem iterate_indices (g : Grid) : ∀ n, LexLt g.indices (next^[n + 1] g).indices
  | 0 => next_indices g
  | n + 1 => by
    rw [Function.iterate_succ_apply']
    exact (iterate_indices g n).trans (next_indices _)

theorem eq_indices : ∀ {a b : Grid}, eq a b = true → a.indices = b.indices
  | .one _ _ _, .one _ _ _, h => by simp [eq] at h; simp [indices, h]
  | .more _ _ _ _ _ it, .more _ _ _ _ _ it', h => by
    simp [eq] at h
    simp [indices, h.1, eq_indices h.2]
  | .one _ _ _, .more _ _ _ _ _ _, h => by simp [eq] at h
  | .more _ _ _ _ _ _, .one _ _ _, h => by simp [eq] at h

/-- With a positive first extent and a zero extent after it, the outer counter never moves. -/
theorem stuck : ∀ {ls ss : List Int} {l s : Int}, ss.length = ls.length → 0 < l → NonNeg ls → (0 : Int) ∈ ls → ∀ n,
    ∃ l' ls', ls = l' :: ls' ∧ next^[n] (at' (l :: ls) (s :: ss) (List.replicate (ls.length + 1) 0)) =
      .more s 0 0 (at' ls ss (List.replicate ls.length 0)) (at' ls ss (endIdx ls)) (next^[n] (at' ls ss (List.replicate ls.length 0)))
  | [], _, _, _, _, _, _, hz, _ => by simp at hz
  | l' :: ls, ss, l, s, hl, hpos, hn, hz, n => by
    refine ⟨l', ls, rfl, ?_⟩
    induction n with
    | zero => simp [at', List.replicate_succ, endIdx]
    | succ n ih =>
      rw [Function.iterate_succ_apply', ih, next]
      have hne : eq (next (next^[n] (at' (l' :: ls) ss (List.replicate (l' :: ls).length 0)))) (at' (l' :: ls) ss (endIdx (l' :: ls))) = false := by
        rw [← Function.iterate_succ_apply' (f := next)]
        by_contra hc
        rw [Bool.not_eq_false] at hc
        have hi := eq_indices hc
        rw [indices_at (by simp) hl (endIdx_length _)] at hi
        by_cases h0 : l' = 0
        · subst h0
          have := iterate_indices (at' (0 :: ls) ss (List.replicate (0 :: ls).length 0)) n
          rw [hi, indices_at (by simp) hl (by simp)] at this
          simp only [List.length_cons, List.replicate_succ, endIdx] at this
          exact LexLt.irrefl this
        · have hz' : (0 : Int) ∈ ls := by
            rcases List.mem_cons.mp hz with h | h
            · exact absurd h.symm h0
            · exact h
          obtain ⟨s', ss', rfl⟩ : ∃ s' ss', ss = s' :: ss' := by
            cases ss with
            | nil => simp at hl
            | cons a b => exact ⟨a, b, rfl⟩
          have hp' : 0 < l' := by have := hn l' List.mem_cons_self; omega
          obtain ⟨_, _, _, e⟩ := stuck (ls := ls) (ss := ss') (l := l') (s := s') (by simpa using hl) hp'
            (fun x hx => hn x (List.mem_cons_of_mem _ hx)) hz' (n + 1)
          rw [List.length_cons, e] at hi
          simp only [indices, endIdx, List.cons.injEq] at hi
          omega
      simp only [hne, Function.iterate_succ_apply']
      rfl

theorem rangeFor_stuck {σ : Type} (f : Int → σ → Option σ) (e : Grid) : ∀ (fuel : Nat) (g : Grid) (s : σ),
    (∀ n, eq (next^[n] g) e = false) → rangeFor f e fuel g s = none
  | 0, _, _, _ => rfl
  | fuel + 1, g, s, h => by
    rw [rangeFor, if_neg (by have := h 0; simpa using this)]
    cases hb : f (deref g) s with
    | none => rfl
    | some s' =>
      exact rangeFor_stuck f e fuel (next g) s' (fun n => by rw [← Function.iterate_succ_apply]; exact h (n + 1))

end Nda.Grid

namespace Nda.IdxMap
open Nda Nda.Spec Nda.Perm Nda.Grid

theorem makeIterator_full {m : IdxMap} (hw : WF m) (h : m.prop.strided1d = false ∨ m.rank = 1) (atEnd : Bool) :
    m.makeIterator atEnd = Grid.mk (memOrder m.so m.len) (memOrder m.so m.str) atEnd := by
  have hr : (if m.prop.strided1d then 1 else m.rank) = m.rank := by
    rcases h with h | h
    · simp [h]
    · simp [h]
  rw [makeIterator, if_pos hr]
  have hl : m.len.length = m.so.length := hw.so_len.symm
  have hs : m.str.length = m.so.length := by rw [hw.str_len, hw.so_len]
  split
  · rename_i hc
    have hso : m.so = List.range m.len.length := by
      simpa [isStrideOrderC, Perm.identity, rank] using hc
    have : ∀ l : List Int, l.length = m.len.length → memOrder m.so l = l := by
      intro l hll
      rw [hso]
      apply List.ext_getElem (by simp [memOrder, hll])
      intro u hu hu'
      simp [memOrder, hu']
    rw [this _ rfl, this _ hw.str_len]
  · rw [apply_perm_eq_memOrder hw.perm hl, apply_perm_eq_memOrder hw.perm hs]
    rfl

/-- **C16** A range-for over an array or view whose layout keeps its promises applies the body to
the elements in memory order, each exactly once, and terminates, provided that no extent is zero,
or the layout class is evenly spaced, or the slowest extent is zero.

Missing for the full claim: layouts without the even spacing promise that have a zero extent after
a non-zero one; there the claim is false (`C16_empty_never_terminates`). -/
theorem C16_iterate_partial (m : IdxMap) (hw : WF m) (hf : FlagsOK m) (h0 : m.len ≠ []) (hn : NonNeg m.len)
    (hz : (∀ l ∈ m.len, 0 < l) ∨ m.prop.strided1d = true ∨ (memOrder m.so m.len).head? = some 0) :
    ∃ L, MemEnum m.so m.len L ∧ ∃ b e, m.makeIterator false = some b ∧ m.makeIterator true = some e ∧
      ∀ (σ : Type) (body : Int → σ → Option σ) (s : σ) (fuel : Nat), L.length < fuel →
        Grid.rangeFor body e fuel b s = L.foldlM (fun s x => body (offset m x) s) s := by
  have hl : m.len.length = m.so.length := hw.so_len.symm
  have hs : m.str.length = m.so.length := by rw [hw.str_len, hw.so_len]
  refine ⟨memBox m.so m.len, memEnum_memBox hw.perm hl, ?_⟩
  have hoff : (box (memOrder m.so m.len)).map (dot (memOrder m.so m.str)) = (memBox m.so m.len).map (offset m) := by
    rw [← memBox_memOrder hw.perm, List.map_map]
    apply List.map_congr_left
    intro x hx
    have : x.length = m.so.length := by
      obtain ⟨y, _, rfl⟩ := List.mem_map.mp hx; exact unperm_length _ _
    exact dot_memOrder hw.perm hs this
  have hbl : (memBox m.so m.len).length = (box (memOrder m.so m.len)).length := by simp [memBox]
  have hne : memOrder m.so m.len ≠ [] := by
    intro h; have := congrArg List.length h; rw [memOrder_length] at this
    exact h0 (List.length_eq_zero_iff.mp (by simpa [hl] using this))
  by_cases hfull : m.prop.strided1d = false ∨ m.rank = 1
  · have hz' : (∀ l ∈ memOrder m.so m.len, 0 < l) ∨ (memOrder m.so m.len).head? = some 0 := by
      rcases hz with h | h | h
      · left; intro l hl'; exact h l ((memOrder_perm hw.perm hl).mem_iff.mp hl')
      · have hr : m.rank = 1 := hfull.resolve_left (by simp [h])
        have hr' : (memOrder m.so m.len).length = 1 := by rw [memOrder_length, ← hl]; exact hr
        obtain ⟨l, e⟩ := List.length_eq_one_iff.mp hr'
        have : 0 ≤ l := (nonNeg_memOrder hw.perm hl).mpr hn l (by rw [e]; simp)
        rw [e]
        by_cases hl0 : l = 0
        · right; simp [hl0]
        · left; intro k hk; rw [List.mem_singleton] at hk; omega
      · right; exact h
    obtain ⟨b, e, h1, h2, h3⟩ := rangeFor_grid (ss := memOrder m.so m.str) hne (by simp [memOrder_length]) hz'
    refine ⟨b, e, by rw [makeIterator_full hw hfull, h1], by rw [makeIterator_full hw hfull, h2], fun σ body s fuel hfu => ?_⟩
    rw [h3 σ body s fuel (by omega), hoff, List.foldlM_map]
  · simp only [not_or, Bool.not_eq_false] at hfull
    obtain ⟨hst, hr⟩ := hfull
    obtain ⟨c, hc⟩ := hf.strided hst
    obtain ⟨u, hu, _, hms⟩ := minStride_eq hw h0
    have hcu : m.minStride = some c := by rw [hms, fastestIs_of_evenlySpaced hc u hu]
    have hp0 := prod_nonneg hn
    have hz' : (∀ l ∈ [m.size], 0 < l) ∨ [m.size].head? = some 0 := by
      rw [size_eq]
      by_cases h : Spec.prod m.len = 0
      · right; simp [h]
      · left; intro k hk; rw [List.mem_singleton] at hk; omega
    obtain ⟨b, e, h1, h2, h3⟩ := rangeFor_grid (ls := [m.size]) (ss := [c]) (by simp) rfl hz'
    refine ⟨b, e, ?_, ?_, fun σ body s fuel hfu => ?_⟩
    · rw [makeIterator, if_neg (by rw [if_pos hst]; exact fun h => hr h.symm), hcu]; exact h1
    · rw [makeIterator, if_neg (by rw [if_pos hst]; exact fun h => hr h.symm), hcu]; exact h2
    · have hmn := (nonNeg_memOrder hw.perm hl).mpr hn
      have hsz : NonNeg [m.size] := by intro l hl'; rw [List.mem_singleton] at hl'; rw [hl', size_eq]; exact hp0
      have hb1 := box_length hsz
      have hb2 := box_length hmn
      rw [prod_memOrder hw.perm hl] at hb2
      have : Spec.prod [m.size] = Spec.prod m.len := by simp [Spec.prod, size_eq]
      rw [this] at hb1
      rw [h3 σ body s fuel (by omega)]
      have e1 : (box [m.size]).map (dot [c]) = (List.range (Spec.prod m.len).toNat).map (fun k => c * Int.ofNat k) := by
        have hb := box_lin hsz
        rw [this] at hb
        have : (box [m.size]).map (dot [c]) = ((box [m.size]).map (lin [m.size])).map (c * ·) := by
          rw [List.map_map]
          apply List.map_congr_left
          intro x hx
          rw [show [c] = (dense [m.size]).map (c * ·) by simp [dense, Spec.prod], dot_smul,
            dot_dense _ _ (mem_box.mp hx).length_eq]
          rfl
        rw [this, hb, List.map_map]; rfl
      have e2 : (memBox m.so m.len).map (offset m) = (List.range (Spec.prod m.len).toNat).map (fun k => c * Int.ofNat k) := by
        rw [← hoff]
        have hb := box_lin hmn
        rw [prod_memOrder hw.perm hl] at hb
        have : (box (memOrder m.so m.len)).map (dot (memOrder m.so m.str)) =
            ((box (memOrder m.so m.len)).map (lin (memOrder m.so m.len))).map (c * ·) := by
          rw [List.map_map]
          apply List.map_congr_left
          intro x hx
          rw [show memOrder m.so m.str = _ from hc, dot_smul, dot_dense _ _ (mem_box.mp hx).length_eq]
          rfl
        rw [this, hb, List.map_map]; rfl
      rw [e1, ← e2, List.foldlM_map]

/-- **C16** Over a layout without zero extents the `k`-th step of the iteration is at the `k`-th
index tuple in memory order: `indices()` returns that tuple (in memory order) and `*it` is its
offset. -/
theorem C16_indices (m : IdxMap) (hw : WF m) (h0 : m.len ≠ []) (hp : ∀ l ∈ m.len, 0 < l)
    (hst : m.prop.strided1d = false ∨ m.rank = 1) :
    ∃ L, MemEnum m.so m.len L ∧ ∃ b, m.makeIterator false = some b ∧
      ∀ k, ∀ hk : k < L.length, (Grid.next^[k] b).indices = memOrder m.so L[k] ∧ (Grid.next^[k] b).deref = offset m L[k] := by
  have hl : m.len.length = m.so.length := hw.so_len.symm
  have hs : m.str.length = m.so.length := by rw [hw.str_len, hw.so_len]
  have hne : memOrder m.so m.len ≠ [] := by
    intro h; have := congrArg List.length h; rw [memOrder_length] at this
    exact h0 (List.length_eq_zero_iff.mp (by simpa [hl] using this))
  have hsl : (memOrder m.so m.str).length = (memOrder m.so m.len).length := by simp [memOrder_length]
  obtain ⟨h1, _⟩ := mk_eq hne hsl
  refine ⟨memBox m.so m.len, memEnum_memBox hw.perm hl, _, by rw [makeIterator_full hw hst, h1], fun k hk => ?_⟩
  have hkb : k < (box (memOrder m.so m.len)).length := by simpa [memBox] using hk
  have hx : memOrder m.so (memBox m.so m.len)[k] = (box (memOrder m.so m.len))[k] := by
    simp only [← memBox_memOrder hw.perm (len := m.len), List.getElem_map]
  have hr := mem_box.mp (List.getElem_mem hkb)
  rw [iterate_at hne hsl (fun l h => hp l ((memOrder_perm hw.perm hl).mem_iff.mp h)) k hkb,
    indices_at hne hsl hr.length_eq, deref_at hne hsl hr.length_eq, ← hx]
  refine ⟨rfl, dot_memOrder hw.perm hs ?_⟩
  simp [memBox, unperm_length]

/-- **C16 (negative)** For a layout without the even spacing promise whose slowest extent is
positive while a later extent is zero, the loop never reaches the end iterator: whatever the body
does and however many steps are allowed. -/
theorem C16_empty_never_terminates (m : IdxMap) (hw : WF m) (hn : NonNeg m.len) (hst : m.prop.strided1d = false)
    (l : Int) (ls : List Int) (hm : memOrder m.so m.len = l :: ls) (hpos : 0 < l) (hz : (0 : Int) ∈ ls) :
    ∃ b e, m.makeIterator false = some b ∧ m.makeIterator true = some e ∧
      ∀ (σ : Type) (body : Int → σ → Option σ) (s : σ) (fuel : Nat), Grid.rangeFor body e fuel b s = none := by
  have hl : m.len.length = m.so.length := hw.so_len.symm
  have hsl : (memOrder m.so m.str).length = (memOrder m.so m.len).length := by simp [memOrder_length]
  obtain ⟨h1, h2⟩ := mk_eq (ls := memOrder m.so m.len) (by simp [hm]) hsl
  refine ⟨_, _, by rw [makeIterator_full hw (Or.inl hst), h1], by rw [makeIterator_full hw (Or.inl hst), h2], fun σ body s fuel => ?_⟩
  apply rangeFor_stuck
  intro n
  have hnn := (nonNeg_memOrder hw.perm hl).mpr hn
  rw [hm] at hsl hnn ⊢
  obtain ⟨s0, ss, hs⟩ : ∃ s0 ss, memOrder m.so m.str = s0 :: ss := by
    cases h : memOrder m.so m.str with
    | nil => rw [h] at hsl; simp at hsl
    | cons a b => exact ⟨a, b, rfl⟩
  rw [hs] at hsl ⊢
  obtain ⟨l', ls', rfl, e⟩ := stuck (l := l) (s := s0) (ls := ls) (ss := ss) (by simpa using hsl) hpos
    (fun x hx => hnn x (List.mem_cons_of_mem _ hx)) hz n
  by_contra hc
  rw [Bool.not_eq_false] at hc
  have := eq_indices hc
  rw [List.length_cons, e, indices_at (by simp) hsl (endIdx_length _)] at this
  simp only [indices, endIdx, List.cons.injEq] at this
  omega

/-- A 2 by 0 view of a larger array, without the even spacing promise. -/
example : let m : IdxMap := ⟨[2, 0], [5, 1], [0, 1], [0, 0], .smallest⟩
    WF m ∧ FlagsOK m ∧ NonNeg m.len ∧ memOrder m.so m.len = [2, 0] := by
  exact ⟨⟨by decide, rfl, rfl, rfl⟩, ⟨by intro _ u hu; cases hu; rfl, by intro h; cases h⟩, by decide, by decide⟩

/-- A rank-3 Fortran-order view with gaps: hypotheses of `C16_iterate_partial`. -/
example : let m : IdxMap := ⟨[2, 3, 2], [1, 4, 20], [2, 1, 0], [0, 0, 0], .smallest⟩
    WF m ∧ FlagsOK m ∧ m.len ≠ [] ∧ NonNeg m.len ∧ (∀ l ∈ m.len, 0 < l) := by
  exact ⟨⟨by decide, rfl, rfl, rfl⟩, ⟨by intro _ u hu; cases hu; rfl, by intro h; cases h⟩, by decide, by decide, by decide⟩
example : ∃ b e, (⟨[2, 2], [1, 4], [1, 0], [0, 0], .smallest⟩ : IdxMap).makeIterator false = some b ∧
    (⟨[2, 2], [1, 4], [1, 0], [0, 0], .smallest⟩ : IdxMap).makeIterator true = some e ∧
    Grid.rangeFor (fun o (s : List Int) => some (s ++ [o])) e 5 b [] = some [0, 1, 4, 5] := ⟨_, _, rfl, rfl, by decide⟩

end Nda.IdxMap
