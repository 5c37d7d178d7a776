import Verif.Props.Clef
import Verif.Lemmas.AutoAssign
import Verif.Lemmas.Check
/-!
# C49: assigning a lazy expression of the indices; sums over domains
-/
namespace Nda.Clef
open Nda Nda.Spec Nda.Clef.Spec Nda.Assign

variable {V L : Type}

theorem writes_spec {ws : List (Int × V)} {P : Type} {slot : P → Int → Prop} {value : P → Option V} {mem : List V} (hws : ∀ k v, (k, v) ∈ ws ↔ ∃ p, slot p k ∧ value p = some v)
    (hin : ∀ p k, slot p k → (0 ≤ k ∧ k < mem.length) ∧ ∃ v, value p = some v) (hone : ∀ p q k, slot p k → slot q k → p = q) :
    ∃ mem', writeAll ws mem = some mem' ∧ mem'.length = mem.length ∧ (∀ p k, slot p k → val mem' k = value p) ∧ ∀ k, (¬ ∃ p, slot p k) → val mem' k = val mem k := by
  obtain ⟨mem', e, l, f, g⟩ := writeAll_spec ws mem (fun w hw => by
    obtain ⟨p, hs, -⟩ := (hws w.1 w.2).mp hw
    exact (hin p w.1 hs).1)
  refine ⟨mem', e, l, ?_, ?_⟩
  · intro p k hs
    obtain ⟨-, v, hv⟩ := hin p k hs
    rw [hv]
    refine g k v ((hws k v).mpr ⟨p, hs, hv⟩) ?_
    rintro ⟨k', v'⟩ hw rfl
    obtain ⟨q, hq, hv'⟩ := (hws _ _).mp hw
    rw [hone q p _ hq hs] at hv'
    exact Option.some.inj (hv'.symm.trans hv)
  · intro k hk
    refine f k ?_
    rintro ⟨k', v⟩ hw rfl
    obtain ⟨p, hp, -⟩ := (hws _ _).mp hw
    exact hk ⟨p, hp⟩

/-- `A(i...)(j...)... << rhs`: every element of the array (or of the arrays inside arrays, some of which may be empty) becomes the value of the expression with its indices for the placeholders; nothing else is written.
Every sum in the expression must depend on an index of a sum around it, or on all the placeholders of one of the levels and on none of a level further in (`Staged`).  The operators of the expression must not read the
elements assigned to, and the expression must have values: at the elements, and for some indices inside each of the inner arrays, for what is evaluated before the inner indices are known. -/
theorem C49_array (I : List V → Interp V L) (ofIdx : Int → V) (T : Target) (iss : List (List Nat)) (rhs : Tm V L) (mem : List V) (hfit : Fit T iss) (h0 : ∀ is ∈ iss, is ≠ []) (hnd : iss.flatten.Nodup)
    (hI : ∀ mem2, SameOutside (fun k => ∃ p, Slot T p k) mem mem2 → I mem2 = I mem) (hrhs : Staged iss [] rhs) (hc : ∃ b, decay (I mem) rhs = .ok b)
    (hin : ∀ p k, Slot T p k → 0 ≤ k ∧ k < mem.length) (hone : ∀ p q k, Slot T p k → Slot T q k → p = q)
    (hv : ∀ p, Reach T p → ∃ env v, den (I mem) true (withPairs (I mem) env (pairsAt L ofIdx iss p)) rhs = some v) :
    ∃ mem', shiftAssign I ofIdx T iss rhs mem = some mem' ∧ mem'.length = mem.length ∧
      (∀ p k, Slot T p k → ∃ v, den (I mem) true (withPairs (I mem) (fun _ => none) (pairsAt L ofIdx iss p)) rhs = some v ∧ val mem' k = some v) ∧ ∀ k, (¬ ∃ p, Slot T p k) → val mem' k = val mem k := by
  obtain ⟨b, hb⟩ := hc
  obtain ⟨hdec, -, -, hfv, -⟩ := decay_spec hb
  have hne : iss ≠ [] := by rintro rfl; cases T <;> exact hfit
  have hsub : ∀ is ∈ iss, is.Nodup := fun is h => (List.sublist_flatten_of_mem h).nodup hnd
  obtain ⟨hdf, ws, hws, hmem⟩ := autoAssign_writes (ofIdx := ofIdx) hI T iss b hfit h0 hnd (decay_staged hb _ _ hrhs) (fun p k hs => ⟨⟨p, hs⟩, hin p k hs⟩) (fun p hp => by simp only [hdec]; exact hv p hp)
  obtain ⟨mem', e, l, f, g⟩ := writes_spec (mem := mem) hmem (fun p k hs => ⟨hin p k hs, hdf p k hs⟩) hone
  refine ⟨mem', ?_, l, fun p k hs => ?_, g⟩
  · rw [shiftAssign, chainFunction_eq hb iss hne (fun is h => ⟨h0 is h, hsub is h⟩)]
    simp only [bind, Option.bind]
    rw [hws mem ⟨rfl, fun _ _ => rfl⟩, e]
  · obtain ⟨v, hv⟩ := hdf p k hs
    exact ⟨v, by rw [← hdec]; exact hv, by rw [f p k hs]; exact hv⟩

/-- `v[i][j]... << rhs` for a `std::vector` (of vectors ...). -/
theorem C49_vector (I : List V → Interp V L) (ofIdx : Int → V) (n : Nat) (sub : Int → VTarget) (is : List Nat) (rhs : Tm V L) (mem : List V) (hfit : VFit (.vec n sub) is) (hnd : is.Nodup)
    (hI : ∀ mem2, SameOutside (fun k => ∃ p, VSlot (.vec n sub) p k) mem mem2 → I mem2 = I mem) (hrhs : Staged (is.map ([·])) [] rhs) (hc : ∃ b, decay (I mem) rhs = .ok b)
    (hin : ∀ p k, VSlot (.vec n sub) p k → 0 ≤ k ∧ k < mem.length) (hone : ∀ p q k, VSlot (.vec n sub) p k → VSlot (.vec n sub) q k → p = q)
    (hv : ∀ p, VReach (.vec n sub) p → ∃ env v, den (I mem) true (withPairs (I mem) env (pairsAt L ofIdx (is.map ([·])) (p.map ([·])))) rhs = some v) :
    ∃ mem', shiftAssignSubscript I ofIdx (.vec n sub) is rhs mem = some mem' ∧ mem'.length = mem.length ∧
      (∀ p k, VSlot (.vec n sub) p k → ∃ v, den (I mem) true (withPairs (I mem) (fun _ => none) (pairsAt L ofIdx (is.map ([·])) (p.map ([·])))) rhs = some v ∧ val mem' k = some v) ∧
      ∀ k, (¬ ∃ p, VSlot (.vec n sub) p k) → val mem' k = val mem k := by
  obtain ⟨b, hb⟩ := hc
  obtain ⟨hdec, -, -, hfv, -⟩ := decay_spec hb
  have hne : is ≠ [] := by rintro rfl; exact hfit
  obtain ⟨hdf, ws, hws, hmem⟩ := autoAssignSubscript_writes (ofIdx := ofIdx) hI (.vec n sub) n sub rfl is b hfit hnd (decay_staged hb _ _ hrhs) (fun p k hs => ⟨⟨p, hs⟩, hin p k hs⟩) (fun p hp => by simp only [hdec]; exact hv p hp)
  obtain ⟨mem', e, l, f, g⟩ := writes_spec (mem := mem) hmem (fun p k hs => ⟨hin p k hs, hdf p k hs⟩) hone
  refine ⟨mem', ?_, l, fun p k hs => ?_, g⟩
  · rw [shiftAssignSubscript, chainFunction_eq hb (is.map ([·])) (by simpa using hne) (fun js h => by
      obtain ⟨j, -, rfl⟩ := List.mem_map.mp h
      simp)]
    simp only [bind, Option.bind]
    rw [hws mem ⟨rfl, fun _ _ => rfl⟩, e]
  · obtain ⟨v, hv⟩ := hdf p k hs
    exact ⟨v, by rw [← hdec]; exact hv, by rw [f p k hs]; exact hv⟩

/-! ### Sums -/

/-- `sum(t, n0 = d0, n1 = d1, ...)` of an expression in the indices only gives a value exactly when the nested sum over all points of the domains has it. -/
theorem C49_sum (I : Interp V L) (t : Tm V L) (l : List (Nat × Tm V L)) (v : V) (env : Env V) (h0 : l ≠ []) (hp : Plain t) (hnd : (l.map (·.1)).Nodup) (hl : ∀ x ∈ l, x.1 < 64 ∧ IsLeaf x.2)
    (hf : ∀ m ∈ fv t, m ∈ l.map (·.1)) : Gives I (sumAll I t l) v ↔ den I true env (chain t l) = some v := by
  obtain ⟨hb, ha⟩ := plain_bv hp
  constructor
  · rintro ⟨t', e, r⟩
    rw [← sumAll_sound I true l t t' e ha hnd (fun x hx => ⟨by rw [hb]; simp, (hl x hx).2⟩) env]
    exact den_read r
  · intro h
    exact ⟨_, sumAll_value I l t env v h0 (waits_of_plain hp) hnd (fun x hx => ⟨(hl x hx).1, by rw [hb]; simp, (hl x hx).2⟩) hf h, rfl⟩

/-- A sum over one domain: the terms at all points of the domain, added up from the left. -/
theorem C49_sum_one (I : Interp V L) (t d : Tm V L) (n : Nat) (dv v : V) (pts : List V) (hp : Plain t) (h64 : n < 64) (hd : read I d = .ok dv) (hdl : IsLeaf d) (hpts : I.points dv = some pts) (hf : ∀ m ∈ fv t, m = n) :
    Gives I (sum1 I t n d) v ↔ ∃ x xs vs, pts = x :: xs ∧ List.Forall₂ (fun p w => den I true (put (fun _ => none) n p) t = some w) pts vs ∧ ∃ w ws, vs = w :: ws ∧ ws.foldlM (fun s y => I.op .plus [s, y]) w = some v := by
  have h := C49_sum I t [(n, d)] v (fun _ => none) (by simp) hp (by simp) (by simpa using ⟨h64, hdl⟩) (by simpa using hf)
  have e : sumAll I t [(n, d)] = sum1 I t n d := by
    simp only [sumAll, bind, Except.bind]
    cases sum1 I t n d <;> rfl
  rw [e] at h
  rw [h, chain, chain, den, den_read hd, Option.bind_some, hpts, Option.bind_some]
  constructor
  · intro hv
    cases hm : pts.mapM (fun p => den I true (put (fun _ => none) n p) t) with
    | none => rw [hm] at hv; cases hv
    | some vs =>
      rw [hm, Option.bind_some] at hv
      have hall := mapM_some_forall₂ hm
      cases hall with
      | nil => simp [total] at hv
      | @cons p w ps ws h1 h2 => exact ⟨p, ps, w :: ws, rfl, .cons h1 h2, w, ws, rfl, hv⟩
  · rintro ⟨x, xs, vs, -, hall, w, ws, rfl, hv⟩
    rw [mapM_some hall, Option.bind_some]
    exact hv

/-- An empty domain is an error. -/
theorem C49_empty (I : Interp V L) (t d : Tm V L) (n : Nat) (dv : V) (hp : Plain t) (hc : ∃ b, decay I t = .ok b) (h64 : n < 64) (hd : read I d = .ok dv) (hdl : IsLeaf d) (hpts : I.points dv = some []) (hf : ∀ m ∈ fv t, m = n) :
    sum1 I t n d = .error .emptyDomain := by
  obtain ⟨b, eb⟩ := hc
  obtain ⟨-, -, -, hfvb, -⟩ := decay_spec eb
  have hfb : ∀ m ∈ fv b, m = n := by rw [hfvb]; exact hf
  have hsh : shifts b = true := ready_shifts (plain_ready (P := [n]) (B := []) (decay_plain eb hp) (by simpa using hfb)) (by simpa using h64)
  have hfl : isLazy (.fn b [n] : Tm V L) = false := by
    rw [isLazy, phSet, (filter_zero_iff b n (fun m hm => by rw [hfb m hm]; exact h64)).mpr hfb]; rfl
  simp only [sum1, bind, Except.bind, eb]
  rw [sumNode, hsh, hfl, leaf_isLazy hdl]
  simp only [h64, decide_true, Bool.and_self, Bool.not_true, Bool.false_eq_true, if_false, Bool.or_self, bind, Except.bind, hd, sumLoop, hpts]

/-! ### Cases -/

/-- `A(i_, j_) << 10 * i_ + j_` on a 2 by 2 block inside a 2 by 3 Fortran-order matrix. -/
def block : View := ⟨0, ⟨[2, 2], [1, 2], [1, 0], [0, 0], .smallest⟩⟩

def rowCol : Tm Int Nat := .node .plus [.node .multiplies [.val 10, .ph 0], .ph 1]

example : ∃ mem', shiftAssign (fun _ => ints) id (.view block) [[0, 1]] rowCol [7, 7, 7, 7, 7, 7] = some mem' ∧ val mem' (addr block [1, 1]) = some 11 ∧ val mem' 5 = some 7 := by
  have hg : Good block 6 := good_of (by decide) rfl rfl rfl (by decide) 1 (by decide) (by decide) (by decide)
  have h1 : OneToOne block := oneToOne_of (by decide +kernel)
  obtain ⟨mem', e, -, hv, hf⟩ := C49_array (fun _ => ints) id (.view block) [[0, 1]] rowCol [7, 7, 7, 7, 7, 7] ⟨by simp, rfl, hg.wf, hg.flags⟩ (by simp) (by decide) (fun _ _ => rfl)
    (plain_staged (by simp [Plain, Plains, rowCol]) (by simp [fv, fvs, rowCol])) ⟨_, rfl⟩
    (by
      intro p k hs
      match p, hs with
      | [idx], hs => rw [hs.2]; exact hg.fits idx hs.1)
    (by
      intro p q k hs hq
      match p, hs, q, hq with
      | [idx], hs, [jdx], hq => rw [h1 idx jdx hs.1 hq.1 (hs.2.symm.trans hq.2)])
    (by
      intro p hs
      match p, hs with
      | [idx], hs =>
        match idx, hs with
        | [i, j], _ => exact ⟨fun _ => none, 10 * i + j, by simp [den, dens, rowCol, pairsAt, withPairs, argVal, apply, ints]⟩)
  refine ⟨mem', e, ?_, ?_⟩
  · obtain ⟨x, hx, e⟩ := hv [[1, 1]] _ ⟨by simp [block, InRange], rfl⟩
    rw [e, ← hx]; decide +kernel
  · rw [hf 5]
    · decide +kernel
    · rintro ⟨p, hs⟩
      match p, hs with
      | [idx], hs =>
        obtain ⟨hr, hk⟩ := hs
        match idx, hr with
        | [i, j], hr =>
          simp [block, InRange] at hr
          simp [addr, block, dot] at hk
          omega

example : shiftAssign (fun _ => ints) id (.view block) [[0, 1]] rowCol [7, 7, 7, 7, 7, 7] = some [0, 10, 1, 11, 7, 7] := by decide +kernel

/-- `A(i_)(j_) << 10 * i_ + j_`: an array of two arrays, of sizes 1 and 2. -/
example : shiftAssign (fun _ => ints) id (.arrs [2] (fun i => if i = [0] then .view ⟨3, ⟨[1], [1], [0], [0], .contiguous⟩⟩ else .view ⟨0, ⟨[2], [1], [0], [0], .contiguous⟩⟩)) [[0], [1]] rowCol [7, 7, 7, 7] =
    some [10, 11, 7, 0] := by decide +kernel

/-- Two arrays, the first one empty. -/
def withEmpty : Target := .arrs [2] (fun i => if i = [0] then .view ⟨0, ⟨[0], [1], [0], [0], .contiguous⟩⟩ else .view ⟨1, ⟨[2], [1], [0], [0], .contiguous⟩⟩)

/-- `sum(i_ * x_, x_ = 3) + sum(i_ + j_ * y_, y_ = 2)`: the first sum is done when `i_` is known, the second waits for `j_`. -/
def twoSums : Tm Int Nat := .node .plus [.sum (.node .multiplies [.ph 0, .ph 2]) 2 (.val 3), .sum (.node .plus [.ph 0, .node .multiplies [.ph 1, .ph 3]]) 3 (.val 2)]

theorem twoSums_staged : Staged [[0], [1]] [] twoSums := by
  simp only [twoSums, Staged, Stageds, fv, fvs]
  refine ⟨⟨by simp, by simp, by simp, trivial, Or.inr ⟨[], [0], [[1]], rfl, ?_⟩, by simp, by simp, trivial⟩, ⟨by simp, by simp, by simp, trivial, Or.inr ⟨[[0]], [1], [], rfl, ?_⟩, by simp, by simp, trivial⟩, trivial⟩
  · intro m; simp; omega
  · intro m; simp; omega

theorem twoSums_den (env : Env Int) (i j : Int) (hi : env 0 = some i) (hj : env 1 = some j) : den ints true env twoSums = some (5 * i + j) := by
  simp [twoSums, den, dens, apply, ints, put, total, List.range_succ, hi, hj]
  omega

/-- `A(i_)(j_) << twoSums`, where one of the inner arrays is empty. -/
example : ∃ mem', shiftAssign (fun _ => ints) id withEmpty [[0], [1]] twoSums [7, 7, 7] = some mem' ∧ val mem' 2 = some 6 ∧ val mem' 0 = some 7 := by
  have hslot : ∀ p k, Slot withEmpty p k ↔ (p = [[1], [0]] ∧ k = 1) ∨ (p = [[1], [1]] ∧ k = 2) := by
    intro p k
    unfold withEmpty
    constructor
    · intro hs
      match p, hs with
      | [idx], hs => 
        simp only [Slot] at hs
        split at hs <;> exact hs.2.elim
      | [idx, jdx], hs =>
        obtain ⟨h1, h2⟩ := hs
        match idx, h1 with
        | [i], h1 =>
          simp [InRange] at h1
          dsimp only at h2
          by_cases hne : i = 0
          · subst hne
            rw [if_pos rfl] at h2
            obtain ⟨h2, -⟩ := h2
            match jdx, h2 with
            | [j], h2 => simp [InRange] at h2; omega
          · rw [if_neg (by simpa using hne)] at h2
            obtain ⟨h2, h3⟩ := h2
            match jdx, h2 with
            | [j], h2 =>
              simp [InRange] at h2
              simp [addr, dot] at h3
              obtain rfl : i = 1 := by omega
              simp
              omega
      | idx :: jdx :: kdx :: q, hs =>
        simp only [Slot] at hs
        split at hs <;> exact hs.2.elim
    · rintro (⟨rfl, rfl⟩ | ⟨rfl, rfl⟩) <;> simp [Slot, InRange, addr, dot]
  obtain ⟨mem', e, -, hv, hf⟩ := C49_array (fun _ => ints) id withEmpty [[0], [1]] twoSums [7, 7, 7]
    ⟨by simp, rfl, fun idx _ => by 
      dsimp only
      split
      · have hg : Good ⟨0, ⟨[0], [1], [0], [0], .contiguous⟩⟩ 3 := good_of (by decide) rfl rfl rfl (by decide) 1 (by decide) (by decide) (by decide)
        exact ⟨by simp, rfl, hg.wf, hg.flags⟩
      · have hg : Good ⟨1, ⟨[2], [1], [0], [0], .contiguous⟩⟩ 3 := good_of (by decide) rfl rfl rfl (by decide) 1 (by decide) (by decide) (by decide)
        exact ⟨by simp, rfl, hg.wf, hg.flags⟩⟩ (by simp) (by decide) (fun _ _ => rfl) twoSums_staged ⟨_, rfl⟩
    (by intro p k hs; rcases (hslot p k).mp hs with ⟨-, rfl⟩ | ⟨-, rfl⟩ <;> decide)
    (by intro p q k hs hq; rcases (hslot p k).mp hs with ⟨rfl, rfl⟩ | ⟨rfl, rfl⟩ <;> rcases (hslot q _).mp hq with ⟨rfl, h⟩ | ⟨rfl, h⟩ <;> first | rfl | exact absurd h (by decide))
    (by
      intro p hp
      unfold withEmpty at hp
      match p, hp with
      | [i] :: [], hp => exact ⟨fun _ => some 0, _, twoSums_den _ i 0 (by simp [pairsAt, withPairs, argVal]) (by simp [pairsAt, withPairs])⟩
      | [i] :: jdx :: q, hp =>
        obtain ⟨-, h | h⟩ := hp
        · cases h
        obtain ⟨j, rfl⟩ : ∃ j, jdx = [j] := by
          dsimp only at h
          split at h
          · match q, h with
            | [], h => match jdx, h with
              | [j], _ => exact ⟨j, rfl⟩
          · match q, h with
            | [], h => match jdx, h with
              | [j], _ => exact ⟨j, rfl⟩
        exact ⟨fun _ => none, _, twoSums_den _ i j (by simp [pairsAt, withPairs, argVal]) (by simp [pairsAt, withPairs, argVal])⟩)
  refine ⟨mem', e, ?_, ?_⟩
  · obtain ⟨x, hx, e⟩ := hv [[1], [1]] 2 ((hslot _ _).mpr (Or.inr ⟨rfl, rfl⟩))
    rw [e, ← hx]; decide +kernel
  · rw [hf 0 (by rintro ⟨p, hs⟩; rcases (hslot p 0).mp hs with ⟨-, h⟩ | ⟨-, h⟩ <;> exact absurd h (by decide))]
    decide +kernel

example : shiftAssign (fun _ => ints) id withEmpty [[0], [1]] twoSums [7, 7, 7] = some [7, 5, 6] := by decide +kernel

/-- `v[i_][j_] << 10 * i_ + j_`. -/
example : shiftAssignSubscript (fun _ => ints) id (.vec 2 (fun i => .vec 2 (fun j => .elem (2 * i + j)))) [0, 1] rowCol [7, 7, 7, 7] = some [0, 1, 10, 11] := by decide +kernel

/-- `sum(10 * x_ + y_, x_ = 3, y_ = 2)`. -/
example : result ints (sumAll ints rowCol [(0, .val 3), (1, .val 2)]) = .ok 63 ∧ den ints true (fun _ => none) (chain rowCol [(0, .val 3), (1, .val 2)]) = some 63 := by decide +kernel

example : sum1 ints rowCol 0 (.val 0) ≠ .error .emptyDomain ∧ sum1 ints (.ph 0) 0 (.val 0) = .error .emptyDomain := by
  constructor
  · intro h; cases h
  · rfl

/-! ### Disagreements -/

/-- The test that the placeholders on the left are different compares with the first only: `A(i_, j_, j_, k_, l_) << j_` is accepted, and sets the element (0,0,0,0,1) to 1. -/
theorem C49_all_different_witness : shiftAssign (fun _ => ints) id (.view ⟨0, ⟨[1, 1, 1, 1, 2], [2, 2, 2, 2, 1], [0, 1, 2, 3, 4], [0, 0, 0, 0, 0], .contiguous⟩⟩) [[0, 1, 1, 2, 3]] (.ph 1) [7, 7] = some [0, 1] := by
  decide +kernel

/-- `A(i_, j_) << sum(i_ * x_, x_ = 3)` is rejected: the sum does not depend on `j_`, stays lazy, and cannot be assigned to an element. -/
theorem C49_sum_witness : shiftAssign (fun _ => ints) id (.view block) [[0, 1]] (.sum (.node .multiplies [.ph 0, .ph 2]) 2 (.val 3)) [7, 7, 7, 7, 7, 7] = none ∧
    ∀ i j : Int, den ints false (withPairs ints (fun _ => none) [(0, .val i), (1, .val j)]) (.sum (.node .multiplies [.ph 0, .ph 2]) 2 (.val 3)) = some (3 * i) := by
  constructor
  · decide +kernel
  · intro i j
    simp [den, dens, withPairs, argVal, apply, ints, put, total, List.range_succ]
    omega

end Nda.Clef
