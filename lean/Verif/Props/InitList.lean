import Verif.Lemmas.InitList
import Verif.Props.Arrays
/-!
# C23: nested brace lists
-/
namespace Nda.Arr
open Nda Nda.Mem Nda.Spec Spec Nda.Perm

variable {V : Type}

theorem getLastD_const {S : Type} {c : S} : ∀ {l : List S} (d : S), (∀ x ∈ l, x = c) → l ≠ [] → l.getLastD d = c
  | [], _, _, h => absurd rfl h
  | [x], _, h, _ => by simp [List.getLastD, h x (by simp)]
  | x :: y :: l, d, h, _ => by
      rw [List.getLastD_cons]
      exact getLastD_const (l := y :: l) x (fun z hz => h z (by simp [hz])) (by simp)

/-- Lists whose elements have the same shape. -/
theorem shapeList_rect {L : Type} (checks : Bool) (sh : L → Except Err (List Int)) (l : List L) (hl : l ≠ []) (s0 : List Int) (hs : ∀ x ∈ l, sh x = .ok s0) :
    shapeList checks sh l = .ok ((l.length : Int) :: s0) := by
  obtain ⟨x, l', rfl⟩ := List.exists_cons_of_ne_nil hl
  obtain ⟨mx, h1, h2⟩ := shapeList_spec checks sh (fun _ => s0) (x :: l') x rfl hs
  have hmx : mx = s0 := by
    rw [h1]
    split
    · rename_i h
      apply getLastD_const
      · intro z hz
        have := List.dropLast_subset _ hz
        simp at this; rcases this with h | ⟨_, h⟩ <;> exact h
      · intro h0
        have h3 := congrArg List.length h0
        rw [List.length_dropLast, List.length_map] at h3
        have h4 := h.2.1
        simp only [List.length_cons, List.length_nil] at h3 h4; omega
    · apply getLastD_const
      · intro z hz; simp at hz; rcases hz with h | ⟨_, h⟩ <;> exact h
      · simp
  rw [h2, hmx, if_pos (Or.inr rfl)]

/-- C23, shape of two nested lists. -/
theorem C23_shape2 (checks : Bool) (l : List (List V)) (hl : l ≠ []) (n : Nat) (h : Rect2 l n) :
    shapeList checks shape1 l = .ok [(l.length : Int), (n : Int)] :=
  shapeList_rect checks shape1 l hl [(n : Int)] (fun x hx => by rw [shape1, h x hx])

/-- C23, shape of three nested lists. -/
theorem C23_shape3 (checks : Bool) (l : List (List (List V))) (hl : l ≠ []) (n k : Nat) (hn : n ≠ 0) (h : Rect3 l n k) :
    shapeList checks (shapeList checks shape1) l = .ok [(l.length : Int), (n : Int), (k : Int)] :=
  shapeList_rect checks _ l hl [(n : Int), (k : Int)] (fun x hx => by
    have h0 : x ≠ [] := by rintro rfl; exact hn (h [] hx).1.symm
    rw [C23_shape2 checks x h0 k (h x hx).2, (h x hx).1])

/-- What the constructors leave, in terms of `AOp.build` of C22. -/
theorem init_build {triv : Bool} (dflt : V) {so : List Nat} (hso : IsPerm so) (hne : so ≠ []) {p : AProg V} {a : Shapes} (hr : Reachable triv dflt so p a)
    {d : Nat} (hd : p.free d = true) {shape : List Int} (hs : IsShape so shape) (at' : List Int → Option V) (hat : ∀ idx, InRange shape idx → (at' idx).isSome)
    (place : IdxMap → Option Nat → Heap V → Option (Heap V))
    (hpl : ∀ m data hp, place m data hp = Loops.forEach shape (fun idx hp => (at' idx).bind (fun x => placeNew triv m data idx x hp)) hp) :
    ∃ r, initWith so shape place p.prog.mem = some r ∧ p.step triv dflt so (.build d shape (fun idx _ => at' idx)) = some (p.put d r) ∧ r.1.len = shape ∧
      ∀ idx, InRange shape idx → ∃ v, at' idx = some v ∧ (p.put d r).elem d idx = some v := by
  have ha : Allowed triv so p a (.build d shape (fun idx _ => at' idx)) := ⟨hs, fun idx hi _ _ => hat idx hi⟩
  obtain ⟨p', h1, h2⟩ := C22_build_values triv dflt so hso hne p a hr d shape _ hd ha
  obtain ⟨m, g1, g2, -⟩ := layoutOf_spec hso hs
  have hb := initWith_build (triv := triv) hso hs at' place hpl p.prog.mem
  have h1' := h1
  simp only [AProg.step, hd, if_true, g1, Option.bind_eq_bind, Option.bind_some] at h1'
  cases hx : AProg.buildHandle triv m (fun idx _ => at' idx) p.prog.mem with
  | none => rw [hx] at h1'; cases h1'
  | some hm =>
      rw [hx] at h1'
      simp only [g1, Option.bind_eq_bind, Option.bind_some, hx] at hb
      have e : p' = p.put d (m, hm.1, hm.2) := by
        simp only [Option.bind_some, pure, Option.some.injEq] at h1'
        rw [← h1']; rfl
      subst e
      refine ⟨(m, hm.1, hm.2), hb, h1, g2, fun idx hi => ?_⟩
      obtain ⟨v, _, e1, e2, -⟩ := h2 idx hi
      exact ⟨v, e2, e1⟩

/-- C23, rank 1.  In any reachable program the constructor from `{x0, x1, ..}` succeeds and gives an array of as many elements as
the list has, which are those of the list; the program with the new array is one that `AOp.build` (C22) leads to. -/
theorem C23_rank1 (triv : Bool) (dflt : V) (p : AProg V) (a : Shapes) (hr : Reachable triv dflt [0] p a) (d : Nat) (hd : p.free d = true)
    (l : List V) :
    ∃ r, init1 triv [0] l p.prog.mem = .ok r ∧ r.1.len = [(l.length : Int)] ∧ p.step triv dflt [0] (.build d [(l.length : Int)] (fun idx _ => at1 l idx)) = some (p.put d r) ∧
      ∀ k : Nat, (hk : k < l.length) → (p.put d r).elem d [(k : Int)] = some l[k] := by
  obtain ⟨r, h1, h2, h3, h4⟩ := init_build dflt (by decide) (by decide) hr hd (shape := [(l.length : Int)]) ⟨rfl, by simp [NonNeg]⟩ (at1 l)
    (fun idx hi => by
      match idx, hi with
      | [k], hi =>
        have h1 : k.toNat < l.length := by have := hi.1; omega
        rw [at1, if_neg (by have := hi.1; omega), List.getElem?_eq_getElem h1]; rfl)
    (fun m data hp => place1 triv m data [] l hp) (fun m data hp => place1_eq triv m data [] l hp)
  refine ⟨r, by rw [init1, h1]; rfl, h3, h2, fun k hk => ?_⟩
  obtain ⟨v, e1, e2⟩ := h4 [(k : Int)] ⟨⟨by omega, by omega⟩, trivial⟩
  rw [at1, if_neg (by omega), Int.toNat_natCast, List.getElem?_eq_getElem hk] at e1
  rw [e2, ← e1]

/-- C23, rank 2: the same for rectangular lists of lists, with or without checks. -/
theorem C23_rank2 (triv checks : Bool) (dflt : V) (so : List Nat) (hso : IsPerm so) (hlen : so.length = 2) (p : AProg V) (a : Shapes)
    (hr : Reachable triv dflt so p a) (d : Nat) (hd : p.free d = true) (l : List (List V)) (hl : l ≠ []) (n : Nat) (h : Rect2 l n) :
    ∃ r, init2 triv checks so l p.prog.mem = .ok r ∧ r.1.len = [(l.length : Int), (n : Int)] ∧
      p.step triv dflt so (.build d [(l.length : Int), (n : Int)] (fun idx _ => at2 l idx)) = some (p.put d r) ∧
      ∀ j k : Nat, ∀ row, l[j]? = some row → (hk : k < row.length) → (p.put d r).elem d [(j : Int), (k : Int)] = some row[k] := by
  obtain ⟨r, h1, h2, h3, h4⟩ := init_build dflt hso (by rintro rfl; simp at hlen) hr hd (shape := [(l.length : Int), (n : Int)])
    ⟨by simp [hlen], by simp [NonNeg]⟩ (at2 l)
    (fun idx hi => by
      match idx, hi with
      | [j, k], hi =>
        have hj : j.toNat < l.length := by have := hi.1; omega
        have hk : k.toNat < l[j.toNat].length := by have := hi.2.1; rw [h _ (List.getElem_mem hj)]; omega
        rw [at2, if_neg (by have := hi.1; omega), List.getElem?_eq_getElem hj, Option.bind_some, at1, if_neg (by have := hi.2.1; omega),
          List.getElem?_eq_getElem hk]; rfl)
    (fun m data hp => place2 triv m data [] l hp) (fun m data hp => place2_eq triv m data [] l n h hp)
  refine ⟨r, ?_, h3, h2, fun j k row hj hk => ?_⟩
  · rw [init2, C23_shape2 checks l hl n h]
    simp only [bind, Except.bind]; rw [h1]; rfl
  · have hjl := (List.getElem?_eq_some_iff.mp hj).1
    have hrow := h row (List.mem_of_getElem? hj)
    obtain ⟨v, e1, e2⟩ := h4 [(j : Int), (k : Int)] ⟨⟨by omega, by omega⟩, ⟨by omega, by omega⟩, trivial⟩
    rw [at2, if_neg (by omega), Int.toNat_natCast, hj, Option.bind_some, at1, if_neg (by omega), Int.toNat_natCast, List.getElem?_eq_getElem hk] at e1
    rw [e2, ← e1]

/-- C23, rank 3. -/
theorem C23_rank3 (triv checks : Bool) (dflt : V) (so : List Nat) (hso : IsPerm so) (hlen : so.length = 3) (p : AProg V) (a : Shapes)
    (hr : Reachable triv dflt so p a) (d : Nat) (hd : p.free d = true) (l : List (List (List V))) (hl : l ≠ []) (n q : Nat) (hn : n ≠ 0) (h : Rect3 l n q) :
    ∃ r, init3 triv checks so l p.prog.mem = .ok r ∧ r.1.len = [(l.length : Int), (n : Int), (q : Int)] ∧
      p.step triv dflt so (.build d [(l.length : Int), (n : Int), (q : Int)] (fun idx _ => at3 l idx)) = some (p.put d r) ∧
      ∀ i j k : Nat, ∀ rows row, l[i]? = some rows → rows[j]? = some row → (hk : k < row.length) →
        (p.put d r).elem d [(i : Int), (j : Int), (k : Int)] = some row[k] := by
  obtain ⟨r, h1, h2, h3, h4⟩ := init_build dflt hso (by rintro rfl; simp at hlen) hr hd (shape := [(l.length : Int), (n : Int), (q : Int)])
    ⟨by simp [hlen], by simp [NonNeg]⟩ (at3 l)
    (fun idx hi => by
      match idx, hi with
      | [i, j, k], hi =>
        have hi' : i.toNat < l.length := by have := hi.1; omega
        have hr := h _ (List.getElem_mem hi')
        have hj : j.toNat < l[i.toNat].length := by have := hi.2.1; rw [hr.1]; omega
        have hk : k.toNat < l[i.toNat][j.toNat].length := by have := hi.2.2.1; rw [hr.2 _ (List.getElem_mem hj)]; omega
        rw [at3, if_neg (by have := hi.1; omega), List.getElem?_eq_getElem hi', Option.bind_some, at2, if_neg (by have := hi.2.1; omega),
          List.getElem?_eq_getElem hj, Option.bind_some, at1, if_neg (by have := hi.2.2.1; omega), List.getElem?_eq_getElem hk]; rfl)
    (fun m data hp => place3 triv m data l hp) (fun m data hp => place3_eq triv m data l n q (fun r hr => (h r hr).1) (fun r hr => (h r hr).2) hp)
  refine ⟨r, ?_, h3, h2, fun i j k rows row hi hj hk => ?_⟩
  · rw [init3, C23_shape3 checks l hl n q hn h]
    simp only [bind, Except.bind]; rw [h1]; rfl
  · have hil := (List.getElem?_eq_some_iff.mp hi).1
    have hjl := (List.getElem?_eq_some_iff.mp hj).1
    have hrows := h rows (List.mem_of_getElem? hi)
    have hrow := hrows.2 row (List.mem_of_getElem? hj)
    obtain ⟨v, e1, e2⟩ := h4 [(i : Int), (j : Int), (k : Int)] ⟨⟨by omega, by omega⟩, ⟨by omega, by rw [← hrows.1]; omega⟩, ⟨by omega, by omega⟩, trivial⟩
    rw [at3, if_neg (by omega), Int.toNat_natCast, hi, Option.bind_some, at2, if_neg (by omega), Int.toNat_natCast, hj, Option.bind_some, at1, if_neg (by omega),
      Int.toNat_natCast, List.getElem?_eq_getElem hk] at e1
    rw [e2, ← e1]

/-- A reachable program, and lists of the kinds above. -/
example : Reachable true 0 [1, 0] (AProg.start 2 : AProg Nat) [none, none] := ⟨2, [], trivial, rfl, rfl⟩

example : (init2 true true [1, 0] [[1, 2, 3], [4, 5, 6]] (AProg.start 2 : AProg Nat).prog.mem).toOption.map
    (fun r => (r.1.len, r.2.1, r.2.2.hp)) = some ([2, 3], .heap (some 0) 6 none, [⟨[some 1, some 4, some 2, some 5, some 3, some 6], false⟩]) := by decide +kernel

/-- C23, checks enabled: exactly which lists are rejected.  Only the shape of the last element, and for lists with an
odd number of elements also that of the one before it, is compared with the shape of the first element.
Partial: so a ragged list is rejected if it has at most three elements, or if the first and last elements differ, and
accepted otherwise (`C23_ragged_witness`). -/
theorem C23_reject_partial {L : Type} (sh : L → Except Err (List Int)) (s : L → List Int) (x : L) (l : List L) (hs : ∀ y ∈ x :: l, sh y = .ok (s y)) :
    (shapeList true sh (x :: l) = .error .rejected ↔
      ¬ ((x :: l).map s).getLast? = some (s x) ∨ ((x :: l).length % 2 = 1 ∧ 3 ≤ (x :: l).length ∧ ¬ ((x :: l).map s).dropLast.getLast? = some (s x))) ∧
    ((x :: l).length ≤ 3 → (∃ y ∈ l, s y ≠ s x) → shapeList true sh (x :: l) = .error .rejected) := by
  obtain ⟨mx, h1, h2⟩ := shapeList_spec true sh s (x :: l) x rfl hs
  have hlast : ((x :: l).map s).getLast? = some (((x :: l).map s).getLastD []) := by
    rw [List.getLastD_eq_getLast?, List.map_cons, List.getLast?_cons]; rfl
  have key : (shapeList true sh (x :: l) = .error .rejected ↔
      ¬ ((x :: l).map s).getLast? = some (s x) ∨ ((x :: l).length % 2 = 1 ∧ 3 ≤ (x :: l).length ∧ ¬ ((x :: l).map s).dropLast.getLast? = some (s x))) := by
    have hr : shapeList true sh (x :: l) = .error .rejected ↔ mx ≠ s x := by
      rw [h2]
      by_cases e : mx = s x
      · rw [if_pos (Or.inr e)]; simp [e]
      · rw [if_neg (by simp [e])]; simp [e]
    rw [hr]
    by_cases hc : (x :: l).length % 2 = 1 ∧ 3 ≤ (x :: l).length ∧ ((x :: l).map s).getLast? = some (s x)
    · rw [if_pos hc] at h1
      have hdl : ((x :: l).map s).dropLast.getLast? = some (((x :: l).map s).dropLast.getLastD []) := by
        have : ((x :: l).map s).dropLast ≠ [] := by
          intro h0
          have h3 := congrArg List.length h0
          rw [List.length_dropLast, List.length_map] at h3
          have h4 := hc.2.1
          simp only [List.length_cons, List.length_nil] at h3 h4; omega
        obtain ⟨c, l', e⟩ := List.exists_cons_of_ne_nil this
        rw [e, List.getLastD_eq_getLast?, List.getLast?_cons]; rfl
      rw [hdl, ← h1]
      constructor
      · intro h; exact Or.inr ⟨hc.1, hc.2.1, fun e => h (Option.some.inj e)⟩
      · rintro (h | ⟨-, -, h⟩)
        · exact absurd hc.2.2 h
        · exact fun e => h (congrArg some e)
    · rw [if_neg hc] at h1
      rw [hlast, ← h1]
      constructor
      · intro h; exact Or.inl (fun e => h (Option.some.inj e))
      · rintro (h | ⟨ha, hb, -⟩)
        · exact fun e => h (congrArg some e)
        · intro e; exact hc ⟨ha, hb, by rw [hlast, ← h1, e]⟩
  refine ⟨key, fun hlen ⟨y, hy, hne⟩ => key.mpr ?_⟩
  match l, hy, hlen with
  | [z], hy, _ =>
      left
      simp at hy; subst hy
      simpa using hne
  | [z, w], hy, _ =>
      by_cases hw : s w = s x
      · right
        refine ⟨by simp, by simp, ?_⟩
        simp at hy
        rcases hy with rfl | rfl
        · simpa using hne
        · exact absurd hw hne
      · left; simpa using hw

example : shapeList true shape1 [[1, 2], [3], [5, 6]] = .error .rejected := by decide +kernel

/-- `{{1}, {2, 3}, {4, 5}, {6}}` is accepted with checks enabled, as a 4x1 array: elements are constructed over others and (with longer
inner lists) beyond the storage; `{{1, 2}, {3}, {4}, {5, 6}}` is accepted as a 4x2 array with elements never constructed. -/
theorem C23_ragged_witness :
    shapeList true shape1 [[1], [2, 3], [4, 5], [6]] = .ok [4, 1] ∧
    ((init2 true true [0, 1] [[1], [2, 3], [4, 5], [6]] (AProg.start 1 : AProg Nat).prog.mem).toOption.map (fun r => r.2.2.hp)) =
      some [⟨[some 1, some 2, some 4, some 6], false⟩] ∧
    init2 true true [0, 1] [[1], [2, 3], [4, 5, 6, 7], [6]] (AProg.start 1 : AProg Nat).prog.mem = .error .ub ∧
    ((init2 true true [0, 1] [[1, 2], [3], [4], [5, 6]] (AProg.start 1 : AProg Nat).prog.mem).toOption.map (fun r => r.2.2.hp)) =
      some [⟨[some 1, some 2, some 3, none, some 4, none, some 5, some 6], false⟩] := by
  decide +kernel

/-- An empty list of lists has no shape: the result of `std::minmax_element` is the end of the list, and dereferenced. -/
theorem C23_empty_witness : shapeList true (shape1 (V := Nat)) [] = .error .ub ∧
    init3 true true [0, 1, 2] [[], []] (AProg.start 1 : AProg Nat).prog.mem = .error .ub := by
  decide +kernel

end Nda.Arr
