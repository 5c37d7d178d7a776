import Verif.Props.ClefLazy
/-!
# C48: conditionals with lazy branches
-/
namespace Nda.Clef
open Nda.Clef.Spec

variable {V L : Type}

theorem sum_type {K : Kinds V L} {b d : Tm V L} {n : Nat} {T : ETy} : typeOf K (.sum b n d) = some T ↔ ∃ x y, typeOf K b = some x ∧ typeOf K d = some y ∧ T = .sum x n y := by
  rw [typeOf, Option.bind_eq_some_iff]
  constructor
  · rintro ⟨x, h1, h2⟩
    rw [Option.map_eq_some_iff] at h2
    obtain ⟨y, h2, h3⟩ := h2
    exact ⟨x, y, h1, h2, h3.symm⟩
  · rintro ⟨x, y, h1, h2, rfl⟩
    exact ⟨x, h1, by rw [h2]; rfl⟩

theorem node_type {K : Kinds V L} {g : Tag} {cs : List (Tm V L)} {T : ETy} : typeOf K (.node g cs) = some T ↔ ∃ x, typesOf K cs = some x ∧ T = .node g x := by
  rw [typeOf, Option.map_eq_some_iff]
  exact exists_congr fun x => and_congr_right fun _ => eq_comm

theorem fn_type {K : Kinds V L} {b : Tm V L} {is : List Nat} {T : ETy} : typeOf K (.fn b is) = some T ↔ ∃ x, typeOf K b = some x ∧ T = .func x is := by
  rw [typeOf, Option.map_eq_some_iff]
  exact exists_congr fun x => and_congr_right fun _ => eq_comm

theorem cons_type {K : Kinds V L} {c : Tm V L} {cs : List (Tm V L)} {T : List ETy} : typesOf K (c :: cs) = some T ↔ ∃ x y, typeOf K c = some x ∧ typesOf K cs = some y ∧ T = x :: y := by
  rw [typesOf, Option.bind_eq_some_iff]
  constructor
  · rintro ⟨x, h1, h2⟩
    rw [Option.map_eq_some_iff] at h2
    obtain ⟨y, h2, h3⟩ := h2
    exact ⟨x, y, h1, h2, h3.symm⟩
  · rintro ⟨x, y, h1, h2, rfl⟩
    exact ⟨x, h1, by rw [h2]; rfl⟩

theorem val_type {K : Kinds V L} {v : V} {T : ETy} : typeOf K (.val v) = some T ↔ T = .value (K.kind v) := by rw [typeOf, Option.some.injEq, eq_comm]
theorem bor_type {K : Kinds V L} {v : V} {T : ETy} : typeOf K (.bor v) = some T ↔ T = .reference (K.kind v) := by rw [typeOf, Option.some.injEq, eq_comm]
theorem ref_type {K : Kinds V L} {l : L} {T : ETy} : typeOf K (.ref l) = some T ↔ T = .reference (K.kindOf l) := by rw [typeOf, Option.some.injEq, eq_comm]
theorem ph_type {K : Kinds V L} {n : Nat} {T : ETy} : typeOf K (.ph n) = some T ↔ T = .placeholder n := by rw [typeOf, Option.some.injEq, eq_comm]
theorem dead_type {K : Kinds V L} {T : ETy} : typeOf K .dead = some T ↔ False := by rw [typeOf]; simp

mutual
theorem sameType_iff (K : Kinds V L) : ∀ a b : Tm V L, sameType K a b = true ↔ ∃ T, typeOf K a = some T ∧ typeOf K b = some T
  | .val v, b => by
    cases b <;> simp only [sameType, val_type, bor_type, ref_type, ph_type, dead_type, node_type, fn_type, sum_type, exists_eq_left, ETy.value.injEq, beq_iff_eq, reduceCtorEq, false_iff, and_false, exists_false,
      not_false_eq_true]
  | .bor v, b => by
    cases b <;> simp only [sameType, val_type, bor_type, ref_type, ph_type, dead_type, node_type, fn_type, sum_type, exists_eq_left, ETy.reference.injEq, beq_iff_eq, reduceCtorEq, false_iff, and_false, exists_false,
      not_false_eq_true]
  | .ref l, b => by
    cases b <;> simp only [sameType, val_type, bor_type, ref_type, ph_type, dead_type, node_type, fn_type, sum_type, exists_eq_left, ETy.reference.injEq, beq_iff_eq, reduceCtorEq, false_iff, and_false, exists_false,
      not_false_eq_true]
  | .dead, b => by
    cases b <;> simp only [sameType, dead_type, false_and, exists_false, reduceCtorEq]
  | .ph n, b => by
    cases b <;> simp only [sameType, val_type, bor_type, ref_type, ph_type, dead_type, node_type, fn_type, sum_type, exists_eq_left, ETy.placeholder.injEq, beq_iff_eq, reduceCtorEq, false_iff, and_false, exists_false,
      not_false_eq_true]
  | .node g cs, .node h ds => by
    rw [sameType, Bool.and_eq_true, decide_eq_true_eq, sameTypes_iff K cs ds]
    simp only [node_type]
    constructor
    · rintro ⟨rfl, T, h1, h2⟩
      exact ⟨_, ⟨T, h1, rfl⟩, T, h2, rfl⟩
    · rintro ⟨_, ⟨T, h1, rfl⟩, T', h2, e⟩
      cases e
      exact ⟨rfl, _, h1, h2⟩
  | .node g cs, .val _ => by simp [sameType, node_type, val_type]
  | .node g cs, .bor _ => by simp [sameType, node_type, bor_type]
  | .node g cs, .ref _ => by simp [sameType, node_type, ref_type]
  | .node g cs, .dead => by simp [sameType, dead_type]
  | .node g cs, .ph _ => by simp [sameType, node_type, ph_type]
  | .node g cs, .fn _ _ => by simp only [sameType, reduceCtorEq, node_type, fn_type, false_iff]; rintro ⟨_, ⟨x, _, rfl⟩, y, _, e⟩; cases e
  | .node g cs, .sum _ _ _ => by simp only [sameType, reduceCtorEq, node_type, sum_type, false_iff]; rintro ⟨_, ⟨x, _, rfl⟩, y, _, _, _, e⟩; cases e
  | .fn b is, .fn c js => by
    rw [sameType, Bool.and_eq_true, beq_iff_eq, sameType_iff K b c]
    simp only [fn_type]
    constructor
    · rintro ⟨⟨T, h1, h2⟩, rfl⟩
      exact ⟨_, ⟨T, h1, rfl⟩, T, h2, rfl⟩
    · rintro ⟨_, ⟨T, h1, rfl⟩, T', h2, e⟩
      cases e
      exact ⟨⟨_, h1, h2⟩, rfl⟩
  | .fn b is, .val _ => by simp [sameType, fn_type, val_type]
  | .fn b is, .bor _ => by simp [sameType, fn_type, bor_type]
  | .fn b is, .ref _ => by simp [sameType, fn_type, ref_type]
  | .fn b is, .dead => by simp [sameType, dead_type]
  | .fn b is, .ph _ => by simp [sameType, fn_type, ph_type]
  | .fn b is, .node _ _ => by simp only [sameType, reduceCtorEq, node_type, fn_type, false_iff]; rintro ⟨_, ⟨x, _, rfl⟩, y, _, e⟩; cases e
  | .fn b is, .sum _ _ _ => by simp only [sameType, reduceCtorEq, fn_type, sum_type, false_iff]; rintro ⟨_, ⟨x, _, rfl⟩, y, _, _, _, e⟩; cases e
  | .sum b n d, .sum c m e => by
    rw [sameType, Bool.and_eq_true, Bool.and_eq_true, beq_iff_eq, sameType_iff K b c, sameType_iff K d e]
    simp only [sum_type]
    constructor
    · rintro ⟨⟨⟨T, h1, h2⟩, rfl⟩, T', h3, h4⟩
      exact ⟨_, ⟨T, T', h1, h3, rfl⟩, T, T', h2, h4, rfl⟩
    · rintro ⟨_, ⟨T, T', h1, h3, rfl⟩, U, U', h2, h4, e⟩
      cases e
      exact ⟨⟨⟨_, h1, h2⟩, rfl⟩, _, h3, h4⟩
  | .sum b n d, .val _ => by simp [sameType, sum_type, val_type]
  | .sum b n d, .bor _ => by simp [sameType, sum_type, bor_type]
  | .sum b n d, .ref _ => by simp [sameType, sum_type, ref_type]
  | .sum b n d, .dead => by simp [sameType, dead_type]
  | .sum b n d, .ph _ => by simp [sameType, sum_type, ph_type]
  | .sum b n d, .node _ _ => by simp only [sameType, reduceCtorEq, node_type, sum_type, false_iff]; rintro ⟨_, ⟨x, _, _, _, rfl⟩, y, _, e⟩; cases e
  | .sum b n d, .fn _ _ => by simp only [sameType, reduceCtorEq, fn_type, sum_type, false_iff]; rintro ⟨_, ⟨x, _, _, _, rfl⟩, y, _, e⟩; cases e
theorem sameTypes_iff (K : Kinds V L) : ∀ a b : List (Tm V L), sameTypes K a b = true ↔ ∃ T, typesOf K a = some T ∧ typesOf K b = some T
  | [], [] => by simp [sameTypes, typesOf]
  | [], _ :: _ => by simp only [sameTypes, reduceCtorEq, cons_type, false_iff]; rintro ⟨_, h, x, y, _, _, rfl⟩; simp [typesOf] at h
  | _ :: _, [] => by simp only [sameTypes, reduceCtorEq, cons_type, false_iff]; rintro ⟨_, ⟨x, y, _, _, rfl⟩, h⟩; simp [typesOf] at h
  | c :: cs, d :: ds => by
    rw [sameTypes, Bool.and_eq_true, sameType_iff K c d, sameTypes_iff K cs ds]
    simp only [cons_type]
    constructor
    · rintro ⟨⟨T, h1, h2⟩, T', h3, h4⟩
      exact ⟨_, ⟨T, T', h1, h3, rfl⟩, T, T', h2, h4, rfl⟩
    · rintro ⟨_, ⟨T, T', h1, h3, rfl⟩, U, U', h2, h4, e⟩
      cases e
      exact ⟨⟨_, h1, h2⟩, _, h3, h4⟩
end

/-- C48.  `if_else` whose condition has got a value, with lazy branches: if the branches have the same type, the branch that the condition selects; otherwise the compiler rejects it (the
return type is that of the first branch). -/
theorem C48_if_types (I : Interp V L) (K : Kinds V L) (c a b : Tm V L) (v : V) (p : Bool) (hv : read I c = .ok v) (hp : I.truth v = some p) (hl : isLazy a = true ∨ isLazy b = true) :
    ((∃ T, typeOf K a = some T ∧ typeOf K b = some T) → dispatchL I K false .ifElse [c, a, b] = .ok (if p then a else b)) ∧
      ((¬ ∃ T, typeOf K a = some T ∧ typeOf K b = some T) → dispatchL I K false .ifElse [c, a, b] = .error .illFormed) := by
  have hany : [c, a, b].any isLazy = true := by rcases hl with h | h <;> simp [h]
  have h0 : dispatchL I K false .ifElse [c, a, b] = rebuild I K .ifElse [c, a, b] := by simp only [dispatchL, hany, Bool.not_false, Bool.and_self, if_true]
  rw [h0]
  constructor
  · intro h
    simp only [rebuild, hv, bind, Except.bind, (sameType_iff K a b).mpr h, hp]
    cases p <;> rfl
  · intro h
    have : sameType K a b = false := by rw [← Bool.not_eq_true, sameType_iff]; exact h
    simp only [rebuild, hv, bind, Except.bind, this]
    rfl

/-- `eval(if_else(x_, x_ + z_, y_ + z_), x_ = 1, y_ = 2)`: both branches are sums of a reference to an `int` and a placeholder; the first one is taken.  With `z_` alone the types differ. -/
example : dispatchL ints intKinds false .ifElse [.bor 1, .node .plus [.bor 1, .ph 2], .node .plus [.bor 2, .ph 2]] = .ok (.node .plus [.bor 1, .ph 2]) :=
  (C48_if_types ints intKinds _ _ _ 1 true rfl rfl (.inl rfl)).1 ⟨_, rfl, rfl⟩
example : dispatchL ints intKinds false .ifElse [.bor 1, .node .plus [.bor 1, .ph 2], .ph 2] = .error .illFormed :=
  (C48_if_types ints intKinds _ _ _ 1 true rfl rfl (.inl rfl)).2 (by rintro ⟨T, h1, h2⟩; cases h1; cases h2)

end Nda.Clef
