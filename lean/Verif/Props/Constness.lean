import Verif.Model.Constness
import Mathlib.Data.List.Basic
/-!
# C81: const arrays and views of const elements
-/
namespace Nda.Constness

variable {α : Type}

/-- All objects that refer to array `k` satisfy `P`. -/
def All (k : Nat) (P : Obj → Prop) (s : St α) : Prop := ∀ x ∈ s.vars, x.1 = k → P x.2

/-- A statement that does not make an object that refers to array `k` without `P`, and does not write to `k`, keeps the elements of `k`. -/
theorem step_keeps {P : Obj → Prop} (hw : ∀ o, P o → writable o = false) {ok : Stmt α → Prop}
    (hd : ∀ i op o o', ok (.derive i op) → P o → derive op o = some o' → P o')
    (hc : ∀ c e, P (.view c e) → P (.view false e))
    (hr : ∀ e c' e', P (.view c' e') → (e = e' ∨ e = true) → P (.view false e))
    {k : Nat} {s s' : St α} {st : Stmt α} (hok : ok st) (h : step s st = some s') (hP : All k P s) (hk : k < s.arrays.length) :
    All k P s' ∧ s'.arrays[k]? = s.arrays[k]? ∧ k < s'.arrays.length := by
  cases st with
  | new c l =>
      simp only [step, Option.some.injEq] at h
      subst h
      refine ⟨?_, by rw [List.getElem?_append_left hk], by simp; omega⟩
      intro x hx he
      rcases List.mem_append.mp hx with hx | hx
      · exact hP x hx he
      · obtain rfl := List.mem_singleton.mp hx; simp at he; omega
  | derive i op =>
      simp only [step, Option.bind_eq_bind, Option.bind_eq_some_iff, Option.pure_def, Option.some.injEq] at h
      obtain ⟨⟨k', o⟩, h1, o', h2, rfl⟩ := h
      refine ⟨?_, rfl, hk⟩
      intro x hx he
      rcases List.mem_append.mp hx with hx | hx
      · exact hP x hx he
      · obtain rfl := List.mem_singleton.mp hx
        exact hd i op o o' hok (hP _ (List.mem_of_getElem? h1) he) h2
  | copy i =>
      simp only [step, Option.bind_eq_bind, Option.bind_eq_some_iff] at h
      obtain ⟨⟨k', o⟩, h1, h2⟩ := h
      cases o with
      | arr c =>
          simp only [Option.bind_eq_some_iff, Option.pure_def, Option.some.injEq] at h2
          obtain ⟨l, h2, rfl⟩ := h2
          refine ⟨?_, by rw [List.getElem?_append_left hk], by simp; omega⟩
          intro x hx he
          rcases List.mem_append.mp hx with hx | hx
          · exact hP x hx he
          · obtain rfl := List.mem_singleton.mp hx; simp at he; omega
      | view c e =>
          simp only [Option.pure_def, Option.some.injEq] at h2
          subst h2
          refine ⟨?_, rfl, hk⟩
          intro x hx he
          rcases List.mem_append.mp hx with hx | hx
          · exact hP x hx he
          · obtain rfl := List.mem_singleton.mp hx
            exact hc c e (hP _ (List.mem_of_getElem? h1) he)
      | ref e => cases h2
  | rebind i j =>
      simp only [step, Option.bind_eq_bind, Option.bind_eq_some_iff] at h
      obtain ⟨⟨k1, o⟩, h1, ⟨k2, o'⟩, h2, h3⟩ := h
      cases o with
      | view c e =>
          cases c with
          | false =>
              cases o' with
              | view c' e' =>
                  simp only at h3
                  split at h3
                  · rename_i hee
                    simp only [Option.pure_def, Option.some.injEq] at h3
                    subst h3
                    refine ⟨?_, rfl, hk⟩
                    intro x hx he
                    rcases List.mem_or_eq_of_mem_set hx with hx | rfl
                    · exact hP x hx he
                    · exact hr e c' e' (hP _ (List.mem_of_getElem? h2) he) hee
                  · cases h3
              | arr => cases h3
              | ref => cases h3
          | true => cases h3
      | arr => cases h3
      | ref => cases h3
  | swap i j =>
      simp only [step, Option.bind_eq_bind, Option.bind_eq_some_iff] at h
      obtain ⟨⟨k1, o⟩, h1, ⟨k2, o'⟩, h2, h3⟩ := h
      cases o with
      | view c e =>
          cases c with
          | false =>
              cases o' with
              | view c' e' =>
                  cases c' with
                  | false =>
                      simp only at h3
                      split at h3
                      · rename_i hee
                        simp only [Option.pure_def, Option.some.injEq] at h3
                        subst h3 hee
                        refine ⟨?_, rfl, hk⟩
                        intro x hx he
                        rcases List.mem_or_eq_of_mem_set hx with hx | rfl
                        · rcases List.mem_or_eq_of_mem_set hx with hx | rfl
                          · exact hP x hx he
                          · exact hP _ (List.mem_of_getElem? h2) he
                        · exact hP _ (List.mem_of_getElem? h1) he
                      · cases h3
                  | true => cases h3
              | arr => cases h3
              | ref => cases h3
          | true => cases h3
      | arr => cases h3
      | ref => cases h3
  | write i pos x =>
      simp only [step, Option.bind_eq_bind, Option.bind_eq_some_iff] at h
      obtain ⟨⟨k', o⟩, h1, h2⟩ := h
      simp only at h2
      split at h2
      · rename_i hwr
        simp only [Option.pure_def, Option.some.injEq] at h2
        subst h2
        refine ⟨hP, ?_, by simpa using hk⟩
        have : k' ≠ k := by
          rintro rfl
          have := hw o (hP _ (List.mem_of_getElem? h1) rfl)
          rw [this] at hwr; cases hwr
        simp [List.getElem?_modify, this]
      · cases h2

theorem run_keeps {P : Obj → Prop} (hw : ∀ o, P o → writable o = false) {ok : Stmt α → Prop}
    (hd : ∀ i op o o', ok (.derive i op) → P o → derive op o = some o' → P o')
    (hc : ∀ c e, P (.view c e) → P (.view false e))
    (hr : ∀ e c' e', P (.view c' e') → (e = e' ∨ e = true) → P (.view false e)) {k : Nat} :
    ∀ (p : List (Stmt α)) (s s' : St α), (∀ st ∈ p, ok st) → run s p = some s' → All k P s → k < s.arrays.length → s'.arrays[k]? = s.arrays[k]?
  | [], s, s', _, h, _, _ => by
      simp only [run, List.foldlM_nil, Option.pure_def, Option.some.injEq] at h
      subst h; rfl
  | st :: p, s, s', hok, h, hP, hk => by
      simp only [run, List.foldlM_cons, Option.bind_eq_bind, Option.bind_eq_some_iff] at h
      obtain ⟨s1, h1, h2⟩ := h
      obtain ⟨h3, h4, h5⟩ := step_keeps hw hd hc hr (hok st (by simp)) h1 hP hk
      rw [run_keeps hw hd hc hr p s1 s' (fun st hst => hok st (by simp [hst])) h2 h3 h5, h4]

/-- The object gives access to const elements only. -/
def ConstElem : Obj → Prop
  | .arr _ => False
  | .view _ e => e = true
  | .ref e => e = true

/-- C81, views of const elements: whatever a program makes of views of (or references to) const elements of an array, it cannot change the array with them. -/
theorem C81_const_view (p : List (Stmt α)) (s s' : St α) (k : Nat) (hk : k < s.arrays.length) (hv : ∀ x ∈ s.vars, x.1 = k → ConstElem x.2) (h : run s p = some s') :
    s'.arrays[k]? = s.arrays[k]? := by
  refine run_keeps (P := ConstElem) (ok := fun _ => True) ?_ ?_ ?_ ?_ p s s' (fun _ _ => trivial) h hv hk
  · rintro (c | ⟨c, e⟩ | e) ho <;> simp_all [ConstElem, writable]
  · rintro i op (c | ⟨c, e⟩ | e) o' - ho hd
    · exact ho.elim
    · obtain rfl : e = true := ho
      cases op with
      | construct e' => cases e' <;> simp [derive] at hd; subst hd; rfl
      | _ => simp only [derive, Bool.or_true, Option.some.injEq] at hd; subst hd; rfl
    · obtain rfl : e = true := ho
      cases op <;> simp only [derive, Option.some.injEq] at hd <;> first | (subst hd; rfl) | (cases hd)
  · rintro c e he; exact he
  · rintro e c' e' he h1
    obtain rfl : e' = true := he
    rcases h1 with rfl | rfl <;> rfl

/-- The object gives access to const elements only, or is a const array. -/
def Guarded : Obj → Prop
  | .arr c => c = true
  | .view _ e => e = true
  | .ref e => e = true

/-- Operations that forget that an array is const. -/
def leaks : Op → Bool
  | .slice | .elem | .construct false | .makeView => true
  | _ => false

/-- C81, const arrays: a program that does not use subscripts, slices, explicit views of non-const elements, `make_array_view` and `make_matrix_view` cannot change an array that it only has as a const array.
Partial: with any of these it can (`C81_slice_witness`, ...). -/
theorem C81_const_array_partial (p : List (Stmt α)) (s s' : St α) (k : Nat) (hk : k < s.arrays.length) (hv : ∀ x ∈ s.vars, x.1 = k → Guarded x.2)
    (hp : ∀ i op, Stmt.derive i op ∈ p → leaks op = false) (h : run s p = some s') : s'.arrays[k]? = s.arrays[k]? := by
  refine run_keeps (P := Guarded) (ok := fun st => ∀ i op, st = .derive i op → leaks op = false) ?_ ?_ ?_ ?_ p s s' (fun st hst i op e => hp i op (e ▸ hst)) h hv hk
  · rintro (c | ⟨c, e⟩ | e) ho <;> simp_all [Guarded, writable]
  · rintro i op (c | ⟨c, e⟩ | e) o' hok ho hd
    · obtain rfl : c = true := ho
      have hl := hok i op rfl
      cases op with
      | construct e' => cases e' with
        | true => simp only [derive, Option.some.injEq] at hd; subst hd; rfl
        | false => cases hl
      | slice => cases hl
      | elem => cases hl
      | makeView => cases hl
      | _ => simp only [derive, Option.some.injEq] at hd; subst hd; rfl
    · obtain rfl : e = true := ho
      cases op with
      | construct e' => cases e' <;> simp [derive] at hd; subst hd; rfl
      | _ => simp only [derive, Bool.or_true, Option.some.injEq] at hd; subst hd; rfl
    · obtain rfl : e = true := ho
      cases op <;> simp only [derive, Option.some.injEq] at hd <;> first | (subst hd; rfl) | (cases hd)
  · rintro c e he; exact he
  · rintro e c' e' he h1
    obtain rfl : e' = true := he
    rcases h1 with rfl | rfl <;> rfl

/-- C81 fails for const arrays, whatever is in them: a slice of a const array is a view of non-const elements, and gives write access. -/
theorem C81_slice_witness (l : List α) (pos : Nat) (x : α) :
    (run ⟨[], []⟩ [.new true l, .derive 0 .slice, .write 1 pos x]).map St.arrays = some [l.set pos x] := rfl

/-- C81 fails for const arrays: so does an element `a(i, j)` of a const array. -/
theorem C81_element_witness (l : List α) (pos : Nat) (x : α) :
    (run ⟨[], []⟩ [.new true l, .derive 0 .elem, .write 1 pos x]).map St.arrays = some [l.set pos x] := rfl

/-- C81 fails for const arrays: so does a view that is constructed from a const array. -/
theorem C81_construct_witness (l : List α) (pos : Nat) (x : α) :
    (run ⟨[], []⟩ [.new true l, .derive 0 (.construct false), .write 1 pos x]).map St.arrays = some [l.set pos x] := rfl

/-- C81 fails for const arrays: so do `make_array_view` and `make_matrix_view`. -/
theorem C81_make_view_witness (l : List α) (pos : Nat) (x : α) :
    (run ⟨[], []⟩ [.new true l, .derive 0 .makeView, .write 1 pos x]).map St.arrays = some [l.set pos x] := rfl

/-- The lost qualifier is exactly that of arrays: an operation makes something writable from something guarded only if it is one of the four, applied to a const array. -/
theorem C81_exact (op : Op) (o o' : Obj) (hg : Guarded o) (hd : derive op o = some o') : Guarded o' ↔ ¬ (leaks op = true ∧ ∃ c, o = .arr c) := by
  cases o with
  | arr c =>
      obtain rfl : c = true := hg
      cases op with
      | construct e' => cases e' <;> simp only [derive, Option.some.injEq] at hd <;> subst hd <;> simp [Guarded, leaks]
      | _ => simp only [derive, Option.some.injEq] at hd; subst hd; simp [Guarded, leaks]
  | view c e =>
      obtain rfl : e = true := hg
      cases op with
      | construct e' => cases e' <;> simp [derive] at hd; subst hd; simp [Guarded]
      | _ => simp only [derive, Bool.or_true, Option.some.injEq] at hd; subst hd; simp [Guarded]
  | ref e =>
      obtain rfl : e = true := hg
      cases op <;> simp only [derive, Option.some.injEq, reduceCtorEq] at hd
      subst hd; simp [Guarded]

/-- A function that is given a view of const elements of array 0 and a view of another array: it reads through slices, iterators and transposed views, writes to the other array, and rebinds. -/
example : let s : St Int := ⟨[[1, 2, 3], [4, 5, 6]], [(0, .view false true), (1, .view false false)]⟩
    (∀ x ∈ s.vars, x.1 = 0 → ConstElem x.2) ∧
    (run s [.derive 0 .slice, .derive 2 .transform, .derive 1 .elem, .write 4 2 7, .derive 3 (.construct true), .rebind 5 1, .copy 0]).map St.arrays = some [[1, 2, 3], [4, 5, 7]] ∧
    (run s [.derive 0 .slice, .write 2 0 9]).isNone ∧ (run s [.derive 0 (.construct false)]).isNone ∧ (run s [.rebind 1 0]).isNone := by
  refine ⟨?_, by decide, by decide, by decide, by decide⟩
  simp [ConstElem]

/-- A const array, its full view and its iterators; a copy of it can be changed. -/
example : (run (⟨[], []⟩ : St Int) [.new true [1, 2], .derive 0 .full, .derive 1 .slice, .derive 0 .iterate, .copy 0, .write 4 0 5]).map St.arrays = some [[1, 2], [5, 2]] ∧
    (run (⟨[], []⟩ : St Int) [.new true [1, 2], .derive 0 .full, .derive 1 .slice, .write 2 0 5]).isNone := by decide

end Nda.Constness
