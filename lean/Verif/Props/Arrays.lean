import Verif.Lemmas.Arrays
import Verif.Props.Handles
/-!
# C22: storage and shape of owning arrays agree
-/
namespace Nda.Arr
open Nda Nda.Mem Nda.Spec Spec Nda.Mem.Spec Loops Nda.Perm

variable {V : Type}

theorem start_inv (triv : Bool) (so : Nat → List Nat) (n : Nat) : Inv triv so (AProg.start n : AProg V) (List.replicate n none) := by
  refine ⟨start_own triv (n + 1), ⟨by simp [AProg.start, Prog.start], by simp [AProg.start], ?_, fun i hi => ?_⟩⟩
  · simp [AProg.start, Prog.start, Prog.var]
  · simp only [AProg.start, List.length_replicate] at hi
    have h1 : Prog.var (AProg.start n : AProg V).prog i = none := by
      have : i < n + 1 := by omega
      simp [AProg.start, Prog.start, Prog.var, this]
    have h2 : Shapes.get (List.replicate n none) i = none := by simp [Shapes.get, hi]
    rw [h1, h2]; trivial

theorem run_inv {triv : Bool} (dflt : V) {so : List Nat} (hso : IsPerm so) (hne : so ≠ []) (ops : List (AOp V)) {p : AProg V} {a : Shapes}
    (i : Inv triv (fun _ => so) p a) (hc : AllowedRun triv dflt so p a ops) :
    ∃ p', p.run triv dflt so ops = some p' ∧ Inv triv (fun _ => so) p' (srun so.length a ops) := by
  induction ops generalizing p a with
  | nil => exact ⟨p, rfl, i⟩
  | cons op ops ih =>
      obtain ⟨h1, h2⟩ := hc
      obtain ⟨p1, h3, h4⟩ := i.step dflt (fun _ => hso) (fun _ => hne) op h1 (by cases op <;> first | trivial | rfl)
      obtain ⟨p2, h5, h6⟩ := ih h4 (h2 p1 h3)
      refine ⟨p2, ?_, h6⟩
      simp only [AProg.run, List.foldlM_cons, h3]
      exact h5

theorem reachable_inv {triv : Bool} {dflt : V} {so : List Nat} (hso : IsPerm so) (hne : so ≠ []) {p : AProg V} {a : Shapes}
    (h : Reachable triv dflt so p a) : Inv triv (fun _ => so) p a := by
  obtain ⟨n, ops, h1, h2, rfl⟩ := h
  obtain ⟨p', h3, h4⟩ := run_inv dflt hso hne ops (start_inv triv (fun _ => so) n) h1
  rw [h2] at h3; cases h3; exact h4

/-- C22, histories.  Any history of constructions, copies, moves, assignments, resizes and destructions of arrays
of any rank and stride order runs without a memory error; at its end every array has the shape its user
expects, and unless it was moved from its storage has exactly as many elements as the shape, all of
them alive, and every index of the shape is in the storage.
Partial: a moved-from array keeps its shape and has no storage (`C22_moved_witness`); heap storage only (not small-buffer or
stack storage, not static extents). -/
theorem C22_history_partial (triv : Bool) (dflt : V) (so : List Nat) (hso : IsPerm so) (hne : so ≠ []) (n : Nat) (ops : List (AOp V))
    (hc : AllowedRun triv dflt so (AProg.start n) (List.replicate n none) ops) :
    ∃ p, (AProg.start n).run triv dflt so ops = some p ∧
      ∀ d, match Shapes.get (srun so.length (List.replicate n none) ops) d with
        | none => p.prog.var d = none
        | some (shape, moved) => ∃ m h, p.lays[d]? = some m ∧ m.len = shape ∧ p.prog.var d = some h ∧ Intact triv p.prog h ∧
            (if moved then h.data = none
             else (h.size : Int) = prod shape ∧ ∀ idx, InRange shape idx → ∃ k, m.call (idx.map .idx) = some k ∧ 0 ≤ k ∧ k < h.size) := by
  obtain ⟨p, h1, h2⟩ := run_inv dflt hso hne ops (start_inv triv (fun _ => so) n) hc
  refine ⟨p, h1, fun d => ?_⟩
  by_cases hda : p.alive d = true
  · obtain ⟨m, y, k, moved, hd1, hd2, hd3, hd4, hd5, hd6, hd7⟩ := h2.rel.alive hda
    rw [hd4]
    have hmem := Prog.mem_handles (vars := p.prog.vars) (s := d) hd3
    refine ⟨m, _, hd2, rfl, hd3, ?_, ?_⟩
    · cases y with
      | none => exact h2.own.null _ hmem rfl
      | some b =>
          obtain ⟨cells, hl, hF⟩ := h2.own.excl_live hmem (b := b) (by simp [excl])
          exact ⟨cells, (Heap.live_some.mp hl).1, hF.1, hF.2⟩
    · cases moved with
      | true => exact hd7.1
      | false =>
          simp only [Bool.false_eq_true, if_false] at hd7 ⊢
          refine ⟨hd7, fun idx hi => ?_⟩
          rcases hd6 with h | h
          · obtain ⟨m', g1, g2, g3, g4, g5, -⟩ := layoutOf_spec hso hd5
            rw [h] at g1; cases g1
            have := g5 idx hi
            refine ⟨_, this.1, by omega, ?_⟩
            simp only [Handle.size]; omega
          · obtain ⟨m', g1, g2, g3, g4, g5, -⟩ := layoutOf_spec hso hd5
            have := (g5 idx hi).2
            rw [h] at this; simp at this
  · rw [h2.rel.not_alive hda]
    simp only
    by_cases hd : d < p.lays.length
    · simpa [AProg.alive, hd] using hda
    · by_cases e : d = p.lays.length
      · subst e; exact h2.rel.tmp
      · rw [Prog.var, List.getElem?_eq_none (by rw [h2.rel.vlen]; omega)]; rfl

/-- C22, resize.  An array that is resized to a shape with as many elements as it has keeps its storage: nothing
is allocated, released, constructed, destroyed or written. -/
theorem C22_resize_same (triv : Bool) (dflt : V) (so : List Nat) (hso : IsPerm so) (hne : so ≠ []) (p : AProg V) (a : Shapes)
    (hr : Reachable triv dflt so p a) (d : Nat) (x shape : List Int) (hx : a.get d = some (x, false)) (hs : IsShape so shape) (he : prod x = prod shape) :
    ∃ m, layoutOf so shape = some m ∧ p.step triv dflt so (.resize d shape) = some { p with lays := p.lays.set d m } := by
  have i := reachable_inv hso hne hr
  have hda : p.alive d = true := by
    by_contra h
    rw [i.rel.not_alive h] at hx; cases hx
  obtain ⟨m0, y, k, moved, hd1, hd2, hd3, hd4, hd5, hd6, hd7⟩ := i.rel.alive hda
  rw [hd4] at hx; cases hx
  simp only [Bool.false_eq_true, if_false] at hd7
  obtain ⟨m, y', mem, h1, h2, h3, h4, h5, -⟩ := resize_spec dflt (fun _ => hso) i hd1 hd3 hs
  obtain ⟨rfl, rfl⟩ := h5 (by rw [hd7, he]) (by
    by_cases hy : y = none
    · right
      subst hy
      exact i.own.null _ (Prog.mem_handles (s := d) hd3) rfl
    · exact Or.inl hy)
  refine ⟨m, h1, ?_⟩
  simp only [AProg.step]
  rw [if_pos hda, h2]
  have hk : (prod shape).toNat = k := by omega
  have hdv : p.prog.vars[d]? = some (some (.heap y' k none)) := by
    cases hz : p.prog.vars[d]? with
    | none => rw [Prog.var, hz] at hd3; cases hd3
    | some z => rw [Prog.var, hz] at hd3; simp at hd3; rw [hd3]
  obtain ⟨hlt, he'⟩ := List.getElem?_eq_some_iff.mp hdv
  rw [hk, ← he', List.set_getElem_self]

/-- C22, values.  An array that is assigned an array or expression `f` has its shape and elements; if `f` does not
read the array's own storage, its elements are evaluated as if nothing had changed. -/
theorem C22_assign_values (triv : Bool) (dflt : V) (so : List Nat) (hso : IsPerm so) (hne : so ≠ []) (p : AProg V) (a : Shapes)
    (hr : Reachable triv dflt so p a) (d : Nat) (shape : List Int) (f : List Int → Heap V → Option V) (hd : p.alive d = true)
    (ha : Allowed triv so p a (.assign d shape f)) :
    ∃ p', p.step triv dflt so (.assign d shape f) = some p' ∧
      ∀ idx, InRange shape idx → ∃ v hp, p'.elem d idx = some v ∧ f idx hp = some v ∧
        ∀ x, x < p.prog.mem.hp.length → some x ≠ blockOf p d → hp[x]? = p.prog.mem.hp[x]? := by
  obtain ⟨p', h1, -, h2⟩ := assign_spec dflt (fun _ => hso) (reachable_inv hso hne hr) hd ha.1 ha.2
  exact ⟨p', h1, h2⟩

/-- C22, values: the same for construction. -/
theorem C22_build_values (triv : Bool) (dflt : V) (so : List Nat) (hso : IsPerm so) (hne : so ≠ []) (p : AProg V) (a : Shapes)
    (hr : Reachable triv dflt so p a) (d : Nat) (shape : List Int) (f : List Int → Heap V → Option V) (hd : p.free d = true)
    (ha : Allowed triv so p a (.build d shape f)) :
    ∃ p', p.step triv dflt so (.build d shape f) = some p' ∧
      ∀ idx, InRange shape idx → ∃ v hp, p'.elem d idx = some v ∧ f idx hp = some v ∧
        ∀ x, x < p.prog.mem.hp.length → hp[x]? = p.prog.mem.hp[x]? := by
  obtain ⟨p', h1, -, h2⟩ := build_spec dflt (fun _ => hso) (reachable_inv hso hne hr) hd ha.1 ha.2
  exact ⟨p', h1, h2⟩

/-! ### Examples -/

/-- A history that uses most operations. -/
def exampleOps : List (AOp Nat) :=
  [.make 0 [2, 3], .build 1 [3, 2] (fun idx _ => some (idx.sum.toNat)), .copy 2 0, .moveAssign 0 1, .resize 2 [1, 6], .resize 2 [4, 4],
   .assign 2 [2, 2] (fun idx _ => some (idx.head!.toNat)), .default 3 [7, 7], .fill 2 9, .copyAssign 3 1, .assign 1 [5, 0] (fun _ _ => none), .destroy 0]

theorem example_allowed (triv : Bool) : AllowedRun triv 0 [1, 0] (AProg.start 4) (List.replicate 4 none) exampleOps := by
  have sh : ∀ a b : Nat, IsShape [1, 0] [(a : Int), (b : Int)] := fun a b => ⟨rfl, by simp [NonNeg]⟩
  refine ⟨sh 2 3, fun _ _ => ⟨⟨sh 3 2, fun _ _ _ _ => rfl⟩, fun _ _ => ⟨trivial, fun _ _ => ⟨trivial, fun _ _ => ⟨sh 1 6, fun _ _ => ⟨sh 4 4, fun _ _ =>
    ⟨⟨sh 2 2, Or.inl fun _ _ _ _ => rfl⟩, fun _ _ => ⟨trivial, fun _ _ => ⟨?_, fun _ _ => ⟨trivial, fun _ _ => ⟨⟨sh 5 0, Or.inl ?_⟩, fun _ _ => ⟨trivial, fun _ _ => trivial⟩⟩⟩⟩⟩⟩⟩⟩⟩⟩⟩⟩
  · intro x hx
    simp [sstep, Shapes.put, Shapes.get, List.replicate] at hx
  · intro idx hi
    exfalso
    match idx, hi with
    | [i, j], hi =>
        have := hi.2.1
        omega


/-- The end of that history. -/
example : ((AProg.start 4).run false 0 [1, 0] exampleOps).map
      (fun p => (p.prog.vars, p.lays.map (·.len), [[0, 0], [0, 1], [1, 0], [1, 1]].map (p.elem 2))) =
    some ([none, some (.heap none 0 none), some (.heap (some 4) 4 none), some (.heap none 0 none), none],
      [[3, 2], [5, 0], [2, 2], [3, 2]], [some 9, some 9, some 9, some 9]) := by decide +kernel

example : ∃ p a, Reachable false 0 [1, 0] p a ∧ a.get 2 = some ([2, 2], false) ∧ prod [2, 2] = prod [4, 1] :=
  ⟨_, _, ⟨4, exampleOps, example_allowed false, (run_inv 0 (by decide) (by decide) exampleOps (start_inv false (fun _ => [1, 0]) 4) (example_allowed false)).choose_spec.1, rfl⟩,
    by decide +kernel, by decide⟩

/-- C22 does not hold of moved-from arrays: `array<int, 2> a(2, 3); auto b = std::move(a);` leaves `a` with the shape (2, 3) and without
storage; `resize_or_check_if_view(a, {2, 3})` does not change that, `a = 1` then writes through a null pointer; `a.resize(2, 3)` does
give it storage. -/
theorem C22_moved_witness :
    ((AProg.start 2 : AProg Nat).run true 0 [0, 1] [.make 0 [2, 3], .move 1 0, .resizeOrCheck 0 [2, 3]]).map
        (fun p => (p.prog.var 0, p.lays[0]?.map (·.len))) = some (some (.heap none 0 none), some [2, 3]) ∧
    (AProg.start 2 : AProg Nat).run true 0 [0, 1] [.make 0 [2, 3], .move 1 0, .resizeOrCheck 0 [2, 3], .fill 0 1] = none ∧
    ((AProg.start 2 : AProg Nat).run true 0 [0, 1] [.make 0 [2, 3], .move 1 0, .resize 0 [2, 3], .fill 0 1]).map
        (fun p => (p.prog.var 0, p.elem 0 [1, 2])) = some (some (.heap (some 1) 6 none), some 1) := by
  decide +kernel

/-- C19 does not hold of owning arrays: in `a = a(range(1, 3))` the array is resized, and its storage released, before the view on the right
is read; with as many elements (`a = a(range(0, 4, 1))`) the storage stays. -/
theorem C19_self_view_witness :
    (AProg.start 1 : AProg Nat).run true 0 [0] [.build 0 [4] (fun idx _ => some (idx.head!.toNat + 10)), .assign 0 [2] (fun idx hp => hp.read 0 (idx.head!.toNat + 1))] = none ∧
    ((AProg.start 1 : AProg Nat).run true 0 [0] [.build 0 [4] (fun idx _ => some (idx.head!.toNat + 10)),
        .assign 0 [4] (fun idx hp => hp.read 0 idx.head!.toNat)]).map (fun p => [[0], [1], [2], [3]].map (p.elem 0)) = some [some 10, some 11, some 12, some 13] := by
  decide +kernel

/-- Such an assignment is allowed (see `C22_history_partial`) when the sizes agree. -/
example (p : AProg Nat) (hp : (AProg.start 1 : AProg Nat).step false 0 [0] (.build 0 [4] (fun idx _ => some (idx.head!.toNat + 10))) = some p) :
    Allowed false [0] p [some ([4], false)] (.assign 0 [4] (fun idx hp => hp.read 0 idx.head!.toNat)) := by
  have hb : blockOf p 0 = some 0 ∧ p.prog.mem.hp[0]? = some ⟨[some 10, some 11, some 12, some 13], false⟩ := by
    have : ((AProg.start 1 : AProg Nat).step false 0 [0] (.build 0 [4] (fun idx _ => some (idx.head!.toNat + 10)))).map
      (fun p => (blockOf p 0, p.prog.mem.hp[0]?)) = some (some 0, some ⟨[some 10, some 11, some 12, some 13], false⟩) := by decide +kernel
    rw [hp] at this; simpa using this
  refine ⟨⟨rfl, by simp [NonNeg]⟩, Or.inr ⟨[4], rfl, rfl, fun idx hi hp _ h2 => ?_⟩⟩
  match idx, hi with
  | [i], hi =>
    obtain ⟨cells', g1, g2, g3⟩ := h2 0 _ hb.1.symm hb.2
    have h3 : i.toNat < cells'.length := by have := hi.1; rw [g2]; simp; omega
    have : Heap.live hp 0 = some ⟨cells', false⟩ := Heap.live_some.mpr ⟨g1, rfl⟩
    simp only [Heap.read, this]
    simp only [List.head!, Option.bind_eq_bind, Option.bind_some, List.getElem?_eq_getElem h3]
    exact g3 rfl _ (List.getElem_mem h3)

end Nda.Arr
