import Verif.Lemmas.Fresh
/-!
# Sequences of writes to memory
-/
namespace Nda.Assign
open Nda Nda.Spec

variable {α : Type}

/-- The writes `(address, value)` one after the other. -/
def writeAll (ws : List (Int × α)) (mem : List α) : Option (List α) := ws.foldlM (fun mem w => wrInt mem w.1 w.2) mem

/-- If all writes to the same address agree, the order does not matter. -/
theorem writeAll_spec : ∀ (ws : List (Int × α)) (mem : List α), (∀ w ∈ ws, 0 ≤ w.1 ∧ w.1 < mem.length) →
    ∃ mem', writeAll ws mem = some mem' ∧ mem'.length = mem.length ∧ (∀ k, (∀ w ∈ ws, w.1 ≠ k) → val mem' k = val mem k) ∧
      ∀ k v, (k, v) ∈ ws → (∀ w ∈ ws, w.1 = k → w.2 = v) → val mem' k = some v := by
  intro ws
  induction ws using List.reverseRecOn with
  | nil => intro mem _; exact ⟨mem, rfl, rfl, fun _ _ => rfl, fun _ _ h => by simp at h⟩
  | append_singleton ws w ih =>
    intro mem hb
    obtain ⟨m1, e1, l1, f1, v1⟩ := ih mem (fun w hw => hb w (by simp [hw]))
    obtain ⟨m2, e2, l2, v2, f2⟩ := wrInt_spec (mem := m1) (k := w.1) (by rw [l1]; exact hb w (by simp)) w.2
    refine ⟨m2, ?_, by omega, ?_, ?_⟩
    · rw [writeAll, List.foldlM_append]
      rw [writeAll] at e1
      rw [e1]; simp [e2]
    · intro k hk
      rw [f2 k (fun h => hk w (by simp) h.symm), f1 k (fun w hw => hk w (by simp [hw]))]
    · intro k v hm hc
      by_cases hw : w.1 = k
      · rw [← hw, v2, hc w (by simp) hw]
      · rw [f2 k (fun h => hw h.symm)]
        refine v1 k v ?_ (fun w hw => hc w (by simp [hw]))
        rcases List.mem_append.mp hm with hm | hm
        · exact hm
        · rw [List.mem_singleton] at hm; subst hm; exact absurd rfl hw

theorem writeAll_append (a b : List (Int × α)) (mem : List α) : writeAll (a ++ b) mem = (writeAll a mem).bind (writeAll b) := by
  rw [writeAll, List.foldlM_append]; rfl

theorem writeAll_flatMap {β : Type} (g : β → List (Int × α)) : ∀ (l : List β) (mem : List α), l.foldlM (fun mem c => writeAll (g c) mem) mem = writeAll (l.flatMap g) mem
  | [], mem => rfl
  | c :: l, mem => by
    rw [List.foldlM_cons, List.flatMap_cons, writeAll_append]
    cases h : writeAll (g c) mem with
    | none => rfl
    | some m => exact writeAll_flatMap g l m

end Nda.Assign
