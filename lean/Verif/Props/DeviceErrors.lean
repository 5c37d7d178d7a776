import Verif.Model.DeviceErrors
/-!
# C78: failures in the device libraries
-/
namespace Nda.DeviceErrors

/-- The functions whose failures nobody looks at. -/
def Unchecked (c : Call) : Prop := (c.complex = false ∧ (c.fn = .axpy ∨ c.fn = .copy)) ∨ c.fn = .gemmVbatch ∨ c.fn = .gesvdQuery

theorem kind_checked (c : Call) : kind c.fn c.complex = .checked ↔ ¬ Unchecked c := by
  obtain ⟨f, b, x⟩ := c
  cases f <;> cases b <;> simp [kind, Unchecked]

/-- C78.  With synchronisation, as long as none of the unchecked functions is used, the first call that fails, at once or on the device, throws, and no other: the calls before it return.
Missing: the unchecked functions (`C78_lost_witness`). -/
theorem C78_reported_partial (cs : List Call) (hc : ∀ c ∈ cs, ¬ Unchecked c) :
    run true false cs = ((cs.takeWhile (fun c => decide (c.fate = .done))).length, cs.any (fun c => decide (c.fate ≠ .done))) := by
  induction cs with
  | nil => rfl
  | cons c cs ih =>
    have hk := (kind_checked c).mpr (hc c (by simp))
    have ih := ih (fun d hd => hc d (by simp [hd]))
    obtain ⟨f, b, x⟩ := c
    cases x <;> simp [run, call, hk, ih]

/-- C78, in any use.  A sequence of calls that returns did not contain a checked call that was rejected, nor one at or after a failure on the device. -/
theorem C78_returned (cs : List Call) (h : (run true false cs).2 = false) (i : Nat) (c : Call) (hi : cs[i]? = some c) (hc : ¬ Unchecked c) :
    c.fate ≠ .rejected ∧ ∀ j d, j ≤ i → cs[j]? = some d → d.fate ≠ .fails := by
  have key : ∀ (cs : List Call) (bad : Bool), (run true bad cs).2 = false → ∀ (i : Nat) (c : Call), cs[i]? = some c → ¬ Unchecked c →
      c.fate ≠ .rejected ∧ bad = false ∧ ∀ j d, j ≤ i → cs[j]? = some d → d.fate ≠ .fails := by
    intro cs
    induction cs with
    | nil => intro bad _ i c hi; simp at hi
    | cons e cs ih =>
      intro bad h i c hi hc
      rw [run] at h
      cases hq : call true bad e with
      | none => rw [hq] at h; simp at h
      | some bad' =>
        rw [hq] at h
        simp only at h
        have hmono : bad' = (bad || decide (e.fate = .fails)) := by
          rw [call] at hq
          cases hk : kind e.fn e.complex <;> rw [hk] at hq <;> simp only at hq
          · split at hq
            · simp at hq
            · split at hq
              · simp at hq
              · simpa using hq.symm
          · simpa using hq.symm
          · simpa using hq.symm
        cases i with
        | zero =>
          have hec : e = c := by simpa using hi
          subst hec
          have hk := (kind_checked e).mpr hc
          rw [call, hk] at hq
          simp only at hq
          split at hq
          · simp at hq
          · rename_i hr
            split at hq
            · simp at hq
            · rename_i hb
              simp only [Bool.true_and, Bool.not_eq_true, Bool.or_eq_false_iff, decide_eq_false_iff_not] at hb
              refine ⟨hr, hb.1, fun j d hj hd => ?_⟩
              have : j = 0 := by omega
              subst this
              have : e = d := by simpa using hd
              subst this; exact hb.2
        | succ i =>
          obtain ⟨h1, h2, h3⟩ := ih bad' h i c (by simpa using hi) hc
          rw [hmono, Bool.or_eq_false_iff, decide_eq_false_iff_not] at h2
          refine ⟨h1, h2.1, fun j d hj hd => ?_⟩
          cases j with
          | zero => have : e = d := by simpa using hd
                    subst this; exact h2.2
          | succ j => exact h3 j d (by omega) (by simpa using hd)
  obtain ⟨h1, -, h3⟩ := key cs false h i c hi hc
  exact ⟨h1, h3⟩

/-- Three calls, the second fails on the device. -/
example : run true false [⟨.gemm, false, .done⟩, ⟨.gemv, true, .fails⟩, ⟨.dot, false, .done⟩] = (1, true) ∧
    run true false [⟨.getrf, false, .done⟩, ⟨.getrs, false, .rejected⟩] = (1, true) ∧ run true false [⟨.copy, true, .rejected⟩] = (0, true) := by decide

/-- C78, witness.  A `copy` or `axpy` of real vectors that the library rejects goes unnoticed; one that fails on the device is reported by a later call that did not fail. -/
theorem C78_lost_witness : run true false [⟨.copy, false, .rejected⟩, ⟨.dot, false, .done⟩] = (2, false) ∧
    run true false [⟨.axpy, false, .fails⟩, ⟨.dot, false, .done⟩] = (1, true) ∧ run true false [⟨.gemmVbatch, true, .fails⟩] = (1, false) := by decide

/-- C78.  Without synchronisation the calls that are rejected at once still throw; failures on the device are not seen by any call. -/
theorem C78_unsynchronised (cs : List Call) (bad : Bool) (hc : ∀ c ∈ cs, ¬ Unchecked c) :
    run false bad cs = ((cs.takeWhile (fun c => decide (c.fate ≠ .rejected))).length, cs.any (fun c => decide (c.fate = .rejected))) := by
  induction cs generalizing bad with
  | nil => rfl
  | cons c cs ih =>
    have hk := (kind_checked c).mpr (hc c (by simp))
    have ih := fun bad => ih bad (fun d hd => hc d (by simp [hd]))
    obtain ⟨f, b, x⟩ := c
    cases x <;> simp [run, call, hk, ih]

end Nda.DeviceErrors
