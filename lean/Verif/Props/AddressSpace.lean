import Mathlib.Tactic.Tauto
import Mathlib.Tactic.ByContra
import Mathlib.Tactic.Push
import Verif.Spec.AddressSpace
/-!
# C63: promotion of address spaces
-/
namespace Nda.AddressSpace
open Spec

/-- The operands before the first one in unified memory are not in both memories. -/
def Unmixed (l : List Addr) : Prop := ∀ pre post, l = pre ++ post → .unified ∉ pre → ¬ (.host ∈ pre ∧ .device ∈ pre)

theorem promoted_single (a : Addr) : Promoted [a] a := by cases a <;> simp [Promoted]

theorem promoted_cons {a b r : Addr} {l : List Addr} (hp : promotable a b = true) (h : Promoted (stdMax a b :: l) r) : Promoted (a :: b :: l) r := by
  cases a <;> cases b <;> simp [promotable, stdMax, Addr.toNat, Promoted] at hp h ⊢ <;> tauto

theorem combine_cons (a b : Addr) (l : List Addr) : combine a (b :: l) = if promotable a b then combine (stdMax a b) l else none := by
  cases l with
  | nil =>
      simp only [combine]
      by_cases h : promotable a b = true
      · rw [if_pos h, if_pos h]
        cases a <;> cases b <;> rfl
      · rw [if_neg h, if_neg h]
  | cons c an => rfl

theorem combine_nil (a : Addr) : combine a [] = some a := by cases a <;> rfl

/-- C63: the common address space of accepted operands, of any number, is Unified if there is an operand in unified
memory, otherwise Device, Host or None. -/
theorem C63_combine (a : Addr) (l : List Addr) (r : Addr) (h : combine a l = some r) : Promoted (a :: l) r := by
  induction l generalizing a with
  | nil => rw [combine_nil] at h; cases h; exact promoted_single _
  | cons b l ih =>
      rw [combine_cons] at h
      split at h
      · rename_i hp
        exact promoted_cons hp (ih _ h)
      · cases h

theorem unmixed_cons {a b : Addr} {l : List Addr} : Unmixed (a :: b :: l) ↔ promotable a b = true ∧ Unmixed (stdMax a b :: l) := by
  constructor
  · intro h
    have hp : promotable a b = true := by
      have := h [a, b] l rfl
      cases a <;> cases b <;> simp [promotable] at this ⊢
    refine ⟨hp, fun pre post e hu => ?_⟩
    cases pre with
    | nil => simp
    | cons c pre =>
        simp only [List.cons_append, List.cons.injEq] at e
        obtain ⟨rfl, rfl⟩ := e
        have := h (a :: b :: pre) post rfl
        cases a <;> cases b <;> simp [promotable, stdMax, Addr.toNat] at hp hu this ⊢ <;> tauto
  · rintro ⟨hp, h⟩ pre post e hu
    match pre, e with
    | [], _ => simp
    | [c], e =>
        simp only [List.cons_append, List.cons.injEq] at e
        obtain ⟨rfl, -⟩ := e
        cases a <;> simp
    | c :: d :: pre, e =>
        simp only [List.cons_append, List.cons.injEq] at e
        obtain ⟨rfl, rfl, rfl⟩ := e
        have := h (stdMax a b :: pre) post rfl
        cases a <;> cases b <;> simp [promotable, stdMax, Addr.toNat] at hp hu this ⊢ <;> tauto

/-- C63: operands are accepted exactly if those before the first one in unified memory are not in both memories. -/
theorem C63_accepted (a : Addr) (l : List Addr) : (combine a l).isSome ↔ Unmixed (a :: l) := by
  induction l generalizing a with
  | nil =>
      rw [combine_nil]
      simp only [Option.isSome_some, true_iff]
      intro pre post e _
      match pre, e with
      | [], _ => simp
      | [c], e => simp only [List.cons_append, List.cons.injEq] at e; obtain ⟨rfl, -⟩ := e; cases a <;> simp
      | c :: d :: pre, e => simp at e
  | cons b l ih =>
      rw [combine_cons, unmixed_cons]
      split
      · rename_i hp; rw [ih]; simp [hp]
      · rename_i hp; simp [hp]

/-- The order Unified, Device, Host, None. -/
def height : Addr → Nat
  | .none => 0
  | .host => 1
  | .device => 2
  | .unified => 3

theorem height_inj {a b : Addr} (h : height a = height b) : a = b := by cases a <;> cases b <;> simp [height] at h ⊢

theorem promoted_iff {l : List Addr} {r : Addr} : Promoted l r ↔ (∀ a ∈ l, height a ≤ height r) ∧ (r ∈ l ∨ r = .none) := by
  constructor
  · rintro (⟨rfl, h⟩ | ⟨rfl, h, h1⟩ | ⟨rfl, h, h1, h2⟩ | ⟨rfl, h⟩)
    · exact ⟨fun a _ => by cases a <;> simp [height], Or.inl h⟩
    · refine ⟨fun a ha => ?_, Or.inl h⟩
      cases a <;> simp [height]
      exact h1 ha
    · refine ⟨fun a ha => ?_, Or.inl h⟩
      cases a <;> simp [height]
      · exact h1 ha
      · exact h2 ha
    · exact ⟨fun a ha => by rw [h a ha]; exact Nat.le_refl _, Or.inr rfl⟩
  · rintro ⟨h, hr⟩
    have hn : ∀ a, height r < height a → a ∉ l := fun a ha hm => absurd (h a hm) (by omega)
    cases r with
    | unified => exact Or.inl ⟨rfl, by simpa using hr⟩
    | device => exact Or.inr (Or.inl ⟨rfl, by simpa using hr, hn _ (by simp [height])⟩)
    | host => exact Or.inr (Or.inr (Or.inl ⟨rfl, by simpa using hr, hn _ (by simp [height]), hn _ (by simp [height])⟩))
    | none => exact Or.inr (Or.inr (Or.inr ⟨rfl, fun a ha => by
        have := h a ha
        cases a <;> simp [height] at this ⊢⟩))

/-- The spaces `rs` of operands with leaves `ls`. -/
def Covers (ls rs : List Addr) : Prop := (∀ x ∈ ls, ∃ y ∈ rs, height x ≤ height y) ∧ ∀ y ∈ rs, y ∈ ls ∨ y = .none

theorem Covers.promoted {ls rs : List Addr} {r : Addr} (h : Covers ls rs) (hr : Promoted rs r) : Promoted ls r := by
  rw [promoted_iff] at hr ⊢
  refine ⟨fun a ha => ?_, ?_⟩
  · obtain ⟨y, hy, hle⟩ := h.1 a ha
    exact Nat.le_trans hle (hr.1 y hy)
  · rcases hr.2 with hm | hm
    · exact h.2 r hm
    · exact Or.inr hm

theorem Covers.cons {l ls rs : List Addr} {r : Addr} (hr : Promoted l r) (h : Covers ls rs) : Covers (l ++ ls) (r :: rs) := by
  rw [promoted_iff] at hr
  refine ⟨fun x hx => ?_, fun y hy => ?_⟩
  · rcases List.mem_append.mp hx with hx | hx
    · exact ⟨r, by simp, hr.1 x hx⟩
    · obtain ⟨y, hy, hle⟩ := h.1 x hx
      exact ⟨y, by simp [hy], hle⟩
  · rcases List.mem_cons.mp hy with rfl | hy
    · rcases hr.2 with hm | hm
      · exact Or.inl (by simp [hm])
      · exact Or.inr hm
    · rcases h.2 y hy with hm | hm
      · exact Or.inl (by simp [hm])
      · exact Or.inr hm

theorem covers_nil : Covers [] [] := ⟨by simp, by simp⟩

mutual
theorem addrSpace_promoted : ∀ (t : Ty) (r : Addr), addrSpace t = some r → Promoted (leaves t) r
  | .scalar, r, h => by
      simp only [addrSpace, Option.some.injEq] at h
      subst h; simp [leaves, Promoted]
  | .array a, r, h => by
      simp only [addrSpace, Option.some.injEq] at h
      subst h; exact promoted_single a
  | .expr a b, r, h => by
      simp only [addrSpace, Option.bind_eq_bind] at h
      obtain ⟨x, hx, h⟩ := Option.bind_eq_some_iff.mp h
      obtain ⟨y, hy, h⟩ := Option.bind_eq_some_iff.mp h
      have := Covers.cons (addrSpace_promoted a x hx) (Covers.cons (addrSpace_promoted b y hy) covers_nil)
      rw [List.append_nil] at this
      exact this.promoted (C63_combine _ _ _ h)
  | .call a as, r, h => by
      simp only [addrSpace, Option.bind_eq_bind] at h
      obtain ⟨x, hx, h⟩ := Option.bind_eq_some_iff.mp h
      obtain ⟨ys, hy, h⟩ := Option.bind_eq_some_iff.mp h
      exact (Covers.cons (addrSpace_promoted a x hx) (addrSpaces_covers as ys hy)).promoted (C63_combine _ _ _ h)
  | .unary a, r, h => by
      simp only [addrSpace] at h
      exact addrSpace_promoted a r h
theorem addrSpaces_covers : ∀ (ts : List Ty) (rs : List Addr), addrSpaces ts = some rs → Covers (leavesList ts) rs
  | [], rs, h => by
      simp only [addrSpaces, Option.some.injEq] at h
      subst h; exact covers_nil
  | t :: ts, rs, h => by
      simp only [addrSpaces, Option.bind_eq_bind] at h
      obtain ⟨x, hx, h⟩ := Option.bind_eq_some_iff.mp h
      obtain ⟨ys, hy, h⟩ := Option.bind_eq_some_iff.mp h
      cases h
      exact Covers.cons (addrSpace_promoted t x hx) (addrSpaces_covers ts ys hy)
end

/-- C63, expressions: the address space of an expression of any depth, with mapped functions of any number of arguments, is
that of its operands. -/
theorem C63_expression (t : Ty) (r : Addr) (h : addrSpace t = some r) : Promoted (leaves t) r := addrSpace_promoted t r h

theorem combine_no_mix {a : Addr} {l : List Addr} {r : Addr} (h : combine a l = some r) (hu : .unified ∉ a :: l) : ∀ x ∈ a :: l, x = .none ∨ x = r := by
  have h1 := C63_combine a l r h
  have h2 := (C63_accepted a l).mp (by rw [h]; rfl) (a :: l) [] (by simp) hu
  intro x hx
  rcases h1 with ⟨rfl, g⟩ | ⟨rfl, g, h3⟩ | ⟨rfl, g, h3, h4⟩ | ⟨rfl, g⟩
  · exact absurd g hu
  · cases x with
    | none => exact Or.inl rfl
    | host => exact absurd ⟨hx, g⟩ h2
    | device => exact Or.inr rfl
    | unified => exact absurd hx hu
  · cases x with
    | none => exact Or.inl rfl
    | host => exact Or.inr rfl
    | device => exact absurd hx h3
    | unified => exact absurd hx hu
  · exact Or.inl (g x hx)

theorem not_unified {t : Ty} {r : Addr} (h : addrSpace t = some r) (hu : .unified ∉ leaves t) : r ≠ .unified := by
  rintro rfl
  rcases (promoted_iff.mp (C63_expression t _ h)).2 with h | h
  · exact hu h
  · cases h

mutual
theorem no_mix : ∀ (t : Ty) (r : Addr), addrSpace t = some r → .unified ∉ leaves t → ∀ a ∈ leaves t, a = .none ∨ a = r
  | .scalar, r, h, _ => by simp [leaves]
  | .array a, r, h, _ => by
      simp only [addrSpace, Option.some.injEq] at h
      subst h; simp [leaves]
  | .expr a b, r, h, hu => by
      simp only [addrSpace, Option.bind_eq_bind] at h
      obtain ⟨x, hx, h⟩ := Option.bind_eq_some_iff.mp h
      obtain ⟨y, hy, h⟩ := Option.bind_eq_some_iff.mp h
      simp only [leaves, List.mem_append, not_or] at hu ⊢
      have h3 := combine_no_mix h (by
        simp only [List.mem_cons, List.not_mem_nil, or_false, not_or]
        exact ⟨(not_unified hx hu.1).symm, (not_unified hy hu.2).symm⟩)
      rintro z (hz | hz)
      · rcases no_mix a x hx hu.1 z hz with h | rfl
        · exact Or.inl h
        · exact h3 z (by simp)
      · rcases no_mix b y hy hu.2 z hz with h | rfl
        · exact Or.inl h
        · exact h3 z (by simp)
  | .call a as, r, h, hu => by
      simp only [addrSpace, Option.bind_eq_bind] at h
      obtain ⟨x, hx, h⟩ := Option.bind_eq_some_iff.mp h
      obtain ⟨ys, hy, h⟩ := Option.bind_eq_some_iff.mp h
      simp only [leaves, List.mem_append, not_or] at hu ⊢
      obtain ⟨h4, h5⟩ := no_mix_list as ys hy hu.2
      have h3 := combine_no_mix h (by
        simp only [List.mem_cons, not_or]
        exact ⟨(not_unified hx hu.1).symm, h4⟩)
      rintro z (hz | hz)
      · rcases no_mix a x hx hu.1 z hz with h | rfl
        · exact Or.inl h
        · exact h3 z (by simp)
      · rcases h5 z hz with h | h
        · exact Or.inl h
        · exact h3 z (by simp [h])
  | .unary a, r, h, hu => by
      simp only [addrSpace] at h
      exact no_mix a r h hu
theorem no_mix_list : ∀ (ts : List Ty) (rs : List Addr), addrSpaces ts = some rs → .unified ∉ leavesList ts →
    .unified ∉ rs ∧ ∀ a ∈ leavesList ts, a = .none ∨ a ∈ rs
  | [], rs, h, _ => by
      simp only [addrSpaces, Option.some.injEq] at h
      subst h; simp [leavesList]
  | t :: ts, rs, h, hu => by
      simp only [addrSpaces, Option.bind_eq_bind] at h
      obtain ⟨x, hx, h⟩ := Option.bind_eq_some_iff.mp h
      obtain ⟨ys, hy, h⟩ := Option.bind_eq_some_iff.mp h
      cases h
      simp only [leavesList, List.mem_append, not_or] at hu ⊢
      obtain ⟨h4, h5⟩ := no_mix_list ts ys hy hu.2
      refine ⟨by simp only [List.mem_cons, not_or]; exact ⟨(not_unified hx hu.1).symm, h4⟩, ?_⟩
      rintro z (hz | hz)
      · rcases no_mix t x hx hu.1 z hz with h | rfl
        · exact Or.inl h
        · exact Or.inr (by simp)
      · rcases h5 z hz with h | h
        · exact Or.inl h
        · exact Or.inr (by simp [h])
end

/-- C63, one processor: if no operand of an accepted expression is in unified memory, all its operands are in one memory, so one
processor reaches them all.  Partial: with an operand in unified memory this fails (`C63_mixed_witness`). -/
theorem C63_one_processor_partial (t : Ty) (r : Addr) (h : addrSpace t = some r) (hu : .unified ∉ leaves t) :
    (∀ a ∈ leaves t, a = .none ∨ a = r) ∧ ∃ s : Side, ∀ a ∈ leaves t, s.Reaches a := by
  have h1 := no_mix t r h hu
  refine ⟨h1, ?_⟩
  by_cases hr : r = .device
  · refine ⟨.gpu, fun a ha => ?_⟩
    rcases h1 a ha with rfl | rfl
    · simp [Side.Reaches]
    · subst hr; simp [Side.Reaches]
  · refine ⟨.cpu, fun a ha => ?_⟩
    rcases h1 a ha with rfl | rfl
    · simp [Side.Reaches]
    · exact hr

/-- C63, two operands: acceptance and result do not depend on their order. -/
theorem C63_commutes (a b : Addr) : combine a [b] = combine b [a] := by cases a <;> cases b <;> rfl

/-- C63, run time: arrays are found compatible exactly if one processor reaches them all (and all have memory). -/
theorem C63_compatible (as : List Addr) : haveCompatible as = true ↔ ∃ s : Side, ∀ a ∈ as, a ≠ .none ∧ s.Reaches a := by
  simp only [haveCompatible, haveHost, haveDevice, Bool.or_eq_true, List.all_eq_true, onHost, onDevice, onUnified, beq_iff_eq]
  constructor
  · rintro (h | h)
    · exact ⟨.cpu, fun a ha => by rcases h a ha with rfl | rfl <;> simp [Side.Reaches]⟩
    · exact ⟨.gpu, fun a ha => by rcases h a ha with rfl | rfl <;> simp [Side.Reaches]⟩
  · rintro ⟨s, h⟩
    cases s with
    | cpu => exact Or.inl (fun a ha => by have := h a ha; cases a <;> simp [Side.Reaches] at this ⊢)
    | gpu => exact Or.inr (fun a ha => by have := h a ha; cases a <;> simp [Side.Reaches] at this ⊢)

/-- C63, run time: `have_same_addr_space` holds exactly if there is one address space that all of the arguments are in. -/
theorem C63_same (a : Addr) (as : List Addr) : haveSame a as = true ↔ ∃ s, ∀ x ∈ a :: as, x = s := by
  simp only [haveSame, List.all_eq_true, beq_iff_eq]
  constructor
  · exact fun h => ⟨a, fun x hx => by rcases List.mem_cons.mp hx with rfl | hx; exacts [rfl, (h x hx).symm]⟩
  · rintro ⟨s, h⟩ x hx
    rw [h x (List.mem_cons_of_mem _ hx), h a List.mem_cons_self]

example : haveSame .device [.device, .device] = true ∧ haveSame .device [.host, .device] = false := by decide

/-- C63 fails with unified memory: `(host + unified) + device` is accepted although no processor reaches all three operands, and `host + device` alone
is not. -/
theorem C63_mixed_witness :
    let t : Ty := .expr (.expr (.array .host) (.array .unified)) (.array .device)
    addrSpace t = some .unified ∧ (¬ ∃ s : Side, ∀ a ∈ leaves t, s.Reaches a) ∧ addrSpace (.expr (.array .host) (.array .device)) = none := by
  refine ⟨by decide, ?_, by decide⟩
  rintro ⟨s, h⟩
  cases s
  · exact h .device (by simp [leaves]) rfl
  · exact h .host (by simp [leaves]) rfl

/-- C63 fails: for three operands acceptance depends on their order. -/
theorem C63_order_witness : combine .host [.unified, .device] = some .unified ∧ combine .host [.device, .unified] = none := by decide

/-- Scalars take part in any expression; a mapped function of three arrays on the device. -/
example : addrSpace (.call (.expr .scalar (.array .device)) [.array .device, .unary (.array .device)]) = some .device ∧
    .unified ∉ leaves (.call (.expr .scalar (.array .device)) [.array .device, .unary (.array .device)]) := by decide

end Nda.AddressSpace
