import Verif.Spec.Spaces
import Verif.Props.Programs
import Verif.Props.AddressSpace
/-!
# Lemmas: programs on arrays in several memories
-/
namespace Nda.Spaces
open Nda Nda.Spec LayoutTransforms Assign Arith Programs Programs.Spec Nda.Spaces.Spec AddressSpace AddressSpace.Spec Nda.Perm Nda.IdxMap

variable {α : Type}

/-! ### The processor's part of memory -/

theorem val_take {mem : List α} {lim : Nat} {k : Int} (h : k < ((mem.take lim).length : Int)) : val (mem.take lim) k = val mem k := by
  unfold val
  split
  · rfl
  · rw [List.length_take] at h
    rw [List.getElem?_take_of_lt (by omega)]

theorem val_append_left {m t : List α} {k : Int} (h : k < (m.length : Int)) : val (m ++ t) k = val m k := by
  unfold val
  split
  · rfl
  · rw [List.getElem?_append_left (by omega)]

/-- What happened in the processor's part of memory happened in memory. -/
theorem updated_lift {a : View} {f : List Int → Option α} {mem m' : List α} {lim : Nat} (ha : Good a (mem.take lim).length) (h : Updated a f (mem.take lim) m') :
    Updated a f mem (m' ++ mem.drop lim) := by
  have hs := h.size
  refine ⟨?_, fun idx hi => ?_, fun k hk => ?_⟩
  · rw [List.length_append, hs, ← List.length_append, List.take_append_drop]
  · rw [val_append_left (by rw [hs]; exact (ha.fits idx hi).2)]
    exact h.elems idx hi
  · by_cases hlt : k < ((mem.take lim).length : Int)
    · rw [val_append_left (by rw [hs]; exact hlt), h.frame k hk, val_take hlt]
    · conv_rhs => rw [← List.take_append_drop lim mem]
      unfold val
      split
      · rfl
      · rw [List.getElem?_append_right (by omega), List.getElem?_append_right (by omega), hs]

theorem onCpu_some {lim : Nat} {f : List α → Option (List α)} {mem m' : List α} (h : f (mem.take lim) = some m') : onCpu lim f mem = some (m' ++ mem.drop lim) := by
  simp [onCpu, h]

theorem good_take {v : View} {mem : List α} {lim : Nat} (h : Good v mem.length) (hv : ∀ idx, InRange v.lay.len idx → addr v idx < lim) :
    Good v (mem.take lim).length := by
  refine ⟨h.wf, h.flags, h.nonneg, fun idx hi => ?_⟩
  have h1 := h.fits idx hi
  have h2 := hv idx hi
  rw [List.length_take]
  omega

/-! ### Copies -/

theorem blockLoop_nogaps {size ds : Int} : ∀ {ls ss : List Int} (st : Blocks), ss.length = ls.length → gaps ls ss = 0 → blockLoop size ds (ls.zip ss) st = some (some st)
  | [], [], st, _, _ => rfl
  | [l], [s], st, _, h => by
      simp only [gaps] at h
      split at h
      · simp_all [blockLoop]
      · omega
  | l :: l' :: ls, s :: s' :: ss, st, hl, h => by
      simp only [gaps] at h
      have h1 : s = s' * l' := by by_contra hc; rw [if_neg hc] at h; omega
      have h2 : gaps (l' :: ls) (s' :: ss) = 0 := by omega
      have ih := blockLoop_nogaps (size := size) (ds := ds) (ls := l' :: ls) (ss := s' :: ss) st (by simpa using hl) h2
      simp only [List.zip_cons_cons] at ih ⊢
      rw [blockLoop]
      simp only [h1, ne_eq, not_true_eq_false, if_false]
      exact ih
  | [], _ :: _, _, hl, _ => by simp at hl
  | _ :: _, [], _, hl, _ => by simp at hl
  | [_], _ :: _ :: _, _, hl, _ => by simp at hl
  | _ :: _ :: _, [_], _, hl, _ => by simp at hl

theorem getBlockLayout_nogaps {m : IdxMap} (hw : WF m) (hne : m.len ≠ []) (hg : gaps (memOrder m.so m.len) (memOrder m.so m.str) = 0) :
    ∃ b : Blocks, getBlockLayout m = some (some b) ∧ b.n = 1 := by
  have hl : m.len.length = m.so.length := hw.so_len.symm
  have hs : m.str.length = m.so.length := by rw [hw.str_len, hw.so_len]
  have hsl : (memOrder m.so m.str).length = (memOrder m.so m.len).length := by simp [memOrder_length]
  have hne' : memOrder m.so m.len ≠ [] := by
    intro h; have := congrArg List.length h; rw [memOrder_length] at this
    exact hne (List.length_eq_zero_iff.mp (by simpa [hl] using this))
  rw [getBlockLayout, apply_perm_eq_memOrder hw.perm hl, apply_perm_eq_memOrder hw.perm hs]
  generalize memOrder m.so m.len = ls at *
  generalize memOrder m.so m.str = ss at *
  obtain ⟨l0, ls', rfl⟩ := List.exists_cons_of_ne_nil hne'
  obtain ⟨s0, ss', rfl⟩ : ∃ a b, ss = a :: b := by
    cases ss with
    | nil => simp at hsl
    | cons a b => exact ⟨a, b, rfl⟩
  simp only [Option.bind_eq_bind, Option.bind_some]
  exact ⟨_, blockLoop_nogaps _ hsl hg, rfl⟩

/-- If one side has no gaps and the other at most one, the copy by blocks is possible. -/
theorem blockCopy_possible {a b : View} (hwa : WF a.lay) (hwb : WF b.lay) (hba : BlockOK a.lay) (hbb : BlockOK b.lay)
    (hlen : b.lay.len = a.lay.len) (h : (gapsOf a = 0 ∧ gapsOf b ≤ 1) ∨ (gapsOf a ≤ 1 ∧ gapsOf b = 0)) (mem : List α) :
    blockCopy a b mem ≠ some .fallback := by
  have h1 : gapsOf a ≤ 1 ∧ gapsOf b ≤ 1 := by omega
  rcases getBlockLayout_spec hwa hba with ⟨g, -⟩ | ⟨-, da, ea, a1, a2, a3, a4, -⟩
  · unfold gapsOf at h1; omega
  rcases getBlockLayout_spec hwb hbb with ⟨g, -⟩ | ⟨-, db, eb, b1, b2, b3, b4, -⟩
  · unfold gapsOf at h1; omega
  have hab : da.n * da.size = db.n * db.size := by rw [a4, b4, hlen]
  have hn : da.n = 1 ∨ db.n = 1 := by
    rcases h with ⟨g, -⟩ | ⟨-, g⟩
    · obtain ⟨b', e, hb'⟩ := getBlockLayout_nogaps hwa hba.ne g
      rw [ea] at e; cases e; exact Or.inl hb'
    · obtain ⟨b', e, hb'⟩ := getBlockLayout_nogaps hwb hbb.ne g
      rw [eb] at e; cases e; exact Or.inr hb'
  rw [blockCopy, ea, eb]
  simp only [Option.bind_eq_bind, Option.bind_some]
  rw [if_neg (by rw [a4, b4, hlen]; simp)]
  have hc : ∀ d' s' : Blocks, (if da.n = 1 ∧ db.n > 1 then (⟨db.n, da.size.tdiv db.n, da.size.tdiv db.n⟩ : Blocks) else da) = d' →
      (if db.n = 1 ∧ d'.n > 1 then (⟨d'.n, db.size.tdiv d'.n, db.size.tdiv d'.n⟩ : Blocks) else db) = s' → d'.n = s'.n ∧ d'.size = s'.size := by
    intro d' s' hd hs
    by_cases c1 : da.n = 1 ∧ db.n > 1
    · rw [if_pos c1] at hd
      subst hd
      rw [if_neg (by omega)] at hs
      subst hs
      have hsz : da.size = db.n * db.size := by rw [← hab, c1.1, one_mul]
      exact ⟨rfl, by simp only; rw [hsz, Int.mul_tdiv_cancel_left _ (by omega)]⟩
    · rw [if_neg c1] at hd
      subst hd
      by_cases c2 : db.n = 1 ∧ da.n > 1
      · rw [if_pos c2] at hs
        subst hs
        have hsz : db.size = da.n * da.size := by rw [hab, c2.1, one_mul]
        exact ⟨rfl, by simp only; rw [hsz, Int.mul_tdiv_cancel_left _ (by omega)]⟩
      · rw [if_neg c2] at hs
        subst hs
        have : da.n = 1 ∧ db.n = 1 := by omega
        rw [this.1, this.2, one_mul, one_mul] at hab
        exact ⟨by rw [this.1, this.2], hab⟩
  have hc := hc _ _ rfl rfl
  rw [if_pos hc]
  intro hf
  simp only [Option.bind_eq_some_iff, Option.pure_def, Option.some.injEq, reduceCtorEq, and_false, exists_false] at hf

theorem onDevice_addr (s : Space) : onDevice (addrOf s) = true ↔ s = .device := by cases s <;> simp [addrOf, onDevice]
theorem onHost_addr (s : Space) : onHost (addrOf s) = true ↔ s = .host := by cases s <;> simp [addrOf, onHost]

/-- The copy of an array in memory to another, in whatever memories. -/
theorem assignS_copy {lim : Nat} {sa sb : Space} {a b : View} {mem : List α} (ha : Good a mem.length) (hb : Good b mem.length) (hlen : b.lay.len = a.lay.len)
    (h1 : OneToOne a) (hsep : Separate a b) (h0 : a.lay.len ≠ []) (va : sa ≠ .device → Good a (mem.take lim).length) (vb : sb ≠ .device → Good b (mem.take lim).length)
    (hblk : (sa = .host ∧ sb = .host) ∨ a.lay.so ≠ b.lay.so ∨ (BlockOK a.lay ∧ BlockOK b.lay)) :
    (∃ mem', assignS lim (addrOf sa) (addrOf sb) a (.inMem b false) mem = some (some mem') ∧ Updated a (fun idx => val mem (addr b idx)) mem mem') ∨
      (assignS lim (addrOf sa) (addrOf sb) a (.inMem b false) mem = some none ∧ (sa = .device ∨ sb = .device) ∧
        (a.lay.so = b.lay.so → blockCopy a b mem = some .fallback)) := by
  have lift : ∀ m', sa ≠ .device → sb ≠ .device → Updated a (fun idx => val (mem.take lim) (addr b idx)) (mem.take lim) m' →
      Updated a (fun idx => val mem (addr b idx)) mem (m' ++ mem.drop lim) := by
    intro m' da db hu
    have := updated_lift (va da) hu
    refine ⟨this.size, fun idx hi => ?_, this.frame⟩
    rw [this.elems idx hi, val_take ((vb db).fits idx (by rw [hlen]; exact hi)).2]
  have hfb : (a.lay.so = b.lay.so → blockCopy a b mem = some .fallback ∨ (sa ≠ .device ∧ sb ≠ .device)) →
      (∃ mem', fallbackS lim (addrOf sa) (addrOf sb) a (.inMem b false) mem = some (some mem') ∧ Updated a (fun idx => val mem (addr b idx)) mem mem') ∨
      (fallbackS lim (addrOf sa) (addrOf sb) a (.inMem b false) mem = some none ∧ (sa = .device ∨ sb = .device) ∧
        (a.lay.so = b.lay.so → blockCopy a b mem = some .fallback)) := by
    intro hbc
    rw [fallbackS]
    by_cases hd : (onDevice (addrOf sa) || onDevice (addrOf sb)) = true
    · right; rw [if_pos hd]
      rw [Bool.or_eq_true, onDevice_addr, onDevice_addr] at hd
      refine ⟨rfl, hd, fun h => ?_⟩
      rcases hbc h with h | h
      · exact h
      · rcases hd with h' | h'
        · exact absurd h' h.1
        · exact absurd h' h.2
    · left
      have hd' := hd
      rw [Bool.or_eq_true, onDevice_addr, onDevice_addr, not_or] at hd'
      obtain ⟨m', e, hu⟩ := elementwise_copy (null := false) (va hd'.1) (vb hd'.2) hlen h1 hsep
      rw [if_neg hd, onCpu_some e]
      exact ⟨_, rfl, lift m' hd'.1 hd'.2 hu⟩
  rw [assignS]
  by_cases hso : a.lay.so = b.lay.so
  · rw [if_pos hso]
    simp only [Bool.false_eq_true, if_false]
    by_cases hh : sa = .host ∧ sb = .host
    · rw [if_pos (by rw [Bool.and_eq_true, onHost_addr, onHost_addr]; exact hh)]
      have da : sa ≠ .device := by rw [hh.1]; decide
      have db : sb ≠ .device := by rw [hh.2]; decide
      by_cases hs : (a.lay.prop.strided1d && b.lay.prop.strided1d) = true
      · rw [if_pos hs]
        left
        rw [Bool.and_eq_true] at hs
        obtain ⟨m', e, hu⟩ := copy_enum (va da) (vb db) hlen h1 hsep (enum_memBox ha.wf)
        rw [← linearCopy_eq ha.wf hb.wf ha.flags hb.flags ha.nonneg hlen hso (Or.inl h0) hs.1 hs.2] at e
        rw [onCpu_some e]
        exact ⟨_, rfl, lift m' da db hu⟩
      · rw [if_neg hs]; exact hfb (fun _ => Or.inr ⟨da, db⟩)
    · rw [if_neg (by rw [Bool.and_eq_true, onHost_addr, onHost_addr]; exact hh)]
      have hblk' : BlockOK a.lay ∧ BlockOK b.lay := by
        rcases hblk with h | h | h
        · exact absurd h hh
        · exact absurd hso h
        · exact h
      rcases blockCopy_eq ha.wf hb.wf hblk'.1 hblk'.2 hlen hso hsep mem with e | e
      · have r := hfb (fun _ => Or.inl e)
        rw [e] at r ⊢
        exact r
      · obtain ⟨mem', e', hu⟩ := copy_enum ha hb hlen h1 hsep (enum_memBox ha.wf)
        rw [e, e']
        exact Or.inl ⟨mem', rfl, hu⟩
  · rw [if_neg hso]; exact hfb (fun h => absurd h hso)

/-! ### Address spaces of expressions -/

theorem combine_device {l : List Addr} : ∀ {a : Addr}, a = .device ∨ a = .none → (∀ x ∈ l, x = .device ∨ x = .none) → ∃ r, combine a l = some r ∧ (r = .device ∨ r = .none) := by
  induction l with
  | nil => intro a ha _; exact ⟨a, combine_nil a, ha⟩
  | cons b l ih =>
      intro a ha hl
      have hb := hl b (by simp)
      rw [combine_cons]
      have : promotable a b = true ∧ (stdMax a b = .device ∨ stdMax a b = .none) := by
        rcases ha with rfl | rfl <;> rcases hb with rfl | rfl <;> decide
      rw [if_pos this.1]
      exact ih this.2 (fun x hx => hl x (by simp [hx]))

theorem combine_near {l : List Addr} : ∀ {a : Addr}, a ≠ .device → (∀ x ∈ l, x ≠ .device) → ∃ r, combine a l = some r ∧ r ≠ .device := by
  induction l with
  | nil => intro a ha _; exact ⟨a, combine_nil a, ha⟩
  | cons b l ih =>
      intro a ha hl
      have hb := hl b (by simp)
      rw [combine_cons]
      have : promotable a b = true ∧ stdMax a b ≠ .device := by
        cases a <;> cases b <;> simp_all [promotable, stdMax, Addr.toNat]
      rw [if_pos this.1]
      exact ih this.2 (fun x hx => hl x (by simp [hx]))

theorem addrSpaces_ofFn {n : Nat} {ts : Fin n → Ty} {rs : Fin n → Addr} (h : ∀ i, addrSpace (ts i) = some (rs i)) : addrSpaces (List.ofFn ts) = some (List.ofFn rs) := by
  induction n with
  | zero => simp [addrSpaces]
  | succ n ih =>
      rw [List.ofFn_succ, List.ofFn_succ, addrSpaces, h 0, ih (fun i => h i.succ)]
      rfl

/-- The address space of an expression on the device. -/
theorem ty_device {env : List Var} : ∀ e : PExpr α, (∀ q ∈ places e, OnDevice env q.2.name) → ∃ t, tyOf env e = some t ∧ addrSpace t = some .device := by
  intro e
  induction e with
  | arr a p =>
      intro h
      obtain ⟨x, h1, h2⟩ := h (a, p) (by simp [places])
      exact ⟨.array .device, by simp only at h1; simp [tyOf, h1, h2, addrOf], by simp [addrSpace]⟩
  | neg e ih => intro h; obtain ⟨t, h1, h2⟩ := ih h; exact ⟨.unary t, by simp [tyOf, h1], by simp [addrSpace, h2]⟩
  | bin op l r ihl ihr =>
      intro h
      obtain ⟨t, h1, h2⟩ := ihl (fun q hq => h q (by simp [places, hq]))
      obtain ⟨u, g1, g2⟩ := ihr (fun q hq => h q (by simp [places, hq]))
      exact ⟨.expr t u, by simp [tyOf, h1, g1], by simp [addrSpace, h2, g2, combine, promotable, stdMax]⟩
  | scalL op s r ih => intro h; obtain ⟨t, h1, h2⟩ := ih h; exact ⟨.expr .scalar t, by simp [tyOf, h1], by simp [addrSpace, h2, combine, promotable, stdMax, Addr.toNat]⟩
  | scalR op l s ih => intro h; obtain ⟨t, h1, h2⟩ := ih h; exact ⟨.expr t .scalar, by simp [tyOf, h1], by simp [addrSpace, h2, combine, promotable, stdMax, Addr.toNat]⟩
  | call n f es ih =>
      intro h
      choose ts h1 h2 using fun i => ih i (fun q hq => h q (by simp only [places, List.mem_flatMap]; exact ⟨i, List.mem_finRange i, hq⟩))
      refine ⟨.call (ts 0) (List.ofFn (fun i : Fin n => ts i.succ)), by simp [tyOf, sequence_some h1], ?_⟩
      rw [addrSpace, h2 0, addrSpaces_ofFn (rs := fun _ : Fin n => .device) (fun i => h2 i.succ)]
      simp only [Option.bind_eq_bind, Option.bind_some]
      obtain ⟨r, hr, hd⟩ := combine_device (a := .device) (l := List.ofFn (fun _ : Fin n => Addr.device)) (Or.inl rfl) (by simp)
      rw [hr]
      rcases hd with rfl | rfl
      · rfl
      · rcases C63_combine _ _ _ hr with ⟨h, -⟩ | ⟨h, -⟩ | ⟨h, -⟩ | ⟨-, h⟩
        · cases h
        · cases h
        · cases h
        · exact absurd (h .device (by simp)) (by decide)

/-- The address space of an expression that does not use the device. -/
theorem ty_near {env : List Var} : ∀ e : PExpr α, (∀ q ∈ places e, (∃ x, env[q.2.name]? = some x) ∧ ¬ OnDevice env q.2.name) →
    ∃ t r, tyOf env e = some t ∧ addrSpace t = some r ∧ r ≠ .device := by
  intro e
  induction e with
  | arr a p =>
      intro h
      obtain ⟨⟨x, h1⟩, h2⟩ := h (a, p) (by simp [places])
      simp only at h1 h2
      refine ⟨.array (addrOf x.space), addrOf x.space, by simp [tyOf, h1], by simp [addrSpace], fun hc => h2 ⟨x, h1, ?_⟩⟩
      rw [← onDevice_addr, hc]; rfl
  | neg e ih => intro h; obtain ⟨t, r, h1, h2, h3⟩ := ih h; exact ⟨.unary t, r, by simp [tyOf, h1], by simp [addrSpace, h2], h3⟩
  | bin op l r ihl ihr =>
      intro h
      obtain ⟨t, x, h1, h2, h3⟩ := ihl (fun q hq => h q (by simp [places, hq]))
      obtain ⟨u, y, g1, g2, g3⟩ := ihr (fun q hq => h q (by simp [places, hq]))
      obtain ⟨z, e1, e2⟩ := combine_near (l := [y]) h3 (by simpa using g3)
      exact ⟨.expr t u, z, by simp [tyOf, h1, g1], by simp [addrSpace, h2, g2, e1], e2⟩
  | scalL op s r ih =>
      intro h
      obtain ⟨t, x, h1, h2, h3⟩ := ih h
      obtain ⟨z, e1, e2⟩ := combine_near (a := .none) (l := [x]) (by decide) (by simpa using h3)
      exact ⟨.expr .scalar t, z, by simp [tyOf, h1], by simp [addrSpace, h2, e1], e2⟩
  | scalR op l s ih =>
      intro h
      obtain ⟨t, x, h1, h2, h3⟩ := ih h
      obtain ⟨z, e1, e2⟩ := combine_near (a := x) (l := [.none]) h3 (by simp)
      exact ⟨.expr t .scalar, z, by simp [tyOf, h1], by simp [addrSpace, h2, e1], e2⟩
  | call n f es ih =>
      intro h
      choose ts rs h1 h2 h3 using fun i => ih i (fun q hq => h q (by simp only [places, List.mem_flatMap]; exact ⟨i, List.mem_finRange i, hq⟩))
      obtain ⟨z, e1, e2⟩ := combine_near (a := rs 0) (l := List.ofFn (fun i : Fin n => rs i.succ)) (h3 0) (by
        intro x hx; rw [List.mem_ofFn] at hx; obtain ⟨i, rfl⟩ := hx; exact h3 i.succ)
      refine ⟨.call (ts 0) (List.ofFn (fun i : Fin n => ts i.succ)), z, by simp [tyOf, sequence_some h1], ?_, e2⟩
      rw [addrSpace, h2 0, addrSpaces_ofFn (rs := fun i : Fin n => rs i.succ) (fun i => h2 i.succ)]
      simpa using e1

end Nda.Spaces
