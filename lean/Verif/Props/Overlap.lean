import Verif.Props.Assign
/-!
# C19: assignment when the right-hand side reads the target
-/
namespace Nda.Assign
open Nda Nda.Spec Nda.Perm Nda.LayoutTransforms Nda.Loops Nda.Grid

variable {α : Type}

/-- **C19** Assigning an expression whose element at a position reads, of the target, only the
element at the same position: the result is computed from the values before the assignment. -/
theorem C19_pointwise (sa sb : Space) (sameType : Bool) (a : View) (f : List Int → List α → Option α) (mem : List α)
    (ha : Good a mem.length) (h1 : OneToOne a) (hsa : sa ≠ .device) (hsb : sb ≠ .device)
    (hd : ∀ idx, InRange a.lay.len idx → ∃ x, f idx mem = some x)
    (hind : ∀ idx, InRange a.lay.len idx → ∀ mem2 : List α, mem2.length = mem.length →
      (∀ k, (¬ Occupies a k ∨ k = addr a idx) → val mem2 k = val mem k) → f idx mem2 = f idx mem) :
    ∃ mem', assign sa sb sameType a (.expr f) mem = some (some mem') ∧ Updated a (fun idx => f idx mem) mem mem' := by
  obtain ⟨mem', e, hu⟩ := assign_enum ha.fits h1 (enum_box a) (fun x mem => f x mem)
    (fun pre x post e mem2 hl hk => by
      have hx : InRange a.lay.len x := mem_box.mp (by rw [e]; simp)
      refine hind x hx mem2 hl (fun k hk' => hk k (fun y hy ey => ?_))
      have hy' : InRange a.lay.len y := mem_box.mp (by rw [e]; simp [hy])
      rcases hk' with hk' | rfl
      · exact hk' ⟨y, hy', ey⟩
      · have hxy := h1 y x hy' hx ey
        subst hxy
        have hnd := (lexEnum_box a.lay.len).nodup
        rw [e, List.nodup_append] at hnd
        exact hnd.2.2 y hy y (by simp) rfl)
    (fun x hx => hd x (mem_box.mp hx))
  refine ⟨mem', ?_, hu⟩
  rw [assign, fallback, if_neg (by simp [hsa, hsb]), elementwise_eq ha.wf ha.flags]
  simp only [Rhs.get]
  rw [e]; rfl

/-- **C19** Compound assignment `a op= b` where `b` shares with `a` at most elements at the same
position (in particular `a op= a`, or `b` elsewhere in memory). -/
theorem C19_compound (op : α → α → Option α) (sa sb : Space) (a b : View) (null : Bool) (mem : List α)
    (ha : Good a mem.length) (hb : Good b mem.length) (hlen : b.lay.len = a.lay.len) (h1 : OneToOne a)
    (hsa : sa ≠ .device) (hsb : sb ≠ .device)
    (hsame : ∀ idx jdx, InRange a.lay.len idx → InRange a.lay.len jdx → addr a jdx = addr b idx → jdx = idx)
    (hop : ∀ x y, ∃ z, op x y = some z) :
    ∃ mem', compound op sa sb a (.inMem b null) mem = some (some mem') ∧
      Updated a (fun idx => do let x ← val mem (addr a idx); let y ← val mem (addr b idx); op x y) mem mem' := by
  have hget : ∀ (idx : List Int), InRange a.lay.len idx → ∀ m2 : List α,
      (do let x ← load a idx m2; let y ← (Rhs.inMem b null).get idx m2; op x y) =
        (do let x ← val m2 (addr a idx); let y ← val m2 (addr b idx); op x y) := by
    intro idx hidx m2
    have hidx' : InRange b.lay.len idx := by rw [hlen]; exact hidx
    simp only [Rhs.get, load, element_eq ha.wf ha.flags hidx, element_eq hb.wf hb.flags hidx', rdInt_eq]
    rfl
  obtain ⟨mem', e, hu⟩ := C19_pointwise sa sb true a
    (fun idx mem => do let x ← load a idx mem; let y ← (Rhs.inMem b null).get idx mem; op x y) mem ha h1 hsa hsb
    (by
      intro idx hidx
      rw [hget idx hidx]
      obtain ⟨x, hx⟩ := val_isSome (ha.fits idx hidx)
      obtain ⟨y, hy⟩ := val_isSome (hb.fits idx (by rw [hlen]; exact hidx))
      obtain ⟨z, hz⟩ := hop x y
      exact ⟨z, by rw [hx, hy]; exact hz⟩)
    (by
      intro idx hidx mem2 _ hk
      rw [hget idx hidx, hget idx hidx, hk _ (Or.inr rfl)]
      have : val mem2 (addr b idx) = val mem (addr b idx) := by
        apply hk
        by_cases ho : Occupies a (addr b idx)
        · obtain ⟨jdx, hj, ej⟩ := ho
          right
          rw [← ej, hsame idx jdx hidx hj ej]
        · exact Or.inl ho
      rw [this])
  refine ⟨mem', e, hu.size, fun idx hidx => ?_, hu.frame⟩
  rw [hu.elems idx hidx, hget idx hidx]

/-! ### Copies between overlapping views -/

theorem exec_frame : ∀ (steps : List (Step α)) {mem mem' : List α}, steps.foldlM exec mem = some mem' →
    ∀ k, k ∉ steps.map Step.dst → val mem' k = val mem k
  | [], mem, mem', h, k, _ => by cases h; rfl
  | p :: steps, mem, mem', h, k, hk => by
    rw [List.foldlM_cons] at h
    simp only [List.map_cons, List.mem_cons, not_or] at hk
    cases hx : p.rhs mem with
    | none => simp [exec, hx] at h
    | some x =>
      simp only [exec, hx, Option.bind_eq_bind, Option.bind_some] at h
      cases hw : wrInt mem p.dst x with
      | none => simp [hw] at h
      | some m1 =>
        simp only [hw, Option.bind_some] at h
        rw [exec_frame steps h k hk.2]
        have hb : 0 ≤ p.dst ∧ p.dst < mem.length := by
          unfold wrInt wr at hw
          split at hw
          · split at hw
            · omega
            · cases hw
          · cases hw
        obtain ⟨m2, e2, _, _, f2⟩ := wrInt_spec hb x
        rw [hw] at e2; cases e2
        exact f2 k hk.1

/-- **C19** Copying between two views over the same memory in a given order: it gives the values
read before the assignment, for all contents of memory, exactly if no location written earlier is
read later. -/
theorem copy_exact [Nontrivial α] {a b : View} {n : Nat} (hfa : Fits' a n) (hfb : Fits' b n) (hlen : b.lay.len = a.lay.len)
    (h1 : OneToOne a) (h1b : OneToOne b) {L : List (List Int)} (hL : Enumerates a L) :
    (∀ mem : List α, mem.length = n → ∃ mem',
      L.foldlM (fun mem x => exec mem ⟨addr a x, fun mem => val mem (addr b x)⟩) mem = some mem' ∧
        Updated a (fun idx => val mem (addr b idx)) mem mem') ↔
    L.Pairwise (fun x y => addr a x ≠ addr b y) := by
  constructor
  · intro h
    by_contra hc
    -- a conflict: x before y with addr a x = addr b y
    obtain ⟨pre, x, mid, y, post, e, hxy⟩ : ∃ pre x mid y post, L = pre ++ x :: (mid ++ y :: post) ∧ addr a x = addr b y := by
      clear h hL
      induction L with
      | nil => exact absurd List.Pairwise.nil hc
      | cons z L ih =>
        by_cases hz : ∀ y ∈ L, addr a z ≠ addr b y
        · obtain ⟨pre, x, mid, y, post, e, h⟩ := ih (fun hp => hc (List.Pairwise.cons hz hp))
          exact ⟨z :: pre, x, mid, y, post, by rw [e]; rfl, h⟩
        · simp only [not_forall, not_not] at hz
          obtain ⟨y, hy, h⟩ := hz
          obtain ⟨mid, post, e⟩ := List.append_of_mem hy
          exact ⟨[], z, mid, y, post, by rw [e]; rfl, h⟩
    have hx : InRange a.lay.len x := (hL.2 x).mp (by rw [e]; simp)
    have hy : InRange a.lay.len y := (hL.2 y).mp (by rw [e]; simp)
    have hnd := hL.1
    have hne : x ≠ y := by
      rw [e, List.nodup_append] at hnd
      have := (List.nodup_cons.mp hnd.2.1).1
      intro h; subst h; simp at this
    have hbx : addr b x ≠ addr a x := by
      intro h
      rw [hxy] at h
      exact hne (h1b x y (by rw [hlen]; exact hx) (by rw [hlen]; exact hy) h)
    -- in every memory the final values at x and y agree
    have key : ∀ mem : List α, mem.length = n → val mem (addr b x) = val mem (addr a x) := by
      intro mem hm
      obtain ⟨mem', er, hu⟩ := h mem hm
      have v1 := hu.elems x hx
      have v2 := hu.elems y hy
      rw [← v1, hxy, ← v2]
      -- decompose the run
      have hmap := dst_nodup h1 hL
      have hrun : (L.map (fun x => (⟨addr a x, fun mem => val mem (addr b x)⟩ : Step α))).foldlM exec mem = some mem' := by
        rw [List.foldlM_map]; exact er
      rw [e] at hrun hmap
      rw [show pre ++ x :: (mid ++ y :: post) = (pre ++ x :: mid) ++ y :: post by simp, List.map_append, List.foldlM_append] at hrun
      cases hm2 : (List.map (fun x => (⟨addr a x, fun mem => val mem (addr b x)⟩ : Step α)) (pre ++ x :: mid)).foldlM exec mem with
      | none => rw [hm2] at hrun; simp at hrun
      | some m2 =>
        rw [hm2] at hrun
        simp only [List.map_cons, Option.bind_eq_bind, Option.bind_some, List.foldlM_cons] at hrun
        -- step y
        cases hv : val m2 (addr b y) with
        | none => simp [exec, hv] at hrun
        | some w =>
          have hyb := hfa y hy
          simp only [exec, hv, Option.bind_some, Option.bind_eq_bind] at hrun
          cases hw : wrInt m2 (addr a y) w with
          | none => simp [hw] at hrun
          | some m3 =>
            simp only [hw, Option.bind_some] at hrun
            have hb : 0 ≤ addr a y ∧ addr a y < m2.length := by
              unfold wrInt wr at hw
              split at hw
              · split at hw
                · omega
                · cases hw
              · cases hw
            obtain ⟨m3', e3, _, w1, w2⟩ := wrInt_spec hb w
            rw [hw] at e3; cases e3
            rw [show pre ++ x :: (mid ++ y :: post) = (pre ++ x :: mid) ++ y :: post by simp, List.map_append, List.nodup_append] at hmap
            have hypost : addr a y ∉ (post.map (fun x => (⟨addr a x, fun mem => val mem (addr b x)⟩ : Step α))).map Step.dst := by
              rw [List.map_map]
              exact (List.nodup_cons.mp hmap.2.1).1
            have hxpost : addr a x ∉ (post.map (fun x => (⟨addr a x, fun mem => val mem (addr b x)⟩ : Step α))).map Step.dst := by
              rw [List.map_map]
              intro hmem
              exact hmap.2.2 (addr a x) (by simp) (addr a x) (List.mem_cons_of_mem _ hmem) rfl
            have hxy' : addr a x ≠ addr a y := fun h => hne (h1 x y hx hy h)
            rw [exec_frame _ hrun _ hypost, w1, ← hxy, exec_frame _ hrun _ hxpost, w2 _ hxy', hxy, hv]
    obtain ⟨p, q, hpq⟩ := exists_pair_ne α
    have hbx1 := hfb x (by rw [hlen]; exact hx)
    have hax1 := hfa x hx
    have := key ((List.replicate n p).set (addr a x).toNat q) (by simp)
    unfold val at this
    rw [if_neg (by omega), if_neg (by omega), List.getElem?_set_ne (by omega), List.getElem?_set_self (by simp; omega),
      List.getElem?_replicate, if_pos (by omega)] at this
    exact hpq (Option.some.inj this)
  · intro hp mem hm
    subst hm
    apply assign_enum hfa h1 hL (fun x mem => val mem (addr b x))
    · intro pre x post e mem2 _ hk
      apply hk
      intro y hy
      rw [e, List.pairwise_append] at hp
      exact hp.2.2 y hy x (by simp)
    · intro x hx
      exact val_isSome (hfb x (by rw [hlen]; exact (hL.2 x).mp hx))

/-- The order in which `assign_from_ndarray` visits the elements on the host: memory order if both
layouts are evenly spaced and of the same stride order, lexicographic otherwise. -/
def VisitOrder (a b : View) (L : List (List Int)) : Prop :=
  if a.lay.so = b.lay.so ∧ a.lay.prop.strided1d = true ∧ b.lay.prop.strided1d = true then MemEnum a.lay.so a.lay.len L
  else LexEnum a.lay.len L

/-- **C19** Assigning a view to a view of the same shape over the same memory (host): the outcome
is, for all contents of memory, what it would be if the right side were read first, exactly if in
the order of traversal no location written earlier is read later. -/
theorem C19_copy_exact [Nontrivial α] (sameType : Bool) (a b : View) (n : Nat) (ha : Good a n) (hb : Good b n)
    (hlen : b.lay.len = a.lay.len) (h1 : OneToOne a) (h1b : OneToOne b) (h0 : a.lay.len ≠ []) :
    ∃ L, VisitOrder a b L ∧
      ((∀ mem : List α, mem.length = n → ∃ mem', assign .host .host sameType a (.inMem b false) mem = some (some mem') ∧
        Updated a (fun idx => val mem (addr b idx)) mem mem') ↔
      L.Pairwise (fun x y => addr a x ≠ addr b y)) := by
  unfold VisitOrder
  by_cases hc : a.lay.so = b.lay.so ∧ a.lay.prop.strided1d = true ∧ b.lay.prop.strided1d = true
  · refine ⟨memBox a.lay.so a.lay.len, ?_, ?_⟩
    · rw [if_pos hc]; exact memEnum_memBox ha.wf.perm ha.wf.so_len.symm
    · rw [← copy_exact (α := α) ha.fits hb.fits hlen h1 h1b (enum_memBox ha.wf)]
      apply forall_congr'; intro mem
      apply imp_congr_right; intro _
      apply exists_congr; intro mem'
      apply and_congr_left'
      rw [assign, if_pos hc.1]
      simp only [Bool.false_eq_true, if_false, and_self, if_true, hc.2.1, hc.2.2, Bool.and_self]
      rw [linearCopy_eq ha.wf hb.wf ha.flags hb.flags ha.nonneg hlen hc.1 (Or.inl h0) hc.2.1 hc.2.2]
      cases (memBox a.lay.so a.lay.len).foldlM (fun mem x => exec mem ⟨addr a x, fun mem => val mem (addr b x)⟩) mem <;> simp
  · refine ⟨box a.lay.len, ?_, ?_⟩
    · rw [if_neg hc]; exact lexEnum_box _
    · rw [← copy_exact (α := α) ha.fits hb.fits hlen h1 h1b (enum_box a)]
      apply forall_congr'; intro mem
      apply imp_congr_right; intro _
      apply exists_congr; intro mem'
      apply and_congr_left'
      have he : assign .host .host sameType a (.inMem b false) mem = (elementwise a (.inMem b false) mem).map some := by
        rw [assign]
        by_cases hso : a.lay.so = b.lay.so
        · rw [if_pos hso]
          simp only [Bool.false_eq_true, if_false, and_self, if_true]
          rw [if_neg (by rw [Bool.and_eq_true]; exact fun h => hc ⟨hso, h⟩), fallback, if_neg (by simp)]
        · rw [if_neg hso, fallback, if_neg (by simp)]
      have hew : elementwise a (.inMem b false) mem =
          (box a.lay.len).foldlM (fun mem x => exec mem ⟨addr a x, fun mem => val mem (addr b x)⟩) mem := by
        rw [elementwise_eq ha.wf ha.flags]
        apply foldlM_congr
        intro x hx s
        have hx' : InRange b.lay.len x := by rw [hlen]; exact mem_box.mp hx
        simp only [exec, Rhs.get, load, element_eq hb.wf hb.flags hx', rdInt_eq]
        rfl
      rw [he, hew]
      cases (box a.lay.len).foldlM (fun mem x => exec mem ⟨addr a x, fun mem => val mem (addr b x)⟩) mem <;> simp

/-- **C19** Shifting right by one inside an array repeats the first element instead. -/
theorem C19_shift_witness :
    assign .host .host true ⟨1, ⟨[3], [1], [0], [0], .contiguous⟩⟩ (.inMem ⟨0, ⟨[3], [1], [0], [0], .contiguous⟩⟩ false)
      [1, 2, 3, (4 : Nat)] = some (some [1, 1, 1, 1]) := by decide
/-- **C19** Shifting left works. -/
theorem C19_shift_left_witness :
    assign .host .host true ⟨0, ⟨[3], [1], [0], [0], .contiguous⟩⟩ (.inMem ⟨1, ⟨[3], [1], [0], [0], .contiguous⟩⟩ false)
      [1, 2, 3, (4 : Nat)] = some (some [2, 3, 4, 4]) := by decide
/-- **C19** Assigning the transpose of a matrix to itself loses one triangle. -/
theorem C19_transpose_witness :
    assign .host .host true ⟨0, ⟨[2, 2], [2, 1], [0, 1], [0, 0], .contiguous⟩⟩
      (.inMem ⟨0, ⟨[2, 2], [1, 2], [1, 0], [0, 0], .contiguous⟩⟩ false)
      [1, 2, 3, (4 : Nat)] = some (some [1, 3, 3, 4]) := by decide
/-- `a += a` doubles. -/
example : compound (fun x y => some (x + y)) .host .host ⟨0, ⟨[2, 2], [2, 1], [0, 1], [0, 0], .contiguous⟩⟩
      (.inMem ⟨0, ⟨[2, 2], [2, 1], [0, 1], [0, 0], .contiguous⟩⟩ false) [1, 2, 3, (4 : Nat)] = some (some [2, 4, 6, 8]) := by decide

end Nda.Assign
