import Verif.Model.Mpi
import Verif.Lemmas.Writes
import Verif.Lemmas.SymGrp
import Verif.Lemmas.Contiguous
import Verif.Lemmas.Blocks
import Verif.Props.Algorithms
import Verif.Props.Matrix
/-!
# Buffers and contiguous arrays
-/
namespace Nda.Mpi
open Nda LayoutTransforms Assign Loops Matrix Nda.Spec Nda.Perm IdxMap

variable {α : Type}

theorem zipWith_dense : ∀ {L : List Int}, (∀ l ∈ L, 0 < l) → L ≠ [] →
    prod L ∈ List.zipWith (· * ·) (dense L) L ∧ ∀ y ∈ List.zipWith (· * ·) (dense L) L, y ≤ prod L
  | [], _, h => absurd rfl h
  | l :: L, hp, _ => by
    have hl : 0 < l := hp l List.mem_cons_self
    have hL : 0 < prod L := prod_pos (fun x hx => hp x (List.mem_cons_of_mem _ hx))
    simp only [dense, List.zipWith_cons_cons, prod]
    refine ⟨by rw [Int.mul_comm]; exact List.mem_cons_self, ?_⟩
    intro y hy
    rcases List.mem_cons.mp hy with rfl | hy
    · rw [Int.mul_comm]
    · cases L with
      | nil => simp [dense] at hy
      | cons l' L =>
        have := (zipWith_dense (L := l' :: L) (fun x hx => hp x (List.mem_cons_of_mem _ hx)) (by simp)).2 y hy
        nlinarith

theorem isContiguous_of_dense {m : IdxMap} (hw : WF m) (hd : Dense m) (h0 : m.len ≠ []) (hn : NonNeg m.len) : m.isContiguous = some true := by
  by_cases hz : prod m.len = 0
  · simp [isContiguous, size_eq, hz]
  · obtain ⟨x, h1, h2, h3⟩ := isContiguous_eq hw h0 hz
    have hpos : ∀ l ∈ m.len, 0 < l := by
      intro l hl
      have := hn l hl
      rcases Int.lt_or_eq_of_le this with h | h
      · exact h
      · exfalso
        apply hz
        obtain ⟨a, b, e⟩ := List.append_of_mem hl
        rw [e, prod_append, prod, ← h]; simp
    have hmo : memOrder m.so m.str = dense (memOrder m.so m.len) := by
      have : EvenlySpaced m 1 := hd
      unfold EvenlySpaced at this; simpa using this
    have hsl : m.str.length = m.so.length := by rw [hw.str_len, hw.so_len]
    have hpl : ∀ l ∈ memOrder m.so m.len, 0 < l := fun l hl => hpos l ((memOrder_perm hw.perm hw.so_len.symm).mem_iff.mp hl)
    have hne : memOrder m.so m.len ≠ [] := by
      intro h
      have := congrArg List.length h
      rw [memOrder_length, hw.so_len] at this
      exact h0 (List.eq_nil_of_length_eq_zero (by simpa using this))
    obtain ⟨g1, g2⟩ := zipWith_dense hpl hne
    rw [← hmo] at g1 g2
    have hmm : ∀ y, y ∈ List.zipWith (· * ·) (memOrder m.so m.str) (memOrder m.so m.len) ↔ y ∈ List.zipWith (· * ·) m.str m.len := by
      intro y
      rw [zipWith_memOrder (· * ·) (fun k hk => by have := List.mem_range.mp (hw.perm.mem_iff.mp hk); have := hw.so_len; omega)]
      exact (memOrder_perm hw.perm (by rw [List.length_zipWith, hsl, hw.so_len, Nat.min_self])).mem_iff
    rw [prod_memOrder hw.perm hw.so_len.symm] at g1 g2
    have e1 := h2 _ ((hmm _).mp g1)
    have e2 := g2 x ((hmm x).mpr h1)
    rw [h3]
    simp; omega

theorem memOrder_surj {so : List Nat} (hp : IsPerm so) {x : List Int} (hxl : x.length = so.length) : ∃ idx : List Int, idx.length = so.length ∧ memOrder so idx = x := by
  obtain ⟨y, y1, y2, y3⟩ := applyInverse_spec so x hp hxl
  refine ⟨y, y2, ?_⟩
  apply List.ext_getElem (by rw [memOrder_length, hxl])
  intro u hu hu'
  have hu2 : u < so.length := by omega
  have := y3 u hu2
  simp only [memOrder, List.getElem_map, List.getD_eq_getElem?_getD, this, List.getElem?_eq_getElem hu', Option.getD_some]

/-- A contiguous array or view inside memory of `n` elements. -/
structure Blk (v : View) (n : Nat) : Prop where
  good : Good v n
  dense : Dense v.lay
  ne : v.lay.len ≠ []

/-- Position of an element in the block. -/
def pos (v : View) (idx : List Int) : Int := lin (memOrder v.lay.so v.lay.len) (memOrder v.lay.so idx)

theorem Blk.contig {v : View} {n : Nat} (h : Blk v n) : needContiguous v = .ok () := by
  rw [needContiguous, isContiguous_of_dense h.good.wf h.dense h.ne h.good.nonneg]; rfl

theorem Blk.addr_eq {v : View} {n : Nat} (h : Blk v n) {idx : List Int} (hi : InRange v.lay.len idx) : addr v idx = v.off + pos v idx := by
  have hw := h.good.wf
  have hmo : memOrder v.lay.so v.lay.str = Spec.dense (memOrder v.lay.so v.lay.len) := by
    have : EvenlySpaced v.lay 1 := h.dense
    unfold EvenlySpaced at this; simpa using this
  have hil : idx.length = v.lay.so.length := by rw [hi.length_eq, hw.so_len]
  rw [addr, pos, ← dot_memOrder hw.perm (by rw [hw.str_len, hw.so_len]) hil, hmo, dot_dense _ _ (by rw [memOrder_length, memOrder_length])]

theorem Blk.pos_bounds {v : View} {n : Nat} (h : Blk v n) {idx : List Int} (hi : InRange v.lay.len idx) : 0 ≤ pos v idx ∧ pos v idx < prod v.lay.len := by
  have hw := h.good.wf
  have := lin_bounds ((inRange_memOrder hw.perm hw.so_len.symm (by rw [hi.length_eq, hw.so_len])).mpr hi)
  rw [prod_memOrder hw.perm hw.so_len.symm] at this
  exact this

theorem Blk.pos_surj {v : View} {n : Nat} (h : Blk v n) {k : Int} (h0 : 0 ≤ k) (h1 : k < prod v.lay.len) : ∃ idx, InRange v.lay.len idx ∧ pos v idx = k := by
  have hw := h.good.wf
  obtain ⟨y, hy, e⟩ := lin_surj ((nonNeg_memOrder hw.perm hw.so_len.symm).mpr h.good.nonneg) k h0 (by rw [prod_memOrder hw.perm hw.so_len.symm]; exact h1)
  obtain ⟨idx, hl, rfl⟩ := memOrder_surj hw.perm (x := y) (by rw [hy.length_eq, memOrder_length])
  exact ⟨idx, (inRange_memOrder hw.perm hw.so_len.symm hl).mp hy, e⟩

/-- The block lies in memory. -/
theorem Blk.range {v : View} {n : Nat} (h : Blk v n) (hp : 0 < prod v.lay.len) : 0 ≤ v.off ∧ v.off + prod v.lay.len ≤ n := by
  obtain ⟨i, hi, ei⟩ := h.pos_surj (le_refl 0) hp
  obtain ⟨j, hj, ej⟩ := h.pos_surj (k := prod v.lay.len - 1) (by omega) (by omega)
  have h1 := h.good.fits i hi
  have h2 := h.good.fits j hj
  rw [h.addr_eq hi, ei] at h1
  rw [h.addr_eq hj, ej] at h2
  omega

theorem Blk.one {v : View} {n : Nat} (h : Blk v n) : OneToOne v := by
  intro i j hi hj e
  have hw := h.good.wf
  rw [h.addr_eq hi, h.addr_eq hj] at e
  have hil : i.length = v.lay.so.length := by rw [hi.length_eq, hw.so_len]
  have hjl : j.length = v.lay.so.length := by rw [hj.length_eq, hw.so_len]
  have := lin_inj ((inRange_memOrder hw.perm hw.so_len.symm hil).mpr hi) ((inRange_memOrder hw.perm hw.so_len.symm hjl).mpr hj) (by unfold pos at e; omega)
  exact memOrder_inj hw.perm hil hjl this

theorem Blk.occupies {v : View} {n : Nat} (h : Blk v n) (k : Int) : Occupies v k ↔ v.off ≤ k ∧ k < v.off + prod v.lay.len := by
  constructor
  · rintro ⟨i, hi, rfl⟩
    have := h.pos_bounds hi
    rw [h.addr_eq hi]; omega
  · rintro ⟨h0, h1⟩
    obtain ⟨i, hi, e⟩ := h.pos_surj (k := k - v.off) (by omega) (by omega)
    exact ⟨i, hi, by rw [h.addr_eq hi, e]; omega⟩

theorem pos_c {v : View} (h : v.lay.so = Perm.identity v.lay.len.length) {idx : List Int} (hi : idx.length = v.lay.len.length) : pos v idx = lin v.lay.len idx := by
  rw [pos, h, SymGrp.memOrder_identity rfl, SymGrp.memOrder_identity hi]

theorem readBuf_spec {mem : List α} {p n : Int} (h : 0 < n → 0 ≤ p ∧ p + n ≤ mem.length) :
    ∃ buf, readBuf mem p n = some buf ∧ buf.length = n.toNat ∧ ∀ k : Nat, (k : Int) < n → buf[k]? = val mem (p + k) := by
  unfold readBuf
  generalize hg : (fun k : Nat => rdInt mem (p + Int.ofNat k)) = g
  have hex : ∀ k ∈ List.range n.toNat, ∃ x, g k = some x := by
    intro k hk
    rw [List.mem_range] at hk
    have := h (by omega)
    rw [← hg]
    simp only [rdInt_eq]
    exact val_isSome ⟨by simp; omega, by simp; omega⟩
  have key : ∀ (l : List Nat), (∀ k ∈ l, ∃ x, g k = some x) → ∃ vals, l.mapM g = some vals ∧ vals.length = l.length ∧ ∀ k : Nat, vals[k]? = l[k]?.bind g := by
    intro l
    induction l with
    | nil => intro _; exact ⟨[], rfl, rfl, by simp⟩
    | cons i l ih =>
      intro h
      obtain ⟨x, hx⟩ := h i (by simp)
      obtain ⟨vals, e, hl, hv⟩ := ih (fun j hj => h j (by simp [hj]))
      refine ⟨x :: vals, by rw [List.mapM_cons, hx, e]; rfl, by simp [hl], fun k => ?_⟩
      cases k with
      | zero => simp [hx]
      | succ k => simpa using hv k
  obtain ⟨buf, e, hl, hv⟩ := key _ hex
  refine ⟨buf, e, by simpa using hl, fun k hk => ?_⟩
  rw [hv k, List.getElem?_eq_getElem (by simp; omega), ← hg]
  simp [rdInt_eq]

theorem writeBuf_spec : ∀ (xs : List α) (mem : List α) (p : Int), (xs ≠ [] → 0 ≤ p ∧ p + xs.length ≤ mem.length) →
    ∃ mem', writeBuf mem p xs = some mem' ∧ mem'.length = mem.length ∧ (∀ k : Nat, k < xs.length → val mem' (p + k) = xs[k]?) ∧
      ∀ j, ¬ (p ≤ j ∧ j < p + xs.length) → val mem' j = val mem j
  | [], mem, p, _ => ⟨mem, rfl, rfl, fun k hk => by simp at hk, fun _ _ => rfl⟩
  | x :: xs, mem, p, h => by
    obtain ⟨h0, h1⟩ := h (by simp)
    simp only [List.length_cons] at h1
    obtain ⟨m1, e1, l1, v1, f1⟩ := wrInt_spec (mem := mem) (k := p) ⟨h0, by omega⟩ x
    obtain ⟨m2, e2, l2, v2, f2⟩ := writeBuf_spec xs m1 (p + 1) (fun _ => by rw [l1]; constructor <;> omega)
    refine ⟨m2, by rw [writeBuf, e1]; exact e2, by omega, ?_, ?_⟩
    · intro k hk
      cases k with
      | zero =>
        rw [f2 _ (by simp), Int.natCast_zero, Int.add_zero, v1]; rfl
      | succ k =>
        have := v2 k (by simpa using hk)
        rw [show p + ((k + 1 : Nat) : Int) = p + 1 + (k : Int) by push_cast; ring, this]; rfl
    · intro j hj
      simp only [List.length_cons] at hj
      rw [f2 j (by push_cast at hj; omega), f1 j (by rintro rfl; push_cast at hj; omega)]

theorem displs_succ {counts : List Int} {r : Nat} (h : r < counts.length) : displs counts (r + 1) = displs counts r + counts[r] := by
  rw [displs, displs, List.take_succ_eq_append_getElem h, List.sum_append]; simp

theorem displs_mono {counts : List Int} (hn : ∀ c ∈ counts, 0 ≤ c) {q r : Nat} (h : q ≤ r) : displs counts q ≤ displs counts r := by
  induction r, h using Nat.le_induction with
  | base => exact le_refl _
  | succ r _ ih =>
    by_cases hr : r < counts.length
    · rw [displs_succ hr]
      have := hn _ (List.getElem_mem hr)
      omega
    · have : displs counts (r + 1) = displs counts r := by
        rw [displs, displs, List.take_of_length_le (i := r + 1) (by omega), List.take_of_length_le (i := r) (by omega)]
      rw [this]; exact ih

theorem displs_nonneg {counts : List Int} (hn : ∀ c ∈ counts, 0 ≤ c) (r : Nat) : 0 ≤ displs counts r := by
  have := displs_mono hn (Nat.zero_le r)
  simpa [displs] using this

theorem displs_le {counts : List Int} (hn : ∀ c ∈ counts, 0 ≤ c) (r : Nat) : displs counts r ≤ counts.sum := by
  have h : displs counts (max r counts.length) = counts.sum := by rw [displs, List.take_of_length_le (by omega)]
  rw [← h]
  exact displs_mono hn (by omega)

theorem gatherv_spec (counts : List Int) (base : Int) (bufs : List (List α)) (hlen : bufs.map (fun b => (b.length : Int)) = counts) (mem : List α)
    (hb : 0 < counts.sum → 0 ≤ base ∧ base + counts.sum ≤ mem.length) :
    ∃ mem', gatherv counts base bufs mem = some mem' ∧ mem'.length = mem.length ∧
      (∀ q b, bufs[q]? = some b → ∀ k : Nat, k < b.length → val mem' (base + displs counts q + k) = b[k]?) ∧
      ∀ j, ¬ (base ≤ j ∧ j < base + counts.sum) → val mem' j = val mem j := by
  have hn : ∀ c ∈ counts, 0 ≤ c := by
    intro c hc
    rw [← hlen] at hc
    obtain ⟨b, -, rfl⟩ := List.mem_map.mp hc
    omega
  have hcl : counts.length = bufs.length := by rw [← hlen]; simp
  -- after the first `n` buffers
  have key : ∀ n, n ≤ bufs.length → ∃ mem', ((bufs.take n).zipIdx).foldlM (fun mem (b : List α × Nat) => writeBuf mem (base + displs counts b.2) b.1) mem = some mem' ∧ mem'.length = mem.length ∧
      (∀ q b, q < n → bufs[q]? = some b → ∀ k : Nat, k < b.length → val mem' (base + displs counts q + k) = b[k]?) ∧
      ∀ j, ¬ (base ≤ j ∧ j < base + displs counts n) → val mem' j = val mem j := by
    intro n
    induction n with
    | zero => intro _; exact ⟨mem, by simp, rfl, by intro q b h; omega, fun _ _ => rfl⟩
    | succ n ih =>
      intro hn'
      obtain ⟨m1, e1, l1, v1, f1⟩ := ih (by omega)
      have hc : counts[n] = (bufs[n].length : Int) := by
        have : counts[n]? = (bufs.map (fun b => (b.length : Int)))[n]? := by rw [hlen]
        rw [List.getElem?_eq_getElem (by omega), List.getElem?_eq_getElem (by simp; omega)] at this
        simpa using this
      have hds := displs_succ (counts := counts) (r := n) (by omega)
      have hle := displs_le hn (n + 1)
      have h0 := displs_nonneg hn n
      obtain ⟨m2, e2, l2, v2, f2⟩ := writeBuf_spec bufs[n] m1 (base + displs counts n) (by
        intro hne
        have : 0 < bufs[n].length := List.length_pos_iff.mpr hne
        have := hb (by omega)
        rw [l1]; omega)
      refine ⟨m2, ?_, by omega, ?_, ?_⟩
      · rw [List.take_succ_eq_append_getElem (by omega), List.zipIdx_append, List.foldlM_append, e1]
        simp only [Option.bind_eq_bind, Option.bind_some]
        rw [List.length_take, Nat.min_eq_left (by omega)]
        simp [e2]
      · intro q b hq hqb k hk
        rcases Nat.lt_or_ge q n with hlt | hge
        · have hqs := displs_succ (counts := counts) (r := q) (by omega)
          have hqc : counts[q] = (b.length : Int) := by
            have : counts[q]? = (bufs.map (fun b => (b.length : Int)))[q]? := by rw [hlen]
            rw [List.getElem?_eq_getElem (by omega), List.getElem?_map, hqb] at this
            simpa using this
          have hm := displs_mono hn (show q + 1 ≤ n by omega)
          rw [f2 _ (by omega), v1 q b hlt hqb k hk]
        · obtain rfl : q = n := by omega
          rw [List.getElem?_eq_getElem (by omega)] at hqb
          have hqb := Option.some.inj hqb
          rw [← hqb] at hk ⊢
          exact v2 k hk
      · intro j hj
        rw [f2 j (by omega), f1 j (by omega)]
  obtain ⟨m, e, l, v, f⟩ := key bufs.length (le_refl _)
  rw [List.take_length] at e
  have hs : displs counts bufs.length = counts.sum := by rw [displs, ← hcl, List.take_length]
  refine ⟨m, e, l, fun q b h k hk => v q b ?_ h k hk, by rw [← hs]; exact f⟩
  exact (List.getElem?_eq_some_iff.mp h).1

/-- The target after `resize_or_check_if_view`. -/
theorem resize_spec (junk : α) {isView : Bool} {t : View} {sha : List Int} {mem : List α} (ht : Blk t mem.length) (hv : isView = true → t.lay.len = sha)
    (hs : NonNeg sha) (hl : t.lay.len.length = sha.length) :
    ∃ t' mem', resizeOrCheck junk isView t sha mem = .ok (t', mem') ∧ Blk t' mem'.length ∧ t'.lay.len = sha ∧ t'.lay.so = t.lay.so ∧ mem.length ≤ mem'.length ∧
      (∀ k : Int, k < mem.length → val mem' k = val mem k) ∧ ((t.lay.len = sha ∧ t' = t ∧ mem' = mem) ∨ t'.off = mem.length) := by
  unfold resizeOrCheck
  by_cases h : t.lay.len = sha
  · rw [if_pos h]
    exact ⟨t, mem, rfl, ht, h, rfl, le_refl _, fun _ _ => rfl, Or.inl ⟨h, rfl, rfl⟩⟩
  · rw [if_neg h]
    have hf : isView = false := by cases isView with | false => rfl | true => exact absurd (hv rfl) h
    subst hf
    have hw := ht.good.wf
    obtain ⟨m, hm, e, hlen⟩ := fresh_eq junk (so := t.lay.so) (len := sha) hw.perm (by rw [hw.so_len, hl]) hs mem
    refine ⟨⟨(mem.length : Int), m⟩, mem ++ List.replicate m.size.toNat junk, by rw [e]; rfl, ⟨hm.good _ (by rw [hlen]), hm.dense, ?_⟩, hm.len_eq, hm.so_eq, by simp,
      fun k hk => val_append_left _ hk, Or.inr rfl⟩
    rw [show (View.mk (mem.length : Int) m).lay.len = sha from hm.len_eq]
    intro h'
    rw [h'] at hl
    exact ht.ne (List.eq_nil_of_length_eq_zero (by simpa using hl))

end Nda.Mpi
