import Verif.Model.Swap
import Verif.Props.Assign
import Verif.Props.IdxMap
import Verif.Props.Views
/-!
# C24: swapping and rebinding views
-/
namespace Nda.Swap
open Nda Assign LayoutTransforms Nda.Spec Nda.Perm

variable {α : Type}

/-- What variable `k` refers to after an operation, in terms of the variables before. -/
def before : VOp → Nat → Nat
  | .swap i j, k => if k = i then j else if k = j then i else k
  | .rebind i j, k => if k = i then j else k

/-- The variables of the operation exist. -/
def exist (n : Nat) : VOp → Prop
  | .swap i j | .rebind i j => i < n ∧ j < n

theorem stdSwap_spec {β : Type} {l : List β} {i j : Nat} (hi : i < l.length) (hj : j < l.length) :
    ∃ l', stdSwap l i j = some l' ∧ l'.length = l.length ∧ ∀ k : Nat, l'[k]? = l[if k = i then j else if k = j then i else k]? := by
  refine ⟨(l.set i l[j]).set j l[i], ?_, by simp, fun k => ?_⟩
  · simp only [stdSwap, List.getElem?_eq_getElem hi, List.getElem?_eq_getElem hj, Option.bind_eq_bind, Option.bind_some]; rfl
  · by_cases h1 : k = j
    · subst h1
      rw [List.getElem?_set_self (by simpa using hj)]
      by_cases h2 : k = i
      · subst h2; simp [hj]
      · simp [h2, hi]
    · rw [List.getElem?_set_ne (Ne.symm h1)]
      by_cases h2 : k = i
      · subst h2; simp [hi, hj]
      · rw [List.getElem?_set_ne (Ne.symm h2)]; simp [h1, h2]

theorem step_spec (e : Env α) (op : VOp) (hp : e.ptrs.length = e.lays.length) (h : exist e.lays.length op) :
    ∃ e', step e op = some e' ∧ e'.mem = e.mem ∧ e'.lays.length = e.lays.length ∧ e'.ptrs.length = e'.lays.length ∧ ∀ k, e'.view k = e.view (before op k) := by
  cases op with
  | swap i j =>
      obtain ⟨l1, a1, a2, a3⟩ := stdSwap_spec (l := e.lays) h.1 h.2
      obtain ⟨l2, b1, b2, b3⟩ := stdSwap_spec (l := e.ptrs) (i := i) (j := j) (by rw [hp]; exact h.1) (by rw [hp]; exact h.2)
      refine ⟨{ e with lays := l1, ptrs := l2 }, ?_, rfl, a2, by simp only; omega, fun k => ?_⟩
      · simp only [step, swap, a1, b1, Option.bind_eq_bind, Option.bind_some]; rfl
      · simp only [Env.view, a3, b3, before]
  | rebind i j =>
      have hi : i < e.ptrs.length := by rw [hp]; exact h.1
      have hj : j < e.ptrs.length := by rw [hp]; exact h.2
      have hv : ∀ k (h1 : k < e.lays.length) (h2 : k < e.ptrs.length), e.view k = some ⟨e.ptrs[k], e.lays[k]⟩ := by
        intro k h1 h2
        simp only [Env.view, List.getElem?_eq_getElem h1, List.getElem?_eq_getElem h2, Option.bind_eq_bind, Option.bind_some]; rfl
      refine ⟨{ e with lays := e.lays.set i e.lays[j], ptrs := e.ptrs.set i e.ptrs[j] }, ?_, rfl, by simp, by simp [hp], fun k => ?_⟩
      · simp only [step, rebind, hv j h.2 hj, hv i h.1 hi, Option.bind_eq_bind, Option.bind_some]; rfl
      · simp only [before]
        by_cases hk : k = i
        · subst hk
          rw [if_pos rfl, hv j h.2 hj]
          simp [Env.view, h.1, hi]
        · rw [if_neg hk]
          simp only [Env.view, List.getElem?_set_ne (Ne.symm hk)]

/-- C24, swap and rebind.  After any sequence of swaps and rebinds of view variables, memory is what it was, and every variable
refers to what `before` says: `swap` exchanges two variables, `rebind` copies one, all others are left alone. -/
theorem C24_bindings (e : Env α) (ops : List VOp) (hp : e.ptrs.length = e.lays.length) (h : ∀ op ∈ ops, exist e.lays.length op) :
    ∃ e', run e ops = some e' ∧ e'.mem = e.mem ∧ ∀ k, e'.view k = e.view (ops.foldr before k) := by
  induction ops generalizing e with
  | nil => exact ⟨e, rfl, rfl, fun _ => rfl⟩
  | cons op ops ih =>
      obtain ⟨e1, h1, h2, h3, h4, h5⟩ := step_spec e op hp (h op (by simp))
      obtain ⟨e2, g1, g2, g3⟩ := ih e1 h4 (fun o ho => by rw [h3]; exact h o (by simp [ho]))
      refine ⟨e2, ?_, g2.trans h2, fun k => ?_⟩
      · rw [run, List.foldlM_cons, h1]; exact g1
      · rw [g3, h5]; rfl

/-- C24, swap: twice is nothing, and it only exchanges. -/
theorem C24_swap (e : Env α) (i j : Nat) (hp : e.ptrs.length = e.lays.length) (hi : i < e.lays.length) (hj : j < e.lays.length) :
    (∃ e', swap e i j = some e' ∧ e'.mem = e.mem ∧ e'.view i = e.view j ∧ e'.view j = e.view i ∧ ∀ k, k ≠ i → k ≠ j → e'.view k = e.view k) ∧
    ∃ e', (do swap (← swap e i j) i j) = some e' ∧ e'.mem = e.mem ∧ ∀ k, e'.view k = e.view k := by
  obtain ⟨e', h1, h2, h3⟩ := C24_bindings e [.swap i j] hp (by simp [exist, hi, hj])
  obtain ⟨e2, g1, g2, g3⟩ := C24_bindings e [.swap i j, .swap i j] hp (by simp [exist, hi, hj])
  refine ⟨⟨e', ?_, h2, ?_, ?_, fun k hki hkj => ?_⟩, ⟨e2, ?_, g2, fun k => ?_⟩⟩
  · simpa [run, step] using h1
  · rw [h3]; simp [before]
  · rw [h3]; simp only [List.foldr, before]; by_cases e : j = i <;> simp [e]
  · rw [h3]; simp [before, hki, hkj]
  · simpa [run, step] using g1
  · rw [g3]; simp only [List.foldr, before]
    by_cases e1 : k = i
    · subst e1; by_cases e2 : j = k <;> simp [e2]
    · by_cases e2 : k = j <;> simp [e1, e2]

example : run (⟨[⟨[2], [1], [0], [0], .contiguous⟩, ⟨[3], [2], [0], [0], .strided⟩, ⟨[1], [1], [0], [0], .contiguous⟩], [0, 5, 7], [1, 2, 3]⟩ : Env Nat)
    [.swap 0 1, .rebind 2 0, .swap 1 2] =
      some ⟨[⟨[3], [2], [0], [0], .strided⟩, ⟨[3], [2], [0], [0], .strided⟩, ⟨[2], [1], [0], [0], .contiguous⟩], [5, 5, 0], [1, 2, 3]⟩ := by decide

/-! ### deep_swap -/

theorem Good.mono {v : View} {n k : Nat} (h : Good v n) (hk : n ≤ k) : Good v k :=
  ⟨h.wf, h.flags, h.nonneg, fun idx hi => ⟨(h.fits idx hi).1, by have := (h.fits idx hi).2; omega⟩⟩

theorem construct_spec (triv : Bool) {t v : View} {null : Bool} {mem : List α} (ht : Good t mem.length) (hv : Good v mem.length) (hlen : v.lay.len = t.lay.len)
    (h1 : OneToOne t) (hsep : Separate t v) (hnull : null = true → prod t.lay.len = 0) (h0 : t.lay.len ≠ []) :
    ∃ mem', construct triv t v null mem = some mem' ∧ Updated t (fun idx => val mem (addr v idx)) mem mem' := by
  unfold construct
  cases triv with
  | true =>
      obtain ⟨mem', e, hu⟩ := C17_assign_host true null t v mem ht hv hlen h1 hsep hnull (Or.inl h0)
      exact ⟨mem', by simp [e], hu⟩
  | false => simpa using elementwise_copy ht hv hlen h1 hsep

/-- C24, deep_swap.  Two views of the same shape that do not overlap (each with distinct elements): their elements are exchanged and nothing
else changes. -/
theorem C24_deep_swap (triv : Bool) (junk : α) (a b : View) (na nb : Bool) (mem : List α) (ha : Good a mem.length) (hb : Good b mem.length)
    (hlen : b.lay.len = a.lay.len) (h1 : OneToOne a) (h2 : OneToOne b) (hsep : Separate a b) (h0 : a.lay.len ≠ [])
    (hna : na = true → prod a.lay.len = 0) (hnb : nb = true → prod a.lay.len = 0) :
    ∃ mem', deepSwap triv junk a b na nb mem = some mem' ∧ mem'.length = mem.length ∧
      (∀ idx, InRange a.lay.len idx → val mem' (addr a idx) = val mem (addr b idx) ∧ val mem' (addr b idx) = val mem (addr a idx)) ∧
      ∀ k, ¬ Occupies a k → ¬ Occupies b k → val mem' k = val mem k := by
  obtain ⟨m, e1, hw, hd, hml, hmso, -, hmp⟩ := IdxMap.ofShape_spec a.lay.len a.lay.so (List.replicate a.lay.so.length 0) .contiguous ha.wf.perm ha.wf.so_len (by simp [ha.wf.so_len])
  obtain ⟨m', e2, -, hsz, hin, hinj, -⟩ := IdxMap.C03_fresh_bijection a.lay.len a.lay.so (List.replicate a.lay.so.length 0) .contiguous ha.wf.perm ha.wf.so_len
    (by simp [ha.wf.so_len]) ha.nonneg
  rw [e1] at e2; cases e2
  have hn : 0 ≤ prod a.lay.len := prod_nonneg ha.nonneg
  have hflags : FlagsOK m := IdxMap.flagsOK_of_dense hd
  let t : View := ⟨(mem.length : Int), m⟩
  have htl : t.lay.len = a.lay.len := hml
  have haddr : ∀ idx, InRange a.lay.len idx → ∃ k, m.call (idx.map .idx) = some k ∧ addr t idx = mem.length + k ∧ 0 ≤ k ∧ k < m.size := by
    intro idx hi
    obtain ⟨k, hk, hk0, hk1⟩ := hin idx hi
    refine ⟨k, hk, ?_, hk0, hk1⟩
    have : element t (idx.map .idx) = some (addr t idx) := element_eq hw hflags (by rw [htl]; exact hi)
    simp only [element, t] at this
    rw [hk] at this
    simpa using this.symm
  have hmem1 : (mem ++ List.replicate m.size.toNat junk).length = mem.length + m.size.toNat := by simp
  have ht : ∀ n, mem.length + m.size.toNat ≤ n → Good t n := by
    intro n hn'
    refine ⟨hw, hflags, by rw [htl]; exact ha.nonneg, fun idx hi => ?_⟩
    rw [htl] at hi
    obtain ⟨k, -, hk, h3, h4⟩ := haddr idx hi
    rw [hk]; omega
  have ht1 : OneToOne t := by
    intro idx jdx hi hj he
    rw [htl] at hi hj
    obtain ⟨k, hk, hk', -⟩ := haddr idx hi
    obtain ⟨k2, hk2, hk2', -⟩ := haddr jdx hj
    apply hinj idx jdx hi hj
    rw [hk, hk2]; congr 1; omega
  have hlt : ∀ v : View, Good v mem.length → v.lay.len = a.lay.len → ∀ idx jdx, InRange a.lay.len idx → InRange a.lay.len jdx → addr v idx < addr t jdx := by
    intro v hv hvl idx jdx hi hj
    obtain ⟨k, -, hk, h3, -⟩ := haddr jdx hj
    have := (hv.fits idx (by rw [hvl]; exact hi)).2
    rw [hk]; omega
  have hval : ∀ k : Int, k < mem.length → val (mem ++ List.replicate m.size.toNat junk) k = val mem k := by
    intro k hk
    unfold val
    split
    · rfl
    · rw [List.getElem?_append_left (by omega)]
  -- tmp = make_regular(a)
  obtain ⟨mem2, s1, u1⟩ := construct_spec triv (t := t) (v := a) (null := na) (mem := mem ++ List.replicate m.size.toNat junk)
    (ht _ (by rw [hmem1])) (Good.mono ha (by omega)) htl.symm ht1
    (fun idx jdx hi hj e => by rw [htl] at hi; have := hlt a ha rfl jdx idx hj hi; omega) (by rw [htl]; exact hna) (by rw [htl]; exact h0)
  have l2 : mem2.length = mem.length + m.size.toNat := by rw [u1.size, hmem1]
  -- a = b
  obtain ⟨mem3, s2, u2⟩ := C17_assign_host true nb a b mem2 (Good.mono ha (by omega)) (Good.mono hb (by omega)) hlen h1 hsep hnb (Or.inl h0)
  have l3 : mem3.length = mem.length + m.size.toNat := by rw [u2.size, l2]
  -- b = tmp
  obtain ⟨mem4, s3, u3⟩ := C17_assign_host true (m.size == 0) b t mem3 (Good.mono hb (by omega)) (ht _ (by omega)) (by rw [htl, hlen]) h2
    (fun idx jdx hi hj e => by rw [hlen] at hi; rw [htl] at hj; have := hlt b hb hlen idx jdx hi hj; omega)
    (fun h => by rw [hlen, ← hsz]; simpa using h) (Or.inl (by rw [hlen]; exact h0))
  have l4 : mem4.length = mem.length + m.size.toNat := by rw [u3.size, l3]
  have hlay : Arr.layoutOf a.lay.so a.lay.len = some m := e1
  have hnt : ∀ k : Int, k < mem.length → ¬ Occupies t k := by
    rintro k hk ⟨idx, hi, he⟩
    rw [htl] at hi
    obtain ⟨z, -, hz, h3, -⟩ := haddr idx hi
    omega
  have htake : ∀ k : Int, k < mem.length → val (mem4.take mem.length) k = val mem4 k := by
    intro k hk
    unfold val
    split
    · rfl
    · rw [List.getElem?_take_of_lt (by omega)]
  refine ⟨mem4.take mem.length, ?_, by rw [List.length_take]; omega, fun idx hi => ⟨?_, ?_⟩, fun k hka hkb => ?_⟩
  · simp only [deepSwap, hlay, Option.bind_eq_bind, Option.bind_some]
    rw [show construct triv ⟨(mem.length : Int), m⟩ a na (mem ++ List.replicate m.size.toNat junk) = some mem2 from s1]
    simp only [Option.bind_some, s2]
    rw [show assign .host .host true b (.inMem ⟨(mem.length : Int), m⟩ (m.size == 0)) mem3 = some (some mem4) from s3]
    rfl
  · have h3 := (ha.fits idx hi).2
    have h4 := (hb.fits idx (by rw [hlen]; exact hi)).2
    rw [htake _ h3, u3.frame _ (fun ⟨jdx, hj, e⟩ => hsep idx jdx hi hj e.symm), u2.elems idx hi, u1.frame _ (hnt _ h4), hval _ h4]
  · have h3 := (ha.fits idx hi).2
    have h4 := (hb.fits idx (by rw [hlen]; exact hi)).2
    have h5 : ¬ Occupies a (addr t idx) := by
      rintro ⟨jdx, hj, e⟩
      have := hlt a ha rfl jdx idx hj hi; omega
    rw [htake _ h4, u3.elems idx (by rw [hlen]; exact hi), u2.frame _ h5, u1.elems idx (by rw [htl]; exact hi), hval _ h3]
  · by_cases hk : k < mem.length
    · rw [htake _ hk, u3.frame _ hkb, u2.frame _ hka, u1.frame _ (hnt _ hk), hval _ hk]
    · unfold val
      rw [if_neg (by omega), if_neg (by omega), List.getElem?_eq_none (by rw [List.length_take]; omega), List.getElem?_eq_none (by omega)]

/-- Row and column views of a 2x4 buffer: strided, and one reversed. -/
example : deepSwap true 0 ⟨0, ⟨[2, 2], [4, 1], [0, 1], [0, 0], .smallest⟩⟩ ⟨7, ⟨[2, 2], [-4, -1], [0, 1], [0, 0], .none⟩⟩ false false [1, 2, 3, 4, 5, 6, 7, 8] =
    some [8, 7, 6, 5, 4, 3, 2, 1] := by decide +kernel

/-- For overlapping views the elements are not exchanged: `deep_swap(a(range(0, 2)), a(range(1, 3)))`. -/
theorem C24_overlap_witness :
    deepSwap true 0 ⟨0, ⟨[2], [1], [0], [0], .contiguous⟩⟩ ⟨1, ⟨[2], [1], [0], [0], .contiguous⟩⟩ false false [10, 20, 30] = some [20, 10, 20] := by decide +kernel

end Nda.Swap
