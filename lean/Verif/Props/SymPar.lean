import Verif.Model.SymPar
import Verif.Props.SymInit
import Verif.Props.Mpi
import Verif.Props.Scalar
import Verif.Lemmas.Check
/-!
# C35: the parallel initialisation equals the serial one
-/
namespace Nda.SymGrp
open Nda LayoutTransforms Assign Loops Mpi Nda.Spec Nda.Perm IdxMap

variable {α : Type}

/-! ## The linear indices of an array in any stride order -/

/-- The index at the position in memory that `i` would have in C order. -/
noncomputable def reorder (len : List Int) (so : List Nat) (i : List Int) : List Int :=
  open Classical in if h : ∃ j, InRange len j ∧ lin (memOrder so len) (memOrder so j) = lin len i then h.choose else i

theorem reorder_spec {x : View} {n : Nat} (h : Blk x n) {i : List Int} (hi : InRange x.lay.len i) :
    InRange x.lay.len (reorder x.lay.len x.lay.so i) ∧ pos x (reorder x.lay.len x.lay.so i) = lin x.lay.len i := by
  obtain ⟨h0, h1⟩ := lin_bounds hi
  have hex : ∃ j, InRange x.lay.len j ∧ lin (memOrder x.lay.so x.lay.len) (memOrder x.lay.so j) = lin x.lay.len i := h.pos_surj h0 h1
  have e : reorder x.lay.len x.lay.so i = hex.choose := dif_pos hex
  rw [e]
  exact hex.choose_spec

theorem pos_inj {x : View} {n : Nat} (h : Blk x n) {i j : List Int} (hi : InRange x.lay.len i) (hj : InRange x.lay.len j) (e : pos x i = pos x j) : i = j :=
  h.one i j hi hj (by rw [h.addr_eq hi, h.addr_eq hj, e])

/-- `to_idx` of a contiguous array gives the index of the element at that position. -/
theorem toIdx_pos {x : View} {n : Nat} (h : Blk x n) {i : List Int} (hi : InRange x.lay.len i) : x.lay.toIdx (pos x i) = some i := by
  have hw := h.good.wf
  have h1 : EvenlySpaced x.lay 1 := h.dense
  have h2 : memOrder x.lay.so x.lay.str = Spec.dense (memOrder x.lay.so x.lay.len) := by
    rw [EvenlySpaced] at h1
    simpa using h1
  have := toIdx_offset hw h.ne (by
    rw [h2]
    exact (nested_dense (fun l hl' => hi.nonneg_len l ((memOrder_perm hw.perm hw.so_len.symm).mem_iff.mp hl'))).1) hi
  rw [offset_evenlySpaced hw h1 hi.length_eq, Int.one_mul] at this
  exact this

theorem decodes_of_blk {x : View} {n : Nat} (h : Blk x n) : Decodes x.lay.len x (reorder x.lay.len x.lay.so) := by
  refine ⟨?_, fun i hi => (reorder_spec h hi).1, ?_⟩
  · intro i hi
    obtain ⟨h1, h2⟩ := reorder_spec h hi
    rw [← h2]
    exact toIdx_pos h h1
  · intro i j hi hj e
    refine lin_inj hi hj ?_
    rw [← (reorder_spec h hi).2, ← (reorder_spec h hj).2, e]

theorem reorder_surj {x : View} {n : Nat} (h : Blk x n) {i : List Int} (hi : InRange x.lay.len i) : ∃ j, InRange x.lay.len j ∧ reorder x.lay.len x.lay.so j = i := by
  obtain ⟨h0, h1⟩ := h.pos_bounds hi
  obtain ⟨j, hj, e⟩ := lin_surj h.good.nonneg _ h0 h1
  refine ⟨j, hj, pos_inj h (reorder_spec h hj).1 hi ?_⟩
  rw [(reorder_spec h hj).2, e]

/-- **C34** What `init` does to a contiguous array in any stride order: the linear indices in the classes are taken as positions in memory.  The element at the position of a member gets the
operation applied to the value of the function at the element at the position of the representative.  (In C order the position of an index is its linear index: `C34_init`.) -/
theorem C34_init_positions (len : List Int) (hn : NonNeg len) (syms : List Sym) (hk : KeepRank len.length syms) (maxLen : Int) (neg conj : α → α) (f : List Int → α)
    (x : View) (hlen : x.lay.len = len) (mem : List α) (hx : Blk x mem.length) :
    ∃ fuel0 g, (∀ fuel, fuel0 ≤ fuel → build len syms maxLen fuel = some g) ∧ ∃ mem', init neg conj (classes g) x f mem = some mem' ∧ mem'.length = mem.length ∧
      (∀ k, ¬ Occupies x k → val mem' k = val mem k) ∧
      ∀ c ∈ classes g, ∀ r j p, InRange len r → InRange len j → (c.head?).map Prod.fst = some (pos x r) → p ∈ c → p.1 = pos x j →
        val mem' (addr x j) = some (p.2.ap neg conj (f r)) := by
  subst hlen
  obtain ⟨fuel0, g, L, e, h⟩ := build_spec hn hk maxLen
  obtain ⟨mem', e1, e2, e3, e4⟩ := init_spec h neg conj rfl hx.one (decodes_of_blk hx) f mem hx.good
  refine ⟨fuel0, g, e, mem', by rw [h.classes_eq]; exact e1, e2, e3, ?_⟩
  intro c hc r j p hr hj hh hp ej
  rw [h.classes_eq] at hc
  obtain ⟨r', rest, hr', ec, -⟩ := h.isClass c hc
  rw [ec] at hh
  simp only [List.head?_cons, Option.map_some, Option.some.injEq] at hh
  obtain ⟨j', hj', ejj⟩ := reorder_surj hx hj
  have er : reorder x.lay.len x.lay.so r' = r := pos_inj hx (reorder_spec hx hr').1 hr (by rw [(reorder_spec hx hr').2, hh])
  have := e4 c hc r' rest j' p hr' hj' ec hp (by rw [ej, ← ejj, (reorder_spec hx hj').2])
  rw [ejj, er] at this
  exact this

/-! ## Chunks -/

theorem chunkStart_eq {n : Int} (hn : 0 ≤ n) {size : Nat} (hs : 0 < size) (r : Nat) (hr : r ≤ size) :
    chunkStart n size r = slabStart ((List.range size).map (chunkLength n size)) r := by
  rw [slabStart, ← List.map_take, List.take_range, chunk_sum, chunkStart, Nat.min_eq_left hr]
  have h1 : 0 ≤ n % (size : Int) := Int.emod_nonneg _ (by omega)
  rw [show max 0 (n % (size : Int)) = n % size by omega]

theorem chunks_flatten {β : Type} (l : List β) (size : Nat) (hs : 0 < size) : ((List.range size).map (chunkOf l size)).flatten = l := by
  have hes := C39_chunks (l.length : Int) size hs
  have key : ∀ k, k ≤ size → ((List.range k).map (chunkOf l size)).flatten = l.take (chunkStart l.length size k).toNat := by
    intro k
    induction k with
    | zero => intro _; simp [chunkStart]
    | succ k ih =>
      intro hk
      rw [List.range_succ, List.map_append, List.flatten_append, ih (by omega)]
      simp only [List.map_cons, List.map_nil, List.flatten_cons, List.flatten_nil, List.append_nil, chunkOf]
      have e1 := chunkStart_eq (n := l.length) (by omega) hs k (by omega)
      have e2 := chunkStart_eq (n := l.length) (by omega) hs (k + 1) hk
      have hH0 : ∀ h ∈ (List.range size).map (chunkLength (l.length : Int) size), 0 ≤ h := by
        intro h hh
        obtain ⟨q, -, rfl⟩ := List.mem_map.mp hh
        exact chunk_nonneg (by omega) _ _
      have hs1 := displs_succ (counts := (List.range size).map (chunkLength (l.length : Int) size)) (r := k) (by simp; omega)
      have hs0 := displs_nonneg hH0 k
      have hc := chunk_nonneg (n := (l.length : Int)) (by omega) size k
      simp only [List.getElem_map, List.getElem_range] at hs1
      rw [← List.take_add]
      congr 1
      rw [e1, e2]
      unfold slabStart
      unfold displs at hs1 hs0
      omega
  have : chunkStart (l.length : Int) size size = l.length := by
    rw [chunkStart_eq (by omega) hs size (le_refl _), slabStart, List.take_of_length_le (l := (List.range size).map (chunkLength (l.length : Int) size)) (by simp), hes.sum]
  rw [key size (le_refl _), this]
  simp

/-! ## Executions of a team -/

/-- Every execution is a sequence of all the stores in some order. -/
theorem Run.perm {x : View} {len : List Int} (hlen : x.lay.len = len) (hw : WF x.lay) (hf : FlagsOK x.lay) {ts : List (List (List Int × α))} {mem mem' : List α} (h : Run x ts mem mem')
    (hin : ∀ w ∈ ts.flatten, InRange len w.1) :
    ∃ ws : List (List Int × α), ws.Perm ts.flatten ∧ writeAll (ws.map (fun w => (addr x w.1, w.2))) mem = some mem' := by
  induction h with
  | done ts mem h0 =>
    refine ⟨[], ?_, rfl⟩
    have : ts.flatten = [] := List.flatten_eq_nil_iff.mpr h0
    rw [this]
  | step ts mem mem1 mem' k w rest hk hst _ ih =>
    obtain ⟨hkl, hke⟩ := List.getElem?_eq_some_iff.mp hk
    have hp : ts.flatten.Perm (w :: (ts.set k rest).flatten) := by
      have e1 : ts = ts.take k ++ (w :: rest) :: ts.drop (k + 1) := by
        rw [← hke, List.cons_getElem_drop_succ, List.take_append_drop]
      have e2 : ts.set k rest = ts.take k ++ rest :: ts.drop (k + 1) := List.set_eq_take_append_cons_drop .. |>.trans (by rw [if_pos hkl])
      rw [e2]
      conv_lhs => rw [e1]
      simp only [List.flatten_append, List.flatten_cons, List.cons_append]
      exact List.perm_middle
    obtain ⟨ws, h1, h2⟩ := ih (fun w' hw' => hin w' (hp.mem_iff.mpr (List.mem_cons_of_mem _ hw')))
    refine ⟨w :: ws, (h1.cons w).trans hp.symm, ?_⟩
    rw [store_eq hlen hw hf (hin w (hp.mem_iff.mpr List.mem_cons_self))] at hst
    rw [List.map_cons, writeAll, List.foldlM_cons, hst]
    exact h2

/-- Whatever was done so far, a team can finish. -/
theorem Run.exists {x : View} {len : List Int} (hlen : x.lay.len = len) (hw : WF x.lay) (hf : FlagsOK x.lay) : ∀ (n : Nat) (ts : List (List (List Int × α))) (mem : List α),
    ts.flatten.length = n → (∀ w ∈ ts.flatten, InRange len w.1) → Fits' x mem.length → ∃ mem', Run x ts mem mem'
  | 0, ts, mem, h0, _, _ => ⟨mem, .done ts mem (List.flatten_eq_nil_iff.mp (List.length_eq_zero_iff.mp h0))⟩
  | n + 1, ts, mem, hn, hin, hfit => by
    have hne : ∃ t ∈ ts, t ≠ [] := by
      by_contra hc
      push Not at hc
      rw [List.flatten_eq_nil_iff.mpr hc] at hn
      simp at hn
    obtain ⟨t, ht, htn⟩ := hne
    obtain ⟨k, hkl, hke⟩ := List.mem_iff_getElem.mp ht
    obtain ⟨w, rest, rfl⟩ := List.exists_cons_of_ne_nil htn
    have hp : ts.flatten.Perm (w :: (ts.set k rest).flatten) := by
      have e1 : ts = ts.take k ++ (w :: rest) :: ts.drop (k + 1) := by
        rw [← hke, List.cons_getElem_drop_succ, List.take_append_drop]
      have e2 : ts.set k rest = ts.take k ++ rest :: ts.drop (k + 1) := List.set_eq_take_append_cons_drop .. |>.trans (by rw [if_pos hkl])
      rw [e2]
      conv_lhs => rw [e1]
      simp only [List.flatten_append, List.flatten_cons, List.cons_append]
      exact List.perm_middle
    have hwi := hin w (hp.mem_iff.mpr List.mem_cons_self)
    obtain ⟨m1, e1, l1, -, -⟩ := wrInt_spec (mem := mem) (k := addr x w.1) (hfit w.1 (by rw [hlen]; exact hwi)) w.2
    obtain ⟨mem', h'⟩ := Run.exists hlen hw hf n (ts.set k rest) m1 (by have := hp.length_eq; simp only [List.length_cons] at this; omega)
      (fun w' hw' => hin w' (hp.mem_iff.mpr (List.mem_cons_of_mem _ hw'))) (by rw [l1]; exact hfit)
    exact ⟨mem', .step ts mem m1 mem' k w rest (by rw [List.getElem?_eq_getElem hkl, hke]) (by rw [store_eq hlen hw hf hwi]; exact e1) h'⟩

/-! ## The stores of the classes -/

/-- The stores of one class. -/
def storesOf (neg conj : α → α) (x : View) (f : List Int → α) (c : List (Int × Oper)) : List (List Int × α) :=
  match c with
  | [] => []
  | r :: _ => (ti x r.1, f (ti x r.1)) :: c.map (fun p => (ti x p.1, p.2.ap neg conj (f (ti x r.1))))

theorem storesOf_writes (neg conj : α → α) (x : View) (f : List Int → α) (c : List (Int × Oper)) : (storesOf neg conj x f c).map (fun w => (addr x w.1, w.2)) = writesOf neg conj x f c := by
  cases c with
  | nil => rfl
  | cons r rest => simp [storesOf, writesOf, List.map_map, Function.comp_def]

theorem mapM_some' {β γ : Type} {f : β → Option γ} {g : β → γ} : ∀ {l : List β}, (∀ x ∈ l, f x = some (g x)) → l.mapM f = some (l.map g)
  | [], _ => rfl
  | a :: l, h => by rw [List.mapM_cons, h a List.mem_cons_self, mapM_some' (fun x hx => h x (List.mem_cons_of_mem _ hx))]; rfl

theorem classStores_eq {len : List Int} (neg conj : α → α) {x : View} {τ : List Int → List Int} (hm : Decodes len x τ) (f : List Int → α) {c : List (Int × Oper)}
    (hc : ∀ p ∈ c, ∃ i, InRange len i ∧ p.1 = lin len i) (hne : c ≠ []) : classStores neg conj x f c = some (storesOf neg conj x f c) := by
  have hti : ∀ p ∈ c, x.lay.toIdx p.1 = some (ti x p.1) := by
    intro p hp
    obtain ⟨i, hi, e⟩ := hc p hp
    rw [ti, e, hm.some i hi]; rfl
  cases c with
  | nil => exact absurd rfl hne
  | cons r rest =>
    have h0 : rd (r :: rest) 0 = some r := rfl
    simp only [classStores, h0, Option.bind_eq_bind, Option.bind_some, hti r List.mem_cons_self]
    rw [mapM_some' (g := fun p => (ti x p.1, p.2.ap neg conj (f (ti x r.1))))]
    · rfl
    · intro p hp
      rw [hti p hp]; rfl

theorem mem_chunkOf {β : Type} {l : List β} {size r : Nat} {c : β} (h : c ∈ chunkOf l size r) : c ∈ l := List.mem_of_mem_drop (List.mem_of_mem_take h)

/-- What the threads of a process do. -/
theorem threads_eq {len : List Int} {syms : List Sym} {g : St × List (Nat × Int)} {L : List (List (Int × Oper))} (h : BInv len syms (box len) g L) (neg conj : α → α)
    {x : View} {τ : List Int → List Int} (hm : Decodes len x τ) (f : List Int → α) (size rank nthreads : Nat) :
    threads neg conj x f L size rank nthreads =
      some ((List.range nthreads).map (fun t => (chunkOf (chunkOf L size rank) nthreads t).flatMap (storesOf neg conj x f))) := by
  rw [threads]
  apply mapM_some'
  intro t _
  rw [threadStores, mapM_some' (g := storesOf neg conj x f)]
  · rfl
  · intro c hc
    have hcL := mem_chunkOf (mem_chunkOf hc)
    obtain ⟨r, rest, hr, e, hall⟩ := h.isClass c hcL
    exact classStores_eq neg conj hm f (fun p hp => by obtain ⟨j, a, b, -⟩ := hall p hp; exact ⟨j, a, b⟩) (by rw [e]; simp)

theorem flatten_threads {γ β : Type} (l : List β) (n : Nat) (hn : 0 < n) (s : β → List γ) : ((List.range n).map (fun t => (chunkOf l n t).flatMap s)).flatten = l.flatMap s := by
  have := congrArg (List.flatMap s) (chunks_flatten l n hn)
  rw [← this]
  simp [List.flatMap_def, List.map_flatten, List.map_map, Function.comp_def, List.flatten_flatten]

theorem sum_single [AddMonoid α] {v : α} : ∀ (l : List α) (k : Nat), l[k]? = some v → (∀ j a, j ≠ k → l[j]? = some a → a = 0) → l.sum = v
  | [], k, h, _ => by simp at h
  | a :: l, 0, h, h0 => by
    have ha : a = v := by simpa using h
    have hl : ∀ b ∈ l, b = 0 := by
      intro b hb
      obtain ⟨j, hj⟩ := List.mem_iff_getElem?.mp hb
      exact h0 (j + 1) b (by omega) (by simpa using hj)
    rw [List.sum_cons, ha, List.sum_eq_zero hl, add_zero]
  | a :: l, k + 1, h, h0 => by
    have ha : a = 0 := h0 0 a (by omega) rfl
    rw [List.sum_cons, ha, zero_add]
    exact sum_single l k (by simpa using h) (fun j b hj hb => h0 (j + 1) b (by omega) (by simpa using hb))

/-- The classes are pairwise different. -/
theorem nodup_classes {len : List Int} {syms : List Sym} {g : St × List (Nat × Int)} {L : List (List (Int × Oper))} (h : BInv len syms (box len) g L) : L.Nodup := by
  have hk := nodup_keys h
  rw [List.nodup_flatten] at hk
  have := hk.2
  rw [List.pairwise_map] at this
  refine this.imp_of_mem ?_
  rintro c c' hc - hd rfl
  obtain ⟨r, rest, hr, e, -⟩ := h.isClass c hc
  rw [e] at hd
  exact hd (a := lin len r) (by simp) (by simp)

theorem chunk_unique {β : Type} {l : List β} (hl : l.Nodup) {n : Nat} {q q' : Nat} (hq : q < n) (hq' : q' < n) {c : β} (h : c ∈ chunkOf l n q) (h' : c ∈ chunkOf l n q') : q = q' := by
  have hk := chunks_flatten l n (by omega)
  rw [← hk, List.nodup_flatten, List.pairwise_map] at hl
  have hp := hl.2
  rw [List.pairwise_iff_getElem] at hp
  by_contra hne
  rcases Nat.lt_or_gt_of_ne hne with hlt | hlt
  · exact hp q q' (by simpa using hq) (by simpa using hq') hlt (by simpa using h) (by simpa using h')
  · exact hp q' q (by simpa using hq') (by simpa using hq) hlt (by simpa using h') (by simpa using h)

theorem chunk_exists {β : Type} {l : List β} {n : Nat} (hn : 0 < n) {c : β} (h : c ∈ l) : ∃ q, q < n ∧ c ∈ chunkOf l n q := by
  rw [← chunks_flatten l n hn] at h
  obtain ⟨k, hk, hc⟩ := List.mem_flatten.mp h
  obtain ⟨q, hq, rfl⟩ := List.mem_map.mp hk
  exact ⟨q, by simpa using hq, hc⟩

theorem mem_stores {len : List Int} {syms : List Sym} {g : St × List (Nat × Int)} {L : List (List (Int × Oper))} (h : BInv len syms (box len) g L) (neg conj : α → α)
    {x : View} {τ : List Int → List Int} (hm : Decodes len x τ) (f : List Int → α) {c : List (Int × Oper)} (hc : c ∈ L) (w : List Int × α) :
    w ∈ storesOf neg conj x f c ↔ ∃ r rest j p, InRange len r ∧ InRange len j ∧ c = (lin len r, .one) :: rest ∧ p ∈ c ∧ p.1 = lin len j ∧ w = (τ j, p.2.ap neg conj (f (τ r))) := by
  obtain ⟨r, rest, hr, e, hall⟩ := h.isClass c hc
  have hti : ∀ j, InRange len j → ti x (lin len j) = τ j := fun j hj => by rw [ti, hm.some j hj]; rfl
  constructor
  · intro hw
    refine ⟨r, rest, ?_⟩
    subst e
    simp only [storesOf, hti r hr] at hw
    rcases List.mem_cons.mp hw with rfl | hw
    · exact ⟨r, (lin len r, .one), hr, hr, rfl, List.mem_cons_self, rfl, by rw [Oper.one_ap]⟩
    · obtain ⟨p, hp, rfl⟩ := List.mem_map.mp hw
      obtain ⟨j, hj, ej, -⟩ := hall p hp
      exact ⟨j, p, hr, hj, rfl, hp, ej, by rw [ej, hti j hj]⟩
  · rintro ⟨r', rest', j, p, hr', hj, rfl, hp, ej, rfl⟩
    simp only [storesOf, hti r' hr']
    exact List.mem_cons_of_mem _ (List.mem_map.mpr ⟨p, hp, by rw [ej, hti j hj]⟩)

/-- **C35** No races: two threads of a process never write the same element. -/
theorem C35_race_free (len : List Int) (hn : NonNeg len) (syms : List Sym) (hk : KeepRank len.length syms) (maxLen : Int) (neg conj : α → α) (f : List Int → α)
    (x : View) (hlen : x.lay.len = len) (n : Nat) (hx : Blk x n) (size rank nthreads : Nat) :
    ∃ fuel0 g, (∀ fuel, fuel0 ≤ fuel → build len syms maxLen fuel = some g) ∧ ∃ ts, threads neg conj x f (classes g) size rank nthreads = some ts ∧
      ∀ (t t' : Nat) (l l' : List (List Int × α)), ts[t]? = some l → ts[t']? = some l' → t ≠ t' → ∀ w ∈ l, ∀ w' ∈ l', addr x w.1 ≠ addr x w'.1 := by
  subst hlen
  obtain ⟨fuel0, g, L, e, h⟩ := build_spec hn hk maxLen
  have hm := decodes_of_blk hx
  refine ⟨fuel0, g, e, _, by rw [h.classes_eq]; exact threads_eq h neg conj hm f size rank nthreads, ?_⟩
  intro t t' l l' ht ht' hne w hwl w' hwl' ea
  have conv : ∀ t l, ((List.range nthreads).map (fun t => (chunkOf (chunkOf L size rank) nthreads t).flatMap (storesOf neg conj x f)))[t]? = some l →
      t < nthreads ∧ l = (chunkOf (chunkOf L size rank) nthreads t).flatMap (storesOf neg conj x f) := by
    intro t l ht
    obtain ⟨hl, e⟩ := List.getElem?_eq_some_iff.mp ht
    simp at hl e
    exact ⟨hl, e.symm⟩
  obtain ⟨htl, rfl⟩ := conv t l ht
  obtain ⟨htl', rfl⟩ := conv t' l' ht'
  obtain ⟨c, hc, hwc⟩ := List.mem_flatMap.mp hwl
  obtain ⟨c', hc', hwc'⟩ := List.mem_flatMap.mp hwl'
  have hcL := mem_chunkOf (mem_chunkOf hc)
  have hcL' := mem_chunkOf (mem_chunkOf hc')
  obtain ⟨r, rest, j, p, hr, hj, ec, hp, ej, rfl⟩ := (mem_stores h neg conj hm f hcL w).mp hwc
  obtain ⟨r', rest', j', p', hr', hj', ec', hp', ej', rfl⟩ := (mem_stores h neg conj hm f hcL' w').mp hwc'
  have hjj := hm.inj j j' hj hj' (hx.one _ _ (hm.into j hj) (hm.into j' hj') ea)
  subst hjj
  obtain ⟨rfl, -⟩ := key_unique h hcL hcL' hp hp' (ej.trans ej'.symm)
  have hnd : (chunkOf L size rank).Nodup := ((nodup_classes h).sublist (List.drop_sublist _ _)).sublist (List.take_sublist _ _)
  exact hne (chunk_unique hnd htl htl' hc hc')

/-- One process before the reduction: its classes are filled in, all other elements are zero. -/
theorem local_spec [Zero α] {len : List Int} {syms : List Sym} {g : St × List (Nat × Int)} {L : List (List (Int × Oper))} (h : BInv len syms (box len) g L) (neg conj : α → α)
    {x : View} (hlen : x.lay.len = len) (h1 : OneToOne x) {τ : List Int → List Int} (hm : Decodes len x τ) (hprop : x.lay.prop = .contiguous) (f : List Int → α) (mem : List α) (hx : Good x mem.length)
    (size rank nthreads fuel : Nat) (hnt : 0 < nthreads) (hfuel : (prod len).toNat < fuel) :
    (∃ mem', Local neg conj x f L size rank nthreads fuel mem mem') ∧
    ∀ mem', Local neg conj x f L size rank nthreads fuel mem mem' →
      mem'.length = mem.length ∧ (∀ k, ¬ Occupies x k → val mem' k = val mem k) ∧
      ∀ c ∈ L, ∀ r rest j p, InRange len r → InRange len j → c = (lin len r, .one) :: rest → p ∈ c → p.1 = lin len j →
        (c ∈ chunkOf L size rank → val mem' (addr x (τ j)) = some (p.2.ap neg conj (f (τ r)))) ∧ (c ∉ chunkOf L size rank → val mem' (addr x (τ j)) = some 0) := by
  obtain ⟨mem0, e0, u0⟩ := C18_fill_partial fuel x (0 : α) mem hx (Or.inr hprop) (by rw [hlen]; exact hfuel) (by rw [hprop]; intro h; cases h) (by rw [hprop]; intro h; cases h)
  have ht := threads_eq h neg conj hm f size rank nthreads
  generalize hts : (List.range nthreads).map (fun t => (chunkOf (chunkOf L size rank) nthreads t).flatMap (storesOf neg conj x f)) = ts at ht
  have hfl : ts.flatten = (chunkOf L size rank).flatMap (storesOf neg conj x f) := by rw [← hts]; exact flatten_threads _ _ hnt _
  have hin : ∀ w ∈ ts.flatten, InRange len w.1 := by
    intro w hw
    rw [hfl] at hw
    obtain ⟨c, hc, hwc⟩ := List.mem_flatMap.mp hw
    obtain ⟨r, rest, j, p, hr, hj, ec, hp, ej, rfl⟩ := (mem_stores h neg conj hm f (mem_chunkOf hc) w).mp hwc
    exact hm.into j hj
  constructor
  · obtain ⟨mem', hr⟩ := Run.exists hlen hx.wf hx.flags _ ts mem0 rfl hin (by rw [u0.size]; exact hx.fits)
    exact ⟨mem', mem0, ts, e0, ht, hr⟩
  · rintro mem' ⟨mem0', ts', e0', ht', hrun⟩
    rw [e0] at e0'; cases e0'
    rw [ht] at ht'; cases ht'
    obtain ⟨ws, hp, hwr⟩ := hrun.perm hlen hx.wf hx.flags hin
    -- the writes
    have hmem : ∀ w ∈ ws.map (fun w => (addr x w.1, w.2)), ∃ c ∈ chunkOf L size rank, ∃ r rest j p, InRange len r ∧ InRange len j ∧ c = (lin len r, .one) :: rest ∧ p ∈ c ∧ p.1 = lin len j ∧
        w = (addr x (τ j), p.2.ap neg conj (f (τ r))) := by
      intro w hw
      obtain ⟨w', hw', rfl⟩ := List.mem_map.mp hw
      have := hp.mem_iff.mp hw'
      rw [hfl] at this
      obtain ⟨c, hc, hwc⟩ := List.mem_flatMap.mp this
      obtain ⟨r, rest, j, p, hr, hj, ec, hp, ej, rfl⟩ := (mem_stores h neg conj hm f (mem_chunkOf hc) w').mp hwc
      exact ⟨c, hc, r, rest, j, p, hr, hj, ec, hp, ej, rfl⟩
    obtain ⟨m, em, lm, fm, vm⟩ := writeAll_spec (ws.map (fun w => (addr x w.1, w.2))) mem0 (by
      intro w hw
      obtain ⟨c, hc, r, rest, j, p, hr, hj, ec, hp, ej, rfl⟩ := hmem w hw
      rw [u0.size]
      exact hx.fits (τ j) (by rw [hlen]; exact hm.into j hj))
    rw [hwr] at em
    have em := Option.some.inj em
    subst em
    refine ⟨by rw [lm, u0.size], ?_, ?_⟩
    · intro k hno
      rw [fm k, u0.frame k hno]
      intro w hw hwk
      obtain ⟨c, hc, r, rest, j, p, hr, hj, ec, hp, ej, rfl⟩ := hmem w hw
      exact hno ⟨τ j, by rw [hlen]; exact hm.into j hj, hwk⟩
    · intro c hc r rest j p hr hj ec hpc ej
      constructor
      · intro hcc
        refine vm _ _ ?_ ?_
        · refine List.mem_map.mpr ⟨(τ j, p.2.ap neg conj (f (τ r))), ?_, rfl⟩
          rw [hp.mem_iff, hfl]
          exact List.mem_flatMap.mpr ⟨c, hcc, (mem_stores h neg conj hm f hc _).mpr ⟨r, rest, j, p, hr, hj, ec, hpc, ej, rfl⟩⟩
        · intro w hw hwk
          obtain ⟨c', hc', r', rest', j', p', hr', hj', ec', hp', ej', rfl⟩ := hmem w hw
          have hjj := hm.inj j' j hj' hj (h1 _ _ (by rw [hlen]; exact hm.into j' hj') (by rw [hlen]; exact hm.into j hj) hwk)
          subst hjj
          obtain ⟨rfl, rfl⟩ := key_unique h hc (mem_chunkOf hc') hpc hp' (ej.trans ej'.symm)
          rw [ec] at ec'
          simp only [List.cons.injEq, Prod.mk.injEq, and_true] at ec'
          rw [lin_inj hr hr' ec'.1]
      · intro hcc
        rw [fm _, u0.elems (τ j) (by rw [hlen]; exact hm.into j hj)]
        intro w hw hwk
        obtain ⟨c', hc', r', rest', j', p', hr', hj', ec', hp', ej', rfl⟩ := hmem w hw
        have hjj := hm.inj j' j hj' hj (h1 _ _ (by rw [hlen]; exact hm.into j' hj') (by rw [hlen]; exact hm.into j hj) hwk)
        subst hjj
        obtain ⟨rfl, rfl⟩ := key_unique h hc (mem_chunkOf hc') hpc hp' (ej.trans ej'.symm)
        exact hcc hc'

/-- **C35** Any number of processes, any number of threads on each, any interleaving of their stores: after the reduction every process holds the array that the serial
initialisation gives.  (Contiguous arrays in any stride order, the same on all processes, as `all_reduce` demands; process `q` has memory `mems[q]` and may have its array anywhere in it.) -/
theorem C35_parallel [AddMonoid α] (junk : α) (len : List Int) (hn : NonNeg len) (h0 : len ≠ []) (hsize : prod len < Matrix.intBound) (syms : List Sym) (hk : KeepRank len.length syms)
    (maxLen : Int) (neg conj : α → α) (f : List Int → α) (so : List Nat) (procs : List (View × List α))
    (hp : ∀ q ∈ procs, q.1.lay.len = len ∧ q.1.lay.so = so ∧ Dense q.1.lay ∧ q.1.lay.prop = .contiguous ∧ Good q.1 q.2.length)
    (nthreads : Nat → Nat) (hnt : ∀ q, 0 < nthreads q) (fuel : Nat) (hfuel : (prod len).toNat < fuel) :
    ∃ fuel0 g, (∀ fuel, fuel0 ≤ fuel → build len syms maxLen fuel = some g) ∧
      (∀ q x mem, procs[q]? = some (x, mem) → ∃ mem', Local neg conj x f (classes g) procs.length q (nthreads q) fuel mem mem') ∧
      ∀ mems : List (List α), mems.length = procs.length →
        (∀ q x mem mem', procs[q]? = some (x, mem) → mems[q]? = some mem' → Local neg conj x f (classes g) procs.length q (nthreads q) fuel mem mem') →
        ∀ r x mem, procs[r]? = some (x, mem) → ∀ root, ∃ memS memP,
          init neg conj (classes g) x f mem = some memS ∧
          reduce junk (· + ·) (List.zipWith (fun q mem' => ⟨mem', q.1, q.1, true⟩) procs mems) true root r = .ok (x, memP) ∧
          (∀ i, InRange len i → val memP (addr x i) = val memS (addr x i)) ∧ ∀ k : Int, k < mem.length → ¬ Occupies x k → val memP k = val mem k := by
  obtain ⟨fuel0, g, L, e, h⟩ := build_spec hn hk maxLen
  have hblk : ∀ q ∈ procs, Blk q.1 q.2.length := fun q hq => by
    obtain ⟨a1, a2, a3, a4, a5⟩ := hp q hq
    exact ⟨a5, a3, by rw [a1]; exact h0⟩
  have hmat : ∀ q ∈ procs, Decodes len q.1 (reorder len so) := fun q hq => by
    obtain ⟨a1, a2, a3, a4, a5⟩ := hp q hq
    have := decodes_of_blk (hblk q hq)
    rwa [a1, a2] at this
  have hloc := fun (q : Nat) (x : View) (mem : List α) (hq : procs[q]? = some (x, mem)) =>
    local_spec h neg conj (hp _ (List.mem_of_getElem? hq)).1 (hblk _ (List.mem_of_getElem? hq)).one (hmat _ (List.mem_of_getElem? hq)) (hp _ (List.mem_of_getElem? hq)).2.2.2.1 f mem
      (hp _ (List.mem_of_getElem? hq)).2.2.2.2 procs.length q (nthreads q) fuel (hnt q) hfuel
  refine ⟨fuel0, g, e, ?_, ?_⟩
  · intro q x mem hq
    rw [h.classes_eq]
    exact (hloc q x mem hq).1
  · intro mems hml hmems r x mem hr root
    rw [h.classes_eq] at hmems ⊢
    obtain ⟨b1, b2, b3, b4, b5⟩ := hp _ (List.mem_of_getElem? hr)
    obtain ⟨memS, s1, s2, s3, s4⟩ := init_spec h neg conj b1 (hblk _ (List.mem_of_getElem? hr)).one (hmat _ (List.mem_of_getElem? hr)) f mem b5
    generalize hps : List.zipWith (fun (q : View × List α) mem' => (⟨mem', q.1, q.1, true⟩ : Proc α)) procs mems = ps
    have hpsg : ∀ (q : Nat) (pq : Proc α), ps[q]? = some pq → ∃ y memq mem', procs[q]? = some (y, memq) ∧ mems[q]? = some mem' ∧ pq = ⟨mem', y, y, true⟩ := by
      intro q pq hq
      rw [← hps, List.getElem?_zipWith] at hq
      cases h1 : procs[q]? with
      | none => rw [h1] at hq; simp at hq
      | some y =>
        cases h2 : mems[q]? with
        | none => rw [h1, h2] at hq; simp at hq
        | some m =>
          rw [h1, h2] at hq
          exact ⟨y.1, y.2, m, rfl, rfl, (Option.some.inj hq).symm⟩
    have hrl : r < procs.length := (List.getElem?_eq_some_iff.mp hr).1
    have hmr := List.getElem?_eq_getElem (l := mems) (i := r) (by omega)
    have hpr : ps[r]? = some ⟨mems[r], x, x, true⟩ := by rw [← hps, List.getElem?_zipWith, hr, hmr]
    obtain ⟨memP, p1, p2, p3⟩ := C40_all_reduce_sum junk ps root r _ hpr len so (by
      intro q hq
      obtain ⟨i, hi⟩ := List.mem_iff_getElem?.mp hq
      obtain ⟨y, memq, mem', g1, g2, rfl⟩ := hpsg i q hi
      obtain ⟨c1, c2, c3, c4, c5⟩ := hp _ (List.mem_of_getElem? g1)
      have hsz := ((hloc i y memq g1).2 mem' (hmems i y memq mem' g1 g2)).1
      exact ⟨by simp only [hsz]; exact hblk _ (List.mem_of_getElem? g1), c1, c2⟩) rfl hsize
    obtain ⟨l1, l2, -⟩ := (hloc r x mem hr).2 _ (hmems r x mem _ hr hmr)
    refine ⟨memS, memP, s1, p1, ?_, ?_⟩
    · intro i' hi'
      obtain ⟨i, hi, ei⟩ : ∃ i, InRange len i ∧ reorder len so i = i' := by
        have := reorder_surj (hblk _ (List.mem_of_getElem? hr)) (i := i') (by rw [b1]; exact hi')
        rwa [b1, b2] at this
      subst ei
      obtain ⟨q, hq, hql⟩ := List.mem_map.mp (cover_all h hi)
      obtain ⟨c, hc, hqc⟩ := List.mem_flatten.mp hq
      obtain ⟨a, rest, ha, ec, hall⟩ := h.isClass c hc
      rw [s4 c hc a rest i q ha hi ec hqc hql]
      obtain ⟨o, ho, hco⟩ := chunk_exists (l := L) (n := procs.length) (by omega) hc
      have hxs : ps.map (fun q => val q.mem (addr q.rhs (reorder len so i))) = ((List.range procs.length).map (fun u => if u = o then q.2.ap neg conj (f (reorder len so a)) else 0)).map some := by
        apply List.ext_getElem?
        intro u
        by_cases hu : u < procs.length
        · have hg := List.getElem?_eq_getElem hu
          have hgm := List.getElem?_eq_getElem (l := mems) (i := u) (by omega)
          have hpu : ps[u]? = some ⟨mems[u], procs[u].1, procs[u].1, true⟩ := by rw [← hps, List.getElem?_zipWith, hg, hgm]
          rw [List.getElem?_map, hpu]
          simp only [Option.map_some, List.getElem?_map, List.getElem?_range hu]
          obtain ⟨-, -, hv⟩ := (hloc u procs[u].1 procs[u].2 hg).2 _ (hmems u _ _ _ hg hgm)
          have := hv c hc a rest i q ha hi ec hqc hql
          by_cases huo : u = o
          · subst huo
            simp [this.1 hco]
          · simp only [huo, if_false]
            rw [this.2 (fun hcu => huo (chunk_unique (nodup_classes h) hu ho hcu hco))]
        · have hpl : ps.length = procs.length := by rw [← hps, List.length_zipWith]; omega
          rw [List.getElem?_eq_none (by simp; omega), List.getElem?_eq_none (by simp; omega)]
      rw [p2 _ hi' _ hxs, sum_single (v := q.2.ap neg conj (f (reorder len so a))) _ o]
      · simp [ho]
      · intro j b hj hb
        obtain ⟨hjl, hb⟩ := List.getElem?_eq_some_iff.mp hb
        simp [hj] at hb
        exact hb.symm
    · intro k hk hno
      rw [p3 k (by simp only [l1]; exact hk) hno]
      exact l2 k hno

/-! ## A concrete case -/

/-- The 2 by 3 array with the symmetry that exchanges the rows and changes the sign: three classes over two processes. -/
example : (do
    let g ← build [2, 3] [fun i => ([1 - i.getD 0 0, i.getD 1 0], ⟨true, false⟩)] 0 8
    let x : View := ⟨0, ⟨[2, 3], [3, 1], [0, 1], [0, 0], .contiguous⟩⟩
    let a ← threads (fun v : Int => -v) id x (fun i => i.getD 1 0 + 1) (classes g) 2 0 2
    let b ← threads (fun v : Int => -v) id x (fun i => i.getD 1 0 + 1) (classes g) 2 1 2
    return (a, b)) =
    some ([[([0, 0], 1), ([0, 0], 1), ([1, 0], -1)], [([0, 1], 2), ([0, 1], 2), ([1, 1], -2)]], [[([0, 2], 3), ([0, 2], 3), ([1, 2], -3)], []]) := by decide

/-- The same array in Fortran order, the hypotheses of `C35_parallel` and `C34_init_positions`. -/
def fArr : View := ⟨0, ⟨[2, 3], [1, 2], [1, 0], [0, 0], .contiguous⟩⟩

theorem fArr_blk : Blk fArr 6 :=
  ⟨good_of (by decide) rfl rfl rfl (by decide) 1 (fun _ => by decide) (by decide) (by decide), by show memOrder _ _ = _; decide, by decide⟩

/-- Its class `{0, 3}` is about the first and the fourth element in memory: `(0, 0)` and `(1, 1)`. -/
example : (do
    let g ← build [2, 3] [fun i => ([1 - i.getD 0 0, i.getD 1 0], ⟨true, false⟩)] 0 8
    threads (fun v : Int => -v) id fArr (fun i => 10 * i.getD 0 0 + i.getD 1 0 + 1) (classes g) 1 0 1) =
    some [[([0, 0], 1), ([0, 0], 1), ([1, 1], -1), ([1, 0], 11), ([1, 0], 11), ([0, 2], -11), ([0, 1], 2), ([0, 1], 2), ([1, 2], -2)]] := by decide

/-! ### The hypotheses, for the symmetries `exSyms` of a 2 by 2 array -/

theorem exSyms_keep : KeepRank 2 exSyms := by
  intro s hs i _
  simp only [exSyms, List.mem_cons, List.not_mem_nil, or_false] at hs
  rcases hs with rfl | rfl <;> rfl

/-- A 2 by 2 array in C order. -/
def cArr : View := ⟨0, ⟨[2, 2], [2, 1], [0, 1], [0, 0], .contiguous⟩⟩

theorem cArr_good : Good cArr 4 := good_of (by decide) rfl rfl rfl (by decide) 1 (fun _ => by decide) (by decide) (by decide)

theorem cArr_one : OneToOne cArr := by
  have h : ∀ idx ∈ box [2, 2], ∀ jdx ∈ box [2, 2], addr cArr idx = addr cArr jdx → idx = jdx := by decide +kernel
  exact fun idx jdx hi hj => h idx (mem_box.mpr hi) jdx (mem_box.mpr hj)

theorem cArr_dense : Dense cArr.lay := by show memOrder _ _ = _; decide

theorem exSyms_inside : ∀ s ∈ exSyms, ∀ i, InRange [2, 2] i → InRange [2, 2] (s i).1 := by
  intro s hs i hi
  simp only [exSyms, List.mem_cons, List.not_mem_nil, or_false] at hs
  have hb := mem_box.mpr hi
  rcases hs with rfl | rfl <;> refine mem_box.mp ?_ <;> (clear hi; revert i; decide +kernel)

theorem exSyms_injective : ∀ s ∈ exSyms, ∀ i j, InRange [2, 2] i → InRange [2, 2] j → (s i).1 = (s j).1 → i = j := by
  intro s hs i j hi hj
  simp only [exSyms, List.mem_cons, List.not_mem_nil, or_false] at hs
  have hb := mem_box.mpr hi
  have hc := mem_box.mpr hj
  rcases hs with rfl | rfl <;> (clear hi hj; revert hb hc; revert j; revert i; intro i j hb; revert j; revert i; decide +kernel)

example := C33_partition [2, 2] (by decide) exSyms exSyms_keep 0
example := C34_members [2, 2] (by decide) exSyms exSyms_keep 0
example := C33_orbits [2, 2] (by decide) exSyms exSyms_keep 0 exSyms_inside exSyms_injective
example := C34_init [2, 2] (by decide) (by decide) exSyms exSyms_keep 0 (fun v : Int => -v) id (fun i => i.getD 0 0) cArr rfl rfl cArr_dense cArr_one [9, 9, 9, 9] cArr_good

/-- The function 1, -1, -1, 1 has the symmetries. -/
example := C34_init_symmetric [2, 2] (by decide) (by decide) exSyms exSyms_keep 0 (fun v : Int => -v) id (fun v => Int.neg_neg v) (fun _ => rfl) (fun _ => rfl)
  (fun i => if (i.getD 0 0 + i.getD 1 0) % 2 = 0 then 1 else -1)
  (by
    intro s hs i _
    simp only [exSyms, List.mem_cons, List.not_mem_nil, or_false] at hs
    generalize hp : i.getD 0 0 = p
    generalize hq : i.getD 1 0 = q
    rcases hs with rfl | rfl
    · show (if (i.getD 1 0 + i.getD 0 0) % 2 = 0 then (1 : Int) else -1) = if (i.getD 0 0 + i.getD 1 0) % 2 = 0 then 1 else -1
      rw [hp, hq, Int.add_comm]
    · show (if (1 - i.getD 0 0 + i.getD 1 0) % 2 = 0 then (1 : Int) else -1) = -(if (i.getD 0 0 + i.getD 1 0) % 2 = 0 then 1 else -1)
      rw [hp, hq]
      split <;> split <;> omega)
  cArr rfl rfl cArr_dense cArr_one [9, 9, 9, 9] cArr_good

example := C34_symmetrize (id : ℚ → ℚ) (fun v n => v / n) (fun v => |v|) [2, 2] (by decide) (by decide) exSyms exSyms_keep 0 cArr rfl rfl cArr_dense cArr_one [1, 2, 3, 4] cArr_good
  (fun i => 2 * i.getD 0 0 + i.getD 1 0 + 1)
  (by
    intro i hi
    have hb := mem_box.mpr hi
    clear hi; revert i; decide +kernel)

example := C34_init_positions [2, 3] (by decide) [fun i => ([1 - i.getD 0 0, i.getD 1 0], ⟨true, false⟩)] (by intro s hs i _; simp at hs; subst hs; rfl) 0 (fun v : Int => -v) id
  (fun i => i.getD 0 0) fArr rfl [9, 9, 9, 9, 9, 9] fArr_blk
example := C35_race_free [2, 3] (by decide) [fun i => ([1 - i.getD 0 0, i.getD 1 0], ⟨true, false⟩)] (by intro s hs i _; simp at hs; subst hs; rfl) 0 (fun v : Int => -v) id
  (fun i => i.getD 0 0) fArr rfl 6 fArr_blk 2 0 3

/-- Two processes with three threads each. -/
example := C35_parallel (0 : Int) [2, 2] (by decide) (by decide) (by decide) exSyms exSyms_keep 0 (fun v : Int => -v) id (fun i => i.getD 0 0) [0, 1] [(cArr, [1, 2, 3, 4]), (cArr, [5, 6, 7, 8])]
  (by
    intro q hq
    simp only [List.mem_cons, List.not_mem_nil, or_false] at hq
    rcases hq with rfl | rfl <;> exact ⟨rfl, rfl, cArr_dense, rfl, cArr_good⟩)
  (fun _ => 3) (fun _ => by decide) 8 (by decide)

end Nda.SymGrp
