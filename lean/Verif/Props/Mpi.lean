import Verif.Lemmas.Mpi
import Verif.Spec.Mpi
/-!
# C39, C40: scatter, gather, broadcast and reduce

`Blk v n`: a contiguous array or view (any stride order) inside memory of `n` elements.
-/
namespace Nda.Mpi
open Nda LayoutTransforms Assign Loops Matrix Nda.Spec Nda.Perm IdxMap

variable {α : Type}

theorem bound_id {x : Int} (h0 : 0 ≤ x) (h : x < intBound) : toInt32 x = x := toInt32_id h0 (by unfold intBound at h; exact h)

theorem disjoint_of_separate {a b : View} {n m : Nat} (ha : Blk a n) (hb : Blk b m) (h : Separate a b) : disjoint a.off (prod a.lay.len) b.off (prod b.lay.len) = true := by
  by_contra hc
  simp only [disjoint, Bool.or_eq_true, decide_eq_true_eq, not_or, not_le] at hc
  obtain ⟨⟨⟨h1, h2⟩, h3⟩, h4⟩ := hc
  obtain ⟨i, hi, ei⟩ := (ha.occupies (max a.off b.off)).mpr (by omega)
  obtain ⟨j, hj, ej⟩ := (hb.occupies (max a.off b.off)).mpr (by omega)
  exact h i j hi hj (by rw [ei, ej])

/-- C39, buffers that overlap.  The send and receive buffers are accepted exactly if no address is in both (MPI forbids buffers that share memory;
the calls check nothing: overlap is undefined behaviour). -/
theorem C39_buffers (p n q m : Int) : disjoint p n q m = true ↔ ¬ ∃ k, (p ≤ k ∧ k < p + n) ∧ (q ≤ k ∧ k < q + m) := by
  simp only [disjoint, Bool.or_eq_true, decide_eq_true_eq]
  constructor
  · rintro h ⟨k, h1, h2⟩; omega
  · intro h
    by_contra hc
    exact h ⟨max p q, by omega, by omega⟩

example : disjoint 0 4 4 1 = true ∧ disjoint 0 4 3 1 = false ∧ disjoint 2 1 0 3 = false := by decide

theorem intSums_true {counts : List Int} (hn : ∀ c ∈ counts, 0 ≤ c) (h : counts.sum < intBound) : intSums counts = true := by
  rw [intSums, List.all_eq_true]
  intro r _
  have h1 := displs_nonneg hn r
  have h2 := displs_le hn r
  simpa using bound_id h1 (by omega)

theorem mapM_orUb_ok {β γ : Type} {f : β → Option γ} {l : List β} {g : β → γ} (h : ∀ x ∈ l, f x = some (g x)) : l.mapM f = some (l.map g) := by
  induction l with
  | nil => rfl
  | cons a l ih => rw [List.mapM_cons, h a List.mem_cons_self, ih (fun x hx => h x (List.mem_cons_of_mem _ hx))]; rfl

theorem mapM_congr' {β γ : Type} {f g : β → Option γ} {l : List β} (h : ∀ x ∈ l, f x = g x) : l.mapM f = l.mapM g := by
  induction l with
  | nil => rfl
  | cons a l ih => rw [List.mapM_cons, List.mapM_cons, h a List.mem_cons_self, ih (fun x hx => h x (List.mem_cons_of_mem _ hx))]

theorem sum_nonneg' {l : List Int} (h : ∀ c ∈ l, 0 ≤ c) : 0 ≤ l.sum := by
  have := displs_nonneg h l.length
  rwa [displs, List.take_length] at this

theorem le_sum' : ∀ {l : List Int}, (∀ c ∈ l, 0 ≤ c) → ∀ x ∈ l, x ≤ l.sum
  | [], _, x, hx => by cases hx
  | a :: l, h, x, hx => by
    have h1 := h a List.mem_cons_self
    have h2 := sum_nonneg' (fun c hc => h c (List.mem_cons_of_mem _ hc))
    rw [List.sum_cons]
    rcases List.mem_cons.mp hx with rfl | hx
    · omega
    · have := le_sum' (fun c hc => h c (List.mem_cons_of_mem _ hc)) x hx
      omega

theorem sum_map_mul (l : List Int) (c : Int) : (l.map (· * c)).sum = l.sum * c := by
  induction l with
  | nil => simp
  | cons a l ih => simp [ih, Int.add_mul]

/-- Buffers of all processes. -/
theorem read_all (procs : List (Proc α)) (v : Proc α → View) (hb : ∀ q ∈ procs, Blk (v q) q.mem.length) :
    ∃ buf : Proc α → List α, procs.mapM (fun q => readBuf q.mem (v q).off (prod (v q).lay.len)) = some (procs.map buf) ∧
      ∀ q ∈ procs, ((buf q).length : Int) = prod (v q).lay.len ∧ ∀ idx, InRange (v q).lay.len idx → (buf q)[(pos (v q) idx).toNat]? = val q.mem (addr (v q) idx) := by
  have h1 : ∀ q ∈ procs, ∃ b : List α, readBuf q.mem (v q).off (prod (v q).lay.len) = some b ∧ (b.length : Int) = prod (v q).lay.len ∧
      ∀ idx, InRange (v q).lay.len idx → b[(pos (v q) idx).toNat]? = val q.mem (addr (v q) idx) := by
    intro q hq
    have hq := hb q hq
    obtain ⟨b, e, l, g⟩ := readBuf_spec (mem := q.mem) (p := (v q).off) (n := prod (v q).lay.len) (fun h => hq.range h)
    have hnn := prod_nonneg hq.good.nonneg
    refine ⟨b, e, by omega, fun idx hi => ?_⟩
    have hp := hq.pos_bounds hi
    rw [g _ (by omega), hq.addr_eq hi]
    congr 2; omega
  classical
  refine ⟨fun q => if h : q ∈ procs then (h1 q h).choose else [], ?_, ?_⟩
  · apply mapM_orUb_ok
    intro q hq
    rw [dif_pos hq]; exact (h1 q hq).choose_spec.1
  · intro q hq
    simp only [dif_pos hq]; exact (h1 q hq).choose_spec.2

/-- **C39** Gather: on the receiving processes element `(start of slab q + i, J)` of the target is element `(i, J)` of process `q`; the target has the right shape and nothing
else changes.  C-order arrays. -/
theorem C39_gather (junk : α) (procs : List (Proc α)) (all : Bool) (root r : Nat) (p : Proc α) (hp : procs[r]? = some p) (here : (all || r == root) = true)
    (heights rest : List Int) (hsh : procs.map (fun q => q.rhs.lay.len) = heights.map (· :: rest))
    (hrhs : ∀ q ∈ procs, Blk q.rhs q.mem.length ∧ q.rhs.lay.so = Perm.identity q.rhs.lay.len.length)
    (ht : Blk p.target p.mem.length) (hso : p.target.lay.so = Perm.identity p.target.lay.len.length) (hrank : p.target.lay.len.length = p.rhs.lay.len.length)
    (hv : p.isView = true → p.target.lay.len = heights.sum :: rest) (hsep : Separate p.rhs p.target) (hsize : heights.sum * prod rest < intBound) :
    ∃ t mem, gather junk procs all root r = .ok (t, mem) ∧ Blk t mem.length ∧ t.lay.len = heights.sum :: rest ∧ t.lay.so = Perm.identity (rest.length + 1) ∧
      (∀ q pq, procs[q]? = some pq → ∀ i J, InRange pq.rhs.lay.len (i :: J) →
        InRange t.lay.len ((slabStart heights q + i) :: J) ∧ val mem (addr t ((slabStart heights q + i) :: J)) = val pq.mem (addr pq.rhs (i :: J))) ∧
      ∀ k : Int, k < p.mem.length → ¬ Occupies t k → val mem k = val p.mem k := by
  have hpm : p ∈ procs := List.mem_of_getElem? hp
  -- shapes
  have hlen : ∀ (q : Nat) (pq : Proc α), procs[q]? = some pq → ∃ h, heights[q]? = some h ∧ pq.rhs.lay.len = h :: rest := by
    intro q pq hq
    have : (procs.map (fun q => q.rhs.lay.len))[q]? = (heights.map (· :: rest))[q]? := by rw [hsh]
    rw [List.getElem?_map, hq, List.getElem?_map] at this
    cases hh : heights[q]? with
    | none => rw [hh] at this; simp at this
    | some h => rw [hh] at this; exact ⟨h, rfl, by simpa using this⟩
  have hlen' : ∀ q ∈ procs, ∃ h, q.rhs.lay.len = h :: rest := by
    intro q hq
    obtain ⟨i, hi⟩ := List.mem_iff_getElem?.mp hq
    obtain ⟨h, -, e⟩ := hlen i q hi
    exact ⟨h, e⟩
  have hll : heights.length = procs.length := by simpa using (congrArg List.length hsh).symm
  have hh0 : ∀ h ∈ heights, 0 ≤ h := by
    intro h hh
    obtain ⟨i, hi⟩ := List.mem_iff_getElem?.mp hh
    have hip : i < procs.length := by rw [← hll]; exact (List.getElem?_eq_some_iff.mp hi).1
    obtain ⟨h', e1, e2⟩ := hlen i procs[i] (List.getElem?_eq_getElem hip)
    rw [hi] at e1; cases e1
    exact (hrhs procs[i] (List.getElem_mem hip)).1.good.nonneg h (by rw [e2]; exact List.mem_cons_self)
  have hr0 : NonNeg rest := by
    obtain ⟨h, e⟩ := hlen' p hpm
    intro l hl
    exact (hrhs p hpm).1.good.nonneg l (by rw [e]; exact List.mem_cons_of_mem _ hl)
  have hpr := prod_nonneg hr0
  -- counts
  have hcounts : procs.map (fun q => prod q.rhs.lay.len) = heights.map (· * prod rest) := by
    have := congrArg (List.map prod) hsh
    simpa [List.map_map, Function.comp_def, prod] using this
  have hcn : ∀ c ∈ heights.map (· * prod rest), 0 ≤ c := by
    intro c hc
    obtain ⟨h, hh, rfl⟩ := List.mem_map.mp hc
    exact mul_nonneg (hh0 h hh) hpr
  have hcs : (heights.map (· * prod rest)).sum = heights.sum * prod rest := sum_map_mul _ _
  have hsz : ∀ q ∈ procs, toInt32 q.rhs.lay.size = prod q.rhs.lay.len := by
    intro q hq
    rw [size_eq]
    refine bound_id (prod_nonneg (hrhs q hq).1.good.nonneg) ?_
    have : prod q.rhs.lay.len ∈ heights.map (· * prod rest) := by rw [← hcounts]; exact List.mem_map.mpr ⟨q, hq, rfl⟩
    have := le_sum' hcn _ this
    omega
  have hcm : procs.map (fun q => toInt32 q.rhs.lay.size) = heights.map (· * prod rest) := by
    rw [← hcounts]
    exact List.map_congr_left hsz
  -- shape of the result
  have hgs : gatherShape procs all root r = some (heights.sum :: rest) := by
    unfold gatherShape
    obtain ⟨h, e⟩ := hlen' p hpm
    have hm : procs.mapM (fun q => rd q.rhs.lay.len 0) = some heights := by
      rw [mapM_orUb_ok (g := fun q => q.rhs.lay.len.headD 0)]
      · congr 1
        have := congrArg (List.map (fun l => List.headD l 0)) hsh
        simpa [List.map_map, Function.comp_def] using this
      · intro q hq
        obtain ⟨h, e⟩ := hlen' q hq
        rw [e]; rfl
    rw [hp, hm]
    simp [e, here]
  have hsum0 : 0 ≤ heights.sum := sum_nonneg' hh0
  have hsn : NonNeg (heights.sum :: rest) := by
    intro l hl
    rcases List.mem_cons.mp hl with rfl | hl
    · exact hsum0
    · exact hr0 l hl
  obtain ⟨h, e⟩ := hlen' p hpm
  obtain ⟨t, mem1, et, tb, tl, tso, tmem, tval, tcase⟩ := resize_spec junk (isView := p.isView) ht hv hsn (by rw [hrank, e]; simp)
  have tso' : t.lay.so = Perm.identity (rest.length + 1) := by rw [tso, hso, hrank, e]; simp
  obtain ⟨buf, eb, hbuf⟩ := read_all procs Proc.rhs (fun q hq => (hrhs q hq).1)
  have hbl : (procs.map buf).map (fun b => (b.length : Int)) = heights.map (· * prod rest) := by
    rw [← hcounts, List.map_map]
    exact List.map_congr_left (fun q hq => (hbuf q hq).1)
  have hpt : prod t.lay.len = heights.sum * prod rest := by rw [tl]; rfl
  obtain ⟨mem2, ew, l2, v2, f2⟩ := gatherv_spec (heights.map (· * prod rest)) t.off (procs.map buf) hbl mem1 (by
    rw [hcs, ← hpt]; exact fun h => tb.range h)
  have hdis : disjoint p.rhs.off (prod p.rhs.lay.len) t.off (heights.sum * prod rest) = true := by
    rcases tcase with ⟨g1, g2, g3⟩ | g
    · rw [← hpt, g2]
      exact disjoint_of_separate (hrhs p hpm).1 ht hsep
    · by_cases hz : prod p.rhs.lay.len ≤ 0
      · simp [disjoint, hz]
      · have := (hrhs p hpm).1.range (by omega)
        simp only [disjoint, Bool.or_eq_true, decide_eq_true_eq]
        left; right; omega
  refine ⟨t, mem2, ?_, by rw [l2]; exact tb, tl, tso', ?_, ?_⟩
  · unfold gather
    rw [hp]
    simp only [orUb, bind, Except.bind, (hrhs p hpm).1.contig, ht.contig, hgs, here, if_true, et, hcm]
    rw [show procs.mapM (fun q => readBuf q.mem q.rhs.off (toInt32 q.rhs.lay.size)) = some (procs.map buf) from ?_]
    · simp only [intSums_true hcn (by rw [hcs]; exact hsize), check, if_true, hsz p hpm, hcs, hdis, ew, pure, Except.pure]
    · rw [← eb]
      exact mapM_congr' (fun q hq => by rw [hsz q hq])
  · intro q pq hq i J hi
    have hqm : pq ∈ procs := List.mem_of_getElem? hq
    obtain ⟨h, e1, e2⟩ := hlen q pq hq
    rw [e2] at hi
    have hql : q < heights.length := (List.getElem?_eq_some_iff.mp e1).1
    have hge : heights[q] = h := by simpa [List.getElem?_eq_getElem hql] using e1
    have hs1 : slabStart heights (q + 1) = slabStart heights q + h := by
      rw [slabStart, slabStart, List.take_succ_eq_append_getElem hql, List.sum_append, hge]; simp
    have hs0 : 0 ≤ slabStart heights q := displs_nonneg hh0 q
    have hs2 : slabStart heights (q + 1) ≤ heights.sum := displs_le hh0 (q + 1)
    have hin : InRange t.lay.len ((slabStart heights q + i) :: J) := by
      rw [tl]
      exact ⟨⟨by have := hi.1; omega, by have := hi.1; omega⟩, hi.2⟩
    refine ⟨hin, ?_⟩
    have hi' : InRange pq.rhs.lay.len (i :: J) := by rw [e2]; exact hi
    obtain ⟨b1, b2⟩ := hbuf pq hqm
    have hpb := (hrhs pq hqm).1.pos_bounds hi'
    have hpos : pos pq.rhs (i :: J) = i * prod rest + lin rest J := by
      rw [pos_c (hrhs pq hqm).2 hi'.length_eq, e2]; rfl
    have htpos : pos t ((slabStart heights q + i) :: J) = (slabStart heights q + i) * prod rest + lin rest J := by
      rw [pos_c (by rw [tso', tl]; simp) hin.length_eq, tl]; rfl
    have hd : displs (heights.map (· * prod rest)) q = slabStart heights q * prod rest := by
      rw [displs, ← List.map_take, sum_map_mul]; rfl
    have := v2 q (buf pq) (by rw [List.getElem?_map, hq]; rfl) (pos pq.rhs (i :: J)).toNat (by omega)
    rw [b2 _ hi'] at this
    rw [← this, tb.addr_eq hin, htpos, hd]
    congr 1
    rw [Int.toNat_of_nonneg hpb.1, hpos]; ring
  · intro k hk hno
    rw [f2 k (by rw [hcs, ← hpt, ← tb.occupies k]; exact hno), tval k hk]

theorem chunk_sum (n : Int) (size : Nat) : ∀ k : Nat, ((List.range k).map (chunkLength n size)).sum = k * (n / size) + min (k : Int) (max 0 (n % size))
  | 0 => by simp
  | k + 1 => by
    rw [List.range_succ, List.map_append, List.sum_append, chunk_sum n size k]
    simp only [List.map_cons, List.map_nil, List.sum_cons, List.sum_nil, chunkLength]
    push_cast
    split <;> (rw [add_mul]; omega)

/-- **C39** The slabs of a scatter: their heights add up to the extent, differ by at most one, larger ones first. -/
theorem C39_chunks (n : Int) (size : Nat) (hs : 0 < size) : EvenSplit n size ((List.range size).map (chunkLength n size)) := by
  have h1 : 0 ≤ n % (size : Int) := Int.emod_nonneg _ (by omega)
  have h2 : n % (size : Int) < size := Int.emod_lt_of_pos _ (by omega)
  refine ⟨by simp, ?_, ?_, ?_⟩
  · rw [chunk_sum, show min (size : Int) (max 0 (n % size)) = n % size by omega]
    exact Int.mul_ediv_add_emod n size
  · intro h hh
    obtain ⟨r, -, rfl⟩ := List.mem_map.mp hh
    unfold chunkLength
    split <;> simp
  · rw [List.pairwise_map]
    refine List.pairwise_lt_range.imp ?_
    intro a b hab
    unfold chunkLength
    split <;> split <;> omega

theorem chunk_nonneg {n : Int} (h : 0 ≤ n) (size r : Nat) : 0 ≤ chunkLength n size r := by
  unfold chunkLength
  have := Int.ediv_nonneg h (show (0 : Int) ≤ size by omega)
  split <;> omega

theorem stride0 {v : View} {n : Nat} (h : Blk v n) (hso : v.lay.so = Perm.identity v.lay.len.length) {l : Int} {rest : List Int} (hl : v.lay.len = l :: rest) : rd v.lay.str 0 = some (prod rest) := by
  have hw := h.good.wf
  have hmo : memOrder v.lay.so v.lay.str = Spec.dense (memOrder v.lay.so v.lay.len) := by
    have : EvenlySpaced v.lay 1 := h.dense
    unfold EvenlySpaced at this; simpa using this
  rw [hso, SymGrp.memOrder_identity hw.str_len, SymGrp.memOrder_identity rfl, hl] at hmo
  rw [hmo]; rfl

/-- **C39** Scatter: element `(i, J)` of the target of process `r` is element `(start of slab r + i, J)` of the array of the root.  C-order arrays of the same shape on the root
and on the process. -/
theorem C39_scatter (junk : α) (procs : List (Proc α)) (root r : Nat) (p o : Proc α) (hp : procs[r]? = some p) (ho : procs[root]? = some o) (l : Int) (rest : List Int)
    (hlp : p.rhs.lay.len = l :: rest) (hlo : o.rhs.lay.len = l :: rest) (hbp : Blk p.rhs p.mem.length) (hbo : Blk o.rhs o.mem.length)
    (hsp : p.rhs.lay.so = Perm.identity (rest.length + 1)) (hso : o.rhs.lay.so = Perm.identity (rest.length + 1))
    (ht : Blk p.target p.mem.length) (hst : p.target.lay.so = Perm.identity (rest.length + 1)) (hrank : p.target.lay.len.length = rest.length + 1)
    (hv : p.isView = true → p.target.lay.len = chunkLength l procs.length r :: rest) (hsep : Separate p.rhs p.target) (hsize : l * prod rest < intBound) :
    ∃ t mem, scatter junk procs root r = .ok (t, mem) ∧ Blk t mem.length ∧ t.lay.len = chunkLength l procs.length r :: rest ∧ t.lay.so = Perm.identity (rest.length + 1) ∧
      (∀ i J, InRange t.lay.len (i :: J) → InRange o.rhs.lay.len ((slabStart ((List.range procs.length).map (chunkLength l procs.length)) r + i) :: J) ∧
        val mem (addr t (i :: J)) = val o.mem (addr o.rhs ((slabStart ((List.range procs.length).map (chunkLength l procs.length)) r + i) :: J))) ∧
      ∀ k : Int, k < p.mem.length → ¬ Occupies t k → val mem k = val p.mem k := by
  have hr : r < procs.length := (List.getElem?_eq_some_iff.mp hp).1
  have hes := C39_chunks l procs.length (by omega)
  have hnn : NonNeg (l :: rest) := by rw [← hlo]; exact hbo.good.nonneg
  have hl0 : 0 ≤ l := hnn l List.mem_cons_self
  have hr0 : NonNeg rest := fun x hx => hnn x (List.mem_cons_of_mem _ hx)
  have hpr := prod_nonneg hr0
  generalize hH : (List.range procs.length).map (chunkLength l procs.length) = H at hes
  have hHr : H[r]? = some (chunkLength l procs.length r) := by
    rw [← hH, List.getElem?_map, List.getElem?_eq_getElem (by simpa using hr)]; simp
  have hHl : r < H.length := by rw [hes.length]; exact hr
  have hH0 : ∀ h ∈ H, 0 ≤ h := by
    intro h hh
    rw [← hH] at hh
    obtain ⟨q, -, rfl⟩ := List.mem_map.mp hh
    exact chunk_nonneg hl0 _ _
  have hc0 := chunk_nonneg hl0 procs.length r
  have hcle : ∀ q, q < procs.length → chunkLength l procs.length q ≤ l := by
    intro q hq
    have : chunkLength l procs.length q ∈ H := by rw [← hH]; exact List.mem_map.mpr ⟨q, by simpa using hq, rfl⟩
    have := le_sum' hH0 _ this
    rw [hes.sum] at this
    exact this
  have hto : ∀ q, q < procs.length → toInt32 (chunkLength l procs.length q * prod rest) = chunkLength l procs.length q * prod rest := by
    intro q hq
    have h1 := chunk_nonneg hl0 procs.length q
    have h2 := mul_le_mul_of_nonneg_right (hcle q hq) hpr
    exact bound_id (mul_nonneg h1 hpr) (by omega)
  have hsc : (List.range procs.length).map (fun q => toInt32 (chunkLength l procs.length q * prod rest)) = H.map (· * prod rest) := by
    rw [← hH, List.map_map]
    apply List.map_congr_left
    intro q hq
    rw [hto q (by simpa using hq)]; rfl
  have hcn : ∀ c ∈ H.map (· * prod rest), 0 ≤ c := by
    intro c hc
    obtain ⟨h, hh, rfl⟩ := List.mem_map.mp hc
    exact mul_nonneg (hH0 h hh) hpr
  have hcs : (H.map (· * prod rest)).sum = l * prod rest := by rw [sum_map_mul, hes.sum]
  have hdp : ∀ q, displs (H.map (· * prod rest)) q = slabStart H q * prod rest := by
    intro q; rw [displs, ← List.map_take, sum_map_mul]; rfl
  have hs1 : slabStart H (r + 1) = slabStart H r + chunkLength l procs.length r := by
    rw [slabStart, slabStart, List.take_succ_eq_append_getElem hHl, List.sum_append]
    rw [List.getElem?_eq_getElem hHl] at hHr
    rw [Option.some.inj hHr]; simp
  have hs0 : 0 ≤ slabStart H r := displs_nonneg hH0 r
  have hs2 : slabStart H (r + 1) ≤ l := by rw [← hes.sum]; exact displs_le hH0 (r + 1)
  have hsn : NonNeg (chunkLength l procs.length r :: rest) := by
    intro x hx
    rcases List.mem_cons.mp hx with rfl | hx
    · exact hc0
    · exact hr0 x hx
  obtain ⟨t, mem1, et, tb, tl, tso, tmem, tval, tcase⟩ := resize_spec junk (isView := p.isView) ht hv hsn (by rw [hrank]; simp)
  rw [hst] at tso
  have hpt : prod t.lay.len = chunkLength l procs.length r * prod rest := by rw [tl]; rfl
  have hpo : prod o.rhs.lay.len = l * prod rest := by rw [hlo]; rfl
  have hlast : (slabStart H r + chunkLength l procs.length r) * prod rest ≤ l * prod rest := mul_le_mul_of_nonneg_right (by omega) hpr
  rw [add_mul] at hlast
  have hfirst : 0 ≤ slabStart H r * prod rest := mul_nonneg hs0 hpr
  obtain ⟨buf, eb, lb, vb⟩ := readBuf_spec (mem := o.mem) (p := o.rhs.off + displs (H.map (· * prod rest)) r) (n := chunkLength l procs.length r * prod rest) (by
    intro hpos
    have := hbo.range (by rw [hpo]; omega)
    rw [hpo] at this
    rw [hdp]; omega)
  have hbl : (buf.length : Int) = prod t.lay.len := by
    have := mul_nonneg hc0 hpr
    rw [hpt]; omega
  obtain ⟨mem2, ew, l2, v2, f2⟩ := writeBuf_spec buf mem1 t.off (by
    intro hne
    have : 0 < buf.length := List.length_pos_iff.mpr hne
    rw [hbl]
    exact tb.range (by omega))
  have hdis : r = root → disjoint o.rhs.off (l * prod rest) t.off (chunkLength l procs.length r * prod rest) = true := by
    intro hrr
    subst hrr
    rw [hp] at ho; cases ho
    rcases tcase with ⟨g1, g2, g3⟩ | g
    · rw [← hpt, ← hpo, g2]
      exact disjoint_of_separate hbp ht hsep
    · by_cases hz : l * prod rest ≤ 0
      · simp [disjoint, hz]
      · have := hbp.range (by rw [hpo]; omega)
        rw [hpo] at this
        simp only [disjoint, Bool.or_eq_true, decide_eq_true_eq]
        left; right; omega
  refine ⟨t, mem2, ?_, by rw [l2]; exact tb, tl, tso, ?_, ?_⟩
  · unfold scatter
    rw [hp, ho]
    simp only [orUb, bind, Except.bind, hbp.contig, ht.contig, stride0 hbp (by rw [hsp, hlp]; simp) hlp, stride0 hbo (by rw [hso, hlo]; simp) hlo]
    simp only [hlp, hlo, rd, List.getElem?_cons_zero, List.tail_cons, et, hsc, List.getElem?_map, hHr, Option.map_some, hto r hr, check, decide_true, if_true,
      intSums_true hcn (by rw [hcs]; exact hsize), eb, hcs]
    have : (r != root || disjoint o.rhs.off (l * prod rest) t.off (chunkLength l procs.length r * prod rest)) = true := by
      by_cases hrr : r = root
      · rw [hdis hrr]; simp
      · simp [hrr]
    simp only [this, if_true, ew]; rfl
  · intro i J hi
    have hi' := hi
    rw [tl] at hi'
    have hin : InRange o.rhs.lay.len ((slabStart H r + i) :: J) := by
      rw [hlo]
      exact ⟨⟨by have := hi'.1; omega, by have := hi'.1; omega⟩, hi'.2⟩
    refine ⟨hin, ?_⟩
    have hpb := tb.pos_bounds hi
    have hpos : pos t (i :: J) = i * prod rest + lin rest J := by
      rw [pos_c (by rw [tso, tl]; simp) hi.length_eq, tl]; rfl
    have hopos : pos o.rhs ((slabStart H r + i) :: J) = (slabStart H r + i) * prod rest + lin rest J := by
      rw [pos_c (by rw [hso, hlo]; simp) hin.length_eq, hlo]; rfl
    have h1 := v2 (pos t (i :: J)).toNat (by omega)
    rw [vb _ (by rw [← hpt]; omega), Int.toNat_of_nonneg hpb.1] at h1
    rw [tb.addr_eq hi, h1, hbo.addr_eq hin, hopos, hpos, hdp]
    congr 1; ring
  · intro k hk hno
    rw [f2 k (by rw [hbl, ← tb.occupies k]; exact hno), tval k hk]

/-- **C39** Stacked slabs cover all rows exactly once. -/
theorem C39_cover (heights : List Int) (h0 : ∀ h ∈ heights, 0 ≤ h) (x : Int) (hx0 : 0 ≤ x) (hx : x < heights.sum) :
    ∃! q : Nat × Int, ∃ h, heights[q.1]? = some h ∧ 0 ≤ q.2 ∧ q.2 < h ∧ x = slabStart heights q.1 + q.2 := by
  have hstep : ∀ q h, heights[q]? = some h → slabStart heights (q + 1) = slabStart heights q + h := by
    intro q h hq
    obtain ⟨hl, e⟩ := List.getElem?_eq_some_iff.mp hq
    have := displs_succ (counts := heights) hl
    rw [e] at this; exact this
  have hmono : ∀ q r, q ≤ r → slabStart heights q ≤ slabStart heights r := fun q r h => displs_mono h0 h
  have hex : ∀ n, n ≤ heights.length → x < slabStart heights n → ∃ q : Nat × Int, ∃ h, heights[q.1]? = some h ∧ 0 ≤ q.2 ∧ q.2 < h ∧ x = slabStart heights q.1 + q.2 := by
    intro n
    induction n with
    | zero => intro _ h; simp [slabStart] at h; omega
    | succ n ih =>
      intro hn h
      by_cases hlt : x < slabStart heights n
      · exact ih (by omega) hlt
      · have hg := List.getElem?_eq_getElem (l := heights) (i := n) (by omega)
        have := hstep n _ hg
        exact ⟨(n, x - slabStart heights n), _, hg, by simp; omega, by simp; omega, by simp⟩
  obtain ⟨q, h, e1, e2, e3, e4⟩ := hex heights.length (le_refl _) (by rw [slabStart, List.take_length]; exact hx)
  refine ⟨q, ⟨h, e1, e2, e3, e4⟩, ?_⟩
  rintro ⟨q', i'⟩ ⟨h', f1, f2, f3, f4⟩
  have g1 := hstep _ _ e1
  have g2 := hstep _ _ f1
  simp only at f1 f2 f3 f4 g2
  have hq : q' = q.1 := by
    rcases Nat.lt_trichotomy q' q.1 with hlt | heq | hgt
    · have := hmono (q' + 1) q.1 hlt; omega
    · exact heq
    · have := hmono (q.1 + 1) q' hgt; omega
  subst hq
  obtain ⟨a, b⟩ := q
  simp only [Prod.mk.injEq, true_and]
  simp only at e4 f4
  omega

/-- **C39** Round trip: gathering what was scattered returns the array of the root, on the root or on all processes. -/
theorem C39_round_trip (junk : α) (procs : List (Proc α)) (root : Nat) (o : Proc α) (ho : procs[root]? = some o) (l : Int) (rest : List Int) (hsize : l * prod rest < intBound)
    -- the scatter: arrays of the same shape everywhere
    (hrhs : ∀ q ∈ procs, q.rhs.lay.len = l :: rest ∧ Blk q.rhs q.mem.length ∧ q.rhs.lay.so = Perm.identity (rest.length + 1))
    (ht : ∀ q ∈ procs, Blk q.target q.mem.length ∧ q.target.lay.so = Perm.identity (rest.length + 1) ∧ q.target.lay.len.length = rest.length + 1 ∧ q.isView = false ∧ Separate q.rhs q.target)
    -- the gather: of what each process has obtained
    (procs2 : List (Proc α)) (hl2 : procs2.length = procs.length)
    (hres : ∀ q p, procs2[q]? = some p → scatter junk procs root q = .ok (p.rhs, p.mem))
    (all : Bool) (root2 r : Nat) (p : Proc α) (hp : procs2[r]? = some p) (here : (all || r == root2) = true)
    (ht2 : Blk p.target p.mem.length) (hst2 : p.target.lay.so = Perm.identity (rest.length + 1)) (hrank2 : p.target.lay.len.length = rest.length + 1)
    (hv2 : p.isView = true → p.target.lay.len = l :: rest) (hsep2 : Separate p.rhs p.target) :
    ∃ t mem, gather junk procs2 all root2 r = .ok (t, mem) ∧ t.lay.len = l :: rest ∧
      ∀ idx, InRange (l :: rest) idx → val mem (addr t idx) = val o.mem (addr o.rhs idx) := by
  have hom := List.mem_of_getElem? ho
  have hn0 : 0 < procs.length := by have := (List.getElem?_eq_some_iff.mp ho).1; omega
  obtain ⟨o1, o2, o3⟩ := hrhs o hom
  -- what the scatter gave
  have hsc : ∀ q p, procs2[q]? = some p → Blk p.rhs p.mem.length ∧ p.rhs.lay.len = chunkLength l procs.length q :: rest ∧ p.rhs.lay.so = Perm.identity (rest.length + 1) ∧
      ∀ i J, InRange p.rhs.lay.len (i :: J) →
        val p.mem (addr p.rhs (i :: J)) = val o.mem (addr o.rhs ((slabStart ((List.range procs.length).map (chunkLength l procs.length)) q + i) :: J)) := by
    intro q p2 hq
    have hql : q < procs.length := by rw [← hl2]; exact (List.getElem?_eq_some_iff.mp hq).1
    have hg := List.getElem?_eq_getElem hql
    have hm := List.getElem_mem hql
    obtain ⟨a1, a2, a3⟩ := hrhs _ hm
    obtain ⟨b1, b2, b3, b4, b5⟩ := ht _ hm
    obtain ⟨t, mem, e, c1, c2, c3, c4, -⟩ := C39_scatter junk procs root q _ o hg ho l rest a1 o1 a2 o2 a3 o3 b1 b2 b3 (by rw [b4]; intro h; cases h) b5 hsize
    have := hres q p2 hq
    rw [e] at this
    have := Except.ok.inj this
    rw [Prod.mk.injEq] at this
    obtain ⟨rfl, rfl⟩ := this
    exact ⟨c1, c2, c3, fun i J hi => (c4 i J hi).2⟩
  have hes := C39_chunks l procs.length hn0
  generalize hH : (List.range procs.length).map (chunkLength l procs.length) = H at hes hsc
  have hHq : ∀ q, q < procs.length → H[q]? = some (chunkLength l procs.length q) := by
    intro q hq
    rw [← hH, List.getElem?_map, List.getElem?_eq_getElem (by simpa using hq)]; simp
  have hl0 : 0 ≤ l := o2.good.nonneg l (by rw [o1]; exact List.mem_cons_self)
  have hH0 : ∀ h ∈ H, 0 ≤ h := by
    intro h hh
    rw [← hH] at hh
    obtain ⟨q, -, rfl⟩ := List.mem_map.mp hh
    exact chunk_nonneg hl0 _ _
  have hsh : procs2.map (fun q => q.rhs.lay.len) = H.map (· :: rest) := by
    apply List.ext_getElem?
    intro q
    by_cases hq : q < procs2.length
    · rw [List.getElem?_map, List.getElem?_map, List.getElem?_eq_getElem hq, hHq q (by omega)]
      simp only [Option.map_some]
      rw [(hsc q _ (List.getElem?_eq_getElem hq)).2.1]
    · rw [List.getElem?_eq_none (by simp; omega), List.getElem?_eq_none (by simp [hes.length]; omega)]
  obtain ⟨p1, p2, p3, p4⟩ := hsc r p hp
  obtain ⟨t, mem, e, tb, tl, tso, tv, -⟩ := C39_gather junk procs2 all root2 r p hp here H rest hsh
    (by
      intro q hq
      obtain ⟨i, hi⟩ := List.mem_iff_getElem?.mp hq
      obtain ⟨d1, d2, d3, -⟩ := hsc i q hi
      exact ⟨d1, by rw [d3, d2]; simp⟩) ht2 (by rw [hst2, hrank2]) (by rw [hrank2, p2]; simp) (by rw [hes.sum]; exact hv2) hsep2 (by rw [hes.sum]; exact hsize)
  rw [hes.sum] at tl
  refine ⟨t, mem, e, tl, ?_⟩
  intro idx hi
  match idx, hi with
  | x :: J, hi =>
    obtain ⟨⟨q, i⟩, ⟨h, f1, f2, f3, f4⟩, -⟩ := C39_cover H hH0 x hi.1.1 (by rw [hes.sum]; exact hi.1.2)
    simp only at f1 f2 f3 f4
    have hql : q < procs2.length := by rw [hl2, ← hes.length]; exact (List.getElem?_eq_some_iff.mp f1).1
    have hg := List.getElem?_eq_getElem hql
    obtain ⟨d1, d2, d3, d4⟩ := hsc q _ hg
    have hqi : InRange procs2[q].rhs.lay.len (i :: J) := by
      rw [d2]
      rw [hHq q (by omega)] at f1
      cases f1
      exact ⟨⟨f2, f3⟩, hi.2⟩
    have := (tv q _ hg i J hqi).2
    rw [f4, this, d4 i J hqi]

/-- **C40** Broadcast: every process ends up with the shape and the elements of the root; nothing else changes. -/
theorem C40_broadcast (junk : α) (procs : List (Proc α)) (root r : Nat) (p o : Proc α) (hp : procs[r]? = some p) (ho : procs[root]? = some o)
    (hbp : Blk p.target p.mem.length) (hbo : Blk o.target o.mem.length) (hso : p.target.lay.so = o.target.lay.so) (hrank : p.target.lay.len.length = o.target.lay.len.length)
    (hv : p.isView = true → p.target.lay.len = o.target.lay.len) (hsize : prod o.target.lay.len < intBound) :
    ∃ t mem, broadcast junk procs root r = .ok (t, mem) ∧ t.lay.len = o.target.lay.len ∧
      (∀ idx, InRange o.target.lay.len idx → val mem (addr t idx) = val o.mem (addr o.target idx)) ∧
      ∀ k : Int, k < p.mem.length → ¬ Occupies t k → val mem k = val p.mem k := by
  unfold broadcast
  rw [hp, ho]
  simp only [orUb, bind, Except.bind]
  by_cases hrr : r = root
  · subst hrr
    rw [hp] at ho; cases ho
    exact ⟨p.target, p.mem, by simp [pure, Except.pure], rfl, fun _ _ => rfl, fun _ _ _ => rfl⟩
  · obtain ⟨t, mem1, et, tb, tl, tso, tmem, tval, -⟩ := resize_spec junk (isView := p.isView) hbp hv hbo.good.nonneg hrank
    have hpn := prod_nonneg hbo.good.nonneg
    obtain ⟨buf, eb, lb, vb⟩ := readBuf_spec (mem := o.mem) (p := o.target.off) (n := prod o.target.lay.len) (fun h => hbo.range h)
    have hbl : (buf.length : Int) = prod t.lay.len := by rw [tl]; omega
    obtain ⟨mem2, ew, l2, v2, f2⟩ := writeBuf_spec buf mem1 t.off (by
      intro hne
      have : 0 < buf.length := List.length_pos_iff.mpr hne
      rw [hbl]
      exact tb.range (by omega))
    refine ⟨t, mem2, ?_, tl, ?_, ?_⟩
    · simp [hrr, et, check, size_eq, tl, bound_id hpn hsize, eb, ew, pure, Except.pure]
    · intro idx hi
      have hit : InRange t.lay.len idx := by rw [tl]; exact hi
      have hpb := tb.pos_bounds hit
      have hpe : pos t idx = pos o.target idx := by rw [pos, pos, tl, tso, hso]
      have h1 := v2 (pos t idx).toNat (by omega)
      rw [vb _ (by rw [← tl]; omega), Int.toNat_of_nonneg hpb.1] at h1
      rw [tb.addr_eq hit, h1, hbo.addr_eq hi, hpe]
    · intro k hk hno
      rw [f2 k (by rw [hbl, ← tb.occupies k]; exact hno), tval k hk]

theorem combine_length (op : α → α → α) {n : Nat} : ∀ {bufs : List (List α)}, bufs ≠ [] → (∀ b ∈ bufs, b.length = n) → (combine op bufs).length = n
  | [], h, _ => absurd rfl h
  | [b], _, h => h b List.mem_cons_self
  | b :: c :: bufs, _, h => by
    have := combine_length op (bufs := c :: bufs) (by simp) (fun x hx => h x (List.mem_cons_of_mem _ hx))
    rw [combine, List.length_zipWith, this, h b List.mem_cons_self, Nat.min_self]
    simp

theorem combine_spec (op : α → α → α) {n k : Nat} (hk : k < n) : ∀ (bufs : List (List α)) (xs : List α), (∀ b ∈ bufs, b.length = n) → bufs.map (fun b => b[k]?) = xs.map some →
    (combine op bufs)[k]? = total op xs
  | [], xs, _, h => by
    have : xs = [] := by simpa using h.symm
    subst this; simp [combine, total]
  | [b], xs, hl, h => by
    match xs, h with
    | [], h => simp at h
    | [x], h => simpa [combine, total] using h
    | x :: y :: xs, h => simp at h
  | b :: c :: bufs, xs, hl, h => by
    match xs, h with
    | [], h => simp at h
    | [x], h => simp at h
    | x :: y :: xs, h =>
      rw [List.map_cons, List.map_cons (f := some), List.cons.injEq] at h
      have := combine_spec op hk (c :: bufs) (y :: xs) (fun z hz => hl z (List.mem_cons_of_mem _ hz)) h.2
      rw [combine, List.getElem?_zipWith, h.1, this]
      · simp [total]
      · simp

theorem total_sum [AddMonoid α] : ∀ (x : α) (xs : List α), total (· + ·) (x :: xs) = some (x :: xs).sum
  | x, [] => by simp [total]
  | x, y :: xs => by rw [total, total_sum y xs]; simp

/-- **C40** Reduction: on the receiving processes every element of the target is the combination, in the order of the processes, of the elements at the same index; in place or not.
Arrays of the same shape and stride order everywhere. -/
theorem C40_reduce (junk : α) (op : α → α → α) (procs : List (Proc α)) (all : Bool) (root r : Nat) (p : Proc α) (hp : procs[r]? = some p) (here : (all || r == root) = true)
    (len : List Int) (so : List Nat) (hrhs : ∀ q ∈ procs, Blk q.rhs q.mem.length ∧ q.rhs.lay.len = len ∧ q.rhs.lay.so = so)
    (ht : Blk p.target p.mem.length) (hso : p.target.lay.so = so) (hrank : p.target.lay.len.length = len.length)
    (hv : p.isView = true → p.target.lay.len = len)
    (hcase : (p.target.off = p.rhs.off ∧ p.target.lay.len = len) ∨ (p.target.off ≠ p.rhs.off ∧ Separate p.rhs p.target ∧ 0 < prod len))
    (hsize : prod len < intBound) :
    ∃ t mem, reduce junk op procs all root r = .ok (t, mem) ∧ t.lay.len = len ∧
      (∀ idx, InRange len idx → ∀ xs : List α, (procs.map (fun q => val q.mem (addr q.rhs idx))) = xs.map some → val mem (addr t idx) = total op xs) ∧
      ∀ k : Int, k < p.mem.length → ¬ Occupies t k → val mem k = val p.mem k := by
  have hpm := List.mem_of_getElem? hp
  obtain ⟨a1, a2, a3⟩ := hrhs p hpm
  have hpn : 0 ≤ prod len := by rw [← a2]; exact prod_nonneg a1.good.nonneg
  have hn : NonNeg len := by rw [← a2]; exact a1.good.nonneg
  -- the target
  have htar : ∃ t mem1, reduceTarget junk p true = .ok (t, mem1) ∧ Blk t mem1.length ∧ t.lay.len = len ∧ t.lay.so = so ∧ ∀ k : Int, k < p.mem.length → val mem1 k = val p.mem k := by
    unfold reduceTarget
    rcases hcase with ⟨h1, h2⟩ | ⟨h1, h2, h3⟩
    · rw [if_pos h1]
      exact ⟨p.target, p.mem, by simp [check, size_eq, a2, h2, bind, Except.bind, pure, Except.pure], ht, h2, hso, fun _ _ => rfl⟩
    · rw [if_neg h1]
      obtain ⟨t, mem1, et, tb, tl, tso, tmem, tval, tcase⟩ := resize_spec junk (isView := p.isView) (sha := len) ht hv hn hrank
      refine ⟨t, mem1, ?_, tb, tl, by rw [tso, hso], tval⟩
      rw [a2]
      have hfar : prod len ≤ ((t.off - p.rhs.off).natAbs : Int) := by
        have hr1 := a1.range (by rw [a2]; exact h3)
        have hr2 := tb.range (by rw [tl]; exact h3)
        rw [a2] at hr1
        rcases tcase with ⟨g1, g2, g3⟩ | g
        · have := disjoint_of_separate a1 ht h2
          rw [a2, g1] at this
          simp only [disjoint, Bool.or_eq_true, decide_eq_true_eq] at this
          rw [g2]
          omega
        · omega
      simp only [if_true, et, check, size_eq, a2, hfar, decide_true, bind, Except.bind, pure, Except.pure]
  obtain ⟨t, mem1, et, tb, tl, tso, tval⟩ := htar
  obtain ⟨buf, eb, hbuf⟩ := read_all procs Proc.rhs (fun q hq => (hrhs q hq).1)
  have hbl : ∀ b ∈ procs.map buf, b.length = (prod len).toNat := by
    intro b hb
    obtain ⟨q, hq, rfl⟩ := List.mem_map.mp hb
    have := (hbuf q hq).1
    rw [(hrhs q hq).2.1] at this
    omega
  have hne : procs.map buf ≠ [] := by
    intro h
    have : procs = [] := by simpa using h
    rw [this] at hpm; cases hpm
  have hcl := combine_length op hne hbl
  obtain ⟨mem2, ew, l2, v2, f2⟩ := writeBuf_spec (combine op (procs.map buf)) mem1 t.off (by
    intro hne
    have : 0 < (combine op (procs.map buf)).length := List.length_pos_iff.mpr hne
    have := tb.range (by rw [tl]; omega)
    rw [tl] at this
    omega)
  refine ⟨t, mem2, ?_, tl, ?_, ?_⟩
  · unfold reduce
    rw [hp]
    have hall : procs.all (fun q => decide (q.rhs.lay.size = p.rhs.lay.size)) = true := by
      rw [List.all_eq_true]
      intro q hq
      simp [size_eq, a2, (hrhs q hq).2.1]
    have hread : procs.mapM (fun q => readBuf q.mem q.rhs.off (toInt32 p.rhs.lay.size)) = some (procs.map buf) := by
      rw [← eb]
      exact mapM_congr' (fun q hq => by rw [size_eq, a2, (hrhs q hq).2.1, bound_id hpn hsize])
    simp only [orUb, bind, Except.bind, a1.contig, ht.contig, here, et, check, hall, if_true, hread, ew, pure, Except.pure]
  · intro idx hi xs hxs
    have hit : InRange t.lay.len idx := by rw [tl]; exact hi
    have hpb := tb.pos_bounds hit
    rw [tl] at hpb
    have h1 := v2 (pos t idx).toNat (by omega)
    rw [Int.toNat_of_nonneg hpb.1] at h1
    rw [tb.addr_eq hit, h1]
    refine combine_spec op (n := (prod len).toNat) (by omega) _ _ hbl ?_
    rw [← hxs, List.map_map]
    apply List.map_congr_left
    intro q hq
    have hqi : InRange q.rhs.lay.len idx := by rw [(hrhs q hq).2.1]; exact hi
    have := (hbuf q hq).2 idx hqi
    rw [← this]
    have hpe : pos t idx = pos q.rhs idx := by rw [pos, pos, tl, tso, (hrhs q hq).2.1, (hrhs q hq).2.2]
    rw [Function.comp, hpe]
  · intro k hk hno
    rw [f2 k (by rw [hcl]; have := tb.occupies k; rw [tl] at this; rw [Int.toNat_of_nonneg hpn, ← this]; exact hno), tval k hk]

/-- **C40** The sum over all processes. -/
theorem C40_all_reduce_sum [AddMonoid α] (junk : α) (procs : List (Proc α)) (root r : Nat) (p : Proc α) (hp : procs[r]? = some p)
    (len : List Int) (so : List Nat) (hrhs : ∀ q ∈ procs, Blk q.rhs q.mem.length ∧ q.rhs.lay.len = len ∧ q.rhs.lay.so = so)
    (hinplace : p.target = p.rhs) (hsize : prod len < intBound) :
    ∃ mem, reduce junk (· + ·) procs true root r = .ok (p.rhs, mem) ∧
      (∀ idx, InRange len idx → ∀ xs : List α, (procs.map (fun q => val q.mem (addr q.rhs idx))) = xs.map some → val mem (addr p.rhs idx) = some xs.sum) ∧
      ∀ k : Int, k < p.mem.length → ¬ Occupies p.rhs k → val mem k = val p.mem k := by
  have hpm := List.mem_of_getElem? hp
  obtain ⟨a1, a2, a3⟩ := hrhs p hpm
  obtain ⟨t, mem, e, e1, e2, e3⟩ := C40_reduce junk (· + ·) procs true root r p hp rfl len so hrhs (by rw [hinplace]; exact a1) (by rw [hinplace, a3]) (by rw [hinplace, a2])
    (by rw [hinplace, a2]; exact fun _ => rfl) (Or.inl ⟨by rw [hinplace], by rw [hinplace, a2]⟩) hsize
  have ht : t = p.rhs := by
    unfold reduce at e
    rw [hp] at e
    simp only [orUb, bind, Except.bind, a1.contig, hinplace, Bool.true_or, reduceTarget, if_true, check, decide_true, pure, Except.pure] at e
    revert e
    repeat' split
    all_goals intro e
    all_goals first | (simp only [Except.ok.injEq, Prod.mk.injEq] at e; exact e.1.symm) | exact absurd e (by simp)
  subst ht
  refine ⟨mem, e, fun idx hi xs hxs => ?_, e3⟩
  rw [e2 idx hi xs hxs]
  cases xs with
  | nil =>
    exfalso
    have : procs = [] := by simpa using hxs
    rw [this] at hpm; cases hpm
  | cons x xs => exact total_sum x xs

/-- **C40** Overlapping source and target are rejected: shapes agree, the arrays share an address, the data pointers differ. -/
theorem C40_overlap_rejected (junk : α) (op : α → α → α) (procs : List (Proc α)) (all : Bool) (root r : Nat) (p : Proc α) (hp : procs[r]? = some p)
    (hr : Blk p.rhs p.mem.length) (ht : Blk p.target p.mem.length) (hl : p.target.lay.len = p.rhs.lay.len) (hne : p.target.off ≠ p.rhs.off)
    (k : Int) (h1 : Occupies p.rhs k) (h2 : Occupies p.target k) : reduce junk op procs all root r = .error .runtime := by
  rw [hr.occupies] at h1
  rw [ht.occupies, hl] at h2
  unfold reduce
  rw [hp]
  have hclose : ¬ prod p.rhs.lay.len ≤ ((p.target.off - p.rhs.off).natAbs : Int) := by omega
  have : ∀ b, reduceTarget junk p b = .error .runtime := by
    intro b
    unfold reduceTarget
    rw [if_neg hne]
    cases b <;> simp only [resizeOrCheck, hl, check, size_eq, hclose, bind, Except.bind, if_true, decide_false, Bool.false_eq_true, if_false]
  simp only [orUb, bind, Except.bind, hr.contig, ht.contig, this]

/-- **C40** Same data pointer and different numbers of elements: rejected. -/
theorem C40_in_place_size (junk : α) (op : α → α → α) (procs : List (Proc α)) (all : Bool) (root r : Nat) (p : Proc α) (hp : procs[r]? = some p)
    (hr : Blk p.rhs p.mem.length) (ht : Blk p.target p.mem.length) (he : p.target.off = p.rhs.off) (hne : prod p.target.lay.len ≠ prod p.rhs.lay.len) :
    reduce junk op procs all root r = .error .runtime := by
  unfold reduce
  rw [hp]
  have : ∀ b, reduceTarget junk p b = .error .runtime := by
    intro b
    unfold reduceTarget
    rw [if_pos he]
    simp [check, size_eq, Ne.symm hne, bind, Except.bind]
  simp only [orUb, bind, Except.bind, hr.contig, ht.contig, this]

/-- C40: a reduction of arrays of different sizes has no result (the MPI call is erroneous; the library does not check it). -/
theorem C40_sizes (junk : α) (op : α → α → α) (procs : List (Proc α)) (all : Bool) (root r : Nat) (p q : Proc α) (hp : procs[r]? = some p) (hq : q ∈ procs)
    (hne : prod q.rhs.lay.len ≠ prod p.rhs.lay.len) (res : View × List α) : reduce junk op procs all root r ≠ .ok res := by
  unfold reduce
  rw [hp]
  simp only [orUb, bind, Except.bind]
  have hall : procs.all (fun q => decide (q.rhs.lay.size = p.rhs.lay.size)) = false := by
    rw [List.all_eq_false]
    exact ⟨q, hq, by simpa [size_eq] using hne⟩
  cases needContiguous p.rhs with
  | error e => nofun
  | ok _ =>
    cases needContiguous p.target with
    | error e => nofun
    | ok _ =>
      cases reduceTarget junk p (all || r == root) with
      | error e => nofun
      | ok t => simp only [hall, check]; nofun

/-- C39: a gather of `2 ^ 31` or more elements has no result, even if each process contributes less: the displacements overflow. -/
theorem C39_overflow (junk : α) (procs : List (Proc α)) (all : Bool) (root r : Nat) (here : (all || r == root) = true)
    (hsmall : ∀ q ∈ procs, 0 ≤ prod q.rhs.lay.len ∧ prod q.rhs.lay.len < intBound) (hbig : intBound ≤ (procs.map (fun q => prod q.rhs.lay.len)).sum)
    (res : View × List α) : gather junk procs all root r ≠ .ok res := by
  have hc : procs.map (fun q => toInt32 q.rhs.lay.size) = procs.map (fun q => prod q.rhs.lay.len) := by
    refine List.map_congr_left (fun q hq => ?_)
    obtain ⟨h0, h1⟩ := hsmall q hq
    rw [size_eq]
    exact bound_id h0 h1
  have hs : intSums (procs.map (fun q => prod q.rhs.lay.len)) = false := by
    rw [intSums, List.all_eq_false]
    refine ⟨(procs.map (fun q => prod q.rhs.lay.len)).length, by simp, ?_⟩
    simp only [decide_eq_true_eq, displs, List.take_length]
    intro e
    unfold toInt32 at e
    unfold intBound at hbig
    have := Int.bmod_lt (x := (procs.map (fun q => prod q.rhs.lay.len)).sum) (m := 4294967296) (by decide)
    omega
  unfold gather
  cases procs[r]? with
  | none => nofun
  | some p =>
    simp only [orUb, bind, Except.bind]
    cases needContiguous p.rhs with
    | error e => nofun
    | ok _ =>
      cases needContiguous p.target with
      | error e => nofun
      | ok _ =>
        cases gatherShape procs all root r with
        | none => nofun
        | some sha =>
          simp only [here, if_true]
          cases resizeOrCheck junk p.isView p.target sha p.mem with
          | error e => nofun
          | ok t =>
            simp only
            split
            · nofun
            · simp only [hc, hs, check]; nofun

/-- **C39, C40** Non-contiguous arrays are rejected. -/
theorem C39_strided_rejected (junk : α) (procs : List (Proc α)) (all : Bool) (root r : Nat) (p : Proc α) (hp : procs[r]? = some p) (op : α → α → α)
    (h : p.rhs.lay.isContiguous = some false ∨ (p.rhs.lay.isContiguous = some true ∧ p.target.lay.isContiguous = some false)) (ho : (procs[root]?).isSome) :
    gather junk procs all root r = .error .runtime ∧ scatter junk procs root r = .error .runtime ∧ reduce junk op procs all root r = .error .runtime := by
  obtain ⟨o, ho⟩ := Option.isSome_iff_exists.mp ho
  unfold gather scatter reduce
  rw [hp, ho]
  rcases h with h | ⟨h1, h2⟩
  · simp [orUb, bind, Except.bind, needContiguous, h, check]
  · simp [orUb, bind, Except.bind, needContiguous, h1, h2, check]

/-! ## Concrete cases -/

/-- A C-order 5 by 2 array at address 0 and an empty target after it. -/
def exProc : Proc Int := ⟨[0, 1, 10, 11, 20, 21, 30, 31, 40, 41], ⟨0, ⟨[5, 2], [2, 1], [0, 1], [0, 0], .contiguous⟩⟩, ⟨10, ⟨[0, 0], [0, 1], [0, 1], [0, 0], .contiguous⟩⟩, false⟩

/-- Three processes: the second one gets rows 2 and 3. -/
example : (scatter 0 [exProc, exProc, exProc] 0 1).map (fun r => (r.1.lay.len, r.1.off, r.2.drop 10)) = .ok ([2, 2], 10, [20, 21, 30, 31]) := by decide

/-- C-order arrays without gaps are contiguous blocks. -/
theorem blk_c (off : Int) (len : List Int) (se : List Nat) (pr : LayoutProp) (n : Nat) (h0 : len ≠ []) (hse : se.length = len.length) (hn : NonNeg len) (h1 : 0 ≤ off) (h2 : off + prod len ≤ n) :
    Blk ⟨off, ⟨len, Spec.dense len, Perm.identity len.length, se, pr⟩⟩ n := by
  have hdl : (Spec.dense len).length = len.length := dense_length len
  have hd : Dense (IdxMap.mk len (Spec.dense len) (Perm.identity len.length) se pr) := by
    unfold Dense EvenlySpaced
    simp only
    rw [SymGrp.memOrder_identity hdl, SymGrp.memOrder_identity rfl]; simp
  refine ⟨⟨⟨SymGrp.isPerm_identity _, by simp [SymGrp.identity_eq], hdl, hse⟩, flagsOK_of_dense hd, hn, ?_⟩, hd, h0⟩
  intro idx hi
  have hi : InRange len idx := hi
  have := lin_bounds hi
  rw [addr]
  simp only
  rw [dot_dense _ _ hi.length_eq]
  omega

/-- The hypotheses of `C39_scatter` and `C39_gather`: source and target of the example. -/
example : Blk exProc.rhs exProc.mem.length ∧ Blk exProc.target exProc.mem.length ∧ Separate exProc.rhs exProc.target :=
  ⟨blk_c 0 [5, 2] [0, 0] .contiguous 10 (by simp) rfl (by decide) (by decide) (by decide), blk_c 10 [0, 0] [0, 0] .contiguous 10 (by simp) rfl (by decide) (by decide) (by decide),
    fun i j _ hj => by
      match j, hj with
      | a :: b, hj => exact absurd hj.1.2 (by have := hj.1.1; simp; omega)⟩

/-- Gathering slabs of different heights: the middle process has one row, the root three. -/
example : (gather 0
    [⟨[1, 2], ⟨0, ⟨[1, 2], [2, 1], [0, 1], [0, 0], .contiguous⟩⟩, ⟨2, ⟨[0, 0], [0, 1], [0, 1], [0, 0], .contiguous⟩⟩, false⟩,
     ⟨[3, 4, 5, 6], ⟨0, ⟨[2, 2], [2, 1], [0, 1], [0, 0], .contiguous⟩⟩, ⟨4, ⟨[0, 0], [0, 1], [0, 1], [0, 0], .contiguous⟩⟩, false⟩]
    true 0 1).map (fun r => (r.1.lay.len, r.1.off, r.2)) = .ok ([3, 2], 4, [3, 4, 5, 6, 1, 2, 3, 4, 5, 6]) := by decide

/-- In-place sum over two processes. -/
example : (reduce 0 (· + ·)
    [⟨[1, 2, 3], ⟨1, ⟨[2], [1], [0], [0], .contiguous⟩⟩, ⟨1, ⟨[2], [1], [0], [0], .contiguous⟩⟩, true⟩,
     ⟨[10, 20], ⟨0, ⟨[2], [1], [0], [0], .contiguous⟩⟩, ⟨0, ⟨[2], [1], [0], [0], .contiguous⟩⟩, true⟩]
    true 0 0).map Prod.snd = .ok [(1 : Int), 12, 23] := by decide

/-- Overlap by one element: rejected. -/
example : reduce 0 (· + ·)
    [⟨[(1 : Int), 2, 3], ⟨0, ⟨[2], [1], [0], [0], .contiguous⟩⟩, ⟨1, ⟨[2], [1], [0], [0], .contiguous⟩⟩, true⟩]
    true 0 0 = .error .runtime := by decide

/-- **C39 fails in Fortran order**: the 2 by 2 array `[[1, 2], [3, 4]]` scattered over two processes.  The count uses the stride of the first dimension, 1, so one element per
row is sent instead of two: the second element of each slab is not set. -/
theorem C39_fortran_scatter_witness :
    (let v : View := ⟨0, ⟨[2, 2], [1, 2], [1, 0], [0, 0], .contiguous⟩⟩
     let p : Proc Int := ⟨[1, 3, 2, 4], v, ⟨4, ⟨[0, 0], [1, 0], [1, 0], [0, 0], .contiguous⟩⟩, false⟩
     (scatter 9 [p, p] 0 0).map (fun r => (r.1.lay.len, load r.1 [0, 0] r.2, load r.1 [0, 1] r.2))) = .ok ([1, 2], some 1, some 9) := by decide

/-- **C39 fails in Fortran order**: gathering `[[1, 2]]` and `[[3, 4]]` gives `[[1, 3], [2, 4]]`. -/
theorem C39_fortran_gather_witness :
    (let v : View := ⟨0, ⟨[1, 2], [1, 1], [1, 0], [0, 0], .contiguous⟩⟩
     let t : View := ⟨2, ⟨[0, 0], [1, 0], [1, 0], [0, 0], .contiguous⟩⟩
     (gather 9 [⟨[1, 2], v, t, false⟩, ⟨[3, 4], v, t, false⟩] false 0 0).map (fun r => (r.1.lay.len, load r.1 [0, 0] r.2, load r.1 [0, 1] r.2, load r.1 [1, 0] r.2, load r.1 [1, 1] r.2)))
      = .ok ([2, 2], some (1 : Int), some 3, some 2, some 4) := by decide

/-- **C39 fails** when a receiving process has a source of another extent: it computes its count from its own array, which does not agree with what the root sends. -/
theorem C39_local_shape_witness :
    (let v : View := ⟨0, ⟨[4], [1], [0], [0], .contiguous⟩⟩
     let w : View := ⟨0, ⟨[0], [1], [0], [0], .contiguous⟩⟩
     let t : View := ⟨4, ⟨[0], [1], [0], [0], .contiguous⟩⟩
     scatter 9 [⟨[1, 2, 3, 4], v, t, false⟩, ⟨[(9 : Int), 9, 9, 9], w, t, false⟩] 0 1) = .error .ub := by decide

/-- **C39** The shape that a lazy gather reports: on the processes that receive the result, the sum of the first extents and the other extents of the own array;
on the others one row. -/
theorem C39_gather_shape (procs : List (Proc α)) (all : Bool) (root r : Nat) (p : Proc α) (hp : procs[r]? = some p) (heights rest : List Int) (l : Int)
    (hh : procs.map (fun q => q.rhs.lay.len.head?) = heights.map some) (hl : p.rhs.lay.len = l :: rest) :
    gatherShape procs all root r = some ((if all = true ∨ r = root then heights.sum else 1) :: rest) := by
  have hm : ∀ (ps : List (Proc α)) (hs : List Int), ps.map (fun q => q.rhs.lay.len.head?) = hs.map some → ps.mapM (fun q => rd q.rhs.lay.len 0) = some hs := by
    intro ps
    induction ps with
    | nil => intro hs h; cases hs with
      | nil => rfl
      | cons x xs => cases h
    | cons q ps ih =>
        intro hs h
        cases hs with
        | nil => cases h
        | cons x xs =>
            simp only [List.map_cons, List.cons.injEq] at h
            rw [List.mapM_cons, ih xs h.2]
            cases hq : q.rhs.lay.len with
            | nil => rw [hq] at h; cases h.1
            | cons y ys => rw [hq] at h; simp at h; rw [h.1]; rfl
  simp only [gatherShape, hp, hm procs heights hh, hl, Option.bind_eq_bind, Option.bind_some, Bool.or_eq_true, beq_iff_eq]
  rfl

example : (let v : View := ⟨0, ⟨[2, 3], [3, 1], [0, 1], [0, 0], .contiguous⟩⟩
     let w : View := ⟨0, ⟨[1, 3], [3, 1], [0, 1], [0, 0], .contiguous⟩⟩
     let ps : List (Proc Int) := [⟨[1, 2, 3, 4, 5, 6], v, v, false⟩, ⟨[1, 2, 3], w, w, false⟩]
     (gatherShape ps false 0 0, gatherShape ps false 0 1, gatherShape ps true 0 1)) = (some [3, 3], some [1, 3], some [3, 3]) := by decide

/-- **C39** A process that is not to receive the result of a gather keeps its target and its memory. -/
theorem C39_gather_other (junk : α) (procs : List (Proc α)) (root r : Nat) (p : Proc α) (hp : procs[r]? = some p) (hr : r ≠ root)
    (hrhs : ∀ q ∈ procs, q.rhs.lay.len ≠ []) (hb : Blk p.rhs p.mem.length) (ht : Blk p.target p.mem.length) :
    gather junk procs false root r = .ok (p.target, p.mem) := by
  have hsh : ∃ l, gatherShape procs false root r = some l := by
    have hm : ∀ l : List (Proc α), (∀ q ∈ l, q.rhs.lay.len ≠ []) → ∃ ys, l.mapM (fun q => rd q.rhs.lay.len 0) = some ys := by
      intro l hl
      induction l with
      | nil => exact ⟨[], rfl⟩
      | cons q l ih =>
        obtain ⟨ys, hy⟩ := ih (fun q' h' => hl q' (List.mem_cons_of_mem _ h'))
        have hq := hl q List.mem_cons_self
        cases hql : q.rhs.lay.len with
        | nil => exact absurd hql hq
        | cons a as => exact ⟨a :: ys, by rw [List.mapM_cons, hy, hql]; rfl⟩
    obtain ⟨ys, hy⟩ := hm procs hrhs
    cases hpl : p.rhs.lay.len with
    | nil => exact absurd hpl hb.ne
    | cons a as => exact ⟨_, by simp only [gatherShape, hp, hy, hpl, Option.bind_eq_bind, Option.bind_some, Option.pure_def]; rfl⟩
  obtain ⟨l, hl⟩ := hsh
  have hr' : (r == root) = false := by simpa using hr
  simp [gather, hp, orUb, hb.contig, ht.contig, hl, hr', bind, Except.bind, pure, Except.pure]

/-- **C40** A process that is not to receive the result of a reduction keeps its target and its memory, in place or not. -/
theorem C40_reduce_other (junk : α) (op : α → α → α) (procs : List (Proc α)) (root r : Nat) (p : Proc α) (hp : procs[r]? = some p) (hr : r ≠ root)
    (hb : Blk p.rhs p.mem.length) (ht : Blk p.target p.mem.length) (hsize : ∀ q ∈ procs, prod q.rhs.lay.len = prod p.rhs.lay.len)
    (hcase : (p.target.off = p.rhs.off ∧ prod p.target.lay.len = prod p.rhs.lay.len) ∨
      (p.target.off ≠ p.rhs.off ∧ prod p.rhs.lay.len ≤ ((p.target.off - p.rhs.off).natAbs : Int))) :
    reduce junk op procs false root r = .ok (p.target, p.mem) := by
  have hr' : (r == root) = false := by simpa using hr
  have hall : (procs.all fun q => decide (q.rhs.lay.size = p.rhs.lay.size)) = true := by
    rw [List.all_eq_true]; intro q hq; simpa [IdxMap.size_eq] using hsize q hq
  have ht' : reduceTarget junk p false = .ok (p.target, p.mem) := by
    rcases hcase with ⟨h1, h2⟩ | ⟨h1, h2⟩
    · simp [reduceTarget, h1, IdxMap.size_eq, h2, check, bind, Except.bind, pure, Except.pure]
    · rw [Int.natCast_natAbs] at h2
      simp [reduceTarget, h1, IdxMap.size_eq, h2, check, bind, Except.bind, pure, Except.pure]
  simp [reduce, hp, orUb, hb.contig, ht.contig, hr', ht', hall, check, bind, Except.bind, pure, Except.pure]

example : (gather 9 [⟨[1, 2], ⟨0, ⟨[2], [1], [0], [0], .contiguous⟩⟩, ⟨2, ⟨[0], [1], [0], [0], .contiguous⟩⟩, false⟩,
     ⟨[3, 4, 5], ⟨0, ⟨[2], [1], [0], [0], .contiguous⟩⟩, ⟨2, ⟨[1], [1], [0], [0], .contiguous⟩⟩, false⟩] false 0 1).map Prod.snd = .ok [(3 : Int), 4, 5] := by decide

end Nda.Mpi
