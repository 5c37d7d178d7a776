import Verif.Lemmas.Spmd
/-!
# The collective operations, run by all processes
-/
namespace Nda.Spmd
open Nda Mpi Assign Matrix

variable {α β γ : Type} {n : Nat} {sem : Nat → α → α → α} {debug : Bool} {junk : α}

/-- Process `r` of `n` under MPI. -/
abbrev at_ (debug : Bool) (junk : α) (n : Nat) (r : Fin n) : Here α := ⟨true, debug, junk, n, r.val⟩

theorem gets_iff {root : Nat} {all : Bool} {r : Fin n} : Gets root all r ↔ (all || decide (r.val = root)) = true := by
  simp [Gets]

theorem goes_shape_gather {root : Nat} {all : Bool} (hr : root < n) (heights : Fin n → Int) (rest : List Int) :
    Goes sem (fun r => delayedShape (at_ debug junk n r) (.gather root all) (heights r :: rest))
      (fun r => (if all || decide (r.val = root) then (List.ofFn heights).sum else 1) :: rest) := by
  refine goes_bind (f := fun r x => Tree.leaf (.ok ((if all || (at_ debug junk n r).rank == root then x else 1) :: rest)))
    (goes_sumLong (h := at_ debug junk n) (fun _ => rfl) hr all heights) (goes_leaf (fun r => ?_))
  congr 3
  show (if (all || decide (r.val = root)) = true then _ else _) = _
  split <;> simp_all

theorem goes_shape_scatter {root : Nat} (hr : root < n) (l : Int) (rest : List Int) :
    Goes sem (fun r => delayedShape (at_ debug junk n r) (.scatter root) (l :: rest)) (fun r => chunkLength l n r.val :: rest) :=
  goes_bind (f := fun r x => Tree.leaf (.ok (chunkLength x (at_ debug junk n r).size (at_ debug junk n r).rank :: rest)))
    (goes_bcastLong (h := at_ debug junk n) (fun _ => rfl) hr (fun _ => l)) (goes_leaf (fun _ => rfl))

theorem length_flatten_ofFn (ys : Fin n → List α) : ((List.ofFn ys).flatten.length : Int) = (List.ofFn (fun q => ((ys q).length : Int))).sum := by
  rw [List.length_flatten, List.map_ofFn]
  have : ∀ l : List Nat, ((l.sum : Nat) : Int) = (l.map (fun x : Nat => (x : Int))).sum := by
    intro l; induction l with
    | nil => rfl
    | cons a l ih => rw [List.sum_cons, List.map_cons, List.sum_cons, ← ih]; push_cast; rfl
  rw [this, List.map_ofFn]; rfl

theorem le_sum_of_mem : ∀ {l : List Int}, (∀ c ∈ l, 0 ≤ c) → ∀ {x : Int}, x ∈ l → x ≤ l.sum
  | [], _, _, h => by cases h
  | a :: l, hn, x, h => by
    have h0 := hn a List.mem_cons_self
    have h1 : 0 ≤ l.sum := sum_nonneg' (fun c hc => hn c (List.mem_cons_of_mem _ hc))
    rw [List.sum_cons]
    rcases List.mem_cons.mp h with rfl | h
    · omega
    · have := le_sum_of_mem (fun c hc => hn c (List.mem_cons_of_mem _ hc)) h; omega

theorem sum_mul_ofFn (hs : Fin n → Int) (k : Int) : (List.ofFn (fun q => hs q * k)).sum = (List.ofFn hs).sum * k := by
  have : ∀ l : List Int, (l.map (· * k)).sum = l.sum * k := by
    intro l; induction l with
    | nil => simp
    | cons a l ih => simp [ih, add_mul]
  rw [← this, List.map_ofFn]; rfl

theorem flatten_singletons (x : Fin n → Int) : (List.ofFn (fun q => [x q])).flatten = List.ofFn x := by
  have : ∀ l : List Int, (l.map (fun y => [y])).flatten = l := by
    intro l; induction l with
    | nil => rfl
    | cons a l ih => simp [ih]
  rw [← this (List.ofFn x), List.map_ofFn]; rfl

theorem intSums_nil : intSums [] = true := by decide

theorem goes_invokeGather {root : Nat} {all : Bool} (hr : root < n) (heights : Fin n → Int) (rest : List Int) (data : Fin n → List α)
    (hd : ∀ r, ((data r).length : Int) = (heights r :: rest).prod) (hb : (List.ofFn heights).sum * rest.prod < intBound) (t : Fin n → Loc α)
    (ht : ∀ r, Gets root all r → (t r).shape = (List.ofFn heights).sum :: rest ∧ ((t r).data.length : Int) = ((List.ofFn heights).sum :: rest).prod) :
    Goes sem (fun r => invokeGather (at_ debug junk n r) root all ⟨heights r :: rest, data r, false, true⟩ (t r))
      (fun r => if all || decide (r.val = root) then { t r with data := (List.ofFn data).flatten } else t r) := by
  have hl : List.ofFn (fun q => ((data q).length : Int)) = List.ofFn (fun q => (heights q :: rest).prod) := by
    congr 1; funext q; exact hd q
  have hsum : (List.ofFn (fun q => (heights q :: rest).prod)).sum = (List.ofFn heights).sum * rest.prod := by
    simp only [List.prod_cons]; exact sum_mul_ofFn _ _
  have hpos : ∀ c ∈ List.ofFn (fun q => (heights q :: rest).prod), 0 ≤ c := by
    intro c hc; rw [List.mem_ofFn] at hc; obtain ⟨q, rfl⟩ := hc
    rw [← hd]; omega
  have hle : ∀ q, (heights q :: rest).prod < intBound := by
    intro q
    have := le_sum_of_mem hpos (x := (heights q :: rest).prod) (by rw [List.mem_ofFn]; exact ⟨q, rfl⟩)
    omega
  have hlen : ((List.ofFn data).flatten.length : Int) = ((List.ofFn heights).sum :: rest).prod := by
    rw [length_flatten_ofFn, hl, hsum, List.prod_cons]
  simp only [invokeGather_eq]
  refine goes_bind (f := fun r _ => _) (goes_need (fun r => by
    have : 0 ≤ (heights r :: rest).prod := by rw [← hd]; omega
    exact decide_eq_true (bound_id this (hle r)))) ?_
  refine goes_bind (goes_shape_gather (all := all) hr heights rest) ?_
  refine goes_bind (b := t) (goes_leaf (fun r => ?_)) ?_
  · show makeRoom _ (all || decide (r.val = root)) _ _ = _
    unfold makeRoom resizeOrCheck
    by_cases hg : (all || decide (r.val = root)) = true
    · rw [if_pos hg, if_pos hg, if_pos (ht r (gets_iff.mpr hg)).1]
    · rw [if_neg hg]
  refine goes_bind (goes_call (by omega) (answer_eq _ .gatherInt root all 0 hr (fun _ => ⟨rfl, rfl, rfl, rfl⟩))) ?_
  have hrep : ∀ r : Fin n, (if (all || decide (r.val = root)) = true then ({ longs := (List.ofFn (fun q => [(heights q :: rest).prod])).flatten } : Reply α) else {}).longs =
      if (all || decide (r.val = root)) = true then List.ofFn (fun q => (heights q :: rest).prod) else [] := by
    intro r; rw [flatten_singletons]; split <;> rfl
  simp only [hrep]
  refine goes_bind (goes_need (fun r => ?_)) ?_
  · split
    · exact intSums_true hpos (by rw [hsum]; exact hb)
    · exact intSums_nil
  refine goes_bind (goes_need (fun r => by simp)) ?_
  refine goes_bind (goes_call (by omega) ((answer_eq _ .gatherv root all 0 hr (fun _ => ⟨rfl, rfl, rfl, rfl⟩)).trans (if_pos (fun r hg => ?_)))) (goes_leaf (fun r => ?_))
  · exact (if_pos hg).trans hl.symm
  · show receiveIf (all || decide (r.val = root)) _ _ = _
    unfold receiveIf
    by_cases hg : (all || decide (r.val = root)) = true
    · have h2 := (ht r (gets_iff.mpr hg)).2
      rw [← hlen] at h2
      have h3 : (t r).data.length = (List.ofFn data).flatten.length := by exact_mod_cast h2
      simp only [hg, if_true]
      rw [receive, if_pos (by rw [h3]), List.drop_of_length_le (by rw [h3]), List.append_nil]
    · simp only [if_neg hg]

theorem receive_all {t : Loc α} {xs : List α} (h : xs.length = t.data.length) : receive t xs = .leaf (.ok { t with data := xs }) := by
  rw [receive, if_pos (by rw [h]), List.drop_of_length_le (by rw [h]), List.append_nil]

theorem displs_map_mul (l : List Int) (k : Int) (r : Nat) : displs (l.map (· * k)) r = slabStart l r * k := by
  unfold displs slabStart
  rw [← List.map_take]
  generalize l.take r = m
  induction m with
  | nil => simp
  | cons a m ih => simp [ih, add_mul]

theorem goes_invokeScatter {root : Nat} (hr : root < n) (l : Int) (rest : List Int) (data : Fin n → List α) (h0 : 0 ≤ l) (hk : 0 ≤ rest.prod)
    (hd : ((data ⟨root, hr⟩).length : Int) = (l :: rest).prod) (hb : l * rest.prod < intBound) (t : Fin n → Loc α)
    (ht : ∀ r, (t r).shape = chunkLength l n r.val :: rest ∧ ((t r).data.length : Int) = (chunkLength l n r.val :: rest).prod) :
    Goes sem (fun r => invokeScatter (at_ debug junk n r) root ⟨l :: rest, data r, false, true⟩ (t r))
      (fun r => { t r with data := (((data ⟨root, hr⟩).drop (slabStart ((List.range n).map (chunkLength l n)) r.val * rest.prod).toNat).take
        (chunkLength l n r.val * rest.prod).toNat) }) := by
  have hn : 0 < n := by omega
  have hes := C39_chunks l n hn
  have hH0 : ∀ c ∈ (List.range n).map (chunkLength l n), 0 ≤ c := by
    intro c hc; obtain ⟨q, _, rfl⟩ := List.mem_map.mp hc; exact chunk_nonneg h0 n q
  have hcle : ∀ q, q < n → chunkLength l n q ≤ l := by
    intro q hq
    have := le_sum_of_mem hH0 (x := chunkLength l n q) (List.mem_map.mpr ⟨q, by simpa using hq, rfl⟩)
    rwa [hes.sum] at this
  have hto : ∀ q, q < n → toInt32 (chunkLength l n q * rest.prod) = chunkLength l n q * rest.prod := by
    intro q hq
    refine bound_id (mul_nonneg (chunk_nonneg h0 n q) hk) (lt_of_le_of_lt (mul_le_mul_of_nonneg_right (hcle q hq) hk) hb)
  have hcounts : (List.range n).map (fun q => toInt32 (chunkLength l n q * rest.prod)) = ((List.range n).map (chunkLength l n)).map (· * rest.prod) := by
    rw [List.map_map]
    exact List.map_congr_left (fun q hq => hto q (by simpa using hq))
  have hpos : ∀ c ∈ ((List.range n).map (chunkLength l n)).map (· * rest.prod), 0 ≤ c := by
    intro c hc; obtain ⟨q, hq, rfl⟩ := List.mem_map.mp hc; exact mul_nonneg (hH0 q hq) hk
  have hsum : (((List.range n).map (chunkLength l n)).map (· * rest.prod)).sum = l * rest.prod := by
    have := displs_map_mul ((List.range n).map (chunkLength l n)) rest.prod n
    unfold displs slabStart at this
    rw [List.take_of_length_le (by simp), List.take_of_length_le (by simp), hes.sum] at this
    exact this
  simp only [invokeScatter_eq]
  refine goes_bind (goes_shape_scatter hr l rest) ?_
  refine goes_bind (b := t) (goes_leaf (fun r => by rw [resizeOrCheck, if_pos (ht r).1])) ?_
  simp only [List.headD_cons, List.tail_cons, hcounts]
  refine goes_bind (goes_need (fun r => intSums_true hpos (by rw [hsum]; exact hb))) ?_
  refine goes_bind (goes_need (fun r => by simp)) ?_
  refine goes_bind (goes_call (by omega) ((answer_eq _ .scatterv root false 0 hr (fun _ => ⟨rfl, rfl, rfl, rfl⟩)).trans (if_pos (And.intro ?hex (And.intro hpos ?hsum))))) ?hfin
  case hex =>
    intro r
    show (((List.range n).map (chunkLength l n)).map (· * rest.prod))[r.val]? = some (toInt32 (chunkLength l n r.val * rest.prod))
    rw [hto r.val r.isLt, List.getElem?_map, List.getElem?_map, List.getElem?_range r.isLt]; rfl
  case hsum =>
    show (((List.range n).map (chunkLength l n)).map (· * rest.prod)).sum ≤ ((data ⟨root, hr⟩).length : Int)
    rw [hsum, hd, List.prod_cons]
  case hfin =>
    refine goes_leaf (fun r => ?_)
    have h2 := (ht r).2
    have e1 : (displs (((List.range n).map (chunkLength l n)).map (· * rest.prod)) r.val).toNat =
        (slabStart ((List.range n).map (chunkLength l n)) r.val * rest.prod).toNat := by rw [displs_map_mul]
    have hle : slabStart ((List.range n).map (chunkLength l n)) r.val + chunkLength l n r.val ≤ l := by
      have h3 := displs_succ (counts := (List.range n).map (chunkLength l n)) (r := r.val) (by simp)
      have h4 := displs_le hH0 (r.val + 1)
      rw [hes.sum] at h4
      simp only [List.getElem_map, List.getElem_range] at h3
      show displs _ _ + _ ≤ _
      omega
    have hst : 0 ≤ slabStart ((List.range n).map (chunkLength l n)) r.val := displs_nonneg hH0 _
    have hxl : (((data ⟨root, hr⟩).drop (slabStart ((List.range n).map (chunkLength l n)) r.val * rest.prod).toNat).take (chunkLength l n r.val * rest.prod).toNat).length =
        (t r).data.length := by
      rw [List.length_take, List.length_drop]
      have h5 : 0 ≤ slabStart ((List.range n).map (chunkLength l n)) r.val * rest.prod := mul_nonneg hst hk
      have h6 : 0 ≤ chunkLength l n r.val * rest.prod := mul_nonneg (chunk_nonneg h0 n r.val) hk
      have h7 := mul_le_mul_of_nonneg_right hle hk
      rw [add_mul] at h7
      rw [List.prod_cons] at hd h2
      omega
    show receive (t r) (((data ⟨root, hr⟩).drop (displs (((List.range n).map (chunkLength l n)).map (· * rest.prod)) r.val).toNat).take
      (toInt32 (chunkLength l n r.val * rest.prod)).toNat) = _
    rw [e1, hto r.val r.isLt, receive_all hxl]

theorem goes_invokeReduce {root : Nat} {all : Bool} {op : Nat} (hr : root < n) (sha : List Int) (data : Fin n → List α) (same : Bool)
    (hd : ∀ r, ((data r).length : Int) = sha.prod) (hb : sha.prod < intBound) (t : Fin n → Loc α) (hs : same = true → ∀ r, (t r).shape.prod = sha.prod)
    (ht : ∀ r, Gets root all r → (t r).shape = sha ∧ ((t r).data.length : Int) = sha.prod) :
    Goes sem (fun r => invokeReduce (at_ debug junk n r) root all op ⟨sha, data r, same, true⟩ (t r))
      (fun r => if all || decide (r.val = root) then { t r with data := combine (sem op) (List.ofFn data) } else t r) := by
  have hk : 0 ≤ sha.prod := by rw [← hd ⟨root, hr⟩]; omega
  have hdn : ∀ r, (data r).length = sha.prod.toNat := by intro r; have := hd r; omega
  simp only [invokeReduce_eq]
  refine goes_bind (goes_need (fun r => ?_)) ?_
  · cases same with
    | false => rfl
    | true => exact decide_eq_true (hs rfl r).symm
  refine goes_bind (b := t) (goes_leaf (fun r => ?_)) ?_
  · show makeRoom _ (!same && (all || decide (r.val = root))) _ _ = _
    unfold makeRoom resizeOrCheck
    by_cases hg : (all || decide (r.val = root)) = true
    · rw [if_pos (ht r (gets_iff.mpr hg)).1, ite_self]
    · rw [if_neg (by simp [hg])]
  refine goes_bind (goes_need (fun r => ?_)) ?_
  · simp only [Bool.true_and]; exact decide_eq_true (bound_id hk hb)
  refine goes_bind (goes_call (by omega) ((answer_eq _ .reduce root all op hr (fun _ => ⟨rfl, rfl, rfl, rfl⟩)).trans (if_pos (fun r => ?_)))) (goes_leaf (fun r => ?_))
  · show (data r).length = (data ⟨root, hr⟩).length
    rw [hdn, hdn]
  · show receiveIf (all || decide (r.val = root)) _ _ = _
    unfold receiveIf
    by_cases hg : (all || decide (r.val = root)) = true
    · have h2 := (ht r (gets_iff.mpr hg)).2
      have hc : (combine (sem op) (List.ofFn data)).length = sha.prod.toNat := by
        refine combine_length _ ?_ ?_
        · intro e
          have := congrArg List.length e
          simp at this; omega
        · intro b hbm
          rw [List.mem_ofFn] at hbm; obtain ⟨q, rfl⟩ := hbm; exact hdn q
      have h3 : (combine (sem op) (List.ofFn data)).length = (t r).data.length := by omega
      simp only [hg, if_true]
      rw [receive, if_pos (by rw [h3]), List.drop_of_length_le (by rw [h3]), List.append_nil]
    · simp only [if_neg hg]

theorem goes_broadcast {root : Nat} (hr : root < n) {t t' : Fin n → Loc α} (h : Broadcasted ⟨root, hr⟩ t t') :
    Goes sem (fun r => broadcast (at_ debug junk n r) root (t r)) t' := by
  obtain ⟨hc, hb, hroot, hrec⟩ := h
  have hw := (hc ⟨root, hr⟩).1
  have hk : 0 ≤ (t ⟨root, hr⟩).shape.prod := by rw [← hw.full]; omega
  simp only [broadcast_eq]
  refine goes_bind (goes_need (fun r => (hc r).1.contig)) ?_
  simp only [if_true]
  refine goes_bind (goes_call (by omega) ((answer_eq _ .bcastLong root false 0 hr (fun _ => ⟨rfl, rfl, rfl, rfl⟩)).trans (if_pos (fun r => (hc r).2)))) ?_
  -- the targets have the right shape now
  have hroom : ∀ r, ∃ u, makeRoom (at_ debug junk n r) (r.val != root) (t r) (t ⟨root, hr⟩).shape = .leaf (.ok u) ∧ u.shape = (t ⟨root, hr⟩).shape ∧
      u.data.length = (t ⟨root, hr⟩).data.length ∧ (r.val = root → u = t r) ∧ u.isView = (t r).isView ∧ u.contig = (t r).contig := by
    intro r
    have hfull := hw.full
    by_cases e : r.val = root
    · have er : r = ⟨root, hr⟩ := Fin.ext e
      subst er
      exact ⟨t ⟨root, hr⟩, by simp [makeRoom], rfl, rfl, fun _ => rfl, rfl, rfl⟩
    · obtain ⟨hcr, hv, ht'⟩ := hrec r (fun er => e (congrArg Fin.val er))
      rw [makeRoom, if_pos (by simpa using e), resizeOrCheck]
      by_cases hv' : (t r).isView = true
      · obtain ⟨h1, h2⟩ := hv hv'
        rw [if_pos h1]
        exact ⟨_, rfl, h1, by omega, fun _ => rfl, rfl, rfl⟩
      · rw [if_neg hv']
        have hlen : ((t r).resize (at_ debug junk n r) (t ⟨root, hr⟩).shape).data.length = (t ⟨root, hr⟩).data.length := by
          unfold Loc.resize
          dsimp only
          split
          · omega
          · rw [List.length_replicate]; omega
        split
        · rename_i hs
          have := (hc r).1.full
          rw [hs] at this
          exact ⟨_, rfl, hs, by omega, fun _ => rfl, rfl, rfl⟩
        · exact ⟨_, rfl, rfl, hlen, fun e' => absurd e' e, rfl, rfl⟩
  choose u hu1 hu2 hu3 hu4 hu5 hu6 using hroom
  refine goes_bind (b := u) (goes_leaf hu1) ?_
  refine goes_bind (goes_need (fun r => ?_)) ?_
  · rw [hu2]; exact decide_eq_true (bound_id hk hb)
  refine goes_bind (goes_call (by omega) ((answer_eq _ .bcast root false 0 hr (fun _ => ⟨rfl, rfl, rfl, rfl⟩)).trans (if_pos (fun r => ?_)))) (goes_leaf (fun r => ?_))
  · show (u r).data.length = (u ⟨root, hr⟩).data.length
    rw [hu3, hu3]
  · show receiveIf (r.val != root) (u r) (u ⟨root, hr⟩).data = _
    rw [hu4 ⟨root, hr⟩ rfl, receiveIf]
    by_cases e : r.val = root
    · have er : r = ⟨root, hr⟩ := Fin.ext e
      subst er
      rw [if_neg (by simp), hu4 _ rfl, hroot]
    · obtain ⟨hcr, hv, ht'⟩ := hrec r (fun er => e (congrArg Fin.val er))
      rw [if_pos (by simpa using e), receive, if_pos (by rw [hu3]), List.drop_of_length_le (by rw [hu3]), List.append_nil, ht']
      congr 2
      rw [← hu2 r, ← hu5 r, ← hu6 r]

end Nda.Spmd
