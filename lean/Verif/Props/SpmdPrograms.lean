import Verif.Props.Spmd
/-!
# C93: some programs
-/
namespace Nda.Spmd
open Nda Mpi Assign Matrix

variable {α β γ : Type} {n : Nat} {sem : Nat → α → α → α} {debug : Bool} {junk : α}

theorem ofFn_val (g : Nat → β) : List.ofFn (fun r : Fin n => g r.val) = (List.range n).map g := by
  apply List.ext_getElem
  · simp
  · intro i h1 h2; simp

/-- The slabs of a list, put together again. -/
theorem flatten_slabs (D : List α) (start len : Nat → Nat) (h0 : start 0 = 0) (hs : ∀ k, k < n → start (k + 1) = start k + len k) (hn : D.length ≤ start n) :
    (List.ofFn (fun r : Fin n => (D.drop (start r.val)).take (len r.val))).flatten = D := by
  rw [ofFn_val (fun r => (D.drop (start r)).take (len r))]
  have : ∀ k, k ≤ n → ((List.range k).map (fun r => (D.drop (start r)).take (len r))).flatten = D.take (start k) := by
    intro k
    induction k with
    | zero => intro _; simp [h0]
    | succ k ih =>
      intro hk
      rw [List.range_succ, List.map_append, List.flatten_append, ih (by omega), hs k (by omega), List.take_add]
      simp
  rw [this n le_rfl, List.take_of_length_le hn]

/-- Element by element change of variable `x`. -/
def mapVar (f : α → α) (x : Nat) : Nat → Store α → Store α := fun _ s =>
  match s[x]? with
  | some b => s.set x { b with data := b.data.map f }
  | none => s

/-- **C93** Scattering an array, changing each part element by element, and gathering gives the array changed element by element, on all processes that receive the result. -/
theorem C93_distributed_map (sem : Nat → α → α → α) (junk : α) (debug : Bool) (f : α → α) (src root root2 m : Nat) (all : Bool) (hr : root < n) (hr2 : root2 < n)
    (ss : Fin n → Store α) (hm : ∀ r, (ss r).length = m) (a : Fin n → Loc α) (ha : ∀ r, (ss r)[src]? = some (a r)) (l : Int) (rest : List Int)
    (hw : ∀ r, Whole (a r) ∧ (a r).shape = l :: rest) (hb : l * rest.prod < intBound) :
    ∃ ss' : Fin n → Store α, Runs sem (fun r : Fin n => exec ⟨true, debug, junk, n, r.val⟩ (.seq (.make src (.scatter root)) (.seq (.compute (mapVar f m)) (.make m (.gather root2 all)))) (ss r))
        (.ended (fun r => .ok (ss' r))) ∧
      ∀ r, Gets root2 all r → (ss' r)[m + 1]? = some ⟨l :: rest, (a ⟨root, hr⟩).data.map f, false, true⟩ := by
  have hn : 0 < n := by omega
  have hes := C39_chunks l n hn
  have hl : 0 ≤ l := (hw ⟨root, hr⟩).1.nonneg _ (by rw [(hw ⟨root, hr⟩).2]; exact List.mem_cons_self)
  have hrn : ∀ x ∈ rest, 0 ≤ x := fun x hx => (hw ⟨root, hr⟩).1.nonneg x (by rw [(hw ⟨root, hr⟩).2]; exact List.mem_cons_of_mem _ hx)
  have hrest : 0 ≤ rest.prod := prod_nonneg' hrn
  have hH0 : ∀ c ∈ (List.range n).map (chunkLength l n), 0 ≤ c := by
    intro c hc; obtain ⟨q, _, rfl⟩ := List.mem_map.mp hc; exact chunk_nonneg hl n q
  have hfull : ((a ⟨root, hr⟩).data.length : Int) = l * rest.prod := by rw [(hw ⟨root, hr⟩).1.full, (hw ⟨root, hr⟩).2, List.prod_cons]
  -- the slab of process r
  generalize hD : (a ⟨root, hr⟩).data = D at *
  have hstep : ∀ k, k < n → slabStart ((List.range n).map (chunkLength l n)) (k + 1) = slabStart ((List.range n).map (chunkLength l n)) k + chunkLength l n k := by
    intro k hk
    have h3 := displs_succ (counts := (List.range n).map (chunkLength l n)) (r := k) (by simpa using hk)
    simp only [List.getElem_map, List.getElem_range] at h3
    exact h3
  have hst : ∀ k, 0 ≤ slabStart ((List.range n).map (chunkLength l n)) k := fun k => displs_nonneg hH0 k
  have hend : slabStart ((List.range n).map (chunkLength l n)) n = l := by
    rw [slabStart, List.take_of_length_le (by simp), hes.sum]
  have hle : ∀ k, k ≤ n → slabStart ((List.range n).map (chunkLength l n)) k ≤ l := by
    intro k _
    have := displs_le hH0 k
    rw [hes.sum] at this; exact this
  let slab : Fin n → List α := fun r => (D.drop (slabStart ((List.range n).map (chunkLength l n)) r.val * rest.prod).toNat).take (chunkLength l n r.val * rest.prod).toNat
  have hslab : ∀ r, ((slab r).length : Int) = chunkLength l n r.val * rest.prod := by
    intro r
    show (((D.drop _).take _).length : Int) = _
    rw [List.length_take, List.length_drop]
    have h1 := mul_nonneg (hst r.val) hrest
    have h2 := mul_nonneg (chunk_nonneg hl n r.val) hrest
    have h3 := mul_le_mul_of_nonneg_right (hle (r.val + 1) r.isLt) hrest
    rw [hstep r.val r.isLt, add_mul] at h3
    omega
  have hflat : (List.ofFn slab).flatten = D := by
    refine flatten_slabs D (fun k => (slabStart ((List.range n).map (chunkLength l n)) k * rest.prod).toNat) (fun k => (chunkLength l n k * rest.prod).toNat) ?_ ?_ ?_
    · simp [slabStart]
    · intro k hk
      have h1 := mul_nonneg (hst k) hrest
      have h2 := mul_nonneg (chunk_nonneg hl n k) hrest
      simp only [hstep k hk, add_mul]
      omega
    · simp only [hend]; omega
  let b : Fin n → Loc α := fun r => ⟨chunkLength l n r.val :: rest, slab r, false, true⟩
  let b' : Fin n → Loc α := fun r => ⟨chunkLength l n r.val :: rest, (slab r).map f, false, true⟩
  let c : Fin n → Loc α := fun r => if all || decide (r.val = root2) then ⟨l :: rest, D.map f, false, true⟩ else
    ⟨1 :: rest, if (1 :: rest).prod = ((([] : List α).length : Nat) : Int) then [] else List.replicate (1 :: rest).prod.toNat junk, false, true⟩
  have hsum : (List.ofFn (fun r : Fin n => chunkLength l n r.val)).sum = l := by
    rw [ofFn_val (chunkLength l n), hes.sum]
  refine ⟨fun r => (ss r ++ [b' r]) ++ [c r], C93_programs sem junk debug _ ss _ ⟨fun r => ss r ++ [b r], ?_, fun r => ss r ++ [b' r], ?_, ?_⟩, ?_⟩
  · refine ⟨a, b, ha, ⟨hr, l, rest, hw, hb, fun r => ⟨rfl, fun h => (by cases h), ?_⟩⟩, fun r => rfl⟩
    rw [hD]
  · intro r
    show _ = mapVar f m r.val (ss r ++ [b r])
    have h1 : (ss r ++ [b r])[m]? = some (b r) := by
      rw [← hm r]; simp
    rw [mapVar, h1]
    show _ = (ss r ++ [b r]).set m (b' r)
    rw [← hm r, List.set_append_right _ _ le_rfl]; simp
  · refine ⟨b', c, fun r => ?_, ⟨hr2, fun r => chunkLength l n r.val, rest, fun r => ⟨⟨rfl, ?_, ?_⟩, rfl⟩, ?_, fun r => ⟨fun hg => ?_, fun hg => ?_⟩⟩, fun r => rfl⟩
    · rw [← hm r]; simp
    · intro x hx
      rcases List.mem_cons.mp hx with rfl | hx
      · exact chunk_nonneg hl n r.val
      · exact hrn x hx
    · show (((slab r).map f).length : Int) = (chunkLength l n r.val :: rest).prod
      rw [List.length_map, hslab, List.prod_cons]
    · rw [hsum]; exact hb
    · refine ⟨rfl, fun h => (by cases h), ?_⟩
      show (if _ then _ else _) = _
      rw [if_pos (gets_iff.mp hg), hsum]
      have : (List.ofFn (fun q => (b' q).data)).flatten = D.map f := by
        show (List.ofFn (fun q => (slab q).map f)).flatten = _
        rw [show (fun q => (slab q).map f) = (List.map f) ∘ slab from rfl, ← List.map_ofFn, ← List.map_flatten, hflat]
      rw [this]
    · refine ⟨rfl, ?_⟩
      rw [if_neg (by simp)]
      show (if _ then _ else _) = _
      rw [if_neg (fun h => hg (gets_iff.mpr h))]
  · intro r hg
    have h1 : m + 1 = (ss r ++ [b' r]).length := by simp [hm r]
    rw [h1, List.getElem?_append_right le_rfl]
    simp only [Nat.sub_self, List.getElem?_cons_zero]
    show some (if _ then _ else _) = _
    rw [if_pos (gets_iff.mp hg)]

/-- **C93** Gathering what was scattered gives the array of the root back. -/
theorem C93_round_trip (sem : Nat → α → α → α) (junk : α) (debug : Bool) (src root root2 m : Nat) (all : Bool) (hr : root < n) (hr2 : root2 < n)
    (ss : Fin n → Store α) (hm : ∀ r, (ss r).length = m) (a : Fin n → Loc α) (ha : ∀ r, (ss r)[src]? = some (a r)) (l : Int) (rest : List Int)
    (hw : ∀ r, Whole (a r) ∧ (a r).shape = l :: rest) (hb : l * rest.prod < intBound) :
    ∃ ss' : Fin n → Store α, Runs sem (fun r : Fin n => exec ⟨true, debug, junk, n, r.val⟩ (.seq (.make src (.scatter root)) (.make m (.gather root2 all))) (ss r))
        (.ended (fun r => .ok (ss' r))) ∧
      ∀ r, Gets root2 all r → (ss' r)[m + 1]? = some ⟨l :: rest, (a ⟨root, hr⟩).data, false, true⟩ := by
  obtain ⟨ss', h1, h2⟩ := C93_distributed_map sem junk debug id src root root2 m all hr hr2 ss hm a ha l rest hw hb
  refine ⟨ss', ?_, fun r hg => by rw [h2 r hg, List.map_id]⟩
  have e : (fun r : Fin n => exec ⟨true, debug, junk, n, r.val⟩ (.seq (.make src (.scatter root)) (.make m (.gather root2 all))) (ss r)) =
      fun r : Fin n => exec ⟨true, debug, junk, n, r.val⟩ (.seq (.make src (.scatter root)) (.seq (.compute (mapVar id m)) (.make m (.gather root2 all)))) (ss r) := by
    funext r
    have hid : ∀ (k : Nat) (s : Store α), mapVar id m k s = s := by
      intro k s
      unfold mapVar
      cases hs : s[m]? with
      | none => rfl
      | some b =>
        simp only [List.map_id]
        obtain ⟨hi, hs⟩ := List.getElem?_eq_some_iff.mp hs
        rw [← hs]; exact List.set_getElem_self hi
    simp only [exec, leaf_bind, hid]
  rw [e]; exact h1

/-- **C93** Gathering on the root followed by a broadcast does what gathering on all processes does. -/
theorem C93_gather_broadcast (sem : Nat → α → α → α) (junk : α) (debug : Bool) (dst src root : Nat) (hne : dst ≠ src) (hr : root < n) (ss : Fin n → Store α) (a t : Fin n → Loc α)
    (ha : ∀ r, (ss r)[src]? = some (a r)) (ht : ∀ r, (ss r)[dst]? = some (t r)) (harr : ∀ r, (t r).isView = false ∧ (t r).contig = true) (heights : Fin n → Int) (rest : List Int)
    (hw : ∀ r, Whole (a r) ∧ (a r).shape = heights r :: rest) (hb : (List.ofFn heights).sum * rest.prod < intBound) :
    ∃ ss' : Fin n → Store α, Runs sem (fun r : Fin n => exec ⟨true, debug, junk, n, r.val⟩ (.assign dst src (.gather root true)) (ss r)) (.ended (fun r => .ok (ss' r))) ∧
      Runs sem (fun r : Fin n => exec ⟨true, debug, junk, n, r.val⟩ (.seq (.assign dst src (.gather root false)) (.broadcast dst root)) (ss r)) (.ended (fun r => .ok (ss' r))) := by
  have hn : 0 < n := by omega
  have hrn : ∀ x ∈ rest, 0 ≤ x := fun x hx => (hw ⟨0, hn⟩).1.nonneg x (by rw [(hw ⟨0, hn⟩).2]; exact List.mem_cons_of_mem _ hx)
  have hh : ∀ r, 0 ≤ heights r := fun r => (hw r).1.nonneg _ (by rw [(hw r).2]; exact List.mem_cons_self)
  have hsum : 0 ≤ (List.ofFn heights).sum := sum_nonneg' (fun c hc => by rw [List.mem_ofFn] at hc; obtain ⟨q, rfl⟩ := hc; exact hh q)
  have hrest : 0 ≤ rest.prod := prod_nonneg' hrn
  let flat := (List.ofFn (fun q => (a q).data)).flatten
  have hflat : (flat.length : Int) = ((List.ofFn heights).sum :: rest).prod := by
    show (((List.ofFn (fun q => (a q).data)).flatten.length : Nat) : Int) = _
    rw [length_flatten_ofFn, List.prod_cons, ← sum_mul_ofFn]
    congr 2; funext q; rw [(hw q).1.full, (hw q).2, List.prod_cons]
  let t' : Fin n → Loc α := fun r => { t r with shape := (List.ofFn heights).sum :: rest, data := flat }
  let t1 : Fin n → Loc α := fun r => if decide (r.val = root) then t' r else
    { t r with shape := 1 :: rest, data := if (1 :: rest).prod = ((t r).data.length : Int) then (t r).data else List.replicate (1 :: rest).prod.toNat junk }
  have hview : ∀ r q, (t r).isView = (t q).isView := fun r q => by rw [(harr r).1, (harr q).1]
  have hnv : ∀ r, ¬ (t r).isView = true := fun r => by rw [(harr r).1]; simp
  have ht1root : t1 ⟨root, hr⟩ = t' ⟨root, hr⟩ := by show (if decide (root = root) = true then _ else _) = _; simp
  refine ⟨fun r => (ss r).set dst (t' r), ?_, ?_⟩
  · refine C93_programs sem junk debug _ ss _ ⟨a, t, t', ha, ht, hview, fun h => absurd h hne, ⟨hr, heights, rest, hw, hb, fun r => ⟨fun _ => ?_, fun hg => ?_⟩⟩, fun _ => rfl⟩
    · exact ⟨(harr r).2, fun h => absurd h (hnv r), rfl⟩
    · exact absurd (Or.inl rfl) hg
  · refine C93_programs sem junk debug _ ss _ ⟨fun r => (ss r).set dst (t1 r), ⟨a, t, t1, ha, ht, hview, fun h => absurd h hne, ⟨hr, heights, rest, hw, hb,
      fun r => ⟨fun hg => ?_, fun hg => ?_⟩⟩, fun _ => rfl⟩, ⟨hr, t1, t', fun r => ?_, ⟨fun r => ⟨⟨?_, ?_, ?_⟩, ?_⟩, ?_, ht1root.symm, fun r hrr => ?_⟩, fun r => ?_⟩⟩
    · refine ⟨(harr r).2, fun h => absurd h (hnv r), ?_⟩
      have : decide (r.val = root) = true := by rcases hg with h | h; · cases h
                                                · exact decide_eq_true h
      show (if decide (r.val = root) = true then _ else _) = _
      rw [if_pos this]
    · refine ⟨(harr r).2, ?_⟩
      rw [if_neg (hnv r)]
      show (if decide (r.val = root) = true then _ else _) = _
      rw [if_neg (fun h => hg (Or.inr (of_decide_eq_true h)))]
    · rw [List.getElem?_set_self]
      by_contra hc
      have := ht r
      rw [List.getElem?_eq_none (by omega)] at this; cases this
    · show (if decide (r.val = root) = true then _ else _ : Loc α).contig = true
      split <;> exact (harr r).2
    · show ∀ x ∈ (if decide (r.val = root) = true then _ else _ : Loc α).shape, 0 ≤ x
      intro x hx
      split at hx
      · rcases List.mem_cons.mp hx with rfl | hx
        · exact hsum
        · exact hrn x hx
      · rcases List.mem_cons.mp hx with rfl | hx
        · omega
        · exact hrn x hx
    · show (((if decide (r.val = root) = true then _ else _ : Loc α).data.length : Nat) : Int) = _
      by_cases e : r.val = root
      · have : t1 r = t' r := by show (if decide (r.val = root) = true then _ else _) = _; rw [if_pos (decide_eq_true e)]
        show ((t1 r).data.length : Int) = (t1 r).shape.prod
        rw [this]; exact hflat
      · have : t1 r = { t r with shape := 1 :: rest, data := if (1 :: rest).prod = ((t r).data.length : Int) then (t r).data else List.replicate (1 :: rest).prod.toNat junk } := by
          show (if decide (r.val = root) = true then _ else _) = _
          rw [if_neg (by simpa using e)]
        show ((t1 r).data.length : Int) = (t1 r).shape.prod
        rw [this]
        have h1 : 0 ≤ (1 :: rest).prod := by rw [List.prod_cons]; omega
        show (((if _ then _ else _ : List α).length : Nat) : Int) = (1 :: rest).prod
        split
        · omega
        · rw [List.length_replicate]; omega
    · show (if decide (r.val = root) = true then _ else _ : Loc α).shape.length = (t1 ⟨root, hr⟩).shape.length
      rw [ht1root]
      split <;> rfl
    · rw [ht1root]
      show ((List.ofFn heights).sum :: rest).prod < intBound
      rw [List.prod_cons]; exact hb
    · have e : ¬ r.val = root := fun h => hrr (Fin.ext h)
      have h1 : t1 r = { t r with shape := 1 :: rest, data := if (1 :: rest).prod = ((t r).data.length : Int) then (t r).data else List.replicate (1 :: rest).prod.toNat junk } := by
        show (if decide (r.val = root) = true then _ else _) = _
        rw [if_neg (by simpa using e)]
      rw [ht1root, h1]
      exact ⟨(harr r).2, fun h => absurd h (hnv r), rfl⟩
    · simp
end Nda.Spmd
