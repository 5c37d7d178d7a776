import Verif.Props.SpmdPrograms
/-!
# C93: computations row by row, and sums
-/
namespace Nda.Spmd
open Nda Mpi Assign Matrix

variable {α : Type} {n : Nat} {sem : Nat → α → α → α} {debug : Bool} {junk : α}

/-- What a scatter gives each process. -/
structure Slabs (n : Nat) (D : List α) (l : Int) (rest : List Int) (h : Fin n → Nat) (start : Nat → Nat) (slab : Fin n → List α) : Prop where
  zero : start 0 = 0
  step : ∀ r : Fin n, start (r.val + 1) = start r.val + h r
  last : start n = l.toNat
  data : ∀ r, slab r = (D.drop (start r.val * rest.prod.toNat)).take (h r * rest.prod.toNat)
  length : ∀ r, (slab r).length = h r * rest.prod.toNat

/-- The scatter of a program. -/
theorem scatter_means (sem : Nat → α → α → α) (junk : α) (debug : Bool) (src root : Nat) (hr : root < n) (ss : Fin n → Store α) (a : Fin n → Loc α)
    (ha : ∀ r, (ss r)[src]? = some (a r)) (l : Int) (rest : List Int) (hw : ∀ r, Whole (a r) ∧ (a r).shape = l :: rest) (hb : l * rest.prod < intBound) :
    ∃ (h : Fin n → Nat) (start : Nat → Nat) (slab : Fin n → List α), Slabs n (a ⟨root, hr⟩).data l rest h start slab ∧
      Means sem junk debug (.make src (.scatter root)) ss (fun r => ss r ++ [⟨(h r : Int) :: rest, slab r, false, true⟩]) := by
  have hn : 0 < n := by omega
  have hes := C39_chunks l n hn
  have hl : 0 ≤ l := (hw ⟨root, hr⟩).1.nonneg _ (by rw [(hw ⟨root, hr⟩).2]; exact List.mem_cons_self)
  have hrn : ∀ x ∈ rest, 0 ≤ x := fun x hx => (hw ⟨root, hr⟩).1.nonneg x (by rw [(hw ⟨root, hr⟩).2]; exact List.mem_cons_of_mem _ hx)
  have hrest : 0 ≤ rest.prod := prod_nonneg' hrn
  have hH0 : ∀ c ∈ (List.range n).map (chunkLength l n), 0 ≤ c := by
    intro c hc; obtain ⟨q, _, rfl⟩ := List.mem_map.mp hc; exact chunk_nonneg hl n q
  have hfull : ((a ⟨root, hr⟩).data.length : Int) = l * rest.prod := by rw [(hw ⟨root, hr⟩).1.full, (hw ⟨root, hr⟩).2, List.prod_cons]
  have hstep : ∀ k, k < n → slabStart ((List.range n).map (chunkLength l n)) (k + 1) = slabStart ((List.range n).map (chunkLength l n)) k + chunkLength l n k := by
    intro k hk
    have h3 := displs_succ (counts := (List.range n).map (chunkLength l n)) (r := k) (by simpa using hk)
    simp only [List.getElem_map, List.getElem_range] at h3
    exact h3
  have hst : ∀ k, 0 ≤ slabStart ((List.range n).map (chunkLength l n)) k := fun k => displs_nonneg hH0 k
  have hend : slabStart ((List.range n).map (chunkLength l n)) n = l := by
    rw [slabStart, List.take_of_length_le (by simp), hes.sum]
  have hle : ∀ k, k ≤ n → slabStart ((List.range n).map (chunkLength l n)) k ≤ l := by
    intro k _
    have := displs_le hH0 k
    rw [hes.sum] at this; exact this
  have hc : ∀ r : Fin n, 0 ≤ chunkLength l n r.val := fun r => chunk_nonneg hl n r.val
  refine ⟨fun r => (chunkLength l n r.val).toNat, fun k => (slabStart ((List.range n).map (chunkLength l n)) k).toNat,
    fun r => ((a ⟨root, hr⟩).data.drop ((slabStart ((List.range n).map (chunkLength l n)) r.val).toNat * rest.prod.toNat)).take ((chunkLength l n r.val).toNat * rest.prod.toNat),
    ⟨by simp [slabStart], fun r => ?_, by rw [hend], fun _ => rfl, fun r => ?_⟩, ?_⟩
  · rw [hstep r.val r.isLt]
    exact Int.toNat_add (hst _) (hc r)
  · rw [List.length_take, List.length_drop]
    have h1 := mul_nonneg (hst r.val) hrest
    have h2 := mul_nonneg (hc r) hrest
    have h3 := mul_le_mul_of_nonneg_right (hle (r.val + 1) r.isLt) hrest
    rw [hstep r.val r.isLt, add_mul] at h3
    rw [← Int.toNat_mul (hst r.val) hrest, ← Int.toNat_mul (hc r) hrest]
    omega
  · refine ⟨a, _, ha, ⟨hr, l, rest, hw, hb, fun r => ⟨rfl, fun h => (by cases h), ?_⟩⟩, fun r => rfl⟩
    dsimp only
    rw [← Int.toNat_mul (hst r.val) hrest, ← Int.toNat_mul (hc r) hrest, Int.toNat_of_nonneg (hc r)]

/-- Row `i` of the elements `D` of an array with rows of `w` elements. -/
def row (w : Nat) (D : List α) (i : Nat) : List α := (D.drop (i * w)).take w

/-- Each row of variable `m` is replaced by a row of shape `rest'`. -/
def mapRows (g : List α → List α) (rest' : List Int) (m : Nat) : Nat → Store α → Store α := fun _ s =>
  match s[m]? with
  | some b => s.set m { b with shape := b.shape.headD 0 :: rest',
                               data := ((List.range (b.shape.headD 0).toNat).map (fun i => g (row b.shape.tail.prod.toNat b.data i))).flatten }
  | none => s

theorem flatten_rows {D : List α} {l : Int} {rest : List Int} {h : Fin n → Nat} {start : Nat → Nat} {slab : Fin n → List α} (hs : Slabs n D l rest h start slab) (R : Nat → List α) :
    (List.ofFn (fun r : Fin n => ((List.range (h r)).map (fun i => R (start r.val + i))).flatten)).flatten = ((List.range l.toNat).map R).flatten := by
  have key : ∀ k (hk : k ≤ n), ((List.ofFn (fun r : Fin n => ((List.range (h r)).map (fun i => R (start r.val + i))).flatten)).take k).flatten = ((List.range (start k)).map R).flatten := by
    intro k
    induction k with
    | zero => intro _; simp [hs.zero]
    | succ k ih =>
      intro hk
      rw [List.take_succ_eq_append_getElem (by rw [List.length_ofFn]; omega), List.flatten_append, ih (by omega)]
      have := hs.step ⟨k, hk⟩
      dsimp only at this
      rw [this, List.range_add, List.map_append, List.flatten_append]
      simp [List.map_map, Function.comp_def]
  have := key n le_rfl
  rw [List.take_of_length_le (by simp), hs.last] at this
  exact this

/-- A row of a slab is a row of the whole. -/
theorem row_slab {D : List α} {l : Int} {rest : List Int} {h : Fin n → Nat} {start : Nat → Nat} {slab : Fin n → List α} (hs : Slabs n D l rest h start slab) (r : Fin n) {i : Nat}
    (hi : i < h r) : row rest.prod.toNat (slab r) i = row rest.prod.toNat D (start r.val + i) := by
  unfold row
  rw [hs.data r, List.drop_take, List.take_take, List.drop_drop]
  congr 1
  · have : (i + 1) * rest.prod.toNat ≤ h r * rest.prod.toNat := Nat.mul_le_mul_right _ hi
    rw [Nat.succ_mul] at this
    omega
  · rw [Nat.add_mul]

/-- **C93** Scattering an array, computing row by row (a matrix times a vector, norms of rows, ...), and gathering is the computation on the rows of the whole array. -/
theorem C93_distributed_rows (sem : Nat → α → α → α) (junk : α) (debug : Bool) (g : List α → List α) (rest' : List Int) (src root root2 m : Nat) (all : Bool) (hr : root < n)
    (hr2 : root2 < n) (ss : Fin n → Store α) (hm : ∀ r, (ss r).length = m) (a : Fin n → Loc α) (ha : ∀ r, (ss r)[src]? = some (a r)) (l : Int) (rest : List Int)
    (hw : ∀ r, Whole (a r) ∧ (a r).shape = l :: rest) (hb : l * rest.prod < intBound) (h' : ∀ x ∈ rest', 0 ≤ x) (hb' : l * rest'.prod < intBound)
    (hg : ∀ xs, (xs.length : Int) = rest.prod → ((g xs).length : Int) = rest'.prod) :
    ∃ ss' : Fin n → Store α, Runs sem
        (fun r : Fin n => exec ⟨true, debug, junk, n, r.val⟩ (.seq (.make src (.scatter root)) (.seq (.compute (mapRows g rest' m)) (.make m (.gather root2 all)))) (ss r))
        (.ended (fun r => .ok (ss' r))) ∧
      ∀ r, Gets root2 all r → (ss' r)[m + 1]? =
        some ⟨l :: rest', ((List.range l.toNat).map (fun i => g (row rest.prod.toNat (a ⟨root, hr⟩).data i))).flatten, false, true⟩ := by
  obtain ⟨h, start, slab, hs, hmeans⟩ := scatter_means sem junk debug src root hr ss a ha l rest hw hb
  have hl : 0 ≤ l := (hw ⟨root, hr⟩).1.nonneg _ (by rw [(hw ⟨root, hr⟩).2]; exact List.mem_cons_self)
  have hrest : 0 ≤ rest.prod := prod_nonneg' (fun x hx => (hw ⟨root, hr⟩).1.nonneg x (by rw [(hw ⟨root, hr⟩).2]; exact List.mem_cons_of_mem _ hx))
  have hrest' : 0 ≤ rest'.prod := prod_nonneg' h'
  generalize hD : (a ⟨root, hr⟩).data = D at *
  let R : Nat → List α := fun i => g (row rest.prod.toNat D i)
  let b' : Fin n → Loc α := fun r => ⟨(h r : Int) :: rest', ((List.range (h r)).map (fun i => R (start r.val + i))).flatten, false, true⟩
  let T : List α := ((List.range l.toNat).map R).flatten
  let c : Fin n → Loc α := fun r => if all || decide (r.val = root2) then ⟨l :: rest', T, false, true⟩ else
    ⟨1 :: rest', if (1 :: rest').prod = ((([] : List α).length : Nat) : Int) then [] else List.replicate (1 :: rest').prod.toNat junk, false, true⟩
  have hsum : (List.ofFn (fun r : Fin n => (h r : Int))).sum = l := by
    have key : ∀ k (hk : k ≤ n), ((List.ofFn (fun r : Fin n => (h r : Int))).take k).sum = (start k : Int) := by
      intro k
      induction k with
      | zero => intro _; simp [hs.zero]
      | succ k ih =>
        intro hk
        have := hs.step ⟨k, hk⟩
        dsimp only at this
        rw [List.take_succ_eq_append_getElem (by rw [List.length_ofFn]; omega), List.sum_append, ih (by omega), this]
        simp
    have := key n le_rfl
    rw [List.take_of_length_le (by simp), hs.last] at this
    omega
  have hrow : ∀ r : Fin n, ∀ i, i < h r → ((R (start r.val + i)).length : Int) = rest'.prod := by
    intro r i hi
    refine hg _ ?_
    rw [← row_slab hs r hi, row, List.length_take, List.length_drop, hs.length r]
    have : (i + 1) * rest.prod.toNat ≤ h r * rest.prod.toNat := Nat.mul_le_mul_right _ hi
    rw [Nat.succ_mul] at this
    omega
  have hlen : ∀ (k : Nat) (f : Nat → List α), (∀ i, i < k → ((f i).length : Int) = rest'.prod) → ((((List.range k).map f).flatten.length : Nat) : Int) = k * rest'.prod := by
    intro k f hf
    induction k with
    | zero => simp
    | succ k ih =>
      rw [List.range_succ, List.map_append, List.flatten_append, List.length_append]
      push_cast
      rw [ih (fun i hi => hf i (by omega))]
      simp only [List.map_cons, List.map_nil, List.flatten_cons, List.flatten_nil, List.append_nil, hf k (by omega)]
      rw [add_mul, one_mul]
  refine ⟨fun r => (ss r ++ [b' r]) ++ [c r], C93_programs sem junk debug _ ss _ ⟨_, hmeans, fun r => ss r ++ [b' r], ?_, ?_⟩, ?_⟩
  · intro r
    show _ = mapRows g rest' m r.val (ss r ++ [⟨(h r : Int) :: rest, slab r, false, true⟩])
    have h1 : (ss r ++ [(⟨(h r : Int) :: rest, slab r, false, true⟩ : Loc α)])[m]? = some ⟨(h r : Int) :: rest, slab r, false, true⟩ := by
      rw [← hm r]; simp
    rw [mapRows, h1]
    show ss r ++ [b' r] = (ss r ++ [_]).set m (⟨(h r : Int) :: rest', ((List.range (h r : Int).toNat).map (fun i => g (row rest.prod.toNat (slab r) i))).flatten, false, true⟩ : Loc α)
    have h2 : (List.range (h r : Int).toNat).map (fun i => g (row rest.prod.toNat (slab r) i)) = (List.range (h r)).map (fun i => R (start r.val + i)) := by
      rw [Int.toNat_natCast]
      refine List.map_congr_left (fun i hi => ?_)
      rw [row_slab hs r (List.mem_range.mp hi)]
    rw [h2, ← hm r, List.set_append_right _ _ le_rfl]
    simp [b']
  · refine ⟨b', c, fun r => ?_, ⟨hr2, fun r => (h r : Int), rest', fun r => ⟨⟨rfl, ?_, ?_⟩, rfl⟩, ?_, fun r => ⟨fun hg => ?_, fun hg => ?_⟩⟩, fun r => rfl⟩
    · rw [← hm r]; simp
    · intro x hx
      rcases List.mem_cons.mp hx with rfl | hx
      · omega
      · exact h' x hx
    · show ((((List.range (h r)).map (fun i => R (start r.val + i))).flatten.length : Nat) : Int) = ((h r : Int) :: rest').prod
      rw [hlen _ _ (hrow r), List.prod_cons]
    · rw [hsum]; exact hb'
    · refine ⟨rfl, fun h => (by cases h), ?_⟩
      show (if _ then _ else _) = _
      rw [if_pos (gets_iff.mp hg), hsum]
      show (⟨l :: rest', T, false, true⟩ : Loc α) = ⟨_, (List.ofFn (fun r : Fin n => ((List.range (h r)).map (fun i => R (start r.val + i))).flatten)).flatten, _, _⟩
      rw [flatten_rows hs R]
    · refine ⟨rfl, ?_⟩
      rw [if_neg (by simp)]
      show (if _ then _ else _) = _
      rw [if_neg (fun h => hg (gets_iff.mpr h))]
  · intro r hg
    have h1 : m + 1 = (ss r ++ [b' r]).length := by simp [hm r]
    rw [h1, List.getElem?_append_right le_rfl]
    simp only [Nat.sub_self, List.getElem?_cons_zero]
    show some (if _ then _ else _) = _
    rw [if_pos (gets_iff.mp hg)]

/-- The sum of the elements of variable `m` is added as a new variable of one element. -/
def addSum [AddCommMonoid α] (m : Nat) : Nat → Store α → Store α := fun _ s =>
  match s[m]? with
  | some b => s ++ [⟨[1], [b.data.sum], false, true⟩]
  | none => s

theorem total_add [AddCommMonoid α] : ∀ {xs : List α}, xs ≠ [] → total (· + ·) xs = some xs.sum
  | [], h => absurd rfl h
  | [x], _ => by simp [total]
  | x :: y :: xs, _ => by rw [total, total_add (List.cons_ne_nil y xs)]; simp

theorem slabs_flatten {D : List α} {l : Int} {rest : List Int} {h : Fin n → Nat} {start : Nat → Nat} {slab : Fin n → List α} (hs : Slabs n D l rest h start slab)
    (hD : D.length = l.toNat * rest.prod.toNat) : (List.ofFn slab).flatten = D := by
  have key : ∀ k (hk : k ≤ n), ((List.ofFn slab).take k).flatten = D.take (start k * rest.prod.toNat) := by
    intro k
    induction k with
    | zero => intro _; simp [hs.zero]
    | succ k ih =>
      intro hk
      have h1 := hs.step ⟨k, hk⟩
      have h2 := hs.data ⟨k, hk⟩
      dsimp only at h1 h2
      rw [List.take_succ_eq_append_getElem (by rw [List.length_ofFn]; omega), List.flatten_append, ih (by omega), h1, Nat.add_mul, List.take_add]
      simp [h2]
  have := key n le_rfl
  rw [List.take_of_length_le (by simp), hs.last, ← hD, List.take_length] at this
  exact this

/-- **C93** Scattering an array, adding up the parts on each process, and adding up the results is the sum of all elements. -/
theorem C93_distributed_sum [AddCommMonoid α] (junk : α) (debug : Bool) (src root root2 m op : Nat) (all : Bool) (hop : sem op = (· + ·)) (hr : root < n) (hr2 : root2 < n)
    (ss : Fin n → Store α) (hm : ∀ r, (ss r).length = m) (a : Fin n → Loc α) (ha : ∀ r, (ss r)[src]? = some (a r)) (l : Int) (rest : List Int)
    (hw : ∀ r, Whole (a r) ∧ (a r).shape = l :: rest) (hb : l * rest.prod < intBound) :
    ∃ ss' : Fin n → Store α, Runs sem
        (fun r : Fin n => exec ⟨true, debug, junk, n, r.val⟩ (.seq (.make src (.scatter root)) (.seq (.compute (addSum m)) (.make (m + 1) (.reduce root2 all op)))) (ss r))
        (.ended (fun r => .ok (ss' r))) ∧
      ∀ r, Gets root2 all r → (ss' r)[m + 2]? = some ⟨[1], [(a ⟨root, hr⟩).data.sum], false, true⟩ := by
  obtain ⟨h, start, slab, hs, hmeans⟩ := scatter_means sem junk debug src root hr ss a ha l rest hw hb
  have hl : 0 ≤ l := (hw ⟨root, hr⟩).1.nonneg _ (by rw [(hw ⟨root, hr⟩).2]; exact List.mem_cons_self)
  have hrest : 0 ≤ rest.prod := prod_nonneg' (fun x hx => (hw ⟨root, hr⟩).1.nonneg x (by rw [(hw ⟨root, hr⟩).2]; exact List.mem_cons_of_mem _ hx))
  have hfull : (a ⟨root, hr⟩).data.length = l.toNat * rest.prod.toNat := by
    have := (hw ⟨root, hr⟩).1.full
    rw [(hw ⟨root, hr⟩).2, List.prod_cons] at this
    rw [← Int.toNat_mul hl hrest]; omega
  have hflat := slabs_flatten hs hfull
  generalize hD : (a ⟨root, hr⟩).data = D at *
  let b : Fin n → Loc α := fun r => ⟨(h r : Int) :: rest, slab r, false, true⟩
  let e : Fin n → Loc α := fun r => ⟨[1], [(slab r).sum], false, true⟩
  let c : Fin n → Loc α := fun r => if all || decide (r.val = root2) then ⟨[1], [D.sum], false, true⟩ else ⟨[1], List.replicate 1 junk, false, true⟩
  refine ⟨fun r => ((ss r ++ [b r]) ++ [e r]) ++ [c r], C93_programs sem junk debug _ ss _ ⟨_, hmeans, fun r => (ss r ++ [b r]) ++ [e r], ?_, ?_⟩, ?_⟩
  · intro r
    show _ = addSum m r.val (ss r ++ [b r])
    have h1 : (ss r ++ [b r])[m]? = some (b r) := by rw [← hm r]; simp
    rw [addSum, h1]
  · refine ⟨e, c, fun r => ?_, ⟨hr2, [1], fun r => ⟨⟨rfl, by show ∀ x ∈ [(1 : Int)], 0 ≤ x; decide, rfl⟩, rfl⟩, by decide, fun r => ⟨fun hg => ⟨[D.sum], ⟨rfl, ?_⟩, rfl, fun h => (by cases h), ?_⟩, fun hg => ?_⟩⟩, fun r => rfl⟩
    · have h1 : m + 1 = (ss r ++ [b r]).length := by simp [hm r]
      rw [h1, List.getElem?_append_right le_rfl]; simp
    · intro i col hcol
      have hn : 0 < n := by omega
      cases i with
      | zero =>
        have e1 : col = fun q => (slab q).sum := by
          funext q
          have := hcol q
          simpa [e] using this.symm
        rw [hop, total_add (by rw [ne_eq, List.ofFn_eq_nil_iff]; omega), e1, List.getElem?_cons_zero]
        congr 1
        rw [← hflat, List.sum_flatten, List.map_ofFn]
        rfl
      | succ i => have := hcol ⟨0, hn⟩; simp [e] at this
    · show (if _ then _ else _) = _
      rw [if_pos (gets_iff.mp hg)]
    · refine ⟨rfl, ?_⟩
      rw [if_neg (by simp)]
      show (if _ then _ else _) = _
      rw [if_neg (fun h => hg (gets_iff.mpr h))]
      rfl
  · intro r hg
    have h1 : m + 2 = ((ss r ++ [b r]) ++ [e r]).length := by simp [hm r]
    rw [h1, List.getElem?_append_right le_rfl]
    simp only [Nat.sub_self, List.getElem?_cons_zero]
    show some (if _ then _ else _) = _
    rw [if_pos (gets_iff.mp hg)]

/-- Two processes with a 3x2 matrix: process 1 has 1..6. -/
def exMat (r : Fin 2) : Loc Int := ⟨[3, 2], if r.val = 1 then [1, 2, 3, 4, 5, 6] else [0, 0, 0, 0, 0, 0], false, true⟩

theorem exMat_whole (r : Fin 2) : Whole (exMat r) ∧ (exMat r).shape = 3 :: [2] := by
  refine ⟨⟨rfl, by show ∀ l ∈ [(3 : Int), 2], 0 ≤ l; decide, ?_⟩, rfl⟩
  unfold exMat
  dsimp only
  split <;> rfl

/-- The matrix of process 1 times the vector (10, 1), computed by two processes; process 0 gets the vector. -/
example : ∃ ss' : Fin 2 → Store Int, Runs (fun _ => (· + ·))
      (fun r : Fin 2 => exec ⟨true, true, -1, 2, r.val⟩ (.seq (.make 0 (.scatter 1)) (.seq (.compute (mapRows (fun x => [(List.zipWith (· * ·) x [10, 1]).sum]) [] 1)) (.make 1 (.gather 0 false)))) [exMat r])
      (.ended (fun r => .ok (ss' r))) ∧ (ss' 0)[2]? = some ⟨[3], [12, 34, 56], false, true⟩ := by
  obtain ⟨ss', h1, h2⟩ := C93_distributed_rows (n := 2) (fun _ => (· + ·)) (-1) true (fun x => [(List.zipWith (· * ·) x [10, 1]).sum]) [] 0 1 0 1 false (by decide) (by decide)
    (fun r => [exMat r]) (fun _ => rfl) exMat (fun _ => rfl) 3 [2] exMat_whole (by decide) (by decide) (by decide) (fun _ _ => rfl)
  exact ⟨ss', h1, h2 0 (Or.inr rfl)⟩

/-- The sum of its elements, on both processes. -/
example : ∃ ss' : Fin 2 → Store Int, Runs (fun _ => (· + ·))
      (fun r : Fin 2 => exec ⟨true, true, -1, 2, r.val⟩ (.seq (.make 0 (.scatter 1)) (.seq (.compute (addSum 1)) (.make 2 (.reduce 0 true 0)))) [exMat r])
      (.ended (fun r => .ok (ss' r))) ∧ ∀ r, (ss' r)[3]? = some ⟨[1], [21], false, true⟩ := by
  obtain ⟨ss', h1, h2⟩ := C93_distributed_sum (n := 2) (sem := fun _ => (· + ·)) (-1) true 0 1 0 1 0 true rfl (by decide) (by decide)
    (fun r => [exMat r]) (fun _ => rfl) exMat (fun _ => rfl) 3 [2] exMat_whole (by decide)
  exact ⟨ss', h1, fun r => h2 r (Or.inl rfl)⟩

end Nda.Spmd
