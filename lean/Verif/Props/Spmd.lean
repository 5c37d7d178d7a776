import Verif.Lemmas.SpmdAssign
/-!
# C93: programs run by several processes
-/
namespace Nda.Spmd
open Nda Mpi Assign Matrix Nda.Spec IdxMap

variable {α β γ : Type} {n : Nat} {sem : Nat → α → α → α} {debug : Bool} {junk : α}

theorem get_some {s : Store α} {x : Nat} {a : Loc α} (h : s[x]? = some a) : get s x = .leaf (.ok a) := by
  rw [get, h]

theorem goes_times {R : (Fin n → Store α) → (Fin n → Store α) → Prop} {f : Fin n → Store α → Tree α (Store α)}
    (hR : ∀ ss ss', R ss ss' → Goes sem (fun r => f r (ss r)) ss') : ∀ (k : Nat) (ss ss' : Fin n → Store α), Times R k ss ss' → Goes sem (fun r => iterate (f r) k (ss r)) ss'
  | 0, ss, ss', h => goes_leaf (fun r => by rw [show ss' = ss from h]; rfl)
  | k + 1, ss, ss', h => by
    obtain ⟨s₁, h1, h2⟩ := h
    exact goes_bind (f := fun r => iterate (f r) k) (hR _ _ h1) (goes_times hR k _ _ h2)

/-- **C93** Under MPI all processes that run a program end normally, and the variables are those the program means: no process waits for another that has ended, no erroneous
call is made. -/
theorem C93_programs (sem : Nat → α → α → α) (junk : α) (debug : Bool) (p : Prog α) (ss ss' : Fin n → Store α) (h : Means sem junk debug p ss ss') :
    Runs sem (fun r : Fin n => exec ⟨true, debug, junk, n, r.val⟩ p (ss r)) (.ended (fun r => .ok (ss' r))) := by
  show Goes sem (fun r => exec (at_ debug junk n r) p (ss r)) ss'
  induction p generalizing ss ss' with
  | skip => exact goes_leaf (fun r => by rw [show ss' = ss from h]; rfl)
  | seq p q ihp ihq =>
    obtain ⟨s₁, h1, h2⟩ := h
    exact goes_bind (f := fun r => exec (at_ debug junk n r) q) (ihp _ _ h1) (ihq _ _ h2)
  | assign dst src d =>
    obtain ⟨a, t, t', ha, ht, hk, hsame, hd, hs⟩ := h
    have e : (fun r => exec (at_ debug junk n r) (.assign dst src d) (ss r)) =
        fun r => (assign (at_ debug junk n r) d (decide (dst = src)) (a r) (t r)).bind (fun u => .leaf (.ok ((ss r).set dst u))) := by
      funext r
      rw [exec, get_some (ha r), leaf_bind, get_some (ht r), leaf_bind]
    rw [e]
    refine goes_bind (goes_assign hd hk (fun hs' => ?_)) (goes_leaf (fun r => by rw [hs r]))
    have hds : dst = src := of_decide_eq_true hs'
    refine ⟨hsame hds, funext (fun r => ?_)⟩
    have := ht r
    rw [hds, ha r] at this
    exact (Option.some.inj this).symm
  | make src d =>
    obtain ⟨a, t', ha, hd, hs⟩ := h
    have e : (fun r => exec (at_ debug junk n r) (.make src d) (ss r)) =
        fun r => (construct (at_ debug junk n r) d (a r)).bind (fun u => .leaf (.ok (ss r ++ [u]))) := by
      funext r
      rw [exec, get_some (ha r), leaf_bind]
    rw [e]
    exact goes_bind (goes_construct hd) (goes_leaf (fun r => by rw [hs r]))
  | broadcast x root =>
    obtain ⟨hr, t, t', ht, hb, hs⟩ := h
    have e : (fun r => exec (at_ debug junk n r) (.broadcast x root) (ss r)) =
        fun r => (broadcast (at_ debug junk n r) root (t r)).bind (fun u => .leaf (.ok ((ss r).set x u))) := by
      funext r
      rw [exec, get_some (ht r), leaf_bind]
    rw [e]
    exact goes_bind (goes_broadcast hr hb) (goes_leaf (fun r => by rw [hs r]))
  | compute f => exact goes_leaf (fun r => by rw [h r]; rfl)
  | ite b p q ihp ihq =>
    obtain ⟨c, hc, h1, h2⟩ := h
    cases c with
    | true =>
      have e : (fun r => exec (at_ debug junk n r) (.ite b p q) (ss r)) = fun r => exec (at_ debug junk n r) p (ss r) := by
        funext r; rw [exec, if_pos (hc r)]
      rw [e]; exact ihp _ _ (h1 rfl)
    | false =>
      have e : (fun r => exec (at_ debug junk n r) (.ite b p q) (ss r)) = fun r => exec (at_ debug junk n r) q (ss r) := by
        funext r; rw [exec, if_neg (by rw [show b (at_ debug junk n r).rank (ss r) = false from hc r]; simp)]
      rw [e]; exact ihq _ _ (h2 rfl)
  | loop k p ih =>
    obtain ⟨m, hm, ht⟩ := h
    have e : (fun r => exec (at_ debug junk n r) (.loop k p) (ss r)) = fun r => iterate (exec (at_ debug junk n r) p) m (ss r) := by
      funext r; rw [exec, show k (at_ debug junk n r).rank (ss r) = m from hm r]
    rw [e]
    exact goes_times (fun _ _ => ih _ _) m _ _ ht

/-- **C93** Processes always have exactly one outcome, so a program that has a meaning never leaves a process waiting. -/
theorem C93_outcome (sem : Nat → α → α → α) (hn : 0 < n) (ts : Fin n → Tree α β) : ∃! o, Runs sem ts o := by
  obtain ⟨o, ho⟩ := runs_exists (sem := sem) hn ts
  exact ⟨o, ho, fun o' ho' => runs_unique ho' ho⟩

theorem C93_never_waits (sem : Nat → α → α → α) (junk : α) (debug : Bool) (p : Prog α) (ss ss' : Fin n → Store α) (h : Means sem junk debug p ss ss') (o : Outcome n (Store α))
    (ho : Runs sem (fun r : Fin n => exec ⟨true, debug, junk, n, r.val⟩ p (ss r)) o) : o = .ended (fun r => .ok (ss' r)) :=
  runs_unique ho (C93_programs sem junk debug p ss ss' h)

/-! ### Without MPI -/

theorem chunk_one (l : Int) : chunkLength l 1 0 = l := by
  simp [chunkLength, Int.emod_one]

theorem does_single {d : Delayed} {a t t' : Fin 1 → Loc α} (h : Does sem junk debug d a t t') : Whole (a 0) ∧ Receives (t 0) (t' 0) (a 0).shape (a 0).data ∧
    delayedShape ⟨false, debug, junk, 1, 0⟩ d (a 0).shape = .leaf (.ok (a 0).shape) := by
  cases d with
  | gather root all =>
    obtain ⟨hr, heights, rest, ha, hb, ht⟩ := h
    have h0 : root = 0 := by omega
    subst h0
    have h1 := (ht 0).1 (Or.inr rfl)
    simp only [List.ofFn_succ, List.ofFn_zero, List.sum_cons, List.sum_nil, add_zero, List.flatten_cons, List.flatten_nil, List.append_nil] at h1
    have h2 := (ha 0).2
    rw [← h2] at h1
    refine ⟨(ha 0).1, h1, ?_⟩
    rw [h2]
    cases all <;> rfl
  | scatter root =>
    obtain ⟨hr, l, rest, ha, hb, ht⟩ := h
    have h0 : root = 0 := by omega
    subst h0
    have h1 := ht 0
    have h2 := (ha 0).2
    have h3 : chunkLength l 1 (0 : Fin 1).val = l := chunk_one l
    have hfull := (ha 0).1.full
    rw [h2, List.prod_cons] at hfull
    rw [h3] at h1
    have h4 : slabStart ((List.range 1).map (chunkLength l 1)) (0 : Fin 1).val = 0 := rfl
    rw [h4, zero_mul, Int.toNat_zero, List.drop_zero, List.take_of_length_le (by show (a 0).data.length ≤ _; omega), ← h2] at h1
    refine ⟨(ha 0).1, h1, ?_⟩
    rw [h2]
    show Tree.leaf (End.ok (chunkLength l 1 0 :: rest)) = _
    rw [chunk_one]
  | reduce root all op =>
    obtain ⟨hr, sha, ha, hb, ht⟩ := h
    have h0 : root = 0 := by omega
    subst h0
    obtain ⟨xs, hx, h1⟩ := (ht 0).1 (Or.inr rfl)
    have h2 := (ha 0).2
    have hxs : xs = (a 0).data := by
      refine combined_unique (op := sem op) (ys := fun q => (a q).data) (m := sha.prod) (fun q => by rw [(ha q).1.full, (ha q).2]) hx ?_
      refine ⟨by rw [(ha 0).1.full, h2], fun i col hcol => ?_⟩
      rw [hcol 0]; simp [List.ofFn_succ, total]
    rw [hxs, ← h2] at h1
    exact ⟨(ha 0).1, h1, rfl⟩

theorem assign_single {d : Delayed} {a t t' : Fin 1 → Loc α} {same : Bool} (h : Does sem junk debug d a t t') (hsame : same = true → t 0 = a 0) :
    assign ⟨false, debug, junk, 1, 0⟩ d same (a 0) (t 0) = .leaf (.ok (t' 0)) := by
  obtain ⟨hw, ⟨hc, hv, ht'⟩, hsh⟩ := does_single h
  rw [assign_eq, delayed, need, if_pos hw.contig, leaf_bind]
  cases hview : (t 0).isView with
  | true =>
    obtain ⟨h1, h2⟩ := hv hview
    rw [if_pos rfl, assignView_eq, expectShape, hsh]
    have hn : (if debug = true then (Tree.leaf (End.ok (a 0).shape) : Tree α (List Int)).bind (fun sha => need (decide ((t 0).shape = sha)) .terminate) else .leaf (.ok ())) =
        .leaf (.ok ()) := by
      cases debug
      · rfl
      · simp [need, h1]
    show ((if debug = true then _ else _ : Tree α Unit).bind _).noexcept = _
    rw [hn, leaf_bind, invoke_eq, need, if_pos hc, leaf_bind]
    simp only [Bool.false_eq_true, if_false, plainAssign, Bool.not_true, hview, if_true]
    rw [if_pos h1, ht', ← h1, hview]; rfl
  | false =>
    rw [if_neg (by simp), assignArray_eq, hsh, leaf_bind, invoke_eq, need, if_pos (by exact hc), leaf_bind]
    have halive : (!same || decide ((a 0).shape.prod = (t 0).data.length)) = true := by
      cases hs : same with
      | false => rfl
      | true => rw [hsame hs]; simpa using hw.full.symm
    simp only [Bool.false_eq_true, if_false, plainAssign, halive, Bool.not_true]
    have hv2 : ((t 0).resize ⟨false, debug, junk, 1, 0⟩ (a 0).shape).isView = false := hview
    rw [hv2, if_neg (by simp), ht']
    rfl

theorem construct_single {d : Delayed} {a t' : Fin 1 → Loc α} (h : Does sem junk debug d a (fun _ => ⟨[], [], false, true⟩) t') :
    construct ⟨false, debug, junk, 1, 0⟩ d (a 0) = .leaf (.ok (t' 0)) := by
  obtain ⟨hw, ⟨hc, hv, ht'⟩, hsh⟩ := does_single h
  rw [construct_eq, delayed, need, if_pos hw.contig, leaf_bind, hsh, leaf_bind, invoke_eq, need, if_pos rfl, leaf_bind, ht']
  rfl

/-- **C93** Without MPI a program does what it does with a single process. -/
theorem C93_no_mpi (sem : Nat → α → α → α) (junk : α) (debug : Bool) (p : Prog α) (ss ss' : Fin 1 → Store α) (h : Means sem junk debug p ss ss') :
    exec ⟨false, debug, junk, 1, 0⟩ p (ss 0) = .leaf (.ok (ss' 0)) := by
  induction p generalizing ss ss' with
  | skip => rw [show ss' = ss from h]; rfl
  | seq p q ihp ihq =>
    obtain ⟨s₁, h1, h2⟩ := h
    rw [exec, ihp _ _ h1, leaf_bind, ihq _ _ h2]
  | assign dst src d =>
    obtain ⟨a, t, t', ha, ht, hk, hsame, hd, hs⟩ := h
    rw [exec, get_some (ha 0), leaf_bind, get_some (ht 0), leaf_bind, assign_single hd, leaf_bind, hs 0]
    intro e
    have hds : dst = src := of_decide_eq_true e
    have := ht 0
    rw [hds, ha 0] at this
    exact (Option.some.inj this).symm
  | make src d =>
    obtain ⟨a, t', ha, hd, hs⟩ := h
    rw [exec, get_some (ha 0), leaf_bind, construct_single hd, leaf_bind, hs 0]
  | broadcast x root =>
    obtain ⟨hr, t, t', ht, ⟨hc, hb, hroot, _⟩, hs⟩ := h
    have h0 : root = 0 := by omega
    subst h0
    rw [exec, get_some (ht 0), leaf_bind, broadcast_eq, need, if_pos (hc 0).1.contig, leaf_bind, if_neg (by simp), leaf_bind, hs 0]
    rw [show t' 0 = t 0 from hroot]
  | compute f => rw [h 0]; rfl
  | ite b p q ihp ihq =>
    obtain ⟨c, hc, h1, h2⟩ := h
    have := hc 0
    cases c with
    | true => rw [exec, if_pos (show b 0 (ss 0) = true from this)]; exact ihp _ _ (h1 rfl)
    | false => rw [exec, if_neg (by rw [show b 0 (ss 0) = false from this]; simp)]; exact ihq _ _ (h2 rfl)
  | loop k p ih =>
    obtain ⟨m, hm, ht⟩ := h
    rw [exec, show k 0 (ss 0) = m from hm 0]
    clear hm
    induction m generalizing ss with
    | zero => rw [show ss' = ss from ht]; rfl
    | succ m ihm =>
      obtain ⟨s₁, h1, h2⟩ := ht
      rw [iterate, ih _ _ h1, leaf_bind]
      exact ihm _ h2

/-! ### What the results mean -/

theorem prod_eq : ∀ l : List Int, Spec.prod l = l.prod
  | [] => rfl
  | a :: l => by rw [List.prod_cons, ← prod_eq l]; rfl

theorem flatten_get : ∀ (l : List (List α)) (q k : Nat) (y : List α), l[q]? = some y → k < y.length → l.flatten[((l.take q).map List.length).sum + k]? = y[k]?
  | [], q, k, y, h, _ => by simp at h
  | x :: l, 0, k, y, h, hk => by
    have : x = y := by simpa using h
    subst this
    simp [List.getElem?_append_left hk]
  | x :: l, q + 1, k, y, h, hk => by
    have ih := flatten_get l q k y (by simpa using h) hk
    rw [List.take_succ_cons, List.map_cons, List.sum_cons, List.flatten_cons, List.getElem?_append_right (by omega), ← ih]
    congr 1; omega

theorem slabStart_lengths (ys : Fin n → List α) (heights : Fin n → Int) (k : Int) (h : ∀ q, ((ys q).length : Int) = heights q * k) (q : Nat) :
    ((((List.ofFn ys).take q).map List.length).sum : Int) = slabStart (List.ofFn heights) q * k := by
  rw [← displs_map_mul, displs]
  have e : (List.ofFn heights).map (· * k) = (List.ofFn ys).map (fun y => (y.length : Int)) := by
    rw [List.map_ofFn, List.map_ofFn]; congr 1; funext r; exact (h r).symm
  rw [e, ← List.map_take]
  generalize (List.ofFn ys).take q = m
  induction m with
  | nil => rfl
  | cons a m ih => simp [ih]

/-- **C93** After a gather, element `(start of the slab of q + i, J)` of the result is element `(i, J)` of the array of process `q`. -/
theorem C93_gather_elements {root : Nat} {all : Bool} {a t t' : Fin n → Loc α} (h : Gathered junk debug root all a t t') (r : Fin n) (hr : Gets root all r) :
    ∃ heights : Fin n → Int, (∀ q, (a q).shape.head? = some (heights q)) ∧ (t' r).shape.head? = some (List.ofFn heights).sum ∧
      ∀ (q : Fin n) (i : Int) (J : List Int), Spec.InRange (a q).shape (i :: J) → elem (t' r) ((slabStart (List.ofFn heights) q.val + i) :: J) = elem (a q) (i :: J) := by
  obtain ⟨heights, rest, ha, hb, ht⟩ := h
  obtain ⟨_, _, h3⟩ := (ht r).1 hr
  refine ⟨heights, fun q => by rw [(ha q).2]; rfl, by rw [h3]; rfl, fun q i J hin => ?_⟩
  have hq := (ha q).2
  have hb1 := lin_bounds hin
  rw [hq] at hb1
  have hfull := fun p => (ha p).1.full
  have hlen : ∀ p, (((a p).data).length : Int) = heights p * rest.prod := fun p => by rw [hfull p, (ha p).2, List.prod_cons]
  have hs := slabStart_lengths (fun p => (a p).data) heights rest.prod hlen q.val
  have hk : (Spec.lin (heights q :: rest) (i :: J)).toNat < (a q).data.length := by
    have := hlen q
    rw [show Spec.prod (heights q :: rest) = heights q * rest.prod from by rw [prod_eq, List.prod_cons]] at hb1
    omega
  have hf := flatten_get (List.ofFn (fun p => (a p).data)) q.val (Spec.lin (heights q :: rest) (i :: J)).toNat (a q).data (by simp) hk
  rw [h3, elem, elem, hq, ← hf]
  congr 1
  show (Spec.lin ((List.ofFn heights).sum :: rest) ((slabStart (List.ofFn heights) q.val + i) :: J)).toNat = _
  have e1 : Spec.lin ((List.ofFn heights).sum :: rest) ((slabStart (List.ofFn heights) q.val + i) :: J) = slabStart (List.ofFn heights) q.val * rest.prod +
      Spec.lin (heights q :: rest) (i :: J) := by
    simp only [Spec.lin, prod_eq, add_mul, add_assoc]
  rw [e1]
  omega

/-- **C93** After a scatter, element `(i, J)` of the part of process `r` is element `(start of the slab of r + i, J)` of the array of the root. -/
theorem C93_scatter_elements {root : Fin n} {a t t' : Fin n → Loc α} (h : Scattered root a t t') (r : Fin n) :
    ∃ (heights : List Int) (l : Int), EvenSplit l n heights ∧ (a root).shape.head? = some l ∧ (t' r).shape.head? = heights[r.val]? ∧
      ∀ (i : Int) (J : List Int), Spec.InRange (t' r).shape (i :: J) → elem (t' r) (i :: J) = elem (a root) ((slabStart heights r.val + i) :: J) := by
  obtain ⟨l, rest, ha, hb, ht⟩ := h
  have hn : 0 < n := by have := root.isLt; omega
  obtain ⟨_, _, h3⟩ := ht r
  have hes := C39_chunks l n hn
  have hl : 0 ≤ l := (ha root).1.nonneg _ (by rw [(ha root).2]; exact List.mem_cons_self)
  have hrest : 0 ≤ rest.prod := prod_nonneg' (fun x hx => (ha root).1.nonneg x (by rw [(ha root).2]; exact List.mem_cons_of_mem _ hx))
  have hH0 : ∀ c ∈ (List.range n).map (chunkLength l n), 0 ≤ c := by
    intro c hc; obtain ⟨q, _, rfl⟩ := List.mem_map.mp hc; exact chunk_nonneg hl n q
  refine ⟨(List.range n).map (chunkLength l n), l, hes, by rw [(ha root).2]; rfl, by rw [h3]; simp, fun i J hin => ?_⟩
  rw [h3] at hin
  replace hin : InRange (chunkLength l n r.val :: rest) (i :: J) := hin
  have hb1 := lin_bounds hin
  have hst : 0 ≤ slabStart ((List.range n).map (chunkLength l n)) r.val := displs_nonneg hH0 _
  have hst2 := mul_nonneg hst hrest
  have e1 : Spec.lin (l :: rest) ((slabStart ((List.range n).map (chunkLength l n)) r.val + i) :: J) = slabStart ((List.range n).map (chunkLength l n)) r.val * rest.prod +
      Spec.lin (chunkLength l n r.val :: rest) (i :: J) := by
    simp only [Spec.lin, prod_eq, add_mul, add_assoc]
  rw [h3, elem, elem, (ha root).2, e1]
  show (List.take _ (List.drop _ _))[(Spec.lin (chunkLength l n r.val :: rest) (i :: J)).toNat]? = _
  rw [show Spec.prod (chunkLength l n r.val :: rest) = chunkLength l n r.val * rest.prod from by rw [prod_eq, List.prod_cons]] at hb1
  rw [List.getElem?_take_of_lt (by omega), List.getElem?_drop]
  congr 1
  omega

end Nda.Spmd
