import Verif.Props.SpmdPrograms
/-!
# C93: errors in programs run by several processes

An error on one process leaves the others waiting, whatever follows in the program.
-/
namespace Nda.Spmd
open Nda Mpi Assign Matrix

variable {α β γ : Type} {n : Nat} {sem : Nat → α → α → α} {debug : Bool} {junk : α}

/-- A process that has ended with an error: nothing that follows is done. -/
def Failed (t : Tree α β) : Prop := t = .leaf .exception ∨ t = .leaf .terminate ∨ t = .leaf .ub

/-- A process that waits for others. -/
def Waits (t : Tree α β) : Prop := ∃ c k, t = .coll c k

theorem failed_bind {t : Tree α β} (h : Failed t) (f : β → Tree α γ) : Failed (t.bind f) := by
  rcases h with rfl | rfl | rfl
  · exact Or.inl rfl
  · exact Or.inr (Or.inl rfl)
  · exact Or.inr (Or.inr rfl)

theorem waits_bind {t : Tree α β} (h : Waits t) (f : β → Tree α γ) : Waits (t.bind f) := by
  obtain ⟨c, k, rfl⟩ := h; exact ⟨_, _, rfl⟩

theorem failed_noexcept {t : Tree α β} (h : Failed t) : Failed t.noexcept := by
  rcases h with rfl | rfl | rfl
  · exact Or.inr (Or.inl rfl)
  · exact Or.inr (Or.inl rfl)
  · exact Or.inr (Or.inr rfl)

theorem waits_noexcept {t : Tree α β} (h : Waits t) : Waits t.noexcept := by
  obtain ⟨c, k, rfl⟩ := h; exact ⟨_, _, rfl⟩

/-- After some calls one process has failed and another waits. -/
inductive Stuck (sem : Nat → α → α → α) : (Fin n → Tree α β) → Prop where
  | here (ts : Fin n → Tree α β) (r q : Fin n) (hr : Failed (ts r)) (hq : Waits (ts q)) : Stuck sem ts
  | step (ts : Fin n → Tree α β) (c : Fin n → Call α) (k : Fin n → Reply α → Tree α β) (a : Fin n → Reply α) (h : ∀ r, ts r = .coll (c r) (k r)) (hp : 0 < n)
      (ha : answer sem c = some a) (ho : Stuck sem (fun r => k r (a r))) : Stuck sem ts

theorem stuck_hang {ts : Fin n → Tree α β} (h : Stuck sem ts) : Runs sem ts .hang := by
  induction h with
  | here ts r q hr hq =>
    obtain ⟨c, k, hq⟩ := hq
    rcases hr with hr | hr | hr <;> exact .hang ts r q _ c k hr hq
  | step ts c k a h hp ha _ ih => exact .step ts c k a _ h hp ha ih

theorem stuck_bind {ts : Fin n → Tree α β} (h : Stuck sem ts) (f : Fin n → β → Tree α γ) : Stuck sem (fun r => (ts r).bind (f r)) := by
  induction h with
  | here ts r q hr hq => exact .here _ r q (failed_bind hr _) (waits_bind hq _)
  | step ts c k a h hp ha _ ih => exact .step _ c (fun r x => (k r x).bind (f r)) a (fun r => by rw [h r]; rfl) hp ha ih

theorem stuck_noexcept {ts : Fin n → Tree α β} (h : Stuck sem ts) : Stuck sem (fun r => (ts r).noexcept) := by
  induction h with
  | here ts r q hr hq => exact .here _ r q (failed_noexcept hr) (waits_noexcept hq)
  | step ts c k a h hp ha _ ih => exact .step _ c (fun r x => (k r x).noexcept) a (fun r => by rw [h r]; rfl) hp ha ih

theorem stuck_after {ts : Fin n → Tree α β} {b : Fin n → β} {f : Fin n → β → Tree α γ} (h : Goes sem ts b) (h' : Stuck sem (fun r => f r (b r))) :
    Stuck sem (fun r => (ts r).bind (f r)) := by
  unfold Goes at h
  generalize ho : Outcome.ended (fun r => End.ok (b r)) = o1 at h
  induction h with
  | ended ts e he =>
    cases ho
    have : (fun r => (ts r).bind (f r)) = fun r => f r (b r) := by funext r; rw [he r]; rfl
    rw [this]; exact h'
  | step ts c k a o h hp ha _ ih => exact .step _ c (fun r x => (k r x).bind (f r)) a (fun r => by rw [h r]; rfl) hp ha (ih ho)
  | erroneous => cases ho
  | hang => cases ho

/-- An assignment in a program. -/
theorem exec_assign {s : Store α} {a t : Loc α} (h : Here α) {dst src : Nat} (ha : s[src]? = some a) (ht : s[dst]? = some t) (d : Delayed) (p : Prog α) :
    exec h (.seq (.assign dst src d) p) s = ((assign h d (decide (dst = src)) a t).bind (fun t => .leaf (.ok (s.set dst t)))).bind (exec h p) := by
  rw [exec, exec, get_some ha, leaf_bind, get_some ht, leaf_bind]

theorem stuck_assign {ss : Fin n → Store α} {a t : Fin n → Loc α} {dst src : Nat} (ha : ∀ r, (ss r)[src]? = some (a r)) (ht : ∀ r, (ss r)[dst]? = some (t r)) {d : Delayed}
    (p : Prog α) (h : Stuck sem (fun r => assign (at_ debug junk n r) d (decide (dst = src)) (a r) (t r))) :
    Runs sem (fun r : Fin n => exec ⟨true, debug, junk, n, r.val⟩ (.seq (.assign dst src d) p) (ss r)) .hang := by
  have e : (fun r : Fin n => exec ⟨true, debug, junk, n, r.val⟩ (.seq (.assign dst src d) p) (ss r)) =
      fun r => ((assign (at_ debug junk n r) d (decide (dst = src)) (a r) (t r)).bind (fun t => .leaf (.ok ((ss r).set dst t)))).bind (exec (at_ debug junk n r) p) := by
    funext r; exact exec_assign _ (ha r) (ht r) d p
  rw [e]
  exact stuck_hang (stuck_bind (stuck_bind h (fun r t => .leaf (.ok ((ss r).set dst t)))) (fun r => exec (at_ debug junk n r) p))

/-- **C93** A reduction into views: if the view of the root has another shape than the arrays, the root ends and the other processes wait for ever. -/
theorem C93_reduce_view_hangs (sem : Nat → α → α → α) (junk : α) (p : Prog α) (ss : Fin n → Store α) (dst src root op : Nat) (hne : dst ≠ src) (hr : root < n) (q : Fin n)
    (hq : q.val ≠ root) (a t : Fin n → Loc α) (ha : ∀ r, (ss r)[src]? = some (a r)) (ht : ∀ r, (ss r)[dst]? = some (t r)) (sha : List Int)
    (hw : ∀ r, Whole (a r) ∧ (a r).shape = sha) (hb : sha.prod < intBound) (hv : ∀ r, (t r).isView = true ∧ (t r).contig = true) (hs : (t ⟨root, hr⟩).shape ≠ sha) :
    Runs sem (fun r : Fin n => exec ⟨true, false, junk, n, r.val⟩ (.seq (.assign dst src (.reduce root false op)) p) (ss r)) .hang := by
  refine stuck_assign ha ht p (.here _ ⟨root, hr⟩ q ?_ ?_)
  · rw [assign_eq, delayed, need, if_pos (hw _).1.contig, leaf_bind, if_pos (hv _).1, assignView_eq, expectShape, if_neg (by simp [at_]), leaf_bind, invoke_eq, need,
      if_pos (hv _).2, leaf_bind, if_pos rfl]
    refine failed_noexcept ?_
    show Failed (invokeReduce _ root false op _ _)
    rw [invokeReduce_eq, need, if_pos (by simp [hne]), leaf_bind]
    refine failed_bind (Or.inl ?_) _
    rw [makeRoom, if_pos (by simp [hne, at_]), resizeOrCheck, if_neg (by rw [(hw _).2]; exact hs), if_pos (hv _).1]
  · rw [assign_eq, delayed, need, if_pos (hw _).1.contig, leaf_bind, if_pos (hv _).1, assignView_eq, expectShape, if_neg (by simp [at_]), leaf_bind, invoke_eq, need,
      if_pos (hv _).2, leaf_bind, if_pos rfl]
    refine waits_noexcept ?_
    show Waits (invokeReduce _ root false op _ _)
    have hk : 0 ≤ sha.prod := by rw [← (hw q).2, ← (hw q).1.full]; omega
    rw [invokeReduce_eq, need, if_pos (by simp [hne]), leaf_bind, makeRoom, if_neg (by simp [hne, at_, hq]), leaf_bind, need,
      if_pos (by simp only [(hw q).2, Bool.true_and]; exact decide_eq_true (toInt32_id hk hb)), leaf_bind]
    exact waits_bind ⟨_, _, rfl⟩ _

/-- **C93** If the source on one process has gaps, the call throws there; the other processes wait for ever. -/
theorem C93_gap_hangs (sem : Nat → α → α → α) (junk : α) (debug : Bool) (p : Prog α) (ss : Fin n → Store α) (dst src : Nat) (d : Delayed) (hne : dst ≠ src) (r q : Fin n)
    (a t : Fin n → Loc α) (ha : ∀ r, (ss r)[src]? = some (a r)) (ht : ∀ r, (ss r)[dst]? = some (t r)) (hgap : (a r).contig = false) (hq : Whole (a q)) (hqs : (a q).shape ≠ [])
    (hb : (a q).shape.prod < intBound) (hv : (t q).isView = false ∧ (t q).contig = true) :
    Runs sem (fun r : Fin n => exec ⟨true, debug, junk, n, r.val⟩ (.seq (.assign dst src d) p) (ss r)) .hang := by
  refine stuck_assign ha ht p (.here _ r q ?_ ?_)
  · rw [assign_eq]
    refine failed_bind (Or.inl ?_) _
    rw [delayed, need, if_neg (by rw [hgap]; simp)]
  · rw [assign_eq, delayed, need, if_pos hq.contig, leaf_bind, if_neg (by rw [hv.1]; simp), assignArray_eq]
    refine waits_noexcept ?_
    have hk : 0 ≤ (a q).shape.prod := by rw [← hq.full]; omega
    obtain ⟨slow, rest, hsh⟩ := List.exists_cons_of_ne_nil hqs
    cases d with
    | gather root all => rw [hsh]; exact waits_bind ⟨_, _, rfl⟩ _
    | scatter root => rw [hsh]; exact waits_bind ⟨_, _, rfl⟩ _
    | reduce root all op =>
      show Waits ((Tree.leaf (.ok (a q).shape)).bind _)
      rw [leaf_bind, invoke_eq, need, if_pos (show ((t q).resize _ _).contig = true from hv.2), leaf_bind, if_pos rfl]
      show Waits (invokeReduce _ root all op _ _)
      rw [invokeReduce_eq, need, if_pos (by simp [hne]), leaf_bind]
      have hroom : ∀ b : Bool, makeRoom (at_ debug junk n q) b ((t q).resize (at_ debug junk n q) (a q).shape) (a q).shape =
          .leaf (.ok ((t q).resize (at_ debug junk n q) (a q).shape)) := by
        intro b
        rw [makeRoom]
        split
        · exact if_pos rfl
        · rfl
      rw [hroom, leaf_bind, need, if_pos (by simp only [hne, decide_false, Bool.not_false, Bool.true_or, Bool.true_and]; exact decide_eq_true (toInt32_id hk hb)), leaf_bind]
      exact waits_bind ⟨_, _, rfl⟩ _

/-- **C93** A broadcast into a view of another shape than the array of the root: the process with this view throws, the root waits for ever. -/
theorem C93_broadcast_hangs (sem : Nat → α → α → α) (junk : α) (debug : Bool) (p : Prog α) (ss : Fin n → Store α) (x root : Nat) (hr : root < n) (r : Fin n) (hrr : r.val ≠ root)
    (t : Fin n → Loc α) (ht : ∀ r, (ss r)[x]? = some (t r)) (hc : ∀ r, (t r).contig = true) (hrank : ∀ r, (t r).shape.length = (t ⟨root, hr⟩).shape.length)
    (hw : Whole (t ⟨root, hr⟩)) (hb : (t ⟨root, hr⟩).shape.prod < intBound) (hv : (t r).isView = true) (hs : (t r).shape ≠ (t ⟨root, hr⟩).shape) :
    Runs sem (fun r : Fin n => exec ⟨true, debug, junk, n, r.val⟩ (.seq (.broadcast x root) p) (ss r)) .hang := by
  have e : (fun r : Fin n => exec ⟨true, debug, junk, n, r.val⟩ (.seq (.broadcast x root) p) (ss r)) =
      fun r => ((broadcast (at_ debug junk n r) root (t r)).bind (fun t => .leaf (.ok ((ss r).set x t)))).bind (exec (at_ debug junk n r) p) := by
    funext r; rw [exec, exec, get_some (ht r), leaf_bind]
  rw [e]
  refine stuck_hang (stuck_bind (stuck_bind ?_ (fun r t => .leaf (.ok ((ss r).set x t)))) (fun r => exec (at_ debug junk n r) p))
  simp only [broadcast_eq]
  refine stuck_after (goes_need hc) ?_
  have hk : 0 ≤ (t ⟨root, hr⟩).shape.prod := by rw [← hw.full]; omega
  refine stuck_after (f := fun r sha => (makeRoom (at_ debug junk n r) ((at_ debug junk n r).rank != root) (t r) sha.longs).bind (fun t =>
    (need (decide (toInt32 t.shape.prod = t.shape.prod)) .ub).bind (fun _ => (call { kind := .bcast, root := root, elems := t.data }).bind (fun y =>
    receiveIf ((at_ debug junk n r).rank != root) t y.elems))))
    (goes_call (by omega) ((answer_eq (fun r => { kind := .bcastLong, root := root, longs := (t r).shape }) .bcastLong root false 0 hr (fun _ => ⟨rfl, rfl, rfl, rfl⟩)).trans (if_pos hrank))) (.here _ r ⟨root, hr⟩ ?_ ?_)
  · refine failed_bind (Or.inl ?_) _
    rw [makeRoom, if_pos (by simpa [at_] using hrr), resizeOrCheck, if_neg hs, if_pos hv]
  · dsimp only
    rw [makeRoom, if_neg (by simp [at_]), leaf_bind, need, if_pos (decide_eq_true (toInt32_id hk hb)), leaf_bind]
    exact waits_bind ⟨_, _, rfl⟩ _

/-- **C93** A gather into views whose shape is right on the root: with `EXPECTS` switched off the processes that get nothing may have views of any shape; in debug mode such a
process ends and the root waits for ever. -/
theorem C93_debug_hangs (sem : Nat → α → α → α) (junk : α) (ss : Fin n → Store α) (dst src root : Nat) (hne : dst ≠ src) (hr : root < n) (r : Fin n)
    (hrr : r.val ≠ root) (a t : Fin n → Loc α) (ha : ∀ r, (ss r)[src]? = some (a r)) (ht : ∀ r, (ss r)[dst]? = some (t r)) (heights : Fin n → Int) (rest : List Int)
    (hw : ∀ r, Whole (a r) ∧ (a r).shape = heights r :: rest) (hb : (List.ofFn heights).sum * rest.prod < intBound) (hv : ∀ r, (t r).isView = true ∧ Whole (t r))
    (hroot : (t ⟨root, hr⟩).shape = (List.ofFn heights).sum :: rest) (hs : (t r).shape ≠ 1 :: rest) :
    (∃ ss' : Fin n → Store α, Runs sem (fun r : Fin n => exec ⟨true, false, junk, n, r.val⟩ (.assign dst src (.gather root false)) (ss r)) (.ended (fun r => .ok (ss' r)))) ∧
    ∀ p, Runs sem (fun r : Fin n => exec ⟨true, true, junk, n, r.val⟩ (.seq (.assign dst src (.gather root false)) p) (ss r)) .hang := by
  have hh : ∀ r, 0 ≤ heights r := fun r => (hw r).1.nonneg _ (by rw [(hw r).2]; exact List.mem_cons_self)
  have hrest : 0 ≤ rest.prod := prod_nonneg' (fun x hx => (hw r).1.nonneg x (by rw [(hw r).2]; exact List.mem_cons_of_mem _ hx))
  constructor
  · refine ⟨fun r => (ss r).set dst (if r.val = root then { t r with shape := (List.ofFn heights).sum :: rest, data := (List.ofFn (fun q => (a q).data)).flatten } else t r),
      C93_programs sem junk false _ ss _ ⟨a, t, _, ha, ht, fun r q => by rw [(hv r).1, (hv q).1], fun h => absurd h hne, ⟨hr, heights, rest, hw, hb, fun r => ⟨fun hg => ?_, fun hg => ?_⟩⟩,
        fun _ => rfl⟩⟩
    · have e : r.val = root := by rcases hg with h | h; · cases h
                                  · exact h
      have e' : r = ⟨root, hr⟩ := Fin.ext e
      refine ⟨(hv r).2.contig, fun _ => ?_, if_pos e⟩
      rw [e', (hv _).2.full, hroot]
      exact ⟨rfl, rfl⟩
    · refine ⟨(hv r).2.contig, ?_⟩
      rw [if_pos (hv r).1]
      exact ⟨if_neg (fun e => hg (Or.inr e)), fun h => by cases h⟩
  · intro p
    refine stuck_assign ha ht p ?_
    simp only [assign_eq]
    refine stuck_after (goes_need (fun r => (hw r).1.contig)) ?_
    have e : (fun r => if (t r).isView = true then assignView (at_ true junk n r) (.gather root false) (decide (dst = src)) (a r) (t r) else
        assignArray (at_ true junk n r) (.gather root false) (decide (dst = src)) (a r) (t r)) =
        fun r => Tree.noexcept (((delayedShape (at_ true junk n r) (.gather root false) (heights r :: rest)).bind (fun sha => need (decide ((t r).shape = sha)) .terminate)).bind
          (fun _ => invoke (at_ true junk n r) (.gather root false) ⟨heights r :: rest, (a r).data, false, true⟩ (t r))) := by
      funext r
      rw [if_pos (hv r).1, assignView_eq, expectShape, if_pos rfl, (hw r).2, decide_eq_false hne]
    rw [e]
    refine stuck_noexcept ?_
    have e2 : (fun r => ((delayedShape (at_ true junk n r) (.gather root false) (heights r :: rest)).bind (fun sha => need (decide ((t r).shape = sha)) .terminate)).bind
          (fun _ => invoke (at_ true junk n r) (.gather root false) ⟨heights r :: rest, (a r).data, false, true⟩ (t r))) =
        fun r => (delayedShape (at_ true junk n r) (.gather root false) (heights r :: rest)).bind (fun sha => (need (decide ((t r).shape = sha)) .terminate).bind
          (fun _ => invoke (at_ true junk n r) (.gather root false) ⟨heights r :: rest, (a r).data, false, true⟩ (t r))) := by
      funext r; rfl
    rw [e2]
    refine stuck_after (f := fun r sha => (need (decide ((t r).shape = sha)) .terminate).bind
          (fun _ => invoke (at_ true junk n r) (.gather root false) ⟨heights r :: rest, (a r).data, false, true⟩ (t r))) (goes_shape_gather hr heights rest)
      (.here _ r ⟨root, hr⟩ ?_ ?_)
    · refine failed_bind (Or.inr (Or.inl ?_)) _
      rw [need, if_neg (by simpa [hrr] using hs)]
    · rw [need, if_pos (by simpa using hroot), leaf_bind, invoke_eq, need, if_pos (hv _).2.contig, leaf_bind, if_pos rfl]
      show Waits (invokeGather _ root false _ _)
      have hle : heights ⟨root, hr⟩ ≤ (List.ofFn heights).sum :=
        le_sum_of_mem (fun c hc => by rw [List.mem_ofFn] at hc; obtain ⟨q, rfl⟩ := hc; exact hh q) (by rw [List.mem_ofFn]; exact ⟨_, rfl⟩)
      have h1 : (heights ⟨root, hr⟩ :: rest).prod < intBound := by
        rw [List.prod_cons]
        exact lt_of_le_of_lt (mul_le_mul_of_nonneg_right hle hrest) hb
      have h0 : 0 ≤ (heights ⟨root, hr⟩ :: rest).prod := by rw [List.prod_cons]; exact mul_nonneg (hh _) hrest
      rw [invokeGather_eq, need, if_pos (decide_eq_true (toInt32_id h0 h1)), leaf_bind]
      exact waits_bind ⟨_, _, rfl⟩ _

/-- **C93** A reduction on all processes into views of another shape ends all processes: the exception leaves `operator=`, which is marked `noexcept`. -/
theorem C93_terminates (sem : Nat → α → α → α) (junk : α) (debug : Bool) (p : Prog α) (ss : Fin n → Store α) (dst src root op : Nat) (hne : dst ≠ src)
    (a t : Fin n → Loc α) (ha : ∀ r, (ss r)[src]? = some (a r)) (ht : ∀ r, (ss r)[dst]? = some (t r)) (hc : ∀ r, (a r).contig = true) (hv : ∀ r, (t r).isView = true)
    (hs : ∀ r, (t r).shape ≠ (a r).shape) :
    Runs sem (fun r : Fin n => exec ⟨true, debug, junk, n, r.val⟩ (.seq (.assign dst src (.reduce root true op)) p) (ss r)) (.ended (fun _ => .terminate)) := by
  refine .ended _ _ (fun r => ?_)
  rw [exec_assign _ (ha r) (ht r), assign_eq, delayed, need, if_pos (hc r), leaf_bind, if_pos (hv r), assignView_eq, expectShape]
  cases debug with
  | true =>
    rw [if_pos rfl]
    show ((Tree.noexcept (((need (decide ((t r).shape = (a r).shape)) .terminate)).bind _)).bind _).bind _ = _
    rw [need, if_neg (by simpa using hs r)]
    rfl
  | false =>
    rw [if_neg (by simp), leaf_bind, invoke_eq, need]
    split
    · rw [leaf_bind, if_pos rfl]
      show ((Tree.noexcept (invokeReduce _ root true op _ _)).bind _).bind _ = _
      rw [invokeReduce_eq, need, if_pos (by simp [hne]), leaf_bind, makeRoom, if_pos (by simp [hne]), resizeOrCheck, if_neg (hs r), if_pos (hv r)]
      rfl
    · rfl

/-- All processes have undefined behaviour after some calls. -/
theorem runs_ub_bind {ts : Fin n → Tree α β} {f : Fin n → β → Tree α γ} (h : Runs sem ts (.ended (fun _ => .ub))) : Runs sem (fun r => (ts r).bind (f r)) (.ended (fun _ => .ub)) := by
  generalize ho : (Outcome.ended (fun _ => End.ub) : Outcome n β) = o1 at h
  induction h with
  | ended ts e he =>
    cases ho
    exact .ended _ _ (fun r => by rw [he r]; rfl)
  | step ts c k a o h hp ha _ ih => exact .step _ c (fun r x => (k r x).bind (f r)) a _ (fun r => by rw [h r]; rfl) hp ha (ih ho)
  | erroneous => cases ho
  | hang => cases ho

theorem runs_ub_noexcept {ts : Fin n → Tree α β} (h : Runs sem ts (.ended (fun _ => .ub))) : Runs sem (fun r => (ts r).noexcept) (.ended (fun _ => .ub)) := by
  generalize ho : (Outcome.ended (fun _ => End.ub) : Outcome n β) = o1 at h
  induction h with
  | ended ts e he =>
    cases ho
    exact .ended _ _ (fun r => by rw [he r]; rfl)
  | step ts c k a o h hp ha _ ih => exact .step _ c (fun r x => (k r x).noexcept) a _ (fun r => by rw [h r]; rfl) hp ha (ih ho)
  | erroneous => cases ho
  | hang => cases ho

/-- The gather when source and target are the same. -/
theorem gather_self_ub {root : Nat} (hr : root < n) (heights : Fin n → Int) (rest : List Int) (data : Fin n → List α) (h0 : ∀ r, 0 ≤ (heights r :: rest).prod)
    (hb : ∀ r, (heights r :: rest).prod < intBound) (alive : Fin n → Bool) (t : Fin n → Loc α) (ht : ∀ r, (t r).shape = (List.ofFn heights).sum :: rest) :
    Runs sem (fun r => invokeGather (at_ debug junk n r) root true ⟨heights r :: rest, data r, true, alive r⟩ (t r)) (.ended (fun _ => .ub)) := by
  simp only [invokeGather_eq]
  refine runs_bind (goes_need (fun r => decide_eq_true (toInt32_id (h0 r) (hb r)))) ?_
  refine runs_bind (goes_shape_gather (all := true) hr heights rest) ?_
  refine runs_bind (b := t) (goes_leaf (fun r => ?_)) ?_
  · show makeRoom _ true (t r) _ = _
    rw [makeRoom, if_pos rfl]; exact if_pos (ht r)
  refine runs_bind (goes_call (by omega) (answer_eq _ .gatherInt root true 0 hr (fun _ => ⟨rfl, rfl, rfl, rfl⟩))) ?_
  refine .ended _ _ (fun r => ?_)
  generalize intSums _ = b
  cases b
  · rfl
  · simp only [need, if_true, leaf_bind, Bool.true_or, Bool.and_true, Bool.not_true, Bool.and_false]
    rfl

/-- **C93** `A = mpi::all_gather(A)` for arrays is undefined on all processes: the array is resized before it is sent. -/
theorem C93_self_gather (sem : Nat → α → α → α) (junk : α) (debug : Bool) (p : Prog α) (ss : Fin n → Store α) (x root : Nat) (hr : root < n) (a : Fin n → Loc α)
    (ha : ∀ r, (ss r)[x]? = some (a r)) (heights : Fin n → Int) (rest : List Int) (hw : ∀ r, Whole (a r) ∧ (a r).shape = heights r :: rest ∧ (a r).isView = false)
    (hb : (List.ofFn heights).sum * rest.prod < intBound) :
    Runs sem (fun r : Fin n => exec ⟨true, debug, junk, n, r.val⟩ (.seq (.assign x x (.gather root true)) p) (ss r)) (.ended (fun _ => .ub)) := by
  have hn : 0 < n := by omega
  have hh : ∀ r, 0 ≤ heights r := fun r => (hw r).1.nonneg _ (by rw [(hw r).2.1]; exact List.mem_cons_self)
  have hrest : 0 ≤ rest.prod := prod_nonneg' (fun x hx => (hw ⟨0, hn⟩).1.nonneg x (by rw [(hw ⟨0, hn⟩).2.1]; exact List.mem_cons_of_mem _ hx))
  have hle : ∀ r, heights r ≤ (List.ofFn heights).sum := fun r =>
    le_sum_of_mem (fun c hc => by rw [List.mem_ofFn] at hc; obtain ⟨q, rfl⟩ := hc; exact hh q) (by rw [List.mem_ofFn]; exact ⟨_, rfl⟩)
  have h1 : ∀ r, (heights r :: rest).prod < intBound := fun r => by
    rw [List.prod_cons]
    exact lt_of_le_of_lt (mul_le_mul_of_nonneg_right (hle r) hrest) hb
  have h0 : ∀ r, 0 ≤ (heights r :: rest).prod := fun r => by rw [List.prod_cons]; exact mul_nonneg (hh _) hrest
  have e : (fun r : Fin n => exec ⟨true, debug, junk, n, r.val⟩ (.seq (.assign x x (.gather root true)) p) (ss r)) =
      fun r => ((assign (at_ debug junk n r) (.gather root true) true (a r) (a r)).bind (fun t => .leaf (.ok ((ss r).set x t)))).bind (exec (at_ debug junk n r) p) := by
    funext r
    have := exec_assign (at_ debug junk n r) (ha r) (ha r) (.gather root true) p
    rw [decide_eq_true (rfl : x = x)] at this
    exact this
  rw [e]
  refine runs_ub_bind (f := fun r => exec (at_ debug junk n r) p) (runs_ub_bind (f := fun r t => .leaf (.ok ((ss r).set x t))) ?_)
  have e2 : (fun r => assign (at_ debug junk n r) (.gather root true) true (a r) (a r)) =
      fun r => Tree.noexcept ((delayedShape (at_ debug junk n r) (.gather root true) (heights r :: rest)).bind (fun sha =>
        invokeGather (at_ debug junk n r) root true ⟨heights r :: rest, (a r).data, true, !true || decide (sha.prod = (a r).data.length)⟩ ((a r).resize (at_ debug junk n r) sha))) := by
    funext r
    rw [assign_eq, delayed, need, if_pos (hw r).1.contig, leaf_bind, if_neg (by rw [(hw r).2.2]; simp), assignArray_eq, (hw r).2.1]
    congr 2
    funext sha
    rw [invoke_eq, need, if_pos (show ((a r).resize _ _).contig = true from (hw r).1.contig), leaf_bind, if_pos rfl]
  rw [e2]
  refine runs_ub_noexcept ?_
  have hg := goes_shape_gather (sem := sem) (debug := debug) (junk := junk) (all := true) hr heights rest
  simp only [Bool.true_or, if_true] at hg
  refine runs_bind hg ?_
  exact gather_self_ub hr heights rest (fun r => (a r).data) h0 h1 (fun r => !true || decide (((List.ofFn heights).sum :: rest).prod = (a r).data.length))
    (fun r => (a r).resize (at_ debug junk n r) ((List.ofFn heights).sum :: rest)) (fun _ => rfl)

/-! ### Arrays of arrays -/

/-- Something done after the last call does not change who waits. -/
theorem hang_map {ts : Fin n → Tree α β} {f : Fin n → β → γ} (h : Runs sem ts .hang) : Runs sem (fun r => (ts r).bind (fun b => .leaf (.ok (f r b)))) .hang := by
  generalize ho : (Outcome.hang : Outcome n β) = o1 at h
  induction h with
  | ended => cases ho
  | step ts c k a o h hp ha _ ih => exact .step _ c (fun r x => (k r x).bind (fun b => .leaf (.ok (f r b)))) a _ (fun r => by rw [h r]; rfl) hp ha (ih ho)
  | erroneous => cases ho
  | hang ts r q e c k hr hq =>
    cases e with
    | ok b => exact .hang _ r q (.ok (f r b)) c _ (by rw [hr]; rfl) (by rw [hq]; rfl)
    | exception => exact .hang _ r q .exception c _ (by rw [hr]; rfl) (by rw [hq]; rfl)
    | terminate => exact .hang _ r q .terminate c _ (by rw [hr]; rfl) (by rw [hq]; rfl)
    | ub => exact .hang _ r q .ub c _ (by rw [hr]; rfl) (by rw [hq]; rfl)

/-- One element on all processes: source, target before and after. -/
structure Cell (n : Nat) (α : Type) where
  a : Fin n → Loc α
  t : Fin n → Loc α
  t' : Fin n → Loc α

/-- **C93** A reduction of arrays of arrays reduces the elements one after the other. -/
theorem C93_cells (sem : Nat → α → α → α) (junk : α) (debug : Bool) (root : Nat) (all : Bool) (op : Nat) (same : Bool) (cells : List (Cell n α))
    (h : ∀ c ∈ cells, Does sem junk debug (.reduce root all op) c.a c.t c.t' ∧ (∀ r q, (c.t r).isView = (c.t q).isView) ∧ (same = true → c.t = c.a)) :
    Runs sem (fun r : Fin n => reduceCells ⟨true, debug, junk, n, r.val⟩ root all op same (cells.map (fun c => c.a r)) (cells.map (fun c => c.t r)))
      (.ended (fun r => .ok (cells.map (fun c => c.t' r)))) := by
  induction cells with
  | nil => exact .ended _ _ (fun _ => rfl)
  | cons c cells ih =>
    obtain ⟨hd, hk, hs⟩ := h c List.mem_cons_self
    simp only [List.map_cons, reduceCells_eq]
    refine goes_bind (f := fun r t => (reduceCells (at_ debug junk n r) root all op same (cells.map (fun c => c.a r)) (cells.map (fun c => c.t r))).bind (fun ts => .leaf (.ok (t :: ts))))
      (goes_assign hd hk (fun e => ⟨⟨_, _, _, rfl⟩, hs e⟩)) ?_
    exact goes_bind (f := fun r ts => .leaf (.ok (c.t' r :: ts))) (ih (fun c' hc' => h c' (List.mem_cons_of_mem _ hc'))) (goes_leaf (fun _ => rfl))

/-- **C93** If one process has fewer elements than another, the other waits for ever. -/
theorem C93_cells_hang (sem : Nat → α → α → α) (junk : α) (debug : Bool) (root : Nat) (all : Bool) (op : Nat) (cells : List (Cell n α))
    (h : ∀ c ∈ cells, Does sem junk debug (.reduce root all op) c.a c.t c.t' ∧ (∀ r q, (c.t r).isView = (c.t q).isView))
    (as ts : Fin n → List (Loc α)) (r q : Fin n) (hr : as r = [] ∧ ts r = []) (x y : Loc α) (xs ys : List (Loc α)) (hq : as q = x :: xs ∧ ts q = y :: ys) (hx : Whole x)
    (hxb : x.shape.prod < intBound) (hy : y.isView = false ∧ y.contig = true) :
    Runs sem (fun r : Fin n => reduceCells ⟨true, debug, junk, n, r.val⟩ root all op false (cells.map (fun c => c.a r) ++ as r) (cells.map (fun c => c.t r) ++ ts r)) .hang := by
  induction cells with
  | nil =>
    have hk : 0 ≤ x.shape.prod := by rw [← hx.full]; omega
    have hw : Waits (reduceCells (at_ debug junk n q) root all op false (as q) (ts q)) := by
      rw [hq.1, hq.2, reduceCells_eq, assign_eq, delayed, need, if_pos hx.contig, leaf_bind, if_neg (by rw [hy.1]; simp), assignArray_eq]
      refine waits_bind (waits_noexcept ?_) _
      show Waits ((Tree.leaf (.ok x.shape)).bind _)
      rw [leaf_bind, invoke_eq, need, if_pos (show (y.resize _ _).contig = true from hy.2), leaf_bind, if_pos rfl]
      show Waits (invokeReduce _ root all op _ _)
      rw [invokeReduce_eq, need, if_pos (by simp), leaf_bind]
      have hroom : ∀ b : Bool, makeRoom (at_ debug junk n q) b (y.resize (at_ debug junk n q) x.shape) x.shape = .leaf (.ok (y.resize (at_ debug junk n q) x.shape)) := by
        intro b
        rw [makeRoom]
        split
        · exact if_pos rfl
        · rfl
      rw [hroom, leaf_bind, need, if_pos (by simp only [Bool.not_false, Bool.true_or, Bool.true_and]; exact decide_eq_true (toInt32_id hk hxb)), leaf_bind]
      exact waits_bind ⟨_, _, rfl⟩ _
    obtain ⟨c, k, hck⟩ := hw
    refine .hang _ r q (.ok []) c k ?_ hck
    show reduceCells _ root all op false (as r) (ts r) = _
    rw [hr.1, hr.2]; rfl
  | cons c cells ih =>
    obtain ⟨hd, hk⟩ := h c List.mem_cons_self
    simp only [List.map_cons, List.cons_append, reduceCells_eq]
    refine runs_bind (f := fun r t => (reduceCells (at_ debug junk n r) root all op false (cells.map (fun c => c.a r) ++ as r) (cells.map (fun c => c.t r) ++ ts r)).bind
      (fun ts => .leaf (.ok (t :: ts)))) (goes_assign hd hk (fun e => by cases e)) ?_
    refine hang_map (f := fun r ts => c.t' r :: ts) (ih (fun c' hc' => h c' (List.mem_cons_of_mem _ hc')))

end Nda.Spmd
