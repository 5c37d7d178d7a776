import Verif.Spec.Spmd
import Verif.Props.Mpi
/-!
# Systems of processes: rules for `Runs`
-/
namespace Nda.Spmd
open Nda Mpi Assign Matrix

variable {α β γ : Type} {n : Nat} {sem : Nat → α → α → α}

theorem pure_eq (b : β) : (pure b : Tree α β) = .leaf (.ok b) := rfl

theorem bind_eq (t : Tree α β) (f : β → Tree α γ) : (t >>= f) = t.bind f := rfl

@[simp] theorem leaf_bind (b : β) (f : β → Tree α γ) : (Tree.leaf (.ok b) : Tree α β).bind f = f b := rfl

/-- All processes end normally. -/
def Goes (sem : Nat → α → α → α) (ts : Fin n → Tree α β) (b : Fin n → β) : Prop := Runs sem ts (.ended (fun r => .ok (b r)))

theorem goes_leaf {ts : Fin n → Tree α β} {b : Fin n → β} (h : ∀ r, ts r = .leaf (.ok (b r))) : Goes sem ts b := .ended _ _ h

theorem runs_bind {ts : Fin n → Tree α β} {b : Fin n → β} {f : Fin n → β → Tree α γ} {o : Outcome n γ} (h : Goes sem ts b) (h' : Runs sem (fun r => f r (b r)) o) :
    Runs sem (fun r => (ts r).bind (f r)) o := by
  unfold Goes at h
  generalize ho : Outcome.ended (fun r => End.ok (b r)) = o1 at h
  induction h with
  | ended ts e he =>
    cases ho
    have : (fun r => (ts r).bind (f r)) = fun r => f r (b r) := by funext r; rw [he r]; rfl
    rw [this]; exact h'
  | step ts c k a o h hp ha _ ih =>
    refine .step _ c (fun r x => (k r x).bind (f r)) a _ (fun r => by rw [h r]; rfl) hp ha ?_
    exact ih ho
  | erroneous => cases ho
  | hang => cases ho

theorem goes_bind {ts : Fin n → Tree α β} {b : Fin n → β} {f : Fin n → β → Tree α γ} {c : Fin n → γ} (h : Goes sem ts b) (h' : Goes sem (fun r => f r (b r)) c) :
    Goes sem (fun r => (ts r).bind (f r)) c := runs_bind h h'

theorem goes_noexcept {ts : Fin n → Tree α β} {b : Fin n → β} (h : Goes sem ts b) : Goes sem (fun r => (ts r).noexcept) b := by
  unfold Goes at *
  generalize ho : Outcome.ended (fun r => End.ok (b r)) = o1 at h
  induction h with
  | ended ts e he =>
    cases ho
    exact .ended _ _ (fun r => by rw [he r]; rfl)
  | step ts c k a o h hp ha _ ih =>
    exact .step _ c (fun r x => (k r x).noexcept) a _ (fun r => by rw [h r]; rfl) hp ha (ih ho)
  | erroneous => cases ho
  | hang => cases ho

theorem goes_call {c : Fin n → Call α} {a : Fin n → Reply α} (hp : 0 < n) (h : answer sem c = some a) : Goes sem (fun r => call (c r)) a :=
  .step _ c _ a _ (fun _ => rfl) hp h (.ended _ _ (fun _ => rfl))

/-- The outcome is determined. -/
theorem runs_unique {ts : Fin n → Tree α β} {o o' : Outcome n β} (h : Runs sem ts o) (h' : Runs sem ts o') : o = o' := by
  induction h generalizing o' with
  | ended ts e he =>
    cases h' with
    | ended _ e' he' =>
      congr 1; funext r
      have := (he r).symm.trans (he' r)
      exact Tree.leaf.inj this
    | step _ c k a _ h hp _ _ => have := (he ⟨0, hp⟩).symm.trans (h ⟨0, hp⟩); cases this
    | erroneous _ c k h hp _ => have := (he ⟨0, hp⟩).symm.trans (h ⟨0, hp⟩); cases this
    | hang _ r q e c k _ hq => have := (he q).symm.trans hq; cases this
  | step ts c k a o h hp ha ho ih =>
    cases h' with
    | ended _ e' he' => have := (he' ⟨0, hp⟩).symm.trans (h ⟨0, hp⟩); cases this
    | step _ c' k' a' _ h' _ ha' ho' =>
      have hc : c = c' := by funext r; exact (Tree.coll.inj ((h r).symm.trans (h' r))).1
      have hk : k = k' := by funext r; exact (Tree.coll.inj ((h r).symm.trans (h' r))).2
      subst hc hk
      rw [ha] at ha'
      cases ha'
      exact ih ho'
    | erroneous _ c' k' h' _ ha' =>
      have hc : c = c' := by funext r; exact (Tree.coll.inj ((h r).symm.trans (h' r))).1
      subst hc
      rw [ha] at ha'; cases ha'
    | hang _ r q e c k hr _ => have := hr.symm.trans (h r); cases this
  | erroneous ts c k h hp ha =>
    cases h' with
    | ended _ e' he' => have := (he' ⟨0, hp⟩).symm.trans (h ⟨0, hp⟩); cases this
    | step _ c' k' a' _ h' _ ha' ho' =>
      have hc : c = c' := by funext r; exact (Tree.coll.inj ((h r).symm.trans (h' r))).1
      subst hc
      rw [ha] at ha'; cases ha'
    | erroneous => rfl
    | hang _ r q e c k hr _ => have := hr.symm.trans (h r); cases this
  | hang ts r q e c k hr hq =>
    cases h' with
    | ended _ e' he' => have := (he' q).symm.trans hq; cases this
    | step _ c' k' a' _ h' _ _ _ => have := hr.symm.trans (h' r); cases this
    | erroneous _ c' k' h' _ _ => have := hr.symm.trans (h' r); cases this
    | hang => rfl

/-- There is an outcome. -/
theorem runs_exists (hp : 0 < n) : ∀ ts : Fin n → Tree α β, ∃ o, Runs sem ts o := by
  intro ts
  generalize ht : ts ⟨0, hp⟩ = t
  induction t generalizing ts with
  | leaf e =>
    by_cases h : ∃ q c k, ts q = .coll c k
    · obtain ⟨q, c, k, hq⟩ := h
      exact ⟨_, .hang ts _ q e c k ht hq⟩
    · have : ∀ r, ∃ e, ts r = .leaf e := by
        intro r
        cases hr : ts r with
        | leaf e => exact ⟨e, rfl⟩
        | coll c k => exact absurd ⟨r, c, k, hr⟩ h
      choose e he using this
      exact ⟨_, .ended ts e he⟩
  | coll c k ih =>
    by_cases h : ∃ q e, ts q = .leaf e
    · obtain ⟨q, e, hq⟩ := h
      exact ⟨_, .hang ts q _ e c k hq ht⟩
    · have : ∀ r, ∃ c k, ts r = .coll c k := by
        intro r
        cases hr : ts r with
        | leaf e => exact absurd ⟨r, e, hr⟩ h
        | coll c k => exact ⟨c, k, rfl⟩
      choose c' k' he using this
      cases ha : answer sem c' with
      | none => exact ⟨_, .erroneous ts c' k' he hp ha⟩
      | some a =>
        have hk : k' ⟨0, hp⟩ = k := (Tree.coll.inj ((he _).symm.trans ht)).2
        obtain ⟨o, ho⟩ := ih (a ⟨0, hp⟩) (fun r => k' r (a r)) (by rw [hk])
        exact ⟨o, .step ts c' k' a o he hp ha ho⟩

/-! ### The answers of MPI -/

/-- What MPI answers to calls of the given kind; `o` is the call of the root. -/
def reply (sem : Nat → α → α → α) (c : Fin n → Call α) (o : Call α) (root : Nat) (all : Bool) (op : Nat) : Kind → Option (Fin n → Reply α)
  | .reduceLong => some (fun r => if (all || decide (r.val = root)) = true then { longs := [(List.ofFn (fun q => (c q).longs.sum)).sum] } else {})
  | .bcastLong => if ∀ r, (c r).longs.length = o.longs.length then some (fun _ => { longs := o.longs }) else none
  | .gatherInt => some (fun r => if (all || decide (r.val = root)) = true then { longs := (List.ofFn (fun q => (c q).longs)).flatten } else {})
  | .gatherv =>
    if ∀ r : Fin n, (all || decide (r.val = root)) = true → (c r).counts = List.ofFn (fun q => ((c q).elems.length : Int)) then
      some (fun r => if (all || decide (r.val = root)) = true then { elems := (List.ofFn (fun q => (c q).elems)).flatten } else {})
    else none
  | .scatterv =>
    if (∀ r : Fin n, o.counts[r.val]? = some (c r).expect) ∧ (∀ x ∈ o.counts, 0 ≤ x) ∧ o.counts.sum ≤ o.elems.length then
      some (fun r => { elems := (o.elems.drop (displs o.counts r.val).toNat).take (c r).expect.toNat })
    else none
  | .reduce =>
    if ∀ r, (c r).elems.length = o.elems.length then
      some (fun r => if (all || decide (r.val = root)) = true then { elems := combine (sem op) (List.ofFn (fun q => (c q).elems)) } else {})
    else none
  | .bcast => if ∀ r, (c r).elems.length = o.elems.length then some (fun _ => { elems := o.elems }) else none

theorem answer_eq (c : Fin n → Call α) (kind : Kind) (root : Nat) (all : Bool) (op : Nat) (hr : root < n)
    (h : ∀ r, (c r).kind = kind ∧ (c r).root = root ∧ (c r).all = all ∧ (c r).op = op) :
    answer sem c = reply sem c (c ⟨root, hr⟩) root all op kind := by
  have hp : 0 < n := by omega
  obtain ⟨h1, h2, h3, h4⟩ := h ⟨0, hp⟩
  have hm : ∀ r, (c r).matches (c ⟨0, hp⟩) = true := by
    intro r
    obtain ⟨g1, g2, g3, g4⟩ := h r
    simp [Call.matches, g1, g2, g3, g4, h1, h2, h3, h4]
  unfold answer
  rw [dif_pos hp]
  simp only [h1, h2, h3, h4]
  rw [dif_pos hr, if_pos hm]
  cases kind <;> rfl

theorem goes_sumLong {h : Fin n → Here α} (he : ∀ r, (h r).env = true) {root : Nat} (hr : root < n) (all : Bool) (x : Fin n → Int) :
    Goes sem (fun r => sumLong (h r) root all (x r)) (fun r => if all || decide (r.val = root) then (List.ofFn x).sum else 0) := by
  have : (fun r => sumLong (h r) root all (x r)) = fun r => (call { kind := .reduceLong, root := root, all := all, longs := [x r] }).bind (fun r => .leaf (.ok r.longs.sum)) := by
    funext r; rw [sumLong, if_pos (he r)]
  rw [this]
  refine goes_bind (goes_call (by omega) (answer_eq _ .reduceLong root all 0 hr (fun _ => ⟨rfl, rfl, rfl, rfl⟩))) (goes_leaf (fun r => ?_))
  congr 2
  split <;> simp

theorem goes_bcastLong {h : Fin n → Here α} (he : ∀ r, (h r).env = true) {root : Nat} (hr : root < n) (x : Fin n → Int) :
    Goes sem (fun r => bcastLong (h r) root (x r)) (fun _ => x ⟨root, hr⟩) := by
  have : (fun r => bcastLong (h r) root (x r)) = fun r => (call { kind := .bcastLong, root := root, longs := [x r] }).bind (fun r => .leaf (.ok r.longs.sum)) := by
    funext r; rw [bcastLong, if_pos (he r)]
  rw [this]
  refine goes_bind (goes_call (by omega) ((answer_eq _ .bcastLong root false 0 hr (fun _ => ⟨rfl, rfl, rfl, rfl⟩)).trans (if_pos (fun _ => rfl)))) (goes_leaf (fun r => ?_))
  simp

/-! ### The functions, step by step -/

theorem goes_need {b : Fin n → Bool} {e : End Unit} (h : ∀ r, b r = true) : Goes sem (fun r => (need (b r) e : Tree α Unit)) (fun _ => ()) :=
  goes_leaf (fun r => by rw [need, if_pos (h r)])

theorem invokeGather_eq (h : Here α) (root : Nat) (all : Bool) (a : Source α) (t : Loc α) : invokeGather h root all a t =
    (need (decide (toInt32 a.shape.prod = a.shape.prod)) .ub).bind (fun _ => (delayedShape h (.gather root all) a.shape).bind (fun sha =>
    (makeRoom h (all || h.rank == root) t sha).bind (fun t =>
    (call { kind := .gatherInt, root := root, all := all, longs := [a.shape.prod] }).bind (fun counts =>
    (need (intSums counts.longs) .ub).bind (fun _ =>
    (need (a.alive && !(a.same && (all || h.rank == root))) .ub).bind (fun _ =>
    (call { kind := .gatherv, root := root, all := all, elems := a.data, counts := counts.longs }).bind (fun r =>
    receiveIf (all || h.rank == root) t r.elems))))))) := rfl

theorem invoke_eq (h : Here α) (d : Delayed) (a : Source α) (t : Loc α) : invoke h d a t =
    (need t.contig .exception).bind (fun _ => if h.env then
      match d with
      | .gather root all => invokeGather h root all a t
      | .scatter root => invokeScatter h root a t
      | .reduce root all op => invokeReduce h root all op a t
    else plainAssign h a t) := rfl

theorem assignArray_eq (h : Here α) (d : Delayed) (same : Bool) (a t : Loc α) : assignArray h d same a t =
  Tree.noexcept ((delayedShape h d a.shape).bind (fun sha =>
    invoke h d ⟨a.shape, a.data, same, !same || decide (sha.prod = t.data.length)⟩ (t.resize h sha))) := rfl

theorem assignView_eq (h : Here α) (d : Delayed) (same : Bool) (a t : Loc α) : assignView h d same a t =
  Tree.noexcept ((expectShape h d a t).bind (fun _ => invoke h d ⟨a.shape, a.data, same, true⟩ t)) := rfl

theorem invokeScatter_eq (h : Here α) (root : Nat) (a : Source α) (t : Loc α) : invokeScatter h root a t =
    (delayedShape h (.scatter root) a.shape).bind (fun sha => (resizeOrCheck h t sha).bind (fun t =>
    (need (intSums ((List.range h.size).map (fun q => toInt32 (chunkLength (a.shape.headD 0) h.size q * a.shape.tail.prod)))) .ub).bind (fun _ =>
    (need (h.rank != root || (a.alive && !a.same)) .ub).bind (fun _ =>
    (call { kind := .scatterv, root := root, elems := a.data,
            counts := (List.range h.size).map (fun q => toInt32 (chunkLength (a.shape.headD 0) h.size q * a.shape.tail.prod)),
            expect := toInt32 (chunkLength (a.shape.headD 0) h.size h.rank * a.shape.tail.prod) }).bind (fun r => receive t r.elems))))) := rfl

theorem invokeReduce_eq (h : Here α) (root : Nat) (all : Bool) (op : Nat) (a : Source α) (t : Loc α) : invokeReduce h root all op a t =
    (need (!a.same || decide (a.shape.prod = t.shape.prod)) .exception).bind (fun _ => (makeRoom h (!a.same && (all || h.rank == root)) t a.shape).bind (fun t =>
    (need (a.alive && decide (toInt32 a.shape.prod = a.shape.prod)) .ub).bind (fun _ =>
    (call { kind := .reduce, root := root, all := all, op := op, elems := a.data }).bind (fun r => receiveIf (all || h.rank == root) t r.elems)))) := rfl

theorem broadcast_eq (h : Here α) (root : Nat) (t : Loc α) : broadcast h root t = (need t.contig .ub).bind (fun _ => if h.env then
    (call { kind := .bcastLong, root := root, longs := t.shape }).bind (fun sha => (makeRoom h (h.rank != root) t sha.longs).bind (fun t =>
    (need (decide (toInt32 t.shape.prod = t.shape.prod)) .ub).bind (fun _ => (call { kind := .bcast, root := root, elems := t.data }).bind (fun r =>
    receiveIf (h.rank != root) t r.elems)))) else .leaf (.ok t)) := rfl

theorem construct_eq (h : Here α) (d : Delayed) (a : Loc α) : construct h d a = (delayed a).bind (fun _ => (delayedShape h d a.shape).bind (fun sha =>
  invoke h d ⟨a.shape, a.data, false, true⟩ ⟨sha, List.replicate sha.prod.toNat h.junk, false, true⟩)) := rfl

theorem assign_eq (h : Here α) (d : Delayed) (same : Bool) (a t : Loc α) : assign h d same a t =
  (delayed a).bind (fun _ => if t.isView then assignView h d same a t else assignArray h d same a t) := rfl

theorem reduceCells_eq (h : Here α) (root : Nat) (all : Bool) (op : Nat) (same : Bool) (a t : Loc α) (as ts : List (Loc α)) : reduceCells h root all op same (a :: as) (t :: ts) =
  (assign h (.reduce root all op) same a t).bind (fun t => (reduceCells h root all op same as ts).bind (fun ts => .leaf (.ok (t :: ts)))) := rfl

end Nda.Spmd
