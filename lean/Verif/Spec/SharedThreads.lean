import Verif.Model.SharedThreads
/-!
# Specification: threads that share the storage of arrays

What a data race is, which programs the theorems are about, and what they promise.  Nothing here looks at how a step is made.
-/
namespace Nda.SharedThreads.Spec
open Nda.SharedThreads

/-! ### Data races -/

/-- What a thread can access without an atomic operation: the members `_data` and `_size` of an array, its member `sptr`, the elements in a block. -/
inductive Loc where
  | members (a : Nat)
  | sptr (a : Nat)
  | elems (b : Nat)
  deriving DecidableEq

/-- The elements behind a pointer, if it is not null. -/
def elems (b : Option Nat) (w : Bool) : List (Loc × Bool) := match b with | some b => [(.elems b, w)] | none => []

/-- What a thread is about to access (`true`: it writes). -/
def touches (s : State) (t : Thr) : List (Loc × Bool) :=
  match t.pc with
  | .idle =>
      match t.ops with
      | .share a _ :: _ => [(.members a, false), (.sptr a, false)]
      | .read x :: _ => elems ((t.hd x).bind Hd.blk) false
      | .readArr a :: _ => (.members a, false) :: elems ((s.arr a).bind Arr.blk) false
      | .kill a :: _ => [(.members a, true), (.sptr a, true)]
      | _ => []
  | .publish a _ => [(.members a, false), (.sptr a, true)]
  | .release _ _ _ => []
  | .load a _ => [(.sptr a, false)]
  | .incr a _ _ => [(.members a, false)]
  | .free b _ => [(.elems b, true)]

/-- Two threads are about to access the same location, and one of them writes. -/
def Race (s : State) : Prop :=
  ∃ (i j : Nat) (ti tj : Thr) (l : Loc) (wi wj : Bool), i ≠ j ∧ s.thr[i]? = some ti ∧ s.thr[j]? = some tj ∧ (l, wi) ∈ touches s ti ∧ (l, wj) ∈ touches s tj ∧ (wi = true ∨ wj = true)

/-! ### Owners -/

/-- The number of elements of a list with a property. -/
def number {β : Type} (p : β → Bool) (l : List β) : Nat := (l.map (fun x => if p x then 1 else 0)).sum

def pointsTo (c : Nat) (v : Option Arr) : Bool := v.bind Arr.sptr == some c

def holds (c : Nat) (h : Option Hd) : Bool := h.bind Hd.ctrl == some c

/-- The number of arrays and handles whose shared pointer has control block `c`. -/
def owners (s : State) (c : Nat) : Nat := number (pointsTo c) s.arrs + (s.thr.map (fun t => number (holds c) t.hs)).sum

def unshared (b : Nat) (v : Option Arr) : Bool := v.bind Arr.blk == some b && v.bind Arr.sptr == none

def inUse (b : Nat) (k : Ctrl) : Bool := k.blk == b && k.refs != 0

/-- Who is in charge of block `b`: arrays that have not been shared, and control blocks that are in use. -/
def inCharge (s : State) (b : Nat) : Nat := number (unshared b) s.arrs + number (inUse b) s.ctrls

def live (s : State) (b : Nat) : Nat := if s.blocks[b]? = some true then 1 else 0

/-- A state in which threads start: all counters are right, and every live block has exactly one party in charge. -/
structure Start (s : State) : Prop where
  idle : ∀ t ∈ s.thr, t.pc = .idle
  refs : ∀ c k, s.ctrls[c]? = some k → k.refs = owners s c
  charge : ∀ b, inCharge s b = live s b
  arrs : ∀ a v c, s.arr a = some v → v.sptr = some c → ∃ k, s.ctrls[c]? = some k ∧ v.blk = some k.blk
  handles : ∀ t ∈ s.thr, ∀ x h, t.hd x = some h → (h.ctrl = none ∧ h.blk = none) ∨ ∃ c k, h.ctrl = some c ∧ s.ctrls[c]? = some k ∧ h.blk = some k.blk

/-! ### Programs -/

/-- Every operation of the thread makes sense after the ones before it: variables are empty when a handle is made in them and hold one when it is used, arrays are not used after
their destructor, elements are read only where there are any.  `arrs` and `vars` say what is there (`some true`: not null). -/
def Fine : List Op → List (Option Bool) → List (Option Bool) → Prop
  | [], _, _ => True
  | .share a x :: ops, arrs, vars => vars[x]? = some none ∧ ∃ n, arrs[a]? = some (some n) ∧ Fine ops arrs (vars.set x (some n))
  | .copy x y :: ops, arrs, vars => vars[y]? = some none ∧ ∃ n, vars[x]? = some (some n) ∧ Fine ops arrs (vars.set y (some n))
  | .drop x :: ops, arrs, vars => (∃ n, vars[x]? = some (some n)) ∧ Fine ops arrs (vars.set x none)
  | .read x :: ops, arrs, vars => vars[x]? = some (some true) ∧ Fine ops arrs vars
  | .readArr a :: ops, arrs, vars => arrs[a]? = some (some true) ∧ Fine ops arrs vars
  | .kill a :: ops, arrs, vars => (∃ n, arrs[a]? = some (some n)) ∧ Fine ops (arrs.set a none) vars

def shape (s : State) : List (Option Bool) := s.arrs.map (Option.map (fun v => v.blk.isSome))

def vars (t : Thr) : List (Option Bool) := t.hs.map (Option.map (fun h => h.blk.isSome))

/-- The operation uses array `a`. -/
def uses (a : Nat) : Op → Bool
  | .share a' _ => a' == a
  | .readArr a' => a' == a
  | .kill a' => a' == a
  | _ => false

/-- Thread `i` will make a shared handle from array `a`. -/
def Shares (s : State) (i a : Nat) : Prop := ∃ t x, s.thr[i]? = some t ∧ .share a x ∈ t.ops

def Uses (s : State) (i a : Nat) : Prop := ∃ t o, s.thr[i]? = some t ∧ o ∈ t.ops ∧ uses a o = true

def Kills (s : State) (i a : Nat) : Prop := ∃ t, s.thr[i]? = some t ∧ .kill a ∈ t.ops

/-- The rule for the threads: an array that has not been shared before they start is shared in one of them only; and an array that is destroyed in one of them is not used in another. -/
def Disciplined (s : State) : Prop :=
  (∀ a v, s.arr a = some v → v.blk ≠ none → v.sptr = none → ∀ i j, Shares s i a → Shares s j a → i = j) ∧ ∀ a i j, Kills s i a → Uses s j a → i = j

/-- All threads have come to their end. -/
def Finished (s : State) : Prop := ∀ t ∈ s.thr, t.ops = [] ∧ t.pc = .idle

/-- Some array or handle refers to block `b`. -/
def Held (s : State) (b : Nat) : Prop := (∃ a v, s.arr a = some v ∧ v.blk = some b) ∨ ∃ t ∈ s.thr, ∃ x h, t.hd x = some h ∧ h.blk = some b

/-- Nothing is left: all arrays and handles have been destroyed. -/
def Empty (s : State) : Prop := (∀ a, s.arr a = none) ∧ ∀ t ∈ s.thr, ∀ x, t.hd x = none

end Nda.SharedThreads.Spec
