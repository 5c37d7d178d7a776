import Verif.Model.Allocators
/-!
# Specification of allocators

What a correct allocator is, in the style of separation logic: it may hand out parts of the regions
`R` it has obtained from the system and must leave all other regions `F` alone.
-/
namespace Nda.Alloc.Spec
open Nda.Alloc

/-- The blocks have no byte in common. -/
def Apart (a b : Blk) : Prop := a.ptr + a.s ≤ b.ptr ∨ b.ptr + b.s ≤ a.ptr

/-- Block `b` is part of `r`. -/
def Inside (b r : Blk) : Prop := r.ptr ≤ b.ptr ∧ b.ptr + b.s ≤ r.ptr + r.s

/-- Address `x` is in block `b`. -/
def Covers (b : Blk) (x : Int) : Prop := b.ptr ≤ x ∧ x < b.ptr + b.s

/-- The contents of `b` are the same. -/
def Same (b : Blk) (m m' : Int → Nat) : Prop := ∀ x, Covers b x → m' x = m x

/-- All bytes of `b` are zero. -/
def Zeroed (b : Blk) (m : Int → Nat) : Prop := ∀ x, Covers b x → m x = 0

/-- The contract of `malloc`: the region returned is apart from all regions in use. -/
def Fresh (pick : Nat → List Blk → Nat → Int) : Prop :=
  ∀ t regs n, ∀ r ∈ regs, Apart ⟨pick t regs n, n⟩ r

/-- A sane system. -/
structure SysOk (sys : Sys) : Prop where
  fresh : Fresh sys.pick
  apart : sys.regions.Pairwise Apart
  pos : ∀ r ∈ sys.regions, 0 < r.s

/-- From `sys` to `sys'`, the blocks `L` and the regions `F` of others keep their contents, and the
allocator now uses the regions `R`. -/
structure Keeps (sys sys' : Sys) (L F R : List Blk) : Prop where
  ok : SysOk sys'
  regions : sys'.regions.Perm (R ++ F)
  live : ∀ b ∈ L, Same b sys.mem sys'.mem
  others : ∀ b ∈ F, Same b sys.mem sys'.mem

/-- A correct allocator, for requests of the sizes in `ok`; `z`: zeroing requests are honoured.  `Inv st L R`: in state `st`, the live
blocks are `L`, the regions obtained from the system `R`. -/
structure Lawful {σ : Type} (A : Allocator σ) (z : Prop) (ok : Nat → Prop) (Inv : σ → List Blk → List Blk → Prop) : Prop where
  init : ∀ sys, SysOk sys → ∃ R, Inv (A.init sys).1 [] R ∧ Keeps sys (A.init sys).2 [] sys.regions R
  sound : ∀ st L R, Inv st L R → R.Pairwise Apart →
    L.Pairwise Apart ∧ ∀ b ∈ L, 0 < b.s ∧ ∃ r ∈ R, Inside b r
  allocate : ∀ st L R F sys n k st' sys', Inv st L R → SysOk sys → sys.regions.Perm (R ++ F) → ok n →
    A.allocate n st sys = some (k, st', sys') → k.s = n ∧ ∃ R', Inv st' (k :: L) R' ∧ Keeps sys sys' L F R'
  allocateZero : ∀ st L R F sys n k st' sys', Inv st L R → SysOk sys → sys.regions.Perm (R ++ F) → ok n →
    A.allocateZero n st sys = some (k, st', sys') →
    k.s = n ∧ (z → Zeroed k sys'.mem) ∧ ∃ R', Inv st' (k :: L) R' ∧ Keeps sys sys' L F R'
  deallocate : ∀ st L R F sys k, Inv st L R → SysOk sys → sys.regions.Perm (R ++ F) → k ∈ L →
    ∃ st' sys' R', A.deallocate k st sys = some (st', sys') ∧ Inv st' (L.erase k) R' ∧
      Keeps sys sys' (L.erase k) F R'

/-- A request for at least `lo` and less than `hi` bytes. -/
def requestIn (lo hi : Nat) : Op → Bool
  | .alloc n => decide (lo ≤ n) && decide (n < hi)
  | .allocZero n => decide (lo ≤ n) && decide (n < hi)
  | _ => false

/-- The sizes requested in a history. -/
def Sizes (ok : Nat → Prop) (ops : List Op) : Prop :=
  ∀ op ∈ ops, match op with
    | .alloc n => ok n
    | .allocZero n => ok n
    | _ => True

/-- What the client of an allocator expects, after a history that began with the system in state
`sys0`: its blocks do not overlap each other, are memory obtained from the system, and do not overlap
memory that was in use before; that memory is still there and unchanged. -/
structure Safe {σ : Type} (sys0 : Sys) (w : World σ) : Prop where
  apart : w.held.Pairwise Apart
  pos : ∀ b ∈ w.held, 0 < b.s
  inside : ∀ b ∈ w.held, ∃ r ∈ w.sys.regions, Inside b r ∧ ∀ q ∈ sys0.regions, Apart r q
  others : ∀ q ∈ sys0.regions, q ∈ w.sys.regions ∧ Same q sys0.mem w.sys.mem

/-- One operation from `w` to `w'` touches the contents of the client's blocks only as asked: a write
changes the one byte written, no other operation changes anything; a block from a zeroing request is
zero (if `z`); the block requested has the requested size, the block released is gone. -/
def Contents {σ : Type} (z : Prop) (w w' : World σ) : Op → Prop
  | .alloc n => ∃ k, w'.held = k :: w.held ∧ k.s = n ∧ ∀ b ∈ w.held, Same b w.sys.mem w'.sys.mem
  | .allocZero n => ∃ k, w'.held = k :: w.held ∧ k.s = n ∧ (z → Zeroed k w'.sys.mem) ∧ ∀ b ∈ w.held, Same b w.sys.mem w'.sys.mem
  | .free i => w'.held = w.held.eraseIdx i ∧ ∀ b ∈ w'.held, Same b w.sys.mem w'.sys.mem
  | .write i off x => w'.held = w.held ∧ ∀ b ∈ w.held, ∀ a, Covers b a →
      w'.sys.mem a = if (∃ k, w.held[i]? = some k ∧ off < k.s ∧ a = k.ptr + off) then x else w.sys.mem a

end Nda.Alloc.Spec
