import Verif.Model.Exceptions
/-!
# Specification: programs on arrays of elements that may throw, without memory

An array is its size and the list of its elements; there are no blocks and no loops.  The only question
asked about constructors is which of the next `n` calls is the first to throw.
-/
namespace Nda.Exc.Spec

variable {V : Type}

/-- The first of the calls `t`, …, `t + n - 1` that throws. -/
def firstFail (w : World) (t n : Nat) : Option Nat := (List.range n).find? fun j => w.fails (t + j)

/-- An array: the size that its shape announces, and the elements that exist.  `null`: the size that its
storage announces although there is no memory behind it. -/
structure AArr (V : Type) where
  len : Nat
  elems : List V
  null : Nat
deriving DecidableEq, Repr

/-- The state of a program; `tick` counts the constructions and assignments of elements, `blocks` the
successful allocations, `leaked` the blocks that nobody will ever release. -/
structure AS (V : Type) where
  vars : List (Option (AArr V))
  tick : Nat
  blocks : Nat
  leaked : Nat
deriving DecidableEq, Repr

namespace AS

def var (s : AS V) (i : Nat) : Option (AArr V) := (s.vars[i]?).join

def setVar (s : AS V) (i : Nat) (x : Option (AArr V)) : AS V := { s with vars := s.vars.set i x }

/-- `n` new elements. -/
def grow (w : World) (n : Nat) (s : AS V) : Out (AS V) :=
  if n = 0 then .ok s
  else if w.oom s.blocks then if w.asserts then .terminate else .ub
  else match firstFail w s.tick n with
    | none => .ok { s with tick := s.tick + n, blocks := s.blocks + 1 }
    | some j => .threw { s with tick := s.tick + j + 1, blocks := s.blocks + 1, leaked := s.leaked + 1 }

/-- A copy of the elements of `y`, and the size of the null storage if there is no memory for them. -/
def dup (w : World) (y : AArr V) (s : AS V) : Out (AArr V × AS V) :=
  if y.elems = [] ∧ y.null = 0 then .ok (y, s)
  else if w.oom s.blocks then if w.asserts then .terminate else .ok (⟨y.len, [], y.elems.length + y.null⟩, s)
  else if y.elems = [] then .ub
  else match firstFail w s.tick y.elems.length with
    | none => .ok (y, { s with tick := s.tick + y.elems.length, blocks := s.blocks + 1 })
    | some _ => .ub

/-- Assignment to `n` elements of which `k` exist. -/
def touch (w : World) (n k : Nat) (s : AS V) : Out (AS V) :=
  match firstFail w s.tick (min n k) with
  | some _ => .terminate
  | none => if n ≤ k then .ok { s with tick := s.tick + n } else .ub

/-- New storage is needed. -/
def needs (x : AArr V) (n : Nat) : Bool := x.elems = [] || x.elems.length ≠ n

def step (w : World) (dflt : V) (s : AS V) (op : Op V) : Out (AS V) :=
  match op with
  | .make d n => if s.var d = none ∧ d < s.vars.length then
      match s.grow w n with
      | .ok s => .ok (s.setVar d (some ⟨n, List.replicate n dflt, 0⟩))
      | .threw _ => .terminate
      | .terminate => .terminate
      | .ub => .ub
    else .ok s
  | .build d vs => if s.var d = none ∧ d < s.vars.length then
      match s.grow w vs.length with
      | .ok s => .ok (s.setVar d (some ⟨vs.length, vs, 0⟩))
      | .threw _ => if w.unwinds then .ub else .terminate
      | .terminate => .terminate
      | .ub => .ub
    else .ok s
  | .copy d x => match s.var x with
      | some y => if s.var d = none ∧ d < s.vars.length then
          if y.elems ≠ [] ∧ w.oom s.blocks = false ∧ firstFail w s.tick y.elems.length ≠ none then if w.unwinds then .ub else .terminate
          else match s.dup w y with
            | .ok (y, s) => .ok (s.setVar d (some y))
            | .threw _ => .terminate
            | .terminate => .terminate
            | .ub => .ub
        else .ok s
      | none => .ok s
  | .move d x => match s.var x with
      | some y => if s.var d = none ∧ d < s.vars.length then
          .ok ((s.setVar d (some y)).setVar x (some ⟨y.len, [], 0⟩)) else .ok s
      | none => .ok s
  | .moveAssign d x => match s.var d, s.var x with
      | some _, some y => .ok ((s.setVar d (some y)).setVar x (some ⟨y.len, [], 0⟩))
      | _, _ => .ok s
  | .copyAssign d x => match s.var d, s.var x with
      | some _, some y => match s.dup w y with
          | .ok (y, s) => .ok (s.setVar d (some y))
          | .threw _ => .terminate
          | .terminate => .terminate
          | .ub => .ub
      | _, _ => .ok s
  | .assign d vs => match s.var d with
      | some x => match (if needs x vs.length then s.grow w vs.length else .ok s) with
          | .ok s => match s.touch w vs.length vs.length with
              | .ok s => .ok (s.setVar d (some ⟨vs.length, vs, 0⟩))
              | .threw _ => .terminate
              | .terminate => .terminate
              | .ub => .ub
          | .threw _ => .terminate
          | .terminate => .terminate
          | .ub => .ub
      | none => .ok s
  | .fill d v => match s.var d with
      | some x => match s.touch w x.len x.elems.length with
          | .ok s => .ok (s.setVar d (some { x with elems := List.replicate x.len v ++ x.elems.drop x.len }))
          | .threw _ => .terminate
          | .terminate => .terminate
          | .ub => .ub
      | none => .ok s
  | .resize d n => match s.var d with
      | some x => if needs x n then
          match s.grow w n with
          | .ok s => .ok (s.setVar d (some ⟨n, List.replicate n dflt, 0⟩))
          | .threw s => .threw (s.setVar d (some { x with len := n }))
          | .terminate => .terminate
          | .ub => .ub
        else .ok (s.setVar d (some { x with len := n }))
      | none => .ok s
  | .read d i => match s.var d with
      | some x => if i < x.len then if i < x.elems.length then .ok s else .ub else .ok s
      | none => .ok s
  | .destroy d => match s.var d with
      | some _ => .ok (s.setVar d none)
      | none => .ok s

/-- A program that catches every exception and goes on. -/
def run (w : World) (dflt : V) : AS V → List (Op V) → Out (AS V × List Bool)
  | s, [] => .ok (s, [])
  | s, op :: ops =>
      match s.step w dflt op with
      | .ok q => (run w dflt q ops).bind (fun r => (r.1, false :: r.2)) fun r => .ok (r.1, false :: r.2)
      | .threw q => (run w dflt q ops).bind (fun r => (r.1, true :: r.2)) fun r => .ok (r.1, true :: r.2)
      | .terminate => .terminate
      | .ub => .ub

def init (N : Nat) : AS V := ⟨List.replicate N none, 0, 0, 0⟩

end AS

/-- The same end, with states in relation. -/
def Same {α β : Type} (R : α → β → Prop) : Out α → Out β → Prop
  | .ok a, .ok b => R a b
  | .threw a, .threw b => R a b
  | .terminate, .terminate => True
  | .ub, .ub => True
  | _, _ => False

end Nda.Exc.Spec
