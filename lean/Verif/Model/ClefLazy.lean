import Verif.Model.Clef
/-!
# Model of `c++/nda/clef/clef.hpp`: placeholders that are given expressions

`Model/Clef.lean` with pairs `x_ = expression`.  The evaluator counts a placeholder that is given as not lazy (clef.hpp:355), whatever it is given.  A node all of whose placeholders are given is
hence evaluated with the ordinary operators (clef.hpp:382-384), which build a new node if an operand is lazy (clef.hpp:241-303); calls, subscripts and conditionals need more.

Simplification: a function made of an expression is not called by a node of the tree.
-/
namespace Nda.Clef
open Nda

variable {V L : Type}

/-- What is given to a placeholder, clef.hpp:86-89: a value, a reference to an ordinary object, or an expression. -/
inductive LArg (V L : Type)
  | plain (a : Arg V L)
  | lazy (t : Tm V L)

/-- `pair::rhs`, clef.hpp:103-108, 357-359.  Expressions are always copied (clef.hpp:189-191). -/
def LArg.toTm : LArg V L → Tm V L
  | .plain a => a.toTm
  | .lazy t => t

abbrev LPairs (V L : Type) := List (Nat × LArg V L)

/-- The types of objects (external): a number for each type, and whether an object called with lazy arguments makes an expression (`CLEF_IMPLEMENT_LAZY_CALL`, `CLEF_MAKE_FNT_LAZY`,
clef.hpp:711-738). -/
structure Kinds (V L : Type) where
  kind : V → Nat
  kindOf : L → Nat
  lazyCall : V → Bool

mutual
/-- The type of an expression, up to the types of what it stores. -/
def sameType (K : Kinds V L) : Tm V L → Tm V L → Bool
  | .val v, .val w => K.kind v == K.kind w
  | .bor v, .bor w => K.kind v == K.kind w
  | .ref l, .ref m => K.kindOf l == K.kindOf m
  | .bor v, .ref m => K.kind v == K.kindOf m
  | .ref l, .bor w => K.kindOf l == K.kind w
  | .ph n, .ph m => n == m
  | .node g cs, .node h ds => decide (g = h) && sameTypes K cs ds
  | .fn b is, .fn c js => sameType K b c && is == js
  | .sum b n d, .sum c m e => sameType K b c && n == m && sameType K d e
  | _, _ => false
def sameTypes (K : Kinds V L) : List (Tm V L) → List (Tm V L) → Bool
  | [], [] => true
  | c :: cs, d :: ds => sameType K c d && sameTypes K cs ds
  | _, _ => false
end

/-- A node that the evaluator takes for not lazy, with a lazy operand: `operation<Tag>`, clef.hpp:214-309, on expressions.  The operators build a node (241-303); so do calls and subscripts of
expressions (84-96, 163-172) and of objects that have lazy calls; a placeholder takes one subscript (93-96).  The condition of `if_else` must be a value, and both branches of the same type (304-310). -/
def rebuild (I : Interp V L) (K : Kinds V L) (t : Tag) (cs : List (Tm V L)) : Except Err (Tm V L) :=
  match t, cs with
  | .terminal, [c] => .ok c
  | .ifElse, [c, a, b] => do
    let v ← read I c
    if !sameType K a b then throw .illFormed
    match I.truth v with
    | some true => return a
    | some false => return b
    | none => throw .undef
  | .function, .fn _ _ :: _ => .error .illFormed
  | .subscript, .fn _ _ :: _ => .error .illFormed
  | .subscript, .ph n :: as => if as.length = 1 then .ok (.node .subscript (.ph n :: as)) else .error .illFormed
  | .function, h :: as => callLazy .function h as
  | .subscript, h :: as => callLazy .subscript h as
  | .function, [] => .error .illFormed
  | .subscript, [] => .error .illFormed
  | .terminal, _ => .error .illFormed
  | .ifElse, _ => .error .illFormed
  | t, cs => .ok (.node t cs)
where
  callLazy (t : Tag) (h : Tm V L) (as : List (Tm V L)) : Except Err (Tm V L) :=
    if isLazy h then .ok (.node t (h :: as))
    else do
      let v ← read I h
      if K.lazyCall v then return .node t (h :: as) else throw .illFormed

/-- An expression node whose children are evaluated, clef.hpp:377-403. -/
def dispatchL (I : Interp V L) (K : Kinds V L) (lz : Bool) (t : Tag) (cs : List (Tm V L)) : Except Err (Tm V L) :=
  if !lz && cs.any isLazy then rebuild I K t cs else dispatch I lz t cs

/-- The placeholder evaluator, clef.hpp:345-364. -/
def evalPhL (n : Nat) (ps : LPairs V L) : Except Err (Tm V L) :=
  if ps.isEmpty then .error .illFormed
  else match positions n 1 (ps.map (·.1)) with
    | 0 => .ok (.ph n)
    | p + 1 => match ps[p]? with
      | some a => .ok a.2.toTm
      | none => .error .illFormed

/-- `evaluator<T, Pairs...>::operator()`, clef.hpp:316-403, 495-502; see `evalF`. -/
def evalLF (I : Interp V L) (K : Kinds V L) : Nat → LPairs V L → Tm V L → Except Err (Tm V L)
  | 0, _, _ => .error .bound
  | k + 1, ps, t =>
    match t with
    | .val v => .ok (.bor v)
    | .bor v => .ok (.bor v)
    | .ref l => .ok (.ref l)
    | .dead => .ok .dead
    | .ph n => evalPhL n ps
    | .node g cs => do
      if !(shiftOKs (ps.map (·.1)) cs) then throw .illFormed
      let cs' ← cs.mapM (evalLF I K k ps)
      dispatchL I K (lazyIns (ps.map (·.1)) cs) g cs'
    | .fn body is => do
      let b ← evalLF I K k ps body
      let b' ← decay I b
      return .fn b' is
    | .sum body n dom => do
      if !(shiftOK (ps.map (·.1)) (.sum body n dom : Tm V L)) then throw .illFormed
      let b ← evalLF I K k ps body
      let b' ← decay I b
      let d ← evalLF I K k ps dom
      if lazyIn (ps.map (·.1)) (.sum body n dom : Tm V L) then return .sum b' n d
      sumNode I (fun x => evalLF I K k [(n, .plain (.val x))] b') b' n d

/-- The depth of the deepest expression given. -/
def depthArgs : LPairs V L → Nat
  | [] => 1
  | (_, a) :: ps => max (depth a.toTm) (depthArgs ps)

/-- `eval`, clef.hpp:406-409. -/
def evalL (I : Interp V L) (K : Kinds V L) (ps : LPairs V L) (t : Tm V L) : Except Err (Tm V L) := evalLF I K (depth t + depthArgs ps) ps t

end Nda.Clef
