import Verif.Model.Assign
/-!
# Model of `c++/nda/clef/clef.hpp` and `c++/nda/clef/sum.hpp`

Lazy expressions.  In C++ the shape of an expression is its type, and all decisions on what is lazy are taken by the compiler; here both are functions of the tree.  What a C++ operator or function
does on ordinary values is external (`Interp`).  Every program the compiler rejects is the outcome `illFormed`.

Simplifications: the values given to placeholders are ordinary values or references to ordinary objects, not themselves lazy (those are in `Model/ClefLazy.lean`); a function made of an expression is called, evaluated, assigned from, or
summed, but not stored as an operand of an ordinary operator.
-/
namespace Nda.Clef
open Nda

/-- The tags of expression nodes, clef.hpp:32-39, 272-307. -/
inductive Tag
  | function | subscript | terminal | ifElse
  | plus | minus | multiplies | divides | greater | less | leq | geq | eq
  | unaryplus | negate | loginot
  deriving DecidableEq, Repr

/-- Outcomes that are not a result. -/
inductive Err
  /-- rejected by the compiler -/
  | illFormed
  /-- undefined behaviour -/
  | undef
  /-- "Sum over an empty domain" -/
  | emptyDomain
  /-- not an outcome of the program: the recursion bound of `evalF` is reached (never by `eval`, see `Lemmas/Clef.lean`) -/
  | bound
  deriving DecidableEq, Repr

/-- Ordinary C++ (external): operators and functions on values, objects behind references, conditions, the points of a domain. -/
structure Interp (V L : Type) where
  op : Tag → List V → Option V
  load : L → Option V
  truth : V → Option Bool
  points : V → Option (List V)

/-- What an expression tree holds, clef.hpp:46-70 (`expr_storage_t`), 84-96, 152-181, 448-459, sum.hpp:39-64. -/
inductive Tm (V L : Type)
  /-- an object stored in the tree (made from an rvalue) -/
  | val (v : V)
  /-- a reference to an object stored in another tree -/
  | bor (v : V)
  /-- a reference to an object outside (made from an lvalue) -/
  | ref (l : L)
  /-- a reference to an object stored in a tree that is gone -/
  | dead
  /-- `placeholder<n>` -/
  | ph (n : Nat)
  /-- `expr<Tag, Childs...>` -/
  | node (t : Tag) (cs : List (Tm V L))
  /-- `make_fun_impl<Expr, Is...>` -/
  | fn (body : Tm V L) (is : List Nat)
  /-- `expr<tags::function, lambda, make_fun_impl<Expr, n>, D>`, where the lambda calls `sum_f_domain_impl` -/
  | sum (body : Tm V L) (n : Nat) (dom : Tm V L)

/-- The right-hand side of a pair, clef.hpp:86-89, 103-108: a value (from an rvalue) or a reference (from an lvalue). -/
inductive Arg (V L : Type)
  | val (v : V)
  | ref (l : L)

/-- What the placeholder evaluator returns: the declared type of `pair::rhs`, clef.hpp:357-359. -/
def Arg.toTm {V L : Type} : Arg V L → Tm V L
  | .val v => .val v
  | .ref l => .ref l

abbrev Pairs (V L : Type) := List (Nat × Arg V L)

variable {V L : Type}

/-! ### Sets of placeholders as bits -/

/-- `ph_set<placeholder<N>>`, clef.hpp:122-125; only for `N < 64`, see `shiftOK`. -/
def phBit (n : Nat) : BitVec 64 := 1#64 <<< n

/-- `ph_set<Pairs...>`, clef.hpp:114-127. -/
def phSetPairs (is : List Nat) : BitVec 64 := is.foldr (fun i s => phBit i ||| s) 0

/-- `ph_filter`, clef.hpp:467-476. -/
def phFilter (x : BitVec 64) : List Nat → BitVec 64
  | [] => x
  | i :: is => phFilter x is &&& ~~~ (phBit i)

mutual
/-- `ph_set<T>`, clef.hpp:112-127, 183-184, 478-481.  The set of a sum node is that of its children. -/
def phSet : Tm V L → BitVec 64
  | .val _ => 0
  | .bor _ => 0
  | .ref _ => 0
  | .dead => 0
  | .ph n => phBit n
  | .node _ cs => phSets cs
  | .fn body is => phFilter (phSet body) is
  | .sum body n dom => phFilter (phSet body) [n] ||| phSet dom
def phSets : List (Tm V L) → BitVec 64
  | [] => 0
  | c :: cs => phSet c ||| phSets cs
end

mutual
/-- All shifts `1ull << N` needed for the sets of placeholders of a tree are by less than 64; other shifts are not constant expressions.  (The literals of literals.hpp:24-38 are placeholders with
`N` close to `INT_MAX`.) -/
def shifts : Tm V L → Bool
  | .ph n => n < 64
  | .node _ cs => shiftss cs
  | .fn body is => shifts body && is.all (· < 64)
  | .sum body n dom => shifts body && decide (n < 64) && shifts dom
  | _ => true
def shiftss : List (Tm V L) → Bool
  | [] => true
  | c :: cs => shifts c && shiftss cs
end

/-! ### Which expressions are lazy -/

/-- `get_position_of_N`, clef.hpp:348-350, before the final `- 1`: the sum of the (1-based) positions of `n`, the first element having position `p`. -/
def positions (n : Nat) (p : Nat) : List Nat → Nat
  | [] => 0
  | i :: is => (if i = n then p else 0) + positions n (p + 1) is

mutual
/-- `evaluator<T, Pairs...>::is_lazy`, clef.hpp:318, 355, 370, 390, 498. -/
def lazyIn (names : List Nat) : Tm V L → Bool
  | .val _ => false
  | .bor _ => false
  | .ref _ => false
  | .dead => false
  | .ph n => positions n 1 names == 0
  | .node _ cs => lazyIns names cs
  | .fn body is => phSet (.fn body is : Tm V L) != phSetPairs names
  | .sum body n dom => (phFilter (phSet body) [n] != phSetPairs names) || lazyIn names dom
def lazyIns (names : List Nat) : List (Tm V L) → Bool
  | [] => false
  | c :: cs => lazyIn names c || lazyIns names cs
end

mutual
/-- The sets of placeholders needed by `lazyIn` are constant expressions. -/
def shiftOK (names : List Nat) : Tm V L → Bool
  | .node _ cs => shiftOKs names cs
  | .fn body is => shifts (.fn body is : Tm V L) && names.all (· < 64)
  | .sum body n dom => shifts body && decide (n < 64) && names.all (· < 64) && shiftOK names dom
  | _ => true
def shiftOKs (names : List Nat) : List (Tm V L) → Bool
  | [] => true
  | c :: cs => shiftOK names c && shiftOKs names cs
end

/-- `is_lazy<T>`, clef.hpp:132-147, 186-187, 483-484. -/
def isLazy : Tm V L → Bool
  | .ph _ => true
  | .node _ _ => true
  | .sum _ _ _ => true
  | .fn body is => phSet (.fn body is : Tm V L) != 0
  | _ => false

/-! ### Evaluation -/

/-- The value of an operand that is not lazy. -/
def read (I : Interp V L) : Tm V L → Except Err V
  | .val v => .ok v
  | .bor v => .ok v
  | .ref l => match I.load l with
    | some v => .ok v
    | none => .error .undef
  | .dead => .error .undef
  | _ => .error .illFormed

/-- `operation<Tag>`, clef.hpp:214-309: `if_else` gets both values; the others are the C++ operators. -/
def operation (I : Interp V L) (t : Tag) (vs : List V) : Except Err V :=
  match t, vs with
  | .terminal, [v] => .ok v
  | .ifElse, [c, a, b] => match I.truth c with
    | some true => .ok a
    | some false => .ok b
    | none => .error .undef
  | t, vs => match I.op t vs with
    | some v => .ok v
    | none => .error .undef

/-- What `make_function` stores, clef.hpp:490-493 (`std::decay_t`): a copy of an object, also of one behind a reference. -/
def decay (I : Interp V L) : Tm V L → Except Err (Tm V L)
  | .val v => .ok (.val v)
  | .bor v => .ok (.val v)
  | .ref l => match I.load l with
    | some v => .ok (.val v)
    | none => .error .undef
  | .dead => .error .undef
  | t => .ok t

/-- The placeholder evaluator, clef.hpp:345-364.  Without pairs the fold expression is ill-formed. -/
def evalPh (n : Nat) (ps : Pairs V L) : Except Err (Tm V L) :=
  if ps.isEmpty then .error .illFormed
  else match positions n 1 (ps.map (·.1)) with
    | 0 => .ok (.ph n)
    | p + 1 => match ps[p]? with
      | some a => .ok a.2.toTm
      | none => .error .illFormed

/-- `res + f(*it)`, sum.hpp:48; a summand that is still lazy has another type than `res`. -/
def addTo (I : Interp V L) (res : V) (x : Except Err (Tm V L)) : Except Err V := do
  let t ← x
  let v ← read I t
  operation I .plus [res, v]

/-- `sum_f_domain_impl`, sum.hpp:39-50, with `f` the calls of the function. -/
def sumLoop (I : Interp V L) (f : V → Except Err (Tm V L)) (d : V) : Except Err V :=
  match I.points d with
  | none => .error .illFormed
  | some [] => .error .emptyDomain
  | some (x :: xs) => do
    let t ← f x
    let v ← read I t
    xs.foldlM (fun res y => addTo I res (f y)) v

/-- The two overloads of `sum_f_domain_impl`, sum.hpp:39-52: lazy if the function or the domain is. -/
def sumNode (I : Interp V L) (f : V → Except Err (Tm V L)) (body : Tm V L) (n : Nat) (dom : Tm V L) : Except Err (Tm V L) :=
  if !(shifts body && decide (n < 64)) then .error .illFormed
  else if isLazy (.fn body [n]) || isLazy dom then .ok (.sum body n dom)
  else do
    let d ← read I dom
    let v ← sumLoop I f d
    return .val v

/-- An expression node whose children are evaluated, clef.hpp:377-403. -/
def dispatch (I : Interp V L) (lz : Bool) (t : Tag) (cs : List (Tm V L)) : Except Err (Tm V L) :=
  if lz then .ok (.node t cs)
  else do
    let vs ← cs.mapM (read I)
    let v ← operation I t vs
    return .val v

/-- `evaluator<T, Pairs...>::operator()`, clef.hpp:316-403, 495-502, with a bound on the depth of the recursion.
A stored object is returned by reference (`T const &`), hence stored by reference in a new tree. -/
def evalF (I : Interp V L) : Nat → Pairs V L → Tm V L → Except Err (Tm V L)
  | 0, _, _ => .error .bound
  | k + 1, ps, t =>
    match t with
    | .val v => .ok (.bor v)
    | .bor v => .ok (.bor v)
    | .ref l => .ok (.ref l)
    | .dead => .ok .dead
    | .ph n => evalPh n ps
    | .node g cs => do
      if !(shiftOKs (ps.map (·.1)) cs) then throw .illFormed
      let cs' ← cs.mapM (evalF I k ps)
      dispatch I (lazyIns (ps.map (·.1)) cs) g cs'
    | .fn body is => do
      let b ← evalF I k ps body
      let b' ← decay I b
      return .fn b' is
    | .sum body n dom => do
      if !(shiftOK (ps.map (·.1)) (.sum body n dom : Tm V L)) then throw .illFormed
      let b ← evalF I k ps body
      let b' ← decay I b
      let d ← evalF I k ps dom
      if lazyIn (ps.map (·.1)) (.sum body n dom : Tm V L) then return .sum b' n d
      sumNode I (fun x => evalF I k [(n, .val x)] b') b' n d

mutual
/-- The depth of a tree. -/
def depth : Tm V L → Nat
  | .node _ cs => depths cs + 1
  | .fn body _ => depth body + 1
  | .sum body _ dom => max (depth body) (depth dom) + 1
  | _ => 1
def depths : List (Tm V L) → Nat
  | [] => 1
  | c :: cs => max (depth c) (depths cs)
end

/-- `eval`, clef.hpp:406-409. -/
def eval (I : Interp V L) (ps : Pairs V L) (t : Tm V L) : Except Err (Tm V L) := evalF I (depth t) ps t

/-- `make_function`, clef.hpp:490-493. -/
def makeFunction (I : Interp V L) (t : Tm V L) (is : List Nat) : Except Err (Tm V L) := do
  let b ← decay I t
  return .fn b is

/-- `make_fun_impl::operator()`, clef.hpp:454-458.  The number of arguments must be that of the placeholders. -/
def call (I : Interp V L) (f : Tm V L) (args : List (Arg V L)) : Except Err (Tm V L) :=
  match f with
  | .fn body is => if is.length = args.length then eval I (is.zip args) body else .error .illFormed
  | _ => .error .illFormed

/-- `sum(f, n = dom)`, sum.hpp:54-64. -/
def sum1 (I : Interp V L) (t : Tm V L) (n : Nat) (dom : Tm V L) : Except Err (Tm V L) := do
  let b ← decay I t
  sumNode I (fun x => eval I [(n, .val x)] b) b n dom

/-- `sum(f, n0 = d0, n1 = d1, ...)`, sum.hpp:66-70: recursively, the first index innermost. -/
def sumAll (I : Interp V L) : Tm V L → List (Nat × Tm V L) → Except Err (Tm V L)
  | t, [] => .ok t
  | t, (n, d) :: l => do
    let s ← sum1 I t n d
    sumAll I s l

mutual
/-- The tree whose objects were referred to is gone. -/
def expire : Tm V L → Tm V L
  | .bor _ => .dead
  | .node g cs => .node g (expires cs)
  | .fn body is => .fn (expire body) is
  | .sum body n dom => .sum (expire body) n (expire dom)
  | t => t
def expires : List (Tm V L) → List (Tm V L)
  | [] => []
  | c :: cs => expire c :: expires cs
end

end Nda.Clef
