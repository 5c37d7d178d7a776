/-!
# Lifetimes of arrays, views and lazy expressions

Which storage the objects of a program own, which they only refer to, and what is destroyed when.  Elements are not modelled here: an object is what it holds.  Arrays are on the heap
and not empty.  References are modelled by the variable that they refer to, storage by the number of its block; numbers are not used twice.
-/
namespace Nda.Lifetime

/-- An object. -/
inductive Obj where
  /-- `basic_array`: owns its storage (basic_array.hpp:69-70); `none` after it was moved from (handle.hpp:116-132) -/
  | arr (b : Option Nat)
  /-- `basic_array_view`: refers to storage (basic_array_view.hpp:76-77, `borrowed`) -/
  | view (b : Option Nat)
  /-- a reference to a variable: operands that are lvalues (`L` is an lvalue reference, arithmetic.hpp:60-61), or a variable declared with `auto &&` -/
  | ref (x : Nat)
  /-- a variable declared with `auto &&` that refers to a temporary that was destroyed -/
  | dangling
  /-- `expr_unary` (arithmetic.hpp:31-43), or an `expr_call` of one array (map.hpp:48-51; `const`: its operands are const members) -/
  | un (const : Bool) (o : Obj)
  /-- `expr` (arithmetic.hpp:57-61), or an `expr_call` of two arrays (map.hpp:48-51) -/
  | bin (const : Bool) (l r : Obj)
deriving DecidableEq, Repr

/-- The blocks that the object owns: destroyed with it. -/
def Obj.owned : Obj → List Nat
  | .arr (some b) => [b]
  | .un _ o => o.owned
  | .bin _ l r => l.owned ++ r.owned
  | _ => []

/-- State: variables in the order of their declaration (`none`: destroyed), the blocks of storage that exist, the number of the next one. -/
structure St where
  vars : List (Option Obj)
  live : List Nat
  next : Nat
deriving DecidableEq, Repr

def St.init : St := ⟨[], [], 0⟩

def St.get (s : St) (x : Nat) : Option Obj := (s.vars[x]?).join

def St.put (s : St) (x : Nat) (o : Option Obj) : St := { s with vars := s.vars.set x o }

def St.push (s : St) (o : Obj) : St := { s with vars := s.vars ++ [some o] }

/-- New storage. -/
def St.alloc (s : St) : St × Nat := ({ s with live := s.next :: s.live, next := s.next + 1 }, s.next)

/-- Storage given back; `none` if it is not there any more. -/
def St.free : List Nat → St → Option St
  | [], s => some s
  | b :: bs, s => if b ∈ s.live then St.free bs { s with live := s.live.erase b } else none

/-! ### Element access and slices -/

/-- The blocks read by access to all elements of an object; `f` gives those of variables.  `none`: it goes through a reference to something destroyed or an array without storage. -/
def needWith (f : Nat → Option (List Nat)) : Obj → Option (List Nat)
  | .arr b => b.map (fun b => [b])
  | .view b => b.map (fun b => [b])
  | .ref x => f x
  | .dangling => none
  | .un _ o => needWith f o
  | .bin _ l r => do return (← needWith f l) ++ (← needWith f r)

/-- The blocks read by access to variable `x`; references go at most `n` deep (a reference is to an earlier variable). -/
def needVar (s : St) : Nat → Nat → Option (List Nat)
  | 0, _ => none
  | n + 1, x => do needWith (needVar s n) (← s.get x)

/-- `o(range, ...)`: a view of an array or a view (_impl_basic_array_view_common.hpp:129-172); of an expression, the expression of the slices of its operands (arithmetic.hpp:36-39,
101-153, map.hpp:54-62), which are const lvalues: an array inside the expression gives a view of storage that the expression owns. -/
def sliceWith (f : Nat → Option Obj) : Obj → Option Obj
  | .arr b => some (.view b)
  | .view b => some (.view b)
  | .ref x => f x
  | .dangling => none
  | .un c o => do return .un c (← sliceWith f o)
  | .bin c l r => do return .bin c (← sliceWith f l) (← sliceWith f r)

def sliceVar (s : St) : Nat → Nat → Option Obj
  | 0, _ => none
  | n + 1, x => do sliceWith (sliceVar s n) (← s.get x)

/-! ### Copying and moving -/

/-- Copy construction: arrays are copied with their elements (handle.hpp:183-190), views and references are not (basic_array_view.hpp:98); expressions member by member. -/
def copyObj : Obj → St → Option (St × Obj)
  | .arr none, s => some (s, .arr none)
  | .arr (some b), s =>
      if b ∈ s.live then
        let (s', n) := s.alloc
        some (s', .arr (some n))
      else none
  | .view b, s => some (s, .view b)
  | .ref x, s => some (s, .ref x)
  | .dangling, _ => none
  | .un c o, s => do
      let (s, o') ← copyObj o s
      return (s, .un c o')
  | .bin c l r, s => do
      let (s, l') ← copyObj l s
      let (s, r') ← copyObj r s
      return (s, .bin c l' r')

/-- Move construction: the new object, and what is left of the old one.  Storage is handed over (handle.hpp:116-122), except that const members (the tuple of `expr_call`, map.hpp:51)
are copied. -/
def moveObj : Obj → St → Option (St × Obj × Obj)
  | .arr b, s => some (s, .arr b, .arr none)
  | .view b, s => some (s, .view b, .view b)
  | .ref x, s => some (s, .ref x, .ref x)
  | .dangling, _ => none
  | .un c o, s =>
      if c then do
        let (s, o') ← copyObj (.un c o) s
        return (s, o', .un c o)
      else do
        let (s, o', k) ← moveObj o s
        return (s, .un c o', .un c k)
  | .bin c l r, s =>
      if c then do
        let (s, o') ← copyObj (.bin c l r) s
        return (s, o', .bin c l r)
      else do
        let (s, l', kl) ← moveObj l s
        let (s, r', kr) ← moveObj r s
        return (s, .bin c l' r', .bin c kl kr)

/-! ### Expressions of C++ -/

inductive E where
  | name (x : Nat)
  /-- `std::move(x)` -/
  | move (x : Nat)
  /-- a new array: a function that returns one, a constructor -/
  | make
  /-- `e(range, ...)` or `e()` -/
  | slice (e : E)
  /-- `-e`; with `const`, a mapped function `f(e)` -/
  | un (const : Bool) (e : E)
  /-- `l + r` and so on; with `const`, a mapped function `f(l, r)` -/
  | bin (const : Bool) (l r : E)
  /-- `make_regular(e)`, basic_functions.hpp:142-155 -/
  | regular (e : E)
deriving DecidableEq, Repr

/-- Value categories: a variable, a variable that may be moved from, a new object (not in memory yet), and an expiring temporary. -/
inductive Val where
  | lv (x : Nat)
  | xv (x : Nat)
  | pv (o : Obj)
  | xt (o : Obj)
deriving DecidableEq, Repr

/-- The blocks of a temporary. -/
def Val.owned : Val → List Nat
  | .pv o | .xt o => o.owned
  | _ => []

/-- The variable that a name stands for. -/
def resolve (s : St) (x : Nat) : Option Nat :=
  match s.get x with
  | some (.ref y) => some y
  | some _ => some x
  | none => none

/-- How an operand is stored in an expression (`std::forward`, arithmetic.hpp:181-308, map.hpp:90-94): lvalues by reference, others moved.  Also the blocks of temporaries that
remain to be destroyed. -/
def hold (s : St) : Val → Option (St × Obj × List Nat)
  | .lv x => some (s, .ref x, [])
  | .xv x => do
      let o ← s.get x
      let (s, o', k) ← moveObj o s
      return (s.put x (some k), o', [])
  | .pv o => do
      let (s, o', k) ← moveObj o s
      return (s, o', k.owned)
  | .xt o => do
      let (s, o', k) ← moveObj o s
      return (s, o', k.owned)

/-- Blocks read by access to the elements of a value. -/
def need (s : St) : Val → Option (List Nat)
  | .lv x => needVar s s.vars.length x
  | .xv x => needVar s s.vars.length x
  | .pv o => needWith (needVar s s.vars.length) o
  | .xt o => needWith (needVar s s.vars.length) o

/-- Access to all elements: the storage has to be there. -/
def access (s : St) (v : Val) : Option Unit := do
  let bs ← need s v
  if bs.all (· ∈ s.live) then some () else none

/-- The object is an array. -/
def isArr (s : St) : Val → Bool
  | .lv x | .xv x => match s.get x with
      | some (.arr _) => true
      | _ => false
  | .pv o | .xt o => match o with
      | .arr _ => true
      | _ => false

/-- Evaluation: the value and the blocks of the temporaries that live to the end of the statement.  (Operands from left to right; C++ leaves the order open.)
`none`: undefined behaviour, or not accepted by the compiler. -/
def eval : E → St → Option (St × Val × List Nat)
  | .name x, s => do return (s, .lv (← resolve s x), [])
  | .move x, s => do return (s, .xv (← resolve s x), [])
  | .make, s =>
      let (s, b) := s.alloc
      some (s, .pv (.arr (some b)), [])
  | .slice e, s => do
      let (s, v, ts) ← eval e s
      match v with
      | .lv x => return (s, .pv (← sliceVar s s.vars.length x), ts)
      | .xv x => return (s, .pv (← sliceVar s s.vars.length x), ts)
      | .pv o => return (s, .pv (← sliceWith (sliceVar s s.vars.length) o), ts ++ o.owned)
      | .xt o => return (s, .pv (← sliceWith (sliceVar s s.vars.length) o), ts ++ o.owned)
  | .un c e, s => do
      let (s, v, ts) ← eval e s
      let (s, o, us) ← hold s v
      return (s, .pv (.un c o), ts ++ us)
  | .bin c l r, s => do
      let (s, vl, tl) ← eval l s
      let (s, vr, tr) ← eval r s
      let (s, ol, ul) ← hold s vl
      let (s, or, ur) ← hold s vr
      return (s, .pv (.bin c ol or), tl ++ tr ++ ul ++ ur)
  | .regular e, s => do
      let (s, v, ts) ← eval e s
      if isArr s v then
        match v with
        | .pv o => return (s, .xt o, ts)
        | v => return (s, v, ts)
      else do
        access s v
        let (s, b) := s.alloc
        return (s, .pv (.arr (some b)), ts ++ v.owned)

/-! ### Statements -/

inductive Stmt where
  /-- `auto x = e;` -/
  | decl (e : E)
  /-- `auto &&x = e;` -/
  | bind (e : E)
  /-- end of the lifetime of `x` -/
  | drop (x : Nat)
  /-- `e` is read element by element, e.g. `sum(e)`, or `std::cout << e` -/
  | read (e : E)
  /-- `x = e`; `other`: the shapes are different, so that an array is resized first -/
  | assign (x : Nat) (e : E) (other : Bool)
  /-- `x.resize(...)` to another size -/
  | resize (x : Nat)
deriving DecidableEq, Repr

/-- `auto x = v`: the object that `x` becomes, and the blocks left in a temporary. -/
def construct (s : St) : Val → Option (St × Obj × List Nat)
  | .lv x => do
      let o ← s.get x
      let (s, o') ← copyObj o s
      return (s, o', [])
  | .xv x => do
      let o ← s.get x
      let (s, o', k) ← moveObj o s
      return (s.put x (some k), o', [])
  | .pv o => some (s, o, [])
  | .xt o => do
      let (s, o', k) ← moveObj o s
      return (s, o', k.owned)

/-- `x = v` for an array `x` with storage `old` and an array `v`: copied (basic_array.hpp:341, handle.hpp:134-137) or moved (basic_array.hpp:338, handle.hpp:124-132). -/
def assignArr (s : St) (x : Nat) (old : Option Nat) : Val → Option St
  | .lv z => do
      let o ← s.get z
      let (s, o') ← copyObj o s
      let s ← St.free old.toList s
      return s.put x (some o')
  | .xv z => do
      let o ← s.get z
      let s ← St.free old.toList s
      return (s.put x (some o)).put z (some (.arr none))
  | .pv o => do
      let s ← St.free old.toList s
      return s.put x (some o)
  | .xt o => do
      let s ← St.free old.toList s
      return s.put x (some o)

def exec : Stmt → St → Option St
  | .decl e, s => do
      let (s, v, ts) ← eval e s
      let (s, o, us) ← construct s v
      St.free (ts ++ us) (s.push o)
  | .bind e, s => do
      let (s, v, ts) ← eval e s
      match v with
      | .lv x => St.free ts (s.push (.ref x))
      | .xv x => St.free ts (s.push (.ref x))
      | .pv o => St.free ts (s.push o)
      | .xt o => St.free (ts ++ o.owned) (s.push .dangling)
  | .drop x, s => do
      let o ← s.get x
      St.free o.owned (s.put x none)
  | .read e, s => do
      let (s, v, ts) ← eval e s
      access s v
      St.free (ts ++ v.owned) s
  | .assign x e other, s => do
      let y ← resolve s x
      let (s, v, ts) ← eval e s
      match ← s.get y with
      | .arr old =>
          if isArr s v then do
            let s ← assignArr s y old v
            St.free ts s
          else if other then do
            let s ← St.free old.toList s
            let (s, b) := s.alloc
            let s := s.put y (some (.arr (some b)))
            access s v
            St.free (ts ++ v.owned) s
          else do
            access s (.lv y)
            access s v
            St.free (ts ++ v.owned) s
      | .view _ => do
          access s (.lv y)
          access s v
          St.free (ts ++ v.owned) s
      | _ => none
  | .resize x, s => do
      let y ← resolve s x
      match ← s.get y with
      | .arr old => do
          let s ← St.free old.toList s
          let (s, b) := s.alloc
          return s.put y (some (.arr (some b)))
      | _ => none

def run : List Stmt → St → Option St
  | [], s => some s
  | c :: cs, s => do run cs (← exec c s)

end Nda.Lifetime
