import Verif.Model.Lifetime
/-!
# Rules for lifetimes

What a careful user checks by reading the program: which variables a view or an expression depends on.  No storage, no objects: only names.
-/
namespace Nda.Lifetime.Spec
open Nda.Lifetime

/-- What a variable is. -/
inductive Kind where
  | arr
  | view
  /-- a lazy expression; `own`: arrays may have been moved into it -/
  | lazy (own : Bool)
  /-- another name for variable `y` -/
  | same (y : Nat)
deriving DecidableEq, Repr

/-- What is known about a variable: the variables that it depends on, whether it may be used, whether it exists. -/
structure Entry where
  kind : Kind
  deps : List Nat
  ok : Bool
  scope : Bool
deriving DecidableEq, Repr

abbrev Env := List Entry

/-- The variable may be used. -/
def usable (env : Env) (x : Nat) : Bool :=
  match env[x]? with
  | some en => en.ok
  | none => false

def depsOf (env : Env) (x : Nat) : List Nat := ((env[x]?).map (·.deps)).getD []

def kindOf (env : Env) (x : Nat) : Option Kind := (env[x]?).map (·.kind)

def inScope (env : Env) (x : Nat) : Bool := ((env[x]?).map (·.scope)).getD false

/-- The storage of `x` changes: whatever depends on `x` may not be used any more. -/
def stale (x : Nat) (env : Env) : Env := env.map (fun en => if x ∈ en.deps then { en with ok := false } else en)

def setOk (x : Nat) (ok : Bool) (env : Env) : Env := env.modify x (fun en => { en with ok := ok })

/-- `x` is moved from. -/
def gone (x : Nat) (env : Env) : Env := setOk x false (stale x env)

/-- `x` is destroyed. -/
def destroyed (x : Nat) (env : Env) : Env := (gone x env).modify x (fun en => { en with scope := false })

/-- Value categories. -/
inductive Cat where
  | lv (x : Nat)
  | xv (x : Nat)
  | pv
  | xt
deriving DecidableEq, Repr

/-- The variable that `x` stands for. -/
def target (env : Env) (x : Nat) : Option Nat :=
  if inScope env x then
    match kindOf env x with
    | some (.same y) => some y
    | some _ => some x
    | none => none
  else none

def owns : Kind → Bool
  | .arr => true
  | .lazy own => own
  | _ => false

def allUsable (env : Env) (D : List Nat) : Bool := D.all (usable env)

/-- Using an expression as an operand. -/
def holdCheck (env : Env) : Cat → Kind → List Nat → Option (Env × Bool × List Nat)
  | .lv _, _, D => some (env, false, D)
  | .xv y, k, _ => if allUsable (gone y env) (depsOf env y) then some (gone y env, owns k, depsOf env y) else none
  | .pv, k, D => some (env, owns k, D)
  | .xt, k, D => some (env, owns k, D)

/-- The rules for expressions: what the expression is and what it depends on. -/
def check : E → Env → Option (Env × Cat × Kind × List Nat)
  | .name x, env => do
      let y ← target env x
      if usable env y then return (env, .lv y, ← kindOf env y, y :: depsOf env y) else none
  | .move x, env => do
      let y ← target env x
      if usable env y then return (env, .xv y, ← kindOf env y, y :: depsOf env y) else none
  | .make, env => some (env, .pv, .arr, [])
  | .slice e, env => do
      let (env, c, k, D) ← check e env
      match c, k with
      -- of a variable
      | .lv _, .arr | .xv _, .arr => return (env, .pv, .view, D)
      | .lv y, .view | .xv y, .view => return (env, .pv, .view, depsOf env y)
      | .lv _, .lazy _ | .xv _, .lazy _ => return (env, .pv, .lazy false, D)
      -- of a temporary: only if it owns nothing
      | .pv, .view => return (env, .pv, .view, D)
      | .pv, .lazy false => return (env, .pv, .lazy false, D)
      | _, _ => none
  | .un _ e, env => do
      let (env, c, k, D) ← check e env
      let (env, own, D) ← holdCheck env c k D
      return (env, .pv, .lazy own, D)
  | .bin _ l r, env => do
      let (env, cl, kl, Dl) ← check l env
      let (env, cr, kr, Dr) ← check r env
      if allUsable env Dl then
        let (env, ol, Dl) ← holdCheck env cl kl Dl
        if allUsable env Dr then
          let (env, or, Dr) ← holdCheck env cr kr Dr
          if allUsable env (Dl ++ Dr) then return (env, .pv, .lazy (ol || or), Dl ++ Dr) else none
        else none
      else none
  | .regular e, env => do
      let (env, c, k, D) ← check e env
      match k with
      | .arr => match c with
          | .pv => return (env, .xt, .arr, D)
          | c => return (env, c, .arr, D)
      | _ => return (env, .pv, .arr, [])

/-- A new variable. -/
def declare (env : Env) (k : Kind) (D : List Nat) : Env := env ++ [⟨k, D, true, true⟩]

/-- The rules for statements. -/
def checkStmt : Stmt → Env → Option Env
  | .decl e, env => do
      let (env, c, k, D) ← check e env
      match c with
      | .lv y => return declare env k (depsOf env y)
      | .xv y => if allUsable (gone y env) (depsOf env y) then return declare (gone y env) k (depsOf env y) else none
      | .pv => return declare env k D
      | .xt => return declare env k D
  | .bind e, env => do
      let (env, c, k, D) ← check e env
      match c with
      | .lv y => return declare env (.same y) []
      | .xv y => return declare env (.same y) []
      | .pv => return declare env k D
      -- a reference to a temporary that is not kept alive
      | .xt => none
  | .drop x, env => if inScope env x then some (destroyed x env) else none
  | .read e, env => do
      let (env, _, _, _) ← check e env
      return env
  | .assign x e other, env => do
      let y ← target env x
      let (env, c, k, D) ← check e env
      if inScope env y then
        match kindOf env y, k with
        | some .arr, .arr => match c with
            | .xv z => if z = y then none else return setOk y true (stale y (gone z env))
            | _ => return setOk y true (stale y env)
        | some .arr, _ =>
            if other then
              -- the array is resized before the right-hand side is read
              if y ∈ D then none else return setOk y true (stale y env)
            else if usable env y then return env else none
        | some .view, _ => if usable env y then return env else none
        | _, _ => none
      else none
  | .resize x, env => do
      let y ← target env x
      if inScope env y ∧ kindOf env y = some .arr then return setOk y true (stale y env) else none

def checkAll : List Stmt → Env → Option Env
  | [], env => some env
  | c :: cs, env => do checkAll cs (← checkStmt c env)

end Nda.Lifetime.Spec
