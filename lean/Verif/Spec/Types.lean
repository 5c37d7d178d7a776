import Verif.Model.Types
/-!
# What expressions mean to a mathematician, and which programs there are
-/
namespace Nda.Types
open Nda Nda.Arith

/-- Mathematical objects: arrays with a number of indices, matrices, vectors. -/
inductive Kind where
  | arr (rank : Nat)
  | mat
  | vec
deriving DecidableEq, Repr

/-- The sum of two objects. -/
def Kind.sum : Kind → Kind → Option Kind
  | .arr n, .arr m => if n = m then some (.arr n) else none
  | .mat, .mat => some .mat
  | .vec, .vec => some .vec
  | _, _ => none

/-- The product: of arrays element by element, of matrices, of a matrix and a vector. -/
def Kind.product : Kind → Kind → Option Kind
  | .arr n, .arr m => if n = m then some (.arr n) else none
  | .mat, .mat => some .mat
  | .mat, .vec => some .vec
  | _, _ => none

/-- The quotient: of arrays element by element, of matrices. -/
def Kind.quotient : Kind → Kind → Option Kind
  | .arr n, .arr m => if n = m then some (.arr n) else none
  | .mat, .mat => some .mat
  | _, _ => none

/-- A part with `k` indices. -/
def Kind.part : Kind → Nat → Kind
  | .arr _, k => .arr k
  | .mat, k => if k = 2 then .mat else .vec
  | .vec, _ => .vec

/-- Number of indices. -/
def Kind.rank : Kind → Nat
  | .arr n => n
  | .mat => 2
  | .vec => 1

/-- The type `t` stands for an object of this kind. -/
def Ty.Is (t : Ty) : Kind → Prop
  | .arr n => t.alg = .A ∧ t.rank = some n
  | .mat => t.alg = .M ∧ t.rank = some 2
  | .vec => t.alg = .V ∧ t.rank = some 1

/-- `args` are arguments for `r` indices and leave `k` of them: the ellipsis, if there is one, stands for ranges. -/
def Leaves (args : List ArgK) (r k : Nat) : Prop :=
  ∃ args' : List ArgK, .ell ∉ args' ∧ args'.length = r ∧ args'.count .range = k ∧
    (args = args' ∨ ∃ pre post m, args = pre ++ [.ell] ++ post ∧ args' = pre ++ List.replicate m .range ++ post)

/-- Types of the expressions that programs can contain: everything that compiles. -/
inductive Reach (debug : Bool) : Ty → Prop
  | num : Reach debug .num
  | cont (a : Alg) (r : Nat) : 1 ≤ r → memOk a r → Reach debug (.cont a r)
  | view (a : Alg) (r : Nat) : 1 ≤ r → memOk a r → Reach debug (.view a r)
  | adapter (r : Nat) : 1 ≤ r → Reach debug (.adapter r)
  | neg {t t' : Ty} : Reach debug t → neg debug t = some t' → Reach debug t'
  | bin {op : BOp} {l r t' : Ty} : Reach debug l → Reach debug r → bin debug op l r = some t' → Reach debug t'
  | mapped {n : Nat} {as : Fin (n + 1) → Ty} {t' : Ty} : (∀ i, Reach debug (as i)) → mapped debug n as = some t' → Reach debug t'
  | call {t t' : Ty} {args : List ArgK} : Reach debug t → callArgs debug t args = some t' → Reach debug t'
  | transform {t t' : Ty} {rv : Bool} {r : Nat} : Reach debug t → 1 ≤ r → transform rv r t = some t' → Reach debug t'
  | transpose {t t' : Ty} {rv : Bool} : Reach debug t → transpose debug rv t = some t' → Reach debug t'
  | regular {t t' : Ty} : Reach debug t → makeRegular debug t = some t' → Reach debug t'
  | arrayView {t t' : Ty} : Reach debug t → makeArrayView t = some t' → Reach debug t'
  | matrixView {t t' : Ty} : Reach debug t → makeMatrixView t = some t' → Reach debug t'
  | diagonal {t t' : Ty} : Reach debug t → diagonal t = some t' → Reach debug t'
  | inverse {t t' : Ty} : Reach debug t → isArray debug t → inverse t = some t' → Reach debug t'

/-- Expressions whose parts can be taken: no array adapter, no number added to or subtracted from a matrix (or the other way round). -/
def Sliceable : Ty → Prop
  | .num => True
  | .void => False
  | .cont _ _ => True
  | .view _ _ => True
  | .adapter _ => False
  | .unary a => Sliceable a
  | .expr op l r => Sliceable l ∧ Sliceable r ∧ ((op = .add ∨ op = .sub) → (l.isNum = true → r.alg ≠ .M) ∧ (r.isNum = true → l.alg ≠ .M))
  | .call _ as => ∀ i, Sliceable (as i)

end Nda.Types
