import Verif.Spec.Clef
import Verif.Model.ClefLazy
/-!
# What lazy expressions mean when placeholders are given expressions
-/
namespace Nda.Clef.Spec
open Nda.Clef

variable {V L : Type}

/-- The value of what is given to a placeholder: that of the expression, in the surrounding values. -/
def argValL (I : Interp V L) (env : Env V) : LArg V L → Option V
  | .plain a => argVal I a
  | .lazy t => den I false env t

/-- The values with those of the pairs, all given at once: the expressions are meant in `env`. -/
def withL (I : Interp V L) (env : Env V) : LPairs V L → Env V
  | [], m => env m
  | (n, a) :: ps, m => if m = n then argValL I env a else withL I env ps m

/-- Expressions given later stand for what they mean with the values given still later. -/
def withAll (I : Interp V L) (env : Env V) : List (LPairs V L) → Env V
  | [] => env
  | ps :: qs => withL I (withAll I env qs) ps

/-- The placeholders bound in what is given. -/
def bvArgs : LPairs V L → List Nat
  | [] => []
  | (_, a) :: ps => bv a.toTm ++ bvArgs ps

/-- No placeholder is given twice; those bound (`B`) are neither given nor used by what is given, and no placeholder is bound twice. -/
def Clean (B : List Nat) (ps : LPairs V L) : Prop :=
  (ps.map (·.1)).Nodup ∧ (∀ n ∈ B, n ∉ ps.map (·.1)) ∧ ∀ p ∈ ps, Apart p.2.toTm ∧ ∀ n ∈ B, n ∉ fv p.2.toTm ∧ n ∉ bv p.2.toTm

/-- Stage by stage; what is given at one stage can bind further placeholders. -/
def CleanAll (B : List Nat) : List (LPairs V L) → Prop
  | [] => True
  | ps :: qs => Clean B ps ∧ CleanAll (B ++ bvArgs ps) qs

mutual
/-- Only operators, calls and subscripts; calls and subscripts of objects that make expressions of lazy arguments. -/
def Straight (I : Interp V L) (K : Kinds V L) : Tm V L → Prop
  | .node .ifElse _ => False
  | .node .terminal cs => ∃ c, cs = [c] ∧ Straights I K cs
  | .node .function cs => (∃ h as v, cs = h :: as ∧ read I h = .ok v ∧ K.lazyCall v = true) ∧ Straights I K cs
  | .node .subscript cs => (∃ h as v, cs = h :: as ∧ read I h = .ok v ∧ K.lazyCall v = true) ∧ Straights I K cs
  | .node _ cs => Straights I K cs
  | .fn _ _ => False
  | .sum _ _ _ => False
  | _ => True
def Straights (I : Interp V L) (K : Kinds V L) : List (Tm V L) → Prop
  | [] => True
  | c :: cs => Straight I K c ∧ Straights I K cs
end

/-- The C++ type of an expression: what is stored by value or by reference (with the number of its type), placeholders with their numbers, nodes with the types of their children. -/
inductive ETy
  | value (k : Nat)
  | reference (k : Nat)
  | placeholder (n : Nat)
  | node (t : Tag) (cs : List ETy)
  | func (body : ETy) (is : List Nat)
  | sum (body : ETy) (n : Nat) (dom : ETy)

mutual
/-- What type an expression has; a dangling reference has none here. -/
def typeOf (K : Kinds V L) : Tm V L → Option ETy
  | .val v => some (.value (K.kind v))
  | .bor v => some (.reference (K.kind v))
  | .ref l => some (.reference (K.kindOf l))
  | .dead => none
  | .ph n => some (.placeholder n)
  | .node t cs => (typesOf K cs).map (.node t)
  | .fn b is => (typeOf K b).map (.func · is)
  | .sum b n d => (typeOf K b).bind fun x => (typeOf K d).map (.sum x n)
def typesOf (K : Kinds V L) : List (Tm V L) → Option (List ETy)
  | [] => some []
  | c :: cs => (typeOf K c).bind fun x => (typesOf K cs).map (x :: ·)
end

end Nda.Clef.Spec
