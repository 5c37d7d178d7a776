import Verif.Model.Clef
/-!
# What lazy expressions mean

The ordinary meaning of an expression, with a value for every placeholder; the free and the bound placeholders.
-/
namespace Nda.Clef.Spec
open Nda.Clef

variable {V L : Type}

/-- Values of the placeholders. -/
abbrev Env (V : Type) := Nat → Option V

def put (env : Env V) (n : Nat) (v : V) : Env V := fun m => if m = n then some v else env m

/-- An ordinary operator. -/
def apply (I : Interp V L) (t : Tag) (vs : List V) : Option V :=
  match t, vs with
  | .terminal, [v] => some v
  | t, vs => I.op t vs

/-- `x0 + x1 + ...`, from the left; there is no empty sum. -/
def total (I : Interp V L) : List V → Option V
  | [] => none
  | x :: xs => xs.foldlM (fun s y => I.op .plus [s, y]) x

mutual
/-- The value of the expression as ordinary C++: operands, operator; `c ? a : b` evaluates one of `a`, `b` only, unless `strict`; a sum is the sum over all points of the domain. -/
def den (I : Interp V L) (strict : Bool) (env : Env V) : Tm V L → Option V
  | .val v => some v
  | .bor v => some v
  | .ref l => I.load l
  | .dead => none
  | .ph n => env n
  | .node .ifElse [c, a, b] =>
    if strict && ((den I strict env a).isNone || (den I strict env b).isNone) then none
    else (den I strict env c).bind (fun x => (I.truth x).bind (fun t => if t then den I strict env a else den I strict env b))
  | .node t cs => (dens I strict env cs).bind (apply I t)
  | .fn _ _ => none
  | .sum body n dom =>
    (den I strict env dom).bind (fun d => (I.points d).bind (fun pts => (pts.mapM (fun p => den I strict (put env n p) body)).bind (total I)))
def dens (I : Interp V L) (strict : Bool) (env : Env V) : List (Tm V L) → Option (List V)
  | [] => some []
  | c :: cs => (den I strict env c).bind (fun v => (dens I strict env cs).map (v :: ·))
end

mutual
/-- The free placeholders. -/
def fv : Tm V L → List Nat
  | .ph n => [n]
  | .node _ cs => fvs cs
  | .fn body is => (fv body).filter (· ∉ is)
  | .sum body n dom => (fv body).filter (· ≠ n) ++ fv dom
  | _ => []
def fvs : List (Tm V L) → List Nat
  | [] => []
  | c :: cs => fv c ++ fvs cs
end

mutual
/-- The bound placeholders: indices of sums, parameters of functions. -/
def bv : Tm V L → List Nat
  | .node _ cs => bvs cs
  | .fn body is => is ++ bv body
  | .sum body n dom => n :: (bv body ++ bv dom)
  | _ => []
def bvs : List (Tm V L) → List Nat
  | [] => []
  | c :: cs => bv c ++ bvs cs
end

mutual
/-- No placeholder is bound twice on a path from the root. -/
def Apart : Tm V L → Prop
  | .node _ cs => Aparts cs
  | .fn body is => (∀ i ∈ is, i ∉ bv body) ∧ Apart body
  | .sum body n dom => n ∉ bv body ∧ Apart body ∧ Apart dom
  | _ => True
def Aparts : List (Tm V L) → Prop
  | [] => True
  | c :: cs => Apart c ∧ Aparts cs
end

/-- The value of a pair. -/
def argVal (I : Interp V L) : Arg V L → Option V
  | .val v => some v
  | .ref l => I.load l

/-- The values with those of the pairs. -/
def withPairs (I : Interp V L) (env : Env V) : Pairs V L → Env V
  | [], m => env m
  | (n, a) :: ps, m => if m = n then argVal I a else withPairs I env ps m

/-- No placeholder is given twice. -/
def Distinct (ps : Pairs V L) : Prop := (ps.map (·.1)).Nodup

/-- Not lazy. -/
def IsLeaf : Tm V L → Prop
  | .val _ => True
  | .bor _ => True
  | .ref _ => True
  | .dead => True
  | _ => False

mutual
/-- All placeholders are among those given (`P`) and those bound around (`B`), no two binders are the same, and every sum depends on an enclosing index or else on exactly the placeholders given. -/
def Ready (P B : List Nat) : Tm V L → Prop
  | .ph n => n ∈ P ∨ n ∈ B
  | .node _ cs => Readys P B cs
  | .fn _ _ => False
  | .sum body n dom => n ∉ P ∧ n ∉ B ∧ (∀ m ∈ n :: (P ++ B), m < 64) ∧ IsLeaf dom ∧ ((∃ m ∈ B, m ∈ fv body) ∨ ∀ m, (m ∈ fv body ∧ m ≠ n) ↔ m ∈ P) ∧ Ready P (n :: B) body
  | _ => True
def Readys (P B : List Nat) : List (Tm V L) → Prop
  | [] => True
  | c :: cs => Ready P B c ∧ Readys P B cs
end

/-- A set of placeholders given in several stages becomes complete in one of them: all of that stage are needed, and none of a later one. -/
def Complete (Ps : List (List Nat)) (need : Nat → Prop) : Prop := ∃ Qs P Rs, Ps = Qs ++ P :: Rs ∧ ∀ m, (need m ∧ m ∉ Qs.flatten) ↔ m ∈ P

mutual
/-- All placeholders are among those given in the stages `Ps` and those bound around (`B`), no two binders are the same, and every sum depends on an enclosing index or else on all the placeholders of some stage and on
none of a later one. -/
def Staged (Ps : List (List Nat)) (B : List Nat) : Tm V L → Prop
  | .ph n => n ∈ Ps.flatten ∨ n ∈ B
  | .node _ cs => Stageds Ps B cs
  | .fn _ _ => False
  | .sum body n dom => n ∉ Ps.flatten ∧ n ∉ B ∧ (∀ m ∈ n :: (Ps.flatten ++ B), m < 64) ∧ IsLeaf dom ∧ ((∃ m ∈ B, m ∈ fv body) ∨ Complete Ps (fun m => m ∈ fv body ∧ m ≠ n)) ∧ Staged Ps (n :: B) body
  | _ => True
def Stageds (Ps : List (List Nat)) (B : List Nat) : List (Tm V L) → Prop
  | [] => True
  | c :: cs => Staged Ps B c ∧ Stageds Ps B cs
end

mutual
/-- No sums, no functions. -/
def Plain : Tm V L → Prop
  | .node _ cs => Plains cs
  | .fn _ _ => False
  | .sum _ _ _ => False
  | _ => True
def Plains : List (Tm V L) → Prop
  | [] => True
  | c :: cs => Plain c ∧ Plains cs
end

mutual
/-- Nothing in the tree refers to an object stored in another tree. -/
def Owned : Tm V L → Prop
  | .bor _ => False
  | .dead => False
  | .node _ cs => Owneds cs
  | .fn body _ => Owned body
  | .sum body _ dom => Owned body ∧ Owned dom
  | _ => True
def Owneds : List (Tm V L) → Prop
  | [] => True
  | c :: cs => Owned c ∧ Owneds cs
end

mutual
/-- The tree stores no objects: only references to objects outside, and placeholders. -/
def Outside : Tm V L → Prop
  | .ref _ => True
  | .ph _ => True
  | .node _ cs => Outsides cs
  | .fn body _ => Outside body
  | .sum body _ dom => Outside body ∧ Outside dom
  | _ => False
def Outsides : List (Tm V L) → Prop
  | [] => True
  | c :: cs => Outside c ∧ Outsides cs
end

/-- The tree of `sum(t, n0 = d0, n1 = d1, ...)`. -/
def chain : Tm V L → List (Nat × Tm V L) → Tm V L
  | t, [] => t
  | t, (n, d) :: l => chain (.sum t n d) l

end Nda.Clef.Spec
