import Verif.Spec.Clef
/-!
# What a reader sees of a lazy expression

The tree with the values of its leaves, without the functions that are called.
-/
namespace Nda.Clef.Spec
open Nda.Clef

variable {V L : Type}

inductive Skel (V : Type)
  | leaf (v : V)
  | ph (n : Nat)
  | un (t : Tag) (x : Skel V)
  | bin (t : Tag) (l r : Skel V)
  | cond (c a b : Skel V)
  /-- a call (`sub = false`) or subscript (`sub = true`) of something -/
  | call (sub : Bool) (as : List (Skel V))
  | lam (is : List Nat) (b : Skel V)

mutual
/-- The tree without callees; a terminal is its child, a reference is what it refers to.  Only trees whose nodes have the right number of children. -/
def skel (load : L → Option V) : Tm V L → Option (Skel V)
  | .val v => some (.leaf v)
  | .bor v => some (.leaf v)
  | .ref l => (load l).map .leaf
  | .dead => none
  | .ph n => some (.ph n)
  | .node .function (_ :: as) => (skels load as).map (.call false)
  | .node .subscript (_ :: a :: as) => (skels load (a :: as)).map (.call true)
  | .node .terminal [x] => skel load x
  | .node .ifElse [c, a, b] => (skel load c).bind (fun c => (skel load a).bind (fun a => (skel load b).map (.cond c a)))
  | .node t [x] => if t ∈ [Tag.unaryplus, .negate, .loginot] then (skel load x).map (.un t) else none
  | .node t [l, r] => if t ∈ [Tag.plus, .minus, .multiplies, .divides, .greater, .less, .leq, .geq, .eq] then (skel load l).bind (fun l => (skel load r).map (.bin t l)) else none
  | .node _ _ => none
  | .fn body is => (skel load body).map (.lam is)
  | .sum body n dom => (skel load body).bind (fun b => (skel load dom).map (fun d => .call false [.lam [n] b, d]))
def skels (load : L → Option V) : List (Tm V L) → Option (List (Skel V))
  | [] => some []
  | c :: cs => (skel load c).bind (fun k => (skels load cs).map (k :: ·))
end

mutual
/-- No calls, subscripts or sums: nothing hides behind `lambda`. -/
def Open : Tm V L → Prop
  | .node t cs => t ≠ .function ∧ t ≠ .subscript ∧ Opens cs
  | .fn body _ => Open body
  | .sum _ _ _ => False
  | _ => True
def Opens : List (Tm V L) → Prop
  | [] => True
  | c :: cs => Open c ∧ Opens cs
end

/-- A text that cannot be confused with the punctuation of expressions. -/
def Word (w : List Char) : Prop :=
  w ≠ [] ∧ (∀ c ∈ w, c ∉ [' ', ',', ')', ']', '?', '(', '[']) ∧ (∀ c, w.head? = some c → c ∉ ['_', '+', '!']) ∧ w ≠ ['l', 'a', 'z', 'y']

end Nda.Clef.Spec
