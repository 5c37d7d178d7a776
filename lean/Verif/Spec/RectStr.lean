import Verif.Model.RectStr
import Verif.Spec.Slice
import Verif.Spec.Views
/-!
# Specification of arrays indexed by strings
-/
namespace Nda.Spec
open Nda RectStr

/-- The labels of the layout: the given ones, or else "0", "1", ... in every dimension. -/
def HasLabels (r : RectStr) (L : List (List String)) : Prop :=
  r.ind = some L ∨ (r.ind = none ∧ L = r.lay.len.map (fun l => (List.range l.toNat).map Nat.repr))

/-- One label for every index of every dimension, different within a dimension. -/
def Labelling (L : List (List String)) (lens : List Int) : Prop :=
  L.map (fun ls => (ls.length : Int)) = lens ∧ ∀ ls ∈ L, ls.Nodup

/-- The labels at index tuple `x`. -/
def labelAt (L : List (List String)) (x : List Int) : List (Option String) :=
  List.zipWith (fun ls i => ls[i.toNat]?) L x

/-- `names` are the labels of the element at `x`. -/
def NamesAt (L : List (List String)) (x : List Int) (names : List String) : Prop := labelAt L x = names.map some

/-- `i` is the first position of `s` in `ls`. -/
def FirstAt (ls : List String) (s : String) (i : Int) : Prop :=
  0 ≤ i ∧ ls[i.toNat]? = some s ∧ ∀ j, j < i.toNat → ls[j]? ≠ some s

/-- `X` are the arguments with every string replaced by its (first) position in its dimension. -/
def Resolves : List (List String) → List SArg → List Arg → Prop
  | _, [], X => X = []
  | ls :: L, .str s :: as, .idx i :: X => FirstAt ls s i ∧ Resolves L as X
  | _ :: L, .arg a :: as, b :: X => b = a ∧ Resolves L as X
  | _, _, _ => False

/-- An ellipsis that stands for one dimension is a full range. -/
def plain : Arg → Arg
  | .ell => .all
  | a => a

/-- The entries of the dimensions that survive the slice. -/
def keep {β : Type} : List Arg → List β → List β
  | .idx _ :: as, _ :: l => keep as l
  | _ :: as, x :: l => x :: keep as l
  | _, _ => []

/-- The arguments of a slice with names put in the place of the ranges. -/
def fill : List SArg → List String → List SArg
  | .str s :: as, ns => .str s :: fill as ns
  | .arg (.idx i) :: as, ns => .arg (.idx i) :: fill as ns
  | .arg _ :: as, n :: ns => .str n :: fill as ns
  | _, _ => []

/-- Every slice of the chain has as many arguments as dimensions: an ellipsis, if any, stands for one dimension. -/
def OneEach : Nat → List LayoutTransforms.Op → Prop
  | _, [] => True
  | N, .slice args :: os => args.length = N ∧ OneEach (rankAfter N (.slice args)) os
  | N, .permute p :: os => OneEach (rankAfter N (.permute p)) os
  | _, .addFast _ :: _ => False

/-- `l'` are the labels `l` followed through the operations: a slice drops those of the dimensions that disappear, a
permutation puts the label of dimension `u` at `p[u]`. -/
def Follows : List LayoutTransforms.Op → List (Option String) → List (Option String) → Prop
  | [], l, l' => l' = l
  | .slice args :: os, l, l' => Follows os (keep args l) l'
  | .permute p :: os, l, l' => ∃ l1, p.map (fun k => l1.getD k none) = l ∧ l1.length = l.length ∧ Follows os l1 l'
  | .addFast _ :: _, _, _ => False

end Nda.Spec
