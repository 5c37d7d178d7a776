import Verif.Model.Slice
import Verif.Spec.Layout
/-!
# Specification of slicing, dimension by dimension
-/
namespace Nda.Spec
open Nda

/-- An ellipsis stands for `k` full ranges. -/
def expandArg (k : Nat) : Arg → List Arg
  | .ell => List.replicate k .all
  | a => [a]

/-- Replace the ellipsis by as many full ranges as dimensions are missing. -/
def expand (N : Nat) (args : List Arg) : List Arg :=
  args.flatMap (expandArg (N + 1 - args.length))

/-- An argument list fits an array of rank `N`: at most one ellipsis; one argument per
dimension, the ellipsis standing for any number of them (possibly none). -/
def Fits (N : Nat) (args : List Arg) : Prop :=
  (args.count .ell = 0 ∧ args.length = N) ∨ (args.count .ell = 1 ∧ args.length ≤ N + 1)

instance (N : Nat) (args : List Arg) : Decidable (Fits N args) := inferInstanceAs (Decidable (_ ∨ _))

/-- The end of a range in a dimension of extent `l`: -1 with a positive step means the end. -/
def stop (last step l : Int) : Int := if last = -1 ∧ 0 < step then l else last

/-- `n` is the number of values `first, first+step, ...` strictly before `stop` (in the
direction of the step). -/
def IsCount (first stop step n : Int) : Prop :=
  step ≠ 0 ∧ 0 ≤ n ∧ ∀ k, 0 ≤ k → (k < n ↔ if 0 < step then first + k * step < stop else stop < first + k * step)

/-- Coordinates in the parent array of element `p` of the slice (arguments without ellipsis). -/
def coords : List Arg → List Int → List Int
  | [], _ => []
  | .idx i :: as, p => i :: coords as p
  | .rng f _ st :: as, x :: p => (f + st * x) :: coords as p
  | _ :: as, x :: p => x :: coords as p
  | _ :: _, [] => []

/-- `ext` lists the extents of the slice: one per non-integer argument. -/
def SliceShape : List Arg → List Int → List Int → Prop
  | [], [], [] => True
  | .idx _ :: as, _ :: ls, es => SliceShape as ls es
  | .all :: as, l :: ls, e :: es => e = l ∧ SliceShape as ls es
  | .rng f la st :: as, l :: ls, e :: es => IsCount f (stop la st l) st e ∧ SliceShape as ls es
  | _, _, _ => False

/-- An argument selects only coordinates of a dimension of extent `l`. -/
def ArgInside (a : Arg) (l : Int) : Prop :=
  match a with
  | .idx i => 0 ≤ i ∧ i < l
  | .rng f la st => st ≠ 0 ∧ ∀ k n, IsCount f (stop la st l) st n → 0 ≤ k → k < n → 0 ≤ f + k * st ∧ f + k * st < l
  | _ => True

/-- Every argument (ellipsis expanded) selects only coordinates inside its dimension. -/
def Inside : List Arg → List Int → Prop
  | [], [] => True
  | a :: as, l :: ls => ArgInside a l ∧ Inside as ls
  | _, _ => False

end Nda.Spec

namespace Nda.Spec
open Nda

/-- Absolute strides, in memory order, of the dimensions of extent greater than one, with
those extents. -/
def bigDims (m : IdxMap) : List (Int × Int) :=
  (m.so.map (fun k => (((m.str.getD k 0).natAbs : Int), m.len.getD k 0))).filter (fun x => decide (1 < x.2))

/-- Every stride (slowest first, dimensions of extent > 1) exceeds the reach of the faster ones. -/
def Regular (m : IdxMap) : Prop := Nested ((bigDims m).map Prod.fst) ((bigDims m).map Prod.snd)

instance (m : IdxMap) : Decidable (Regular m) := decNested _ _

/-- The recorded memory order sorts the absolute strides (dimensions of extent > 1 only),
largest first. -/
def SortsStrides (m : IdxMap) : Prop := ((bigDims m).map Prod.fst).Pairwise (· ≥ ·)

end Nda.Spec
