import Verif.Model.Clef
/-!
# Model of `A(i_, j_) << expr` (clef.hpp:528-600, basic_functions.hpp:315-324) and `v[i_] << expr` (clef.hpp:602-660, clef/adapters/vector.hpp)

Ordinary values live in memory (`List V`); what the operators do may depend on it, so the interpretation is a function of the memory.  Errors (`none`) are not distinguished.  `ofIdx` is the conversion of an index to
a value; the loop variables are passed by reference in C++, here as the value they have at the call.
-/
namespace Nda.Clef
open Nda LayoutTransforms Loops Assign

variable {V L : Type}

/-- An array of ordinary objects, or an array of arrays (each somewhere in memory). -/
inductive Target
  | view (v : View)
  | arrs (len : List Int) (sub : List Int → Target)

/-- An ordinary object at an address, or a `std::vector`. -/
inductive VTarget
  | elem (k : Int)
  | vec (n : Nat) (sub : Int → VTarget)

/-- `clef::is_function`, clef.hpp:462-465. -/
def isFunction : Tm V L → Bool
  | .fn _ _ => true
  | _ => false

/-- `f(x...)`. -/
def callAt (I : Interp V L) (ofIdx : Int → V) (f : Tm V L) (idx : List Int) : Option (Tm V L) :=
  match call I f (idx.map (fun i => Arg.val (ofIdx i))) with
  | .ok t => some t
  | .error _ => none

def readO (I : Interp V L) (t : Tm V L) : Option V :=
  match read I t with
  | .ok v => some v
  | .error _ => none

/-- `clef_auto_assign(a, f)`, basic_functions.hpp:315-324.  (Assigning an ordinary value to every array of an array of arrays is not modelled.) -/
def autoAssign (I : List V → Interp V L) (ofIdx : Int → V) : Target → Tm V L → List V → Option (List V)
  | .view v, f, mem => forEach v.lay.len (fun idx mem => do
      let t ← callAt (I mem) ofIdx f idx
      if isFunction t then none
      else do
        let x ← readO (I mem) t
        store v idx x mem) mem
  | .arrs len sub, f, mem => forEach len (fun idx mem => do
      let t ← callAt (I mem) ofIdx f idx
      if isFunction t then autoAssign I ofIdx (sub idx) t mem
      else none) mem

/-- `clef_auto_assign_subscript(v, f)` and `clef_auto_assign__std_vector_impl`, clef/adapters/vector.hpp:22-35. -/
def autoAssignSubscript (I : List V → Interp V L) (ofIdx : Int → V) : VTarget → Tm V L → List V → Option (List V)
  | .elem k, t, mem => do
      let x ← readO (I mem) t
      wrInt mem k x
  | .vec n sub, f, mem => forLoop (n : Int) (fun i mem => do
      let t ← callAt (I mem) ofIdx f [i]
      autoAssignSubscript I ofIdx (sub i) t mem) mem

/-- `_all_different`, clef.hpp:563-566: the product of the differences with the first is not zero. -/
def allDifferent : List Nat → Bool
  | [] => false
  | i :: is => is.all (· ≠ i)

/-- The functions made for `A(i...)(j...)... << rhs`, clef.hpp:542-585, 616-655: a chain of calls is undone from the last to the first. -/
def chainFunction (I : Interp V L) : List (List Nat) → Tm V L → Option (Tm V L)
  | [], t => some t
  | is :: iss, t => do
      let f ← chainFunction I iss t
      if allDifferent is then
        match makeFunction I f is with
        | .ok g => some g
        | .error _ => none
      else none

/-- `A(i...)(j...)... << rhs`, clef.hpp:568-585. -/
def shiftAssign (I : List V → Interp V L) (ofIdx : Int → V) (a : Target) (iss : List (List Nat)) (rhs : Tm V L) (mem : List V) : Option (List V) := do
  let f ← chainFunction (I mem) iss rhs
  autoAssign I ofIdx a f mem

/-- `v[i][j]... << rhs`, clef.hpp:635-655. -/
def shiftAssignSubscript (I : List V → Interp V L) (ofIdx : Int → V) (a : VTarget) (is : List Nat) (rhs : Tm V L) (mem : List V) : Option (List V) := do
  let f ← chainFunction (I mem) (is.map ([·])) rhs
  autoAssignSubscript I ofIdx a f mem

end Nda.Clef
