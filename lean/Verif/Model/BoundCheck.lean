import Verif.Model.LayoutTransforms
/-!
# Model of `c++/nda/layout/bound_check_worker.hpp`
-/
namespace Nda.BoundCheck
open Nda

/-- `error_code += 1ul << N`, bound_check_worker.hpp:34,43: `error_code` is a 32-bit unsigned. -/
def addBit (err : Nat) (n : Int) : Nat := (err + 2 ^ n.toNat) % 2 ^ 32

/-- `bound_check_worker::f`, bound_check_worker.hpp:33-47, folded over the arguments (59).
State: dimension counter `N`, error code.  Reading `lengths[N]` outside the array is
undefined (`none`), and so is the size of a range with step 0 (external). -/
def worker (lens : List Int) (loss : Int) : List Arg → Int → Nat → Option Nat
  | [], _, err => some err
  | .idx key :: as, N, err => do
      let l ← rdInt lens N
      worker lens loss as (N + 1) (if key < 0 ∨ key ≥ l then addBit err N else err)
  | .all :: as, N, err => worker lens loss as (N + 1) err
  | .rng first last step :: as, N, err => do
      let sz ← rangeSize first last step
      if sz > 0 then do
        let l ← rdInt lens N
        let lastIdx := first + (sz - 1) * step
        worker lens loss as (N + 1) (if first < 0 ∨ first ≥ l ∨ lastIdx < 0 ∨ lastIdx ≥ l then addBit err N else err)
      else worker lens loss as (N + 1) err
  | .ell :: as, N, err => worker lens loss as (N + loss + 1) err

/-- `assert_in_bounds`, bound_check_worker.hpp:55-67: `some true` = returns, `some false` =
throws.  The composition of the error message (49-53, 61-66) is not modelled. -/
def assertInBounds (lens : List Int) (args : List Arg) : Option Bool := do
  let err ← worker lens ((lens.length : Int) - args.length) args 0 0
  return decide (err = 0)

/-- Slicing with bounds checking on (slice_static.hpp:234-236): `some none` = throws. -/
def checkedSlice (m : IdxMap) (args : List Arg) : Option (Option (Int × IdxMap)) := do
  let ok ← assertInBounds m.len args
  if ok then (Slice.slice m args).map some else return none

/-- The argument of the call operator seen by the bounds check. -/
def toArg : IdxMap.CArg → Arg
  | .idx i => .idx i
  | .ell => .ell

/-- Element access with bounds checking on (idx_map.hpp:374-383): `some none` = throws. -/
def checkedCall (m : IdxMap) (args : List IdxMap.CArg) : Option (Option Int) := do
  let ok ← assertInBounds m.len (args.map toArg)
  if ok then (m.call args).map some else return none

end Nda.BoundCheck
