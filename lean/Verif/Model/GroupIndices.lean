import Verif.Model.LayoutTransforms
/-!
# Model of `c++/nda/group_indices.hpp`

Groups are lists of dimensions (`idx_group<i,j,...>`); compile-time errors are `none`.
-/
namespace Nda.GroupIndices
open Nda

/-- The counting loop of `is_partition_of_indices`, group_indices.hpp:45-51. -/
def countLoop (R : Nat) : List Int → List Nat → Option (List Nat)
  | [], c => some c
  | x :: xs, c => do
      if x < 0 then none
      else if x ≥ R then none
      else
        let k ← rdInt c x
        let c' ← wrInt c x (k + 1)
        countLoop R xs c'

/-- `is_partition_of_indices<R>`, group_indices.hpp:31-54: the sizes must add up to `R`
(throws otherwise), every index must occur once. -/
def isPartition (R : Nat) (grps : List (List Nat)) : Option Bool := do
  let tot := (grps.map List.length).sum
  if tot < R then none
  else if R < tot then none
  else
    let count ← countLoop R (grps.flatten.map Int.ofNat) (mkInit R 0)
    return decide (count = mkInit R 1)

/-- The lambda `min_mem_pos`, group_indices.hpp:79-92: minimum and maximum memory position of
the group; throws unless they span exactly the group. -/
def minMemPos (R : Nat) (memPos : List Nat) (grp : List Nat) : Option Nat := do
  let vs ← grp.mapM (fun k => rd memPos k)
  let M := vs.foldl (fun M v => if v > M then v else M) 0
  let m := vs.foldl (fun m v => if v < m then v else m) R
  if ((M : Int) - m + 1 = grp.length) then return m else none

/-- `stride_order_of_grouped_idx_map`, group_indices.hpp:61-110. -/
def groupedOrder (so : List Nat) (grps : List (List Nat)) : Option (List Nat) := do
  let memPos ← Perm.inverse so
  let mins ← grps.mapM (minMemPos so.length memPos)
  let out := mins.map (fun mu => mins.countP (fun mi => decide (mi < mu)))
  Perm.inverse out

/-- `total_len_of_a_grp`, group_indices.hpp:153-156. -/
def totalLen (m : IdxMap) (grp : List Nat) : Option Int := do
  let ls ← grp.mapM (fun u => rd m.len u)
  return ls.foldl (fun l x => l * x) 1

/-- `min_stride_of_a_grp`, group_indices.hpp:158-160: starts from the size of the array. -/
def minStrideOfGrp (m : IdxMap) (grp : List Nat) : Option Int := do
  let ss ← grp.mapM (fun u => rd m.str u)
  return ss.foldl (fun s x => min s x) m.size

/-- `group_indices_layout`, group_indices.hpp:142-171. -/
def groupLayout (m : IdxMap) (grps : List (List Nat)) : Option IdxMap := do
  if m.prop ≠ .contiguous then none
  else
    let ok ← isPartition m.rank grps
    if ok then
      let len ← grps.mapM (totalLen m)
      let str ← grps.mapM (minStrideOfGrp m)
      let so ← groupedOrder m.so grps
      return { len, str, so, se := List.replicate grps.length 0, prop := .contiguous }
    else none

/-- `group_indices_view`, layout_transforms.hpp:114-117. -/
def groupView (v : View) (grps : List (List Nat)) : Option View := do
  let lay ← groupLayout v.lay grps
  return { off := v.off, lay }

end Nda.GroupIndices
