import Verif.Model.IdxMap
import Verif.Spec.Index
import Verif.Spec.Perm
/-!
# What it means for a layout to be well formed, dense, and to keep its promises
-/
namespace Nda.Spec
open Nda

/-- Consistent array sizes, and the stride order lists every dimension once.  In the code
this is enforced by the types (`std::array<.., Rank>`, `decode<Rank>`). -/
structure WF (m : IdxMap) : Prop where
  perm : IsPerm m.so
  so_len : m.so.length = m.len.length
  str_len : m.str.length = m.len.length
  se_len : m.se.length = m.len.length

/-- The fastest stride (last in memory order) is `c`; no claim at rank 0. -/
def FastestIs (m : IdxMap) (c : Int) : Prop := ∀ u, m.so.getLast? = some u → m.str.getD u 0 = c

/-- Elements sit at a constant distance `c` from each other in memory order. -/
def EvenlySpaced (m : IdxMap) (c : Int) : Prop :=
  memOrder m.so m.str = (dense (memOrder m.so m.len)).map (c * ·)

/-- The promise "smallest stride is one" holds. -/
def SmallestOK (m : IdxMap) : Prop := m.prop.smallestOne = true → FastestIs m 1

/-- The compile-time promises of the layout type hold for the run-time strides. -/
structure FlagsOK (m : IdxMap) : Prop where
  smallest : SmallestOK m
  strided : m.prop.strided1d = true → ∃ c, EvenlySpaced m c

/-- A non-zero static extent is the run-time extent. -/
def StaticOK (m : IdxMap) : Prop := ∀ u, m.se.getD u 0 ≠ 0 → m.len.getD u 0 = ((m.se.getD u 0 : Nat) : Int)

/-- A dense layout: unit distance between consecutive elements in memory order. -/
def Dense (m : IdxMap) : Prop := EvenlySpaced m 1

/-- The offset of an index tuple according to lengths and strides only. -/
def offset (m : IdxMap) (idx : List Int) : Int := dot m.str idx

end Nda.Spec
