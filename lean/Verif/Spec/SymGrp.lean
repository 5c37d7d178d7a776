import Verif.Spec.Index
import Verif.Model.SymGrp
/-!
# Symmetries as relations between indices
-/
namespace Nda.SymGrp
open Nda Nda.Spec

/-- `j` is reached from `i` by a chain of symmetries (inside or outside of the array); on the way the operation `o` becomes `p`: the product of the
operations along the chain, later ones to the left. -/
inductive Reach (syms : List Sym) (i : List Int) (o : Oper) : List Int → Oper → Prop
  | start : Reach syms i o i o
  | step {j : List Int} {p : Oper} (s : Sym) : Reach syms i o j p → s ∈ syms →
      Reach syms i o (s j).1 ⟨xor (s j).2.sgn p.sgn, xor (s j).2.cc p.cc⟩

/-- The symmetries keep the number of indices (in C++ the type `std::array<long, Rank>` sees to it). -/
def KeepRank (n : Nat) (syms : List Sym) : Prop := ∀ s ∈ syms, ∀ i : List Int, i.length = n → (s i).1.length = n

end Nda.SymGrp
