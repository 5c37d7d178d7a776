/-!
# Specification vocabulary for permutations
-/
namespace Nda.Spec

/-- `p` lists every index `0..p.length-1` exactly once. -/
def IsPerm (p : List Nat) : Prop := p.Perm (List.range p.length)

instance (p : List Nat) : Decidable (IsPerm p) := inferInstanceAs (Decidable (List.Perm _ _))

end Nda.Spec
