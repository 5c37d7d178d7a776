/-!
# Text from which the elements can be read off
-/
namespace Nda.Print.Spec

variable {α : Type}

/-- Elements written by `shw` can be read back from text in which each of them is followed by `sep` or `stop`: the text determines
the first element and where it ends, and no element begins with `stop`. -/
structure Readable (sep stop : Char) (shw : α → List Char) : Prop where
  read : ∀ x y c d s t, (c = sep ∨ c = stop) → (d = sep ∨ d = stop) → shw x ++ c :: s = shw y ++ d :: t → x = y ∧ c :: s = d :: t
  begins : ∀ x, ∃ c s, shw x = c :: s ∧ c ≠ stop

end Nda.Print.Spec
