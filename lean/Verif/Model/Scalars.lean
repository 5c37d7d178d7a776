import Verif.Model.IdxMap
/-!
# Model of the functions of single elements (`c++/nda/mapped_functions.hpp`, `c++/nda/stdutil/complex.hpp`)
-/
namespace Nda.Scalars

/-- An integral type: its width in bits, and whether it is signed.  Types narrower than `int` (32 bits) are promoted to `int`. -/
structure IntType where
  bits : Nat
  signed : Bool
deriving DecidableEq, Repr

/-- The values of the type. -/
def IntType.lo (t : IntType) : Int := if t.signed then -(2 ^ (t.bits - 1)) else 0
def IntType.hi (t : IntType) : Int := if t.signed then 2 ^ (t.bits - 1) - 1 else 2 ^ t.bits - 1

/-- Conversion to the type: modulo 2^bits (C++20). -/
def IntType.wrap (t : IntType) (x : Int) : Int := if t.signed then x.bmod (2 ^ t.bits) else x % 2 ^ t.bits

/-- `r *= x` for values of the type: narrower than `int`, the product is computed in `int` and converted back; signed and not narrower, overflow is undefined behaviour (`none`); unsigned and not
narrower, arithmetic is modulo 2^bits. -/
def IntType.mul (t : IntType) (r x : Int) : Option Int :=
  if t.bits < 32 then
    if -2147483648 ≤ r * x ∧ r * x ≤ 2147483647 then some (t.wrap (r * x)) else none
  else if t.signed then
    if t.lo ≤ r * x ∧ r * x ≤ t.hi then some (r * x) else none
  else some (t.wrap (r * x))

/-- `pow(T x, int n)`, mapped_functions.hpp:57-64. -/
def powInt (t : IntType) (x : Int) (n : Int) : Option Int := (List.range n.toNat).foldlM (fun r _ => t.mul r x) 1

/-- A complex number. -/
structure Cplx (R : Type) where
  re : R
  im : R
deriving DecidableEq, Repr

variable {R : Type}

namespace Cplx
variable [Add R] [Sub R] [Mul R] [Neg R]

/-- `std::conj`, called by `conj(T)`, mapped_functions.hpp:36-45. -/
def conj (z : Cplx R) : Cplx R := ⟨z.re, -z.im⟩

/-- `std::real`, called by `real(T)`, mapped_functions.hpp:25-34. -/
def real (z : Cplx R) : R := z.re

/-- Product of complex numbers. -/
def mul (z w : Cplx R) : Cplx R := ⟨z.re * w.re - z.im * w.im, z.re * w.im + z.im * w.re⟩
def add (z w : Cplx R) : Cplx R := ⟨z.re + w.re, z.im + w.im⟩
def sub (z w : Cplx R) : Cplx R := ⟨z.re - w.re, z.im - w.im⟩

/-- `abs2(std::complex<double>)`, mapped_functions.hpp:51. -/
def abs2 (z : Cplx R) : R := (mul (conj z) z).real

end Cplx

/-- `abs2(double)`, mapped_functions.hpp:48. -/
def abs2Real [Mul R] (x : R) : R := x * x

/-- The operators of mixed types, complex.hpp:30-56: both operands are converted to the complex type of the common type `C`, `ct` and `cu` convert the parts. -/
def mixed {T U C : Type} [Zero C] (op : Cplx C → Cplx C → Cplx C) (ct : T → C) (cu : U → C) (x : Cplx T) (y : U) : Cplx C := op ⟨ct x.re, ct x.im⟩ ⟨cu y, 0⟩
def mixedL {T U C : Type} [Zero C] (op : Cplx C → Cplx C → Cplx C) (ct : T → C) (cu : U → C) (x : T) (y : Cplx U) : Cplx C := op ⟨ct x, 0⟩ ⟨cu y.re, cu y.im⟩
def mixedC {T U C : Type} (op : Cplx C → Cplx C → Cplx C) (ct : T → C) (cu : U → C) (x : Cplx T) (y : Cplx U) : Cplx C := op ⟨ct x.re, ct x.im⟩ ⟨cu y.re, cu y.im⟩

end Nda.Scalars
