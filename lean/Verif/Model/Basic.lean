/-!
# Basic conventions of the model

`std::array<T, N>` and plain buffers are `List T`.  Reading or writing outside a
buffer is undefined behaviour in C++; here it is the distinct outcome `none`.
-/

namespace Nda

/-- `a[i]` on a `std::array` / raw buffer; out of range is undefined behaviour (`none`). -/
def rd {α : Type _} (l : List α) (i : Nat) : Option α := l[i]?

/-- `a[i] = x` on a `std::array` / raw buffer; out of range is undefined behaviour (`none`). -/
def wr {α : Type _} (l : List α) (i : Nat) (x : α) : Option (List α) :=
  if i < l.length then some (l.set i x) else none

/-- `a[i]` with a signed index; a negative or too large index is undefined behaviour. -/
def rdInt {α : Type _} (l : List α) (i : Int) : Option α :=
  if 0 ≤ i then l[i.toNat]? else none

/-- `a[i] = x` with a signed index. -/
def wrInt {α : Type _} (l : List α) (i : Int) (x : α) : Option (List α) :=
  if 0 ≤ i then wr l i.toNat x else none

/-- `stdutil::make_initialized_array<R, T>(v)`, c++/nda/stdutil/array.hpp:85-107. -/
def mkInit {α : Type _} (r : Nat) (v : α) : List α := List.replicate r v

end Nda
