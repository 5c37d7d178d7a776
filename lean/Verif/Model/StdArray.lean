import Verif.Model.Basic
/-!
# Model of `c++/nda/stdutil/array.hpp`: arithmetic, growing, shrinking and joining of `std::array`

A `std::array<T, R>` is a list of length `R`.  Every function is the loop of the code over its counter; a read or write outside an array gives `none` (undefined behaviour, or a compile-time error
when evaluated at compile time).  Sizes of results that are not natural numbers are compile-time errors (`none`).  Counters are unbounded: `R` is a compile-time constant below `2^31`.
-/
namespace Nda.StdArray
open Nda

variable {α β γ : Type}

/-- `res[i] = x`. -/
def wr (res : List α) (i : Nat) (x : α) : Option (List α) := if i < res.length then some (res.set i x) else none

/-- `for (int i = a; i < b; ++i) body(i)`. -/
def loop {σ : Type} (a b : Nat) (body : Nat → σ → Option σ) (s : σ) : Option σ := (List.range' a (b - a)).foldlM (fun s i => body i s) s

/-- `make_initialized_array<R>(v)`, stdutil/array.hpp:87-102. -/
def initialized (R : Nat) (v : α) : List α := (List.range R).map (fun i => if i ≠ 0 then v else v)

/-- `operator+`, stdutil/array.hpp:46-51; `junk` are the elements of the array that is not initialised. -/
def add [Add α] (junk a1 a2 : List α) : Option (List α) := loop 0 a1.length (fun i res => do wr res i ((← rd a1 i) + (← rd a2 i))) junk

/-- `operator-`, stdutil/array.hpp:53-58. -/
def sub [Sub α] (junk a1 a2 : List α) : Option (List α) := loop 0 a1.length (fun i res => do wr res i ((← rd a1 i) - (← rd a2 i))) junk

/-- `operator*` of two arrays, stdutil/array.hpp:60-65. -/
def mul [Mul α] (junk a1 a2 : List α) : Option (List α) := loop 0 a1.length (fun i res => do wr res i ((← rd a1 i) * (← rd a2 i))) junk

/-- Unary `operator-`, stdutil/array.hpp:67-72. -/
def neg [Neg α] (junk a : List α) : Option (List α) := loop 0 a.length (fun i res => do wr res i (-(← rd a i))) junk

/-- `operator*` with a scalar, stdutil/array.hpp:74-79. -/
def smul [Mul α] (s : α) (junk a : List α) : Option (List α) := loop 0 a.length (fun i res => do wr res i (s * (← rd a i))) junk

/-- `make_std_array<T>`, stdutil/array.hpp:110-116; `conv` is the conversion from `U` to `T`, `dflt` is `T{}`. -/
def makeStdArray (conv : β → α) (dflt : α) (a : List β) : Option (List α) := loop 0 a.length (fun u res => do wr res u (conv (← rd a u))) (initialized a.length dflt)

/-- `to_vector`, stdutil/array.hpp:123-128. -/
def toVector (dflt : α) (a : List α) : Option (List α) := loop 0 a.length (fun i v => do wr v i (← rd a i)) (List.replicate a.length dflt)

/-- `append`, stdutil/array.hpp:138-144. -/
def append (dflt : α) (a : List α) (x : α) : Option (List α) := do
  let res ← loop 0 a.length (fun i res => do wr res i (← rd a i)) (initialized (a.length + 1) dflt)
  wr res a.length x

/-- `front_append`, stdutil/array.hpp:154-160. -/
def frontAppend (dflt : α) (a : List α) (x : α) : Option (List α) := do
  let res ← wr (initialized (a.length + 1) dflt) 0 x
  loop 0 a.length (fun i res => do wr res (i + 1) (← rd a i)) res

/-- `R - N` as a size, for an `int` template argument `N`. -/
def less (R : Nat) (N : Int) : Option Nat := if N ≤ R then some (R - N).toNat else none

/-- `pop`, stdutil/array.hpp:168-173. -/
def pop (dflt : α) (a : List α) : Option (List α) := do
  let n ← less a.length 1
  loop 0 n (fun i res => do wr res i (← rd a i)) (initialized n dflt)

/-- `mpop<N>`, stdutil/array.hpp:181-187. -/
def mpop (N : Int) (dflt : α) (a : List α) : Option (List α) := do
  let n ← less a.length N
  loop 0 n (fun i res => do wr res i (← rd a i)) (initialized n dflt)

/-- `front_pop`, stdutil/array.hpp:195-200. -/
def frontPop (dflt : α) (a : List α) : Option (List α) := do
  let n ← less a.length 1
  loop 1 a.length (fun i res => do wr res (i - 1) (← rd a i)) (initialized n dflt)

/-- `front_mpop<N>`, stdutil/array.hpp:208-213.  For negative `N` the counter `i = N` is converted to an unsigned number and the loop does not run. -/
def frontMpop (N : Int) (dflt : α) (a : List α) : Option (List α) := do
  let n ← less a.length N
  if N < 0 then return initialized n dflt
  loop N.toNat a.length (fun i res => do wr res (i - N.toNat) (← rd a i)) (initialized n dflt)

/-- `join`, stdutil/array.hpp:222-228. -/
def join (dflt : α) (a1 a2 : List α) : Option (List α) := do
  let res ← loop 0 a1.length (fun i res => do wr res i (← rd a1 i)) (initialized (a1.length + a2.length) dflt)
  loop 0 a2.length (fun i res => do wr res (a1.length + i) (← rd a2 i)) res

/-- `sum`, stdutil/array.hpp:237-246; `dflt` is `T{}`. -/
def sum [Add α] (dflt : α) (a : List α) : Option α :=
  if a.length = 0 then some dflt
  else do
    let res ← rd a 0
    loop 1 a.length (fun i res => do return res + (← rd a i)) res

/-- `product`, stdutil/array.hpp:255-261: a compile-time error for an empty array. -/
def product [Mul α] (a : List α) : Option α :=
  if a.length = 0 then none
  else do
    let res ← rd a 0
    loop 1 a.length (fun i res => do return res * (← rd a i)) res

/-- `dot_product`, stdutil/array.hpp:272-281; `mul` is the product of `T` and `U` in their promoted type. -/
def dotProduct [Add γ] (mul : α → β → γ) (dflt : γ) (a1 : List α) (a2 : List β) : Option γ :=
  if a1.length = 0 then some dflt
  else do
    let res := mul (← rd a1 0) (← rd a2 0)
    loop 1 a1.length (fun i res => do return res + mul (← rd a1 i) (← rd a2 i)) res

end Nda.StdArray
