import Verif.Model.Iterators
import Verif.Model.Assign
/-!
# Model of `c++/nda/print.hpp` and of `to_string` in `c++/nda/stdutil/array.hpp`

A stream is the list of characters written so far; `shw` is what `<<` writes for an element (external).
-/
namespace Nda.Print
open Nda Loops

variable {α : Type}

/-- An array of rank 1, print.hpp:52-57. -/
def printVector (shw : α → List Char) (n : Int) (get : List Int → Option α) (out : List Char) : Option (List Char) := do
  let out ← forLoop n (fun i out => do
    let x ← get [i]
    return out ++ (if i > 0 then [','] else []) ++ shw x) (out ++ ['['])
  return out ++ [']']

/-- An array of rank 2, print.hpp:59-68. -/
def printMatrix (shw : α → List Char) (n0 n1 : Int) (get : List Int → Option α) (out : List Char) : Option (List Char) := do
  let out ← forLoop n0 (fun i out => do
    let out ← forLoop n1 (fun j out => do
      let x ← get [i, j]
      return out ++ (if j > 0 then [','] else []) ++ shw x) (out ++ (if i = 0 then ['['] else [' ', '[']))
    return out ++ [']'] ++ (if i = n0 - 1 then [] else ['\n'])) (out ++ ['\n', '['])
  return out ++ [']']

/-- An array of higher rank, print.hpp:71-78: a range-for over its elements, with at most `fuel` tests of the end. -/
def printFlat (shw : α → List Char) (v : View) (mem : List α) (fuel : Nat) (out : List Char) : Option (List Char) := do
  let b ← v.lay.makeIterator false
  let e ← v.lay.makeIterator true
  let (out, _) ← Grid.rangeFor (fun o (s : List Char × Bool) => do
    let x ← rdInt mem (v.off + o)
    return (s.1 ++ (if s.2 then [] else [',']) ++ shw x, false)) e fuel b (out ++ ['['], true)
  return out ++ [']']

/-- `operator<<(std::ostream &, A const &)`, print.hpp:47-81. -/
def print (shw : α → List Char) (v : View) (mem : List α) (fuel : Nat) (out : List Char) : Option (List Char) :=
  match v.lay.len with
  | [n] => printVector shw n (fun idx => Assign.load v idx mem) out
  | [n0, n1] => printMatrix shw n0 n1 (fun idx => Assign.load v idx mem) out
  | _ :: _ :: _ :: _ => printFlat shw v mem fuel out
  | [] => some out

/-- `to_string(std::array)`, stdutil/array.hpp:35-42. -/
def arrayToString (shw : α → List Char) (a : List α) : List Char :=
  (a.zipIdx.foldl (fun fs x => fs ++ (if x.2 = 0 then [] else [' ']) ++ shw x.1) ['(']) ++ [')']

/-- What a stream writes for an integer in the standard locale (external). -/
def decimal (n : Int) : List Char := (if n < 0 then ['-'] else []) ++ Nat.toDigits 10 n.natAbs

/-- What a stream writes for a complex number (external). -/
def complex (shw : α → List Char) (z : α × α) : List Char := ['('] ++ shw z.1 ++ [','] ++ shw z.2 ++ [')']

end Nda.Print
