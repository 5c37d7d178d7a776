/-!
# Model of `c++/nda/exceptions.hpp`: the text of `nda::runtime_error`

A `std::stringstream` is its buffer and the position of the next character written; `std::stringstream(s)` starts with buffer `s` and position 0 (no `std::ios::ate`).  What `<<` writes for a value is
a text given by the caller (external).  Memory for the text is not modelled.
-/
namespace Nda.Messages

/-- `std::stringstream`, as far as used. -/
structure Stream where
  buf : List Char
  pos : Nat
deriving DecidableEq, Repr

/-- `acc << text`: overwrites from the position on, then extends. -/
def Stream.put (s : Stream) (t : List Char) : Stream := ⟨s.buf.take s.pos ++ t ++ s.buf.drop (s.pos + t.length), s.pos + t.length⟩

/-- `runtime_error() noexcept`, exceptions.hpp:40. -/
def fresh : Stream := ⟨[], 0⟩

/-- `runtime_error(runtime_error const &e)`, exceptions.hpp:42: `acc(e.acc.str())`. -/
def copy (e : Stream) : Stream := ⟨e.buf, 0⟩

/-- `.. Error occurred on node`, exceptions.hpp:59. -/
def trailer : List Char := "\n.. Error occurred on node ".toList

/-- `what()`, exceptions.hpp:57-64. -/
def what (e : Stream) : List Char := e.buf ++ trailer

/-- What programs do with exception objects; they are numbered in the order of creation. -/
inductive Op where
  | new
  /-- `e << x`, exceptions.hpp:46-55 -/
  | put (i : Nat) (t : List Char)
  /-- a copy: thrown, caught by value, or rethrown with `throw e` -/
  | copy (i : Nat)
deriving Repr

/-- One operation; objects that do not exist are not used. -/
def step (es : List Stream) : Op → List Stream
  | .new => es ++ [fresh]
  | .put i t => match es[i]? with
    | some e => es.set i (e.put t)
    | none => es
  | .copy i => match es[i]? with
    | some e => es ++ [Messages.copy e]
    | none => es

/-- A program. -/
def run (es : List Stream) (ops : List Op) : List Stream := ops.foldl step es

/-- `NDA_RUNTIME_ERROR << parts...`, exceptions.hpp:25: a temporary, written to, then copied into the exception object by `throw`. -/
def thrown (file line : List Char) (parts : List (List Char)) : Stream :=
  copy (parts.foldl Stream.put (((((fresh.put "Error at ".toList).put file).put " : ".toList).put line).put "\n\n".toList))

/-- `NDA_ASSERT2(X, ...)`, exceptions.hpp:29-30, with `NDA_ASSERT(X)` (27-28) for no further parts; `none`: nothing is thrown. -/
def assert2 (x : Bool) (file line text : List Char) (parts : Option (List (List Char))) : Option Stream :=
  if !x then some (thrown file line (text :: (match parts with | some ps => "\n ".toList :: ps | none => [])))
  else none

end Nda.Messages
