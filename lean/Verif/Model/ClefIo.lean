import Verif.Model.Clef
/-!
# Model of `c++/nda/clef/io.hpp`: printing of lazy expressions

`shw` is what `<<` writes for an object, `none` if its type has no `<<` (external); `load` gives the object behind a reference.  The outcome `none` is a program the compiler rejects or (for `dead`)
undefined behaviour.  A stream is the list of characters written.
-/
namespace Nda.Clef

variable {V L : Type}

/-- `placeholder<N>`, io.hpp:27-30, as decimal number. -/
def printPh (n : Nat) : List Char := '_' :: Nat.toDigits 10 n

/-- `variadic_print` on placeholders, io.hpp:37-43. -/
def printPhs : List Nat → List Char
  | [] => []
  | n :: ns => printPh n ++ (if ns.length > 0 then [',', ' '] else []) ++ printPhs ns

/-- `Tag::name()` of the tags derived from `tags::unary_op`, clef.hpp:273-293. -/
def unaryName : Tag → Option (List Char)
  | .unaryplus => some ['+']
  | .negate => some ['-']
  | .loginot => some ['!']
  | _ => none

/-- `Tag::name()` of the tags derived from `tags::binary_op`, clef.hpp:241-268. -/
def binaryName : Tag → Option (List Char)
  | .plus => some ['+']
  | .minus => some ['-']
  | .multiplies => some ['*']
  | .divides => some ['/']
  | .greater => some ['>']
  | .less => some ['<']
  | .leq => some ['<', '=']
  | .geq => some ['>', '=']
  | .eq => some ['=', '=']
  | _ => none

mutual
/-- `operator<<` for placeholders, references, nodes and functions, io.hpp:27-34, 63-113.  The first child of a call or subscript is not printed (the line that does is commented out, 80, 88).  Of the
two overloads for `negate` the one at 103-106 is more specialised; the overload at 98-101 for a subscript with one child is chosen for it and does not compile. -/
def print (shw : V → Option (List Char)) (load : L → Option V) : Tm V L → Option (List Char)
  | .val v => shw v
  | .bor v => shw v
  | .ref l => (load l).bind shw
  | .dead => none
  | .ph n => some (printPh n)
  | .node .function (_ :: as) => (printTuple shw load as).map (fun s => ['l', 'a', 'm', 'b', 'd', 'a', '('] ++ s ++ [')'])
  | .node .subscript (_ :: a :: as) => (printTuple shw load (a :: as)).map (fun s => ['l', 'a', 'm', 'b', 'd', 'a', '['] ++ s ++ [']'])
  | .node .terminal [x] => print shw load x
  | .node .ifElse [c, a, b] => (print shw load c).bind (fun c => (print shw load a).bind (fun a => (print shw load b).map (fun b =>
      ['('] ++ c ++ ['?'] ++ a ++ [' ', ':', ' '] ++ b ++ [')'])))
  | .node .negate [x] => (print shw load x).map (fun x => ['-', '('] ++ x ++ [')'])
  | .node t [x] => (unaryName t).bind (fun o => (print shw load x).map (fun x => ['('] ++ o ++ [' '] ++ x ++ [')']))
  | .node t [l, r] => (binaryName t).bind (fun o => (print shw load l).bind (fun l => (print shw load r).map (fun r =>
      ['('] ++ l ++ [' '] ++ o ++ [' '] ++ r ++ [')'])))
  | .node _ _ => none
  | .fn body is => (print shw load body).map (fun b => ['l', 'a', 'z', 'y', ' ', 'f', 'u', 'n', 'c', 't', 'i', 'o', 'n', ' ', ':', ' ', '('] ++ printPhs is ++ [')', ' ', '-', '-', '>', ' '] ++ b)
  | .sum body n dom => (print shw load body).bind (fun b => (print shw load dom).map (fun d =>
      ['l', 'a', 'm', 'b', 'd', 'a', '('] ++ (['l', 'a', 'z', 'y', ' ', 'f', 'u', 'n', 'c', 't', 'i', 'o', 'n', ' ', ':', ' ', '('] ++ printPhs [n] ++ [')', ' ', '-', '-', '>', ' '] ++ b) ++ [',', ' '] ++ d
        ++ [')']))
/-- `print_tuple_impl`, io.hpp:45-62. -/
def printTuple (shw : V → Option (List Char)) (load : L → Option V) : List (Tm V L) → Option (List Char)
  | [] => some []
  | c :: cs => (print shw load c).bind (fun s => (printTuple shw load cs).map (fun r => s ++ (if cs.length > 0 then [',', ' '] else []) ++ r))
end

end Nda.Clef
