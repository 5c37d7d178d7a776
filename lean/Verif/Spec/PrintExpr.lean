import Verif.Model.Arithmetic
import Verif.Lemmas.Assign
/-!
# Expressions that are to be told apart by their text
-/
namespace Nda.Print.Spec
open Nda Nda.Spec Arith Assign

variable {α : Type}

/-- The same operators applied to the same scalars and to arrays of the same shape with the same elements; functions of elements are
only known to be there, and of adapters only the shape. -/
inductive SameExpr (mem mem' : List α) : Expr α → Expr α → Prop
  | arr (a b : Alg) (v w : View) (hl : w.lay.len = v.lay.len)
      (hx : ∀ idx, InRange v.lay.len idx → val mem (addr v idx) = val mem' (addr w idx)) : SameExpr mem mem' (.arr a v) (.arr b w)
  | fn (a b : Alg) (len : List Int) (f g : List Int → α) : SameExpr mem mem' (.fn a len f) (.fn b len g)
  | neg (e e' : Expr α) (h : SameExpr mem mem' e e') : SameExpr mem mem' (.neg e) (.neg e')
  | bin (op : BOp) (l r l' r' : Expr α) (hl : SameExpr mem mem' l l') (hr : SameExpr mem mem' r r') : SameExpr mem mem' (.bin op l r) (.bin op l' r')
  | scalL (op : BOp) (s : α) (r r' : Expr α) (hr : SameExpr mem mem' r r') : SameExpr mem mem' (.scalL op s r) (.scalL op s r')
  | scalR (op : BOp) (l l' : Expr α) (s : α) (hl : SameExpr mem mem' l l') : SameExpr mem mem' (.scalR op l s) (.scalR op l' s)
  | call (n m : Nat) (f : (Fin (n + 1) → α) → α) (g : (Fin (m + 1) → α) → α) (es : Fin (n + 1) → Expr α) (es' : Fin (m + 1) → Expr α) :
      SameExpr mem mem' (.call n f es) (.call m g es')

/-- The arrays of the expression lie in memory, and are vectors, or matrices with at least one row. -/
def Legible (mem : List α) : Expr α → Prop
  | .arr _ v => Good v mem.length ∧ ((∃ n, v.lay.len = [n]) ∨ ∃ n m, v.lay.len = [n, m] ∧ 0 < n)
  | .fn _ _ _ => True
  | .neg e => Legible mem e
  | .bin _ l r => Legible mem l ∧ Legible mem r
  | .scalL _ _ r => Legible mem r
  | .scalR _ l _ => Legible mem l
  | .call _ _ _ => True

/-- Text that begins like a number: with a character that no array begins with, or with a minus sign followed by such a character. -/
def Number (s : List Char) : Prop :=
  ∃ c t, s = c :: t ∧ c ∉ ['(', '[', '\n', 'm', 'a'] ∧ (c = '-' → ∃ d u, t = d :: u ∧ d ∉ ['(', '[', '\n', 'm', 'a', '-'])

/-- The scalars are written as numbers, or all as pairs of numbers. -/
def Numeric (shw : α → List Char) : Prop := (∀ x, Number (shw x)) ∨ ∀ x, ∃ t, shw x = '(' :: t ∧ Number t

end Nda.Print.Spec
