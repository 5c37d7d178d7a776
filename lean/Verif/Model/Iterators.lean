import Verif.Model.LayoutTransforms
/-!
# Model of `c++/nda/iterators.hpp` and of `make_iterator`

A `grid_iterator` yields offsets (`operator*`); `array_iterator` (iterators.hpp:135-243) only adds
the data pointer, so that dereferencing reads `data[*iter]`.  All ranks are one inductive type.
-/
namespace Nda

/-- `grid_iterator<1>`, iterators.hpp:80-126 (`one`), and `grid_iterator<Rank>`, 30-75 (`more`, with
its members `it_begin`, `it_end`, `it`). -/
inductive Grid where
  | one (stri pos offset : Int)
  | more (stri pos offset : Int) (itBegin itEnd it : Grid)
deriving DecidableEq, Repr

namespace Grid

/-- The constructors, iterators.hpp:47-53 and 93.  Rank 0 does not exist. -/
def mk : List Int → List Int → Bool → Option Grid
  | [l], [s], atEnd =>
      let pos := if atEnd then l else 0
      some (.one s pos (pos * s))
  | l :: l' :: ls, s :: ss, atEnd => do
      let pos := if atEnd then l else 0
      let b ← mk (l' :: ls) ss false
      let e ← mk (l' :: ls) ss true
      return .more s pos (pos * s) b e b
  | _, _, _ => none

/-- `indices()`, iterators.hpp:55 and 95. -/
def indices : Grid → List Int
  | .one _ pos _ => [pos]
  | .more _ pos _ _ _ it => pos :: indices it

/-- `operator*`, iterators.hpp:57 and 97. -/
def deref : Grid → Int
  | .one _ _ off => off
  | .more _ _ off _ _ it => off + deref it

/-- `operator==`, iterators.hpp:60 and 100.  The code compares `other.it == it`, i.e. with the
arguments swapped at each level; the comparison is symmetric. -/
def eq : Grid → Grid → Bool
  | .one _ p _, .one _ p' _ => decide (p' = p)
  | .more _ p _ _ _ it, .more _ p' _ _ _ it' => decide (p' = p) && eq it it'
  | _, _ => false

/-- `operator++`, iterators.hpp:62-70 and 103-107. -/
def next : Grid → Grid
  | .one s p off => .one s (p + 1) (off + s)
  | .more s p off b e it =>
      let it' := next it
      if eq it' e then .more s (p + 1) (off + s) b e b else .more s p off b e it'

/-- `grid_iterator<1>::operator--`, iterators.hpp:109-113. -/
def prev : Grid → Option Grid
  | .one s p off => some (.one s (p - 1) (off - s))
  | _ => none

/-- `grid_iterator<1>::operator+=`, iterators.hpp:115-119. -/
def advance (n : Int) : Grid → Option Grid
  | .one s p off => some (.one s (p + n) (off + n * s))
  | _ => none

/-- `operator-` of two rank-1 iterators, iterators.hpp:123. -/
def diff : Grid → Grid → Option Int
  | .one _ p _, .one _ p' _ => some (p - p')
  | _, _ => none

/-- `operator<` of two rank-1 iterators, iterators.hpp:124. -/
def lt : Grid → Grid → Option Bool
  | .one _ p _, .one _ p' _ => some (decide (p < p'))
  | _, _ => none

/-- `for (auto it = b; it != e; ++it) body(*it)`, the loop behind a range-for; at most `fuel`
tests of the condition (`none`: not finished, or the body fails). -/
def rangeFor {σ : Type} (body : Int → σ → Option σ) (e : Grid) : Nat → Grid → σ → Option σ
  | 0, _, _ => none
  | fuel + 1, it, s => if eq it e then some s else do
      let s' ← body (deref it) s
      rangeFor body e fuel (next it) s'

end Grid

namespace IdxMap

/-- `make_iterator`, _impl_basic_array_view_common.hpp:250-262 (`begin` for `atEnd = false`, `end`
for `true`); `iterator_rank` is 1 for layouts that promise even spacing (line 240). -/
def makeIterator (m : IdxMap) (atEnd : Bool) : Option Grid :=
  if (if m.prop.strided1d then 1 else m.rank) = m.rank then
    if m.isStrideOrderC then Grid.mk m.len m.str atEnd
    else do
      let l ← Perm.apply m.so m.len
      let s ← Perm.apply m.so m.str
      Grid.mk l s atEnd
  else do
    let s ← m.minStride
    Grid.mk [m.size] [s] atEnd

end IdxMap
end Nda
