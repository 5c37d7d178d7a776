import Verif.Model.Assign
import Verif.Model.Arrays
/-!
# Model of `c++/nda/sym_grp.hpp`

Symmetries and initial-value functions are pure functions.  A `std::span` of a class is its first position and its size in `data`.
-/
namespace Nda.SymGrp
open Nda LayoutTransforms Assign Loops

/-- `operation`, sym_grp.hpp:26-31. -/
structure Oper where
  sgn : Bool
  cc : Bool
deriving DecidableEq, Repr

/-- The default operation (no sign, no conjugation), sym_grp.hpp:28-29. -/
def Oper.one : Oper := ⟨false, false⟩

/-- `operation::operator*`, sym_grp.hpp:32. -/
def Oper.mul (a b : Oper) : Oper := ⟨xor a.sgn b.sgn, xor a.cc b.cc⟩

/-- `operation::operator()`, sym_grp.hpp:34-38; negation and `conj` are those of the value type. -/
def Oper.ap {α : Type} (neg conj : α → α) (o : Oper) (x : α) : α :=
  if o.sgn then (if o.cc then neg (conj x) else neg x) else if o.cc then conj x else x

/-- A symmetry (concept `NdaSymmetry`, sym_grp.hpp:57-62): from an index to an index and an operation. -/
abbrev Sym := List Int → List Int × Oper

/-- `is_valid`, sym_grp.hpp:41-49 (the index is a `std::array` of as many entries as the rank). -/
def isValid (len idx : List Int) : Bool :=
  (List.range len.length).all (fun i => decide (0 ≤ idx.getD i 0) && decide (idx.getD i 0 < len.getD i 0))

/-- The array `checked` and the vector `data` during construction. -/
structure St where
  checked : List Bool
  data : List (Int × Oper)
deriving DecidableEq, Repr

/-- `data.emplace_back`.  `data` must not grow beyond the reserved capacity `cap`: a reallocation would invalidate the spans (and `class_start`). -/
def emplace (cap : Nat) (data : List (Int × Oper)) (x : Int × Oper) : Option (List (Int × Oper)) :=
  if data.length < cap then some (data ++ [x]) else none

/-- Marking an index as checked and adding it to `data`, sym_grp.hpp:204-208 and 235-238. -/
def add (m : IdxMap) (cap : Nat) (idx : List Int) (op : Oper) (s : St) : Option St := do
  let checked ← store ⟨0, m⟩ idx true s.checked
  let k ← m.call (idx.map .idx)
  let data ← emplace cap s.data (k, op)
  return ⟨checked, data⟩

/-- The loop body of `iterate`, sym_grp.hpp:227-247; `rec` is the recursive call.  The loop state is `segment_length`, `excursion_length` (which the body
increments) and the members `checked` and `data`. -/
def visit (m : IdxMap) (cap : Nat) (maxLen : Int) (rec : List Int → Oper → Int → St → Option (Int × St)) (idx : List Int) (op : Oper)
    (acc : Int × Int × St) (sym : Sym) : Option (Int × Int × St) := do
  let idxp := (sym idx).1
  let opp := (sym idx).2.mul op
  if isValid m.len idxp then
    let c ← load ⟨0, m⟩ idxp acc.2.2.checked
    if c then return acc
    else
      let s ← add m cap idxp opp acc.2.2
      let r ← rec idxp opp 0 s
      return (acc.1 + (r.1 + 1), acc.2.1, r.2)
  else if acc.2.1 < maxLen then
    let r ← rec idxp opp (acc.2.1 + 1) acc.2.2
    return (acc.1 + r.1, acc.2.1 + 1, r.2)
  else return acc

/-- `iterate`, sym_grp.hpp:221-253; `fuel` bounds the recursion depth (`none`: not enough). -/
def iterate (m : IdxMap) (cap : Nat) (syms : List Sym) (maxLen : Int) : Nat → List Int → Oper → Int → St → Option (Int × St)
  | 0, _, _, _, _ => none
  | fuel + 1, idx, op, exc, s => do
      let r ← syms.foldlM (visit m cap maxLen (iterate m cap syms maxLen fuel) idx op) (0, exc, s)
      return (r.1, r.2.2)

/-- The body of the loop over all indices in the constructor, sym_grp.hpp:203-216.  State: `checked`, `data` and `sym_classes`. -/
def startClass (m : IdxMap) (cap : Nat) (syms : List Sym) (maxLen : Int) (fuel : Nat) (idx : List Int) (g : St × List (Nat × Int)) :
    Option (St × List (Nat × Int)) := do
  let c ← load ⟨0, m⟩ idx g.1.checked
  if c then return g
  else
    let s ← add m cap idx .one g.1
    let r ← iterate m cap syms maxLen fuel idx .one 0 s
    return (r.2, g.2 ++ [(g.1.data.length, r.1 + 1)])

/-- The constructor, sym_grp.hpp:194-217: `checked` is a new array in C order, filled with `false` (its scalar assignment is C18). -/
def build (len : List Int) (syms : List Sym) (maxLen : Int) (fuel : Nat) : Option (St × List (Nat × Int)) := do
  let m ← Arr.layoutOf (Perm.identity len.length) len
  forEach len (startClass m m.size.toNat syms maxLen fuel) (⟨List.replicate m.size.toNat false, []⟩, [])

/-- The elements of a `std::span` (start and size). -/
def span (data : List (Int × Oper)) (c : Nat × Int) : List (Int × Oper) := (data.drop c.1).take c.2.toNat

/-- `get_sym_classes`, sym_grp.hpp:99. -/
def classes (g : St × List (Nat × Int)) : List (List (Int × Oper)) := g.2.map (span g.1.data)

variable {α : Type}

/-- The body of the loop over the classes in `init`, sym_grp.hpp:126-131 and 137-142. -/
def initClass (neg conj : α → α) (x : View) (f : List Int → α) (mem : List α) (cls : List (Int × Oper)) : Option (List α) := do
  let r ← rd cls 0
  let idx ← x.lay.toIdx r.1
  let ref := f idx
  let mem ← store x idx ref mem
  cls.foldlM (fun mem (p : Int × Oper) => do
    let i ← x.lay.toIdx p.1
    store x i (p.2.ap neg conj ref) mem) mem

/-- The serial `init`, sym_grp.hpp:136-142. -/
def init (neg conj : α → α) (cls : List (List (Int × Oper))) (x : View) (f : List Int → α) (mem : List α) : Option (List α) :=
  cls.foldlM (initClass neg conj x f) mem

/-- The first loop of `symmetrize` over a class, sym_grp.hpp:161-163: the sum of the operations applied to the members. -/
def classSum [Add α] [Zero α] (neg conj : α → α) (x : View) (mem : List α) (cls : List (Int × Oper)) : Option α :=
  cls.foldlM (fun acc (p : Int × Oper) => do
    let i ← x.lay.toIdx p.1
    let v ← load x i mem
    return acc + p.2.ap neg conj v) 0

/-- The body of the second loop of `symmetrize`, sym_grp.hpp:167-179.  State: memory, `max_diff`, `max_idx`; `abs` is `std::abs` of a value. -/
def symWrite [Sub α] {β : Type} [LT β] [DecidableLT β] (neg conj : α → α) (abs : α → β) (x : View) (ref : α) (s : List α × β × List Int) (p : Int × Oper) :
    Option (List α × β × List Int) := do
  let mapped := p.2.ap neg conj ref
  let i ← x.lay.toIdx p.1
  let current ← load x i s.1
  let diff := abs (mapped - current)
  let mem ← store x i mapped s.1
  if s.2.1 < diff then return (mem, diff, i) else return (mem, s.2.1, s.2.2)

/-- `symmetrize`, sym_grp.hpp:153-184; `divn` divides a value by the size of a class. -/
def symmetrize [Add α] [Zero α] [Sub α] {β : Type} [LT β] [DecidableLT β] [Zero β] (neg conj : α → α) (divn : α → Nat → α) (abs : α → β) (cls : List (List (Int × Oper)))
    (x : View) (mem : List α) : Option (List α × β × List Int) :=
  cls.foldlM (fun (s : List α × β × List Int) c => do
    let sum ← classSum neg conj x s.1 c
    c.foldlM (symWrite neg conj abs x (divn sum c.length)) s) (mem, 0, List.replicate x.lay.len.length 0)

end Nda.SymGrp
