import Verif.Model.Programs
import Mathlib.Data.Fin.Tuple.Basic
/-!
# Several threads that work on arrays in the same memory

The library starts no threads on arrays (but for `symmetry_group`, Model/SymPar): the user does, with views of the same arrays in several threads.  Here the assignments of
`_impl_basic_array_view_common.hpp` are modelled a second time as sequences of single loads and stores, with the loops of Model/Loops, Model/Iterators and Model/Assign.  The loops are
the same functions: their state is not the memory but the code that has been generated so far.
-/
namespace Nda.Threads
open Nda LayoutTransforms Assign Arith Loops Programs

variable {α : Type}

/-- What a thread still has to do: loads and stores of elements in memory, one by one; `fail` is undefined behaviour (or code that does not compile). -/
inductive Act (α : Type) where
  | done
  | fail
  | read (k : Int) (c : α → Act α)
  | write (k : Int) (x : α) (c : Act α)

/-- A piece of code: what comes before the rest. -/
abbrev Code (α : Type) := Act α → Act α

/-- `a(args...)` for an array or view: the address, then the load. -/
def loadAct (v : View) (idx : List Int) (c : α → Act α) : Act α :=
  match element v (idx.map .idx) with
  | some k => .read k c
  | none => .fail

/-- The arguments of a function one after another (the order is not specified in C++; here the first comes first). -/
def collect : (n : Nat) → (Fin n → (α → Act α) → Act α) → ((Fin n → α) → Act α) → Act α
  | 0, _, c => c Fin.elim0
  | n + 1, es, c => es 0 (fun x => collect n (fun i => es i.succ) (fun xs => c (Fin.cons x xs)))

section
variable [Add α] [Sub α] [Mul α] [Div α] [Neg α]

/-- `operator()(args...)` of expressions: arithmetic.hpp:36-39, 101-153; map.hpp:54-62 (as `Expr.get`); `c` gets the value. -/
def exprAct : Expr α → List Int → (α → Act α) → Act α
  | .arr _ v, idx, c => loadAct v idx c
  | .fn _ _ f, idx, c => c (f idx)
  | .neg e, idx, c => exprAct e idx (fun x => c (-x))
  | .bin op l r, idx, c =>
      if (op = .mul ∨ op = .div) ∧ l.alg = .M then .fail
      else exprAct l idx (fun x => exprAct r idx (fun y => c (op.ap x y)))
  | .scalL op s r, idx, c =>
      match op with
      | .add =>
          if r.alg = .M then
            match equalTo idx with
            | none => .fail
            | some true => exprAct r idx (fun y => c (s + y))
            | some false => exprAct r idx c
          else exprAct r idx (fun y => c (s + y))
      | .sub =>
          if r.alg = .M then
            match equalTo idx with
            | none => .fail
            | some true => exprAct r idx (fun y => c (s - y))
            | some false => exprAct r idx (fun y => c (-y))
          else exprAct r idx (fun y => c (s - y))
      | .mul => exprAct r idx (fun y => c (s * y))
      | .div => if r.alg = .M then .fail else exprAct r idx (fun y => c (s / y))
  | .scalR op l s, idx, c =>
      match op with
      | .add =>
          if l.alg = .M then
            match equalTo idx with
            | none => .fail
            | some true => exprAct l idx (fun x => c (x + s))
            | some false => exprAct l idx c
          else exprAct l idx (fun x => c (x + s))
      | .sub =>
          if l.alg = .M then
            match equalTo idx with
            | none => .fail
            | some true => exprAct l idx (fun x => c (x - s))
            | some false => exprAct l idx c
          else exprAct l idx (fun x => c (x - s))
      | .mul => exprAct l idx (fun x => c (x * s))
      | .div => exprAct l idx (fun x => c (x / s))
  | .call n f es, idx, c => collect (n + 1) (fun i => exprAct (es i) idx) (fun xs => c (f xs))

end

/-- The elementwise assignment, _impl_basic_array_view_common.hpp:385-387; `rhs` gives element `idx` of the right-hand side to the rest. -/
def elementwiseCode (a : View) (rhs : List Int → (α → Act α) → Act α) : Option (Code α) :=
  forEach a.lay.len (fun idx code => do
    let k ← element a (idx.map .idx)
    return fun rest => code (rhs idx (fun x => .write k x rest))) id

/-- The linear copy, _impl_basic_array_view_common.hpp:349-351. -/
def linearCode (a b : View) : Option (Code α) :=
  forLoop a.lay.size (fun i code => do
    let s ← linear b i
    let d ← linear a i
    return fun rest => code (.read s (fun x => .write d x rest))) id

section
variable [Add α] [Sub α] [Mul α] [Div α] [Neg α]

/-- `assign_from_ndarray`, _impl_basic_array_view_common.hpp:331-388, in host memory; the right-hand side is an array or view, or a lazy expression. -/
def assignCode (a : View) (e : Expr α) : Option (Code α) :=
  match e with
  | .arr _ b =>
      if a.lay.so = b.lay.so then
        if a.lay.prop.strided1d && b.lay.prop.strided1d then linearCode a b
        else elementwiseCode a (loadAct b)
      else elementwiseCode a (loadAct b)
  | e => elementwiseCode a (exprAct e)

end

/-- `fill_with_scalar`, _impl_basic_array_view_common.hpp:393-408, with `fuel` as in Model/Assign. -/
def fillCode (fuel : Nat) (a : View) (x : α) : Option (Code α) :=
  if a.lay.prop.strided1d then
    let L := a.lay.size
    if a.lay.prop.hasContiguous then forLoop L (fun i code => some (fun rest => code (.write (a.off + i) x rest))) id
    else do
      let stri ← a.lay.minStride
      let Lstri := L * stri
      strideLoop Lstri stri (fun i code => some (fun rest => code (.write (a.off + i) x rest))) (Lstri.toNat + 1) 0 id
  else do
    let b ← a.lay.makeIterator false
    let e ← a.lay.makeIterator true
    Grid.rangeFor (fun o code => some (fun rest => code (.write (a.off + o) x rest))) e fuel b id

/-- `assign_from_scalar` for matrices, _impl_basic_array_view_common.hpp:420-429. -/
def fillDiagCode (fuel : Nat) (a : View) (zero x : α) : Option (Code α) := do
  let first ← fillCode fuel a zero
  let n0 ← rd a.lay.len 0
  let n1 ← rd a.lay.len 1
  forLoop (min n0 n1) (fun i code => do
    let k ← element a (([i, i] : List Int).map .idx)
    return fun rest => code (.write k x rest)) first

section
variable [Add α] [Sub α] [Mul α] [Div α] [Neg α] [Zero α]

/-- One statement of a program (Model/Programs); `deep_swap` (basic_array_view.hpp:265-269) copies into new memory and is left out here. -/
def stmtCode (env : List View) : Stmt α → Option (Code α)
  | .assign _ p e => do assignCode (← view env p) (← e.build env)
  | .compound op alg p e => do
      let a ← view env p
      assignCode a (.bin op (.arr alg a) (← e.build env))
  | .compoundScalar op alg p s => do
      let a ← view env p
      assignCode a (.scalR op (.arr alg a) s)
  | .fill p s => do
      let a ← view env p
      fillCode (a.lay.size.toNat + 1) a s
  | .fillDiag p s => do
      let a ← view env p
      fillDiagCode (a.lay.size.toNat + 1) a 0 s
  | .swap _ _ => none

/-- What a thread does: its statements one after another. -/
def thread (env : List View) : List (Stmt α) → Act α
  | [] => .done
  | s :: ss =>
      match stmtCode env s with
      | some c => c (thread env ss)
      | none => .fail

end

/-! ### The machine -/

/-- One thread alone. -/
def runAct : Act α → List α → Option (List α)
  | .done, mem => some mem
  | .fail, _ => none
  | .read k c, mem => do runAct (c (← rdInt mem k)) mem
  | .write k x c, mem => do runAct c (← wrInt mem k x)

/-- The threads and the memory that they share. -/
abbrev State (α : Type) := List (Act α) × List α

/-- Some thread makes its next load or store. -/
inductive Step : State α → State α → Prop where
  | read {ts : List (Act α)} {mem : List α} {i : Nat} {k : Int} {c : α → Act α} {x : α} (h : ts[i]? = some (.read k c)) (hx : rdInt mem k = some x) :
      Step (ts, mem) (ts.set i (c x), mem)
  | write {ts : List (Act α)} {mem mem' : List α} {i : Nat} {k : Int} {x : α} {c : Act α} (h : ts[i]? = some (.write k x c)) (hx : wrInt mem k x = some mem') :
      Step (ts, mem) (ts.set i c, mem')

/-- Any number of steps. -/
inductive Steps : State α → State α → Prop where
  | refl (s : State α) : Steps s s
  | tail {s t u : State α} : Steps s t → Step t u → Steps s u

/-- Parallel regions: all threads of a region are started, run in any interleaving, and are joined before the next region starts. -/
inductive ForkJoin : List (List (Act α)) → List α → List α → Prop where
  | nil (mem : List α) : ForkJoin [] mem mem
  | cons {ts : List (Act α)} {rest : List (List (Act α))} {mem mem' mem'' : List α} (h : Steps (ts, mem) (List.replicate ts.length .done, mem'))
      (hr : ForkJoin rest mem' mem'') : ForkJoin (ts :: rest) mem mem''

/-- The same with a given schedule: the threads that make the steps (only to compute examples). -/
def follow : List Nat → State α → Option (State α)
  | [], s => some s
  | i :: is, (ts, mem) =>
      match ts[i]? with
      | some (.read k c) => do
          let x ← rdInt mem k
          follow is (ts.set i (c x), mem)
      | some (.write k x c) => do
          let mem' ← wrInt mem k x
          follow is (ts.set i c, mem')
      | _ => none

/-! ### The generator of random numbers -/

/-- `basic_array::rand`, basic_array.hpp:311-326, after the new array `a` has been made: the static generator is one object for all threads, here the memory cell `gen` with the number
of samples that have been used; `g` is the stream of samples. -/
def randCode (gen : Int) (g : Nat → Nat) (a : View) : Option (Code Nat) := do
  let b ← a.lay.makeIterator false
  let e ← a.lay.makeIterator true
  Grid.rangeFor (fun o code => some (fun rest => code (.read gen (fun n => .write gen (n + 1) (.write (a.off + o) (g n) rest))))) e (a.lay.size.toNat + 1) b id

end Nda.Threads
