import Verif.Model.Programs
import Verif.Model.AddressSpace
/-!
# Programs on arrays in several memories (host, device, unified)

Model/Programs with the address space of every variable: which of the paths of an assignment is taken depends on it, and a loop that runs on the processor reaches
host and unified memory only.  Memory is one list of elements; the processor reaches the addresses below `lim` (host and unified memory), the device calls of
CUDA (`cudaMemcpy`, `cudaMemcpy2D`, `cudaMemset` with `cudaMemcpyDefault`) reach all of them.  A processor access at or above `lim` is undefined behaviour (`none`).

The elements are trivially copyable (`double`, `dcomplex`).  Memory is allocated by `malloc<AdrSp>` (malloc.hpp:27-45: `std::malloc`, `cudaMalloc`,
`cudaMallocManaged`), so that the address of a variable lies where its address space says; here the variables are given.  Errors of the device (C78) are not considered.
-/
namespace Nda.Spaces
open Nda LayoutTransforms Assign Arith Programs AddressSpace

variable {α : Type}

/-- A variable: the address space is part of its type (`heap<AdrSp>`, basic_array.hpp:60-90). -/
structure Var where
  space : Space
  view : View

def views (env : List Var) : List View := env.map (·.view)

/-- `get_addr_space` of an array, address_space.hpp:73-74. -/
def addrOf : Space → Addr
  | .host => .host
  | .device => .device
  | .unified => .unified

/-- A loop on the processor: it sees the first `lim` elements of memory only. -/
def onCpu (lim : Nat) (f : List α → Option (List α)) (mem : List α) : Option (List α) := do
  let m ← f (mem.take lim)
  return m ++ mem.drop lim

/-- The end of `assign_from_ndarray`, _impl_basic_array_view_common.hpp:383-387: `NDA_RUNTIME_ERROR` (`some none`) if one side is on the device, else elementwise
on the processor. -/
def fallbackS (lim : Nat) (sa sb : Addr) (a : View) (rhs : Rhs α) (mem : List α) : Option (Option (List α)) :=
  if onDevice sa || onDevice sb then some none
  else (onCpu lim (elementwise a rhs) mem).map some

/-- `assign_from_ndarray`, _impl_basic_array_view_common.hpp:331-388, for elements of the same type.  `sa`, `sb`: address spaces of both sides. -/
def assignS (lim : Nat) (sa sb : Addr) (a : View) (rhs : Rhs α) (mem : List α) : Option (Option (List α)) :=
  match rhs with
  | .expr _ => fallbackS lim sa sb a rhs mem
  | .inMem b null =>
      if a.lay.so = b.lay.so then
        if null then some (some mem)
        else if onHost sa && onHost sb then
          if a.lay.prop.strided1d && b.lay.prop.strided1d then (onCpu lim (linearCopy a b) mem).map some
          else fallbackS lim sa sb a rhs mem
        else do
          match ← blockCopy a b mem with
          | .done mem' => return some mem'
          | .error => return none
          | .fallback => fallbackS lim sa sb a rhs mem
      else fallbackS lim sa sb a rhs mem

/-- The type of a lazy expression as far as address spaces are concerned (Model/AddressSpace). -/
def tyOf (env : List Var) : PExpr α → Option Ty
  | .arr _ p => do return .array (addrOf (← env[p.name]?).space)
  | .neg e => do return .unary (← tyOf env e)
  | .bin _ l r => do return .expr (← tyOf env l) (← tyOf env r)
  | .scalL _ _ r => do return .expr .scalar (← tyOf env r)
  | .scalR _ l _ => do return .expr (← tyOf env l) .scalar
  | .call n _ es => do
      let ts ← sequence (fun i => tyOf env (es i))
      return .call (ts 0) (List.ofFn (fun i : Fin n => ts i.succ))

/-- One statement.  `make`, `convert`, `zeros` construct the variable `t` (declared with the right layout). -/
inductive SStmt (α : Type) where
  /-- `p = e`, basic_array_view.hpp:180-202. -/
  | assign (alg : Alg) (p : Place) (e : PExpr α)
  /-- `p op= e`, _impl_basic_array_view_common.hpp:285-316. -/
  | compound (op : BOp) (alg : Alg) (p : Place) (e : PExpr α)
  /-- `p op= s`, _impl_basic_array_view_common.hpp:285-316. -/
  | compoundScalar (op : BOp) (alg : Alg) (p : Place) (s : α)
  /-- `p = s` for arrays and vectors, _impl_basic_array_view_common.hpp:393-418; also `ones`, `array(n, s)` (basic_array.hpp:130-139, 289-296). -/
  | fill (p : Place) (s : α)
  /-- `p = s` for a matrix, _impl_basic_array_view_common.hpp:420-429. -/
  | fillDiag (p : Place) (s : α)
  /-- `to_host(p)`, `to_device(p)`, `to_unified(p)`, `make_regular(p)` of a view: `basic_array(A const &a)`, basic_array.hpp:153-171. -/
  | make (t : Nat) (p : Place)
  /-- The same functions for an array with the same layout in another memory: `basic_array(basic_array<..> x)`, basic_array.hpp:105-108, and
  `handle_heap(H const &x)`, handle.hpp:191-203.  (The copy of `x` for the parameter by value is left out.) -/
  | convert (t u : Nat)
  /-- `zeros`, basic_array.hpp:273-279; handle.hpp:149-155; allocators.hpp:71-79. -/
  | zeros (t : Nat)

section
variable [Add α] [Sub α] [Mul α] [Div α] [Neg α] [Zero α]

/-- `v = e` for an array or an expression with the address space `sb`. -/
def assignBuilt (lim : Nat) (sa sb : Addr) (v : View) (mem : List α) (e : Expr α) : Option (Option (List α)) :=
  match e with
  | .arr _ w => assignS lim sa sb v (.inMem w false) mem
  | e => assignS lim sa sb v (.expr (fun idx mem => e.get idx mem)) mem

/-- `p = e` for an array or an expression. -/
def assignExprS (lim : Nat) (env : List Var) (s : Space) (v : View) (e : PExpr α) (mem : List α) : Option (Option (List α)) := do
  let r ← addrSpace (← tyOf env e)
  assignBuilt lim (addrOf s) r v mem (← e.build (views env))

/-- One statement: outer `none` is undefined behaviour (in particular an access of the processor to device memory) or an error at compile time.  Inner `none`:
`NDA_RUNTIME_ERROR` inside one of these functions, which are all `noexcept`, so that the program is ended by `std::terminate`. -/
def exec (lim : Nat) (env : List Var) : SStmt α → List α → Option (Option (List α))
  | .assign _ p e, mem => do
      assignExprS lim env (← env[p.name]?).space (← view (views env) p) e mem
  | .compound op alg p e, mem => do
      assignExprS lim env (← env[p.name]?).space (← view (views env) p) (.bin op (.arr alg p) e) mem
  | .compoundScalar op alg p s, mem => do
      assignExprS lim env (← env[p.name]?).space (← view (views env) p) (.scalR op (.arr alg p) s) mem
  | .fill p s, mem => do
      let v ← view (views env) p
      return some (← onCpu lim (assignScalar (v.lay.size.toNat + 1) v s) mem)
  | .fillDiag p s, mem => do
      let v ← view (views env) p
      return some (← onCpu lim (assignScalarMatrix (v.lay.size.toNat + 1) v 0 s) mem)
  | .make t p, mem => do
      let x ← env[t]?
      let y ← env[p.name]?
      let w ← view (views env) p
      assignS lim (addrOf x.space) (addrOf y.space) x.view (.inMem w false) mem
  | .convert t u, mem => do
      let x ← env[t]?
      let y ← env[u]?
      if x.view.lay = y.view.lay then
        let n := x.view.lay.size.toNat
        -- memcpy<AdrSp, OtherAdrSp>, memcpy.hpp:29-38
        if x.space = .host ∧ y.space = .host then return some (← onCpu lim (memcpy x.view.off y.view.off n) mem)
        else return some (← memcpy x.view.off y.view.off n mem)
      else none
  | .zeros t, mem => do
      let x ← env[t]?
      let set := Loops.forLoop x.view.lay.size (fun i mem => wrInt mem (x.view.off + i) 0)
      -- calloc, or malloc<AdrSp> and memset<AdrSp>, memset.hpp:30-39
      if x.space = .host then return some (← onCpu lim set mem) else return some (← set mem)

/-- A program: statements one after another. -/
def runAll (lim : Nat) (env : List Var) : List (SStmt α) → List α → Option (Option (List α))
  | [], mem => some (some mem)
  | s :: ss, mem => do
      match ← exec lim env s mem with
      | none => return none
      | some mem' => runAll lim env ss mem'

end

/-- The address space in which `nda::zeros<T, AdrSp>(shape)` puts the array, basic_functions.hpp:30-42. -/
def zerosSpace : Space → Space
  | .host => .host
  | _ => .device

end Nda.Spaces
