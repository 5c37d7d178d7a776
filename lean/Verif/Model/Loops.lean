import Verif.Model.LayoutTransforms
/-!
# Model of `c++/nda/layout/for_each.hpp`

The callback may change a state `σ` (memory, an accumulator) and may fail (`none`).
-/
namespace Nda.Loops
open Nda

/-- `for (long i = 0; i < n; ++i) body(i)`. -/
def forLoop {σ : Type} (n : Int) (body : Int → σ → Option σ) (s : σ) : Option σ :=
  (List.range n.toNat).foldlM (fun s i => body (Int.ofNat i) s) s

/-- `details::get_extent<J, R, StaticExtents>`, for_each.hpp:58-69. -/
def getExtent (se : List Nat) (lens : List Int) (j : Nat) : Option Int := do
  if se.all (· == 0) then rd lens j
  else
    let e ← rd se j
    if e = 0 then rd lens j else return (e : Int)

/-- `details::for_each_static_impl<I, StaticExtents, StrideOrder>`, for_each.hpp:73-93; `js` are the
dimensions `index_from_stride_order<R>(StrideOrder, I), (.., I+1), ..` still to be looped over.
The callback handed to the next level is `[i, &f](x...) { return f(i, x...); }`. -/
def forEachImpl {σ : Type} (se : List Nat) (lens : List Int) : List Nat → (List Int → σ → Option σ) → σ → Option σ
  | [], f, s => f [] s
  | j :: js, f, s => do
      let imax ← getExtent se lens j
      forLoop imax (fun i s => forEachImpl se lens js (fun x s => f (i :: x) s) s) s

/-- `for_each_static<StaticExtents, StrideOrder>`, for_each.hpp:99-102 (not used elsewhere in the
library). -/
def forEachStatic {σ : Type} (se so : List Nat) (lens : List Int) (f : List Int → σ → Option σ) (s : σ) : Option σ :=
  forEachImpl se lens so f s

/-- `for_each`, for_each.hpp:105-108: both template arguments are 0, so the dimensions are looped
over in order (`index_from_stride_order`, 49-54). -/
def forEach {σ : Type} (lens : List Int) (f : List Int → σ → Option σ) (s : σ) : Option σ :=
  forEachImpl (List.replicate lens.length 0) lens (List.range lens.length) f s

end Nda.Loops
