import Verif.Lemmas.Statements
import Verif.Props.Values
/-!
# C99: programs with arithmetic statements compute the same expressions of values
-/
namespace Nda.Num
open Nda Nda.Mem Nda.Spec Nda.Arr Nda.Arr.Spec Nda.Mem.Spec Loops Nda.Perm LayoutTransforms Nda.IdxMap Arith Arith.Spec Spec

variable {V : Type} [Add V] [Sub V] [Mul V] [Div V] [Neg V] [Zero V]

/-- **C99** Any program of constructions from expressions, assignments `d = e`, `d(...) = e`, `d op= e`, `d(...) op= e` where `e` is a scalar or any nested arithmetic expression of arrays and
views made by any chain of view operations, copies, moves, resizes and destructions, on any number of arrays of any ranks, shapes and stride orders, runs without a memory
error, and its memory represents what the same program does to values, where an expression is the arithmetic expression of the elements at every index. -/
theorem C99_programs (triv : Bool) (dflt : V) (so : Nat → List Nat) (hso : ∀ i, IsPerm (so i)) (hne : ∀ i, so i ≠ []) (n : Nat) (ops : List (NOp V))
    (h : NAllowedRun triv dflt so (List.replicate n none) ops) :
    ∃ p, nrun triv dflt so (AProg.start n) ops = some p ∧ Represents p (nfinal triv dflt (rankOf so) (List.replicate n none) ops) := by
  obtain ⟨p, h1, h2⟩ := nrun_ok dflt hso hne (VInv.start triv so n) h
  exact ⟨p, h1, h2.represents⟩

/-! ### Temporaries -/

theorem nfinal_append (triv : Bool) (dflt : V) (rank : Nat → Nat) (a : Vals V) (ops ops' : List (NOp V)) :
    nfinal triv dflt rank a (ops ++ ops') = nfinal triv dflt rank (nfinal triv dflt rank a ops) ops' := List.foldl_append

theorem nallowed_append {triv : Bool} {dflt : V} {so : Nat → List Nat} : ∀ {ops ops' : List (NOp V)} {a : Vals V},
    NAllowedRun triv dflt so a (ops ++ ops') ↔ NAllowedRun triv dflt so a ops ∧ NAllowedRun triv dflt so (nfinal triv dflt (rankOf so) a ops) ops'
  | [], _, _ => by simp [NAllowedRun, nfinal]
  | op :: ops, ops', a => by
      simp only [List.cons_append, NAllowedRun, nallowed_append (ops := ops), and_assoc]; rfl

theorem uniform_congr {a b : Vals V} {alg : Alg} {ext : List Int} : ∀ {e : PExpr V}, (∀ l ∈ Spec.leaves e, b.get l.1 = a.get l.1) → Spec.Uniform a alg ext e → Spec.Uniform b alg ext e
  | .arr _ x ops, h, hu => by
      obtain ⟨h1, y, h2, h3⟩ := hu
      exact ⟨h1, y, by rw [h (x, ops) (by simp [Spec.leaves])]; exact h2, h3⟩
  | .fn _ _ _, _, hu => hu
  | .neg e, h, hu => uniform_congr (e := e) h hu
  | .bin op l r, h, hu => ⟨uniform_congr (fun q hq => h q (by simp [Spec.leaves, hq])) hu.1, uniform_congr (fun q hq => h q (by simp [Spec.leaves, hq])) hu.2.1, hu.2.2⟩
  | .scalL op s r, h, hu => ⟨uniform_congr (e := r) h hu.1, hu.2⟩
  | .scalR op l s, h, hu => uniform_congr (e := l) h hu
  | .call n f es, h, hu => fun i => uniform_congr (fun q hq => h q (by simp only [Spec.leaves, List.mem_flatMap]; exact ⟨i, List.mem_finRange i, hq⟩)) (hu i)

theorem exprEl_congr {rank : Nat → Nat} {a b : Vals V} {e : PExpr V} (h : ∀ l ∈ Spec.leaves e, b.get l.1 = a.get l.1) (idx : List Int) : exprEl rank b e idx = exprEl rank a e idx := by
  have hv : ∀ l ∈ Spec.leaves e, viewElt rank b idx l.1 l.2 = viewElt rank a idx l.1 l.2 := by
    intro l hl
    simp only [viewElt, Vals.elt, h l hl]
  simp only [exprEl]
  by_cases hc : ∀ l ∈ Spec.leaves e, (viewElt rank a idx l.1 l.2).isSome
  · rw [if_pos hc, if_pos (fun l hl => by rw [hv l hl]; exact hc l hl)]
    congr 1
    exact value_congr (fun l hl => by rw [hv l hl])
  · rw [if_neg hc, if_neg (fun h' => hc (fun l hl => by rw [← hv l hl]; exact h' l hl))]

theorem exprEl_bin {rank : Nat → Nat} {a : Vals V} {op : BOp} {l r : PExpr V} (hf : firstAlg r = firstAlg l) (idx : List Int) :
    exprEl rank a (.bin op l r) idx = (exprEl rank a l idx).bind fun u => (exprEl rank a r idx).bind fun w => some (oper op u w) := by
  have hm : ∀ q, q ∈ Spec.leaves (PExpr.bin op l r) ↔ q ∈ Spec.leaves l ∨ q ∈ Spec.leaves r := fun q => by simp [Spec.leaves]
  by_cases h1 : ∀ q ∈ Spec.leaves l, (viewElt rank a idx q.1 q.2).isSome
  · by_cases h2 : ∀ q ∈ Spec.leaves r, (viewElt rank a idx q.1 q.2).isSome
    · rw [exprEl, exprEl, exprEl, if_pos h1, if_pos h2, if_pos (fun q hq => ((hm q).mp hq).elim (h1 q) (h2 q))]
      simp only [Option.bind_some, Spec.value, firstAlg, hf]
    · rw [exprEl, exprEl, exprEl, if_pos h1, if_neg h2, if_neg (fun h => h2 fun q hq => h q ((hm q).mpr (Or.inr hq)))]; rfl
  · rw [exprEl, exprEl, if_neg h1, if_neg (fun h => h1 fun q hq => h q ((hm q).mpr (Or.inl hq)))]; rfl

theorem exprEl_arr {rank : Nat → Nat} {a : Vals V} {alg : Alg} {x : Nat} {ops : List Op} {idx : List Int} : exprEl rank a (.arr alg x ops) idx = viewElt rank a idx x ops := by
  cases h : viewElt rank a idx x ops with
  | none => rw [exprEl, if_neg (fun h' => by have := h' (x, ops) (by simp [Spec.leaves]); rw [h] at this; cases this)]
  | some v =>
      rw [exprEl, if_pos (fun q hq => by
        simp only [Spec.leaves, List.mem_singleton] at hq
        subst hq
        rw [h]; rfl)]
      simp only [Spec.value, h, Option.getD_some]

/-- Lazy evaluation: `d = l op r` in one statement gives the same elements as evaluating the operands into arrays `s` and `t` first. -/
theorem C99_temporaries (triv : Bool) (dflt : V) (so : Nat → List Nat) (hso : ∀ i, IsPerm (so i)) (hne : ∀ i, so i ≠ []) (n : Nat) (pre : List (NOp V)) (d s t : Nat)
    (ext : List Int) (op : BOp) (l r : PExpr V) (h : NAllowedRun triv dflt so (List.replicate n none) (pre ++ [.assign d ext (.bin op l r)]))
    (A : Vals V) (hA : A = nfinal triv dflt (rankOf so) (List.replicate n none) pre) (hs : s < A.length) (ht : t < A.length) (hst : s ≠ t) (hsn : A.get s = none) (htn : A.get t = none)
    (hsS : IsShape (so s) ext) (htS : IsShape (so t) ext) (x : Val V) (hd : A.get d = some x) :
    ∃ p q, nrun triv dflt so (AProg.start n) (pre ++ [.assign d ext (.bin op l r)]) = some p ∧
      nrun triv dflt so (AProg.start n)
        (pre ++ [.build s ext l, .build t ext r, .assign d ext (.bin op (.arr (firstAlg l) s []) (.arr (firstAlg l) t []))]) = some q ∧
      ∀ idx, InRange ext idx → ∃ v, p.elem d idx = some v ∧ q.elem d idx = some v := by
  obtain ⟨hp, hh, -⟩ := nallowed_append.mp h
  obtain ⟨p, e1, e2⟩ := C99_programs triv dflt so hso hne n _ h
  rw [nfinal_append] at e2
  rw [← hA] at hh e2
  obtain ⟨hS, ⟨⟨alg, hu, hM⟩, hsome⟩, hno⟩ := hh
  obtain ⟨hul, hur, hop⟩ := hu
  have hfl : firstAlg l = alg := (uniform_algs hul).2
  have hfr : firstAlg r = alg := (uniform_algs hur).2
  have hdl : d < A.length := by
    by_contra hc
    rw [Vals.get, List.getElem?_eq_none (by omega)] at hd; cases hd
  have hds : d ≠ s := fun e => by rw [e, hsn] at hd; cases hd
  have hdt : d ≠ t := fun e => by rw [e, htn] at hd; cases hd
  have hls : ∀ q ∈ Spec.leaves l, q.1 ≠ s ∧ q.1 ≠ t := by
    intro q hq
    obtain ⟨y, hy, -⟩ := uniform_leaf hul hq
    exact ⟨fun e => (by rw [e, hsn] at hy; cases hy), fun e => (by rw [e, htn] at hy; cases hy)⟩
  have hrs : ∀ q ∈ Spec.leaves r, q.1 ≠ s ∧ q.1 ≠ t := by
    intro q hq
    obtain ⟨y, hy, -⟩ := uniform_leaf hur hq
    exact ⟨fun e => (by rw [e, hsn] at hy; cases hy), fun e => (by rw [e, htn] at hy; cases hy)⟩
  have hbin : ∀ idx, InRange ext idx → ∃ u w, exprEl (rankOf so) A l idx = some u ∧ exprEl (rankOf so) A r idx = some w := by
    intro idx hi
    have := hsome idx hi
    rw [exprEl_bin (hfr.trans hfl.symm)] at this
    obtain ⟨v, hv⟩ := Option.isSome_iff_exists.mp this
    obtain ⟨u, hu', hv⟩ := Option.bind_eq_some_iff.mp hv
    obtain ⟨w, hw, -⟩ := Option.bind_eq_some_iff.mp hv
    exact ⟨u, w, hu', hw⟩
  -- the values after the temporaries are built
  have a1 : nnext triv dflt (rankOf so) A (.build s ext l) = A.set s (some ⟨ext, false, exprEl (rankOf so) A l⟩) := by
    simp only [nnext]; rw [Vals.put, if_pos ⟨hs, hsn⟩]
  generalize hA1 : A.set s (some ⟨ext, false, exprEl (rankOf so) A l⟩) = A1 at a1
  have g1 : ∀ j, j ≠ s → Vals.get A1 j = A.get j := fun j hj => by rw [← hA1, set_get_ne hj]
  have g1s : Vals.get A1 s = some ⟨ext, false, exprEl (rankOf so) A l⟩ := by rw [← hA1, set_get_self hs]
  have l1 : A1.length = A.length := by rw [← hA1]; simp
  have er : ∀ idx, exprEl (rankOf so) A1 r idx = exprEl (rankOf so) A r idx := exprEl_congr (fun q hq => g1 q.1 (hrs q hq).1)
  have a2 : nnext triv dflt (rankOf so) A1 (.build t ext r) = A1.set t (some ⟨ext, false, exprEl (rankOf so) A1 r⟩) := by
    simp only [nnext]; rw [Vals.put, if_pos ⟨by rw [l1]; exact ht, by rw [g1 t (Ne.symm hst)]; exact htn⟩]
  generalize hA2 : A1.set t (some ⟨ext, false, exprEl (rankOf so) A1 r⟩) = A2 at a2
  have g2s : Vals.get A2 s = some ⟨ext, false, exprEl (rankOf so) A l⟩ := by rw [← hA2, set_get_ne hst, g1s]
  have g2t : Vals.get A2 t = some ⟨ext, false, exprEl (rankOf so) A1 r⟩ := by rw [← hA2, set_get_self (by rw [l1]; exact ht)]
  have g2d : Vals.get A2 d = some x := by rw [← hA2, set_get_ne hdt, g1 d hds, hd]
  have l2 : A2.length = A.length := by rw [← hA2]; simp [l1]
  have es : ∀ idx, InRange ext idx → exprEl (rankOf so) A2 (.arr (firstAlg l) s []) idx = exprEl (rankOf so) A l idx := by
    intro idx hi
    rw [exprEl_arr]; simp only [viewElt, sourceChain, Vals.elt, g2s]
    rw [if_pos ⟨trivial, hi⟩]
  have et : ∀ idx, InRange ext idx → exprEl (rankOf so) A2 (.arr (firstAlg l) t []) idx = exprEl (rankOf so) A r idx := by
    intro idx hi
    rw [← er idx, exprEl_arr]; simp only [viewElt, sourceChain, Vals.elt, g2t]
    rw [if_pos ⟨trivial, hi⟩]
  have eb : ∀ idx, InRange ext idx → exprEl (rankOf so) A2 (.bin op (.arr (firstAlg l) s []) (.arr (firstAlg l) t [])) idx = exprEl (rankOf so) A (.bin op l r) idx := by
    intro idx hi
    rw [exprEl_bin (by rfl), es idx hi, et idx hi, exprEl_bin (hfr.trans hfl.symm)]
  obtain ⟨q, f1, f2⟩ := C99_programs triv dflt so hso hne n
    (pre ++ [.build s ext l, .build t ext r, .assign d ext (.bin op (.arr (firstAlg l) s []) (.arr (firstAlg l) t []))]) (nallowed_append.mpr ⟨hp, by
      rw [← hA]
      refine ⟨⟨hsS, ⟨alg, hul, hM⟩, fun idx hi => ?_⟩, ?_⟩
      · obtain ⟨u, w, h1, h2⟩ := hbin idx hi
        rw [h1]; rfl
      rw [a1]
      refine ⟨⟨htS, ⟨alg, uniform_congr (fun q hq => g1 q.1 (hrs q hq).1) hur, hM⟩, fun idx hi => ?_⟩, ?_⟩
      · obtain ⟨u, w, h1, h2⟩ := hbin idx hi
        rw [er, h2]; rfl
      rw [a2]
      refine ⟨⟨hS, ⟨⟨alg, ⟨⟨hfl, _, g2s, rfl, trivial, rfl⟩, ⟨hfl, _, g2t, rfl, trivial, rfl⟩, hop⟩, hM⟩, fun idx hi => ?_⟩, fun ops' hl => ?_⟩, trivial⟩
      · rw [eb idx hi]; exact hsome idx hi
      · simp only [Spec.leaves, List.mem_append, List.mem_singleton, Prod.mk.injEq] at hl
        exact hl.elim (fun e => absurd e.1 hds) (fun e => absurd e.1 hdt)⟩)
  rw [nfinal_append, ← hA] at f2
  simp only [nfinal, List.foldl_cons, List.foldl_nil] at f2 e2
  rw [a1, a2] at f2
  refine ⟨p, q, e1, f1, fun idx hi => ?_⟩
  obtain ⟨v, hv⟩ := Option.isSome_iff_exists.mp (hsome idx hi)
  have r1 := e2 d
  have r2 := f2 d
  simp only [nnext, Vals.upd] at r1 r2
  rw [if_neg (by rw [hd]; simp), set_get_self hdl] at r1
  rw [if_neg (by rw [g2d]; simp), set_get_self (by rw [l2]; exact hdl)] at r2
  exact ⟨v, r1.2.1 rfl idx v hi hv, r2.2.1 rfl idx v hi ((eb idx hi).trans hv)⟩

/-! ### What the condition on overlapping excludes -/

/-- A vector `1, 2, 3, 4`. -/
def vec1234 (d : Nat) : NOp Int := .build d [4] (.fn .A [4] fun idx => idx.headD 0 + 1)

/-- `a(range(1, 4)) += a(range(0, 3))` makes `1 3 6 10`, the sums of the elements so far; with a temporary for the right-hand side it makes `1 3 5 7`. -/
theorem C99_overlap_witness :
    ((nrun true (0 : Int) (fun _ => [0]) (AProg.start 2) [vec1234 0, .opPut .add .A 0 [.slice [.rng 1 4 1]] [3] (.expr (.arr .A 0 [.slice [.rng 0 3 1]]))]).bind
      fun p => [0, 1, 2, 3].mapM fun i => p.elem 0 [i]) = some [1, 3, 6, 10] ∧
    ((nrun true (0 : Int) (fun _ => [0]) (AProg.start 2) [vec1234 0, .build 1 [3] (.arr .A 0 [.slice [.rng 0 3 1]]),
        .opPut .add .A 0 [.slice [.rng 1 4 1]] [3] (.expr (.arr .A 1 []))]).bind
      fun p => [0, 1, 2, 3].mapM fun i => p.elem 0 [i]) = some [1, 3, 5, 7] := by
  constructor <;> decide +kernel

/-! ### A program that meets the hypotheses -/

/-- Array 0 is a matrix in C order, array 1 a matrix in Fortran order, the others are vectors. -/
def ranks : Nat → List Nat
  | 0 => [0, 1]
  | 1 => [1, 0]
  | _ => [0]

/-- `m(i, j) = 10 i + j` of shape (2, 2), a matrix; `f = 2 * m - transpose(m)`; `m += 100` (on the diagonal); `m -= f`; column 1 of `m` is row 0 of `f`, negated;
row 1 of `m` is multiplied by 3; `v` is the diagonal of `m` plus 1 (a vector, every element); `v *= v`. -/
def demoStatements : List (NOp Int) :=
  [.build 0 [2, 2] (.fn .M [2, 2] fun idx => 10 * idx.headD 0 + idx.getD 1 0),
   .build 1 [2, 2] (.bin .sub (.scalL .mul 2 (.arr .M 0 [])) (.arr .M 0 [.permute [1, 0]])),
   .opAssign .add .M 0 [2, 2] (.scal 100),
   .opAssign .sub .M 0 [2, 2] (.expr (.arr .M 1 [])),
   .put 0 [.slice [.all, .idx 1]] [2] (.neg (.arr .A 1 [.slice [.idx 0, .all]])),
   .opPut .mul .A 0 [.slice [.idx 1, .all]] [2] (.scal 3),
   .build 2 [2] (.scalR .add (.arr .A 0 [.slice [.idx 1, .all]]) 1),
   .opAssign .mul .A 2 [2] (.expr (.arr .A 2 []))]

theorem zeroLaws_int : ZeroLaws Int := ⟨Int.zero_add, Int.add_zero, Int.sub_zero, Int.zero_sub⟩

theorem demoStatements_allowed : NAllowedRun true (0 : Int) ranks (List.replicate 3 none) demoStatements := by
  have two2 : ∀ idx, InRange [2, 2] idx → idx ∈ box [2, 2] := fun idx h => mem_box.mpr h
  have two : ∀ idx, InRange [2] idx → idx ∈ box [2] := fun idx h => mem_box.mpr h
  have hM : Alg.M = .M → [(2 : Int), 2].length = 2 ∧ ZeroLaws Int := fun _ => ⟨rfl, zeroLaws_int⟩
  have hA : Alg.A = .M → [(2 : Int)].length = 2 ∧ ZeroLaws Int := fun h => by cases h
  have col : ∀ k, 0 ≤ k → k < 2 → ChainAllowed [2, 2] [.slice [.all, .idx k]] ∧ ChainShape [2, 2] [.slice [.all, .idx k]] [2] := fun k h1 h2 =>
    ⟨chainAllowed_cons (len' := [2]) ⟨by decide, by simp [Fits], ⟨trivial, ⟨h1, h2⟩, trivial⟩⟩ ⟨rfl, trivial⟩ trivial, ⟨[2], ⟨rfl, trivial⟩, rfl⟩⟩
  have row : ∀ k, 0 ≤ k → k < 2 → ChainAllowed [2, 2] [.slice [.idx k, .all]] ∧ ChainShape [2, 2] [.slice [.idx k, .all]] [2] := fun k h1 h2 =>
    ⟨chainAllowed_cons (len' := [2]) ⟨by decide, by simp [Fits], ⟨⟨h1, h2⟩, trivial, trivial⟩⟩ ⟨rfl, trivial⟩ trivial, ⟨[2], ⟨rfl, trivial⟩, rfl⟩⟩
  have tr : ChainAllowed [2, 2] [.permute [1, 0]] ∧ ChainShape [2, 2] [.permute [1, 0]] [2, 2] :=
    ⟨chainAllowed_cons (len' := [2, 2]) ⟨by decide, by decide⟩ ⟨by decide, by decide⟩ trivial, ⟨[2, 2], ⟨by decide, by decide⟩, rfl⟩⟩
  refine ⟨⟨⟨rfl, by decide⟩, ⟨.M, ⟨rfl, rfl⟩, hM⟩, fun idx _ => rfl⟩, ⟨⟨rfl, by decide⟩, ⟨.M, ⟨⟨⟨rfl, _, rfl, rfl, trivial, rfl⟩, by simp⟩, ⟨rfl, _, rfl, rfl, tr⟩, by simp⟩, hM⟩, fun idx hi => ?_⟩,
    ⟨⟨⟨.M, ⟨rfl, _, rfl, rfl, trivial, rfl⟩, hM⟩, fun idx hi => ?_⟩, fun e he => by cases he⟩,
    ⟨⟨⟨.M, ⟨⟨rfl, _, rfl, rfl, trivial, rfl⟩, ⟨rfl, _, rfl, rfl, trivial, rfl⟩, by simp⟩, hM⟩, fun idx hi => ?_⟩, fun e he ops hl => ?_⟩,
    ⟨fun x hx => ?_, ⟨⟨.A, ⟨rfl, _, rfl, rfl, row 0 (by decide) (by decide)⟩, hA⟩, fun idx hi => ?_⟩, fun ops hl => ?_⟩,
    ⟨⟨⟨.A, ⟨rfl, _, rfl, rfl, row 1 (by decide) (by decide)⟩, hA⟩, fun idx hi => ?_⟩, fun e he => by cases he⟩,
    ⟨⟨rfl, by decide⟩, ⟨.A, ⟨rfl, _, rfl, rfl, row 1 (by decide) (by decide)⟩, hA⟩, fun idx hi => ?_⟩,
    ⟨⟨⟨.A, ⟨⟨rfl, _, rfl, rfl, trivial, rfl⟩, ⟨rfl, _, rfl, rfl, trivial, rfl⟩, fun _ => rfl⟩, hA⟩, fun idx hi => ?_⟩, fun e he ops hl => ?_⟩, trivial⟩
  · have := two2 idx hi
    clear hi; revert idx; decide +kernel
  · have := two2 idx hi
    clear hi; revert idx; decide +kernel
  · have := two2 idx hi
    clear hi; revert idx; decide +kernel
  · simp only [operandExprs, List.mem_singleton] at he
    subst he
    simp [Spec.leaves] at hl
  · cases hx
    exact ⟨rfl, col 1 (by decide) (by decide)⟩
  · have := two idx hi
    clear hi; revert idx; decide +kernel
  · simp [Spec.leaves] at hl
  · have := two idx hi
    clear hi; revert idx; decide +kernel
  · have := two idx hi
    clear hi; revert idx; decide +kernel
  · have := two idx hi
    clear hi; revert idx; decide +kernel
  · simp only [operandExprs, List.mem_singleton] at he
    subst he
    simp only [Spec.leaves, List.mem_singleton, Prod.mk.injEq, true_and] at hl
    subst hl
    exact ⟨rfl, fun idx _ => rfl⟩

example : ∃ p, nrun true (0 : Int) ranks (AProg.start 3) demoStatements = some p ∧ Represents p (nfinal true 0 (rankOf ranks) (List.replicate 3 none) demoStatements) :=
  C99_programs true 0 ranks (fun i => by unfold ranks; split <;> decide) (fun i => by unfold ranks; split <;> decide) 3 demoStatements demoStatements_allowed

/-- What it computes: `f` is `0 -8 / 19 11`, `m` is `100 0 / -27 24`, `v` is `676 625`. -/
example : ((nrun true (0 : Int) ranks (AProg.start 3) demoStatements).bind fun p => (tuples [2, 2]).mapM (p.elem 1)) = some [0, -8, 19, 11] ∧
    ((nrun true (0 : Int) ranks (AProg.start 3) demoStatements).bind fun p => (tuples [2, 2]).mapM (p.elem 0)) = some [100, 0, -27, 24] ∧
    ((nrun true (0 : Int) ranks (AProg.start 3) demoStatements).bind fun p => (tuples [2]).mapM (p.elem 2)) = some [676, 625] ∧
    (tuples [2, 2]).mapM ((nfinal true (0 : Int) (rankOf ranks) (List.replicate 3 none) demoStatements).elt 0) = some [100, 0, -27, 24] ∧
    (tuples [2]).mapM ((nfinal true (0 : Int) (rankOf ranks) (List.replicate 3 none) demoStatements).elt 2) = some [676, 625] := by
  refine ⟨?_, ?_, ?_, ?_, ?_⟩ <;> decide +kernel

/-- A scalar assigned to a view in reversed order: `a(range(3, -1, -1)) = 5;` assigns nothing (C18), the condition `Fillable` is needed. -/
theorem C99_reversed_witness : ((nrun true (0 : Int) (fun _ => [0]) (AProg.start 1) [vec1234 0, .setScalar .A 0 [.slice [.rng 3 (-1) (-1)]] [4] 5]).bind fun p =>
      (tuples [4]).mapM (p.elem 0)) = some [1, 2, 3, 4] ∧
    (tuples [4]).mapM ((nfinal true (0 : Int) (fun _ => 1) [none] [vec1234 0, .setScalar .A 0 [.slice [.rng 3 (-1) (-1)]] [4] 5]).elt 0) = some [5, 5, 5, 5] := by
  constructor <;> decide +kernel

/-- A matrix of shape (2, 3); `m = 7;` then row 0 of it (a vector) `= 2;`; a matrix in Fortran order `f = transpose(m)`; `transpose(f) = 5;`. -/
def demoScalars : List (NOp Int) :=
  [.build 0 [2, 3] (.fn .M [2, 3] fun _ => 1), .setScalar .M 0 [] [2, 3] 7, .setScalar .V 0 [.slice [.idx 0, .all]] [3] 2,
   .build 1 [3, 2] (.arr .M 0 [.permute [1, 0]]), .setScalar .M 1 [.permute [1, 0]] [2, 3] 5]

theorem demoScalars_allowed : NAllowedRun true (0 : Int) ranks (List.replicate 3 none) demoScalars := by
  have tr : ∀ n m : Int, ChainAllowed [n, m] [.permute [1, 0]] ∧ ChainShape [n, m] [.permute [1, 0]] [m, n] := fun n m =>
    ⟨chainAllowed_cons (len' := [m, n]) ⟨by decide, rfl⟩ ⟨rfl, rfl⟩ trivial, ⟨[m, n], ⟨rfl, rfl⟩, rfl⟩⟩
  refine ⟨⟨⟨rfl, by decide⟩, ⟨.M, ⟨rfl, rfl⟩, fun _ => ⟨rfl, zeroLaws_int⟩⟩, fun idx _ => rfl⟩, fun x hx => ?_, fun x hx => ?_,
    ⟨⟨rfl, by decide⟩, ⟨.M, ⟨rfl, _, rfl, rfl, tr 2 3⟩, fun _ => ⟨rfl, zeroLaws_int⟩⟩, fun idx hi => ?_⟩, fun x hx => ?_, trivial⟩
  · cases hx
    refine ⟨rfl, trivial, rfl, ⟨by decide, by decide, fun m hm => ⟨trivial, fun v hv hp => ?_⟩⟩, fun _ => rfl⟩
    cases hm; cases hv; cases hp
  · cases hx
    refine ⟨rfl, chainAllowed_cons (len' := [3]) ⟨by decide, by simp [Fits, overwrite], ⟨⟨by decide, by decide⟩, trivial, trivial⟩⟩ ⟨rfl, trivial⟩ trivial, ⟨[3], ⟨rfl, trivial⟩, rfl⟩,
      ⟨by decide, by decide, fun m hm => ⟨⟨(fun n h => by cases h), fun _ _ => trivial⟩, fun v hv hp => ?_⟩⟩, fun h => by cases h⟩
    cases hm; cases hv; cases hp
  · have : idx ∈ box [3, 2] := mem_box.mpr hi
    clear hi; revert idx; decide +kernel
  · cases hx
    refine ⟨rfl, (tr 3 2).1, (tr 3 2).2, ⟨by decide, by decide, fun m hm => ⟨⟨(fun n h => by cases h), fun _ _ => trivial⟩, fun v hv hp => ?_⟩⟩, fun _ => rfl⟩
    cases hm; cases hv; cases hp

example : ∃ p, nrun true (0 : Int) ranks (AProg.start 3) demoScalars = some p ∧ Represents p (nfinal true 0 (rankOf ranks) (List.replicate 3 none) demoScalars) :=
  C99_programs true 0 ranks (fun i => by unfold ranks; split <;> decide) (fun i => by unfold ranks; split <;> decide) 3 demoScalars demoScalars_allowed

example : ((nrun true (0 : Int) ranks (AProg.start 3) demoScalars).bind fun p => (tuples [2, 3]).mapM (p.elem 0)) = some [2, 2, 2, 0, 7, 0] ∧
    ((nrun true (0 : Int) ranks (AProg.start 3) demoScalars).bind fun p => (tuples [3, 2]).mapM (p.elem 1)) = some [5, 0, 0, 5, 0, 0] := by
  constructor <;> decide +kernel

/-- `a = a + (a * 3)` without and with temporaries. -/
example : ∃ p q, nrun true (0 : Int) (fun _ => [0]) (AProg.start 3) [vec1234 0, .assign 0 [4] (.bin .add (.arr .A 0 []) (.scalR .mul (.arr .A 0 []) 3))] = some p ∧
    nrun true (0 : Int) (fun _ => [0]) (AProg.start 3) [vec1234 0, .build 1 [4] (.arr .A 0 []), .build 2 [4] (.scalR .mul (.arr .A 0 []) 3),
      .assign 0 [4] (.bin .add (.arr .A 1 []) (.arr .A 2 []))] = some q ∧
    ∀ idx, InRange [4] idx → ∃ v, p.elem 0 idx = some v ∧ q.elem 0 idx = some v :=
  C99_temporaries true (0 : Int) (fun _ => [0]) (fun _ => by decide) (fun _ => by decide) 3 [vec1234 0] 0 1 2 [4] .add (.arr .A 0 []) (.scalR .mul (.arr .A 0 []) 3)
    (by
      refine ⟨⟨⟨rfl, by decide⟩, ⟨.A, ⟨rfl, rfl⟩, fun h => by cases h⟩, fun idx _ => rfl⟩,
        ⟨⟨rfl, by decide⟩, ⟨⟨.A, ⟨⟨rfl, _, rfl, rfl, trivial, rfl⟩, ⟨rfl, _, rfl, rfl, trivial, rfl⟩, by simp⟩, fun h => by cases h⟩, fun idx hi => ?_⟩, fun ops hl => ?_⟩, trivial⟩
      · have : idx ∈ box [4] := mem_box.mpr hi
        clear hi; revert idx; decide +kernel
      · simp only [Spec.leaves, List.mem_append, List.mem_singleton, Prod.mk.injEq, true_and, or_self] at hl
        subst hl
        exact ⟨rfl, fun idx _ => rfl⟩)
    _ rfl (by decide) (by decide) (by decide) rfl rfl ⟨rfl, by decide⟩ ⟨rfl, by decide⟩ _ rfl

end Nda.Num
