import Verif.Spec.ProgramsMul
import Verif.Props.Programs
import Verif.Props.BlasVec
/-!
# C67 with products of matrices and vectors
-/
namespace Nda.Programs
open Nda Nda.Spec LayoutTransforms Assign Arith Blas Matrix Nda.Programs.Spec

variable {α : Type}

theorem places_ne_nil : ∀ e : PExpr α, ∃ q, q ∈ places e
  | .arr a p => ⟨(a, p), by simp [places]⟩
  | .neg e => places_ne_nil e
  | .bin _ l _ => by
      obtain ⟨q, h⟩ := places_ne_nil l
      exact ⟨q, by simp [places, h]⟩
  | .scalL _ _ r => places_ne_nil r
  | .scalR _ l _ => places_ne_nil l
  | .call n _ es => by
      obtain ⟨q, h⟩ := places_ne_nil (es 0)
      exact ⟨q, by simp only [places, List.mem_flatMap]; exact ⟨0, List.mem_finRange _, h⟩⟩

/-- A temporary: a view of new memory. -/
structure Temp (mem : List α) (ext : List Int) (f : List Int → α) (res : View) (mem1 : List α) : Prop where
  good : Good res mem1.length
  len : res.lay.len = ext
  elems : ∀ idx, InRange ext idx → val mem1 (addr res idx) = some (f idx)
  above : ∀ idx, InRange ext idx → (mem.length : Int) ≤ addr res idx
  old : ∀ k : Int, k < mem.length → val mem1 k = val mem k
  grow : mem.length ≤ mem1.length

theorem val_take {mem : List α} {n : Nat} {k : Int} (h : k < n) : val (mem.take n) k = val mem k := by
  unfold val
  split
  · rfl
  · rw [List.getElem?_take, if_pos (by omega)]

theorem val_none {mem : List α} {k : Int} (h : (mem.length : Int) ≤ k) : val mem k = none := by
  unfold val
  rw [if_neg (by omega), List.getElem?_eq_none (by omega)]

/-- After the temporaries are gone, only the target has changed. -/
theorem updated_take {w : View} {g : List Int → Option α} {mem mem1 mem2 : List α} (hw : Good w mem.length) (hu : Updated w g mem1 mem2)
    (hold : ∀ k : Int, k < mem.length → val mem1 k = val mem k) (hg : mem.length ≤ mem1.length) : Updated w g mem (mem2.take mem.length) := by
  refine ⟨by rw [List.length_take, hu.size]; omega, fun idx hi => ?_, fun k hk => ?_⟩
  · rw [val_take (hw.fits idx hi).2, hu.elems idx hi]
  · by_cases h : k < mem.length
    · rw [val_take h, hu.frame k hk, hold k h]
    · rw [val_none (by rw [List.length_take]; omega), val_none (by omega)]

section
variable [CommRing α] [Div α]

theorem value_later {env : List View} {mem mem2 : List α} (he : EnvOK env mem.length) {A : Arrays α} (hA : Holds env mem A) {alg : Alg} {ext : List Int} {e : PExpr α} {e' : Expr α}
    (hM : alg = .M → ext.length = 2) (hf : FactorOK env alg e ext) (hb : e.build env = some e') (h2 : ∀ k : Int, k < mem.length → val mem2 k = val mem k)
    {idx : List Int} (hi : InRange ext idx) : e'.get idx mem2 = some (value (lensOf env) A alg e idx) := by
  obtain ⟨e'', b1, b2, b3, b4, b5, -⟩ := build_facts he hA alg ext e hf.legal hf.shape
  rw [hb] at b1; cases b1
  have hle : mem.length ≤ mem2.length := by
    by_contra hlt
    have h := h2 (mem2.length : Int) (by omega)
    rw [val_none (Int.le_refl _)] at h
    obtain ⟨x, hx⟩ := val_isSome (mem := mem) (k := (mem2.length : Int)) ⟨by omega, by omega⟩
    rw [hx] at h; cases h
  rw [← b5 idx hi]
  refine C26_eval alg ext mem2 (elemAt mem) idx hi (fun h => ⟨hM h, ZeroLaws.of_group⟩) e' b2 b3 (fun v hv => ?_)
  obtain ⟨q, hq, b, hF⟩ := b4 v hv
  refine ⟨hF.good.mono hle, ?_⟩
  rw [h2 _ (hF.good.fits idx (by rw [hF.len]; exact hi)).2, facts_holds hF hA hi, elemAt_eq hF hA hi]

theorem operand_ok {env : List View} {mem : List α} (he : EnvOK env mem.length) {A : Arrays α} (hA : Holds env mem A) (cj : α → α) {e : PExpr α} {n0 n1 : Int}
    (hf : FactorOK env .M e [n0, n1]) (hb : ForBlas env e n0 n1) :
    ∃ o, operandOf env e = some o ∧ OperandOK cj o n0 n1 mem (fun i j => value (lensOf env) A .M e [i, j]) := by
  obtain ⟨e', b1, b2, b3, b4, b5, -⟩ := build_facts he hA .M [n0, n1] e hf.legal hf.shape
  have other : (∀ a p, e ≠ .arr a p) → ∃ o, operandOf env e = some o ∧ OperandOK cj o n0 n1 mem (fun i j => value (lensOf env) A .M e [i, j]) := by
    intro hne
    have hs := C26_shape b3
    refine ⟨.other false e'.info.so n0 n1 (fun idx mem => e'.get idx mem), ?_, rfl, rfl, nofun, fun i j i0 i1 j0 j1 mem2 h2 => ?_⟩
    · cases e with
      | arr a p => exact absurd rfl (hne a p)
      | _ => simp only [operandOf, b1, Option.bind_eq_bind, Option.bind_some, hs, rd]; rfl
    · exact value_later he hA (fun _ => rfl) hf b1 h2 (inRange2.mpr ⟨i, j, rfl, i0, i1, j0, j1⟩)
  cases e with
  | arr a p =>
      obtain ⟨h1, h2⟩ := hf.shape (a, p) (by simp [places])
      obtain ⟨b, w, hF⟩ := place_facts he h2
      refine ⟨.mat ⟨w, false⟩ p.ops.isEmpty, by simp [operandOf, hF.eq], hb a p rfl w hF.eq, hF.good, _, fun i j i0 i1 j0 j1 => ?_, rfl⟩
      exact facts_holds hF hA (inRange2.mpr ⟨i, j, rfl, i0, i1, j0, j1⟩)
  | _ => exact other nofun

theorem vector_ok {env : List View} {mem : List α} (he : EnvOK env mem.length) {A : Arrays α} (hA : Holds env mem A) {e : PExpr α} {n : Int} (hf : FactorOK env .V e [n]) :
    ∃ r, vectorOf env e = some (n, r) ∧ Yields r [n] mem (fun idx => value (lensOf env) A .V e [idx.getD 0 0]) := by
  obtain ⟨e', b1, b2, b3, b4, b5, -⟩ := build_facts he hA .V [n] e hf.legal hf.shape
  have hidx : ∀ idx, InRange [n] idx → [idx.getD 0 0] = idx := by
    intro idx hi
    obtain ⟨i, rfl, _⟩ := inRange1.mp hi
    rfl
  have other : (∀ a p, e ≠ .arr a p) → ∃ r, vectorOf env e = some (n, r) ∧ Yields r [n] mem (fun idx => value (lensOf env) A .V e [idx.getD 0 0]) := by
    intro hne
    have hs := C26_shape b3
    refine ⟨.expr (fun idx mem => e'.get idx mem), ?_, fun idx hi mem2 h2 => ?_⟩
    · cases e with
      | arr a p => exact absurd rfl (hne a p)
      | _ => simp only [vectorOf, b1, Option.bind_eq_bind, Option.bind_some, hs, rd]; rfl
    · simp only [hidx idx hi]
      exact value_later he hA (alg := .V) (fun h => absurd h (by decide)) hf b1 h2 hi
  cases e with
  | arr a p =>
      obtain ⟨h1, h2⟩ := hf.shape (a, p) (by simp [places])
      obtain ⟨b, w, hF⟩ := place_facts he h2
      refine ⟨.inMem w false, by simp [vectorOf, hF.eq, hF.len, rd], hF.good, hF.len, nofun, fun idx hi => ?_⟩
      simp only [hidx idx hi]
      exact facts_holds hF hA hi
  | _ => exact other nofun

omit [CommRing α] [Div α] in
theorem Spec.FactorOK.shapes {env : List View} {alg : Alg} {e : PExpr α} {ext : List Int} (h : FactorOK env alg e ext) : ExprShape (lensOf env) e ext :=
  fun q hq => PlaceFacts.placeShape (h.shape q hq).2

omit [CommRing α] [Div α] in
theorem Spec.FactorOK.shape_eq {env : List View} {alg : Alg} {e : PExpr α} {ext ext' : List Int} (h : FactorOK env alg e ext) (h' : ExprShape (lensOf env) e ext') : ext' = ext := by
  obtain ⟨q, hq⟩ := places_ne_nil e
  exact placeShape_eq (h.shape q hq).2 (h' q hq)

variable [DecidableEq α]

/-- The product as a temporary. -/
theorem make_eq {env : List View} {mem : List α} (he : EnvOK env mem.length) {A : Arrays α} (hA : Holds env mem A) (cj : α → α) (junk : α) {x : Product α} {ext : List Int}
    (hx : ProductOK env ext x) :
    ∃ n res mem1, ProductShape (lensOf env) ext n x ∧ x.make cj junk env mem = some (.ok (res, mem1)) ∧ Temp mem ext (productValue (lensOf env) A n x) res mem1 ∧ ext ≠ [] := by
  cases x with
  | mm l r =>
      obtain ⟨n0, n1, n2, rfl, p0, p1, p2, hl, hr, bl, br⟩ := hx
      obtain ⟨o, e1, o1⟩ := operand_ok he hA cj hl bl
      obtain ⟨o', e2, o2⟩ := operand_ok he hA cj hr br
      obtain ⟨res, mem1, e, hN⟩ := C41_matmul_partial cj junk o o' n0 n1 n2 p0.1 p1.1 p2.1 p0.2 p1.2 p2.2 mem _ _ o1 o2
      refine ⟨n1, res, mem1, ⟨n0, n2, rfl, hl.shapes, hr.shapes⟩, ?_, ⟨hN.good, hN.len, fun idx hi => ?_, hN.above, hN.old, hN.grow⟩, by simp⟩
      · simp [Product.make, e1, e2, e]
      · obtain ⟨i, j, rfl, i0, i1, j0, j1⟩ := inRange2.mp hi
        rw [hN.entry i j i0 i1 j0 j1]; rfl
  | mv l r =>
      obtain ⟨n0, n1, rfl, p0, p1, hl, hr, bl⟩ := hx
      obtain ⟨o, e1, o1⟩ := operand_ok he hA cj hl bl
      obtain ⟨b, e2, o2⟩ := vector_ok he hA hr
      obtain ⟨res, mem1, e, g1, g2, g3, g4, g5⟩ := C42_matvecmul_partial cj junk o b n0 n1 p0.1 p1.1 p0.2 p1.2 mem _ (fun k => value (lensOf env) A .V r [k]) o1 o2
      refine ⟨n1, res, mem1, ⟨n0, rfl, hl.shapes, hr.shapes⟩, ?_, ⟨g2, g1, fun idx hi => ?_, g5, g4.old, g4.grow⟩, by simp⟩
      · simp [Product.make, e1, e2, e]
      · obtain ⟨i, rfl, i0, i1⟩ := inRange1.mp hi
        rw [g3 i i0 i1]; rfl

/-- C67, one statement, with products: it succeeds, and if memory held the arrays `A` before, it holds `A'` after. -/
theorem C67_product (cj : α → α) (triv : Bool) (junk : α) (env : List View) (c : Cmd α) (mem : List α) (A : Arrays α) (he : EnvOK env mem.length) (hA : Holds env mem A) (hc : CmdOK env c) :
    ∃ mem' A', execCmd cj triv junk env c mem = some (some mem') ∧ mem'.length = mem.length ∧ CmdEffect (lensOf env) A A' c ∧ Holds env mem' A' := by
  cases c with
  | stmt s => exact C67_statement ZeroLaws.of_group triv junk env s mem A he hA hc
  | product p x =>
      obtain ⟨ext, hp, hx⟩ := hc
      obtain ⟨b, w, hF⟩ := place_facts he hp
      obtain ⟨n, res, mem1, h1, h2, h3, h0⟩ := make_eq he hA cj junk hx
      obtain ⟨A', hW⟩ := writes_exists he hp (productValue (lensOf env) A n x) A
      obtain ⟨mem2, g1, g2⟩ := C17_assign_host true false w res mem1 (hF.good.mono h3.grow) h3.good (by rw [h3.len, hF.len]) hF.one
        (fun idx jdx hi hj e => by
          have := (hF.good.fits idx hi).2
          have := h3.above jdx (by rw [← h3.len]; exact hj)
          omega) nofun (Or.inl (by rw [hF.len]; exact h0))
      have hu := updated_take hF.good g2 h3.old h3.grow
      refine ⟨mem2.take mem.length, A', ?_, hu.size, ⟨ext, n, PlaceFacts.placeShape hp, h1, hW⟩, ?_⟩
      · simp [execCmd, withProduct, hF.eq, h2, assignExpr, g1]
      · refine holds_updated he hF hA ⟨hu.size, fun idx hi => ?_, hu.frame⟩ hW
        rw [hu.elems idx hi, h3.elems idx (by rw [← hF.len]; exact hi)]
  | productInto op p x =>
      obtain ⟨hop, ext, hp, hx⟩ := hc
      obtain ⟨b, w, hF⟩ := place_facts he hp
      obtain ⟨n, res, mem1, h1, h2, h3, h0⟩ := make_eq he hA cj junk hx
      obtain ⟨A', hW⟩ := writes_exists he hp (fun idx => arith op (A p.name (src (lensOf env) p idx)) (productValue (lensOf env) A n x idx)) A
      have hw1 : ∀ idx, InRange w.lay.len idx → val mem1 (addr w idx) = some (elemAt mem1 w idx) := by
        intro idx hi
        obtain ⟨y, hy⟩ := val_isSome ((hF.good.mono h3.grow).fits idx hi)
        rw [elemAt, hy]; rfl
      have hr1 : ∀ idx, InRange ext idx → elemAt mem1 res idx = productValue (lensOf env) A n x idx := by
        intro idx hi
        rw [elemAt, h3.elems idx hi]; rfl
      obtain ⟨mem2, g1, g2⟩ := C26_compound op x.alg w (.arr x.alg res) mem1 (elemAt mem1) (hF.good.mono h3.grow) hF.one rfl
        (hop.imp_right Or.inl) ⟨rfl, by rw [h3.len, hF.len]⟩
        (fun g => ⟨by
          cases x with
          | mm l r => obtain ⟨n0, n1, n2, rfl, _⟩ := hx; rw [hF.len]; rfl
          | mv l r => exact absurd (show Alg.V = Alg.M from g) (by decide), ZeroLaws.of_group⟩)
        (by
          rintro v (rfl | hv)
          · exact ⟨hF.good.mono h3.grow, Aligned.self hF.one, rfl, hw1⟩
          · simp only [Arith.Spec.leaves, List.mem_singleton] at hv
            subst hv
            refine ⟨h3.good, fun idx jdx hi hj e => ?_, by rw [h3.len, hF.len], fun idx hi => ?_⟩
            · have := (hF.good.fits idx hi).2
              have := h3.above jdx (by rw [← h3.len]; exact hj)
              omega
            · rw [hF.len] at hi
              rw [h3.elems idx hi, hr1 idx hi])
      have hu := updated_take hF.good g2 h3.old h3.grow
      refine ⟨mem2.take mem.length, A', ?_, hu.size, ⟨ext, n, PlaceFacts.placeShape hp, h1, hW⟩, ?_⟩
      · simp [execCmd, withProduct, hF.eq, h2, g1]
      · refine holds_updated he hF hA (f := fun idx => arith op (A p.name (src (lensOf env) p idx)) (productValue (lensOf env) A n x idx)) ⟨hu.size, fun idx hi => ?_, hu.frame⟩ hW
        rw [hu.elems idx hi]
        have hi' := hi
        rw [hF.len] at hi'
        have e1 : elemAt mem1 w idx = A p.name (src (lensOf env) p idx) := by
          rw [elemAt, h3.old _ (hF.good.fits idx hi).2, facts_holds hF hA hi']; rfl
        simp only [Arith.Spec.value, e1, hr1 idx hi']
        cases op <;> rfl

omit [DecidableEq α] in
theorem productShape_eq {env : List View} {ext : List Int} {n n' : Int} {x : Product α} (hx : ProductOK env ext x) (h : ProductShape (lensOf env) ext n x)
    (h' : ProductShape (lensOf env) ext n' x) : n = n' := by
  cases x with
  | mm l r =>
      obtain ⟨n0, n1, n2, -, -, -, -, hl, -⟩ := hx
      obtain ⟨m0, m2, -, g, -⟩ := h
      obtain ⟨m0', m2', -, g', -⟩ := h'
      have := hl.shape_eq g; have := hl.shape_eq g'
      simp_all
  | mv l r =>
      obtain ⟨n0, n1, -, -, -, hl, -⟩ := hx
      obtain ⟨m0, -, g, -⟩ := h
      obtain ⟨m0', -, g', -⟩ := h'
      have := hl.shape_eq g; have := hl.shape_eq g'
      simp_all

theorem cmdEffect_unique {env : List View} {A B B' : Arrays α} {c : Cmd α} (hc : CmdOK env c) (h : CmdEffect (lensOf env) A B c) (h' : CmdEffect (lensOf env) A B' c) : B = B' := by
  cases c with
  | stmt s => exact effect_unique hc h h'
  | product p x =>
      obtain ⟨ext, hp, hx⟩ := hc
      obtain ⟨e1, n, g1, s1, w1⟩ := h
      obtain ⟨e2, n', g2, s2, w2⟩ := h'
      obtain rfl := placeShape_eq hp g1
      obtain rfl := placeShape_eq hp g2
      obtain rfl := productShape_eq hx s1 s2
      exact writes_unique w1 w2
  | productInto op p x =>
      obtain ⟨-, ext, hp, hx⟩ := hc
      obtain ⟨e1, n, g1, s1, w1⟩ := h
      obtain ⟨e2, n', g2, s2, w2⟩ := h'
      obtain rfl := placeShape_eq hp g1
      obtain rfl := placeShape_eq hp g2
      obtain rfl := productShape_eq hx s1 s2
      exact writes_unique w1 w2

/-- C67 with products: every allowed program succeeds and does to memory what it does to arrays of numbers. -/
theorem C67_product_program (cj : α → α) (triv : Bool) (junk : α) (env : List View) (cs : List (Cmd α)) : ∀ (mem : List α) (A : Arrays α), EnvOK env mem.length →
    Holds env mem A → (∀ c ∈ cs, CmdOK env c) →
    ∃ mem' A', runCmds cj triv junk env cs mem = some (some mem') ∧ mem'.length = mem.length ∧ CmdEffects (lensOf env) cs A A' ∧ Holds env mem' A' := by
  induction cs with
  | nil => exact fun mem A _ hA _ => ⟨mem, A, rfl, rfl, rfl, hA⟩
  | cons c cs ih =>
      intro mem A he hA hs
      obtain ⟨m1, A1, h1, h2, h3, h4⟩ := C67_product cj triv junk env c mem A he hA (hs c (by simp))
      obtain ⟨m2, A2, g1, g2, g3, g4⟩ := ih m1 A1 (by rw [h2]; exact he) h4 (fun t ht => hs t (by simp [ht]))
      exact ⟨m2, A2, by simp [runCmds, h1, g1], by rw [g2, h2], ⟨A1, h3, g3⟩, g4⟩

/-! ### No exceptions -/

section
variable {β γ : Type}

/-- The computation does not throw. -/
structure Calm (x : Except Blas.Err β) : Prop where
  ne : x ≠ .error .runtime

theorem calm_orUb (x : Option β) : Calm (orUb x) := ⟨by cases x <;> nofun⟩

theorem calm_ok (x : β) : Calm (.ok x : Except Blas.Err β) := ⟨nofun⟩

theorem calm_bind {x : Except Blas.Err β} {f : β → Except Blas.Err γ} (hx : Calm x) (hf : ∀ y, Calm (f y)) : Calm (x >>= f) := by
  cases x with
  | error e => exact ⟨fun h => hx.ne (by simpa [bind, Except.bind] using h)⟩
  | ok y => exact hf y

end

omit [CommRing α] [Div α] in
theorem calm_getOp (c t : Bool) : Calm (getOp c t) := ⟨by cases c <;> cases t <;> nofun⟩

theorem calm_f77gemm (cj : α → α) (ta tb : Tag) (m n k : Int) (alpha : α) (a lda b ldb : Int) (beta : α) (c ldc : Int) (mem : List α) :
    Calm (f77gemm cj ta tb m n k alpha a lda b ldb beta c ldc mem) := by
  unfold f77gemm
  dsimp only
  repeat' split
  all_goals first | exact calm_orUb _ | exact ⟨nofun⟩

theorem calm_f77gemv (cj : α → α) (t : Tag) (m n : Int) (alpha : α) (a lda x incx : Int) (beta : α) (y incy : Int) (mem : List α) :
    Calm (f77gemv cj t m n alpha a lda x incx beta y incy mem) := by
  unfold f77gemv
  dsimp only
  repeat' split
  all_goals first | exact calm_orUb _ | exact ⟨nofun⟩

theorem calm_gemmFortran (cj : α → α) (alpha : α) (x y : Mat) (beta : α) (c : View) (mem : List α) : Calm (gemmFortran cj alpha x y beta c mem) := by
  unfold gemmFortran
  repeat' first | exact calm_f77gemm .. | exact calm_orUb _ | exact calm_getOp .. | refine calm_bind ?_ fun _ => ?_

theorem calm_gemm (cj : α → α) (alpha : α) (x y : Mat) (beta : α) (c : View) (mem : List α) : Calm (gemm cj alpha x y beta c mem) := by
  unfold gemm
  split
  · repeat' first | exact calm_gemmFortran .. | exact calm_orUb _ | refine calm_bind ?_ fun _ => ?_
  · exact calm_gemmFortran ..

theorem calm_matmul (cj : α → α) (junk : α) (l r : Blas.Operand α) (mem : List α) : Calm (matmul cj junk l r mem) := by
  unfold matmul
  repeat' first | exact calm_gemm .. | exact calm_ok _ | exact calm_orUb _ | refine calm_bind ?_ fun _ => ?_

theorem calm_gemv (cj : α → α) (alpha : α) (x : Mat) (b : View) (beta : α) (c : View) (mem : List α) : Calm (gemv cj alpha x b beta c mem) := by
  unfold gemv
  repeat' first | exact calm_f77gemv .. | exact calm_getOp .. | exact calm_orUb _ | refine calm_bind ?_ fun _ => ?_

theorem calm_matvecmul (cj : α → α) (junk : α) (l : Blas.Operand α) (n : Int) (r : Rhs α) (mem : List α) : Calm (matvecmul cj junk l n r mem) := by
  unfold matvecmul
  repeat' first | exact calm_gemv .. | exact calm_ok _ | exact calm_orUb _ | refine calm_bind ?_ fun _ => ?_

theorem withProduct_never (cj : α → α) (junk : α) (env : List View) (x : Product α) (mem : List α) (use : View → List α → Option (Option (List α))) (hu : ∀ v m, use v m ≠ some none) :
    withProduct cj junk env x mem use ≠ some none := by
  intro h
  simp only [withProduct, Option.bind_eq_bind, Option.bind_eq_some_iff] at h
  obtain ⟨r, h1, h2⟩ := h
  have hc : Calm r := by
    cases x with
    | mm l r' =>
        simp only [Product.make, Option.bind_eq_bind, Option.bind_eq_some_iff, pure, Option.some.injEq] at h1
        obtain ⟨_, _, _, _, rfl⟩ := h1
        exact calm_matmul ..
    | mv l r' =>
        simp only [Product.make, Option.bind_eq_bind, Option.bind_eq_some_iff, pure, Option.some.injEq] at h1
        obtain ⟨_, _, _, _, rfl⟩ := h1
        exact calm_matvecmul ..
  match r, hc, h2 with
  | .error .runtime, hc, _ => exact hc.ne rfl
  | .error .compile, _, h2 => simp at h2
  | .error .xerbla, _, h2 => simp at h2
  | .error .ub, _, h2 => simp at h2
  | .ok (res, m1), _, h2 =>
    simp only [Option.bind_eq_some_iff] at h2
    obtain ⟨o, h3, h4⟩ := h2
    cases o with
    | none => exact hu _ _ h3
    | some m => simp at h4

/-- C67: no statement throws, whether it is allowed or not. -/
theorem C67_product_no_exception (cj : α → α) (triv : Bool) (junk : α) (env : List View) (c : Cmd α) (mem : List α) : execCmd cj triv junk env c mem ≠ some none := by
  intro h
  cases c with
  | stmt s => exact C67_no_exception triv junk env s mem h
  | product p x =>
      simp only [execCmd, Option.bind_eq_bind, Option.bind_eq_some_iff] at h
      obtain ⟨_, _, h⟩ := h
      exact withProduct_never cj junk env x mem _ (fun _ _ => assignExpr_never _ _ _) h
  | productInto op p x =>
      simp only [execCmd, Option.bind_eq_bind, Option.bind_eq_some_iff] at h
      obtain ⟨v, _, h⟩ := h
      exact withProduct_never cj junk env x mem _ (fun res m => assignExpr_never v (.bin op (.arr x.alg v) (.arr x.alg res)) m) h

/-- C67: nor does a program with products. -/
theorem C67_product_program_no_exception (cj : α → α) (triv : Bool) (junk : α) (env : List View) (cs : List (Cmd α)) : ∀ mem : List α, runCmds cj triv junk env cs mem ≠ some none := by
  induction cs with
  | nil => intro mem h; cases h
  | cons c cs ih =>
      intro mem h
      simp only [runCmds, Option.bind_eq_bind, Option.bind_eq_some_iff] at h
      obtain ⟨r, h1, h2⟩ := h
      cases r with
      | none => exact C67_product_no_exception cj triv junk env c mem h1
      | some m => exact ih m h2

/-- C67 with products: the result is determined by the arrays, whatever the layouts, the temporaries and the content of new memory. -/
theorem C67_product_determined (env : List View) (cs : List (Cmd α)) : ∀ (A B B' : Arrays α), (∀ c ∈ cs, CmdOK env c) → CmdEffects (lensOf env) cs A B →
    CmdEffects (lensOf env) cs A B' → B = B' := by
  induction cs with
  | nil => intro A B B' _ h h'; rw [show B = A from h, show B' = A from h']
  | cons c cs ih =>
      rintro A B B' hs ⟨C, h1, h2⟩ ⟨C', h1', h2'⟩
      obtain rfl := cmdEffect_unique (hs c (by simp)) h1 h1'
      exact ih C B B' (fun t ht => hs t (by simp [ht])) h2 h2'

end

/-! ## Concrete cases -/

/-- `a` (2 x 2, C order), `b` (2 x 2, Fortran order), `v` (2). -/
def mulEnv : List View := (declare 0 [([0, 1], [2, 2]), ([1, 0], [2, 2]), ([0], [2])]).getD []

/-- `a = a * b; b -= (a + b) * a; v = b * a(:, 1)`. -/
def mulProg : List (Cmd Int) :=
  let a : PExpr Int := .arr .M ⟨0, []⟩
  let b : PExpr Int := .arr .M ⟨1, []⟩
  [.product ⟨0, []⟩ (.mm a b), .productInto .sub ⟨1, []⟩ (.mm (.bin .add a b) a), .product ⟨2, []⟩ (.mv b (.arr .V ⟨0, [.slice [.all, .idx 1]]⟩))]

theorem mulEnv_ok : EnvOK mulEnv 10 := by
  obtain ⟨env, h1, _, h3, _⟩ := declare_facts [([0, 1], [2, 2]), ([1, 0], [2, 2]), ([0], [2])] 0 (by
    intro d hd
    simp only [List.mem_cons, List.not_mem_nil, or_false] at hd
    rcases hd with rfl | rfl | rfl <;> exact ⟨by decide, rfl, by decide⟩)
  have : mulEnv = env := by rw [mulEnv, h1]; rfl
  rw [this]; exact h3

theorem mul_a : PlaceOK mulEnv ⟨0, []⟩ [2, 2] := ⟨_, rfl, trivial, trivial, rfl⟩
theorem mul_b : PlaceOK mulEnv ⟨1, []⟩ [2, 2] := ⟨_, rfl, trivial, trivial, rfl⟩
theorem mul_v : PlaceOK mulEnv ⟨2, []⟩ [2] := ⟨_, rfl, trivial, trivial, rfl⟩
theorem mul_col : PlaceOK mulEnv ⟨0, [.slice [.all, .idx 1]]⟩ [2] :=
  ⟨_, rfl, ⟨⟨by decide, Or.inl ⟨by simp, rfl⟩, ⟨trivial, ⟨by decide, by decide⟩, trivial⟩⟩, fun _ _ => trivial⟩, ⟨nofun, fun _ _ => trivial⟩, [2], ⟨rfl, trivial⟩, rfl⟩

theorem mul_fa : FactorOK mulEnv .M (.arr .M ⟨0, []⟩ : PExpr Int) [2, 2] := ⟨trivial, by simp only [places, List.mem_singleton]; rintro _ rfl; exact ⟨rfl, mul_a⟩⟩
theorem mul_fb : FactorOK mulEnv .M (.arr .M ⟨1, []⟩ : PExpr Int) [2, 2] := ⟨trivial, by simp only [places, List.mem_singleton]; rintro _ rfl; exact ⟨rfl, mul_b⟩⟩

theorem blas_a : ForBlas mulEnv (.arr .M ⟨0, []⟩ : PExpr Int) 2 2 := by
  intro a p h v hv
  cases h
  have : v = ⟨0, ⟨[2, 2], [2, 1], [0, 1], [0, 0], .contiguous⟩⟩ := by
    have e : view mulEnv ⟨0, []⟩ = some ⟨0, ⟨[2, 2], [2, 1], [0, 1], [0, 0], .contiguous⟩⟩ := by decide
    rw [e] at hv; exact (Option.some.inj hv).symm
  subst this
  exact ⟨rfl, Or.inr ⟨rfl, 2, rfl, by decide, by decide, by decide⟩, by decide, by decide⟩

theorem blas_b : ForBlas mulEnv (.arr .M ⟨1, []⟩ : PExpr Int) 2 2 := by
  intro a p h v hv
  cases h
  have : v = ⟨4, ⟨[2, 2], [1, 2], [1, 0], [0, 0], .contiguous⟩⟩ := by
    have e : view mulEnv ⟨1, []⟩ = some ⟨4, ⟨[2, 2], [1, 2], [1, 0], [0, 0], .contiguous⟩⟩ := by decide
    rw [e] at hv; exact (Option.some.inj hv).symm
  subst this
  exact ⟨rfl, Or.inl ⟨rfl, 2, rfl, by decide, by decide, by decide⟩, by decide, by decide⟩

theorem mulProg_ok : ∀ c ∈ mulProg, CmdOK mulEnv c := by
  have i2 : IntExtent 2 := ⟨by decide, by decide⟩
  intro c hc
  simp only [mulProg, List.mem_cons, List.not_mem_nil, or_false] at hc
  rcases hc with rfl | rfl | rfl
  · exact ⟨[2, 2], mul_a, 2, 2, 2, rfl, i2, i2, i2, mul_fa, mul_fb, blas_a, blas_b⟩
  · refine ⟨Or.inr rfl, [2, 2], mul_b, 2, 2, 2, rfl, i2, i2, i2, ⟨⟨trivial, trivial, nofun⟩, ?_⟩, mul_fa, nofun, blas_a⟩
    simp only [places, List.singleton_append, List.mem_cons, List.not_mem_nil, or_false]
    rintro _ (rfl | rfl)
    · exact ⟨rfl, mul_a⟩
    · exact ⟨rfl, mul_b⟩
  · refine ⟨[2], mul_v, 2, 2, rfl, i2, i2, mul_fb, ⟨trivial, ?_⟩, blas_b⟩
    simp only [places, List.mem_singleton]
    rintro _ rfl
    exact ⟨rfl, mul_col⟩

/-- `a = [[1, 2], [3, 4]]`, `b = [[0, 1], [1, 1]]`: afterwards `a = [[2, 3], [4, 7]]`, `b = [[0, 1], [1, 1]] - [[2, 4], [5, 8]] * a`, `v = b * (3, 7)`. -/
example : runCmds (fun x => x) true 9 mulEnv mulProg [1, 2, 3, 4, 0, 1, 1, 1, 0, 0] = some (some [2, 3, 4, 7, -20, -41, -33, -70, -291, -613]) := by decide +kernel

/-- A product of matrices that do not fit together is undefined behaviour, not an exception: 2 by 2 times 3 by 2 reads beyond the left matrix. -/
example : execCmd (fun x => x) true 9 [⟨0, ⟨[2, 2], [2, 1], [0, 1], [0, 0], .contiguous⟩⟩, ⟨4, ⟨[2], [1], [0], [0], .contiguous⟩⟩]
    (.product ⟨0, []⟩ (.mm (.arr .M ⟨0, []⟩) (.arr .M ⟨1, []⟩))) ([1, 2, 3, 4, 5, 6] : List Int) = none := by decide +kernel

/-- The hypotheses of `C67_product_program`, `C67_product` and `C67_product_determined`. -/
theorem mulEnv_holds : ∃ A, Holds mulEnv ([1, 2, 3, 4, 0, 1, 1, 1, 0, 0] : List Int) A := by
  obtain ⟨env, h1, _, _, h4⟩ := C67_start [([0, 1], [2, 2]), ([1, 0], [2, 2]), ([0], [2])] (by
    intro d hd
    simp only [List.mem_cons, List.not_mem_nil, or_false] at hd
    rcases hd with rfl | rfl | rfl <;> exact ⟨by decide, rfl, by decide⟩) ([1, 2, 3, 4, 0, 1, 1, 1, 0, 0] : List Int) (by decide)
  have : mulEnv = env := by rw [mulEnv, h1]; rfl
  rw [this]; exact h4

example : ∃ A A' mem', runCmds (fun x => x) true 9 mulEnv mulProg ([1, 2, 3, 4, 0, 1, 1, 1, 0, 0] : List Int) = some (some mem') ∧
    CmdEffects (lensOf mulEnv) mulProg A A' ∧ Holds mulEnv mem' A' := by
  obtain ⟨A, hA⟩ := mulEnv_holds
  obtain ⟨mem', A', h1, _, h2, h3⟩ := C67_product_program (fun x => x) true 9 mulEnv mulProg [1, 2, 3, 4, 0, 1, 1, 1, 0, 0] A mulEnv_ok hA mulProg_ok
  exact ⟨A, A', mem', h1, h2, h3⟩

example (A : Arrays Int) (hA : Holds mulEnv [1, 2, 3, 4, 0, 1, 1, 1, 0, 0] A) :=
  C67_product (fun x => x) true 9 mulEnv (.product ⟨0, []⟩ (.mm (.arr .M ⟨0, []⟩) (.arr .M ⟨1, []⟩))) [1, 2, 3, 4, 0, 1, 1, 1, 0, 0] A mulEnv_ok hA (mulProg_ok _ (by simp [mulProg]))

example (A B B' : Arrays Int) := C67_product_determined mulEnv mulProg A B B' mulProg_ok

end Nda.Programs
