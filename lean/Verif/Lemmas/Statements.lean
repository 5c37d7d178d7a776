import Verif.Spec.Statements
import Verif.Lemmas.ReferencesStep
import Verif.Props.Arithmetic
import Verif.Props.Programs
/-!
# Programs with arithmetic statements: lemmas
-/
namespace Nda.Num
open Nda Nda.Mem Nda.Spec Nda.Arr Nda.Arr.Spec Loops Nda.Perm LayoutTransforms Arith Arith.Spec Nda.Num.Spec Nda.IdxMap

variable {V : Type}

/-! ### Values -/

section
variable [Add V] [Sub V] [Mul V] [Div V] [Neg V] [Zero V]

theorem value_congr {alg : Alg} {el el' : Nat → List Op → V} {idx : List Int} : ∀ {e : PExpr V}, (∀ l ∈ Spec.leaves e, el l.1 l.2 = el' l.1 l.2) →
    Spec.value alg el idx e = Spec.value alg el' idx e
  | .arr _ x ops, h => h (x, ops) (by simp [Spec.leaves])
  | .fn _ _ _, _ => rfl
  | .neg e, h => by simp only [Spec.value, value_congr (e := e) h]
  | .bin op l r, h => by
      simp only [Spec.value]
      rw [value_congr (e := l) (fun x hx => h x (by simp [Spec.leaves, hx])), value_congr (e := r) (fun x hx => h x (by simp [Spec.leaves, hx]))]
  | .scalL op s r, h => by simp only [Spec.value, value_congr (e := r) h]
  | .scalR op l s, h => by simp only [Spec.value, value_congr (e := l) h]
  | .call n f es, h => by
      simp only [Spec.value]
      congr 1
      funext i
      refine value_congr (e := es i) (fun x hx => h x ?_)
      simp only [Spec.leaves, List.mem_flatMap]
      exact ⟨i, List.mem_finRange i, hx⟩

/-- Algebra and first algebra. -/
theorem uniform_algs {a : Vals V} {alg : Alg} {ext : List Int} : ∀ {e : PExpr V}, Spec.Uniform a alg ext e → e.alg = alg ∧ firstAlg e = alg
  | .arr _ _ _, h => ⟨h.1, h.1⟩
  | .fn _ _ _, h => ⟨h.1, h.1⟩
  | .neg e, h => uniform_algs (e := e) h
  | .bin _ l _, h => uniform_algs (e := l) h.1
  | .scalL _ _ r, h => uniform_algs (e := r) h.1
  | .scalR _ l _, h => uniform_algs (e := l) h
  | .call n f es, h => by
      have h' : ∀ i, (es i).alg = alg ∧ firstAlg (es i) = alg := fun i => uniform_algs (e := es i) (h i)
      refine ⟨?_, (h' 0).2⟩
      simp only [PExpr.alg, (h' _).1]
      simp

omit [Add V] [Sub V] [Mul V] [Div V] [Neg V] [Zero V] in
/-- What is known of the arrays in the expression. -/
theorem uniform_leaf {a : Vals V} {alg : Alg} {ext : List Int} : ∀ {e : PExpr V}, Spec.Uniform a alg ext e → ∀ {x : Nat} {ops : List Op}, (x, ops) ∈ Spec.leaves e →
    ∃ y, a.get x = some y ∧ y.moved = false ∧ ChainAllowed y.shape ops ∧ ChainShape y.shape ops ext
  | .arr _ _ _, h, x, ops, hl => by
      simp only [Spec.leaves, List.mem_singleton, Prod.mk.injEq] at hl
      obtain ⟨rfl, rfl⟩ := hl
      exact h.2
  | .fn _ _ _, _, _, _, hl => by simp [Spec.leaves] at hl
  | .neg e, h, _, _, hl => uniform_leaf (e := e) h hl
  | .bin _ l r, h, _, _, hl => by
      simp only [Spec.leaves, List.mem_append] at hl
      rcases hl with hl | hl
      · exact uniform_leaf (e := l) h.1 hl
      · exact uniform_leaf (e := r) h.2.1 hl
  | .scalL _ _ r, h, _, _, hl => uniform_leaf (e := r) h.1 hl
  | .scalR _ l _, h, _, _, hl => uniform_leaf (e := l) h hl
  | .call _ _ es, h, _, _, hl => by
      simp only [Spec.leaves, List.mem_flatMap] at hl
      obtain ⟨i, -, hl⟩ := hl
      exact uniform_leaf (e := es i) (h i) hl

/-- Shapes in memory. -/
theorem shape_eq {a : Vals V} {p : AProg V} {alg : Alg} {ext : List Int} : ∀ {e : PExpr V}, Spec.Uniform a alg ext e →
    (∀ l ∈ Spec.leaves e, ∃ r, RProg.viewOf p l.1 l.2 = some r ∧ r.view.lay.len = ext) → e.shape p = some ext
  | .arr _ x ops, _, hl => by
      obtain ⟨r, h1, h2⟩ := hl (x, ops) (by simp [Spec.leaves])
      simp only [PExpr.shape, h1, Option.bind_eq_bind, Option.bind_some, h2]; rfl
  | .fn _ _ _, h, _ => by simp only [PExpr.shape, h.2]
  | .neg e, h, hl => shape_eq (e := e) h hl
  | .bin _ l r, h, hl => shape_eq (e := l) h.1 (fun x hx => hl x (by simp [Spec.leaves, hx]))
  | .scalL _ _ r, h, hl => shape_eq (e := r) h.1 hl
  | .scalR _ l _, h, hl => shape_eq (e := l) h hl
  | .call n f es, h, hl => shape_eq (e := es 0) (h 0) (fun x hx => hl x (by
      simp only [Spec.leaves, List.mem_flatMap]
      exact ⟨0, List.mem_finRange 0, hx⟩))

/-- Evaluation in memory. -/
theorem get_eq {a : Vals V} {p : AProg V} {hp : Heap V} {alg : Alg} {ext idx : List Int} (hi : InRange ext idx) (hM : alg = .M → ext.length = 2 ∧ ZeroLaws V)
    {el : Nat → List Op → V} : ∀ (e : PExpr V), Spec.Uniform a alg ext e →
      (∀ l ∈ Spec.leaves e, ((RProg.viewOf p l.1 l.2).bind fun r => RProg.refElem hp r idx) = some (el l.1 l.2)) → e.get p idx hp = some (Spec.value alg el idx e) := by
  have heq : alg = .M → ∃ i j, idx = [i, j] := by
    intro h
    have := hi.length_eq
    rw [(hM h).1] at this
    match idx, this with
    | [i, j], _ => exact ⟨i, j, rfl⟩
  intro e
  induction e with
  | arr b x ops =>
      intro _ hl
      exact hl (x, ops) (by simp [Spec.leaves])
  | fn b l f => intro _ _; rfl
  | neg e ih =>
      intro hu hl
      simp only [PExpr.get, ih hu hl]; rfl
  | bin op l r ihl ihr =>
      intro hu hl
      have h1 := ihl hu.1 (fun v hv => hl v (by simp [Spec.leaves, hv]))
      have h2 := ihr hu.2.1 (fun v hv => hl v (by simp [Spec.leaves, hv]))
      have hn : ¬ ((op = .mul ∨ op = .div) ∧ l.alg = .M) := by
        rintro ⟨h, h3⟩
        have := hu.2.2 h
        rw [(uniform_algs hu.1).1, this] at h3; cases h3
      rw [PExpr.get, if_neg hn, h1, h2]
      cases op <;> rfl
  | scalL op s r ih =>
      intro hu hl
      have h2 := ih hu.1 hl
      have ha := (uniform_algs hu.1).1
      by_cases hm : alg = .M
      · obtain ⟨i, j, rfl⟩ := heq hm
        have hz := (hM hm).2
        by_cases hij : i = j
        · subst hij
          cases op <;> simp [PExpr.get, ha, hm, equalTo, Spec.value, oper, entry, h2]
          exact absurd hm (hu.2 rfl)
        · cases op <;> simp [PExpr.get, ha, hm, equalTo, Spec.value, oper, entry, h2, hij, hz.zero_add, hz.zero_sub]
          exact absurd hm (hu.2 rfl)
      · cases op <;> simp [PExpr.get, ha, hm, Spec.value, oper, entry, h2]
  | scalR op l s ih =>
      intro hu hl
      have h2 := ih hu hl
      have ha := (uniform_algs (e := l) hu).1
      by_cases hm : alg = .M
      · obtain ⟨i, j, rfl⟩ := heq hm
        have hz := (hM hm).2
        by_cases hij : i = j
        · subst hij
          cases op <;> simp [PExpr.get, ha, hm, equalTo, Spec.value, oper, entry, h2]
        · cases op <;> simp [PExpr.get, ha, hm, equalTo, Spec.value, oper, entry, h2, hij, hz.add_zero, hz.sub_zero]
      · cases op <;> simp [PExpr.get, ha, hm, Spec.value, oper, entry, h2]
  | call n f es ih =>
      intro hu hl
      have h : ∀ i, (es i).get p idx hp = some (Spec.value alg el idx (es i)) := by
        intro i
        refine ih i (hu i) (fun v hv => hl v ?_)
        simp only [Spec.leaves, List.mem_flatMap]
        exact ⟨i, List.mem_finRange i, hv⟩
      rw [PExpr.get, sequence_some h]; rfl

end

/-! ### Reading a list of elements -/

/-- Reads the elements, then computes. -/
def readAll : List (Nat × List Int) → (Nat × List Int → V) → ((Nat × List Int → V) → V) → Comp V
  | [], env, k => .ret (k env)
  | l :: L, env, k => .read l.1 l.2 (fun v => readAll L (fun l' => if l' = l then v else env l') k)

theorem readAll_some {rd : Nat → List Int → Option V} {k : (Nat × List Int → V) → V} {w : Nat × List Int → V} : ∀ {L : List (Nat × List Int)} {env : Nat × List Int → V},
    (∀ l ∈ L, rd l.1 l.2 = some (w l)) → ∃ env', (readAll L env k).eval rd = some (k env') ∧ (∀ l ∈ L, env' l = w l) ∧ ∀ l, l ∉ L → env' l = env l
  | [], env, _ => ⟨env, rfl, by simp, fun _ _ => rfl⟩
  | l :: L, env, h => by
      obtain ⟨env', h1, h2, h3⟩ := readAll_some (k := k) (L := L) (env := fun l' => if l' = l then w l else env l') (fun x hx => h x (by simp [hx]))
      refine ⟨env', ?_, fun x hx => ?_, fun x hx => ?_⟩
      · simp only [readAll, Comp.eval, h l (by simp), Option.bind_eq_bind, Option.bind_some]; exact h1
      · by_cases hxL : x ∈ L
        · exact h2 x hxL
        · rcases List.mem_cons.mp hx with rfl | hx
          · rw [h3 _ hxL, if_pos rfl]
          · exact absurd hx hxL
      · simp only [List.mem_cons, not_or] at hx
        rw [h3 x hx.2, if_neg hx.1]

theorem readAll_def {rd : Nat → List Int → Option V} {k : (Nat × List Int → V) → V} : ∀ {L : List (Nat × List Int)} {env : Nat × List Int → V} {v : V},
    (readAll L env k).eval rd = some v → ∀ l ∈ L, (rd l.1 l.2).isSome = true
  | [], _, _, _, l, hl => by cases hl
  | l :: L, env, v, h, x, hx => by
      simp only [readAll, Comp.eval, Option.bind_eq_bind] at h
      obtain ⟨u, h1, h2⟩ := Option.bind_eq_some_iff.mp h
      rcases List.mem_cons.mp hx with rfl | hx
      · rw [h1]; rfl
      · exact readAll_def h2 x hx

/-! ### Elements of views in memory -/

theorem leaf_view {triv : Bool} {so : Nat → List Nat} {p : AProg V} {a : Vals V} (hso : ∀ i, IsPerm (so i)) (i : VInv triv so p a) {x : Nat} {y : Val V} (hx : a.get x = some y)
    {ops : List Op} {ext : List Int} (hc : ChainAllowed y.shape ops) (he : ChainShape y.shape ops ext) :
    ∃ r, RProg.viewOf p x ops = some r ∧ r.view.lay.len = ext ∧
      ∀ hp idx, InRange ext idx → RProg.refElem hp r idx = p.elemIn hp x (sourceChain (rankOf so x) ops idx) := by
  obtain ⟨m, blk, n, -, h1, h2, h3, h4, h5, h6, -⟩ := i.alive hx
  have hwf : WF m := i.wf x m (by rw [hx]; simp) h2
  obtain ⟨v, r1, r2, r3⟩ := run_wf (v := ⟨0, m⟩) hwf (by rw [h4]; exact hc)
  simp only [h4] at r2 r3
  have hlen : v.lay.len = ext := Programs.chainShape_unique hc r2 he
  refine ⟨⟨blk, v⟩, ?_, hlen, fun hp idx hi => ?_⟩
  · simp only [RProg.viewOf, h2, h3, r1, Option.bind_eq_bind, Option.bind_some]; rfl
  have hrank : rankOf so x = y.shape.length := h5.1.symm
  have hsrc := r3 idx (by rw [hlen]; exact hi)
  have h0 := prod_pos_of_inRange (hso x) h5 hsrc
  have hm : layoutOf (so x) y.shape = some m := h6.resolve_right h0
  have hsm := smallest_of_layoutOf (hso x) h5 hm
  obtain ⟨v', s1, s2, s3, s4, s5, s6⟩ := run_facts (v := ⟨0, m⟩) (os := ops) hwf hsm (by rw [h4]; exact hc)
  rw [r1] at s1; cases s1
  simp only [h4, Int.zero_add] at s6
  have e := s6 idx (by rw [hlen]; exact hi)
  have c1 := call_idx s2 s3 idx (by rw [hlen]; exact hi.length_eq)
  have c2 := call_idx hwf hsm (sourceChain y.shape.length ops idx) (by rw [h4]; exact hsrc.length_eq)
  rw [hrank]
  simp only [RProg.refElem, AProg.elemIn, AProg.elem, h2, Option.bind_eq_bind, Option.bind_some, c1, c2]
  rw [show Prog.var { p.prog with mem := { p.prog.mem with hp := hp } } x = some (.heap blk n none) from h3, ← e]
  rfl

/-! ### The right-hand side as a computation -/

section
variable [Add V] [Sub V] [Mul V] [Div V] [Neg V] [Zero V]

/-- The elements of the expression, as a computation that reads elements of arrays; outside the shape it reads an array that does not exist (`n`). -/
def rhsOf (rank : Nat → Nat) (n : Nat) (ext : List Int) (e : PExpr V) (idx : List Int) : Comp V :=
  if InRange ext idx then readAll ((Spec.leaves e).map fun l => (l.1, sourceChain (rank l.1) l.2 idx)) (fun _ => 0)
    (fun env => Spec.value (firstAlg e) (fun x ops => env (x, sourceChain (rank x) ops idx)) idx e)
  else .read n [] .ret

theorem rhsOf_some {rank : Nat → Nat} {n : Nat} {ext : List Int} {e : PExpr V} {idx : List Int} (hi : InRange ext idx) {rd : Nat → List Int → Option V} {w : Nat → List Op → V}
    (h : ∀ l ∈ Spec.leaves e, rd l.1 (sourceChain (rank l.1) l.2 idx) = some (w l.1 l.2)) : (rhsOf rank n ext e idx).eval rd = some (Spec.value (firstAlg e) w idx e) := by
  rw [rhsOf, if_pos hi]
  obtain ⟨env', h1, h2, -⟩ := readAll_some (rd := rd) (w := fun l => (rd l.1 l.2).getD 0) (k := fun env => Spec.value (firstAlg e) (fun x ops => env (x, sourceChain (rank x) ops idx)) idx e)
    (L := (Spec.leaves e).map fun l => (l.1, sourceChain (rank l.1) l.2 idx)) (env := fun _ => 0) (fun l hl => by
      obtain ⟨l', hl', rfl⟩ := List.mem_map.mp hl
      simp only [h l' hl', Option.getD_some])
  rw [h1]
  congr 1
  refine value_congr (fun l hl => ?_)
  rw [h2 _ (List.mem_map.mpr ⟨l, hl, rfl⟩)]
  simp only [h l hl, Option.getD_some]

/-- On values. -/
theorem rhsOf_eval {rank : Nat → Nat} {n : Nat} {ext : List Int} {e : PExpr V} {idx : List Int} (hi : InRange ext idx) {a : Vals V} {rd : Nat → List Int → Option V}
    (h : ∀ l ∈ Spec.leaves e, rd l.1 (sourceChain (rank l.1) l.2 idx) = a.elt l.1 (sourceChain (rank l.1) l.2 idx)) {v : V} (hv : exprEl rank a e idx = some v) :
    (rhsOf rank n ext e idx).eval rd = some v := by
  rw [exprEl] at hv
  split at hv
  · rename_i hd
    cases hv
    refine rhsOf_some hi (fun l hl => ?_)
    rw [h l hl]
    obtain ⟨u, hu⟩ := Option.isSome_iff_exists.mp (hd l hl)
    rw [hu, Option.getD_some]
    exact hu
  · cases hv

/-- In memory. -/
theorem rhsOf_mem {triv : Bool} {so : Nat → List Nat} {p : AProg V} {a : Vals V} (hso : ∀ i, IsPerm (so i)) (i : VInv triv so p a) {ext : List Int} {e : PExpr V}
    (ho : RhsOK (rankOf so) a ext e) (idx : List Int) (hp : Heap V) (v : V) (h : p.access (rhsOf (rankOf so) a.length ext e) idx hp = some v) : e.get p idx hp = some v := by
  obtain ⟨⟨alg, hu, hM⟩, -⟩ := ho
  rw [AProg.access] at h
  by_cases hi : InRange ext idx
  · have hd : ∀ l ∈ Spec.leaves e, (p.elemIn hp l.1 (sourceChain (rankOf so l.1) l.2 idx)).isSome = true := by
      intro l hl
      have h' := h
      rw [rhsOf, if_pos hi] at h'
      exact readAll_def h' (l.1, sourceChain (rankOf so l.1) l.2 idx) (List.mem_map.mpr ⟨l, hl, rfl⟩)
    have hs : ∀ l ∈ Spec.leaves e, p.elemIn hp l.1 (sourceChain (rankOf so l.1) l.2 idx) = some ((p.elemIn hp l.1 (sourceChain (rankOf so l.1) l.2 idx)).getD 0) := by
      intro l hl
      obtain ⟨u, hu⟩ := Option.isSome_iff_exists.mp (hd l hl)
      rw [hu]; rfl
    rw [rhsOf_some (w := fun x ops => (p.elemIn hp x (sourceChain (rankOf so x) ops idx)).getD 0) hi hs] at h
    cases h
    rw [(uniform_algs hu).2]
    refine get_eq hi hM e hu (fun l hl => ?_)
    obtain ⟨y, hy, -, hc, he⟩ := uniform_leaf hu hl
    obtain ⟨r, r1, r2, r3⟩ := leaf_view hso i hy hc he
    rw [r1, Option.bind_some, r3 hp idx hi]
    exact hs l hl
  · rw [rhsOf, if_neg hi] at h
    simp only [Comp.eval, Option.bind_eq_bind] at h
    obtain ⟨u, h1, -⟩ := Option.bind_eq_some_iff.mp h
    have : p.lays[a.length]? = none := List.getElem?_eq_none (by rw [i.alen])
    simp only [AProg.elemIn, AProg.elem, this, Option.bind_eq_bind, Option.bind_none] at h1
    cases h1

theorem shape_ok {triv : Bool} {so : Nat → List Nat} {p : AProg V} {a : Vals V} (hso : ∀ i, IsPerm (so i)) (i : VInv triv so p a) {ext : List Int} {e : PExpr V}
    (ho : RhsOK (rankOf so) a ext e) : e.shape p = some ext := by
  obtain ⟨⟨alg, hu, hM⟩, -⟩ := ho
  refine shape_eq hu (fun l hl => ?_)
  obtain ⟨y, hy, -, hc, he⟩ := uniform_leaf hu hl
  obtain ⟨r, r1, r2, -⟩ := leaf_view hso i hy hc he
  exact ⟨r, r1, r2⟩

end

/-! ### Statements -/

theorem inv_replace {triv : Bool} {so : Nat → List Nat} {p : AProg V} {a : Vals V} {d : Nat} {X Y : Val V} (i : VInv triv so p (a.set d (some X))) (hs : X.shape = Y.shape)
    (hm : X.moved = Y.moved) (he : ∀ idx v, InRange Y.shape idx → Y.el idx = some v → X.el idx = some v) : VInv triv so p (a.set d (some Y)) := by
  have hsh : shapes (a.set d (some Y)) = shapes (a.set d (some X)) := by rw [shapes_set, shapes_set]; simp [hs, hm]
  have hget : ∀ c x, Vals.get (a.set d (some Y)) c = some x → ∃ x', Vals.get (a.set d (some X)) c = some x' ∧ x'.shape = x.shape ∧ x'.moved = x.moved ∧
      ∀ idx v, InRange x.shape idx → x.el idx = some v → x'.el idx = some v := by
    intro c x hx
    by_cases hc : c = d
    · subst hc
      by_cases hd : c < a.length
      · rw [set_get_self hd] at hx
        cases hx
        exact ⟨X, set_get_self hd _, hs, hm, he⟩
      · rw [Vals.get, List.getElem?_eq_none (by simpa using hd)] at hx; cases hx
    · rw [set_get_ne hc] at hx
      exact ⟨x, by rw [set_get_ne hc]; exact hx, rfl, rfl, fun _ _ _ h => h⟩
  refine ⟨by rw [hsh]; exact i.inv, fun c m hc hl => ?_, fun c x hx hmv idx v hi hv => ?_⟩
  · obtain ⟨x, hx⟩ := Option.ne_none_iff_exists'.mp hc
    obtain ⟨x', hx', -⟩ := hget c x hx
    exact i.wf c m (by rw [hx']; simp) hl
  · obtain ⟨x', hx', h1, h2, h3⟩ := hget c x hx
    exact i.holds c x' hx' (by rw [h2]; exact hmv) idx v (by rw [h1]; exact hi) (h3 idx v hi hv)

section
variable [Add V] [Sub V] [Mul V] [Div V] [Neg V] [Zero V]
variable {triv : Bool} {so : Nat → List Nat} {p : AProg V} {a : Vals V}

theorem build_step (dflt : V) (hso : ∀ i, IsPerm (so i)) (hne : ∀ i, so i ≠ []) (i : VInv triv so p a) {d : Nat} {ext : List Int} {e : PExpr V} (hs : IsShape (so d) ext)
    (ho : RhsOK (rankOf so) a ext e) :
    ∃ p', buildFrom triv dflt so p d e = some p' ∧ VInv triv so p' (a.put d ⟨ext, false, exprEl (rankOf so) a e⟩) := by
  obtain ⟨p', h1, h2⟩ := i.step dflt hso hne (.build d ext (rhsOf (rankOf so) a.length ext e)) ⟨hs, fun idx hi => by
    obtain ⟨v, hv⟩ := Option.isSome_iff_exists.mp (ho.2 idx hi)
    rw [rhsOf_eval hi (fun _ _ => rfl) hv]; rfl⟩
  refine ⟨p', ?_, ?_⟩
  · simp only [buildFrom, shape_ok hso i ho, Option.bind_eq_bind, Option.bind_some]
    exact build_mono (dflt := dflt) (rhsOf_mem hso i ho) h1
  · simp only [vnext, Vals.put] at h2 ⊢
    split
    · rename_i hd
      rw [if_pos hd] at h2
      exact inv_replace h2 rfl rfl (fun idx v hi hv => rhsOf_eval hi (fun _ _ => rfl) hv)
    · rename_i hd
      rw [if_neg hd] at h2
      exact h2

omit [Add V] [Sub V] [Mul V] [Div V] [Neg V] [Zero V] in
theorem elt_assign {d : Nat} {ext : List Int} {e : PExpr V} {rank : Nat → Nat} (hn : NoOverlapResize rank a d ext e) {idx : List Int} (hi : InRange ext idx) :
    ∀ l ∈ Spec.leaves e, a.eltAssign d ext idx l.1 (sourceChain (rank l.1) l.2 idx) = a.elt l.1 (sourceChain (rank l.1) l.2 idx) := by
  rintro ⟨x, ops⟩ hl
  simp only [Vals.eltAssign]
  rw [if_neg]
  rintro ⟨h1, h2⟩
  subst h1
  obtain ⟨k1, k2⟩ := hn ops hl
  exact h2 ⟨k2 idx hi, k1⟩

theorem assign_step (dflt : V) (hso : ∀ i, IsPerm (so i)) (hne : ∀ i, so i ≠ []) (i : VInv triv so p a) {d : Nat} {ext : List Int} {e : PExpr V} (hs : IsShape (so d) ext)
    (ho : RhsOK (rankOf so) a ext e) (hn : NoOverlapResize (rankOf so) a d ext e) :
    ∃ p', assignFrom triv dflt so p d e = some p' ∧ VInv triv so p' (a.upd d ⟨ext, false, exprEl (rankOf so) a e⟩) := by
  obtain ⟨p', h1, h2⟩ := i.step dflt hso hne (.assign d ext (rhsOf (rankOf so) a.length ext e)) ⟨hs, fun idx hi => by
    obtain ⟨v, hv⟩ := Option.isSome_iff_exists.mp (ho.2 idx hi)
    rw [rhsOf_eval hi (elt_assign hn hi) hv]; rfl⟩
  refine ⟨p', ?_, ?_⟩
  · simp only [assignFrom, shape_ok hso i ho, Option.bind_eq_bind, Option.bind_some]
    exact assign_mono (dflt := dflt) (rhsOf_mem hso i ho) h1
  · simp only [vnext, Vals.upd] at h2 ⊢
    split
    · rename_i hd
      rw [if_pos hd] at h2
      exact h2
    · rename_i hd
      rw [if_neg hd] at h2
      exact inv_replace h2 rfl rfl (fun idx v hi hv => rhsOf_eval hi (elt_assign hn hi) hv)

omit [Add V] [Sub V] [Mul V] [Div V] [Neg V] [Zero V] in
theorem elt_put {d : Nat} {ops : List Op} {ext : List Int} {e : PExpr V} {rank : Nat → Nat} (hn : NoOverlap rank d ops ext e) {idx : List Int} (hi : InRange ext idx) :
    ∀ l ∈ Spec.leaves e, a.eltPut d (rank d) ops ext idx l.1 (sourceChain (rank l.1) l.2 idx) = a.elt l.1 (sourceChain (rank l.1) l.2 idx) := by
  rintro ⟨x, ops'⟩ hl
  simp only [Vals.eltPut]
  rw [if_neg]
  rintro ⟨h1, h2, h3⟩
  subst h1
  rcases hn ops' hl idx hi with h | h
  · exact h2 h
  · exact h3 h

theorem put_step (dflt : V) (hso : ∀ i, IsPerm (so i)) (hne : ∀ i, so i ≠ []) (i : VInv triv so p a) {d : Nat} {ops : List Op} {ext : List Int} {e : PExpr V}
    (hv : ∀ x, a.get d = some x → x.moved = false ∧ ChainAllowed x.shape ops ∧ ChainShape x.shape ops ext)
    (ho : RhsOK (rankOf so) a ext e) (hn : NoOverlap (rankOf so) d ops ext e) :
    ∃ p', putFrom triv p d ops e = some p' ∧ VInv triv so p' (match a.get d with
      | some x => a.set d (some (overwrite x ops ext (exprEl (rankOf so) a e)))
      | none => a) := by
  have hrank : ∀ x, a.get d = some x → x.shape.length = rankOf so d := by
    intro x hx
    obtain ⟨_, _, _, -, -, -, -, -, h5, -⟩ := i.alive hx
    exact h5.1
  obtain ⟨p', h1, h2⟩ := i.step dflt hso hne (.put d ops ext (rhsOf (rankOf so) a.length ext e)) (fun x hx => ⟨(hv x hx).1, (hv x hx).2.1, (hv x hx).2.2, fun idx hi => by
    obtain ⟨v, hv⟩ := Option.isSome_iff_exists.mp (ho.2 idx hi)
    rw [hrank x hx, rhsOf_eval hi (elt_put hn hi) hv]; rfl⟩)
  refine ⟨p', ?_, ?_⟩
  · simp only [AProg.vstep] at h1
    simp only [putFrom]
    split at h1
    · rename_i hal
      rw [if_pos hal]
      simp only [AProg.putAll, Option.bind_eq_bind] at h1
      obtain ⟨m, e1, h1⟩ := Option.bind_eq_some_iff.mp h1
      obtain ⟨v, e2, h1⟩ := Option.bind_eq_some_iff.mp h1
      obtain ⟨q, e3, h1⟩ := Option.bind_eq_some_iff.mp h1
      cases h1
      obtain ⟨y, hy⟩ : ∃ y, p.prog.var d = some y := by
        simp only [AProg.alive, Bool.and_eq_true] at hal
        exact Option.isSome_iff_exists.mp hal.2
      simp only [RProg.viewOf, e1, hy, e2, Option.bind_eq_bind, Option.bind_some]
      have := putInto_of_loop hy v (rhsOf_mem hso i ho) e3
      rw [show ((pure ⟨y.data, v⟩ : Option Ref)) = some ⟨y.data, v⟩ from rfl, Option.bind_some, this]; rfl
    · rename_i hal
      rw [if_neg hal]; exact h1
  · simp only [vnext] at h2
    cases hx : a.get d with
    | none => rw [hx] at h2; exact h2
    | some x =>
        rw [hx] at h2
        refine inv_replace h2 rfl rfl (fun jdx v hj hv => ?_)
        simp only [overwrite] at hv
        simp only [putEl]
        cases hn' : inView x.shape.length ops ext jdx with
        | none => rw [hn'] at hv; exact hv
        | some idx =>
            rw [hn'] at hv
            simp only at hv ⊢
            rw [hrank x hx]
            exact rhsOf_eval (inView_some hn').1 (elt_put hn (inView_some hn').1) hv

/-! ### Compound assignments -/

omit [Add V] [Sub V] [Mul V] [Div V] [Neg V] [Zero V] in
theorem leaf_with (op : BOp) (alg : Alg) (d : Nat) (ops : List Op) (rhs : POperand V) : (d, ops) ∈ Spec.leaves (rhs.with op alg d ops) := by
  cases rhs <;> simp [POperand.with, Spec.leaves]

omit [Add V] [Sub V] [Mul V] [Div V] [Neg V] [Zero V] in
theorem leaves_with {op : BOp} {alg : Alg} {d : Nat} {ops : List Op} {rhs : POperand V} {l : Nat × List Op} (h : l ∈ Spec.leaves (rhs.with op alg d ops)) :
    l = (d, ops) ∨ ∃ e ∈ operandExprs rhs, l ∈ Spec.leaves e := by
  cases rhs with
  | scal s => left; simpa [POperand.with, Spec.leaves] using h
  | expr e =>
      simp only [POperand.with, Spec.leaves, List.mem_append, List.mem_singleton] at h
      rcases h with h | h
      · exact Or.inl h
      · exact Or.inr ⟨e, by simp [operandExprs], h⟩

theorem with_el {rank : Nat → Nat} {op : BOp} {alg : Alg} {d : Nat} {ops : List Op} {rhs : POperand V} {idx : List Int} {v : V} (hf : ∀ e ∈ operandExprs rhs, firstAlg e = alg)
    (h : (do
      let u ← viewElt rank a idx d ops
      let w ← operandEl rank a op alg idx rhs
      return oper op u w) = some v) : exprEl rank a (rhs.with op alg d ops) idx = some v := by
  simp only [Option.bind_eq_bind] at h
  obtain ⟨u, h1, h⟩ := Option.bind_eq_some_iff.mp h
  obtain ⟨w, h2, h⟩ := Option.bind_eq_some_iff.mp h
  cases h
  cases rhs with
  | scal s =>
      simp only [operandEl, Option.some.injEq] at h2
      subst h2
      simp only [exprEl, POperand.with, Spec.leaves, List.mem_singleton, forall_eq, h1, Option.isSome_some, if_true, Spec.value, firstAlg, Option.getD_some]
  | expr e =>
      have hfe := hf e (by simp [operandExprs])
      simp only [operandEl, exprEl] at h2
      split at h2
      · rename_i hd
        cases h2
        rw [exprEl, if_pos]
        · simp only [POperand.with, Spec.value, firstAlg, h1, Option.getD_some, hfe]
        · intro l hl
          simp only [POperand.with, Spec.leaves, List.mem_append, List.mem_singleton] at hl
          rcases hl with rfl | hl
          · rw [h1]; rfl
          · exact hd l hl
      · cases h2

theorem with_algs {alg' : Alg} {ext : List Int} {op : BOp} {alg : Alg} {d : Nat} {ops : List Op} {rhs : POperand V} (h : Spec.Uniform a alg' ext (rhs.with op alg d ops)) :
    ∀ e ∈ operandExprs rhs, firstAlg e = alg := by
  cases rhs with
  | scal s => intro e he; cases he
  | expr e =>
      intro e' he
      simp only [operandExprs, List.mem_singleton] at he
      subst he
      exact (uniform_algs h.2.1).2.trans h.1.1.symm

theorem opAssign_step (dflt : V) (hso : ∀ i, IsPerm (so i)) (hne : ∀ i, so i ≠ []) (i : VInv triv so p a) {op : BOp} {alg : Alg} {d : Nat} {ext : List Int} {rhs : POperand V}
    (ho : RhsOK (rankOf so) a ext (rhs.with op alg d [])) (hn : ∀ e ∈ operandExprs rhs, NoOverlapResize (rankOf so) a d ext e) :
    ∃ p', assignFrom triv dflt so p d (rhs.with op alg d []) = some p' ∧ VInv triv so p' (nnext triv dflt (rankOf so) a (.opAssign op alg d ext rhs)) := by
  obtain ⟨alg', hu, -⟩ := ho.1
  obtain ⟨y, hy, hm, -, he⟩ := uniform_leaf hu (leaf_with op alg d [] rhs)
  have he : ext = y.shape := he
  obtain ⟨_, _, _, -, -, -, -, -, h5, -⟩ := i.alive hy
  obtain ⟨p', h1, h2⟩ := assign_step dflt hso hne i (d := d) (by rw [he]; exact h5) ho (fun ops' hl => by
    rcases leaves_with hl with h | ⟨e, h, h'⟩
    · cases h
      exact ⟨by rw [hy, he]; rfl, fun idx _ => rfl⟩
    · exact hn e h ops' h')
  refine ⟨p', h1, ?_⟩
  rw [Vals.upd, if_neg (by rw [hy]; simp)] at h2
  simp only [nnext, hy]
  refine inv_replace h2 he rfl (fun idx v hi hv => with_el (with_algs hu) ?_)
  exact hv

theorem opPut_step (dflt : V) (hso : ∀ i, IsPerm (so i)) (hne : ∀ i, so i ≠ []) (i : VInv triv so p a) {op : BOp} {alg : Alg} {d : Nat} {ops : List Op} {ext : List Int}
    {rhs : POperand V} (ho : RhsOK (rankOf so) a ext (rhs.with op alg d ops)) (hn : ∀ e ∈ operandExprs rhs, NoOverlap (rankOf so) d ops ext e) :
    ∃ p', putFrom triv p d ops (rhs.with op alg d ops) = some p' ∧ VInv triv so p' (nnext triv dflt (rankOf so) a (.opPut op alg d ops ext rhs)) := by
  obtain ⟨alg', hu, -⟩ := ho.1
  obtain ⟨y, hy, hm, hc, he⟩ := uniform_leaf hu (leaf_with op alg d ops rhs)
  obtain ⟨m, _, _, -, -, h2, -, h4, h5, -⟩ := i.alive hy
  have hrank : y.shape.length = rankOf so d := h5.1
  have hinj : ∀ idx, InRange ext idx → inView (rankOf so d) ops ext (sourceChain (rankOf so d) ops idx) = some idx := by
    intro idx hi
    have hwf : WF m := i.wf d m (by rw [hy]; simp) h2
    obtain ⟨v, r1, r2, r3⟩ := run_wf (v := ⟨0, m⟩) hwf (by rw [h4]; exact hc)
    simp only [h4] at r2 r3
    have hlen : v.lay.len = ext := Programs.chainShape_unique hc r2 he
    have h0 := prod_pos_of_inRange (hso d) h5 (r3 idx (by rw [hlen]; exact hi))
    obtain ⟨_, _, _, -, -, h2', -, -, -, h6, -⟩ := i.alive hy
    rw [h2] at h2'; cases h2'
    have hsm := smallest_of_layoutOf (hso d) h5 (h6.resolve_right h0)
    obtain ⟨v', s1, -, -, -, s5, -⟩ := run_facts (v := ⟨0, m⟩) (os := ops) hwf hsm (by rw [h4]; exact hc)
    rw [r1] at s1; cases s1
    simp only [h4] at s5
    rw [← hrank]
    cases hn : inView y.shape.length ops ext (sourceChain y.shape.length ops idx) with
    | none => exact absurd rfl (inView_none hn hi)
    | some jdx =>
        obtain ⟨k1, k2⟩ := inView_some hn
        rw [s5 jdx idx (by rw [hlen]; exact k1) (by rw [hlen]; exact hi) k2]
  obtain ⟨p', h1, h2⟩ := put_step dflt hso hne i (d := d) (ops := ops) (fun x hx => by
    rw [hy] at hx; cases hx
    exact ⟨hm, hc, he⟩) ho (fun ops' hl idx hi => by
    rcases leaves_with hl with h | ⟨e, h, h'⟩
    · cases h
      exact Or.inr (hinj idx hi)
    · exact hn e h ops' h' idx hi)
  refine ⟨p', h1, ?_⟩
  rw [hy] at h2
  simp only [nnext, hy]
  refine inv_replace h2 rfl rfl (fun jdx v hj hv => ?_)
  simp only [overwrite] at hv ⊢
  cases hn' : inView y.shape.length ops ext jdx with
  | none => rw [hn'] at hv; exact hv
  | some idx =>
      rw [hn'] at hv
      exact with_el (with_algs hu) hv

/-! ### Assignment of scalars -/

/-- Loops on one state follow loops on another one. -/
theorem foldlM_sim {σ τ ι : Type} (R : σ → τ → Prop) {f : ι → σ → Option σ} {g : ι → τ → Option τ} (h : ∀ i s t t', R s t → g i t = some t' → ∃ s', f i s = some s' ∧ R s' t') :
    ∀ (L : List ι) {s : σ} {t t' : τ}, R s t → L.foldlM (fun t i => g i t) t = some t' → ∃ s', L.foldlM (fun s i => f i s) s = some s' ∧ R s' t'
  | [], s, t, t', hr, e => by cases e; exact ⟨s, rfl, hr⟩
  | i :: L, s, t, t', hr, e => by
      rw [List.foldlM_cons] at e
      obtain ⟨t1, e1, e2⟩ := Option.bind_eq_some_iff.mp e
      obtain ⟨s1, g1, g2⟩ := h i s t t1 hr e1
      obtain ⟨s2, g3, g4⟩ := foldlM_sim R h L g2 e2
      exact ⟨s2, by rw [List.foldlM_cons, g1]; exact g3, g4⟩

theorem strideLoop_sim {σ τ : Type} (R : σ → τ → Prop) {f : Int → σ → Option σ} {g : Int → τ → Option τ} (h : ∀ i s t t', R s t → g i t = some t' → ∃ s', f i s = some s' ∧ R s' t')
    (bound step : Int) : ∀ (fuel : Nat) (i : Int) {s : σ} {t t' : τ}, R s t → Assign.strideLoop bound step g fuel i t = some t' →
      ∃ s', Assign.strideLoop bound step f fuel i s = some s' ∧ R s' t'
  | 0, _, _, _, _, _, e => by cases e
  | fuel + 1, i, s, t, t', hr, e => by
      rw [Assign.strideLoop] at e ⊢
      by_cases hc : i < bound
      · rw [if_pos hc] at e ⊢
        obtain ⟨t1, e1, e2⟩ := Option.bind_eq_some_iff.mp e
        obtain ⟨s1, g1, g2⟩ := h i s t t1 hr e1
        obtain ⟨s2, g3, g4⟩ := strideLoop_sim R h bound step fuel (i + step) g2 e2
        exact ⟨s2, by rw [g1]; exact g3, g4⟩
      · rw [if_neg hc] at e ⊢
        cases e; exact ⟨s, rfl, hr⟩

theorem rangeFor_sim {σ τ : Type} (R : σ → τ → Prop) {f : Int → σ → Option σ} {g : Int → τ → Option τ} (h : ∀ i s t t', R s t → g i t = some t' → ∃ s', f i s = some s' ∧ R s' t')
    (stop : Grid) : ∀ (fuel : Nat) (it : Grid) {s : σ} {t t' : τ}, R s t → Grid.rangeFor g stop fuel it t = some t' → ∃ s', Grid.rangeFor f stop fuel it s = some s' ∧ R s' t'
  | 0, _, _, _, _, _, e => by cases e
  | fuel + 1, it, s, t, t', hr, e => by
      rw [Grid.rangeFor] at e ⊢
      by_cases hc : Grid.eq it stop = true
      · rw [if_pos hc] at e ⊢
        cases e; exact ⟨s, rfl, hr⟩
      · rw [if_neg hc] at e ⊢
        obtain ⟨t1, e1, e2⟩ := Option.bind_eq_some_iff.mp e
        obtain ⟨s1, g1, g2⟩ := h _ s t t1 hr e1
        obtain ⟨s2, g3, g4⟩ := rangeFor_sim R h stop fuel (Grid.next it) g2 e2
        exact ⟨s2, by rw [g1]; exact g3, g4⟩

omit [Add V] [Sub V] [Mul V] [Div V] [Neg V] [Zero V] in
/-- Filling a view of a block is filling the list of its cells. -/
theorem fillRef_cells {q : Prog V} {b : Nat} {cells cells' : List (Option V)} (hl : q.mem.hp.live b = some ⟨cells, false⟩) (hfull : triv = false → ∀ c ∈ cells, c.isSome) (v : View) (s : V)
    (h : Assign.fillWithScalar (v.lay.size.toNat + 1) v (some s) cells = some cells') :
    fillRef triv ⟨some b, v⟩ s q = some { q with mem := { q.mem with hp := q.mem.hp.set b ⟨cells', false⟩ } } ∧ (triv = false → ∀ c ∈ cells', c.isSome) := by
  have hb := Heap.lt_of_live hl
  have key : ∀ (i : Int) (x : Prog V) (t t' : List (Option V)),
      (x = { q with mem := { q.mem with hp := q.mem.hp.set b ⟨t, false⟩ } } ∧ (triv = false → ∀ c ∈ t, c.isSome)) → wrInt t (v.off + i) (some s) = some t' →
      ∃ x', RProg.writeRef triv x (some b) (v.off + i) s = some x' ∧
        (x' = { q with mem := { q.mem with hp := q.mem.hp.set b ⟨t', false⟩ } } ∧ (triv = false → ∀ c ∈ t', c.isSome)) := by
    rintro i x t t' ⟨rfl, hf⟩ e
    simp only [wrInt, wr] at e
    split at e
    · rename_i h0
      split at e
      · rename_i hlt
        cases e
        have hlive : Heap.live (q.mem.hp.set b ⟨t, false⟩) b = some ⟨t, false⟩ := Heap.live_set_self hb _
        have hwr : Heap.write triv (q.mem.hp.set b ⟨t, false⟩) b (v.off + i).toNat s = some (q.mem.hp.set b ⟨t.set (v.off + i).toNat (some s), false⟩) := by
          simp only [Heap.write, hlive, Option.bind_eq_bind, Option.bind_some]
          rw [List.getElem?_eq_getElem hlt]
          cases hc : t[(v.off + i).toNat] with
          | some w => simp only [List.set_set]; rfl
          | none =>
              cases triv with
              | true => simp only [if_true, List.set_set]; rfl
              | false =>
                  have := hf rfl _ (List.getElem_mem hlt)
                  rw [hc] at this; cases this
        refine ⟨_, ?_, rfl, fun ht c hc => ?_⟩
        · simp only [RProg.writeRef, Option.bind_eq_bind, Option.bind_some]
          rw [if_neg (by omega), hwr]; rfl
        · rcases List.mem_or_eq_of_mem_set hc with h | h
          · exact hf ht c h
          · rw [h]; rfl
      · cases e
    · cases e
  have h0 : q = { q with mem := { q.mem with hp := q.mem.hp.set b ⟨cells, false⟩ } } ∧ (triv = false → ∀ c ∈ cells, c.isSome) := ⟨by rw [Heap.set_self_live hl], hfull⟩
  have done : ∀ {o : Option (Prog V)}, (∃ x', o = some x' ∧ (x' = { q with mem := { q.mem with hp := q.mem.hp.set b ⟨cells', false⟩ } } ∧ (triv = false → ∀ c ∈ cells', c.isSome))) →
      o = some { q with mem := { q.mem with hp := q.mem.hp.set b ⟨cells', false⟩ } } ∧ (triv = false → ∀ c ∈ cells', c.isSome) := by
    rintro o ⟨x', rfl, rfl, hf⟩
    exact ⟨rfl, hf⟩
  simp only [Assign.fillWithScalar] at h
  simp only [fillRef]
  split at h
  · rename_i h1
    rw [if_pos h1]
    split at h
    · rename_i h2
      rw [if_pos h2]
      exact done (foldlM_sim (fun x t => x = { q with mem := { q.mem with hp := q.mem.hp.set b ⟨t, false⟩ } } ∧ (triv = false → ∀ c ∈ t, c.isSome))
        (f := fun (i : Nat) q => RProg.writeRef triv q (some b) (v.off + Int.ofNat i) s) (g := fun (i : Nat) t => wrInt t (v.off + Int.ofNat i) (some s))
        (fun i x t t' => key (Int.ofNat i) x t t') (List.range v.lay.size.toNat) h0 h)
    · rename_i h2
      rw [if_neg h2]
      obtain ⟨st, e1, e2⟩ := Option.bind_eq_some_iff.mp h
      simp only [e1, Option.bind_eq_bind, Option.bind_some]
      exact done (strideLoop_sim (fun x t => x = { q with mem := { q.mem with hp := q.mem.hp.set b ⟨t, false⟩ } } ∧ (triv = false → ∀ c ∈ t, c.isSome)) key _ _ _ _ h0 e2)
  · rename_i h1
    rw [if_neg h1]
    obtain ⟨b1, e1, h⟩ := Option.bind_eq_some_iff.mp h
    obtain ⟨b2, e2, h⟩ := Option.bind_eq_some_iff.mp h
    simp only [e1, e2, Option.bind_eq_bind, Option.bind_some]
    exact done (rangeFor_sim (fun x t => x = { q with mem := { q.mem with hp := q.mem.hp.set b ⟨t, false⟩ } } ∧ (triv = false → ∀ c ∈ t, c.isSome)) key _ _ _ h0 h)

omit [Add V] [Sub V] [Mul V] [Div V] [Neg V] [Zero V] in
/-- A view is filled. -/
theorem fill_view (hso : ∀ i, IsPerm (so i)) (i : VInv triv so p a) {d : Nat} {x : Val V} (hw : a.get d = some x) (hmv : x.moved = false) {ops : List Op} {ext : List Int}
    (hca : ChainAllowed x.shape ops) (hcs : ChainShape x.shape ops ext) (hfl : Fillable (so d) x.shape ops ext) (s : V) :
    ∃ r q, RProg.viewOf p d ops = some r ∧ fillRef triv r s p.prog = some q ∧ q.vars = p.prog.vars ∧
      VInv triv so { p with prog := q } (a.set d (some (overwrite x ops ext fun _ => some s))) := by
  obtain ⟨m, yd, nd, hald, hd1, hd2, hd3, hd4, hd5, hd6, hd7, hd8⟩ := i.alive hw
  have hwf := i.wf d m (by rw [hw]; simp) hd2
  have hblk : blockOf p d = yd := by simp [blockOf, hd3, Handle.data]
  have hdv : d < p.prog.vars.length := by rw [i.inv.rel.vlen]; omega
  have hll := lays_self hd2
  have hvs : p.prog.vars.set d (some (.heap yd nd none)) = p.prog.vars := by
    have : p.prog.vars[d] = some (.heap yd nd none) := by
      rw [Prog.var, List.getElem?_eq_getElem hdv] at hd3; simpa using hd3
    rw [← this]; exact List.set_getElem_self hdv
  have hsh : ∀ el, shapes (a.set d (some { x with el := el })) = shapes a := by
    intro el
    rw [shapes_set]
    have := shapes_get a d
    rw [hw] at this
    simp only [Shapes.get, Option.map_some] at this ⊢
    have hlt : d < (shapes a).length := by simp only [shapes, List.length_map]; rw [i.alen]; exact hd1
    rw [List.getElem?_eq_getElem hlt] at this
    simp only [Option.join_some] at this
    rw [← this]; exact List.set_getElem_self hlt
  obtain ⟨v0, q1, q2, q3⟩ := run_wf (v := ⟨0, m⟩) hwf (by rw [hd4]; exact hca)
  simp only [hd4] at q2 q3
  have hext : v0.lay.len = ext := Programs.chainShape_unique hca q2 hcs
  have h0 : prod x.shape ≠ 0 := by
    have hz : InRange ext (ext.map fun _ => 0) := by
      have := hfl.2.1
      clear hfl hext hcs
      induction ext with
      | nil => trivial
      | cons l ext ih => exact ⟨⟨le_refl _, this l (by simp)⟩, ih (fun y hy => this y (by simp [hy]))⟩
    exact prod_pos_of_inRange (hso _) hd5 (q3 _ (by rw [hext]; exact hz))
  have hml : layoutOf (so d) x.shape = some m := hd6.resolve_right h0
  obtain ⟨b, cells, rfl, hl, hF⟩ := hd8 h0 hmv
  have hlb := Heap.lt_of_live hl
  obtain ⟨m', g1, g2, g3, g4, g5, g6, g7⟩ := layoutOf_spec (hso d) hd5
  rw [hml] at g1; cases g1
  have hsm := smallest_of_layoutOf (hso d) hd5 hml
  rw [hmv] at hd7
  simp only [Bool.false_eq_true, if_false] at hd7
  have hflag : FlagsOK m := by
    obtain ⟨m', e1, -, e3, -⟩ := ofShape_spec x.shape (so d) (List.replicate (so d).length 0) .contiguous (hso d) hd5.1.symm (by simp [hd5.1])
    rw [layoutOf, e1] at hml; cases hml
    exact flagsOK_of_dense e3
  have haddr : ∀ jdx, InRange x.shape jdx → addr ⟨0, m⟩ jdx = (pos m jdx : Int) := by
    intro jdx hj
    have h1 := (g5 jdx hj).1
    rw [call_idx hwf hsm jdx (by rw [hd4]; exact hj.length_eq)] at h1
    have := Option.some.inj h1
    simp only [addr, Int.zero_add]; exact this
  have hgood : Assign.Good ⟨0, m⟩ cells.length := by
    refine ⟨hwf, hflag, by rw [hd4]; exact hd5.2, fun jdx hj => ?_⟩
    simp only [hd4] at hj
    rw [haddr jdx hj, hF.1]
    have := (g5 jdx hj).2
    omega
  have hone : OneToOne ⟨0, m⟩ := by
    intro idx jdx hi hj e
    simp only [hd4] at hi hj
    rw [haddr idx hi, haddr jdx hj] at e
    exact g6 idx jdx hi hj (by exact_mod_cast e)
  obtain ⟨hfd, hfp⟩ := hfl.2.2 m hml
  obtain ⟨v, e1, e2, -, -, e5⟩ := Programs.chain_good hgood hone (by rw [hd4]; exact hca) hfd
  rw [q1] at e1; cases e1
  simp only [hd4] at e5
  rw [hext] at e5
  obtain ⟨cells', f1, f2⟩ := Assign.C18_fill_partial (v0.lay.size.toNat + 1) v0 (some s) cells e2 (Or.inl (by rw [hext]; exact hfl.1))
    (by rw [IdxMap.size_eq]; omega) (fun hp => Or.inr (hfp v0 q1 hp)) (fun _ => Or.inl (by rw [hext]; exact hfl.2.1))
  obtain ⟨k1, k2⟩ := fillRef_cells (triv := triv) hl hF.2 v0 s f1
  have hown := Own.set_cells (cells' := cells') i.inv.own hl f2.size k2
  have hval : ∀ j : Nat, val cells' (j : Int) = cells'[j]? ∧ val cells (j : Int) = cells[j]? := by
    intro j
    simp only [val]
    rw [if_neg (by omega), if_neg (by omega)]
    simp
  refine ⟨⟨some b, v0⟩, _, ?_, k1, rfl, ?_⟩
  · simp only [RProg.viewOf, hd2, hd3, q1, Option.bind_eq_bind, Option.bind_some]; rfl
  · have := i.frame1 hd1 (x := some (overwrite x ops ext fun _ => some s)) (m := m) (h := some (.heap (some b) nd none))
      (mem := { p.prog.mem with hp := p.prog.mem.hp.set b ⟨cells', false⟩ })
      (by rw [hll, hvs, overwrite, hsh]; exact ⟨hown, i.inv.rel.vlen, i.inv.rel.alen, i.inv.rel.tmp, i.inv.rel.rel⟩)
      (fun b' hb' hne' => List.getElem?_set_ne (fun e => hne' (by rw [hblk, e]))) (by
        rintro y hy
        cases hy
        refine ⟨hwf, fun _ jdx u hj hu => ?_⟩
        simp only [overwrite] at hj hu
        rw [elem_cell (m := m) (by rw [hll]; exact hd2) (dataOf_put hdv (blk := ⟨cells', false⟩) (List.getElem?_set_self hlb) rfl) (g5 jdx hj).1]
        cases hn : inView x.shape.length ops ext jdx with
        | some idx =>
            rw [hn] at hu
            obtain ⟨c1, c2⟩ := inView_some hn
            have := f2.elems idx (by rw [hext]; exact c1)
            rw [(e5 idx c1).2, c2, haddr jdx hj, (hval _).1] at this
            simp only [this]; exact hu
        | none =>
            rw [hn] at hu
            have hold := i.holds d x hw hmv jdx u hj hu
            rw [elem_cell hd2 (by simp only [dataOf, hblk, Option.bind_some]; exact hl) (g5 jdx hj).1] at hold
            have := f2.frame (pos m jdx : Int) (by
              rintro ⟨kdx, hk, e⟩
              rw [hext] at hk
              rw [(e5 kdx hk).2, haddr _ (e5 kdx hk).1] at e
              exact inView_none hn hk (g6 _ _ (e5 kdx hk).1 hj (by exact_mod_cast e)))
            rw [(hval _).1, (hval _).2] at this
            simp only [this]; exact hold)
    rw [hll, hvs] at this; exact this

omit [Add V] [Sub V] [Mul V] [Div V] [Neg V] [Zero V] in
/-- One element of a view is written. -/
theorem write_one (hso : ∀ i, IsPerm (so i)) (i : VInv triv so p a) {d : Nat} {x : Val V} (hw : a.get d = some x) (hmv : x.moved = false) {ops : List Op} {ext : List Int}
    (hca : ChainAllowed x.shape ops) (hcs : ChainShape x.shape ops ext) {idx : List Int} (hi : InRange ext idx) (s : V) :
    ∃ r q k, RProg.viewOf p d ops = some r ∧ r.view.lay.call (idx.map .idx) = some k ∧ RProg.writeRef triv p.prog r.blk (r.view.off + k) s = some q ∧ q.vars = p.prog.vars ∧
      (∀ jdx, InRange ext jdx → sourceChain x.shape.length ops jdx = sourceChain x.shape.length ops idx → jdx = idx) ∧
      VInv triv so { p with prog := q } (a.set d (some { x with el := fun jdx => if jdx = sourceChain x.shape.length ops idx then some s else x.el jdx })) := by
  obtain ⟨m, yd, nd, hald, hd1, hd2, hd3, hd4, hd5, hd6, hd7, hd8⟩ := i.alive hw
  have hwf := i.wf d m (by rw [hw]; simp) hd2
  have hblk : blockOf p d = yd := by simp [blockOf, hd3, Handle.data]
  have hdv : d < p.prog.vars.length := by rw [i.inv.rel.vlen]; omega
  have hll := lays_self hd2
  have hvs : p.prog.vars.set d (some (.heap yd nd none)) = p.prog.vars := by
    have : p.prog.vars[d] = some (.heap yd nd none) := by
      rw [Prog.var, List.getElem?_eq_getElem hdv] at hd3; simpa using hd3
    rw [← this]; exact List.set_getElem_self hdv
  have hsh : ∀ el, shapes (a.set d (some { x with el := el })) = shapes a := by
    intro el
    rw [shapes_set]
    have := shapes_get a d
    rw [hw] at this
    simp only [Shapes.get, Option.map_some] at this ⊢
    have hlt : d < (shapes a).length := by simp only [shapes, List.length_map]; rw [i.alen]; exact hd1
    rw [List.getElem?_eq_getElem hlt] at this
    simp only [Option.join_some] at this
    rw [← this]; exact List.set_getElem_self hlt
  obtain ⟨v0, q1, q2, q3⟩ := run_wf (v := ⟨0, m⟩) hwf (by rw [hd4]; exact hca)
  simp only [hd4] at q2 q3
  have hext : v0.lay.len = ext := Programs.chainShape_unique hca q2 hcs
  have h0 : prod x.shape ≠ 0 := prod_pos_of_inRange (hso _) hd5 (q3 idx (by rw [hext]; exact hi))
  have hml : layoutOf (so d) x.shape = some m := hd6.resolve_right h0
  have hsm := smallest_of_layoutOf (hso d) hd5 hml
  obtain ⟨v, r1, r2, r3, r4, r5, r6⟩ := run_facts (v := ⟨0, m⟩) (os := ops) hwf hsm (by rw [hd4]; exact hca)
  rw [q1] at r1; cases r1
  simp only [hd4, Int.zero_add] at r4 r5 r6
  rw [hext] at r4 r5 r6
  obtain ⟨b, cells, rfl, hl, hF⟩ := hd8 h0 hmv
  have hlb := Heap.lt_of_live hl
  obtain ⟨m', g1, g2, g3, g4, g5, g6, g7⟩ := layoutOf_spec (hso d) hd5
  rw [hml] at g1; cases g1
  have hsrc := r4 idx hi
  have hcall : offset m (sourceChain x.shape.length ops idx) = (pos m (sourceChain x.shape.length ops idx) : Int) := by
    have h1 := (g5 _ hsrc).1
    rw [call_idx hwf hsm _ (by rw [hd4]; exact hsrc.length_eq)] at h1
    exact Option.some.inj h1
  generalize hpos : pos m (sourceChain x.shape.length ops idx) = P at hcall
  rw [hmv] at hd7
  simp only [Bool.false_eq_true, if_false] at hd7
  have hlt : P < cells.length := by rw [hF.1]; have := (g5 _ hsrc).2; omega
  have hwr : Heap.write triv p.prog.mem.hp b P s = some (p.prog.mem.hp.set b ⟨cells.set P (some s), false⟩) := by
    simp only [Heap.write, hl, Option.bind_eq_bind, Option.bind_some]
    rw [List.getElem?_eq_getElem hlt]
    cases hc : cells[P] with
    | some w => rfl
    | none =>
        cases triv with
        | true => rfl
        | false =>
            have := hF.2 rfl _ (List.getElem_mem hlt)
            rw [hc] at this; cases this
  have hk : v0.off + offset v0.lay idx = (P : Int) := by rw [r6 idx hi]; exact hcall
  have hown := Own.set_cells (cells' := cells.set P (some s)) i.inv.own hl (by simp) (fun ht c hc => by
    rcases List.mem_or_eq_of_mem_set hc with h | h
    · exact hF.2 ht c h
    · rw [h]; rfl)
  refine ⟨⟨some b, v0⟩, { p.prog with mem := { p.prog.mem with hp := p.prog.mem.hp.set b ⟨cells.set P (some s), false⟩ } }, offset v0.lay idx, ?_, ?_, ?_, rfl, ?_, ?_⟩
  · simp only [RProg.viewOf, hd2, hd3, q1, Option.bind_eq_bind, Option.bind_some]; rfl
  · exact call_idx r2 r3 idx (by rw [hext]; exact hi.length_eq)
  · simp only [RProg.writeRef, Option.bind_eq_bind, Option.bind_some, hk]
    rw [if_neg (by omega), Int.toNat_natCast, hwr]; rfl
  · exact fun jdx hj e => r5 jdx idx hj hi e
  · have := i.frame1 hd1 (x := some { x with el := fun jdx => if jdx = sourceChain x.shape.length ops idx then some s else x.el jdx }) (m := m) (h := some (.heap (some b) nd none))
      (mem := { p.prog.mem with hp := p.prog.mem.hp.set b ⟨cells.set P (some s), false⟩ })
      (by rw [hll, hvs, hsh]; exact ⟨hown, i.inv.rel.vlen, i.inv.rel.alen, i.inv.rel.tmp, i.inv.rel.rel⟩)
      (fun b' hb' hne' => List.getElem?_set_ne (fun e => hne' (by rw [hblk, e]))) (by
        rintro y hy
        cases hy
        refine ⟨hwf, fun _ jdx u hj hu => ?_⟩
        simp only at hj hu
        rw [elem_cell (m := m) (by rw [hll]; exact hd2) (dataOf_put hdv (blk := ⟨cells.set P (some s), false⟩) (List.getElem?_set_self hlb) rfl) (g5 jdx hj).1]
        by_cases he : jdx = sourceChain x.shape.length ops idx
        · rw [if_pos he] at hu
          subst he
          rw [hpos]
          simp only [List.getElem?_set_self hlt]
          exact hu
        · rw [if_neg he] at hu
          have hold := i.holds d x hw hmv jdx u hj hu
          rw [elem_cell hd2 (by simp only [dataOf, hblk, Option.bind_some]; exact hl) (g5 jdx hj).1] at hold
          rw [List.getElem?_set_ne (fun e => he (g6 _ _ hj hsrc (by rw [hpos, e])))]
          exact hold)
    rw [hll, hvs] at this; exact this

omit [Add V] [Sub V] [Mul V] [Div V] [Neg V] [Zero V] in
theorem viewOf_vars {p p' : AProg V} {d : Nat} {ops : List Op} (h1 : p'.lays = p.lays) (h2 : p'.prog.vars = p.prog.vars) : RProg.viewOf p' d ops = RProg.viewOf p d ops := by
  simp only [RProg.viewOf, Prog.var, h1, h2]

/-- The diagonal of a view that is zero elsewhere. -/
theorem diagonal_loop (hso : ∀ i, IsPerm (so i)) {d : Nat} {x : Val V} {ops : List Op} {n m : Int} (hmv : x.moved = false) (hdl : d < a.length)
    (hca : ChainAllowed x.shape ops) (hcs : ChainShape x.shape ops [n, m]) (s : V) (r : Ref) : ∀ (L done : List Nat) (p : AProg V),
    (∀ k ∈ L, (k : Int) < n ∧ (k : Int) < m) → RProg.viewOf p d ops = some r →
    VInv triv so p (a.set d (some (overwrite x ops [n, m] fun idx => some (if ∃ k ∈ done, idx = [(k : Int), (k : Int)] then s else 0)))) →
    ∃ q, L.foldlM (fun q (i : Nat) => do
        let k ← r.view.lay.call [.idx i, .idx i]
        RProg.writeRef triv q r.blk (r.view.off + k) s) p.prog = some q ∧
      VInv triv so { p with prog := q } (a.set d (some (overwrite x ops [n, m] fun idx => some (if ∃ k ∈ L ++ done, idx = [(k : Int), (k : Int)] then s else 0))))
  | [], done, p, _, _, i => ⟨p.prog, rfl, i⟩
  | k :: L, done, p, hL, hv, i => by
      have hk := hL k (by simp)
      have hi : InRange [n, m] [(k : Int), (k : Int)] := by
        simp only [InRange, and_true]; omega
      obtain ⟨r', q, c, h1, h2, h3, h4, h5, h6⟩ := write_one hso i (set_get_self hdl _) (show (overwrite x ops [n, m] _).moved = false from hmv) hca hcs hi s
      rw [hv] at h1; cases h1
      have hv' : RProg.viewOf { p with prog := q } d ops = some r := by rw [viewOf_vars (p := p) (p' := { p with prog := q }) rfl h4]; exact hv
      have i' : VInv triv so { p with prog := q } (a.set d (some (overwrite x ops [n, m] fun idx => some (if ∃ j ∈ k :: done, idx = [(j : Int), (j : Int)] then s else 0)))) := by
        rw [List.set_set] at h6
        have h6' : VInv triv so { p with prog := q } (a.set d (some { x with el := fun jdx => if jdx = sourceChain x.shape.length ops [(k : Int), (k : Int)] then some s else
          (overwrite x ops [n, m] fun idx => some (if ∃ k ∈ done, idx = [(k : Int), (k : Int)] then s else 0)).el jdx })) := h6
        refine inv_replace h6' rfl rfl (fun jdx v hj hv => ?_)
        simp only [overwrite] at hv ⊢
        cases hn : inView x.shape.length ops [n, m] jdx with
        | none =>
            rw [hn] at hv
            rw [if_neg (fun e => inView_none hn hi e.symm)]
            exact hv
        | some idx =>
            rw [hn] at hv
            obtain ⟨e1, e2⟩ := inView_some hn
            by_cases he : idx = [(k : Int), (k : Int)]
            · rw [if_pos (by rw [← e2, he]), ← hv]
              simp only [he]
              rw [if_pos ⟨k, by simp, rfl⟩]
            · have hns : ¬ jdx = sourceChain x.shape.length ops [(k : Int), (k : Int)] := fun e => he (h5 idx e1 (e2.trans e))
              rw [if_neg hns, ← hv]
              congr 1
              simp only [List.mem_cons, exists_eq_or_imp, he, false_or]
      obtain ⟨q', g1, g2⟩ := diagonal_loop hso hmv hdl hca hcs s r L (k :: done) { p with prog := q } (fun j hj => hL j (by simp [hj])) hv' i'
      refine ⟨q', ?_, ?_⟩
      · rw [List.foldlM_cons]
        simp only [List.map_cons, List.map_nil] at h2
        simp only [h2, Option.bind_eq_bind, Option.bind_some, h3]
        exact g1
      · have e : ∀ idx : List Int, (∃ j ∈ L ++ k :: done, idx = [(j : Int), (j : Int)]) ↔ ∃ j ∈ k :: L ++ done, idx = [(j : Int), (j : Int)] := by
          intro idx; simp only [List.mem_append, List.mem_cons, List.cons_append]
          constructor <;> rintro ⟨j, hj, h⟩ <;> exact ⟨j, by tauto, h⟩
        simp only [e] at g2
        exact g2

theorem setScalar_step (dflt : V) (hso : ∀ i, IsPerm (so i)) (hne : ∀ i, so i ≠ []) (i : VInv triv so p a) {alg : Alg} {d : Nat} {ops : List Op} {ext : List Int} {s : V}
    (h : ∀ x, a.get d = some x → x.moved = false ∧ ChainAllowed x.shape ops ∧ ChainShape x.shape ops ext ∧ Fillable (so d) x.shape ops ext ∧
      (alg = .M → ext.length = 2)) :
    ∃ p', scalarFrom triv p alg d ops s = some p' ∧ VInv triv so p' (match a.get d with
      | some x => a.set d (some (overwrite x ops ext fun idx => some (scalarEl alg s idx)))
      | none => a) := by
  cases hx : a.get d with
  | none =>
      refine ⟨p, ?_, i⟩
      simp only [scalarFrom, i.dead hx, Bool.false_eq_true, if_false]
  | some x =>
      obtain ⟨hmv, hca, hcs, hfl, hM⟩ := h x hx
      obtain ⟨m, yd, nd, hald, hd1, -⟩ := i.alive hx
      have hdl : d < a.length := by rw [i.alen]; exact hd1
      simp only [scalarFrom, hald, if_true]
      by_cases hA : alg = .M
      · obtain ⟨n, m, rfl⟩ : ∃ n m, ext = [n, m] := by
          have := hM hA
          match ext, this with
          | [n, m], _ => exact ⟨n, m, rfl⟩
        obtain ⟨r, hr', hlen, -⟩ := leaf_view hso i hx hca hcs
        obtain ⟨r', q1, hr, f1, hq, e2⟩ := fill_view hso i hx hmv hca hcs hfl 0
        rw [hr'] at hr; cases hr
        have hr := hr'
        simp only [hr, Option.bind_eq_bind, Option.bind_some, if_pos hA, f1]
        obtain ⟨q2, g1, g2⟩ := diagonal_loop hso hmv hdl hca hcs s r (List.range (min n m).toNat) [] { p with prog := q1 }
          (fun k hk => by rw [List.mem_range] at hk; omega) (by rw [viewOf_vars (p := p) (p' := { p with prog := q1 }) rfl hq]; exact hr) (by simpa using e2)
        refine ⟨{ p with prog := q2 }, ?_, ?_⟩
        · simp only [diagonal, hlen, List.getElem?_cons_zero, List.getElem?_cons_succ, Option.bind_eq_bind, Option.bind_some]
          simp only [Option.bind_eq_bind] at g1
          rw [g1]; rfl
        · refine inv_replace g2 rfl rfl (fun jdx v hj hv => ?_)
          simp only [overwrite] at hv ⊢
          cases hn : inView x.shape.length ops [n, m] jdx with
          | none => rw [hn] at hv; exact hv
          | some idx =>
              rw [hn] at hv
              rw [← hv]
              obtain ⟨e1, -⟩ := inView_some hn
              match idx, e1 with
              | [u, w], e1 =>
                  simp only [InRange, and_true] at e1
                  simp only [scalarEl, hA, true_and, List.getD_cons_zero, List.getD_cons_succ, List.append_nil, List.mem_range]
                  congr 1
                  by_cases huw : u = w
                  · subst huw
                    rw [if_pos ⟨u.toNat, by omega, by simp; omega⟩, if_neg (by simp)]
                  · rw [if_neg, if_pos huw]
                    rintro ⟨k, -, e⟩
                    simp only [List.cons.injEq, and_true] at e
                    exact huw (e.1.trans e.2.symm)
      · obtain ⟨r, q1, hr, f1, hq, e2⟩ := fill_view hso i hx hmv hca hcs hfl s
        refine ⟨{ p with prog := q1 }, ?_, ?_⟩
        · simp only [hr, Option.bind_eq_bind, Option.bind_some, if_neg hA, f1]; rfl
        · have : (fun idx => some (scalarEl alg s idx)) = fun _ : List Int => some s := by funext idx; simp [scalarEl, hA]
          rw [this]; exact e2

/-! ### Programs -/

theorem nstep_ok (dflt : V) (hso : ∀ i, IsPerm (so i)) (hne : ∀ i, so i ≠ []) (i : VInv triv so p a) (op : NOp V) (h : NAllowed so a op) :
    ∃ p', nstep triv dflt so p op = some p' ∧ VInv triv so p' (nnext triv dflt (rankOf so) a op) := by
  cases op with
  | plain op => exact i.step dflt hso hne op h
  | build d ext e => exact build_step dflt hso hne i h.1 h.2
  | assign d ext e => exact assign_step dflt hso hne i h.1 h.2.1 h.2.2
  | put d ops ext e => exact put_step dflt hso hne i h.1 h.2.1 h.2.2
  | opAssign op alg d ext rhs => exact opAssign_step dflt hso hne i h.1 h.2
  | opPut op alg d ops ext rhs => exact opPut_step dflt hso hne i h.1 h.2
  | setScalar alg d ops ext s => exact setScalar_step dflt hso hne i h

theorem nrun_ok (dflt : V) (hso : ∀ i, IsPerm (so i)) (hne : ∀ i, so i ≠ []) : ∀ {ops : List (NOp V)} {p : AProg V} {a : Vals V}, VInv triv so p a → NAllowedRun triv dflt so a ops →
    ∃ p', nrun triv dflt so p ops = some p' ∧ VInv triv so p' (nfinal triv dflt (rankOf so) a ops)
  | [], p, a, i, _ => ⟨p, rfl, i⟩
  | op :: ops, p, a, i, h => by
      obtain ⟨p1, h1, h2⟩ := nstep_ok dflt hso hne i op h.1
      obtain ⟨p2, h3, h4⟩ := nrun_ok dflt hso hne h2 h.2
      refine ⟨p2, ?_, h4⟩
      rw [nrun, List.foldlM_cons, h1]; exact h3

end
end Nda.Num
