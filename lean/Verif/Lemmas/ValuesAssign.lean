import Verif.Lemmas.ValuesSteps
import Verif.Props.Programs
/-!
# Arrays as values: the statements with right-hand sides
-/
namespace Nda.Arr
open Nda Nda.Mem Nda.Spec Spec Nda.Mem.Spec Loops Nda.Perm LayoutTransforms Nda.IdxMap Nda.Slice

variable {V : Type}

/-! ### Reads while memory changes -/

theorem elemIn_other {p : AProg V} {hp : Heap V} {x : Nat} (h : ∀ b, blockOf p x = some b → hp[b]? = p.prog.mem.hp[b]?) (jdx : List Int) : p.elemIn hp x jdx = p.elem x jdx := by
  unfold AProg.elemIn
  refine elem_congr (p := p) (p' := { p with prog := { p.prog with mem := { p.prog.mem with hp := hp } } }) (j := x) rfl ?_ jdx
  show (blockOf p x).bind hp.live = _
  simp only [dataOf]
  cases hb : blockOf p x with
  | none => rfl
  | some b => exact live_congr (h b hb)

theorem elemIn_self {p : AProg V} {hp : Heap V} {d b k : Nat} {m : IdxMap} {cells : List (Option V)} (h1 : p.lays[d]? = some m) (h2 : blockOf p d = some b)
    (h3 : hp[b]? = some ⟨cells, false⟩) {jdx : List Int} (h4 : m.call (jdx.map .idx) = some (k : Int)) : p.elemIn hp d jdx = (cells[k]?).join := by
  unfold AProg.elemIn
  refine elem_cell (p := { p with prog := { p.prog with mem := { p.prog.mem with hp := hp } } }) (m := m) h1 ?_ h4
  show (blockOf p d).bind hp.live = _
  rw [h2]
  exact Heap.live_some.mpr ⟨h3, rfl⟩

theorem Vals.elt_some {a : Vals V} {x : Nat} {jdx : List Int} {v : V} (h : a.elt x jdx = some v) :
    ∃ y, a.get x = some y ∧ y.moved = false ∧ InRange y.shape jdx ∧ y.el jdx = some v := by
  simp only [Vals.elt] at h
  cases hx : a.get x with
  | none => rw [hx] at h; cases h
  | some y =>
      rw [hx] at h
      simp only at h
      split at h
      · rename_i hc; exact ⟨y, rfl, hc.1, hc.2, h⟩
      · cases h

/-! ### Loops that write -/

theorem fold_set {σ α : Type} (mk : List (Option V) → σ) (F : α → σ → Option σ) (ps : α → Nat) (w : α → Option V) (cells0 : List (Option V)) (L : List α)
    (hnd : (L.map ps).Nodup) (hlt : ∀ x ∈ L, ps x < cells0.length) (hw : ∀ x ∈ L, (w x).isSome)
    (hF : ∀ x ∈ L, ∀ cells : List (Option V), cells.length = cells0.length → (∀ j : Nat, (∀ y ∈ L, ps y ≠ j) → cells[j]? = cells0[j]?) →
      (∀ j : Nat, cells[j]? = cells0[j]? ∨ ∃ v, cells[j]? = some (some v)) → cells[ps x]? = cells0[ps x]? →
      F x (mk cells) = some (mk (cells.set (ps x) (w x)))) :
    ∃ cells', L.foldlM (fun s x => F x s) (mk cells0) = some (mk cells') ∧ cells'.length = cells0.length ∧
      (∀ j : Nat, (∀ x ∈ L, ps x ≠ j) → cells'[j]? = cells0[j]?) ∧ (∀ j : Nat, cells'[j]? = cells0[j]? ∨ ∃ v, cells'[j]? = some (some v)) ∧
      (∀ x ∈ L, cells'[ps x]? = some (w x)) := by
  have main : ∀ (L' : List α) (cells : List (Option V)), (L'.map ps).Nodup → (∀ x ∈ L', x ∈ L) → cells.length = cells0.length →
      (∀ j : Nat, (∀ y ∈ L, ps y ≠ j) → cells[j]? = cells0[j]?) → (∀ j : Nat, cells[j]? = cells0[j]? ∨ ∃ v, cells[j]? = some (some v)) →
      (∀ x ∈ L', cells[ps x]? = cells0[ps x]?) →
      ∃ cells', L'.foldlM (fun s x => F x s) (mk cells) = some (mk cells') ∧ cells'.length = cells0.length ∧
        (∀ j : Nat, (∀ x ∈ L', ps x ≠ j) → cells'[j]? = cells[j]?) ∧ (∀ j : Nat, cells'[j]? = cells0[j]? ∨ ∃ v, cells'[j]? = some (some v)) ∧
        (∀ x ∈ L', cells'[ps x]? = some (w x)) := by
    intro L'
    induction L' with
    | nil => intro cells _ _ hl _ halt _; exact ⟨cells, rfl, hl, fun _ _ => rfl, halt, by simp⟩
    | cons x L' ih =>
        intro cells hnd' hsub hl hout halt heq
        have hstep := hF x (hsub x (by simp)) cells hl hout halt (heq x (by simp))
        rw [List.map_cons, List.nodup_cons] at hnd'
        have hne : ∀ y ∈ L', ps x ≠ ps y := fun y hy e => hnd'.1 (by rw [e]; exact List.mem_map_of_mem hy)
        have hx : ps x < cells.length := by rw [hl]; exact hlt x (hsub x (by simp))
        obtain ⟨v, hv⟩ := Option.isSome_iff_exists.mp (hw x (hsub x (by simp)))
        obtain ⟨cells', h1, h2, h3, h4, h5⟩ := ih (cells.set (ps x) (w x)) hnd'.2 (fun y hy => hsub y (by simp [hy])) (by simp [hl])
          (fun j hj => by rw [List.getElem?_set_ne (hj x (hsub x (by simp)))]; exact hout j hj)
          (fun j => by
            by_cases e : ps x = j
            · subst e; right; exact ⟨v, by simp [hx, hv]⟩
            · rw [List.getElem?_set_ne e]; exact halt j)
          (fun y hy => by rw [List.getElem?_set_ne (hne y hy)]; exact heq y (by simp [hy]))
        refine ⟨cells', ?_, h2, fun j hj => ?_, h4, fun y hy => ?_⟩
        · rw [List.foldlM_cons, hstep]; exact h1
        · rw [h3 j (fun y hy => hj y (by simp [hy])), List.getElem?_set_ne (hj x (by simp))]
        · rcases List.mem_cons.mp hy with rfl | hy
          · rw [h3 (ps y) (fun z hz => Ne.symm (hne z hz))]
            simp [hx]
          · exact h5 y hy
  exact main L cells0 hnd (fun _ h => h) rfl (fun _ _ => rfl) (fun _ => Or.inl rfl) (fun _ _ => rfl)

/-- The loop of an assignment to a view of the array whose block is `b`. -/
theorem writeLoop {triv : Bool} {q : Prog V} {d b n : Nat} (hvar : q.var d = some (.heap (some b) n none)) {cells : List (Option V)}
    (hl : q.mem.hp.live b = some ⟨cells, false⟩) (hfull : triv = false → ∀ c ∈ cells, c.isSome) (lay : IdxMap) (off : Int) (len : List Int) (ps : List Int → Nat)
    (hps : ∀ idx, InRange len idx → ∃ k, lay.call (idx.map .idx) = some k ∧ off + k = (ps idx : Int) ∧ ps idx < cells.length)
    (hinj : ∀ idx jdx, InRange len idx → InRange len jdx → ps idx = ps jdx → idx = jdx) (f : List Int → Heap V → Option V) (w : List Int → Option V)
    (hw : ∀ idx, InRange len idx → (w idx).isSome)
    (hf : ∀ idx, InRange len idx → ∀ cells' : List (Option V), cells'.length = cells.length → (∀ j : Nat, (∀ jdx, InRange len jdx → ps jdx ≠ j) → cells'[j]? = cells[j]?) →
      cells'[ps idx]? = cells[ps idx]? → f idx (q.mem.hp.set b ⟨cells', false⟩) = w idx) :
    ∃ cells', forEach len (fun idx q => do
        let x ← f idx q.mem.hp
        let k ← lay.call (idx.map .idx)
        AProg.writeAt triv q d (off + k) x) q = some { q with mem := { q.mem with hp := q.mem.hp.set b ⟨cells', false⟩ } } ∧
      cells'.length = cells.length ∧ (triv = false → ∀ c ∈ cells', c.isSome) ∧ (∀ j : Nat, (∀ jdx, InRange len jdx → ps jdx ≠ j) → cells'[j]? = cells[j]?) ∧
      ∀ idx, InRange len idx → cells'[ps idx]? = some (w idx) := by
  have hb := Heap.lt_of_live hl
  have hall : ∀ cells' : List (Option V), (∀ j : Nat, cells'[j]? = cells[j]? ∨ ∃ v, cells'[j]? = some (some v)) → triv = false → ∀ c ∈ cells', c.isSome := by
    intro cells' halt ht c hc
    obtain ⟨j, hj⟩ := List.mem_iff_getElem?.mp hc
    rcases halt j with h | ⟨v, h⟩
    · rw [hj] at h; exact hfull ht c (List.mem_of_getElem? h.symm)
    · rw [hj] at h; cases h; rfl
  have := fold_set (fun cells => { q with mem := { q.mem with hp := q.mem.hp.set b ⟨cells, false⟩ } })
    (fun idx q => do
      let x ← f idx q.mem.hp
      let k ← lay.call (idx.map .idx)
      AProg.writeAt triv q d (off + k) x) ps w cells (box len) (nodup_map_inj ps hinj) (fun x hx => (hps x (mem_box.mp hx)).choose_spec.2.2)
    (fun x hx => hw x (mem_box.mp hx))
    (fun x hx cells' hl' hout halt hsame => by
      have hx' := mem_box.mp hx
      obtain ⟨k, hk1, hk2, hk3⟩ := hps x hx'
      have hv := hf x hx' cells' hl' (fun j hj => hout j (fun y hy => hj y (mem_box.mp hy))) hsame
      obtain ⟨v, hv'⟩ := Option.isSome_iff_exists.mp (hw x hx')
      have hlt : ps x < cells'.length := by rw [hl']; exact hk3
      have hlive : Heap.live (q.mem.hp.set b ⟨cells', false⟩) b = some ⟨cells', false⟩ := Heap.live_set_self hb _
      have hwr : Heap.write triv (q.mem.hp.set b ⟨cells', false⟩) b (ps x) v = some (q.mem.hp.set b ⟨cells'.set (ps x) (some v), false⟩) := by
        simp only [Heap.write, hlive, Option.bind_eq_bind, Option.bind_some]
        have hg := List.getElem?_eq_getElem hlt
        rw [hg]
        cases hc : cells'[ps x] with
        | some w => simp only [List.set_set]; rfl
        | none =>
            cases triv with
            | true => simp only [if_true, List.set_set]; rfl
            | false =>
                have := hall cells' halt rfl _ (List.getElem_mem hlt)
                rw [hc] at this; cases this
      have hvar' : Prog.var { q with mem := { q.mem with hp := q.mem.hp.set b ⟨cells', false⟩ } } d = some (.heap (some b) n none) := hvar
      rw [hv'] at hv
      simp only [hv, hk1, hk2, Option.bind_eq_bind, Option.bind_some, AProg.writeAt, hvar', Handle.data]
      rw [if_neg (by omega), Int.toNat_natCast, hwr, hv']
      rfl)
  obtain ⟨cells', g1, g2, g3, g4, g5⟩ := this
  refine ⟨cells', ?_, g2, hall cells' g4, fun j hj => g3 j (fun x hx => hj x (mem_box.mp hx)), fun idx hi => g5 idx (mem_box.mpr hi)⟩
  have e : ({ q with mem := { q.mem with hp := q.mem.hp.set b ⟨cells, false⟩ } } : Prog V) = q := by rw [Heap.set_self_live hl]
  rw [e] at g1
  rw [forEach_eq]; exact g1
where
  nodup_map_inj {len : List Int} (ps : List Int → Nat) (hinj : ∀ idx jdx, InRange len idx → InRange len jdx → ps idx = ps jdx → idx = jdx) : ((box len).map ps).Nodup :=
    (List.nodup_map_iff_inj_on (lexEnum_box len).nodup).mpr (fun x hx y hy e => hinj x y (mem_box.mp hx) (mem_box.mp hy) e)

/-! ### Chains of view operations on a layout with any strides -/

theorem step_wf {v : View} (hw : WF v.lay) {o : Op} (ha : Allowed v.lay.len o) :
    ∃ v', step v o = some v' ∧ WF v'.lay ∧ ShapeAfter v.lay.len o v'.lay.len ∧ v'.lay.len.length = rankAfter v.lay.len.length o ∧
      ∀ idx, InRange v'.lay.len idx → InRange v.lay.len (source v.lay.len.length o idx) := by
  cases o with
  | slice args =>
      obtain ⟨h128, hf, hin⟩ := ha
      obtain ⟨off, m', h1, hF⟩ := slice_facts hw (args := args) hf h128 (inside_stepsOK hin)
      change SliceFacts v.lay (expand v.lay.len.length args) off m' at hF
      have hl : (expand v.lay.len.length args).length = v.lay.len.length := inside_length hin
      have hell := not_mem_ell_expand v.lay.len.length args
      have hst := inside_stepsOK hin
      refine ⟨⟨v.off + off, m'⟩, by simp [step, sliceView, h1], hF.wf, ?_, ?_, ?_⟩
      · show SliceShape _ _ m'.len
        rw [hF.len_eq]; exact sliceShape_keepMap hell hst _ hl
      · show m'.len.length = _
        rw [hF.len_eq, keepMap_length _ _ _ hl]; rfl
      · intro idx hi
        have hi' : InRange m'.len idx := hi
        rw [hF.len_eq] at hi'
        exact inside_coords hell hst hin hi'
  | permute p =>
      obtain ⟨hp, hpl⟩ := ha
      obtain ⟨m', h1, hw', h3, h4, h5, h6, h7, h8⟩ := transpose_spec hw hp hpl
      refine ⟨⟨v.off, m'⟩, by simp [step, permuted, h1], hw', ⟨h4, h5⟩, h4, fun idx hi => ?_⟩
      have hi' : InRange m'.len idx := hi
      show InRange v.lay.len (memOrder p idx)
      rw [← h5]; exact (inRange_memOrder hp (by omega) (by rw [hi'.length_eq]; omega)).mpr hi'
  | addFast n => exact ⟨_, rfl, addFast_wf hw n, rfl, by simp [addFastDims, rankAfter], fun idx hi => (inRange_append.mp hi).1⟩

theorem run_wf : ∀ {os : List Op} {v : View}, WF v.lay → ChainAllowed v.lay.len os →
    ∃ v', run v os = some v' ∧ ChainShape v.lay.len os v'.lay.len ∧
      ∀ idx, InRange v'.lay.len idx → InRange v.lay.len (sourceChain v.lay.len.length os idx)
  | [], v, _, _ => ⟨v, rfl, rfl, fun _ h => h⟩
  | o :: os, v, hw, ha => by
      obtain ⟨v1, h1, h2, h3, h4, h5⟩ := step_wf hw ha.1
      obtain ⟨v2, g1, g2, g3⟩ := run_wf h2 (ha.2 _ h3)
      rw [h4] at g3
      exact ⟨v2, by simp [LayoutTransforms.run, h1, g1], ⟨_, h3, g2⟩, fun idx hi => h5 _ (g3 idx hi)⟩

/-! ### The view's elements -/

theorem inView_some {n : Nat} {ops : List Op} {ext jdx idx : List Int} (h : inView n ops ext jdx = some idx) : InRange ext idx ∧ sourceChain n ops idx = jdx := by
  have h1 := List.find?_some h
  have h2 := List.mem_of_find?_eq_some h
  rw [tuples_eq_box] at h2
  exact ⟨mem_box.mp h2, by simpa using h1⟩

theorem inView_none {n : Nat} {ops : List Op} {ext jdx : List Int} (h : inView n ops ext jdx = none) {idx : List Int} (hi : InRange ext idx) : sourceChain n ops idx ≠ jdx := by
  have := List.find?_eq_none.mp h idx (by rw [tuples_eq_box]; exact mem_box.mpr hi)
  simpa using this

section
variable {triv : Bool} {so : Nat → List Nat} {p : AProg V} {a : Vals V}

/-- What reads of other variables see, if only the block of `d` and new blocks differ. -/
theorem read_other (i : VInv triv so p a) {d x : Nat} (hne : x ≠ d) {hp : Heap V} (hfr : ∀ b, b < p.prog.mem.hp.length → blockOf p d ≠ some b → hp[b]? = p.prog.mem.hp[b]?)
    {jdx : List Int} {v : V} (h : a.elt x jdx = some v) : p.elemIn hp x jdx = some v := by
  obtain ⟨y, h1, h2, h3, h4⟩ := Vals.elt_some h
  rw [elemIn_other (fun b hb => ?_)]
  · exact i.holds x y h1 h2 jdx v h3 h4
  · obtain ⟨g1, g2⟩ := i.blocks (d := d) hne h1 hb
    exact hfr b g2 g1

theorem build_ok (dflt : V) (hso : ∀ i, IsPerm (so i)) (i : VInv triv so p a) (d : Nat) {shape : List Int} (hs : IsShape (so d) shape) (rhs : List Int → Comp V)
    (hr : ∀ idx, InRange shape idx → ((rhs idx).eval a.elt).isSome) : Steps triv dflt so p a (.build d shape rhs) := by
  have hread : ∀ (idx : List Int) (v : V) (hp : Heap V), (∀ b, b < p.prog.mem.hp.length → hp[b]? = p.prog.mem.hp[b]?) → (rhs idx).eval a.elt = some v →
      p.access rhs idx hp = some v := by
    intro idx v hp hfr h
    refine Comp.eval_mono (fun x jdx u hu => ?_) h
    obtain ⟨y, h1, -⟩ := Vals.elt_some hu
    exact read_other i (d := x + 1) (by omega) (fun b hb _ => hfr b hb) hu
  by_cases hf : p.free d = true
  · have hf' := i.free.mp hf
    have hd : d < p.lays.length := by rw [← i.alen]; exact hf'.1
    have hdv : d < p.prog.vars.length := by rw [i.inv.rel.vlen]; omega
    have hind : Independent p none shape (p.access rhs) := by
      intro idx hi hp hfr
      obtain ⟨v, hv⟩ := Option.isSome_iff_exists.mp (hr idx hi)
      rw [hread idx v hp (fun b hb => hfr b hb (by simp)) hv]; rfl
    obtain ⟨p', h1, h2, h3⟩ := build_spec dflt hso i.inv hf hs hind
    refine ⟨p', h1, ?_⟩
    simp only [vnext]
    have e := shapes_put a d (⟨shape, false, fun idx => (rhs idx).eval a.elt⟩ : Val V)
    rw [put_set hf'] at e ⊢
    have hsp : (shapes a).put d (shape, false) = (shapes a).set d (some (shape, false)) := by
      rw [Shapes.put, if_pos ⟨by simpa [shapes] using hf'.1, by rw [shapes_none]; exact hf'.2⟩]
    rw [hsp] at e
    rw [← e] at h2
    obtain ⟨m, g1, g2, g3, g4, g5, -⟩ := layoutOf_spec (hso d) hs
    simp only [AProg.step, hf, if_true, g1, Option.bind_eq_bind, Option.bind_some, AProg.buildHandle] at h1
    rw [if_neg (by omega)] at h1
    have hvals : ∀ idx v, InRange shape idx → (rhs idx).eval a.elt = some v → p'.elem d idx = some v := by
      intro idx v hi hv
      obtain ⟨u, hp, k1, k2, k3⟩ := h3 idx hi
      rw [hread idx v hp k3 hv] at k2
      cases k2; exact k1
    by_cases h0 : prod shape = 0
    · rw [if_pos (by rw [g3]; exact h0)] at h1
      simp only [Option.bind_some, Prog.setVar] at h1
      cases h1
      refine i.frame1 hd h2 (fun b _ _ => rfl) ?_
      rintro y hy
      cases hy
      exact ⟨layoutOf_wf (hso _) hs g1, fun _ idx v hi _ => absurd h0 (prod_pos_of_inRange (hso _) hs hi)⟩
    · rw [if_neg (by rw [g3]; exact h0), g3] at h1
      simp only [Heap.alloc] at h1
      obtain ⟨vs, -, e2, -⟩ := AProg.placeAll_spec (hso d) triv hs g1 (p.access rhs) p.prog.mem.hp (fun idx hi cells => hind idx hi _ (fun x hx _ => by
        rw [List.getElem?_append_left hx]))
      rw [e2] at h1
      simp only [Option.bind_some, Prog.setVar] at h1
      cases h1
      refine i.frame1 hd h2 (fun b hb _ => append_frame _ hb) ?_
      rintro y hy
      cases hy
      exact ⟨layoutOf_wf (hso _) hs g1, fun _ idx v hi hv => hvals idx v hi hv⟩
  · refine ⟨p, ?_, ?_⟩
    · simp only [AProg.vstep, AProg.step, hf]; rfl
    · simp only [vnext]
      rw [put_same (fun h => hf (i.free.mpr h))]; exact i

theorem assign_ok (dflt : V) (hso : ∀ i, IsPerm (so i)) (i : VInv triv so p a) (d : Nat) {shape : List Int} (hs : IsShape (so d) shape) (rhs : List Int → Comp V)
    (hr : ∀ idx, InRange shape idx → ((rhs idx).eval (a.eltAssign d shape idx)).isSome) : Steps triv dflt so p a (.assign d shape rhs) := by
  cases hw : a.get d with
  | none =>
      refine ⟨p, ?_, ?_⟩
      · simp only [AProg.vstep, AProg.step, i.dead hw, Bool.false_eq_true, if_false]
      · simp only [vnext, Vals.upd, hw, if_true]; exact i
  | some x =>
      obtain ⟨md, yd, nd, hald, hd1, hd2, hd3, hd4, hd5, hd6, hd7, hd8⟩ := i.alive hw
      obtain ⟨m, y', mem, h1, h2, h3, h4, h5, h6, h7⟩ := resize_spec dflt hso i.inv hd1 hd3 hs
      obtain ⟨m', g1, g2, g3, g4, g5, g6, g7⟩ := layoutOf_spec (hso d) hs
      rw [h1] at g1; cases g1
      have hblk : blockOf p d = yd := by simp [blockOf, hd3, Handle.data]
      have hlay : (p.lays.set d m)[d]? = some m := by simp [hd1]
      have hdv : d < p.prog.vars.length := by rw [i.inv.rel.vlen]; omega
      have hvar : Prog.var (⟨mem, p.prog.vars.set d (some (.heap y' (prod shape).toNat none))⟩ : Prog V) d = some (.heap y' (prod shape).toNat none) := by
        simp [Prog.var, hdv]
      simp only [Steps, vnext, Vals.upd, hw, reduceCtorEq, if_false]
      by_cases h0 : prod shape = 0
      · have hbox : box shape = [] := by
          rw [List.eq_nil_iff_forall_not_mem]
          intro idx hi
          exact prod_pos_of_inRange (hso _) hs (mem_box.mp hi) h0
        refine ⟨⟨⟨mem, p.prog.vars.set d (some (.heap y' (prod shape).toNat none))⟩, p.lays.set d m⟩, ?_, ?_⟩
        · simp only [AProg.vstep, AProg.step, hald, if_true, h2, Option.bind_eq_bind, Option.bind_some, AProg.assignAll, hlay]
          rw [g2, forEach_eq, hbox]; rfl
        · refine i.frame1 hd1 (by rw [shapes_set]; exact h3) (fun b hb hne => h4 b hb (by rw [← hblk]; exact Ne.symm hne)) ?_
          rintro y hy
          cases hy
          exact ⟨layoutOf_wf (hso _) hs h1, fun _ idx v hi _ => absurd h0 (prod_pos_of_inRange (hso _) hs hi)⟩
      · obtain ⟨b, hb⟩ := Option.ne_none_iff_exists'.mp (h6 h0)
        subst hb
        have hmem : Handle.heap (some b) (prod shape).toNat none ∈ Prog.handles (p.prog.vars.set d (some (.heap (some b) (prod shape).toNat none))) :=
          Prog.mem_handles (s := d) hvar
        obtain ⟨cells, hl, hF⟩ := h3.own.excl_live hmem (b := b) (by simp [excl])
        have hlb := Heap.lt_of_live hl
        have hbnew : ∀ x, x < p.prog.mem.hp.length → some x ≠ yd → b ≠ x := by
          rintro x hx hxy rfl
          rcases h7.1 with h | h | h
          · exact hxy h
          · cases h
          · cases h; omega
        have hfr : ∀ (cells' : List (Option V)) (x : Nat), x < p.prog.mem.hp.length → blockOf p d ≠ some x →
            (mem.hp.set b (⟨cells', false⟩ : Block V))[x]? = p.prog.mem.hp[x]? := by
          intro cells' x hx hxy
          have hxy' : some x ≠ yd := by rw [← hblk]; exact Ne.symm hxy
          rw [List.getElem?_set_ne (hbnew x hx hxy')]; exact h4 x hx hxy'
        have hread : ∀ idx, InRange shape idx → ∀ cells' : List (Option V), cells'[pos m idx]? = cells[pos m idx]? →
            p.access rhs idx (mem.hp.set b ⟨cells', false⟩) = (rhs idx).eval (a.eltAssign d shape idx) := by
          intro idx hi cells' hsame
          obtain ⟨v, hv⟩ := Option.isSome_iff_exists.mp (hr idx hi)
          rw [hv]
          refine Comp.eval_mono (fun z jdx u hu => ?_) hv
          simp only [Vals.eltAssign] at hu
          split at hu
          · cases hu
          · rename_i hc
            by_cases hz : z = d
            · subst hz
              simp only [true_and, not_not] at hc
              obtain ⟨rfl, hsh⟩ := hc
              obtain ⟨w, k1, k2, k3, k4⟩ := Vals.elt_some hu
              rw [hw] at k1; cases k1
              rw [hw] at hsh
              simp only [Option.map_some, Option.some.injEq] at hsh
              subst hsh
              rw [k2] at hd7
              simp only [Bool.false_eq_true, if_false] at hd7
              obtain ⟨b0, cells0, rfl, hl0, hF0⟩ := hd8 h0 k2
              obtain ⟨rfl, e⟩ := h5 hd7 (Or.inl (by simp))
              cases e
              rw [hl] at hl0; cases hl0
              have hml := hd6.resolve_right h0
              rw [h1] at hml; cases hml
              have hold := i.holds z x hw k2 jdx u k3 k4
              rw [elem_cell hd2 (by simp only [dataOf, hblk, Option.bind_some]; exact hl) (g5 jdx hi).1] at hold
              rw [elemIn_self hd2 hblk (List.getElem?_set_self hlb) (g5 jdx hi).1, hsame]
              exact hold
            · exact read_other i hz (fun b' hb' hne' => hfr cells' b' hb' hne') hu
        obtain ⟨cells', e1, e2, e3, e4, e5⟩ := writeLoop (triv := triv) hvar hl hF.2 m 0 shape (pos m)
          (fun idx hi => ⟨_, (g5 idx hi).1, by omega, by rw [hF.1]; exact (g5 idx hi).2⟩) g6 (p.access rhs) (fun idx => (rhs idx).eval (a.eltAssign d shape idx)) hr
          (fun idx hi cells' _ _ hsame => hread idx hi cells' hsame)
        simp only [Int.zero_add] at e1
        have hown := Own.set_cells h3.own hl e2 e3
        refine ⟨⟨⟨{ mem with hp := mem.hp.set b ⟨cells', false⟩ }, p.prog.vars.set d (some (.heap (some b) (prod shape).toNat none))⟩, p.lays.set d m⟩, ?_, ?_⟩
        · simp only [AProg.vstep, AProg.step, hald, if_true, h2, Option.bind_eq_bind, Option.bind_some, AProg.assignAll, hlay]
          rw [g2]
          simp only [Option.bind_eq_bind] at e1
          rw [e1]; rfl
        · refine i.frame1 hd1 (by rw [shapes_set]; exact ⟨hown, h3.rel.vlen, h3.rel.alen, h3.rel.tmp, h3.rel.rel⟩) (fun b' hb' hne' => hfr cells' b' hb' hne') ?_
          rintro y hy
          cases hy
          refine ⟨layoutOf_wf (hso _) hs h1, fun _ idx v hi hv => ?_⟩
          simp only at hv hi
          rw [elem_cell (m := m) hlay (dataOf_put hdv (blk := ⟨cells', false⟩) (List.getElem?_set_self hlb) rfl) (g5 idx hi).1, e5 idx hi]
          exact hv

theorem put_ok (dflt : V) (hso : ∀ i, IsPerm (so i)) (i : VInv triv so p a) (d : Nat) (ops : List Op) (ext : List Int) (rhs : List Int → Comp V)
    (hr : ∀ x, a.get d = some x → x.moved = false ∧ ChainAllowed x.shape ops ∧ ChainShape x.shape ops ext ∧
      ∀ idx, InRange ext idx → ((rhs idx).eval (a.eltPut d x.shape.length ops ext idx)).isSome) : Steps triv dflt so p a (.put d ops ext rhs) := by
  cases hw : a.get d with
  | none =>
      refine ⟨p, ?_, ?_⟩
      · simp only [AProg.vstep, i.dead hw, Bool.false_eq_true, if_false]
      · simp only [vnext, hw]; exact i
  | some x =>
      obtain ⟨hmv, hca, hcs, hval⟩ := hr x hw
      obtain ⟨m, yd, nd, hald, hd1, hd2, hd3, hd4, hd5, hd6, hd7, hd8⟩ := i.alive hw
      have hwf := i.wf d m (by rw [hw]; simp) hd2
      have hblk : blockOf p d = yd := by simp [blockOf, hd3, Handle.data]
      have hdv : d < p.prog.vars.length := by rw [i.inv.rel.vlen]; omega
      have hll := lays_self hd2
      have hvs : p.prog.vars.set d (some (.heap yd nd none)) = p.prog.vars := by
        have : p.prog.vars[d] = some (.heap yd nd none) := by
          rw [Prog.var, List.getElem?_eq_getElem hdv] at hd3; simpa using hd3
        rw [← this]; exact List.set_getElem_self hdv
      have hsh : ∀ el, shapes (a.set d (some { x with el := el })) = shapes a := by
        intro el
        rw [shapes_set]
        have := shapes_get a d
        rw [hw] at this
        simp only [Shapes.get, Option.map_some] at this ⊢
        have hlt : d < (shapes a).length := by simp only [shapes, List.length_map]; rw [i.alen]; exact hd1
        rw [List.getElem?_eq_getElem hlt] at this
        simp only [Option.join_some] at this
        rw [← this]; exact List.set_getElem_self hlt
      simp only [Steps, vnext, hw, AProg.vstep, hald, if_true, AProg.putAll, hd2, Option.bind_eq_bind, Option.bind_some]
      by_cases h0 : prod x.shape = 0
      · obtain ⟨v, r1, r2, r3⟩ := run_wf (v := ⟨0, m⟩) hwf (by rw [hd4]; exact hca)
        simp only [hd4] at r2 r3
        have hbox : box v.lay.len = [] := by
          rw [List.eq_nil_iff_forall_not_mem]
          intro idx hi
          exact prod_pos_of_inRange (hso _) hd5 (r3 idx (mem_box.mp hi)) h0
        refine ⟨p, ?_, ?_⟩
        · rw [r1, Option.bind_some, forEach_eq, hbox]; rfl
        · have := i.frame1 hd1 (x := some { x with el := putEl a d ops ext rhs x }) (m := m) (h := some (.heap yd nd none)) (mem := p.prog.mem)
            (by rw [hll, hvs, hsh]; exact i.inv) (fun _ _ _ => rfl) (by
              rintro y hy
              cases hy
              exact ⟨hwf, fun _ idx v hi _ => absurd h0 (prod_pos_of_inRange (hso _) hd5 hi)⟩)
          rw [hll, hvs] at this; exact this
      · have hml : layoutOf (so d) x.shape = some m := hd6.resolve_right h0
        have hsm : SmallestOK m := by
          obtain ⟨m', e1, -, e3, -⟩ := ofShape_spec x.shape (so d) (List.replicate (so d).length 0) .contiguous (hso d) hd5.1.symm (by simp [hd5.1])
          rw [layoutOf, e1] at hml; cases hml
          exact (flagsOK_of_dense e3).smallest
        obtain ⟨v, r1, r2, r3, r4, r5, r6⟩ := run_facts (v := ⟨0, m⟩) (os := ops) hwf hsm (by rw [hd4]; exact hca)
        have r7 := run_shape (v := ⟨0, m⟩) (os := ops) hwf hsm (by rw [hd4]; exact hca) r1
        simp only [hd4, Int.zero_add] at r4 r5 r6 r7
        have hext : v.lay.len = ext := Programs.chainShape_unique hca r7 hcs
        rw [hext] at r4 r5 r6
        rw [hmv] at hd7
        simp only [Bool.false_eq_true, if_false] at hd7
        obtain ⟨b, cells, rfl, hl, hF⟩ := hd8 h0 hmv
        have hlb := Heap.lt_of_live hl
        obtain ⟨m', g1, g2, g3, g4, g5, g6, g7⟩ := layoutOf_spec (hso d) hd5
        rw [hml] at g1; cases g1
        have hcall : ∀ jdx, InRange x.shape jdx → offset m jdx = (pos m jdx : Int) := by
          intro jdx hj
          have h1 := (g5 jdx hj).1
          rw [call_idx hwf hsm jdx (by rw [hd4]; exact hj.length_eq)] at h1
          exact Option.some.inj h1
        have hfr : ∀ (cells' : List (Option V)) (z : Nat), z < p.prog.mem.hp.length → blockOf p d ≠ some z →
            (p.prog.mem.hp.set b (⟨cells', false⟩ : Block V))[z]? = p.prog.mem.hp[z]? := by
          intro cells' z hz hzy
          rw [hblk] at hzy
          exact List.getElem?_set_ne (fun e => hzy (by rw [e]))
        have hread : ∀ idx, InRange ext idx → ∀ cells' : List (Option V),
            (∀ j : Nat, (∀ jdx, InRange ext jdx → pos m (sourceChain x.shape.length ops jdx) ≠ j) → cells'[j]? = cells[j]?) →
            cells'[pos m (sourceChain x.shape.length ops idx)]? = cells[pos m (sourceChain x.shape.length ops idx)]? →
            p.access rhs idx (p.prog.mem.hp.set b ⟨cells', false⟩) = (rhs idx).eval (a.eltPut d x.shape.length ops ext idx) := by
          intro idx hi cells' hout hsame
          obtain ⟨v, hv⟩ := Option.isSome_iff_exists.mp (hval idx hi)
          rw [hv]
          refine Comp.eval_mono (fun z jdx u hu => ?_) hv
          simp only [Vals.eltPut] at hu
          split at hu
          · cases hu
          · rename_i hc
            by_cases hz : z = d
            · subst hz
              obtain ⟨w, k1, k2, k3, k4⟩ := Vals.elt_some hu
              rw [hw] at k1; cases k1
              have hold := i.holds z x hw k2 jdx u k3 k4
              rw [elem_cell hd2 (by simp only [dataOf, hblk, Option.bind_some]; exact hl) (g5 jdx k3).1] at hold
              have hsame' : cells'[pos m jdx]? = cells[pos m jdx]? := by
                by_cases hn : inView x.shape.length ops ext jdx = none
                · refine hout _ (fun kdx hk e => inView_none hn hk ?_)
                  exact g6 _ _ (r4 kdx hk) k3 e
                · by_cases hn' : inView x.shape.length ops ext jdx = some idx
                  · rw [← (inView_some hn').2]; exact hsame
                  · exact absurd ⟨rfl, hn, hn'⟩ hc
              rw [elemIn_self hd2 hblk (List.getElem?_set_self hlb) (g5 jdx k3).1, hsame']
              exact hold
            · exact read_other i hz (fun b' hb' hne' => hfr cells' b' hb' hne') hu
        obtain ⟨cells', e1, e2, e3, e4, e5⟩ := writeLoop (triv := triv) hd3 hl hF.2 v.lay v.off ext (fun idx => pos m (sourceChain x.shape.length ops idx))
          (fun idx hi => ⟨offset v.lay idx, call_idx r2 r3 idx (by rw [hext]; exact hi.length_eq), by rw [r6 idx hi]; exact hcall _ (r4 idx hi), by
            rw [hF.1]; have := (g5 _ (r4 idx hi)).2; omega⟩)
          (fun idx jdx hi hj e => r5 idx jdx hi hj (g6 _ _ (r4 idx hi) (r4 jdx hj) e)) (p.access rhs) (fun idx => (rhs idx).eval (a.eltPut d x.shape.length ops ext idx)) hval
          (fun idx hi cells' _ hout hsame => hread idx hi cells' hout hsame)
        have hown := Own.set_cells i.inv.own hl e2 e3
        refine ⟨⟨⟨{ p.prog.mem with hp := p.prog.mem.hp.set b ⟨cells', false⟩ }, p.prog.vars⟩, p.lays⟩, ?_, ?_⟩
        · rw [r1, Option.bind_some, hext]
          simp only [Option.bind_eq_bind] at e1
          rw [e1]; rfl
        · have := i.frame1 hd1 (x := some { x with el := putEl a d ops ext rhs x }) (m := m) (h := some (.heap (some b) nd none))
            (mem := { p.prog.mem with hp := p.prog.mem.hp.set b ⟨cells', false⟩ })
            (by rw [hll, hvs, hsh]; exact ⟨hown, i.inv.rel.vlen, i.inv.rel.alen, i.inv.rel.tmp, i.inv.rel.rel⟩)
            (fun b' hb' hne' => hfr cells' b' hb' hne') (by
              rintro y hy
              cases hy
              refine ⟨hwf, fun _ jdx u hj hu => ?_⟩
              simp only at hj hu
              rw [elem_cell (m := m) (by rw [hll]; exact hd2) (dataOf_put hdv (blk := ⟨cells', false⟩) (List.getElem?_set_self hlb) rfl) (g5 jdx hj).1]
              simp only [putEl] at hu
              cases hn : inView x.shape.length ops ext jdx with
              | some idx =>
                  rw [hn] at hu
                  obtain ⟨k1, k2⟩ := inView_some hn
                  rw [← k2, e5 idx k1]
                  exact hu
              | none =>
                  rw [hn] at hu
                  have hold := i.holds d x hw hmv jdx u hj hu
                  rw [elem_cell hd2 (by simp only [dataOf, hblk, Option.bind_some]; exact hl) (g5 jdx hj).1] at hold
                  rw [e4 _ (fun kdx hk e => inView_none hn hk (g6 _ _ (r4 kdx hk) hj e))]
                  exact hold)
          rw [hll, hvs] at this; exact this

/-- One statement. -/
theorem VInv.step (dflt : V) (hso : ∀ i, IsPerm (so i)) (hne : ∀ i, so i ≠ []) (i : VInv triv so p a) (op : VOp V) (h : VAllowed so a op) : Steps triv dflt so p a op := by
  cases op with
  | default d junk => exact default_ok dflt hso hne i d junk h
  | make d shape => exact make_ok dflt hso hne i d h
  | zeros d shape => exact zeros_ok dflt hso hne i d h
  | build d shape rhs => exact build_ok dflt hso i d h.1 rhs h.2
  | copy d s => exact copy_ok dflt hso hne i d s h
  | move d s => exact move_ok dflt hso hne i d s h
  | copyAssign d s => exact copyAssign_ok dflt hso hne i d s h
  | moveAssign d s => exact moveAssign_ok dflt hso hne i d s h
  | resize d shape => exact resize_ok dflt hso i d h
  | assign d shape rhs => exact assign_ok dflt hso i d h.1 rhs h.2
  | fill d v => exact fill_ok dflt hso hne i d v h
  | put d ops ext rhs => exact put_ok dflt hso i d ops ext rhs h
  | destroy d => exact destroy_ok dflt hso hne i d

theorem VInv.run (dflt : V) (hso : ∀ i, IsPerm (so i)) (hne : ∀ i, so i ≠ []) : ∀ {ops : List (VOp V)} {p : AProg V} {a : Vals V}, VInv triv so p a → VAllowedRun triv dflt so a ops →
    ∃ p', p.vrun triv dflt so ops = some p' ∧ VInv triv so p' (vfinal triv dflt (rankOf so) a ops)
  | [], p, a, i, _ => ⟨p, rfl, i⟩
  | op :: ops, p, a, i, h => by
      obtain ⟨p1, h1, h2⟩ := i.step dflt hso hne op h.1
      obtain ⟨p2, h3, h4⟩ := VInv.run dflt hso hne h2 h.2
      refine ⟨p2, ?_, h4⟩
      rw [AProg.vrun, List.foldlM_cons, h1]; exact h3

end

theorem VInv.start (triv : Bool) (so : Nat → List Nat) (n : Nat) : VInv triv so (AProg.start n : AProg V) (List.replicate n none) := by
  refine ⟨?_, fun d m hd => absurd ?_ hd, fun d x hd => ?_⟩
  · have := start_inv (V := V) triv so n
    simpa [shapes] using this
  · simp only [Vals.get, List.getElem?_replicate]; split <;> rfl
  · exfalso
    simp only [Vals.get, List.getElem?_replicate] at hd
    split at hd <;> cases hd

theorem VInv.represents {triv : Bool} {so : Nat → List Nat} {p : AProg V} {a : Vals V} (i : VInv triv so p a) : Represents p a := by
  intro d
  cases h : a.get d with
  | none =>
      simp only
      have := i.dead h
      cases hv : p.prog.var d with
      | none => rfl
      | some y =>
          exfalso
          by_cases hd : d < p.lays.length
          · simp [AProg.alive, hd, hv] at this
          · by_cases e : d = p.lays.length
            · subst e; rw [i.inv.rel.tmp] at hv; cases hv
            · rw [Prog.var, List.getElem?_eq_none (by rw [i.inv.rel.vlen]; omega)] at hv; cases hv
  | some x =>
      obtain ⟨m, y, n, -, h1, h2, h3, h4, -, -, h7, -⟩ := i.alive h
      refine ⟨⟨m, h2, h4⟩, fun hm idx v hi hv => i.holds d x h hm idx v hi hv, fun hm idx => ?_⟩
      rw [hm] at h7
      simp only [if_true] at h7
      rw [elem_def]
      have : dataOf p d = none := by simp [dataOf, blockOf, h3, Handle.data, h7.1]
      rw [this, h2]; rfl

end Nda.Arr
