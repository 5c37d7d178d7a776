import Verif.Spec.Values
import Verif.Props.Arrays
import Verif.Lemmas.Views
/-!
# Arrays as values: lemmas
-/
namespace Nda.Arr
open Nda Nda.Mem Nda.Spec Spec Nda.Mem.Spec Loops Nda.Perm LayoutTransforms Nda.IdxMap

variable {V : Type}

theorem tuples_eq_box : ∀ len, tuples len = box len
  | [] => rfl
  | l :: ls => by rw [tuples, box, tuples_eq_box ls]

/-! ### Computations -/

theorem Comp.eval_mono {rd rd' : Nat → List Int → Option V} (h : ∀ x idx v, rd x idx = some v → rd' x idx = some v) :
    ∀ {c : Comp V} {w : V}, c.eval rd = some w → c.eval rd' = some w
  | .ret _, _, e => e
  | .read x idx k, w, e => by
      simp only [Comp.eval, Option.bind_eq_bind] at e ⊢
      obtain ⟨v, h1, h2⟩ := Option.bind_eq_some_iff.mp e
      rw [h x idx v h1]
      exact Comp.eval_mono h h2

/-! ### What an element depends on -/

/-- The block of array `d`. -/
def dataOf (p : AProg V) (d : Nat) : Option (Block V) := (blockOf p d).bind p.prog.mem.hp.live

theorem elem_def (p : AProg V) (d : Nat) (idx : List Int) :
    p.elem d idx = (p.lays[d]?).bind fun m => (dataOf p d).bind fun blk => (m.call (idx.map .idx)).bind fun k =>
      if k < 0 then none else (blk.cells[k.toNat]?).join := by
  simp only [AProg.elem, dataOf, blockOf, Option.bind_eq_bind]
  cases p.lays[d]? with
  | none => rfl
  | some m =>
      simp only [Option.bind_some]
      cases p.prog.var d with
      | none => rfl
      | some h =>
          simp only [Option.bind_some]
          cases h.data with
          | none => rfl
          | some b =>
              simp only [Option.bind_some]
              cases hl : p.prog.mem.hp.live b with
              | none =>
                  cases m.call (idx.map .idx) with
                  | none => rfl
                  | some k =>
                      simp only [Option.bind_some, Option.bind_none]
                      split
                      · rfl
                      · simp [Heap.read, hl]
              | some blk =>
                  simp only [Option.bind_some]
                  cases m.call (idx.map .idx) with
                  | none => rfl
                  | some k =>
                      simp only [Option.bind_some]
                      split
                      · rfl
                      · simp only [Heap.read, hl, Option.bind_eq_bind, Option.bind_some]
                        cases blk.cells[k.toNat]? <;> rfl

theorem elem_congr {p p' : AProg V} {i j : Nat} (h1 : p'.lays[i]? = p.lays[j]?) (h2 : dataOf p' i = dataOf p j) (idx : List Int) : p'.elem i idx = p.elem j idx := by
  rw [elem_def, elem_def, h1, h2]

theorem live_congr {hp hp' : Heap V} {b : Nat} (h : hp'[b]? = hp[b]?) : hp'.live b = hp.live b := by
  simp only [Heap.live, h]

/-- The element from the contents of the block. -/
theorem elem_cell {p : AProg V} {d : Nat} {m : IdxMap} {cells : List (Option V)} (h1 : p.lays[d]? = some m) (h2 : dataOf p d = some ⟨cells, false⟩)
    {idx : List Int} {k : Nat} (h3 : m.call (idx.map .idx) = some (k : Int)) : p.elem d idx = (cells[k]?).join := by
  rw [elem_def, h1, h2]
  simp only [Option.bind_some, h3]
  rw [if_neg (by omega)]
  simp

/-! ### The invariant -/

/-- Shapes only. -/
def shapes (a : Vals V) : Shapes := a.map (Option.map (fun x => (x.shape, x.moved)))

theorem shapes_get (a : Vals V) (d : Nat) : (shapes a).get d = (a.get d).map (fun x => (x.shape, x.moved)) := by
  simp only [shapes, Shapes.get, Vals.get, List.getElem?_map]
  cases a[d]? with
  | none => rfl
  | some x => cases x <;> rfl

theorem shapes_set (a : Vals V) (d : Nat) (x : Option (Val V)) : shapes (a.set d x) = (shapes a).set d (x.map (fun x => (x.shape, x.moved))) := by
  simp only [shapes, List.map_set]

theorem shapes_none {a : Vals V} {d : Nat} : (shapes a).get d = none ↔ a.get d = none := by
  rw [shapes_get]; cases a.get d <;> simp

theorem shapes_put (a : Vals V) (d : Nat) (x : Val V) : shapes (a.put d x) = (shapes a).put d (x.shape, x.moved) := by
  simp only [Vals.put, Shapes.put, shapes_none, show (shapes a).length = a.length from by simp [shapes]]
  split
  · rw [shapes_set]; rfl
  · rfl

structure VInv (triv : Bool) (so : Nat → List Nat) (p : AProg V) (a : Vals V) : Prop where
  inv : Inv triv so p (shapes a)
  wf : ∀ d m, a.get d ≠ none → p.lays[d]? = some m → WF m
  holds : ∀ d x, a.get d = some x → x.moved = false → ∀ idx v, InRange x.shape idx → x.el idx = some v → p.elem d idx = some v

theorem VInv.alen {triv : Bool} {so : Nat → List Nat} {p : AProg V} {a : Vals V} (i : VInv triv so p a) : a.length = p.lays.length := by
  have := i.inv.rel.alen
  simpa [shapes] using this

/-- What is known of an array that is alive. -/
theorem VInv.alive {triv : Bool} {so : Nat → List Nat} {p : AProg V} {a : Vals V} (i : VInv triv so p a) {d : Nat} {x : Val V} (h : a.get d = some x) :
    ∃ m y n, p.alive d = true ∧ d < p.lays.length ∧ p.lays[d]? = some m ∧ p.prog.var d = some (.heap y n none) ∧ m.len = x.shape ∧ IsShape (so d) x.shape ∧
      (layoutOf (so d) x.shape = some m ∨ prod x.shape = 0) ∧ (if x.moved then y = none ∧ n = 0 else (n : Int) = prod x.shape) ∧
      (prod x.shape ≠ 0 → x.moved = false → ∃ b cells, y = some b ∧ p.prog.mem.hp.live b = some ⟨cells, false⟩ ∧ Full triv ⟨cells, false⟩ n) := by
  have hal : p.alive d = true := by
    by_contra hc
    have := i.inv.rel.not_alive hc
    rw [shapes_none, h] at this; cases this
  obtain ⟨m, y, n, moved, h1, h2, h3, h4, h5, h6, h7⟩ := i.inv.rel.alive hal
  rw [shapes_get, h] at h4
  simp only [Option.map_some, Option.some.injEq, Prod.mk.injEq] at h4
  obtain ⟨e1, e2⟩ := h4
  rw [← e1] at h5 h6 h7
  rw [← e2] at h7
  refine ⟨m, y, n, hal, h1, h2, h3, e1.symm, h5, h6, h7, fun h0 hm => ?_⟩
  rw [hm] at h7
  simp only [Bool.false_eq_true, if_false] at h7
  cases y with
  | none =>
      have := i.inv.own.null _ (Prog.mem_handles (s := d) h3) rfl
      simp only [Handle.size] at this; omega
  | some b =>
      obtain ⟨cells, hl, hF⟩ := i.inv.own.excl_live (Prog.mem_handles (s := d) h3) (b := b) (by simp [excl])
      exact ⟨b, cells, rfl, hl, hF⟩

theorem VInv.dead {triv : Bool} {so : Nat → List Nat} {p : AProg V} {a : Vals V} (i : VInv triv so p a) {d : Nat} (h : a.get d = none) : p.alive d = false := by
  by_contra hc
  have hc : p.alive d = true := by simpa using hc
  obtain ⟨m, y, n, moved, h1, h2, h3, h4, -⟩ := i.inv.rel.alive hc
  rw [shapes_get, h] at h4; cases h4

theorem VInv.free {triv : Bool} {so : Nat → List Nat} {p : AProg V} {a : Vals V} (i : VInv triv so p a) {d : Nat} : p.free d = true ↔ d < a.length ∧ a.get d = none := by
  rw [i.inv.rel.free_iff, shapes_none, show (shapes a).length = a.length from by simp [shapes]]

theorem set_get_self {a : Vals V} {d : Nat} (h : d < a.length) (x : Option (Val V)) : Vals.get (a.set d x) d = x := by
  simp [Vals.get, h]

theorem set_get_ne {a : Vals V} {d i : Nat} (h : i ≠ d) (x : Option (Val V)) : Vals.get (a.set d x) i = Vals.get a i := by
  simp only [Vals.get]; rw [List.getElem?_set_ne (Ne.symm h)]

/-- Different arrays have different blocks. -/
theorem VInv.blocks {triv : Bool} {so : Nat → List Nat} {p : AProg V} {a : Vals V} (i : VInv triv so p a) {c d b : Nat} (hne : c ≠ d) {x : Val V} (hc : a.get c = some x)
    (h : blockOf p c = some b) : blockOf p d ≠ some b ∧ b < p.prog.mem.hp.length := by
  obtain ⟨m, y, n, -, h1, h2, h3, -⟩ := i.alive hc
  have hy : y = some b := by simpa [blockOf, h3, Handle.data] using h
  subst hy
  obtain ⟨cells, hl, hF⟩ := i.inv.own.excl_live (Prog.mem_handles (s := c) h3) (b := b) (by simp [excl])
  refine ⟨fun hd => ?_, Heap.lt_of_live hl⟩
  have hown := i.inv.own.own b _ (Heap.live_some.mp hl).1
  simp only [Bool.false_eq_true, if_false] at hown
  -- the other handle
  obtain ⟨h, hv, hb⟩ : ∃ h, p.prog.var d = some h ∧ h.data = some b := by
    cases hv : p.prog.var d with
    | none => rw [blockOf, hv] at hd; cases hd
    | some h => rw [blockOf, hv] at hd; exact ⟨h, rfl, hd⟩
  have hex : excl b h = true := by
    by_cases hdl : d < p.lays.length
    · have hrel := i.inv.rel.rel d hdl
      rw [hv] at hrel
      cases ha : (shapes a).get d with
      | none => rw [ha] at hrel; exact hrel.elim
      | some z =>
          rw [ha] at hrel
          obtain ⟨s, mv⟩ := z
          obtain ⟨_, y, n', -, rfl, -⟩ := hrel
          simp only [Handle.data] at hb; subst hb
          simp [excl]
    · exfalso
      by_cases e : d = p.lays.length
      · subst e; rw [i.inv.rel.tmp] at hv; cases hv
      · rw [Prog.var, List.getElem?_eq_none (by rw [i.inv.rel.vlen]; omega)] at hv; cases hv
  have hp1 := Prog.handles_take (vars := p.prog.vars) (s := c) h3
  have hv' : (((p.prog.vars.set c none))[d]?).join = some h := by
    rw [List.getElem?_set_ne hne]; exact hv
  have hm := Prog.mem_handles hv'
  rw [hp1.countP_eq, List.countP_cons] at hown
  have : 0 < (Prog.handles (p.prog.vars.set c none)).countP (excl b) := List.countP_pos_iff.mpr ⟨h, hm, hex⟩
  have h1' : excl b (.heap (some b) n none) = true := by simp [excl]
  rw [h1'] at hown
  simp only [if_true] at hown
  omega

/-- A step that changes only the arrays in `T`. -/
theorem VInv.frame {triv : Bool} {so : Nat → List Nat} {p p' : AProg V} {a a' : Vals V} (i : VInv triv so p a) (hI : Inv triv so p' (shapes a')) (T : Nat → Prop)
    (same : ∀ j, ¬ T j → a'.get j = a.get j ∧ p'.lays[j]? = p.lays[j]? ∧ p'.prog.var j = p.prog.var j)
    (mem : ∀ b, b < p.prog.mem.hp.length → (∀ t, T t → blockOf p t ≠ some b) → p'.prog.mem.hp[b]? = p.prog.mem.hp[b]?)
    (new : ∀ j, T j → ∀ x, a'.get j = some x → (∀ m, p'.lays[j]? = some m → WF m) ∧
      (x.moved = false → ∀ idx v, InRange x.shape idx → x.el idx = some v → p'.elem j idx = some v)) : VInv triv so p' a' := by
  refine ⟨hI, fun d m hd hm => ?_, fun d x hd hmv idx v hi hv => ?_⟩
  · by_cases ht : T d
    · obtain ⟨x, hx⟩ := Option.ne_none_iff_exists'.mp hd
      exact (new d ht x hx).1 m hm
    · obtain ⟨h1, h2, -⟩ := same d ht
      rw [h1] at hd; rw [h2] at hm
      exact i.wf d m hd hm
  · by_cases ht : T d
    · exact (new d ht x hd).2 hmv idx v hi hv
    · obtain ⟨h1, h2, h3⟩ := same d ht
      rw [h1] at hd
      have hb : blockOf p' d = blockOf p d := by simp only [blockOf, h3]
      have hdat : dataOf p' d = dataOf p d := by
        simp only [dataOf, hb]
        cases hbb : blockOf p d with
        | none => rfl
        | some b =>
            simp only [Option.bind_some]
            apply live_congr
            have hlt := (i.blocks (c := d) (d := d + 1) (by omega) hd hbb).2
            exact mem b hlt (fun t htt e => (i.blocks (c := d) (d := t) (fun e' => ht (e' ▸ htt)) hd hbb).1 e)
      rw [elem_congr h2 hdat]
      exact i.holds d x hd hmv idx v hi hv

/-- One array changes. -/
theorem VInv.frame1 {triv : Bool} {so : Nat → List Nat} {p : AProg V} {a : Vals V} (i : VInv triv so p a) {d : Nat} (hd : d < p.lays.length) {x : Option (Val V)}
    {m : IdxMap} {h : Option Handle} {mem : Mem V} (hI : Inv triv so (⟨⟨mem, p.prog.vars.set d h⟩, p.lays.set d m⟩ : AProg V) (shapes (a.set d x)))
    (hmem : ∀ b, b < p.prog.mem.hp.length → blockOf p d ≠ some b → mem.hp[b]? = p.prog.mem.hp[b]?)
    (new : ∀ y, x = some y → WF m ∧ (y.moved = false → ∀ idx v, InRange y.shape idx → y.el idx = some v →
      (⟨⟨mem, p.prog.vars.set d h⟩, p.lays.set d m⟩ : AProg V).elem d idx = some v)) :
    VInv triv so (⟨⟨mem, p.prog.vars.set d h⟩, p.lays.set d m⟩ : AProg V) (a.set d x) := by
  refine i.frame hI (· = d) (fun j hj => ⟨set_get_ne hj _, ?_, ?_⟩) (fun b hb ht => hmem b hb (ht d rfl)) ?_
  · simp only; rw [List.getElem?_set_ne (Ne.symm hj)]
  · simp only [Prog.var]; rw [List.getElem?_set_ne (Ne.symm hj)]
  · rintro j rfl y hy
    rw [set_get_self (by rw [i.alen]; exact hd)] at hy
    obtain ⟨h1, h2⟩ := new y hy
    refine ⟨fun m' hm' => ?_, h2⟩
    simp only [List.getElem?_set_self hd, Option.some.injEq] at hm'
    rw [← hm']; exact h1

end Nda.Arr
