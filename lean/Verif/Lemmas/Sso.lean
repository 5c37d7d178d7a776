import Verif.Spec.Sso
import Verif.Lemmas.Handles
/-!
# Small-buffer handles refine lists of values
-/
namespace Nda.Mem

variable {V : Type}

namespace SProg

variable {triv : Bool} {K : Nat} {p q : SProg V}

theorem lt_of_var' {d : Nat} {x : Sso V} (h : p.var d = some x) : d < p.vars.length := by
  rcases Nat.lt_or_ge d p.vars.length with h1 | h1
  · exact h1
  · rw [var, List.getElem?_eq_none h1] at h; cases h

theorem var_set_self {d : Nat} (hd : d < p.vars.length) (x : Option (Sso V)) : (p.setVar d x).var d = x := by
  simp [var, setVar, hd]

theorem var_set_self' {hp : Heap V} {d : Nat} (hd : d < p.vars.length) (x : Option (Sso V)) : ({ p with hp := hp }.setVar d x).var d = x := by
  simp [var, setVar, hd]

theorem var_hp (hp : Heap V) (d : Nat) : SProg.var ⟨hp, p.vars⟩ d = p.var d := rfl

theorem var_set_ne {d i : Nat} (h : i ≠ d) (x : Option (Sso V)) : (p.setVar d x).var i = p.var i := by
  simp [var, setVar, List.getElem?_set_ne (Ne.symm h)]

theorem setVar_setVar (d : Nat) (x y : Option (Sso V)) : (p.setVar d x).setVar d y = p.setVar d y := by simp [setVar]

theorem getElem?_of_var {d : Nat} {x : Sso V} (h : p.var d = some x) : p.vars[d]? = some (some x) := by
  unfold var at h
  cases hv : p.vars[d]? with
  | none => rw [hv] at h; cases h
  | some y => rw [hv] at h; simp at h; rw [h]

theorem setVar_same {d : Nat} {x : Sso V} (h : p.var d = some x) : p.setVar d (some x) = p := by
  have := getElem?_of_var h
  obtain ⟨hlt, he⟩ := List.getElem?_eq_some_iff.mp this
  simp only [setVar]
  rw [← he, List.set_getElem_self]

/-- Variable `d` gives access to `cells`, in its buffer or in a block. -/
inductive Holds (p : SProg V) (d : Nat) (cells : List (Option V)) : Prop
  | inline (x : Sso V) : p.var d = some x → x.data = .inline → x.buf = cells → Holds p d cells
  | block (x : Sso V) (b : Nat) : p.var d = some x → x.data = .block b → p.hp.live b = some ⟨cells, false⟩ → Holds p d cells

/-- Other cells for variable `d`. -/
def upd (p : SProg V) (d : Nat) (cells : List (Option V)) : SProg V :=
  match p.var d with
  | none => p
  | some x => match x.data with
    | .null => p
    | .inline => p.setVar d (some { x with buf := cells })
    | .block b => { p with hp := p.hp.set b ⟨cells, false⟩ }

theorem upd_inline {d : Nat} {x : Sso V} (h : p.var d = some x) (hd : x.data = .inline) (cells : List (Option V)) :
    p.upd d cells = p.setVar d (some { x with buf := cells }) := by simp [upd, h, hd]

theorem upd_block {d b : Nat} {x : Sso V} (h : p.var d = some x) (hd : x.data = .block b) (cells : List (Option V)) :
    p.upd d cells = { p with hp := p.hp.set b ⟨cells, false⟩ } := by simp [upd, h, hd]

theorem Holds.upd {d : Nat} {cells : List (Option V)} (h : Holds p d cells) (cells' : List (Option V)) : Holds (p.upd d cells') d cells' := by
  cases h with
  | inline x h1 h2 h3 =>
      rw [upd_inline h1 h2]
      exact .inline { x with buf := cells' } (var_set_self (lt_of_var' h1) _) h2 rfl
  | block x b h1 h2 h3 =>
      rw [upd_block h1 h2]
      exact .block x b h1 h2 (Heap.live_set_self (Heap.lt_of_live h3) _)

theorem Holds.upd_upd {d : Nat} {cells : List (Option V)} (h : Holds p d cells) (c c' : List (Option V)) : (p.upd d c).upd d c' = p.upd d c' := by
  cases h with
  | inline x h1 h2 h3 =>
      rw [upd_inline h1 h2 c, upd_inline h1 h2 c', upd_inline (x := { x with buf := c }) (var_set_self (lt_of_var' h1) _) h2, setVar_setVar]
  | block x b h1 h2 h3 =>
      rw [upd_block h1 h2 c, upd_block h1 h2 c', upd_block (p := { p with hp := p.hp.set b ⟨c, false⟩ }) (x := x) (b := b) h1 h2]
      simp

theorem Holds.upd_self {d : Nat} {cells : List (Option V)} (h : Holds p d cells) : p.upd d cells = p := by
  cases h with
  | inline x h1 h2 h3 => rw [upd_inline h1 h2, ← h3, setVar_same h1]
  | block x b h1 h2 h3 => rw [upd_block h1 h2, Heap.set_self_live h3]

theorem Holds.cell {d : Nat} {cells : List (Option V)} (h : Holds p d cells) (i : Nat) : p.cell d i = cells[i]? := by
  cases h with
  | inline x h1 h2 h3 => simp [SProg.cell, h1, h2, h3]
  | block x b h1 h2 h3 => simp [SProg.cell, h1, h2, h3]

theorem Holds.setCell {d : Nat} {cells : List (Option V)} (h : Holds p d cells) {i : Nat} (hi : i < cells.length) (c : Option V) :
    p.setCell d i c = some (p.upd d (cells.set i c)) := by
  cases h with
  | inline x h1 h2 h3 =>
      rw [upd_inline h1 h2]
      subst h3
      simp [SProg.setCell, h1, h2, hi]
  | block x b h1 h2 h3 =>
      rw [upd_block h1 h2]
      simp [SProg.setCell, h1, h2, h3, hi]

/-- Construction of elements over raw cells. -/
theorem Holds.constructFrom {d : Nat} (f : Nat → SProg V → Option (Option V)) (l : List (Option V)) (hl : triv = false → ∀ c ∈ l, c.isSome) :
    ∀ (n i : Nat) (cells : List (Option V)), Holds p d cells → i + n = l.length → l.length ≤ cells.length →
      (triv = false → ∀ j, i ≤ j → j < l.length → cells[j]? = some none) →
      (∀ j cells', j < l.length → f j (p.upd d cells') = l[j]?) →
      SProg.constructFrom triv d f n i (p.upd d (l.take i ++ cells.drop i)) = some (p.upd d (l ++ cells.drop l.length)) := by
  intro n
  induction n with
  | zero =>
      intro i cells h h1 h2 h3 h4
      have : i = l.length := by omega
      subst this
      simp [SProg.constructFrom]
  | succ n ih =>
      intro i cells h h1 h2 h3 h4
      have hi : i < l.length := by omega
      have hic : i < cells.length := by omega
      rw [SProg.constructFrom, h4 i _ hi, List.getElem?_eq_getElem hi]
      simp only [Option.bind_eq_bind, Option.bind_some]
      have hH := h.upd (l.take i ++ cells.drop i)
      have hlen : (l.take i ++ cells.drop i).length = cells.length := by simp; omega
      have hcell : (l.take i ++ cells.drop i)[i]? = cells[i]? := by
        rw [List.getElem?_append_right (by simp; omega), List.getElem?_drop]
        congr 1; simp only [List.length_take]; omega
      have hset : (l.take i ++ cells.drop i).set i l[i] = l.take (i + 1) ++ cells.drop (i + 1) := by
        rw [List.set_append_right _ _ (by simp; omega), List.length_take, Nat.min_eq_left (by omega), Nat.sub_self,
          List.drop_eq_getElem_cons hic, List.set_cons_zero, List.take_succ_eq_append_getElem hi,
          List.append_assoc, List.singleton_append]
      have hc : SProg.construct triv (p.upd d (l.take i ++ cells.drop i)) d i l[i] = some (p.upd d (l.take (i + 1) ++ cells.drop (i + 1))) := by
        unfold SProg.construct
        rw [hH.cell, hcell, List.getElem?_eq_getElem hic]
        simp only [Option.bind_eq_bind, Option.bind_some]
        rw [if_neg, hH.setCell (by omega), h.upd_upd, hset]
        rintro ⟨ht, hor⟩
        have e := h3 ht i (Nat.le_refl _) hi
        rw [List.getElem?_eq_getElem hic] at e
        rcases hor with h5 | h5
        · rw [Option.some.inj e] at h5; cases h5
        · have := hl ht _ (List.getElem_mem hi)
          rw [Option.isNone_iff_eq_none.mp h5] at this; cases this
      rw [hc]
      simp only [Option.bind_some]
      exact ih (i + 1) cells h (by omega) h2 (fun ht j hj hj' => h3 ht j (by omega) hj') h4

/-- Construction of elements from themselves (trivial types). -/
theorem Holds.constructSelf {d : Nat} {cells : List (Option V)} (h : Holds p d cells) (n i : Nat) (hn : i + n ≤ cells.length) :
    SProg.constructFrom true d (fun i p => p.cell d i) n i p = some p := by
  induction n generalizing i with
  | zero => rfl
  | succ n ih =>
      have hi : i < cells.length := by omega
      rw [SProg.constructFrom, h.cell, List.getElem?_eq_getElem hi]
      simp only [Option.bind_eq_bind, Option.bind_some]
      have : SProg.construct true p d i cells[i] = some p := by
        unfold SProg.construct
        rw [h.cell, List.getElem?_eq_getElem hi]
        simp only [Option.bind_eq_bind, Option.bind_some]
        rw [if_neg (by simp), h.setCell hi, List.set_getElem_self, h.upd_self]
      rw [this]
      exact ih (i + 1) (by omega)

/-- Destruction of elements. -/
theorem Holds.destroyFrom {d : Nat} (l : List (Option V)) (hl : ∀ c ∈ l, c.isSome) :
    ∀ (n i : Nat) (rest : List (Option V)), Holds p d (l ++ rest) → i + n = l.length →
      SProg.destroyFrom d n i (p.upd d (List.replicate i none ++ (l ++ rest).drop i)) = some (p.upd d (List.replicate l.length none ++ rest)) := by
  intro n
  induction n with
  | zero =>
      intro i rest h h1
      have : i = l.length := by omega
      subst this
      simp [SProg.destroyFrom]
  | succ n ih =>
      intro i rest h h1
      have hi : i < l.length := by omega
      have hi2 : i < (l ++ rest).length := by simp; omega
      have hH := h.upd (List.replicate i none ++ (l ++ rest).drop i)
      rw [SProg.destroyFrom]
      have hcell : (List.replicate i none ++ (l ++ rest).drop i)[i]? = some l[i] := by
        rw [List.getElem?_append_right (by simp), List.getElem?_drop]
        simp only [List.length_replicate, Nat.sub_self, Nat.add_zero]
        rw [List.getElem?_append_left hi, List.getElem?_eq_getElem hi]
      have hset : (List.replicate i none ++ (l ++ rest).drop i).set i none = List.replicate (i + 1) none ++ (l ++ rest).drop (i + 1) := by
        rw [List.set_append_right _ _ (by simp), List.length_replicate, Nat.sub_self, List.drop_eq_getElem_cons hi2, List.set_cons_zero,
          List.replicate_succ']
        simp
      have hc : SProg.destroyCell (p.upd d (List.replicate i none ++ (l ++ rest).drop i)) d i =
          some (p.upd d (List.replicate (i + 1) none ++ (l ++ rest).drop (i + 1))) := by
        unfold SProg.destroyCell
        rw [hH.cell, hcell]
        simp only [Option.bind_eq_bind, Option.bind_some]
        rw [if_neg, hH.setCell (by simp; omega), h.upd_upd, hset]
        intro h5
        have := hl _ (List.getElem_mem hi)
        rw [Option.isNone_iff_eq_none.mp h5] at this; cases this
      rw [hc]
      exact ih (i + 1) rest h (by omega)

/-! ## The relation between programs and values -/

open Spec

/-- Raw memory (if it matters). -/
def Raw (triv : Bool) (l : List (Option V)) : Prop := triv = false → ∀ c ∈ l, c = none

/-- The handle `x` holds the list `l`. -/
structure VarOk (triv : Bool) (K : Nat) (hp : Heap V) (x : Sso V) (l : List (Option V)) : Prop where
  buf : x.buf.length = K
  size : x.size = l.length
  all : triv = false → ∀ c ∈ l, c.isSome
  data : (l = [] ∧ x.data = .null ∧ Raw triv x.buf) ∨
    (l ≠ [] ∧ l.length ≤ K ∧ x.data = .inline ∧ ∃ rest, x.buf = l ++ rest ∧ Raw triv rest) ∨
    (K < l.length ∧ Raw triv x.buf ∧ ∃ b, x.data = .block b ∧ hp[b]? = some ⟨l, false⟩)

/-- Variables and values. -/
def VarRel (triv : Bool) (K : Nat) (hp : Heap V) (v : Option (Sso V)) (l : Option (List (Option V))) : Prop :=
  match v, l with
  | none, none => True
  | some x, some l => VarOk triv K hp x l
  | _, _ => False

/-- Blocks belong to variables, one each. -/
structure Blocks (p : SProg V) : Prop where
  owned : ∀ (b : Nat) blk, p.hp[b]? = some blk → blk.freed = false → ∃ i x, p.var i = some x ∧ x.data = .block b
  unique : ∀ i j x y b, p.var i = some x → p.var j = some y → x.data = .block b → y.data = .block b → i = j

/-- The program `p` holds the values `a`. -/
structure Rep (triv : Bool) (K : Nat) (p : SProg V) (a : Vals V) : Prop where
  len : p.vars.length = a.length
  rel : ∀ i, VarRel triv K p.hp (p.var i) (a.get i)
  blocks : Blocks p

/-- Everything but variable `d` is as in `a`; variable `d` is alive, null, with a raw buffer. -/
structure Cleared (triv : Bool) (K : Nat) (p : SProg V) (a : Vals V) (d : Nat) : Prop where
  len : p.vars.length = a.length
  rel : ∀ i, i ≠ d → VarRel triv K p.hp (p.var i) (a.get i)
  blocks : Blocks p
  var : ∃ x, p.var d = some x ∧ x.data = .null ∧ x.buf.length = K ∧ Raw triv x.buf

theorem get_set_self {a : Vals V} {d : Nat} (h : d < a.length) (l : Option (List (Option V))) : Vals.get (a.set d l) d = l := by
  simp [Vals.get, h]

theorem get_set_ne {a : Vals V} {d i : Nat} (h : i ≠ d) (l : Option (List (Option V))) : Vals.get (a.set d l) i = Vals.get a i := by
  simp [Vals.get, List.getElem?_set_ne (Ne.symm h)]

theorem VarOk.holds {x : Sso V} {l : List (Option V)} {d : Nat} (h : VarOk triv K p.hp x l) (hx : p.var d = some x) (hne : l ≠ []) :
    ∃ rest, Holds p d (l ++ rest) ∧ Raw triv rest := by
  rcases h.data with ⟨h1, -⟩ | ⟨-, -, h2, rest, h3, h4⟩ | ⟨-, -, b, h2, h3⟩
  · exact absurd h1 hne
  · exact ⟨rest, .inline x hx h2 h3, h4⟩
  · exact ⟨[], by rw [List.append_nil]; exact .block x b hx h2 (Heap.live_some.mpr ⟨h3, rfl⟩), by intro _ c hc; simp at hc⟩

theorem VarOk.cell {x : Sso V} {l : List (Option V)} {d i : Nat} (h : VarOk triv K p.hp x l) (hx : p.var d = some x) (hi : i < l.length) :
    p.cell d i = l[i]? := by
  obtain ⟨rest, hh, -⟩ := h.holds hx (by rintro rfl; simp at hi)
  rw [hh.cell, List.getElem?_append_left hi]

theorem VarOk.mono {x : Sso V} {l : List (Option V)} {hp hp' : Heap V} (h : VarOk triv K hp x l)
    (hs : ∀ b, x.data = .block b → hp'[b]? = hp[b]?) : VarOk triv K hp' x l := by
  refine ⟨h.buf, h.size, h.all, ?_⟩
  rcases h.data with h1 | h1 | ⟨h1, h2, b, h3, h4⟩
  · exact Or.inl h1
  · exact Or.inr (Or.inl h1)
  · exact Or.inr (Or.inr ⟨h1, h2, b, h3, by rw [hs b h3]; exact h4⟩)

theorem VarRel.mono {v : Option (Sso V)} {l : Option (List (Option V))} {hp hp' : Heap V} (h : VarRel triv K hp v l)
    (hs : ∀ x b, v = some x → x.data = .block b → hp'[b]? = hp[b]?) : VarRel triv K hp' v l := by
  unfold VarRel at h ⊢
  cases v with
  | none => cases l with
      | none => trivial
      | some l => exact h
  | some x =>
      cases l with
      | none => exact h
      | some l => exact h.mono (fun b hb => hs x b rfl hb)

theorem Rep.alive {a : Vals V} {d : Nat} {x : Sso V} (r : Rep triv K p a) (hx : p.var d = some x) :
    ∃ l, a.get d = some l ∧ VarOk triv K p.hp x l := by
  have := r.rel d
  rw [hx] at this
  cases h : a.get d with
  | none => rw [h] at this; exact this.elim
  | some l => rw [h] at this; exact ⟨l, rfl, this⟩

theorem Rep.dead {a : Vals V} {d : Nat} (r : Rep triv K p a) (hx : p.var d = none) : a.get d = none := by
  have := r.rel d
  rw [hx] at this
  cases h : a.get d with
  | none => rfl
  | some l => rw [h] at this; exact this.elim

theorem Cleared.alive {a : Vals V} {d s : Nat} {x : Sso V} (r : Cleared triv K p a d) (hs : s ≠ d) (hx : p.var s = some x) :
    ∃ l, a.get s = some l ∧ VarOk triv K p.hp x l := by
  have := r.rel s hs
  rw [hx] at this
  cases h : a.get s with
  | none => rw [h] at this; exact this.elim
  | some l => rw [h] at this; exact ⟨l, rfl, this⟩

/-- Cleared again after a change of the size and raw buffer of `d`. -/
theorem Rep.cleared_new {a : Vals V} {d : Nat} (r : Rep triv K p a) (hx : p.var d = none) (hd : d < p.vars.length) :
    Cleared triv K (p.setVar d (some (fresh K))) a d where
  len := by simp [setVar, r.len]
  rel i hi := by rw [var_set_ne hi]; exact r.rel i
  blocks := by
    refine ⟨fun b blk hb hf => ?_, fun i j x y b hi hj hxb hyb => ?_⟩
    · obtain ⟨i, x, hi, hxb⟩ := r.blocks.owned b blk hb hf
      refine ⟨i, x, ?_, hxb⟩
      rw [var_set_ne]; exact hi
      rintro rfl; rw [hx] at hi; cases hi
    · by_cases h1 : i = d
      · subst h1; rw [var_set_self hd] at hi; cases hi; cases hxb
      · by_cases h2 : j = d
        · subst h2; rw [var_set_self hd] at hj; cases hj; cases hyb
        · rw [var_set_ne h1] at hi; rw [var_set_ne h2] at hj
          exact r.blocks.unique i j x y b hi hj hxb hyb
  var := ⟨fresh K, var_set_self hd _, rfl, by simp [fresh], by intro _ c hc; simp [fresh] at hc; exact hc.2⟩

/-- A cleared variable with size zero holds the empty list. -/
theorem Cleared.rep_nil {a : Vals V} {d : Nat} {x : Sso V} (r : Cleared triv K p a d) (hx : p.var d = some x) :
    Rep triv K (p.setVar d (some { x with size := 0 })) (a.set d (some [])) := by
  obtain ⟨x', hx', h1, h2, h3⟩ := r.var
  rw [hx] at hx'; cases hx'
  have hd := lt_of_var' hx
  refine ⟨by simp [setVar, r.len], fun i => ?_, fun b blk hb hf => ?_, fun i j x1 y b hi hj hxb hyb => ?_⟩
  · by_cases hi : i = d
    · subst hi
      rw [var_set_self hd, get_set_self (by rw [← r.len]; exact hd)]
      exact ⟨h2, rfl, by simp, Or.inl ⟨rfl, h1, h3⟩⟩
    · rw [var_set_ne hi, get_set_ne hi]; exact r.rel i hi
  · obtain ⟨i, y, hi, hy⟩ := r.blocks.owned b blk hb hf
    have : i ≠ d := by rintro rfl; rw [hx] at hi; cases hi; rw [h1] at hy; cases hy
    exact ⟨i, y, by rw [var_set_ne this]; exact hi, hy⟩
  · by_cases e1 : i = d
    · subst e1; rw [var_set_self hd] at hi; cases hi
      simp only at hxb; rw [h1] at hxb; cases hxb
    · by_cases e2 : j = d
      · subst e2; rw [var_set_self hd] at hj; cases hj
        simp only at hyb; rw [h1] at hyb; cases hyb
      · rw [var_set_ne e1] at hi; rw [var_set_ne e2] at hj
        exact r.blocks.unique i j x1 y b hi hj hxb hyb

/-- The end of a variable. -/
theorem Cleared.rep_dead {a : Vals V} {d : Nat} (r : Cleared triv K p a d) : Rep triv K (p.setVar d none) (a.set d none) := by
  obtain ⟨x, hx, h1, h2, h3⟩ := r.var
  have hd := lt_of_var' hx
  refine ⟨by simp [setVar, r.len], fun i => ?_, fun b blk hb hf => ?_, fun i j x1 y b hi hj hxb hyb => ?_⟩
  · by_cases hi : i = d
    · subst hi
      rw [var_set_self hd, get_set_self (by rw [← r.len]; exact hd)]; trivial
    · rw [var_set_ne hi, get_set_ne hi]; exact r.rel i hi
  · obtain ⟨i, y, hi, hy⟩ := r.blocks.owned b blk hb hf
    have : i ≠ d := by rintro rfl; rw [hx] at hi; cases hi; rw [h1] at hy; cases hy
    exact ⟨i, y, by rw [var_set_ne this]; exact hi, hy⟩
  · by_cases e1 : i = d
    · subst e1; rw [var_set_self hd] at hi; cases hi
    · by_cases e2 : j = d
      · subst e2; rw [var_set_self hd] at hj; cases hj
      · rw [var_set_ne e1] at hi; rw [var_set_ne e2] at hj
        exact r.blocks.unique i j x1 y b hi hj hxb hyb

/-- `q` differs from `p` only in variable `d` and in blocks that `p` does not have. -/
def Agree (p : SProg V) (d : Nat) (q : SProg V) : Prop :=
  (∀ i, i ≠ d → q.var i = p.var i) ∧ ∀ b : Nat, b < p.hp.length → q.hp[b]? = p.hp[b]?

theorem Agree.cell {d s : Nat} (h : Agree p d q) (hs : s ≠ d) {x : Sso V} {l : List (Option V)} (hx : p.var s = some x)
    (ho : VarOk triv K p.hp x l) {i : Nat} (hi : i < l.length) : q.cell s i = l[i]? := by
  refine VarOk.cell (p := q) (x := x) (triv := triv) (K := K) (ho.mono fun b hb => ?_) (by rw [h.1 s hs]; exact hx) hi
  rcases ho.data with ⟨-, h1, -⟩ | ⟨-, -, h1, -⟩ | ⟨-, -, b', h1, h2⟩
  · rw [h1] at hb; cases hb
  · rw [h1] at hb; cases hb
  · rw [h1] at hb; cases hb
    exact h.2 b (List.getElem?_eq_some_iff.mp h2).1

/-- Filling a cleared variable. -/
theorem Cleared.fill {a : Vals V} {d : Nat} (r : Cleared triv K p a d) (l : List (Option V)) (hne : l ≠ []) (hl : triv = false → ∀ c ∈ l, c.isSome)
    (f : Nat → SProg V → Option (Option V)) (hf : ∀ j q, j < l.length → Agree p d q → f j q = l[j]?) :
    ∃ p1 p2, p.grab K d l.length = some p1 ∧ constructFrom triv d f l.length 0 p1 = some p2 ∧ Rep triv K p2 (a.set d (some l)) := by
  obtain ⟨x, hx, h1, h2, h3⟩ := r.var
  have hd := lt_of_var' hx
  have hda : d < a.length := by rw [← r.len]; exact hd
  by_cases hK : K < l.length
  · -- a new block
    let x1 : Sso V := { x with data := .block p.hp.length, size := l.length }
    let p1 : SProg V := { p with hp := p.hp ++ [(⟨List.replicate l.length none, false⟩ : Block V)] }.setVar d (some x1)
    have hg : p.grab K d l.length = some p1 := by simp [grab, hx, hK, p1, x1]
    have hx1 : p1.var d = some x1 := by simp [p1, setVar, SProg.var, hd]
    have hH : Holds p1 d (List.replicate l.length none) :=
      .block x1 p.hp.length hx1 rfl (by rw [Heap.live_some]; simp [p1, setVar])
    have hupd : ∀ cells, p1.upd d cells = { p with hp := p.hp ++ [(⟨cells, false⟩ : Block V)] }.setVar d (some x1) := by
      intro cells
      rw [upd_block hx1 (b := p.hp.length) rfl]
      simp [p1, setVar]
    have hagree : ∀ cells, Agree p d (p1.upd d cells) := by
      intro cells
      rw [hupd]
      refine ⟨fun i hi => ?_, fun b hb => ?_⟩
      · rw [var_set_ne hi]; rfl
      · simp only [setVar]; rw [List.getElem?_append_left hb]
    have hcon := Holds.constructFrom (triv := triv) f l hl l.length 0 _ hH (by omega) (by simp)
      (fun _ j _ hj => by rw [List.getElem?_replicate, if_pos hj]) (fun j cells hj => hf j _ hj (hagree cells))
    simp only [List.take_zero, List.nil_append, List.drop_zero] at hcon
    rw [hH.upd_self] at hcon
    refine ⟨p1, _, hg, hcon, ?_⟩
    have e : l ++ List.drop l.length (List.replicate l.length (none : Option V)) = l := by simp
    rw [e, hupd]
    refine ⟨by simp [setVar, r.len], fun i => ?_, fun b blk hb hf' => ?_, fun i j x' y b hi hj hxb hyb => ?_⟩
    · by_cases hi : i = d
      · subst hi
        rw [var_set_self' hd, get_set_self hda]
        exact ⟨h2, rfl, hl, Or.inr (Or.inr ⟨hK, h3, p.hp.length, rfl, by simp [setVar]⟩)⟩
      · rw [var_set_ne hi, get_set_ne hi]
        refine (r.rel i hi).mono fun y b hy hb => ?_
        obtain ⟨l', -, ho⟩ := r.alive hi hy
        rcases ho.data with ⟨-, h4, -⟩ | ⟨-, -, h4, -⟩ | ⟨-, -, b', h4, h5⟩
        · rw [h4] at hb; cases hb
        · rw [h4] at hb; cases hb
        · rw [h4] at hb; cases hb
          simp only [setVar]; rw [List.getElem?_append_left (List.getElem?_eq_some_iff.mp h5).1]
    · by_cases e : b = p.hp.length
      · subst e; exact ⟨d, x1, var_set_self' hd _, rfl⟩
      · have hlt : b < p.hp.length := by
          have := (List.getElem?_eq_some_iff.mp hb).1
          simp [setVar] at this; omega
        simp only [setVar] at hb
        rw [List.getElem?_append_left hlt] at hb
        obtain ⟨i, y, hi, hy⟩ := r.blocks.owned b blk hb hf'
        have : i ≠ d := by rintro rfl; rw [hx] at hi; cases hi; rw [h1] at hy; cases hy
        exact ⟨i, y, by rw [var_set_ne this]; exact hi, hy⟩
    · have hother : ∀ k z, k ≠ d → p.var k = some z → z.data ≠ .block p.hp.length := by
        intro k z hk hz hb
        obtain ⟨l', -, ho⟩ := r.alive hk hz
        rcases ho.data with ⟨-, h4, -⟩ | ⟨-, -, h4, -⟩ | ⟨-, -, b', h4, h5⟩
        · rw [h4] at hb; cases hb
        · rw [h4] at hb; cases hb
        · rw [h4] at hb; cases hb
          have := (List.getElem?_eq_some_iff.mp h5).1; omega
      by_cases e1 : i = d
      · by_cases e2 : j = d
        · rw [e1, e2]
        · subst e1
          rw [var_set_self' hd] at hi; cases hi
          rw [var_set_ne e2] at hj
          cases hxb
          exact absurd hyb (hother j y e2 hj)
      · by_cases e2 : j = d
        · subst e2
          rw [var_set_self' hd] at hj; cases hj
          rw [var_set_ne e1] at hi
          cases hyb
          exact absurd hxb (hother i x' e1 hi)
        · rw [var_set_ne e1] at hi; rw [var_set_ne e2] at hj
          exact r.blocks.unique i j x' y b hi hj hxb hyb
  · -- the buffer
    let x1 : Sso V := { x with data := .inline, size := l.length }
    let p1 : SProg V := p.setVar d (some x1)
    have hg : p.grab K d l.length = some p1 := by simp [grab, hx, hK, p1, x1]
    have hx1 : p1.var d = some x1 := var_set_self hd _
    have hH : Holds p1 d x.buf := .inline x1 hx1 rfl rfl
    have hupd : ∀ cells, p1.upd d cells = p.setVar d (some { x1 with buf := cells }) := by
      intro cells
      rw [upd_inline hx1 rfl, setVar_setVar]
    have hagree : ∀ cells, Agree p d (p1.upd d cells) := by
      intro cells
      rw [hupd]
      exact ⟨fun i hi => var_set_ne hi _, fun b hb => rfl⟩
    have hcon := Holds.constructFrom (triv := triv) f l hl l.length 0 _ hH (by omega) (by omega)
      (fun ht j _ hj => by
        have hj' : j < x.buf.length := by omega
        rw [List.getElem?_eq_getElem hj', h3 ht _ (List.getElem_mem hj')]) (fun j cells hj => hf j _ hj (hagree cells))
    simp only [List.take_zero, List.nil_append, List.drop_zero] at hcon
    rw [hH.upd_self] at hcon
    refine ⟨p1, _, hg, hcon, ?_⟩
    rw [hupd]
    refine ⟨by simp [setVar, r.len], fun i => ?_, fun b blk hb hf' => ?_, fun i j x' y b hi hj hxb hyb => ?_⟩
    · by_cases hi : i = d
      · subst hi
        rw [var_set_self hd, get_set_self hda]
        refine ⟨by simp; omega, rfl, hl, Or.inr (Or.inl ⟨hne, by omega, rfl, _, rfl, fun ht c hc => ?_⟩)⟩
        exact h3 ht c (List.mem_of_mem_drop hc)
      · rw [var_set_ne hi, get_set_ne hi]; exact r.rel i hi
    · obtain ⟨i, y, hi, hy⟩ := r.blocks.owned b blk hb hf'
      have : i ≠ d := by rintro rfl; rw [hx] at hi; cases hi; rw [h1] at hy; cases hy
      exact ⟨i, y, by rw [var_set_ne this]; exact hi, hy⟩
    · by_cases e1 : i = d
      · subst e1; rw [var_set_self hd] at hi; cases hi; cases hxb
      · by_cases e2 : j = d
        · subst e2; rw [var_set_self hd] at hj; cases hj; cases hyb
        · rw [var_set_ne e1] at hi; rw [var_set_ne e2] at hj
          exact r.blocks.unique i j x' y b hi hj hxb hyb

/-- Clearing a variable. -/
theorem Rep.clean {a : Vals V} {d : Nat} {x : Sso V} {l : List (Option V)} (r : Rep triv K p a) (hx : p.var d = some x) (hl : a.get d = some l) :
    ∃ p' x', p.clean triv K d = some p' ∧ Cleared triv K p' a d ∧ p'.var d = some x' ∧ x'.size = l.length ∧
      (triv = true → x'.buf = x.buf) ∧ ∀ i, i ≠ d → p'.var i = p.var i := by
  obtain ⟨l', hl', ho⟩ := r.alive hx
  rw [hl] at hl'; cases hl'
  have hd := lt_of_var' hx
  have hblocks0 : ∀ {q : SProg V} {z : Sso V}, q = p.setVar d (some z) → (∀ b, x.data ≠ .block b) → z.data = .null → Blocks q := by
    intro q z hq hb hz
    subst hq
    refine ⟨fun b blk hb' hf' => ?_, fun i j x' y b hi hj hxb hyb => ?_⟩
    · obtain ⟨i, y, hi, hy⟩ := r.blocks.owned b blk hb' hf'
      have : i ≠ d := by rintro rfl; rw [hx] at hi; cases hi; exact absurd hy (hb b)
      exact ⟨i, y, by rw [var_set_ne this]; exact hi, hy⟩
    · by_cases e1 : i = d
      · subst e1; rw [var_set_self hd] at hi; cases hi; rw [hz] at hxb; cases hxb
      · by_cases e2 : j = d
        · subst e2; rw [var_set_self hd] at hj; cases hj; rw [hz] at hyb; cases hyb
        · rw [var_set_ne e1] at hi; rw [var_set_ne e2] at hj
          exact r.blocks.unique i j x' y b hi hj hxb hyb
  rcases ho.data with ⟨h1, h2, h3⟩ | ⟨h1, h2, h3, rest, h4, h5⟩ | ⟨h1, h2, b, h3, h4⟩
  · refine ⟨p, x, by simp [SProg.clean, hx, h2], ⟨r.len, fun i _ => r.rel i, r.blocks, x, hx, h2, ho.buf, h3⟩, hx, ho.size, fun _ => rfl, fun _ _ => rfl⟩
  · -- inline
    have hne : x.data ≠ .null := by rw [h3]; simp
    have hnK : ¬ K < x.size := by rw [ho.size]; omega
    have hnb : ∀ b, x.data ≠ .block b := by intro b; rw [h3]; simp
    cases triv with
    | true =>
        refine ⟨p.setVar d (some { x with data := .null }), { x with data := .null }, ?_, ⟨by simp [setVar, r.len], fun i hi => ?_, hblocks0 rfl hnb rfl,
          _, var_set_self hd _, rfl, ho.buf, by intro h; cases h⟩, var_set_self hd _, ho.size, fun _ => rfl, fun i hi => var_set_ne hi _⟩
        · simp [SProg.clean, hx, hne, cleanElems, cleanBlock, hnK, nullify]
        · rw [var_set_ne hi]; exact r.rel i
    | false =>
        have hH : Holds p d (l ++ rest) := .inline x hx h3 h4
        have hdes := Holds.destroyFrom l (ho.all rfl) l.length 0 rest hH (by omega)
        simp only [List.replicate_zero, List.nil_append, List.drop_zero] at hdes
        rw [hH.upd_self, upd_inline hx h3] at hdes
        have hbl : (List.replicate l.length (none : Option V) ++ rest).length = K := by
          have := ho.buf; rw [h4] at this; simpa using this
        refine ⟨p.setVar d (some ⟨List.replicate l.length none ++ rest, .null, x.size⟩), ⟨List.replicate l.length none ++ rest, .null, x.size⟩, ?_,
          ⟨by simp [setVar, r.len], fun i hi => ?_, hblocks0 rfl hnb rfl, _, var_set_self hd _, rfl, hbl, ?_⟩, var_set_self hd _, ho.size,
          (by intro h; cases h), fun i hi => var_set_ne hi _⟩
        · simp only [SProg.clean, hx, Option.bind_eq_bind, Option.bind_some, if_neg hne, cleanElems, Bool.false_eq_true, if_false]
          rw [ho.size, hdes]
          simp only [Option.bind_some, cleanBlock, if_neg hnK, nullify, var_set_self hd, Option.bind_eq_bind]
          rw [setVar_setVar]; rw [← ho.size]; rfl
        · rw [var_set_ne hi]; exact r.rel i
        · intro _ c hc
          rcases List.mem_append.mp hc with hc | hc
          · exact List.eq_of_mem_replicate hc
          · exact h5 rfl c hc
  · -- block
    have hne : x.data ≠ .null := by rw [h3]; simp
    have hyK : K < x.size := by rw [ho.size]; omega
    have hblt : b < p.hp.length := (List.getElem?_eq_some_iff.mp h4).1
    have key : ∀ cells, ∃ p' x', p' = { p with hp := p.hp.set b ⟨cells, true⟩ }.setVar d (some { x with data := .null }) ∧ Cleared triv K p' a d ∧
        p'.var d = some x' ∧ x'.size = l.length ∧ (triv = true → x'.buf = x.buf) ∧ ∀ i, i ≠ d → p'.var i = p.var i := by
      intro cells
      refine ⟨_, { x with data := .null }, rfl, ⟨by simp [setVar, r.len], fun i hi => ?_, ⟨fun b' blk hb' hf' => ?_, fun i j x' y b' hi hj hxb hyb => ?_⟩,
        { x with data := .null }, var_set_self' hd _, rfl, ho.buf, h2⟩, var_set_self' hd _, ho.size, fun _ => rfl, fun i hi => by rw [var_set_ne hi]; rfl⟩
      · rw [var_set_ne hi]
        refine (r.rel i).mono fun y b' hy hb' => ?_
        have : b' ≠ b := by rintro rfl; exact hi (r.blocks.unique i d y x b' hy hx hb' h3)
        simp only [setVar]; rw [List.getElem?_set_ne (Ne.symm this)]
      · have hb2 : b' ≠ b := by
          rintro rfl
          simp only [setVar, List.getElem?_set_self hblt, Option.some.injEq] at hb'
          subst hb'; cases hf'
        simp only [setVar, List.getElem?_set_ne (Ne.symm hb2)] at hb'
        obtain ⟨i, y, hi, hy⟩ := r.blocks.owned b' blk hb' hf'
        have : i ≠ d := by rintro rfl; rw [hx] at hi; cases hi; rw [h3] at hy; cases hy; exact hb2 rfl
        exact ⟨i, y, by rw [var_set_ne this]; exact hi, hy⟩
      · by_cases e1 : i = d
        · subst e1; rw [var_set_self' hd] at hi; cases hi; cases hxb
        · by_cases e2 : j = d
          · subst e2; rw [var_set_self' hd] at hj; cases hj; cases hyb
          · rw [var_set_ne e1] at hi; rw [var_set_ne e2] at hj
            exact r.blocks.unique i j x' y b' hi hj hxb hyb
    have hlive : p.hp.live b = some ⟨l, false⟩ := Heap.live_some.mpr ⟨h4, rfl⟩
    cases triv with
    | true =>
        obtain ⟨p', x', hp', hrest⟩ := key l
        refine ⟨p', x', ?_, hrest⟩
        rw [hp']
        simp [SProg.clean, hx, cleanElems, cleanBlock, hyK, h3, Heap.dealloc, hlive, nullify, var_hp]
    | false =>
        have hH : Holds p d (l ++ []) := by rw [List.append_nil]; exact .block x b hx h3 hlive
        have hdes := Holds.destroyFrom l (ho.all rfl) l.length 0 [] hH (by omega)
        simp only [List.replicate_zero, List.nil_append, List.drop_zero] at hdes
        rw [hH.upd_self, upd_block hx h3, List.append_nil] at hdes
        obtain ⟨p', x', hp', hrest⟩ := key (List.replicate l.length none)
        refine ⟨p', x', ?_, hrest⟩
        rw [hp']
        simp only [SProg.clean, hx, Option.bind_eq_bind, Option.bind_some, if_neg hne, cleanElems, Bool.false_eq_true, if_false]
        rw [ho.size, hdes]
        simp only [Option.bind_some, cleanBlock, if_pos hyK, h3, Option.bind_eq_bind, Heap.dealloc, Heap.live_set_self hblt]
        simp [nullify, var_hp, hx, ho.size]

/-- The constructors. -/
theorem Rep.build {a : Vals V} {d : Nat} (r : Rep triv K p a) (hx : p.var d = none) (hd : d < p.vars.length) (l : List (Option V))
    (hl : triv = false → ∀ c ∈ l, c.isSome) (f : Nat → SProg V → Option (Option V))
    (hf : ∀ j q, j < l.length → Agree p d q → f j q = l[j]?) :
    ∃ p', p.build triv K d l.length f = some p' ∧ Rep triv K p' (a.set d (some l)) := by
  have hc := r.cleared_new hx hd
  unfold SProg.build
  by_cases hn : l = []
  · subst hn
    refine ⟨_, by simp; rfl, ?_⟩
    have := hc.rep_nil (var_set_self hd _)
    rw [setVar_setVar] at this
    exact this
  · have hne : l.length ≠ 0 := fun h => hn (List.length_eq_zero_iff.mp h)
    obtain ⟨p1, p2, h1, h2, h3⟩ := hc.fill l hn hl f (fun j q hj hq => hf j q hj
      ⟨fun i hi => by rw [hq.1 i hi, var_set_ne hi], fun b hb => hq.2 b hb⟩)
    refine ⟨p2, ?_, h3⟩
    simp only [if_neg hne, h1, Option.bind_eq_bind, Option.bind_some, h2]

/-- Taking over the contents of another variable. -/
theorem Cleared.take {a : Vals V} {d s : Nat} (r : Cleared triv K p a d) (hs : s ≠ d) {y : Sso V} {l : List (Option V)} (hy : p.var s = some y)
    (hl : a.get s = some l) (hallow : triv = false → l = [] ∨ K < l.length) :
    ∃ p', p.take triv K d s = some p' ∧ Rep triv K p' ((a.set d (some l)).set s (some [])) := by
  obtain ⟨x, hx, h1, h2, h3⟩ := r.var
  have hd := lt_of_var' hx
  have hsl := lt_of_var' hy
  have hda : d < a.length := by rw [← r.len]; exact hd
  have hsa : s < a.length := by rw [← r.len]; exact hsl
  obtain ⟨l', hl', ho⟩ := r.alive hs hy
  rw [hl] at hl'; cases hl'
  by_cases hK : K < l.length
  · -- the block changes hands
    rcases ho.data with ⟨h4, -⟩ | ⟨-, h4, -⟩ | ⟨-, h4, b, h5, h6⟩
    · subst h4; simp at hK
    · omega
    · have hlt : K < y.size := by rw [ho.size]; exact hK
      let x1 : Sso V := ⟨x.buf, y.data, y.size⟩
      let y1 : Sso V := ⟨y.buf, .null, 0⟩
      refine ⟨(p.setVar d (some x1)).setVar s (some y1), ?_, ?_⟩
      · have : (p.setVar d (some x1)).var s = some y := by rw [var_set_ne hs]; exact hy
        simp only [SProg.take, hx, hy, Option.bind_eq_bind, Option.bind_some, if_pos hlt, SProg.empty]
        rw [this]; rfl
      · have hv : ∀ i, ((p.setVar d (some x1)).setVar s (some y1)).var i = if i = s then some y1 else if i = d then some x1 else p.var i := by
          intro i
          by_cases e1 : i = s
          · subst e1; rw [var_set_self (by simpa [setVar] using hsl)]; simp
          · rw [var_set_ne e1, if_neg e1]
            by_cases e2 : i = d
            · subst e2; rw [var_set_self hd]; simp
            · rw [var_set_ne e2, if_neg e2]
        refine ⟨by simp [setVar, r.len], fun i => ?_, fun b' blk hb hf => ?_, fun i j x' y' b' hi hj hxb hyb => ?_⟩
        · rw [hv]
          by_cases e1 : i = s
          · subst e1
            rw [if_pos rfl, get_set_self (by simpa using hsa)]
            exact ⟨ho.buf, rfl, by simp, Or.inl ⟨rfl, rfl, h4⟩⟩
          · rw [if_neg e1, get_set_ne e1]
            by_cases e2 : i = d
            · subst e2
              rw [if_pos rfl, get_set_self hda]
              exact ⟨h2, ho.size, ho.all, Or.inr (Or.inr ⟨hK, h3, b, h5, h6⟩)⟩
            · rw [if_neg e2, get_set_ne e2]; exact r.rel i e2
        · obtain ⟨i, z, hi, hz⟩ := r.blocks.owned b' blk hb hf
          by_cases e : i = s
          · subst e
            rw [hy] at hi; cases hi
            exact ⟨d, x1, by rw [hv, if_neg (Ne.symm hs), if_pos rfl], hz⟩
          · have e2 : i ≠ d := by rintro rfl; rw [hx] at hi; cases hi; rw [h1] at hz; cases hz
            exact ⟨i, z, by rw [hv, if_neg e, if_neg e2]; exact hi, hz⟩
        · have hold : ∀ k z, ((p.setVar d (some x1)).setVar s (some y1)).var k = some z → z.data = .block b' →
              (k = d ∧ y.data = .block b') ∨ (k ≠ d ∧ k ≠ s ∧ p.var k = some z) := by
            intro k z hk hz
            rw [hv] at hk
            by_cases e1 : k = s
            · rw [if_pos e1] at hk; cases hk; cases hz
            · rw [if_neg e1] at hk
              by_cases e2 : k = d
              · rw [if_pos e2] at hk; cases hk; exact Or.inl ⟨e2, hz⟩
              · rw [if_neg e2] at hk; exact Or.inr ⟨e2, e1, hk⟩
          rcases hold i x' hi hxb with ⟨e1, hb1⟩ | ⟨e1, e2, hi'⟩
          · rcases hold j y' hj hyb with ⟨e3, -⟩ | ⟨e3, e4, hj'⟩
            · rw [e1, e3]
            · exact absurd (r.blocks.unique j s y' y b' hj' hy hyb hb1) e4
          · rcases hold j y' hj hyb with ⟨e3, hb3⟩ | ⟨e3, e4, hj'⟩
            · exact absurd (r.blocks.unique i s x' y b' hi' hy hxb hb3) e2
            · exact r.blocks.unique i j x' y' b' hi' hj' hxb hyb
  · have hnlt : ¬ K < y.size := by rw [ho.size]; exact hK
    -- the source is emptied
    have empt : ∀ {q : SProg V} {a' : Vals V}, Rep triv K q a' → q.var s = some y → (triv = false → l = []) → a'.get s = some l →
        q.empty s = some (q.setVar s (some ⟨y.buf, .null, 0⟩)) ∧ Rep triv K (q.setVar s (some ⟨y.buf, .null, 0⟩)) (a'.set s (some [])) := by
      intro q a' r' hq hnil hl'
      refine ⟨by simp [SProg.empty, hq], ?_⟩
      have hsq := lt_of_var' hq
      have hnb : ∀ b, y.data ≠ .block b := by
        intro b hb
        rcases ho.data with ⟨-, h4, -⟩ | ⟨-, -, h4, -⟩ | ⟨h4, -⟩
        · rw [h4] at hb; cases hb
        · rw [h4] at hb; cases hb
        · exact hK h4
      refine ⟨by simp [setVar, r'.len], fun i => ?_, fun b' blk hb hf => ?_, fun i j x' y' b' hi hj hxb hyb => ?_⟩
      · by_cases e : i = s
        · subst e
          rw [var_set_self hsq, get_set_self (by rw [← r'.len]; exact hsq)]
          refine ⟨ho.buf, rfl, by simp, Or.inl ⟨rfl, rfl, fun ht => ?_⟩⟩
          have hn := hnil ht
          rcases ho.data with ⟨-, -, h5⟩ | ⟨h4, -⟩ | ⟨h4, -⟩
          · exact h5 ht
          · exact absurd hn h4
          · exact absurd h4 hK
        · rw [var_set_ne e, get_set_ne e]; exact r'.rel i
      · obtain ⟨i, z, hi, hz⟩ := r'.blocks.owned b' blk hb hf
        have : i ≠ s := by rintro rfl; rw [hq] at hi; cases hi; exact hnb b' hz
        exact ⟨i, z, by rw [var_set_ne this]; exact hi, hz⟩
      · by_cases e1 : i = s
        · subst e1; rw [var_set_self hsq] at hi; cases hi; cases hxb
        · by_cases e2 : j = s
          · subst e2; rw [var_set_self hsq] at hj; cases hj; cases hyb
          · rw [var_set_ne e1] at hi; rw [var_set_ne e2] at hj
            exact r'.blocks.unique i j x' y' b' hi hj hxb hyb
    have hnil : triv = false → l = [] := fun ht => (hallow ht).resolve_right hK
    have hget : ∀ l0, Vals.get (a.set d l0) s = some l := by intro l0; rw [get_set_ne hs]; exact hl
    by_cases hn : l = []
    · subst hn
      have h0 : y.size = 0 := ho.size
      have r1 := r.rep_nil hx
      have hq : (p.setVar d (some { x with size := 0 })).var s = some y := by rw [var_set_ne hs]; exact hy
      obtain ⟨e1, r2⟩ := empt r1 hq hnil (hget _)
      refine ⟨_, ?_, r2⟩
      simp only [SProg.take, hx, hy, Option.bind_eq_bind, Option.bind_some, h0, ne_eq, not_true_eq_false, if_false]
      exact e1
    · have hne : y.size ≠ 0 := by rw [ho.size]; exact fun h => hn (List.length_eq_zero_iff.mp h)
      obtain ⟨p1, p2, g1, g2, g3⟩ := r.fill l hn ho.all (fun i p => p.cell s i) (fun j q hj hq => hq.cell hs hy ho hj)
      have hp1 : p1 = p.setVar d (some { x with data := .inline, size := l.length }) := by
        simp [grab, hx, hK] at g1; exact g1.symm
      have hq : p2.var s = some y := by
        have := g3.rel s
        -- construction touches only `d`
        have hH : Holds p1 d x.buf := .inline { x with data := .inline, size := l.length } (by rw [hp1]; exact var_set_self hd _) rfl rfl
        have hcon := Holds.constructFrom (triv := triv) (fun i p => p.cell s i) l ho.all l.length 0 _ hH (by omega) (by omega)
          (fun ht j _ hj => by
            have hj' : j < x.buf.length := by omega
            rw [List.getElem?_eq_getElem hj', h3 ht _ (List.getElem_mem hj')]) (fun j cells hj => by
              refine Agree.cell (p := p) (d := d) ⟨fun i hi => ?_, fun b hb => ?_⟩ hs hy ho hj
              · rw [hp1, upd_inline (x := { x with data := .inline, size := l.length }) (var_set_self hd _) rfl, var_set_ne hi, var_set_ne hi]
              · rw [hp1, upd_inline (x := { x with data := .inline, size := l.length }) (var_set_self hd _) rfl]; rfl)
        simp only [List.take_zero, List.nil_append, List.drop_zero] at hcon
        rw [hH.upd_self, g2] at hcon
        rw [Option.some.inj hcon, hp1, upd_inline (x := { x with data := .inline, size := l.length }) (var_set_self hd _) rfl, var_set_ne hs, var_set_ne hs]
        exact hy
      obtain ⟨e1, r2⟩ := empt g3 hq hnil (hget _)
      refine ⟨_, ?_, r2⟩
      simp only [SProg.take, hx, hy, Option.bind_eq_bind, Option.bind_some, if_neg hnlt, if_pos hne]
      rw [hp1, ← ho.size] at g2
      rw [g2]
      exact e1

theorem set_same {a : Vals V} {d : Nat} {l : List (Option V)} (h : a.get d = some l) : a.set d (some l) = a := by
  unfold Vals.get at h
  cases hv : a[d]? with
  | none => rw [hv] at h; cases h
  | some y =>
      rw [hv] at h; simp at h; subst h
      obtain ⟨hlt, he⟩ := List.getElem?_eq_some_iff.mp hv
      rw [← he, List.set_getElem_self]

theorem set_dead {a : Vals V} {d : Nat} (h : a.get d = none) : a.set d none = a := by
  unfold Vals.get at h
  cases hv : a[d]? with
  | none => exact List.set_eq_of_length_le (List.getElem?_eq_none_iff.mp hv)
  | some y =>
      rw [hv] at h; simp at h; subst h
      obtain ⟨hlt, he⟩ := List.getElem?_eq_some_iff.mp hv
      rw [← he, List.set_getElem_self]

/-- Other elements for a variable that holds a list. -/
theorem Rep.upd {a : Vals V} {d : Nat} {x : Sso V} {l l' rest : List (Option V)} (r : Rep triv K p a) (hx : p.var d = some x)
    (hl : a.get d = some l) (hlen : l'.length = l.length) (hne : l ≠ []) (hall : triv = false → ∀ c ∈ l', c.isSome) (hH : Holds p d (l ++ rest)) :
    Rep triv K (p.upd d (l' ++ rest)) (a.set d (some l')) := by
  obtain ⟨l0, hl0, ho⟩ := r.alive hx
  rw [hl] at hl0; cases hl0
  have hd := lt_of_var' hx
  have hda : d < a.length := by rw [← r.len]; exact hd
  have hne' : l' ≠ [] := by rintro rfl; simp at hlen; exact hne (List.length_eq_zero_iff.mp hlen.symm)
  cases hH with
  | inline x' h1 h2 h3 =>
      rw [hx] at h1; cases h1
      rw [upd_inline hx h2]
      rcases ho.data with ⟨h4, -⟩ | ⟨-, h4, -, rest', h5, h6⟩ | ⟨-, -, b, h5, -⟩
      · exact absurd h4 hne
      · have hr : rest' = rest := by rw [h3] at h5; exact (List.append_cancel_left h5).symm
        subst hr
        refine ⟨by simp [setVar, r.len], fun i => ?_, fun b blk hb hf => ?_, fun i j x' y b hi hj hxb hyb => ?_⟩
        · by_cases e : i = d
          · subst e
            rw [var_set_self hd, get_set_self hda]
            refine ⟨?_, by rw [hlen]; exact ho.size, hall, Or.inr (Or.inl ⟨hne', by omega, h2, rest', rfl, h6⟩)⟩
            have := ho.buf; rw [h3] at this; simp at this ⊢; omega
          · rw [var_set_ne e, get_set_ne e]; exact r.rel i
        · obtain ⟨i, y, hi, hy⟩ := r.blocks.owned b blk hb hf
          have : i ≠ d := by rintro rfl; rw [hx] at hi; cases hi; rw [h2] at hy; cases hy
          exact ⟨i, y, by rw [var_set_ne this]; exact hi, hy⟩
        · by_cases e1 : i = d
          · subst e1; rw [var_set_self hd] at hi; cases hi; simp only at hxb; rw [h2] at hxb; cases hxb
          · by_cases e2 : j = d
            · subst e2; rw [var_set_self hd] at hj; cases hj; simp only at hyb; rw [h2] at hyb; cases hyb
            · rw [var_set_ne e1] at hi; rw [var_set_ne e2] at hj
              exact r.blocks.unique i j x' y b hi hj hxb hyb
      · rw [h2] at h5; cases h5
  | block x' b h1 h2 h3 =>
      rw [hx] at h1; cases h1
      rw [upd_block hx h2]
      have hb' := (Heap.live_some.mp h3).1
      have hblt := Heap.lt_of_live h3
      rcases ho.data with ⟨h4, -⟩ | ⟨-, -, h4, -⟩ | ⟨h4, h5, b1, h6, h7⟩
      · exact absurd h4 hne
      · rw [h2] at h4; cases h4
      · rw [h2] at h6; cases h6
        rw [hb'] at h7
        have hrest : rest = [] := by
          have : l ++ rest = l := by injection h7 with h7; injection h7
          simpa using this
        subst hrest
        rw [List.append_nil]
        refine ⟨by simp [r.len], fun i => ?_, fun b1 blk hb hf => ?_, fun i j x' y b1 hi hj hxb hyb => ?_⟩
        · by_cases e : i = d
          · subst e
            rw [get_set_self hda, var_hp, hx]
            exact ⟨ho.buf, by rw [hlen]; exact ho.size, hall, Or.inr (Or.inr ⟨by omega, h5, b, h2, by simp [hblt]⟩)⟩
          · rw [get_set_ne e, var_hp]
            refine (r.rel i).mono fun y b1 hy hb1 => ?_
            have : b1 ≠ b := by rintro rfl; exact e (r.blocks.unique i d y x b1 hy hx hb1 h2)
            simp only; rw [List.getElem?_set_ne (Ne.symm this)]
        · by_cases e : b1 = b
          · subst e; exact ⟨d, x, hx, h2⟩
          · simp only [List.getElem?_set_ne (Ne.symm e)] at hb
            exact r.blocks.owned b1 blk hb hf
        · exact r.blocks.unique i j x' y b1 hi hj hxb hyb

/-- One operation. -/
theorem Rep.step (dflt : V) {a : Vals V} (r : Rep triv K p a) (op : SOp V) (hop : SAllowed triv K a op) :
    ∃ p', p.step triv K dflt op = some p' ∧ Rep triv K p' (sstep triv dflt a op) := by
  have hlen := r.len
  have guard : ∀ d, (p.var d = none ∧ d < p.vars.length) ↔ (a.get d = none ∧ d < a.length) := by
    intro d
    rw [hlen]
    refine and_congr_left fun _ => ⟨r.dead, fun h => ?_⟩
    cases hv : p.var d with
    | none => rfl
    | some x => obtain ⟨l, h1, -⟩ := r.alive hv; rw [h] at h1; cases h1
  cases op with
  | new d n =>
      simp only [SProg.step, sstep, guard d]
      by_cases hg : a.get d = none ∧ d < a.length
      · rw [if_pos hg, if_pos hg]
        have hg' := (guard d).mpr hg
        have := r.build hg'.1 hg'.2 (List.replicate n (dfltCell triv dflt)) (by
          intro ht c hc; rw [List.eq_of_mem_replicate hc]; subst ht; rfl) (fun _ _ => some (if triv then none else some dflt))
          (fun j q hj _ => by rw [List.length_replicate] at hj; simp [hj, dfltCell])
        rw [List.length_replicate] at this
        exact this
      · rw [if_neg hg, if_neg hg]; exact ⟨p, rfl, r⟩
  | newZero d n =>
      simp only [SProg.step, sstep, guard d]
      split_ifs with hg
      · have hg' := (guard d).mpr hg
        have := r.build hg'.1 hg'.2 (List.replicate n (some dflt)) (by
          intro ht c hc; rw [List.eq_of_mem_replicate hc]; rfl) (fun _ _ => some (some dflt))
          (fun j q hj _ => by rw [List.getElem?_replicate, if_pos (by simpa using hj)])
        simpa using this
      · exact ⟨p, rfl, r⟩
  | newFrom d vs =>
      simp only [SProg.step, sstep, guard d]
      split_ifs with hg
      · have hg' := (guard d).mpr hg
        have := r.build hg'.1 hg'.2 (vs.map some) (by
          intro ht c hc; simp at hc; obtain ⟨v, -, rfl⟩ := hc; rfl) (fun i _ => vs[i]?.map some)
          (fun j q hj _ => by rw [List.getElem?_map])
        simpa using this
      · exact ⟨p, rfl, r⟩
  | copy d s =>
      simp only [SProg.step, sstep]
      cases hy : p.var s with
      | none => rw [r.dead hy]; exact ⟨p, rfl, r⟩
      | some y =>
          obtain ⟨l, hl, ho⟩ := r.alive hy
          rw [hl]
          simp only [guard d]
          split_ifs with hg
          · have hg' := (guard d).mpr hg
            have hs : s ≠ d := by rintro rfl; rw [hg'.1] at hy; cases hy
            rw [ho.size]
            exact r.build hg'.1 hg'.2 l ho.all (fun i p => p.cell s i) (fun j q hj hq => hq.cell hs hy ho hj)
          · exact ⟨p, rfl, r⟩
  | move d s =>
      simp only [SProg.step, sstep]
      cases hy : p.var s with
      | none => rw [r.dead hy]; exact ⟨p, rfl, r⟩
      | some y =>
          obtain ⟨l, hl, ho⟩ := r.alive hy
          rw [hl]
          simp only [guard d]
          split_ifs with hg
          · have hg' := (guard d).mpr hg
            have hs : s ≠ d := by rintro rfl; rw [hg'.1] at hy; cases hy
            exact (r.cleared_new hg'.1 hg'.2).take hs (by rw [var_set_ne hs]; exact hy) hl (fun ht => hop ht l hl)
          · exact ⟨p, rfl, r⟩
  | copyAssign d s =>
      simp only [SProg.step, sstep]
      cases hx : p.var d with
      | none => rw [r.dead hx]; exact ⟨p, rfl, r⟩
      | some x =>
          obtain ⟨ld, hld, hod⟩ := r.alive hx
          rw [hld]
          cases hy : p.var s with
          | none => rw [r.dead hy]; exact ⟨p, rfl, r⟩
          | some y =>
              obtain ⟨l, hl, ho⟩ := r.alive hy
              rw [hl]
              simp only
              by_cases hs : s = d
              · subst hs
                rw [hx] at hy; cases hy
                have e : ld = l := by rw [hld] at hl; exact Option.some.inj hl
                subst ld
                have hlt := lt_of_var' hx
                rw [set_same hl]
                rcases hop rfl l hl with h0 | ⟨ht, hK⟩
                · subst h0
                  obtain ⟨p1, x1, h1, h2, h3, h4, -, -⟩ := r.clean hx hl
                  have h5 := h2.rep_nil h3
                  rw [set_same hl] at h5
                  refine ⟨_, ?_, h5⟩
                  simp only [SProg.assign, h1, h3, h4, Option.bind_eq_bind, Option.bind_some, List.length_nil, if_true]
                  rfl
                · subst ht
                  by_cases h0 : l = []
                  · subst h0
                    obtain ⟨p1, x1, h1, h2, h3, h4, -, -⟩ := r.clean hx hl
                    have h5 := h2.rep_nil h3
                    rw [set_same hl] at h5
                    refine ⟨_, ?_, h5⟩
                    simp only [SProg.assign, h1, h3, h4, Option.bind_eq_bind, Option.bind_some, List.length_nil, if_true]
                    rfl
                  · have hn : l.length ≠ 0 := fun h => h0 (List.length_eq_zero_iff.mp h)
                    rcases ho.data with ⟨h4, -⟩ | ⟨-, -, h3, rest, h4, -⟩ | ⟨h4, -⟩
                    · exact absurd h4 h0
                    · have hnK : ¬ K < x.size := by rw [ho.size]; omega
                      have hn' : x.size ≠ 0 := by rw [ho.size]; exact hn
                      have hc : p.clean true K s = some (p.setVar s (some { x with data := .null })) := by
                        simp [SProg.clean, hx, h3, cleanElems, cleanBlock, hnK, nullify]
                      have hg : (p.setVar s (some { x with data := .null })).grab K s x.size = some p := by
                        have e : ({ x with data := .inline, size := x.size } : Sso V) = x := by rw [← h3]
                        simp only [grab, var_set_self hlt, Option.bind_eq_bind, Option.bind_some, if_neg hnK, setVar_setVar]
                        rw [e, setVar_same hx]; rfl
                      refine ⟨p, ?_, r⟩
                      simp only [SProg.assign, hc, Option.bind_eq_bind, Option.bind_some, var_set_self hlt, if_neg hn', hg]
                      have hH : Holds p s x.buf := .inline x hx h3 rfl
                      exact hH.constructSelf x.size 0 (by rw [ho.buf]; omega)
                    · omega
              · obtain ⟨p1, x1, h1, h2, h3, h4, -, h5⟩ := r.clean hx hld
                have hy1 : p1.var s = some y := by rw [h5 s hs]; exact hy
                obtain ⟨l1, hl1, ho1⟩ := h2.alive hs hy1
                rw [hl] at hl1; cases hl1
                simp only [SProg.assign, h1, hy1, Option.bind_eq_bind, Option.bind_some]
                by_cases h0 : l = []
                · subst h0
                  have : y.size = 0 := ho.size
                  rw [if_pos this, h3]
                  exact ⟨_, rfl, h2.rep_nil h3⟩
                · have hn : y.size ≠ 0 := by rw [ho.size]; exact fun h => h0 (List.length_eq_zero_iff.mp h)
                  obtain ⟨p2, p3, g1, g2, g3⟩ := h2.fill l h0 ho.all (fun i p => p.cell s i) (fun j q hj hq => hq.cell hs hy1 ho1 hj)
                  rw [if_neg hn, ho.size, g1]
                  exact ⟨p3, g2, g3⟩
  | moveAssign d s =>
      simp only [SProg.step, sstep]
      cases hx : p.var d with
      | none => rw [r.dead hx]; exact ⟨p, rfl, r⟩
      | some x =>
          obtain ⟨ld, hld, hod⟩ := r.alive hx
          rw [hld]
          cases hy : p.var s with
          | none => rw [r.dead hy]; exact ⟨p, rfl, r⟩
          | some y =>
              obtain ⟨l, hl, ho⟩ := r.alive hy
              rw [hl]
              simp only
              obtain ⟨p1, x1, h1, h2, h3, h4, h6, h5⟩ := r.clean hx hld
              by_cases hs : s = d
              · subst hs
                rw [hx] at hy; cases hy
                have e : ld = l := by rw [hld] at hl; exact Option.some.inj hl
                subst ld
                have hlt := lt_of_var' h3
                rw [List.set_set]
                have hfin := h2.rep_nil h3
                refine ⟨_, ?_, hfin⟩
                obtain ⟨x1', hx1', g1, g2, -⟩ := h2.var
                rw [h3] at hx1'; cases hx1'
                have e0 : ({ x1 with data := .null, size := 0 } : Sso V) = { x1 with size := 0 } := by rw [← g1]
                simp only [h1, Option.bind_eq_bind, Option.bind_some, SProg.take, h3]
                by_cases hK : K < l.length
                · rw [if_pos (show K < x1.size by rw [h4]; exact hK)]
                  simp only [SProg.empty, var_set_self hlt, Option.bind_eq_bind, Option.bind_some, setVar_setVar, e0]; rfl
                · rw [if_neg (by rw [h4]; exact hK)]
                  by_cases h0 : l = []
                  · subst h0
                    rw [if_neg (by rw [h4]; simp)]
                    simp only [SProg.empty, var_set_self hlt, Option.bind_eq_bind, Option.bind_some, setVar_setVar, e0]; rfl
                  · have ht : triv = true := by
                      cases triv with
                      | true => rfl
                      | false => rcases hop rfl l hl with h | h
                                 · exact absurd h h0
                                 · exact absurd h hK
                    subst ht
                    rw [if_pos (by rw [h4]; exact fun h => h0 (List.length_eq_zero_iff.mp h))]
                    have hH : Holds (p1.setVar s (some { x1 with data := .inline, size := x1.size })) s x1.buf :=
                      .inline _ (var_set_self hlt _) rfl rfl
                    rw [hH.constructSelf x1.size 0 (by rw [h4, g2]; omega)]
                    simp only [SProg.empty, var_set_self hlt, Option.bind_eq_bind, Option.bind_some, setVar_setVar, e0]; rfl
              · have hy1 : p1.var s = some y := by rw [h5 s hs]; exact hy
                simp only [h1, Option.bind_eq_bind, Option.bind_some]
                exact h2.take hs hy1 hl (fun ht => hop ht l hl)
  | destroy d =>
      simp only [SProg.step, sstep]
      cases hx : p.var d with
      | none => rw [set_dead (r.dead hx)]; exact ⟨p, rfl, r⟩
      | some x =>
          obtain ⟨l, hl, ho⟩ := r.alive hx
          obtain ⟨p1, x1, h1, h2, h3, -⟩ := r.clean hx hl
          obtain ⟨x1', hx1', g1, g2, g3⟩ := h2.var
          rw [h3] at hx1'; cases hx1'
          simp only [h1, Option.bind_eq_bind, Option.bind_some, h3]
          rw [if_neg]
          · exact ⟨_, rfl, h2.rep_dead⟩
          · rintro ⟨ht, hany⟩
            obtain ⟨c, hc, hs⟩ := List.any_eq_true.mp hany
            rw [g3 ht c hc] at hs; cases hs
  | write d i v =>
      simp only [SProg.step, sstep]
      cases hx : p.var d with
      | none => rw [r.dead hx]; exact ⟨p, rfl, r⟩
      | some x =>
          obtain ⟨l, hl, ho⟩ := r.alive hx
          rw [hl]
          simp only
          by_cases hi : i < x.size
          · rw [if_pos hi]
            have hi' : i < l.length := by rw [← ho.size]; exact hi
            have hne : l ≠ [] := by rintro rfl; simp at hi'
            obtain ⟨rest, hH, -⟩ := ho.holds hx hne
            have hcell : p.cell d i = some l[i] := by rw [ho.cell hx hi', List.getElem?_eq_getElem hi']
            rw [hcell]
            simp only [Option.bind_eq_bind, Option.bind_some]
            rw [if_neg, hH.setCell (by simp; omega), List.set_append_left _ _ hi']
            · refine ⟨_, rfl, r.upd hx hl (by simp) hne ?_ hH⟩
              intro ht c hc
              rcases List.mem_or_eq_of_mem_set hc with h1 | rfl
              · exact ho.all ht c h1
              · rfl
            · rintro ⟨ht, hn⟩
              have := ho.all ht _ (List.getElem_mem hi')
              rw [Option.isNone_iff_eq_none.mp hn] at this; cases this
          · have e : l.set i (some v) = l := List.set_eq_of_length_le (by rw [← ho.size]; omega)
            rw [if_neg hi, e, set_same hl]
            exact ⟨p, rfl, r⟩

end SProg
end Nda.Mem
