import Verif.Spec.Exceptions
import Verif.Lemmas.Handles
/-! # Elements that throw: arrays over blocks refine arrays as lists -/
namespace Nda.Exc
open Nda.Mem Spec

variable {V : Type}

theorem firstFail_zero (w : World) (t : Nat) : firstFail w t 0 = none := rfl

theorem firstFail_succ (w : World) (t n : Nat) :
    firstFail w t (n + 1) = if w.fails t then some 0 else (firstFail w (t + 1) n).map (· + 1) := by
  unfold firstFail
  rw [List.range_succ_eq_map, List.find?_cons]
  cases h : w.fails t with
  | true => simp [h]
  | false =>
      simp only [Nat.add_zero, h, List.find?_map, Bool.false_eq_true, if_false]
      congr 2
      funext j; simp [Function.comp, Nat.add_assoc, Nat.add_comm 1 j]

theorem firstFail_lt {w : World} {t n j : Nat} (h : firstFail w t n = some j) : j < n := by
  have := List.mem_of_find?_eq_some h
  simpa using this

theorem firstFail_none_iff {w : World} {t n : Nat} : firstFail w t n = none ↔ ∀ j < n, w.fails (t + j) = false := by
  unfold firstFail; rw [List.find?_eq_none]; simp

/-- The loop that constructs the elements of a fresh block. -/
theorem construct_spec (w : World) (hp : Heap V) (f : Nat → Heap V → Option V) (pre suf : List V) (t : Nat)
    (hf : ∀ j cells, j < suf.length → f (pre.length + j) (hp ++ [⟨cells, false⟩]) = suf[j]?) :
    construct w hp.length f suf.length pre.length ⟨hp ++ [⟨pre.map some ++ List.replicate suf.length none, false⟩], t⟩ =
      match firstFail w t suf.length with
      | none => .ok ⟨hp ++ [⟨(pre ++ suf).map some, false⟩], t + suf.length⟩
      | some j => .threw ⟨hp ++ [⟨(pre ++ suf.take j).map some ++ List.replicate (suf.length - j) none, false⟩], t + j + 1⟩ := by
  induction suf generalizing pre t with
  | nil => simp [construct, firstFail_zero]
  | cons v vs ih =>
      have h0 := hf 0 (pre.map some ++ List.replicate (v :: vs).length none) (by simp)
      simp only [Nat.add_zero, List.getElem?_cons_zero] at h0
      rw [List.length_cons, firstFail_succ]
      unfold construct
      simp only [List.length_cons] at h0
      rw [h0]
      dsimp only
      cases hw : w.fails t with
      | true => simp
      | false =>
          simp only [Bool.false_eq_true, if_false]
          have hl : Heap.live (hp ++ [(⟨pre.map some ++ List.replicate (vs.length + 1) none, false⟩ : Block V)]) hp.length =
              some ⟨pre.map some ++ List.replicate (vs.length + 1) none, false⟩ := by
            rw [Heap.live_some]; simp
          rw [Heap.construct_raw false hl (by rw [List.getElem?_append_right (by simp)]; simp [List.replicate_succ]) v, Own.set_append_new]
          dsimp only
          have e : (List.map some pre ++ List.replicate (vs.length + 1) (none : Option V)).set pre.length (some v) =
              (pre ++ [v]).map some ++ List.replicate vs.length none := by
            rw [List.set_append_right _ _ (by simp)]
            simp [List.replicate_succ]
          rw [e]
          have := ih (pre ++ [v]) (t + 1) (by
            intro j cells hj
            have := hf (j + 1) cells (by simpa using hj)
            rw [List.getElem?_cons_succ] at this
            rw [← this, List.length_append, List.length_singleton]; congr 1; omega)
          rw [List.length_append, List.length_singleton] at this
          rw [this]
          cases hff : firstFail w (t + 1) vs.length with
          | none => simp [Nat.add_assoc, Nat.add_comm 1]
          | some j => simp; omega

/-- Destroying an element that was never constructed. -/
theorem destroyFrom_raw (b : Nat) (hp : Heap V) (hb : b < hp.length) (pre suf : List (Option V)) (hr : none ∈ suf) :
    Heap.destroyFrom b suf.length pre.length (hp.set b ⟨pre ++ suf, false⟩) = none := by
  induction suf generalizing pre with
  | nil => simp at hr
  | cons c suf ih =>
      rw [List.length_cons]
      unfold Heap.destroyFrom
      have hl : Heap.live (hp.set b ⟨pre ++ c :: suf, false⟩) b = some ⟨pre ++ c :: suf, false⟩ := Heap.live_set_self hb _
      cases c with
      | none => simp [Heap.destroy, hl]
      | some v =>
          rw [Heap.destroy_some hl (v := v) (by rw [List.getElem?_append_right (by simp)]; simp)]
          have hr' : none ∈ suf := by simpa using hr
          have := ih (pre ++ [none]) hr'
          rw [List.set_set]
          have e : (pre ++ some v :: suf).set pre.length none = (pre ++ [none]) ++ suf := by
            rw [List.set_append_right _ _ (Nat.le_refl _)]; simp
          simpa [e] using this

/-! ## The relation -/

/-- An array over blocks and an array as a list. -/
def ArrOK (hp : Heap V) (x : Arr) (y : AArr V) : Prop :=
  x.len = y.len ∧
    ((x.data = none ∧ y.elems = [] ∧ x.size = y.null) ∨
      ∃ b, x.data = some b ∧ y.null = 0 ∧ y.elems ≠ [] ∧ x.size = y.elems.length ∧ hp[b]? = some ⟨y.elems.map some, false⟩)

def owns (b : Nat) (e : Arr × AArr V) : Bool := e.1.data == some b

/-- The arrays `H` own their blocks, one each; the blocks of `L` are lost; all others are released. -/
structure G (hp : Heap V) (H : List (Arr × AArr V)) (L : List Nat) : Prop where
  ok : ∀ e ∈ H, ArrOK hp e.1 e.2
  lk : ∀ b ∈ L, b < hp.length
  cnt : ∀ b blk, hp[b]? = some blk → H.countP (owns b) + L.count b = if blk.freed then 0 else 1

namespace G
variable {hp : Heap V} {H H' : List (Arr × AArr V)} {L : List Nat}

theorem perm (g : G hp H L) (p : H'.Perm H) : G hp H' L where
  ok e he := g.ok e (p.mem_iff.mp he)
  lk := g.lk
  cnt b blk h := by rw [p.countP_eq]; exact g.cnt b blk h

theorem cons_null (g : G hp H L) (len n : Nat) : G hp ((⟨len, none, n⟩, ⟨len, [], n⟩) :: H) L where
  ok e he := by
    rcases List.mem_cons.mp he with rfl | he
    · exact ⟨rfl, Or.inl ⟨rfl, rfl, rfl⟩⟩
    · exact g.ok e he
  lk := g.lk
  cnt b blk h := by rw [List.countP_cons]; simpa [owns] using g.cnt b blk h

theorem lt_of_owns (g : G hp H L) {e : Arr × AArr V} (he : e ∈ H) {b : Nat} (hb : e.1.data = some b) : b < hp.length := by
  rcases (g.ok e he).2 with ⟨h, -⟩ | ⟨b', h, -, -, -, h2⟩
  · rw [h] at hb; cases hb
  · rw [h] at hb; cases hb
    exact (List.getElem?_eq_some_iff.mp h2).1

theorem ArrOK_append {x : Arr} {y : AArr V} (h : ArrOK hp x y) (k : Block V) : ArrOK (hp ++ [k]) x y := by
  refine ⟨h.1, ?_⟩
  rcases h.2 with h | ⟨b, h1, h2, h3, h4, h5⟩
  · exact Or.inl h
  · refine Or.inr ⟨b, h1, h2, h3, h4, ?_⟩
    rw [List.getElem?_append_left (List.getElem?_eq_some_iff.mp h5).1]; exact h5

theorem fresh_count (g : G hp H L) : H.countP (owns hp.length) = 0 ∧ L.count hp.length = 0 := by
  constructor
  · rw [List.countP_eq_zero]
    intro e he hb
    have := g.lt_of_owns he (b := hp.length) (by simpa [owns] using hb)
    omega
  · rw [List.count_eq_zero]
    intro h; have := g.lk _ h; omega

theorem cons_new (g : G hp H L) (len : Nat) {vs : List V} (hv : vs ≠ []) :
    G (hp ++ [⟨vs.map some, false⟩]) ((⟨len, some hp.length, vs.length⟩, ⟨len, vs, 0⟩) :: H) L where
  ok e he := by
    rcases List.mem_cons.mp he with rfl | he
    · exact ⟨rfl, Or.inr ⟨_, rfl, rfl, hv, rfl, by simp⟩⟩
    · exact ArrOK_append (g.ok e he) _
  lk b hb := by have := g.lk b hb; simp; omega
  cnt b blk h := by
    rw [List.countP_cons]
    by_cases hb : b < hp.length
    · rw [List.getElem?_append_left hb] at h
      have h0 : owns b ((⟨len, some hp.length, vs.length⟩, ⟨len, vs, 0⟩) : Arr × AArr V) = false := by
        simp [owns]; omega
      rw [h0]; simpa using g.cnt b blk h
    · have : b = hp.length := by
        have := (List.getElem?_eq_some_iff.mp h).1; simp at this; omega
      subst this
      simp at h; subst h
      obtain ⟨h1, h2⟩ := g.fresh_count
      simp [owns] at h1 ⊢
      rw [h2]
      have : H.countP (owns hp.length) = 0 := by
        rw [List.countP_eq_zero]; intro e he; simpa [owns] using fun hh => h1 e.1 e.2 he hh
      simpa using this

theorem leak (g : G hp H L) (cells : List (Option V)) : G (hp ++ [⟨cells, false⟩]) H (hp.length :: L) where
  ok e he := ArrOK_append (g.ok e he) _
  lk b hb := by
    rcases List.mem_cons.mp hb with rfl | hb
    · simp
    · have := g.lk b hb; simp; omega
  cnt b blk h := by
    rw [List.count_cons]
    by_cases hb : b < hp.length
    · rw [List.getElem?_append_left hb] at h
      have h0 : (hp.length == b) = false := by simp; omega
      rw [h0]; simpa using g.cnt b blk h
    · have : b = hp.length := by
        have := (List.getElem?_eq_some_iff.mp h).1; simp at this; omega
      subst this
      simp at h; subst h
      obtain ⟨h1, h2⟩ := g.fresh_count
      rw [h1, h2]; simp

/-- The array at the head goes away. -/
theorem destruct (g : G hp ((x, y) :: H) L) (t : Nat) :
    ∃ hp' : Heap V, Exc.destruct x.data x.size ⟨hp, t⟩ = .ok ⟨hp', t⟩ ∧ G hp' H L ∧ hp'.length = hp.length := by
  obtain ⟨h0, h⟩ := g.ok (x, y) (by simp)
  dsimp only at h0 h
  rcases h with ⟨h1, -⟩ | ⟨b, h1, h2, h3, h4, h5⟩
  · refine ⟨hp, by rw [h1]; rfl, ⟨fun e he => g.ok e (by simp [he]), g.lk, fun b blk hb => ?_⟩, rfl⟩
    have := g.cnt b blk hb
    rw [List.countP_cons] at this
    simpa [owns, h1] using this
  · have hb := (List.getElem?_eq_some_iff.mp h5).1
    have hl : hp.live b = some ⟨y.elems.map some, false⟩ := Heap.live_some.mpr ⟨h5, rfl⟩
    have hd := Heap.destroyFrom_spec b hp hb x.size 0 [] (y.elems.map some) rfl (by simp [h4]) (by simp)
    rw [List.nil_append, Heap.set_self_live hl, List.nil_append] at hd
    have hdd : Heap.dealloc false (hp.set b ⟨List.replicate x.size (none : Option V), false⟩) b =
        some (hp.set b ⟨List.replicate x.size none, true⟩) := by
      simp [Heap.dealloc, Heap.live_set_self hb]
    have hb1 := g.cnt b _ h5
    rw [List.countP_cons] at hb1
    have hbo : owns b (x, y) = true := by simp [owns, h1]
    rw [hbo] at hb1
    simp only [if_true, Bool.false_eq_true, if_false] at hb1
    refine ⟨hp.set b ⟨List.replicate x.size none, true⟩, ?_, ⟨?_, ?_, ?_⟩, by simp⟩
    · unfold Exc.destruct; rw [h1]; simp only [hd, hdd]
    · intro e he
      have hoe : owns b e = false := by
        have : H.countP (owns b) = 0 := by omega
        rw [List.countP_eq_zero] at this
        simpa using this e he
      obtain ⟨g1, g2⟩ := g.ok e (by simp [he])
      refine ⟨g1, ?_⟩
      rcases g2 with g2 | ⟨b', k1, k2, k3, k4, k5⟩
      · exact Or.inl g2
      · refine Or.inr ⟨b', k1, k2, k3, k4, ?_⟩
        rw [List.getElem?_set_ne]; · exact k5
        rintro rfl; simp [owns, k1] at hoe
    · intro b' hb'; simpa using g.lk b' hb'
    · intro b' blk hh
      by_cases hbb : b = b'
      · subst hbb
        rw [List.getElem?_set_self hb] at hh
        cases hh
        simp only [if_true]; omega
      · rw [List.getElem?_set_ne hbb] at hh
        have := g.cnt b' blk hh
        rw [List.countP_cons] at this
        have h0 : owns b' (x, y) = false := by simp [owns, h1, hbb]
        rw [h0] at this; simpa using this

/-- The shape of the array at the head changes. -/
theorem relen (g : G hp ((x, y) :: H) L) (n : Nat) : G hp (({ x with len := n }, { y with len := n }) :: H) L where
  ok e he := by
    rcases List.mem_cons.mp he with rfl | he
    · exact ⟨rfl, (g.ok (x, y) (by simp)).2⟩
    · exact g.ok e (by simp [he])
  lk := g.lk
  cnt b blk h := by have := g.cnt b blk h; rw [List.countP_cons] at this ⊢; exact this

/-- The values of the array at the head change. -/
theorem rewrite {b : Nat} (g : G hp ((x, y) :: H) L) (hx : x.data = some b) {us : List V} (hu : us.length = y.elems.length) :
    G (hp.set b ⟨us.map some, false⟩) ((x, { y with elems := us }) :: H) L := by
  obtain ⟨h0, h⟩ := g.ok (x, y) (by simp)
  dsimp only at h0 h
  rcases h with ⟨h1, -⟩ | ⟨b', h1, h2, h3, h4, h5⟩
  · rw [h1] at hx; cases hx
  rw [h1] at hx; cases hx
  have hb := (List.getElem?_eq_some_iff.mp h5).1
  have hb1 := g.cnt b _ h5
  rw [List.countP_cons] at hb1
  have hbo : owns b (x, y) = true := by simp [owns, h1]
  rw [hbo] at hb1
  simp only [if_true, Bool.false_eq_true, if_false] at hb1
  refine ⟨?_, fun b' hb' => by simpa using g.lk b' hb', ?_⟩
  · intro e he
    rcases List.mem_cons.mp he with rfl | he
    · refine ⟨h0, Or.inr ⟨b, h1, h2, ?_, by simp [h4, hu], by simp [hb]⟩⟩
      intro hn; dsimp only at hn; apply h3; rw [hn] at hu
      exact List.eq_nil_of_length_eq_zero hu.symm
    · have hoe : owns b e = false := by
        have : H.countP (owns b) = 0 := by omega
        rw [List.countP_eq_zero] at this
        simpa using this e he
      obtain ⟨g1, g2⟩ := g.ok e (by simp [he])
      refine ⟨g1, ?_⟩
      rcases g2 with g2 | ⟨b', k1, k2, k3, k4, k5⟩
      · exact Or.inl g2
      · refine Or.inr ⟨b', k1, k2, k3, k4, ?_⟩
        rw [List.getElem?_set_ne]; · exact k5
        rintro rfl; simp [owns, k1] at hoe
  · intro b' blk hh
    rw [List.countP_cons]
    by_cases hbb : b = b'
    · subst hbb
      rw [List.getElem?_set_self hb] at hh
      cases hh
      have : owns b ((x, { y with elems := us }) : Arr × AArr V) = true := by simp [owns, h1]
      rw [this]; simpa using hb1
    · rw [List.getElem?_set_ne hbb] at hh
      have := g.cnt b' blk hh
      rw [List.countP_cons] at this
      exact this

end G

/-- The same end, with the states in relation `R₁` or, after an exception, `R₂`. -/
def Rel {α β : Type} (R₁ R₂ : α → β → Prop) : Out α → Out β → Prop
  | .ok a, .ok b => R₁ a b
  | .threw a, .threw b => R₂ a b
  | .terminate, .terminate => True
  | .ub, .ub => True
  | _, _ => False

/-- Memory and the state without memory. -/
structure Rest (m : M V) (s : AS V) (H : List (Arr × AArr V)) : Prop where
  tick : m.tick = s.tick
  blocks : m.hp.length = s.blocks
  own : ∃ L : List Nat, L.length = s.leaked ∧ G m.hp H L

theorem Rest.perm {m : M V} {s : AS V} {H H' : List (Arr × AArr V)} (r : Rest m s H) (p : H'.Perm H) : Rest m s H' := by
  obtain ⟨h1, h2, L, h3, g⟩ := r
  exact ⟨h1, h2, L, h3, g.perm p⟩

theorem Rest.vars {m : M V} {s s' : AS V} {H : List (Arr × AArr V)} (r : Rest m s H) (h1 : s'.tick = s.tick) (h2 : s'.blocks = s.blocks)
    (h3 : s'.leaked = s.leaked) : Rest m s' H := by
  obtain ⟨g1, g2, L, g3, g⟩ := r
  exact ⟨by rw [g1, h1], by rw [g2, h2], L, by rw [g3, h3], g⟩

variable {m : M V} {s : AS V} {H : List (Arr × AArr V)}

/-- Construction of the elements `vs` in a fresh block. -/
theorem fresh_spec (w : World) (f : Nat → Heap V → Option V) (vs : List V) (m : M V)
    (hf : ∀ j cells, j < vs.length → f j (m.hp ++ [⟨cells, false⟩]) = vs[j]?) :
    construct w m.hp.length f vs.length 0 ⟨m.hp ++ [⟨List.replicate vs.length none, false⟩], m.tick⟩ =
      match firstFail w m.tick vs.length with
      | none => .ok ⟨m.hp ++ [⟨vs.map some, false⟩], m.tick + vs.length⟩
      | some j => .threw ⟨m.hp ++ [⟨(vs.take j).map some ++ List.replicate (vs.length - j) none, false⟩], m.tick + j + 1⟩ := by
  have := construct_spec w m.hp f [] vs m.tick (by simpa using hf)
  simpa using this

/-- `handle_heap(long size)`. -/
theorem newStorage_rel (w : World) (dflt : V) (n : Nat) (r : Rest m s H) :
    Rel (fun (a : (Option Nat × Nat) × M V) s' => s'.vars = s.vars ∧
          ∀ len, Rest a.2 s' ((⟨len, a.1.1, a.1.2⟩, ⟨len, List.replicate n dflt, 0⟩) :: H))
        (fun a s' => s'.vars = s.vars ∧ Rest a.2 s' H) (newStorage w dflt n m) (s.grow w n) := by
  obtain ⟨h1, h2, L, h3, g⟩ := r
  unfold newStorage AS.grow
  by_cases hn : n = 0
  · subst hn
    simp only [if_true, Rel]
    exact ⟨trivial, fun len => ⟨h1, h2, L, h3, g.cons_null len 0⟩⟩
  · rw [if_neg hn, if_neg hn]
    unfold allocate
    rw [h2]
    cases ho : w.oom s.blocks with
    | true => cases w.asserts <;> simp [Rel]
    | false =>
        simp only [Bool.false_eq_true, if_false, Heap.alloc]
        have hf := fresh_spec w (fun _ _ => some dflt) (List.replicate n dflt) m (by
          intro j cells hj; simp at hj; simp [hj])
        rw [List.length_replicate] at hf
        rw [hf, h1]
        cases hff : firstFail w s.tick n with
        | none =>
            simp only [Out.bind, Rel]
            refine ⟨trivial, fun len => ⟨rfl, by simp [h2], L, h3, ?_⟩⟩
            have := g.cons_new len (vs := List.replicate n dflt) (by simp [hn])
            simpa using this
        | some j =>
            simp only [Out.bind, Rel]
            exact ⟨trivial, rfl, by simp [h2], _ :: L, by simp [h3], g.leak _⟩

theorem abandon_raw (hp : Heap V) (cells : List (Option V)) (hr : none ∈ cells) (n t : Nat) (hn : cells.length = n) :
    abandon (some hp.length) n ⟨hp ++ [⟨cells, false⟩], t⟩ = .ub := by
  unfold abandon Exc.destruct
  have := destroyFrom_raw hp.length (hp ++ [(⟨cells, false⟩ : Block V)]) (by simp) [] cells hr
  rw [Own.set_append_new, List.nil_append] at this
  subst hn
  simp only [List.length_nil] at this
  simp [this]

/-- `basic_array(A const &a)`. -/
theorem storageFrom_rel (w : World) (vs : List V) (r : Rest m s H) :
    Rel (fun (a : (Option Nat × Nat) × M V) s' => s'.vars = s.vars ∧ ∀ len, Rest a.2 s' ((⟨len, a.1.1, a.1.2⟩, ⟨len, vs, 0⟩) :: H))
        (fun _ _ => True) (storageFrom w vs m).noexcept
        (match s.grow w vs.length with
          | .threw _ => if w.unwinds then .ub else .terminate
          | o => o) := by
  obtain ⟨h1, h2, L, h3, g⟩ := r
  unfold storageFrom AS.grow
  by_cases hn : vs.length = 0
  · have hv := List.eq_nil_of_length_eq_zero hn
    subst hv
    simp only [List.length_nil, if_true, Rel, Out.noexcept]
    exact ⟨trivial, fun len => ⟨h1, h2, L, h3, g.cons_null len 0⟩⟩
  · rw [if_neg hn, if_neg hn]
    unfold allocate
    rw [h2]
    cases ho : w.oom s.blocks with
    | true => cases w.asserts <;> simp [Rel, Out.noexcept]
    | false =>
        simp only [Bool.false_eq_true, if_false, Heap.alloc]
        rw [fresh_spec w (fun i _ => vs[i]?) vs m (by intro j cells hj; rfl), h1]
        cases hff : firstFail w s.tick vs.length with
        | none =>
            simp only [Out.noexcept, Rel]
            refine ⟨trivial, fun len => ⟨rfl, by simp [h2], L, h3, ?_⟩⟩
            exact g.cons_new len (by rintro rfl; simp at hn)
        | some j =>
            have hj := firstFail_lt hff
            cases hu : w.unwinds with
            | false => simp [Out.noexcept, Rel]
            | true =>
                dsimp only
                rw [if_pos rfl, abandon_raw _ _ (by simp; right; omega) _ _ (by simp; omega)]
                simp [Out.noexcept, Rel]

theorem Rest.arr {x : Arr} {y : AArr V} (r : Rest m s ((x, y) :: H)) : ArrOK m.hp x y := by
  obtain ⟨-, -, L, -, g⟩ := r
  exact g.ok (x, y) (by simp)

/-- The size of the storage. -/
theorem ArrOK.size {hp : Heap V} {x : Arr} {y : AArr V} (h : ArrOK hp x y) : x.size = y.elems.length + y.null := by
  rcases h.2 with ⟨h1, h2, h3⟩ | ⟨b, h1, h2, h3, h4, -⟩
  · simp [h2, h3]
  · rw [h4, h2]; rfl

/-- `handle_heap(handle_heap const &x)`. -/
theorem copyStorage_rel (w : World) (unw : Bool) {x : Arr} {y : AArr V} (hx : (x, y) ∈ H) (r : Rest m s H) :
    Rel (fun (a : (Option Nat × Nat) × M V) (b : AArr V × AS V) => b.2.vars = s.vars ∧ b.1.len = y.len ∧
          Rest a.2 b.2 ((⟨y.len, a.1.1, a.1.2⟩, b.1) :: H))
        (fun _ _ => False) (copyStorage w true x m) (s.dup w y) ∧
    (unw = false → copyStorage w unw x m =
      if y.elems ≠ [] ∧ w.oom s.blocks = false ∧ firstFail w s.tick y.elems.length ≠ none then
        .threw ((none, 0), ⟨m.hp ++ [⟨((y.elems.take ((firstFail w s.tick y.elems.length).getD 0)).map some ++
          List.replicate (y.elems.length - (firstFail w s.tick y.elems.length).getD 0) none), false⟩],
          s.tick + (firstFail w s.tick y.elems.length).getD 0 + 1⟩)
      else copyStorage w true x m) := by
  obtain ⟨h1, h2, L, h3, g⟩ := r
  have ha := g.ok (x, y) hx
  have hs := ha.size
  obtain ⟨h0, ha⟩ := ha
  dsimp only at h0 ha hs
  unfold copyStorage AS.dup
  by_cases hn : x.size = 0
  · have he : y.elems = [] := List.eq_nil_of_length_eq_zero (by omega)
    have hz : y.null = 0 := by omega
    rw [if_pos hn, if_pos hn, if_pos ⟨he, hz⟩]
    refine ⟨⟨rfl, rfl, h1, h2, L, h3, ?_⟩, fun _ => by simp [he]⟩
    have := g.cons_null y.len 0
    obtain ⟨yl, ye, yn⟩ := y
    dsimp only at he hz this ⊢
    subst he hz
    exact this
  · have hne : ¬ (y.elems = [] ∧ y.null = 0) := by
      rintro ⟨a, b⟩; rw [a, b] at hs; exact hn hs
    rw [if_neg hn, if_neg hn, if_neg hne]
    unfold allocate
    rw [h2]
    cases ho : w.oom s.blocks with
    | true =>
        cases w.asserts with
        | true => simp [Rel]
        | false =>
            simp only [if_true, Bool.false_eq_true, if_false, Rel]
            refine ⟨⟨trivial, trivial, h1, h2, L, h3, ?_⟩, by simp⟩
            rw [hs]; exact g.cons_null _ _
    | false =>
        simp only [Bool.false_eq_true, if_false, Heap.alloc, if_true, true_and]
        rcases ha with ⟨a1, a2, a3⟩ | ⟨b, a1, a2, a3, a4, a5⟩
        · rw [if_pos a2]
          obtain ⟨k, hk⟩ : ∃ k, x.size = k + 1 := ⟨x.size - 1, by omega⟩
          rw [a1, hk]
          simp [construct, Rel, a2]
        · rw [if_neg a3]
          have hblt := (List.getElem?_eq_some_iff.mp a5).1
          have hf := fresh_spec w (fun i hp => x.data.bind fun s => hp.read s i) y.elems m (by
            intro j cells hj
            rw [a1]
            simp only [Option.bind_some, Heap.read, Heap.live, List.getElem?_append_left hblt, a5]
            simp [hj])
          rw [a4, hf, h1]
          cases hff : firstFail w s.tick y.elems.length with
          | none =>
              simp only [Rel]
              refine ⟨⟨trivial, trivial, rfl, by simp [h2], L, h3, ?_⟩, by simp⟩
              have := g.cons_new y.len a3
              obtain ⟨yl, ye, yn⟩ := y
              dsimp only at a2 this ⊢
              subst a2
              exact this
          | some j =>
              have hj := firstFail_lt hff
              refine ⟨?_, ?_⟩
              · dsimp only
                rw [abandon_raw _ _ (by simp; right; omega) _ _ (by simp; omega)]
                trivial
              · rintro rfl; simp [a3]

/-- The old storage is released and replaced. -/
theorem moveStorage_spec {x : Arr} {y y' : AArr V} {td : Option Nat} {ts : Nat}
    (r : Rest m s ((⟨x.len, td, ts⟩, y') :: (x, y) :: H)) :
    ∃ m', moveStorage x (td, ts) m = .ok (⟨x.len, td, ts⟩, m') ∧ Rest m' s ((⟨x.len, td, ts⟩, y') :: H) := by
  obtain ⟨h1, h2, L, h3, g⟩ := r
  obtain ⟨hp', e, g', hl⟩ := (g.perm (List.Perm.swap _ _ _)).destruct m.tick
  refine ⟨⟨hp', m.tick⟩, ?_, h1, by rw [← h2, ← hl], L, h3, g'⟩
  have e' : Exc.destruct x.data x.size m = .ok ⟨hp', m.tick⟩ := e
  unfold moveStorage
  rw [e']

/-- `resize`. -/
theorem resize_rel (w : World) (dflt : V) (n : Nat) {x : Arr} {y : AArr V} (r : Rest m s ((x, y) :: H)) :
    Rel (fun (a : Arr × M V) (b : AArr V × AS V) => b.2.vars = s.vars ∧ Rest a.2 b.2 ((a.1, b.1) :: H))
        (fun a b => b.2.vars = s.vars ∧ Rest a.2 b.2 ((a.1, b.1) :: H)) (resize w dflt x n m)
        (if AS.needs y n then
          match s.grow w n with
          | .ok s => .ok (⟨n, List.replicate n dflt, 0⟩, s)
          | .threw s => .threw ({ y with len := n }, s)
          | .terminate => .terminate
          | .ub => .ub
        else .ok ({ y with len := n }, s)) := by
  have ha := r.arr
  have hnd : (x.data = none ∨ x.size ≠ n) ↔ AS.needs y n = true := by
    unfold AS.needs
    rcases ha.2 with ⟨a1, a2, a3⟩ | ⟨b, a1, a2, a3, a4, a5⟩
    · simp [a1, a2]
    · simp [a1, a3, a4]
  have r1 : Rest m s (({ x with len := n }, { y with len := n }) :: H) := by
    obtain ⟨h1, h2, L, h3, g⟩ := r
    exact ⟨h1, h2, L, h3, g.relen n⟩
  unfold resize
  by_cases hb : AS.needs y n = true
  · rw [if_pos hb, if_pos (hnd.mpr hb)]
    have hrel := newStorage_rel w dflt n r1
    revert hrel
    generalize newStorage w dflt n m = o
    generalize s.grow w n = q
    intro hrel
    cases o <;> cases q <;> simp only [Rel] at hrel
    · rename_i a s'
      obtain ⟨hv, hR⟩ := hrel
      obtain ⟨m', e, hm⟩ := moveStorage_spec (x := { x with len := n }) (hR n)
      simp only [Out.bind]
      rw [e]
      exact ⟨hv, hm⟩
    · rename_i a s'
      exact ⟨hrel.1, hrel.2⟩
    · simp [Out.bind, Rel]
    · simp [Out.bind, Rel]
  · rw [if_neg hb, if_neg (fun h => hb (hnd.mp h))]
    exact ⟨rfl, r1⟩

/-- Assignment to elements of a block, one after the other. -/
theorem assignElems_spec (w : World) (hp : Heap V) {b : Nat} (hb : b < hp.length) (vs pre suf : List V) (t : Nat) :
    (firstFail w t (min vs.length suf.length) = none → vs.length ≤ suf.length →
      assignElems w (some b) vs pre.length ⟨hp.set b ⟨(pre ++ suf).map some, false⟩, t⟩ =
        .ok ⟨hp.set b ⟨(pre ++ vs ++ suf.drop vs.length).map some, false⟩, t + vs.length⟩) ∧
    (firstFail w t (min vs.length suf.length) = none → ¬ vs.length ≤ suf.length →
      assignElems w (some b) vs pre.length ⟨hp.set b ⟨(pre ++ suf).map some, false⟩, t⟩ = .ub) ∧
    (firstFail w t (min vs.length suf.length) ≠ none → ∃ m',
      assignElems w (some b) vs pre.length ⟨hp.set b ⟨(pre ++ suf).map some, false⟩, t⟩ = .threw m') := by
  induction vs generalizing pre suf t with
  | nil => simp [assignElems, firstFail_zero]
  | cons v vs ih =>
      have hl : ∀ c, Heap.live (hp.set b ⟨c, false⟩) b = some (⟨c, false⟩ : Block V) := fun c => Heap.live_set_self hb c
      cases suf with
      | nil =>
          simp only [List.length_nil, Nat.min_zero, firstFail_zero]
          refine ⟨fun _ h => by simp at h, fun _ _ => ?_, fun h => absurd rfl h⟩
          simp [assignElems, Heap.write, hl]
      | cons u suf =>
          have hw : Heap.write false (hp.set b ⟨(pre ++ u :: suf).map some, false⟩) b pre.length v =
              some (hp.set b ⟨((pre ++ [v]) ++ suf).map some, false⟩) := by
            simp [Heap.write, hl, List.set_append_right]
          have hm : min (v :: vs).length (u :: suf).length = min vs.length suf.length + 1 := by simp
          obtain ⟨i1, i2, i3⟩ := ih (pre ++ [v]) suf (t + 1)
          rw [hm, firstFail_succ]
          unfold assignElems
          dsimp only
          rw [hw]
          dsimp only
          rw [List.length_append, List.length_singleton] at i1 i2 i3
          cases hff : w.fails t with
          | true => simp
          | false =>
              simp only [Bool.false_eq_true, if_false, Option.map_eq_none_iff, ne_eq]
              refine ⟨fun h1 h2 => ?_, fun h1 h2 => ?_, fun h1 => i3 h1⟩
              · rw [i1 h1 (by simpa using h2)]
                simp; omega
              · exact i2 h1 (by simpa using h2)

/-- `assign_from_ndarray` and `fill_with_scalar`. -/
theorem assignElems_rel (w : World) (vs : List V) {x : Arr} {y : AArr V} (r : Rest m s ((x, y) :: H)) :
    Rel (fun (a : M V) (s' : AS V) => s'.vars = s.vars ∧ Rest a s' ((x, { y with elems := vs ++ y.elems.drop vs.length }) :: H))
        (fun _ _ => True) (assignElems w x.data vs 0 m).noexcept (s.touch w vs.length y.elems.length) := by
  obtain ⟨h1, h2, L, h3, g⟩ := r
  obtain ⟨h0, ha⟩ := g.ok (x, y) (by simp)
  dsimp only at h0 ha
  unfold AS.touch
  rcases ha with ⟨a1, a2, a3⟩ | ⟨b, a1, a2, a3, a4, a5⟩
  · rw [a1, a2]
    simp only [List.length_nil, Nat.min_zero, firstFail_zero]
    cases vs with
    | nil =>
        simp only [List.length_nil, Nat.le_refl, if_true, assignElems, Out.noexcept, Rel, List.nil_append, List.drop_nil]
        refine ⟨trivial, by simpa using h1, h2, L, h3, ?_⟩
        obtain ⟨yl, ye, yn⟩ := y
        dsimp only at a2; subst a2; exact g
    | cons v vs => simp [assignElems, Out.noexcept, Rel]
  · have hblt := (List.getElem?_eq_some_iff.mp a5).1
    obtain ⟨i1, i2, i3⟩ := assignElems_spec w m.hp hblt vs [] y.elems m.tick
    rw [List.nil_append, Heap.set_self_live (Heap.live_some.mpr ⟨a5, rfl⟩), List.length_nil] at i1 i2 i3
    rw [h1] at i1 i2 i3
    have em : (⟨m.hp, s.tick⟩ : M V) = m := by rw [← h1]
    rw [em] at i1 i2 i3
    rw [a1]
    cases hff : firstFail w s.tick (min vs.length y.elems.length) with
    | some j =>
        obtain ⟨m', e⟩ := i3 (by simp [hff])
        rw [e]; simp [Out.noexcept, Rel]
    | none =>
        dsimp only
        by_cases hle : vs.length ≤ y.elems.length
        · rw [i1 hff hle, if_pos hle]
          refine ⟨rfl, rfl, by simp [h2], L, h3, ?_⟩
          exact g.rewrite a1 (by simp; omega)
        · rw [i2 hff hle, if_neg hle]; trivial

/-! ## Variables -/

section Vars
variable {α : Type}

def alive (E : List (Option α)) : List α := E.filterMap id

theorem lt_of_alive {E : List (Option α)} {i : Nat} {x : α} (h : (E[i]?).join = some x) : i < E.length := by
  rcases Nat.lt_or_ge i E.length with h1 | h1
  · exact h1
  · rw [List.getElem?_eq_none h1] at h; cases h

theorem alive_put {E : List (Option α)} {d : Nat} (h : (E[d]?).join = none) (hd : d < E.length) (x : α) :
    (alive (E.set d (some x))).Perm (x :: alive E) := by
  induction E generalizing d with
  | nil => simp at hd
  | cons v vs ih =>
      cases d with
      | zero =>
          have : v = none := by simpa using h
          subst this
          simp [alive]
      | succ d =>
          have := ih (d := d) (by simpa using h) (by simpa using hd)
          cases v with
          | none => simpa [alive] using this
          | some y =>
              simp only [alive, List.set_cons_succ, List.filterMap_cons, id] at this ⊢
              exact (List.Perm.cons y this).trans (List.Perm.swap _ _ _)

theorem alive_take {E : List (Option α)} {i : Nat} {x : α} (h : (E[i]?).join = some x) :
    (alive E).Perm (x :: alive (E.set i none)) := by
  have hl := lt_of_alive h
  have := alive_put (E := E.set i none) (d := i) (by simp [hl]) (by simpa using hl) x
  rw [List.set_set] at this
  have e : E.set i (some x) = E := by
    apply List.ext_getElem?
    intro j
    by_cases hj : i = j
    · subst hj
      rw [List.getElem?_set_self hl]
      rw [List.getElem?_eq_getElem hl] at h ⊢
      simpa using h.symm
    · rw [List.getElem?_set_ne hj]
  rwa [e] at this

theorem alive_replace {E : List (Option α)} {i : Nat} {x : α} (y : α) (h : (E[i]?).join = some x) :
    (alive (E.set i (some y))).Perm (y :: alive (E.set i none)) := by
  have hl := lt_of_alive h
  have := alive_put (E := E.set i none) (d := i) (by simp [hl]) (by simpa using hl) y
  rwa [List.set_set] at this

theorem alive_kill {E : List (Option α)} {i : Nat} {x : α} (h : (E[i]?).join = some x) :
    (alive E).Perm (x :: alive (E.set i none)) := alive_take h

end Vars

/-- A program over blocks and a program over lists. -/
def R (p : St V) (s : AS V) : Prop :=
  ∃ E : List (Option (Arr × AArr V)), p.vars = E.map (Option.map Prod.fst) ∧ s.vars = E.map (Option.map Prod.snd) ∧
    Rest p.m s (alive E)

theorem var_of {p : St V} {E : List (Option (Arr × AArr V))} (h : p.vars = E.map (Option.map Prod.fst)) (i : Nat) :
    p.var i = (E[i]?).join.map Prod.fst := by
  unfold St.var; rw [h, List.getElem?_map]
  cases E[i]? with
  | none => rfl
  | some o => cases o <;> rfl

theorem avar_of {s : AS V} {E : List (Option (Arr × AArr V))} (h : s.vars = E.map (Option.map Prod.snd)) (i : Nat) :
    s.var i = (E[i]?).join.map Prod.snd := by
  unfold AS.var; rw [h, List.getElem?_map]
  cases E[i]? with
  | none => rfl
  | some o => cases o <;> rfl

theorem R.init (N : Nat) : R (St.init N : St V) (AS.init N) := by
  refine ⟨List.replicate N none, by simp [St.init], by simp [AS.init], rfl, rfl, [], rfl, ?_⟩
  have : alive (List.replicate N (none : Option (Arr × AArr V))) = [] := by
    unfold alive; rw [List.filterMap_eq_nil_iff]; intro a ha; rw [List.eq_of_mem_replicate ha]; rfl
  rw [this]
  exact ⟨by simp, by simp, by simp [St.init]⟩

/-- A variable is set on both sides. -/
theorem R.put {p : St V} {s s' : AS V} {E : List (Option (Arr × AArr V))} {m' : M V} (hp : p.vars = E.map (Option.map Prod.fst))
    (hs : s.vars = E.map (Option.map Prod.snd)) (hv : s'.vars = s.vars) (d : Nat) (o : Option (Arr × AArr V))
    (r : Rest m' s' (alive (E.set d o))) :
    R ({ p with m := m' }.setVar d (o.map Prod.fst)) (s'.setVar d (o.map Prod.snd)) := by
  refine ⟨E.set d o, ?_, ?_, r.vars rfl rfl rfl⟩
  · simp only [St.setVar]; rw [hp, List.map_set]
  · simp only [AS.setVar]; rw [hv, hs, List.map_set]

/-- One operation. -/
theorem step_rel (w : World) (dflt : V) {p : St V} {s : AS V} (h : R p s) (op : Op V) :
    Rel R R (p.step w dflt op) (s.step w dflt op) := by
  obtain ⟨E, hp, hs, r⟩ := h
  have hlen : p.vars.length = s.vars.length := by rw [hp, hs]; simp
  have hE : E.length = p.vars.length := by rw [hp]; simp
  have hself : R p s := ⟨E, hp, hs, r⟩
  have hdead : ∀ i, p.var i = none ↔ (E[i]?).join = none := by
    intro i; rw [var_of hp]; simp
  have hdead' : ∀ i, s.var i = none ↔ (E[i]?).join = none := by
    intro i; rw [avar_of hs]; simp
  cases op with
  | make d n =>
      unfold St.step AS.step
      simp only [hdead, hdead', hlen]
      by_cases hc : (E[d]?).join = none ∧ d < s.vars.length
      · rw [if_pos hc, if_pos hc]
        have hrel := newStorage_rel w dflt n r
        revert hrel
        generalize newStorage w dflt n p.m = o
        generalize s.grow w n = q
        intro hrel
        cases o <;> cases q <;> simp only [Rel] at hrel
        · rename_i a s'
          obtain ⟨hv, hR⟩ := hrel
          exact R.put hp hs hv d (some (_, _)) ((hR n).perm (alive_put hc.1 (by omega) _))
        · simp [St.born, Out.noexcept, Rel]
        · simp [St.born, Out.noexcept, Rel]
        · simp [St.born, Out.noexcept, Rel]
      · rw [if_neg hc, if_neg hc]; exact hself
  | build d vs =>
      unfold St.step AS.step
      simp only [hdead, hdead', hlen]
      by_cases hc : (E[d]?).join = none ∧ d < s.vars.length
      · rw [if_pos hc, if_pos hc]
        have hrel := storageFrom_rel w vs r
        unfold St.born
        revert hrel
        generalize (storageFrom w vs p.m).noexcept = o
        generalize s.grow w vs.length = q
        intro hrel
        cases q with
        | ok s' =>
            cases o <;> simp only [Rel] at hrel
            rename_i a
            obtain ⟨hv, hR⟩ := hrel
            exact R.put hp hs hv d (some (_, _)) ((hR vs.length).perm (alive_put hc.1 (by omega) _))
        | threw s' =>
            dsimp only at hrel ⊢
            cases hu : w.unwinds <;> rw [hu] at hrel <;> cases o <;> simp [Rel] at hrel ⊢
        | terminate => cases o <;> simp [Rel] at hrel ⊢
        | ub => cases o <;> simp [Rel] at hrel ⊢
      · rw [if_neg hc, if_neg hc]; exact hself
  | copy d x =>
      unfold St.step AS.step
      simp only [hdead, hdead', hlen, var_of hp x, avar_of hs x]
      cases hx : (E[x]?).join with
      | none => exact hself
      | some e =>
          obtain ⟨ex, ey⟩ := e
          simp only [Option.map_some]
          by_cases hc : (E[d]?).join = none ∧ d < s.vars.length
          · rw [if_pos hc, if_pos hc]
            have hmem : (ex, ey) ∈ alive E := (alive_take hx).mem_iff.mpr (by simp)
            obtain ⟨hrel, hno⟩ := copyStorage_rel w w.unwinds hmem r
            have hlx : ex.len = ey.len := by
              obtain ⟨-, -, L, -, g⟩ := r
              exact (g.ok _ hmem).1
            by_cases hf : ey.elems ≠ [] ∧ w.oom s.blocks = false ∧ firstFail w s.tick ey.elems.length ≠ none
            · rw [if_pos hf]
              cases hu : w.unwinds with
              | false =>
                  rw [hu] at hno
                  rw [hno rfl, if_pos hf]
                  simp [St.born, Out.noexcept, Rel]
              | true =>
                  obtain ⟨f1, f2, f3⟩ := hf
                  have : s.dup w ey = .ub := by
                    unfold AS.dup
                    cases hff : firstFail w s.tick ey.elems.length with
                    | none => exact absurd hff f3
                    | some j => simp [f1, f2]
                  rw [this] at hrel
                  generalize copyStorage w true ex p.m = o at hrel
                  cases o <;> simp only [Rel] at hrel
                  simp [St.born, Out.noexcept, Rel]
            · rw [if_neg hf]
              have hcp : copyStorage w w.unwinds ex p.m = copyStorage w true ex p.m := by
                cases hu : w.unwinds with
                | true => rfl
                | false => rw [hu] at hno; rw [hno rfl, if_neg hf]
              rw [hcp]
              revert hrel
              generalize copyStorage w true ex p.m = o
              generalize s.dup w ey = q
              intro hrel
              cases o <;> cases q <;> simp only [Rel] at hrel
              · rename_i a b
                obtain ⟨hv, hl, hR⟩ := hrel
                rw [hlx]
                exact R.put hp hs hv d (some (_, _)) (hR.perm (alive_put hc.1 (by omega) _))
              · simp [St.born, Out.noexcept, Rel]
              · simp [St.born, Out.noexcept, Rel]
          · rw [if_neg hc, if_neg hc]; exact hself
  | move d x =>
      unfold St.step AS.step
      simp only [hdead, hdead', hlen, var_of hp x, avar_of hs x]
      cases hx : (E[x]?).join with
      | none => exact hself
      | some e =>
          obtain ⟨ex, ey⟩ := e
          simp only [Option.map_some]
          by_cases hc : (E[d]?).join = none ∧ d < s.vars.length
          · rw [if_pos hc, if_pos hc]
            have hdx : d ≠ x := by rintro rfl; rw [hx] at hc; cases hc.1
            have hmem : (ex, ey) ∈ alive E := (alive_take hx).mem_iff.mpr (by simp)
            have hlx : ex.len = ey.len := by
              obtain ⟨-, -, L, -, g⟩ := r
              exact (g.ok _ hmem).1
            refine ⟨(E.set d (some (ex, ey))).set x (some (⟨ex.len, none, 0⟩, ⟨ey.len, [], 0⟩)), ?_, ?_, ?_⟩
            · simp [St.setVar, hp, List.map_set]
            · simp [AS.setVar, hs, List.map_set]
            · obtain ⟨h1, h2, L, h3, g⟩ := r
              refine Rest.vars (s := s) ?_ rfl rfl rfl
              refine ⟨h1, h2, L, h3, ?_⟩
              have g2 := ((g.perm (alive_take hx).symm).cons_null ey.len 0)
              refine g2.perm ?_
              have hx' : ((E.set d (some (ex, ey)))[x]?).join = some (ex, ey) := by
                rw [List.getElem?_set_ne hdx]; exact hx
              rw [hlx]
              refine (alive_replace _ hx').trans (List.Perm.cons _ ?_)
              rw [List.set_comm _ _ hdx]
              exact alive_put (by rw [List.getElem?_set_ne (Ne.symm hdx)]; exact hc.1) (by simp; omega) _
          · rw [if_neg hc, if_neg hc]; exact hself
  | moveAssign d x =>
      unfold St.step AS.step
      simp only [var_of hp, avar_of hs]
      cases hd : (E[d]?).join with
      | none => exact hself
      | some e =>
          obtain ⟨dx, dy⟩ := e
          cases hx : (E[x]?).join with
          | none => exact hself
          | some e =>
              obtain ⟨ex, ey⟩ := e
              simp only [Option.map_some]
              obtain ⟨h1, h2, L, h3, g⟩ := r
              have hmem : (ex, ey) ∈ alive E := (alive_take hx).mem_iff.mpr (by simp)
              have hlx : ex.len = ey.len := (g.ok _ hmem).1
              obtain ⟨hp', e', g', hl'⟩ := (g.perm (alive_take hd).symm).destruct p.m.tick
              have e'' : Exc.destruct dx.data dx.size p.m = .ok ⟨hp', p.m.tick⟩ := e'
              rw [e'']
              dsimp only
              by_cases hdx : d = x
              · subst hdx
                rw [hd] at hx
                cases hx
                rw [if_pos rfl]
                refine ⟨E.set d (some (⟨dx.len, none, 0⟩, ⟨dy.len, [], 0⟩)), ?_, ?_, ?_⟩
                · simp [St.setVar, hp, List.map_set]
                · simp [AS.setVar, hs, List.map_set]
                · refine Rest.vars (s := s) ?_ rfl rfl rfl
                  refine ⟨h1, by rw [← h2, ← hl']; rfl, L, h3, ?_⟩
                  rw [hlx]
                  exact (g'.cons_null dy.len 0).perm (alive_replace _ hd)
              · rw [if_neg hdx]
                refine ⟨(E.set d (some (ex, ey))).set x (some (⟨ex.len, none, 0⟩, ⟨ey.len, [], 0⟩)), ?_, ?_, ?_⟩
                · simp [St.setVar, hp, List.map_set]
                · simp [AS.setVar, hs, List.map_set]
                · refine Rest.vars (s := s) ?_ rfl rfl rfl
                  refine ⟨h1, by rw [← h2, ← hl']; rfl, L, h3, ?_⟩
                  have hx1 : ((E.set d none)[x]?).join = some (ex, ey) := by
                    rw [List.getElem?_set_ne hdx]; exact hx
                  have g2 := ((g'.perm (alive_take hx1).symm).cons_null ey.len 0)
                  refine g2.perm ?_
                  have hx' : ((E.set d (some (ex, ey)))[x]?).join = some (ex, ey) := by
                    rw [List.getElem?_set_ne hdx]; exact hx
                  rw [hlx]
                  refine (alive_replace _ hx').trans (List.Perm.cons _ ?_)
                  rw [List.set_comm _ _ hdx, List.set_comm _ _ hdx]
                  exact alive_replace (x := (dx, dy)) _ (by rw [List.getElem?_set_ne (Ne.symm hdx)]; exact hd)
  | copyAssign d x =>
      unfold St.step AS.step
      simp only [var_of hp, avar_of hs]
      cases hd : (E[d]?).join with
      | none => exact hself
      | some e =>
          obtain ⟨dx, dy⟩ := e
          cases hx : (E[x]?).join with
          | none => exact hself
          | some e =>
              obtain ⟨ex, ey⟩ := e
              simp only [Option.map_some]
              have hmem : (ex, ey) ∈ alive E := (alive_take hx).mem_iff.mpr (by simp)
              have hlx : ex.len = ey.len := by
                obtain ⟨-, -, L, -, g⟩ := r
                exact (g.ok _ hmem).1
              have hrel := (copyStorage_rel w true hmem r).1
              unfold Exc.copyAssign
              revert hrel
              generalize copyStorage w true ex p.m = o
              generalize s.dup w ey = q
              intro hrel
              cases o <;> cases q <;> simp only [Rel] at hrel
              · rename_i a b
                obtain ⟨hv, hl, hR⟩ := hrel
                have hR2 : Rest a.2 b.2 ((⟨ey.len, a.1.1, a.1.2⟩, b.1) :: (dx, dy) :: alive (E.set d none)) :=
                  hR.perm (List.Perm.cons _ (alive_take hd).symm)
                have hR3 : Rest a.2 b.2 ((⟨ey.len, a.1.1, a.1.2⟩, b.1) :: ({ dx with len := ey.len }, { dy with len := ey.len }) :: alive (E.set d none)) := by
                  obtain ⟨h1, h2, L, h3, g⟩ := hR2
                  exact ⟨h1, h2, L, h3, ((g.perm (List.Perm.swap _ _ _)).relen ey.len).perm (List.Perm.swap _ _ _)⟩
                obtain ⟨m', e, hm⟩ := moveStorage_spec (x := { dx with len := ey.len }) hR3
                simp only [Out.bind, hlx]
                rw [e]
                exact R.put hp hs hv d (some (_, _)) (hm.perm (alive_replace _ hd))
              · simp [Out.bind, St.upd, Rel]
              · simp [Out.bind, St.upd, Rel]
  | assign d vs =>
      unfold St.step AS.step
      simp only [var_of hp, avar_of hs]
      cases hd : (E[d]?).join with
      | none => exact hself
      | some e =>
          obtain ⟨dx, dy⟩ := e
          simp only [Option.map_some]
          have r0 := r.perm (alive_take hd).symm
          have hrel := resize_rel w dflt vs.length r0
          unfold assignExpr
          have key : ∀ (o : Out (Arr × M V)) (s0 : AS V) (y0 : AArr V), y0.len = vs.length → y0.null = 0 → y0.elems.length = vs.length →
              Rel (fun (a : Arr × M V) (b : AArr V × AS V) => b.2.vars = s.vars ∧ Rest a.2 b.2 ((a.1, b.1) :: alive (E.set d none)))
                (fun a b => b.2.vars = s.vars ∧ Rest a.2 b.2 ((a.1, b.1) :: alive (E.set d none))) o (.ok (y0, s0)) →
              Rel R R (p.upd d (Out.noexcept (o.bind id fun r =>
                (assignElems w r.1.data vs 0 r.2).bind (fun m => (r.1, m)) fun m => .ok (r.1, m))))
                (match s0.touch w vs.length vs.length with
                  | .ok s => .ok (s.setVar d (some ⟨vs.length, vs, 0⟩))
                  | .threw _ => .terminate
                  | .terminate => .terminate
                  | .ub => .ub) := by
            intro o s0 y0 hy1 hy2 hy3 hR
            cases o <;> simp only [Rel] at hR
            rename_i a
            obtain ⟨hv, hR⟩ := hR
            have hr2 := assignElems_rel w vs hR
            simp only [Out.bind]
            rw [hy3] at hr2
            revert hr2
            generalize assignElems w a.1.data vs 0 a.2 = o2
            generalize s0.touch w vs.length vs.length = q2
            intro hr2
            cases o2 <;> cases q2 <;> simp only [Rel, Out.noexcept] at hr2
            · rename_i a2 s2
              obtain ⟨hv2, hR2⟩ := hr2
              simp only [Out.noexcept, St.upd]
              refine R.put hp hs (hv2.trans hv) d (some (a.1, ⟨vs.length, vs, 0⟩)) ?_
              refine Rest.perm ?_ (alive_replace _ hd)
              have hdrop : List.drop vs.length y0.elems = [] := List.drop_eq_nil_of_le (by omega)
              rw [hdrop, List.append_nil] at hR2
              obtain ⟨yl, ye, yn⟩ := y0
              dsimp only at hy1 hy2 hR2
              subst hy1 hy2
              exact hR2
            · simp [Out.bind, Out.noexcept, St.upd, Rel]
            · simp [Out.bind, Out.noexcept, St.upd, Rel]
            · simp [Out.bind, Out.noexcept, St.upd, Rel]
          by_cases hnd : AS.needs dy vs.length = true
          · rw [if_pos hnd] at hrel ⊢
            cases hq : s.grow w vs.length with
            | ok s' =>
                rw [hq] at hrel
                exact key _ s' _ rfl rfl (by simp) hrel
            | threw s' =>
                rw [hq] at hrel
                generalize resize w dflt dx vs.length p.m = o at hrel
                cases o <;> simp only [Rel] at hrel
                simp [Out.bind, Out.noexcept, St.upd, Rel]
            | terminate =>
                rw [hq] at hrel
                generalize resize w dflt dx vs.length p.m = o at hrel
                cases o <;> simp only [Rel] at hrel
                simp [Out.bind, Out.noexcept, St.upd, Rel]
            | ub =>
                rw [hq] at hrel
                generalize resize w dflt dx vs.length p.m = o at hrel
                cases o <;> simp only [Rel] at hrel
                simp [Out.bind, Out.noexcept, St.upd, Rel]
          · rw [if_neg hnd] at hrel ⊢
            have hdy : dy.elems ≠ [] ∧ dy.elems.length = vs.length := by
              simpa [AS.needs] using hnd
            have hnull : dy.null = 0 := by
              rcases r0.arr.2 with ⟨-, a2, -⟩ | ⟨b, -, a2, -⟩
              · exact absurd a2 hdy.1
              · exact a2
            exact key _ s { dy with len := vs.length } rfl hnull hdy.2 hrel
  | fill d v =>
      unfold St.step AS.step
      simp only [var_of hp, avar_of hs]
      cases hd : (E[d]?).join with
      | none => exact hself
      | some e =>
          obtain ⟨dx, dy⟩ := e
          simp only [Option.map_some]
          have r0 := r.perm (alive_take hd).symm
          have hl : dx.len = dy.len := r0.arr.1
          have hrel := assignElems_rel w (List.replicate dy.len v) r0
          rw [List.length_replicate] at hrel
          unfold assignScalar
          rw [hl]
          revert hrel
          generalize assignElems w dx.data (List.replicate dy.len v) 0 p.m = o
          generalize s.touch w dy.len dy.elems.length = q
          intro hrel
          cases o <;> cases q <;> simp only [Rel, Out.noexcept] at hrel
          · rename_i a s'
            obtain ⟨hv, hR⟩ := hrel
            exact R.put hp hs hv d (some (_, _)) (hR.perm (alive_replace _ hd))
          · simp [Out.bind, Out.noexcept, St.upd, Rel]
          · simp [Out.bind, Out.noexcept, St.upd, Rel]
          · simp [Out.bind, Out.noexcept, St.upd, Rel]
  | resize d n =>
      unfold St.step AS.step
      simp only [var_of hp, avar_of hs]
      cases hd : (E[d]?).join with
      | none => exact hself
      | some e =>
          obtain ⟨dx, dy⟩ := e
          simp only [Option.map_some]
          have r0 := r.perm (alive_take hd).symm
          have hrel := resize_rel w dflt n r0
          revert hrel
          generalize Exc.resize w dflt dx n p.m = o
          intro hrel
          by_cases hnd : AS.needs dy n = true
          · rw [if_pos hnd] at hrel ⊢
            generalize s.grow w n = q at hrel
            cases o <;> cases q <;> simp only [Rel] at hrel
            · exact R.put hp hs hrel.1 d (some (_, _)) (hrel.2.perm (alive_replace _ hd))
            · exact R.put hp hs hrel.1 d (some (_, _)) (hrel.2.perm (alive_replace _ hd))
            · simp [St.upd, Rel]
            · simp [St.upd, Rel]
          · rw [if_neg hnd] at hrel ⊢
            cases o <;> simp only [Rel] at hrel
            exact R.put hp hs rfl d (some (_, _)) (hrel.2.perm (alive_replace _ hd))
  | read d i =>
      unfold St.step AS.step
      simp only [var_of hp, avar_of hs]
      cases hd : (E[d]?).join with
      | none => exact hself
      | some e =>
          obtain ⟨dx, dy⟩ := e
          simp only [Option.map_some]
          have ha := (r.perm (alive_take hd).symm).arr
          rw [ha.1]
          by_cases hi : i < dy.len
          · rw [if_pos hi, if_pos hi]
            rcases ha.2 with ⟨a1, a2, -⟩ | ⟨b, a1, a2, a3, a4, a5⟩
            · rw [a1, a2]; simp [Rel]
            · have hrd : p.m.hp.read b i = dy.elems[i]? := by
                simp only [Heap.read, Heap.live, a5]
                simp only [Option.bind_eq_bind, Option.bind_some, Bool.false_eq_true, if_false, Option.pure_def, List.getElem?_map]
                cases dy.elems[i]? <;> rfl
              rw [a1]
              simp only [Option.bind_some, hrd]
              by_cases hi2 : i < dy.elems.length
              · rw [List.getElem?_eq_getElem hi2, if_pos hi2]; exact hself
              · rw [List.getElem?_eq_none (by omega), if_neg hi2]; trivial
          · rw [if_neg hi, if_neg hi]; exact hself
  | destroy d =>
      unfold St.step AS.step
      simp only [var_of hp, avar_of hs]
      cases hd : (E[d]?).join with
      | none => exact hself
      | some e =>
          obtain ⟨dx, dy⟩ := e
          simp only [Option.map_some]
          obtain ⟨h1, h2, L, h3, g⟩ := r
          obtain ⟨hp', e', g', hl'⟩ := (g.perm (alive_take hd).symm).destruct p.m.tick
          have e'' : Exc.destruct dx.data dx.size p.m = .ok ⟨hp', p.m.tick⟩ := e'
          rw [e'']
          exact R.put hp hs rfl d none ⟨h1, by rw [← h2, ← hl'], L, h3, g'⟩

/-- Programs. -/
theorem run_rel (w : World) (dflt : V) {p : St V} {s : AS V} (h : R p s) (ops : List (Op V)) :
    Rel (fun (a : St V × List Bool) (b : AS V × List Bool) => R a.1 b.1 ∧ a.2 = b.2) (fun _ _ => False)
      (p.run w dflt ops) (s.run w dflt ops) := by
  induction ops generalizing p s with
  | nil => exact ⟨h, rfl⟩
  | cons op ops ih =>
      have h1 := step_rel w dflt h op
      unfold St.run AS.run
      generalize p.step w dflt op = o at h1
      generalize s.step w dflt op = q at h1
      cases o <;> cases q <;> simp only [Rel] at h1
      · rename_i a b
        have h2 := ih h1
        dsimp only
        generalize a.run w dflt ops = o2 at h2
        generalize b.run w dflt ops = q2 at h2
        cases o2 <;> cases q2 <;> simp only [Rel] at h2
        · exact ⟨h2.1, by rw [h2.2]⟩
        · trivial
        · trivial
      · rename_i a b
        have h2 := ih h1
        dsimp only
        generalize a.run w dflt ops = o2 at h2
        generalize b.run w dflt ops = q2 at h2
        cases o2 <;> cases q2 <;> simp only [Rel] at h2
        · exact ⟨h2.1, by rw [h2.2]⟩
        · trivial
        · trivial
      · trivial
      · trivial

end Nda.Exc
