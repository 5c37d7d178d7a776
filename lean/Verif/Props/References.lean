import Verif.Lemmas.ReferencesStep
/-!
# C96: views are references, valid as long as an array has their storage
-/
namespace Nda.Arr
open Nda Nda.Mem Nda.Spec Spec Nda.Mem.Spec Loops Nda.Perm LayoutTransforms Nda.IdxMap

variable {V : Type}

/-- **C96** Any program of the statements of C95 and of views that are made from arrays and from views, copied, rebound, swapped, read in right-hand sides and
assigned to at any later time, on any number of arrays of any rank, shape and stride order, and any number of views, runs without a memory error, and its memory
represents what the same program does to values and references: elements of views are the elements of arrays they were made from, also after moves. -/
theorem C96_references (triv : Bool) (dflt : V) (so : Nat → List Nat) (hso : ∀ i, IsPerm (so i)) (hne : ∀ i, so i ≠ []) (n : Nat) (ops : List (ROp V))
    (h : World.AllowedRun triv dflt so (World.start n) ops) :
    ∃ P, (RProg.start n).run triv dflt so ops = some P ∧ RRepresents P (World.final triv dflt (rankOf so) (World.start n) ops) := by
  obtain ⟨P, h1, h2⟩ := RInv.run dflt hso hne (RInv.start triv so n) h
  exact ⟨P, h1, h2.represents⟩

/-! ### How long views are valid -/

/-- **C96** After any program: one more statement on arrays.  A view of storage that array `d` has now is afterwards a view of the storage of the array that
took it over (`origin`), and of released memory if there is none: then no element can be read, and an assignment of one or more elements to it is an error. -/
theorem C96_lifetime (triv : Bool) (dflt : V) (so : Nat → List Nat) (hso : ∀ i, IsPerm (so i)) (hne : ∀ i, so i ≠ []) (n : Nat) (ops : List (ROp V))
    (S : World V) (hS : S = World.final triv dflt (rankOf so) (World.start n) ops) (h : World.AllowedRun triv dflt so (World.start n) ops)
    (op : VOp V) (hop : VAllowed so S.vals op) (w d : Nat) (r : RefVal) (hw : S.refs w = some r) (hd : S.owner r.id = some d) :
    ∃ P P', (RProg.start n).run triv dflt so ops = some P ∧ P.step triv dflt so (.plain op) = some P' ∧ P'.refs w = P.refs w ∧
      (∀ j x, origin S.vals op j = some d → (vnext triv dflt (rankOf so) S.vals op).get j = some x → x.shape = r.shape →
        ∀ idx, InRange r.ext idx → P'.elem w idx = P'.p.elem j (sourceChain r.shape.length r.ops idx)) ∧
      ((∀ j, origin S.vals op j = some d → (vnext triv dflt (rankOf so) S.vals op).get j = none) →
        (∀ idx, P'.elem w idx = none) ∧
        ∀ rhs ext, box ext ≠ [] → r.ext = ext → P'.step triv dflt so (.putRef w ext rhs) = none) := by
  subst hS
  obtain ⟨P, h1, i⟩ := RInv.run dflt hso hne (RInv.start triv so n) h
  obtain ⟨P', h2, i'⟩ := i.step dflt hso hne (.plain op) hop
  obtain ⟨R, q, m, hR, k⟩ := i'.ok w r hw
  obtain ⟨⟨z, hz⟩, hid⟩ := World.owner_some hd
  have hrefs : P'.refs w = P.refs w := by
    simp only [RProg.step, Option.bind_eq_bind] at h2
    obtain ⟨p, -, e⟩ := Option.bind_eq_some_iff.mp h2
    cases e; rfl
  refine ⟨P, P', h1, h2, hrefs, fun j x ho hx hsh idx hi => ?_, fun hn => ?_⟩
  · have hidj : (World.next' triv dflt (rankOf so) (World.final triv dflt (rankOf so) (World.start n) ops) (.plain op)).ids j = r.id := by
      simp only [World.next', World.stmt, ho]; exact hid
    rw [RProg.elem, hR, Option.bind_some, k.elem i'.v hx hidj hsh hi]; rfl
  · have ho : (World.next' triv dflt (rankOf so) (World.final triv dflt (rankOf so) (World.start n) ops) (.plain op)).owner r.id = none := by
      cases e : (World.next' triv dflt (rankOf so) (World.final triv dflt (rankOf so) (World.start n) ops) (.plain op)).owner r.id with
      | none => rfl
      | some j =>
          exfalso
          obtain ⟨⟨y, hy⟩, e2⟩ := World.owner_some e
          simp only [World.next', World.stmt] at hy e2
          cases hoj : origin (World.final triv dflt (rankOf so) (World.start n) ops).vals op j with
          | none =>
              rw [hoj] at e2
              obtain ⟨R0, _, _, -, k0⟩ := i.ok w r hw
              have := k0.old
              simp only at e2; omega
          | some l =>
              rw [hoj] at e2
              obtain ⟨p', hp', -⟩ := i.v.step dflt hso hne op hop
              obtain ⟨y', hl, -⟩ := (i.v.tracks dflt hso hop hp').old j l y hy hoj
              have : l = d := i.inj l d y' z hl hz (e2.trans hid.symm)
              subst this
              rw [hn j hoj] at hy; cases hy
    refine ⟨fun idx => ?_, fun rhs ext hb he => ?_⟩
    · have := i'.represents.2 w
      rw [show (World.next' triv dflt (rankOf so) (World.final triv dflt (rankOf so) (World.start n) ops) (.plain op)).refs w = some r from hw] at this
      exact this.2 ho idx
    · have hdead := i'.dangling (w := w) hw hR ho
      obtain ⟨v, r1, r2, r3⟩ := run_wf (v := ⟨0, m⟩) k.wf (by rw [k.len]; exact k.allowed)
      rw [k.view] at r1; cases r1
      simp only [k.len] at r2
      have hlen : R.view.lay.len = r.ext := Programs.chainShape_unique k.allowed r2 k.ext
      simp only [RProg.step, hR, Option.bind_eq_bind]
      suffices hs : RProg.putInto triv P'.p.prog R (P'.access rhs) = none by rw [hs]; rfl
      rw [RProg.putInto, forEach_eq, hlen, he]
      obtain ⟨i0, tl, hbx⟩ := List.exists_cons_of_ne_nil hb
      rw [hbx, List.foldlM_cons]
      simp only [Option.bind_eq_bind]
      cases P'.access rhs i0 P'.p.prog.mem.hp with
      | none => rfl
      | some v =>
          simp only [Option.bind_some]
          cases R.view.lay.call (i0.map .idx) with
          | none => rfl
          | some c =>
              simp only [Option.bind_some, RProg.writeRef, Option.bind_eq_bind]
              cases hbk : R.blk with
              | none => rfl
              | some b =>
                  simp only [Option.bind_some]
                  split
                  · rfl
                  · simp only [Heap.write, hdead b hbk, Option.bind_eq_bind, Option.bind_none]

/-- **C96** Copy assignment always gives the array new storage (also `a = a`, and also when the shapes are equal): all views of the old one are invalid. -/
theorem C96_copy_assignment_invalidates (triv : Bool) (dflt : V) (so : Nat → List Nat) (hso : ∀ i, IsPerm (so i)) (hne : ∀ i, so i ≠ []) (n : Nat) (ops : List (ROp V))
    (S : World V) (hS : S = World.final triv dflt (rankOf so) (World.start n) ops) (h : World.AllowedRun triv dflt so (World.start n) ops)
    (w d : Nat) (r : RefVal) (hw : S.refs w = some r) (hd : S.owner r.id = some d)
    (s : Nat) (hs : S.vals.get s ≠ none) (hso' : so d = so s) :
    ∃ P P', (RProg.start n).run triv dflt so ops = some P ∧ P.step triv dflt so (.plain (.copyAssign d s)) = some P' ∧ ∀ idx, P'.elem w idx = none := by
  obtain ⟨P, P', h1, h2, -, -, h5⟩ := C96_lifetime triv dflt so hso hne n ops S hS h (.copyAssign d s) hso' w d r hw hd
  refine ⟨P, P', h1, h2, (h5 fun j hj => ?_).1⟩
  simp only [origin] at hj
  split at hj
  · cases hj
  · rename_i hc
    cases hj
    exact absurd ⟨hs, rfl⟩ hc

/-- **C96** Assignment of an expression of the same shape keeps the storage: views stay valid and show the new elements. -/
theorem C96_expression_assignment_keeps (triv : Bool) (dflt : V) (so : Nat → List Nat) (hso : ∀ i, IsPerm (so i)) (hne : ∀ i, so i ≠ []) (n : Nat) (ops : List (ROp V))
    (S : World V) (hS : S = World.final triv dflt (rankOf so) (World.start n) ops) (h : World.AllowedRun triv dflt so (World.start n) ops)
    (w d : Nat) (r : RefVal) (hw : S.refs w = some r) (hd : S.owner r.id = some d)
    (x : Val V) (hx : S.vals.get d = some x) (hm : x.moved = false) (hsh : x.shape = r.shape) (rhs : List Int → Comp V)
    (ha : VAllowed so S.vals (.assign d r.shape rhs)) :
    ∃ P P', (RProg.start n).run triv dflt so ops = some P ∧ P.step triv dflt so (.plain (.assign d r.shape rhs)) = some P' ∧
      ∀ idx, InRange r.ext idx → P'.elem w idx = P'.p.elem d (sourceChain r.shape.length r.ops idx) := by
  obtain ⟨P, P', h1, h2, -, h4, -⟩ := C96_lifetime triv dflt so hso hne n ops S hS h (.assign d r.shape rhs) ha w d r hw hd
  have hk : KeepsSize (S.vals.get d) r.shape := by rw [hx]; exact ⟨hm, by rw [hsh]⟩
  have hl : d < S.vals.length := by
    by_contra hc
    rw [Vals.get, List.getElem?_eq_none (by omega)] at hx; cases hx
  have hget : (vnext triv dflt (rankOf so) S.vals (.assign d r.shape rhs)).get d =
      some ⟨r.shape, false, fun idx => (rhs idx).eval (S.vals.eltAssign d r.shape idx)⟩ := by
    simp only [vnext, Vals.upd, hx]
    exact set_get_self hl _
  refine ⟨P, P', h1, h2, ?_⟩
  cases hg : (vnext triv dflt (rankOf so) S.vals (.assign d r.shape rhs)).get d with
  | none =>
      rw [hget] at hg; cases hg
  | some y =>
      refine h4 d y (by simp only [origin]; rw [if_neg (fun hc => hc.2 hk)]) hg ?_
      rw [hget] at hg; cases hg; rfl

/-- **C96** Move assignment passes the storage on: views of the array that is moved from become views of the target, views of the old storage of the target are
invalid. -/
theorem C96_moves_take_views_along (triv : Bool) (dflt : V) (so : Nat → List Nat) (hso : ∀ i, IsPerm (so i)) (hne : ∀ i, so i ≠ []) (n : Nat) (ops : List (ROp V))
    (S : World V) (hS : S = World.final triv dflt (rankOf so) (World.start n) ops) (h : World.AllowedRun triv dflt so (World.start n) ops)
    (w d : Nat) (r : RefVal) (hw : S.refs w = some r) (hd : S.owner r.id = some d)
    (t : Nat) (y : Val V) (hy : S.vals.get t = some y) (hne' : t ≠ d) (hso' : so t = so d) (x : Val V) (hx : S.vals.get d = some x) (hsh : x.shape = r.shape)
    (w' : Nat) (r' : RefVal) (hw' : S.refs w' = some r') (hd' : S.owner r'.id = some t) :
    ∃ P P', (RProg.start n).run triv dflt so ops = some P ∧ P.step triv dflt so (.plain (.moveAssign t d)) = some P' ∧
      (∀ idx, InRange r.ext idx → P'.elem w idx = P'.p.elem t (sourceChain r.shape.length r.ops idx)) ∧ ∀ idx, P'.elem w' idx = none := by
  obtain ⟨P, P', h1, h2, -, h4, -⟩ := C96_lifetime triv dflt so hso hne n ops S hS h (.moveAssign t d) hso' w d r hw hd
  obtain ⟨Q, Q', g1, g2, -, -, g5⟩ := C96_lifetime triv dflt so hso hne n ops S hS h (.moveAssign t d) hso' w' t r' hw' hd'
  rw [h1] at g1; cases g1
  rw [h2] at g2; cases g2
  have hor : ∀ j, origin S.vals (.moveAssign t d) j = if j = d then none else if j = t then some d else some j := by
    intro j
    simp only [origin]
    rw [if_pos ⟨by rw [hy]; simp, by rw [hx]; simp⟩]
  refine ⟨P, P', h1, h2, ?_, (g5 fun j hj => ?_).1⟩
  · refine h4 t x (by rw [hor, if_neg hne', if_pos rfl]) ?_ hsh
    have hl : t < S.vals.length := by
      by_contra hc
      rw [Vals.get, List.getElem?_eq_none (by omega)] at hy; cases hy
    simp only [vnext, hx, hy]
    rw [if_neg (by simp), set_get_ne hne', set_get_self hl]
  · rw [hor] at hj
    split at hj
    · cases hj
    · split at hj
      · cases hj; exact absurd rfl hne'
      · cases hj; rename_i hc; exact absurd rfl hc

/-! ### A program -/

/-- Array 1 is a vector, the others are matrices. -/
def mixedRefs : Nat → List Nat
  | 1 => [0]
  | _ => [0, 1]

/-- `a(i, j) = 10 i + j` of shape (2, 3); `w0 = a(1, :)`; `w1 = w0(0:3:2)`; `w0 *= 2`; `v = w1`; `b = move(a)`; `w1(i) = w0(1) + v(i)`; `swap(w0, w1)`. -/
def demoRefs : List (ROp Int) :=
  [.build 0 [2, 3] (fun idx => .ret (10 * idx.headD 0 + idx.getD 1 0)),
   .bind 0 0 [.slice [.idx 1, .all]] [3],
   .sub 1 0 [.slice [.rng 0 3 2]] [2],
   .putRef 0 [3] (fun idx => .ref 0 idx fun u => .ret (2 * u)),
   .build 1 [2] (fun idx => .ref 1 idx .ret),
   .plain (.move 2 0),
   .putRef 1 [2] (fun idx => .ref 0 [1] fun u => .arr 1 idx fun v => .ret (u + v)),
   .swap 0 1]

theorem demoRefs_allowed : World.AllowedRun true (0 : Int) mixedRefs (World.start 3) demoRefs := by
  have two : ∀ idx, InRange [2] idx → idx ∈ box [2] := fun idx h => mem_box.mpr h
  have three : ∀ idx, InRange [3] idx → idx ∈ box [3] := fun idx h => mem_box.mpr h
  have c1 : ChainAllowed [2, 3] [.slice [.idx 1, .all]] ∧ ChainShape [2, 3] [.slice [.idx 1, .all]] [3] :=
    ⟨chainAllowed_cons (len' := [3]) ⟨by decide, by decide, ⟨⟨by decide, by decide⟩, trivial, trivial⟩⟩ ⟨rfl, trivial⟩ trivial, ⟨[3], ⟨rfl, trivial⟩, rfl⟩⟩
  have hcount : IsCount 0 (stop 3 2 3) 2 2 := by
    refine ⟨by decide, by decide, fun k hk => ?_⟩
    simp [stop]; omega
  have c2 : ChainAllowed [3] [.slice [.rng 0 3 2]] ∧ ChainShape [3] [.slice [.rng 0 3 2]] [2] := by
    refine ⟨chainAllowed_cons (len' := [2]) ⟨by decide, by decide, ⟨by decide, fun k n hn h0 h1 => ?_⟩, trivial⟩ ⟨hcount, trivial⟩ trivial, ⟨[2], ⟨hcount, trivial⟩, rfl⟩⟩
    have := (hn.2.2 k h0).mp h1
    simp [stop] at this; omega
  have c12 : ChainAllowed [2, 3] ([.slice [.idx 1, .all]] ++ [.slice [.rng 0 3 2]]) ∧ ChainShape [2, 3] ([.slice [.idx 1, .all]] ++ [.slice [.rng 0 3 2]]) [2] :=
    ⟨chainAllowed_append c1.1 (fun mid hm => by rw [Programs.chainShape_unique c1.1 hm c1.2]; exact c2.1), chainShape_append c1.2 c2.2⟩
  refine ⟨⟨⟨rfl, by decide⟩, fun idx _ => rfl⟩, fun x hx => ?_, fun r hr => ?_, fun r hr => ?_, ⟨⟨rfl, by decide⟩, fun idx hi => ?_⟩, rfl, fun r hr => ?_, trivial, trivial⟩
  · cases hx; exact c1
  · cases hr; exact c2
  · cases hr
    refine ⟨0, _, rfl, rfl, rfl, fun x hx => ?_⟩
    cases hx
    refine ⟨rfl, c1.1, c1.2, fun idx hi => ?_⟩
    have := three idx hi
    clear hi; revert idx; decide +kernel
  · have := two idx hi
    clear hi; revert idx; decide +kernel
  · cases hr
    refine ⟨2, _, rfl, rfl, rfl, fun x hx => ?_⟩
    cases hx
    refine ⟨rfl, c12.1, c12.2, fun idx hi => ?_⟩
    have := two idx hi
    clear hi; revert idx; decide +kernel

example : ∃ P, (RProg.start 3).run true (0 : Int) mixedRefs demoRefs = some P ∧ RRepresents P (World.final true 0 (rankOf mixedRefs) (World.start 3) demoRefs) :=
  C96_references true 0 mixedRefs (fun i => by unfold mixedRefs; split <;> decide) (fun i => by unfold mixedRefs; split <;> decide) 3 demoRefs demoRefs_allowed

/-- What it computes: array 2 is `0 1 2 / 42 22 46`, the views (swapped) are `42 46` and `42 22 46`; array 0 has no elements left. -/
example : (((RProg.start 3).run true (0 : Int) mixedRefs demoRefs).bind fun P => (tuples [2, 3]).mapM (P.p.elem 2)) = some [0, 1, 2, 42, 22, 46] ∧
    (((RProg.start 3).run true (0 : Int) mixedRefs demoRefs).bind fun P => (tuples [2]).mapM (P.elem 0)) = some [42, 46] ∧
    (((RProg.start 3).run true (0 : Int) mixedRefs demoRefs).bind fun P => (tuples [3]).mapM (P.elem 1)) = some [42, 22, 46] ∧
    (((RProg.start 3).run true (0 : Int) mixedRefs demoRefs).bind fun P => P.p.elem 0 [0, 0]) = none := by
  refine ⟨?_, ?_, ?_, ?_⟩ <;> decide +kernel

/-- The views are gone after `b = b`, and follow `b` to `a` when it is moved back. -/
example : (∃ P P', (RProg.start 3).run true (0 : Int) mixedRefs demoRefs = some P ∧ P.step true 0 mixedRefs (.plain (.copyAssign 2 2)) = some P' ∧ ∀ idx, P'.elem 0 idx = none) ∧
    (((RProg.start 3).run true (0 : Int) mixedRefs (demoRefs ++ [.plain (.moveAssign 0 2)])).bind fun P => (tuples [2]).mapM (P.elem 0)) = some [42, 46] := by
  refine ⟨C96_copy_assignment_invalidates true 0 mixedRefs (fun i => by unfold mixedRefs; split <;> decide) (fun i => by unfold mixedRefs; split <;> decide) 3 demoRefs _ rfl
    demoRefs_allowed 0 2 _ rfl rfl 2 ?_ rfl, by decide +kernel⟩
  exact fun h => by cases h

/-- `b = 7` everywhere, as an expression: the views stay valid. -/
example : ∃ P P', (RProg.start 3).run true (0 : Int) mixedRefs demoRefs = some P ∧ P.step true 0 mixedRefs (.plain (.assign 2 [2, 3] (fun _ => .ret 7))) = some P' ∧
    ∀ idx, InRange [2] idx → P'.elem 0 idx = P'.p.elem 2 (sourceChain 2 [.slice [.idx 1, .all], .slice [.rng 0 3 2]] idx) :=
  C96_expression_assignment_keeps true 0 mixedRefs (fun i => by unfold mixedRefs; split <;> decide) (fun i => by unfold mixedRefs; split <;> decide) 3 demoRefs _ rfl
    demoRefs_allowed 0 2 ⟨0, [2, 3], [.slice [.idx 1, .all], .slice [.rng 0 3 2]], [2]⟩ rfl rfl _ rfl rfl rfl _ ⟨⟨rfl, by decide⟩, fun _ _ => rfl⟩

/-- `a` and `b` of shape (2, 3), `w0` a row of `a`, `w1` a row of `b`. -/
def demoTwo : List (ROp Int) :=
  [.build 0 [2, 3] (fun idx => .ret (10 * idx.headD 0 + idx.getD 1 0)),
   .build 2 [2, 3] (fun _ => .ret 5),
   .bind 0 0 [.slice [.idx 1, .all]] [3],
   .bind 1 2 [.slice [.idx 1, .all]] [3]]

theorem demoTwo_allowed : World.AllowedRun true (0 : Int) mixedRefs (World.start 3) demoTwo := by
  have c1 : ChainAllowed [2, 3] [.slice [.idx 1, .all]] ∧ ChainShape [2, 3] [.slice [.idx 1, .all]] [3] :=
    ⟨chainAllowed_cons (len' := [3]) ⟨by decide, by decide, ⟨⟨by decide, by decide⟩, trivial, trivial⟩⟩ ⟨rfl, trivial⟩ trivial, ⟨[3], ⟨rfl, trivial⟩, rfl⟩⟩
  exact ⟨⟨⟨rfl, by decide⟩, fun idx _ => rfl⟩, ⟨⟨rfl, by decide⟩, fun idx _ => rfl⟩, fun x hx => by cases hx; exact c1, fun x hx => by cases hx; exact c1, trivial⟩

/-- After `b = move(a)`, `w0` is a row of `b` and `w1` is invalid. -/
example : ∃ P P', (RProg.start 3).run true (0 : Int) mixedRefs demoTwo = some P ∧ P.step true 0 mixedRefs (.plain (.moveAssign 2 0)) = some P' ∧
    (∀ idx, InRange [3] idx → P'.elem 0 idx = P'.p.elem 2 (sourceChain 2 [.slice [.idx 1, .all]] idx)) ∧ ∀ idx, P'.elem 1 idx = none :=
  C96_moves_take_views_along true 0 mixedRefs (fun i => by unfold mixedRefs; split <;> decide) (fun i => by unfold mixedRefs; split <;> decide) 3 demoTwo _ rfl
    demoTwo_allowed 0 0 ⟨0, [2, 3], [.slice [.idx 1, .all]], [3]⟩ rfl rfl 2 _ rfl (by decide) rfl _ rfl rfl 1 ⟨1, [2, 3], [.slice [.idx 1, .all]], [3]⟩ rfl rfl

/-- After `a.resize(2, 3)`, which allocates nothing as the size is the same, `w0` is still a row of `a`. -/
example := C96_lifetime true 0 mixedRefs (fun i => by unfold mixedRefs; split <;> decide) (fun i => by unfold mixedRefs; split <;> decide) 3 demoTwo _ rfl demoTwo_allowed
  (.resize 0 [2, 3]) ⟨rfl, by decide⟩ 0 0 ⟨0, [2, 3], [.slice [.idx 1, .all]], [3]⟩ rfl rfl

end Nda.Arr
