import Verif.Lemmas.Convert
/-!
# C89: converting arrays between heap, shared, small-buffer and stack storage keeps the elements
-/
namespace Nda.Mem

variable {V : Type} {triv : Bool} {w : World V}

open Spec

theorem elems_s {K : Nat} {a : Vals V} (r : SProg.Rep triv K (w.s K) a) (i : Nat) : elems w (.s K i) = (a.get i).map (List.map some) := by
  cases hv : (w.s K).var i with
  | none => rw [r.dead hv]; simp [elems, World.size, hv]
  | some x =>
      obtain ⟨l, hl, ho⟩ := r.alive hv
      rw [hl]
      exact elems_eq (n := x.size) (by simp [World.size, hv]) ho.size.symm (fun j hj => ho.cell hv (by rw [← ho.size]; exact hj))

theorem elems_k {N : Nat} (ok : StackH.Ok triv N (w.k N)) (i : Nat) : elems w (.k N i) = (StackH.var (w.k N) i).map (List.map some) := by
  cases hv : StackH.var (w.k N) i with
  | none => simp [elems, World.size, hv]
  | some x =>
      exact elems_eq (n := N) (by simp [World.size, hv]) (ok i x hv).1 (fun j hj => by simp [World.cell, hv])

/-- The elements of a heap or shared handle depend on the handle and its block only. -/
theorem elems_h_congr {w' : World V} {i j : Nat} (hv : w'.h.var j = w.h.var i)
    (hb : ∀ x b, w.h.var i = some x → x.data = some b → w'.h.mem.hp[b]? = w.h.mem.hp[b]?) : elems w' (.h j) = elems w (.h i) := by
  unfold elems
  simp only [World.size, hv]
  cases h : w.h.var i with
  | none => rfl
  | some x =>
      simp only [Option.map_some, Option.some.injEq]
      refine List.map_congr_left fun k _ => ?_
      simp only [World.cell, hv, h, Option.bind_eq_bind, Option.bind_some]
      cases hd : x.data with
      | none => rfl
      | some b => simp only [Option.bind_some, Heap.live, hb x b h hd]

theorem elems_s_congr {w' : World V} {K i : Nat} (h : w'.s K = w.s K) : elems w' (.s K i) = elems w (.s K i) := by
  have : w'.cell (.s K i) = w.cell (.s K i) := by funext j; simp [World.cell, h]
  simp [elems, World.size, this, h]

theorem elems_k_congr {w' : World V} {N i : Nat} (h : w'.k N = w.k N) : elems w' (.k N i) = elems w (.k N i) := by
  have : w'.cell (.k N i) = w.cell (.k N i) := by funext j; simp [World.cell, h]
  simp [elems, World.size, this, h]

/-- A usable variable refers to a block that exists. -/
theorem WInv.block_lt (o : WInv triv w) {i b : Nat} {x : Handle} (hu : Usable w (.h i)) (hx : w.h.var i = some x) (hb : x.data = some b) :
    b < w.h.mem.hp.length := by
  obtain ⟨cells, hl, -⟩ := o.h.handle_live (Prog.mem_handles hx) (usable_handle hu hx) hb
  exact Heap.lt_of_live hl

/-- The other variables are as before. -/
def Keeps (w w' : World V) (x : Obj) : Prop := ∀ o, o ≠ x → Usable w o → Usable w' o ∧ elems w' o = elems w o

theorem setVar_getElem?_ne {p : Prog V} {d i : Nat} (h : i ≠ d) (m : Mem V) (x : Option Handle) :
    (({ p with mem := m } : Prog V).setVar d x).vars[i]? = p.vars[i]? := by
  simp [Prog.setVar, List.getElem?_set_ne (Ne.symm h)]

theorem var_of_vars {p q : Prog V} {i : Nat} (h : p.vars[i]? = q.vars[i]?) : p.var i = q.var i := by simp [Prog.var, h]

/-- Changes of blocks of no other variable do not change anything for the others. -/
theorem keeps_setH {d : Nat} {m : Mem V} {x : Option Handle}
    (hm : ∀ i y b, i ≠ d → Usable w (.h i) → w.h.var i = some y → y.data = some b → m.hp[b]? = w.h.mem.hp[b]?) :
    Keeps w (w.setH ({ w.h with mem := m }.setVar d x)) (.h d) := by
  intro ob hne hu
  cases ob with
  | s K i => exact ⟨trivial, elems_s_congr rfl⟩
  | k N i => exact ⟨trivial, elems_k_congr rfl⟩
  | h i =>
      have hi : i ≠ d := fun h => hne (by rw [h])
      have hv := setVar_getElem?_ne (p := w.h) hi m x
      exact ⟨fun y n e => hu y n (hv.symm.trans e), elems_h_congr (var_of_vars hv) fun y b hy hb => hm i y b hi hu hy hb⟩

/-- A handle made with the elements `l`: null, or the owner of a new block. -/
def MadeOf (m : Mem V) (l : List (Option V)) (x : Handle) (m' : Mem V) : Prop :=
  (l = [] ∧ x = Handle.null ∧ m' = m) ∨ (l ≠ [] ∧ x = .heap (some m.hp.length) l.length none ∧ m' = { m with hp := m.hp ++ [⟨l, false⟩] })

theorem MadeOf.hp {m m' : Mem V} {l : List (Option V)} {x : Handle} (h : MadeOf m l x m') {b : Nat} (hb : b < m.hp.length) : m'.hp[b]? = m.hp[b]? := by
  rcases h with ⟨-, -, rfl⟩ | ⟨-, -, rfl⟩
  · rfl
  · simp [List.getElem?_append_left hb]

/-- A variable `d` with a new handle, in a world in order. -/
theorem WInv.put (o : WInv triv w) {d : Nat} {m : Mem V} {x : Handle} {l : List (Option V)} (h : MadeOf w.h.mem l x m) (hd : d < w.h.vars.length) :
    elems (w.setH ({ w.h with mem := m }.setVar d (some x))) (.h d) = some (l.map some) ∧
      Keeps w (w.setH ({ w.h with mem := m }.setVar d (some x))) (.h d) ∧ Alone (w.setH ({ w.h with mem := m }.setVar d (some x))) (.h d) ∧
      Usable (w.setH ({ w.h with mem := m }.setVar d (some x))) (.h d) := by
  have hvs : (w.setH ({ w.h with mem := m }.setVar d (some x))).h.vars[d]? = some (some x) := by
    simp [World.setH, Prog.setVar, hd]
  have hv : (w.setH ({ w.h with mem := m }.setVar d (some x))).h.var d = some x := by rw [Prog.var, hvs]; rfl
  have hk := keeps_setH (d := d) (x := some x) fun i y b hi hu hy hb => h.hp (o.block_lt hu hy hb)
  refine ⟨?_, hk, fun y b hy hb j z hz hu' hzb => ?_, fun y k => ?_⟩
  · refine elems_eq (n := l.length) ?_ rfl fun j hj => ?_
    · rw [World.size, hv]
      rcases h with ⟨rfl, rfl, -⟩ | ⟨-, rfl, -⟩
      · rfl
      · rfl
    · rcases h with ⟨rfl, -, -⟩ | ⟨-, rfl, rfl⟩
      · simp at hj
      · simp only [World.cell, hv, Handle.data, Option.bind_eq_bind, Option.bind_some]
        have : Heap.live (w.h.mem.hp ++ [⟨l, false⟩]) w.h.mem.hp.length = some ⟨l, false⟩ := by rw [Heap.live_some]; simp
        simp only [World.setH, Prog.setVar, this, Option.bind_some]
  · rw [hv] at hy; cases hy
    rcases h with ⟨-, rfl, -⟩ | ⟨-, rfl, -⟩
    · cases hb
    · cases hb
      by_contra hne
      have hzv := setVar_getElem?_ne (p := w.h) hne m (some (.heap (some w.h.mem.hp.length) l.length none))
      have huj : Usable w (.h j) := fun y k e => hu' y k (hzv.trans e)
      have := o.block_lt huj (by rw [← hz]; exact (var_of_vars hzv).symm) hzb
      omega
  · rw [hvs]
    rcases h with ⟨-, rfl, -⟩ | ⟨-, rfl, -⟩ <;> simp [Handle.null]

theorem keeps_setS {K : Nat} {p : SProg V} {a a' : Vals V} (r : SProg.Rep triv K (w.s K) a) (r' : SProg.Rep triv K p a') {d : Nat}
    (h : ∀ i, i ≠ d → a'.get i = a.get i) : Keeps w (w.setS K p) (.s K d) := by
  intro ob hne hu
  cases ob with
  | h i => exact ⟨hu, elems_h_congr rfl fun _ _ _ _ => rfl⟩
  | k N i => exact ⟨trivial, elems_k_congr rfl⟩
  | s K' i =>
      refine ⟨trivial, ?_⟩
      by_cases e : K' = K
      · subst e
        have hi : i ≠ d := fun h => hne (by rw [h])
        rw [elems_s (w := w.setS K' p) (a := a') (by simpa [World.setS] using r'), elems_s r, h i hi]
      · exact elems_s_congr (by simp [World.setS, e])

/-- Conversion of a variable, in a world in order. -/
theorem WInv.convert (dflt : V) (o : WInv triv w) {src : Obj} {n d : Nat} (kind : World.Kind) (hs : w.size src = some n) (hu : Usable w src)
    (hd : Free w (kind.obj d)) :
    ∃ w', w.step triv dflt (kind.conv d src) = some w' ∧ WInv triv w' ∧ elems w' (kind.obj d) = elems w src ∧ Keeps w w' (kind.obj d) ∧
      Alone w' (kind.obj d) ∧ Usable w' (kind.obj d) ∧ ∀ i, kind.obj d ≠ .h i → w'.h.var i = w.h.var i := by
  cases kind with
  | heap =>
      obtain ⟨m, x, l, h1, h2, h3, h4, h5, h6⟩ := o.toHeap dflt hs hu hd
      have hd' : d < w.h.vars.length := hd.2
      have h7 : MadeOf w.h.mem l x m := by rw [← h3] at h6; exact h6
      obtain ⟨e1, e2, e3, e4⟩ := o.put h7 hd'
      refine ⟨_, h1, h2, by rw [elems_eq hs h3 h5]; exact e1, e2, e3, e4, fun i hi => ?_⟩
      exact var_of_vars (setVar_getElem?_ne (p := w.h) (fun e => hi (by rw [e]; rfl)) m (some x))
  | sso K =>
      obtain ⟨p, l, a, h1, h2, h3, h4, h5, r, r'⟩ := o.toSso dflt hs hu hd
      have hd' : d < a.length := by rw [← r.len]; exact hd.2
      have hp : (w.setS K p).s K = p := by simp [World.setS]
      have r'' : SProg.Rep triv K ((w.setS K p).s K) (a.set d (some l)) := by rw [hp]; exact r'
      refine ⟨_, h1, h2, ?_, keeps_setS r r' fun i hi => SProg.get_set_ne hi _, fun x b hx hb j y hy hyb => ?_, trivial, fun i _ => rfl⟩
      · rw [elems_eq hs h3 h5]
        rw [World.Kind.obj, elems_s r'', SProg.get_set_self hd']; rfl
      · exact (r''.blocks.unique d j x y b hx hy hb hyb).symm

theorem free_setH {d : Nat} {m : Mem V} {x : Option Handle} {ob : Obj} (hne : ob ≠ .h d) (h : Free w ob) :
    Free (w.setH ({ w.h with mem := m }.setVar d x)) ob := by
  cases ob with
  | s K i => exact h
  | k N i => exact h
  | h i =>
      have hi : i ≠ d := fun e => hne (by rw [e])
      refine ⟨(var_of_vars (setVar_getElem?_ne (p := w.h) hi m x)).trans h.1, ?_⟩
      have : i < w.h.vars.length := h.2
      simpa [World.setH, Prog.setVar] using this

theorem free_setS {K : Nat} {p : SProg V} {a a' : Vals V} (r : SProg.Rep triv K (w.s K) a) (r' : SProg.Rep triv K p a') {d : Nat}
    (h : ∀ i, i ≠ d → a'.get i = a.get i) (hl : a'.length = a.length) {ob : Obj} (hne : ob ≠ .s K d) (hf : Free w ob) : Free (w.setS K p) ob := by
  cases ob with
  | h i => exact hf
  | k N i => exact hf
  | s K' i =>
      by_cases e : K' = K
      · subst e
        have hi : i ≠ d := fun e => hne (by rw [e])
        have hp : (w.setS K' p).s K' = p := by simp [World.setS]
        refine ⟨?_, ?_⟩
        · rw [hp]
          cases hv : p.var i with
          | none => rfl
          | some y =>
              obtain ⟨l, hl, -⟩ := r'.alive hv
              rw [h i hi, r.dead hf.1] at hl; cases hl
        · rw [hp, r'.len, hl, ← r.len]; exact hf.2
      · have hp : (w.setS K p).s K' = w.s K' := by simp [World.setS, e]
        exact ⟨by rw [hp]; exact hf.1, by rw [hp]; exact hf.2⟩

/-- The owner of a block alone is alone. -/
theorem WInv.alone (o : WInv triv w) {t i b n : Nat} {y : Handle} (ht : w.h.var t = some (.heap (some b) n none)) (hi : i ≠ t) (hu : Usable w (.h i))
    (hy : w.h.var i = some y) : y.data ≠ some b := by
  intro hb
  have hp := Prog.handles_take2 (vars := w.h.vars) ht hy (Ne.symm hi)
  have o' := o.h.perm hp.symm
  obtain ⟨cells, hl, -⟩ := o.h.handle_live (Prog.mem_handles hy) (usable_handle hu hy) hb
  have hown := o'.own b _ (Heap.live_some.mp hl).1
  rw [List.countP_cons, List.countP_cons] at hown
  have hx : excl b (.heap (some b) n none) = true := by simp [excl]
  rw [if_pos hx] at hown
  cases hs : y.sptr with
  | none =>
      obtain ⟨d, k, rfl⟩ := usable_handle hu hy hs
      have : d = some b := hb
      subst this
      rw [if_pos (by simp [excl])] at hown
      simp at hown
      omega
  | some c =>
      obtain ⟨k, hk, h2⟩ := o.h.ref y (Prog.mem_handles hy) c hs
      have hc : k.count ≠ 0 := by
        rw [o.h.count c k hk]
        exact Nat.pos_iff_ne_zero.mp (List.countP_pos_iff.mpr ⟨y, Prog.mem_handles hy, by simp [refs, hs]⟩)
      have : 0 < w.h.mem.ctrls.countP (ctl b) :=
        List.countP_pos_iff.mpr ⟨k, List.mem_of_getElem? hk, by simp [ctl, hc, (h2 b hb).1]⟩
      simp at hown
      omega

/-- The variable can go away without consequences for the others: it owns its block alone, or another variable has a share as well. -/
def Leaving (w : World V) : Obj → Prop
  | .h t => (∃ d n, w.h.var t = some (.heap d n none)) ∨
      ∃ d n c j y, w.h.var t = some (.shared d n (some c)) ∧ j ≠ t ∧ w.h.var j = some y ∧ y.sptr = some c
  | _ => True

/-- Copy construction of a variable. -/
theorem WInv.param (dflt : V) (o : WInv triv w) {src : Obj} {n t : Nat} (hs : w.size src = some n) (hu : Usable w src)
    (hd : Free w (World.sibling t src)) :
    ∃ w', w.step triv dflt (w.param t src) = some w' ∧ WInv triv w' ∧ elems w' (World.sibling t src) = elems w src ∧
      Keeps w w' (World.sibling t src) ∧ Usable w' (World.sibling t src) ∧ Leaving w' (World.sibling t src) ∧
      ∀ x, x ≠ World.sibling t src → Free w x → Free w' x := by
  cases src with
  | h i =>
      simp only [World.size, Option.map_eq_some_iff] at hs
      obtain ⟨x, hx, hn⟩ := hs
      obtain ⟨hd1, hd2⟩ := hd
      have hit : i ≠ t := by rintro rfl; rw [hd1] at hx; cases hx
      obtain ⟨w', h1, h2⟩ := o.step dflt (w.param t (.h i)) (by
        simp only [World.param, hx]
        cases x <;> exact fun d hd => by rcases hd with ⟨i, hd⟩ | ⟨i, v, hd⟩ <;> cases hd)
      refine ⟨w', h1, h2, ?_⟩
      cases x with
      | heap dt m sp =>
          have h1' := h1
          simp only [World.param, hx, World.step, Prog.step] at h1'
          rw [if_pos ⟨hd1, hd2⟩] at h1'
          obtain ⟨l, hl1, hl2, x', m', hc, hmade⟩ : ∃ l : List (Option V), l.length = n ∧ elems w (.h i) = some (l.map some) ∧
              ∃ x' m', w.h.mem.copy triv (.heap dt m sp) = some (x', m') ∧ MadeOf w.h.mem l x' m' := by
            have hsz : w.size (.h i) = some n := by simp only [World.size, hx, Option.map_some, hn]
            have hmn : m = n := hn
            rcases Own.copy_cells o.h (Prog.mem_handles hx) with ⟨e1, e2⟩ | ⟨b, cells, e1, e2, e3, e4⟩
            · refine ⟨[], by simp; omega, elems_eq hsz (by simp; omega) (fun j hj => by omega), _, _, e2, Or.inl ⟨rfl, rfl, rfl⟩⟩
            · have hlen : cells.length = n := by rw [← hmn]; exact e2.1
              have hel : elems w (.h i) = some (cells.map some) := elems_eq hsz hlen fun j hj => by
                simp [World.cell, hx, Handle.data, e1, e3]
              by_cases hz : cells = []
              · subst hz
                have h0 : m = 0 := by rw [hmn]; simpa using hlen.symm
                refine ⟨[], hlen, hel, Handle.null, w.h.mem, ?_, Or.inl ⟨rfl, rfl, rfl⟩⟩
                unfold Mem.copy; rw [if_pos (by exact h0)]
              · refine ⟨cells, hlen, hel, _, _, e4, Or.inr ⟨hz, ?_, rfl⟩⟩
                rw [hlen, hmn]
          rw [hc] at h1'
          have e : w' = w.setH ({ w.h with mem := m' }.setVar t (some x')) := by
            simp only [Option.bind_eq_bind, Option.bind_some, Option.map_some, Option.some.injEq, Option.pure_def] at h1'
            exact h1'.symm
          subst e
          obtain ⟨e1, e2, e3, e4⟩ := o.put hmade hd2
          refine ⟨by rw [World.sibling, e1, hl2], e2, e4, Or.inl ?_, fun x hx hf => free_setH hx hf⟩
          have hv : (w.setH ({ w.h with mem := m' }.setVar t (some x'))).h.var t = some x' := by simp [World.setH, Prog.setVar, Prog.var, hd2]
          rw [hv]
          rcases hmade with ⟨-, rfl, -⟩ | ⟨-, rfl, -⟩
          · exact ⟨_, _, rfl⟩
          · exact ⟨_, _, rfl⟩
      | shared dt m sp =>
          have h1' := h1
          simp only [World.param, hx, World.step, Prog.step] at h1'
          rw [if_pos ⟨hd1, hd2⟩] at h1'
          cases sp with
          | none =>
              obtain ⟨d, k, e⟩ := usable_handle hu hx rfl
              cases e
          | some c =>
              obtain ⟨k, hk, -⟩ := o.h.ref _ (Prog.mem_handles hx) c rfl
              simp only [Mem.acquire, hk, Option.bind_eq_bind, Option.bind_some, Option.map_some, Option.some.injEq, Option.pure_def] at h1'
              subst h1'
              have hv : ∀ m' : Mem V, (w.setH ({ w.h with mem := m' }.setVar t (some (.shared dt m (some c))))).h.var t = some (.shared dt m (some c)) := by
                intro m'; simp [World.setH, Prog.setVar, Prog.var, hd2]
              have hvi : ∀ m' : Mem V, (w.setH ({ w.h with mem := m' }.setVar t (some (.shared dt m (some c))))).h.var i = some (.shared dt m (some c)) := by
                intro m'
                rw [← hx]
                exact var_of_vars (setVar_getElem?_ne (p := w.h) hit m' _)
              refine ⟨elems_h_congr (by rw [hx]; exact hv _) fun _ _ _ _ => rfl, keeps_setH fun _ _ _ _ _ _ _ => rfl, fun y k' => ?_,
                Or.inr ⟨dt, m, c, i, _, hv _, hit, hvi _, rfl⟩, fun x hx hf => free_setH hx hf⟩
              simp [World.setH, Prog.setVar, hd2]
  | s K i =>
      obtain ⟨a, r⟩ := o.s K
      obtain ⟨hd1, hd2⟩ := hd
      obtain ⟨p, h1, h2⟩ := r.step dflt (.copy t i) trivial
      obtain ⟨w', h3, h4⟩ := o.step dflt (w.param t (.s K i)) trivial
      have e : w' = w.setS K p := by
        simp only [World.param, World.step, h1, Option.map_some, Option.some.injEq] at h3
        exact h3.symm
      subst e
      simp only [World.size, Option.map_eq_some_iff] at hs
      obtain ⟨x, hx, hn⟩ := hs
      obtain ⟨l, hl, -⟩ := r.alive hx
      have hd' : t < a.length := by rw [← r.len]; exact hd2
      have hst : sstep triv dflt a (.copy t i) = a.set t (some l) := by
        simp only [sstep, hl]
        rw [if_pos ⟨r.dead hd1, hd'⟩]
      rw [hst] at h2
      have hp : (w.setS K p).s K = p := by simp [World.setS]
      refine ⟨_, h3, h4, ?_, keeps_setS r h2 fun j hj => SProg.get_set_ne hj _, trivial, trivial,
        fun x hx hf => free_setS r h2 (fun j hj => SProg.get_set_ne hj _) (by simp) hx hf⟩
      rw [World.sibling, elems_s (a := a.set t (some l)) (by rw [hp]; exact h2), SProg.get_set_self hd', elems_s r, hl]
  | k N i =>
      obtain ⟨hd1, hd2⟩ := hd
      obtain ⟨h1, h2⟩ := StackH.step_spec triv N dflt (w.k N) (.copy t i) (o.k N) trivial
      obtain ⟨w', h3, h4⟩ := o.step dflt (w.param t (.k N i)) trivial
      have e : w' = w.setK N (kstep triv N dflt (w.k N) (.copy t i)) := by
        simp only [World.param, World.step, h1, Option.map_some, Option.some.injEq] at h3
        exact h3.symm
      subst e
      simp only [World.size, Option.map_eq_some_iff] at hs
      obtain ⟨x, hx, hn⟩ := hs
      have hst : kstep triv N dflt (w.k N) (.copy t i) = (w.k N).set t (some x) := by
        have hx' : Vals.get (w.k N) i = some x := hx
        have hd1' : Vals.get (w.k N) t = none := hd1
        simp only [kstep, hx']
        rw [if_pos ⟨hd1', hd2⟩]
      rw [hst] at h2 h3 h4
      refine ⟨_, h3, h4, ?_, fun ob hne hob => ?_, trivial, trivial, fun ob hne hf => ?_⟩
      · rw [World.sibling, elems_k (h4.k N), elems_k (o.k N), hx]
        simp [World.setK, StackH.var, hd2]
      · cases ob with
        | h j => exact ⟨hob, elems_h_congr rfl fun _ _ _ _ => rfl⟩
        | s K j => exact ⟨trivial, elems_s_congr rfl⟩
        | k N' j =>
            refine ⟨trivial, ?_⟩
            by_cases e : N' = N
            · subst e
              have hj : j ≠ t := fun h => hne (by rw [h]; rfl)
              rw [elems_k (h4.k N'), elems_k (o.k N')]
              simp [World.setK, StackH.var, List.getElem?_set_ne (Ne.symm hj)]
            · exact elems_k_congr (by simp [World.setK, e])
      · cases ob with
        | h j => exact hf
        | s K j => exact hf
        | k N' j =>
            by_cases e : N' = N
            · subst e
              have hj : j ≠ t := fun h => hne (by rw [h]; rfl)
              refine ⟨?_, ?_⟩
              · have := hf.1
                simpa [World.setK, StackH.var, List.getElem?_set_ne (Ne.symm hj)] using this
              · have := hf.2
                simpa [World.setK] using this
            · have hp : ∀ q, (w.setK N q).k N' = w.k N' := by intro q; simp [World.setK, e]
              exact ⟨by rw [hp]; exact hf.1, by rw [hp]; exact hf.2⟩

/-- Destruction of a variable. -/
theorem WInv.kill (dflt : V) (o : WInv triv w) {x : Obj} {n : Nat} (hs : w.size x = some n) (hl : Leaving w x) :
    ∃ w', w.step triv dflt (World.kill x) = some w' ∧ WInv triv w' ∧ w'.size x = none ∧ Keeps w w' x := by
  cases x with
  | h t =>
      obtain ⟨w', h1, h2⟩ := o.step dflt (World.kill (.h t)) (fun d hd => by rcases hd with ⟨i, hd⟩ | ⟨i, v, hd⟩ <;> cases hd)
      refine ⟨w', h1, h2, ?_⟩
      simp only [World.size, Option.map_eq_some_iff] at hs
      obtain ⟨x, hx, hn⟩ := hs
      have ht : t < w.h.vars.length := Prog.lt_of_var hx
      have hgone : ∀ m : Mem V, (w.setH ({ w.h with mem := m }.setVar t none)).size (.h t) = none := by
        intro m; simp [World.size, World.setH, Prog.setVar, Prog.var, ht]
      rcases hl with ⟨d, m, hv⟩ | ⟨d, m, c, j, y, hv, hjt, hj, hy⟩
      · rw [hx] at hv; cases hv
        cases d with
        | none =>
            simp only [World.kill, World.step, Prog.step, hx, Mem.dtor, Mem.drop, Mem.release] at h1
            simp at h1
            subst h1
            exact ⟨hgone _, keeps_setH fun _ _ _ _ _ _ _ => rfl⟩
        | some b =>
            obtain ⟨cells, hl, hF⟩ := o.h.excl_live (Prog.mem_handles hx) (b := b) (by simp [excl])
            obtain ⟨cells', hds⟩ := Own.destruct_spec hl hF
            simp only [World.kill, World.step, Prog.step, hx, Mem.dtor, Mem.drop, Mem.release, Handle.size] at h1 hds
            rw [if_pos ⟨trivial, by simp⟩, hds] at h1
            simp at h1
            subst h1
            refine ⟨hgone _, keeps_setH fun i y b' hi hu hy hb' => ?_⟩
            have : b' ≠ b := fun e => o.alone hx hi hu hy (by rw [← e]; exact hb')
            simp [List.getElem?_set_ne (Ne.symm this)]
      · rw [hx] at hv; cases hv
        obtain ⟨k, hk, -⟩ := o.h.ref _ (Prog.mem_handles hx) c rfl
        have hc : 2 ≤ k.count := by
          rw [o.h.count c k hk, (Prog.handles_take2 hx hj (Ne.symm hjt)).countP_eq, List.countP_cons, List.countP_cons]
          rw [if_pos (by simp [refs, hy]), if_pos (by simp [refs, Handle.sptr])]; omega
        simp only [World.kill, World.step, Prog.step, hx, Mem.dtor, Mem.release, hk] at h1
        have e1 : ¬ k.count = 0 := by omega
        have e2 : ¬ k.count - 1 = 0 := by omega
        simp [e1, e2] at h1
        subst h1
        exact ⟨hgone _, keeps_setH fun _ _ _ _ _ _ _ => rfl⟩
  | s K i =>
      obtain ⟨a, r⟩ := o.s K
      obtain ⟨p, h1, h2⟩ := r.step dflt (.destroy i) trivial
      obtain ⟨w', h3, h4⟩ := o.step dflt (World.kill (.s K i)) trivial
      have e : w' = w.setS K p := by
        simp only [World.kill, World.step, h1, Option.map_some, Option.some.injEq] at h3
        exact h3.symm
      subst e
      have h2' : SProg.Rep triv K p (a.set i none) := h2
      refine ⟨_, h3, h4, ?_, keeps_setS r h2' fun j hj => SProg.get_set_ne hj _⟩
      have hp : (w.setS K p).s K = p := by simp [World.setS]
      simp only [World.size, Option.map_eq_none_iff, hp]
      cases hv : p.var i with
      | none => rfl
      | some y =>
          obtain ⟨l, hl, -⟩ := h2'.alive hv
          simp [Vals.get] at hl
          by_cases hi : i < a.length
          · rw [List.getElem?_set_self hi] at hl; cases hl
          · rw [List.getElem?_eq_none (by simp; omega)] at hl; cases hl
  | k N i =>
      obtain ⟨h1, h2⟩ := StackH.step_spec triv N dflt (w.k N) (.destroy i) (o.k N) trivial
      obtain ⟨w', h3, h4⟩ := o.step dflt (World.kill (.k N i)) trivial
      have e : w' = w.setK N ((w.k N).set i none) := by
        simp only [World.kill, World.step, h1, Option.map_some, Option.some.injEq] at h3
        exact h3.symm
      subst e
      refine ⟨_, h3, h4, ?_, fun ob hne hob => ?_⟩
      · simp only [World.size, Option.map_eq_none_iff, World.setK, if_true, StackH.var]
        by_cases hi : i < (w.k N).length
        · rw [List.getElem?_set_self hi]; rfl
        · rw [List.getElem?_eq_none (by simp; omega)]; rfl
      · cases ob with
        | h j => exact ⟨hob, elems_h_congr rfl fun _ _ _ _ => rfl⟩
        | s K j => exact ⟨trivial, elems_s_congr rfl⟩
        | k N' j =>
            refine ⟨trivial, ?_⟩
            by_cases e : N' = N
            · subst e
              have hj : j ≠ i := fun h => hne (by rw [h])
              rw [elems_k (h4.k N'), elems_k (o.k N')]
              simp [World.setK, StackH.var, List.getElem?_set_ne (Ne.symm hj)]
            · exact elems_k_congr (by simp [World.setK, e])

theorem allowed_append {dflt : V} {w0 w : World V} {ops : List (WOp V)} {op : WOp V} (h : WAllowedRun triv dflt w0 ops)
    (hr : w0.run triv dflt ops = some w) (ha : WAllowed triv w op) : WAllowedRun triv dflt w0 (ops ++ [op]) := by
  induction ops generalizing w0 with
  | nil => cases hr; exact ⟨ha, fun _ _ => trivial⟩
  | cons o ops ih =>
      refine ⟨h.1, fun w' hw' => ih (h.2 w' hw') ?_⟩
      simp only [World.run, List.foldlM_cons, hw'] at hr
      exact hr

theorem Reaches.inv {dflt : V} (h : Reaches triv dflt w) : WInv triv w := by
  obtain ⟨k, ops, h1, h2⟩ := h
  obtain ⟨w1, h3, o⟩ := WInv.run dflt ops _ (start_winv triv k) h1
  rw [h2] at h3; cases h3
  exact o

/-- C89.  No history of operations on heap, shared, small-buffer and stack handles and of conversions between them makes an error (elements are
constructed in raw memory and destroyed once, no block is used after its release or released twice), with the exceptions of C28 and C29 and of
conversions of shared handles whose share was moved away.  After it every block is unreleased exactly if a variable owns it, and every usable
variable has all its elements.

Missing: the exceptions, where the claim is false (`C28_moved_shared_witness`, `C29_self_assign_witness`, `C29_inline_move_witness`,
`C29_stack_witness`, `C89_moved_witness`). -/
theorem C89_history_partial (triv : Bool) (dflt : V) (n : Nat) (ops : List (WOp V)) (h : WAllowedRun triv dflt (World.start n) ops) :
    ∃ w, (World.start n).run triv dflt ops = some w ∧
      (∀ (b : Nat) blk, w.h.mem.hp[b]? = some blk → (blk.freed = false ↔ ∃ i, Owns w.h i b)) ∧
      (∀ K (b : Nat) blk, (w.s K).hp[b]? = some blk → (blk.freed = false ↔ ∃ i x, (w.s K).var i = some x ∧ x.data = .block b)) ∧
      ∀ o k, w.size o = some k → Usable w o → ∃ l : List (Option V), l.length = k ∧ elems w o = some (l.map some) ∧ (triv = false → ∀ c ∈ l, c.isSome) := by
  obtain ⟨w, h1, o⟩ := WInv.run dflt ops _ (start_winv triv n) h
  refine ⟨w, h1, fun b blk hb => own_iff o.h hb, fun K b blk hb => ?_, fun ob k hk hu => ?_⟩
  · obtain ⟨a, r⟩ := o.s K
    refine ⟨fun hf => r.blocks.owned b blk hb hf, ?_⟩
    rintro ⟨i, x, hx, hd⟩
    obtain ⟨l, hl, ho⟩ := r.alive hx
    rcases ho.data with ⟨-, h2, -⟩ | ⟨-, -, h2, -⟩ | ⟨-, -, b', h2, h3⟩
    · rw [h2] at hd; cases hd
    · rw [h2] at hd; cases hd
    · rw [h2] at hd; cases hd; rw [hb] at h3; cases h3; rfl
  · obtain ⟨l, e1, e2, e3⟩ := o.source hk hu
    exact ⟨l, e1, elems_eq hk e1 e3, e2⟩

/-- C89.  After any such history, the conversion of a usable variable alive to a new heap handle, or small-buffer handle of any capacity, makes no
error; the new handle has the elements of the source in a memory of its own; all other variables, the source included, are as before.

Missing: shared handles whose share was moved away (`C89_moved_witness`). -/
theorem C89_convert_partial (triv : Bool) (dflt : V) (w : World V) (hw : Reaches triv dflt w) (kind : World.Kind) (d : Nat) (src : Obj) (n : Nat)
    (hs : w.size src = some n) (hu : Usable w src) (hd : Free w (kind.obj d)) :
    ∃ w', w.step triv dflt (kind.conv d src) = some w' ∧ Reaches triv dflt w' ∧ elems w' (kind.obj d) = elems w src ∧ Alone w' (kind.obj d) ∧
      ∀ o, o ≠ kind.obj d → Usable w o → elems w' o = elems w o := by
  obtain ⟨k, ops, h1, h2⟩ := hw
  obtain ⟨w1, h3, o⟩ := WInv.run dflt ops _ (start_winv triv k) h1
  rw [h2] at h3; cases h3
  obtain ⟨w', e1, -, e3, e4, e5, -⟩ := o.convert dflt kind hs hu hd
  refine ⟨w', e1, ⟨k, ops ++ [kind.conv d src], allowed_append h1 h2 (by cases kind <;> exact hu), ?_⟩, e3, e5, fun ob h hob => (e4 ob h hob).2⟩
  simp only [World.run, List.foldlM_append] at h2 ⊢
  rw [h2]
  simp [e1]

theorem Reaches.step {dflt : V} {w' : World V} {op : WOp V} (h : Reaches triv dflt w) (ha : WAllowed triv w op) (hs : w.step triv dflt op = some w') :
    Reaches triv dflt w' := by
  obtain ⟨k, ops, h1, h2⟩ := h
  refine ⟨k, ops ++ [op], allowed_append h1 h2 ha, ?_⟩
  simp only [World.run, List.foldlM_append] at h2 ⊢
  rw [h2]
  simp [hs]

/-- C89, arrays: the constructor of an array from an lvalue array with other storage (or another algebra) makes an array of the same layout with the
same element at every index, in a memory of its own; its parameter has come and gone (so its block is released, see `C89_history_partial`), and all other
variables, the argument included, are as before.

Missing: shared handles whose share was moved away. -/
theorem C89_array_partial (triv : Bool) (dflt : V) (w : World V) (hw : Reaches triv dflt w) (kind : World.Kind) (d t : Nat) (lay : IdxMap) (src : Obj) (n : Nat)
    (hs : w.size src = some n) (hu : Usable w src) (hd : Free w (kind.obj d)) (ht : Free w (World.sibling t src)) (hdt : kind.obj d ≠ World.sibling t src) :
    ∃ m w', World.arrayFrom triv dflt kind d t lay src w = some (m, w') ∧ Reaches triv dflt w' ∧ m.len = lay.len ∧
      (∀ idx, entry w' m (kind.obj d) idx = entry w lay src idx) ∧ w'.size (World.sibling t src) = none ∧
      ∀ o, o ≠ kind.obj d → o ≠ World.sibling t src → Usable w o → elems w' o = elems w o := by
  have o := Reaches.inv hw
  obtain ⟨w1, e1, o1, e2, e3, e4, e5, e6⟩ := o.param dflt hs hu ht
  have r1 : Reaches triv dflt w1 := Reaches.step hw (by
    cases src with
    | h i =>
        simp only [World.param]
        split <;> exact fun d hd => by rcases hd with ⟨i, hd⟩ | ⟨i, v, hd⟩ <;> cases hd
    | s K i => exact trivial
    | k N i => exact trivial) e1
  have hd1 := e6 _ hdt hd
  have hs1 : w1.size (World.sibling t src) = some n := by
    have : elems w1 (World.sibling t src) = elems w src := e2
    unfold elems at this
    rw [hs] at this
    simp only [Option.map_some, Option.map_eq_some_iff] at this
    obtain ⟨n', h1, h2⟩ := this
    have := congrArg List.length h2
    simp at this
    rw [h1, this]
  obtain ⟨w2, f1, o2, f2, f3, f4, f5, f6⟩ := o1.convert dflt kind hs1 e4 hd1
  have r2 : Reaches triv dflt w2 := Reaches.step r1 (by cases kind <;> exact e4) f1
  have hs2 : w2.size (World.sibling t src) = some n := by
    have := (f3 _ (Ne.symm hdt) e4).2
    unfold elems at this
    rw [hs1] at this
    simp only [Option.map_some, Option.map_eq_some_iff] at this
    obtain ⟨n', h1, h2⟩ := this
    have := congrArg List.length h2
    simp at this
    rw [h1, this]
  have hl2 : Leaving w2 (World.sibling t src) := by
    cases src with
    | s K i => exact trivial
    | k N i => exact trivial
    | h i =>
        have hv := f6 t hdt
        rcases e5 with ⟨d', n', h⟩ | ⟨d', n', c, j, y, h, hjt, hj, hy⟩
        · exact Or.inl ⟨d', n', hv.trans h⟩
        · refine Or.inr ⟨d', n', c, j, y, hv.trans h, hjt, (f6 j fun e => ?_).trans hj, hy⟩
          have : Free w1 (.h j) := e ▸ hd1
          rw [this.1] at hj; cases hj
  obtain ⟨w3, g1, o3, g2, g3⟩ := o2.kill dflt hs2 hl2
  have r3 : Reaches triv dflt w3 := Reaches.step r2 (by
    cases src with
    | h i => exact fun d hd => by rcases hd with ⟨i, hd⟩ | ⟨i, v, hd⟩ <;> cases hd
    | s K i => exact trivial
    | k N i => exact trivial) g1
  have hel : elems w3 (kind.obj d) = elems w src := by rw [(g3 _ hdt f5).2, f2, e2]
  refine ⟨lay, w3, ?_, r3, rfl, fun idx => by simp only [entry, hel], g2, fun ob h1 h2 hob => ?_⟩
  · simp [World.arrayFrom, e1, f1, g1]
  · have k1 := e3 ob h2 hob
    have k2 := f3 ob h1 k1.1
    have k3 := g3 ob h2 k2.1
    rw [k3.2, k2.2, k1.2]

/-! ## Examples -/

/-- Two elements on the stack, three in a shared handle; conversions to the heap, to a buffer with room for two, and from there to one with room for four. -/
def convHist : List (WOp Nat) :=
  [.k 2 (.newFrom 0 [1, 2]), .h (.newFrom 0 [3, 4, 5]), .h (.share 1 0), .toHeap 2 (.k 2 0), .toSso 2 0 (.h 1), .toSso 4 0 (.s 2 0), .toSso 4 1 (.h 2),
    .h (.write 0 1 9), .h (.destroy 0), .h (.destroy 1), .s 2 (.destroy 0)]

/-- A check for allowed histories without assignments and moves of small-buffer handles. -/
def plainOp : WOp V → Bool
  | .h (.read ..) | .h (.write ..) => false
  | .h _ => true
  | .s _ (.move ..) | .s _ (.moveAssign ..) | .s _ (.copyAssign ..) => false
  | .s _ _ => true
  | .k _ (.raw ..) | .k _ (.assign ..) => false
  | .k _ _ => true
  | .toHeap _ (.h _) | .toSso _ _ (.h _) => false
  | .toHeap .. | .toSso .. => true

theorem allowed_plain (dflt : V) (w : World V) (ops : List (WOp V)) (h : ∀ op ∈ ops, plainOp op = true) : WAllowedRun triv dflt w ops := by
  induction ops generalizing w with
  | nil => trivial
  | cons op ops ih =>
      refine ⟨?_, fun w' _ => ih w' fun o ho => h o (by simp [ho])⟩
      have hp := h op (by simp)
      cases op with
      | h op => intro d hd; rcases hd with ⟨i, rfl⟩ | ⟨i, v, rfl⟩ <;> cases hp
      | s K op => cases op <;> first | exact trivial | cases hp
      | k N op => cases op <;> first | exact trivial | cases hp
      | toHeap d src => cases src <;> first | exact trivial | cases hp
      | toSso K d src => cases src <;> first | exact trivial | cases hp

example : (((World.start 3).run false 0 convHist).map fun w => [elems w (.h 2), elems w (.s 4 0), elems w (.s 4 1), elems w (.k 2 0)]) =
    some [some [some (some 1), some (some 2)], some [some (some 3), some (some 4), some (some 5)], some [some (some 1), some (some 2)],
      some [some (some 1), some (some 2)]] := by decide +kernel
example : (((World.start 3).run false 0 convHist).map fun w => (w.h.mem.hp.map (·.freed), (w.s 2).hp.map (·.freed), (w.s 4).hp.length)) =
    some ([true, false], [true], 0) := by decide +kernel

/-- The hypotheses of `C89_convert_partial` and `C89_array_partial`: three elements inline, made into a heap array of shape (3) with a parameter that is inline as well. -/
def inlineWorld : World Nat := ((World.start 2).run false 0 [.s 3 (.newFrom 0 [7, 8, 9])]).getD (World.start 0)

example : Reaches false 0 inlineWorld := ⟨2, [.s 3 (.newFrom 0 [7, 8, 9])], allowed_plain 0 _ _ (by decide), by
  obtain ⟨w, hw, -⟩ := C89_history_partial false 0 2 [.s 3 (.newFrom 0 [7, 8, 9])] (allowed_plain 0 _ _ (by decide))
  rw [inlineWorld, hw]; rfl⟩
example : inlineWorld.size (.s 3 0) = some 3 ∧ Usable inlineWorld (.s 3 0) ∧ Free inlineWorld (World.Kind.heap.obj 1) ∧
    Free inlineWorld (World.sibling 1 (.s 3 0)) ∧ World.Kind.heap.obj 1 ≠ World.sibling 1 (.s 3 0) :=
  ⟨by decide +kernel, trivial, by constructor <;> decide +kernel, by constructor <;> decide +kernel, by decide⟩
example : ((World.arrayFrom false 0 .heap 1 1 ⟨[3], [1], [0], [0], .contiguous⟩ (.s 3 0) inlineWorld).map fun r =>
    ([[0], [1], [2]].map (entry r.2 r.1 (.h 1)), r.2.size (.s 3 1), elems r.2 (.s 3 0))) =
    some ([some (some 7), some (some 8), some (some 9)], none, some [some (some 7), some (some 8), some (some 9)]) := by decide +kernel

/-- A shared handle whose share was moved away keeps pointer and size (`handle_shared` has no move constructor of its own, handle.hpp:467-513): once the memory is
released, a conversion reads it after its release. -/
theorem C89_moved_witness :
    ((World.start 3).run false 0 [.h (.newFrom 0 [1, 2]), .h (.share 1 0), .h (.moveShared 2 1), .h (.destroy 0), .h (.destroy 2)]).map
      (fun w => w.size (.h 1)) = some (some 2) ∧
    ((World.start 3).run false 0 [.h (.newFrom 0 [1, 2]), .h (.share 1 0), .h (.moveShared 2 1), .h (.destroy 0), .h (.destroy 2), .toHeap 0 (.h 1)]).isNone ∧
    ((World.start 3).run false 0 [.h (.newFrom 0 [1, 2]), .h (.share 1 0), .h (.moveShared 2 1), .h (.destroy 0), .h (.destroy 2), .toSso 4 0 (.h 1)]).isNone := by
  decide +kernel

end Nda.Mem
