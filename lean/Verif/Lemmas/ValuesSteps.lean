import Verif.Lemmas.Values
/-!
# Arrays as values: the statements without right-hand sides
-/
namespace Nda.Arr
open Nda Nda.Mem Nda.Spec Spec Nda.Mem.Spec Loops Nda.Perm LayoutTransforms Nda.IdxMap

variable {V : Type}

/-! ### What a released block does not change -/

theorem destroy_frame {hp hp' : Heap V} {b i x : Nat} (h : hp.destroy b i = some hp') (hx : x ≠ b) : hp'[x]? = hp[x]? := by
  simp only [Heap.destroy, Option.bind_eq_bind] at h
  obtain ⟨blk, -, h2⟩ := Option.bind_eq_some_iff.mp h
  split at h2
  · cases h2; rw [List.getElem?_set_ne (Ne.symm hx)]
  · cases h2

theorem destroyFrom_frame {b x : Nat} (hx : x ≠ b) : ∀ {n i : Nat} {hp hp' : Heap V}, Heap.destroyFrom b n i hp = some hp' → hp'[x]? = hp[x]?
  | 0, _, _, _, h => by cases h; rfl
  | n + 1, i, hp, hp', h => by
      simp only [Heap.destroyFrom, Option.bind_eq_bind] at h
      obtain ⟨hp1, h1, h2⟩ := Option.bind_eq_some_iff.mp h
      rw [destroyFrom_frame hx h2, destroy_frame h1 hx]

theorem dealloc_frame {triv : Bool} {hp hp' : Heap V} {b x : Nat} (h : hp.dealloc triv b = some hp') (hx : x ≠ b) : hp'[x]? = hp[x]? := by
  simp only [Heap.dealloc, Option.bind_eq_bind] at h
  obtain ⟨blk, -, h2⟩ := Option.bind_eq_some_iff.mp h
  split at h2
  · cases h2
  · cases h2; rw [List.getElem?_set_ne (Ne.symm hx)]

theorem drop_frame {triv : Bool} {m m' : Mem V} {y : Option Nat} {n x : Nat} {s : Option Nat} (h : m.drop triv y n s = some m') (hx : y ≠ some x) :
    m'.hp[x]? = m.hp[x]? := by
  simp only [Mem.drop] at h
  split at h
  · cases y with
    | none => simp only [Mem.destruct] at h; cases h; rfl
    | some b =>
        have hxb : x ≠ b := fun e => hx (by rw [e])
        simp only [Mem.destruct, Option.bind_eq_bind] at h
        cases triv with
        | true =>
            simp only [if_true, Option.bind_some] at h
            obtain ⟨hp2, h3, h4⟩ := Option.bind_eq_some_iff.mp h
            cases h4
            exact dealloc_frame h3 hxb
        | false =>
            simp only [Bool.false_eq_true, if_false] at h
            obtain ⟨hp1, h1, h2⟩ := Option.bind_eq_some_iff.mp h
            obtain ⟨hp2, h3, h4⟩ := Option.bind_eq_some_iff.mp h2
            cases h4
            simp only
            rw [dealloc_frame h3 hxb, destroyFrom_frame hxb h1]
  · cases h; rfl

theorem append_frame {hp : Heap V} (l : Heap V) {b : Nat} (hb : b < hp.length) : (hp ++ l)[b]? = hp[b]? := List.getElem?_append_left hb

/-! ### One array, from its block -/

theorem dataOf_put {p : AProg V} {d : Nat} (hd : d < p.prog.vars.length) {mem : Mem V} {lays : List IdxMap} {b n : Nat} {blk : Block V} (h : mem.hp[b]? = some blk)
    (hf : blk.freed = false) : dataOf (⟨⟨mem, p.prog.vars.set d (some (.heap (some b) n none))⟩, lays⟩ : AProg V) d = some blk := by
  simp only [dataOf, blockOf, Prog.var, List.getElem?_set_self hd, Option.join_some, Option.bind_some, Handle.data]
  exact Heap.live_some.mpr ⟨h, hf⟩

/-- All elements of a block of equal cells. -/
theorem elem_replicate {so : List Nat} (hso : IsPerm so) {shape : List Int} (hs : IsShape so shape) {m : IdxMap} (hm : layoutOf so shape = some m) {p : AProg V} {d : Nat}
    {mem : Mem V} (hd : d < p.lays.length) (hdv : d < p.prog.vars.length) {b n n' : Nat} {v : V} (hb : mem.hp[b]? = some ⟨List.replicate n (some v), false⟩)
    (hn : (n : Int) = prod shape) {idx : List Int} (hi : InRange shape idx) :
    (⟨⟨mem, p.prog.vars.set d (some (.heap (some b) n' none))⟩, p.lays.set d m⟩ : AProg V).elem d idx = some v := by
  obtain ⟨m', g1, g2, g3, g4, g5, -⟩ := layoutOf_spec hso hs
  rw [hm] at g1; cases g1
  rw [elem_cell (m := m) (by simp [hd]) (dataOf_put hdv hb rfl) (g5 idx hi).1]
  have := (g5 idx hi).2
  simp [List.getElem?_replicate, show pos m idx < n by omega]

theorem layoutOf_wf {so : List Nat} (hso : IsPerm so) {shape : List Int} (hs : IsShape so shape) {m : IdxMap} (hm : layoutOf so shape = some m) : WF m := by
  obtain ⟨m', h1, h2, -⟩ := ofShape_spec shape so (List.replicate so.length 0) .contiguous hso hs.1.symm (by simp [hs.1])
  rw [layoutOf, h1] at hm; cases hm
  exact h2

theorem prod_pos_of_inRange {so : List Nat} (hso : IsPerm so) {shape : List Int} (hs : IsShape so shape) {idx : List Int} (hi : InRange shape idx) : prod shape ≠ 0 := by
  obtain ⟨m', g1, g2, g3, g4, g5, -⟩ := layoutOf_spec hso hs
  have := (g5 idx hi).2
  intro h; rw [h] at this; simp at this

theorem put_set {a : Vals V} {d : Nat} (h : d < a.length ∧ a.get d = none) (x : Val V) : a.put d x = a.set d (some x) := by rw [Vals.put, if_pos h]

theorem put_same {a : Vals V} {d : Nat} (h : ¬ (d < a.length ∧ a.get d = none)) (x : Val V) : a.put d x = a := by rw [Vals.put, if_neg h]

section
variable {triv : Bool} {so : Nat → List Nat} {p : AProg V} {a : Vals V}

/-- The statement and its effect. -/
def Steps (triv : Bool) (dflt : V) (so : Nat → List Nat) (p : AProg V) (a : Vals V) (op : VOp V) : Prop :=
  ∃ p', p.vstep triv dflt so op = some p' ∧ VInv triv so p' (vnext triv dflt (rankOf so) a op)

theorem default_ok (dflt : V) (hso : ∀ i, IsPerm (so i)) (hne : ∀ i, so i ≠ []) (i : VInv triv so p a) (d : Nat) (junk : List Int) (hj : junk.length = (so d).length) :
    Steps triv dflt so p a (.default d junk) := by
  obtain ⟨p', h1, h2⟩ := i.inv.step dflt hso hne (.default d junk) trivial trivial
  change p.step triv dflt (so d) _ = _ at h1
  change Inv triv so p' (sstep (so d).length _ _) at h2
  refine ⟨p', h1, ?_⟩
  simp only [sstep] at h2
  simp only [vnext]
  by_cases hf : p.free d = true
  · have hf' := i.free.mp hf
    have hd : d < p.lays.length := by rw [← i.alen]; exact hf'.1
    have e := shapes_put a d (⟨List.replicate (so d).length 0, false, fun _ => none⟩ : Val V)
    rw [put_set hf'] at e ⊢
    rw [← e] at h2
    have hany : (List.replicate (so d).length 0).any (· == 0) = true := by
      cases hsd : so d with
      | nil => exact absurd hsd (hne d)
      | cons x xs => simp [List.replicate_succ]
    simp only [AProg.step, hf, if_true, IdxMap.default, hany, Option.bind_eq_bind, Option.bind_some, Prog.setVar] at h1
    cases h1
    refine i.frame1 hd h2 (fun b _ _ => rfl) ?_
    rintro y hy
    cases hy
    refine ⟨⟨hso d, by simp [mkInit], by simp [mkInit, hj], by simp [mkInit]⟩, fun _ idx v _ h => by cases h⟩
  · simp only [AProg.step, hf] at h1
    cases h1
    rw [put_same (fun h => hf (i.free.mpr h))]; exact i

theorem make_ok (dflt : V) (hso : ∀ i, IsPerm (so i)) (hne : ∀ i, so i ≠ []) (i : VInv triv so p a) (d : Nat) {shape : List Int} (hs : IsShape (so d) shape) :
    Steps triv dflt so p a (.make d shape) := by
  obtain ⟨p', h1, h2⟩ := i.inv.step dflt hso hne (.make d shape) hs trivial
  change p.step triv dflt (so d) _ = _ at h1
  change Inv triv so p' (sstep (so d).length _ _) at h2
  refine ⟨p', h1, ?_⟩
  simp only [sstep] at h2
  simp only [vnext]
  by_cases hf : p.free d = true
  · have hf' := i.free.mp hf
    have hd : d < p.lays.length := by rw [← i.alen]; exact hf'.1
    have hdv : d < p.prog.vars.length := by rw [i.inv.rel.vlen]; omega
    have hv : p.prog.var d = none := by
      simp only [AProg.free, Bool.and_eq_true, decide_eq_true_eq, Option.isNone_iff_eq_none] at hf; exact hf.2
    have e := shapes_put a d (⟨shape, false, fun _ => if triv then none else some dflt⟩ : Val V)
    rw [put_set hf'] at e ⊢
    rw [← e] at h2
    obtain ⟨m, g1, g2, g3, g4, -⟩ := layoutOf_spec (hso d) hs
    have hnew : (prod shape = 0 ∧ p.prog.mem.new triv dflt (prod shape).toNat = some (Handle.null, p.prog.mem)) ∨
        p.prog.mem.new triv dflt (prod shape).toNat = some (.heap (some p.prog.mem.hp.length) (prod shape).toNat none,
          { p.prog.mem with hp := p.prog.mem.hp ++ [⟨List.replicate (prod shape).toNat (if triv then none else some dflt), false⟩] }) := by
      unfold Mem.new
      by_cases hn : (prod shape).toNat = 0
      · left; exact ⟨by omega, by rw [if_pos hn]⟩
      · right
        rw [if_neg hn]
        cases triv with
        | true => simp [Heap.alloc]
        | false =>
            have := Own.construct_fresh false p.prog.mem.hp (fun _ _ => some dflt) (prod shape).toNat (List.replicate (prod shape).toNat dflt) (by simp)
              (fun j _ hj => by rw [List.getElem?_replicate, if_pos hj])
            simp only [Heap.alloc, Bool.false_eq_true, if_false, this]
            simp
    simp only [AProg.step, hf, if_true, g1, Option.bind_eq_bind, Option.bind_some] at h1
    rw [if_neg (by omega), g3] at h1
    simp only [Prog.step, hv, hdv, and_self, if_true] at h1
    rcases hnew with ⟨h0, hn⟩ | hn
    · rw [hn] at h1
      simp only [Option.bind_eq_bind, Option.bind_some, Prog.setVar] at h1
      cases h1
      refine i.frame1 hd h2 (fun b _ _ => rfl) ?_
      rintro y hy
      cases hy
      exact ⟨layoutOf_wf (hso _) hs g1, fun _ idx v hi _ => absurd h0 (prod_pos_of_inRange (hso _) hs hi)⟩
    · rw [hn] at h1
      simp only [Option.bind_eq_bind, Option.bind_some, Prog.setVar] at h1
      cases h1
      refine i.frame1 hd h2 (fun b hb _ => append_frame _ hb) ?_
      rintro y hy
      cases hy
      refine ⟨layoutOf_wf (hso _) hs g1, fun _ idx v hi hval => ?_⟩
      cases triv with
      | true => simp at hval
      | false =>
          simp only [Bool.false_eq_true, if_false, Option.some.injEq] at hval
          subst hval
          exact elem_replicate (hso _) hs g1 hd hdv (n := (prod shape).toNat) (by simp) (by omega) hi
  · simp only [AProg.step, hf] at h1
    cases h1
    rw [put_same (fun h => hf (i.free.mpr h))]; exact i

theorem zeros_ok (dflt : V) (hso : ∀ i, IsPerm (so i)) (hne : ∀ i, so i ≠ []) (i : VInv triv so p a) (d : Nat) {shape : List Int} (hs : IsShape (so d) shape) :
    Steps triv dflt so p a (.zeros d shape) := by
  obtain ⟨p', h1, h2⟩ := i.inv.step dflt hso hne (.zeros d shape) hs trivial
  change p.step triv dflt (so d) _ = _ at h1
  change Inv triv so p' (sstep (so d).length _ _) at h2
  refine ⟨p', h1, ?_⟩
  simp only [sstep] at h2
  simp only [vnext]
  by_cases hf : p.free d = true
  · have hf' := i.free.mp hf
    have hd : d < p.lays.length := by rw [← i.alen]; exact hf'.1
    have hdv : d < p.prog.vars.length := by rw [i.inv.rel.vlen]; omega
    have hv : p.prog.var d = none := by
      simp only [AProg.free, Bool.and_eq_true, decide_eq_true_eq, Option.isNone_iff_eq_none] at hf; exact hf.2
    have e := shapes_put a d (⟨shape, false, fun _ => some dflt⟩ : Val V)
    rw [put_set hf'] at e ⊢
    rw [← e] at h2
    obtain ⟨m, g1, g2, g3, g4, -⟩ := layoutOf_spec (hso d) hs
    simp only [AProg.step, hf, if_true, g1, Option.bind_eq_bind, Option.bind_some] at h1
    rw [if_neg (by omega), g3] at h1
    simp only [Prog.step, hv, hdv, and_self, if_true, Mem.newZero] at h1
    by_cases h0 : (prod shape).toNat = 0
    · rw [if_pos h0] at h1
      simp only [Option.bind_eq_bind, Option.bind_some, Prog.setVar] at h1
      cases h1
      refine i.frame1 hd h2 (fun b _ _ => rfl) ?_
      rintro y hy
      cases hy
      exact ⟨layoutOf_wf (hso _) hs g1, fun _ idx v hi _ => absurd (by omega) (prod_pos_of_inRange (hso _) hs hi)⟩
    · rw [if_neg h0] at h1
      simp only [Heap.alloc, Own.set_append_new, Option.bind_eq_bind, Option.bind_some, Prog.setVar] at h1
      cases h1
      refine i.frame1 hd h2 (fun b hb _ => append_frame _ hb) ?_
      rintro y hy
      cases hy
      refine ⟨layoutOf_wf (hso _) hs g1, fun _ idx v hi hval => ?_⟩
      simp only [Option.some.injEq] at hval
      subst hval
      exact elem_replicate (hso _) hs g1 hd hdv (n := (prod shape).toNat) (by simp) (by omega) hi
  · simp only [AProg.step, hf] at h1
    cases h1
    rw [put_same (fun h => hf (i.free.mpr h))]; exact i

/-- A copy of the handle holds the same cells. -/
theorem copy_data (i : VInv triv so p a) {s : Nat} {y : Option Nat} {n : Nat} (hs3 : p.prog.var s = some (.heap y n none)) :
    ∃ z m1, p.prog.mem.copy triv (.heap y n none) = some (.heap z n none, m1) ∧ (∀ b, b < p.prog.mem.hp.length → m1.hp[b]? = p.prog.mem.hp[b]?) ∧
      ((n = 0 ∧ z = none) ∨ ∃ blk : Block V, z = some p.prog.mem.hp.length ∧ blk.freed = false ∧ m1.hp[p.prog.mem.hp.length]? = some blk ∧ dataOf p s = some blk) := by
  rcases i.inv.own.copy_cells (Prog.mem_handles (s := s) hs3) with ⟨h0, h⟩ | ⟨b, cells, rfl, hF, hl, h⟩
  · subst h0; exact ⟨none, _, h, fun _ _ => rfl, Or.inl ⟨rfl, rfl⟩⟩
  · refine ⟨_, _, h, fun b hb => append_frame _ hb, Or.inr ⟨⟨cells, false⟩, rfl, rfl, by simp, ?_⟩⟩
    simp only [dataOf, blockOf, hs3, Option.bind_some, Handle.data]
    exact hl

theorem copy_ok (dflt : V) (hso : ∀ i, IsPerm (so i)) (hne : ∀ i, so i ≠ []) (i : VInv triv so p a) (d s : Nat) (hty : so d = so s) : Steps triv dflt so p a (.copy d s) := by
  obtain ⟨p', h1, h2⟩ := i.inv.step dflt hso hne (.copy d s) trivial hty
  change p.step triv dflt (so d) _ = _ at h1
  change Inv triv so p' (sstep (so d).length _ _) at h2
  refine ⟨p', h1, ?_⟩
  simp only [sstep, shapes_get] at h2
  simp only [vnext]
  cases hx : a.get s with
  | none =>
      simp only [AProg.step, i.dead hx, Bool.and_false] at h1
      cases h1; exact i
  | some x =>
      obtain ⟨m, y, n, hal, hs1, hs2, hs3, hs4, hs5, hs6, hs7, hs8⟩ := i.alive hx
      rw [hx] at h2
      simp only [Option.map_some] at h2
      by_cases hf : p.free d = true
      · have hf' := i.free.mp hf
        have hd : d < p.lays.length := by rw [← i.alen]; exact hf'.1
        have hdv : d < p.prog.vars.length := by rw [i.inv.rel.vlen]; omega
        have hv : p.prog.var d = none := by
          simp only [AProg.free, Bool.and_eq_true, decide_eq_true_eq, Option.isNone_iff_eq_none] at hf; exact hf.2
        have e := shapes_put a d x
        simp only
        rw [put_set hf'] at e ⊢
        rw [← e] at h2
        obtain ⟨z, m1, c1, c2, c3⟩ := copy_data i hs3
        simp only [AProg.step, hf, hal, Bool.and_self, if_true, hs2, Option.bind_eq_bind, Option.bind_some, Prog.step, hs3, hv, hdv, and_self, c1, Prog.setVar] at h1
        cases h1
        refine i.frame1 hd h2 (fun b hb _ => c2 b hb) ?_
        rintro w hw
        cases hw
        refine ⟨i.wf s m (by rw [hx]; simp) hs2, fun hmv idx v hi hval => ?_⟩
        have hold := i.holds s x hx hmv idx v hi hval
        rcases c3 with ⟨h0, -⟩ | ⟨blk, rfl, hfr, hb1, hb2⟩
        · rw [hmv] at hs7
          simp only [Bool.false_eq_true, if_false] at hs7
          exact absurd (by omega) (prod_pos_of_inRange (hso _) hs5 hi)
        · rw [elem_congr (p := p) (j := s) (by simp [hd, hs2]) (by rw [dataOf_put hdv hb1 hfr, hb2])]
          exact hold
      · simp only [AProg.step, hf, Bool.false_and] at h1
        cases h1
        simp only
        rw [put_same (fun h => hf (i.free.mpr h))]; exact i

theorem copyAssign_ok (dflt : V) (hso : ∀ i, IsPerm (so i)) (hne : ∀ i, so i ≠ []) (i : VInv triv so p a) (d s : Nat) (hty : so d = so s) : Steps triv dflt so p a (.copyAssign d s) := by
  obtain ⟨p', h1, h2⟩ := i.inv.step dflt hso hne (.copyAssign d s) trivial hty
  change p.step triv dflt (so d) _ = _ at h1
  change Inv triv so p' (sstep (so d).length _ _) at h2
  refine ⟨p', h1, ?_⟩
  simp only [sstep, shapes_get] at h2
  simp only [vnext]
  cases hx : a.get s with
  | none =>
      simp only [AProg.step, i.dead hx, Bool.and_false] at h1
      cases h1; exact i
  | some x =>
      obtain ⟨m, y, n, hal, hs1, hs2, hs3, hs4, hs5, hs6, hs7, hs8⟩ := i.alive hx
      rw [hx] at h2
      cases hw : a.get d with
      | none =>
          simp only [AProg.step, i.dead hw, Bool.false_and] at h1
          cases h1
          simp only [Vals.upd, hw, if_true]; exact i
      | some w =>
          obtain ⟨md, yd, nd, hald, hd1, hd2, hd3, -⟩ := i.alive hw
          have hdv : d < p.prog.vars.length := by rw [i.inv.rel.vlen]; omega
          rw [hw] at h2
          simp only [Option.map_some] at h2
          simp only [Vals.upd, hw, reduceCtorEq, if_false]
          have e := shapes_set a d (some x)
          simp only [Option.map_some] at e
          rw [← e] at h2
          obtain ⟨z, m1, c1, c2, c3⟩ := copy_data i hs3
          simp only [AProg.step, hald, hal, Bool.and_self, if_true, hs2, Option.bind_eq_bind, Option.bind_some, Prog.step, hs3, hd3, c1] at h1
          cases hdr : m1.drop triv yd nd none with
          | none => rw [hdr] at h1; cases h1
          | some m2 =>
              rw [hdr] at h1
              simp only [Option.bind_some, Mem.release, Mem.dtor, Handle.null, Mem.drop, Prog.setVar] at h1
              simp at h1
              cases h1
              have hblk : blockOf p d = yd := by simp [blockOf, hd3, Handle.data]
              refine i.frame1 hd1 h2 (fun b hb hne' => ?_) ?_
              · rw [drop_frame hdr (by rw [← hblk]; exact hne')]; exact c2 b hb
              · rintro w' hw'
                cases hw'
                refine ⟨i.wf s m (by rw [hx]; simp) hs2, fun hmv idx v hi hval => ?_⟩
                have hold := i.holds s x hx hmv idx v hi hval
                rcases c3 with ⟨h0, -⟩ | ⟨blk, rfl, hfr, hb1, hb2⟩
                · rw [hmv] at hs7
                  simp only [Bool.false_eq_true, if_false] at hs7
                  exact absurd (by omega) (prod_pos_of_inRange (hso _) hs5 hi)
                · have hyd : yd ≠ some p.prog.mem.hp.length := by
                    intro h
                    have := (i.blocks (c := d) (d := d + 1) (by omega) hw (hblk.trans h)).2
                    omega
                  rw [elem_congr (p := p) (j := s) (by simp [hd1, hs2]) (by rw [dataOf_put hdv (by rw [drop_frame hdr hyd]; exact hb1) hfr, hb2])]
                  exact hold

/-- The array `s` is handed over to `d`. -/
theorem move_frame (hso : ∀ i, IsPerm (so i)) (i : VInv triv so p a) {d s : Nat} (hd : d < p.lays.length) {x : Val V} (hx : a.get s = some x) {m : IdxMap} {y : Option Nat} {n : Nat}
    (hs2 : p.lays[s]? = some m) (hs3 : p.prog.var s = some (.heap y n none)) {mem : Mem V}
    (hI : Inv triv so (⟨⟨mem, (p.prog.vars.set d (some (.heap y n none))).set s (some Handle.null)⟩, p.lays.set d m⟩ : AProg V)
      (shapes ((a.set d (some x)).set s (some ⟨x.shape, true, fun _ => none⟩))))
    (hmem : ∀ b, blockOf p d ≠ some b → mem.hp[b]? = p.prog.mem.hp[b]?) :
    VInv triv so (⟨⟨mem, (p.prog.vars.set d (some (.heap y n none))).set s (some Handle.null)⟩, p.lays.set d m⟩ : AProg V)
      ((a.set d (some x)).set s (some ⟨x.shape, true, fun _ => none⟩)) := by
  have hsl : s < a.length := by
    rw [i.alen]
    obtain ⟨_, _, _, -, h, -⟩ := i.alive hx
    exact h
  have hwf := i.wf s m (by rw [hx]; simp) hs2
  refine i.frame hI (fun j => j = d ∨ j = s) (fun j hj => ?_) (fun b hb ht => hmem b (ht d (Or.inl rfl))) ?_
  · simp only [not_or] at hj
    refine ⟨by rw [set_get_ne hj.2, set_get_ne hj.1], ?_, ?_⟩
    · simp only; rw [List.getElem?_set_ne (Ne.symm hj.1)]
    · simp only [Prog.var]; rw [List.getElem?_set_ne (Ne.symm hj.2), List.getElem?_set_ne (Ne.symm hj.1)]
  · intro j hj z hz
    by_cases e : j = s
    · subst e
      rw [set_get_self (by simpa using hsl)] at hz
      cases hz
      refine ⟨fun m' hm' => ?_, fun h => by cases h⟩
      by_cases e : d = j
      · subst e
        simp only [List.getElem?_set_self hd, Option.some.injEq] at hm'
        rw [← hm']; exact hwf
      · simp only at hm'
        rw [List.getElem?_set_ne e, hs2] at hm'
        cases hm'; exact hwf
    · have hjd : j = d := hj.resolve_right e
      subst hjd
      rw [set_get_ne e, set_get_self (by rw [i.alen]; exact hd)] at hz
      cases hz
      refine ⟨fun m' hm' => ?_, fun hmv idx v hi hval => ?_⟩
      · simp only [List.getElem?_set_self hd, Option.some.injEq] at hm'
        rw [← hm']; exact hwf
      · rw [elem_congr (p := p) (j := s) (by simp [hd, hs2]) ?_]
        · exact i.holds s x hx hmv idx v hi hval
        · have hjv : j < p.prog.vars.length := by rw [i.inv.rel.vlen]; omega
          have hb : blockOf (⟨⟨mem, (p.prog.vars.set j (some (.heap y n none))).set s (some Handle.null)⟩, p.lays.set j m⟩ : AProg V) j = blockOf p s := by
            simp only [Prog.var] at hs3
            simp only [blockOf, hs3, Prog.var]
            rw [List.getElem?_set_ne (Ne.symm e), List.getElem?_set_self hjv]; rfl
          simp only [dataOf, hb]
          cases hbb : blockOf p s with
          | none => rfl
          | some b =>
              simp only [Option.bind_some]
              exact live_congr (hmem b (i.blocks (c := s) (d := j) (Ne.symm e) hx hbb).1)

theorem move_ok (dflt : V) (hso : ∀ i, IsPerm (so i)) (hne : ∀ i, so i ≠ []) (i : VInv triv so p a) (d s : Nat) (hty : so d = so s) : Steps triv dflt so p a (.move d s) := by
  obtain ⟨p', h1, h2⟩ := i.inv.step dflt hso hne (.move d s) trivial hty
  change p.step triv dflt (so d) _ = _ at h1
  change Inv triv so p' (sstep (so d).length _ _) at h2
  refine ⟨p', h1, ?_⟩
  simp only [sstep, shapes_get] at h2
  simp only [vnext]
  cases hx : a.get s with
  | none =>
      simp only [AProg.step, i.dead hx, Bool.and_false] at h1
      cases h1; exact i
  | some x =>
      obtain ⟨m, y, n, hal, hs1, hs2, hs3, hs4, hs5, hs6, hs7, hs8⟩ := i.alive hx
      rw [hx] at h2
      simp only [Option.map_some, show (shapes a).length = a.length from by simp [shapes], Option.map_eq_none_iff] at h2
      by_cases hf : p.free d = true
      · have hf' := i.free.mp hf
        have hd : d < p.lays.length := by rw [← i.alen]; exact hf'.1
        have hdv : d < p.prog.vars.length := by rw [i.inv.rel.vlen]; omega
        have hv : p.prog.var d = none := by
          simp only [AProg.free, Bool.and_eq_true, decide_eq_true_eq, Option.isNone_iff_eq_none] at hf; exact hf.2
        simp only
        rw [if_pos hf'] at h2 ⊢
        have e : shapes ((a.set d (some x)).set s (some ⟨x.shape, true, fun _ => none⟩)) = ((shapes a).set d (some (x.shape, x.moved))).set s (some (x.shape, true)) := by
          rw [shapes_set, shapes_set]; rfl
        rw [← e] at h2
        simp only [AProg.step, hf, hal, Bool.and_self, if_true, hs2, Option.bind_eq_bind, Option.bind_some, Prog.step, hs3, hv, hdv, and_self, Prog.setVar] at h1
        cases h1
        exact move_frame hso i hd hx hs2 hs3 h2 (fun b _ => rfl)
      · simp only [AProg.step, hf, Bool.false_and] at h1
        cases h1
        simp only
        rw [if_neg (fun h => hf (i.free.mpr h))]; exact i

theorem moveAssign_ok (dflt : V) (hso : ∀ i, IsPerm (so i)) (hne : ∀ i, so i ≠ []) (i : VInv triv so p a) (d s : Nat) (hty : so d = so s) : Steps triv dflt so p a (.moveAssign d s) := by
  obtain ⟨p', h1, h2⟩ := i.inv.step dflt hso hne (.moveAssign d s) trivial hty
  change p.step triv dflt (so d) _ = _ at h1
  change Inv triv so p' (sstep (so d).length _ _) at h2
  refine ⟨p', h1, ?_⟩
  simp only [sstep, shapes_get] at h2
  simp only [vnext]
  cases hx : a.get s with
  | none =>
      simp only [AProg.step, i.dead hx, Bool.and_false] at h1
      cases h1; exact i
  | some x =>
      obtain ⟨m, y, n, hal, hs1, hs2, hs3, hs4, hs5, hs6, hs7, hs8⟩ := i.alive hx
      rw [hx] at h2
      cases hw : a.get d with
      | none =>
          simp only [AProg.step, i.dead hw, Bool.false_and] at h1
          cases h1
          simp only [if_true]; exact i
      | some w =>
          obtain ⟨md, yd, nd, hald, hd1, hd2, hd3, -⟩ := i.alive hw
          rw [hw] at h2
          simp only [Option.map_some] at h2
          simp only [reduceCtorEq, if_false]
          have e : shapes ((a.set d (some x)).set s (some ⟨x.shape, true, fun _ => none⟩)) = ((shapes a).set d (some (x.shape, x.moved))).set s (some (x.shape, true)) := by
            rw [shapes_set, shapes_set]; rfl
          rw [← e] at h2
          have hblk : blockOf p d = yd := by simp [blockOf, hd3, Handle.data]
          simp only [AProg.step, hald, hal, Bool.and_self, if_true, hs2, Option.bind_eq_bind, Option.bind_some, Prog.step, hs3, hd3] at h1
          cases hdr : p.prog.mem.drop triv yd nd none with
          | none => rw [hdr] at h1; cases h1
          | some m2 =>
              rw [hdr] at h1
              have hfr : ∀ b, blockOf p d ≠ some b → m2.hp[b]? = p.prog.mem.hp[b]? := fun b hb => drop_frame hdr (by rw [← hblk]; exact hb)
              have key : p' = (⟨⟨m2, (p.prog.vars.set d (some (.heap y n none))).set s (some Handle.null)⟩, p.lays.set d m⟩ : AProg V) := by
                simp only [Option.bind_some] at h1
                by_cases e : d = s
                · subst e
                  rw [if_pos rfl] at h1
                  simp only [Option.bind_some, Prog.setVar] at h1
                  cases h1
                  rw [List.set_set]; rfl
                · rw [if_neg e] at h1
                  simp only [Mem.release, Option.bind_some, Prog.setVar] at h1
                  cases h1; rfl
              subst key
              exact move_frame hso i hd1 hx hs2 hs3 h2 hfr

theorem resize_ok (dflt : V) (hso : ∀ i, IsPerm (so i)) (i : VInv triv so p a) (d : Nat) {shape : List Int} (hs : IsShape (so d) shape) :
    Steps triv dflt so p a (.resize d shape) := by
  cases hw : a.get d with
  | none =>
      refine ⟨p, ?_, ?_⟩
      · simp only [AProg.vstep, AProg.step, i.dead hw, Bool.false_eq_true, if_false]
      · simp only [vnext, hw]; exact i
  | some x =>
      obtain ⟨md, yd, nd, hald, hd1, hd2, hd3, hd4, hd5, hd6, hd7, hd8⟩ := i.alive hw
      obtain ⟨m, y', mem, h1, h2, h3, h4, h5, h6, h7⟩ := resize_spec dflt hso i.inv hd1 hd3 hs
      refine ⟨_, by simp only [AProg.vstep, AProg.step, hald, if_true]; exact h2, ?_⟩
      simp only [vnext, hw]
      have hblk : blockOf p d = yd := by simp [blockOf, hd3, Handle.data]
      refine i.frame1 hd1 ?_ (fun b hb hne => h4 b hb (by rw [← hblk]; exact Ne.symm hne)) ?_
      · rw [shapes_set]; exact h3
      · rintro w hw'
        cases hw'
        refine ⟨layoutOf_wf (hso _) hs h1, fun _ idx v hi hval => ?_⟩
        simp only at hval hi
        split at hval
        · rename_i hc
          obtain ⟨hmv, rfl⟩ := hc
          rw [hmv] at hd7
          simp only [Bool.false_eq_true, if_false] at hd7
          have h0 := prod_pos_of_inRange (hso _) hs hi
          obtain ⟨b, cells, rfl, hl, hF⟩ := hd8 h0 hmv
          obtain ⟨rfl, rfl⟩ := h5 hd7 (Or.inl (by simp))
          have hml : layoutOf (so d) x.shape = some md := hd6.resolve_right h0
          rw [h1] at hml; cases hml
          have hdv : d < p.prog.vars.length := by rw [i.inv.rel.vlen]; omega
          rw [elem_congr (p := p) (j := d) (by rw [lays_self hd2]) ?_]
          · exact i.holds d x hw hmv idx v hi hval
          · rw [dataOf_put hdv (Heap.live_some.mp hl).1 rfl]
            simp only [dataOf, hblk, Option.bind_some, hl]
        · cases hval

theorem destroy_ok (dflt : V) (hso : ∀ i, IsPerm (so i)) (hne : ∀ i, so i ≠ []) (i : VInv triv so p a) (d : Nat) : Steps triv dflt so p a (.destroy d) := by
  obtain ⟨p', h1, h2⟩ := i.inv.step dflt hso hne (.destroy d) trivial trivial
  change p.step triv dflt (so d) _ = _ at h1
  change Inv triv so p' (sstep (so d).length _ _) at h2
  refine ⟨p', h1, ?_⟩
  simp only [sstep] at h2
  simp only [vnext]
  cases hw : a.get d with
  | none =>
      simp only [AProg.step, i.dead hw] at h1
      cases h1
      have e : a.set d none = a := by
        by_cases hd : d < a.length
        · rw [Vals.get, List.getElem?_eq_getElem hd] at hw
          simp at hw
          rw [← hw]; exact List.set_getElem_self hd
        · exact List.set_eq_of_length_le (by omega)
      rw [e]; exact i
  | some x =>
      obtain ⟨md, yd, nd, hald, hd1, hd2, hd3, -⟩ := i.alive hw
      have e := shapes_set a d none
      simp only [Option.map_none] at e
      rw [← e] at h2
      have hblk : blockOf p d = yd := by simp [blockOf, hd3, Handle.data]
      simp only [AProg.step, hald, if_true, Prog.step, hd3, Mem.dtor, Option.bind_eq_bind] at h1
      cases hdr : p.prog.mem.drop triv yd nd none with
      | none => rw [hdr] at h1; cases h1
      | some m2 =>
          rw [hdr] at h1
          simp only [Option.bind_some, Mem.release, Prog.setVar] at h1
          cases h1
          have hl := lays_self hd2
          have := i.frame1 hd1 (x := none) (m := md) (h := none) (mem := m2) (by rw [hl]; exact h2)
            (fun b hb hne' => drop_frame hdr (by rw [← hblk]; exact hne')) nofun
          rw [hl] at this; exact this

theorem fill_ok (dflt : V) (hso : ∀ i, IsPerm (so i)) (hne : ∀ i, so i ≠ []) (i : VInv triv so p a) (d : Nat) (v : V) (ha : ∀ x, a.get d = some x → x.moved = true → prod x.shape = 0) :
    Steps triv dflt so p a (.fill d v) := by
  obtain ⟨p', h1, h2⟩ := i.inv.step dflt hso hne (.fill d v) (fun x hx => by
    rw [shapes_get] at hx
    obtain ⟨y, hy, e⟩ := Option.map_eq_some_iff.mp hx
    simp only [Prod.mk.injEq] at e
    rw [← e.1]; exact ha y hy e.2) trivial
  change p.step triv dflt (so d) _ = _ at h1
  change Inv triv so p' (sstep (so d).length _ _) at h2
  refine ⟨p', h1, ?_⟩
  simp only [sstep] at h2
  simp only [vnext]
  cases hw : a.get d with
  | none =>
      simp only [AProg.step, i.dead hw] at h1
      cases h1; exact i
  | some x =>
      obtain ⟨md, yd, nd, hald, hd1, hd2, hd3, hd4, hd5, hd6, hd7, hd8⟩ := i.alive hw
      have hdv : d < p.prog.vars.length := by rw [i.inv.rel.vlen]; omega
      have hsh : shapes (a.set d (some { x with el := fun _ => some v })) = shapes a := by
        rw [shapes_set]
        have := shapes_get a d
        rw [hw] at this
        simp only [Shapes.get, Option.map_some] at this ⊢
        have hlt : d < (shapes a).length := by simp only [shapes, List.length_map]; rw [i.alen]; exact hd1
        rw [List.getElem?_eq_getElem hlt] at this
        simp only [Option.join_some] at this
        rw [← this]; exact List.set_getElem_self hlt
      have hl := lays_self hd2
      have hvs : p.prog.vars.set d (some (.heap yd nd none)) = p.prog.vars := by
        have : p.prog.vars[d] = some (.heap yd nd none) := by
          rw [Prog.var, List.getElem?_eq_getElem hdv] at hd3; simpa using hd3
        rw [← this]; exact List.set_getElem_self hdv
      have hsz : md.size = prod x.shape := by rw [← hd4]; exact IdxMap.size_eq md
      simp only [AProg.step, hald, if_true, hd2, Option.bind_eq_bind, Option.bind_some] at h1
      by_cases h0 : prod x.shape = 0
      · rw [hsz, h0, forLoop] at h1
        simp only [Int.toNat_zero, List.range_zero, List.foldlM_nil] at h1
        cases h1
        have := i.frame1 hd1 (x := some { x with el := fun _ => some v }) (m := md) (h := some (.heap yd nd none)) (mem := p.prog.mem)
          (by rw [hl, hvs, hsh]; exact h2) (fun _ _ _ => rfl) (by
            rintro w hw'
            cases hw'
            exact ⟨i.wf d md (by rw [hw]; simp) hd2, fun _ idx v hi _ => absurd h0 (prod_pos_of_inRange (hso _) hd5 hi)⟩)
        rw [hl, hvs] at this; exact this
      · have hmv : x.moved = false := by
          by_contra hc
          exact h0 (ha x hw (by simpa using hc))
        rw [hmv] at hd7
        simp only [Bool.false_eq_true, if_false] at hd7
        obtain ⟨b, cells, rfl, hlv, hF⟩ := hd8 h0 hmv
        rw [hsz, ← hd7, fill_spec hd3 hlv hF.1 hF.2 v] at h1
        simp only [Option.bind_some] at h1
        cases h1
        have hml : layoutOf (so d) x.shape = some md := hd6.resolve_right h0
        have hlb := Heap.lt_of_live hlv
        have := i.frame1 hd1 (x := some { x with el := fun _ => some v }) (m := md) (h := some (.heap (some b) nd none))
          (mem := { p.prog.mem with hp := p.prog.mem.hp.set b ⟨List.replicate nd (some v), false⟩ })
          (by rw [hl, hvs, hsh]; exact h2)
          (fun b' _ hne' => by
            have : b ≠ b' := fun e => hne' (by simp [blockOf, hd3, Handle.data, e])
            exact List.getElem?_set_ne this)
          (by
            rintro w hw'
            cases hw'
            refine ⟨i.wf d md (by rw [hw]; simp) hd2, fun _ idx u hi hu => ?_⟩
            simp only [Option.some.injEq] at hu
            subst hu
            exact elem_replicate (hso _) hd5 hml hd1 hdv (n := nd) (List.getElem?_set_self hlb) hd7 hi)
        rw [hl, hvs] at this; exact this

end
end Nda.Arr
