import Verif.Spec.Memory
import Verif.Model.Assign
import Verif.Props.Loops
import Verif.Props.Iterators
/-!
# Sequential assignment
-/
namespace Nda.Assign
open Nda Nda.Spec Nda.Perm Nda.LayoutTransforms Nda.Loops Nda.Grid

variable {α : Type}

theorem rdInt_eq (mem : List α) (k : Int) : rdInt mem k = val mem k := by
  unfold rdInt val
  by_cases h : 0 ≤ k
  · rw [if_pos h, if_neg (by omega)]
  · rw [if_neg h, if_pos (by omega)]

theorem val_isSome {mem : List α} {k : Int} (h : 0 ≤ k ∧ k < mem.length) : ∃ x, val mem k = some x := by
  unfold val
  rw [if_neg (by omega), List.getElem?_eq_getElem (show k.toNat < mem.length by omega)]
  exact ⟨_, rfl⟩

theorem wrInt_spec {mem : List α} {k : Int} (h : 0 ≤ k ∧ k < mem.length) (x : α) :
    ∃ mem', wrInt mem k x = some mem' ∧ mem'.length = mem.length ∧ val mem' k = some x ∧
      ∀ j, j ≠ k → val mem' j = val mem j := by
  refine ⟨mem.set k.toNat x, ?_, by simp, ?_, ?_⟩
  · rw [wrInt, if_pos h.1, wr, if_pos (by omega)]
  · unfold val
    rw [if_neg (by omega), List.getElem?_set_self (by omega)]
  · intro j hj
    unfold val
    split
    · rfl
    · rw [List.getElem?_set_ne (by omega)]

/-- One assignment `*d = f(mem)`. -/
structure Step (α : Type) where
  dst : Int
  rhs : List α → Option α

def exec (mem : List α) (p : Step α) : Option (List α) := do
  let x ← p.rhs mem
  wrInt mem p.dst x

/-- The right-hand sides are not disturbed by the earlier assignments. -/
def Undisturbed (mem : List α) (steps : List (Step α)) : Prop :=
  ∀ pre p post, steps = pre ++ p :: post → ∀ mem2 : List α, mem2.length = mem.length →
    (∀ k, k ∉ pre.map Step.dst → val mem2 k = val mem k) → p.rhs mem2 = p.rhs mem

/-- Assigning one after the other gives every destination the value computed at the start. -/
theorem exec_spec (mem : List α) : ∀ (steps : List (Step α)),
    (∀ p ∈ steps, 0 ≤ p.dst ∧ p.dst < mem.length) → (steps.map Step.dst).Nodup → Undisturbed mem steps →
    (∀ p ∈ steps, ∃ x, p.rhs mem = some x) →
    ∃ mem', steps.foldlM exec mem = some mem' ∧ mem'.length = mem.length ∧
      (∀ p ∈ steps, val mem' p.dst = p.rhs mem) ∧ ∀ k, k ∉ steps.map Step.dst → val mem' k = val mem k := by
  intro steps
  induction steps using List.reverseRecOn with
  | nil => intro _ _ _ _; exact ⟨mem, rfl, rfl, by simp, by simp⟩
  | append_singleton pre p ih =>
    intro hb hnd hu hd
    rw [List.map_append, List.nodup_append] at hnd
    obtain ⟨hnd1, -, hnd2⟩ := hnd
    obtain ⟨m1, e1, hl1, hv1, hf1⟩ := ih (fun q hq => hb q (by simp [hq])) hnd1
      (fun pre' q post' e m2 => hu pre' q (post' ++ [p]) (by simp [e]) m2) (fun q hq => hd q (by simp [hq]))
    obtain ⟨x, hx⟩ := hd p (by simp)
    have hx1 : p.rhs m1 = some x := by rw [hu pre p [] rfl m1 hl1 hf1, hx]
    obtain ⟨m2, e2, hl2, hv2, hf2⟩ := wrInt_spec (mem := m1) (k := p.dst) (by rw [hl1]; exact hb p (by simp)) x
    refine ⟨m2, ?_, by omega, ?_, ?_⟩
    · rw [List.foldlM_append, e1]
      simp [exec, hx1, e2]
    · intro q hq
      rcases List.mem_append.mp hq with hq | hq
      · have : q.dst ≠ p.dst := hnd2 _ (List.mem_map_of_mem hq) _ (by simp)
        rw [hf2 _ this, hv1 q hq]
      · rw [List.mem_singleton] at hq; subst hq
        rw [hv2, hx]
    · intro k hk
      simp only [List.map_append, List.map_cons, List.map_nil, List.mem_append, List.mem_singleton, not_or] at hk
      rw [hf2 k hk.2, hf1 k hk.1]

theorem foldlM_congr {σ β : Type} {f g : σ → β → Option σ} : ∀ (l : List β) (s : σ),
    (∀ x ∈ l, ∀ s, f s x = g s x) → l.foldlM f s = l.foldlM g s
  | [], s, _ => rfl
  | a :: l, s, h => by
    rw [List.foldlM_cons, List.foldlM_cons, h a List.mem_cons_self]
    congr 1; funext s'; exact foldlM_congr l s' (fun x hx => h x (List.mem_cons_of_mem _ hx))

/-! ### Views -/

/-- A view in memory whose layout keeps its promises. -/
structure Good (v : View) (n : Nat) : Prop where
  wf : WF v.lay
  flags : FlagsOK v.lay
  nonneg : NonNeg v.lay.len
  fits : Fits' v n

theorem element_eq {v : View} (hw : WF v.lay) (hf : FlagsOK v.lay) {idx : List Int} (h : InRange v.lay.len idx) :
    element v (idx.map .idx) = some (addr v idx) := by
  rw [element, IdxMap.call_idx hw hf.smallest idx h.length_eq]; rfl

theorem load_eq {v : View} {mem : List α} (hv : Good v mem.length) {idx : List Int} (h : InRange v.lay.len idx) :
    load v idx mem = val mem (addr v idx) := by
  rw [load, element_eq hv.wf hv.flags h]; exact rdInt_eq _ _

/-- Offsets of an evenly spaced layout in memory order. -/
theorem offsets_evenly {m : IdxMap} (hw : WF m) (hn : NonNeg m.len) {c : Int} (hc : EvenlySpaced m c) :
    (memBox m.so m.len).map (dot m.str) = (List.range (prod m.len).toNat).map (fun k => c * Int.ofNat k) := by
  have hl : m.len.length = m.so.length := hw.so_len.symm
  have hs : m.str.length = m.so.length := by rw [hw.str_len, hw.so_len]
  have hmn := (nonNeg_memOrder hw.perm hl).mpr hn
  have hb := box_lin hmn
  rw [prod_memOrder hw.perm hl, ← memBox_memOrder hw.perm, List.map_map] at hb
  have : (memBox m.so m.len).map (dot m.str) =
      ((memBox m.so m.len).map (lin (memOrder m.so m.len) ∘ memOrder m.so)).map (c * ·) := by
    rw [List.map_map]
    apply List.map_congr_left
    intro x hx
    have hx' := ((memEnum_memBox hw.perm hl).mem_iff x).mp hx
    have hxl : x.length = m.so.length := by rw [hx'.length_eq, hl]
    rw [← dot_memOrder hw.perm hs hxl, show memOrder m.so m.str = _ from hc, dot_smul,
      dot_dense _ _ (by rw [memOrder_length, memOrder_length])]
    rfl
  rw [this, hb, List.map_map]; rfl

/-- All addresses of a view, each once. -/
def Enumerates (v : View) (L : List (List Int)) : Prop := L.Nodup ∧ ∀ x, x ∈ L ↔ InRange v.lay.len x

theorem enum_box (v : View) : Enumerates v (box v.lay.len) :=
  ⟨(lexEnum_box _).nodup, fun _ => mem_box⟩

theorem enum_memBox {v : View} (hw : WF v.lay) : Enumerates v (memBox v.lay.so v.lay.len) :=
  ⟨(memEnum_memBox hw.perm hw.so_len.symm).nodup, (memEnum_memBox hw.perm hw.so_len.symm).mem_iff⟩

theorem dst_nodup {v : View} (h1 : OneToOne v) {L : List (List Int)} (hL : Enumerates v L) :
    (L.map (addr v)).Nodup := by
  apply List.Nodup.map_on _ hL.1
  intro x hx y hy e
  exact h1 x y ((hL.2 x).mp hx) ((hL.2 y).mp hy) e

/-- Assigning along an enumeration of `a`, with undisturbed right-hand sides. -/
theorem assign_enum {a : View} {mem : List α} (hfit : Fits' a mem.length) (h1 : OneToOne a) {L : List (List Int)}
    (hL : Enumerates a L) (rhs : List Int → List α → Option α)
    (hu : ∀ pre x post, L = pre ++ x :: post → ∀ mem2 : List α, mem2.length = mem.length →
      (∀ k, (∀ y ∈ pre, addr a y ≠ k) → val mem2 k = val mem k) → rhs x mem2 = rhs x mem)
    (hd : ∀ x ∈ L, ∃ y, rhs x mem = some y) :
    ∃ mem', L.foldlM (fun mem x => exec mem ⟨addr a x, rhs x⟩) mem = some mem' ∧
      Updated a (fun idx => rhs idx mem) mem mem' := by
  have hmap : (L.map (fun x => (⟨addr a x, rhs x⟩ : Step α))).map Step.dst = L.map (addr a) := by
    rw [List.map_map]; rfl
  obtain ⟨mem', e, hl, hv, hf⟩ := exec_spec mem (L.map (fun x => ⟨addr a x, rhs x⟩))
    (by
      intro p hp
      obtain ⟨x, hx, rfl⟩ := List.mem_map.mp hp
      exact hfit x ((hL.2 x).mp hx))
    (by rw [hmap]; exact dst_nodup h1 hL)
    (by
      intro pre p post e mem2 hl hk
      obtain ⟨L1, L2, rfl, e1, e2⟩ := List.map_eq_append_iff.mp e
      obtain ⟨x, L3, rfl, rfl, rfl⟩ := List.map_eq_cons_iff.mp e2
      subst e1
      refine hu L1 x L3 rfl mem2 hl (fun k hk' => hk k ?_)
      intro hmem
      rw [List.map_map] at hmem
      obtain ⟨y, hy, rfl⟩ := List.mem_map.mp hmem
      exact hk' y hy rfl)
    (by
      intro p hp
      obtain ⟨x, hx, rfl⟩ := List.mem_map.mp hp
      exact hd x hx)
  refine ⟨mem', by rw [← e, List.foldlM_map], hl, ?_, ?_⟩
  · intro idx hidx
    exact hv ⟨addr a idx, rhs idx⟩ (List.mem_map_of_mem ((hL.2 idx).mpr hidx))
  · intro k hk
    apply hf
    rw [hmap]
    intro hmem
    obtain ⟨y, hy, rfl⟩ := List.mem_map.mp hmem
    exact hk ⟨y, (hL.2 y).mp hy, rfl⟩

/-- Loops as folds over an enumeration. -/
theorem elementwise_eq {a : View} (hw : WF a.lay) (hf : FlagsOK a.lay) (rhs : Rhs α) (mem : List α) :
    elementwise a rhs mem = (box a.lay.len).foldlM (fun mem x => exec mem ⟨addr a x, fun mem => rhs.get x mem⟩) mem := by
  rw [elementwise, forEach_eq]
  apply foldlM_congr
  intro x hx s
  have hx' := mem_box.mp hx
  simp only [exec, store, element_eq hw hf hx']
  rfl

theorem linear_eq {v : View} (hw : WF v.lay) (h0 : v.lay.len ≠ [] ∨ v.lay.prop = .contiguous) (hs : v.lay.prop.strided1d = true) {c : Int}
    (hc : EvenlySpaced v.lay c) (hf : FlagsOK v.lay) (i : Int) :
    ∃ c', EvenlySpaced v.lay c' ∧ linear v i = some (v.off + c' * i) := by
  by_cases hp : v.lay.prop = .strided
  · have h0' : v.lay.len ≠ [] := h0.resolve_right (by rw [hp]; decide)
    obtain ⟨u, hu, _, hms⟩ := IdxMap.minStride_eq hw h0'
    refine ⟨c, hc, ?_⟩
    rw [linear, if_pos hp, hms]
    rw [IdxMap.fastestIs_of_evenlySpaced hc u hu, mul_comm]; rfl
  · have hcon : v.lay.prop = .contiguous := by
      revert hp hs
      cases v.lay.prop with
      | mk s o =>
        intro hp hs
        cases s <;> cases o <;> simp_all [LayoutProp.strided, LayoutProp.contiguous]
    have hsm := hf.smallest (by rw [hcon]; rfl)
    refine ⟨1, ?_, by rw [linear, if_neg hp, if_pos hcon, one_mul]⟩
    by_cases h0' : v.lay.len = []
    · unfold EvenlySpaced at hc ⊢
      have : v.lay.so = [] := List.length_eq_zero_iff.mp (by rw [hw.so_len, h0']; rfl)
      simp [this, memOrder, dense]
    · obtain ⟨u, hu, _, _⟩ := IdxMap.minStride_eq hw h0'
      have h1 := IdxMap.fastestIs_of_evenlySpaced hc u hu
      rw [hsm u hu] at h1
      rw [h1]; exact hc

theorem linearCopy_eq {a b : View} (hwa : WF a.lay) (hwb : WF b.lay) (hfa : FlagsOK a.lay) (hfb : FlagsOK b.lay)
    (hn : NonNeg a.lay.len) (hlen : b.lay.len = a.lay.len) (hso : a.lay.so = b.lay.so)
    (h0 : a.lay.len ≠ [] ∨ (a.lay.prop = .contiguous ∧ b.lay.prop = .contiguous))
    (hsa : a.lay.prop.strided1d = true) (hsb : b.lay.prop.strided1d = true) (mem : List α) :
    linearCopy a b mem = (memBox a.lay.so a.lay.len).foldlM
      (fun mem x => exec mem ⟨addr a x, fun mem => val mem (addr b x)⟩) mem := by
  obtain ⟨ca, hca⟩ := hfa.strided hsa
  obtain ⟨cb, hcb⟩ := hfb.strided hsb
  have ha0 : a.lay.len ≠ [] ∨ a.lay.prop = .contiguous := h0.imp id And.left
  have hb0 : b.lay.len ≠ [] ∨ b.lay.prop = .contiguous := h0.imp (by rw [hlen]; exact id) And.right
  have hnb : NonNeg b.lay.len := by rw [hlen]; exact hn
  have key : ∀ i : Nat, i < (prod a.lay.len).toNat → ∀ x, (memBox a.lay.so a.lay.len)[i]? = some x →
      linear a i = some (addr a x) ∧ linear b i = some (addr b x) := by
    intro i hi x hx
    obtain ⟨c1, h1, e1⟩ := linear_eq hwa ha0 hsa hca hfa (i : Int)
    obtain ⟨c2, h2, e2⟩ := linear_eq hwb hb0 hsb hcb hfb (i : Int)
    have o1 := congrArg (fun l => l[i]?) (offsets_evenly hwa hn h1)
    have o2 := congrArg (fun l => l[i]?) (offsets_evenly hwb hnb h2)
    rw [hlen, ← hso] at o2
    simp only [List.getElem?_map, hx, Option.map_some, List.getElem?_range hi, Option.some.injEq] at o1 o2
    rw [e1, e2, addr, addr, o1, o2]
    exact ⟨rfl, rfl⟩
  have hbl : (memBox a.lay.so a.lay.len).length = (prod a.lay.len).toNat := by
    have := congrArg List.length (offsets_evenly hwa hn hca)
    simpa using this
  rw [linearCopy, forLoop, IdxMap.size_eq]
  have hfun : ∀ (n : Nat) (hn' : n ≤ (prod a.lay.len).toNat) (s : List α),
      (List.range n).foldlM (fun s i => do
        let sb ← linear b (Int.ofNat i)
        let x ← rdInt s sb
        let d ← linear a (Int.ofNat i)
        wrInt s d x) s = ((memBox a.lay.so a.lay.len).take n).foldlM
      (fun mem x => exec mem ⟨addr a x, fun mem => val mem (addr b x)⟩) s := by
    intro n
    induction n with
    | zero => intro _ s; simp
    | succ n ih =>
      intro hn' s
      have hlt : n < (memBox a.lay.so a.lay.len).length := by omega
      rw [List.range_succ, List.foldlM_append, ih (by omega), List.take_succ_eq_append_getElem hlt, List.foldlM_append]
      congr 1
      funext s'
      obtain ⟨k1, k2⟩ := key n (by omega) _ (List.getElem?_eq_getElem hlt)
      simp only [List.foldlM_cons, List.foldlM_nil, Int.ofNat_eq_natCast, k1, k2, exec, ← rdInt_eq]
      simp
  have := hfun _ (le_refl _) mem
  rw [← hbl, List.take_length] at this
  rw [← hbl]
  exact this

end Nda.Assign
