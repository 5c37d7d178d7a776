import Verif.Lemmas.Assign
import Verif.Spec.Blocks
/-!
# Block layouts
-/
namespace Nda.Assign
open Nda Nda.Spec Nda.Perm Nda.LayoutTransforms Nda.Loops Nda.Grid

theorem toInt32_id {x : Int} (h0 : 0 ≤ x) (h : x < 2147483648) : toInt32 x = x := by
  unfold toInt32; rw [Int.bmod_def]; split <;> omega

/-- Total extent of the fastest dimensions of a list of (length, stride). -/
def innerOf : List (Int × Int) → Int
  | [] => 1
  | (l', s') :: _ => s' * l'

theorem blockLoop_cons (size d : Int) (l s : Int) (rest : List (Int × Int)) (st : Blocks) :
    blockLoop size d ((l, s) :: rest) st =
      if s ≠ innerOf rest then
        if st.size < d then some none
        else if innerOf rest = 0 then none
        else blockLoop size d rest ⟨toInt32 (size.tdiv (innerOf rest)), toInt32 (innerOf rest), toInt32 s⟩
      else blockLoop size d rest st := by
  cases rest with
  | nil => rfl
  | cons p rest => cases p; rfl

/-- Facts about regularly spaced dimensions. -/
theorem spaced_facts : ∀ {ls ss : List Int}, ss.length = ls.length → (∀ l ∈ ls, 0 < l) → Spaced ls ss →
    (∀ s ∈ ss, 1 ≤ s ∧ s ≤ ss.headD 0) ∧ prod ls ≤ innerOf (ls.zip ss) ∧ 1 ≤ innerOf (ls.zip ss)
  | [], [], _, _, _ => by simp [innerOf, prod]
  | [l], [s], _, hp, h => by
    have hl := hp l (by simp)
    have h1 : 1 ≤ s := h
    refine ⟨by simpa using h1, ?_, ?_⟩
    · simp only [prod, innerOf, List.zip_cons_cons]; nlinarith
    · simp only [innerOf, List.zip_cons_cons]; nlinarith
  | l :: l' :: ls, s :: s' :: ss, hlen, hp, h => by
    have hl := hp l (by simp)
    have hl' := hp l' (by simp)
    obtain ⟨h1, h2, h3⟩ := spaced_facts (ls := l' :: ls) (ss := s' :: ss) (by simpa using hlen)
      (fun x hx => hp x (List.mem_cons_of_mem _ hx)) h.2
    have hs : s' * l' ≤ s := h.1
    simp only [innerOf, List.zip_cons_cons] at h2 h3 ⊢
    have hs' := (h1 s' (by simp)).1
    have hle : s' ≤ s := by nlinarith
    refine ⟨?_, ?_, by nlinarith⟩
    · intro x hx
      rcases List.mem_cons.mp hx with rfl | hx
      · simp only [List.headD_cons]; omega
      · have := h1 x hx
        simp only [List.headD_cons] at this ⊢
        omega
    · rw [prod]; nlinarith

theorem gaps_cons (l s : Int) {ls ss : List Int} (h : ss.length = ls.length) :
    gaps (l :: ls) (s :: ss) = (if s = innerOf (ls.zip ss) then 0 else 1) + gaps ls ss := by
  cases ls with
  | nil => cases ss with
    | nil => simp [gaps, innerOf]
    | cons a b => simp at h
  | cons l' ls => cases ss with
    | nil => simp at h
    | cons s' ss => rfl

theorem gaps_zero : ∀ {ls ss : List Int}, ss.length = ls.length → gaps ls ss = 0 →
    ss = dense ls ∧ innerOf (ls.zip ss) = prod ls
  | [], [], _, _ => by simp [dense, innerOf, prod]
  | l :: ls, s :: ss, hl, h => by
    have hl' : ss.length = ls.length := by simpa using hl
    rw [gaps_cons l s hl'] at h
    obtain ⟨h1, h2⟩ := gaps_zero hl' (by omega)
    have hs : s = innerOf (ls.zip ss) := by
      by_contra hc; rw [if_neg hc] at h; omega
    refine ⟨by rw [dense, hs, h2, ← h1], ?_⟩
    simp only [innerOf, List.zip_cons_cons, prod]
    rw [hs, h2]; ring

/-- Once a gap has been found. -/
theorem blockLoop_after (size d : Int) : ∀ {ls ss : List Int} (st : Blocks), ss.length = ls.length → st.size < d →
    blockLoop size d (ls.zip ss) st = some (if gaps ls ss = 0 then some st else none)
  | [], [], st, _, _ => by simp [blockLoop, gaps]
  | l :: ls, s :: ss, st, hl, h => by
    have hl' : ss.length = ls.length := by simpa using hl
    rw [List.zip_cons_cons, blockLoop_cons, gaps_cons l s hl']
    by_cases hs : s = innerOf (ls.zip ss)
    · rw [if_neg (by simpa using hs), if_pos hs, Nat.zero_add, blockLoop_after size d st hl' h]
    · rw [if_pos hs, if_pos h, if_neg hs, if_neg (by omega)]

/-- Before any gap has been found. -/
theorem blockLoop_before (size d : Int) (hd : d < 2147483648) (hsz : 0 ≤ size ∧ size ≤ d) :
    ∀ {ls ss : List Int} (st : Blocks), ss.length = ls.length → st.size = d → (∀ l ∈ ls, 0 < l) → Spaced ls ss →
      (∀ s ∈ ss, s ≤ d) →
      (gaps ls ss = 0 ∧ blockLoop size d (ls.zip ss) st = some (some st)) ∨
      (1 < gaps ls ss ∧ blockLoop size d (ls.zip ss) st = some none) ∨
      (gaps ls ss = 1 ∧ ∃ A B s, A ≠ [] ∧ ls = A ++ B ∧ ss = (dense A).map (s * ·) ++ dense B ∧ prod B ≤ s ∧ s ≤ d ∧
        blockLoop size d (ls.zip ss) st = some (some ⟨size.tdiv (prod B), prod B, s⟩))
  | [], [], st, _, _, _, _, _ => Or.inl ⟨rfl, rfl⟩
  | l :: ls, s :: ss, st, hl, hst, hp, hsp, hsd => by
    have hl' : ss.length = ls.length := by simpa using hl
    have hp' : ∀ x ∈ ls, 0 < x := fun x hx => hp x (List.mem_cons_of_mem _ hx)
    have hsp' : Spaced ls ss := by
      cases ls with
      | nil => exact trivial
      | cons l' ls => cases ss with
        | nil => simp at hl'
        | cons s' ss => exact hsp.2
    have hle : innerOf (ls.zip ss) ≤ s := by
      cases ls with
      | nil => cases ss with
        | nil => exact hsp
        | cons s' ss => simp at hl'
      | cons l' ls => cases ss with
        | nil => simp at hl'
        | cons s' ss => exact hsp.1
    have hs_d := hsd s (by simp)
    obtain ⟨f1, f2, f3⟩ := spaced_facts hl' hp' hsp'
    have hpl := prod_pos hp'
    rw [List.zip_cons_cons, blockLoop_cons, gaps_cons l s hl']
    by_cases hs : s = innerOf (ls.zip ss)
    · rw [if_pos hs, if_neg (not_not.mpr hs), Nat.zero_add]
      rcases blockLoop_before size d hd hsz st hl' hst hp' hsp' (fun x hx => hsd x (List.mem_cons_of_mem _ hx)) with
        h | h | ⟨h1, A, B, s', hA, e1, e2, h2, h3, h4⟩
      · exact Or.inl h
      · exact Or.inr (Or.inl h)
      · refine Or.inr (Or.inr ⟨h1, l :: A, B, s', by simp, by simp [e1], ?_, h2, h3, h4⟩)
        obtain ⟨a, A', rfl⟩ := List.exists_cons_of_ne_nil hA
        have : s = s' * prod (a :: A') := by
          rw [hs, e1, e2]
          simp only [dense, List.map_cons, List.cons_append, List.zip_cons_cons, innerOf, prod]
          ring
        rw [dense, List.map_cons, List.cons_append, ← e2, this]
    · have hlt : innerOf (ls.zip ss) < s := by omega
      rw [if_neg hs, if_pos hs, if_neg (by omega), if_neg (by omega)]
      have hq1 : 0 ≤ size.tdiv (innerOf (ls.zip ss)) := Int.tdiv_nonneg hsz.1 (by omega)
      have hq2 : size.tdiv (innerOf (ls.zip ss)) ≤ size := by
        rw [Int.tdiv_eq_ediv_of_nonneg hsz.1]; exact Int.ediv_le_self _ hsz.1
      rw [toInt32_id hq1 (by omega), toInt32_id (by omega) (by omega), toInt32_id (by omega) (by omega)]
      rw [blockLoop_after size d _ hl' (by simp only; omega)]
      by_cases hg : gaps ls ss = 0
      · obtain ⟨g1, g2⟩ := gaps_zero hl' hg
        refine Or.inr (Or.inr ⟨by omega, [l], ls, s, by simp, rfl, ?_, by omega, hs_d, ?_⟩)
        · simp [dense, prod, g1]
        · rw [if_pos hg, g2]
      · exact Or.inr (Or.inl ⟨by omega, by rw [if_neg hg]⟩)

theorem box_append : ∀ (A B : List Int), box (A ++ B) = (box A).flatMap (fun x => (box B).map (fun y => x ++ y))
  | [], B => by simp [box]
  | l :: A, B => by
    simp only [List.cons_append, box, box_append A B, List.flatMap_assoc, List.map_flatMap, List.flatMap_map, List.map_map]
    rfl

theorem dot_append' : ∀ {a b x y : List Int}, a.length = x.length → dot (a ++ b) (x ++ y) = dot a x + dot b y
  | [], _, [], _, _ => by simp [dot]
  | s :: a, b, i :: x, y, h => by
    simp only [List.cons_append, dot]
    rw [dot_append' (by simpa using h)]; ring

theorem walk_of_split {A B : List Int} (hA : NonNeg A) (hB : NonNeg B) (s : Int) :
    (box (A ++ B)).map (dot ((dense A).map (s * ·) ++ dense B)) = blockWalk (prod A) (prod B) s := by
  have h1 := box_lin hA
  have h2 := box_lin hB
  rw [box_append, List.map_flatMap, blockWalk]
  have e : ∀ x ∈ box A, ((box B).map (fun y => x ++ y)).map (dot ((dense A).map (s * ·) ++ dense B)) =
      (List.range (prod B).toNat).map (fun (k : Nat) => lin A x * s + (k : Int)) := by
    intro x hx
    have hxl := (mem_box.mp hx).length_eq
    have : (box B).map (fun y => dot ((dense A).map (s * ·) ++ dense B) (x ++ y)) =
        ((box B).map (lin B)).map (fun t => lin A x * s + t) := by
      rw [List.map_map]
      apply List.map_congr_left
      intro y hy
      rw [dot_append' (by rw [List.length_map, dense_length, hxl]), dot_smul, dot_dense _ _ hxl,
        dot_dense _ _ (mem_box.mp hy).length_eq, mul_comm]
      rfl
    rw [List.map_map]
    refine this.trans ?_
    rw [h2, List.map_map]; rfl
  rw [List.flatMap_congr e]
  have : (box A).flatMap (fun x => (List.range (prod B).toNat).map (fun (k : Nat) => lin A x * s + (k : Int))) =
      ((box A).map (lin A)).flatMap (fun t => (List.range (prod B).toNat).map (fun (k : Nat) => t * s + (k : Int))) := by
    rw [List.flatMap_map]
  rw [this, h1, List.flatMap_map]
  rfl

/-- `get_block_layout` on a regular layout. -/
theorem getBlockLayout_spec {m : IdxMap} (hw : WF m) (hb : BlockOK m) :
    (1 < gaps (memOrder m.so m.len) (memOrder m.so m.str) ∧ getBlockLayout m = some none) ∨
    (gaps (memOrder m.so m.len) (memOrder m.so m.str) ≤ 1 ∧ ∃ b : Blocks, getBlockLayout m = some (some b) ∧
      0 < b.n ∧ 0 < b.size ∧ b.size ≤ b.str ∧ b.n * b.size = prod m.len ∧
      (memBox m.so m.len).map (dot m.str) = blockWalk b.n b.size b.str) := by
  have hl : m.len.length = m.so.length := hw.so_len.symm
  have hs : m.str.length = m.so.length := by rw [hw.str_len, hw.so_len]
  have hsl : (memOrder m.so m.str).length = (memOrder m.so m.len).length := by simp [memOrder_length]
  have hpos : ∀ l ∈ memOrder m.so m.len, 0 < l := fun l h => hb.pos l ((memOrder_perm hw.perm hl).mem_iff.mp h)
  have hoff : (memBox m.so m.len).map (dot m.str) = (box (memOrder m.so m.len)).map (dot (memOrder m.so m.str)) := by
    rw [← memBox_memOrder hw.perm, List.map_map]
    apply List.map_congr_left
    intro x hx
    have : x.length = m.so.length := by
      obtain ⟨y, _, rfl⟩ := List.mem_map.mp hx; exact unperm_length _ _
    exact (dot_memOrder hw.perm hs this).symm
  rw [getBlockLayout, apply_perm_eq_memOrder hw.perm hl, apply_perm_eq_memOrder hw.perm hs, hoff, IdxMap.size_eq,
    ← prod_memOrder hw.perm hl]
  have hsp := hb.spaced
  have hsm := hb.small
  have hne : memOrder m.so m.len ≠ [] := by
    intro h; have := congrArg List.length h; rw [memOrder_length] at this
    exact hb.ne (List.length_eq_zero_iff.mp (by simpa [hl] using this))
  generalize memOrder m.so m.len = ls at *
  generalize memOrder m.so m.str = ss at *
  obtain ⟨l0, ls', rfl⟩ := List.exists_cons_of_ne_nil hne
  obtain ⟨s0, ss', rfl⟩ : ∃ a b, ss = a :: b := by
    cases ss with
    | nil => simp at hsl
    | cons a b => exact ⟨a, b, rfl⟩
  simp only [Option.bind_eq_bind, Option.bind_some]
  simp only [List.headD_cons] at hsm
  obtain ⟨f1, f2, f3⟩ := spaced_facts hsl hpos hsp
  have hin : innerOf ((l0 :: ls').zip (s0 :: ss')) = l0 * s0 := by simp [innerOf, mul_comm]
  rw [hin] at f2 f3
  have hd : toInt32 (l0 * s0) = l0 * s0 := toInt32_id (by omega) hsm
  rw [hd]
  have hl0 := hpos l0 (by simp)
  have hpp := prod_pos hpos
  have hnn : NonNeg (l0 :: ls') := fun x hx => (hpos x hx).le
  have hsd : ∀ s ∈ s0 :: ss', s ≤ l0 * s0 := by
    intro s hs'
    have h1 := f1 s hs'
    have h2 := (f1 s0 (by simp)).1
    simp only [List.headD_cons] at h1
    nlinarith
  rcases blockLoop_before (prod (l0 :: ls')) (l0 * s0) hsm ⟨by omega, f2⟩ ⟨1, l0 * s0, l0 * s0⟩ hsl rfl hpos hsp hsd with
    ⟨h, e⟩ | ⟨h, e⟩ | ⟨h, A, B, s, hA, e1, e2, h2, h3, e⟩
  · right
    obtain ⟨g1, g2⟩ := gaps_zero hsl h
    rw [hin] at g2
    refine ⟨by omega, _, e, by simp, by simp only; omega, le_refl _, by simp only [one_mul]; exact g2, ?_⟩
    simp only [g2]
    have := walk_of_split (A := []) (B := l0 :: ls') (by intro x hx; simp at hx) hnn (prod (l0 :: ls'))
    simpa [dense, g1, prod] using this
  · exact Or.inl ⟨h, e⟩
  · right
    have hpA : ∀ x ∈ A, 0 < x := fun x hx => hpos x (by rw [e1]; simp [hx])
    have hpB : ∀ x ∈ B, 0 < x := fun x hx => hpos x (by rw [e1]; simp [hx])
    have hA' := prod_pos hpA
    have hB' := prod_pos hpB
    have hq : (prod (l0 :: ls')).tdiv (prod B) = prod A := by
      rw [e1, prod_append, Int.mul_tdiv_cancel _ (by omega)]
    rw [hq] at e
    refine ⟨by omega, _, e, hA', hB', h2, by rw [e1, prod_append], ?_⟩
    simp only
    rw [e1, e2]
    exact walk_of_split (fun x hx => (hpA x hx).le) (fun x hx => (hpB x hx).le) s

end Nda.Assign
