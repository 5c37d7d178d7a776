import Verif.Lemmas.Blocks
/-!
# Copying by blocks
-/
namespace Nda.Assign
open Nda Nda.Spec Nda.Perm Nda.LayoutTransforms Nda.Loops Nda.Grid

variable {α : Type}

theorem pairs_ext : ∀ {P Q : List (Int × Int)}, P.map Prod.fst = Q.map Prod.fst → P.map Prod.snd = Q.map Prod.snd → P = Q
  | [], [], _, _ => rfl
  | [], _ :: _, h, _ => by simp at h
  | _ :: _, [], h, _ => by simp at h
  | p :: P, q :: Q, h1, h2 => by
    simp only [List.map_cons, List.cons.injEq] at h1 h2
    rw [pairs_ext h1.2 h2.2, Prod.ext h1.1 h2.1]

theorem blockWalk_one (w s t : Int) : blockWalk 1 w s = blockWalk 1 w t := by
  simp [blockWalk]

theorem blockWalk_chunk {n w : Int} (hn : 0 ≤ n) (hw : 0 ≤ w) (s : Int) : blockWalk n w w = blockWalk 1 (n * w) s := by
  obtain ⟨n, rfl⟩ : ∃ k : Nat, n = k := ⟨n.toNat, by omega⟩
  obtain ⟨w, rfl⟩ : ∃ k : Nat, w = k := ⟨w.toNat, by omega⟩
  have e : ((n : Int) * w).toNat = n * w := by rw [← Int.natCast_mul]; rfl
  simp only [blockWalk, Int.toNat_natCast, Int.toNat_one, e]
  induction n with
  | zero => simp
  | succ n ih =>
    rw [List.range_succ, List.flatMap_append, ih (by omega) (by rw [← Int.natCast_mul]; rfl), Nat.succ_mul, List.range_add]
    simp [List.map_map]

/-- Pairs (destination, source) visited by a block copy. -/
def blockPairs (dst dp src sp w n : Int) : List (Int × Int) :=
  (List.range n.toNat).flatMap (fun (i : Nat) => (List.range w.toNat).map (fun (k : Nat) =>
    (dst + Int.ofNat i * dp + Int.ofNat k, src + Int.ofNat i * sp + Int.ofNat k)))

theorem blockPairs_fst (dst dp src sp w n : Int) : (blockPairs dst dp src sp w n).map Prod.fst = (blockWalk n w dp).map (dst + ·) := by
  simp only [blockPairs, blockWalk, List.map_flatMap, List.map_map]
  congr 1; funext i
  apply List.map_congr_left
  intro k _
  simp; ring

theorem blockPairs_snd (dst dp src sp w n : Int) : (blockPairs dst dp src sp w n).map Prod.snd = (blockWalk n w sp).map (src + ·) := by
  simp only [blockPairs, blockWalk, List.map_flatMap, List.map_map]
  congr 1; funext i
  apply List.map_congr_left
  intro k _
  simp; ring

theorem memcpy2D_eq {dst dp src sp w n : Int} (hw : 0 ≤ w) (hn : 0 ≤ n) (h1 : w ≤ dp) (h2 : w ≤ sp)
    (hsep : ∀ p ∈ blockPairs dst dp src sp w n, ∀ q ∈ blockPairs dst dp src sp w n, p.1 ≠ q.2) (mem : List α) :
    memcpy2D dst dp src sp w n mem =
      (blockPairs dst dp src sp w n).foldlM (fun mem p => exec mem ⟨p.1, fun mem => val mem p.2⟩) mem := by
  rw [memcpy2D, if_pos ⟨by omega, by omega, hw, hn, h1, h2⟩, blockPairs, foldlM_flatMap]
  apply foldlM_congr
  intro i hi s
  have hguard : w.toNat = 0 ∨ dst + Int.ofNat i * dp + w.toNat ≤ src + Int.ofNat i * sp ∨
      src + Int.ofNat i * sp + w.toNat ≤ dst + Int.ofNat i * dp := by
    by_contra hc
    simp only [not_or, not_le] at hc
    obtain ⟨c1, c2, c3⟩ := hc
    have mk : ∀ k : Nat, k < w.toNat → (dst + Int.ofNat i * dp + Int.ofNat k, src + Int.ofNat i * sp + Int.ofNat k) ∈
        blockPairs dst dp src sp w n := by
      intro k hk
      exact List.mem_flatMap.mpr ⟨i, hi, List.mem_map.mpr ⟨k, List.mem_range.mpr hk, rfl⟩⟩
    generalize Int.ofNat i * dp = x at *
    generalize Int.ofNat i * sp = y at *
    by_cases hle : dst + x ≤ src + y
    · have := hsep _ (mk ((src + y) - (dst + x)).toNat (by omega)) _ (mk 0 (by omega))
      simp only [Int.ofNat_eq_natCast] at this
      omega
    · have := hsep _ (mk 0 (by omega)) _ (mk ((dst + x) - (src + y)).toNat (by omega))
      simp only [Int.ofNat_eq_natCast] at this
      omega
  rw [memcpy, if_pos hguard, List.foldlM_map]
  apply foldlM_congr
  intro k _ s'
  simp only [exec, rdInt_eq]

/-- A block copy between views with block layouts is the element copy in memory order. -/
theorem blockCopy_eq {a b : View} (hwa : WF a.lay) (hwb : WF b.lay) (hba : BlockOK a.lay) (hbb : BlockOK b.lay)
    (hlen : b.lay.len = a.lay.len) (hso : a.lay.so = b.lay.so) (hsep : Separate a b) (mem : List α) :
    blockCopy a b mem = some .fallback ∨
    blockCopy a b mem = ((memBox a.lay.so a.lay.len).foldlM
      (fun mem x => exec mem ⟨addr a x, fun mem => val mem (addr b x)⟩) mem).map .done := by
  have hga := getBlockLayout_spec hwa hba
  have hgb := getBlockLayout_spec hwb hbb
  rcases hga with ⟨-, ea⟩ | ⟨-, da, ea, a1, a2, a3, a4, a5⟩
  · left
    rcases hgb with ⟨-, eb⟩ | ⟨-, db, eb, -⟩ <;> simp [blockCopy, ea, eb]
  rcases hgb with ⟨-, eb⟩ | ⟨-, db, eb, b1, b2, b3, b4, b5⟩
  · left; simp [blockCopy, ea, eb]
  rw [blockCopy, ea, eb]
  simp only [Option.bind_eq_bind, Option.bind_some]
  rw [if_neg (by rw [a4, b4, hlen]; simp)]
  -- the adjusted layouts walk the same offsets
  have hab : da.n * da.size = db.n * db.size := by rw [a4, b4, hlen]
  generalize hd' : (if da.n = 1 ∧ db.n > 1 then (⟨db.n, da.size.tdiv db.n, da.size.tdiv db.n⟩ : Blocks) else da) = d'
  have hd : 0 < d'.n ∧ 0 < d'.size ∧ d'.size ≤ d'.str ∧ d'.n * d'.size = da.n * da.size ∧
      blockWalk d'.n d'.size d'.str = blockWalk da.n da.size da.str := by
    subst hd'
    split
    · rename_i h
      have hsz : da.size = db.n * db.size := by rw [← hab, h.1, one_mul]
      have hq : da.size.tdiv db.n = db.size := by rw [hsz, Int.mul_tdiv_cancel_left _ (by omega)]
      simp only [hq]
      refine ⟨by omega, by omega, by omega, hab.symm, ?_⟩
      rw [blockWalk_chunk (by omega) (by omega) da.str, h.1, hsz]
    · exact ⟨a1, a2, a3, rfl, rfl⟩
  generalize hs' : (if db.n = 1 ∧ d'.n > 1 then (⟨d'.n, db.size.tdiv d'.n, db.size.tdiv d'.n⟩ : Blocks) else db) = s'
  have hs : 0 < s'.n ∧ 0 < s'.size ∧ s'.size ≤ s'.str ∧
      blockWalk s'.n s'.size s'.str = blockWalk db.n db.size db.str := by
    subst hs'
    split
    · rename_i h
      have hsz : db.size = d'.n * d'.size := by rw [hd.2.2.2.1, hab, h.1, one_mul]
      have hq : db.size.tdiv d'.n = d'.size := by rw [hsz, Int.mul_tdiv_cancel_left _ (by omega)]
      simp only [hq]
      refine ⟨by omega, by omega, by omega, ?_⟩
      rw [blockWalk_chunk (by omega) (by omega) db.str, h.1, hsz]
    · exact ⟨b1, b2, b3, rfl⟩
  by_cases hc : d'.n = s'.n ∧ d'.size = s'.size
  · right
    rw [if_pos hc]
    have hwd : (blockWalk s'.n s'.size d'.str).map (a.off + ·) = (memBox a.lay.so a.lay.len).map (addr a) := by
      rw [← hc.1, ← hc.2, hd.2.2.2.2, ← a5, List.map_map]; rfl
    have hws : (blockWalk s'.n s'.size s'.str).map (b.off + ·) = (memBox a.lay.so a.lay.len).map (addr b) := by
      rw [hs.2.2.2, ← b5, List.map_map, hso, hlen]; rfl
    have hP : blockPairs a.off d'.str b.off s'.str s'.size s'.n =
        (memBox a.lay.so a.lay.len).map (fun x => (addr a x, addr b x)) := by
      apply pairs_ext
      · rw [blockPairs_fst, hwd, List.map_map]; rfl
      · rw [blockPairs_snd, hws, List.map_map]; rfl
    have hmem := (memEnum_memBox hwa.perm hwa.so_len.symm).mem_iff
    rw [memcpy2D_eq (by omega) (by omega) (by omega) (by omega)]
    · rw [hP, List.foldlM_map]
      cases (memBox a.lay.so a.lay.len).foldlM (fun mem x => exec mem ⟨addr a x, fun mem => val mem (addr b x)⟩) mem <;> rfl
    · rw [hP]
      intro p hp q hq
      obtain ⟨x, hx, rfl⟩ := List.mem_map.mp hp
      obtain ⟨y, hy, rfl⟩ := List.mem_map.mp hq
      exact hsep x y ((hmem x).mp hx) (by rw [hlen]; exact (hmem y).mp hy)
  · left
    rw [if_neg hc]; rfl

end Nda.Assign
