import Verif.Spec.RectStr
import Verif.Lemmas.Views
/-!
# Lemmas about string labels
-/
namespace Nda.RectStr
open Nda Nda.Spec Nda.Perm Nda.IdxMap Nda.Slice

theorem findIdx_first {ls : List String} {s : String} {i : Int} (h : FirstAt ls s i) :
    ls.findIdx? (fun t => decide (t = s)) = some i.toNat := by
  obtain ⟨_, h1, h2⟩ := h
  obtain ⟨hl, he⟩ := List.getElem?_eq_some_iff.mp h1
  rw [List.findIdx?_eq_some_iff_getElem]
  refine ⟨hl, by simp [he], fun j hj => ?_⟩
  have := h2 j hj
  rw [List.getElem?_eq_getElem (by omega)] at this
  simpa using this

theorem findIdx_none {ls : List String} {s : String} (h : s ∉ ls) :
    ls.findIdx? (fun t => decide (t = s)) = none := by
  rw [List.findIdx?_eq_none_iff]
  intro x hx
  simp only [decide_eq_false_iff_not]
  rintro rfl; exact h hx

theorem firstAt_of_nodup {ls : List String} (hn : ls.Nodup) {s : String} {i : Int} (h0 : 0 ≤ i)
    (h : ls[i.toNat]? = some s) : FirstAt ls s i := by
  refine ⟨h0, h, fun j hj e => ?_⟩
  obtain ⟨h1, h2⟩ := List.getElem?_eq_some_iff.mp h
  obtain ⟨g1, g2⟩ := List.getElem?_eq_some_iff.mp e
  have := (List.Nodup.getElem_inj_iff hn (hi := h1) (hj := g1)).mp (h2.trans g2.symm)
  omega

theorem getStringIndices_of {r : RectStr} {L : List (List String)} (h : HasLabels r L) :
    getStringIndices r = (L, { r with ind := some L }) := by
  rcases h with h | ⟨h, rfl⟩
  · obtain ⟨m, ind⟩ := r
    subst h
    rfl
  · simp [getStringIndices, h, generated]

theorem peelAll_ok {L : List (List String)} {args : List SArg} {X : List Arg} {n : Nat} {r : RectStr}
    (hr : HasLabels r L) (h : Resolves (L.drop n) args X) :
    ∃ r', peelAll r n args = .ok (X, r') ∧ r'.lay = r.lay ∧ HasLabels r' L ∧ (r.ind = some L → r' = r) := by
  induction args generalizing X n r with
  | nil => simp only [Resolves] at h; subst h; exact ⟨r, rfl, rfl, hr, fun _ => rfl⟩
  | cons a as ih =>
    cases hd : L.drop n with
    | nil => rw [hd] at h; cases a <;> cases X <;> exact h.elim
    | cons ls L' =>
      rw [hd] at h
      have hn : n < L.length := by
        rcases Nat.lt_or_ge n L.length with g | g
        · exact g
        · rw [List.drop_eq_nil_of_le g] at hd; cases hd
      have hls : L[n]? = some ls := by
        have : (L.drop n)[0]? = some ls := by rw [hd]; rfl
        simpa using this
      have hL' : L.drop (n + 1) = L' := by
        rw [← List.drop_drop, hd]; rfl
      cases a with
      | arg a =>
        cases X with
        | nil => exact h.elim
        | cons b X =>
          obtain ⟨rfl, h⟩ := h
          obtain ⟨r', g1, g2, g3, g4⟩ := ih (n := n + 1) hr (by rw [hL']; exact h)
          exact ⟨r', by simp [peelAll, peel, g1], g2, g3, g4⟩
      | str s =>
        cases X with
        | nil => exact h.elim
        | cons b X =>
          cases b with
          | idx i =>
            obtain ⟨h1, h⟩ := h
            obtain ⟨r', g1, g2, g3, g4⟩ := ih (n := n + 1) (r := { r with ind := some L }) (Or.inl rfl) (by rw [hL']; exact h)
            refine ⟨r', ?_, g2, g3, fun e => ?_⟩
            · simp only [peelAll, peel, getStringIndices_of hr, rd, hls, findIdx_first h1, g1]
              rw [Int.toNat_of_nonneg h1.1]
            · rw [g4 rfl]
              obtain ⟨m, ind⟩ := r
              simp only at e; subst e; rfl
          | _ => exact h.elim

theorem peelAll_key {L : List (List String)} {args : List SArg} {n : Nat} {r : RectStr}
    (hr : HasLabels r L) (hl : n + args.length ≤ L.length)
    (h : ∃ u s ls, args[u]? = some (.str s) ∧ L[n + u]? = some ls ∧ s ∉ ls) : peelAll r n args = .error .key := by
  induction args generalizing n r with
  | nil => obtain ⟨u, s, ls, h, _⟩ := h; simp at h
  | cons a as ih =>
    simp only [List.length_cons] at hl
    obtain ⟨u, s, ls, h1, h2, h3⟩ := h
    have hn : n < L.length := by omega
    cases u with
    | zero =>
      simp only [List.getElem?_cons_zero, Option.some.injEq] at h1
      subst h1
      simp only [Nat.add_zero] at h2
      simp [peelAll, peel, getStringIndices_of hr, rd, h2, findIdx_none h3]
    | succ u =>
      have hrest : ∃ u s ls, as[u]? = some (.str s) ∧ L[n + 1 + u]? = some ls ∧ s ∉ ls :=
        ⟨u, s, ls, by simpa using h1, by rw [← h2]; congr 1; omega, h3⟩
      cases a with
      | arg a => simp [peelAll, peel, ih (n := n + 1) hr (by omega) hrest]
      | str t =>
        simp only [peelAll, peel, getStringIndices_of hr, rd, List.getElem?_eq_getElem hn]
        cases L[n].findIdx? (fun x => decide (x = t)) with
        | none => rfl
        | some j => simp [ih (n := n + 1) (r := { r with ind := some L }) (Or.inl rfl) (by omega) hrest]

/-! ### Calls -/

theorem mapM_toCall (is : List Int) : (is.map Arg.idx).mapM toCall = some (is.map .idx) := by
  induction is with
  | nil => rfl
  | cons i is ih => simp [toCall, ih]

theorem call_ok {r : RectStr} {L : List (List String)} (hr : HasLabels r L) (hw : WF r.lay) (hs : SmallestOK r.lay)
    {args : List SArg} {x : List Int} (hx : x.length = r.lay.len.length) (h : Resolves L args (x.map .idx)) :
    ∃ r', call r args = .ok (Spec.offset r.lay x, r') ∧ r'.lay = r.lay ∧ HasLabels r' L ∧ (r.ind = some L → r' = r) := by
  obtain ⟨r', g1, g⟩ := peelAll_ok (n := 0) hr (by simpa using h)
  exact ⟨r', by simp only [call, g1, mapM_toCall, call_idx hw hs x hx], g⟩

theorem resolves_names {L : List (List String)} (hn : ∀ ls ∈ L, ls.Nodup) {x : List Int} {names : List String}
    (h0 : ∀ i ∈ x, 0 ≤ i) (hl : x.length = L.length) (h : NamesAt L x names) :
    Resolves L (names.map .str) (x.map .idx) := by
  unfold NamesAt at h
  induction L generalizing x names with
  | nil =>
    cases x with
    | nil => cases names with
      | nil => simp [Resolves]
      | cons _ _ => simp [labelAt] at h
    | cons _ _ => simp at hl
  | cons ls L ih =>
    cases x with
    | nil => simp at hl
    | cons i x =>
      cases names with
      | nil => simp [labelAt] at h
      | cons s names =>
        simp only [labelAt, List.zipWith_cons_cons, List.map_cons, List.cons.injEq] at h
        exact ⟨firstAt_of_nodup (hn ls List.mem_cons_self) (h0 i List.mem_cons_self) h.1,
          ih (fun l hl => hn l (List.mem_cons_of_mem _ hl)) (fun j hj => h0 j (List.mem_cons_of_mem _ hj)) (by simpa using hl) h.2⟩

theorem inRange_nonneg {len p : List Int} (h : InRange len p) : ∀ i ∈ p, 0 ≤ i := by
  induction len generalizing p with
  | nil => cases p with
    | nil => simp
    | cons _ _ => exact h.elim
  | cons l len ih => cases p with
    | nil => simp
    | cons i p =>
      intro j hj
      rcases List.mem_cons.mp hj with rfl | hj
      · exact h.1.1
      · exact ih h.2 j hj

theorem names_exist {L : List (List String)} {lens : List Int} (hL : Labelling L lens) {x : List Int} (hx : InRange lens x) :
    ∃ ns, NamesAt L x ns := by
  replace hL := hL.1
  induction L generalizing lens x with
  | nil => subst hL; cases x with
    | nil => exact ⟨[], rfl⟩
    | cons _ _ => exact hx.elim
  | cons ls L ih => subst hL; cases x with
    | nil => exact hx.elim
    | cons i x =>
      obtain ⟨ns, h⟩ := ih hx.2 rfl
      have h1 : i.toNat < ls.length := by have h : 0 ≤ i ∧ i < (ls.length : Int) := hx.1; omega
      refine ⟨ls[i.toNat] :: ns, ?_⟩
      unfold NamesAt at h ⊢
      simp only [labelAt, List.zipWith_cons_cons, List.map_cons, List.getElem?_eq_getElem h1] at h ⊢
      rw [h]

/-! ### Slices -/

/-- Coordinate of entry `k` of a range argument. -/
def coord1 : Arg → Int → Int
  | .rng f _ st, k => f + st * k
  | _, k => k

theorem sliceOne_spec {ls : List String} {a : Arg} (ha : isRange a = true) (hin : ArgInside (plain a) ls.length) (hn : ls.Nodup) :
    ∃ ls', sliceOne ls a = some ls' ∧ (ls'.length : Int) = gl (plain a) ls.length ∧ ls'.Nodup ∧
      ∀ k, 0 ≤ k → k < gl (plain a) ls.length → 0 ≤ coord1 a k ∧ ls'[k.toNat]? = ls[(coord1 a k).toNat]? := by
  have hall : ∃ ls', (List.range ((ls.length : Int)).toNat).mapM (fun (k : Nat) => rdInt ls (0 + 1 * (k : Int))) = some ls' ∧
      (ls'.length : Int) = ls.length ∧ ls'.Nodup ∧
      ∀ k, 0 ≤ k → k < (ls.length : Int) → 0 ≤ k ∧ ls'[k.toNat]? = ls[k.toNat]? := by
    refine ⟨ls, ?_, rfl, hn, fun k h _ => ⟨h, rfl⟩⟩
    rw [mapM_some_of _ (fun k => ls.getD k "")]
    · congr 1
      apply List.ext_getElem?
      intro j
      simp only [Int.toNat_natCast, List.getElem?_map]
      rcases Nat.lt_or_ge j ls.length with h | h
      · simp [h]
      · simp [h, List.getElem?_eq_none h]
    · intro k hk
      simp only [Int.toNat_natCast, List.mem_range] at hk
      simp [rdInt, hk]
  cases a with
  | idx i => cases ha
  | all => exact hall
  | ell => exact hall
  | rng f la st =>
    simp only [plain, ArgInside] at hin
    obtain ⟨hst, hin⟩ := hin
    have hc := gl_isCount (f := f) (la := la) (l := (ls.length : Int)) hst
    have hin' := fun k => hin k _ hc
    simp only [plain, coord1]
    have hw : WF (⟨[(ls.length : Int)], [1], [0], [0], .contiguous⟩ : IdxMap) := ⟨isPerm_range 1, rfl, rfl, rfl⟩
    obtain ⟨off, m', e, hF⟩ := slice_facts hw (args := [.rng f la st]) (Or.inl ⟨rfl, rfl⟩) (show 1 ≤ 128 by decide)
      (by
        intro f' l' s' hm
        have hm' : Arg.rng f' l' s' = .rng f la st := by simpa [expand, expandArg] using hm
        cases hm'; exact hst)
    have e1 : off = f * 1 := by rw [hF.off_eq]; simp [expand, expandArg, getOffset]
    have e2 : m'.len = [gl (.rng f la st) ls.length] := by rw [hF.len_eq]; rfl
    have e3 : m'.str = [1 * st] := by rw [hF.str_eq]; rfl
    generalize gl (.rng f la st) (ls.length : Int) = g at hc hin' e2
    obtain ⟨_, hg, _⟩ := hc
    refine ⟨(List.range g.toNat).map (fun (k : Nat) => ls.getD (f + st * k).toNat ""), ?_, by simp; omega, ?_, ?_⟩
    · unfold sliceOne
      rw [e]
      obtain ⟨mlen, mstr, mso, mse, mprop⟩ := m'
      simp only at e2 e3
      subst e1 e2 e3
      simp only
      apply mapM_some_of
      intro k hk
      simp only [List.mem_range] at hk
      have := hin' k (by omega) (by omega)
      rw [Int.mul_comm (k : Int)] at this
      rw [Int.mul_one, Int.one_mul]
      have h2 : (f + st * (k : Int)).toNat < ls.length := by omega
      simp [rdInt, this.1, h2]
    · rw [List.nodup_iff_getElem?_ne_getElem?]
      intro i j hij hj
      simp only [List.length_map, List.length_range] at hj
      have hi := hin' i (by omega) (by omega)
      have hj' := hin' j (by omega) (by omega)
      rw [Int.mul_comm] at hi hj'
      have a1 : (f + st * (i : Int)).toNat < ls.length := by omega
      have a2 : (f + st * (j : Int)).toNat < ls.length := by omega
      have b1 : i < g.toNat := by omega
      simp only [List.getElem?_map, List.getElem?_range hj, List.getElem?_range b1, Option.map_some, ne_eq, Option.some.injEq]
      rw [List.getD_eq_getElem?_getD, List.getD_eq_getElem?_getD, List.getElem?_eq_getElem a1, List.getElem?_eq_getElem a2]
      simp only [Option.getD_some]
      intro he
      have := (List.Nodup.getElem_inj_iff hn).mp he
      have e3 : st * (i : Int) = st * (j : Int) := by omega
      have := Int.eq_of_mul_eq_mul_left hst e3
      omega
    · intro k h0 hk
      have := hin' k h0 hk
      rw [Int.mul_comm] at this
      refine ⟨this.1, ?_⟩
      have h2 : (f + st * k).toNat < ls.length := by omega
      have h3 : k.toNat < g.toNat := by omega
      have h4 : ((k.toNat : Nat) : Int) = k := by omega
      simp [h3, h4, h2]

theorem plain_ell {X : List Arg} : Arg.ell ∉ X.map plain := by
  simp only [List.mem_map, not_exists, not_and]
  intro a _
  cases a <;> simp [plain]

theorem isRange_plain (a : Arg) : isRange (plain a) = isRange a := by cases a <;> rfl

theorem coords_range {a : Arg} (ha : isRange a = true) (X : List Arg) (k : Int) (p : List Int) :
    coords (plain a :: X) (k :: p) = coord1 a k :: coords X p := by
  cases a <;> first | (cases ha; done) | rfl

theorem sliceLabels_spec {cur L : List (List String)} {n : Nat} (hcur : cur.drop n = L) {args : List SArg} {X : List Arg}
    (hR : Resolves L args X) (hin : Inside (X.map plain) (L.map (fun ls => (ls.length : Int))))
    (hn : ∀ ls ∈ L, ls.Nodup) :
    ∃ L', sliceLabels cur n args = some L' ∧
      Labelling L' (keepMap gl (X.map plain) (L.map (fun ls => (ls.length : Int)))) ∧
      ∀ p, InRange (keepMap gl (X.map plain) (L.map (fun ls => (ls.length : Int)))) p →
        labelAt L' p = keep X (labelAt L (coords (X.map plain) p)) ∧
        ∀ names, NamesAt L' p names → Resolves L (fill args names) ((coords (X.map plain) p).map .idx) := by
  induction args generalizing L X n with
  | nil =>
    simp only [Resolves] at hR
    subst hR
    cases L with
    | cons _ _ => exact hin.elim
    | nil =>
      refine ⟨[], rfl, ⟨rfl, by simp⟩, fun p hp => ?_⟩
      cases p with
      | cons _ _ => exact hp.elim
      | nil => exact ⟨rfl, fun names _ => by simp [fill, Resolves, coords]⟩
  | cons a as ih =>
    cases L with
    | nil => cases a <;> cases X <;> exact hR.elim
    | cons ls L =>
      have hls : cur[n]? = some ls := by
        have : (cur.drop n)[0]? = some ls := by rw [hcur]; rfl
        simpa using this
      have hcur' : cur.drop (n + 1) = L := by rw [← List.drop_drop, hcur]; rfl
      have hn' : ∀ l ∈ L, l.Nodup := fun l hl => hn l (List.mem_cons_of_mem _ hl)
      have hnodup := hn ls List.mem_cons_self
      cases X with
      | nil => cases a <;> exact hR.elim
      | cons b X =>
        simp only [List.map_cons] at hin ⊢
        obtain ⟨hin1, hin2⟩ := hin
        cases a with
        | str s =>
          cases b with
          | idx i =>
            obtain ⟨h1, hR⟩ := hR
            obtain ⟨L', g1, g2, g3⟩ := ih hcur' hR hin2 hn'
            refine ⟨L', by simp [sliceLabels, g1], by simpa [keepMap, plain, isRange] using g2, fun p hp => ?_⟩
            obtain ⟨k1, k2⟩ := g3 p (by simpa [keepMap, plain, isRange] using hp)
            exact ⟨by rw [k1]; rfl, fun names hnm => ⟨h1, k2 names hnm⟩⟩
          | _ => exact hR.elim
        | arg a =>
          obtain ⟨rfl, hR⟩ := hR
          obtain ⟨L', g1, g2, g3⟩ := ih hcur' hR hin2 hn'
          by_cases hb : isRange b = true
          · obtain ⟨ls', e1, e2, e3, e4⟩ := sliceOne_spec hb hin1 hnodup
            simp only [keepMap, isRange_plain, hb, if_true]
            refine ⟨ls' :: L', by simp [sliceLabels, hb, rd, hls, e1, g1], ⟨?_, ?_⟩, fun p hp => ?_⟩
            · simp [e2, g2.1]
            · intro l hl
              rcases List.mem_cons.mp hl with rfl | hl
              · exact e3
              · exact g2.2 l hl
            · cases p with
              | nil => exact hp.elim
              | cons k p =>
                obtain ⟨k1, k2⟩ := g3 p hp.2
                obtain ⟨f1, f2⟩ := e4 k hp.1.1 hp.1.2
                rw [coords_range hb]
                have hkeep : keep (b :: X) (labelAt (ls :: L) (coord1 b k :: coords (X.map plain) p)) =
                    ls[(coord1 b k).toNat]? :: keep X (labelAt L (coords (X.map plain) p)) := by
                  cases b <;> first | (cases hb; done) | rfl
                refine ⟨by rw [hkeep, ← k1, ← f2]; rfl, fun names hnm => ?_⟩
                cases names with
                | nil => simp [NamesAt, labelAt] at hnm
                | cons s names =>
                  simp only [NamesAt, labelAt, List.zipWith_cons_cons, List.map_cons, List.cons.injEq] at hnm
                  have hfill : fill (.arg b :: as) (s :: names) = .str s :: fill as names := by
                    cases b <;> first | (cases hb; done) | rfl
                  rw [hfill]
                  exact ⟨firstAt_of_nodup hnodup f1 (by rw [← f2]; exact hnm.1), k2 names hnm.2⟩
          · cases b with
            | idx i =>
              refine ⟨L', by simp [sliceLabels, isRange, g1], by simpa [keepMap, plain, isRange] using g2, fun p hp => ?_⟩
              obtain ⟨k1, k2⟩ := g3 p (by simpa [keepMap, plain, isRange] using hp)
              exact ⟨by rw [k1]; rfl, fun names hnm => ⟨rfl, k2 names hnm⟩⟩
            | _ => exact absurd rfl hb

theorem resolves_length {L : List (List String)} {args : List SArg} {X : List Arg} (h : Resolves L args X) :
    X.length = args.length := by
  induction args generalizing L X with
  | nil => simp only [Resolves] at h; subst h; rfl
  | cons a as ih =>
    cases L with
    | nil => cases a <;> cases X <;> exact h.elim
    | cons ls L =>
      cases X with
      | nil => cases a <;> exact h.elim
      | cons b X =>
        cases a with
        | arg a => simp [ih h.2]
        | str s => cases b with
          | idx i => simp [ih h.2]
          | _ => exact h.elim

theorem expand_plain {X : List Arg} {N : Nat} (h : X.length = N) : expand N X = X.map plain := by
  unfold expand
  rw [h, Nat.add_sub_cancel_left]
  clear h
  induction X with
  | nil => rfl
  | cons a X ih => rw [List.flatMap_cons, ih]; cases a <;> rfl

end Nda.RectStr
