import Verif.Lemmas.SymGrp
/-!
# All classes
-/
namespace Nda.SymGrp
open Nda LayoutTransforms Assign Loops Nda.Spec Nda.Perm IdxMap

/-- The spans of consecutive classes. -/
def spans : Nat → List (List (Int × Oper)) → List (Nat × Int)
  | _, [] => []
  | a, c :: L => (a, (c.length : Int)) :: spans (a + c.length) L

theorem spans_append : ∀ (L : List (List (Int × Oper))) (a : Nat) (c : List (Int × Oper)), spans a (L ++ [c]) = spans a L ++ [(a + L.flatten.length, (c.length : Int))]
  | [], a, c => by simp [spans]
  | d :: L, a, c => by
    simp only [List.cons_append, spans, spans_append L, List.flatten_cons, List.length_append]
    rw [Nat.add_assoc]

theorem map_span : ∀ (L : List (List (Int × Oper))) (pre : List (Int × Oper)), (spans pre.length L).map (span (pre ++ L.flatten)) = L
  | [], pre => by simp [spans]
  | c :: L, pre => by
    have ih := map_span L (pre ++ c)
    rw [List.length_append, List.append_assoc] at ih
    rw [spans, List.map_cons, List.flatten_cons, ih]
    congr 1
    simp [span]

/-- Members lead to members. -/
def Closed (len : List Int) (syms : List Sym) (data : List (Int × Oper)) : Prop :=
  ∀ j, InRange len j → lin len j ∈ data.map Prod.fst → ∀ σ ∈ syms, InRange len (σ j).1 → lin len (σ j).1 ∈ data.map Prod.fst

/-- A class: the representative with the identity, and members reached from it. -/
def IsClass (len : List Int) (syms : List Sym) (c : List (Int × Oper)) : Prop :=
  ∃ r rest, InRange len r ∧ c = (lin len r, .one) :: rest ∧ ∀ p ∈ c, ∃ j, InRange len j ∧ p.1 = lin len j ∧ Reach syms r .one j p.2

structure BInv (len : List Int) (syms : List Sym) (pre : List (List Int)) (g : St × List (Nat × Int)) (L : List (List (Int × Oper))) : Prop where
  inv : Inv len g.1
  cover : ∀ i ∈ pre, lin len i ∈ g.1.data.map Prod.fst
  data : g.1.data = L.flatten
  cls : g.2 = spans 0 L
  isClass : ∀ c ∈ L, IsClass len syms c
  closed : ∀ k, k ≤ L.length → Closed len syms (L.take k).flatten

theorem startClass_spec {len : List Int} {m : IdxMap} (hg : Geo len m) {syms : List Sym} (hk : KeepRank len.length syms) (maxLen : Int) (fuel : Nat)
    (hf : (prod len).toNat * (maxLen.toNat + 1) + maxLen.toNat < fuel) {pre : List (List Int)} {g : St × List (Nat × Int)} {L : List (List (Int × Oper))}
    (h : BInv len syms pre g L) {i : List Int} (hi : InRange len i) :
    ∃ g' L', startClass m (prod len).toNat syms maxLen fuel i g = some g' ∧ BInv len syms (pre ++ [i]) g' L' := by
  obtain ⟨hb0, hb1⟩ := lin_bounds hi
  obtain ⟨c, hc⟩ := val_isSome (mem := g.1.checked) (k := lin len i) (by rw [h.inv.len_c]; omega)
  have hl : load ⟨0, m⟩ i g.1.checked = some c := by rw [hg.load _ hi _ h.inv.len_c, hc]
  cases c with
  | true =>
    refine ⟨g, L, by simp [startClass, hl], h.inv, ?_, h.data, h.cls, h.isClass, h.closed⟩
    intro j hj
    rcases List.mem_append.mp hj with hj | hj
    · exact h.cover j hj
    · rw [List.mem_singleton] at hj; subst hj; exact (h.inv.chk _).mpr hc
  | false =>
    have hnew : lin len i ∉ g.1.data.map Prod.fst := by rw [h.inv.chk, hc]; simp
    obtain ⟨s1, e1, hi1, hd1⟩ := add_spec hg h.inv hi hnew .one
    have hneed : need len maxLen s1 0 < fuel := by
      refine lt_of_le_of_lt ?_ hf
      unfold need
      apply Nat.add_le_add
      · exact Nat.mul_le_mul_right _ (by omega)
      · omega
    obtain ⟨n, s2, e2, hgr, hcl⟩ := iterate_spec hg hk maxLen fuel i .one 0 s1 hi.length_eq hi1 (le_refl _) hneed
    obtain ⟨new, en, hn, hr, hc2⟩ := hgr.ext
    have hdata : s2.data = (L ++ [(lin len i, Oper.one) :: new]).flatten := by
      rw [en, hd1, h.data]; simp
    refine ⟨(s2, g.2 ++ [(g.1.data.length, n + 1)]), L ++ [(lin len i, .one) :: new], by simp [startClass, hl, e1, e2], hgr.inv, ?_, hdata, ?_, ?_, ?_⟩
    · intro j hj
      rcases List.mem_append.mp hj with hj | hj
      · exact hgr.mem (by rw [hd1, List.map_append]; exact List.mem_append_left _ (h.cover j hj))
      · rw [List.mem_singleton] at hj; subst hj; exact hgr.mem (by rw [hd1]; simp)
    · rw [spans_append, h.cls, h.data, hn]; simp
    · intro c hc
      rcases List.mem_append.mp hc with hc | hc
      · exact h.isClass c hc
      · rw [List.mem_singleton] at hc; subst hc
        refine ⟨i, new, hi, rfl, ?_⟩
        intro p hp
        rcases List.mem_cons.mp hp with rfl | hp
        · exact ⟨i, hi, rfl, Reach.start⟩
        · exact hr p hp
    · intro k hk
      rw [List.length_append, List.length_singleton] at hk
      rcases Nat.lt_or_ge k (L.length + 1) with hlt | hge
      · rw [List.take_append_of_le_length (by omega)]
        exact h.closed k (by omega)
      · have hall : (L ++ [(lin len i, Oper.one) :: new]).take k = L ++ [(lin len i, Oper.one) :: new] := List.take_of_length_le (by simp; omega)
        rw [hall, ← hdata]
        intro j hj hm σ hσ hv
        rw [en, hd1, List.map_append, List.map_append, List.mem_append, List.mem_append] at hm
        rcases hm with (hm | hm) | hm
        · have := h.closed L.length (le_refl _)
          rw [List.take_length] at this
          rw [h.data] at hm
          have := this j hj hm σ hσ hv
          rw [hdata, List.flatten_append, List.map_append]
          exact List.mem_append_left _ this
        · simp only [List.map_cons, List.map_nil, List.mem_singleton] at hm
          have := lin_inj hj hi hm
          subst this
          exact hcl σ hσ hv
        · exact hc2 j hj hm σ hσ hv

theorem startClass_mono {m : IdxMap} {cap : Nat} {syms : List Sym} {maxLen : Int} {fuel : Nat} {i : List Int} {g g' : St × List (Nat × Int)}
    (h : startClass m cap syms maxLen fuel i g = some g') : startClass m cap syms maxLen (fuel + 1) i g = some g' := by
  simp only [startClass] at h ⊢
  cases hc : load ⟨0, m⟩ i g.1.checked with
  | none => rw [hc] at h; cases h
  | some c =>
    rw [hc] at h
    cases c with
    | true => exact h
    | false =>
      simp only [Option.bind_eq_bind, Option.bind_some, Bool.false_eq_true, if_false] at h ⊢
      cases ha : add m cap i .one g.1 with
      | none => rw [ha] at h; cases h
      | some s1 =>
        rw [ha] at h
        simp only [Option.bind_some] at h ⊢
        cases hi : iterate m cap syms maxLen fuel i .one 0 s1 with
        | none => rw [hi] at h; cases h
        | some q => rw [hi] at h; rw [iterate_mono _ _ _ _ _ _ hi]; exact h

/-- The constructor ends and gives the classes `L`, for every depth that is enough. -/
theorem build_spec {len : List Int} (hn : NonNeg len) {syms : List Sym} (hk : KeepRank len.length syms) (maxLen : Int) :
    ∃ fuel0 g L, (∀ fuel, fuel0 ≤ fuel → build len syms maxLen fuel = some g) ∧ BInv len syms (box len) g L := by
  obtain ⟨m, hm, hd⟩ := fresh_c hn
  have hg := Geo.of_fresh hm hd
  have hs : m.size.toNat = (prod len).toNat := by rw [hm.size_eq]
  have key : ∀ fuel, (prod len).toNat * (maxLen.toNat + 1) + maxLen.toNat < fuel → ∃ g L, build len syms maxLen fuel = some g ∧ BInv len syms (box len) g L := by
    intro fuel hf
    have hb : build len syms maxLen fuel = (box len).foldlM (fun g i => startClass m (prod len).toNat syms maxLen fuel i g) (⟨List.replicate (prod len).toNat false, []⟩, []) := by
      simp only [build, hm.eq, Option.bind_eq_bind, Option.bind_some, hs]
      rw [forEach_eq]
    rw [hb]
    have ind : ∀ (post pre : List (List Int)) g L, BInv len syms pre g L → (∀ i ∈ post, InRange len i) →
        ∃ g' L', post.foldlM (fun g i => startClass m (prod len).toNat syms maxLen fuel i g) g = some g' ∧ BInv len syms (pre ++ post) g' L' := by
      intro post
      induction post with
      | nil => intro pre g L h _; exact ⟨g, L, rfl, by simpa using h⟩
      | cons i post ih =>
        intro pre g L h hp
        obtain ⟨g1, L1, e1, h1⟩ := startClass_spec hg hk maxLen fuel hf h (hp i List.mem_cons_self)
        obtain ⟨g2, L2, e2, h2⟩ := ih _ _ _ h1 (fun j hj => hp j (List.mem_cons_of_mem _ hj))
        refine ⟨g2, L2, by rw [List.foldlM_cons, e1]; exact e2, by simpa using h2⟩
    have := ind (box len) [] (⟨List.replicate (prod len).toNat false, []⟩, []) [] ⟨⟨by simp, by simp, ?_⟩, by simp, rfl, rfl, by simp, ?_⟩ (fun i hi => mem_box.mp hi)
    · simpa using this
    · intro k
      simp only [List.map_nil, List.not_mem_nil, false_iff]
      unfold val
      split
      · simp
      · rw [List.getElem?_replicate]; split <;> simp
    · intro k _ j _ hm; simp at hm
  obtain ⟨g, L, e, h⟩ := key _ (Nat.lt_succ_self _)
  refine ⟨((prod len).toNat * (maxLen.toNat + 1) + maxLen.toNat).succ, g, L, ?_, h⟩
  intro fuel hf
  induction fuel, hf using Nat.le_induction with
  | base => exact e
  | succ fuel hf ih =>
    simp only [build, hm.eq, Option.bind_eq_bind, Option.bind_some] at ih ⊢
    rw [forEach_eq] at ih ⊢
    exact foldlM_mono (fun s x r h => startClass_mono h) _ _ _ ih

theorem BInv.classes_eq {len : List Int} {syms : List Sym} {pre : List (List Int)} {g : St × List (Nat × Int)} {L : List (List (Int × Oper))}
    (h : BInv len syms pre g L) : classes g = L := by
  rw [classes, h.cls, h.data]
  simpa using map_span L []

end Nda.SymGrp
