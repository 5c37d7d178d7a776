import Verif.Lemmas.SymGrpBuild
import Mathlib.Data.Finset.Card
import Mathlib.Logic.Relation
/-!
# C33 and C34: symmetry classes
-/
namespace Nda.SymGrp
open Nda LayoutTransforms Assign Loops Nda.Spec Nda.Perm IdxMap

theorem flatten_unique {β : Type} : ∀ {L : List (List β)}, L.flatten.Nodup → ∀ {a b a' b' : Nat} {x : β}, (L[a]?).bind (fun l => l[b]?) = some x →
    (L[a']?).bind (fun l => l[b']?) = some x → (a, b) = (a', b') := by
  intro L h a b a' b' x hx hy
  rw [List.nodup_flatten] at h
  obtain ⟨h1, h2⟩ := h
  cases ha : L[a]? with
  | none => rw [ha] at hx; cases hx
  | some l =>
    cases ha' : L[a']? with
    | none => rw [ha'] at hy; cases hy
    | some l' =>
      rw [ha] at hx; rw [ha'] at hy
      simp only [Option.bind_some] at hx hy
      have hxl : x ∈ l := List.mem_of_getElem? hx
      have hxl' : x ∈ l' := List.mem_of_getElem? hy
      obtain ⟨hla, ela⟩ := List.getElem?_eq_some_iff.mp ha
      obtain ⟨hla', ela'⟩ := List.getElem?_eq_some_iff.mp ha'
      have haa : a = a' := by
        rw [List.pairwise_iff_getElem] at h2
        rcases lt_trichotomy a a' with hlt | heq | hgt
        · have := h2 a a' hla hla' hlt
          rw [ela, ela'] at this
          exact absurd hxl' (this hxl)
        · exact heq
        · have := h2 a' a hla' hla hgt
          rw [ela, ela'] at this
          exact absurd hxl (this hxl')
      subst haa
      rw [ha] at ha'; cases ha'
      have hnd := h1 l (List.mem_of_getElem? ha)
      obtain ⟨hb, eb⟩ := List.getElem?_eq_some_iff.mp hx
      obtain ⟨hb', eb'⟩ := List.getElem?_eq_some_iff.mp hy
      rw [(hnd.getElem_inj_iff).mp (eb.trans eb'.symm)]

theorem cover_all {len : List Int} {syms : List Sym} {g : St × List (Nat × Int)} {L : List (List (Int × Oper))} (h : BInv len syms (box len) g L)
    {i : List Int} (hi : InRange len i) : lin len i ∈ L.flatten.map Prod.fst := by
  rw [← h.data]; exact h.cover i (mem_box.mpr hi)

theorem nodup_keys {len : List Int} {syms : List Sym} {pre : List (List Int)} {g : St × List (Nat × Int)} {L : List (List (Int × Oper))} (h : BInv len syms pre g L) :
    (L.map (fun c => c.map Prod.fst)).flatten.Nodup := by
  rw [← List.map_flatten, ← h.data]; exact h.inv.nodup

/-- **C33** Construction ends (the result is the same for every recursion depth that is enough), never stores more than the reserved number of elements, and
every index of the array is in exactly one class, at exactly one place; nothing else is in a class. -/
theorem C33_partition (len : List Int) (hn : NonNeg len) (syms : List Sym) (hk : KeepRank len.length syms) (maxLen : Int) :
    ∃ fuel0 g, (∀ fuel, fuel0 ≤ fuel → build len syms maxLen fuel = some g) ∧ (g.1.data.length : Int) = prod len ∧ (classes g).flatten = g.1.data ∧
      (∀ i, InRange len i → ∃! p : Nat × Nat, ∃ q, ((classes g)[p.1]?).bind (fun c => c[p.2]?) = some q ∧ q.1 = lin len i) ∧
      ∀ c ∈ classes g, c ≠ [] ∧ ∀ q ∈ c, ∃ i, InRange len i ∧ q.1 = lin len i := by
  obtain ⟨fuel0, g, L, e, h⟩ := build_spec hn hk maxLen
  refine ⟨fuel0, g, e, ?_, ?_, ?_, ?_⟩
  · have hb := h.inv.bound
    have hnn : 0 ≤ prod len := prod_nonneg hn
    have hsub : (List.range (prod len).toNat).map Int.ofNat ⊆ g.1.data.map Prod.fst := by
      intro k hk
      obtain ⟨u, hu, rfl⟩ := List.mem_map.mp hk
      rw [List.mem_range] at hu
      obtain ⟨i, hi, hl⟩ := lin_surj hn (Int.ofNat u) (by simp) (by simp; omega)
      rw [← hl]; exact h.cover i (mem_box.mpr hi)
    have hnd : ((List.range (prod len).toNat).map Int.ofNat).Nodup := List.nodup_range.map (fun a b h => by simpa using h)
    have := (List.subperm_of_subset hnd hsub).length_le
    simp only [List.length_map, List.length_range] at this
    omega
  · rw [h.classes_eq, h.data]
  · intro i hi
    rw [h.classes_eq]
    have hm := cover_all h hi
    obtain ⟨q, hq, hql⟩ := List.mem_map.mp hm
    obtain ⟨c, hc, hqc⟩ := List.mem_flatten.mp hq
    obtain ⟨a, ha, ea⟩ := List.mem_iff_getElem.mp hc
    obtain ⟨b, hb, eb⟩ := List.mem_iff_getElem.mp hqc
    refine ⟨(a, b), ⟨q, ?_, hql⟩, ?_⟩
    · rw [List.getElem?_eq_getElem ha, ea, Option.bind_some, List.getElem?_eq_getElem hb, eb]
    · rintro ⟨a', b'⟩ ⟨q', hq', hql'⟩
      have conv : ∀ (a b : Nat) (q : Int × Oper), (L[a]?).bind (fun c => c[b]?) = some q → ((L.map (fun c => c.map Prod.fst))[a]?).bind (fun c => c[b]?) = some q.1 := by
        intro a b q h
        rw [List.getElem?_map]
        cases hL : L[a]? with
        | none => rw [hL] at h; cases h
        | some l => rw [hL] at h; simp only [Option.bind_some] at h; simp [h]
      have h1 := conv _ _ _ hq'
      have h2 := conv a b q (by rw [List.getElem?_eq_getElem ha, ea, Option.bind_some, List.getElem?_eq_getElem hb, eb])
      rw [hql'] at h1
      rw [hql] at h2
      exact flatten_unique (nodup_keys h) h1 h2
  · intro c hc
    rw [h.classes_eq] at hc
    obtain ⟨r, rest, hr, rfl, hall⟩ := h.isClass c hc
    refine ⟨by simp, fun q hq => ?_⟩
    obtain ⟨j, hj, e, -⟩ := hall q hq
    exact ⟨j, hj, e⟩

/-- **C34** Every class starts with its representative and the identity operation; every member is reached from the representative by a chain of symmetries, and
stored with the product of the operations along that chain. -/
theorem C34_members (len : List Int) (hn : NonNeg len) (syms : List Sym) (hk : KeepRank len.length syms) (maxLen : Int) :
    ∃ fuel0 g, (∀ fuel, fuel0 ≤ fuel → build len syms maxLen fuel = some g) ∧ ∀ c ∈ classes g, ∃ r, InRange len r ∧ c.head? = some (lin len r, ⟨false, false⟩) ∧
      ∀ q ∈ c, ∃ j, InRange len j ∧ q.1 = lin len j ∧ Reach syms r ⟨false, false⟩ j q.2 := by
  obtain ⟨fuel0, g, L, e, h⟩ := build_spec hn hk maxLen
  refine ⟨fuel0, g, e, fun c hc => ?_⟩
  rw [h.classes_eq] at hc
  obtain ⟨r, rest, hr, rfl, hall⟩ := h.isClass c hc
  exact ⟨r, hr, rfl, hall⟩

/-- One symmetry relates two indices of the array. -/
def Linked (len : List Int) (syms : List Sym) (i j : List Int) : Prop := InRange len i ∧ ∃ σ ∈ syms, j = (σ i).1

theorem keys_take {len : List Int} {syms : List Sym} {pre : List (List Int)} {g : St × List (Nat × Int)} {L : List (List (Int × Oper))} (h : BInv len syms pre g L) (k : Nat) :
    ∀ q ∈ (L.take k).flatten.map Prod.fst, ∃ i, InRange len i ∧ lin len i = q := by
  intro q hq
  obtain ⟨p, hp, rfl⟩ := List.mem_map.mp hq
  obtain ⟨c, hc, hpc⟩ := List.mem_flatten.mp hp
  obtain ⟨r, rest, -, -, hall⟩ := h.isClass c (List.mem_of_mem_take hc)
  obtain ⟨j, hj, e, -⟩ := hall p hpc
  exact ⟨j, hj, e.symm⟩

/-- For symmetries that permute the indices of the array, a union of leading classes is mapped onto itself. -/
theorem onto {len : List Int} {syms : List Sym} {pre : List (List Int)} {g : St × List (Nat × Int)} {L : List (List (Int × Oper))} (h : BInv len syms pre g L)
    (hin : ∀ σ ∈ syms, ∀ i, InRange len i → InRange len (σ i).1)
    (hinj : ∀ σ ∈ syms, ∀ i j, InRange len i → InRange len j → (σ i).1 = (σ j).1 → i = j) (k : Nat) (hkL : k ≤ L.length) (σ : Sym) (hσ : σ ∈ syms)
    (i : List Int) (hi : InRange len i) (hm : lin len (σ i).1 ∈ (L.take k).flatten.map Prod.fst) : lin len i ∈ (L.take k).flatten.map Prod.fst := by
  classical
  let un : Int → List Int := fun q => if h : ∃ i, InRange len i ∧ lin len i = q then h.choose else []
  have hun : ∀ i, InRange len i → un (lin len i) = i := by
    intro i hi
    have hex : ∃ j, InRange len j ∧ lin len j = lin len i := ⟨i, hi, rfl⟩
    have : un (lin len i) = hex.choose := by simp only [un]; rw [dif_pos hex]
    rw [this]
    exact lin_inj hex.choose_spec.1 hi hex.choose_spec.2
  let S := ((L.take k).flatten.map Prod.fst).toFinset
  let φ : Int → Int := fun q => lin len (σ (un q)).1
  have hsub : S.image φ ⊆ S := by
    intro q hq
    obtain ⟨p, hp, rfl⟩ := Finset.mem_image.mp hq
    have hp' := List.mem_toFinset.mp hp
    obtain ⟨j, hj, rfl⟩ := keys_take h k p hp'
    simp only [φ, hun j hj]
    exact List.mem_toFinset.mpr (h.closed k hkL j hj hp' σ hσ (hin σ hσ j hj))
  have hio : Set.InjOn φ S := by
    intro p hp q hq e
    obtain ⟨j, hj, rfl⟩ := keys_take h k p (List.mem_toFinset.mp hp)
    obtain ⟨l, hl, rfl⟩ := keys_take h k q (List.mem_toFinset.mp hq)
    simp only [φ, hun j hj, hun l hl] at e
    rw [hinj σ hσ j l hj hl (lin_inj (hin σ hσ j hj) (hin σ hσ l hl) e)]
  have heq : S.image φ = S := Finset.eq_of_subset_of_card_le hsub (by rw [Finset.card_image_of_injOn hio])
  have : lin len (σ i).1 ∈ S.image φ := by rw [heq]; exact List.mem_toFinset.mpr hm
  obtain ⟨p, hp, e⟩ := Finset.mem_image.mp this
  have hp' := List.mem_toFinset.mp hp
  obtain ⟨j, hj, rfl⟩ := keys_take h k p hp'
  simp only [φ, hun j hj] at e
  have := hinj σ hσ j i hj hi (lin_inj (hin σ hσ j hj) (hin σ hσ i hi) e)
  subst this
  exact hp'

/-- **C33** If every symmetry permutes the indices of the array, the classes are the orbits: two indices are in the same class exactly if they are related by a
chain of symmetries and inverses of symmetries. -/
theorem C33_orbits (len : List Int) (hn : NonNeg len) (syms : List Sym) (hk : KeepRank len.length syms) (maxLen : Int)
    (hin : ∀ σ ∈ syms, ∀ i, InRange len i → InRange len (σ i).1)
    (hinj : ∀ σ ∈ syms, ∀ i j, InRange len i → InRange len j → (σ i).1 = (σ j).1 → i = j) :
    ∃ fuel0 g, (∀ fuel, fuel0 ≤ fuel → build len syms maxLen fuel = some g) ∧ ∀ i j, InRange len i → InRange len j →
      ((∃ c ∈ classes g, lin len i ∈ c.map Prod.fst ∧ lin len j ∈ c.map Prod.fst) ↔ Relation.EqvGen (Linked len syms) i j) := by
  obtain ⟨fuel0, g, L, e, h⟩ := build_spec hn hk maxLen
  refine ⟨fuel0, g, e, fun i j hi hj => ?_⟩
  rw [h.classes_eq]
  -- positions in the list of classes
  have hpos : ∀ i, InRange len i → ∃ a, ∃ ha : a < L.length, lin len i ∈ L[a].map Prod.fst := by
    intro i hi
    obtain ⟨q, hq, hql⟩ := List.mem_map.mp (cover_all h hi)
    obtain ⟨c, hc, hqc⟩ := List.mem_flatten.mp hq
    obtain ⟨a, ha, rfl⟩ := List.mem_iff_getElem.mp hc
    exact ⟨a, ha, List.mem_map.mpr ⟨q, hqc, hql⟩⟩
  have hdisj : ∀ a b (ha : a < L.length) (hb : b < L.length) (q : Int), q ∈ L[a].map Prod.fst → q ∈ L[b].map Prod.fst → a = b := by
    intro a b ha hb q hqa hqb
    obtain ⟨u, hu, eu⟩ := List.mem_iff_getElem.mp hqa
    obtain ⟨v, hv, ev⟩ := List.mem_iff_getElem.mp hqb
    have conv : ∀ (a b : Nat) (ha : a < L.length) (hb : b < (L[a].map Prod.fst).length), ((L.map (fun c => c.map Prod.fst))[a]?).bind (fun c => c[b]?) = some (L[a].map Prod.fst)[b] := by
      intro a b ha hb
      rw [List.getElem?_map, List.getElem?_eq_getElem ha, Option.map_some, Option.bind_some, List.getElem?_eq_getElem hb]
    have := flatten_unique (nodup_keys h) ((conv a u ha hu).trans (by rw [eu])) ((conv b v hb hv).trans (by rw [ev]))
    exact congrArg Prod.fst this
  have hmemtake : ∀ a k (ha : a < L.length) (q : Int), a < k → q ∈ L[a].map Prod.fst → q ∈ (L.take k).flatten.map Prod.fst := by
    intro a k ha q hak hq
    obtain ⟨p, hp, rfl⟩ := List.mem_map.mp hq
    refine List.mem_map.mpr ⟨p, List.mem_flatten.mpr ⟨L[a], ?_, hp⟩, rfl⟩
    rw [List.mem_take_iff_getElem]
    exact ⟨a, by omega, rfl⟩
  have htakemem : ∀ k (q : Int), q ∈ (L.take k).flatten.map Prod.fst → ∃ a, ∃ ha : a < L.length, a < k ∧ q ∈ L[a].map Prod.fst := by
    intro k q hq
    obtain ⟨p, hp, rfl⟩ := List.mem_map.mp hq
    obtain ⟨c, hc, hpc⟩ := List.mem_flatten.mp hp
    rw [List.mem_take_iff_getElem] at hc
    obtain ⟨a, ha, rfl⟩ := hc
    exact ⟨a, by omega, by omega, List.mem_map.mpr ⟨p, hpc, rfl⟩⟩
  have hstep : ∀ i σ, InRange len i → σ ∈ syms → ∀ a (ha : a < L.length), lin len i ∈ L[a].map Prod.fst → lin len (σ i).1 ∈ L[a].map Prod.fst := by
    intro i σ hi hσ a ha hm
    have h1 := h.closed (a + 1) (by omega) i hi (hmemtake a (a + 1) ha _ (by omega) hm) σ hσ (hin σ hσ i hi)
    obtain ⟨b, hb, hba, hmb⟩ := htakemem _ _ h1
    rcases Nat.lt_or_ge b a with hlt | hge
    · have h2 := onto h hin hinj a (by omega) σ hσ i hi (hmemtake b a hb _ hlt hmb)
      obtain ⟨b', hb', hba', hmb'⟩ := htakemem _ _ h2
      have := hdisj b' a hb' ha _ hmb' hm
      omega
    · obtain rfl : b = a := by omega
      exact hmb
  constructor
  · rintro ⟨c, hc, hic, hjc⟩
    obtain ⟨r, rest, hr, -, hall⟩ := h.isClass c hc
    have hreach : ∀ j p, Reach syms r .one j p → InRange len j ∧ Relation.EqvGen (Linked len syms) r j := by
      intro j p hp
      induction hp with
      | start => exact ⟨hr, Relation.EqvGen.refl _⟩
      | step s _ hs ih => exact ⟨hin s hs _ ih.1, Relation.EqvGen.trans _ _ _ ih.2 (Relation.EqvGen.rel _ _ ⟨ih.1, s, hs, rfl⟩)⟩
    have hm : ∀ i, InRange len i → lin len i ∈ c.map Prod.fst → Relation.EqvGen (Linked len syms) r i := by
      intro i hi him
      obtain ⟨q, hq, eq⟩ := List.mem_map.mp him
      obtain ⟨j, hj, ej, hrj⟩ := hall q hq
      rw [lin_inj hi hj (by omega)]
      exact (hreach j _ hrj).2
    exact Relation.EqvGen.trans _ _ _ (Relation.EqvGen.symm _ _ (hm i hi hic)) (hm j hj hjc)
  · intro hij
    obtain ⟨a, ha, hia⟩ := hpos i hi
    have gen : ∀ i j, Relation.EqvGen (Linked len syms) i j → (InRange len i ↔ InRange len j) ∧
        (InRange len i → ∀ a (ha : a < L.length), (lin len i ∈ L[a].map Prod.fst ↔ lin len j ∈ L[a].map Prod.fst)) := by
      intro i j hij
      induction hij with
      | rel i j hl =>
        obtain ⟨hi, σ, hσ, rfl⟩ := hl
        refine ⟨⟨fun _ => hin σ hσ i hi, fun _ => hi⟩, fun _ a ha => ⟨hstep i σ hi hσ a ha, fun hm => ?_⟩⟩
        obtain ⟨b, hb, hmb⟩ := hpos i hi
        have := hdisj a b ha hb _ hm (hstep i σ hi hσ b hb hmb)
        subst this
        exact hmb
      | refl i => exact ⟨Iff.rfl, fun _ _ _ => Iff.rfl⟩
      | symm i j _ ih => exact ⟨ih.1.symm, fun hj a ha => (ih.2 (ih.1.mpr hj) a ha).symm⟩
      | trans i j k _ _ ih1 ih2 => exact ⟨ih1.1.trans ih2.1, fun hi a ha => (ih1.2 hi a ha).trans (ih2.2 (ih1.1.mp hi) a ha)⟩
    exact ⟨L[a], List.getElem_mem ha, hia, ((gen i j hij).2 hi a ha).mp hia⟩

end Nda.SymGrp
