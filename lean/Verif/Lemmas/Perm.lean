import Verif.Model.Perm
import Verif.Spec.Perm
import Mathlib.Data.List.Nodup
import Mathlib.Data.List.Perm.Basic
import Mathlib.Data.List.Range
/-!
# Helper lemmas about the permutation model
-/
namespace Nda.Perm
open Nda Nda.Spec

theorem IsPerm.nodup {p : List Nat} (h : IsPerm p) : p.Nodup :=
  (List.Perm.nodup_iff h).mpr List.nodup_range

theorem IsPerm.mem_iff {p : List Nat} (h : IsPerm p) {k : Nat} : k ∈ p ↔ k < p.length := by
  rw [List.Perm.mem_iff h, List.mem_range]

theorem IsPerm.lt {p : List Nat} (h : IsPerm p) {k : Nat} (hk : k ∈ p) : k < p.length :=
  (IsPerm.mem_iff h).mp hk

theorem IsPerm.getElem_lt {p : List Nat} (h : IsPerm p) {u : Nat} (hu : u < p.length) :
    p[u] < p.length := IsPerm.lt h (List.getElem_mem hu)

theorem IsPerm.exists_idx {p : List Nat} (h : IsPerm p) {k : Nat} (hk : k < p.length) :
    ∃ u, ∃ hu : u < p.length, p[u] = k := by
  have : k ∈ p := (IsPerm.mem_iff h).mpr hk
  exact List.mem_iff_getElem.mp this

theorem isPerm_of_nodup_lt {p : List Nat} (hn : p.Nodup) (hl : ∀ k ∈ p, k < p.length) :
    IsPerm p := by
  have hsub : p ⊆ List.range p.length := fun k hk => List.mem_range.mpr (hl k hk)
  have hsp : p.Subperm (List.range p.length) := List.subperm_of_subset hn hsub
  exact hsp.perm_of_length_le (by simp)

theorem isPerm_iff {p : List Nat} : IsPerm p ↔ p.Nodup ∧ ∀ k ∈ p, k < p.length :=
  ⟨fun h => ⟨IsPerm.nodup h, fun _ hk => IsPerm.lt h hk⟩, fun ⟨a, b⟩ => isPerm_of_nodup_lt a b⟩

/-- Characterisation of `mapM` of checked reads. -/
theorem mapM_rd {α : Type _} (a : List α) (p : List Nat) (h : ∀ k ∈ p, k < a.length) :
    ∃ r, p.mapM (fun k => rd a k) = some r ∧ r.length = p.length ∧
      ∀ u, ∀ hu : u < p.length, r[u]? = a[p[u]]? := by
  induction p with
  | nil => exact ⟨[], rfl, rfl, by simp⟩
  | cons k p ih =>
    obtain ⟨r, hr, hl, hg⟩ := ih (fun k hk => h k (List.mem_cons_of_mem _ hk))
    have hk : k < a.length := h k List.mem_cons_self
    refine ⟨a[k] :: r, ?_, by simp [hl], ?_⟩
    · have : rd a k = some a[k] := by simp [rd, hk]
      simp only [List.mapM_cons, this, hr]; rfl
    · intro u hu
      cases u with
      | zero => simp [hk]
      | succ u => simpa using hg u (by simpa using hu)

theorem mapM_rd_some {α : Type _} {a : List α} {p : List Nat} {r : List α}
    (h : p.mapM (fun k => rd a k) = some r) :
    r.length = p.length ∧ (∀ k ∈ p, k < a.length) ∧
      ∀ u, ∀ hu : u < p.length, r[u]? = a[p[u]]? := by
  induction p generalizing r with
  | nil => simp at h; subst h; simp
  | cons k p ih =>
    rw [List.mapM_cons] at h
    obtain ⟨x, hx, h⟩ := Option.bind_eq_some_iff.mp h
    obtain ⟨r', hr', h⟩ := Option.bind_eq_some_iff.mp h
    obtain rfl : x :: r' = r := Option.some.inj h
    simp only [rd] at hx
    obtain ⟨h1, h2, h3⟩ := ih hr'
    refine ⟨by simp [h1], ?_, ?_⟩
    · intro j hj
      rcases List.mem_cons.mp hj with rfl | hj
      · by_contra hc
        simp [List.getElem?_eq_none (Nat.le_of_not_lt hc)] at hx
      · exact h2 j hj
    · intro u hu
      cases u with
      | zero => simp [hx]
      | succ u => simpa using h3 u (by simpa using hu)

theorem wr_of_lt {α : Type _} {l : List α} {i : Nat} (x : α) (h : i < l.length) :
    wr l i x = some (l.set i x) := by simp [wr, h]

/-- The scatter loop writes every listed position and leaves the others alone. -/
theorem scatter_spec {α : Type _} (kx : List (Nat × α)) (r : List α)
    (hn : (kx.map Prod.fst).Nodup) (hl : ∀ k ∈ kx.map Prod.fst, k < r.length) :
    ∃ r', scatter kx r = some r' ∧ r'.length = r.length ∧
      (∀ e ∈ kx, r'[e.1]? = some e.2) ∧
      (∀ k, k ∉ kx.map Prod.fst → r'[k]? = r[k]?) := by
  induction kx generalizing r with
  | nil => exact ⟨r, rfl, rfl, by simp, by simp⟩
  | cons e kx ih =>
    obtain ⟨k, x⟩ := e
    have hk : k < r.length := hl k (by simp)
    simp only [List.map_cons, List.nodup_cons] at hn
    obtain ⟨r', h1, h2, h3, h4⟩ := ih (r.set k x) hn.2 (by
      intro j hj; simpa using hl j (List.mem_cons_of_mem _ hj))
    refine ⟨r', ?_, by simpa using h2, ?_, ?_⟩
    · simp [scatter, wr_of_lt x hk, h1]
    · intro e he
      rcases List.mem_cons.mp he with rfl | he
      · rw [h4 _ hn.1]; simp [hk]
      · exact h3 e he
    · intro j hj
      simp only [List.map_cons, List.mem_cons, not_or] at hj
      rw [h4 j hj.2, List.getElem?_set_ne (Ne.symm hj.1)]

theorem map_fst_zip_of_length {α : Type _} {p : List Nat} {a : List α} (h : a.length = p.length) :
    (p.zip a).map Prod.fst = p := List.map_fst_zip (by omega)

theorem scatter_zip {α : Type _} (p : List Nat) (a : List α) (d : α) (hp : IsPerm p)
    (ha : a.length = p.length) :
    ∃ r, scatter (p.zip a) (mkInit p.length d) = some r ∧ r.length = p.length ∧
      ∀ u, ∀ hu : u < p.length, r[p[u]]? = a[u]? := by
  have hz := map_fst_zip_of_length ha
  obtain ⟨r, h1, h2, h3, _⟩ := scatter_spec (p.zip a) (mkInit p.length d)
    (by rw [hz]; exact IsPerm.nodup hp)
    (by rw [hz]; intro k hk; simpa [mkInit] using IsPerm.lt hp hk)
  refine ⟨r, h1, by simpa [mkInit] using h2, ?_⟩
  intro u hu
  have := h3 (p[u], a[u]) (by
    have := List.getElem_mem (l := p.zip a) (n := u) (by simp; omega)
    simpa using this)
  simpa [List.getElem?_eq_getElem (show u < a.length by omega)] using this

theorem applyInverse_spec {α : Type _} [Inhabited α] (p : List Nat) (a : List α) (hp : IsPerm p)
    (ha : a.length = p.length) :
    ∃ r, applyInverse p a = some r ∧ r.length = p.length ∧
      ∀ u, ∀ hu : u < p.length, r[p[u]]? = a[u]? := scatter_zip p a default hp ha

theorem inverse_spec (p : List Nat) (hp : IsPerm p) :
    ∃ r, inverse p = some r ∧ r.length = p.length ∧
      ∀ u, ∀ hu : u < p.length, r[p[u]]? = some u := by
  obtain ⟨r, h1, h2, h3⟩ := scatter_zip p (List.range p.length) 0 hp (by simp)
  refine ⟨r, h1, h2, fun u hu => ?_⟩
  rw [h3 u hu]; simp [hu]

theorem apply_spec {α : Type _} (p : List Nat) (a : List α) (hp : IsPerm p)
    (ha : a.length = p.length) :
    ∃ r, apply p a = some r ∧ r.length = p.length ∧
      ∀ u, ∀ hu : u < p.length, r[u]? = a[p[u]]? :=
  mapM_rd a p (fun k hk => by rw [ha]; exact IsPerm.lt hp hk)

theorem compose_spec (p q : List Nat) (hp : IsPerm p) (hq : IsPerm q)
    (hl : q.length = p.length) :
    ∃ r, compose p q = some r ∧ r.length = p.length ∧ IsPerm r ∧
      ∀ u, ∀ hu : u < q.length, r[u]? = p[q[u]]? := by
  obtain ⟨r, h1, h2, h3⟩ := mapM_rd p q (fun k hk => by rw [← hl]; exact IsPerm.lt hq hk)
  refine ⟨r, h1, by omega, ?_, h3⟩
  apply isPerm_of_nodup_lt
  · rw [List.nodup_iff_injective_getElem]
    intro ⟨i, hi⟩ ⟨j, hj⟩ hij
    simp only at hij
    have hi' : i < q.length := by omega
    have hj' : j < q.length := by omega
    have hqi : q[i] < p.length := by rw [← hl]; exact IsPerm.getElem_lt hq hi'
    have hqj : q[j] < p.length := by rw [← hl]; exact IsPerm.getElem_lt hq hj'
    have e1 : r[i] = p[q[i]] := by
      have := h3 i hi'; rw [List.getElem?_eq_getElem hi, List.getElem?_eq_getElem hqi] at this
      exact Option.some.inj this
    have e2 : r[j] = p[q[j]] := by
      have := h3 j hj'; rw [List.getElem?_eq_getElem hj, List.getElem?_eq_getElem hqj] at this
      exact Option.some.inj this
    have h5 : q[i] = q[j] := by
      apply (List.Nodup.getElem_inj_iff (IsPerm.nodup hp)).mp
      rw [← e1, ← e2]; exact hij
    have h6 : i = j := (List.Nodup.getElem_inj_iff (IsPerm.nodup hq)).mp h5
    simp [h6]
  · intro k hk
    obtain ⟨u, hu, rfl⟩ := List.mem_iff_getElem.mp hk
    have hu' : u < q.length := by omega
    have hqu : q[u] < p.length := by rw [← hl]; exact IsPerm.getElem_lt hq hu'
    have := h3 u hu'
    rw [List.getElem?_eq_getElem hu, List.getElem?_eq_getElem hqu] at this
    rw [Option.some.inj this]
    have := IsPerm.getElem_lt hp hqu
    omega

theorem isPerm_of_leftInv {p r : List Nat} (hp : IsPerm p) (hl : r.length = p.length)
    (h : ∀ u, ∀ hu : u < p.length, r[p[u]]? = some u) : IsPerm r := by
  apply isPerm_of_nodup_lt
  · rw [List.nodup_iff_injective_getElem]
    intro ⟨i, hi⟩ ⟨j, hj⟩ hij
    simp only at hij
    obtain ⟨u, hu, rfl⟩ := IsPerm.exists_idx hp (k := i) (by omega)
    obtain ⟨v, hv, rfl⟩ := IsPerm.exists_idx hp (k := j) (by omega)
    have e1 := h u hu; have e2 := h v hv
    rw [List.getElem?_eq_getElem hi] at e1
    rw [List.getElem?_eq_getElem hj] at e2
    have : u = v := by rw [← Option.some.inj e1, ← Option.some.inj e2]; exact hij
    subst this; rfl
  · intro k hk
    obtain ⟨i, hi, rfl⟩ := List.mem_iff_getElem.mp hk
    obtain ⟨u, hu, rfl⟩ := IsPerm.exists_idx hp (k := i) (by omega)
    have e1 := h u hu
    rw [List.getElem?_eq_getElem hi] at e1
    rw [Option.some.inj e1]; omega

theorem isPerm_range (n : Nat) : IsPerm (List.range n) := by
  unfold IsPerm; simp

/-- Two lists agreeing through a permutation are equal. -/
theorem ext_through_perm {α : Type _} {p : List Nat} (hp : IsPerm p) {a b : List α}
    (ha : a.length = p.length) (hb : b.length = p.length)
    (h : ∀ u, ∀ hu : u < p.length, a[p[u]]? = b[p[u]]?) : a = b := by
  apply List.ext_getElem?
  intro i
  by_cases hi : i < p.length
  · obtain ⟨u, hu, rfl⟩ := IsPerm.exists_idx hp hi
    exact h u hu
  · rw [List.getElem?_eq_none (by omega), List.getElem?_eq_none (by omega)]

end Nda.Perm
