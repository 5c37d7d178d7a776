import Verif.Lemmas.SpmdOps
/-!
# Assigning and constructing from delayed operations, run by all processes
-/
namespace Nda.Spmd
open Nda Mpi Assign Matrix

variable {α β γ : Type} {n : Nat} {sem : Nat → α → α → α} {debug : Bool} {junk : α}

theorem prod_nonneg' : ∀ {l : List Int}, (∀ x ∈ l, 0 ≤ x) → 0 ≤ l.prod
  | [], _ => by simp
  | a :: l, h => by
    rw [List.prod_cons]
    exact mul_nonneg (h a List.mem_cons_self) (prod_nonneg' (fun x hx => h x (List.mem_cons_of_mem _ hx)))

/-- What the assignments need to know of a delayed operation: the shapes `want` and, on the processes `g` that get a result, the elements `xs`. -/
structure Ready (sem : Nat → α → α → α) (debug : Bool) (junk : α) (d : Delayed) (a : Fin n → Loc α) (want : Fin n → List Int) (g : Fin n → Bool) (xs : Fin n → List α) : Prop where
  pos : 0 < n
  contig : ∀ r, (a r).contig = true
  nonneg : ∀ r, 0 ≤ (want r).prod
  shape : Goes sem (fun r => delayedShape (at_ debug junk n r) d (a r).shape) want
  run : ∀ (same : Bool) (u : Fin n → Loc α), (same = true → ∃ root all op, d = .reduce root all op) → (same = true → ∀ r, (u r).shape.prod = (want r).prod) →
    (∀ r, g r = true → (u r).shape = want r ∧ ((u r).data.length : Int) = (want r).prod) → (∀ r, (u r).contig = true) →
    Goes sem (fun r => invoke (at_ debug junk n r) d ⟨(a r).shape, (a r).data, same, true⟩ (u r)) (fun r => if g r then { u r with data := xs r } else u r)

theorem ready_of_gathered {root : Nat} {all : Bool} {a t t' : Fin n → Loc α} (hr : root < n) (h : Gathered junk debug root all a t t') :
    ∃ want g xs, Ready sem debug junk (.gather root all) a want g xs ∧
      ∀ r, (g r = true → Receives (t r) (t' r) (want r) (xs r)) ∧ (g r = false → Bystander junk debug (t r) (t' r) (want r)) := by
  obtain ⟨heights, rest, ha, hb, ht⟩ := h
  have hrest : 0 ≤ rest.prod := by
    have := (ha ⟨0, by omega⟩)
    refine prod_nonneg' (fun x hx => this.1.nonneg x (by rw [this.2]; exact List.mem_cons_of_mem _ hx))
  have hh : ∀ r, 0 ≤ heights r := fun r => (ha r).1.nonneg _ (by rw [(ha r).2]; exact List.mem_cons_self)
  refine ⟨fun r => (if all || decide (r.val = root) then (List.ofFn heights).sum else 1) :: rest, fun r => all || decide (r.val = root), fun _ => (List.ofFn (fun q => (a q).data)).flatten,
    ⟨by omega, fun r => (ha r).1.contig, fun r => ?_, ?_, ?_⟩, fun r => ⟨fun hg => ?_, fun hg => ?_⟩⟩
  · rw [List.prod_cons]
    refine mul_nonneg ?_ hrest
    split
    · exact sum_nonneg' (fun c hc => by rw [List.mem_ofFn] at hc; obtain ⟨q, rfl⟩ := hc; exact hh q)
    · omega
  · have : (fun r => delayedShape (at_ debug junk n r) (.gather root all) (a r).shape) = fun r => delayedShape (at_ debug junk n r) (.gather root all) (heights r :: rest) := by
      funext r; rw [(ha r).2]
    rw [this]
    exact goes_shape_gather hr heights rest
  · intro same u hsame hs hu hc
    have h0 : same = false := by
      cases same with
      | false => rfl
      | true => obtain ⟨_, _, _, e⟩ := hsame rfl; cases e
    subst h0
    simp only [invoke_eq]
    refine goes_bind (goes_need hc) ?_
    have : (fun r => invokeGather (at_ debug junk n r) root all ⟨(a r).shape, (a r).data, false, true⟩ (u r)) =
        fun r => invokeGather (at_ debug junk n r) root all ⟨heights r :: rest, (a r).data, false, true⟩ (u r) := by
      funext r; rw [(ha r).2]
    simp only [if_true]
    rw [this]
    refine goes_invokeGather hr heights rest (fun r => (a r).data) (fun r => by rw [(ha r).1.full, (ha r).2]) hb u (fun r hg => ?_)
    have hg' := gets_iff.mp hg
    have := hu r hg'
    simpa only [hg', if_true] using this
  · have := (ht r).1 (gets_iff.mpr hg)
    simpa only [hg, if_true] using this
  · replace hg : (all || decide (r.val = root)) = false := hg
    have := (ht r).2 (fun hg' => by rw [gets_iff.mp hg'] at hg; cases hg)
    simpa only [hg, Bool.false_eq_true, if_false] using this

theorem ready_of_scattered {root : Nat} {a t t' : Fin n → Loc α} (hr : root < n) (h : Scattered ⟨root, hr⟩ a t t') :
    ∃ want g xs, Ready sem debug junk (.scatter root) a want g xs ∧
      ∀ r, (g r = true → Receives (t r) (t' r) (want r) (xs r)) ∧ (g r = false → Bystander junk debug (t r) (t' r) (want r)) := by
  obtain ⟨l, rest, ha, hb, ht⟩ := h
  have h1 := ha ⟨root, hr⟩
  have hrest : 0 ≤ rest.prod := prod_nonneg' (fun x hx => h1.1.nonneg x (by rw [h1.2]; exact List.mem_cons_of_mem _ hx))
  have hl : 0 ≤ l := h1.1.nonneg _ (by rw [h1.2]; exact List.mem_cons_self)
  refine ⟨_, fun _ => true, _, ⟨by omega, fun r => (ha r).1.contig, fun r => ?_, ?_, ?_⟩, fun r => ⟨fun _ => ht r, fun hg => by cases hg⟩⟩
  · rw [List.prod_cons]; exact mul_nonneg (chunk_nonneg hl n r.val) hrest
  · have : (fun r => delayedShape (at_ debug junk n r) (.scatter root) (a r).shape) = fun r => delayedShape (at_ debug junk n r) (.scatter root) (l :: rest) := by
      funext r; rw [(ha r).2]
    rw [this]
    exact goes_shape_scatter hr l rest
  · intro same u hsame hs hu hc
    have h0 : same = false := by
      cases same with
      | false => rfl
      | true => obtain ⟨_, _, _, e⟩ := hsame rfl; cases e
    subst h0
    simp only [invoke_eq]
    refine goes_bind (goes_need hc) ?_
    have : (fun r => invokeScatter (at_ debug junk n r) root ⟨(a r).shape, (a r).data, false, true⟩ (u r)) =
        fun r => invokeScatter (at_ debug junk n r) root ⟨l :: rest, (a r).data, false, true⟩ (u r) := by
      funext r; rw [(ha r).2]
    simp only [if_true]
    rw [this]
    exact goes_invokeScatter hr l rest (fun r => (a r).data) hl hrest (by rw [h1.1.full, h1.2]) hb u (fun r => hu r rfl)

theorem combined_combine {op : α → α → α} {ys : Fin n → List α} {m : Int} (hp : 0 < n) (hy : ∀ q, ((ys q).length : Int) = m) : Combined op ys (combine op (List.ofFn ys)) m := by
  have hne : List.ofFn ys ≠ [] := by
    intro e; have := congrArg List.length e; simp at this; omega
  have hl : ∀ b ∈ List.ofFn ys, b.length = m.toNat := by
    intro b hb; rw [List.mem_ofFn] at hb; obtain ⟨q, rfl⟩ := hb; have := hy q; omega
  have h0 := hy ⟨0, hp⟩
  refine ⟨by rw [combine_length op hne hl]; omega, fun i col hcol => ?_⟩
  have hi : i < (ys ⟨0, hp⟩).length := by
    by_contra hc
    have := hcol ⟨0, hp⟩
    rw [List.getElem?_eq_none (by omega)] at this; cases this
  refine combine_spec op (n := m.toNat) (by omega) _ _ hl ?_
  rw [List.map_ofFn, List.map_ofFn]
  congr 1; funext q; exact hcol q

theorem combined_unique {op : α → α → α} {ys : Fin n → List α} {m : Int} (hy : ∀ q, ((ys q).length : Int) = m) {xs zs : List α} (h : Combined op ys xs m)
    (h' : Combined op ys zs m) : xs = zs := by
  apply List.ext_getElem?
  intro i
  by_cases hi : (i : Int) < m
  · have : ∀ q, ∃ x, (ys q)[i]? = some x := fun q => ⟨_, List.getElem?_eq_getElem (by have := hy q; omega)⟩
    choose col hcol using this
    rw [h.2 i col hcol, h'.2 i col hcol]
  · have := h.1
    have := h'.1
    rw [List.getElem?_eq_none (by omega), List.getElem?_eq_none (by omega)]

theorem ready_of_reduced {root : Nat} {all : Bool} {op : Nat} {a t t' : Fin n → Loc α} (hr : root < n) (h : Reduced sem junk debug root all op a t t') :
    ∃ want g xs, Ready sem debug junk (.reduce root all op) a want g xs ∧ (∀ r, want r = (a r).shape) ∧
      ∀ r, (g r = true → Receives (t r) (t' r) (want r) (xs r)) ∧ (g r = false → Bystander junk debug (t r) (t' r) (want r)) := by
  obtain ⟨sha, ha, hb, ht⟩ := h
  have hp : 0 < n := by omega
  have hfull : ∀ r, (((a r).data).length : Int) = sha.prod := fun r => by rw [(ha r).1.full, (ha r).2]
  have hk : 0 ≤ sha.prod := by rw [← hfull ⟨0, hp⟩]; omega
  refine ⟨fun _ => sha, fun r => all || decide (r.val = root), fun _ => combine (sem op) (List.ofFn (fun q => (a q).data)),
    ⟨hp, fun r => (ha r).1.contig, fun _ => hk, ?_, ?_⟩, fun r => (ha r).2.symm, fun r => ⟨fun hg => ?_, fun hg => ?_⟩⟩
  · exact goes_leaf (fun r => by rw [(ha r).2]; rfl)
  · intro same u _ hs hu hc
    simp only [invoke_eq]
    refine goes_bind (goes_need hc) ?_
    have : (fun r => invokeReduce (at_ debug junk n r) root all op ⟨(a r).shape, (a r).data, same, true⟩ (u r)) =
        fun r => invokeReduce (at_ debug junk n r) root all op ⟨sha, (a r).data, same, true⟩ (u r) := by
      funext r; rw [(ha r).2]
    simp only [if_true]
    rw [this]
    exact goes_invokeReduce hr sha (fun r => (a r).data) same hfull hb u hs (fun r hg => hu r (gets_iff.mp hg))
  · obtain ⟨xs, hx, hrec⟩ := (ht r).1 (gets_iff.mpr hg)
    rw [combined_unique hfull hx (combined_combine hp hfull)] at hrec
    exact hrec
  · replace hg : (all || decide (r.val = root)) = false := hg
    exact (ht r).2 (fun hg' => by rw [gets_iff.mp hg'] at hg; cases hg)

theorem ready_of_does {d : Delayed} {a t t' : Fin n → Loc α} (h : Does sem junk debug d a t t') :
    ∃ want g xs, Ready sem debug junk d a want g xs ∧ ((∃ root all op, d = .reduce root all op) → ∀ r, want r = (a r).shape) ∧
      ∀ r, (g r = true → Receives (t r) (t' r) (want r) (xs r)) ∧ (g r = false → Bystander junk debug (t r) (t' r) (want r)) := by
  cases d with
  | gather root all =>
    obtain ⟨want, g, xs, h1, h2⟩ := ready_of_gathered (sem := sem) h.1 h.2
    exact ⟨want, g, xs, h1, fun ⟨_, _, _, e⟩ => (by cases e), h2⟩
  | scatter root =>
    obtain ⟨hr, h⟩ := h
    obtain ⟨want, g, xs, h1, h2⟩ := ready_of_scattered (sem := sem) hr h
    exact ⟨want, g, xs, h1, fun ⟨_, _, _, e⟩ => (by cases e), h2⟩
  | reduce root all op =>
    obtain ⟨want, g, xs, h1, h2, h3⟩ := ready_of_reduced h.1 h.2
    exact ⟨want, g, xs, h1, fun _ => h2, h3⟩

theorem resize_length (h : Here α) (t : Loc α) {sha : List Int} (hk : 0 ≤ sha.prod) : ((t.resize h sha).data.length : Int) = sha.prod := by
  unfold Loc.resize
  dsimp only
  split
  · omega
  · rw [List.length_replicate]; omega

theorem goes_assign {d : Delayed} {a t t' : Fin n → Loc α} {same : Bool} (h : Does sem junk debug d a t t') (hkind : ∀ r q, (t r).isView = (t q).isView)
    (hsame : same = true → (∃ root all op, d = .reduce root all op) ∧ t = a) :
    Goes sem (fun r => assign (at_ debug junk n r) d same (a r) (t r)) t' := by
  obtain ⟨want, g, xs, hready, hwant, ht⟩ := ready_of_does h
  have hp := hready.pos
  have hcontig : ∀ r, (t r).contig = true := by
    intro r
    cases hg : g r with
    | true => exact ((ht r).1 hg).1
    | false => exact ((ht r).2 hg).1
  have hwhole : ∀ r, d = d → same = true → (want r).prod = (a r).data.length := by
    intro r _ hs
    obtain ⟨⟨root, all, op, rfl⟩, _⟩ := hsame hs
    obtain ⟨sha, ha, _⟩ := h.2
    rw [hwant ⟨_, _, _, rfl⟩ r, (ha r).1.full]
  simp only [assign_eq]
  refine goes_bind (goes_need hready.contig) ?_
  cases hv : (t ⟨0, hp⟩).isView with
  | true =>
    have hv' : ∀ r, (t r).isView = true := fun r => (hkind r ⟨0, hp⟩).trans hv
    simp only [hv', if_true, assignView_eq]
    refine goes_noexcept (goes_bind (b := fun _ => ()) ?_ ?_)
    · unfold expectShape
      show Goes sem (fun r => if debug = true then _ else _) _
      cases debug with
      | false => exact goes_leaf (fun _ => rfl)
      | true =>
        simp only [if_true]
        refine goes_bind hready.shape (goes_need (fun r => decide_eq_true ?_))
        cases hg : g r with
        | true => exact (((ht r).1 hg).2.1 (hv' r)).1
        | false =>
          have := ((ht r).2 hg).2
          rw [if_pos (hv' r)] at this
          exact this.2 rfl
    · have hrun := hready.run same t (fun hs => (hsame hs).1) (fun hs r => ?_) (fun r hg => ?_) hcontig
      · refine Eq.subst (motive := fun b => Goes sem _ b) ?_ hrun
        funext r
        cases hg : g r with
        | true =>
          obtain ⟨_, h2, h3⟩ := (ht r).1 hg
          rw [if_pos rfl, h3, ← (h2 (hv' r)).1]
        | false =>
          have := ((ht r).2 hg).2
          rw [if_pos (hv' r)] at this
          rw [if_neg (by simp), this.1]
      · rw [(hsame hs).2, hwant (hsame hs).1 r]
      · exact ((ht r).1 hg).2.1 (hv' r)
  | false =>
    have hv' : ∀ r, (t r).isView = false := fun r => (hkind r ⟨0, hp⟩).trans hv
    simp only [hv', Bool.false_eq_true, if_false, assignArray_eq]
    refine goes_noexcept (goes_bind hready.shape ?_)
    have halive : ∀ r, (!same || decide ((want r).prod = (t r).data.length)) = true := by
      intro r
      cases hs : same with
      | false => rfl
      | true =>
        have := hwhole r rfl hs
        rw [(hsame hs).2]
        simpa using this
    simp only [halive]
    have hrun := hready.run same (fun r => (t r).resize (at_ debug junk n r) (want r)) (fun hs => (hsame hs).1) (fun _ _ => rfl)
      (fun r _ => ⟨rfl, resize_length _ _ (hready.nonneg r)⟩) hcontig
    refine Eq.subst (motive := fun b => Goes sem _ b) ?_ hrun
    funext r
    cases hg : g r with
    | true =>
      obtain ⟨_, _, h3⟩ := (ht r).1 hg
      rw [if_pos rfl, h3]; rfl
    | false =>
      have := ((ht r).2 hg).2
      rw [if_neg (by simp [hv' r])] at this
      rw [if_neg (by simp), this]; rfl

theorem goes_construct {d : Delayed} {a t' : Fin n → Loc α} (h : Does sem junk debug d a (fun _ => ⟨[], [], false, true⟩) t') :
    Goes sem (fun r => construct (at_ debug junk n r) d (a r)) t' := by
  obtain ⟨want, g, xs, hready, _, ht⟩ := ready_of_does h
  simp only [construct_eq]
  refine goes_bind (goes_need hready.contig) ?_
  refine goes_bind hready.shape ?_
  have hrun := hready.run false (fun r => ⟨want r, List.replicate (want r).prod.toNat junk, false, true⟩) (fun hs => by cases hs) (fun hs => by cases hs)
    (fun r _ => ⟨rfl, by have := hready.nonneg r; simp only [List.length_replicate]; omega⟩) (fun _ => rfl)
  refine Eq.subst (motive := fun b => Goes sem _ b) ?_ hrun
  funext r
  cases hg : g r with
  | true =>
    obtain ⟨_, _, h3⟩ := (ht r).1 hg
    rw [if_pos rfl, h3]
  | false =>
    have := ((ht r).2 hg).2
    rw [if_neg (by simp)] at this
    rw [if_neg (by simp), this]
    congr 1
    split
    · rename_i e
      have : (want r).prod = 0 := by simpa using e
      rw [this]; rfl
    · rfl

end Nda.Spmd
