import Verif.Lemmas.Threads
/-!
# Lemmas for C86: the code of the statements
-/
namespace Nda.Threads
open Nda Nda.Spec LayoutTransforms Assign Arith Loops Programs Programs.Spec Threads.Spec

variable {α : Type}

/-! ### Loads and stores one by one do what the statements of Model/Programs do -/

theorem run_load (v : View) (idx : List Int) (c : α → Act α) (mem : List α) : runAct (loadAct v idx c) mem = (load v idx mem).bind (fun x => runAct (c x) mem) := by
  rw [loadAct, load]
  cases element v (idx.map .idx) with
  | none => rfl
  | some k => simp [runAct]

theorem sequence_succ {n : Nat} (xs : Fin (n + 1) → Option α) :
    sequence xs = (xs 0).bind (fun x => (sequence (fun i => xs i.succ)).map (fun ys => (Fin.cons x ys : Fin (n + 1) → α))) := by
  by_cases h : ∀ i, (xs i).isSome = true
  · have h' : ∀ i : Fin n, (xs i.succ).isSome = true := fun i => h i.succ
    obtain ⟨x, hx⟩ := Option.isSome_iff_exists.mp (h 0)
    rw [sequence, dif_pos h, hx, Option.bind_some, sequence, dif_pos h', Option.map_some, Option.some.injEq]
    funext i
    refine Fin.cases ?_ (fun j => ?_) i
    · simp [hx]
    · simp
  · rw [sequence, dif_neg h]
    cases hx : xs 0 with
    | none => rfl
    | some x =>
        rw [Option.bind_some, sequence, dif_neg, Option.map_none]
        intro h'
        refine h (fun i => Fin.cases ?_ (fun j => h' j) i)
        rw [hx]; rfl

theorem run_collect : ∀ (n : Nat) (es : Fin n → (α → Act α) → Act α) (xs : Fin n → Option α) (mem : List α),
    (∀ i c, runAct (es i c) mem = (xs i).bind (fun x => runAct (c x) mem)) →
    ∀ c, runAct (collect n es c) mem = (sequence xs).bind (fun ys => runAct (c ys) mem)
  | 0, es, xs, mem, _, c => by
      have h : ∀ i : Fin 0, (xs i).isSome = true := fun i => i.elim0
      rw [collect, sequence, dif_pos h, Option.bind_some]
      congr 2
      funext i
      exact i.elim0
  | n + 1, es, xs, mem, h, c => by
      rw [collect, h, sequence_succ]
      cases xs 0 with
      | none => rfl
      | some x =>
          simp only [Option.bind_some]
          rw [run_collect n _ (fun i => xs i.succ) mem (fun i c => h i.succ c)]
          cases sequence (fun i => xs i.succ) with
          | none => rfl
          | some ys => rfl

section
variable [Add α] [Sub α] [Mul α] [Div α] [Neg α]

theorem run_expr (e : Expr α) (idx : List Int) (mem : List α) : ∀ c, runAct (exprAct e idx c) mem = (e.get idx mem).bind (fun x => runAct (c x) mem) := by
  induction e with
  | arr a v => exact fun c => run_load v idx c mem
  | fn a l f => exact fun c => rfl
  | neg e ih =>
      intro c
      rw [exprAct, ih, Expr.get]
      cases e.get idx mem <;> rfl
  | bin op l r ihl ihr =>
      intro c
      rw [exprAct, Expr.get]
      split
      · rfl
      · rw [ihl]
        cases l.get idx mem with
        | none => rfl
        | some x =>
            simp only [Option.bind_some, ihr, Option.bind_eq_bind]
            cases r.get idx mem <;> rfl
  | scalL op s r ih =>
      intro c
      rw [exprAct.eq_def, Expr.get.eq_def]
      cases op
      · dsimp only
        split
        · cases equalTo idx with
          | none => rfl
          | some b => cases b <;> simp only [ih, Option.bind_eq_bind, Option.bind_some, Bool.false_eq_true, if_false, if_true] <;> cases r.get idx mem <;> rfl
        · rw [ih]; cases r.get idx mem <;> rfl
      · dsimp only
        split
        · cases equalTo idx with
          | none => rfl
          | some b => cases b <;> simp only [ih, Option.bind_eq_bind, Option.bind_some, Bool.false_eq_true, if_false, if_true] <;> cases r.get idx mem <;> rfl
        · rw [ih]; cases r.get idx mem <;> rfl
      · dsimp only
        rw [ih]; cases r.get idx mem <;> rfl
      · dsimp only
        split
        · rfl
        · rw [ih]; cases r.get idx mem <;> rfl
  | scalR op l s ih =>
      intro c
      rw [exprAct.eq_def, Expr.get.eq_def]
      cases op
      · dsimp only
        split
        · cases equalTo idx with
          | none => rfl
          | some b => cases b <;> simp only [ih, Option.bind_eq_bind, Option.bind_some, Bool.false_eq_true, if_false, if_true] <;> cases l.get idx mem <;> rfl
        · rw [ih]; cases l.get idx mem <;> rfl
      · dsimp only
        split
        · cases equalTo idx with
          | none => rfl
          | some b => cases b <;> simp only [ih, Option.bind_eq_bind, Option.bind_some, Bool.false_eq_true, if_false, if_true] <;> cases l.get idx mem <;> rfl
        · rw [ih]; cases l.get idx mem <;> rfl
      · dsimp only
        rw [ih]; cases l.get idx mem <;> rfl
      · dsimp only
        rw [ih]; cases l.get idx mem <;> rfl
  | call n f es ih =>
      intro c
      rw [exprAct, run_collect (n + 1) _ (fun i => (es i).get idx mem) mem (fun i c => ih i c), Expr.get]
      cases sequence (fun i => (es i).get idx mem) <;> rfl

end

/-- The code so far, followed by anything, does the same as the statement so far, followed by it. -/
def Sim (mem : List α) (oc : Option (Code α)) (om : Option (List α)) : Prop :=
  ∀ rest, oc.bind (fun c => runAct (c rest) mem) = om.bind (runAct rest)

theorem Sim.none_eq {mem : List α} {om : Option (List α)} (h : Sim mem none om) : om = none := by
  have := h .done
  cases om with
  | none => rfl
  | some m => cases this

theorem sim_id (mem : List α) : Sim mem (some id) (some mem) := fun _ => rfl

theorem sim_foldlM {β : Type} {mem : List α} {fC : Code α → β → Option (Code α)} {fM : List α → β → Option (List α)}
    (hb : ∀ b code om, Sim mem (some code) om → Sim mem (fC code b) (om.bind (fM · b))) :
    ∀ (L : List β) {oc : Option (Code α)} {om : Option (List α)}, Sim mem oc om → Sim mem (oc.bind (L.foldlM fC)) (om.bind (L.foldlM fM))
  | [], oc, om, h => by
      have e1 : oc.bind (([] : List β).foldlM fC) = oc := by cases oc <;> rfl
      have e2 : om.bind (([] : List β).foldlM fM) = om := by cases om <;> rfl
      rw [e1, e2]; exact h
  | b :: L, none, om, h => by rw [h.none_eq]; exact fun _ => rfl
  | b :: L, some code, om, h => by
      have := sim_foldlM hb L (hb b code om h)
      simp only [List.foldlM_cons, Option.bind_some]
      have e : om.bind (fun m => (fM m b).bind (L.foldlM fM)) = (om.bind (fM · b)).bind (L.foldlM fM) := by
        cases om <;> rfl
      show Sim mem ((fC code b).bind (L.foldlM fC)) (om.bind (fun m => (fM m b).bind (L.foldlM fM)))
      rw [e]
      exact this

theorem sim_range {mem : List α} {fC : Int → Code α → Option (Code α)} {fM : Int → List α → Option (List α)} (e : Grid)
    (hb : ∀ b code om, Sim mem (some code) om → Sim mem (fC b code) (om.bind (fM b))) :
    ∀ (fuel : Nat) (it : Grid) {oc : Option (Code α)} {om : Option (List α)}, Sim mem oc om →
      Sim mem (oc.bind (Grid.rangeFor fC e fuel it)) (om.bind (Grid.rangeFor fM e fuel it))
  | fuel, it, none, om, h => by rw [h.none_eq]; exact fun _ => rfl
  | 0, it, some code, om, h => by
      have : om.bind (Grid.rangeFor fM e 0 it) = none := by cases om <;> rfl
      rw [this]; exact fun _ => rfl
  | fuel + 1, it, some code, om, h => by
      by_cases hq : Grid.eq it e = true
      · have e1 : om.bind (Grid.rangeFor fM e (fuel + 1) it) = om := by
          cases om with
          | none => rfl
          | some m => simp [Grid.rangeFor, hq]
        rw [e1]
        simp only [Option.bind_some, Grid.rangeFor, hq, if_true]
        exact h
      · have := sim_range e hb fuel (Grid.next it) (hb (Grid.deref it) code om h)
        have e1 : om.bind (Grid.rangeFor fM e (fuel + 1) it) = (om.bind (fM (Grid.deref it))).bind (Grid.rangeFor fM e fuel (Grid.next it)) := by
          cases om with
          | none => rfl
          | some m => simp [Grid.rangeFor, hq]
        rw [e1]
        simp only [Option.bind_some, Grid.rangeFor, hq]
        exact this

theorem sim_stride {mem : List α} {fC : Int → Code α → Option (Code α)} {fM : Int → List α → Option (List α)} (bound step : Int)
    (hb : ∀ b code om, Sim mem (some code) om → Sim mem (fC b code) (om.bind (fM b))) :
    ∀ (fuel : Nat) (i : Int) {oc : Option (Code α)} {om : Option (List α)}, Sim mem oc om →
      Sim mem (oc.bind (strideLoop bound step fC fuel i)) (om.bind (strideLoop bound step fM fuel i))
  | fuel, i, none, om, h => by rw [h.none_eq]; exact fun _ => rfl
  | 0, i, some code, om, h => by
      have : om.bind (strideLoop bound step fM 0 i) = none := by cases om <;> rfl
      rw [this]; exact fun _ => rfl
  | fuel + 1, i, some code, om, h => by
      by_cases hq : i < bound
      · have := sim_stride bound step hb fuel (i + step) (hb i code om h)
        have e1 : om.bind (strideLoop bound step fM (fuel + 1) i) = (om.bind (fM i)).bind (strideLoop bound step fM fuel (i + step)) := by
          cases om with
          | none => rfl
          | some m => simp [strideLoop, hq]
        rw [e1]
        simp only [Option.bind_some, strideLoop, hq, if_true]
        exact this
      · have e1 : om.bind (strideLoop bound step fM (fuel + 1) i) = om := by
          cases om with
          | none => rfl
          | some m => simp [strideLoop, hq]
        rw [e1]
        simp only [Option.bind_some, strideLoop, hq, if_false]
        exact h

theorem sim_elementwise (a : View) (rhs : Rhs α) (act : List Int → (α → Act α) → Act α)
    (hr : ∀ idx mem c, runAct (act idx c) mem = (rhs.get idx mem).bind (fun x => runAct (c x) mem)) (mem : List α) :
    Sim mem (elementwiseCode a act) (elementwise a rhs mem) := by
  rw [elementwiseCode, elementwise, forEach_eq, forEach_eq]
  refine sim_foldlM (fun idx code om h => ?_) (box a.lay.len) (sim_id mem)
  intro rest
  cases hk : element a (idx.map .idx) with
  | none =>
      have : om.bind (fun m => (do let x ← rhs.get idx m; store a idx x m)) = none := by
        cases om with
        | none => rfl
        | some m =>
            simp only [Option.bind_some, store, hk]
            cases rhs.get idx m <;> rfl
      rw [this]; rfl
  | some k =>
      have := h (act idx (fun x => .write k x rest))
      simp only [Option.bind_some] at this
      simp only [Option.bind_eq_bind, Option.bind_some, Option.pure_def, this]
      cases om with
      | none => rfl
      | some m =>
          simp only [Option.bind_some, hr, store, hk, runAct, Option.bind_eq_bind]
          cases rhs.get idx m <;> rfl

theorem sim_linear (a b : View) (mem : List α) : Sim mem (linearCode a b) (linearCopy a b mem) := by
  rw [linearCode, linearCopy, forLoop, forLoop]
  refine sim_foldlM (fun i code om h => ?_) _ (sim_id mem)
  intro rest
  cases hs : linear b (Int.ofNat i) with
  | none =>
      have : om.bind (fun m => (do let s ← (none : Option Int); let x ← rdInt m s; let d ← linear a (Int.ofNat i); wrInt m d x)) = none := by
        cases om <;> rfl
      rw [this]; rfl
  | some s =>
      cases hd : linear a (Int.ofNat i) with
      | none =>
          have : om.bind (fun m => (do let s ← some s; let x ← rdInt m s; let d ← (none : Option Int); wrInt m d x)) = none := by
            cases om with
            | none => rfl
            | some m =>
                simp only [Option.bind_some, Option.bind_eq_bind]
                cases rdInt m s <;> rfl
          rw [this]; rfl
      | some d =>
          have := h (.read s (fun x => .write d x rest))
          simp only [Option.bind_some] at this
          simp only [Option.bind_eq_bind, Option.bind_some, Option.pure_def, this]
          cases om with
          | none => rfl
          | some m =>
              simp only [Option.bind_some, runAct, Option.bind_eq_bind]
              cases rdInt m s <;> rfl

section
variable [Add α] [Sub α] [Mul α] [Div α] [Neg α]

theorem sim_assign (a : View) (e : Expr α) (mem : List α) :
    ∃ om, Sim mem (assignCode a e) om ∧ assignExpr a e mem = om.map some := by
  cases e
  case arr g b =>
    simp only [assignCode, assignExpr, Assign.assign, Bool.false_eq_true, if_false, and_self, if_true]
    have hf : ∀ r : Rhs α, fallback .host .host a r mem = (elementwise a r mem).map some := by intro r; simp [fallback]
    split
    · split
      · exact ⟨_, sim_linear a b mem, rfl⟩
      · exact ⟨_, sim_elementwise a (.inMem b false) (loadAct b) (fun idx m c => run_load b idx c m) mem, hf _⟩
    · exact ⟨_, sim_elementwise a (.inMem b false) (loadAct b) (fun idx m c => run_load b idx c m) mem, hf _⟩
  all_goals
    refine ⟨_, sim_elementwise a (.expr (fun idx mem => Expr.get _ idx mem)) (exprAct _) (fun idx m c => run_expr _ idx m c) mem, ?_⟩
    simp [assignExpr, Assign.assign, fallback]

end

theorem sim_write {mem : List α} (k : Int) (x : α) (code : Code α) (om : Option (List α)) (h : Sim mem (some code) om) :
    Sim mem (some (fun rest => code (.write k x rest))) (om.bind (fun m => wrInt m k x)) := by
  intro rest
  have := h (.write k x rest)
  simp only [Option.bind_some] at this
  simp only [Option.bind_some, this]
  cases om <;> rfl

theorem sim_fill (fuel : Nat) (a : View) (x : α) (mem : List α) : Sim mem (fillCode fuel a x) (fillWithScalar fuel a x mem) := by
  rw [fillCode, fillWithScalar]
  split
  · simp only
    split
    · rw [forLoop, forLoop]
      exact sim_foldlM (fC := fun code (i : Nat) => some (fun rest => code (.write (a.off + Int.ofNat i) x rest)))
        (fM := fun mem (i : Nat) => wrInt mem (a.off + Int.ofNat i) x) (fun i code om h => sim_write _ x code om h) _ (sim_id mem)
    · cases a.lay.minStride with
      | none => exact fun _ => rfl
      | some c =>
          exact sim_stride (fC := fun i code => some (fun rest => code (.write (a.off + i) x rest))) (fM := fun i mem => wrInt mem (a.off + i) x) _ _
            (fun i code om h => sim_write _ x code om h) _ _ (sim_id mem)
  · cases a.lay.makeIterator false with
    | none => exact fun _ => rfl
    | some b =>
        cases a.lay.makeIterator true with
        | none => exact fun _ => rfl
        | some e =>
            exact sim_range (fC := fun i code => some (fun rest => code (.write (a.off + i) x rest))) (fM := fun i mem => wrInt mem (a.off + i) x) e
              (fun i code om h => sim_write _ x code om h) fuel b (sim_id mem)

theorem sim_fillDiag (fuel : Nat) (a : View) (zero x : α) (mem : List α) : Sim mem (fillDiagCode fuel a zero x) (assignScalarMatrix fuel a zero x mem) := by
  rw [fillDiagCode, assignScalarMatrix]
  have h1 := sim_fill fuel a zero mem
  cases hn0 : rd a.lay.len 0 with
  | none =>
      intro rest
      cases fillCode fuel a zero <;> cases fillWithScalar fuel a zero mem <;> rfl
  | some n0 =>
      cases hn1 : rd a.lay.len 1 with
      | none =>
          intro rest
          cases fillCode fuel a zero <;> cases fillWithScalar fuel a zero mem <;> rfl
      | some n1 =>
          have := sim_foldlM (fC := fun code (i : Nat) => do
              let k ← element a (([Int.ofNat i, Int.ofNat i] : List Int).map .idx)
              return fun rest => code (.write k x rest))
            (fM := fun mem (i : Nat) => store a [Int.ofNat i, Int.ofNat i] x mem) (fun i code om h => by
              intro rest
              simp only [store]
              cases element a (([Int.ofNat i, Int.ofNat i] : List Int).map .idx) with
              | none =>
                  have : om.bind (fun m => (do let k ← (none : Option Int); wrInt m k x)) = none := by cases om <;> rfl
                  rw [this]; rfl
              | some k => exact sim_write k x code om h rest) (List.range (min n0 n1).toNat) h1
          intro rest
          have t := this rest
          revert t
          cases fillCode fuel a zero <;> cases fillWithScalar fuel a zero mem <;> exact id

section
variable [Add α] [Sub α] [Mul α] [Div α] [Neg α] [Zero α]

theorem sim_stmt (triv : Bool) (junk : α) (env : List View) (s : Stmt α) (hs : NoSwap s) (mem : List α) :
    ∃ om, Sim mem (stmtCode env s) om ∧ Programs.exec triv junk env s mem = om.map some := by
  cases s with
  | assign alg p e =>
      simp only [stmtCode, Programs.exec]
      cases view env p with
      | none => exact ⟨none, fun _ => rfl, rfl⟩
      | some a =>
          cases e.build env with
          | none => exact ⟨none, fun _ => rfl, rfl⟩
          | some e => exact sim_assign a e mem
  | compound op alg p e =>
      simp only [stmtCode, Programs.exec, opAssign]
      cases view env p with
      | none => exact ⟨none, fun _ => rfl, rfl⟩
      | some a =>
          cases e.build env with
          | none => exact ⟨none, fun _ => rfl, rfl⟩
          | some e => exact sim_assign a (.bin op (.arr alg a) e) mem
  | compoundScalar op alg p s =>
      simp only [stmtCode, Programs.exec, opAssign]
      cases view env p with
      | none => exact ⟨none, fun _ => rfl, rfl⟩
      | some a => exact sim_assign a (.scalR op (.arr alg a) s) mem
  | fill p s =>
      simp only [stmtCode, Programs.exec]
      cases view env p with
      | none => exact ⟨none, fun _ => rfl, rfl⟩
      | some a =>
          refine ⟨_, sim_fill _ a s mem, ?_⟩
          simp only [Option.bind_eq_bind, Option.bind_some, assignScalar]
          cases fillWithScalar (a.lay.size.toNat + 1) a s mem <;> rfl
  | fillDiag p s =>
      simp only [stmtCode, Programs.exec]
      cases view env p with
      | none => exact ⟨none, fun _ => rfl, rfl⟩
      | some a =>
          refine ⟨_, sim_fillDiag _ a 0 s mem, ?_⟩
          simp only [Option.bind_eq_bind, Option.bind_some]
          cases assignScalarMatrix (a.lay.size.toNat + 1) a 0 s mem <;> rfl
  | swap p q => exact hs.elim

theorem run_thread (triv : Bool) (junk : α) (env : List View) : ∀ (ss : List (Stmt α)) (mem : List α), (∀ s ∈ ss, NoSwap s) →
    runAll triv junk env ss mem = (runAct (thread env ss) mem).map some
  | [], mem, _ => rfl
  | s :: ss, mem, h => by
      obtain ⟨om, h1, h2⟩ := sim_stmt triv junk env s (h s (by simp)) mem
      rw [runAll, h2, thread]
      cases hc : stmtCode env s with
      | none =>
          rw [hc] at h1
          rw [h1.none_eq]; rfl
      | some c =>
          rw [hc] at h1
          have := h1 (thread env ss)
          simp only [Option.bind_some] at this
          simp only [this]
          cases om with
          | none => rfl
          | some m => exact run_thread triv junk env ss m (fun t ht => h t (by simp [ht]))

theorem seqAll_threads (triv : Bool) (junk : α) (env : List View) : ∀ (ts : List (List (Stmt α))) (mem : List α), (∀ t ∈ ts, ∀ s ∈ t, NoSwap s) →
    runAll triv junk env ts.flatten mem = (seqAll (ts.map (thread env)) mem).map some
  | [], mem, _ => rfl
  | t :: ts, mem, h => by
      have happ : ∀ (xs ys : List (Stmt α)) (m : List α), (∀ s ∈ xs, NoSwap s) →
          runAll triv junk env (xs ++ ys) m = (runAct (thread env xs) m).bind (runAll triv junk env ys) := by
        intro xs
        induction xs with
        | nil => intro ys m _; rfl
        | cons s xs ih =>
            intro ys m hx
            have e := run_thread triv junk env (s :: xs) m hx
            obtain ⟨om, h1, h2⟩ := sim_stmt triv junk env s (hx s (by simp)) m
            rw [List.cons_append, runAll, h2, thread]
            cases hc : stmtCode env s with
            | none =>
                rw [hc] at h1
                rw [h1.none_eq]; rfl
            | some c =>
                rw [hc] at h1
                have := h1 (thread env xs)
                simp only [Option.bind_some] at this
                simp only [this]
                cases om with
                | none => rfl
                | some m => exact ih ys m (fun t ht => hx t (by simp [ht]))
      rw [List.flatten_cons, happ t ts.flatten mem (h t (by simp)), List.map_cons, seqAll]
      cases runAct (thread env t) mem with
      | none => rfl
      | some m => exact seqAll_threads triv junk env ts m (fun u hu => h u (by simp [hu]))

end

/-! ### Footprints of the statements -/

/-- The code stays in the footprint if the rest does. -/
def Keeps (fp : Fp) (c : Code α) : Prop := ∀ rest, Foot fp rest → Foot fp (c rest)

theorem code_foldlM {β : Type} (g : β → Code α) : ∀ (L : List β) (c : Code α),
    L.foldlM (fun (code : Code α) b => some (fun rest => code (g b rest))) c = some (fun rest => c (L.foldr g rest))
  | [], c => rfl
  | b :: L, c => by
      rw [List.foldlM_cons]
      simp only [Option.bind_eq_bind, Option.bind_some, List.foldr_cons]
      exact code_foldlM g L _

theorem keeps_foldr {β : Type} {fp : Fp} {g : β → Code α} : ∀ {L : List β}, (∀ b ∈ L, Keeps fp (g b)) → ∀ rest, Foot fp rest → Foot fp (L.foldr g rest)
  | [], _, _, hr => hr
  | b :: L, h, rest, hr => h b (by simp) _ (keeps_foldr (fun a ha => h a (by simp [ha])) rest hr)

theorem keeps_loop {β : Type} {fp : Fp} {g : β → Code α} {L : List β} {c : Code α} (hc : Keeps fp c) (h : ∀ b ∈ L, Keeps fp (g b)) :
    Keeps fp (fun rest => c (L.foldr g rest)) := fun rest hr => hc _ (keeps_foldr h rest hr)

theorem keeps_elementwise {fp : Fp} {a : View} (hw : WF a.lay) (hf : FlagsOK a.lay) {act : List Int → (α → Act α) → Act α}
    (hW : ∀ idx, InRange a.lay.len idx → fp.W (addr a idx))
    (hr : ∀ idx, InRange a.lay.len idx → ∀ c, (∀ x, Foot fp (c x)) → Foot fp (act idx c)) :
    ∃ c, elementwiseCode a act = some c ∧ Keeps fp c := by
  refine ⟨fun rest => id ((box a.lay.len).foldr (fun idx rest => act idx (fun x => .write (addr a idx) x rest)) rest), ?_, keeps_loop (fun _ h => h) (fun idx hi => ?_)⟩
  · rw [elementwiseCode, forEach_eq, ← code_foldlM]
    refine foldlM_congr _ _ (fun idx hi s => ?_)
    rw [element_eq hw hf (mem_box.mp hi)]; rfl
  · intro rest h
    exact hr idx (mem_box.mp hi) _ (fun x => ⟨hW idx (mem_box.mp hi), h⟩)

theorem keeps_linear {fp : Fp} {a b : View} {n : Nat} (ha : Good a n) (hb : Good b n) (hlen : b.lay.len = a.lay.len) (hso : a.lay.so = b.lay.so) (h0 : a.lay.len ≠ [])
    (hsa : a.lay.prop.strided1d = true) (hsb : b.lay.prop.strided1d = true)
    (hW : ∀ idx, InRange a.lay.len idx → fp.W (addr a idx)) (hR : ∀ idx, InRange a.lay.len idx → fp.R (addr b idx)) :
    ∃ c : Code α, linearCode a b = some c ∧ Keeps fp c := by
  obtain ⟨ca, hca⟩ := ha.flags.strided hsa
  obtain ⟨cb, hcb⟩ := hb.flags.strided hsb
  have h0b : b.lay.len ≠ [] := by rw [hlen]; exact h0
  have hE := enum_memBox ha.wf
  have hbl : (Grid.memBox a.lay.so a.lay.len).length = (prod a.lay.len).toNat := by
    have := congrArg List.length (offsets_evenly ha.wf ha.nonneg hca)
    simpa using this
  have key : ∀ i : Nat, i < (prod a.lay.len).toNat → ∃ x, InRange a.lay.len x ∧ linear a (Int.ofNat i) = some (addr a x) ∧ linear b (Int.ofNat i) = some (addr b x) := by
    intro i hi
    obtain ⟨c1, h1, e1⟩ := linear_eq ha.wf (Or.inl h0) hsa hca ha.flags (Int.ofNat i)
    obtain ⟨c2, h2, e2⟩ := linear_eq hb.wf (Or.inl h0b) hsb hcb hb.flags (Int.ofNat i)
    have hlt : i < (Grid.memBox a.lay.so a.lay.len).length := by omega
    have o1 := congrArg (fun l => l[i]?) (offsets_evenly ha.wf ha.nonneg h1)
    have o2 := congrArg (fun l => l[i]?) (offsets_evenly hb.wf hb.nonneg h2)
    rw [hlen, ← hso] at o2
    simp only [List.getElem?_map, List.getElem?_eq_getElem hlt, Option.map_some, List.getElem?_range hi] at o1 o2
    refine ⟨_, (hE.2 _).mp (List.getElem_mem hlt), ?_, ?_⟩
    · rw [e1, addr, Option.some.inj o1]
    · rw [e2, addr, Option.some.inj o2]
  have step : ∀ i ∈ List.range (prod a.lay.len).toNat, ∃ x, InRange a.lay.len x ∧ linear a (Int.ofNat i) = some (addr a x) ∧ linear b (Int.ofNat i) = some (addr b x) :=
    fun i hi => key i (List.mem_range.mp hi)
  classical
  let pos : Nat → List Int := fun i => if h : i < (prod a.lay.len).toNat then (key i h).choose else []
  have hpos : ∀ i ∈ List.range (prod a.lay.len).toNat, InRange a.lay.len (pos i) ∧ linear a (Int.ofNat i) = some (addr a (pos i)) ∧ linear b (Int.ofNat i) = some (addr b (pos i)) := by
    intro i hi
    have h := List.mem_range.mp hi
    simp only [pos, dif_pos h]
    exact (key i h).choose_spec
  refine ⟨fun rest => id ((List.range (prod a.lay.len).toNat).foldr (fun i rest => .read (addr b (pos i)) (fun x => .write (addr a (pos i)) x rest)) rest), ?_,
    keeps_loop (fun _ h => h) (fun i hi => ?_)⟩
  · rw [linearCode, forLoop, IdxMap.size_eq, ← code_foldlM]
    refine foldlM_congr _ _ (fun i hi s => ?_)
    rw [(hpos i hi).2.1, (hpos i hi).2.2]; rfl
  · intro rest h
    exact ⟨hR _ (hpos i hi).1, fun x => ⟨hW _ (hpos i hi).1, h⟩⟩

section
variable [Add α] [Sub α] [Mul α] [Div α] [Neg α]

omit [Add α] [Sub α] [Mul α] [Div α] [Neg α] in
theorem foot_load {fp : Fp} {v : View} (hw : WF v.lay) (hf : FlagsOK v.lay) {idx : List Int} (hi : InRange v.lay.len idx) (hR : fp.R (addr v idx)) {c : α → Act α}
    (hc : ∀ x, Foot fp (c x)) : Foot fp (loadAct v idx c) := by
  rw [loadAct, element_eq hw hf hi]
  exact ⟨hR, hc⟩

omit [Add α] [Sub α] [Mul α] [Div α] [Neg α] in
theorem foot_collect {fp : Fp} : ∀ (n : Nat) (es : Fin n → (α → Act α) → Act α), (∀ i c, (∀ x, Foot fp (c x)) → Foot fp (es i c)) →
    ∀ c, (∀ xs, Foot fp (c xs)) → Foot fp (collect n es c)
  | 0, _, _, c, hc => hc _
  | n + 1, es, h, c, hc => h 0 _ (fun x => foot_collect n _ (fun i => h i.succ) _ (fun xs => hc _))

theorem foot_expr {fp : Fp} {alg : Alg} {ext : List Int} (hM : alg = .M → ext.length = 2) {idx : List Int} (hi : InRange ext idx) : ∀ (e : Expr α), e.compiles = true →
    Arith.Spec.Uniform alg ext e → (∀ v ∈ Arith.Spec.leaves e, WF v.lay ∧ FlagsOK v.lay ∧ fp.R (addr v idx)) → ∀ c, (∀ x, Foot fp (c x)) → Foot fp (exprAct e idx c) := by
  intro e
  have heq : alg = .M → ∃ b, equalTo idx = some b := by
    intro h
    have hl := hi.length_eq
    rw [hM h] at hl
    match idx, hl with
    | [i, j], _ => exact ⟨_, rfl⟩
  induction e with
  | arr a v =>
      intro _ hu hl c hc
      obtain ⟨h1, h2, h3⟩ := hl v (by simp [Arith.Spec.leaves])
      exact foot_load h1 h2 (by rw [hu.2]; exact hi) h3 hc
  | fn a l f => exact fun _ _ _ c hc => hc _
  | neg e ih => exact fun h1 h2 h3 c hc => ih h1 h2 h3 _ (fun x => hc _)
  | bin op l r ihl ihr =>
      intro h1 h2 h3 c hc
      simp only [Expr.compiles, Bool.and_eq_true] at h1
      obtain ⟨⟨⟨c1, c2⟩, _⟩, c4⟩ := h1
      rw [exprAct, if_neg]
      · exact ihl c1 h2.1 (fun v hv => h3 v (by simp [Arith.Spec.leaves, hv])) _ (fun x =>
          ihr c2 h2.2 (fun v hv => h3 v (by simp [Arith.Spec.leaves, hv])) _ (fun y => hc _))
      · rintro ⟨ho, hm⟩
        rcases ho with rfl | rfl <;> simp [hm] at c4
  | scalL op s r ih =>
      intro h1 h2 h3 c hc
      simp only [Expr.compiles, Bool.and_eq_true] at h1
      have ih' := ih h1.1 h2 h3
      have ha := (uniform_alg h2).1
      rw [exprAct.eq_def]
      cases op
      · dsimp only
        split
        · rename_i hm
          obtain ⟨b, hb⟩ := heq (by rw [← ha]; exact hm)
          rw [hb]
          cases b
          · exact ih' _ hc
          · exact ih' _ (fun _ => hc _)
        · exact ih' _ (fun _ => hc _)
      · dsimp only
        split
        · rename_i hm
          obtain ⟨b, hb⟩ := heq (by rw [← ha]; exact hm)
          rw [hb]
          cases b
          · exact ih' _ (fun _ => hc _)
          · exact ih' _ (fun _ => hc _)
        · exact ih' _ (fun _ => hc _)
      · exact ih' _ (fun _ => hc _)
      · dsimp only
        rw [if_neg]
        · exact ih' _ (fun _ => hc _)
        · intro hm
          have := h1.2
          simp [hm] at this
  | scalR op l s ih =>
      intro h1 h2 h3 c hc
      have ih' := ih h1 h2 h3
      have ha := (uniform_alg h2).1
      rw [exprAct.eq_def]
      cases op
      · dsimp only
        split
        · rename_i hm
          obtain ⟨b, hb⟩ := heq (by rw [← ha]; exact hm)
          rw [hb]
          cases b
          · exact ih' _ hc
          · exact ih' _ (fun _ => hc _)
        · exact ih' _ (fun _ => hc _)
      · dsimp only
        split
        · rename_i hm
          obtain ⟨b, hb⟩ := heq (by rw [← ha]; exact hm)
          rw [hb]
          cases b
          · exact ih' _ hc
          · exact ih' _ (fun _ => hc _)
        · exact ih' _ (fun _ => hc _)
      · exact ih' _ (fun _ => hc _)
      · exact ih' _ (fun _ => hc _)
  | call n f es ih =>
      intro h1 h2 h3 c hc
      simp only [Expr.compiles, List.all_eq_true] at h1
      refine foot_collect _ _ (fun i c hc => ih i (h1 i (List.mem_finRange i)) (h2 i) (fun v hv => h3 v ?_) c hc) _ (fun _ => hc _)
      simp only [Arith.Spec.leaves, List.mem_flatMap]
      exact ⟨i, List.mem_finRange i, hv⟩

theorem keeps_assign {fp : Fp} {alg : Alg} {a : View} {n : Nat} {e : Expr α} (ha : Good a n) (hM : alg = .M → a.lay.len.length = 2) (hc : e.compiles = true)
    (hu : Arith.Spec.Uniform alg a.lay.len e) (h0 : ∀ b v, e = .arr b v → a.lay.len ≠ [])
    (hl : ∀ v ∈ Arith.Spec.leaves e, Good v n ∧ ∀ idx, InRange a.lay.len idx → fp.R (addr v idx))
    (hW : ∀ idx, InRange a.lay.len idx → fp.W (addr a idx)) : ∃ c, assignCode a e = some c ∧ Keeps fp c := by
  have hexp : ∃ c, elementwiseCode a (exprAct e) = some c ∧ Keeps fp c :=
    keeps_elementwise ha.wf ha.flags hW (fun idx hi c hcc => foot_expr hM hi e hc hu (fun v hv => ⟨(hl v hv).1.wf, (hl v hv).1.flags, (hl v hv).2 idx hi⟩) c hcc)
  cases e
  case arr b v =>
    obtain ⟨hv, hR⟩ := hl v (by simp [Arith.Spec.leaves])
    simp only [assignCode]
    split
    · rename_i hso
      split
      · rename_i hst
        simp only [Bool.and_eq_true] at hst
        exact keeps_linear ha hv hu.2 hso (h0 b v rfl) hst.1 hst.2 hW hR
      · exact hexp
    · exact hexp
  all_goals exact hexp

end

theorem keeps_write {fp : Fp} {k : Int} {x : α} (h : fp.W k) : Keeps fp (fun rest => .write k x rest) := fun _ hr => ⟨h, hr⟩

theorem keeps_fill {fp : Fp} (fuel : Nat) {a : View} {n : Nat} (x : α) (ha : Good a n) (h0 : a.lay.len ≠ []) (hpos : ∀ l ∈ a.lay.len, 0 < l)
    (hfuel : (Spec.prod a.lay.len).toNat < fuel) (hstr : a.lay.prop = .strided → FastestPos a.lay)
    (hW : ∀ idx, InRange a.lay.len idx → fp.W (addr a idx)) : ∃ c, fillCode fuel a x = some c ∧ Keeps fp c := by
  have hE := enum_memBox ha.wf
  have even : ∀ {c : Int}, EvenlySpaced a.lay c → ∀ i ∈ List.range (prod a.lay.len).toNat, fp.W (a.off + c * Int.ofNat i) := by
    intro c hc i hi
    have := List.mem_map_of_mem (f := fun k => c * Int.ofNat k) hi
    rw [← offsets_evenly ha.wf ha.nonneg hc] at this
    obtain ⟨y, hy, e⟩ := List.mem_map.mp this
    rw [← e]
    exact hW y ((hE.2 y).mp hy)
  rw [fillCode]
  by_cases hst : a.lay.prop.strided1d = true
  · rw [if_pos hst]
    obtain ⟨c, hc⟩ := ha.flags.strided hst
    by_cases hcon : a.lay.prop.hasContiguous = true
    · simp only [hcon, if_true]
      have hprop : a.lay.prop = .contiguous := by
        revert hcon; cases a.lay.prop with
        | mk s o => cases s <;> cases o <;> simp [LayoutProp.hasContiguous, LayoutProp.contiguous]
      obtain ⟨c1, h1, e1⟩ := linear_eq ha.wf (Or.inr hprop) hst hc ha.flags 1
      have hc1 : c1 = 1 := by
        rw [linear, if_neg (by rw [hprop]; decide), if_pos hprop] at e1
        simpa using e1.symm
      subst hc1
      refine ⟨_, code_foldlM (fun (i : Nat) rest => .write (a.off + Int.ofNat i) x rest) _ _, keeps_loop (fun _ h => h) (fun i hi => keeps_write ?_)⟩
      rw [IdxMap.size_eq] at hi
      simpa using even h1 i hi
    · have hprop : a.lay.prop = .strided := by
        revert hcon hst; cases a.lay.prop with
        | mk s o => cases s <;> cases o <;> simp [LayoutProp.hasContiguous, LayoutProp.strided]
      obtain ⟨u, hu, _, hms⟩ := IdxMap.minStride_eq ha.wf h0
      have hcu : a.lay.minStride = some c := by rw [hms, IdxMap.fastestIs_of_evenlySpaced hc u hu]
      simp only [hcon, hcu, IdxMap.size_eq]
      obtain ⟨N, hN⟩ : ∃ N : Nat, Spec.prod a.lay.len = N := ⟨(Spec.prod a.lay.len).toNat, by have := prod_nonneg ha.nonneg; omega⟩
      have hcp : 0 < c := by
        have := hstr hprop u hu
        rwa [IdxMap.fastestIs_of_evenlySpaced hc u hu] at this
      have hle : N < ((N : Int) * c).toNat + 1 := by
        have : (N : Int) * 1 ≤ N * c := Int.mul_le_mul_of_nonneg_left (by omega) (by omega)
        omega
      have hsp := strideLoop_spec hcp (fun i (code : Code α) => some (fun rest => code (.write (a.off + i) x rest))) N N 0 _ id (by omega) hle
      simp only [Nat.cast_zero, zero_mul] at hsp
      simp only [Option.bind_eq_bind, Option.bind_some, Bool.false_eq_true, if_false]
      rw [hN, hsp]
      refine ⟨_, code_foldlM (fun (i : Int) rest => .write (a.off + i) x rest) _ _, keeps_loop (fun _ h => h) (fun i hi => keeps_write ?_)⟩
      obtain ⟨j, hj, rfl⟩ := List.mem_map.mp hi
      rw [← List.range_eq_range'] at hj
      have := even hc j (by rw [hN]; simpa using hj)
      rwa [mul_comm] at this
  · rw [if_neg hst]
    obtain ⟨L, hL, b, e, hb, he, hrun⟩ := IdxMap.C16_iterate_partial a.lay ha.wf ha.flags h0 ha.nonneg (Or.inl hpos)
    rw [hb, he]
    have hlen : L.length = (Spec.prod a.lay.len).toNat := by
      have h1 : L.Perm (box a.lay.len) := (List.perm_ext_iff_of_nodup hL.nodup (lexEnum_box _).nodup).mpr
        (fun y => by rw [hL.mem_iff, mem_box])
      have h2 := box_length ha.nonneg
      rw [h1.length_eq]; omega
    simp only [Option.bind_eq_bind, Option.bind_some]
    rw [hrun _ _ _ fuel (by omega)]
    refine ⟨_, code_foldlM (fun y rest => .write (a.off + Spec.offset a.lay y) x rest) L id, keeps_loop (fun _ h => h) (fun y hy => keeps_write ?_)⟩
    exact hW y ((hL.mem_iff y).mp hy)

theorem keeps_fillDiag {fp : Fp} (fuel : Nat) {a : View} {n : Nat} (zero x : α) {n0 n1 : Int} (hlen : a.lay.len = [n0, n1]) (ha : Good a n) (hpos : ∀ l ∈ a.lay.len, 0 < l)
    (hfuel : (Spec.prod a.lay.len).toNat < fuel) (hstr : a.lay.prop = .strided → FastestPos a.lay)
    (hW : ∀ idx, InRange a.lay.len idx → fp.W (addr a idx)) : ∃ c, fillDiagCode fuel a zero x = some c ∧ Keeps fp c := by
  obtain ⟨c, e, k⟩ := keeps_fill (fp := fp) fuel zero ha (by rw [hlen]; simp) hpos hfuel hstr hW
  have hdiag : ∀ i ∈ List.range (min n0 n1).toNat, InRange a.lay.len [Int.ofNat i, Int.ofNat i] := by
    intro i hi
    have := List.mem_range.mp hi
    rw [hlen]
    refine ⟨⟨by simp, by simp only [Int.ofNat_eq_natCast]; omega⟩, ⟨by simp, by simp only [Int.ofNat_eq_natCast]; omega⟩, trivial⟩
  refine ⟨_, ?_, keeps_loop (g := fun (i : Nat) rest => .write (addr a [Int.ofNat i, Int.ofNat i]) x rest) (L := List.range (min n0 n1).toNat) k (fun i hi => keeps_write (hW _ (hdiag i hi)))⟩
  rw [fillDiagCode, e, hlen]
  simp only [Option.bind_eq_bind, Option.bind_some, rd, List.getElem?_cons_zero, List.getElem?_cons_succ]
  rw [forLoop, ← code_foldlM]
  refine foldlM_congr _ _ (fun i hi s => ?_)
  rw [element_eq ha.wf ha.flags (hdiag i hi)]; rfl

/-- The addresses of elements. -/
def At (env : List View) (P : Elem → Prop) (k : Int) : Prop := ∃ x v, P x ∧ env[x.1]? = some v ∧ InRange v.lay.len x.2 ∧ k = addr v x.2

/-- The footprint of a statement. -/
def stmtFp (env : List View) (s : Stmt α) : Fp := ⟨At env (Used (lensOf env) s), At env (Written (lensOf env) s)⟩

theorem at_place {env : List View} {n : Nat} {p : Place} {ext : List Int} {v w : View} (hp : PlaceOK env p ext) (hF : PlaceFacts env n p ext v w) {P : Elem → Prop}
    (hP : ∀ x, Of (lensOf env) p x → P x) {idx : List Int} (hi : InRange ext idx) : At env P (addr w idx) :=
  ⟨(p.name, src (lensOf env) p idx), v, hP _ ⟨ext, idx, PlaceFacts.placeShape hp, hi, rfl⟩, hF.base, hF.inRange idx hi, hF.addr idx hi⟩

section
variable [Add α] [Sub α] [Mul α] [Div α] [Neg α] [Zero α]

theorem keeps_stmt {env : List View} {mem : List α} {A : Arrays α} (he : EnvOK env mem.length) (hA : Holds env mem A) (s : Stmt α) (hs : OK env s) (hn : NoSwap s) :
    ∃ c, stmtCode env s = some c ∧ ∀ fp : Fp, (∀ k, (stmtFp env s).R k → fp.R k) → (∀ k, (stmtFp env s).W k → fp.W k) → Keeps fp c := by
  suffices h : ∃ c, stmtCode env s = some c ∧ ∀ fp : Fp, (∀ k, (stmtFp env s).R k → fp.R k) → (∀ k, (stmtFp env s).W k → fp.W k) → ∃ c', stmtCode env s = some c' ∧ Keeps fp c' by
    obtain ⟨c, e, h⟩ := h
    refine ⟨c, e, fun fp h1 h2 => ?_⟩
    obtain ⟨c', e', k⟩ := h fp h1 h2
    rw [e] at e'; cases e'; exact k
  suffices h : ∀ fp : Fp, (∀ k, (stmtFp env s).R k → fp.R k) → (∀ k, (stmtFp env s).W k → fp.W k) → ∃ c', stmtCode env s = some c' ∧ Keeps fp c' by
    obtain ⟨c, e, _⟩ := h (stmtFp env s) (fun _ h => h) (fun _ h => h)
    exact ⟨c, e, h⟩
  intro fp hR hW
  cases s with
  | assign alg p e =>
      obtain ⟨ext, hp, hl, hM, h0, hq⟩ := hs
      obtain ⟨b, w, hF⟩ := place_facts he hp
      obtain ⟨e', e1, e2, e3, e4, e5, e6⟩ := build_facts he hA alg ext e hl (fun q h => ⟨(hq q h).1, (hq q h).2.1⟩)
      simp only [stmtCode, hF.eq, e1, Option.bind_eq_bind, Option.bind_some]
      refine keeps_assign hF.good (by rw [hF.len]; exact hM) e2 (by rw [hF.len]; exact e3) (fun b v hv => ?_) (fun v hv => ?_) (fun idx hi => ?_)
      · rw [hF.len]
        refine h0 ?_
        by_contra hh
        exact e6 hh b v hv
      · obtain ⟨q, hqm, b', hF'⟩ := e4 v hv
        refine ⟨hF'.good, fun idx hi => hR _ (at_place (hq q hqm).2.1 hF' (fun x hx => ⟨q, hqm, hx⟩) (by rw [← hF.len]; exact hi))⟩
      · exact hW _ (at_place hp hF (fun x hx => hx) (by rw [← hF.len]; exact hi))
  | compound op alg p e =>
      obtain ⟨ext, hp, hl, hM, hop, hq⟩ := hs
      obtain ⟨b, w, hF⟩ := place_facts he hp
      obtain ⟨e', e1, e2, e3, e4, e5, e6⟩ := build_facts he hA alg ext e hl (fun q h => ⟨(hq q h).1, (hq q h).2.1⟩)
      have hg := uniform_alg e3
      simp only [stmtCode, hF.eq, e1, Option.bind_eq_bind, Option.bind_some]
      refine keeps_assign (alg := alg) hF.good (by rw [hF.len]; exact hM) ?_ ⟨⟨rfl, rfl⟩, by rw [hF.len]; exact e3⟩ nofun (fun v hv => ?_) (fun idx hi => ?_)
      · simp only [Expr.compiles, Expr.shape, Expr.alg, e2, hg.1, hg.2, hF.len, Bool.true_and, beq_self_eq_true]
        cases op
        · rfl
        · rfl
        · simp [hop (Or.inl rfl)]
        · simp [hop (Or.inr rfl)]
      · simp only [Arith.Spec.leaves, List.singleton_append, List.mem_cons] at hv
        rcases hv with rfl | hv
        · exact ⟨hF.good, fun idx hi => hR _ (at_place hp hF (fun x hx => Or.inl hx) (by rw [← hF.len]; exact hi))⟩
        · obtain ⟨q, hqm, b', hF'⟩ := e4 v hv
          exact ⟨hF'.good, fun idx hi => hR _ (at_place (hq q hqm).2.1 hF' (fun x hx => Or.inr ⟨q, hqm, hx⟩) (by rw [← hF.len]; exact hi))⟩
      · exact hW _ (at_place hp hF (fun x hx => hx) (by rw [← hF.len]; exact hi))
  | compoundScalar op alg p s =>
      obtain ⟨ext, hp, hM⟩ := hs
      obtain ⟨b, w, hF⟩ := place_facts he hp
      simp only [stmtCode, hF.eq, Option.bind_eq_bind, Option.bind_some]
      refine keeps_assign (alg := alg) hF.good (by rw [hF.len]; exact hM) rfl ⟨rfl, rfl⟩ nofun (fun v hv => ?_) (fun idx hi => ?_)
      · simp only [Arith.Spec.leaves, List.mem_singleton] at hv
        subst hv
        exact ⟨hF.good, fun idx hi => hR _ (at_place hp hF (fun x hx => hx) (by rw [← hF.len]; exact hi))⟩
      · exact hW _ (at_place hp hF (fun x hx => hx) (by rw [← hF.len]; exact hi))
  | fill p s =>
      obtain ⟨ext, hp, h0, hf⟩ := hs
      obtain ⟨b, w, hF⟩ := place_facts he hp
      simp only [stmtCode, hF.eq, Option.bind_eq_bind, Option.bind_some]
      refine keeps_fill _ s hF.good (by rw [hF.len]; exact h0) (by rw [hF.len]; exact hf.1) ?_ (fun h => hf.2 w hF.eq h) (fun idx hi => ?_)
      · rw [IdxMap.size_eq]; omega
      · exact hW _ (at_place hp hF (fun x hx => hx) (by rw [← hF.len]; exact hi))
  | fillDiag p s =>
      obtain ⟨ext, hp, h2, hf⟩ := hs
      obtain ⟨b, w, hF⟩ := place_facts he hp
      simp only [stmtCode, hF.eq, Option.bind_eq_bind, Option.bind_some]
      match ext, h2, hf, hF, hp with
      | [n0, n1], _, hf, hF, hp =>
      refine keeps_fillDiag _ 0 s hF.len hF.good (by rw [hF.len]; exact hf.1) ?_ (fun h => hf.2 w hF.eq h) (fun idx hi => ?_)
      · rw [IdxMap.size_eq]; omega
      · exact hW _ (at_place hp hF (fun x hx => hx) (by rw [← hF.len]; exact hi))
  | swap p q => exact hn.elim

/-- The footprint of a thread. -/
def threadFp (env : List View) (t : List (Stmt α)) : Fp :=
  ⟨At env (fun x => ∃ s ∈ t, Used (lensOf env) s x), At env (fun x => ∃ s ∈ t, Written (lensOf env) s x)⟩

theorem foot_thread {env : List View} {mem : List α} {A : Arrays α} (he : EnvOK env mem.length) (hA : Holds env mem A) {fp : Fp} : ∀ (t : List (Stmt α)),
    (∀ s ∈ t, OK env s ∧ NoSwap s ∧ (∀ k, (stmtFp env s).R k → fp.R k) ∧ ∀ k, (stmtFp env s).W k → fp.W k) → Foot fp (thread env t)
  | [], _ => trivial
  | s :: t, h => by
      obtain ⟨h1, h2, h3, h4⟩ := h s (by simp)
      obtain ⟨c, e, k⟩ := keeps_stmt he hA s h1 h2
      rw [thread, e]
      exact k fp h3 h4 _ (foot_thread he hA t (fun u hu => h u (by simp [hu])))

omit [Add α] [Sub α] [Mul α] [Div α] [Neg α] [Zero α] in
theorem at_mono {env : List View} {P Q : Elem → Prop} (h : ∀ x, P x → Q x) {k : Int} : At env P k → At env Q k := by
  rintro ⟨x, v, h1, h2⟩
  exact ⟨x, v, h x h1, h2⟩

/-- Threads without common elements: the invariant at the start. -/
theorem inv_start {env : List View} {mem : List α} {A : Arrays α} (he : EnvOK env mem.length) (hA : Holds env mem A) (ts : List (List (Stmt α)))
    (hs : ∀ t ∈ ts, ∀ s ∈ t, OK env s ∧ NoSwap s) (hi : Independent (lensOf env) ts) : Inv (ts.map (threadFp env)) (ts.map (thread env)) mem.length := by
  refine ⟨?_, ?_, ?_⟩
  · rw [List.forall₂_map_left_iff, List.forall₂_map_right_iff, List.forall₂_same]
    intro t ht
    refine foot_thread he hA t (fun s hst => ⟨(hs t ht s hst).1, (hs t ht s hst).2, fun k => at_mono (fun x hx => ⟨s, hst, hx⟩), fun k => at_mono (fun x hx => ⟨s, hst, hx⟩)⟩)
  · intro fp hfp
    obtain ⟨t, _, rfl⟩ := List.mem_map.mp hfp
    have : ∀ {P : Elem → Prop} k, At env P k → 0 ≤ k ∧ k < mem.length := by
      rintro P k ⟨x, v, _, hv, hx, rfl⟩
      exact (he.good v (List.mem_of_getElem? hv)).1.fits _ hx
    exact ⟨fun k => this k, fun k => this k⟩
  · rw [List.pairwise_map]
    refine hi.imp (fun {t u} h => ?_)
    have key : ∀ {t u : List (Stmt α)}, Undisturbed (lensOf env) t u → ∀ k, (threadFp env t).W k → ¬ (threadFp env u).R k ∧ ¬ (threadFp env u).W k := by
      rintro t u h k ⟨x, v, ⟨s, hst, hx⟩, hv, hr, rfl⟩
      constructor
      all_goals
        rintro ⟨y, w, ⟨s', hst', hy⟩, hw, hr', e⟩
        obtain ⟨e1, e2⟩ := env_addr he hv hw hr hr' e
        have : x = y := Prod.ext e1 e2
        subst this
      · exact (h s hst s' hst' x hx).2 hy
      · exact (h s hst s' hst' x hx).1 hy
    exact ⟨key h.1, key h.2⟩

end

end Nda.Threads
