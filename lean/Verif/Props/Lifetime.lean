import Verif.Lemmas.LifetimeRules
/-!
# C68: lifetimes

Variables are numbered in the order of their declaration: in the examples `A`, `B`, ... are `0`, `1`, ...
-/
namespace Nda.Lifetime
open Nda.Lifetime.Spec

/-! ### Ownership -/

theorem count_owner {b : Nat} : ∀ (vars : List (Option Obj)), b ∈ ownedAll vars → ∃ (x : Nat) (o : Obj), vars[x]? = some (some o) ∧ b ∈ o.owned
  | [], h => by cases h
  | a :: vars, h => by
      simp only [ownedAll, List.flatMap_cons, List.mem_append] at h
      rcases h with h | h
      · cases a with
        | none => cases h
        | some o => exact ⟨0, o, rfl, h⟩
      · obtain ⟨x, o, h1, h2⟩ := count_owner vars h
        exact ⟨x + 1, o, by simpa using h1, h2⟩

theorem count_two {b : Nat} : ∀ (vars : List (Option Obj)) (x y : Nat) (o o' : Obj), vars[x]? = some (some o) → vars[y]? = some (some o') → b ∈ o.owned → b ∈ o'.owned → x < y →
    2 ≤ (ownedAll vars).count b
  | [], x, y, o, o', h, _, _, _, _ => by simp at h
  | a :: vars, 0, 0, o, o', _, _, _, _, h => by omega
  | a :: vars, 0, y + 1, o, o', h1, h2, h3, h4, _ => by
      simp only [List.getElem?_cons_zero, Option.some.injEq] at h1
      subst h1
      have h5 := List.count_pos_iff.mpr h3
      have h6 : b ∈ ownedAll vars := List.mem_flatMap.mpr ⟨some o', List.mem_of_getElem? (by simpa using h2), h4⟩
      have h7 := List.count_pos_iff.mpr h6
      simp only [ownedAll, List.flatMap_cons, List.count_append, ownedOpt] at h7 ⊢
      omega
  | a :: vars, x + 1, 0, o, o', _, _, _, _, h => by omega
  | a :: vars, x + 1, y + 1, o, o', h1, h2, h3, h4, h => by
      have := count_two vars x y o o' (by simpa using h1) (by simpa using h2) h3 h4 (by omega)
      simp only [ownedAll, List.flatMap_cons, List.count_append] at this ⊢
      omega

/-- Whatever a program does (with no undefined behaviour so far): every block of storage in existence belongs to exactly one variable, every array that has storage has storage that
exists, and none is lost: once all variables are gone there is none left. -/
theorem C68_ownership (P : List Stmt) (s : St) (h : run P St.init = some s) :
    (∀ b ∈ s.live, ∃! x, ∃ o, s.get x = some o ∧ b ∈ o.owned) ∧
    (∀ (x : Nat) (o : Obj), s.get x = some o → o.owned.Nodup ∧ ∀ b ∈ o.owned, b ∈ s.live) ∧
    ((∀ x, s.get x = none) → s.live = []) := by
  have g := run_G P h init_G
  have key : ∀ b ∈ s.live, ∃ (x : Nat) (o : Obj), s.vars[x]? = some (some o) ∧ b ∈ o.owned := by
    intro b hb
    have h1 := g.cnt b
    have h2 := List.count_pos_iff.mpr hb
    simp only [List.count_nil] at h1
    exact count_owner _ (List.count_pos_iff.mp (by omega))
  have one : ∀ b, (ownedAll s.vars).count b ≤ 1 := by
    intro b
    have h1 := g.cnt b
    have h2 := List.nodup_iff_count.mp g.nodup b
    omega
  refine ⟨fun b hb => ?_, fun x o ho => ⟨List.nodup_iff_count.mpr (fun b => ?_), fun b hb => g.live_var ho hb⟩, fun hn => ?_⟩
  · obtain ⟨x, o, h1, h2⟩ := key b hb
    refine ⟨x, ⟨o, get_of h1, h2⟩, ?_⟩
    rintro y ⟨o', h3, h4⟩
    have := one b
    rcases Nat.lt_trichotomy x y with hxy | hxy | hxy
    · have := count_two s.vars x y o o' h1 (get_eq h3) h2 h4 hxy; omega
    · exact hxy.symm
    · have := count_two s.vars y x o' o (get_eq h3) h1 h4 h2 hxy; omega
  · have h1 := one b
    have h2 := ownedAll_set b none s.vars x (some o) (get_eq ho)
    simp only [ownedOpt, List.count_nil] at h2
    omega
  · cases hl : s.live with
    | nil => rfl
    | cons b bs =>
        obtain ⟨x, o, h1, -⟩ := key b (by rw [hl]; simp)
        have := hn x
        rw [get_of h1] at this
        cases this

/-! ### The rules are enough -/

/-- A program accepted by the rules for names alone never touches storage that is gone: it runs to its end. -/
theorem C68_safe (P : List Stmt) (env : Env) (h : checkAll P [] = some env) : ∃ s, run P St.init = some s := by
  obtain ⟨s, h1, -⟩ := run_ok P init_M init_G h
  exact ⟨s, h1⟩

/-- What the rules say about the variables is true: a variable that may be used can be read, and it exists exactly as long as they say. -/
theorem C68_usable (P : List Stmt) (env : Env) (h : checkAll P [] = some env) (s : St) (hs : run P St.init = some s) (x : Nat) :
    (inScope env x = (s.get x).isSome) ∧ (∀ k, kindOf env x = some k → NoAlias k → usable env x = true → access s (.lv x) = some ()) := by
  obtain ⟨s', h1, m⟩ := run_ok P init_M init_G h
  rw [hs] at h1; cases h1
  have g := run_G P hs init_G
  constructor
  · unfold inScope
    cases he : env[x]? with
    | none =>
        have : s.vars[x]? = none := by rw [List.getElem?_eq_none_iff, ← m.len, ← List.getElem?_eq_none_iff]; exact he
        simp [St.get, this]
    | some en => simpa using m.scope x en he
  · intro k hk na hu
    obtain ⟨en, e1, e2⟩ := usable_some hu
    have : en.kind = k := by simpa [kindOf, e1] using hk
    subst this
    exact access_var m g e1 na hu

/-! ### What the rules forbid is wrong -/

theorem access_dead {s : St} {v : Val} {bs : List Nat} {b : Nat} (h : need s v = some bs) (hb : b ∈ bs) (hd : b ∉ s.live) : access s v = none := by
  simp only [access, h, Option.bind_eq_bind, Option.bind_some]
  rw [if_neg]
  intro ha
  exact hd (by simpa using List.all_eq_true.mp ha b hb)

theorem need_live {s : St} {v : Val} {b : Nat} (hd : b ∉ s.live) (h : ∀ bs, need s v = some bs → b ∈ bs) : access s v = none := by
  cases e : need s v with
  | none => simp [access, e]
  | some bs => exact access_dead e (h bs e) hd

theorem free_dead {s s' : St} {T bs : List Nat} (g : G s (bs ++ T)) (e : St.free bs s = some s') {b : Nat} (hb : b ∈ bs) : b ∉ s'.live := by
  have g' := free_G _ e g
  intro hl
  obtain ⟨-, -, -, h4⟩ := free_cnt bs e
  have h5 := h4 b
  have h6 := List.nodup_iff_count.mp g.nodup b
  have h7 := List.count_pos_iff.mpr hb
  have h8 := List.count_pos_iff.mpr hl
  omega

/-- After the end of the lifetime of `x`, reading anything that needs storage of `x` is undefined behaviour. -/
theorem C68_dropped (P : List Stmt) (s : St) (h : run P St.init = some s) (x : Nat) (o : Obj) (hx : s.get x = some o) (b : Nat) (hb : b ∈ o.owned) (s' : St)
    (hd : exec (.drop x) s = some s') (v : Val) (bs : List Nat) (hn : need s' v = some bs) (hv : b ∈ bs) : access s' v = none := by
  have g := run_G P h init_G
  simp only [exec, hx, Option.bind_eq_bind, Option.bind_some] at hd
  exact access_dead hn hv (free_dead (T := []) (g.put (get_eq hx) none (by intro b; simp [ownedOpt])) hd hb)

/-- The same after `resize` of an array, or the assignment of something of another shape that is not an array. -/
theorem renewed_dead {s s1 : St} {T : List Nat} (g : G s T) {x b : Nat} (hx : s.get x = some (.arr (some b))) (e : St.free (some b).toList s = some s1) :
    b ∉ (s1.alloc.1.put x (some (.arr (some s1.alloc.2)))).live := by
  obtain ⟨f1, f2, f3, f4⟩ := free_cnt _ e
  have hb := g.live_var hx (b := b) (by simp [Obj.owned])
  show b ∉ s1.next :: s1.live
  intro hm
  rcases List.mem_cons.mp hm with rfl | hm
  · have := g.fresh _ hb; omega
  · have h5 := f4 b
    have h6 := List.nodup_iff_count.mp g.nodup b
    have h8 := List.count_pos_iff.mpr hm
    simp only [Option.toList, List.count_singleton_self] at h5
    omega

theorem C68_resized (P : List Stmt) (s : St) (h : run P St.init = some s) (x b : Nat) (hx : s.get x = some (.arr (some b))) (s' : St)
    (hd : exec (.resize x) s = some s') (v : Val) (bs : List Nat) (hn : need s' v = some bs) (hv : b ∈ bs) : access s' v = none := by
  have g := run_G P h init_G
  simp only [exec, resolve, hx, Option.bind_eq_bind, Option.bind_some, Option.bind_eq_some_iff] at hd
  obtain ⟨s1, e1, e2⟩ := hd
  cases e2
  exact access_dead hn hv (renewed_dead g hx e1)

/-- `x = y` for arrays: the storage of `x` is replaced even if the shapes are equal, and views of it become invalid. -/
theorem C68_copied (P : List Stmt) (s : St) (h : run P St.init = some s) (x y b c : Nat) (hx : s.get x = some (.arr (some b))) (hy : s.get y = some (.arr (some c))) (other : Bool) (s' : St)
    (hd : exec (.assign x (.name y) other) s = some s') (v : Val) (bs : List Nat) (hn : need s' v = some bs) (hv : b ∈ bs) : access s' v = none := by
  have g := run_G P h init_G
  have hc := g.live_var hy (b := c) (by simp [Obj.owned])
  have hb := g.live_var hx (b := b) (by simp [Obj.owned])
  have hne := g.fresh b hb
  simp only [exec, eval, resolve, hx, hy, isArr, assignArr, copyObj, hc, if_true, Option.bind_eq_bind, Option.bind_some, Option.bind_eq_some_iff, Option.pure_def, St.free] at hd
  obtain ⟨s1, ⟨s2, e1, e2⟩, e3⟩ := hd
  cases e3
  cases e2
  refine access_dead hn hv ?_
  obtain ⟨f1, f2, f3, f4⟩ := free_cnt _ e1
  show b ∉ s2.live
  intro hm
  have h5 := f4 b
  have h8 := List.count_pos_iff.mpr hm
  have h6 := List.nodup_iff_count.mp g.nodup b
  simp only [St.alloc, Option.toList, List.count_singleton_self, List.count_cons] at h5
  have : ¬ s.next = b := by omega
  simp [this] at h5
  omega

/-- An expression of the same shape is assigned in place: the array keeps its storage, so views of it stay valid. -/
theorem C68_in_place (s s1 s' : St) (x y : Nat) (old : Option Nat) (e : E) (v : Val) (ts : List Nat) (hr : resolve s x = some y) (he : eval e s = some (s1, v, ts))
    (hv : isArr s1 v = false) (hx : s1.get y = some (.arr old)) (h : exec (.assign x e false) s = some s') : s'.vars = s1.vars ∧ ∀ b ∈ s1.live, b ∈ s'.live ∨ b ∈ ts ++ v.owned := by
  simp only [exec, hr, he, hx, hv, Option.bind_eq_bind, Option.bind_some, Bool.false_eq_true, if_false, Option.bind_eq_some_iff] at h
  obtain ⟨-, -, -, -, h1⟩ := h
  obtain ⟨f1, f2, f3, f4⟩ := free_cnt _ h1
  refine ⟨f1, fun b hb => ?_⟩
  have h5 := f4 b
  have h6 := List.count_pos_iff.mpr hb
  by_cases h7 : b ∈ ts ++ v.owned
  · exact Or.inr h7
  · refine Or.inl (List.count_pos_iff.mp ?_)
    have := List.count_eq_zero.mpr h7
    omega

/-- A slice of an object needs all the storage that the object owns. -/
theorem slice_needs {f : Nat → Option (List Nat)} {g : Nat → Option Obj} {b : Nat} : ∀ (o : Obj) {o' : Obj} {bs : List Nat}, b ∈ o.owned → sliceWith g o = some o' → needWith f o' = some bs → b ∈ bs
  | .arr none, o', bs, h, _, _ => by cases h
  | .arr (some c), o', bs, h, e, n => by
      cases e
      simp only [needWith, Option.map_some, Option.some.injEq] at n
      rw [← n]; exact h
  | .view _, o', bs, h, _, _ => by cases h
  | .ref _, o', bs, h, _, _ => by cases h
  | .dangling, o', bs, h, _, _ => by cases h
  | .un c o, o', bs, h, e, n => by
      simp only [sliceWith, Option.bind_eq_bind, Option.bind_eq_some_iff] at e
      obtain ⟨o1, e1, e2⟩ := e
      cases e2
      exact slice_needs o h e1 n
  | .bin c l r, o', bs, h, e, n => by
      simp only [sliceWith, Option.bind_eq_bind, Option.bind_eq_some_iff] at e
      obtain ⟨o1, e1, o2, e2, e3⟩ := e
      cases e3
      simp only [needWith, Option.bind_eq_bind, Option.bind_eq_some_iff] at n
      obtain ⟨b1, n1, b2, n2, n3⟩ := n
      cases n3
      rcases List.mem_append.mp h with h | h
      · exact List.mem_append_left _ (slice_needs l h e1 n1)
      · exact List.mem_append_right _ (slice_needs r h e2 n2)

/-- `auto v = e(range, ...)` for an expression `e` whose value is a new object that owns storage (an array returned by a function, an expression that an array was moved into):
`v` can never be read. -/
theorem C68_temporary (P : List Stmt) (s : St) (h : run P St.init = some s) (e : E) (s1 : St) (o : Obj) (ts : List Nat) (he : eval e s = some (s1, .pv o, ts)) (b : Nat) (hb : b ∈ o.owned)
    (s' : St) (hd : exec (.decl (.slice e)) s = some s') : access s' (.lv (s'.vars.length - 1)) = none := by
  have g := run_G P h init_G
  have g1 := eval_G _ he g
  simp only [exec, eval, he, Option.bind_eq_bind, Option.bind_some, Option.bind_eq_some_iff, construct] at hd
  obtain ⟨⟨s2, v2, ts2⟩, ⟨o', h1, h2⟩, ⟨s3, o3, us⟩, h3, h4⟩ := hd
  cases h2
  simp only [Option.some.injEq, Prod.mk.injEq] at h3
  obtain ⟨rfl, rfl, rfl⟩ := h3
  have hown : o'.owned = [] := sliceWith_owned (fun x o h => sliceVar_owned _ h) _ h1
  have g2 := g1.push (T' := (ts ++ o.owned ++ []) ++ []) o' (by intro c; simp [Val.owned, hown])
  have hdead := free_dead g2 h4 (b := b) (by simp [hb])
  have hvars := free_vars h4
  have hlen : s'.vars.length = s1.vars.length + 1 := by rw [hvars]; simp [St.push]
  refine need_live hdead (fun bs hn => ?_)
  simp only [need, hlen, Nat.add_sub_cancel, needVar, Option.bind_eq_bind, Option.bind_eq_some_iff] at hn
  obtain ⟨o2, h5, h6⟩ := hn
  have : s'.get s1.vars.length = some o' := by simp [St.get, hvars, St.push]
  rw [this] at h5; cases h5
  exact slice_needs o hb h1 h6

/-- `auto &&x = make_regular(e)` for an expression `e` whose value is a new array: `x` can never be read. -/
theorem C68_regular (s s1 s' : St) (e : E) (b : Option Nat) (ts : List Nat) (he : eval e s = some (s1, .pv (.arr b), ts)) (hd : exec (.bind (.regular e)) s = some s') :
    access s' (.lv (s'.vars.length - 1)) = none := by
  simp only [exec, eval, he, isArr, Option.bind_eq_bind, Option.bind_some, if_true] at hd
  have hvars := free_vars hd
  have hlen : s'.vars.length = s1.vars.length + 1 := by rw [hvars]; simp [St.push]
  have : s'.get s1.vars.length = some .dangling := by simp [St.get, hvars, St.push]
  simp [access, need, hlen, needVar, this, needWith]

/-- `auto y = std::move(x)` for an array `x`: `x` can not be read until it is assigned. -/
theorem C68_moved (s s' : St) (x : Nat) (b : Option Nat) (hx : s.get x = some (.arr b)) (hd : exec (.decl (.move x)) s = some s') : access s' (.lv x) = none ∧
    s'.get s.vars.length = some (.arr b) := by
  have hl := get_lt hx
  simp only [exec, eval, resolve, hx, construct, moveObj, Option.bind_eq_bind, Option.bind_some, St.free, Option.pure_def, List.append_nil, Option.some.injEq] at hd
  subst hd
  have h1 : ((s.put x (some (.arr none))).push (.arr b)).get x = some (.arr none) := by
    simp [St.get, St.push, St.put, List.getElem?_append, hl]
  refine ⟨?_, ?_⟩
  · have h2 : ((s.put x (some (.arr none))).push (.arr b)).vars.length = s.vars.length + 1 := by simp [St.push, St.put]
    simp [access, need, h2, needVar, h1, needWith]
  · simp [St.get, St.push, St.put]

/-! ### Programs -/

/-- `auto A = f(); auto B = f(); auto v = A(range); auto e = -v + B + f(); auto w = e(range); sum(w); A = B + v; sum(e);
auto e2 = std::move(e); sum(e2); auto &&r = B; r = f(); ` : accepted. -/
def good : List Stmt :=
  [.decl .make, .decl .make, .decl (.slice (.name 0)), .decl (.bin false (.bin false (.un false (.name 2)) (.name 1)) .make), .decl (.slice (.name 3)), .read (.name 4),
   .assign 0 (.bin false (.name 1) (.name 2)) false, .read (.name 3), .decl (.move 3), .read (.name 5), .bind (.name 1), .assign 6 .make true, .read (.slice (.name 6))]

example : (checkAll good []).isSome = true ∧ (run good St.init).isSome = true := by decide +kernel

/-- ... at the end `w` may not be used, because the expression that it refers to was moved, nor `e2`, `e`, because `B` was assigned. -/
example : (checkAll good []).map (fun env => (List.range 7).map (usable env)) = some [true, true, true, false, false, false, true] := by decide +kernel

/-- All variables destroyed: nothing is left. -/
example : (run (good ++ (List.range 7).map .drop) St.init).map (·.live) = some [] := by decide +kernel

/-- The hypotheses of `C68_ownership`: after `auto A = f(); auto e = A + f(); auto B = A;` three blocks. -/
example : (run [.decl .make, .decl (.bin false (.name 0) .make), .decl (.name 0)] St.init).map (fun s => (s.live, (s.get 1).map Obj.owned)) = some ([2, 1, 0], some [1]) := by decide +kernel

/-- `auto v = f()(range); sum(v);` -/
example : run [.decl (.slice .make), .read (.name 0)] St.init = none ∧ checkAll [.decl (.slice .make)] [] = none ∧ (run [.decl (.slice .make)] St.init).isSome = true := by decide +kernel

/-- `auto A = f(); auto e = (A + f())(range); sum(e);`: undefined, although `auto e = A + f();` owns the array and is fine. -/
example : run [.decl .make, .decl (.slice (.bin false (.name 0) .make)), .read (.name 1)] St.init = none ∧
    (checkAll [.decl .make, .decl (.bin false (.name 0) .make), .read (.name 1), .decl (.slice (.name 1)), .read (.name 2)] []).isSome = true := by decide +kernel

/-- Used up within the statement, such a slice is fine: `auto A = f(); auto B = make_regular(f()(range) + A); sum(B)`.  (The rules do not accept it.) -/
example : (run [.decl .make, .decl (.regular (.bin false (.slice .make) (.name 0))), .read (.name 1)] St.init).isSome = true := by decide +kernel

/-- `auto &&x = make_regular(f()); sum(x);` against `auto x = make_regular(f()); sum(x);` -/
example : run [.bind (.regular .make), .read (.name 0)] St.init = none ∧ (checkAll [.decl (.regular .make), .read (.name 0)] []).isSome = true := by decide +kernel

/-- `auto A = f(), B = f(); auto v = A(range); A = B; sum(v);` is undefined, with `A = B + B` (same shape) it is not, with `A = B + B` of another shape it is. -/
example : run [.decl .make, .decl .make, .decl (.slice (.name 0)), .assign 0 (.name 1) false, .read (.name 2)] St.init = none ∧
    (checkAll [.decl .make, .decl .make, .decl (.slice (.name 0)), .assign 0 (.bin false (.name 1) (.name 1)) false, .read (.name 2)] []).isSome = true ∧
    run [.decl .make, .decl .make, .decl (.slice (.name 0)), .assign 0 (.bin false (.name 1) (.name 1)) true, .read (.name 2)] St.init = none := by decide +kernel

/-- `auto A = f(), B = f(); A = A(range) + B;` of another shape: the array is resized before the right-hand side is read; the same with a temporary array is fine. -/
example : run [.decl .make, .decl .make, .assign 0 (.bin false (.slice (.name 0)) (.name 1)) true] St.init = none ∧
    (checkAll [.decl .make, .decl .make, .assign 0 (.regular (.bin false (.slice (.name 0)) (.name 1))) true, .read (.name 0)] []).isSome = true := by decide +kernel

/-- A lazy expression that refers to an array that goes out of scope. -/
example : run [.decl .make, .decl (.un false (.name 0)), .drop 0, .read (.name 1)] St.init = none := by decide +kernel

/-- Moved from, then assigned: may be used again. -/
example : run [.decl .make, .decl (.move 0), .read (.name 0)] St.init = none ∧
    (checkAll [.decl .make, .decl (.move 0), .assign 0 (.name 1) true, .read (.name 0), .read (.name 1)] []).isSome = true := by decide +kernel

/-- Moving an expression of a mapped function copies the arrays in it (its operands are const members): both may be read; an arithmetic expression hands them over. -/
example : (run [.decl (.un true .make), .decl (.move 0), .read (.name 0), .read (.name 1)] St.init).isSome = true ∧
    run [.decl (.un false .make), .decl (.move 0), .read (.name 0)] St.init = none := by decide +kernel

/-! ### The theorems at these programs -/

/-- `C68_safe`, `C68_ownership`, `C68_usable` at `good`. -/
example : ∃ s, run good St.init = some s ∧ (∀ b ∈ s.live, ∃! x, ∃ o, s.get x = some o ∧ b ∈ o.owned) ∧ access s (.lv 0) = some () := by
  obtain ⟨env, h⟩ := Option.isSome_iff_exists.mp (show (checkAll good []).isSome = true by decide +kernel)
  obtain ⟨s, hs⟩ := C68_safe good env h
  have hf : (checkAll good []).map (fun env => (kindOf env 0, usable env 0)) = some (some .arr, true) := by decide +kernel
  rw [h] at hf
  simp only [Option.map_some, Option.some.injEq, Prod.mk.injEq] at hf
  exact ⟨s, hs, (C68_ownership good s hs).1, (C68_usable good env h s hs 0).2 _ hf.1 nofun hf.2⟩

/-- `auto A = f(); auto B = f(); auto v = A(...);`. -/
def three : List Stmt := [.decl .make, .decl .make, .decl (.slice (.name 0))]

/-- The state after it. -/
def three' : St := (run three St.init).getD St.init

theorem three_run : run three St.init = some three' := by decide +kernel

/-- The hypotheses of `C68_dropped`, `C68_resized`, `C68_copied`: the view `v` needs the block of `A`. -/
example : ∃ s', exec (.drop 0) three' = some s' ∧ access s' (.lv 2) = none :=
  ⟨_, rfl, C68_dropped three three' three_run 0 (.arr (some 0)) (by decide +kernel) 0 (by decide) _ rfl (.lv 2) [0] (by decide +kernel) (by decide)⟩
example : ∃ s', exec (.resize 0) three' = some s' ∧ access s' (.lv 2) = none :=
  ⟨_, rfl, C68_resized three three' three_run 0 0 (by decide +kernel) _ rfl (.lv 2) [0] (by decide +kernel) (by decide)⟩
example : ∃ s', exec (.assign 0 (.name 1) false) three' = some s' ∧ access s' (.lv 2) = none :=
  ⟨_, rfl, C68_copied three three' three_run 0 1 0 1 (by decide +kernel) (by decide +kernel) false _ rfl (.lv 2) [0] (by decide +kernel) (by decide)⟩

/-- The hypotheses of `C68_in_place`: `A = B + B`. -/
example : ∃ s1 v ts s', eval (.bin false (.name 1) (.name 1)) three' = some (s1, v, ts) ∧ exec (.assign 0 (.bin false (.name 1) (.name 1)) false) three' = some s' ∧ s'.vars = s1.vars :=
  ⟨_, _, _, _, rfl, rfl, (C68_in_place three' _ _ 0 0 (some 0) (.bin false (.name 1) (.name 1)) _ _ (by decide +kernel) rfl (by decide +kernel) (by decide +kernel) rfl).1⟩

/-- The hypotheses of `C68_temporary`, `C68_regular`, `C68_moved`. -/
example : ∃ s', exec (.decl (.slice .make)) three' = some s' ∧ access s' (.lv (s'.vars.length - 1)) = none :=
  ⟨_, rfl, C68_temporary three three' three_run .make _ (.arr (some 2)) _ rfl 2 (by decide) _ rfl⟩
example : ∃ s', exec (.bind (.regular .make)) three' = some s' ∧ access s' (.lv (s'.vars.length - 1)) = none :=
  ⟨_, rfl, C68_regular three' _ _ .make (some 2) _ rfl rfl⟩
example : ∃ s', exec (.decl (.move 0)) three' = some s' ∧ access s' (.lv 0) = none :=
  ⟨_, rfl, (C68_moved three' _ 0 (some 0) (by decide +kernel) rfl).1⟩

end Nda.Lifetime
