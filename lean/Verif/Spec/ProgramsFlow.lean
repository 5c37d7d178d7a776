import Verif.Model.ProgramsFlow
import Verif.Spec.ProgramsMul
import Verif.Spec.Order
/-!
# Programs with scalars, branches, loops and local arrays, on mathematical arrays
-/
namespace Nda.Programs.Spec
open Nda Nda.Spec LayoutTransforms Assign Arith Nda.Programs Nda.Perm

variable {α : Type} [CommRing α] [Div α]

/-- The value of a query. -/
def Answers (lens : List (List Int)) (A : Arrays α) : Query α → α → Prop
  | .element alg e idx, s => s = value lens A alg e idx
  | .fold alg f e r, s => ∃ ext L, ExprShape lens e ext ∧ LexEnum ext L ∧ s = (L.map (value lens A alg e)).foldl f r

/-- The query is allowed: operators of the algebra, one shape, the index inside. -/
def QueryOK (env : List View) : Query α → Prop
  | .element alg e idx => ∃ ext, FactorOK env alg e ext ∧ (alg = .M → ext.length = 2) ∧ InRange ext idx
  | .fold alg _ e _ => ∃ ext, FactorOK env alg e ext ∧ (alg = .M → ext.length = 2)

/-- `A'` is `A` with one element replaced. -/
def Puts (lens : List (List Int)) (p : Place) (idx : List Int) (s : α) (A A' : Arrays α) : Prop :=
  A' p.name (src lens p idx) = s ∧ ∀ k jdx, ¬ (k = p.name ∧ jdx = src lens p idx) → A' k jdx = A k jdx

/-- The shape `ext` and the stride order of a new array are allowed. -/
def InitOK (env : List View) (so : List Nat) (ext : List Int) : Init α → Prop
  | .zeros len => ext = len ∧ NonNeg len ∧ IsPerm so ∧ so.length = len.length
  | .expr alg e => FactorOK env alg e ext ∧ (alg = .M → ext.length = 2) ∧ (IsArray e → ext ≠ []) ∧ IsPerm so ∧ so.length = ext.length

/-- The elements of a new array. -/
def initValue (lens : List (List Int)) (A : Arrays α) : Init α → List Int → α
  | .zeros _, _ => 0
  | .expr alg e, idx => value lens A alg e idx

/-- The arrays with a new one of name `n`. -/
def enter (n : Nat) (f : List Int → α) (A : Arrays α) : Arrays α := fun k idx => if k = n then f idx else A k idx

/-- The arrays at the end of the block: those named before it (`n` of them) have the values they have there. -/
def leave (n : Nat) (A C : Arrays α) : Arrays α := fun k => if k < n then C k else A k

/-- What a program that ends does to the arrays; all its statements are allowed. -/
inductive Runs : List View → Flow α → Arrays α → Arrays α → Prop
  | skip {env A} : Runs env .skip A A
  | cmd {env c A B} : CmdOK env c → CmdEffect (lensOf env) A B c → Runs env (.cmd c) A B
  | put {env p idx s ext A B} : PlaceOK env p ext → InRange ext idx → Puts (lensOf env) p idx s A B → Runs env (.put p idx s) A B
  | seq {env x y A B C} : Runs env x A B → Runs env y B C → Runs env (.seq x y) A C
  | read {env q k s A B} : QueryOK env q → Answers (lensOf env) A q s → Runs env (k s) A B → Runs env (.read q k) A B
  | stop {env q c x s A} : QueryOK env q → Answers (lensOf env) A q s → c s = false → Runs env (.loop q c x) A A
  | go {env q c x s A B C} : QueryOK env q → Answers (lensOf env) A q s → c s = true → Runs env x A B → Runs env (.loop q c x) B C → Runs env (.loop q c x) A C
  | var {env so i x ext m A C} : InitOK env so ext i → Arr.layoutOf so ext = some m → (∀ off : Int, Runs (env ++ [⟨off, m⟩]) x (enter env.length (initValue (lensOf env) A i) A) C) →
      Runs env (.var so i x) A (leave env.length A C)

/-- Whatever is executed, whether the program ends or not, is allowed; for a loop this is shown by an invariant. -/
def Safe : List View → Flow α → Arrays α → Prop
  | _, .skip, _ => True
  | env, .cmd c, _ => CmdOK env c
  | env, .put p idx _, _ => ∃ ext, PlaceOK env p ext ∧ InRange ext idx
  | env, .seq x y, A => Safe env x A ∧ ∀ B, Runs env x A B → Safe env y B
  | env, .read q k, A => QueryOK env q ∧ ∀ s, Answers (lensOf env) A q s → Safe env (k s) A
  | env, .loop q c x, A => ∃ I : Arrays α → Prop, I A ∧ ∀ B, I B → QueryOK env q ∧ ∀ s, Answers (lensOf env) B q s → c s = true → Safe env x B ∧ ∀ B', Runs env x B B' → I B'
  | env, .var so i x, A => ∃ ext m, InitOK env so ext i ∧ Arr.layoutOf so ext = some m ∧ ∀ off : Int, Safe (env ++ [⟨off, m⟩]) x (enter env.length (initValue (lensOf env) A i) A)

end Nda.Programs.Spec
