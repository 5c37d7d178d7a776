import Verif.Lemmas.Index
import Verif.Spec.Order
/-!
# Lemmas on lexicographic enumeration
-/
namespace Nda.Spec
open Nda

theorem LexLt.irrefl : ∀ {a : List Int}, ¬ LexLt a a
  | [], h => h
  | a :: as, h => by
    rcases h with h | ⟨_, h⟩
    · omega
    · exact LexLt.irrefl h

theorem LexLt.trans : ∀ {a b c : List Int}, LexLt a b → LexLt b c → LexLt a c
  | [], _, _, h, _ => absurd h id
  | _ :: _, [], _, h, _ => absurd h id
  | _ :: _, _ :: _, [], _, h => absurd h id
  | a :: as, b :: bs, c :: cs, h1, h2 => by
    rcases h1 with h1 | ⟨e1, h1⟩ <;> rcases h2 with h2 | ⟨e2, h2⟩
    · exact Or.inl (by omega)
    · exact Or.inl (by omega)
    · exact Or.inl (by omega)
    · exact Or.inr ⟨by omega, LexLt.trans h1 h2⟩

/-- All tuples of a box, in lexicographic order. -/
def box : List Int → List (List Int)
  | [] => [[]]
  | l :: ls => (List.range l.toNat).flatMap (fun i => (box ls).map (fun x => Int.ofNat i :: x))

theorem mem_box : ∀ {len x : List Int}, x ∈ box len ↔ InRange len x
  | [], x => by cases x <;> simp [box, InRange]
  | l :: ls, [] => by simp [box, InRange]
  | l :: ls, i :: x => by
    simp only [box, List.mem_flatMap, List.mem_range, List.mem_map, List.cons.injEq, InRange]
    constructor
    · rintro ⟨k, hk, y, hy, rfl, rfl⟩
      exact ⟨by simp; omega, mem_box.mp hy⟩
    · rintro ⟨⟨h1, h2⟩, hx⟩
      exact ⟨i.toNat, by omega, x, mem_box.mpr hx, by simp; omega, rfl⟩

theorem box_sorted : ∀ (len : List Int), (box len).Pairwise LexLt
  | [] => by simp [box]
  | l :: ls => by
    rw [box, List.pairwise_flatMap]
    constructor
    · intro i _
      rw [List.pairwise_map]
      exact (box_sorted ls).imp (fun h => Or.inr ⟨rfl, h⟩)
    · apply List.pairwise_lt_range.imp
      intro i j hij x hx y hy
      obtain ⟨x', _, rfl⟩ := List.mem_map.mp hx
      obtain ⟨y', _, rfl⟩ := List.mem_map.mp hy
      exact Or.inl (by simp; omega)

theorem lexEnum_box (len : List Int) : LexEnum len (box len) := ⟨box_sorted len, fun _ => mem_box⟩

theorem LexEnum.nodup {len : List Int} {L : List (List Int)} (h : LexEnum len L) : L.Nodup :=
  List.Pairwise.imp (S := (· ≠ ·)) (fun hl e => by subst e; exact LexLt.irrefl hl) h.sorted

/-- The enumeration is unique. -/
theorem LexEnum.eq_box {len : List Int} {L : List (List Int)} (h : LexEnum len L) : L = box len := by
  have hp : L.Perm (box len) := (List.perm_ext_iff_of_nodup h.nodup (lexEnum_box len).nodup).mpr
    (fun x => by rw [h.mem_iff, mem_box])
  exact hp.eq_of_pairwise (fun a b _ _ h1 h2 => absurd (h1.trans h2) LexLt.irrefl) h.sorted (box_sorted len)

theorem box_length : ∀ {len : List Int}, NonNeg len → ((box len).length : Int) = prod len
  | [], _ => rfl
  | l :: ls, h => by
    have ih := box_length (len := ls) (fun x hx => h x (List.mem_cons_of_mem _ hx))
    have hl := h l List.mem_cons_self
    simp only [box, List.length_flatMap, List.length_map, List.map_const', List.sum_replicate, List.length_range, prod]
    rw [show l.toNat • (box ls).length = l.toNat * (box ls).length from rfl]
    push_cast
    rw [ih]; congr 1; omega

/-- The `k`-th tuple has position `k`. -/
theorem box_lin : ∀ {len : List Int}, NonNeg len → (box len).map (lin len) = (List.range (prod len).toNat).map Int.ofNat
  | [], _ => by simp [box, lin, prod]
  | l :: ls, h => by
    have hn : NonNeg ls := fun x hx => h x (List.mem_cons_of_mem _ hx)
    have ih := box_lin hn
    have hl := h l List.mem_cons_self
    have hp := prod_nonneg hn
    obtain ⟨n, hn'⟩ : ∃ n : Nat, l = n := ⟨l.toNat, by omega⟩
    obtain ⟨q, hq⟩ : ∃ q : Nat, prod ls = q := ⟨(prod ls).toNat, by omega⟩
    subst hn'
    simp only [box, prod, Int.toNat_natCast, List.map_flatMap, List.map_map]
    have : ∀ i : Nat, List.map (lin ((n : Int) :: ls) ∘ fun x => Int.ofNat i :: x) (box ls) =
        (List.range q).map (fun k => Int.ofNat (i * q + k)) := by
      intro i
      have e : (lin ((n : Int) :: ls) ∘ fun x => Int.ofNat i :: x) = fun x => (i : Int) * q + lin ls x := by
        funext x; simp [lin, hq]
      rw [e, show (fun x => (i : Int) * q + lin ls x) = (fun y => (i : Int) * q + y) ∘ lin ls from rfl, ← List.map_map, ih, hq]
      simp
    simp only [this]
    rw [hq]
    clear this ih
    have : ((n : Int) * q).toNat = n * q := by rw [← Int.natCast_mul]; rfl
    rw [this]
    clear this hl h
    induction n with
    | zero => simp
    | succ n ih =>
      rw [List.range_succ, List.flatMap_append, ih, Nat.succ_mul, List.range_add, List.map_append]
      simp

end Nda.Spec
