import Verif.Spec.Messages
import Mathlib.Tactic.Basic
import Mathlib.Logic.Function.Iterate
import Mathlib.Data.List.Basic
/-!
# C74: texts of exceptions
-/
namespace Nda.Messages
open Nda Nda.Spec

/-- The relation kept between an object and what its user thinks of it. -/
def Rel (e : Stream) (n : Note) : Prop := e.buf = n.text ∧ (n.stale = false → e.pos = e.buf.length)

def Rels (es : List Stream) (ns : List Note) : Prop := es.length = ns.length ∧ ∀ (i : Nat) (e : Stream) (n : Note), es[i]? = some e → ns[i]? = some n → Rel e n

theorem put_end {e : Stream} (h : e.pos = e.buf.length) (t : List Char) : (e.put t).buf = e.buf ++ t ∧ (e.put t).pos = (e.put t).buf.length := by
  simp [Stream.put, h]

theorem put_nil (e : Stream) : e.put [] = e := by
  simp [Stream.put]

theorem Rels.push {es : List Stream} {ns : List Note} (h : Rels es ns) {e : Stream} {n : Note} (hr : Rel e n) : Rels (es ++ [e]) (ns ++ [n]) := by
  refine ⟨by simp [h.1], fun i e' n' h1 h2 => ?_⟩
  by_cases hi : i < es.length
  · rw [List.getElem?_append_left hi] at h1
    rw [List.getElem?_append_left (h.1 ▸ hi)] at h2
    exact h.2 i e' n' h1 h2
  · rw [List.getElem?_append_right (by omega)] at h1
    rw [List.getElem?_append_right (by have := h.1; omega), ← h.1] at h2
    cases hk : i - es.length with
    | zero =>
      rw [hk] at h1 h2
      simp only [List.getElem?_cons_zero, Option.some.injEq] at h1 h2
      subst h1 h2
      exact hr
    | succ k => rw [hk] at h1; simp at h1

theorem Rels.step {es : List Stream} {ns : List Note} (h : Rels es ns) (op : Op) (hop : ∀ i t n, op = .put i t → ns[i]? = some n → n.stale = true → t = []) :
    Rels (step es op) (noteStep ns op) := by
  cases op with
  | new => exact h.push ⟨rfl, fun _ => rfl⟩
  | put i t =>
    simp only [Messages.step, noteStep]
    cases he : es[i]? with
    | none =>
      have hi : es.length ≤ i := List.getElem?_eq_none_iff.mp he
      rw [List.getElem?_eq_none (by rw [← h.1]; exact hi)]
      exact h
    | some e =>
      have hi : i < es.length := (List.getElem?_eq_some_iff.mp he).1
      obtain ⟨n, hn⟩ : ∃ n, ns[i]? = some n := ⟨_, List.getElem?_eq_getElem (h.1 ▸ hi)⟩
      rw [hn]
      have hr := h.2 i e n he hn
      refine ⟨by simp [h.1], fun j e' n' h1 h2 => ?_⟩
      by_cases hj : i = j
      · subst hj
        simp only [List.getElem?_set_self hi, List.getElem?_set_self (h.1 ▸ hi), Option.some.injEq] at h1 h2
        subst h1 h2
        by_cases hs : n.stale = true
        · obtain rfl := hop i t n rfl hn hs
          exact ⟨by rw [put_nil]; simpa using hr.1, fun hc => by simp [hs] at hc⟩
        · have hp := put_end (hr.2 (by simpa using hs)) t
          exact ⟨by rw [hp.1, hr.1], fun _ => hp.2⟩
      · rw [List.getElem?_set_ne hj] at h1 h2
        exact h.2 j e' n' h1 h2
  | copy i =>
    simp only [Messages.step, noteStep]
    cases he : es[i]? with
    | none =>
      have hi : es.length ≤ i := List.getElem?_eq_none_iff.mp he
      rw [List.getElem?_eq_none (by rw [← h.1]; exact hi)]
      exact h
    | some e =>
      have hi : i < es.length := (List.getElem?_eq_some_iff.mp he).1
      obtain ⟨n, hn⟩ : ∃ n, ns[i]? = some n := ⟨_, List.getElem?_eq_getElem (h.1 ▸ hi)⟩
      rw [hn]
      have hr := h.2 i e n he hn
      refine h.push ⟨hr.1, fun hs => ?_⟩
      have : n.text = [] := by simpa using hs
      simp [Messages.copy, hr.1, this]

theorem rels_run : ∀ (ops : List Op) (es : List Stream) (ns : List Note), Rels es ns → Untouched ns ops → Rels (run es ops) (notes ns ops)
  | [], _, _, h, _ => h
  | op :: ops, _, _, h, hu => rels_run ops _ _ (h.step op hu.1) hu.2

/-- In every program that does not write to a copy of an exception that had a text, `what()` is everything written to the exception and to those it is a copy of, followed by the last line.
Missing: writing to a copy (`C74_copy_loses`). -/
theorem C74_message_partial (ops : List Op) (hu : Untouched [] ops) : (run [] ops).map what = (notes [] ops).map (fun n => n.text ++ "\n.. Error occurred on node ".toList) := by
  obtain ⟨hl, hr⟩ := rels_run ops [] [] ⟨rfl, fun i e n h => by simp at h⟩ hu
  apply List.ext_getElem (by simp [hl])
  intro i h1 h2
  simp only [List.getElem_map]
  simp only [List.length_map] at h1 h2
  rw [what, (hr i _ _ (List.getElem?_eq_getElem h1) (List.getElem?_eq_getElem h2)).1]
  rfl

/-- Whenever a text is written to a copy of an exception that has a text, text is lost: the new one overwrites the old one from its beginning. -/
theorem C74_copy_loses (e : Stream) (t : List Char) (he : e.buf ≠ []) (ht : t ≠ []) : ((copy e).put t).buf = t ++ e.buf.drop t.length ∧ ((copy e).put t).buf ≠ e.buf ++ t := by
  constructor
  · simp [copy, Stream.put]
  · intro h
    have := congrArg List.length h
    have h1 := List.length_pos_of_ne_nil he
    have h2 := List.length_pos_of_ne_nil ht
    simp [copy, Stream.put] at this
    omega

theorem foldl_put : ∀ (parts : List (List Char)) (e : Stream), e.pos = e.buf.length → (parts.foldl Stream.put e).buf = e.buf ++ parts.flatten
  | [], e, _ => by simp
  | t :: parts, e, h => by
    have hp := put_end h t
    rw [List.foldl_cons, foldl_put parts _ hp.2, hp.1, List.flatten_cons, List.append_assoc]

/-- The text of every exception thrown by the library, however often it is copied on its way. -/
theorem C74_thrown (file line : List Char) (parts : List (List Char)) (k : Nat) :
    what (copy^[k] (thrown file line parts)) = "Error at ".toList ++ file ++ " : ".toList ++ line ++ "\n\n".toList ++ parts.flatten ++ "\n.. Error occurred on node ".toList := by
  have hc : ∀ k e, (copy^[k] e).buf = e.buf := by
    intro k
    induction k with
    | zero => intro e; rfl
    | succ k ih => intro e; rw [Function.iterate_succ_apply, ih]; rfl
  rw [what, hc]
  unfold thrown
  have h0 : fresh.pos = fresh.buf.length := rfl
  have h1 := put_end h0 "Error at ".toList
  have h2 := put_end h1.2 file
  have h3 := put_end h2.2 " : ".toList
  have h4 := put_end h3.2 line
  have h5 := put_end h4.2 "\n\n".toList
  show (List.foldl Stream.put _ parts).buf ++ trailer = _
  rw [foldl_put parts _ h5.2, h5.1, h4.1, h3.1, h2.1, h1.1]
  rfl

/-- `NDA_ASSERT` and `NDA_ASSERT2` throw exactly if the condition is false; the text names it. -/
theorem C74_assert (x : Bool) (file line text : List Char) (parts : Option (List (List Char))) :
    (assert2 x file line text parts = none ↔ x = true) ∧
      (x = false → (assert2 x file line text parts).map what = some ("Error at ".toList ++ file ++ " : ".toList ++ line ++ "\n\n".toList ++ text ++
        (match parts with | some ps => "\n ".toList ++ ps.flatten | none => []) ++ "\n.. Error occurred on node ".toList)) := by
  constructor
  · cases x <;> simp [assert2]
  · rintro rfl
    simp only [assert2, Bool.not_false, if_true, Option.map_some]
    congr 1
    cases parts with
    | none =>
      have h := C74_thrown file line [text] 0
      rw [Function.iterate_zero, id] at h
      rw [h]; simp
    | some ps =>
      have h := C74_thrown file line (text :: "\n ".toList :: ps) 0
      rw [Function.iterate_zero, id] at h
      rw [h]; simp

/-- `catch (nda::runtime_error e) { e << "x"; }` with the text `ABC`. -/
theorem C74_copy_witness : (run [] [.new, .put 0 "AB".toList, .put 0 "C".toList, .copy 0, .put 1 "x".toList]).map (fun e => String.ofList e.buf) = ["ABC", "xBC"] ∧
    (notes [] [.new, .put 0 "AB".toList, .put 0 "C".toList, .copy 0, .put 1 "x".toList]).map (fun n => String.ofList n.text) = ["ABC", "ABCx"] := by decide

/-- `C74_message_partial`: an exception written to before and after a copy of it is made. -/
example : Untouched [] [.new, .put 0 "AB".toList, .copy 0, .put 0 "C".toList] ∧ (run [] [.new, .put 0 "AB".toList, .copy 0, .put 0 "C".toList]).map (fun e => String.ofList e.buf) = ["ABC", "AB"] := by
  refine ⟨⟨by simp, ⟨?_, ⟨by simp, ⟨?_, trivial⟩⟩⟩⟩, by decide⟩
  · rintro i t n h1 h2 h3
    cases h1
    simp only [noteStep, List.nil_append, List.getElem?_cons_zero, Option.some.injEq] at h2
    rw [← h2] at h3
    simp at h3
  · rintro i t n h1 h2 h3
    cases h1
    simp [noteStep] at h2
    rw [← h2] at h3
    simp at h3

end Nda.Messages
