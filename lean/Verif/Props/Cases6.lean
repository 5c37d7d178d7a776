import Verif.Props.Cases5
import Verif.Props.Cases3
import Verif.Props.Clef
import Verif.Props.ClefIo
import Verif.Props.ClefLazy
import Verif.Props.RectStr
import Verif.Props.RectStrEq
import Verif.Props.SymInit
import Verif.Props.Spaces
import Verif.Props.H5Layout
import Verif.Props.Python
import Verif.Props.PythonArray

/-!
# Concrete cases: expressions with placeholders, labels, symmetries, memory spaces, files, Python

Each `example` applies a theorem to concrete arrays, so that its hypotheses are seen to hold together.
-/

namespace Nda.Messages

open Nda Nda.Spec

theorem streams_ok : Untouched [] [.new, .put 0 "AB".toList, .copy 0, .put 0 "C".toList] ∧ (run [] [.new, .put 0 "AB".toList, .copy 0, .put 0 "C".toList]).map (fun e => String.ofList e.buf) = ["ABC", "AB"] := by
  refine ⟨⟨by simp, ⟨?_, ⟨by simp, ⟨?_, trivial⟩⟩⟩⟩, by decide⟩
  · rintro i t n h1 h2 h3
    cases h1
    simp only [noteStep, List.nil_append, List.getElem?_cons_zero, Option.some.injEq] at h2
    rw [← h2] at h3
    simp at h3
  · rintro i t n h1 h2 h3
    cases h1
    simp [noteStep] at h2
    rw [← h2] at h3
    simp at h3

example := C74_message_partial [.new, .put 0 "AB".toList, .copy 0, .put 0 "C".toList] streams_ok.1

end Nda.Messages

namespace Nda.Clef

open Nda.Clef.Spec

/-- `x_ = 4, y_ = z`. -/
def samplePairs : Pairs Int Nat := [(0, .val 4), (1, .ref 2)]

theorem samplePairs_distinct : Distinct samplePairs := by simp [Distinct, samplePairs]
theorem sample_plain : Plain sample := by simp [Plain, Plains, sample]
theorem sample_fv : ∀ m ∈ fv sample, m ∈ samplePairs.map (·.1) := by simp [fv, fvs, sample, samplePairs]
theorem sample_bv : ∀ n ∈ bv sample, n ∉ samplePairs.map (·.1) := by simp [bv, bvs, sample]
theorem sample_apart : Apart sample := by simp [Apart, Aparts, sample]
theorem sample_gives : Gives ints (eval ints samplePairs sample) (-28) := gives_iff.2 (by decide +kernel)

example : den ints false (withPairs ints (fun _ => none) samplePairs) sample = some (-28) :=
  C47_value ints samplePairs sample (-28) samplePairs_distinct sample_bv sample_apart sample_gives (fun _ => none)

example : den ints true (withPairs ints (fun _ => none) samplePairs) sample = some (-28) :=
  (C47_plain_partial ints samplePairs sample (-28) (by simp [samplePairs]) samplePairs_distinct sample_plain sample_fv (fun _ => none)).1 sample_gives

theorem sampleSum_ready : Ready (([(2, .val 2)] : Pairs Int Nat).map (·.1)) [] sampleSum ∧ result ints (eval ints [(2, .val 2)] sampleSum) = .ok 84 := by
  constructor
  · simp [Ready, Readys, sampleSum, IsLeaf, fv, fvs]
    intro m
    constructor
    · rintro ⟨h1, h2⟩; omega
    · rintro rfl; omega
  · decide +kernel

example : den ints true (withPairs ints (fun _ => none) [(2, .val 2)]) sampleSum = some 84 :=
  (C47_sums_partial ints [(2, .val 2)] sampleSum 84 (by simp) (by simp [Distinct]) sampleSum_ready.1 (fun _ => none)).1 (gives_iff.2 sampleSum_ready.2)

/-- The pairs given one after the other, in both orders. -/
example : (-28 : Int) = -28 := C48_same_value ints sample [[(0, .val 4)], [(1, .ref 2)]] [[(1, .ref 2)], [(0, .val 4)]] (-28) (-28) (by simpa using List.Perm.swap _ _ _) (by simp [Distinct])
  (by simp [bv, bvs, sample]) sample_apart (gives_iff.2 (by decide +kernel)) (gives_iff.2 (by decide +kernel))

example : Gives ints (stages ints [[(1, .ref 2)], [(0, .val 4)]] sample) (-28) :=
  (C48_stages ints sample samplePairs [[(1, .ref 2)], [(0, .val 4)]] (-28) (by simp) (by simp) (by simpa [samplePairs] using List.Perm.swap _ _ _) samplePairs_distinct sample_plain sample_fv).1 sample_gives

example := C48_function ints sample _ [1, 0] [.ref 2, .val 4] (-28) rfl rfl (by simp) (by simp) sample_plain (by simp [fv, fvs, sample]) (fun _ => none)

example := C48_function_stages ints sample _ _ [1] [(0, .val 4)] [.ref 2] (-28) rfl rfl rfl (by simp [Distinct]) sample_plain (fun _ => none) (gives_iff.2 (by decide +kernel))

example := C48_outside_survives ints [(0, .val 4)] (.node .plus [.ph 0, .node .multiplies [.ref 0, .ph 1]]) _ (by simp [Outside, Outsides]) rfl

example := C48_value_survives ints samplePairs .minus [.node .multiplies [.ph 0, .val 3], .node .plus [.ph 1, .ref 0]] _ (-28) rfl rfl

example := C47_lazy_agrees ints intKinds samplePairs sample _ rfl

/-- `x_ = y_ * y_, y_ = w_ + 1`, then `y_ = 5, w_ = 2`. -/
def lazyPairs : LPairs Int Nat := [(0, .lazy (.node .multiplies [.ph 1, .ph 1])), (1, .lazy (.node .plus [.ph 2, .val 1]))]

example : den ints false (withL ints (withPairs ints (fun _ => none) [(1, .val 5), (2, .val 2)]) lazyPairs) sample = some 62 :=
  (C48_substitute_partial ints intKinds lazyPairs [(1, .val 5), (2, .val 2)] sample 62 (by simp [lazyPairs]) (by simp [lazyPairs]) (by simp) (by simp [Distinct])
    (by simp [Straight, Straights, sample]) (by simp [lazyPairs, Straight, Straights, LArg.toTm]) (by simp [fv, fvs, sample, lazyPairs]) (by simp [lazyPairs, fv, fvs, LArg.toTm])
    (fun _ => none)).1 ⟨_, rfl, gives_iff.2 (by decide +kernel)⟩

example := C70_text ioShow ioLoad C70_integers (.node .plus [.ph 0, .val 5]) (.node .terminal [.node .plus [.ph 0, .bor 5]]) "(_0 + 5)".toList (by decide +kernel) (by decide +kernel)

example := C70_evaluation ioShow ints C70_integers (.node .plus [.ph 0, .val 5]) (.node .terminal [.node .plus [.ph 0, .bor 5]]) "(_0 + 5)".toList (by simp [Open, Opens]) (by simp [Open, Opens])
  (by simp [Plain, Plains]) (by simp [Plain, Plains]) (by decide +kernel) (by decide +kernel) [(0, .val 4)] (by simp) (by simp [Distinct]) (by simp [fv, fvs]) 9

end Nda.Clef

namespace Nda.RectStr

open Nda Nda.Spec Nda.Perm Nda.IdxMap Nda.Slice Nda.LayoutTransforms

theorem sample_resolves : Resolves [["a", "b", "c"], ["A", "B"]] [.str "c", .arg (.idx 1)] [.idx 2, .idx 1] := by
  refine ⟨⟨by decide, rfl, ?_⟩, rfl, rfl⟩
  intro j hj
  match j, hj with
  | 0, _ => decide
  | 1, _ => decide

theorem sample_wf : WF sample.lay := ⟨by decide, by decide, by decide, by decide⟩
theorem sample_smallest : SmallestOK sample.lay := fun _ u h => by cases h; rfl
theorem sample_labelling : Labelling [["a", "b", "c"], ["A", "B"]] sample.lay.len := ⟨rfl, by decide⟩

example := C50_lookup sample _ (Or.inl rfl) sample_wf sample_smallest [.str "c", .arg (.idx 1)] [2, 1] rfl sample_resolves
example := C50_unknown sample _ (Or.inl rfl) [.str "z", .str "A"] (by decide) 0 "z" ["a", "b", "c"] rfl rfl (by decide)
example := C50_labels [["a", "b", "c"], ["A", "B"]] [0, 1] [0, 0] .contiguous (by decide) rfl rfl
example := C50_generated sample.lay sample_wf sample_smallest [2, 1] ⟨⟨by decide, by decide⟩, ⟨by decide, by decide⟩, trivial⟩
example := C50_convert sample _ (Or.inl rfl) ⟨[3, 2], [1, 3], [1, 0], [0, 0], .contiguous⟩ ⟨by decide, by decide, by decide, by decide⟩ (fun _ u h => by cases h; rfl)
  [.str "c", .arg (.idx 1)] [2, 1] rfl sample_resolves
example := C50_permute sample _ rfl sample_labelling sample_wf sample_smallest [1, 0] (by decide) rfl
example := C50_slice_partial sample _ rfl sample_labelling sample_wf sample_smallest (by decide) [.str "c", .arg (.idx 1)] _ sample_resolves rfl (by decide)
  ⟨⟨by decide, by decide⟩, ⟨by decide, by decide⟩, trivial⟩
example := C50_chain_partial sample _ rfl sample_labelling sample_wf sample_smallest [.permute [1, 0]] ⟨⟨by decide, by decide⟩, fun _ _ => trivial⟩ trivial

example := C50_equal_partial (two (some [["up", "down"]])) (two (some [["down", "up"]])) ⟨by decide, by decide, by decide, by decide⟩ ⟨by decide, by decide, by decide, by decide⟩ _ _ rfl rfl
example := C50_equal_symmetric (two (some [["up", "down"]])) (two none)

end Nda.RectStr

namespace Nda.SymGrp

open Nda LayoutTransforms Assign Loops Nda.Spec Nda.Perm IdxMap

theorem exSyms_keep : KeepRank 2 exSyms := by
  intro s hs i _
  simp only [exSyms, List.mem_cons, List.not_mem_nil, or_false] at hs
  rcases hs with rfl | rfl <;> rfl

def sq : View := ⟨0, ⟨[2, 2], [2, 1], [0, 1], [0, 0], .contiguous⟩⟩

theorem sq_good : Good sq [9, 9, 9, (9 : Int)].length := good_of (by decide) rfl rfl rfl (by decide) 1 (by decide) (by simp [NonNeg, sq]) (by decide)

theorem sq_one : OneToOne sq := by
  intro i j hi hj h
  match i, hi, j, hj with
  | [_, _], ⟨⟨a0, a1⟩, ⟨b0, b1⟩, _⟩, [_, _], ⟨⟨c0, c1⟩, ⟨d0, d1⟩, _⟩ =>
    simp [sq, addr, dot] at h a1 b1 c1 d1
    simp
    omega

theorem sq_dense : Dense sq.lay := show memOrder [0, 1] [2, 1] = _ by decide

example := C34_init [2, 2] (by decide) (by decide) exSyms exSyms_keep 0 (fun v : Int => -v) id (fun i => i.sum) sq rfl rfl sq_dense sq_one [9, 9, 9, 9] sq_good

/-- A function that changes sign with the first index. -/
example := C34_init_symmetric [2, 2] (by decide) (by decide) [fun i => ([1 - i.getD 0 0, i.getD 1 0], ⟨true, false⟩)] (by intro s hs i _; simp at hs; subst hs; rfl) 0 (fun v : Int => -v) id
  (by simp) (by simp) (by simp) (fun i => 3 * (1 - 2 * i.getD 0 0)) (by
    intro s hs i hi
    simp only [List.mem_singleton] at hs
    subst hs
    simp [Oper.ap]
    omega) sq rfl rfl sq_dense sq_one [9, 9, 9, 9] sq_good

example := C34_symmetrize (α := Int) (β := Nat) id (fun v n => v / n) Int.natAbs [2, 2] (by decide) (by decide) exSyms exSyms_keep 0 sq rfl rfl sq_dense sq_one [9, 9, 9, 9] sq_good (fun _ => 9)
  (fun i hi => by
    match i, hi with
    | [x, y], ⟨⟨a0, a1⟩, ⟨b0, b1⟩, _⟩ =>
      have : x = 0 ∨ x = 1 := by omega
      have : y = 0 ∨ y = 1 := by omega
      rcases ‹x = 0 ∨ x = 1› with rfl | rfl <;> rcases ‹y = 0 ∨ y = 1› with rfl | rfl <;> rfl)

end Nda.SymGrp

namespace Nda.Spaces

open Nda Nda.Spec LayoutTransforms Assign Arith Programs Programs.Spec Nda.Spaces.Spec AddressSpace AddressSpace.Spec Nda.Perm Nda.IdxMap Nda.Grid

theorem demo_ok : ∀ s ∈ demoProg, OK (views demoEnv) (plain s) ∧ MemOK demoEnv s := by
  have hb : BlockOK ⟨[2, 2], [2, 1], [0, 1], [0, 0], .contiguous⟩ := ⟨by decide, by decide, by decide, by decide⟩
  intro s hs
  simp only [demoProg, List.mem_cons, List.not_mem_nil, or_false] at hs
  rcases hs with rfl | rfl | rfl | rfl | rfl
  · refine ⟨⟨[2, 2], demo_place 3 _ rfl, trivial, nofun, by simp, ?_⟩, ?_⟩
    · intro q hq
      simp only [places, List.mem_singleton] at hq
      subst hq
      exact ⟨rfl, demo_slice, nofun, nofun⟩
    · intro x y v w _ _ h3 h4
      cases h3; cases h4
      exact Or.inr (Or.inr ⟨hb, ⟨by decide, by decide, by decide, by decide⟩⟩)
  · refine ⟨⟨[2, 2], demo_place 1 _ rfl, trivial, nofun, by simp, ?_⟩, ?_⟩
    · intro q hq
      simp only [places, List.mem_singleton] at hq
      subst hq
      exact ⟨rfl, demo_place 3 _ rfl, nofun, nofun⟩
    · exact ⟨_, _, rfl, rfl, rfl, rfl⟩
  · exact ⟨⟨[2, 2], demo_place 1 _ rfl, nofun⟩, trivial⟩
  · refine ⟨⟨[2, 2], demo_place 2 _ rfl, ⟨trivial, trivial, nofun⟩, nofun, nofun, ?_⟩, Or.inr ?_, nofun⟩
    · intro q hq
      simp only [places, List.singleton_append, List.mem_cons, List.not_mem_nil, or_false, or_self] at hq
      subst hq
      exact ⟨rfl, demo_place 1 _ rfl, nofun, nofun⟩
    · intro q hq
      simp only [places, List.singleton_append, List.mem_cons, List.not_mem_nil, or_false, or_self] at hq
      subst hq
      rintro ⟨x, hx, h⟩
      cases hx; cases h
  · refine ⟨⟨[2, 2], demo_place 3 _ rfl, by simp, by decide, fun v hv h => ?_⟩, _, rfl, rfl⟩
    cases hv; cases h

def demoMem : List Int := List.replicate 20 1

theorem demo_holds : Holds (views demoEnv) demoMem (fun _ _ => 1) := by
  intro k v hv idx hi
  have hg : Good v 20 := (demo_env.good v (List.mem_of_getElem? hv)).1
  obtain ⟨h0, h1⟩ := hg.4 idx hi
  unfold val
  rw [if_neg (by omega), demoMem, List.getElem?_replicate, if_pos (by omega)]

example := C92_program_partial zeroLaws_int 16 demoEnv demo_placed demoProg demoMem _ demo_env demo_holds demo_ok
example := C92_statement_partial zeroLaws_int 16 demoEnv (.make 3 ⟨0, [.slice [.all, .rng 0 2 1]]⟩) demoMem _ demo_env demo_placed demo_holds (demo_ok _ (by simp [demoProg])).1 (demo_ok _ (by simp [demoProg])).2
example := C92_transfer 16 demoEnv 3 ⟨0, [.slice [.all, .rng 0 2 1]]⟩ demoMem _ demo_env zeroLaws_int demo_placed demo_holds (demo_ok (.make 3 _) (by simp [demoProg])).1 _ _ rfl rfl rfl rfl
  ⟨by decide, by decide, by decide, by decide⟩ ⟨by decide, by decide, by decide, by decide⟩ (by decide)
example := C92_fill_device (α := Int) 16 demoEnv 3 _ 7 demoMem rfl rfl (by decide) (by decide)
example := C92_mismatch (α := Int) 16 demoEnv 3 ⟨0, []⟩ _ _ _ demoMem rfl rfl rfl (by decide) rfl ⟨by decide, by decide, by decide, by decide⟩ ⟨by decide, by decide, by decide, by decide⟩
  ⟨by decide, by decide, by decide, by decide⟩ ⟨by decide, by decide, by decide, by decide⟩ (by decide) (by decide) (by decide)

end Nda.Spaces

namespace Nda.H5

open Nda Nda.Spec Nda.H5.Spec Nda.Assign Nda.LayoutTransforms Nda.IdxMap Nda.Matrix Nda.Mpi Nda.Perm Nda.Slice

theorem target2 : Target false ⟨1, ⟨[2], [2], [0], [0], .none⟩⟩ [2] 4 := by
  refine ⟨⟨⟨by decide, rfl, rfl, rfl⟩, ⟨fun h => absurd h (by decide), fun h => absurd h (by decide)⟩, by decide, ?_⟩, ?_, rfl, by decide, rfl, fun h => absurd h (by decide)⟩
  · intro idx hi
    match idx, hi with
    | [x], ⟨h, _⟩ => simp [addr, dot]; omega
  · intro i j hi hj h
    match i, j, hi, hj with
    | [x], [y], ⟨_, _⟩, ⟨_, _⟩ => simp [addr, dot] at h; simp [h]

def fort : View := ⟨0, ⟨[3, 2], [1, 3], [1, 0], [0, 0], .contiguous⟩⟩
theorem fort_good : Good fort [1, 2, 3, 4, 5, (6 : Int)].length := good_of (by decide) rfl rfl rfl (by decide) 1 (by decide) (by simp [NonNeg, fort]) (by decide)

example := C88_write_whole_partial 0 realCodec realCodec_ok fort false _ none fort_good (by decide) nofun (fun h => absurd h (by decide))
example := C88_round_trip_partial 0 0 realCodec realCodec_ok fort false _ fort_good (by decide) nofun (fun h => absurd h (by decide))
example := C88_real_into_complex (0, 0) cplxCodec cplxCodec_ok rfl false ⟨1, ⟨[2], [2], [0], [0], .none⟩⟩ [(1, 2), (3, 4), (5, 6), (7, 8)] [2] [5, 7] [] (by decide) rfl target2

end Nda.H5

namespace Nda.Python

open Nda Nda.Spec Nda.Python.Spec Nda.IdxMap Nda.LayoutTransforms Nda.Mem Nda.Mem.Spec

def rev : View := ⟨9, ⟨[4, 2], [-3, 2], [0, 1], [0, 0], .none⟩⟩

example := C51_to_python 1000 8 false rev ⟨by decide, by decide, by decide, by decide⟩ nofun (by decide)
example := C51_from_python_partial 8 ⟨1000, false, [4, 2], [24, 16]⟩ rfl (by decide) (by decide) (by decide)
example := C51_roundtrip_partial 1000 8 false ⟨9, ⟨[4, 2], [3, 2], [0, 1], [0, 0], .none⟩⟩ ⟨by decide, by decide, by decide, by decide⟩ nofun (by decide) (by decide) (by decide) [3, 1]
  ⟨⟨by decide, by decide⟩, ⟨by decide, by decide⟩, trivial⟩
example := C51_accept_view 2 12 [0, 1] true ⟨true, 12, ⟨1000, false, [2, 4], [16, 24]⟩⟩ (by decide) rfl rfl
example := C51_elements_any [2, 3] (fun i => i.sum == 3)
example := C51_accept_elements_partial 1 17 (fun _ => true) ⟨true, 17, ⟨1000, false, [3], [8]⟩⟩ (fun _ _ _ _ => rfl) (by decide +kernel)
example := C51_alive_array (V := Nat) false 0 2 [.newFrom 0 [1, 2]] [.destroy 0] 1 0 (carefulRun_of_check _ _ _ _ (by decide +kernel)) _ rfl 0 2 none rfl rfl
example := C51_alive (V := Nat) false 0 2 [.newFrom 0 [1, 2]] [.destroy 0] 1 ⟨some 0, some 0⟩ _ rfl (carefulRun_of_check _ _ _ _ (by decide +kernel)) _ rfl 0 0 2 none rfl rfl rfl
  (by simp [LeavesAlone])

example := C87_accept exWorld 7 17 8 2 _ _ exWorld_numpy 2 (by decide) 1
theorem ex_divisible : ∀ p, exWorld.numpy 1 = some (7, p) → checkLayout 2 (List.range 2) (exWorld.obj 1) = some true → Divisible 8 p := fun _ _ h => absurd h (by decide +kernel)
example := C87_values_partial exWorld 7 17 8 2 _ _ exWorld_numpy 2 (by decide) 1 (by decide +kernel) ex_divisible
example := C87_array_partial exWorld 7 17 8 2 (by decide) _ _ exWorld_numpy 2 (by decide) 1 (by decide +kernel) ex_divisible true 0 (Arr.AProg.start 2) [none, none] ⟨2, [], trivial, rfl, rfl⟩ 1 rfl

end Nda.Python
