import Verif.Props.Mpi
import Verif.Props.H5Slice
/-!
# C37, C39, C40: targets of the wrong shape

A view cannot be resized; a slice of a file has the shape it has.  In both cases a target or source of another shape is an error, not a partial transfer.
-/
namespace Nda.Mpi
open Nda Nda.Spec LayoutTransforms Assign Loops Matrix

variable {α : Type}

/-- **C39.**  Gathering into a view that does not have the shape of the result is an error, on every process that receives the result. -/
theorem C39_gather_view_rejected (junk : α) (procs : List (Proc α)) (all : Bool) (root r : Nat) (p : Proc α) (hp : procs[r]? = some p) (here : (all || r == root) = true)
    (heights rest : List Int) (hsh : procs.map (fun q => q.rhs.lay.len) = heights.map (· :: rest)) (hr : Blk p.rhs p.mem.length) (ht : Blk p.target p.mem.length)
    (hv : p.isView = true) (hne : p.target.lay.len ≠ heights.sum :: rest) : gather junk procs all root r = .error .runtime := by
  have hslow : procs.mapM (fun q => rd q.rhs.lay.len 0) = some heights := by
    clear hp hne
    induction procs generalizing heights with
    | nil =>
      cases heights with
      | nil => rfl
      | cons => simp at hsh
    | cons q qs ih =>
      cases heights with
      | nil => simp at hsh
      | cons h hs =>
        simp only [List.map_cons, List.cons.injEq] at hsh
        simp only [List.mapM_cons, ih hs hsh.2, hsh.1]
        rfl
  have hlen : ∃ h, p.rhs.lay.len = h :: rest := by
    have : p.rhs.lay.len ∈ heights.map (· :: rest) := by
      rw [← hsh]
      exact List.mem_map.mpr ⟨p, List.mem_of_getElem? hp, rfl⟩
    obtain ⟨h, -, e⟩ := List.mem_map.mp this
    exact ⟨h, e.symm⟩
  obtain ⟨h, hlen⟩ := hlen
  have hshape : gatherShape procs all root r = some (heights.sum :: rest) := by
    simp only [gatherShape, hp, hslow, hlen, here, Option.bind_eq_bind, Option.bind_some, if_true]
    rfl
  unfold gather
  rw [hp]
  simp only [orUb, bind, Except.bind, hr.contig, ht.contig, hshape, here, if_true, resizeOrCheck, if_neg hne, hv]

/-- **C39.**  Scattering into a view that does not have the shape of the chunk is an error. -/
theorem C39_scatter_view_rejected (junk : α) (procs : List (Proc α)) (root r : Nat) (p o : Proc α) (hp : procs[r]? = some p) (ho : procs[root]? = some o) (l : Int) (rest : List Int)
    (hlp : p.rhs.lay.len = l :: rest) (hlo : o.rhs.lay.len = l :: rest) (hbp : Blk p.rhs p.mem.length) (hbo : Blk o.rhs o.mem.length) (ht : Blk p.target p.mem.length)
    (hv : p.isView = true) (hne : p.target.lay.len ≠ chunkLength l procs.length r :: rest) : scatter junk procs root r = .error .runtime := by
  have hs : ∀ {v : View} {m : Nat}, Blk v m → v.lay.len = l :: rest → ∃ s, rd v.lay.str 0 = some s := by
    intro v m hb e
    have := hb.good.wf.str_len
    cases hstr : v.lay.str with
    | nil => rw [hstr, e] at this; simp at this
    | cons s ss => exact ⟨s, rfl⟩
  obtain ⟨s1, e1⟩ := hs hbp hlp
  obtain ⟨s2, e2⟩ := hs hbo hlo
  unfold scatter
  rw [hp, ho]
  have e3 : rd o.rhs.lay.len 0 = some l := by rw [hlo]; rfl
  simp only [orUb, bind, Except.bind, hbp.contig, ht.contig, e1, e2, e3, hlp, List.tail_cons, if_true, resizeOrCheck, if_neg hne, hv]
  rfl

/-- **C40.**  Broadcasting into a view of another shape is an error. -/
theorem C40_broadcast_view_rejected (junk : α) (procs : List (Proc α)) (root r : Nat) (p o : Proc α) (hp : procs[r]? = some p) (ho : procs[root]? = some o) (hr : r ≠ root)
    (hv : p.isView = true) (hne : p.target.lay.len ≠ o.target.lay.len) : broadcast junk procs root r = .error .runtime := by
  unfold broadcast
  rw [hp, ho]
  simp [orUb, bind, Except.bind, hr, resizeOrCheck, hne, hv]

/-- **C40.**  Reducing into a view of another shape (elsewhere in memory) is an error where the result is needed. -/
theorem C40_reduce_view_rejected (junk : α) (op : α → α → α) (procs : List (Proc α)) (all : Bool) (root r : Nat) (p : Proc α) (hp : procs[r]? = some p) (here : (all || r == root) = true)
    (hr : Blk p.rhs p.mem.length) (ht : Blk p.target p.mem.length) (hoff : p.target.off ≠ p.rhs.off) (hv : p.isView = true) (hne : p.target.lay.len ≠ p.rhs.lay.len) :
    reduce junk op procs all root r = .error .runtime := by
  unfold reduce
  rw [hp]
  simp only [orUb, bind, Except.bind, hr.contig, ht.contig, here, if_true, reduceTarget, if_neg hoff, resizeOrCheck, if_neg hne, hv]

/-- Two processes; gathering `[1, 2]` and `[3]` into a view of 2 elements. -/
example : gather 9 [⟨[1, 2, 0, 0], ⟨0, ⟨[2], [1], [0], [0], .contiguous⟩⟩, ⟨2, ⟨[2], [1], [0], [0], .contiguous⟩⟩, true⟩,
    ⟨[(3 : Int), 0, 0], ⟨0, ⟨[1], [1], [0], [0], .contiguous⟩⟩, ⟨1, ⟨[2], [1], [0], [0], .contiguous⟩⟩, true⟩] false 0 0 = .error .runtime := by
  refine C39_gather_view_rejected _ _ _ _ _ _ rfl rfl [2, 1] [] rfl ?_ ?_ rfl (by decide)
  · exact blk_c 0 [2] [0] .contiguous 4 (by decide) rfl (by decide) (by decide) (by decide)
  · exact blk_c 2 [2] [0] .contiguous 4 (by decide) rfl (by decide) (by decide) (by decide)

end Nda.Mpi

namespace Nda.H5
open Nda Nda.Spec LayoutTransforms

variable {α : Type}

/-- **C37.**  Writing an array to a slice of another shape (of the same rank) is an error and writes nothing. -/
theorem C37_write_shape_rejected (L : List Int) (cplx : Bool) (data vals : List α) (args : List Arg) (shape sh : List Int) (hs : Small L)
    (hf : Fits L.length args) (hin : Inside (expand L.length args) L) (hp : ∀ a ∈ args, Plain a) (hsh : SliceShape (expand L.length args) L sh) (hrank : shape.length = sh.length)
    (hne : shape ≠ sh) : h5WriteSlice cplx args shape vals ⟨L ++ tailLen cplx, data, cplx⟩ = .error .runtime := by
  obtain ⟨D, sh', h1, h2, h3, h4⟩ := selected_eq L cplx args hs hf hin hp
  obtain rfl := C06_shape_unique _ _ _ _ h2 hsh
  have hcnt := (wants_length _ _ _ _ h1).2.2
  unfold h5WriteSlice
  have e := hyperslab_eq L cplx args hf D sh' h1
  rw [hrank, hcnt, e]
  have : decide (sh' = shape) = false := by simp [Ne.symm hne]
  simp [check, bind, Except.bind, this]

/-- **C37.**  So is writing complex numbers to a dataset of real numbers, or the other way round. -/
theorem C37_write_kind_rejected (cplx : Bool) (args : List Arg) (shape : List Int) (vals : List α) (ds : Dataset α) (h : cplx ≠ ds.isComplex) :
    h5WriteSlice cplx args shape vals ds = .error .runtime := by
  unfold h5WriteSlice
  have : (cplx == ds.isComplex) = false := by simpa using h
  simp [check, bind, Except.bind, this]

/-- Two elements cannot be written to the three elements `0, 1, 2` of a dataset of 4. -/
example : h5WriteSlice false [.rng 0 3 1] [2] [7, 8] (⟨[4] ++ tailLen false, [0, 1, 2, 3], false⟩ : Dataset Int) = .error .runtime := by
  refine C37_write_shape_rejected [4] false _ _ [.rng 0 3 1] [2] [3] ?_ ?_ ?_ ?_ ?_ rfl (by decide)
  all_goals simp [Small, Fits, Inside, expand, expandArg, SliceShape, Plain, IsCount, stop, ArgInside]
  intro k n _ h h0 h1
  have := (h k h0).mp h1
  omega

end Nda.H5
