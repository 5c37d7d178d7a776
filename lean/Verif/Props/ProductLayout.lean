import Verif.Props.Blas
/-! # C41: the memory order of a product -/
namespace Nda.Blas
open Nda LayoutTransforms Assign Loops Matrix Nda.Spec Nda.Perm
variable {α : Type}

/-- **C41.** The product of two matrices is in Fortran order exactly when both operands are plain matrices (not lazy
conjugates) in Fortran order; it is dense, in C order otherwise (matmul.hpp:60-64). -/
theorem C41_result_order [CommSemiring α] [DecidableEq α] (cj : α → α) (junk : α) (x y : Mat) (rx ry : Bool) (n0 n1 n2 : Int) (p0 : 0 < n0)
    (p1 : 0 < n1) (p2 : 0 < n2) (b0 : n0 < 2147483648) (b1 : n1 < 2147483648) (b2 : n2 < 2147483648) (mem : List α) (A B : Int → Int → α)
    (hl : OperandOK cj (.mat x rx) n0 n1 mem A) (hr : OperandOK cj (.mat y ry) n1 n2 mem B) :
    ∃ res mem', matmul cj junk (.mat x rx) (.mat y ry) mem = .ok (res, mem') ∧
      (res.lay.so, res.lay.str) =
        if x.conj = false ∧ y.conj = false ∧ x.v.lay.so = [1, 0] ∧ y.v.lay.so = [1, 0] then ([1, 0], [1, n0]) else ([0, 1], [n2, 1]) := by
  obtain ⟨res, mem', f, e, -, hL, ho⟩ := matmul_lmat cj junk (.mat x rx) (.mat y ry) n0 n1 n2 p0 p1 p2 b0 b1 b2 mem A B hl hr
  refine ⟨res, mem', e, ?_⟩
  obtain ⟨hx1, hx2, -⟩ := hl
  obtain ⟨hy1, hy2, -⟩ := hr
  obtain ⟨fx, ldx, lx, -⟩ := hx1.lmat hx2
  obtain ⟨fy, ldy, ly, -⟩ := hy1.lmat hy2
  rw [hL.so, hL.str]
  simp only [resultOrder, Operand.order, Operand.policyOrder, lx.so, ly.so] at ho ⊢
  cases hxc : x.conj <;> cases hyc : y.conj <;> cases fx <;> cases fy <;> cases f <;> simp [hxc, hyc] at ho ⊢

/-- Fortran order times Fortran order; a conjugate. -/
example : ((matmul id (9 : Int) (.mat ⟨⟨0, ⟨[2, 1], [1, 2], [1, 0], [0, 0], .contiguous⟩⟩, false⟩ true)
      (.mat ⟨⟨2, ⟨[1, 2], [1, 1], [1, 0], [0, 0], .contiguous⟩⟩, false⟩ true) [1, 2, 3, 4]).toOption.map (fun r => (r.1.lay.so, r.1.lay.str)),
    (matmul id (9 : Int) (.mat ⟨⟨0, ⟨[2, 1], [1, 2], [1, 0], [0, 0], .contiguous⟩⟩, false⟩ true)
      (.mat ⟨⟨2, ⟨[1, 2], [1, 1], [1, 0], [0, 0], .contiguous⟩⟩, true⟩ true) [1, 2, 3, 4]).toOption.map (fun r => (r.1.lay.so, r.1.lay.str))) =
    (some ([1, 0], [1, 2]), some ([0, 1], [2, 1])) := by decide +kernel

end Nda.Blas
