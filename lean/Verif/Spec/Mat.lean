import Verif.Lib.Rep
import Mathlib.Data.Matrix.Mul
import Mathlib.LinearAlgebra.Matrix.Notation
import Mathlib.LinearAlgebra.Matrix.Symmetric
import Mathlib.LinearAlgebra.Matrix.Hadamard

/-! Reading an `Arr` of reals as a Mathlib vector or matrix. -/

namespace Ellalgo

/-- the vector of the first `n` entries -/
def Arr.toVec (n : Nat) (a : Arr ℝ) : Fin n → ℝ := fun i => a.vec i
/-- the `r × c` matrix stored row-major -/
def Arr.toMat (r c : Nat) (a : Arr ℝ) : Matrix (Fin r) (Fin c) ℝ := Matrix.of fun i j => a.mat i j

theorem IsVec.toVec {a : Arr ℝ} {n : Nat} {v : Nat → ℝ} (h : IsVec a n v) : a.toVec n = fun i : Fin n => v i := by
  funext i; exact h.vec i.2

theorem IsMat.toMat {a : Arr ℝ} {r c : Nat} {m : Nat → Nat → ℝ} (h : IsMat a r c m) :
    a.toMat r c = Matrix.of fun (i : Fin r) (j : Fin c) => m i j := by
  ext i j; exact h.mat i.2 j.2

theorem sumTo_fin (n : Nat) (f : Nat → ℝ) : sumTo n f = ∑ i : Fin n, f i := by
  rw [sumTo_real, Finset.sum_range]

end Ellalgo
