import Mathlib.Data.Matrix.Mul
import Mathlib.Data.Real.Basic
import Mathlib.Analysis.Real.Sqrt

/-! Specification side of the conjugate gradient method (C80): the points it may return, described without the
algorithm. -/

namespace Ellalgo
open Matrix

variable {n : Nat}

/-- `d` is a combination of `r, A r, …, A^(k-1) r` -/
def InKrylov (A : Matrix (Fin n) (Fin n) ℝ) (r : Fin n → ℝ) (k : Nat) (d : Fin n → ℝ) : Prop :=
  ∃ c : Fin k → ℝ, d = ∑ i, c i • ((A ^ (i : Nat)) *ᵥ r)

/-- the quadratic function whose minimiser solves `A y = b` -/
def energy (A : Matrix (Fin n) (Fin n) ℝ) (b y : Fin n → ℝ) : ℝ := y ⬝ᵥ (A *ᵥ y) - 2 * (b ⬝ᵥ y)

/-- `x` has the least energy among all points that differ from `x0` by a combination of `r, A r, …, A^(k-1) r`, where
`r = b - A x0` -/
def KrylovBest (A : Matrix (Fin n) (Fin n) ℝ) (b x0 : Fin n → ℝ) (k : Nat) (x : Fin n → ℝ) : Prop :=
  InKrylov A (b - A *ᵥ x0) k (x - x0) ∧
  ∀ y, InKrylov A (b - A *ᵥ x0) k (y - x0) → energy A b x ≤ energy A b y

/-- Euclidean norm of the residual of `x` -/
noncomputable def resNorm (A : Matrix (Fin n) (Fin n) ℝ) (b x : Fin n → ℝ) : ℝ :=
  Real.sqrt ((b - A *ᵥ x) ⬝ᵥ (b - A *ᵥ x))

end Ellalgo
