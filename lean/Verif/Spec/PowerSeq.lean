import Verif.Spec.Power
import Mathlib.Analysis.Real.Sqrt

/-! Specification side of property C79: the mathematical sequence behind the power iterations. -/

namespace Ellalgo
open Matrix

variable {n : Nat}

/-- the Rayleigh quotient of `A^k x` -/
noncomputable def rayAt (A : Matrix (Fin n) (Fin n) ℝ) (x : Fin n → ℝ) (k : Nat) : ℝ :=
  (((A ^ k) *ᵥ x) ⬝ᵥ (A *ᵥ ((A ^ k) *ᵥ x))) / (((A ^ k) *ᵥ x) ⬝ᵥ ((A ^ k) *ᵥ x))

/-- `A^k x` scaled to Euclidean norm one -/
noncomputable def dirAt (A : Matrix (Fin n) (Fin n) ℝ) (x : Fin n → ℝ) (k : Nat) : Fin n → ℝ :=
  (Real.sqrt (((A ^ k) *ᵥ x) ⬝ᵥ ((A ^ k) *ᵥ x)))⁻¹ • ((A ^ k) *ᵥ x)

/-- `A^k x` scaled to 1-norm one -/
noncomputable def dir1At (A : Matrix (Fin n) (Fin n) ℝ) (x : Fin n → ℝ) (k : Nat) : Fin n → ℝ :=
  (norm1 ((A ^ k) *ᵥ x))⁻¹ • ((A ^ k) *ᵥ x)

/-- `niter` is the first `j < m` with `P j`, or `m` if there is none -/
def FirstBelow (P : Nat → Prop) (m niter : Nat) : Prop :=
  (niter < m ∧ P niter ∧ ∀ j, j < niter → ¬ P j) ∨ (niter = m ∧ ∀ j, j < m → ¬ P j)

/-- two vectors agree up to sign within `tol` in the 1-norm -/
def CloseUpToSign (tol : ℝ) (v w : Fin n → ℝ) : Prop := norm1 (v - w) ≤ tol ∨ norm1 (v + w) ≤ tol

/-- squared tangent of the angle between `x` and the unit vector `u` -/
noncomputable def tanSq (u x : Fin n → ℝ) : ℝ := (x ⬝ᵥ x - (u ⬝ᵥ x) ^ 2) / (u ⬝ᵥ x) ^ 2

end Ellalgo
