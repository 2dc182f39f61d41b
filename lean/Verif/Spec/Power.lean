import Verif.Spec.Mat
import Mathlib.LinearAlgebra.Matrix.ToLin

/-! Specification side of the power iteration properties. -/

namespace Ellalgo
open Matrix

/-- What the caller of a power iteration gets: the vector `xf` left in `x` is a unit vector in the direction of
`A^k x0`, where `k` is the number of multiplications implied by the returned count `niter`; the returned value
`l` is its Rayleigh quotient; the count does not exceed the allowed number of iterations. -/
structure PowerAnswer {n : Nat} (A : Matrix (Fin n) (Fin n) ℝ) (x0 : Fin n → ℝ) (maxIters : Nat) (l : ℝ)
    (niter : Nat) (xf : Fin n → ℝ) : Prop where
  unit : xf ⬝ᵥ xf = 1
  value : l = xf ⬝ᵥ (A *ᵥ xf)
  count : niter ≤ maxIters
  direction : ∃ c : ℝ, 0 < c ∧ xf = c • ((A ^ (min (niter + 1) maxIters)) *ᵥ x0)

/-- the 1-norm of a vector -/
def norm1 {n : Nat} (v : Fin n → ℝ) : ℝ := ∑ i, |v i|

end Ellalgo
