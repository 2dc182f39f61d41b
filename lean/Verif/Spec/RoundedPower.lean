import Verif.Spec.StableFl
import Verif.Spec.Power

/-! Vocabulary for the power iterations in rounded arithmetic. -/

namespace Ellalgo
open Matrix
variable {n : Nat}

/-- the matrix of absolute values -/
def absMat (A : Matrix (Fin n) (Fin n) ℝ) : Matrix (Fin n) (Fin n) ℝ := of fun i j => |A i j|

/-- the Euclidean norm -/
noncomputable def norm2 (v : Fin n → ℝ) : ℝ := √(v ⬝ᵥ v)

/-- What the caller of a power iteration gets in rounded arithmetic: the vector `x` has Euclidean norm one up to rounding, the
value `l` is its Rayleigh quotient up to rounding, the count does not exceed the allowed number of iterations. -/
structure FlPowerAnswer (u : ℝ) (A : Matrix (Fin n) (Fin n) ℝ) (maxIters : Nat) (l : ℝ) (niter : Nat) (x : Fin n → ℝ) :
    Prop where
  unit : Near u (2 * n + 10) (x ⬝ᵥ x) 1
  value : |l - x ⬝ᵥ (A *ᵥ x)| ≤ ((1 + u) ^ (2 * n + 2) - 1) * absQuad A x
  count : niter ≤ maxIters

/-- What `power_iteration3` gives in rounded arithmetic: `l` is, up to rounding, the Rayleigh quotient of a vector `y`, and the
vector `x` left behind is `y` itself or `y` normalised. -/
structure FlPower3Answer (u : ℝ) (A : Matrix (Fin n) (Fin n) ℝ) (maxIters : Nat) (l : ℝ) (niter : Nat) (x y : Fin n → ℝ) :
    Prop where
  value : |l - y ⬝ᵥ (A *ᵥ y) / (y ⬝ᵥ y)| ≤ ((1 + u) ^ (2 * n + 3) / (1 - u) ^ (2 * n + 10) - 1) * (absQuad A y / (y ⬝ᵥ y))
  same : x = y ∨ ∃ c, 0 < c ∧ ∀ i, |x i - c * y i| ≤ u * |c * y i|
  unit : niter < maxIters → Near u (2 * n + 10) (x ⬝ᵥ x) 1

end Ellalgo
