import Verif.Model.TestOracles
import Verif.Spec.Mat

/-! Specification side of C75: the portfolio problem. -/

namespace Ellalgo
open Matrix

/-- Portfolio data of `n` assets: expected returns `r`, risk matrix `R`, risk limit and budget. -/
structure Portfolio.Data (n : Nat) (p : Portfolio ℝ) (r : Fin n → ℝ) (R : Matrix (Fin n) (Fin n) ℝ) : Prop where
  returns_shape : p.expectedReturns.IsVecShape n
  returns : p.expectedReturns.toVec n = r
  risk_shape : p.riskMatrix.IsMatShape n n
  risk : p.riskMatrix.toMat n n = R

/-- The portfolios within budget and risk limit. -/
def Portfolio.Feasible {n : Nat} (p : Portfolio ℝ) (R : Matrix (Fin n) (Fin n) ℝ) (x : Fin n → ℝ) : Prop :=
  ∑ i, x i ≤ p.budget ∧ x ⬝ᵥ (R *ᵥ x) ≤ p.maxRisk

end Ellalgo
