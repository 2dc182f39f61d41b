import Verif.Model.TestOracles
import Verif.Spec.Binary64Iter
import Verif.Spec.Rounded
import Verif.Lib.Loop
import Verif.Spec.Profit64

/-! The portfolio example in IEEE `f64`: vocabulary. -/

namespace Ellalgo

section generic
variable {α : Type} [Scalar α]

/-- `n` expected returns and an `n` × `n` risk matrix -/
def Portfolio.Sized (p : Portfolio α) (n : Nat) : Prop := p.expectedReturns.IsVecShape n ∧ p.riskMatrix.IsMatShape n n

/-- the amount invested, as computed (portfolio_optimization.rs:30) -/
def Portfolio.spentOf (n : Nat) (x : Arr α) : α := sumTo n x.vec

/-- the risk, as computed: `n²` terms, row by row (portfolio_optimization.rs:41-46) -/
def Portfolio.riskOf (p : Portfolio α) (n : Nat) (x : Arr α) : α :=
  sumTo (n * n) fun k => x.vec (k / n) * p.riskMatrix.mat (k / n) (k % n) * x.vec (k % n)

/-- the return, as computed (portfolio_optimization.rs:57) -/
def Portfolio.returnOf (p : Portfolio α) (n : Nat) (x : Arr α) : α := sumTo n fun i => p.expectedReturns.vec i * x.vec i

/-- the budget and the risk limit are kept, as far as the computed values tell -/
def Portfolio.Keeps (p : Portfolio α) (n : Nat) (x : Arr α) : Prop :=
  Scalar.gt (Portfolio.spentOf n x - p.budget) 0 = false ∧ Scalar.gt (p.riskOf n x - p.maxRisk) 0 = false

end generic

/-- zero or between 2⁻¹⁰⁰⁰ and 2⁸⁰⁰ in size -/
def Mid64 (t : ℝ) : Prop := t = 0 ∨ ((2 : ℝ) ^ (-1000 : ℤ) ≤ |t| ∧ |t| ≤ (2 : ℝ) ^ (800 : ℤ))

/-- portfolio data of finite numbers -/
structure Portfolio.Finite64 (p : Portfolio B64) (n : Nat) : Prop where
  sized : p.Sized n
  returns : p.expectedReturns.AllFinite
  risk : p.riskMatrix.AllFinite
  budget : p.budget.Finite
  maxRisk : p.maxRisk.Finite

/-- a portfolio `z` of ordinary size for returns `r` and risk matrix `M`: holdings and all products evaluated are of ordinary size -/
structure PortfolioTame {n : Nat} (r : Fin n → ℝ) (M : Matrix (Fin n) (Fin n) ℝ) (z : Fin n → ℝ) : Prop where
  hold : ∀ i, |z i| ≤ (2 : ℝ) ^ (900 : ℤ)
  ret : ∀ i, Mid64 (r i * z i)
  half : ∀ i j, Mid64 (z i * M i j)
  risk : ∀ i j, Mid64 (z i * M i j * z j)

end Ellalgo
