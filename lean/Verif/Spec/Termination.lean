import Verif.Spec.Honest

/-! Specification for C78: oracles with bounded gradients, and the number of iterations after which the tolerance stops a run. -/

namespace Ellalgo
open Matrix

variable {Ω T : Type} [Cut T]

/-- A feasibility oracle that never panics and whose cuts have a gradient of norm at most `L` and an offset `beta ≥ 0`.
Nothing is said about which points the cuts remove. -/
def BoundedFeas (n : Nat) (orc : OracleFeas Ω (Arr ℝ) T ℝ) (I : Ω → Prop) (L : ℝ) : Prop :=
  ∀ w x, I w → x.IsVecShape n → ∃ r w', orc.assess w x = .ok (r, w') ∧ I w' ∧
    ∀ g c, r = some (g, c) → g.IsVecShape n ∧ normSq (g.toVec n) ≤ L ^ 2 ∧ 0 ≤ Cut.lo c

/-- The same for an optimisation oracle; an answer that reports an improvement leads to a central cut, whose offset is not
used. -/
def BoundedOptim (n : Nat) (orc : OracleOptim Ω (Arr ℝ) T ℝ) (I : Ω → ℝ → Prop) (L : ℝ) : Prop :=
  ∀ w x γ, I w γ → x.IsVecShape n → ∃ g c shrunk γ' w',
    orc.assess w x γ = .ok (((g, c), shrunk), γ', w') ∧ I w' γ' ∧ g.IsVecShape n ∧ normSq (g.toVec n) ≤ L ^ 2 ∧
    (shrunk = false → 0 ≤ Cut.lo c)

/-- `4 n (n+1) ln (det (P + c I) / cⁿ)` with `c = tol / (32 n (n+1) L²)`, where `P = κ M` describes the initial ellipsoid -/
noncomputable def stopBound (n : Nat) (P : Matrix (Fin n) (Fin n) ℝ) (tol L : ℝ) : ℝ :=
  4 * n * (n + 1) * Real.log ((P + (tol / (32 * n * (n + 1) * L ^ 2)) • (1 : Matrix (Fin n) (Fin n) ℝ)).det /
    (tol / (32 * n * (n + 1) * L ^ 2)) ^ n)

/-- the better bound for oracles that answer with single cuts: `2 (n+1) ln (det (P + c I) / cⁿ)` with
`c = (n-1) tol / (4 (n+1) L²)` -/
noncomputable def stopBoundSingle (n : Nat) (P : Matrix (Fin n) (Fin n) ℝ) (tol L : ℝ) : ℝ :=
  2 * (n + 1) * Real.log ((P + ((n - 1) * tol / (4 * (n + 1) * L ^ 2)) • (1 : Matrix (Fin n) (Fin n) ℝ)).det /
    ((n - 1) * tol / (4 * (n + 1) * L ^ 2)) ^ n)

end Ellalgo
