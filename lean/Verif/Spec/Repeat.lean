import Verif.Spec.Cuts

/-! The same cut again and again. -/

namespace Ellalgo

/-- How far the ellipsoid reaches in the direction of the gradient (`τ = √(κ gᵀMg)`) after `k` times the same single cut
of offset `β` in dimension `n`, if it was `τ` at first: each cut leaves `n/(n+1)` of the part `τ - β` beyond the plane.
Closed form of `τ_{k+1} = n/(n+1) (τ_k - β)`. -/
noncomputable def reach (n : Nat) (τ β : ℝ) (k : Nat) : ℝ := ((n : ℝ) / (n + 1)) ^ k * (τ + n * β) - n * β

/-- The run stops here: no point of the ellipsoid satisfies the cut, or the ellipsoid is smaller than the tolerance. -/
def stopsAt (β tol τ : ℝ) : Prop := τ < β ∨ τ ^ 2 < tol

/-- `k` is the number of iterations of a run of at most `m` that stops the first time it meets `P`. -/
def FirstStop (P : Nat → Prop) (m k : Nat) : Prop := k ≤ m ∧ (∀ i < k, ¬ P i) ∧ (k < m → P k)

end Ellalgo
