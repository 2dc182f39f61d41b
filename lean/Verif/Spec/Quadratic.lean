import Verif.Spec.Honest
import Verif.Spec.Ellipsoid

/-! Oracles that work towards a goal, and quadratic objectives. -/

namespace Ellalgo
open Matrix

/-- An optimisation oracle that protects the points of `K` until the goal is met.  It never panics; the goal, once met by
`γ`, stays met; and an answer that does not meet it has a gradient of norm at least `G > 0` and a cut that every point of
`K` satisfies: the central cut if an improvement was reported, the bias cut (`beta ≥ 0`) otherwise.  Once the goal is met
the answers are arbitrary (of the right shape). -/
def KeepsUntil {Ω T : Type} [Cut T] (n : Nat) (orc : OracleOptim Ω (Arr ℝ) T ℝ) (I : Ω → ℝ → Prop)
    (K : Set (Fin n → ℝ)) (G : ℝ) (Goal : ℝ → Prop) : Prop :=
  ∀ w x γ, I w γ → x.IsVecShape n → ∃ g c shrunk γ' w',
    orc.assess w x γ = .ok (((g, c), shrunk), γ', w') ∧ I w' γ' ∧ (Goal γ → Goal γ') ∧ g.IsVecShape n ∧
    (Goal γ' ∨ (g.toVec n ≠ 0 ∧ G ^ 2 ≤ normSq (g.toVec n) ∧
      (shrunk = true → ∀ y ∈ K, Cut.Sat .central c (g.toVec n ⬝ᵥ (y - x.toVec n))) ∧
      (shrunk = false → 0 ≤ Cut.lo c ∧ ∀ y ∈ K, Cut.Sat .bias c (g.toVec n ⬝ᵥ (y - x.toVec n)))))

/-- the objective `∑ a_i (x_i - t_i)²` -/
def quadVal {n : Nat} (a t x : Fin n → ℝ) : ℝ := ∑ i, a i * (x i - t i) ^ 2

/-- An oracle for "minimise `∑ a_i (x_i - t_i)²`" as written in the tests: the gradient is the true one, the offset is always
the value `f(x)` itself (not `f(x) - γ`), and an improvement is reported exactly when `f(x) < γ`. -/
def Quadratic {Ω : Type} (n : Nat) (orc : OracleOptim Ω (Arr ℝ) (SingleCut ℝ) ℝ) (I : Ω → Prop) (a t : Fin n → ℝ) : Prop :=
  ∀ w x γ, I w → x.IsVecShape n → ∃ g shrunk γ' w',
    orc.assess w x γ = .ok (((g, ⟨quadVal a t (x.toVec n)⟩), shrunk), γ', w') ∧ I w' ∧ g.IsVecShape n ∧
    (∀ i, g.toVec n i = 2 * a i * (x.toVec n i - t i)) ∧
    (shrunk = true ↔ quadVal a t (x.toVec n) < γ) ∧ γ' = min γ (quadVal a t (x.toVec n))

end Ellalgo
