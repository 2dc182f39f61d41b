import Verif.Model.TestOracles
import Verif.Spec.Mat

/-! Specification side of C74. -/

namespace Ellalgo
open Matrix

/-- A feasibility oracle that decides membership in `K`: it never panics, accepts exactly the points of `K`, and otherwise
returns a cut with `beta ≥ 0` that every point of `K` satisfies.  `I` is an invariant of its state. -/
def Decides {σ : Type} (n : Nat) (orc : OracleFeas σ (Arr ℝ) (SingleCut ℝ) ℝ) (I : σ → Prop) (K : Set (Fin n → ℝ)) : Prop :=
  ∀ w x, I w → x.IsVecShape n → ∃ r w', orc.assess w x = .ok (r, w') ∧ I w' ∧ (r = none ↔ x.toVec n ∈ K) ∧
    ∀ g b, r = some (g, b) → g.IsVecShape n ∧ 0 ≤ b.beta ∧ ∀ y ∈ K, g.toVec n ⬝ᵥ (y - x.toVec n) + b.beta ≤ 0

/-- `MyLmiOracle` in any state between two queries: the cost vector is `c` and the sub-oracles satisfy their invariants. -/
def MyLmi.For {σ : Type} (n : Nat) (c : Arr ℝ) (I1 I2 : σ → Prop) (o : MyLmi σ ℝ) : Prop :=
  o.c = c ∧ c.IsVecShape n ∧ I1 o.lmi1 ∧ I2 o.lmi2 ∧ -1 ≤ o.idx ∧ o.idx ≤ 2

end Ellalgo
