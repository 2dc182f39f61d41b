import Verif.Spec.Repeat
import Verif.Model.CpTests

/-! The problems behind `tests/cutting_plane_tests.rs`. -/

namespace Ellalgo

/-- `x + y ≤ 3` -/
def cptHalf : Set (Fin 2 → ℝ) := {z | z 0 + z 1 ≤ 3}

/-- `x ≤ 1`, `y ≤ 1` and value at least `γ` -/
def cptBox (γ : ℝ) : Set (Fin 2 → ℝ) := {z | z 0 ≤ 1 ∧ z 1 ≤ 1 ∧ γ ≤ z 0 + z 1}

/-- the rounded point `(x.round(), y.round())` -/
noncomputable def rounded (x : Fin 2 → ℝ) : Fin 2 → ℝ := ![Scalar.round (x 0), Scalar.round (x 1)]

/-- The feasibility oracle inside an optimisation oracle at the value `γ`: what it reports as an improvement is accepted. -/
def OracleOptim.feasAt {Ω X T α : Type} (orc : OracleOptim Ω X T α) (γ : α) : OracleFeas Ω X T α where
  assess w x := do
    let ((cut, shrunk), _, w) ← orc.assess w x γ
    .ok (if shrunk then none else some cut, w)
  update w _ := .ok w

end Ellalgo
