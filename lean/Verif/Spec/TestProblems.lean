import Verif.Spec.Mat
import Verif.Model.CuttingPlane
import Mathlib.Analysis.SpecialFunctions.Exp
import Mathlib.Analysis.SpecialFunctions.Sqrt

/-! The problems behind the oracles in `tests/example2_tests.rs` and `tests/quasicvx2_tests.rs`. -/

namespace Ellalgo

/-- `x + y ≤ 3`, `-x + y + 1 ≤ 0` (tests/example2_tests.rs:3-5) -/
def ex2K : Set (Fin 2 → ℝ) := {z | z 0 + z 1 ≤ 3 ∧ -z 0 + z 1 + 1 ≤ 0}

/-- `exp x ≤ y`, `y ≥ 0`, `x ≥ 0` (tests/quasicvx2_tests.rs:3-6; the comments there say `y > 0` and `x > 0`, the code tests
`-y > 0.0` and `-x > 0.0`) -/
def qcvx2F : Set (Fin 2 → ℝ) := {z | Real.exp (z 0) ≤ z 1 ∧ 0 ≤ z 1 ∧ 0 ≤ z 0}

/-- the objective `√x / y` -/
noncomputable def qcvx2Obj (z : Fin 2 → ℝ) : ℝ := √(z 0) / z 1

/-- The oracle `orc` with a tripwire: a query at a point outside `P` panics.  A run with the tripwire that does not panic is
a run of `orc` that never leaves `P`. -/
def OracleOptim.onlyAt {Ω X T α : Type} (P : X → Bool) (orc : OracleOptim Ω X T α) : OracleOptim Ω X T α :=
  ⟨fun w x γ => if P x then orc.assess w x γ else .panic⟩

end Ellalgo
