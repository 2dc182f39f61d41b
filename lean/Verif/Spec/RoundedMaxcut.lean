import Verif.Spec.RoundedSvm
import Verif.Spec.Maxcut
import Verif.Model.Maxcut

/-! What rounding can do to the weight of a cut. -/

namespace Ellalgo
variable {u : ℝ} {R : Rounding u} {n : Nat}

/-- the oracle holds an `n × n` matrix of rounded numbers -/
structure MaxcutOracle.FlFor (o : MaxcutOracle (Fl R)) (n : Nat) : Prop where
  weights : o.weights.IsMatShape n n
  size : o.n = n

/-- `((1+u)^(n²) - 1)` times the sum of the absolute weights of the crossing edges -/
noncomputable def cutErr (u : ℝ) (W : Matrix (Fin n) (Fin n) ℝ) (x : Fin n → ℝ) : ℝ :=
  ((1 + u) ^ (n * n) - 1) * cutWeight (fun i j => |W i j|) x

end Ellalgo
