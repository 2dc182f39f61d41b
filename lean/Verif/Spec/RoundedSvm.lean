import Verif.Spec.Rounded
import Verif.Spec.EllOps
import Verif.Spec.Svm
import Verif.Model.Svm

/-! What rounding can do to the margins of a linear classifier. -/

namespace Ellalgo
variable {u : ℝ} {R : Rounding u} {m n : Nat}

/-- the real matrix an `m × n` array of rounded numbers stands for -/
noncomputable def Arr.flRect (a : Arr (Fl R)) (m n : Nat) : Matrix (Fin m) (Fin n) ℝ := fun i j => (a.mat i j).val

/-- the oracle holds `m` samples with `n ≥ 1` features each and `m` labels that are floating-point numbers -/
structure SvmOracle.FlFor (o : SvmOracle (Fl R)) (m n : Nat) (y : Fin m → ℤ) : Prop where
  pos : 0 < n
  data : o.data.IsMatShape m n
  labels : o.labels = List.ofFn y
  nfeat : o.nfeat = n
  exact : ∀ i, R.Rep (y i)

/-- `((1+u)^(n+3) - 1) |y_i| (Σ_j |X_ij| |w_j| + |b|)`: a bound for the error of the computed margin of sample `i` -/
def svmErr (u : ℝ) (X : Matrix (Fin m) (Fin n) ℝ) (y : Fin m → ℤ) (z : Fin (n + 1) → ℝ) (i : Fin m) : ℝ :=
  ((1 + u) ^ (n + 3) - 1) * (|(y i : ℝ)| * (∑ j : Fin n, |X i j| * |z j.castSucc| + |z (Fin.last n)|))

end Ellalgo
