import Verif.Model.Lmi
import Verif.Spec.Ldlt

/-! Specification side of the LMI properties. -/

namespace Ellalgo
open Matrix

/-- `fs` is a list of `d` symmetric `n × n` matrices. -/
def SymMats (d n : Nat) (fs : List (Arr ℝ)) : Prop :=
  fs.length = d ∧ ∀ f ∈ fs, f.IsMatShape n n ∧ (f.toMat n n).IsSymm

/-- the `k`-th matrix of the list -/
noncomputable def matAt {d : Nat} (n : Nat) (fs : List (Arr ℝ)) (k : Fin d) : Matrix (Fin n) (Fin n) ℝ :=
  (fs.getD k (Arr.new 0)).toMat n n

/-- `F(x) = Σ_k x_k F_k` -/
noncomputable def linMat {d : Nat} (n : Nat) (fs : List (Arr ℝ)) (x : Fin d → ℝ) : Matrix (Fin n) (Fin n) ℝ :=
  ∑ k, x k • matAt n fs k

/-- `B - Σ_k x_k F_k` -/
noncomputable def lmiMat {d : Nat} (n : Nat) (fs : List (Arr ℝ)) (b : Arr ℝ) (x : Fin d → ℝ) : Matrix (Fin n) (Fin n) ℝ :=
  b.toMat n n - linMat n fs x

/-- An LMI oracle in any state: the problem data `fs`, `b` and a manager of the right size. -/
def LMIOracle.For (n : Nat) (fs : List (Arr ℝ)) (b : Arr ℝ) (o : LMIOracle ℝ) : Prop :=
  o.matF = fs ∧ o.matB = b ∧ o.mgr.Ready n

/-- An `LMI0` oracle in any state. -/
def LMI0Oracle.For (n : Nat) (fs : List (Arr ℝ)) (o : LMI0Oracle ℝ) : Prop :=
  o.matF = fs ∧ o.mgr.Ready n

end Ellalgo
