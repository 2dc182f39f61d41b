import Verif.Model.Lmi
import Verif.Spec.Rounded

/-! The exact matrices behind an LMI oracle that computes with rounding. -/

namespace Ellalgo
open Matrix
variable {u : ℝ} {R : Rounding u}

/-- the `k`-th matrix of the list, as a real matrix -/
noncomputable def flMatAt (n : Nat) (fs : List (Arr (Fl R))) (k : Nat) : Matrix (Fin n) (Fin n) ℝ :=
  (fs.getD k (Arr.new 0)).flMat n

/-- `Σ_k x_k F_k`, exactly -/
noncomputable def flLinMat {d : Nat} (n : Nat) (fs : List (Arr (Fl R))) (x : Fin d → ℝ) : Matrix (Fin n) (Fin n) ℝ :=
  ∑ k, x k • flMatAt n fs k

/-- `B - Σ_k x_k F_k`, exactly -/
noncomputable def flLmiMat {d : Nat} (n : Nat) (fs : List (Arr (Fl R))) (b : Arr (Fl R)) (x : Fin d → ℝ) :
    Matrix (Fin n) (Fin n) ℝ := b.flMat n - flLinMat n fs x

/-- size of the terms that make up entry `(i, j)` of `Σ_k x_k F_k` -/
noncomputable def flLinSize {d : Nat} (n : Nat) (fs : List (Arr (Fl R))) (x : Fin d → ℝ) (i j : Fin n) : ℝ :=
  ∑ k, |x k| * |flMatAt n fs k i j|

/-- the oracle's data: `d` symmetric `n × n` matrices -/
def FlSymMats (d n : Nat) (fs : List (Arr (Fl R))) : Prop :=
  fs.length = d ∧ ∀ f ∈ fs, f.IsMatShape n n ∧ (f.flMat n).IsSymm

/-- the manager of an oracle for `n × n` matrices, in any state -/
def LDLTMgr.Sized {α : Type} (m : LDLTMgr α) (n : Nat) : Prop :=
  m.ndim = n ∧ m.storage.IsMatShape n n ∧ m.wit.IsVecShape n

/-- an LMI oracle for the matrices `fs`, `b`, in any state: as left by its constructor or by earlier queries -/
def LMIOracle.HasData (n : Nat) (fs : List (Arr (Fl R))) (b : Arr (Fl R)) (o : LMIOracle (Fl R)) : Prop :=
  o.matF = fs ∧ o.matB = b ∧ o.mgr.Sized n

end Ellalgo
