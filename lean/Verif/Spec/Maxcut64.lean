import Verif.Spec.Oracles64
import Verif.Spec.RoundedMaxcut

/-! Cuts of graphs whose weights are `f64` numbers, chosen by a vector of `f64` numbers. -/

namespace Ellalgo
variable {n : Nat}

/-- `1` for a vertex whose entry is at least zero in the comparison of IEEE-754 (an infinity `+∞` and both zeros included), `-1` for
every other vertex (`-∞` and NaN included) -/
noncomputable def Arr.side64 (n : Nat) (x : Arr B64) : Fin n → ℝ := fun i => if Scalar.ge (x.vec i) 0 then 1 else -1

/-- the oracle holds an `n × n` matrix of finite numbers of size at most `2⁹⁶⁸` -/
structure MaxcutOracle.For64 (o : MaxcutOracle B64) (n : Nat) : Prop where
  weights : o.weights.IsMatShape n n
  size : o.n = n
  small : ∀ a ∈ o.weights.data, a.Small 968

/-- all weights are integers of size at most `w`, and `n² w ≤ 2⁵³` -/
def IntWeights (W : Matrix (Fin n) (Fin n) ℝ) (w : ℝ) : Prop :=
  (∀ i j, ∃ k : ℤ, W i j = k ∧ |(k : ℝ)| ≤ w) ∧ (n * n : ℕ) * w ≤ 2 ^ 53

/-- `2 ((1+u)^n - 1)` times the sum of the absolute weights of the crossing edges at vertex `i` -/
noncomputable def crossErr (u : ℝ) (W : Matrix (Fin n) (Fin n) ℝ) (x : Fin n → ℝ) (i : Fin n) : ℝ :=
  2 * (((1 + u) ^ n - 1) * crossingAt (fun i j => |W i j|) x i)

end Ellalgo
