import Verif.Spec.Rounded
import Verif.Spec.Stable
import Verif.Spec.EllOps

/-! Vocabulary for `EllStable` in rounded arithmetic. -/

namespace Ellalgo
open Matrix
variable {u : ℝ} {R : Rounding u}

/-- `x` and `y` agree up to `k` roundings: each is at least `(1 - u)ᵏ` times the other -/
def Near (u : ℝ) (k : ℕ) (x y : ℝ) : Prop := (1 - u) ^ k * y ≤ x ∧ (1 - u) ^ k * x ≤ y

/-- well-shaped, with an exactly diagonal matrix -/
structure EllStable.FlDiagonal (n : Nat) (s : EllStable (Fl R)) : Prop where
  shaped : s.Shaped n
  off : ∀ i j : Fin n, i ≠ j → s.mq.flMat n i j = 0

/-- an `EllStable` for dimension `n` that stands for an ellipsoid: diagonal with positive floating-point entries, `kappa > 0` -/
structure EllStable.FlPos (n : Nat) (s : EllStable (Fl R)) : Prop extends EllStable.FlDiagonal n s where
  diag : ∀ i : Fin n, 0 < s.mq.flMat n i i
  rep : ∀ i : Fin n, R.Rep (s.mq.flMat n i i)
  kappa : 0 < s.kappa.val
  helper : s.helper = EllCalc.new n

/-- the `EllStable` of real numbers with the same content -/
structure EllStable.Reads (n : Nat) (s : EllStable (Fl R)) (r : EllStable ℝ) : Prop where
  shaped : r.Shaped n
  mat : r.M n = s.mq.flMat n
  centre : r.c n = s.xc.flVec n
  kappa : r.kappa = s.kappa.val
  helper : r.helper = EllCalc.new n

end Ellalgo
