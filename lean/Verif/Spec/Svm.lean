import Verif.Spec.Mat
import Verif.Spec.Ellipsoid

/-! Linear classifiers, in textbook form. -/

namespace Ellalgo
open Matrix

/-- margin `yᵢ (wᵀxᵢ + b)` of sample `i` for the classifier `z = (w, b)` -/
def svmMargin {m n : Nat} (X : Matrix (Fin m) (Fin n) ℝ) (y : Fin m → ℤ) (z : Fin (n + 1) → ℝ) (i : Fin m) : ℝ :=
  (y i : ℝ) * (∑ j : Fin n, X i j * z j.castSucc + z (Fin.last n))

/-- classifiers that separate the data with margin at least 1 -/
def svmSep {m n : Nat} (X : Matrix (Fin m) (Fin n) ℝ) (y : Fin m → ℤ) : Set (Fin (n + 1) → ℝ) :=
  {z | ∀ i, 1 ≤ svmMargin X y z i}

end Ellalgo
