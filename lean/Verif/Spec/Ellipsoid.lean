import Verif.Spec.Mat
import Verif.Spec.EllOps
import Mathlib.LinearAlgebra.Matrix.PosDef
import Mathlib.LinearAlgebra.Matrix.NonsingularInverse

/-! The set an ellipsoid object stands for. -/

namespace Ellalgo
open Matrix

/-- `{x | (x - c)ᵀ M⁻¹ (x - c) ≤ κ}` -/
def ellipsoid {n : Nat} (M : Matrix (Fin n) (Fin n) ℝ) (κ : ℝ) (c : Fin n → ℝ) : Set (Fin n → ℝ) :=
  {x | (x - c) ⬝ᵥ (M⁻¹ *ᵥ (x - c)) ≤ κ}

/-- the shape matrix of an `Ell` -/
def Ell.M (n : Nat) (e : Ell ℝ) : Matrix (Fin n) (Fin n) ℝ := e.mq.toMat n n
/-- the centre of an `Ell` -/
def Ell.c (n : Nat) (e : Ell ℝ) : Fin n → ℝ := e.xc.toVec n
/-- the region an `Ell` stands for (documentation of `Ell`, ell.rs:5-7) -/
def Ell.region (n : Nat) (e : Ell ℝ) : Set (Fin n → ℝ) := ellipsoid (e.M n) e.kappa (e.c n)

/-- An `Ell` that represents a genuine ellipsoid in dimension `n ≥ 2`: well-shaped, `M` symmetric positive
definite, `κ > 0`, and the (private) helper is the one every constructor installs. -/
structure Ell.Valid (n : Nat) (e : Ell ℝ) : Prop where
  shaped : e.Shaped n
  dim : 2 ≤ n
  posDef : (e.M n).PosDef
  kappa : 0 < e.kappa
  helper : e.helper = EllCalc.new n

/-- squared volume of the ellipsoid, up to the constant (squared volume of the unit ball) -/
noncomputable def Ell.vol2 (n : Nat) (e : Ell ℝ) : ℝ := (e.kappa • e.M n).det

/-- `‖v‖²` -/
def normSq {n : Nat} (v : Fin n → ℝ) : ℝ := v ⬝ᵥ v

/-- closed Euclidean ball of squared radius `r²` -/
def ball {n : Nat} (p : Fin n → ℝ) (r : ℝ) : Set (Fin n → ℝ) := {x | normSq (x - p) ≤ r ^ 2}

end Ellalgo
