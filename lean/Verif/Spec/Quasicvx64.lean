import Verif.Model.Quasicvx
import Verif.Spec.Binary64Iter

/-! The quasiconvex example in IEEE `f64`: vocabulary.  The problem is to maximise `√x / y` subject to `exp x ≤ y`, in `a = √x` and `b = log y`:
maximise `a / exp b` subject to `a² ≤ b`. -/

namespace Ellalgo

section generic
variable {α : Type} [Scalar α]

/-- the constraint is not violated, as far as the computed value tells (quasicvx.rs:30, 34) -/
def QcvxKept (x : Arr α) : Prop := Scalar.gt (x.vec 0 * x.vec 0 - x.vec 1) 0 = false
/-- the value is not below `γ`, as far as the computed value tells (quasicvx.rs:31, 34) -/
def QcvxReached (x : Arr α) (γ : α) : Prop := Scalar.gt (-x.vec 0 + γ * Scalar.exp (x.vec 1)) 0 = false
/-- the value of a point, as computed (quasicvx.rs:48) -/
def qcvxValue (x : Arr α) : α := x.vec 0 / Scalar.exp (x.vec 1)

end generic

/-- zero or between 2⁻⁵⁰⁰ and 2⁵⁰⁰ in size -/
def Half64 (t : ℝ) : Prop := t = 0 ∨ ((2 : ℝ) ^ (-500 : ℤ) ≤ |t| ∧ |t| ≤ (2 : ℝ) ^ (500 : ℤ))

/-- a point `z` of ordinary size -/
structure QcvxTame (z : Fin 2 → ℝ) : Prop where
  root : Half64 (z 0)
  log : |z 1| ≤ 256

end Ellalgo
