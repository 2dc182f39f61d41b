import Verif.Spec.EllOps

/-! Numbers that are not finite, and one-dimensional search spaces.  `NonFiniteLaws B` states facts every IEEE-754 arithmetic
(hence `f64`) has when `B a` means "`a` is an infinity or a NaN": such a value makes every sum, difference, product and square
root it enters such a value again, as well as every quotient whose dividend it is, and so does a division by zero.  (A quotient
whose *divisor* is infinite may be finite.)  Nothing else about the arithmetic is assumed: no rounding rule, no order. -/

namespace Ellalgo

/-- `B` are the values that are not finite numbers -/
structure NonFiniteLaws {α : Type} [Scalar α] (B : α → Prop) : Prop where
  add_left {a : α} (h : B a) (b : α) : B (a + b)
  add_right (a : α) {b : α} (h : B b) : B (a + b)
  sub_left {a : α} (h : B a) (b : α) : B (a - b)
  sub_right (a : α) {b : α} (h : B b) : B (a - b)
  mul_left {a : α} (h : B a) (b : α) : B (a * b)
  mul_right (a : α) {b : α} (h : B b) : B (a * b)
  div_left {a : α} (h : B a) (b : α) : B (a / b)
  sqrt {a : α} (h : B a) : B (Scalar.sqrt a)
  /-- a quotient by a number that equals zero -/
  div_zero (a : α) {b : α} (h : Scalar.beq b 0 = true) : B (a / b)
  /-- `1 * 1 - 1` is computed exactly -/
  one_sq : Scalar.beq (nat 1 * nat 1 - 1) (0 : α) = true

/-- no coordinate of the array is a finite number -/
def Arr.NonFinite {α : Type} (B : α → Prop) (a : Arr α) : Prop := ∀ v ∈ a.data, B v

/-- An `Ell` of dimension one, with the strategy constants of dimension one: what `Ell::new`, `new_with_scalar` and
`new_with_matrix` build from a centre of length one and a `1 × 1` matrix, and what every update keeps. -/
def Ell.OneDim {α : Type} [Scalar α] (e : Ell α) : Prop := e.Shaped 1 ∧ e.helper.helper = EllCalcCore.new (nat 1)
/-- same for `EllStable` -/
def EllStable.OneDim {α : Type} [Scalar α] (e : EllStable α) : Prop := e.Shaped 1 ∧ e.helper.helper = EllCalcCore.new (nat 1)

/-- A cut type whose strategies use the dimension constant `n² / (n² - 1)` for the update kind `k`: a single cut always, a cut
with two planes unless both planes bound a central cut. -/
class ScaledCut (T : Type) where
  scaled : UpdateKind → T → Prop

instance {α : Type} : ScaledCut (SingleCut α) where
  scaled _ _ := True
instance {α : Type} : ScaledCut (ParallelCut α) where
  scaled k c := k = .central → c.beta1 = none

end Ellalgo
